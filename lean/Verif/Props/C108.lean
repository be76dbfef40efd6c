import Verif.Lemmas.Scale
import Verif.Props.C39_C40
import Verif.Props.C93

/-! # C108: the unit in which scores are measured does not matter -/

namespace PGMax

variable {κ : Type _} {vgs : List (VGroup κ)} {garbage : Garbage}

section
variable {α : Type _} [Field α] [LinearOrder α] [IsStrictOrderedRing α] {hist : List (AddArg α)} {st : FGState κ α}

/-- From messages in another unit to beliefs and decoded states. -/
theorem Compiled.scaled [DecidableEq κ] (h : Compiled vgs hist garbage st) {state state' : BPState α} {T T' : α} {bp bp' : BPFun κ α}
    (hbp : BP.create st state T = .ok bp) (hbp' : BP.create st state' T' = .ok bp') (a a' : BPArrays α) {c : α} (hc : 0 < c)
    (hm : a.ftovMsgs.length = st.totalFactorNumStates) (hm' : a'.ftovMsgs.length = st.totalFactorNumStates)
    (hev : a.evidence.length = st.numVarStates) (hev' : a'.evidence = a.evidence.map (c * ·))
    (hms : ∀ f i v s, IsEdge (graphOf vgs hist).allScopes f i v → s < v.n →
      readMsgs (graphOf vgs hist).allScopes a'.ftovMsgs f i s = c * readMsgs (graphOf vgs hist).allScopes a.ftovMsgs f i s) :
    a'.ftovMsgs = a.ftovMsgs.map (c * ·) ∧
    (∀ v start, st.varsToStarts v = some start → ∀ s < v.n,
      (bp'.flatBeliefs a')[start + s]? = ((bp.flatBeliefs a)[start + s]?).map (c * ·)) ∧
    ((∀ g ∈ vgs, g.Regular) → (∀ g ∈ vgs, g.Stated) → ∃ bs bs' rs, bp.getBeliefs a = .ok bs ∧ bp'.getBeliefs a' = .ok bs' ∧
      decodeMapStates bs = .ok rs ∧ decodeMapStates bs' = .ok rs) := by
  have hevl : a'.evidence.length = st.numVarStates := by rw [hev', List.length_map, hev]
  have hbel : ∀ v s, s < v.n →
      beliefOf (graphOf vgs hist).allScopes (readEv st.varsToStarts a'.evidence) (readMsgs (graphOf vgs hist).allScopes a'.ftovMsgs) v s
      = c * beliefOf (graphOf vgs hist).allScopes (readEv st.varsToStarts a.evidence) (readMsgs (graphOf vgs hist).allScopes a.ftovMsgs) v s := by
    intro v s hs
    rw [hev', readEv_scale]
    exact beliefOf_scale hms v s hs
  refine ⟨?_, ?_, ?_⟩
  · refine eq_of_read (scopes := (graphOf vgs hist).allScopes) (hm'.trans h.totalStates) ((List.length_map _).trans (hm.trans h.totalStates)) ?_
    intro f i v s he hs
    rw [readMsgs_scale]
    exact hms f i v s he hs
  · intro v start hv s hs
    rw [C34_flat h hbp a hm hev v start hv s hs, C34_flat h hbp' a' hm' hevl v start hv s hs]
    exact congrArg some (hbel v s hs)
  · intro hreg hst
    obtain ⟨bs, rs, e1, e2, e3, e4⟩ := C35_partial h hbp a hm hev hreg hst
    obtain ⟨bs', rs', f1, f2, f3, f4⟩ := C35_partial h hbp' a' hm' hevl hreg hst
    refine ⟨bs, bs', rs, e1, f1, e2, ?_⟩
    rw [f2]
    congr 1
    refine eq_of_keys (f3.trans e3.symm) ?_
    intro g r r' h1 h2
    have hg : g ∈ vgs := by rw [← e3]; exact List.mem_map_of_mem (f := Prod.fst) h2
    obtain ⟨objId, hb⟩ := h.vgroups.built g hg
    exact VGroup.Decodes.unique hb (f4 _ h1) ((e4 _ h2).scale hc (fun v _ s hs => hbel v s hs))

/-- **C108, partial, max-product.** Let log potentials, evidence and initial messages all be multiplied by `c > 0`. Then at temperature 0, with any damping, the
messages after any number of iterations and the beliefs are multiplied by `c`, and the decoded states are the same, provided that no message of the
first run is clipped in either unit up to then.
Missing: runs in which messages are clipped at -1000 (`C108_refuted`); what is not `Moderate` or `LogicalModerate`, and the size limits `Fits`; groups on which
decoding fails anyway (C35). -/
theorem C108_partial [DecidableEq κ] (h : Compiled vgs hist garbage st) {state : BPState α} {bp : BPFun κ α}
    (hbp : BP.create st state 0 = .ok bp) (env : Env α) (hfit : Fits env (graphOf vgs hist) (0 : α)) (a a' : BPArrays α) (n : Nat) (d c : α) (hc : 0 < c)
    (ha' : a' = ⟨a.logPotentials.map (c * ·), a.ftovMsgs.map (c * ·), a.evidence.map (c * ·)⟩)
    (hlp : a.logPotentials.length = st.logPotentials.length) (hev : a.evidence.length = st.numVarStates) (hm : a.ftovMsgs.length = st.totalFactorNumStates)
    (hmod : ∀ x, x = a ∨ x = a' → Moderate (graphOf vgs hist) x.logPotentials (readEv st.varsToStarts x.evidence) d)
    (hlmod : ∀ x, x = a ∨ x = a' → LogicalModerate (graphOf vgs hist) (readEv st.varsToStarts x.evidence))
    (hinit : ∀ x, x = a ∨ x = a' → ∀ f i v, IsEdge (graphOf vgs hist).allScopes f i v → ∃ s < v.n, -100000 ≤ readMsgs (graphOf vgs hist).allScopes x.ftovMsgs f i s)
    (hclip : ∀ k ≤ n, ∀ f i v s, IsEdge (graphOf vgs hist).allScopes f i v → s < v.n →
      -1000 < readMsgs (graphOf vgs hist).allScopes (bp.runBP env a k d).ftovMsgs f i s ∧ -1000 < c * readMsgs (graphOf vgs hist).allScopes (bp.runBP env a k d).ftovMsgs f i s) :
    (bp.runBP env a' n d).ftovMsgs = (bp.runBP env a n d).ftovMsgs.map (c * ·) ∧
    (∀ v start, st.varsToStarts v = some start → ∀ s < v.n,
      (bp.flatBeliefs (bp.runBP env a' n d))[start + s]? = ((bp.flatBeliefs (bp.runBP env a n d))[start + s]?).map (c * ·)) ∧
    ((∀ g ∈ vgs, g.Regular) → (∀ g ∈ vgs, g.Stated) → ∃ bs bs' rs, bp.getBeliefs (bp.runBP env a n d) = .ok bs ∧ bp.getBeliefs (bp.runBP env a' n d) = .ok bs' ∧
      decodeMapStates bs = .ok rs ∧ decodeMapStates bs' = .ok rs) := by
  subst ha'
  have hlp' : (a.logPotentials.map (c * ·)).length = st.logPotentials.length := by rw [List.length_map, hlp]
  have hev' : (a.evidence.map (c * ·)).length = st.numVarStates := by rw [List.length_map, hev]
  have hm' : (a.ftovMsgs.map (c * ·)).length = st.totalFactorNumStates := by rw [List.length_map, hm]
  have r1 := fun k => C37_partial h hbp env hfit a k d hlp hev hm (hmod a (.inl rfl)) (hlmod a (.inl rfl)) (hinit a (.inl rfl))
  have r2 := C37_partial h hbp env hfit ⟨a.logPotentials.map (c * ·), a.ftovMsgs.map (c * ·), a.evidence.map (c * ·)⟩ n d hlp' hev' hm'
    (hmod _ (.inr rfl)) (hlmod _ (.inr rfl)) (hinit _ (.inr rfl))
  simp only [tbRun_eq_sumRun, FactorGraph.factors_scale, readEv_scale, readMsgs_scale] at r1 r2
  have hsc := (graphOf vgs hist).factors_scopes a.logPotentials
  have key := sumRun_scale (factors := (graphOf vgs hist).factors a.logPotentials) (Φ := fun _ => maxOf 0) (Φ' := fun _ => maxOf 0) hc
    (fun f l hl => maxOf_scale hc hl) (h.rowsFit_mem _) (readEv st.varsToStarts a.evidence) d (readMsgs (graphOf vgs hist).allScopes a.ftovMsgs) n (by
      rw [hsc]
      intro k hk f i v s he hs
      rw [← r1 k f i v s he hs]
      exact hclip k hk f i v s he hs)
  rw [hsc] at key
  refine h.scaled hbp hbp _ _ hc (h.run_read hbp env hfit a d hlp hev n hm).1 (h.run_read hbp env hfit _ d hlp' hev' n hm').1 hev rfl ?_
  intro f i v s he hs
  rw [r2 f i v s he hs, r1 n f i v s he hs]
  exact key f i v s he hs

end

section
variable {hist : List (AddArg ℝ)} {st : FGState κ ℝ}

/-- **C108, partial, sum-product.** As `C108_partial`, at positive temperatures: `T` in the first unit is `c T` in the second.
Missing: as there, except `LogicalModerate`. -/
theorem C108_sum_partial [DecidableEq κ] (h : Compiled vgs hist garbage st) {state : BPState ℝ} {T c : ℝ} (hT : 0 < T) (hc : 0 < c) {bp bp' : BPFun κ ℝ}
    (hbp : BP.create st state T = .ok bp) (hbp' : BP.create st state (c * T) = .ok bp') (env : Env ℝ) (hexp : env.exp = Real.exp) (hlog : env.log = Real.log)
    (hfit : Fits env (graphOf vgs hist) T) (a a' : BPArrays ℝ) (n : Nat) (d : ℝ)
    (ha' : a' = ⟨a.logPotentials.map (c * ·), a.ftovMsgs.map (c * ·), a.evidence.map (c * ·)⟩)
    (hlp : a.logPotentials.length = st.logPotentials.length) (hev : a.evidence.length = st.numVarStates) (hm : a.ftovMsgs.length = st.totalFactorNumStates)
    (hmod : ∀ x, x = a ∨ x = a' → Moderate (graphOf vgs hist) x.logPotentials (readEv st.varsToStarts x.evidence) d)
    (hinit : ∀ x, x = a ∨ x = a' → ∀ f i v, IsEdge (graphOf vgs hist).allScopes f i v → ∃ s < v.n, -100000 ≤ readMsgs (graphOf vgs hist).allScopes x.ftovMsgs f i s)
    (hclip : ∀ k ≤ n, ∀ f i v s, IsEdge (graphOf vgs hist).allScopes f i v → s < v.n →
      -1000 < readMsgs (graphOf vgs hist).allScopes (bp.runBP env a k d).ftovMsgs f i s ∧ -1000 < c * readMsgs (graphOf vgs hist).allScopes (bp.runBP env a k d).ftovMsgs f i s) :
    (bp'.runBP env a' n d).ftovMsgs = (bp.runBP env a n d).ftovMsgs.map (c * ·) ∧
    (∀ v start, st.varsToStarts v = some start → ∀ s < v.n,
      (bp'.flatBeliefs (bp'.runBP env a' n d))[start + s]? = ((bp.flatBeliefs (bp.runBP env a n d))[start + s]?).map (c * ·)) ∧
    ((∀ g ∈ vgs, g.Regular) → (∀ g ∈ vgs, g.Stated) → ∃ bs bs' rs, bp.getBeliefs (bp.runBP env a n d) = .ok bs ∧ bp'.getBeliefs (bp'.runBP env a' n d) = .ok bs' ∧
      decodeMapStates bs = .ok rs ∧ decodeMapStates bs' = .ok rs) := by
  subst ha'
  have hcT : 0 < c * T := mul_pos hc hT
  have hfit' : Fits env (graphOf vgs hist) (c * T) := ⟨hfit.seg, fun e => absurd e hcT.ne'⟩
  have hlp' : (a.logPotentials.map (c * ·)).length = st.logPotentials.length := by rw [List.length_map, hlp]
  have hev' : (a.evidence.map (c * ·)).length = st.numVarStates := by rw [List.length_map, hev]
  have hm' : (a.ftovMsgs.map (c * ·)).length = st.totalFactorNumStates := by rw [List.length_map, hm]
  have r1 := fun k => h.run_sum hT hbp env hexp hlog hfit a k d hlp hev hm (hmod a (.inl rfl)) (hinit a (.inl rfl))
  have r2 := h.run_sum hcT hbp' env hexp hlog hfit' ⟨a.logPotentials.map (c * ·), a.ftovMsgs.map (c * ·), a.evidence.map (c * ·)⟩ n d hlp' hev' hm'
    (hmod _ (.inr rfl)) (hinit _ (.inr rfl))
  simp only [FactorGraph.factors_scale, readEv_scale, readMsgs_scale] at r1 r2
  have hsc := (graphOf vgs hist).factors_scopes a.logPotentials
  have key := sumRun_scale (factors := (graphOf vgs hist).factors a.logPotentials) (Φ := codeSummary (graphOf vgs hist).tables.length T)
    (Φ' := codeSummary (graphOf vgs hist).tables.length (c * T)) hc
    (fun f l hl => codeSummary_scale hc _ f hl) (h.rowsFit_mem _) (readEv st.varsToStarts a.evidence) d (readMsgs (graphOf vgs hist).allScopes a.ftovMsgs) n (by
      rw [hsc]
      intro k hk f i v s he hs
      rw [← r1 k f i v s he hs]
      exact hclip k hk f i v s he hs)
  rw [hsc] at key
  refine h.scaled hbp hbp' _ _ hc (h.run_read hbp env hfit a d hlp hev n hm).1 (h.run_read hbp' env hfit' _ d hlp' hev' n hm').1 hev rfl ?_
  intro f i v s he hs
  rw [r2 f i v s he hs, r1 n f i v s he hs]
  exact key f i v s he hs

end

theorem exEv3 {l : List ℚ} (hl : ∀ x ∈ l, |x| ≤ 500) : ∀ v s, |readEv exState3.varsToStarts l v s| ≤ 500 := by
  intro v s
  unfold readEv List.getD
  cases e : l[(exState3.varsToStarts v).getD 0 + s]? with
  | none => norm_num
  | some x => exact hl x (List.mem_of_getElem? e)

/-- Non-vacuity of C108: two damped iterations on the graph `exHist3`, in which the first factor to variable message is not trivial, in units of 1 and of a third. -/
example : (exBP3.runBP exEnv ⟨[1, 0, 4], [0, 0, 0, 0, 0], [1, 0, 0, 3, 1]⟩ 2 (1 / 2)).ftovMsgs = [-9 / 2, 0, -3 / 2, 0, -9 / 4] ∧
    (exBP3.runBP exEnv ⟨[3, 0, 12], [0, 0, 0, 0, 0], [3, 0, 0, 9, 3]⟩ 2 (1 / 2)).ftovMsgs = [-9 / 2, 0, -3 / 2, 0, -9 / 4].map (3 * ·) ∧
    ∃ bs bs' rs, exBP3.getBeliefs (exBP3.runBP exEnv ⟨[1, 0, 4], [0, 0, 0, 0, 0], [1, 0, 0, 3, 1]⟩ 2 (1 / 2)) = .ok bs ∧
      exBP3.getBeliefs (exBP3.runBP exEnv ⟨[3, 0, 12], [0, 0, 0, 0, 0], [3, 0, 0, 9, 3]⟩ 2 (1 / 2)) = .ok bs' ∧ decodeMapStates bs = .ok rs ∧ decodeMapStates bs' = .ok rs := by
  have e3 : (graphOf exVars3 exHist3).allScopes = [[⟨1000000000, 2⟩, ⟨1000000001, 3⟩]] := rfl
  have hreg : ∀ g ∈ exVars3, g.Regular ∧ g.Stated := by
    simp only [exVars3, List.mem_cons, List.not_mem_nil, or_false, forall_eq]
    exact ⟨by simp [VGroup.Regular], by simp [VGroup.Stated]⟩
  have := C108_partial exState3_compiled exBP3_create exEnv ⟨.inl rfl, fun _ => by decide⟩ ⟨[1, 0, 4], [0, 0, 0, 0, 0], [1, 0, 0, 3, 1]⟩
    ⟨[3, 0, 12], [0, 0, 0, 0, 0], [3, 0, 0, 9, 3]⟩ 2 (1 / 2) 3 (by norm_num) (by norm_num) rfl rfl rfl
    (by
      rintro x (rfl | rfl)
      · exact exModerate3 _ (by decide +kernel) _ (exEv3 (by decide +kernel))
      · exact exModerate3 _ (by decide +kernel) _ (exEv3 (by decide +kernel)))
    (by
      rintro x - f vs hf hle
      rw [e3] at hf
      have : f = 0 := by have := (List.getElem?_eq_some_iff.1 hf).1; simpa using this
      subst this
      exact absurd hle (by decide))
    (by
      rintro x hx f i v he
      have : x.ftovMsgs = [0, 0, 0, 0, 0] := by rcases hx with rfl | rfl <;> rfl
      rw [this, e3]
      rcases exEdge3 f i v he with ⟨rfl, rfl, rfl⟩ | ⟨rfl, rfl, rfl⟩ <;> exact ⟨0, by decide, by decide +kernel⟩)
    (by
      intro k hk f i v s he hs
      rw [e3]
      interval_cases k <;> rcases exEdge3 f i v he with ⟨rfl, rfl, rfl⟩ | ⟨rfl, rfl, rfl⟩ <;> revert s <;> decide +kernel)
  refine ⟨by decide +kernel, ?_, this.2.2 (fun g hg => (hreg g hg).1) (fun g hg => (hreg g hg).2)⟩
  rw [this.1]
  decide +kernel

/-- **C108 does not hold when messages are clipped.** In the graph `exHist3`, doubling all log potentials and all evidence changes the decoded state of the first variable. -/
theorem C108_refuted :
    ((exBP3.getBeliefs (exBP3.runBP exEnv ⟨[-900, -900, 0], [0, 0, 0, 0, 0], [0, -850, 0, 0, 0]⟩ 1 0)).bind decodeMapStates).map (fun rs => rs.map (·.2))
      = .ok [.arr ⟨[2], [1, 1]⟩] ∧
    ((exBP3.getBeliefs (exBP3.runBP exEnv ⟨[-1800, -1800, 0], [0, 0, 0, 0, 0], [0, -1700, 0, 0, 0]⟩ 1 0)).bind decodeMapStates).map (fun rs => rs.map (·.2))
      = .ok [.arr ⟨[2], [0, 1]⟩] := by
  constructor <;> decide +kernel

/-- Non-vacuity of C108 at positive temperature: the chain `exHistT`, any number of iterations, in units of 1 and 2. -/
example {env : Env ℝ} (hexp : env.exp = Real.exp) (hlog : env.log = Real.log) (hw : env.wrapNeg = false) {T : ℝ} (hT : 0 < T) (n : Nat) :
    ((exBPT (1 / 2 * T)).runBP env ⟨exLpT.map (1 / 2 * ·), List.replicate 8 0, exEvT.map (1 / 2 * ·)⟩ n 0).ftovMsgs
      = ((exBPT T).runBP env ⟨exLpT, List.replicate 8 0, exEvT⟩ n 0).ftovMsgs.map (1 / 2 * ·) := by
  have hz : (List.replicate 8 (0 : ℝ)).map (1 / 2 * ·) = List.replicate 8 0 := by simp
  refine (C108_sum_partial exStateT_compiled hT (by norm_num : (0 : ℝ) < 1 / 2) (exBPT_create T) (exBPT_create (1 / 2 * T)) env hexp hlog (exFitsT hw hT.ne')
    ⟨exLpT, List.replicate 8 0, exEvT⟩ _ n 0 (by rw [hz]) rfl rfl (by simp; rfl) ?_ ?_ ?_).1
  · rintro x (rfl | rfl)
    · exact exModerateT (by norm_num)
    · have := (exModerateT (d := 0) (by norm_num)).shrink (c := 1 / 2) (by norm_num) (by norm_num)
      rw [← readEv_scale] at this
      exact this
  · rintro x hx
    have : x.ftovMsgs = List.replicate 8 0 := by rcases hx with rfl | rfl <;> rfl
    rw [this]
    exact exInitT
  · intro k _ f i v s he hs
    have hM : -1000 < readMsgs (graphOf exVars exHistT).allScopes ((exBPT T).runBP env ⟨exLpT, List.replicate 8 0, exEvT⟩ k 0).ftovMsgs f i s := by
      cases k with
      | zero =>
        rw [exStateT_compiled.run_sum hT (exBPT_create T) env hexp hlog (exFitsT hw hT.ne') ⟨exLpT, List.replicate 8 0, exEvT⟩ 0 0 rfl rfl (by simp; rfl)
          (exModerateT (by norm_num)) exInitT f i v s he hs]
        obtain ⟨-, hn, hle⟩ := exEdgeT he
        obtain ⟨F, hF, hi⟩ := (graphOf exVars exHistT).factors_edge exLpT he
        have hz : ∀ t < v.n, readMsgs (graphOf exVars exHistT).allScopes (List.replicate 8 (0 : ℝ)) f i t = 0 := by
          intro t ht
          rw [readMsgs, List.getD, List.getElem?_replicate, if_pos (by omega)]
          rfl
        simp only [sumRun, tbInit, hF, hi]
        rw [tbNorm_congr (y := fun _ => WithBot.some (0 : ℝ)) (fun t ht => by rw [hz t ht]) hs,
          tbNorm_coe (x := fun _ => WithBot.some (0 : ℝ)) (n := v.n) (b := (0 : ℝ)) (a := 0) (sup_eq ⟨s, hs, rfl⟩ (fun _ _ => le_rfl)) rfl]
        norm_num
      | succ k =>
        obtain ⟨F, hF, -⟩ := (graphOf exVars exHistT).factors_edge exLpT he
        obtain ⟨h1, R, hR, h2⟩ := exCompleteT F (List.mem_of_getElem? hF)
        have hf' : f < (graphOf exVars exHistT).tables.length := by
          obtain ⟨vs, h1, -⟩ := he
          exact (List.getElem?_eq_some_iff.1 h1).1
        have := C56_sum_partial exStateT_compiled hT (exBPT_create T) env hexp hlog (exFitsT hw hT.ne') ⟨exLpT, List.replicate 8 0, exEvT⟩ (k + 1) 0 rfl rfl (by simp; rfl)
          (exModerateT (by norm_num)) f F hF hf' h1 R h2 i v he s hs
        rw [zero_pow (by omega), zero_mul, add_zero] at this
        linarith
    exact ⟨hM, by linarith⟩

end PGMax
