import Verif.Spec.Unanimous
import Verif.Props.C63
import Verif.Props.C76
import Verif.Props.C101
import Verif.Lemmas.CutsRun

/-! # C102: states that the evidence and all factors agree on are decoded, on graphs with loops too -/

namespace PGMax

section
variable {κ α : Type _} [Field α] [LinearOrder α] [IsStrictOrderedRing α]

theorem tbNorm_mono {n : Nat} {x : Nat → WithBot α} {s t : Nat} (h : x s ≤ x t) : tbNorm n x s ≤ tbNorm n x t := by
  unfold tbNorm
  generalize (Finset.range n).sup x = M
  cases M with
  | bot => cases x s <;> cases x t <;> rfl
  | coe M =>
    cases hs : x s with
    | bot =>
      cases ht : x t with
      | bot => rfl
      | coe b => exact le_max_right _ _
    | coe a =>
      cases ht : x t with
      | bot =>
        rw [hs, ht] at h
        exact absurd (le_bot_iff.1 h) WithBot.coe_ne_bot
      | coe b =>
        rw [hs, ht] at h
        have : a ≤ b := WithBot.coe_le_coe.1 h
        exact max_le_max (by linarith) le_rfl

omit [IsStrictOrderedRing α] in
theorem tbOut_favours [IsOrderedAddMonoid α] {F : SFac α} {x : Var → Nat} (hF : F.Favours x) (hrow : ∀ r ∈ F.rows, List.Forall₂ (fun s (v : Var) => s < v.n) r.1 F.scope) {q : Nat → Nat → α}
    (hq : ∀ j w, F.scope[j]? = some w → ∀ t < w.n, q j t ≤ q j (x w)) {i : Nat} {v : Var} (hi : F.scope[i]? = some v) (s : Nat) : tbOut F q i s ≤ tbOut F q i (x v) := by
  obtain ⟨w, hw, hmax⟩ := hF
  unfold tbOut
  have hmem : (F.scope.map x, w) ∈ F.rowsAt i (x v) := by
    unfold SFac.rowsAt
    rw [List.mem_filter]
    refine ⟨hw, ?_⟩
    simp [hi]
  refine List.maximum_le_of_forall_le fun z hz => ?_
  obtain ⟨r, hr, rfl⟩ := List.mem_map.1 hz
  have hr' : r ∈ F.rows := (List.mem_filter.1 hr).1
  refine le_trans ?_ (List.le_maximum_of_mem' (List.mem_map.2 ⟨_, hmem, rfl⟩))
  rw [WithBot.coe_le_coe]
  unfold scoreBut
  refine add_le_add (hmax r hr') (List.sum_le_sum fun j hj => ?_)
  have hj' : j < F.scope.length := List.mem_range.1 (List.mem_filter.1 hj).1
  have hf := hrow r hr'
  have hlen := hf.length_eq
  have e : F.scope[j]? = some F.scope[j] := List.getElem?_eq_getElem hj'
  have hlt := (List.forall₂_iff_get.1 hf).2 j (by omega) hj'
  have e1 : (F.scope.map x).getD j 0 = x F.scope[j] := by
    rw [List.getD_eq_getElem?_getD, List.getElem?_map, e]
    rfl
  have e2 : r.1.getD j 0 = r.1[j]'(by omega) := by
    rw [List.getD_eq_getElem?_getD, List.getElem?_eq_getElem (by omega)]
    rfl
  show q j (r.1.getD j 0) ≤ q j ((F.scope.map x).getD j 0)
  rw [e1, e2]
  exact hq j _ e _ hlt

/-- **C102, textbook max-product.** If all factors, all evidence and the initial messages favour the states `x`, so do the messages after any number of iterations. -/
theorem C102_textbook {factors : List (SFac α)} {ev : Var → Nat → α} {x : Var → Nat} (hF : ∀ F ∈ factors, F.Favours x) (hev : ∀ F ∈ factors, ∀ v ∈ F.scope, FavoursState ev x v)
    (hrow : ∀ F ∈ factors, ∀ r ∈ F.rows, List.Forall₂ (fun s (v : Var) => s < v.n) r.1 F.scope) {d : α} (hd : 0 ≤ d ∧ d ≤ 1) {m : Msgs α}
    (hm : ∀ f i v s, IsEdge (factors.map (·.scope)) f i v → s < v.n → m f i s ≤ m f i (x v)) (n : Nat) :
    ∀ f i v s, IsEdge (factors.map (·.scope)) f i v → s < v.n → tbRun factors ev d n m f i s ≤ tbRun factors ev d n m f i (x v) := by
  have hedge : ∀ {f i v}, IsEdge (factors.map (·.scope)) f i v → ∃ F, factors[f]? = some F ∧ F.scope[i]? = some v := by
    rintro f i v ⟨vs, h1, h2⟩
    rw [List.getElem?_map] at h1
    cases hf : factors[f]? with
    | none => rw [hf] at h1; cases h1
    | some F =>
      rw [hf] at h1
      cases h1
      exact ⟨F, rfl, h2⟩
  induction n with
  | zero =>
    intro f i v s he hs
    obtain ⟨F, h1, h2⟩ := hedge he
    simp only [tbRun, tbInit, h1, h2]
    exact tbNorm_mono (WithBot.coe_le_coe.2 (hm f i v s he hs))
  | succ n ih =>
    intro f i v s he hs
    obtain ⟨F, h1, h2⟩ := hedge he
    simp only [tbRun, tbStep, h1, h2]
    generalize tbRun factors ev d n m = m' at ih ⊢
    have hmem := List.mem_of_getElem? h1
    have hout := tbOut_favours (hF F hmem) (hrow F hmem) (q := tbIn factors ev m' f F) (fun j w hj t ht => by
      simp only [tbIn, hj]
      unfold varToFac
      refine add_le_add ((hev F hmem w (List.mem_of_getElem? hj)).2 t ht) (List.sum_le_sum fun e he => ?_)
      have := (mem_edgesOf _ _ _ _).1 (List.mem_filter.1 he).1
      exact ih e.1 e.2 w t this ht) h2 s
    refine tbNorm_mono ?_
    have h0 := ih f i v s he hs
    generalize tbOut F (tbIn factors ev m' f F) i s = A at hout ⊢
    generalize tbOut F (tbIn factors ev m' f F) i (x v) = B at hout ⊢
    cases A with
    | bot => exact bot_le
    | coe a =>
      cases B with
      | bot => exact absurd (le_bot_iff.1 hout) WithBot.coe_ne_bot
      | coe b =>
        have hab : a ≤ b := WithBot.coe_le_coe.1 hout
        refine WithBot.coe_le_coe.2 (add_le_add (mul_le_mul_of_nonneg_left h0 hd.1) (mul_le_mul_of_nonneg_left hab (by linarith [hd.2])))

variable {vgs : List (VGroup κ)} {hist : List (AddArg α)} {garbage : Garbage} {st : FGState κ α}

/-- **C102.** Let `x` be states that all factors and all evidence favour: a configuration of every factor with its largest log potential, and the state of every variable with its largest evidence.  On every graph, loops or not, run `run_bp`
at temperature 0 with any damping from initial messages that do not speak against `x` (such as zero) for any number of iterations.  Then the belief of a variable in its state in `x` exceeds that in any other state
by at least as much as its evidence does; and if that is positive for all variables, `decode_map_states` returns `x`.
Restricted to sizes and numbers for which -100000 acts as minus infinity, as in C37. -/
theorem C102 [DecidableEq κ] (h : Compiled vgs hist garbage st) {state : BPState α} {bp : BPFun κ α} (hbp : BP.create st state 0 = .ok bp)
    (env : Env α) (hfit : Fits env (graphOf vgs hist) (0 : α)) (a : BPArrays α) (n : Nat) (d : α)
    (hlp : a.logPotentials.length = st.logPotentials.length) (hev : a.evidence.length = st.numVarStates) (hm : a.ftovMsgs.length = st.totalFactorNumStates)
    (hmod : Moderate (graphOf vgs hist) a.logPotentials (readEv st.varsToStarts a.evidence) d)
    (hlmod : LogicalModerate (graphOf vgs hist) (readEv st.varsToStarts a.evidence))
    (hinit : ∀ f i v, IsEdge (graphOf vgs hist).allScopes f i v → ∃ s < v.n, -100000 ≤ readMsgs (graphOf vgs hist).allScopes a.ftovMsgs f i s)
    (x : Var → Nat) (hF : ∀ F ∈ (graphOf vgs hist).factors a.logPotentials, F.Favours x) (hx : ∀ v ∈ graphVars vgs, FavoursState (readEv st.varsToStarts a.evidence) x v)
    (hx0 : ∀ f i v s, IsEdge (graphOf vgs hist).allScopes f i v → s < v.n →
      readMsgs (graphOf vgs hist).allScopes a.ftovMsgs f i s ≤ readMsgs (graphOf vgs hist).allScopes a.ftovMsgs f i (x v)) :
    (∀ v start, st.varsToStarts v = some start → ∀ s < v.n,
      readEv st.varsToStarts a.evidence v (x v) - readEv st.varsToStarts a.evidence v s ≤
        (bp.flatBeliefs (bp.runBP env a n d)).getD (start + x v) 0 - (bp.flatBeliefs (bp.runBP env a n d)).getD (start + s) 0) ∧
    ((∀ g ∈ vgs, g.Regular) → (∀ g ∈ vgs, g.Stated) → (∀ v ∈ graphVars vgs, PrefersState (readEv st.varsToStarts a.evidence) x v) →
      ∃ bs rs, bp.getBeliefs (bp.runBP env a n d) = .ok bs ∧ decodeMapStates bs = .ok rs ∧ rs.map (·.1) = vgs ∧ ∀ p ∈ rs, ∀ v ∈ p.1.variables, p.1.StateIn v (x v) p.2) := by
  have hsc := (graphOf vgs hist).factors_scopes a.logPotentials
  have hvars : ∀ F ∈ (graphOf vgs hist).factors a.logPotentials, ∀ v ∈ F.scope, v ∈ graphVars vgs := by
    intro F hF v hv
    exact h.scopes_vars F.scope (by rw [← hsc]; exact List.mem_map.2 ⟨F, hF, rfl⟩) v hv
  have hrun := C37_partial h hbp env hfit a n d hlp hev hm hmod hlmod hinit
  have htb := C102_textbook hF (fun F hF v hv => hx v (hvars F hF v hv)) (fun F hF => by
    obtain ⟨f, hf⟩ := List.mem_iff_getElem?.1 hF
    exact h.rowsFit a.logPotentials hf) hmod.damping (by rw [hsc]; exact hx0) n
  rw [hsc] at htb
  have l1 := (h.run_read hbp env hfit a d hlp hev n hm).1
  have hmsg : ∀ f i v s, IsEdge (graphOf vgs hist).allScopes f i v → s < v.n → readMsgs (graphOf vgs hist).allScopes (bp.runBP env a n d).ftovMsgs f i s ≤
      readMsgs (graphOf vgs hist).allScopes (bp.runBP env a n d).ftovMsgs f i (x v) := by
    intro f i v s he hs
    obtain ⟨vs, e1, e2⟩ := id he
    have hv := h.scopes_vars vs (List.mem_of_getElem? e1) v (List.mem_of_getElem? e2)
    rw [hrun f i v s he hs, hrun f i v (x v) he (hx v hv).1]
    exact htb f i v s he hs
  have hev' : (bp.runBP env a n d).evidence = a.evidence := rfl
  have hbel : ∀ v ∈ graphVars vgs, ∀ s < v.n, readEv st.varsToStarts a.evidence v (x v) - readEv st.varsToStarts a.evidence v s ≤
      beliefOf (graphOf vgs hist).allScopes (readEv st.varsToStarts a.evidence) (readMsgs (graphOf vgs hist).allScopes (bp.runBP env a n d).ftovMsgs) v (x v) -
        beliefOf (graphOf vgs hist).allScopes (readEv st.varsToStarts a.evidence) (readMsgs (graphOf vgs hist).allScopes (bp.runBP env a n d).ftovMsgs) v s := by
    intro v hv s hs
    unfold beliefOf
    have : ((edgesOf (graphOf vgs hist).allScopes v).map (fun e => readMsgs (graphOf vgs hist).allScopes (bp.runBP env a n d).ftovMsgs e.1 e.2 s)).sum ≤
        ((edgesOf (graphOf vgs hist).allScopes v).map (fun e => readMsgs (graphOf vgs hist).allScopes (bp.runBP env a n d).ftovMsgs e.1 e.2 (x v))).sum :=
      List.sum_le_sum fun e he => hmsg e.1 e.2 v s ((mem_edgesOf _ _ _ _).1 he) hs
    linarith
  refine ⟨fun v start hv s hs => ?_, fun hreg hst hpref => ?_⟩
  · have hmem : v ∈ graphVars vgs := by
      obtain ⟨i, hi, -⟩ := (h.starts_iff v start).1 hv
      exact List.mem_toFinset.2 (List.mem_of_getElem? hi)
    have e := fun t ht => C34_flat h hbp (bp.runBP env a n d) l1 hev v start hv t ht
    rw [List.getD_eq_getElem?_getD, List.getD_eq_getElem?_getD, e _ (hx v hmem).1, e s hs]
    exact hbel v hmem s hs
  · refine h.decode_states hbp _ l1 hev hreg hst (fun v hv => ⟨(hx v hv).1, fun s hs => ?_, fun s hs => ?_⟩)
    · have h1 := hbel v hv s hs
      have h2 := (hx v hv).2 s hs
      rw [hev']
      linarith
    · have hs' : s < v.n := lt_trans hs (hx v hv).1
      have h1 := hbel v hv s hs'
      have h2 := (hpref v hv).2 s hs' hs.ne
      rw [hev']
      linarith

/-- **C102, MAP.** Such states are a best joint assignment, and the only one if every variable has more evidence for its state in `x` than for its other states. -/
theorem C102_map {vars : Finset Var} {factors : List (SFac α)} {ev : Var → Nat → α} {x : Var → Nat} (hF : ∀ F ∈ factors, F.Favours x) (hx : ∀ v ∈ vars, FavoursState ev x v) :
    ∃ ρ, IsMAP vars factors ev x ρ ∧ ((∀ v ∈ vars, PrefersState ev x v) → IsUniqueMAP vars factors ev x ρ) := by
  choose! w hw hmax using hF
  have hJ : Joint vars factors x (fun f => match factors[f]? with | some F => (F.scope.map x, w F) | none => ([], 0)) := by
    refine ⟨fun v hv => (hx v hv).1, fun f F hF => ?_⟩
    rw [hF]
    exact ⟨hw F (List.mem_of_getElem? hF), rfl⟩
  have hpot : ∀ x' ρ', Joint vars factors x' ρ' → ∑ f ∈ Finset.range factors.length, (ρ' f).2 ≤
      ∑ f ∈ Finset.range factors.length, ((fun f => match factors[f]? with | some F => (F.scope.map x, w F) | none => ([], 0)) f : List Nat × α).2 := by
    intro x' ρ' h'
    refine Finset.sum_le_sum fun f hf => ?_
    have hlt := Finset.mem_range.1 hf
    have e := List.getElem?_eq_getElem hlt
    simp only [e]
    exact hmax _ (List.getElem_mem hlt) _ (h'.rows f _ e).1
  refine ⟨_, ⟨hJ, fun x' ρ' h' => ?_⟩, fun hp => ⟨hJ, fun x' ρ' h' ⟨v, hv, hne⟩ => ?_⟩⟩
  · unfold jointScore
    exact add_le_add (Finset.sum_le_sum fun v hv => (hx v hv).2 _ (h'.states v hv)) (hpot x' ρ' h')
  · unfold jointScore
    exact add_lt_add_of_lt_of_le (Finset.sum_lt_sum (fun v hv => (hx v hv).2 _ (h'.states v hv)) ⟨v, hv, (hp v hv).2 _ (h'.states v hv) hne⟩) (hpot x' ρ' h')

end

/-- **C102, cuts.** If the depth image is plain and all noise is less than 1, the program that labels cuts decodes the labels that the image says, after any number of iterations and with any damping up to one half (100 and one half in
the program). -/
theorem C102_cuts {α : Type} [Field α] [LinearOrder α] [IsStrictOrderedRing α] {idG idE idV idH : Nat} {idF : Nat → Nat} {M N D : Nat} (hid : idG % 2 ^ 32 ≠ idE % 2 ^ 32)
    (hF : ((List.range ((M - 1) * (N - 1))).map idF ++ [idV, idH]).Nodup) (hD : 1 ≤ D) (hD8 : D ≤ 8) (hM : D < M) (hN : D < N) (hMN : 2 * ((M - 1) * (N - 1)) ≤ 1000000000) (garbage : Garbage) (stateId : Nat)
    (depth : Nat → Nat → α) (hplain : PlainImage M N D depth) (noise : CutName → α × α) (hnoise : ∀ q, IsCut M N q → |(noise q).1| < 1 ∧ |(noise q).2| < 1) {truth : Nat × Nat × Nat → Nat}
    (ht : TrueLabels M N depth truth) (env : Env α) (hsize : env.wrapNeg = false ∨ 12 * ((M - 1) * (N - 1)) + 3 * D * (N * (M - D) + M * (N - D)) + 3 ≤ 100000) {d : α} (hd : 0 ≤ d ∧ d ≤ 1 / 2) :
    ∃ s cut, cutsSetup idG idE idV idH idF garbage stateId M N D depth noise = .ok s ∧ CutVars s.net.grid s.net.extra M N cut ∧
      ∀ n, ∃ bs rs, s.bp.getBeliefs (s.bp.runBP env s.arrays n d) = .ok bs ∧ decodeMapStates bs = .ok rs ∧ rs.map (·.1) = [.arr s.net.grid, .dict s.net.extra] ∧
        ∀ p ∈ rs, ∀ q, IsCut M N q → cut q ∈ p.1.variables → p.1.StateIn (cut q) (truth q) p.2 := by
  have hs : CutSizes M N D := ⟨hD, hM, hN, hMN⟩
  obtain ⟨s, hist, st, state, h1, h⟩ := cuts_ready hid hF hs garbage stateId depth noise
  have hcut := cutVars_of hid hs
  classical
  obtain ⟨x, hx⟩ : ∃ x : Var → Nat, ∀ q, IsCut M N q → x (cutVar idG idE M N q) = truth q := by
    refine ⟨fun v => if hv : ∃ q, IsCut M N q ∧ v = cutVar idG idE M N q then truth hv.choose else 0, fun q hq => ?_⟩
    have hv : ∃ q', IsCut M N q' ∧ cutVar idG idE M N q = cutVar idG idE M N q' := ⟨q, hq, rfl⟩
    dsimp only
    rw [dif_pos hv, ← hcut.inj q hv.choose hq hv.choose_spec.1 hv.choose_spec.2]
  have hlab : CutLabelling M N D (fun q => x (cutVar idG idE M N q)) := by
    refine ((C101_image M N D depth).2 _ ⟨fun r c hr hc => ?_, fun r c hr hc => ?_⟩).2 hplain
    · rw [hx _ (.inl ⟨rfl, hr, hc⟩)]; exact ht.1 r c hr hc
    · rw [hx _ (.inr ⟨rfl, hr, hc⟩)]; exact ht.2 r c hr hc
  have hbound : ∀ q, IsCut M N q → ∀ t < 3, |(cutVals M N depth noise q).getD t 0| ≤ 1002 := fun q hq t ht => by
    have := cutVals_bound (depth := depth) (fun q hq => ⟨(hnoise q hq).1.le, (hnoise q hq).2.le⟩) q hq t ht
    linarith
  obtain ⟨hfit, hmod, hlog, hlen, hz, -⟩ := h.run hid hs hD8 hbound env hsize hd
  have key : ∀ {w t : Nat} {n : α × α}, w < 3 → t < 3 → |n.1| < 1 ∧ |n.2| < 1 → t ≠ w → labelEvidence w n t < labelEvidence w n w := by
    intro w t n hw ht ⟨n1, n2⟩ hne
    obtain ⟨a1, a2⟩ := abs_lt.1 n1
    obtain ⟨b1, b2⟩ := abs_lt.1 n2
    interval_cases w <;> interval_cases t <;> first | exact absurd rfl hne | (simp [labelEvidence]; linarith)
  have hpref : ∀ v ∈ graphVars [.arr s.net.grid, .dict s.net.extra], PrefersState (readEv st.varsToStarts s.arrays.evidence) x v := by
    rw [h.grid, h.extra]
    intro v hv
    obtain ⟨q, hq, rfl⟩ := (hcut.vars v).1 hv
    have h3 := trueLabels_lt ht hq
    refine ⟨by rw [hx q hq, cutVar_n]; exact h3, fun t htn hne => ?_⟩
    rw [cutVar_n] at htn
    rw [hx q hq] at hne ⊢
    rw [h.evidence ht hq htn, h.evidence ht hq h3]
    exact key h3 htn (hnoise q hq) hne
  have hfav : ∀ F ∈ s.net.fg.factors s.arrays.logPotentials, F.Favours x := by
    rw [h.pots, h.factors]
    intro F hF
    obtain ⟨w, hw⟩ := ((cut_tables (α := α) hs x).2 hlab).2 F hF
    exact ⟨w, hw, fun r hr => by rw [cutFactors_zero F hF r hr]; exact le_of_eq (cutFactors_zero F hF _ hw).symm⟩
  refine ⟨s, cutVar idG idE M N, h1, by rw [h.grid, h.extra]; exact hcut, fun n => ?_⟩
  have hg := h.graph
  rw [← hg] at hfit hmod hlog hfav
  obtain ⟨-, hdec⟩ := C102 h.compiled h.bp env hfit s.arrays n d (by rw [h.pots]) h.len hlen hmod hlog (fun f i v he => by
      rw [hg] at he ⊢
      obtain ⟨q, -, rfl⟩ := h.edge he
      exact ⟨0, by rw [cutVar_n]; norm_num, by rw [hz]; norm_num⟩) x hfav (fun v hv => ⟨(hpref v hv).1, fun t ht => by
      by_cases e : t = x v
      · rw [e]
      · exact ((hpref v hv).2 t ht e).le⟩) (fun f i v t he _ => by rw [hg, hz, hz])
  have hn : 2 * ((M - 1) * (N - 1)) ≠ 0 := by
    have := Nat.mul_pos (show 0 < M - 1 by omega) (show 0 < N - 1 by omega)
    omega
  obtain ⟨bs, rs, e1, e2, e3, e4⟩ := hdec (by
      rw [h.grid, h.extra]
      intro g hgm
      simp only [List.mem_cons, List.not_mem_nil, or_false] at hgm
      rcases hgm with rfl | rfl
      · show _ → _
        intro e
        exfalso
        simp [uniArr] at e
        omega
      · refine ⟨cutNames_nodup M N, ?_⟩
        intro e
        exfalso
        simp [cutDict, cutNames_length] at e
        omega) (by
      rw [h.grid, h.extra]
      intro g hgm
      simp only [List.mem_cons, List.not_mem_nil, or_false] at hgm
      rcases hgm with rfl | rfl
      · refine ⟨?_, 3, ?_, by norm_num⟩
        · intro k hk
          simp [uniArr] at hk
          omega
        · simp [uniArr]
          omega
      · intro k hk
        simp [cutDict] at hk
        omega) hpref
  refine ⟨bs, rs, e1, e2, e3, fun p hp q hq hv => ?_⟩
  have := e4 p hp _ hv
  rwa [hx q hq] at this

/-- Non-vacuity of C102: the program decodes the labels of the image of the test before smoothing, with noise up to a half, after 100 iterations with damping one half. -/
example : ∃ s cut bs rs, cutsSetup 1 2 3 4 (fun k => k + 5) (fun _ _ => 0) 9 3 3 2 exDepth (fun q => (if q.1 = 0 then 1 / 2 else -1 / 2, 1 / 3)) = .ok s ∧ CutVars s.net.grid s.net.extra 3 3 cut ∧
    s.bp.getBeliefs (s.bp.runBP exEnv s.arrays 100 (1 / 2)) = .ok bs ∧ decodeMapStates bs = .ok rs ∧ rs.map (·.1) = [.arr s.net.grid, .dict s.net.extra] ∧
    ∀ p ∈ rs, ∀ q, IsCut 3 3 q → cut q ∈ p.1.variables → p.1.StateIn (cut q) (cutTruth 3 3 exDepth q) p.2 := by
  obtain ⟨s, cut, h1, h2, h3⟩ := C102_cuts (idV := 3) (idH := 4) (idF := fun k => k + 5) (M := 3) (N := 3) (D := 2) (idG := 1) (idE := 2) (by decide) (by decide) (by decide) (by decide) (by decide)
    (by decide) (by decide) (fun _ _ => 0) 9 exDepth (exDepth_plain 3 3 2) (fun q => (if q.1 = 0 then 1 / 2 else -1 / 2, 1 / 3)) (by
      intro q _
      dsimp only
      split_ifs <;> norm_num [abs_lt]) (C101_image 3 3 2 exDepth).1 exEnv (.inr (by decide)) (d := 1 / 2) (by norm_num)
  obtain ⟨bs, rs, h⟩ := h3 100
  exact ⟨s, cut, bs, rs, h1, h2, h⟩

/-- Non-vacuity of the textbook part and the MAP part of C102: a loop of three variables with two states, of which one table lacks a configuration. -/
example : ∃ factors : List (SFac ℚ), factors.length = 3 ∧ (∀ F ∈ factors, F.Favours (fun _ => 1)) ∧ (∀ F ∈ factors, ∀ v ∈ F.scope, FavoursState (fun _ t => if t = 1 then (1 : ℚ) else 0) (fun _ => 1) v) ∧
    (∀ F ∈ factors, ∀ r ∈ F.rows, List.Forall₂ (fun s (v : Var) => s < v.n) r.1 F.scope) ∧
    ∃ ρ, IsUniqueMAP {⟨0, 2⟩, ⟨1, 2⟩, ⟨2, 2⟩} factors (fun _ t => if t = 1 then (1 : ℚ) else 0) (fun _ => 1) ρ := by
  refine ⟨[⟨[⟨0, 2⟩, ⟨1, 2⟩], [([0, 0], 3), ([0, 1], 1), ([1, 1], 3)]⟩, ⟨[⟨1, 2⟩, ⟨2, 2⟩], [([0, 0], 0), ([0, 1], 0), ([1, 0], 0), ([1, 1], 0)]⟩,
    ⟨[⟨0, 2⟩, ⟨2, 2⟩], [([0, 0], -1), ([0, 1], 4), ([1, 0], 4), ([1, 1], 5)]⟩], rfl, ?_, ?_, ?_, ?_⟩
  · intro F hF
    simp only [List.mem_cons, List.not_mem_nil, or_false] at hF
    rcases hF with rfl | rfl | rfl
    · exact ⟨3, by simp, by simp⟩
    · exact ⟨0, by simp, by simp⟩
    · exact ⟨5, by simp, by simp; norm_num⟩
  · intro F hF v hv
    have : v.n = 2 := by
      simp only [List.mem_cons, List.not_mem_nil, or_false] at hF
      rcases hF with rfl | rfl | rfl <;> simp at hv <;> rcases hv with rfl | rfl <;> rfl
    exact ⟨by rw [this]; norm_num, fun s _ => by dsimp only; rw [if_pos rfl]; split_ifs <;> norm_num⟩
  · intro F hF
    simp only [List.mem_cons, List.not_mem_nil, or_false] at hF
    rcases hF with rfl | rfl | rfl <;> simp
  · refine (C102_map (fun F hF => ?_) (fun v hv => ?_)).imp fun ρ h => h.2 fun v hv => ?_
    · simp only [List.mem_cons, List.not_mem_nil, or_false] at hF
      rcases hF with rfl | rfl | rfl
      · exact ⟨3, by simp, by simp⟩
      · exact ⟨0, by simp, by simp⟩
      · exact ⟨5, by simp, by simp; norm_num⟩
    · have : v.n = 2 := by
        simp at hv
        rcases hv with rfl | rfl | rfl <;> rfl
      exact ⟨by rw [this]; norm_num, fun s _ => by dsimp only; rw [if_pos rfl]; split_ifs <;> norm_num⟩
    · have : v.n = 2 := by
        simp at hv
        rcases hv with rfl | rfl | rfl <;> rfl
      exact ⟨by rw [this]; norm_num, fun s _ h => by dsimp only at h ⊢; rw [if_neg h]; norm_num⟩

end PGMax
