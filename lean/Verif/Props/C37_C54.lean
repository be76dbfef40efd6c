import Verif.Lemmas.Tame
import Verif.Props.C37
import Verif.Props.C54
import Verif.Props.C56

/-! # C37 and C54 for variables of high degree: messages of complete tables are bounded by the ranges of their log potentials -/

namespace PGMax

section
variable {κ α : Type _} [Field α] [LinearOrder α] [IsStrictOrderedRing α] {vgs : List (VGroup κ)} {hist : List (AddArg α)} {garbage : Garbage} {st : FGState κ α}

/-- **C37, for moderate numbers and ranges.** As `C37_partial`, where messages of complete tables count with the range of their log potentials instead of 1000. The degrees of the variables
may be large if these ranges are small. `[missing: numbers beyond those bounds, C37_refuted]` -/
theorem C37_tame_partial (h : Compiled vgs hist garbage st) {state : BPState α} {bp : BPFun κ α}
    (hbp : BP.create st state 0 = .ok bp) (env : Env α) (hfit : Fits env (graphOf vgs hist) (0 : α)) (a : BPArrays α) (n : Nat) (d : α)
    (hlp : a.logPotentials.length = st.logPotentials.length) (hev : a.evidence.length = st.numVarStates) (hm : a.ftovMsgs.length = st.totalFactorNumStates)
    (b : Nat → α) (hmod : Tame (graphOf vgs hist) a.logPotentials (readEv st.varsToStarts a.evidence) d b)
    (hlmod : LogicalTame (graphOf vgs hist) (readEv st.varsToStarts a.evidence) b)
    (hinit : ∀ f i v, IsEdge (graphOf vgs hist).allScopes f i v → ∃ s < v.n, -100000 ≤ readMsgs (graphOf vgs hist).allScopes a.ftovMsgs f i s)
    (hmild : Mild (graphOf vgs hist).allScopes b (readMsgs (graphOf vgs hist).allScopes a.ftovMsgs)) :
    AgreeOn (graphOf vgs hist).allScopes (readMsgs (graphOf vgs hist).allScopes (bp.runBP env a n d).ftovMsgs)
      (tbRun ((graphOf vgs hist).factors a.logPotentials) (readEv st.varsToStarts a.evidence) d n (readMsgs (graphOf vgs hist).allScopes a.ftovMsgs)) :=
  h.run_textbook_tame hbp env hfit a n d hlp hev hm hmod hlmod hinit hmild

end

section
variable {κ : Type _} {vgs : List (VGroup κ)} {hist : List (AddArg ℝ)} {garbage : Garbage} {st : FGState κ ℝ}

/-- **C54, for moderate numbers and ranges.** As `C54_partial`, where messages of complete tables count with the range of their log potentials instead of 1000. `[missing: C54_refuted]` -/
theorem C54_tame_partial (h : Compiled vgs hist garbage st) {state : BPState ℝ} {bp : BPFun κ ℝ} {T : ℝ} (hT : 0 < T)
    (hbp : BP.create st state T = .ok bp) (env : Env ℝ) (hexp : env.exp = Real.exp) (hlog : env.log = Real.log)
    (hfit : Fits env (graphOf vgs hist) T) (a : BPArrays ℝ) (n : Nat) (d : ℝ)
    (hlp : a.logPotentials.length = st.logPotentials.length) (hev : a.evidence.length = st.numVarStates) (hm : a.ftovMsgs.length = st.totalFactorNumStates)
    (b : Nat → ℝ) (hmod : Tame (graphOf vgs hist) a.logPotentials (readEv st.varsToStarts a.evidence) d b)
    (hinit : ∀ f i v, IsEdge (graphOf vgs hist).allScopes f i v → ∃ s < v.n, -100000 ≤ readMsgs (graphOf vgs hist).allScopes a.ftovMsgs f i s)
    (hmild : Mild (graphOf vgs hist).allScopes b (readMsgs (graphOf vgs hist).allScopes a.ftovMsgs))
    {L : ℝ} (hL1 : 1 ≤ L) (hL : ∀ vs ∈ (graphOf vgs hist).allScopes, ∀ i < vs.length, (inputsBut (graphOf vgs hist).allScopes vs i : ℝ) ≤ L)
    (f i : Nat) (v : Var) (s : Nat) (he : IsEdge (graphOf vgs hist).allScopes f i v) (hs : s < v.n) :
    |readMsgs (graphOf vgs hist).allScopes (bp.runBP env a n d).ftovMsgs f i s
      - sumRun (fun _ => lse T) ((graphOf vgs hist).factors a.logPotentials) (readEv st.varsToStarts a.evidence) d n
          (readMsgs (graphOf vgs hist).allScopes a.ftovMsgs) f i s| ≤ T * Real.exp (-100000) * ∑ k ∈ Finset.range n, (2 * L) ^ k := by
  rw [h.run_sum_tame hT hbp env hexp hlog hfit a n d hlp hev hm hmod hinit hmild f i v s he hs]
  have hsc := (graphOf vgs hist).factors_scopes a.logPotentials
  refine sumRun_close (fun F hF => ?_) hT _ (fun f l hl => ⟨(codeSummary_bounds _ hT f hl).1, le_trans (codeSummary_bounds _ hT f hl).2 (by split <;> [exact le_rfl; (have := Real.exp_pos (-100000 : ℝ); nlinarith)])⟩) (by positivity) hL1 (fun F hF i hi => ?_) _ hmod.damping _ n f i v s
    (by rw [hsc]; exact he) hs
  · obtain ⟨f, hf⟩ := List.mem_iff_getElem?.1 hF
    exact h.rowsFit a.logPotentials hf
  · rw [hsc]
    exact hL F.scope (by rw [← hsc]; exact List.mem_map.2 ⟨F, hF, rfl⟩) i hi

end

/-! ## Non-vacuity -/

theorem exTameQ {α : Type _} [Field α] [LinearOrder α] [IsStrictOrderedRing α] (hist : List (AddArg α)) (lp : List α) (ev : Var → Nat → α)
    (hsc : (graphOf exVars hist).allScopes = [[exVar 0, exVar 1]])
    (hf : (graphOf exVars hist).factors lp = [⟨[exVar 0, exVar 1], [([0, 0], 0), ([0, 1], 1), ([1, 0], 2), ([1, 1], 0)]⟩])
    (ht : tableFacs (graphOf exVars hist).tables lp = [⟨[exVar 0, exVar 1], [([0, 0], 0), ([0, 1], 1), ([1, 0], 2), ([1, 1], 0)]⟩]) (hl : (graphOf exVars hist).tables.length = 1)
    (hev : ∀ v s, |ev v s| ≤ 49900) : Tame (graphOf exVars hist) lp ev 0 (fun _ => 2) where
  damping := by norm_num
  spread := by
    intro f F hF
    rw [hf] at hF
    obtain ⟨h1, h2⟩ := List.getElem?_eq_some_iff.1 hF
    have h0 : f = 0 := by simpa using h1
    subst h0
    have h2 := h2.symm
    simp only [List.getElem_cons_zero] at h2
    subst h2
    right
    refine ⟨by omega, ⟨by simp, ?_⟩, ?_⟩
    · intro x hx
      cases hx with
      | cons h1 hx =>
        cases hx with
        | cons h2 hx =>
          cases hx
          rename_i p q
          have hp : p = 0 ∨ p = 1 := by simp [exVar] at h1; omega
          have hq : q = 0 ∨ q = 1 := by simp [exVar] at h2; omega
          rcases hp with rfl | rfl <;> rcases hq with rfl | rfl <;> simp
    · unfold SFac.Within
      simp only [List.forall_mem_cons]
      norm_num
  bounds := by
    refine ⟨fun _ => 49902, ?_, ?_⟩
    · rintro f i v s ⟨vs, h1, h2⟩ -
      have hd : ∀ v ∈ [exVar 0, exVar 1], (edgesOf [[exVar 0, exVar 1]] v).length = 1 := by decide +kernel
      rw [hsc] at h1 ⊢
      have : v ∈ [exVar 0, exVar 1] := by
        obtain ⟨h3, h4⟩ := List.getElem?_eq_some_iff.1 h1
        have h0 : f = 0 := by simpa using h3
        subst h0
        simp only [List.getElem_cons_zero] at h4
        subst h4
        exact List.mem_of_getElem? h2
      obtain ⟨e, he⟩ := List.length_eq_one_iff.1 (hd v this)
      rw [he]
      have := hev v s
      simp
      linarith
    · rw [ht]
      simp only [List.forall_mem_cons]
      refine ⟨⟨99806, ?_, by norm_num, .inl ?_⟩, by simp⟩
      · norm_num
      · intro i v s hi hs
        have hi' : i = 0 ∨ i = 1 := by have := (List.getElem?_eq_some_iff.1 hi).1; simp at this; omega
        rcases hi' with rfl | rfl
        · simp only [List.getElem?_cons_zero, Option.some.injEq] at hi
          subst hi
          have : s = 0 ∨ s = 1 := by simp [exVar] at hs; omega
          rcases this with rfl | rfl <;> simp [SFac.rowsAt]
        · simp only [List.getElem?_cons_succ, List.getElem?_cons_zero, Option.some.injEq] at hi
          subst hi
          have : s = 0 ∨ s = 1 := by simp [exVar] at hs; omega
          rcases this with rfl | rfl <;> simp [SFac.rowsAt]

/-- Non-vacuity: a table with log potentials 0, 1, 2, 0 and evidence of size 49900, where `Moderate` does not hold. -/
example : Tame (graphOf exVars exHistQ) [0, 1, 2, 0] (readEv exStateQ.varsToStarts [0, 49900, -49900, 1, 0, (0 : ℚ)]) 0 (fun _ => 2) ∧
    LogicalTame (graphOf exVars exHistQ) (readEv exStateQ.varsToStarts [0, 49900, -49900, 1, 0, (0 : ℚ)]) (fun _ => 2) ∧
    Mild (graphOf exVars exHistQ).allScopes (fun _ => 2) (readMsgs (graphOf exVars exHistQ).allScopes [0, 0, 0, (0 : ℚ)]) ∧
    ¬ Moderate (graphOf exVars exHistQ) [0, 1, 2, 0] (readEv exStateQ.varsToStarts [0, 49900, -49900, 1, 0, (0 : ℚ)]) 0 ∧
    (exBPQ.runBP exEnv ⟨[0, 1, 2, 0], [0, 0, 0, 0], [0, 49900, -49900, 1, 0, 0]⟩ 3 0).ftovMsgs = [0, -1, 0, -2] := by
  refine ⟨exTameQ _ _ _ rfl rfl rfl rfl ?_, ?_, ?_, ?_, by decide +kernel⟩
  · intro v s
    unfold readEv List.getD
    cases e : [0, 49900, -49900, 1, 0, (0 : ℚ)][(exStateQ.varsToStarts v).getD 0 + s]? with
    | none => norm_num
    | some x =>
      have hl : ∀ x ∈ [0, 49900, -49900, 1, 0, (0 : ℚ)], |x| ≤ 49900 := by decide +kernel
      exact hl x (List.mem_of_getElem? e)
  · intro f vs h1 h2
    have := (List.getElem?_eq_some_iff.1 h1).1
    rw [show (graphOf exVars exHistQ).allScopes.length = 1 from rfl] at this
    rw [show (graphOf exVars exHistQ).tables.length = 1 from rfl] at h2
    omega
  · intro f i v he
    right
    have : ∀ p, [0, 0, 0, (0 : ℚ)].getD p 0 = 0 := by
      intro p
      rw [List.getD]
      cases e : [0, 0, 0, (0 : ℚ)][p]? with
      | none => rfl
      | some x =>
        have hl : ∀ x ∈ [0, 0, 0, (0 : ℚ)], x = 0 := by decide
        exact hl x (List.mem_of_getElem? e)
    intro s _ t _
    unfold readMsgs
    rw [this, this]
    norm_num
  · rintro ⟨-, R, h1, h2⟩
    obtain ⟨W, w1, w2, -⟩ := h2 ⟨[exVar 0, exVar 1], [([0, 0], 0), ([0, 1], 1), ([1, 0], 2), ([1, 1], 0)]⟩ (by
      rw [show tableFacs (graphOf exVars exHistQ).tables [0, 1, 2, (0 : ℚ)] = [⟨[exVar 0, exVar 1], [([0, 0], 0), ([0, 1], 1), ([1, 0], 2), ([1, 1], 0)]⟩] from rfl]
      simp)
    have a1 := h1 0 0 (exVar 0) 1 ⟨_, rfl, rfl⟩ (by decide)
    have a2 := h1 0 1 (exVar 1) 0 ⟨_, rfl, rfl⟩ (by decide)
    have a3 := w1 ([0, 0], 0) (by simp)
    rw [show (graphOf exVars exHistQ).allScopes = [[exVar 0, exVar 1]] from rfl] at a1 a2
    rw [show (edgesOf [[exVar 0, exVar 1]] (exVar 0)).length = 1 by decide +kernel, show readEv exStateQ.varsToStarts [0, 49900, -49900, 1, 0, (0 : ℚ)] (exVar 0) 1 = 49900 by decide +kernel] at a1
    rw [show (edgesOf [[exVar 0, exVar 1]] (exVar 1)).length = 1 by decide +kernel, show readEv exStateQ.varsToStarts [0, 49900, -49900, 1, 0, (0 : ℚ)] (exVar 1) 0 = -49900 by decide +kernel] at a2
    norm_num at a1 a2 a3
    linarith

end PGMax
