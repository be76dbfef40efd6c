import Verif.Lemmas.Complete

/-! # Helper lemmas: messages bounded by the ranges of tables -/

namespace PGMax

section
variable {κ α : Type _} [Field α] [LinearOrder α] [IsStrictOrderedRing α] {vgs : List (VGroup κ)} {hist : List (AddArg α)} {garbage : Garbage} {st : FGState κ α}

/-- The messages after any number of iterations, as the code has them and as bounded by the ranges of tables. -/
theorem Compiled.iterate_tame (h : Compiled vgs hist garbage st) {state : BPState α} {bp : BPFun κ α} {T : α} (hbp : BP.create st state T = .ok bp)
    (env : Env α) (hT : T = 0 ∨ (0 < T ∧ EnvOk env)) (hfit : Fits env (graphOf vgs hist) T) {Φ : List α → α} (hΦ : Summary Φ)
    (hsoft : ∀ F q i s, softOut env T F q i s = Φ ((F.rowsAt i s).map (scoreBut F.scope.length q i))) (a : BPArrays α) (d : α)
    (hlp : a.logPotentials.length = st.logPotentials.length) (hev : a.evidence.length = st.numVarStates) (hm : a.ftovMsgs.length = st.totalFactorNumStates)
    {b : Nat → α} (hmod : Tame (graphOf vgs hist) a.logPotentials (readEv st.varsToStarts a.evidence) d b)
    (hinit : ∀ f i v, IsEdge (graphOf vgs hist).allScopes f i v → ∃ s < v.n, -100000 ≤ readMsgs (graphOf vgs hist).allScopes a.ftovMsgs f i s)
    (hmild : Mild (graphOf vgs hist).allScopes b (readMsgs (graphOf vgs hist).allScopes a.ftovMsgs)) (n : Nat) :
    (BPFun.iterate (bp.step env a.logPotentials a.evidence d) n (normalizeAndClip env a.ftovMsgs bp.edgesNumStates bp.maxMsgSize)).length = st.totalFactorNumStates ∧
    Clipped (graphOf vgs hist).allScopes (readMsgs (graphOf vgs hist).allScopes
      (BPFun.iterate (bp.step env a.logPotentials a.evidence d) n (normalizeAndClip env a.ftovMsgs bp.edgesNumStates bp.maxMsgSize))) ∧
    Bounded (graphOf vgs hist).allScopes b (readMsgs (graphOf vgs hist).allScopes
      (BPFun.iterate (bp.step env a.logPotentials a.evidence d) n (normalizeAndClip env a.ftovMsgs bp.edgesNumStates bp.maxMsgSize))) := by
  have hmax := (h.maxMsgSize hbp).1
  have hl := h.normalize_length hbp env _ hm
  have hcl : ∀ {x y : Msgs α}, AgreeOn (graphOf vgs hist).allScopes x y → Clipped (graphOf vgs hist).allScopes y → Clipped (graphOf vgs hist).allScopes x := by
    intro x y hxy hy f i v s he hs
    rw [hxy f i v s he hs]
    exact hy f i v s he hs
  induction n with
  | zero =>
    have hr := h.norm_read hbp env hfit.seg a.ftovMsgs hm
    have hc0 := hcl hr (normM_clipped hmax _)
    refine ⟨hl, hc0, ?_⟩
    intro f i v s he hs
    refine ⟨?_, (hc0 f i v s he hs).2⟩
    rcases hmild f i v he with h1 | h1
    · rw [h1]
      exact (hc0 f i v s he hs).1
    · show -b f ≤ readMsgs _ (normalizeAndClip env a.ftovMsgs bp.edgesNumStates bp.maxMsgSize) f i s
      rw [hr f i v s he hs, normM_at he]
      refine le_trans ?_ (le_max_left _ _)
      obtain ⟨-, k2, -⟩ := segM_spec (readMsgs (graphOf vgs hist).allScopes a.ftovMsgs f i) v.n bp.maxMsgSize (by omega) (hmax f i v he)
      have h2 : ∃ t < v.n, segM (readMsgs (graphOf vgs hist).allScopes a.ftovMsgs f i) v.n bp.maxMsgSize = readMsgs (graphOf vgs hist).allScopes a.ftovMsgs f i t := by
        rcases k2 with k | ⟨-, k, k'⟩
        · exact k
        · obtain ⟨t, ht, hle⟩ := hinit f i v he
          have hN : (NEG_INF : α) = -100000 := by norm_num [NEG_INF]
          exact ⟨t, ht, by rw [k]; exact le_antisymm (by rw [hN]; exact hle) (k' t ht)⟩
      obtain ⟨t, ht, e⟩ := h2
      rw [e]
      linarith [h1 t ht s hs]
  | succ n ih =>
    obtain ⟨i1, i2, i3⟩ := ih
    rw [iterate_succ']
    have hc1 := hcl (h.step_norm hbp env hfit.seg a.logPotentials a.evidence _ d hlp i1).2.2.2 (normM_clipped hmax _)
    obtain ⟨r1, r2⟩ := h.step_read hbp env hfit a.logPotentials a.evidence _ d hlp hev i1
    refine ⟨r1, hc1, ?_⟩
    intro f i v s he hs
    refine ⟨?_, (hc1 f i v s he hs).2⟩
    obtain ⟨F, hF, hi, -⟩ := (graphOf vgs hist).factors_edge a.logPotentials he
    rcases hmod.spread f F hF with h1 | ⟨h1, h2, h3⟩
    · rw [h1]
      exact (hc1 f i v s he hs).1
    · rw [r2 f i v s he hs]
      have := h.complete_step env hT hmax hΦ hsoft a.logPotentials hlp _ d hmod _ i3 i2 hF h1 h2 h3 he hs (i3 f i v s he hs).1
      rwa [sub_self, mul_zero, add_zero] at this

/-- Textbook max-product, with messages bounded by the ranges of tables. -/
theorem Compiled.run_textbook_tame (h : Compiled vgs hist garbage st) {state : BPState α} {bp : BPFun κ α}
    (hbp : BP.create st state 0 = .ok bp) (env : Env α) (hfit : Fits env (graphOf vgs hist) (0 : α)) (a : BPArrays α) (n : Nat) (d : α)
    (hlp : a.logPotentials.length = st.logPotentials.length) (hev : a.evidence.length = st.numVarStates) (hm : a.ftovMsgs.length = st.totalFactorNumStates)
    {b : Nat → α} (hmod : Tame (graphOf vgs hist) a.logPotentials (readEv st.varsToStarts a.evidence) d b)
    (hlmod : LogicalTame (graphOf vgs hist) (readEv st.varsToStarts a.evidence) b)
    (hinit : ∀ f i v, IsEdge (graphOf vgs hist).allScopes f i v → ∃ s < v.n, -100000 ≤ readMsgs (graphOf vgs hist).allScopes a.ftovMsgs f i s)
    (hmild : Mild (graphOf vgs hist).allScopes b (readMsgs (graphOf vgs hist).allScopes a.ftovMsgs)) :
    AgreeOn (graphOf vgs hist).allScopes (readMsgs (graphOf vgs hist).allScopes (bp.runBP env a n d).ftovMsgs)
      (tbRun ((graphOf vgs hist).factors a.logPotentials) (readEv st.varsToStarts a.evidence) d n (readMsgs (graphOf vgs hist).allScopes a.ftovMsgs)) := by
  have hmax := (h.maxMsgSize hbp).1
  unfold BPFun.runBP
  induction n with
  | zero =>
    refine (h.norm_read hbp env hfit.seg a.ftovMsgs hm).trans ?_
    intro f i v s he hs
    obtain ⟨F, hF, hi, hsc⟩ := (graphOf vgs hist).factors_edge a.logPotentials he
    rw [normM_at he]
    refine (norm_eq_tb (hmax f i v he) 0 (fun s _ => rfl) ?_ s hs).trans ?_
    · obtain ⟨t, ht, hle⟩ := hinit f i v he
      exact ⟨t, ht, by norm_num [NEG_INF]; exact hle⟩
    · simp only [tbRun, add_zero]
      rw [tbInit_at hF hi]
  | succ n ih =>
    simp only [iterate_succ']
    obtain ⟨i1, i2, i3⟩ := h.iterate_tame hbp env (.inl rfl) hfit summary_max (fun F q i s => by simp [softOut]) a d hlp hev hm hmod hinit hmild n
    exact (h.step_textbook_tame hbp env hfit a.logPotentials a.evidence _ d hlp hev i1 hmod hlmod i3 i2).trans (h.tbStep_congr a.logPotentials _ d ih)

end

section
variable {κ : Type _} {vgs : List (VGroup κ)} {hist : List (AddArg ℝ)} {garbage : Garbage} {st : FGState κ ℝ}

/-- Iteration with the code's summaries, with messages bounded by the ranges of tables. -/
theorem Compiled.run_sum_tame (h : Compiled vgs hist garbage st) {state : BPState ℝ} {bp : BPFun κ ℝ} {T : ℝ} (hT : 0 < T)
    (hbp : BP.create st state T = .ok bp) (env : Env ℝ) (hexp : env.exp = Real.exp) (hlog : env.log = Real.log)
    (hfit : Fits env (graphOf vgs hist) T) (a : BPArrays ℝ) (n : Nat) (d : ℝ)
    (hlp : a.logPotentials.length = st.logPotentials.length) (hev : a.evidence.length = st.numVarStates) (hm : a.ftovMsgs.length = st.totalFactorNumStates)
    {b : Nat → ℝ} (hmod : Tame (graphOf vgs hist) a.logPotentials (readEv st.varsToStarts a.evidence) d b)
    (hinit : ∀ f i v, IsEdge (graphOf vgs hist).allScopes f i v → ∃ s < v.n, -100000 ≤ readMsgs (graphOf vgs hist).allScopes a.ftovMsgs f i s)
    (hmild : Mild (graphOf vgs hist).allScopes b (readMsgs (graphOf vgs hist).allScopes a.ftovMsgs)) :
    AgreeOn (graphOf vgs hist).allScopes (readMsgs (graphOf vgs hist).allScopes (bp.runBP env a n d).ftovMsgs)
      (sumRun (codeSummary (graphOf vgs hist).tables.length T) ((graphOf vgs hist).factors a.logPotentials) (readEv st.varsToStarts a.evidence) d n
        (readMsgs (graphOf vgs hist).allScopes a.ftovMsgs)) := by
  have hmax := (h.maxMsgSize hbp).1
  unfold BPFun.runBP
  induction n with
  | zero =>
    refine (h.norm_read hbp env hfit.seg a.ftovMsgs hm).trans ?_
    intro f i v s he hs
    obtain ⟨F, hF, hi, hsc⟩ := (graphOf vgs hist).factors_edge a.logPotentials he
    rw [normM_at he]
    refine (norm_eq_tb (hmax f i v he) 0 (fun s _ => rfl) ?_ s hs).trans ?_
    · obtain ⟨t, ht, hle⟩ := hinit f i v he
      exact ⟨t, ht, by norm_num [NEG_INF]; exact hle⟩
    · simp only [sumRun, add_zero]
      rw [tbInit_at hF hi]
  | succ n ih =>
    simp only [iterate_succ']
    obtain ⟨i1, i2, i3⟩ := h.iterate_tame hbp env (.inr ⟨hT, envOk_real hexp hlog⟩) hfit (summary_regLse hT) (fun F q i s => softOut_reg hexp hlog hT F q i s)
      a d hlp hev hm hmod hinit hmild n
    exact (h.step_sum_tame hT hbp env hexp hlog hfit a.logPotentials a.evidence _ d hlp hev i1 hmod i3 i2).trans (h.sumStep_congr _ a.logPotentials _ d ih)

end

end PGMax
