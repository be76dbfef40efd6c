import Verif.Lemmas.SumTextbook
import Verif.Lemmas.ExampleT

/-! # C54: at positive temperatures, `run_bp` is textbook sum-product belief propagation -/

namespace PGMax

variable {κ : Type _} {vgs : List (VGroup κ)} {hist : List (AddArg ℝ)} {garbage : Garbage} {st : FGState κ ℝ}

/-- **C54, partial.** On any graph, at any temperature `T > 0`, damping and number of iterations, the messages of `run_bp` differ from those
of textbook sum-product belief propagation (from the same initial messages) by at most `T exp (-1e5) ∑ (2 L)^k`, `k < n`, if no message of a
factor depends on more than `L` messages to the factor's other variables.
Missing: numbers that are not moderate (`C54_refuted`); the size limits `Fits`. -/
theorem C54_partial (h : Compiled vgs hist garbage st) {state : BPState ℝ} {bp : BPFun κ ℝ} {T : ℝ} (hT : 0 < T)
    (hbp : BP.create st state T = .ok bp) (env : Env ℝ) (hexp : env.exp = Real.exp) (hlog : env.log = Real.log)
    (hfit : Fits env (graphOf vgs hist) T) (a : BPArrays ℝ) (n : Nat) (d : ℝ)
    (hlp : a.logPotentials.length = st.logPotentials.length) (hev : a.evidence.length = st.numVarStates) (hm : a.ftovMsgs.length = st.totalFactorNumStates)
    (hmod : Moderate (graphOf vgs hist) a.logPotentials (readEv st.varsToStarts a.evidence) d)
    (hinit : ∀ f i v, IsEdge (graphOf vgs hist).allScopes f i v → ∃ s < v.n, -100000 ≤ readMsgs (graphOf vgs hist).allScopes a.ftovMsgs f i s)
    {L : ℝ} (hL1 : 1 ≤ L) (hL : ∀ vs ∈ (graphOf vgs hist).allScopes, ∀ i < vs.length, (inputsBut (graphOf vgs hist).allScopes vs i : ℝ) ≤ L)
    (f i : Nat) (v : Var) (s : Nat) (he : IsEdge (graphOf vgs hist).allScopes f i v) (hs : s < v.n) :
    |readMsgs (graphOf vgs hist).allScopes (bp.runBP env a n d).ftovMsgs f i s
      - sumRun (fun _ => lse T) ((graphOf vgs hist).factors a.logPotentials) (readEv st.varsToStarts a.evidence) d n
          (readMsgs (graphOf vgs hist).allScopes a.ftovMsgs) f i s| ≤ T * Real.exp (-100000) * ∑ k ∈ Finset.range n, (2 * L) ^ k := by
  rw [h.run_sum hT hbp env hexp hlog hfit a n d hlp hev hm hmod hinit f i v s he hs]
  have hsc := (graphOf vgs hist).factors_scopes a.logPotentials
  refine sumRun_close (fun F hF => ?_) hT _ (fun f l hl => ⟨(codeSummary_bounds _ hT f hl).1, le_trans (codeSummary_bounds _ hT f hl).2 (by split <;> [exact le_rfl; (have := Real.exp_pos (-100000 : ℝ); nlinarith)])⟩) (by positivity) hL1 (fun F hF i hi => ?_) _ hmod.damping _ n f i v s
    (by rw [hsc]; exact he) hs
  · obtain ⟨f, hf⟩ := List.mem_iff_getElem?.1 hF
    exact h.rowsFit a.logPotentials hf
  · rw [hsc]
    exact hL F.scope (by rw [← hsc]; exact List.mem_map.2 ⟨F, hF, rfl⟩) i hi

/-- **C54, partial, logical factors only.** Without enumeration factors, the messages are exactly those of textbook sum-product. Missing: as
above. -/
theorem C54_logical_partial (h : Compiled vgs hist garbage st) {state : BPState ℝ} {bp : BPFun κ ℝ} {T : ℝ} (hT : 0 < T)
    (hbp : BP.create st state T = .ok bp) (env : Env ℝ) (hexp : env.exp = Real.exp) (hlog : env.log = Real.log)
    (hfit : Fits env (graphOf vgs hist) T) (a : BPArrays ℝ) (n : Nat) (d : ℝ)
    (hlp : a.logPotentials.length = st.logPotentials.length) (hev : a.evidence.length = st.numVarStates) (hm : a.ftovMsgs.length = st.totalFactorNumStates)
    (hmod : Moderate (graphOf vgs hist) a.logPotentials (readEv st.varsToStarts a.evidence) d)
    (hinit : ∀ f i v, IsEdge (graphOf vgs hist).allScopes f i v → ∃ s < v.n, -100000 ≤ readMsgs (graphOf vgs hist).allScopes a.ftovMsgs f i s)
    (hnone : (graphOf vgs hist).tables = []) :
    AgreeOn (graphOf vgs hist).allScopes (readMsgs (graphOf vgs hist).allScopes (bp.runBP env a n d).ftovMsgs)
      (sumRun (fun _ => lse T) ((graphOf vgs hist).factors a.logPotentials) (readEv st.varsToStarts a.evidence) d n
        (readMsgs (graphOf vgs hist).allScopes a.ftovMsgs)) := by
  have := h.run_sum hT hbp env hexp hlog hfit a n d hlp hev hm hmod hinit
  rw [hnone] at this
  exact this

/-! ## Refutation and non-vacuity -/

/-- The textbook message of the factor of `exHistS` to its first variable. -/
theorem exTextbookS {T : ℝ} (hT : 0 < T) (m : Msgs ℝ) :
    sumRun (fun _ => lse T) ((graphOf exVars exHistS).factors [0, 0, -500, -500]) (readEv exStateS.varsToStarts exEvS) 0 1 m 0 0 1 = -500 := by
  rw [exFactorsS]
  show sumStep _ _ _ _ _ 0 0 1 = _
  rw [sumStep_at _ (F := exFacS) (v := exVar 0) rfl rfl]
  generalize hq : tbIn [exFacS] (readEv exStateS.varsToStarts exEvS) (sumRun (fun _ => lse T) [exFacS] (readEv exStateS.varsToStarts exEvS) 0 0 m) 0 exFacS = q
  have hq1 : ∀ s < 2, q 1 s = -200000 := by
    intro s hs
    rw [← hq, tbIn_at (F := exFacS) (w := exVar 1) rfl]
    unfold varToFac
    rw [(exReadEvS s hs).2, show ((edgesOf ([exFacS].map (·.scope)) (exVar 1)).filter (fun e' => e' ≠ (0, 1))) = [] from by
      rw [show [exFacS].map (·.scope) = [[exVar 0, exVar 1]] from rfl]; decide +kernel]
    simp
  have hsc : ∀ (c : Nat) (x : ℝ) (t : Nat), t < 2 → scoreBut 2 q 0 ([c, t], x) = x + -200000 := by
    intro c x t ht
    simp only [scoreBut]
    rw [show (List.range 2).filter (fun j => j ≠ 0) = [1] from rfl]
    simp only [List.map_cons, List.map_nil, List.sum_cons, List.sum_nil, List.getD_cons_succ, List.getD_cons_zero]
    rw [hq1 t ht, add_zero]
  have hl : ∀ y : ℝ, lse T [y, y] = T * Real.log 2 + y := by
    intro y
    simp only [lse, List.map_cons, List.map_nil, List.sum_cons, List.sum_nil, add_zero]
    rw [← two_mul, Real.log_mul two_ne_zero (Real.exp_pos _).ne', Real.log_exp, mul_add, mul_div_cancel₀ _ hT.ne']
  have e2 : exFacS.scope.length = 2 := rfl
  have e0 : exFacS.rowsAt 0 0 = [([0, 0], 0), ([0, 1], 0)] := by simp [SFac.rowsAt, exFacS]
  have e1 : exFacS.rowsAt 0 1 = [([1, 0], -500), ([1, 1], -500)] := by simp [SFac.rowsAt, exFacS]
  generalize sumRun (fun _ => lse T) [exFacS] (readEv exStateS.varsToStarts exEvS) 0 0 m = m0
  have h0 : (sumOut (lse T) exFacS q 0 0).map (fun x => 0 * m0 0 0 0 + (1 - 0) * x) = WithBot.some (T * Real.log 2 + -200000) := by
    simp only [sumOut, e0, e2, List.map_cons, List.map_nil, hsc 0 0 0 (by omega), hsc 0 0 1 (by omega), hl, reduceCtorEq, if_false, WithBot.map_coe]
    congr 1
    ring
  have h1 : (sumOut (lse T) exFacS q 0 1).map (fun x => 0 * m0 0 0 1 + (1 - 0) * x) = WithBot.some (T * Real.log 2 + -200500) := by
    simp only [sumOut, e1, e2, List.map_cons, List.map_nil, hsc 1 (-500) 0 (by omega), hsc 1 (-500) 1 (by omega), hl, reduceCtorEq, if_false, WithBot.map_coe]
    congr 1
    ring
  rw [tbNorm_coe (b := T * Real.log 2 + -200000) (a := T * Real.log 2 + -200500) ?_ h1]
  · rw [max_eq_left] <;> linarith
  · show (Finset.range 2).sup _ = _
    rw [Finset.range_add_one, Finset.range_one, Finset.sup_insert, Finset.sup_singleton, h0, h1]
    refine sup_eq_right.2 ?_
    exact WithBot.coe_le_coe.2 (by linarith)

/-- **C54 does not hold in general.** In the graph of one factor `exHistS`, with evidence -2e5 for both states of the second variable, the
message to the first variable at temperature 1 after one iteration is -500 in state 1 in textbook sum-product, and at least -2 in the code. -/
theorem C54_refuted {env : Env ℝ} (hexp : env.exp = Real.exp) (hlog : env.log = Real.log) (hw : env.wrapNeg = false) :
    sumRun (fun _ => lse 1) ((graphOf exVars exHistS).factors [0, 0, -500, -500]) (readEv exStateS.varsToStarts exEvS) 0 1
      (readMsgs (graphOf exVars exHistS).allScopes [0, 0, 0, 0]) 0 0 1 = -500 ∧
    -2 ≤ readMsgs (graphOf exVars exHistS).allScopes ((exBPS 1).runBP env ⟨[0, 0, -500, -500], [0, 0, 0, 0], exEvS⟩ 1 0).ftovMsgs 0 0 1 :=
  ⟨exTextbookS one_pos _, exMessageS hexp hlog hw 1 (by norm_num)⟩

/-- Non-vacuity of C54: the chain `exHistT`, at temperature 1/2 and damping 1/4. -/
example {env : Env ℝ} (hexp : env.exp = Real.exp) (hlog : env.log = Real.log) (hw : env.wrapNeg = false) (n f i : Nat) (v : Var) (s : Nat)
    (he : IsEdge (graphOf exVars exHistT).allScopes f i v) (hs : s < v.n) :
    |readMsgs (graphOf exVars exHistT).allScopes ((exBPT (1 / 2)).runBP env ⟨exLpT, List.replicate 8 0, exEvT⟩ n (1 / 4)).ftovMsgs f i s
      - sumRun (fun _ => lse (1 / 2)) ((graphOf exVars exHistT).factors exLpT) (readEv exStateT.varsToStarts exEvT) (1 / 4) n
          (readMsgs (graphOf exVars exHistT).allScopes (List.replicate 8 0)) f i s| ≤ 1 / 2 * Real.exp (-100000) * ∑ k ∈ Finset.range n, (2 * 1) ^ k :=
  C54_partial exStateT_compiled (by norm_num) (exBPT_create _) env hexp hlog (exFitsT hw (by norm_num)) ⟨exLpT, List.replicate 8 0, exEvT⟩ n (1 / 4) rfl rfl
    (by simp; rfl) (exModerateT (by norm_num)) exInitT le_rfl (by
      have hd : ∀ vs ∈ [[exVar 0, exVar 1], [exVar 1, exVar 2]], ∀ i < vs.length, inputsBut [[exVar 0, exVar 1], [exVar 1, exVar 2]] vs i ≤ 1 := by decide +kernel
      rw [exScopesT]
      intro vs hvs i hi
      exact_mod_cast hd vs hvs i hi) f i v s he hs

end PGMax
