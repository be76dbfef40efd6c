import Verif.Lemmas.Floored
import Verif.Lemmas.ExampleT
import Verif.Props.C37

/-! # C57: the update equations with the constant -1e5 made explicit hold for numbers of any size -/

namespace PGMax

variable {κ α : Type _} {vgs : List (VGroup κ)} {hist : List (AddArg α)} {garbage : Garbage} {st : FGState κ α}

/-- **C57, temperature 0.** `n` iterations of `run_bp` with damping `d` compute `n` iterations of max-product belief propagation with the
constant `-1e5` in the places described in `Spec/Floored.lean`, for all log potentials, evidence, initial messages and dampings. -/
theorem C57 [Field α] [LinearOrder α] [IsStrictOrderedRing α] (h : Compiled vgs hist garbage st) {state : BPState α} {bp : BPFun κ α}
    (hbp : BP.create st state 0 = .ok bp) (env : Env α) (hfit : Fits env (graphOf vgs hist) (0 : α)) (a : BPArrays α) (n : Nat) (d : α)
    (hlp : a.logPotentials.length = st.logPotentials.length) (hev : a.evidence.length = st.numVarStates) (hm : a.ftovMsgs.length = st.totalFactorNumStates) :
    AgreeOn (graphOf vgs hist).allScopes (readMsgs (graphOf vgs hist).allScopes (bp.runBP env a n d).ftovMsgs)
      (flRun (flOut (graphOf vgs hist)) ((graphOf vgs hist).factors a.logPotentials) (readEv st.varsToStarts a.evidence) d n
        (readMsgs (graphOf vgs hist).allScopes a.ftovMsgs)) := by
  obtain ⟨e1, -, -, e4, -⟩ := BP_create_ok hbp
  refine h.run_fl hbp env hfit.seg a n d hlp hev hm _ ?_ ?_
  · intro f F hF q q' hq i s v hi hs
    have hok := h.facOk a.logPotentials f F hF
    rw [← facOut_fl env hok q i s v hi, ← facOut_fl env hok q' i s v hi]
    exact facOut_congr env 0 hok hq i s v hi hs
  · intro msgs hml _ f F hF i s v hi hs
    have hv := (h.step_norm hbp env hfit.seg a.logPotentials a.evidence msgs d hlp hml).1
    rw [read_of_at (h.newMsgs_local e1 env a.logPotentials _ hlp hv (by rw [e4]; exact hfit.par) f i s F v hF hi hs), e4,
      facOut_fl env (h.facOk a.logPotentials f F hF) _ i s v hi]

/-- The messages at a positive temperature depend on the incoming messages only. -/
theorem Compiled.ruleSum_congr {hist : List (AddArg ℝ)} {st : FGState κ ℝ} (h : Compiled vgs hist garbage st) (T : ℝ) (lp : List ℝ) :
    RuleCongr ((graphOf vgs hist).factors lp) (flOutSum T (graphOf vgs hist)) := by
  intro f F hF q q' hq i s v hi hs
  have hsc : ∀ t, (F.rowsAt i t).map (scoreBut F.scope.length q i) = (F.rowsAt i t).map (scoreBut F.scope.length q' i) := fun t =>
    List.map_congr_left (fun r hr => scoreBut_congr (h.rowsFit lp hF r (List.mem_filter.1 hr).1) hq i)
  have hsc' : (F.rowsAt i s).map (fun r => scoreBut F.scope.length q i r + q i s) = (F.rowsAt i s).map (fun r => scoreBut F.scope.length q' i r + q' i s) :=
    List.map_congr_left (fun r hr => by rw [scoreBut_congr (h.rowsFit lp hF r (List.mem_filter.1 hr).1) hq i, hq i v s hi hs])
  unfold flOutSum flEnumSum
  rw [hsc, hsc, hsc', hq i v s hi hs]

/-- The messages at a positive temperature. -/
theorem Compiled.ruleSum {hist : List (AddArg ℝ)} {st : FGState κ ℝ} (h : Compiled vgs hist garbage st) {state : BPState ℝ} {bp : BPFun κ ℝ} {T : ℝ} (hT : 0 < T)
    (hbp : BP.create st state T = .ok bp) {env : Env ℝ} (hexp : env.exp = Real.exp) (hlog : env.log = Real.log) (lp vtof : List ℝ)
    (hlp : lp.length = st.logPotentials.length) (hv : vtof.length = st.totalFactorNumStates) :
    RuleAt env bp (graphOf vgs hist) lp vtof (flOutSum T (graphOf vgs hist)) := by
  obtain ⟨e1, -, -, e4, -⟩ := BP_create_ok hbp
  have hpar : bp.temperature = 0 → (graphOf vgs hist).numParents ≤ 100000 := by rw [e4]; intro h0; exact absurd h0 hT.ne'
  intro f F hF i s v hi hs
  unfold flOutSum
  by_cases hf : f < (graphOf vgs hist).tables.length
  · rw [if_pos hf, read_of_at (h.newMsgs_local e1 env lp vtof hlp hv hpar f i s F v hF hi hs), e4]
    unfold FactorGraph.kind
    rw [if_pos hf]
    exact enumOut_flSum hexp hlog hT F _ i s
  · rw [if_neg hf]
    have hkind : (graphOf vgs hist).kind f = some ((graphOf vgs hist).restState f) := by unfold FactorGraph.kind; rw [if_neg hf]
    have hok := h.facOk lp f F hF
    rw [hkind] at hok
    obtain ⟨hrel, hlen, h2⟩ := hok
    have hvn : v.n = 2 := h2 v (List.mem_of_getElem? hi)
    obtain ⟨c, hc⟩ := C30 h T hT hbp env hexp hlog lp vtof hlp hv f i F hF (not_lt.1 hf) (List.getElem?_eq_some_iff.1 hi).1
    have h0 : readMsgs (graphOf vgs hist).allScopes (bp.newMsgs env lp vtof) f i ((graphOf vgs hist).restState f) = 0 := by
      rw [read_of_at (h.newMsgs_local e1 env lp vtof hlp hv hpar f i ((graphOf vgs hist).restState f) F v hF hi (by omega)), hkind]
      simp [facOut, lgOut]
    obtain ⟨-, z, hz, hg⟩ := hc s (by omega)
    obtain ⟨-, z', hz', hg'⟩ := hc ((graphOf vgs hist).restState f) hrel
    rw [read_of_at hz'] at h0
    rw [read_of_at hz]
    unfold lse
    rw [List.map_map, List.map_map]
    simp only [Function.comp_def]
    rw [← hg, ← hg', h0]
    ring

/-- **C57, positive temperatures.** The same at every temperature `T > 0` (real numbers, exact `exp` and `log`). -/
theorem C57_sum {hist : List (AddArg ℝ)} {st : FGState κ ℝ} (h : Compiled vgs hist garbage st) {state : BPState ℝ} {bp : BPFun κ ℝ} {T : ℝ} (hT : 0 < T)
    (hbp : BP.create st state T = .ok bp) (env : Env ℝ) (hexp : env.exp = Real.exp) (hlog : env.log = Real.log)
    (hseg : SegFits env (graphOf vgs hist)) (a : BPArrays ℝ) (n : Nat) (d : ℝ)
    (hlp : a.logPotentials.length = st.logPotentials.length) (hev : a.evidence.length = st.numVarStates) (hm : a.ftovMsgs.length = st.totalFactorNumStates) :
    AgreeOn (graphOf vgs hist).allScopes (readMsgs (graphOf vgs hist).allScopes (bp.runBP env a n d).ftovMsgs)
      (flRun (flOutSum T (graphOf vgs hist)) ((graphOf vgs hist).factors a.logPotentials) (readEv st.varsToStarts a.evidence) d n
        (readMsgs (graphOf vgs hist).allScopes a.ftovMsgs)) := by
  exact h.run_fl hbp env hseg a n d hlp hev hm _ (h.ruleSum_congr T _)
    (fun msgs hml _ => h.ruleSum hT hbp hexp hlog _ _ hlp (h.step_norm hbp env hseg a.logPotentials a.evidence msgs d hlp hml).1)

/-- Non-vacuity of C57, beyond moderate numbers: the run of `C37_refuted`, where the textbook message is `[0, -5]`, and one damped
iteration on the graph `exHist3` of 2- and 3-state variables that ends with a message of maximum below 0. -/
example : Fits exEnv (graphOf exVars exHist) (0 : ℚ) ∧
    (∀ s < 2, flRun (flOut (graphOf exVars exHist)) ((graphOf exVars exHist).factors [0, 0, 0, 0]) (readEv exState.varsToStarts [-200000, 0, 0, 0, 5, 0]) 0 1
      (readMsgs (graphOf exVars exHist).allScopes (List.replicate 18 (0 : ℚ))) 3 0 s = 0) ∧
    (∀ s < 2, flRun (flOut (graphOf exVars3 exHist3)) ((graphOf exVars3 exHist3).factors [0, 0, 0]) (readEv exState3.varsToStarts [300000, 300000, -500000, -500000, -500000])
      0 1 (readMsgs (graphOf exVars3 exHist3).allScopes (List.replicate 5 (0 : ℚ))) 0 0 s = -1000) := by
  refine ⟨⟨.inl rfl, fun _ => by decide +kernel⟩, by decide +kernel, by decide +kernel⟩

/-- Non-vacuity of C57 at temperature 1/2, with log potentials and evidence far beyond `1e5`. -/
example {env : Env ℝ} (hexp : env.exp = Real.exp) (hlog : env.log = Real.log) (hw : env.wrapNeg = false) (n : Nat) :
    AgreeOn (graphOf exVars exHistT).allScopes
      (readMsgs (graphOf exVars exHistT).allScopes ((exBPT (1 / 2)).runBP env ⟨[0, 10 ^ 9, 0, -10 ^ 9, 5, 0, 0, 0], List.replicate 8 0, [-10 ^ 7, 0, 0, 10 ^ 7, 1, 0]⟩ n (1 / 4)).ftovMsgs)
      (flRun (flOutSum (1 / 2) (graphOf exVars exHistT)) ((graphOf exVars exHistT).factors [0, 10 ^ 9, 0, -10 ^ 9, 5, 0, 0, 0])
        (readEv exStateT.varsToStarts [-10 ^ 7, 0, 0, 10 ^ 7, 1, 0]) (1 / 4) n (readMsgs (graphOf exVars exHistT).allScopes (List.replicate 8 0))) :=
  C57_sum exStateT_compiled (by norm_num) (exBPT_create _) env hexp hlog (.inl hw) ⟨[0, 10 ^ 9, 0, -10 ^ 9, 5, 0, 0, 0], List.replicate 8 0, [-10 ^ 7, 0, 0, 10 ^ 7, 1, 0]⟩ n (1 / 4) rfl rfl rfl

end PGMax
