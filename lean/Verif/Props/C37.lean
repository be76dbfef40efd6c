import Verif.Lemmas.Textbook
import Verif.Props.C39_C40

/-! # C37: `run_bp` computes textbook belief propagation -/

namespace PGMax

variable {κ α : Type _} {vgs : List (VGroup κ)} {hist : List (AddArg α)} {garbage : Garbage} {st : FGState κ α}

/-- **C37, for moderate numbers.** `n` iterations of `run_bp` at temperature 0 with damping `d` compute `n` synchronous iterations of
textbook max-product belief propagation on the factors of the graph: for every factor, variable of its scope and state, the message
in the flat array is the textbook message. `[missing: numbers beyond those bounds, where the code's constant -1e5 is not minus infinity:
C37_refuted]` -/
theorem C37_partial [Field α] [LinearOrder α] [IsStrictOrderedRing α] (h : Compiled vgs hist garbage st) {state : BPState α} {bp : BPFun κ α}
    (hbp : BP.create st state 0 = .ok bp) (env : Env α) (hfit : Fits env (graphOf vgs hist) (0 : α)) (a : BPArrays α) (n : Nat) (d : α)
    (hlp : a.logPotentials.length = st.logPotentials.length) (hev : a.evidence.length = st.numVarStates) (hm : a.ftovMsgs.length = st.totalFactorNumStates)
    (hmod : Moderate (graphOf vgs hist) a.logPotentials (readEv st.varsToStarts a.evidence) d)
    (hlmod : LogicalModerate (graphOf vgs hist) (readEv st.varsToStarts a.evidence))
    (hinit : ∀ f i v, IsEdge (graphOf vgs hist).allScopes f i v → ∃ s < v.n, -100000 ≤ readMsgs (graphOf vgs hist).allScopes a.ftovMsgs f i s) :
    AgreeOn (graphOf vgs hist).allScopes (readMsgs (graphOf vgs hist).allScopes (bp.runBP env a n d).ftovMsgs)
      (tbRun ((graphOf vgs hist).factors a.logPotentials) (readEv st.varsToStarts a.evidence) d n (readMsgs (graphOf vgs hist).allScopes a.ftovMsgs)) := by
  have hmax := (h.maxMsgSize hbp).1
  have hl := h.normalize_length hbp env _ hm
  have hc : ∀ {x y : Msgs α}, AgreeOn (graphOf vgs hist).allScopes x y → Clipped (graphOf vgs hist).allScopes y → Clipped (graphOf vgs hist).allScopes x := by
    intro x y hxy hy f i v s he hs
    rw [hxy f i v s he hs]
    exact hy f i v s he hs
  unfold BPFun.runBP
  induction n with
  | zero =>
    refine (h.norm_read hbp env hfit.seg a.ftovMsgs hm).trans ?_
    intro f i v s he hs
    obtain ⟨F, hF, hi, hsc⟩ := (graphOf vgs hist).factors_edge a.logPotentials he
    rw [normM_at he]
    refine (norm_eq_tb (hmax f i v he) 0 (fun s _ => rfl) ?_ s hs).trans ?_
    · obtain ⟨t, ht, hle⟩ := hinit f i v he
      exact ⟨t, ht, by norm_num [NEG_INF]; exact hle⟩
    · simp only [tbRun, add_zero]
      rw [tbInit_at hF hi]
  | succ n ih =>
    simp only [iterate_succ']
    have hlen := (h.iterate_read hbp env hfit a.logPotentials a.evidence d hlp hev n _ hl).1
    have hcl : Clipped (graphOf vgs hist).allScopes (readMsgs (graphOf vgs hist).allScopes
        (BPFun.iterate (bp.step env a.logPotentials a.evidence d) n (normalizeAndClip env a.ftovMsgs bp.edgesNumStates bp.maxMsgSize))) := by
      cases n with
      | zero => exact hc (h.norm_read hbp env hfit.seg a.ftovMsgs hm) (normM_clipped hmax _)
      | succ n =>
        rw [iterate_succ']
        exact hc (h.step_norm hbp env hfit.seg a.logPotentials a.evidence _ d hlp
          (h.iterate_read hbp env hfit a.logPotentials a.evidence d hlp hev n _ hl).1).2.2.2 (normM_clipped hmax _)
    exact (h.step_textbook hbp env hfit a.logPotentials a.evidence _ d hlp hev hlen hmod hlmod hcl).trans (h.tbStep_congr a.logPotentials _ d ih)

/-- **C37 does not hold in general.** In the graph `exHist`, the evidence of variable 0 is -2e5 in state 0. The AND factor (factor 3) then
sends the message `[0, 0]` to its first parent after one iteration, and the textbook message is `[0, -5]`. -/
theorem C37_refuted :
    (∀ s < 2, readMsgs (graphOf exVars exHist).allScopes (exBP.runBP exEnv ⟨[0, 0, 0, 0], List.replicate 18 0, [-200000, 0, 0, 0, 5, 0]⟩ 1 0).ftovMsgs 3 0 s = 0) ∧
    (tbRun ((graphOf exVars exHist).factors [0, 0, 0, 0]) (readEv exState.varsToStarts [-200000, 0, 0, 0, 5, 0]) 0 1
      (readMsgs (graphOf exVars exHist).allScopes (List.replicate 18 0)) 3 0 1 = -5) := by
  refine ⟨by decide +kernel, by decide +kernel⟩

theorem exEdge : ∀ f i v, IsEdge (graphOf exVars exHist).allScopes f i v → v.n = 2 ∧ (edgesOf (graphOf exVars exHist).allScopes v).length ≤ 4 := by
  have e3 : (graphOf exVars exHist).allScopes = [[exVar 0, exVar 1], [exVar 1, exVar 2], [exVar 0, exVar 1], [exVar 1, exVar 0, exVar 2]] := rfl
  rintro f i v ⟨vs, h1, h2⟩
  have h3 : ∀ vs ∈ (graphOf exVars exHist).allScopes, ∀ v ∈ vs, v.n = 2 ∧ (edgesOf (graphOf exVars exHist).allScopes v).length ≤ 4 := by
    rw [e3]; decide +kernel
  exact h3 vs (List.mem_of_getElem? h1) v (List.mem_of_getElem? h2)

/-- Non-vacuity of C37: three damped iterations on the graph `exHist` (two enumeration factors, an OR and an AND in one loopy graph). -/
example : Fits exEnv (graphOf exVars exHist) (0 : ℚ) ∧
    Moderate (graphOf exVars exHist) [0, 1, 2, 0] (readEv exState.varsToStarts [0, 3, 1, 0, 0, 2]) (1 / 2 : ℚ) ∧
    LogicalModerate (graphOf exVars exHist) (readEv exState.varsToStarts [0, 3, 1, 0, 0, (2 : ℚ)]) ∧
    (∀ f i v, IsEdge (graphOf exVars exHist).allScopes f i v → ∃ s < v.n, -100000 ≤ readMsgs (graphOf exVars exHist).allScopes (List.replicate 18 (0 : ℚ)) f i s) ∧
    (exBP.runBP exEnv ⟨[0, 1, 2, 0], List.replicate 18 0, [0, 3, 1, 0, 0, 2]⟩ 3 (1 / 2)).ftovMsgs
      = [-17 / 8, 0, -33 / 8, 0, -3 / 8, 0, -13 / 8, 0, -13 / 8, 0, -29 / 8, 0, -11 / 8, 0, -5 / 4, 0, -21 / 8, 0] := by
  have hev : ∀ v s, |readEv exState.varsToStarts [0, 3, 1, 0, 0, (2 : ℚ)] v s| ≤ 3 := by
    intro v s
    unfold readEv List.getD
    cases e : [0, 3, 1, 0, 0, (2 : ℚ)][(exState.varsToStarts v).getD 0 + s]? with
    | none => norm_num
    | some x =>
      have hl : ∀ x ∈ [0, 3, 1, 0, 0, (2 : ℚ)], |x| ≤ 3 := by decide +kernel
      exact hl x (List.mem_of_getElem? e)
  refine ⟨⟨.inl rfl, fun _ => by decide +kernel⟩, ?_, ?_, ?_, by decide +kernel⟩
  · refine moderate_of_bounds (E := 3) (P := 2) (D := 4) (K := 2) (by norm_num) (fun _ _ v s _ _ => hev v s) ?_ (by norm_num) ?_ (by norm_num)
    · intro f i v he
      exact_mod_cast (exEdge f i v he).2
    · have e : (graphOf exVars exHist).tables = [([exVar 0, exVar 1], ⟨2, [[0, 0], [1, 1]]⟩), ([exVar 1, exVar 2], ⟨2, [[0, 0], [1, 1]]⟩)] := rfl
      rw [e]
      decide +kernel
  · intro f vs hvs _
    by_cases h2 : vs.length = 2
    · exact .inl h2
    · have hlen : ∀ vs ∈ (graphOf exVars exHist).allScopes, vs.length = 2 ∨ vs.length = 3 := by decide +kernel
      have h3 : vs.length = 3 := (hlen vs (List.mem_of_getElem? hvs)).resolve_left h2
      refine .inr ⟨0, by omega, 1, by omega, by omega, ?_⟩
      intro i _ v hv
      have h4 := (exEdge f i v ⟨vs, hvs, hv⟩).2
      have h5 : (((edgesOf (graphOf exVars exHist).allScopes v).length : Nat) : ℚ) ≤ 4 := by exact_mod_cast h4
      have h6 := abs_le.1 (hev v (1 - (graphOf exVars exHist).restState f))
      have h7 := abs_le.1 (hev v ((graphOf exVars exHist).restState f))
      linarith [h6.1, h7.2]
  · intro f i v he
    refine ⟨0, by rw [(exEdge f i v he).1]; omega, ?_⟩
    unfold readMsgs
    rw [List.getD_eq_getElem?_getD, List.getElem?_replicate]
    split <;> norm_num

end PGMax
