import Verif.Lemmas.Scatter
import Mathlib.Tactic.Ring

/-! # C26: variable-to-factor messages -/

namespace PGMax

variable {κ α : Type _} {vgs : List (VGroup κ)} {hist : List (AddArg α)} {garbage : Garbage} {st : FGState κ α}

theorem BP_create_ok [Field α] [LinearOrder α] {state : BPState α} {T : α} {bp : BPFun κ α}
    (hbp : BP.create st state T = .ok bp) :
    bp.st = st ∧ bp.state = state ∧ bp.varStatesForEdges = st.allVarStates ∧ bp.temperature = T ∧
      bp.edgesNumStates = FType.all.flatMap st.wiring.edgesNumStates ∧ npMax bp.edgesNumStates = .ok bp.maxMsgSize := by
  unfold BP.create at hbp
  simp only [bind, Except.bind, pure, Except.pure] at hbp
  cases hm : npMax (FType.all.flatMap st.wiring.edgesNumStates) with
  | error e => rw [hm] at hbp; cases hbp
  | ok m =>
    rw [hm] at hbp
    cases hbp
    exact ⟨rfl, rfl, rfl, rfl, rfl, hm⟩

/-- **C26.** In every compiled graph, for all messages and evidence of the right lengths, every factor number `f`, position
`i` of its scope holding variable `v`, and state `s` of `v`: the variable-to-factor message at that edge state is the
evidence of `v` in `s` plus the sum of the messages in state `s` of all other edges of `v`. -/
theorem C26_var_to_fac [Field α] [LinearOrder α] (h : Compiled vgs hist garbage st) {state : BPState α} {T : α}
    {bp : BPFun κ α} (hbp : BP.create st state T = .ok bp) (env : Env α) (msgs ev : List α)
    (hm : msgs.length = st.totalFactorNumStates) (hev : ev.length = st.numVarStates)
    (f i : Nat) (vs : List Var) (v : Var) (s : Nat) (hf : (graphOf vgs hist).allScopes[f]? = some vs)
    (hi : vs[i]? = some v) (hs : s < v.n) :
    (passVarToFac env msgs ev bp.varStatesForEdges)[edgeStart (graphOf vgs hist).allScopes f i + s]? =
      some (varToFac (graphOf vgs hist).allScopes (readEv st.varsToStarts ev)
        (readMsgs (graphOf vgs hist).allScopes msgs) v (f, i) s) := by
  obtain ⟨-, -, e, -⟩ := BP_create_ok hbp
  rw [e]
  obtain ⟨t, ht⟩ := h.scopeVars vs (List.mem_iff_getElem?.2 ⟨f, hf⟩) v (List.mem_iff_getElem?.2 ⟨i, hi⟩)
  have hlt := h.edgeStart_lt hf hi hs
  have hvs : st.allVarStates[edgeStart (graphOf vgs hist).allScopes f i + s]? = some (t + s) := by
    rw [h.allVarStates, vsEntries_getElem? _ _ f i vs v s hf hi hs, ht]; rfl
  have hb := h.scatter_beliefs msgs ev hm hev v s hs t ht
  unfold passVarToFac zipOp
  rw [List.getElem?_zipWith, gather_getElem?, hvs, List.getElem?_eq_getElem (l := msgs) (by omega)]
  simp only [Option.map_some, List.getD, hb, Option.getD_some, Option.some.injEq]
  unfold beliefOf varToFac
  rw [sum_filter_ne (edgesOf (graphOf vgs hist).allScopes v) (edgesOf_nodup _ _) (f, i) ((mem_edgesOf _ _ _ _).2 ⟨vs, hf, hi⟩)]
  have : readMsgs (graphOf vgs hist).allScopes msgs f i s = msgs[edgeStart (graphOf vgs hist).allScopes f i + s]'(by omega) := by
    simp [readMsgs, List.getD, List.getElem?_eq_getElem (show edgeStart (graphOf vgs hist).allScopes f i + s < msgs.length by omega)]
  rw [← this]
  ring

/-- The evidence read by the specification is what `Evidence.__getitem__` returns. -/
theorem C26_evidence [Zero α] (h : Compiled vgs hist garbage st) (ev : List α) (hev : ev.length = st.numVarStates) (v : Var)
    (x : List α) (hx : Evidence.getitem st ev v = .ok x) (s : Nat) (hs : s < v.n) :
    x[s]? = some (readEv st.varsToStarts ev v s) := by
  obtain ⟨-, b2, -, -⟩ := h.blocks
  unfold Evidence.getitem StartMap.get at hx
  cases hv : st.varsToStarts v with
  | none => rw [hv] at hx; cases hx
  | some t =>
    rw [hv] at hx
    cases hx
    have := b2 v t hv
    rw [slice_getElem?, if_pos (by omega)]
    simp [readEv, hv, List.getD, List.getElem?_eq_getElem (show t + s < ev.length by omega)]

end PGMax
