import Verif.Lemmas.Iso
import Verif.Lemmas.Example
import Verif.Props.C38

/-! # C72: isomorphic factor graphs -/

namespace PGMax

variable {κ κ' α : Type _} {vgs : List (VGroup κ)} {vgs' : List (VGroup κ')} {hist hist' : List (AddArg α)} {garbage garbage' : Garbage}
  {st : FGState κ α} {st' : FGState κ' α}

section
variable [Field α] [LinearOrder α] [IsStrictOrderedRing α]

omit [Field α] [LinearOrder α] [IsStrictOrderedRing α] in
theorem Compiled.edge_vars (h : Compiled vgs hist garbage st) (f i : Nat) (v : Var) (he : IsEdge (graphOf vgs hist).allScopes f i v) : v ∈ graphVars vgs := by
  obtain ⟨vs, h1, h2⟩ := he
  obtain ⟨s, hs⟩ := h.scopeVars vs (List.mem_of_getElem? h1) v (List.mem_of_getElem? h2)
  obtain ⟨i, hi, -⟩ := (h.starts_iff v s).1 hs
  exact List.mem_toFinset.2 (List.mem_of_getElem? hi)

/-- **C72 (1), partial.** Two graphs, possibly with different variable groups, that are the same up to the numbers of the factors,
the positions of the variables in the scopes, the names of the variables, the numbers of their states, and exchanging OR and AND
where the states are exchanged: from corresponding evidence and messages, all messages and beliefs correspond after any number of
iterations, at any damping and temperature.
Missing: at temperature 0, reordering the parents of OR and AND factors when the evidence prefers one state by about `1e5`
(`C72_refuted`); the size limits `Fits`. -/
theorem C72_partial (h : Compiled vgs hist garbage st) (h' : Compiled vgs' hist' garbage' st') {state state' : BPState α} {T : α}
    {bp : BPFun κ α} {bp' : BPFun κ' α} (hbp : BP.create st state T = .ok bp) (hbp' : BP.create st' state' T = .ok bp') (env : Env α)
    (hfit : Fits env (graphOf vgs hist) T) (hfit' : Fits env (graphOf vgs' hist') T) (a a' : BPArrays α) (n : Nat) (d : α)
    (hlp : a.logPotentials.length = st.logPotentials.length) (hlp' : a'.logPotentials.length = st'.logPotentials.length)
    (hm : a.ftovMsgs.length = st.totalFactorNumStates) (hm' : a'.ftovMsgs.length = st'.totalFactorNumStates)
    (hev : a.evidence.length = st.numVarStates) (hev' : a'.evidence.length = st'.numVarStates)
    (R : Renaming) (hiso : R.Iso (graphOf vgs hist) (graphOf vgs' hist') a.logPotentials a'.logPotentials)
    (hvars : R.VarsOk (graphVars vgs) (graphVars vgs'))
    (hse : R.SameVals (graphVars vgs) (readEv st.varsToStarts a.evidence) (readEv st'.varsToStarts a'.evidence))
    (hsm : R.SameMsgs (graphOf vgs hist).allScopes (readMsgs (graphOf vgs hist).allScopes a.ftovMsgs) (readMsgs (graphOf vgs' hist').allScopes a'.ftovMsgs))
    (hord : T = 0 → R.OrderOk (graphOf vgs hist) (readEv st.varsToStarts a.evidence)) :
    R.SameMsgs (graphOf vgs hist).allScopes (readMsgs (graphOf vgs hist).allScopes (bp.runBP env a n d).ftovMsgs)
      (readMsgs (graphOf vgs' hist').allScopes (bp'.runBP env a' n d).ftovMsgs) ∧
    ∀ v ∈ graphVars vgs, ∃ start start', st.varsToStarts v = some start ∧ st'.varsToStarts (R.var v) = some start' ∧ ∀ s < v.n,
      ∃ b, (bp.flatBeliefs (bp.runBP env a n d))[start + s]? = some b ∧ (bp'.flatBeliefs (bp'.runBP env a' n d))[start' + R.state v s]? = some b := by
  have hin := h.edge_vars
  have hmax : bp'.maxMsgSize = bp.maxMsgSize := by
    obtain ⟨u1, f1, i1, v1, e1, r1⟩ := h.maxMsgSize hbp
    obtain ⟨u2, f2, i2, v2, e2, r2⟩ := h'.maxMsgSize hbp'
    apply le_antisymm
    · rw [← r2]
      obtain ⟨f, i, v, he, rfl, rfl, rfl⟩ := hiso.edge_surj e2
      rw [hvars.size v (hin _ _ _ he)]
      exact u1 f i v he
    · rw [← r1, ← hvars.size v1 (hin _ _ _ e1)]
      exact u2 _ _ _ (hiso.scopes _ _ _ e1)
  obtain ⟨l1, r1⟩ := h.run_read hbp env hfit a d hlp hev n hm
  obtain ⟨l2, r2⟩ := h'.run_read hbp' env hfit' a' d hlp' hev' n hm'
  rw [hmax] at r2
  have hle := (h.maxMsgSize hbp).1
  have hC : R.SameMsgs (graphOf vgs hist).allScopes (readMsgs (graphOf vgs hist).allScopes (bp.runBP env a n d).ftovMsgs)
      (readMsgs (graphOf vgs' hist').allScopes (bp'.runBP env a' n d).ftovMsgs) := by
    intro f i v s he hs
    have hvv := hin _ _ _ he
    rw [r1 f i v s he hs, r2 _ _ _ _ (hiso.scopes f i v he) (by rw [hvars.size v hvv]; exact (hvars.states v hvv s).1 hs)]
    exact hiso.iterM hvars hin hle (fun f F hF => h.facOk _ f F hF) env T hse hord d n (normM_clipped hle _) (hiso.normM hvars hin hle hsm) f i v s he hs
  refine ⟨hC, fun v hv => ?_⟩
  obtain ⟨g, hg, hvg⟩ := mem_graphVars.1 hv
  obtain ⟨start, hst⟩ := h.mem_starts hg hvg
  obtain ⟨g', hg', hvg'⟩ := mem_graphVars.1 (hvars.known v hv)
  obtain ⟨start', hst'⟩ := h'.mem_starts hg' hvg'
  refine ⟨start, start', hst, hst', fun s hs => ⟨_, C34_flat h hbp _ l1 hev v start hst s hs, ?_⟩⟩
  rw [C34_flat h' hbp' _ l2 hev' (R.var v) start' hst' (R.state v s) (by rw [hvars.size v hv]; exact (hvars.states v hv s).1 hs)]
  exact congrArg some (hiso.beliefOf hvars hin hse hC v hv s hs)

/-- **C72 (2).** If the parents of OR and AND factors keep their order, this holds for evidence of any size. -/
theorem C72_kept (h : Compiled vgs hist garbage st) (h' : Compiled vgs' hist' garbage' st') {state state' : BPState α} {T : α}
    {bp : BPFun κ α} {bp' : BPFun κ' α} (hbp : BP.create st state T = .ok bp) (hbp' : BP.create st' state' T = .ok bp') (env : Env α)
    (hfit : Fits env (graphOf vgs hist) T) (hfit' : Fits env (graphOf vgs' hist') T) (a a' : BPArrays α) (n : Nat) (d : α)
    (hlp : a.logPotentials.length = st.logPotentials.length) (hlp' : a'.logPotentials.length = st'.logPotentials.length)
    (hm : a.ftovMsgs.length = st.totalFactorNumStates) (hm' : a'.ftovMsgs.length = st'.totalFactorNumStates)
    (hev : a.evidence.length = st.numVarStates) (hev' : a'.evidence.length = st'.numVarStates)
    (R : Renaming) (hiso : R.Iso (graphOf vgs hist) (graphOf vgs' hist') a.logPotentials a'.logPotentials)
    (hvars : R.VarsOk (graphVars vgs) (graphVars vgs'))
    (hse : R.SameVals (graphVars vgs) (readEv st.varsToStarts a.evidence) (readEv st'.varsToStarts a'.evidence))
    (hsm : R.SameMsgs (graphOf vgs hist).allScopes (readMsgs (graphOf vgs hist).allScopes a.ftovMsgs) (readMsgs (graphOf vgs' hist').allScopes a'.ftovMsgs))
    (hkept : ∀ (f : Nat) (vs : List Var), ((graphOf vgs hist).scopesOf .enum).length ≤ f → (graphOf vgs hist).allScopes[f]? = some vs →
      ∀ i < vs.length, R.pos f i = i) :
    R.SameMsgs (graphOf vgs hist).allScopes (readMsgs (graphOf vgs hist).allScopes (bp.runBP env a n d).ftovMsgs)
      (readMsgs (graphOf vgs' hist').allScopes (bp'.runBP env a' n d).ftovMsgs) ∧
    ∀ v ∈ graphVars vgs, ∃ start start', st.varsToStarts v = some start ∧ st'.varsToStarts (R.var v) = some start' ∧ ∀ s < v.n,
      ∃ b, (bp.flatBeliefs (bp.runBP env a n d))[start + s]? = some b ∧ (bp'.flatBeliefs (bp'.runBP env a' n d))[start' + R.state v s]? = some b :=
  C72_partial h h' hbp hbp' env hfit hfit' a a' n d hlp hlp' hm hm' hev hev' R hiso hvars hse hsm
    (fun _ f vs hf hvs => .inl (hkept f vs hf hvs))

/-- **C72 (3), partial.** If a graph with its log potentials and evidence is symmetric, then the beliefs are symmetric after any number of
iterations from zero messages, at any damping and temperature. Missing: as in (1). -/
theorem C72_symmetric_partial (h : Compiled vgs hist garbage st) {state : BPState α} {T : α}
    {bp : BPFun κ α} (hbp : BP.create st state T = .ok bp) (env : Env α) (hfit : Fits env (graphOf vgs hist) T) (lp ev : List α) (n : Nat) (d : α)
    (hlp : lp.length = st.logPotentials.length) (hev : ev.length = st.numVarStates)
    (R : Renaming) (hiso : R.Iso (graphOf vgs hist) (graphOf vgs hist) lp lp)
    (hvars : R.VarsOk (graphVars vgs) (graphVars vgs))
    (hse : R.SameVals (graphVars vgs) (readEv st.varsToStarts ev) (readEv st.varsToStarts ev))
    (hord : T = 0 → R.OrderOk (graphOf vgs hist) (readEv st.varsToStarts ev)) :
    ∀ v ∈ graphVars vgs, ∃ start start', st.varsToStarts v = some start ∧ st.varsToStarts (R.var v) = some start' ∧ ∀ s < v.n,
      ∃ b, (bp.flatBeliefs (bp.runBP env ⟨lp, List.replicate st.totalFactorNumStates 0, ev⟩ n d))[start + s]? = some b ∧
        (bp.flatBeliefs (bp.runBP env ⟨lp, List.replicate st.totalFactorNumStates 0, ev⟩ n d))[start' + R.state v s]? = some b := by
  have z : ∀ (k : Nat) (f i s : Nat), readMsgs (graphOf vgs hist).allScopes (List.replicate k (0 : α)) f i s = 0 := by
    intro k f i s
    unfold readMsgs
    rw [List.getD_eq_getElem?_getD, List.getElem?_replicate]
    split <;> rfl
  exact (C72_partial h h hbp hbp env hfit hfit ⟨lp, List.replicate st.totalFactorNumStates 0, ev⟩ ⟨lp, List.replicate st.totalFactorNumStates 0, ev⟩ n d
    hlp hlp (by simp) (by simp) hev hev R hiso hvars hse (fun f i v s _ _ => by simp only [z]) hord).2

end

/-! ## The order of the parents -/

/-- One OR factor with parents `v0`, `v1` and child `v2`. -/
def exPar : List (AddArg ℚ) := [.one ⟨5, .or, .single, [[exVar 0, exVar 1, exVar 2]], ⟨0, []⟩, []⟩]
/-- The same factor with its parents in the other order. -/
def exPar' : List (AddArg ℚ) := [.one ⟨5, .or, .single, [[exVar 1, exVar 0, exVar 2]], ⟨0, []⟩, []⟩]

/-- The compiled state of a history. -/
def exIsoSt (hist : List (AddArg ℚ)) : FGState Nat ℚ :=
  match (graphOf exVars hist).fgState 0 with
  | .ok st => st
  | .error _ => exState

/-- Max-product belief propagation on it. -/
def exIsoBP (hist : List (AddArg ℚ)) : BPFun Nat ℚ :=
  match BP.create (exIsoSt hist) exBPState 0 with
  | .ok bp => bp
  | .error _ => exBP

/-- The beliefs after `n` undamped iterations from zero messages. -/
def exIsoBeliefs (hist : List (AddArg ℚ)) (ev : List ℚ) (n : Nat) : List ℚ :=
  (exIsoBP hist).flatBeliefs ((exIsoBP hist).runBP exEnv
    ⟨(exIsoSt hist).logPotentials, List.replicate (exIsoSt hist).totalFactorNumStates 0, ev⟩ n 0)

/-- **C72, refuted for the order of parents.** The same OR factor with its parents in two orders, with evidence `-1e5` against `v1 = 1`: the
beliefs of the other parent after one iteration differ. -/
theorem C72_refuted :
    (graphOf exVars exPar).fgState 0 = .ok (exIsoSt exPar) ∧ (graphOf exVars exPar').fgState 0 = .ok (exIsoSt exPar') ∧
    BP.create (exIsoSt exPar) exBPState 0 = .ok (exIsoBP exPar) ∧ BP.create (exIsoSt exPar') exBPState 0 = .ok (exIsoBP exPar') ∧
    exIsoBeliefs exPar [0, 5, 0, -100000, 0, 1] 1 = [-1, 5, 0, -100000, -5, 1] ∧
    exIsoBeliefs exPar' [0, 5, 0, -100000, 0, 1] 1 = [0, 5, 0, -100000, -5, 1] := by
  refine ⟨rfl, rfl, rfl, rfl, ?_, ?_⟩
  · decide +kernel
  · decide +kernel

/-! ## Non-vacuity -/

/-- An enumeration factor on `v0`, `v1` and an OR factor. -/
def exIsoA : List (AddArg ℚ) := [.one ⟨4, .enum, .enumGroup, [[exVar 0, exVar 1]], ⟨2, [[0, 0], [1, 1], [0, 1]]⟩, [1, 2, 5]⟩,
  .one ⟨5, .or, .single, [[exVar 0, exVar 1, exVar 2]], ⟨0, []⟩, []⟩]
/-- The same with `v1`, `v2`, `v0` for `v0`, `v1`, `v2`, all states exchanged, AND for OR, and the first two variables of each factor
exchanged; the configurations are in another order. -/
def exIsoB : List (AddArg ℚ) := [.one ⟨4, .enum, .enumGroup, [[exVar 2, exVar 1]], ⟨2, [[0, 0], [0, 1], [1, 1]]⟩, [2, 5, 1]⟩,
  .one ⟨5, .and, .single, [[exVar 2, exVar 1, exVar 0]], ⟨0, []⟩, []⟩]

/-- The renaming. -/
def exIsoR : Renaming where
  fac := Equiv.refl _
  pos := fun _ => Equiv.swap 0 1
  var := fun v => if v = exVar 0 then exVar 1 else if v = exVar 1 then exVar 2 else exVar 0
  state := fun _ => Equiv.swap 0 1

theorem exIsoA_compiled : Compiled exVars exIsoA 0 (exIsoSt exIsoA) where
  vgroups := exVars_ok
  valid := by
    simp only [exIsoA, List.mem_cons, List.not_mem_nil, or_false, forall_eq_or_imp, forall_eq, AddArg.flat]
    refine ⟨?_, ?_⟩
    · refine ⟨by decide, by decide, fun _ => ⟨by decide, by decide, by decide, ?_, by rfl⟩, fun h => absurd rfl h⟩
      intro vs hvs r hr
      simp only [List.mem_cons, List.not_mem_nil, or_false] at hvs hr
      subst hvs
      rcases hr with rfl | rfl | rfl <;> simp [exVar]
    · exact ⟨by decide, by decide, (fun h => by cases h), fun _ => ⟨rfl, by unfold LogicalScope; decide⟩⟩
  ids := by
    have e : FType.all.flatMap (graphOf exVars exIsoA).groups = [⟨4, .enum, .enumGroup, [[exVar 0, exVar 1]], ⟨2, [[0, 0], [1, 1], [0, 1]]⟩, [1, 2, 5]⟩,
      ⟨5, .or, .single, [[exVar 0, exVar 1, exVar 2]], ⟨0, []⟩, []⟩] := rfl
    rw [e]
    intro g hg k hk hid
    simp only [List.mem_cons, List.not_mem_nil, or_false] at hg hk
    rcases hg with rfl | rfl <;> rcases hk with rfl | rfl <;> first | rfl | (simp at hid)
  compiled := rfl

theorem exIsoB_compiled : Compiled exVars exIsoB 0 (exIsoSt exIsoB) where
  vgroups := exVars_ok
  valid := by
    simp only [exIsoB, List.mem_cons, List.not_mem_nil, or_false, forall_eq_or_imp, forall_eq, AddArg.flat]
    refine ⟨?_, ?_⟩
    · refine ⟨by decide, by decide, fun _ => ⟨by decide, by decide, by decide, ?_, by rfl⟩, fun h => absurd rfl h⟩
      intro vs hvs r hr
      simp only [List.mem_cons, List.not_mem_nil, or_false] at hvs hr
      subst hvs
      rcases hr with rfl | rfl | rfl <;> simp [exVar]
    · exact ⟨by decide, by decide, (fun h => by cases h), fun _ => ⟨rfl, by unfold LogicalScope; decide⟩⟩
  ids := by
    have e : FType.all.flatMap (graphOf exVars exIsoB).groups = [⟨4, .enum, .enumGroup, [[exVar 2, exVar 1]], ⟨2, [[0, 0], [0, 1], [1, 1]]⟩, [2, 5, 1]⟩,
      ⟨5, .and, .single, [[exVar 2, exVar 1, exVar 0]], ⟨0, []⟩, []⟩] := rfl
    rw [e]
    intro g hg k hk hid
    simp only [List.mem_cons, List.not_mem_nil, or_false] at hg hk
    rcases hg with rfl | rfl <;> rcases hk with rfl | rfl <;> first | rfl | (simp at hid)
  compiled := rfl

theorem exIsoA_scopes : (graphOf exVars exIsoA).allScopes = [[exVar 0, exVar 1], [exVar 0, exVar 1, exVar 2]] := rfl
theorem exIsoB_scopes : (graphOf exVars exIsoB).allScopes = [[exVar 2, exVar 1], [exVar 2, exVar 1, exVar 0]] := rfl

theorem exIsoR_iso : exIsoR.Iso (graphOf exVars exIsoA) (graphOf exVars exIsoB) [1, 2, 5] [2, 5, 1] where
  facs := fun f => Iff.rfl
  enums := fun f => Iff.rfl
  lengths := by
    intro f vs vs' h1 h2
    rw [exIsoA_scopes] at h1
    rw [exIsoB_scopes] at h2
    rcases f with _ | _ | f <;> simp [exIsoR] at h1 h2
    · rw [← h1, ← h2]; rfl
    · rw [← h1, ← h2]; rfl
  scopes := by
    rintro f i v ⟨vs, h1, h2⟩
    rw [exIsoA_scopes] at h1
    rw [exIsoB_scopes]
    rcases f with _ | _ | f
    · cases h1
      refine ⟨_, rfl, ?_⟩
      rcases i with _ | _ | i
      · cases h2; rfl
      · cases h2; rfl
      · simp at h2
    · cases h1
      refine ⟨_, rfl, ?_⟩
      rcases i with _ | _ | _ | i
      · cases h2; rfl
      · cases h2; rfl
      · cases h2; rfl
      · simp at h2
    · simp at h1
  rows := by
    intro f F F' hf hF hF'
    have h0 : f = 0 := by
      have : ((graphOf exVars exIsoA).scopesOf .enum).length = 1 := rfl
      omega
    subst h0
    have e : F = ⟨[exVar 0, exVar 1], [([0, 0], 1), ([1, 1], 2), ([0, 1], 5)]⟩ := (Option.some.inj hF).symm
    have e' : F' = ⟨[exVar 2, exVar 1], [([0, 0], 2), ([0, 1], 5), ([1, 1], 1)]⟩ := (Option.some.inj hF').symm
    subst e e'
    refine ⟨[([1, 1], 1), ([0, 0], 2), ([0, 1], 5)], ?_, ?_⟩
    · exact (List.perm_append_singleton (([1, 1], 1) : List Nat × ℚ) [([0, 0], 2), ([0, 1], 5)]).symm
    · refine .cons ⟨rfl, rfl, ?_⟩ (.cons ⟨rfl, rfl, ?_⟩ (.cons ⟨rfl, rfl, ?_⟩ .nil))
      all_goals
        intro i v s h1 h2
        rcases i with _ | _ | i
        · cases h1; cases h2; rfl
        · cases h1; cases h2; rfl
        · simp at h2
  logical := by
    intro f vs hf h1
    rw [exIsoA_scopes] at h1
    rcases f with _ | _ | f
    · exact absurd hf (by decide)
    · cases h1
      refine ⟨rfl, ?_⟩
      intro v _
      rfl
    · simp at h1

/-- Non-vacuity of C72: the two graphs, with evidence on one variable of each. -/
example : Compiled exVars exIsoA 0 (exIsoSt exIsoA) ∧ Compiled exVars exIsoB 0 (exIsoSt exIsoB) ∧
    BP.create (exIsoSt exIsoA) exBPState 0 = .ok (exIsoBP exIsoA) ∧ BP.create (exIsoSt exIsoB) exBPState 0 = .ok (exIsoBP exIsoB) ∧
    Fits exEnv (graphOf exVars exIsoA) 0 ∧ Fits exEnv (graphOf exVars exIsoB) 0 ∧
    exIsoR.Iso (graphOf exVars exIsoA) (graphOf exVars exIsoB) (exIsoSt exIsoA).logPotentials (exIsoSt exIsoB).logPotentials ∧
    exIsoR.VarsOk (graphVars exVars) (graphVars exVars) ∧
    exIsoR.SameVals (graphVars exVars) (readEv (exIsoSt exIsoA).varsToStarts [0, 0, 7, 0, 0, 0]) (readEv (exIsoSt exIsoB).varsToStarts [0, 0, 0, 0, 0, 7]) ∧
    exIsoR.OrderOk (graphOf exVars exIsoA) (readEv (exIsoSt exIsoA).varsToStarts [0, 0, 7, 0, 0, 0]) ∧
    exIsoBeliefs exIsoA [0, 0, 7, 0, 0, 0] 3 = [0, -6, 3, 0, 0, -3] ∧
    exIsoBeliefs exIsoB [0, 0, 0, 0, 0, 7] 3 = [-3, 0, -6, 0, 0, 3] := by
  have hvars : graphVars exVars = {exVar 0, exVar 1, exVar 2} := by decide
  refine ⟨exIsoA_compiled, exIsoB_compiled, rfl, rfl, ⟨.inl rfl, fun _ => by decide⟩, ⟨.inl rfl, fun _ => by decide⟩, exIsoR_iso, ⟨?_, ?_, ?_, ?_⟩, ?_, ?_, ?_, ?_⟩
  · rw [hvars]; decide
  · rw [hvars]; decide
  · rw [hvars]; decide
  · rw [hvars]
    intro v hv s
    have : v.n = 2 := by
      simp only [Finset.mem_insert, Finset.mem_singleton] at hv
      rcases hv with rfl | rfl | rfl <;> rfl
    rw [this]
    show s < 2 ↔ Equiv.swap 0 1 s < 2
    rcases s with _ | _ | s
    · simp
    · simp
    · rw [Equiv.swap_apply_of_ne_of_ne (by omega) (by omega)]
  · rw [hvars]; unfold Renaming.SameVals; decide +kernel
  · intro f vs hf h1
    right
    rw [exIsoA_scopes] at h1
    rcases f with _ | _ | f
    · exact absurd hf (by decide)
    · cases h1
      rw [exIsoA_scopes]
      decide +kernel
    · simp at h1
  · decide +kernel
  · decide +kernel

end PGMax
