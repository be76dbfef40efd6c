import Verif.Lemmas.Beliefs
import Verif.Lemmas.Example3
import Mathlib.Analysis.SpecialFunctions.Log.Basic

/-! # C34: beliefs.  C35: decoding.  C36: marginals -/

namespace PGMax

variable {κ α : Type _} {vgs : List (VGroup κ)} {hist : List (AddArg α)} {garbage : Garbage} {st : FGState κ α}

/-! ## C34 -/

/-- **C34 (1).** In the flat array, the belief of every variable in every state is its evidence plus the sum of the messages of
all its edges. -/
theorem C34_flat [Field α] [LinearOrder α] (h : Compiled vgs hist garbage st) {state : BPState α} {T : α}
    {bp : BPFun κ α} (hbp : BP.create st state T = .ok bp) (a : BPArrays α)
    (hm : a.ftovMsgs.length = st.totalFactorNumStates) (hev : a.evidence.length = st.numVarStates)
    (v : Var) (start : Nat) (hv : st.varsToStarts v = some start) (s : Nat) (hs : s < v.n) :
    (bp.flatBeliefs a)[start + s]? = some (beliefOf (graphOf vgs hist).allScopes (readEv st.varsToStarts a.evidence)
      (readMsgs (graphOf vgs hist).allScopes a.ftovMsgs) v s) := by
  obtain ⟨-, -, e3, -⟩ := BP_create_ok hbp
  unfold BPFun.flatBeliefs
  rw [e3]
  exact h.scatter_beliefs a.ftovMsgs a.evidence hm hev v s hs start hv

/-- **C34 (2), partial.** `get_beliefs` reports these beliefs for every group of the graph, in the position of the variable's
index (arrays) or under its name (dictionaries).
Missing: groups with 0-state variables that have as many states as variables (`C34_refuted_zero_states`). -/
theorem C34_partial [DecidableEq κ] [Field α] [LinearOrder α] (h : Compiled vgs hist garbage st) {state : BPState α} {T : α}
    {bp : BPFun κ α} (hbp : BP.create st state T = .ok bp) (a : BPArrays α)
    (hm : a.ftovMsgs.length = st.totalFactorNumStates) (hev : a.evidence.length = st.numVarStates)
    (hreg : ∀ g ∈ vgs, g.Regular) :
    ∃ bs, bp.getBeliefs a = .ok bs ∧ bs.map (·.1) = vgs ∧
      ∀ p ∈ bs, p.1.Reports (beliefOf (graphOf vgs hist).allScopes (readEv st.varsToStarts a.evidence)
        (readMsgs (graphOf vgs hist).allScopes a.ftovMsgs)) p.2 := by
  obtain ⟨e1, -, e3, -⟩ := BP_create_ok hbp
  have hvg : bp.st.varGroups = vgs := by rw [e1]; exact h.varGroups
  unfold BPFun.getBeliefs
  rw [hvg]
  refine unflattenBeliefs_reports vgs h.vgroups.built hreg _ 0 ?_ _ ?_
  · rw [zero_add, ← h.numVarStates, ← hev]
    simp [BPFun.flatBeliefs, scatterAdd_length]
  · intro i v s hv hs
    rw [zero_add]
    exact C34_flat h hbp a hm hev v _ ((h.starts_iff v _).2 ⟨i, hv, rfl⟩) s hs

/-- The exception: in an array of a 0-state and a 2-state variable the beliefs `[7, 8]` of the second are reported as one belief
for each variable, which is not a report of any beliefs of these variables. -/
theorem C34_refuted_zero_states :
    VGroup.unflatten (.arr ⟨1000000000, [2], [0, 2]⟩ : VGroup Nat) ([7, 8] : List ℚ) = .ok (.arr ⟨[2], [WithBot.some 7, WithBot.some 8]⟩) ∧
    ∀ B, ¬ VGroup.Reports B (.arr ⟨1000000000, [2], [0, 2]⟩ : VGroup Nat) (.arr ⟨[2], [WithBot.some (7 : ℚ), WithBot.some 8]⟩) := by
  refine ⟨rfl, ?_⟩
  rintro B ⟨m, h1, -, h2 | ⟨-, rfl⟩, -⟩
  · cases h2
  · exact absurd (h1.1 2 (by simp)) (by omega)

/-! ## C35 -/

theorem rows_getElem? {β : Type _} (xs : List β) (a b k : Nat) (hk : k < a) : (rows xs a b)[k]? = some (slice xs (k * b) (k * b + b)) := by
  simp [rows, List.getElem?_map, List.getElem?_range hk]

/-- A row of a padded array. -/
theorem padded_row {β : Type _} (xs : List β) (k m : Nat) (f : Nat → β) (h : ∀ s < m, xs[k * m + s]? = some (f s)) :
    slice xs (k * m) (k * m + m) = (List.range m).map f := by
  apply List.ext_getElem?
  intro s
  rw [slice_getElem?]
  by_cases hs : s < m
  · rw [if_pos (by omega), h s hs, List.getElem?_map, List.getElem?_range hs]; rfl
  · rw [if_neg (by omega), List.getElem?_eq_none (by simpa using hs)]

theorem argmax_padded [LinearOrder α] (f : Nat → α) (n m : Nat) (hn : 0 < n) (hm : n ≤ m) :
    IsFirstMax f n (argmax ((List.range m).map (fun s => if s < n then (WithBot.some (f s)) else ⊥))) := by
  obtain ⟨M, h1, h2, h3⟩ := argmax_spec ((List.range m).map (fun s => if s < n then (WithBot.some (f s)) else ⊥)) (by
    simp only [ne_eq, List.map_eq_nil_iff, List.range_eq_nil]; omega)
  generalize argmax ((List.range m).map (fun s => if s < n then (WithBot.some (f s)) else ⊥)) = j at *
  have hjm : j < m := by simpa using (List.getElem?_eq_some_iff.1 h1).1
  have hat : ∀ s < m, ((List.range m).map (fun s => if s < n then (WithBot.some (f s)) else ⊥))[s]? = some (if s < n then (WithBot.some (f s)) else ⊥) := by
    intro s hs
    rw [List.getElem?_map, List.getElem?_range hs]; rfl
  have hmem : ∀ s < n, WithBot.some (f s) ≤ M := by
    intro s hs
    apply h2
    have := hat s (by omega)
    rw [if_pos hs] at this
    exact List.mem_of_getElem? this
  rw [hat j hjm] at h1
  have hjn : j < n := by
    by_contra hc
    rw [if_neg hc] at h1
    have := hmem 0 hn
    rw [← Option.some.inj h1] at this
    exact absurd this (not_le_of_gt (WithBot.bot_lt_coe _))
  rw [if_pos hjn] at h1
  have hM := Option.some.inj h1
  subst hM
  refine ⟨hjn, fun s hs => WithBot.coe_le_coe.1 (hmem s hs), fun s hs => ?_⟩
  have := h3 s _ hs (hat s (by omega))
  rw [if_pos (by omega)] at this
  exact WithBot.coe_lt_coe.1 this

theorem argmax_range [LinearOrder α] (f : Nat → α) (n : Nat) (hn : 0 < n) : IsFirstMax f n (argmax ((List.range n).map f)) := by
  obtain ⟨M, h1, h2, h3⟩ := argmax_spec ((List.range n).map f) (by simp only [ne_eq, List.map_eq_nil_iff, List.range_eq_nil]; omega)
  generalize argmax ((List.range n).map f) = j at *
  have hj : j < n := by simpa using (List.getElem?_eq_some_iff.1 h1).1
  have hat : ∀ s < n, ((List.range n).map f)[s]? = some (f s) := by
    intro s hs
    rw [List.getElem?_map, List.getElem?_range hs]; rfl
  rw [hat j hj] at h1
  have hM := Option.some.inj h1
  subst hM
  exact ⟨hj, fun s hs => h2 _ (List.mem_of_getElem? (hat s hs)), fun s hs => h3 s _ hs (hat s (by omega))⟩

/-- The variables of a built group. -/
theorem VGroup.Built.vars {objId : Nat} {g : VGroup κ} (hb : VGroup.Built objId g) :
    g.variables.length = g.numStates.length ∧ (∀ (k : Nat) v, g.variables[k]? = some v → g.numStates[k]? = some v.n) := by
  have hok := GroupOk.of_built hb
  constructor
  · rw [← hok]; simp
  · intro k v hv; rw [← hok, List.getElem?_map, hv]; rfl

/-- **C35 for one group, partial.** If `b` reports beliefs `B` for the group `g`, `decode_map_states` returns for every variable
the first of its states with maximal belief.
Missing: 0-state variables; arrays in which every variable has one state (`C35_refuted_one_state`). -/
theorem C35_group_partial [Field α] [LinearOrder α] {objId : Nat} {g : VGroup κ} (hb : VGroup.Built objId g) (hst : g.Stated)
    (B : Var → Nat → α) (b : GroupBeliefs κ α) (hr : g.Reports B b) : ∃ r, decodeGroup b = .ok r ∧ g.Decodes B r := by
  obtain ⟨hlen, hvn⟩ := hb.vars
  cases hb with
  | arr hns hc =>
    rename_i shape ns g
    obtain ⟨-, hsh, hl, -⟩ := NDVarArray.create_ok hns hc
    rw [← hsh] at hl
    simp only [VGroup.numStates, VGroup.variables, VGroup.Stated] at hlen hvn hst
    cases b with
    | dict d => exact hr.elim
    | arr a =>
      obtain ⟨m, hwid, hwf, hshape, hdata⟩ := hr
      have hm := hwid.1
      obtain ⟨h1, n0, hn0, hne⟩ := hst
      have hm2 : 2 ≤ m := by have := hm n0 hn0; have := h1 n0 hn0; omega
      replace hshape : a.shape = g.shape ++ [m] := by
        rcases hshape with h | ⟨-, h⟩
        · exact h
        · omega
      refine ⟨.arr ⟨g.shape, (rows a.data g.shape.prod m).map argmax⟩, ?_, rfl, ?_, ?_⟩
      · simp only [decodeGroup, argmaxLast, hshape, List.getLast?_append, List.getLast?_singleton, Option.some_or, List.dropLast_concat]
        rw [if_neg (by omega)]
        rfl
      · simp [NDArr.WF, rows]
      · intro k v hv
        have hk : k < g.shape.prod := by
          have := (List.getElem?_eq_some_iff.1 hv).1; omega
        refine ⟨_, by rw [List.getElem?_map, rows_getElem? _ _ _ _ hk]; rfl, ?_⟩
        rw [padded_row a.data k m _ (fun s hs => hdata k v s hv hs)]
        have hmem := List.mem_of_getElem? (hvn k v hv)
        exact argmax_padded (B v) v.n m (h1 _ hmem) (hm _ hmem)
  | dict hns hle hc =>
    rename_i names ns g
    obtain ⟨-, hnm, hl⟩ := VarDict.create_ok hns hc
    rw [← hnm] at hl
    simp only [VGroup.numStates, VGroup.variables, VGroup.Stated] at hlen hvn hst
    cases b with
    | arr a => exact hr.elim
    | dict d =>
      obtain ⟨hkeys, hdata⟩ := hr
      have hdl : d.length = g.names.length := by rw [← hkeys]; simp
      have hone : ∀ p ∈ d, (argmaxLast ⟨[p.2.length], p.2⟩).map (fun x => (p.1, x)) = .ok (p.1, (⟨[], [argmax p.2]⟩ : NDArr Nat)) := by
        intro p hp
        obtain ⟨k, hk⟩ := List.mem_iff_getElem?.1 hp
        have hkl := (List.getElem?_eq_some_iff.1 hk).1
        have hv : g.variables[k]? = some (g.variables[k]'(by omega)) := List.getElem?_eq_getElem _
        obtain ⟨x, hx, hx2⟩ := hdata k _ hv
        rw [hk] at hx
        have := Option.some.inj hx
        subst this
        have hpos : 1 ≤ (g.variables[k]'(by omega)).n := hst _ (List.mem_of_getElem? (hvn k _ hv))
        have hpl : p.2.length ≠ 0 := by rw [hx2]; simp; omega
        simp only [argmaxLast, List.getLast?_singleton, hpl, if_false, List.dropLast_singleton, List.prod_nil, rows,
          Except.map]
        simp [slice]
      refine ⟨.dict (d.map (fun p => (p.1, (⟨[], [argmax p.2]⟩ : NDArr Nat)))), ?_, by rw [List.map_map]; exact hkeys, ?_⟩
      · simp only [decodeGroup]
        rw [mapM_ok _ _ _ hone]
        rfl
      · intro k v hv
        obtain ⟨x, hx, hx2⟩ := hdata k v hv
        refine ⟨_, _, by rw [List.getElem?_map, hx]; rfl, rfl, ?_⟩
        rw [hx2]
        exact argmax_range (B v) v.n (hst _ (List.mem_of_getElem? (hvn k v hv)))

/-- **C35, partial.** Decoding the beliefs of a graph gives, for every group of the graph, the first state with maximal belief
of every variable, under the variable's index or name.
Missing: as in `C35_group_partial`. -/
theorem C35_partial [DecidableEq κ] [Field α] [LinearOrder α] (h : Compiled vgs hist garbage st) {state : BPState α} {T : α}
    {bp : BPFun κ α} (hbp : BP.create st state T = .ok bp) (a : BPArrays α)
    (hm : a.ftovMsgs.length = st.totalFactorNumStates) (hev : a.evidence.length = st.numVarStates)
    (hreg : ∀ g ∈ vgs, g.Regular) (hst : ∀ g ∈ vgs, g.Stated) :
    ∃ bs rs, bp.getBeliefs a = .ok bs ∧ decodeMapStates bs = .ok rs ∧ rs.map (·.1) = vgs ∧
      ∀ p ∈ rs, p.1.Decodes (beliefOf (graphOf vgs hist).allScopes (readEv st.varsToStarts a.evidence)
        (readMsgs (graphOf vgs hist).allScopes a.ftovMsgs)) p.2 := by
  obtain ⟨bs, e1, e2, e3⟩ := C34_partial h hbp a hm hev hreg
  generalize beliefOf (graphOf vgs hist).allScopes (readEv st.varsToStarts a.evidence)
    (readMsgs (graphOf vgs hist).allScopes a.ftovMsgs) = B at *
  have hbs : ∀ p ∈ bs, p.1 ∈ vgs := fun p hp => by rw [← e2]; exact List.mem_map_of_mem hp
  refine ⟨bs, ?_⟩
  simp only [e1, true_and]
  rw [← e2]
  clear e1 e2
  induction bs with
  | nil => exact ⟨[], rfl, rfl, by simp⟩
  | cons p bs ih =>
    obtain ⟨rs, f1, f2, f3⟩ := ih (fun q hq => e3 q (by simp [hq])) (fun q hq => hbs q (by simp [hq]))
    obtain ⟨objId, hb⟩ := h.vgroups.built p.1 (hbs p (by simp))
    obtain ⟨r, g1, g2⟩ := C35_group_partial hb (hst _ (hbs p (by simp))) B p.2 (e3 p (by simp))
    refine ⟨(p.1, r) :: rs, ?_, by simp [f2], ?_⟩
    · unfold decodeMapStates at f1 ⊢
      rw [List.mapM_cons, f1]
      simp only [g1, Except.map, bind, Except.bind, pure, Except.pure]
    · simp only [List.mem_cons, forall_eq_or_imp]
      exact ⟨g2, f3⟩

/-- **C35 fails for every array whose variables all have one state**: decoding takes the maximum over the last axis of the
variables (or raises ValueError), so the result has the wrong shape. -/
theorem C35_refuted_one_state [Field α] [LinearOrder α] {g : NDVarArray} (hl : g.numStates.length = g.shape.prod) (hone : ∀ n ∈ g.numStates, n = 1)
    (flat : List α) (hf : flat.length = g.numStates.sum) :
    ∃ b, VGroup.unflatten (.arr g : VGroup Nat) flat = .ok b ∧
      (decodeGroup b = .error .valueError ∨ ∃ r, decodeGroup b = .ok (.arr r) ∧ r.shape.length < g.shape.length) := by
  have hp : flat.length = g.shape.prod := by rw [hf, sum_of_all_one hone, hl]
  refine ⟨.arr ⟨g.shape, flat.map WithBot.some⟩, by simp only [VGroup.unflatten, NDVarArray.unflatten_vars g flat hp]; rfl, ?_⟩
  simp only [decodeGroup, argmaxLast]
  cases hg : g.shape.getLast? with
  | none => left; rfl
  | some m =>
    simp only
    by_cases hm : m = 0
    · left; rw [if_pos hm]; rfl
    · right
      rw [if_neg hm]
      refine ⟨_, rfl, ?_⟩
      have : g.shape ≠ [] := by rintro h; rw [h] at hg; cases hg
      simp only [List.length_dropLast]
      have := List.length_pos_iff.2 this
      omega

/-- For instance, three one-state variables are decoded to a single number, the position of the largest belief. -/
theorem C35_refuted : VGroup.unflatten (.arr ⟨1000000000, [3], [1, 1, 1]⟩ : VGroup Nat) ([5, 7, 6] : List ℚ) = .ok (.arr ⟨[3], [WithBot.some 5, WithBot.some 7, WithBot.some 6]⟩) ∧
    (decodeGroup (.arr ⟨[3], [WithBot.some (5 : ℚ), WithBot.some 7, WithBot.some 6]⟩ : GroupBeliefs Nat ℚ)) = .ok (.arr ⟨[], [1]⟩) := by
  refine ⟨rfl, ?_⟩
  simp only [decodeGroup, argmaxLast, List.getLast?_cons_cons, List.getLast?_singleton]
  rfl

/-- Non-vacuity of C34 and C35: an array of a 2- and a 3-state variable, padded with `-inf`; the graph `exHist3`. -/
example : (∀ g ∈ exVars3, g.Regular ∧ g.Stated) ∧
    exBP3.flatBeliefs ⟨[0, 0, 0], [0, -1, -2, 0, -3], [10, 20, 30, 40, 50]⟩ = [10, 19, 28, 40, 47] := by
  refine ⟨?_, by decide +kernel⟩
  simp only [exVars3, List.mem_cons, List.not_mem_nil, or_false, forall_eq]
  exact ⟨by simp [VGroup.Regular], by simp [VGroup.Stated]⟩

/-! ## C36 -/

theorem maxBot_ne_bot {xs : List (WithBot ℝ)} (h : ∃ x ∈ xs, x ≠ ⊥) : ∃ m : ℝ, maxBot xs = WithBot.some m := by
  have : maxBot xs ≠ ⊥ := by
    obtain ⟨x, hx, hne⟩ := h
    have hle : x ≤ maxBot xs := by
      clear hne
      induction xs with
      | nil => cases hx
      | cons y xs ih =>
        rcases List.mem_cons.1 hx with rfl | hx
        · exact le_max_left _ _
        · exact (ih hx).trans (le_max_right _ _)
    intro hb
    rw [hb] at hle
    exact hne (le_bot_iff.1 hle)
  exact ⟨_, (WithBot.coe_unbot _ this).symm⟩

theorem sum_range_padded (g : Nat → ℝ) (n m : Nat) (h : n ≤ m) :
    ((List.range m).map (fun s => if s < n then g s else 0)).sum = ((List.range n).map g).sum := by
  obtain ⟨d, rfl⟩ := Nat.exists_eq_add_of_le h
  rw [List.range_add, List.map_append, List.sum_append, List.map_map]
  have h1 : (List.range n).map (fun s => if s < n then g s else 0) = (List.range n).map g :=
    List.map_congr_left (fun s hs => if_pos (List.mem_range.1 hs))
  have h2 : (List.range d).map ((fun s => if s < n then g s else 0) ∘ (fun x => n + x)) = (List.range d).map (fun _ => (0 : ℝ)) :=
    List.map_congr_left (fun s _ => if_neg (by simp))
  rw [h1, h2]
  simp

theorem sum_exp_pos (f : Nat → ℝ) (n : Nat) (hn : 0 < n) : 0 < ((List.range n).map (fun t => Real.exp (f t))).sum := by
  apply List.sum_pos
  · intro x hx
    obtain ⟨t, -, rfl⟩ := List.mem_map.1 hx
    exact Real.exp_pos _
  · simp only [ne_eq, List.map_eq_nil_iff, List.range_eq_nil]; omega

/-- One padded row. -/
theorem marginalRow_padded (env : Env ℝ) (hexp : env.exp = Real.exp) (hlog : env.log = Real.log) (f : Nat → ℝ) (n m : Nat) (hn : 0 < n) (hm : n ≤ m) :
    marginalRow env ((List.range m).map (fun s => if s < n then WithBot.some (f s) else ⊥))
      = (List.range m).map (fun s => some (if s < n then gibbs f n s else 0)) := by
  obtain ⟨c, hc⟩ := maxBot_ne_bot (xs := (List.range m).map (fun s => if s < n then WithBot.some (f s) else ⊥))
    ⟨WithBot.some (f 0), List.mem_map.2 ⟨0, List.mem_range.2 (by omega), if_pos hn⟩, WithBot.coe_ne_bot⟩
  have hS := sum_exp_pos f n hn
  have hl : logsumexpRow env ((List.range m).map (fun s => if s < n then WithBot.some (f s) else ⊥))
      = WithBot.some (Real.log ((List.range n).map (fun t => Real.exp (f t))).sum) := by
    unfold logsumexpRow
    rw [hc]
    have e : ((List.range m).map (fun s => if s < n then WithBot.some (f s) else ⊥)).map (fun x => expSub env x c)
        = (List.range m).map (fun s => if s < n then Real.exp (f s) * Real.exp (-c) else 0) := by
      rw [List.map_map]
      apply List.map_congr_left
      intro s _
      simp only [Function.comp]
      by_cases hs : s < n
      · rw [if_pos hs, if_pos hs, ← Real.exp_add, ← sub_eq_add_neg]
        simp only [expSub, hexp]
      · rw [if_neg hs, if_neg hs]; rfl
    simp only
    rw [e, sum_range_padded _ _ _ hm, List.sum_map_mul_right, hlog, Real.log_mul hS.ne' (Real.exp_ne_zero _), Real.log_exp]
    congr 1
    ring
  unfold marginalRow
  rw [hl]
  simp only [List.map_map]
  apply List.map_congr_left
  intro s _
  simp only [Function.comp]
  by_cases hs : s < n
  · rw [if_pos hs, if_pos hs]
    simp only [expSub, hexp, gibbs]
    rw [Real.exp_sub, Real.exp_log hS]
  · rw [if_neg hs, if_neg hs]; rfl

/-- **C36 for one group, partial.** If `b` reports beliefs `B` for the group `g`, `get_marginals` returns for every variable the
distribution on its states proportional to `exp B`, and 0 for padding.
Missing: 0-state variables; arrays in which every variable has one state (`C36_refuted`). -/
theorem C36_group_partial {objId : Nat} {g : VGroup κ} (hb : VGroup.Built objId g) (hst : g.Stated) (env : Env ℝ)
    (hexp : env.exp = Real.exp) (hlog : env.log = Real.log)
    (B : Var → Nat → ℝ) (b : GroupBeliefs κ ℝ) (hr : g.Reports B b) : ∃ r, marginalsGroup env b = .ok r ∧ g.HasMarginals B r := by
  obtain ⟨hlen, hvn⟩ := hb.vars
  cases hb with
  | arr hns hc =>
    rename_i shape ns g
    obtain ⟨-, hsh, hl, -⟩ := NDVarArray.create_ok hns hc
    rw [← hsh] at hl
    simp only [VGroup.numStates, VGroup.variables, VGroup.Stated] at hlen hvn hst
    cases b with
    | dict d => exact hr.elim
    | arr a =>
      obtain ⟨m, hwid, hwf, hshape, hdata⟩ := hr
      have hm := hwid.1
      obtain ⟨h1, n0, hn0, hne⟩ := hst
      have hm2 : 2 ≤ m := by have := hm n0 hn0; have := h1 n0 hn0; omega
      replace hshape : a.shape = g.shape ++ [m] := by
        rcases hshape with h | ⟨-, h⟩
        · exact h
        · omega
      have hrow : ∀ k (hk : k < g.shape.prod), marginalRow env (slice a.data (k * m) (k * m + m)) =
          (List.range m).map (fun s => some (if s < (g.variables[k]'(by omega)).n then gibbs (B (g.variables[k]'(by omega))) (g.variables[k]'(by omega)).n s else 0)) := by
        intro k hk
        have hv : g.variables[k]? = some (g.variables[k]'(by omega)) := List.getElem?_eq_getElem _
        have hmem := List.mem_of_getElem? (hvn k _ hv)
        rw [padded_row a.data k m _ (fun s hs => hdata k _ s hv hs), marginalRow_padded env hexp hlog _ _ _ (h1 _ hmem) (hm _ hmem)]
      have hlens : ∀ (N : Nat), N ≤ g.shape.prod → (((rows a.data g.shape.prod m).take N).flatMap (marginalRow env)).length = N * m := by
        intro N hN
        induction N with
        | zero => simp
        | succ N ih =>
          rw [List.take_add_one, rows_getElem? _ _ _ _ (by omega), List.flatMap_append, List.length_append, ih (by omega)]
          simp only [Option.toList_some, List.flatMap_cons, List.flatMap_nil, List.append_nil]
          rw [hrow N (by omega)]
          simp [Nat.succ_mul]
      refine ⟨.arr ⟨a.shape, (rows a.data g.shape.prod m).flatMap (marginalRow env)⟩, ?_, m, hwid, ?_, hshape, ?_⟩
      · simp only [marginalsGroup, marginalsLast, hshape, List.getLast?_append, List.getLast?_singleton, Option.some_or, List.dropLast_concat]
        rfl
      · have := hlens g.shape.prod le_rfl
        rw [List.take_of_length_le (by simp [rows])] at this
        simp only [NDArr.WF, this, hshape, List.prod_append, List.prod_singleton]
      · intro k v s hv hs
        have hk : k < g.shape.prod := by
          have := (List.getElem?_eq_some_iff.1 hv).1; omega
        have hkr : k < (rows a.data g.shape.prod m).length := by simp [rows, hk]
        have hsplit : (rows a.data g.shape.prod m).flatMap (marginalRow env)
            = ((rows a.data g.shape.prod m).take k).flatMap (marginalRow env) ++ (marginalRow env (slice a.data (k * m) (k * m + m))
              ++ ((rows a.data g.shape.prod m).drop (k + 1)).flatMap (marginalRow env)) := by
          conv_lhs => rw [← List.take_append_drop k (rows a.data g.shape.prod m)]
          rw [List.flatMap_append, List.drop_eq_getElem_cons hkr, List.flatMap_cons]
          have := rows_getElem? a.data g.shape.prod m k hk
          rw [List.getElem?_eq_getElem hkr] at this
          rw [Option.some.inj this]
        rw [hsplit, List.getElem?_append_right (by rw [hlens k hk.le]; omega), hlens k hk.le, Nat.add_sub_cancel_left, hrow k hk,
          List.getElem?_append_left (by simpa using hs), List.getElem?_map, List.getElem?_range hs]
        have : g.variables[k]'(by omega) = v := (List.getElem?_eq_some_iff.1 hv).2
        simp only [this, Option.map_some]
  | dict hns hle hc =>
    rename_i names ns g
    obtain ⟨-, hnm, hl⟩ := VarDict.create_ok hns hc
    rw [← hnm] at hl
    simp only [VGroup.numStates, VGroup.variables, VGroup.Stated] at hlen hvn hst
    cases b with
    | arr a => exact hr.elim
    | dict d =>
      obtain ⟨hkeys, hdata⟩ := hr
      refine ⟨.dict (d.map (fun p => (p.1, (⟨[p.2.length], marginalRow env (p.2.map WithBot.some)⟩ : NDArr (Option ℝ))))), ?_,
        by rw [List.map_map]; exact hkeys, ?_⟩
      · simp only [marginalsGroup]
        rw [mapM_ok _ (fun p => (p.1, (⟨[p.2.length], marginalRow env (p.2.map WithBot.some)⟩ : NDArr (Option ℝ))))]
        · rfl
        · intro p hp
          simp only [marginalsLast, List.getLast?_singleton, List.dropLast_singleton, List.prod_nil, rows, Except.map]
          simp only [slice, List.range_one, List.map_cons, List.map_nil, zero_mul, zero_add, List.drop_zero, List.flatMap_cons,
            List.flatMap_nil, List.append_nil]
          rw [List.take_of_length_le (by simp)]
      · intro k v hv
        obtain ⟨x, hx, hx2⟩ := hdata k v hv
        refine ⟨_, by rw [List.getElem?_map, hx]; rfl, by simp [hx2], ?_⟩
        have hpos := hst _ (List.mem_of_getElem? (hvn k v hv))
        have e : x.2.map WithBot.some = (List.range v.n).map (fun s => if s < v.n then WithBot.some (B v s) else ⊥) := by
          rw [hx2, List.map_map]
          exact List.map_congr_left (fun s hs => (if_pos (List.mem_range.1 hs)).symm)
        simp only [e]
        rw [marginalRow_padded env hexp hlog _ _ _ hpos le_rfl]
        exact List.map_congr_left (fun s hs => by rw [if_pos (List.mem_range.1 hs)])

/-- **C36 (distributions).** The reported distribution of a variable is positive, sums to 1, is ordered like the beliefs and does
not change if a constant is added to the beliefs. -/
theorem C36_gibbs (f : Nat → ℝ) (n : Nat) (hn : 0 < n) :
    (∀ s, 0 < gibbs f n s) ∧ ((List.range n).map (gibbs f n)).sum = 1 ∧ (∀ s t, gibbs f n s ≤ gibbs f n t ↔ f s ≤ f t) ∧
    ∀ c s, gibbs (fun t => f t + c) n s = gibbs f n s := by
  have hS := sum_exp_pos f n hn
  refine ⟨fun s => div_pos (Real.exp_pos _) hS, ?_, ?_, ?_⟩
  · unfold gibbs
    simp only [div_eq_mul_inv]
    rw [List.sum_map_mul_right, mul_inv_cancel₀ hS.ne']
  · intro s t
    unfold gibbs
    rw [div_le_div_iff_of_pos_right hS, Real.exp_le_exp]
  · intro c s
    unfold gibbs
    simp only [Real.exp_add]
    rw [List.sum_map_mul_right, mul_div_mul_right _ _ (Real.exp_ne_zero _)]

/-- **C36, partial.** The marginals of a graph. Missing: as in `C36_group_partial`. -/
theorem C36_partial [DecidableEq κ] {hist : List (AddArg ℝ)} {st : FGState κ ℝ} (h : Compiled vgs hist garbage st) {state : BPState ℝ} {T : ℝ}
    {bp : BPFun κ ℝ} (hbp : BP.create st state T = .ok bp) (env : Env ℝ) (hexp : env.exp = Real.exp) (hlog : env.log = Real.log) (a : BPArrays ℝ)
    (hm : a.ftovMsgs.length = st.totalFactorNumStates) (hev : a.evidence.length = st.numVarStates)
    (hreg : ∀ g ∈ vgs, g.Regular) (hst : ∀ g ∈ vgs, g.Stated) :
    ∃ bs rs, bp.getBeliefs a = .ok bs ∧ getMarginals env bs = .ok rs ∧ rs.map (·.1) = vgs ∧
      ∀ p ∈ rs, p.1.HasMarginals (beliefOf (graphOf vgs hist).allScopes (readEv st.varsToStarts a.evidence)
        (readMsgs (graphOf vgs hist).allScopes a.ftovMsgs)) p.2 := by
  obtain ⟨bs, e1, e2, e3⟩ := C34_partial h hbp a hm hev hreg
  generalize beliefOf (graphOf vgs hist).allScopes (readEv st.varsToStarts a.evidence)
    (readMsgs (graphOf vgs hist).allScopes a.ftovMsgs) = B at *
  have hbs : ∀ p ∈ bs, p.1 ∈ vgs := fun p hp => by rw [← e2]; exact List.mem_map_of_mem hp
  refine ⟨bs, ?_⟩
  simp only [e1, true_and]
  rw [← e2]
  clear e1 e2
  induction bs with
  | nil => exact ⟨[], rfl, rfl, by simp⟩
  | cons p bs ih =>
    obtain ⟨rs, f1, f2, f3⟩ := ih (fun q hq => e3 q (by simp [hq])) (fun q hq => hbs q (by simp [hq]))
    obtain ⟨objId, hb⟩ := h.vgroups.built p.1 (hbs p (by simp))
    obtain ⟨r, g1, g2⟩ := C36_group_partial hb (hst _ (hbs p (by simp))) env hexp hlog B p.2 (e3 p (by simp))
    refine ⟨(p.1, r) :: rs, ?_, by simp [f2], ?_⟩
    · unfold getMarginals at f1 ⊢
      rw [List.mapM_cons, f1]
      simp only [g1, Except.map, bind, Except.bind, pure, Except.pure]
    · simp only [List.mem_cons, forall_eq_or_imp]
      exact ⟨g2, f3⟩

/-- **C36 fails for arrays whose variables all have one state**: two one-state variables with equal beliefs get probability 1/2
each. -/
theorem C36_refuted (env : Env ℝ) (hexp : env.exp = Real.exp) (hlog : env.log = Real.log) :
    VGroup.unflatten (.arr ⟨1000000000, [2], [1, 1]⟩ : VGroup Nat) ([5, 5] : List ℝ) = .ok (.arr ⟨[2], [WithBot.some 5, WithBot.some 5]⟩) ∧
    marginalsGroup env (.arr ⟨[2], [WithBot.some (5 : ℝ), WithBot.some 5]⟩ : GroupBeliefs Nat ℝ) = .ok (.arr ⟨[2], [some (1 / 2), some (1 / 2)]⟩) := by
  refine ⟨rfl, ?_⟩
  have h := marginalRow_padded env hexp hlog (fun _ => 5) 2 2 (by omega) le_rfl
  simp only [List.range_succ, List.range_zero, List.nil_append, List.cons_append, List.map_cons, List.map_nil, Nat.zero_lt_two,
    Nat.one_lt_two, if_true] at h
  have hg : ∀ s, gibbs (fun _ => (5 : ℝ)) 2 s = 1 / 2 := by
    intro s
    simp only [gibbs, List.range_succ, List.range_zero, List.nil_append, List.cons_append, List.map_cons, List.map_nil, List.sum_cons,
      List.sum_nil]
    have := Real.exp_ne_zero 5
    field_simp
    ring
  rw [hg, hg] at h
  have hflat : marginalsGroup env (.arr ⟨[2], [WithBot.some (5 : ℝ), WithBot.some 5]⟩ : GroupBeliefs Nat ℝ)
      = .ok (.arr ⟨[2], marginalRow env [WithBot.some (5 : ℝ), WithBot.some 5] ++ []⟩) := rfl
  rw [hflat, h, List.append_nil]

/-- Non-vacuity of C36: the groups of the graph `exHistR` (three binary variables). -/
example : ∀ g ∈ exVars, g.Regular ∧ g.Stated := by
  simp only [exVars, List.mem_cons, List.not_mem_nil, or_false, forall_eq, forall_eq_or_imp]
  simp [VGroup.Regular, VGroup.Stated]

end PGMax
