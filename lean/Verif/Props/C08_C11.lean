import Verif.Lemmas.FGraph
import Verif.Spec.FGraph

/-! # C08–C11: the factor graph: evidence layout, `add_factors`, offsets -/

namespace PGMax

variable {κ α : Type _}

/-! ## C08 -/

theorem VGroupsOk.groupOk {vgs : List (VGroup κ)} (h : VGroupsOk vgs) : ∀ g ∈ vgs, GroupOk g := by
  intro g hg
  obtain ⟨i, hb⟩ := h.built g hg
  exact GroupOk.of_built hb

theorem VGroupsOk.nodup {vgs : List (VGroup κ)} (h : VGroupsOk vgs) : (allVars vgs).Nodup := by
  unfold allVars
  rw [List.nodup_flatMap]
  refine ⟨?_, ?_⟩
  · intro g hg
    obtain ⟨i, hb⟩ := h.built g hg
    exact VGroup.variables_nodup hb.facts.2.2
  · refine List.Pairwise.imp_of_mem ?_ h.distinct
    intro g g' hg hg' hne v hv hv'
    obtain ⟨i, hb⟩ := h.built g hg
    obtain ⟨j, hb'⟩ := h.built g' hg'
    obtain ⟨a1, a2, a3⟩ := hb.facts
    obtain ⟨b1, b2, b3⟩ := hb'.facts
    obtain ⟨k, hk, hhk⟩ := (VGroup.mem_variables a3 v).1 hv
    obtain ⟨l, hl, hhl⟩ := (VGroup.mem_variables b3 v).1 hv'
    have hil : k < g.numStates.length := by
      by_contra hc; rw [List.getElem?_eq_none (by omega)] at hk; cases hk
    have hjl : l < g'.numStates.length := by
      by_contra hc; rw [List.getElem?_eq_none (by omega)] at hl; cases hl
    simp only [VGroup.pyEq, beq_eq_false_iff_ne, ne_eq] at hne
    omega

/-- **C08.** In every graph (any history of `add_factors` calls) over distinct variable groups:
exactly the variables of the groups have a start; each block `[start, start + n)` lies inside the evidence array;
blocks of different variables are disjoint; and every position of the array belongs to some block. -/
theorem C08_blocks_partition (vgs : List (VGroup κ)) (hv : VGroupsOk vgs) (hist : List (AddArg α)) :
    let fg : FactorGraph κ α := (FactorGraph.create vgs).addHistory hist
    (∀ v, (∃ s, fg.varsToStarts v = some s) ↔ ∃ g ∈ vgs, v ∈ g.variables) ∧
    (∀ v s, fg.varsToStarts v = some s → s + v.n ≤ fg.numVarStates) ∧
    (∀ v w s t, fg.varsToStarts v = some s → fg.varsToStarts w = some t → v ≠ w → s + v.n ≤ t ∨ t + w.n ≤ s) ∧
    (∀ p, p < fg.numVarStates → ∃ v s, fg.varsToStarts v = some s ∧ s ≤ p ∧ p < s + v.n) := by
  intro fg
  have hR : Reachable fg := ⟨vgs, hist, rfl⟩
  have hvg : fg.varGroups = vgs := by
    have : ∀ (hist : List (AddArg α)) (fg : FactorGraph κ α), (fg.addHistory hist).varGroups = fg.varGroups := by
      intro hist
      induction hist with
      | nil => intro fg; rfl
      | cons a hist ih =>
        intro fg
        refine (ih _).trans ?_
        refine addFactors_inv (fun fg' => fg'.varGroups = fg.varGroups) ?_ a fg rfl
        intro fg' g h
        cases hr : (fg'.addGroup g).2 with
        | some e => rw [(addGroup_eq_fail fg' g e hr).2]; exact h
        | none => rw [(addGroup_eq_ok fg' g hr).2]; exact h
    exact this hist _
  obtain ⟨h1, h2⟩ := hR.vars
  rw [hvg] at h1 h2
  have key := create_starts_iff (α := α) vgs hv.groupOk hv.nodup
  have hN := (create_starts (α := α) vgs hv.groupOk).2
  rw [← h1] at key
  rw [← h2] at hN
  have hlt : ∀ i v, (allVars vgs)[i]? = some v → i < (allVars vgs).length := by
    intro i v h; by_contra hc; rw [List.getElem?_eq_none (by omega)] at h; cases h
  have hstep : ∀ i v, (allVars vgs)[i]? = some v →
      (((allVars vgs).map (·.n)).take (i + 1)).sum = (((allVars vgs).map (·.n)).take i).sum + v.n := by
    intro i v h
    rw [sum_take_succ_getD _ _ (by rw [List.length_map]; exact hlt i v h), List.getD_eq_getElem?_getD,
      List.getElem?_map, h]
    rfl
  refine ⟨?_, ?_, ?_, ?_⟩
  · intro v
    constructor
    · rintro ⟨s, hs⟩
      obtain ⟨i, hi, -⟩ := (key v s).1 hs
      exact List.mem_flatMap.1 (List.mem_of_getElem? hi)
    · intro hm
      obtain ⟨i, hi⟩ := List.mem_iff_getElem?.1 (List.mem_flatMap.2 hm)
      exact ⟨_, (key v _).2 ⟨i, hi, rfl⟩⟩
  · intro v s hs
    obtain ⟨i, hi, rfl⟩ := (key v s).1 hs
    rw [hN, ← hstep i v hi]
    exact sum_take_le _ _
  · intro v w s t hs ht hne
    obtain ⟨i, hi, rfl⟩ := (key v s).1 hs
    obtain ⟨j, hj, rfl⟩ := (key w t).1 ht
    rw [← hstep i v hi, ← hstep j w hj]
    rcases Nat.lt_trichotomy i j with h | h | h
    · left; exact sum_take_mono _ (by omega)
    · subst h; rw [hi] at hj; cases hj; exact absurd rfl hne
    · right; exact sum_take_mono _ (by omega)
  · intro p hp
    rw [hN] at hp
    obtain ⟨i, r, h1, h2, h3⟩ := exists_block ((allVars vgs).map (·.n)) p hp
    rw [List.length_map] at h1
    refine ⟨(allVars vgs)[i], _, (key _ _).2 ⟨i, List.getElem?_eq_getElem h1, rfl⟩, ?_, ?_⟩
    · omega
    · rw [List.getD_eq_getElem?_getD, List.getElem?_map, List.getElem?_eq_getElem h1] at h2
      simp at h2
      omega

/-- Non-vacuity: a 2×1 array of 3-state variables and a dictionary with 2 and 4 states. -/
example : VGroupsOk [VGroup.arr ⟨7 * 1000000000, [2, 1], [3, 3]⟩, VGroup.dict ⟨9 * 1000000000, ["a", "b"], [2, 4]⟩] where
  built := by
    simp only [List.mem_cons, List.not_mem_nil, or_false, forall_eq_or_imp, forall_eq]
    exact ⟨⟨7, .arr (ns := .scalar 3) (shape := [2, 1]) (by simp) (by decide)⟩,
      ⟨9, .dict (ns := .array ⟨[2], [2, 4]⟩) (names := ["a", "b"]) (by intro x hx; cases hx; rfl) (by simp) (by decide)⟩⟩
  distinct := by simp [VGroup.pyEq, VGroup.hash]

/-- The blocks follow the order of the groups and of the variables in a group (the order in which `flatten` lists them). -/
theorem C08_order (vgs : List (VGroup κ)) (hv : VGroupsOk vgs) (i j : Nat) (v w : Var) (s t : Nat)
    (hi : (vgs.flatMap (·.variables))[i]? = some v) (hj : (vgs.flatMap (·.variables))[j]? = some w) (hij : i < j)
    (hs : (FactorGraph.create vgs : FactorGraph κ α).varsToStarts v = some s)
    (ht : (FactorGraph.create vgs : FactorGraph κ α).varsToStarts w = some t) : s + v.n ≤ t := by
  have key := create_starts_iff (α := α) vgs hv.groupOk hv.nodup
  obtain ⟨i', hi', rfl⟩ := (key v s).1 hs
  obtain ⟨j', hj', rfl⟩ := (key w t).1 ht
  have inj : ∀ (i i' : Nat) (v : Var), (allVars vgs)[i]? = some v → (allVars vgs)[i']? = some v → i = i' := by
    intro i i' v h h'
    obtain ⟨a, ha⟩ := List.getElem?_eq_some_iff.1 h
    obtain ⟨b, hb⟩ := List.getElem?_eq_some_iff.1 h'
    exact (List.Nodup.getElem_inj_iff hv.nodup).1 (ha.trans hb.symm)
  obtain rfl := inj _ _ _ hi hi'
  obtain rfl := inj _ _ _ hj hj'
  have hlt : i < (allVars vgs).length := (List.getElem?_eq_some_iff.1 hi').1
  have : (((allVars vgs).map (·.n)).take (i + 1)).sum = (((allVars vgs).map (·.n)).take i).sum + v.n := by
    rw [sum_take_succ_getD _ _ (by rw [List.length_map]; exact hlt), List.getD_eq_getElem?_getD,
      List.getElem?_map, hi']
    rfl
  rw [← this]
  exact sum_take_mono _ (by omega)

/-! ## C09 -/

/-- **C09.** After every history of `add_factors` calls (nested lists included, failures caught) no two factors of one
type have the same set of variables; and a group one of whose scopes is, as a set, the scope of a factor of its type
already in the graph — or that contains the same set twice — is rejected with `ValueError`. -/
theorem C09_no_duplicates (vgs : List (VGroup κ)) (hist : List (AddArg α)) :
    let fg : FactorGraph κ α := (FactorGraph.create vgs).addHistory hist
    (∀ t, (fg.scopeSets t).Nodup) ∧
    (∀ g : FGroup α, (∃ vs ∈ g.varsForFactors, vs.toFinset ∈ fg.scopeSets g.ftype) →
      (fg.addFactors (.one g)).2 = some .valueError) ∧
    (∀ g : FGroup α, ¬ (g.varsForFactors.map List.toFinset).Nodup →
      (fg.addFactors (.one g)).2 = some .valueError) := by
  intro fg
  have hI : ScopeInv fg := Reachable.scopeInv ⟨vgs, hist, rfl⟩
  have rej : ∀ g : FGroup α, ¬ ((g.varsForFactors.map List.toFinset).Nodup ∧
      ∀ s ∈ g.varsForFactors.map List.toFinset, s ∉ fg.seen g.ftype) →
      (fg.addFactors (.one g)).2 = some .valueError := by
    intro g hn
    simp only [FactorGraph.addFactors]
    cases hr : (fg.addGroup g).2 with
    | none => exact absurd ((addScopes_ok _ _).1.1 ((addGroup_none_iff fg g).1 hr)) hn
    | some e =>
      rw [(addScopes_fail _ _ e (addGroup_eq_fail fg g e hr).1).1]
  refine ⟨fun t => (hI t).1, ?_, ?_⟩
  · rintro g ⟨vs, hvs, hm⟩
    apply rej
    rintro ⟨-, h2⟩
    exact h2 _ (List.mem_map.2 ⟨vs, hvs, rfl⟩) ((hI g.ftype).2.1 _ hm)
  · intro g hnd
    apply rej
    rintro ⟨h1, -⟩
    exact hnd h1

/-- A fresh factor is accepted: on a graph on which no call has failed so far, a group is accepted iff its scopes are
pairwise different sets, all different from the scopes of its type in the graph; and it is then appended. -/
theorem C09_accepts (vgs : List (VGroup κ)) (gs : List (FGroup α))
    (hok : ((FactorGraph.create vgs : FactorGraph κ α).addFactors (.list (gs.map .one))).2 = none) (g : FGroup α) :
    let fg : FactorGraph κ α := ((FactorGraph.create vgs).addFactors (.list (gs.map .one))).1
    ((fg.addFactors (.one g)).2 = none ↔
      (g.varsForFactors.map List.toFinset).Nodup ∧
      ∀ s ∈ g.varsForFactors.map List.toFinset, s ∉ fg.scopeSets g.ftype) ∧
    ((fg.addFactors (.one g)).2 = none → (fg.addFactors (.one g)).1.groups g.ftype = fg.groups g.ftype ++ [g]) := by
  intro fg
  have key : ∀ (gs : List (FGroup α)) (fg : FactorGraph κ α), (∀ t, fg.seen t = fg.scopes t) →
      (fg.addList (gs.map .one)).2 = none → ∀ t, (fg.addList (gs.map .one)).1.seen t
        = (fg.addList (gs.map .one)).1.scopes t := by
    intro gs
    induction gs with
    | nil => intro fg h _; simpa [FactorGraph.addList] using h
    | cons g gs ih =>
      intro fg h hn
      simp only [List.map_cons, FactorGraph.addList, FactorGraph.addFactors] at hn ⊢
      cases hr : fg.addGroup g with
      | mk fg' e =>
        cases e with
        | some e => rw [hr] at hn; simp at hn
        | none =>
          rw [hr] at hn
          simp only at hn ⊢
          refine ih fg' ?_ hn
          have := (addGroup_eq_ok fg g (by rw [hr])).2
          rw [hr] at this
          simp only at this
          intro t
          rw [this]
          by_cases ht : t = g.ftype
          · subst ht
            simp [FactorGraph.scopes, h]
          · simp only [FactorGraph.scopes, Function.update_of_ne ht, h]
  have hseen : ∀ t, fg.seen t = fg.scopes t := by
    intro t
    refine key gs (FactorGraph.create vgs) ?_ hok t
    intro t; simp [FactorGraph.create, FactorGraph.scopes]
  simp only [FactorGraph.addFactors]
  rw [addGroup_none_iff, (addScopes_ok _ _).1, hseen]
  refine ⟨Iff.rfl, ?_⟩
  intro h
  have h' : (fg.addGroup g).2 = none := by
    rw [addGroup_none_iff, (addScopes_ok _ _).1, hseen]; exact h
  rw [(addGroup_eq_ok fg g h').2]
  simp

/-- Witness objects for the examples below: three binary variables and enumeration groups over them. -/
def exVar (i : Nat) : Var := ⟨1000000000 + i, 2⟩
/-- A two-scope group. -/
def exGroup (id : Nat) (scopes : List (List Var)) : FGroup ℚ :=
  ⟨id, .enum, .enumGroup, scopes, ⟨2, [[0, 0], [1, 1]]⟩, List.replicate (2 * scopes.length) 0⟩

/-- Non-vacuity: with (v0,v1) in the graph, adding (v1,v0) is rejected. -/
example : (((FactorGraph.create [] : FactorGraph Nat ℚ).addHistory
      [.one (exGroup 1 [[exVar 0, exVar 1]])]).addFactors (.one (exGroup 2 [[exVar 1, exVar 0]]))).2
    = some .valueError := by decide

/-- Non-vacuity of `C09_accepts`. -/
example : ((FactorGraph.create [] : FactorGraph Nat ℚ).addFactors
    (.list ([exGroup 1 [[exVar 0, exVar 1]], exGroup 2 [[exVar 1, exVar 2]]].map .one))).2 = none := by decide

/-! ## C10 -/

/-- **C10 (partial).** A rejected `add_factors(group)` leaves the variables and the factors unchanged, and what it
leaves behind in the set of seen scopes are exactly the scopes of the group before the first duplicate.
Every later group without any of these scopes is accepted or rejected as if the failing call had not been made.
Missing: later groups that do use one of these scopes, for which the claim is false (`C10_refuted`). -/
theorem C10_rejected_add_partial (fg : FactorGraph κ α) (g : FGroup α) (e : PyErr)
    (h : (fg.addFactors (.one g)).2 = some e) :
    let fg' := (fg.addFactors (.one g)).1
    e = .valueError ∧ fg'.groups = fg.groups ∧ fg'.varGroups = fg.varGroups ∧
    fg'.varsToStarts = fg.varsToStarts ∧ fg'.numVarStates = fg.numVarStates ∧
    (∃ pre vs post, g.varsForFactors = pre ++ vs :: post ∧
      (vs.toFinset ∈ fg.seen g.ftype ∨ vs.toFinset ∈ pre.map List.toFinset) ∧
      fg'.seen = Function.update fg.seen g.ftype (fg.seen g.ftype ++ pre.map List.toFinset) ∧
      ∀ k : FGroup α, (k.ftype = g.ftype → ∀ vs ∈ k.varsForFactors, vs.toFinset ∉ pre.map List.toFinset) →
        ((fg'.addFactors (.one k)).2 = none ↔ (fg.addFactors (.one k)).2 = none)) := by
  intro fg'
  simp only [FactorGraph.addFactors] at h
  obtain ⟨h1, h2⟩ := addGroup_eq_fail fg g e h
  have hfg : fg' = { fg with
      seen := Function.update fg.seen g.ftype (FactorGraph.addScopes (fg.seen g.ftype) g.varsForFactors).1 } := h2
  obtain ⟨he, pre, vs, post, a1, a2, a3, a4, a5⟩ := addScopes_fail _ _ e h1
  rw [a2] at hfg
  refine ⟨he, by rw [hfg], by rw [hfg], by rw [hfg], by rw [hfg], pre, vs, post, a1, a5, by rw [hfg], ?_⟩
  intro k hk
  simp only [FactorGraph.addFactors]
  rw [addGroup_none_iff, addGroup_none_iff, (addScopes_ok _ _).1, (addScopes_ok _ _).1, hfg]
  by_cases ht : k.ftype = g.ftype
  · simp only [ht, Function.update_self]
    refine and_congr_right fun _ => ?_
    constructor
    · intro hs s hm hin; exact hs s hm (List.mem_append.2 (.inl hin))
    · intro hs s hm hin
      rcases List.mem_append.1 hin with hin | hin
      · exact hs s hm hin
      · obtain ⟨ws, hws, rfl⟩ := List.mem_map.1 hm
        exact hk ht ws hws hin
  · simp only [Function.update_of_ne ht]

/-- In particular a rejected *single factor* leaves the graph exactly as it was. -/
theorem C10_single (fg : FactorGraph κ α) (g : FGroup α) (vs : List Var) (hg : g.varsForFactors = [vs]) (e : PyErr)
    (h : (fg.addFactors (.one g)).2 = some e) : (fg.addFactors (.one g)).1 = fg := by
  obtain ⟨-, -, -, -, -, pre, ws, post, h1, h2, h3, -⟩ := C10_rejected_add_partial fg g e h
  simp only [FactorGraph.addFactors] at h ⊢
  rw [(addGroup_eq_fail fg g e h).2]
  have hp : pre = [] := by
    rw [hg] at h1
    cases pre with
    | nil => rfl
    | cons p pre => simp at h1
  subst hp
  have h4 := (addGroup_eq_fail fg g e h).1
  obtain ⟨-, pre', _, _, b1, b2, -⟩ := addScopes_fail _ _ e h4
  have hp' : pre' = [] := by
    rw [hg] at b1
    cases pre' with
    | nil => rfl
    | cons p pre => simp at b1
  rw [b2, hp']
  simp

/-- **C10 is false as stated:** after a group is rejected because of its second scope, its first scope — which no factor
in the graph uses — can never be added again, though it could before. -/
theorem C10_refuted : ∃ (fg : FactorGraph Nat ℚ) (g k : FGroup ℚ),
    (fg.addFactors (.one g)).2 = some .valueError ∧
    (fg.addFactors (.one k)).2 = none ∧
    ((fg.addFactors (.one g)).1.addFactors (.one k)).2 = some .valueError ∧
    ∀ vs ∈ k.varsForFactors, vs.toFinset ∉ (fg.addFactors (.one g)).1.scopeSets k.ftype := by
  refine ⟨(FactorGraph.create []).addHistory [.one (exGroup 1 [[exVar 0, exVar 1]])],
    exGroup 2 [[exVar 1, exVar 2], [exVar 1, exVar 0]], exGroup 3 [[exVar 2, exVar 1]], ?_, ?_, ?_, ?_⟩
  all_goals decide

/-- Non-vacuity of `C10_rejected_add_partial` and `C10_single`. -/
example : (((FactorGraph.create [] : FactorGraph Nat ℚ).addHistory
      [.one (exGroup 1 [[exVar 0, exVar 1]])]).addFactors (.one (exGroup 2 [[exVar 1, exVar 0]]))).2
    = some .valueError := by decide

/-- `add_factors(list)` is not atomic: the elements before the failing one stay in the graph. -/
theorem C10_list_not_atomic : ∃ (fg : FactorGraph Nat ℚ) (l : List (AddArg ℚ)),
    (fg.addFactors (.list l)).2 = some .valueError ∧
    ((fg.addFactors (.list l)).1.groups .enum).length ≠ (fg.groups .enum).length := by
  refine ⟨FactorGraph.create [], [.one (exGroup 1 [[exVar 0, exVar 1]]), .one (exGroup 2 [[exVar 1, exVar 0]])], ?_, ?_⟩
  all_goals decide

/-! ## C11 -/

/-- Groups in a reachable graph have pairwise different ids. -/
theorem Reachable.ids_nodup {fg : FactorGraph κ α} (hR : Reachable fg) (hid : IdsOk fg.allGroups)
    (hne : ∀ g ∈ fg.allGroups, g.varsForFactors ≠ []) : (fg.allGroups.map (·.objId)).Nodup := by
  have hI := hR.scopeInv
  rw [List.nodup_map_iff_inj_on]
  · intro g hg h hh he; exact hid g hg h hh he
  · unfold FactorGraph.allGroups at *
    have hmem : ∀ t g, g ∈ fg.groups t → g ∈ FType.all.flatMap fg.groups := by
      intro t g hg
      refine List.mem_flatMap.2 ⟨t, by cases t <;> simp [FType.all], hg⟩
    rw [List.nodup_flatMap]
    refine ⟨?_, ?_⟩
    · intro t _
      have h1 := (hI t).1
      rw [FactorGraph.scopes, List.nodup_flatMap] at h1
      refine List.Pairwise.imp_of_mem ?_ h1.2
      intro a b ha hb hd hab
      subst hab
      obtain ⟨vs, hvs⟩ := List.exists_mem_of_ne_nil _ (hne a (hmem t a ha))
      exact hd (List.mem_map.2 ⟨vs, hvs, rfl⟩) (List.mem_map.2 ⟨vs, hvs, rfl⟩)
    · have hdis : ∀ t u, t ≠ u → List.Disjoint (fg.groups t) (fg.groups u) := by
        intro t u htu g hg hg'
        exact htu (((hI t).2.2 g hg).symm.trans ((hI u).2.2 g hg'))
      simp only [FType.all, List.pairwise_cons, List.mem_cons, List.not_mem_nil, or_false, forall_eq_or_imp, forall_eq,
        List.Pairwise.nil, and_true, false_imp_iff, implies_true, Function.onFun]
      exact ⟨⟨hdis _ _ (by decide), hdis _ _ (by decide)⟩, hdis _ _ (by decide)⟩

theorem factorEdgesNumStates_sum (g : FGroup α) : g.factorEdgesNumStates.sum = g.numEdgeStates := by
  unfold FGroup.factorEdgesNumStates FGroup.numEdgeStates
  induction g.varsForFactors with
  | nil => rfl
  | cons a l ih => rw [List.flatMap_cons, List.sum_append, ih]; simp

/-- **C11.** In every reachable graph (of non-empty groups) `compute_offsets` lays out the groups, listed by type and
within a type in the order of addition, one after the other: group `k` starts where group `k-1` ends, the first at 0,
its block having the length of its own edge states (log potentials); each type's range is exactly the union of the blocks of its
groups, the ranges follow each other, and the totals are the ends of the last range. -/
theorem C11_offsets_partition (vgs : List (VGroup κ)) (hist : List (AddArg α)) :
    let fg : FactorGraph κ α := (FactorGraph.create vgs).addHistory hist
    let gs := fg.groups .enum ++ fg.groups .or ++ fg.groups .and
    let o := fg.computeOffsets
    IdsOk gs → (∀ g ∈ gs, g.varsForFactors ≠ []) →
    -- consecutive blocks, in order
    (∀ g, gs[0]? = some g → o.groupToMsgsStart g.objId = some 0 ∧ o.groupToPotsStart g.objId = some 0) ∧
    (∀ k g h, gs[k]? = some g → gs[k + 1]? = some h → ∃ s p,
      o.groupToMsgsStart g.objId = some s ∧ o.groupToMsgsStart h.objId = some (s + g.numEdgeStates) ∧
      o.groupToPotsStart g.objId = some p ∧ o.groupToPotsStart h.objId = some (p + g.logPotentials.length)) ∧
    -- ranges of the types
    (o.typeToMsgsRange .enum = (0, ((fg.groups .enum).map (·.numEdgeStates)).sum) ∧
      o.typeToMsgsRange .or = ((o.typeToMsgsRange .enum).2,
        (o.typeToMsgsRange .enum).2 + ((fg.groups .or).map (·.numEdgeStates)).sum) ∧
      o.typeToMsgsRange .and = ((o.typeToMsgsRange .or).2,
        (o.typeToMsgsRange .or).2 + ((fg.groups .and).map (·.numEdgeStates)).sum) ∧
      o.totalNumStates = (o.typeToMsgsRange .and).2) ∧
    (o.typeToPotsRange .enum = (0, (fg.logPotentialsOf .enum).length) ∧
      o.typeToPotsRange .or = ((o.typeToPotsRange .enum).2,
        (o.typeToPotsRange .enum).2 + (fg.logPotentialsOf .or).length) ∧
      o.typeToPotsRange .and = ((o.typeToPotsRange .or).2,
        (o.typeToPotsRange .or).2 + (fg.logPotentialsOf .and).length) ∧
      o.totalNumConfigs = (o.typeToPotsRange .and).2) := by
  intro fg gs o hid hne
  have hall : fg.allGroups = gs := by simp [FactorGraph.allGroups, FType.all, gs]
  have hR : Reachable fg := ⟨vgs, hist, rfl⟩
  have hnd := hR.ids_nodup (by rw [hall]; exact hid) (by rw [hall]; exact hne)
  obtain ⟨a1, a2, a3, a4, a5⟩ := computeOffsets_spec fg hnd
  rw [hall] at a3 a4 a5
  have hes : ∀ l : List (FGroup α), edgeStatesOf l = (l.map (·.numEdgeStates)).sum := by
    intro l; unfold edgeStatesOf; congr 1; exact List.map_congr_left fun g _ => factorEdgesNumStates_sum g
  have hps : ∀ t, potsOf (fg.groups t) = (fg.logPotentialsOf t).length := by
    intro t; unfold potsOf FactorGraph.logPotentialsOf; rw [List.length_flatMap]
  have htk : ∀ (k : Nat) (g : FGroup α), gs[k]? = some g → gs.take (k + 1) = gs.take k ++ [g] := by
    intro k g hk; rw [List.take_add_one, hk]; rfl
  refine ⟨?_, ?_, ⟨?_, ?_, ?_, ?_⟩, ?_, ?_, ?_, ?_⟩
  · intro g hg; simpa [edgeStatesOf, potsOf] using a5 0 g hg
  · intro k g h hg hh
    refine ⟨_, _, (a5 k g hg).1, ?_, (a5 k g hg).2, ?_⟩
    · rw [(a5 _ h hh).1, htk k g hg, edgeStatesOf_append, hes [g]]; simp
    · rw [(a5 _ h hh).2, htk k g hg, potsOf_append]; simp [potsOf]
  · rw [a1, ← hes]; simp [FType.before, edgeStatesOf]
  · rw [a1, a1, ← hes]; simp [FType.before, edgeStatesOf]
  · rw [a1, a1, ← hes]; simp [FType.before, edgeStatesOf_append]
  · rw [a3, a1, ← hall]; simp [FType.before, FactorGraph.allGroups, FType.all, edgeStatesOf_append]; omega
  · rw [a2, ← hps]; simp [FType.before, potsOf]
  · rw [a2, a2, ← hps]; simp [FType.before, potsOf]
  · rw [a2, a2, ← hps]; simp [FType.before, potsOf_append]
  · rw [a4, a2, ← hall]; simp [FType.before, FactorGraph.allGroups, FType.all, potsOf_append]; omega

/-- The flat log-potential array of the compiled state holds each group's potentials in its block. -/
theorem C11_pots_block (garbage : Garbage) (fg : FactorGraph κ α) (hR : Reachable fg) (hid : IdsOk fg.allGroups)
    (hne : ∀ g ∈ fg.allGroups, g.varsForFactors ≠ []) (st : FGState κ α) (hst : fg.fgState garbage = .ok st)
    (g : FGroup α) (hg : g ∈ fg.allGroups) :
    ∃ p, st.groupToPotsStart g.objId = some p ∧
      ∀ i, i < g.logPotentials.length → st.logPotentials[p + i]? = g.logPotentials[i]? := by
  obtain ⟨-, -, -, -, a5⟩ := computeOffsets_spec fg (hR.ids_nodup hid hne)
  unfold FactorGraph.fgState at hst
  cases hw : fg.wiring garbage with
  | error e => rw [hw] at hst; cases hst
  | ok w =>
    rw [hw] at hst
    simp only [bind, Except.bind, pure, Except.pure, Except.ok.injEq] at hst
    subst hst
    obtain ⟨k, hk⟩ := List.mem_iff_getElem?.1 hg
    refine ⟨_, (a5 k g hk).2, ?_⟩
    intro i hi
    have he : FType.all.flatMap fg.logPotentialsOf = fg.allGroups.flatMap (·.logPotentials) := by
      simp [FType.all, FactorGraph.logPotentialsOf, FactorGraph.allGroups]
    simp only [he]
    have hsplit : fg.allGroups = fg.allGroups.take k ++ g :: fg.allGroups.drop (k + 1) := by
      obtain ⟨hlt, hge⟩ := List.getElem?_eq_some_iff.1 hk
      subst hge
      simp
    have hl : potsOf (fg.allGroups.take k) = ((fg.allGroups.take k).flatMap (·.logPotentials)).length := by
      unfold potsOf; rw [List.length_flatMap]
    have hcat : fg.allGroups.flatMap (·.logPotentials) = (fg.allGroups.take k).flatMap (·.logPotentials) ++
        (g.logPotentials ++ (fg.allGroups.drop (k + 1)).flatMap (·.logPotentials)) := by
      conv_lhs => rw [hsplit]
      rw [List.flatMap_append, List.flatMap_cons]
    rw [hl, hcat, List.getElem?_append_right (by omega), Nat.add_sub_cancel_left, List.getElem?_append_left hi]

/-- Non-vacuity: two enumeration groups and an OR group. -/
def exMixed : FactorGraph Nat ℚ :=
  (FactorGraph.create []).addHistory
    [.one (exGroup 1 [[exVar 0, exVar 1]]), .one ⟨2, .or, .logicalGroup, [[exVar 0, exVar 1]], ⟨0, []⟩, []⟩,
      .list [.one (exGroup 3 [[exVar 1, exVar 2], [exVar 0, exVar 2]])]]
example : IdsOk (exMixed.groups .enum ++ exMixed.groups .or ++ exMixed.groups .and) ∧
    (∀ g ∈ exMixed.groups .enum ++ exMixed.groups .or ++ exMixed.groups .and, g.varsForFactors ≠ []) ∧
    (exMixed.groups .enum ++ exMixed.groups .or ++ exMixed.groups .and).length = 3 := by
  refine ⟨?_, ?_, ?_⟩
  · unfold IdsOk
    have : exMixed.groups .enum ++ exMixed.groups .or ++ exMixed.groups .and
      = [exGroup 1 [[exVar 0, exVar 1]], exGroup 3 [[exVar 1, exVar 2], [exVar 0, exVar 2]],
          ⟨2, .or, .logicalGroup, [[exVar 0, exVar 1]], ⟨0, []⟩, []⟩] := by rfl
    rw [this]
    simp [exGroup]
  · decide
  · decide

end PGMax
