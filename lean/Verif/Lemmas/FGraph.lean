import Verif.Model.FGraph
import Verif.Lemmas.VGroup
import Verif.Lemmas.Block

/-! Helper lemmas about graph construction, `add_factors` and `compute_offsets`. -/

namespace PGMax

variable {κ α : Type _}

/-! ### Variable starts -/

/-- Variables with their prefix-sum start indices. -/
def startKvs (vars : List Var) : List (Var × Nat) :=
  vars.zip ((List.range vars.length).map (fun i => ((vars.map (·.n)).take i).sum))

theorem dictUpdate_append (d : StartMap) (a b : List (Var × Nat)) :
    dictUpdate d (a ++ b) = dictUpdate (dictUpdate d a) b := by simp [dictUpdate, List.foldl_append]

theorem startKvs_append (a b : List Var) :
    startKvs (a ++ b) = startKvs a ++
      b.zip ((List.range b.length).map (fun i => (a.map (·.n)).sum + ((b.map (·.n)).take i).sum)) := by
  unfold startKvs
  rw [List.length_append, List.range_add, List.map_append, List.zip_append (by simp)]
  congr 1
  · congr 1
    apply List.map_congr_left
    intro i hi
    simp only [List.mem_range] at hi
    rw [List.map_append, List.take_append_of_le_length (by simp; omega)]
  · congr 1
    rw [List.map_map]
    apply List.map_congr_left
    intro i hi
    simp only [Function.comp, List.map_append]
    rw [List.take_append, List.take_of_length_le (by simp), List.sum_append]
    congr 3
    simp

theorem startKvs_getElem? (vars : List Var) (i : Nat) :
    (startKvs vars)[i]? = vars[i]?.map (fun v => (v, ((vars.map (·.n)).take i).sum)) := by
  unfold startKvs
  rw [List.zip, List.getElem?_zipWith]
  by_cases h : i < vars.length
  · simp [List.getElem?_eq_getElem h, List.getElem?_range h]
  · rw [List.getElem?_eq_none (l := vars) (by omega)]; rfl

@[simp] theorem startKvs_length (vars : List Var) : (startKvs vars).length = vars.length := by simp [startKvs]

theorem startKvs_map_fst (vars : List Var) : (startKvs vars).map (·.1) = vars := by
  unfold startKvs; rw [List.map_fst_zip]; simp

theorem dictUpdate_nodup (d : StartMap) (kvs : List (Var × Nat)) (hnd : (kvs.map (·.1)).Nodup) (v : Var) (s : Nat) :
    (dictUpdate d kvs) v = some s ↔ (v, s) ∈ kvs ∨ (v ∉ kvs.map (·.1) ∧ d v = some s) := by
  induction kvs generalizing d with
  | nil => simp [dictUpdate]
  | cons p kvs ih =>
    obtain ⟨w, t⟩ := p
    simp only [List.map_cons, List.nodup_cons] at hnd
    have : dictUpdate d ((w, t) :: kvs) = dictUpdate (fun v => if v = w then some t else d v) kvs := rfl
    rw [this, ih _ hnd.2]
    simp only [List.mem_cons, Prod.mk.injEq, List.map_cons, not_or]
    by_cases hv : v = w
    · subst hv
      have hn : ∀ s, (v, s) ∉ kvs := fun s hm => hnd.1 (List.mem_map.2 ⟨_, hm, rfl⟩)
      simp only [hn, hnd.1, not_false_eq_true, if_true, Option.some.injEq, false_or, true_and, not_true_eq_false,
        false_and, or_false]
      exact eq_comm
    · simp only [hv, if_false, false_and, false_or, not_false_eq_true, true_and]

/-- The list of variables and the state counts of a group agree. -/
def GroupOk (g : VGroup κ) : Prop := g.variables.map (·.n) = g.numStates

theorem GroupOk.of_built {objId : Nat} {g : VGroup κ} (h : VGroup.Built objId g) : GroupOk g := by
  obtain ⟨-, -, h3⟩ := h.facts
  apply List.ext_getElem?
  intro i
  rw [List.getElem?_map, h3 i]
  cases g.numStates[i]? <;> rfl

theorem initStep_eq (pre : List Var) (g : VGroup κ) (hg : GroupOk g) :
    FactorGraph.initStep (dictUpdate (fun _ => none) (startKvs pre), (pre.map (·.n)).sum) g
      = (dictUpdate (fun _ => none) (startKvs (pre ++ g.variables)), ((pre ++ g.variables).map (·.n)).sum) := by
  unfold FactorGraph.initStep
  simp only [cumsum0_getLastD, cumsum0_dropLast, List.map_append, List.sum_append]
  have hlen : g.numStates.length = g.variables.length := by rw [← hg]; simp
  rw [startKvs_append, dictUpdate_append, hg, List.map_map, hlen]
  rfl

theorem init_foldl (vgs : List (VGroup κ)) (pre : List Var) (hg : ∀ g ∈ vgs, GroupOk g) :
    vgs.foldl FactorGraph.initStep (dictUpdate (fun _ => none) (startKvs pre), (pre.map (·.n)).sum)
      = (dictUpdate (fun _ => none) (startKvs (pre ++ vgs.flatMap (·.variables))),
          ((pre ++ vgs.flatMap (·.variables)).map (·.n)).sum) := by
  induction vgs generalizing pre with
  | nil => simp
  | cons g vgs ih =>
    rw [List.foldl_cons, initStep_eq pre g (hg g (by simp)), ih _ (fun g' h => hg g' (by simp [h]))]
    simp [List.flatMap_cons]

/-- All variables of a list of groups, in order. -/
def allVars (vgs : List (VGroup κ)) : List Var := vgs.flatMap (·.variables)

theorem create_starts (vgs : List (VGroup κ)) (hg : ∀ g ∈ vgs, GroupOk g) :
    (FactorGraph.create vgs : FactorGraph κ α).varsToStarts = dictUpdate (fun _ => none) (startKvs (allVars vgs)) ∧
    (FactorGraph.create vgs : FactorGraph κ α).numVarStates = ((allVars vgs).map (·.n)).sum := by
  have := init_foldl vgs [] hg
  simp only [startKvs, List.zip_nil_left, List.map_nil, List.sum_nil, List.nil_append, dictUpdate,
    List.foldl_nil] at this
  unfold FactorGraph.create
  simp only [this]
  exact ⟨rfl, rfl⟩

theorem create_starts_iff (vgs : List (VGroup κ)) (hg : ∀ g ∈ vgs, GroupOk g) (hnd : (allVars vgs).Nodup) (v : Var)
    (s : Nat) :
    (FactorGraph.create vgs : FactorGraph κ α).varsToStarts v = some s ↔
      ∃ i, (allVars vgs)[i]? = some v ∧ s = (((allVars vgs).map (·.n)).take i).sum := by
  rw [(create_starts vgs hg).1, dictUpdate_nodup _ _ (by rw [startKvs_map_fst]; exact hnd)]
  simp only [reduceCtorEq, and_false, or_false]
  rw [List.mem_iff_getElem?]
  simp only [startKvs_getElem?, Option.map_eq_some_iff, Prod.mk.injEq]
  constructor
  · rintro ⟨i, w, h1, rfl, h2⟩; exact ⟨i, h1, h2.symm⟩
  · rintro ⟨i, h1, h2⟩; exact ⟨i, v, h1, rfl, h2.symm⟩

/-! ### add_factors -/

theorem addScopes_ok (seen : List (Finset Var)) (vss : List (List Var)) :
    ((FactorGraph.addScopes seen vss).2 = none ↔
      (vss.map List.toFinset).Nodup ∧ ∀ s ∈ vss.map List.toFinset, s ∉ seen) ∧
    ((FactorGraph.addScopes seen vss).2 = none →
      (FactorGraph.addScopes seen vss).1 = seen ++ vss.map List.toFinset) := by
  induction vss generalizing seen with
  | nil => simp [FactorGraph.addScopes]
  | cons vs vss ih =>
    unfold FactorGraph.addScopes
    by_cases h : vs.toFinset ∈ seen
    · simp [h]
    · rw [if_neg h]
      obtain ⟨i1, i2⟩ := ih (seen ++ [vs.toFinset])
      constructor
      · rw [i1]
        simp only [List.map_cons, List.nodup_cons, List.mem_cons, forall_eq_or_imp, List.mem_append,
          List.mem_singleton, List.not_mem_nil, or_false, not_or]
        constructor
        · rintro ⟨h1, h2⟩
          exact ⟨⟨fun hm => (h2 _ hm).2 rfl, h1⟩, h, fun s hs => (h2 s hs).1⟩
        · rintro ⟨⟨h1, h2⟩, -, h4⟩
          exact ⟨h2, fun s hs => ⟨h4 s hs, fun he => h1 (he ▸ hs)⟩⟩
      · intro hn
        rw [i2 hn]; simp

/-- What a failed check leaves behind: the scopes before the first one that is already present. -/
theorem addScopes_fail (seen : List (Finset Var)) (vss : List (List Var)) (e : PyErr)
    (h : (FactorGraph.addScopes seen vss).2 = some e) :
    e = .valueError ∧ ∃ pre vs post, vss = pre ++ vs :: post ∧
      (FactorGraph.addScopes seen vss).1 = seen ++ pre.map List.toFinset ∧
      (pre.map List.toFinset).Nodup ∧ (∀ s ∈ pre.map List.toFinset, s ∉ seen) ∧
      (vs.toFinset ∈ seen ∨ vs.toFinset ∈ pre.map List.toFinset) := by
  induction vss generalizing seen with
  | nil => simp [FactorGraph.addScopes] at h
  | cons vs vss ih =>
    unfold FactorGraph.addScopes at h ⊢
    by_cases hm : vs.toFinset ∈ seen
    · simp only [hm, if_true, Option.some.injEq] at h ⊢
      exact ⟨h.symm, [], vs, vss, rfl, by simp, by simp, by simp, .inl hm⟩
    · rw [if_neg hm] at h ⊢
      obtain ⟨he, pre, ws, post, h1, h2, h3, h4, h5⟩ := ih _ h
      refine ⟨he, vs :: pre, ws, post, by simp [h1], by rw [h2]; simp, ?_, ?_, ?_⟩
      · simp only [List.map_cons, List.nodup_cons]
        exact ⟨fun hmem => by have := h4 _ hmem; simp at this, h3⟩
      · intro s hs
        simp only [List.map_cons, List.mem_cons] at hs
        rcases hs with rfl | hs
        · exact hm
        · have := h4 s hs; simp at this; exact this.1
      · simp only [List.mem_append, List.mem_singleton] at h5
        rcases h5 with (h5 | h5) | h5
        · exact .inl h5
        · right; simp [h5]
        · right; simp only [List.map_cons, List.mem_cons]; exact .inr h5

/-- The graph without the exception. -/
def FactorGraph.added (fg : FactorGraph κ α) (a : AddArg α) : FactorGraph κ α := (fg.addFactors a).1

theorem addGroup_eq_ok (fg : FactorGraph κ α) (g : FGroup α) (h : (fg.addGroup g).2 = none) :
    (FactorGraph.addScopes (fg.seen g.ftype) g.varsForFactors).2 = none ∧
    (fg.addGroup g).1 = { fg with
      seen := Function.update fg.seen g.ftype (fg.seen g.ftype ++ g.varsForFactors.map List.toFinset)
      groups := Function.update fg.groups g.ftype (fg.groups g.ftype ++ [g]) } := by
  unfold FactorGraph.addGroup at h ⊢
  cases hr : (FactorGraph.addScopes (fg.seen g.ftype) g.varsForFactors).2 with
  | some e => simp [hr] at h
  | none =>
    have := (addScopes_ok (fg.seen g.ftype) g.varsForFactors).2 hr
    simp [this, hr]

theorem addGroup_none_iff (fg : FactorGraph κ α) (g : FGroup α) :
    (fg.addGroup g).2 = none ↔ (FactorGraph.addScopes (fg.seen g.ftype) g.varsForFactors).2 = none := by
  unfold FactorGraph.addGroup
  cases hr : (FactorGraph.addScopes (fg.seen g.ftype) g.varsForFactors).2 <;> simp [hr]

theorem addGroup_eq_fail (fg : FactorGraph κ α) (g : FGroup α) (e : PyErr) (h : (fg.addGroup g).2 = some e) :
    (FactorGraph.addScopes (fg.seen g.ftype) g.varsForFactors).2 = some e ∧
    (fg.addGroup g).1 = { fg with
      seen := Function.update fg.seen g.ftype (FactorGraph.addScopes (fg.seen g.ftype) g.varsForFactors).1 } := by
  unfold FactorGraph.addGroup at h ⊢
  cases hr : (FactorGraph.addScopes (fg.seen g.ftype) g.varsForFactors).2 with
  | some e' => simpa [hr] using h
  | none => simp [hr] at h

mutual
/-- An invariant of `addGroup` is an invariant of `addFactors`. -/
theorem addFactors_inv (P : FactorGraph κ α → Prop) (hP : ∀ fg g, P fg → P (fg.addGroup g).1) :
    ∀ (a : AddArg α) (fg : FactorGraph κ α), P fg → P (fg.addFactors a).1
  | .one g, fg, h => by simpa [FactorGraph.addFactors] using hP fg g h
  | .list l, fg, h => by simpa [FactorGraph.addFactors] using addList_inv P hP l fg h
theorem addList_inv (P : FactorGraph κ α → Prop) (hP : ∀ fg g, P fg → P (fg.addGroup g).1) :
    ∀ (l : List (AddArg α)) (fg : FactorGraph κ α), P fg → P (fg.addList l).1
  | [], fg, h => by simpa [FactorGraph.addList] using h
  | a :: l, fg, h => by
      have h1 := addFactors_inv P hP a fg h
      simp only [FactorGraph.addList]
      cases hr : fg.addFactors a with
      | mk fg' e =>
        rw [hr] at h1
        cases e with
        | none => exact addList_inv P hP l fg' h1
        | some e => exact h1
end

/-- A graph reachable from a fresh one by any history of `add_factors` calls, failing ones included. -/
def Reachable (fg : FactorGraph κ α) : Prop :=
  ∃ (vgs : List (VGroup κ)) (hist : List (AddArg α)), fg = hist.foldl FactorGraph.added (FactorGraph.create vgs)

theorem reachable_inv (P : FactorGraph κ α → Prop) (h0 : ∀ vgs, P (FactorGraph.create vgs))
    (hP : ∀ fg g, P fg → P (fg.addGroup g).1) (fg : FactorGraph κ α) (h : Reachable fg) : P fg := by
  obtain ⟨vgs, hist, rfl⟩ := h
  have key : ∀ (hist : List (AddArg α)) (fg : FactorGraph κ α), P fg → P (hist.foldl FactorGraph.added fg) := by
    intro hist
    induction hist with
    | nil => intro fg h; exact h
    | cons a hist ih => intro fg h; exact ih _ (addFactors_inv P hP a fg h)
  exact key hist _ (h0 vgs)

/-- The scopes of the factors of type `t` in the graph. -/
def FactorGraph.scopes (fg : FactorGraph κ α) (t : FType) : List (Finset Var) :=
  (fg.groups t).flatMap (fun g => g.varsForFactors.map List.toFinset)

/-- The invariant behind C09. -/
def ScopeInv (fg : FactorGraph κ α) : Prop :=
  ∀ t, (fg.scopes t).Nodup ∧ (∀ s ∈ fg.scopes t, s ∈ fg.seen t) ∧ ∀ g ∈ fg.groups t, g.ftype = t

theorem scopeInv_addGroup (fg : FactorGraph κ α) (g : FGroup α) (h : ScopeInv fg) : ScopeInv (fg.addGroup g).1 := by
  cases hr : (fg.addGroup g).2 with
  | some e =>
    rw [(addGroup_eq_fail fg g e hr).2]
    obtain ⟨h1, -⟩ := addGroup_eq_fail fg g e hr
    obtain ⟨-, pre, vs, post, -, h2, -⟩ := addScopes_fail _ _ e h1
    intro t
    obtain ⟨a1, a2, a3⟩ := h t
    refine ⟨a1, ?_, a3⟩
    intro s hs
    by_cases ht : t = g.ftype
    · subst ht
      simp only [Function.update_self]
      rw [h2]; simp only [List.mem_append]; exact .inl (a2 s hs)
    · simp only [Function.update_of_ne ht]; exact a2 s hs
  | none =>
    obtain ⟨h1, h2⟩ := addGroup_eq_ok fg g hr
    rw [h2]
    obtain ⟨n1, n2⟩ := (addScopes_ok _ _).1.1 h1
    intro t
    obtain ⟨a1, a2, a3⟩ := h t
    by_cases ht : t = g.ftype
    · subst ht
      simp only [FactorGraph.scopes, Function.update_self, List.flatMap_append, List.flatMap_cons, List.flatMap_nil,
        List.append_nil]
      refine ⟨?_, ?_, ?_⟩
      · rw [List.nodup_append]
        refine ⟨a1, n1, ?_⟩
        intro a ha b hb hab
        subst hab
        exact n2 a hb (a2 a ha)
      · intro s hs
        rcases List.mem_append.1 hs with hs | hs
        · exact List.mem_append.2 (.inl (a2 s hs))
        · exact List.mem_append.2 (.inr hs)
      · intro g' hg'
        rcases List.mem_append.1 hg' with hg' | hg'
        · exact a3 g' hg'
        · simp at hg'; rw [hg']
    · simp only [FactorGraph.scopes, Function.update_of_ne ht]
      exact ⟨a1, a2, a3⟩

theorem scopeInv_create (vgs : List (VGroup κ)) : ScopeInv (FactorGraph.create vgs : FactorGraph κ α) := by
  intro t; simp [FactorGraph.create, FactorGraph.scopes]

theorem Reachable.scopeInv {fg : FactorGraph κ α} (h : Reachable fg) : ScopeInv fg :=
  reachable_inv ScopeInv scopeInv_create scopeInv_addGroup fg h

/-- `add_factors` never touches the variables. -/
theorem Reachable.vars {fg : FactorGraph κ α} (h : Reachable fg) :
    fg.varsToStarts = (FactorGraph.create fg.varGroups : FactorGraph κ α).varsToStarts ∧
    fg.numVarStates = (FactorGraph.create fg.varGroups : FactorGraph κ α).numVarStates := by
  refine reachable_inv (fun fg => fg.varsToStarts = (FactorGraph.create fg.varGroups : FactorGraph κ α).varsToStarts ∧
    fg.numVarStates = (FactorGraph.create fg.varGroups : FactorGraph κ α).numVarStates) ?_ ?_ fg h
  · intro vgs; exact ⟨rfl, rfl⟩
  · intro fg g h
    cases hr : (fg.addGroup g).2 with
    | some e => rw [(addGroup_eq_fail fg g e hr).2]; exact h
    | none => rw [(addGroup_eq_ok fg g hr).2]; exact h

/-! ### Offsets -/

open FactorGraph in
theorem offsetsGroup_foldl (gs : List (FGroup α)) (o : Offsets) (hnd : (gs.map (·.objId)).Nodup) :
    let o' := gs.foldl offsetsGroupStep o
    o'.typeToMsgsRange = o.typeToMsgsRange ∧ o'.typeToPotsRange = o.typeToPotsRange ∧
    o'.totalNumStates = o.totalNumStates + (gs.map (fun g => g.factorEdgesNumStates.sum)).sum ∧
    o'.totalNumConfigs = o.totalNumConfigs + (gs.map (fun g => g.logPotentials.length)).sum ∧
    (∀ i, i ∉ gs.map (·.objId) → o'.groupToMsgsStart i = o.groupToMsgsStart i ∧
      o'.groupToPotsStart i = o.groupToPotsStart i) ∧
    ∀ k g, gs[k]? = some g →
      o'.groupToMsgsStart g.objId
        = some (o.totalNumStates + ((gs.take k).map (fun g => g.factorEdgesNumStates.sum)).sum) ∧
      o'.groupToPotsStart g.objId
        = some (o.totalNumConfigs + ((gs.take k).map (fun g => g.logPotentials.length)).sum) := by
  induction gs generalizing o with
  | nil => simp
  | cons g gs ih =>
    simp only [List.map_cons, List.nodup_cons] at hnd
    obtain ⟨i1, i2, i3, i4, i5, i6⟩ := ih (offsetsGroupStep o g) hnd.2
    refine ⟨i1, i2, ?_, ?_, ?_, ?_⟩
    · refine i3.trans ?_; simp only [offsetsGroupStep, List.map_cons, List.sum_cons]; omega
    · refine i4.trans ?_; simp only [offsetsGroupStep, List.map_cons, List.sum_cons]; omega
    · intro i hi
      simp only [List.map_cons, List.mem_cons, not_or] at hi
      obtain ⟨j1, j2⟩ := i5 i hi.2
      exact ⟨j1.trans (by simp only [offsetsGroupStep, hi.1, if_false]),
        j2.trans (by simp only [offsetsGroupStep, hi.1, if_false])⟩
    · intro k g' hk
      cases k with
      | zero =>
        simp at hk; subst hk
        obtain ⟨j1, j2⟩ := i5 g.objId hnd.1
        exact ⟨j1.trans (by simp [offsetsGroupStep]), j2.trans (by simp [offsetsGroupStep])⟩
      | succ k =>
        simp at hk
        obtain ⟨j1, j2⟩ := i6 k g' hk
        refine ⟨j1.trans ?_, j2.trans ?_⟩ <;>
          simp only [offsetsGroupStep, List.take_succ_cons, List.map_cons, List.sum_cons] <;> congr 1 <;> omega

/-- Number of edge states of a list of groups. -/
def edgeStatesOf (gs : List (FGroup α)) : Nat := (gs.map (fun g => g.factorEdgesNumStates.sum)).sum
/-- Number of log potentials of a list of groups. -/
def potsOf (gs : List (FGroup α)) : Nat := (gs.map (fun g => g.logPotentials.length)).sum

/-- All factor groups, in the order of types and of addition. -/
def FactorGraph.allGroups (fg : FactorGraph κ α) : List (FGroup α) := FType.all.flatMap fg.groups

/-- The factor types before `t` in the fixed order. -/
def FType.before : FType → List FType
  | .enum => []
  | .or => [.enum]
  | .and => [.enum, .or]

theorem edgeStatesOf_append (a b : List (FGroup α)) : edgeStatesOf (a ++ b) = edgeStatesOf a + edgeStatesOf b := by
  simp [edgeStatesOf]
theorem potsOf_append (a b : List (FGroup α)) : potsOf (a ++ b) = potsOf a + potsOf b := by
  simp [potsOf]

/-- What `compute_offsets` computes, in closed form. -/
theorem computeOffsets_spec (fg : FactorGraph κ α) (hnd : (fg.allGroups.map (·.objId)).Nodup) :
    (∀ t, fg.computeOffsets.typeToMsgsRange t
      = (edgeStatesOf (t.before.flatMap fg.groups),
          edgeStatesOf (t.before.flatMap fg.groups) + edgeStatesOf (fg.groups t))) ∧
    (∀ t, fg.computeOffsets.typeToPotsRange t
      = (potsOf (t.before.flatMap fg.groups), potsOf (t.before.flatMap fg.groups) + potsOf (fg.groups t))) ∧
    fg.computeOffsets.totalNumStates = edgeStatesOf fg.allGroups ∧
    fg.computeOffsets.totalNumConfigs = potsOf fg.allGroups ∧
    ∀ k g, fg.allGroups[k]? = some g →
      fg.computeOffsets.groupToMsgsStart g.objId = some (edgeStatesOf (fg.allGroups.take k)) ∧
      fg.computeOffsets.groupToPotsStart g.objId = some (potsOf (fg.allGroups.take k)) := by
  have hall : fg.allGroups = fg.groups .enum ++ (fg.groups .or ++ fg.groups .and) := by
    simp [FactorGraph.allGroups, FType.all]
  rw [hall] at hnd ⊢
  simp only [List.map_append] at hnd
  obtain ⟨n1, n23, d1⟩ := List.nodup_append.1 hnd
  obtain ⟨n2, n3, d2⟩ := List.nodup_append.1 n23
  set o0 : FactorGraph.Offsets :=
    { typeToMsgsRange := fun _ => (0, 0), typeToPotsRange := fun _ => (0, 0),
      groupToMsgsStart := fun _ => none, groupToPotsStart := fun _ => none,
      totalNumStates := 0, totalNumConfigs := 0 } with ho0
  have hco : fg.computeOffsets =
    fg.offsetsTypeStep (fg.offsetsTypeStep (fg.offsetsTypeStep o0 .enum) .or) .and := rfl
  set o1 := fg.offsetsTypeStep o0 .enum with ho1
  set o2 := fg.offsetsTypeStep o1 .or with ho2
  rw [hco]
  obtain ⟨a1, a2, a3, a4, a5, a6⟩ := offsetsGroup_foldl (fg.groups .enum) o0 n1
  obtain ⟨b1, b2, b3, b4, b5, b6⟩ := offsetsGroup_foldl (fg.groups .or) o1 n2
  obtain ⟨c1, c2, c3, c4, c5, c6⟩ := offsetsGroup_foldl (fg.groups .and) o2 n3
  have s1 : o1.totalNumStates = edgeStatesOf (fg.groups .enum) := by
    refine Eq.trans a3 ?_; simp [ho0, edgeStatesOf]
  have p1 : o1.totalNumConfigs = potsOf (fg.groups .enum) := by
    refine Eq.trans a4 ?_; simp [ho0, potsOf]
  have s2 : o2.totalNumStates = edgeStatesOf (fg.groups .enum) + edgeStatesOf (fg.groups .or) := by
    refine Eq.trans b3 ?_; rw [s1]; rfl
  have p2 : o2.totalNumConfigs = potsOf (fg.groups .enum) + potsOf (fg.groups .or) := by
    refine Eq.trans b4 ?_; rw [p1]; rfl
  have s3 : (fg.offsetsTypeStep o2 .and).totalNumStates
      = edgeStatesOf (fg.groups .enum) + edgeStatesOf (fg.groups .or) + edgeStatesOf (fg.groups .and) := by
    refine Eq.trans c3 ?_; rw [s2]; rfl
  have p3 : (fg.offsetsTypeStep o2 .and).totalNumConfigs
      = potsOf (fg.groups .enum) + potsOf (fg.groups .or) + potsOf (fg.groups .and) := by
    refine Eq.trans c4 ?_; rw [p2]; rfl
  refine ⟨?_, ?_, ?_, ?_, ?_⟩
  · intro t
    have m3 : (fg.offsetsTypeStep o2 .and).typeToMsgsRange = Function.update o2.typeToMsgsRange .and
        (o2.totalNumStates, (fg.offsetsTypeStep o2 .and).totalNumStates) := by
      show Function.update _ _ _ = _; rw [c1]; rfl
    have m2 : o2.typeToMsgsRange = Function.update o1.typeToMsgsRange .or (o1.totalNumStates, o2.totalNumStates) := by
      show Function.update _ _ _ = _; rw [b1]; rfl
    have m1 : o1.typeToMsgsRange = Function.update o0.typeToMsgsRange .enum (o0.totalNumStates, o1.totalNumStates) := by
      show Function.update _ _ _ = _; rw [a1]; rfl
    rw [m3, m2, m1, s3, s2, s1]
    cases t <;> simp [FType.before, edgeStatesOf_append, Function.update, ho0] <;> simp [edgeStatesOf]
  · intro t
    have m3 : (fg.offsetsTypeStep o2 .and).typeToPotsRange = Function.update o2.typeToPotsRange .and
        (o2.totalNumConfigs, (fg.offsetsTypeStep o2 .and).totalNumConfigs) := by
      show Function.update _ _ _ = _; rw [c2]; rfl
    have m2 : o2.typeToPotsRange = Function.update o1.typeToPotsRange .or (o1.totalNumConfigs, o2.totalNumConfigs) := by
      show Function.update _ _ _ = _; rw [b2]; rfl
    have m1 : o1.typeToPotsRange = Function.update o0.typeToPotsRange .enum (o0.totalNumConfigs, o1.totalNumConfigs) := by
      show Function.update _ _ _ = _; rw [a2]; rfl
    rw [m3, m2, m1, p3, p2, p1]
    cases t <;> simp [FType.before, potsOf_append, Function.update, ho0] <;> simp [potsOf]
  · rw [s3]; simp [edgeStatesOf_append]; omega
  · rw [p3]; simp [potsOf_append]; omega
  · intro k g hk
    have key : ∀ (l1 l2 : List (FGroup α)) (k : Nat) (g : FGroup α), (l1 ++ l2)[k]? = some g →
        (l1[k]? = some g ∧ (l1 ++ l2).take k = l1.take k) ∨
        (∃ j, l2[j]? = some g ∧ (l1 ++ l2).take k = l1 ++ l2.take j) := by
      intro l1 l2 k g h
      rw [List.getElem?_append] at h
      split at h
      · exact .inl ⟨h, by rw [List.take_append_of_le_length (by omega)]⟩
      · refine .inr ⟨k - l1.length, h, ?_⟩
        rw [List.take_append, List.take_of_length_le (by omega)]
    rcases key _ _ k g hk with ⟨h1, h2⟩ | ⟨j, h1, h2⟩
    · have hm : g.objId ∈ (fg.groups .enum).map (·.objId) := List.mem_map.2 ⟨g, List.mem_of_getElem? h1, rfl⟩
      have nb : g.objId ∉ (fg.groups .or).map (·.objId) := fun h => d1 _ hm _ (List.mem_append.2 (.inl h)) rfl
      have nc : g.objId ∉ (fg.groups .and).map (·.objId) := fun h => d1 _ hm _ (List.mem_append.2 (.inr h)) rfl
      rw [h2]
      constructor
      · refine (c5 _ nc).1.trans ((b5 _ nb).1.trans ((a6 k g h1).1.trans ?_)); simp [ho0, edgeStatesOf]
      · refine (c5 _ nc).2.trans ((b5 _ nb).2.trans ((a6 k g h1).2.trans ?_)); simp [ho0, potsOf]
    · rw [h2]
      rcases key _ _ j g h1 with ⟨h3, h4⟩ | ⟨i, h3, h4⟩
      · have hm : g.objId ∈ (fg.groups .or).map (·.objId) := List.mem_map.2 ⟨g, List.mem_of_getElem? h3, rfl⟩
        have nc : g.objId ∉ (fg.groups .and).map (·.objId) := fun h => d2 _ hm _ h rfl
        rw [h4]
        constructor
        · refine (c5 _ nc).1.trans ((b6 j g h3).1.trans ?_); rw [s1, edgeStatesOf_append]; rfl
        · refine (c5 _ nc).2.trans ((b6 j g h3).2.trans ?_); rw [p1, potsOf_append]; rfl
      · rw [h4]
        constructor
        · refine (c6 i g h3).1.trans ?_; rw [s2, edgeStatesOf_append, edgeStatesOf_append, ← add_assoc]; rfl
        · refine (c6 i g h3).2.trans ?_; rw [p2, potsOf_append, potsOf_append, ← add_assoc]; rfl

end PGMax
