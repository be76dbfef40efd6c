import Verif.Props.C13_C18
import Verif.Lemmas.Update
import Verif.Model.BPState

/-! Helper lemmas: closed form of the compiled state of a graph of valid groups. -/

namespace PGMax

variable {κ α : Type _}

theorem mkWirings_varStates (fg : FactorGraph κ α) (t : FType) :
    (mkWirings fg).varStatesForEdges t = vsEntries fg.varsToStarts (fg.scopesOf t) := by
  cases t with
  | enum =>
    simp only [Wirings.varStatesForEdges, mkWirings, mkEnumW, List.map_flatMap]
    simp [FGroup.sfs, Function.comp_def, FactorGraph.scopesOf]
  | or => rfl
  | and => rfl

theorem mkWirings_edgesNumStates (fg : FactorGraph κ α) (t : FType) :
    (mkWirings fg).edgesNumStates t = (fg.scopesOf t).flatMap scopeNs := by
  cases t with
  | enum =>
    simp only [Wirings.edgesNumStates, mkWirings, mkEnumW, List.flatMap_assoc]
    simp [FGroup.sfs, List.flatMap_map, FactorGraph.scopesOf, List.flatMap_assoc]
  | or => rfl
  | and => rfl

/-- Number of edge states of a list of scopes. -/
def statesOf (scopes : List (List Var)) : Nat := (scopes.map (fun vs => (vs.map (·.n)).sum)).sum

theorem statesOf_append (a b : List (List Var)) : statesOf (a ++ b) = statesOf a + statesOf b := by
  simp [statesOf]

theorem edgeStatesOf_eq (gs : List (FGroup α)) : edgeStatesOf gs = statesOf (gs.flatMap (·.varsForFactors)) := by
  unfold statesOf edgeStatesOf
  rw [groups_states_sum]
  congr 1
  exact List.map_congr_left fun g _ => factorEdgesNumStates_sum g

namespace Compiled
variable {vgs : List (VGroup κ)} {hist : List (AddArg α)} {garbage : Garbage} {st : FGState κ α}

theorem fgValid (h : Compiled vgs hist garbage st) : (graphOf vgs hist).Valid := addHistory_valid vgs hist h.valid

theorem reachable (_ : Compiled vgs hist garbage st) : Reachable (graphOf vgs hist) := ⟨vgs, hist, rfl⟩

theorem groupsNe (h : Compiled vgs hist garbage st) : ∀ g ∈ (graphOf vgs hist).allGroups, g.varsForFactors ≠ [] := by
  intro g hg
  obtain ⟨t, -, hg⟩ := List.mem_flatMap.1 hg
  exact (h.fgValid t g hg).2.ne

theorem idsNodup (h : Compiled vgs hist garbage st) : ((graphOf vgs hist).allGroups.map (·.objId)).Nodup :=
  h.reachable.ids_nodup h.ids h.groupsNe

theorem singles (h : Compiled vgs hist garbage st) :
    (graphOf vgs hist).SinglesButLast .or ∧ (graphOf vgs hist).SinglesButLast .and := by
  by_contra hc
  have := h.compiled
  unfold FactorGraph.fgState at this
  rw [wiring_err garbage _ h.fgValid hc] at this
  cases this

theorem st_eq (h : Compiled vgs hist garbage st) :
    st = { varGroups := (graphOf vgs hist).varGroups, varsToStarts := (graphOf vgs hist).varsToStarts,
           numVarStates := (graphOf vgs hist).numVarStates,
           totalFactorNumStates := (graphOf vgs hist).computeOffsets.totalNumStates,
           typeToMsgsRange := (graphOf vgs hist).computeOffsets.typeToMsgsRange,
           typeToPotsRange := (graphOf vgs hist).computeOffsets.typeToPotsRange,
           groupToPotsStart := (graphOf vgs hist).computeOffsets.groupToPotsStart,
           logPotentials := FType.all.flatMap (graphOf vgs hist).logPotentialsOf, wiring := mkWirings (graphOf vgs hist) } := by
  have := h.compiled
  unfold FactorGraph.fgState at this
  rw [wiring_ok garbage _ h.fgValid h.singles.1 h.singles.2] at this
  cases this
  rfl

theorem varGroups (h : Compiled vgs hist garbage st) : st.varGroups = vgs := by
  rw [h.st_eq]
  have : ∀ (hist : List (AddArg α)) (fg : FactorGraph κ α), (fg.addHistory hist).varGroups = fg.varGroups := by
    intro hist
    induction hist with
    | nil => intro fg; rfl
    | cons a hist ih =>
      intro fg
      refine (ih _).trans ?_
      refine addFactors_inv (fun fg' => fg'.varGroups = fg.varGroups) ?_ a fg rfl
      intro fg' g h
      cases hr : (fg'.addGroup g).2 with
      | some e => rw [(addGroup_eq_fail fg' g e hr).2]; exact h
      | none => rw [(addGroup_eq_ok fg' g hr).2]; exact h
  exact this hist _

theorem starts_iff (h : Compiled vgs hist garbage st) (v : Var) (s : Nat) :
    st.varsToStarts v = some s ↔ ∃ i, (allVars vgs)[i]? = some v ∧ s = (((allVars vgs).map (·.n)).take i).sum := by
  rw [← create_starts_iff (α := α) vgs h.vgroups.groupOk h.vgroups.nodup]
  have h1 := (h.reachable).vars.1
  have h2 := h.varGroups
  rw [h.st_eq] at h2 ⊢
  simp only at h2 ⊢
  rw [h1, h2]

theorem numVarStates (h : Compiled vgs hist garbage st) : st.numVarStates = ((allVars vgs).map (·.n)).sum := by
  rw [← (create_starts (α := α) vgs h.vgroups.groupOk).2]
  have h1 := (h.reachable).vars.2
  have h2 := h.varGroups
  rw [h.st_eq] at h2 ⊢
  simp only at h2 ⊢
  rw [h1, h2]

theorem blocks (h : Compiled vgs hist garbage st) :
    (∀ v, (∃ s, st.varsToStarts v = some s) ↔ ∃ g ∈ vgs, v ∈ g.variables) ∧
    (∀ v s, st.varsToStarts v = some s → s + v.n ≤ st.numVarStates) ∧
    (∀ v w s t, st.varsToStarts v = some s → st.varsToStarts w = some t → v ≠ w → s + v.n ≤ t ∨ t + w.n ≤ s) ∧
    (∀ p, p < st.numVarStates → ∃ v s, st.varsToStarts v = some s ∧ s ≤ p ∧ p < s + v.n) := by
  have := C08_blocks_partition (α := α) vgs h.vgroups hist
  rw [h.st_eq]
  exact this

theorem totalPots (h : Compiled vgs hist garbage st) : st.logPotentials.length = potsOf (graphOf vgs hist).allGroups := by
  rw [h.st_eq]
  simp [FType.all, FactorGraph.logPotentialsOf, FactorGraph.allGroups, potsOf, List.length_flatMap]

theorem potsStart (h : Compiled vgs hist garbage st) (k : Nat) (g : FGroup α)
    (hg : (graphOf vgs hist).allGroups[k]? = some g) :
    st.groupToPotsStart g.objId = some (potsOf ((graphOf vgs hist).allGroups.take k)) ∧
    potsOf ((graphOf vgs hist).allGroups.take k) + g.logPotentials.length = potsOf ((graphOf vgs hist).allGroups.take (k + 1)) := by
  obtain ⟨-, -, -, -, a5⟩ := computeOffsets_spec (graphOf vgs hist) h.idsNodup
  refine ⟨?_, ?_⟩
  · rw [h.st_eq]; exact (a5 k g hg).2
  · rw [List.take_add_one, hg, Option.toList_some, potsOf_append]; simp [potsOf]

theorem potsOf_take_mono (gs : List (FGroup α)) {i j : Nat} (hij : i ≤ j) : potsOf (gs.take i) ≤ potsOf (gs.take j) := by
  unfold potsOf
  rw [List.map_take, List.map_take]
  exact sum_take_mono _ hij

theorem potsOf_take_le (gs : List (FGroup α)) (i : Nat) : potsOf (gs.take i) ≤ potsOf gs := by
  unfold potsOf
  rw [List.map_take]
  exact sum_take_le _ _

/-- An id that no group of the graph has is not in the dictionary of offsets. -/
theorem potsStart_none (h : Compiled vgs hist garbage st) (i : Nat) (hi : ∀ g ∈ (graphOf vgs hist).allGroups, g.objId ≠ i) :
    st.groupToPotsStart i = none := by
  rw [h.st_eq]
  have hnd := h.idsNodup
  simp only
  generalize graphOf vgs hist = fg at *
  have key : ∀ (ts : List FType) (o : FactorGraph.Offsets), (∀ t ∈ ts, ((fg.groups t).map (·.objId)).Nodup) →
      o.groupToPotsStart i = none → (ts.foldl fg.offsetsTypeStep o).groupToPotsStart i = none := by
    intro ts
    induction ts with
    | nil => intro o _ ho; exact ho
    | cons t ts ih =>
      intro o hn ho
      refine ih _ (fun t ht => hn t (by simp [ht])) ?_
      obtain ⟨-, -, -, -, a5, -⟩ := offsetsGroup_foldl (fg.groups t) o (hn t (by simp))
      have := (a5 i (by
        rw [List.mem_map]
        rintro ⟨g, hg, hgi⟩
        exact hi g (List.mem_flatMap.2 ⟨t, by cases t <;> simp [FType.all], hg⟩) hgi)).2
      exact this.trans ho
  refine key FType.all _ ?_ rfl
  intro t ht
  refine List.Nodup.sublist (List.Sublist.map _ ?_) hnd
  unfold FactorGraph.allGroups
  cases t <;> simp [FType.all]

theorem varStates (h : Compiled vgs hist garbage st) (t : FType) :
    st.wiring.varStatesForEdges t = vsEntries st.varsToStarts ((graphOf vgs hist).scopesOf t) := by
  rw [h.st_eq]; exact mkWirings_varStates _ t

theorem allVarStates (h : Compiled vgs hist garbage st) :
    st.allVarStates = vsEntries st.varsToStarts (graphOf vgs hist).allScopes := by
  unfold FGState.allVarStates FactorGraph.allScopes
  simp only [FType.all, List.flatMap_cons, List.flatMap_nil, List.append_nil, vsEntries_append, h.varStates]

theorem totalStates (h : Compiled vgs hist garbage st) : st.totalFactorNumStates = statesOf (graphOf vgs hist).allScopes := by
  obtain ⟨-, -, a3, -, -⟩ := computeOffsets_spec (graphOf vgs hist) h.idsNodup
  rw [h.st_eq]
  simp only
  rw [a3, edgeStatesOf_eq]
  simp [FactorGraph.allScopes, FType.all, FactorGraph.scopesOf, FactorGraph.allGroups]

theorem scopeVars (h : Compiled vgs hist garbage st) : ∀ vs ∈ (graphOf vgs hist).allScopes, ∀ v ∈ vs,
    ∃ s, st.varsToStarts v = some s := by
  intro vs hvs v hv
  obtain ⟨t, -, hvs⟩ := List.mem_flatMap.1 hvs
  obtain ⟨g, hg, hvs⟩ := List.mem_flatMap.1 hvs
  have := (h.fgValid t g hg).2.vars vs hvs v hv
  rw [h.st_eq]
  exact Option.isSome_iff_exists.1 this

end Compiled

end PGMax
