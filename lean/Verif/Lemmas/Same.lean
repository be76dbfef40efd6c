import Verif.Spec.Same
import Verif.Lemmas.Step
import Verif.Props.C34_C36

/-! Helper lemmas: graphs with the same factors. -/

namespace PGMax

variable {κ κ' α : Type _}

section
variable [Field α] [LinearOrder α] [IsStrictOrderedRing α]

omit [Field α] [IsStrictOrderedRing α] in
theorem foldl_max_perm {l l' : List α} (h : l.Perm l') (b : α) : l.foldl max b = l'.foldl max b := by
  haveI : RightCommutative (max : α → α → α) := ⟨fun a b c => by rw [max_assoc, max_comm b c, ← max_assoc]⟩
  exact h.foldl_eq b

omit [Field α] [LinearOrder α] [IsStrictOrderedRing α] in
theorem SFac.Same.rowsAt {F F' : SFac α} (h : F.Same F') (i s : Nat) : (F.rowsAt i s).Perm (F'.rowsAt i s) := h.2.filter _

omit [IsStrictOrderedRing α] in
theorem enumOut_same (env : Env α) (T : α) {F F' : SFac α} (h : F.Same F') (q : Nat → Nat → α) (i s : Nat) :
    enumOut env T F q i s = enumOut env T F' q i s := by
  unfold enumOut
  rw [← h.1]
  have e : ((F.rowsAt i s).map (fun r => scoreBut F.scope.length q i r + q i s)).foldl max NEG_INF =
      ((F'.rowsAt i s).map (fun r => scoreBut F.scope.length q i r + q i s)).foldl max NEG_INF := foldl_max_perm ((h.rowsAt i s).map _) _
  rw [e, ((h.rowsAt i s).map _).sum_eq]

omit [IsStrictOrderedRing α] in
theorem facOut_same (env : Env α) (T : α) (kind : Option Nat) {F F' : SFac α} (h : F.Same F') (q : Nat → Nat → α) (i s : Nat) :
    facOut env T kind F q i s = facOut env T kind F' q i s := by
  unfold facOut
  cases kind with
  | none => exact enumOut_same env T h q i s
  | some rel => simp only [h.1]

variable {fg : FactorGraph κ α} {fg' : FactorGraph κ' α} {lp lp' : List α}

omit [LinearOrder α] [IsStrictOrderedRing α] in
theorem SameFactors.at (h : SameFactors fg fg' lp lp') {f : Nat} {F : SFac α} (hF : (fg.factors lp)[f]? = some F) :
    ∃ F', (fg'.factors lp')[f]? = some F' ∧ F.Same F' := forall₂_getElem? h.facs hF

omit [LinearOrder α] [IsStrictOrderedRing α] in
theorem SameFactors.scopes (h : SameFactors fg fg' lp lp') : fg.allScopes = fg'.allScopes := by
  rw [← fg.factors_scopes lp, ← fg'.factors_scopes lp']
  have : ∀ (l l' : List (SFac α)), List.Forall₂ SFac.Same l l' → l.map (·.scope) = l'.map (·.scope) := by
    intro l l' hl
    induction hl with
    | nil => rfl
    | cons a _ ih => simp only [List.map_cons, ih, a.1]
  exact this _ _ h.facs

omit [Field α] [LinearOrder α] [IsStrictOrderedRing α] in
theorem tables_length {κ : Type _} (fg : FactorGraph κ α) : fg.tables.length = (fg.scopesOf .enum).length := by
  rw [← Compiled.tables_scopes fg, List.length_map]

omit [LinearOrder α] [IsStrictOrderedRing α] in
theorem SameFactors.kind (h : SameFactors fg fg' lp lp') (f : Nat) : fg.kind f = fg'.kind f := by
  unfold FactorGraph.kind FactorGraph.restState
  rw [tables_length fg, tables_length fg', h.types .enum, h.types .or]

omit [IsStrictOrderedRing α] in
theorem SameFactors.rawM (h : SameFactors fg fg' lp lp') (env : Env α) (T : α) (ev : Var → Nat → α) (m : Msgs α) :
    rawM env T fg lp ev m = rawM env T fg' lp' ev m := by
  funext f i s
  unfold PGMax.rawM
  cases hF : (fg.factors lp)[f]? with
  | none =>
    have : (fg'.factors lp')[f]? = none := by
      rw [List.getElem?_eq_none_iff] at hF ⊢
      rw [← h.facs.length_eq]; exact hF
    rw [this]
  | some F =>
    obtain ⟨F', hF', hs⟩ := h.at hF
    rw [hF']
    simp only
    rw [h.kind f, h.scopes, facOut_same env T _ hs]

omit [IsStrictOrderedRing α] in
theorem SameFactors.stepM (h : SameFactors fg fg' lp lp') (env : Env α) (T : α) (maxLen : Nat) (ev : Var → Nat → α) (d : α) :
    stepM env T fg maxLen lp ev d = stepM env T fg' maxLen lp' ev d := by
  funext m
  unfold PGMax.stepM
  rw [h.scopes, h.rawM]

end

variable {vgs : List (VGroup κ)} {hist : List (AddArg α)} {garbage : Garbage} {st : FGState κ α}

section
variable [Field α] [LinearOrder α]

/-- The step depends on the evidence of the graph's variables only. -/
theorem Compiled.stepM_ev (h : Compiled vgs hist garbage st) (env : Env α) (T : α) (maxLen : Nat) (lp : List α) {ev ev' : Var → Nat → α} (d : α)
    (hev : ∀ f i v s, IsEdge (graphOf vgs hist).allScopes f i v → s < v.n → ev v s = ev' v s) (m : Msgs α) :
    AgreeOn (graphOf vgs hist).allScopes (stepM env T (graphOf vgs hist) maxLen lp ev d m) (stepM env T (graphOf vgs hist) maxLen lp ev' d m) := by
  apply normM_congr
  intro f i v s he hs
  simp only
  obtain ⟨F, hF, hi, hsc⟩ := (graphOf vgs hist).factors_edge lp he
  rw [rawM_at _ _ hF, rawM_at _ _ hF]
  congr 3
  refine facOut_congr env T (h.facOk lp f F hF) ?_ i s v hi hs
  intro j w t hj ht
  have he' : IsEdge (graphOf vgs hist).allScopes f j w := ⟨_, hsc, hj⟩
  rw [vtofM_at he', vtofM_at he']
  exact varToFac_congr (AgreeOn.refl _ _) (hev f j w t he' ht) _ ht

theorem Compiled.iterM_ev (h : Compiled vgs hist garbage st) (env : Env α) (T : α) (maxLen : Nat) (lp : List α) {ev ev' : Var → Nat → α} (d : α)
    (hev : ∀ f i v s, IsEdge (graphOf vgs hist).allScopes f i v → s < v.n → ev v s = ev' v s) (n : Nat) (m : Msgs α) :
    AgreeOn (graphOf vgs hist).allScopes (iterM (stepM env T (graphOf vgs hist) maxLen lp ev d) n m)
      (iterM (stepM env T (graphOf vgs hist) maxLen lp ev' d) n m) := by
  induction n generalizing m with
  | zero => exact AgreeOn.refl _ _
  | succ n ih =>
    simp only [iterM]
    exact (h.iterM_congr env T maxLen lp ev d n (h.stepM_ev env T maxLen lp d hev m)).trans (ih _)

end

/-! ## The groups of a graph do not depend on its variable groups -/

section
variable {κ κ' α : Type _}

/-- Two graphs with the same factor groups and the same scopes seen. -/
def SameGroups (fg : FactorGraph κ α) (fg' : FactorGraph κ' α) : Prop := fg.groups = fg'.groups ∧ fg.seen = fg'.seen

theorem SameGroups.addGroup {fg : FactorGraph κ α} {fg' : FactorGraph κ' α} (h : SameGroups fg fg') (g : FGroup α) :
    SameGroups (fg.addGroup g).1 (fg'.addGroup g).1 ∧ (fg.addGroup g).2 = (fg'.addGroup g).2 := by
  obtain ⟨h1, h2⟩ := h
  unfold FactorGraph.addGroup
  rw [h2]
  generalize FactorGraph.addScopes (fg'.seen g.ftype) g.varsForFactors = r
  obtain ⟨a, o⟩ := r
  cases o with
  | some e => exact ⟨⟨h1, by simp [h2]⟩, rfl⟩
  | none => exact ⟨⟨by simp [h1], by simp [h2]⟩, rfl⟩

mutual
theorem SameGroups.addFactors : ∀ (a : AddArg α) (fg : FactorGraph κ α) (fg' : FactorGraph κ' α), SameGroups fg fg' →
    SameGroups (fg.addFactors a).1 (fg'.addFactors a).1 ∧ (fg.addFactors a).2 = (fg'.addFactors a).2
  | .one g, fg, fg', h => by simpa [FactorGraph.addFactors] using h.addGroup g
  | .list l, fg, fg', h => by simpa [FactorGraph.addFactors] using SameGroups.addList l fg fg' h
theorem SameGroups.addList : ∀ (l : List (AddArg α)) (fg : FactorGraph κ α) (fg' : FactorGraph κ' α), SameGroups fg fg' →
    SameGroups (fg.addList l).1 (fg'.addList l).1 ∧ (fg.addList l).2 = (fg'.addList l).2
  | [], fg, fg', h => by simpa [FactorGraph.addList] using h
  | a :: l, fg, fg', h => by
      obtain ⟨h1, h2⟩ := SameGroups.addFactors a fg fg' h
      simp only [FactorGraph.addList]
      cases hr : fg.addFactors a with
      | mk f e =>
        cases hr' : fg'.addFactors a with
        | mk f' e' =>
          rw [hr, hr'] at h1 h2
          simp only at h1 h2
          subst h2
          cases e with
          | none => exact SameGroups.addList l f f' h1
          | some e => exact ⟨h1, rfl⟩
end

theorem SameGroups.graphOf (vgs : List (VGroup κ)) (vgs' : List (VGroup κ')) (hist : List (AddArg α)) :
    SameGroups (graphOf vgs hist) (graphOf vgs' hist) := by
  have key : ∀ (hist : List (AddArg α)) (fg : FactorGraph κ α) (fg' : FactorGraph κ' α), SameGroups fg fg' →
      SameGroups (fg.addHistory hist) (fg'.addHistory hist) := by
    intro hist
    induction hist with
    | nil => intro fg fg' h; exact h
    | cons a hist ih => intro fg fg' h; exact ih _ _ (SameGroups.addFactors a fg fg' h).1
  exact key hist _ _ ⟨rfl, rfl⟩

/-- The factors do not depend on the variable groups. -/
theorem SameGroups.factors [Zero α] {fg : FactorGraph κ α} {fg' : FactorGraph κ' α} (h : SameGroups fg fg') (lp : List α) :
    SameFactors fg fg' lp lp := by
  have hs : ∀ t, fg.scopesOf t = fg'.scopesOf t := fun t => by unfold FactorGraph.scopesOf; rw [h.1]
  refine ⟨?_, fun t => by rw [hs]⟩
  have : fg.factors lp = fg'.factors lp := by
    unfold FactorGraph.factors FactorGraph.tables
    rw [h.1, hs, hs]
  rw [this]
  exact List.forall₂_same.2 (fun F _ => ⟨rfl, List.Perm.refl _⟩)

/-- The same history compiles over any variable groups that contain the variables. -/
theorem Compiled.regroup {vgs : List (VGroup κ)} {vgs' : List (VGroup κ')} {hist : List (AddArg α)} {garbage : Garbage} {st : FGState κ α}
    (h : Compiled vgs hist garbage st) (hok : VGroupsOk vgs')
    (hsub : ∀ g ∈ vgs, ∀ v ∈ g.variables, ∃ g' ∈ vgs', v ∈ g'.variables) (garbage' : Garbage) :
    ∃ st', Compiled vgs' hist garbage' st' ∧ st'.logPotentials = st.logPotentials ∧ st'.totalFactorNumStates = st.totalFactorNumStates := by
  have hg := SameGroups.graphOf (α := α) vgs vgs' hist
  have hknown : ∀ v, ((FactorGraph.create vgs : FactorGraph κ α).varsToStarts v).isSome →
      ((FactorGraph.create vgs' : FactorGraph κ' α).varsToStarts v).isSome := by
    intro v hv
    obtain ⟨s, hs⟩ := Option.isSome_iff_exists.1 hv
    obtain ⟨g, hg, hvg⟩ := ((C08_blocks_partition (α := α) vgs h.vgroups []).1 v).1 ⟨s, hs⟩
    obtain ⟨s', hs'⟩ := ((C08_blocks_partition (α := α) vgs' hok []).1 v).2 (hsub g hg v hvg)
    exact Option.isSome_iff_exists.2 ⟨s', hs'⟩
  have hvalid : ∀ a ∈ hist, ∀ g ∈ a.flat, g.Valid (fun v => ((FactorGraph.create vgs' : FactorGraph κ' α).varsToStarts v).isSome) := by
    intro a ha g hga
    have := h.valid a ha g hga
    exact ⟨this.ne, fun vs hvs v hv => hknown v (this.vars vs hvs v hv), this.enumOk, this.logicalOk⟩
  have hfv : (graphOf vgs' hist).Valid := addHistory_valid vgs' hist hvalid
  have hsing : ∀ t, (graphOf vgs hist).SinglesButLast t → (graphOf vgs' hist).SinglesButLast t := by
    intro t ht
    unfold FactorGraph.SinglesButLast at ht ⊢
    rw [← hg.1]; exact ht
  have hw := wiring_ok garbage' _ hfv (hsing _ h.singles.1) (hsing _ h.singles.2)
  obtain ⟨st', hst'⟩ : ∃ st', (graphOf vgs' hist).fgState garbage' = .ok st' := by
    unfold FactorGraph.fgState
    rw [hw]
    exact ⟨_, rfl⟩
  have hc : Compiled vgs' hist garbage' st' := ⟨hok, hvalid, by rw [← hg.1]; exact h.ids, hst'⟩
  refine ⟨st', hc, ?_, ?_⟩
  · rw [hc.st_eq, h.st_eq]
    simp only
    unfold FactorGraph.logPotentialsOf
    rw [hg.1]
  · rw [hc.totalStates, h.totalStates]
    unfold FactorGraph.allScopes FactorGraph.scopesOf
    rw [hg.1]

end

end PGMax
