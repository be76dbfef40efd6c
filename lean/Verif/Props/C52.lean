import Verif.Props.C08_C11

/-! # C52: nested lists of factors -/

namespace PGMax

variable {κ α : Type _}

theorem addList_append (fg : FactorGraph κ α) (l l' : List (AddArg α)) :
    fg.addList (l ++ l') = match fg.addList l with
      | (fg', none) => fg'.addList l'
      | (fg', some e) => (fg', some e) := by
  induction l generalizing fg with
  | nil => simp [FactorGraph.addList]
  | cons a l ih =>
    simp only [List.cons_append, FactorGraph.addList]
    cases fg.addFactors a with
    | mk fg' e =>
      cases e with
      | none => exact ih fg'
      | some e => rfl

mutual
theorem addFactors_flat : ∀ (a : AddArg α) (fg : FactorGraph κ α), fg.addFactors a = fg.addList (a.flat.map .one)
  | .one g, fg => by
      simp only [AddArg.flat, List.map_cons, List.map_nil, FactorGraph.addList, FactorGraph.addFactors]
      cases fg.addGroup g with
      | mk fg' e => cases e <;> rfl
  | .list l, fg => by
      simp only [AddArg.flat, FactorGraph.addFactors]
      exact addList_flat l fg
theorem addList_flat : ∀ (l : List (AddArg α)) (fg : FactorGraph κ α), fg.addList l = fg.addList ((AddArg.flatList l).map .one)
  | [], fg => by simp [AddArg.flatList]
  | a :: l, fg => by
      simp only [AddArg.flatList, List.map_append]
      rw [addList_append, ← addFactors_flat a fg]
      simp only [FactorGraph.addList]
      cases fg.addFactors a with
      | mk fg' e =>
        cases e with
        | none => exact addList_flat l fg'
        | some e => rfl
end

theorem addList_groups (gs : List (FGroup α)) (fg : FactorGraph κ α) :
    ∃ k ≤ gs.length, (∀ t, (fg.addList (gs.map .one)).1.groups t = fg.groups t ++ (gs.take k).filter (fun g => decide (g.ftype = t))) ∧
      ((fg.addList (gs.map .one)).2 = none ↔ k = gs.length) ∧
      ∀ e, (fg.addList (gs.map .one)).2 = some e → e = .valueError ∧ ∃ (h : k < gs.length) (pre : List (List Var)) (vs : List Var)
        (post : List (List Var)), gs[k].varsForFactors = pre ++ vs :: post ∧
        (vs.toFinset ∈ pre.map List.toFinset ∨ vs.toFinset ∈ fg.seen gs[k].ftype ∨ ∃ g ∈ gs.take k, g.ftype = gs[k].ftype ∧ ∃ ws ∈ g.varsForFactors, ws.toFinset = vs.toFinset) := by
  induction gs generalizing fg with
  | nil => exact ⟨0, le_refl _, by simp [FactorGraph.addList], by simp [FactorGraph.addList], by simp [FactorGraph.addList]⟩
  | cons g gs ih =>
    simp only [List.map_cons, FactorGraph.addList, FactorGraph.addFactors]
    cases hr : (fg.addGroup g).2 with
    | some e =>
      have he : fg.addGroup g = ((fg.addGroup g).1, some e) := Prod.ext rfl hr
      obtain ⟨h1, h2⟩ := addGroup_eq_fail fg g e hr
      obtain ⟨h3, pre, vs, post, h4, -, -, -, h5⟩ := addScopes_fail _ _ e h1
      rw [he]
      refine ⟨0, by simp, ?_, by simp, ?_⟩
      · intro t; rw [h2]; simp
      · intro e' he'
        cases he'
        refine ⟨h3, by simp, pre, vs, post, h4, ?_⟩
        rcases h5 with h5 | h5
        · exact .inr (.inl h5)
        · exact .inl h5
    | none =>
      have he : fg.addGroup g = ((fg.addGroup g).1, none) := Prod.ext rfl hr
      obtain ⟨h1, h2⟩ := addGroup_eq_ok fg g hr
      rw [he]
      simp only
      obtain ⟨k, k1, k2, k3, k4⟩ := ih (fg.addGroup g).1
      refine ⟨k + 1, by simpa using k1, ?_, by rw [k3]; simp, ?_⟩
      · intro t
        rw [k2 t, h2]
        simp only [List.take_succ_cons, List.filter_cons]
        by_cases ht : t = g.ftype
        · subst ht; simp
        · rw [Function.update_of_ne ht, if_neg (by simpa using fun h : g.ftype = t => ht h.symm)]
      · intro e hE
        obtain ⟨e1, hk, pre, vs, post, e2, e3⟩ := k4 e hE
        refine ⟨e1, by simpa using hk, pre, vs, post, by simpa using e2, ?_⟩
        simp only [List.getElem_cons_succ]
        rcases e3 with e3 | e3 | ⟨g', hg', e4, e5⟩
        · exact .inl e3
        · rw [h2] at e3
          simp only at e3
          by_cases ht : gs[k].ftype = g.ftype
          · rw [ht, Function.update_self, List.mem_append] at e3
            rcases e3 with e3 | e3
            · exact .inr (.inl (by rw [ht]; exact e3))
            · obtain ⟨ws, hws, e6⟩ := List.mem_map.1 e3
              exact .inr (.inr ⟨g, by simp, ht.symm, ws, hws, e6⟩)
          · rw [Function.update_of_ne ht] at e3
            exact .inr (.inl e3)
        · exact .inr (.inr ⟨g', by simp [hg'], e4, e5⟩)

/-- **C52.** `add_factors` of nested lists is the same as adding the groups in the lists one after another, up to the first that is
rejected: for some `k` the first `k` groups are appended to the groups of their types; the call succeeds if and only if these are
all of them; if not, ValueError is raised and the `k`-th group has a factor over the same variables as an earlier factor of the
same group, a scope seen by the graph before, or a factor of the same type in one of the first `k` groups. -/
theorem C52 (fg : FactorGraph κ α) (a : AddArg α) :
    fg.addFactors a = fg.addFactors (.list (a.flat.map .one)) ∧
    ∃ k ≤ a.flat.length, (∀ t, (fg.addFactors a).1.groups t = fg.groups t ++ (a.flat.take k).filter (fun g => decide (g.ftype = t))) ∧
      ((fg.addFactors a).2 = none ↔ k = a.flat.length) ∧
      ∀ e, (fg.addFactors a).2 = some e → e = .valueError ∧ ∃ (h : k < a.flat.length) (pre : List (List Var)) (vs : List Var)
        (post : List (List Var)), a.flat[k].varsForFactors = pre ++ vs :: post ∧
        (vs.toFinset ∈ pre.map List.toFinset ∨ vs.toFinset ∈ fg.seen a.flat[k].ftype ∨
          ∃ g ∈ a.flat.take k, g.ftype = a.flat[k].ftype ∧ ∃ ws ∈ g.varsForFactors, ws.toFinset = vs.toFinset) := by
  refine ⟨?_, ?_⟩
  · rw [addFactors_flat a fg]
    simp [FactorGraph.addFactors]
  · rw [addFactors_flat a fg]
    exact addList_groups a.flat fg

/-- Non-vacuity of C52: a nested list whose third group repeats the variables of the first. -/
example : let a : AddArg ℚ := .list [.one (exGroup 1 [[exVar 0, exVar 1]]), .list [.list [.one (exGroup 2 [[exVar 1, exVar 2]])],
      .one (exGroup 3 [[exVar 1, exVar 0]])], .one (exGroup 4 [[exVar 0, exVar 2]])]
    ((FactorGraph.create [] : FactorGraph Nat ℚ).addFactors a).2 = some .valueError ∧ a.flat.length = 4 ∧
    ((FactorGraph.create [] : FactorGraph Nat ℚ).addFactors a).1.groups .enum = [exGroup 1 [[exVar 0, exVar 1]], exGroup 2 [[exVar 1, exVar 2]]] := by
  refine ⟨by decide, by decide, by rfl⟩

end PGMax
