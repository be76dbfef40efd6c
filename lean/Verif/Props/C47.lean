import Verif.Props.C13_C18

/-! # C47: compilation does not depend on uninitialised memory -/

namespace PGMax

variable {κ α : Type _}

/-- **C47 (1).** The loops that fill the `np.empty` arrays write every entry: the result is the same for any two initial contents. -/
theorem C47_loops :
    (∀ (out out' ns vs : List Nat), out.length = ns.sum → out'.length = ns.sum →
      compileVarStates out (cumsum0 ns) vs = compileVarStates out' (cumsum0 ns) vs) ∧
    (∀ (out out' : List (Nat × Nat)) (cf : Configs) (starts : List Nat) (nf : Nat), out.length = nf * cf.rows.length * cf.ncols →
      out'.length = nf * cf.rows.length * cf.ncols → compileEnumWiring out cf starts nf = compileEnumWiring out' cf starts nf) ∧
    (∀ (a b c a' b' c' ks : List Nat) (rel : Nat), (∀ k ∈ ks, 1 ≤ k) → rel ≤ 1 → a.length = (ks.map (· - 1)).sum → b.length = (ks.map (· - 1)).sum →
      c.length = ks.length → a'.length = (ks.map (· - 1)).sum → b'.length = (ks.map (· - 1)).sum → c'.length = ks.length →
      compileLogicalWiring a b c (ks.map (· - 1)) (cumsum0 (ks.map (· - 1))) (cumsum0 (ks.map (2 * ·))) rel =
      compileLogicalWiring a' b' c' (ks.map (· - 1)) (cumsum0 (ks.map (· - 1))) (cumsum0 (ks.map (2 * ·))) rel) := by
  refine ⟨?_, ?_, ?_⟩
  · intro out out' ns vs h h'
    rw [compileVarStates_eq _ _ _ h, compileVarStates_eq _ _ _ h']
  · intro out out' cf starts nf h h'
    rw [compileEnumWiring_eq _ _ _ _ h, compileEnumWiring_eq _ _ _ _ h']
  · intro a b c a' b' c' ks rel hk hr h1 h2 h3 h1' h2' h3'
    rw [compileLogicalWiring_eq a b c ks hk rel hr h1 h2 h3, compileLogicalWiring_eq a' b' c' ks hk rel hr h1' h2' h3']

theorem compileEnum_mem (m m' : Garbage) (g : FGroup α) (st : StartMap) : g.compileEnum m st = g.compileEnum m' st := by
  unfold FGroup.compileEnum EnumFactor.compileWiring
  cases lookupVarStates g.varsForFactors st with
  | error e => rfl
  | ok vs =>
    simp only [bind, Except.bind]
    rw [cumsum0_getLastD, compileVarStates_eq _ _ _ (by simp), compileVarStates_eq _ _ _ (by simp),
      compileEnumWiring_eq _ _ _ _ (by simp), compileEnumWiring_eq _ _ _ _ (by simp)]

theorem compileLogical_mem (m m' : Garbage) (g : FGroup α) (st : StartMap) : g.compileLogical m st = g.compileLogical m' st := by
  unfold FGroup.compileLogical LogicalFactor.compileWiring
  cases lookupVarStates g.varsForFactors st with
  | error e => rfl
  | ok vs =>
    simp only [bind, Except.bind]
    rw [← cumsum0_replicate, compileVarStates_eq _ _ _ (by simp [Nat.mul_comm]), compileVarStates_eq _ _ _ (by simp [Nat.mul_comm])]
    simp only
    by_cases hz : g.factorSizes.any (· == 0) = true
    · rw [if_pos hz, if_pos hz]; rfl
    · rw [if_neg hz, if_neg hz]
      have hk : ∀ k ∈ g.factorSizes, 1 ≤ k := by
        intro k hk
        by_contra hc
        apply hz
        rw [List.any_eq_true]
        exact ⟨k, hk, by simp; omega⟩
      rw [cumsum0_getLastD, compileLogicalWiring_eq _ _ _ _ hk _ (show relevantState g.offset ≤ 1 from relevantState_le _) (by simp) (by simp) (by simp),
        compileLogicalWiring_eq _ _ _ _ hk _ (show relevantState g.offset ≤ 1 from relevantState_le _) (by simp) (by simp) (by simp)]

/-- **C47 (2).** Whatever the uninitialised memory contains, compiling a graph (valid or not) succeeds or fails alike, with the same
result: no word of it reaches the wiring. -/
theorem C47 (m m' : Garbage) (fg : FactorGraph κ α) : fg.fgState m = fg.fgState m' := by
  unfold FactorGraph.fgState FactorGraph.wiring
  simp only [compileEnum_mem m m', compileLogical_mem m m']

/-- Non-vacuity of C47: two different memories, a graph with an enumeration and an OR group that compiles, and whose groups do find
different words in the two memories. -/
example : ∃ (m m' : Garbage) (st : FGState Nat ℚ),
    (graphOf exVars [.one (exGroup 1 [[exVar 0, exVar 1]]), .one (exOr 3 0 2)]).fgState m = .ok st ∧
    (graphOf exVars [.one (exGroup 1 [[exVar 0, exVar 1]]), .one (exOr 3 0 2)]).fgState m' = .ok st ∧
    npEmpty (m 1) 3 0 4 ≠ npEmpty (m' 1) 3 0 4 ∧ npEmpty (m 3) 4 1 2 ≠ npEmpty (m' 3) 4 1 2 :=
  ⟨fun o i => o + i, 7, _, rfl, rfl, by decide, by decide⟩

end PGMax
