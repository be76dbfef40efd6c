import Verif.Spec.Programs
import Verif.Lemmas.Grid
import Mathlib.Tactic.IntervalCases

/-! # C67: the Ising model program -/

namespace PGMax

variable {κ α : Type _}

/-! ### The scopes -/

/-- The two scopes that start at a cell. -/
def torusAt (cell : Nat → Nat → Var) (m n : Nat) (p : Nat × Nat) : List (List Var) :=
  [[cell p.1 p.2, cell ((p.1 + 1) % m) p.2], [cell p.1 p.2, cell p.1 ((p.2 + 1) % n)]]

/-- The cells of the array in the program. -/
abbrev isingCell (idV m n : Nat) (i j : Nat) : Var := uniCell idV [m, n] 2 [i, j]

theorem isingScopes_eq (idV m n : Nat) :
    isingScopes (uniArr idV [m, n] 2) m n = .ok ((grid m n).flatMap (torusAt (isingCell idV m n) m n)) := by
  have hat : ∀ i < m, ∀ j < n, (uniArr idV [m, n] 2).at [(i : Int), (j : Int)] = .ok (isingCell idV m n i j) := fun i hi j hj =>
    uniArr_at idV [m, n] 2 (by simp) (cs := [i, j]) (by simp [hi, hj])
  unfold isingScopes
  rw [mapM_ok _ (torusAt (isingCell idV m n) m n) _ (fun p hp => by
    obtain ⟨hi, hj⟩ := mem_grid.1 hp
    simp only [hat p.1 hi p.2 hj, hat ((p.1 + 1) % m) (Nat.mod_lt _ (by omega)) p.2 hj, hat p.1 hi ((p.2 + 1) % n) (Nat.mod_lt _ (by omega)),
      bind, Except.bind, pure, Except.pure]
    rfl)]
  simp only [bind, Except.bind, pure, Except.pure, List.flatMap_def]

theorem torus_nodup {g : NDVarArray} {m n k : Nat} {cell : Nat → Nat → Var} (hg : IsGrid g m n k cell) (hm : 1 ≤ m) (hn : 1 ≤ n) :
    (((grid m n).flatMap (torusAt cell m n)).map List.toFinset).Nodup ↔ m ≠ 2 ∧ n ≠ 2 ∧ ¬ (m = 1 ∧ n = 1) := by
  rw [List.map_flatMap, List.nodup_flatMap]
  have hS : ∀ i, (i + 1) % m < m := fun i => Nat.mod_lt _ (by omega)
  have hR : ∀ j, (j + 1) % n < n := fun j => Nat.mod_lt _ (by omega)
  constructor
  · rintro ⟨h1, h2⟩
    haveI : Std.Symm (Function.onFun List.Disjoint fun a => List.map List.toFinset (torusAt cell m n a)) :=
      ⟨fun a b h s hs ht => h ht hs⟩
    have h2' : ∀ {a b}, a ∈ grid m n → b ∈ grid m n → a ≠ b → List.Disjoint _ _ := fun {a b} ha hb hne => h2.forall ha hb hne
    refine ⟨?_, ?_, ?_⟩
    · rintro rfl
      have := h2' (a := (0, 0)) (b := (1, 0)) (mem_grid.2 ⟨by simp, hn⟩) (mem_grid.2 ⟨by simp, hn⟩) (by simp)
      refine this (a := [cell 0 0, cell 1 0].toFinset) (by simp [torusAt]) ?_
      simp [torusAt, Finset.pair_comm]
    · rintro rfl
      have := h2' (a := (0, 0)) (b := (0, 1)) (mem_grid.2 ⟨hm, by simp⟩) (mem_grid.2 ⟨hm, by simp⟩) (by simp)
      refine this (a := [cell 0 0, cell 0 1].toFinset) (by simp [torusAt]) ?_
      simp [torusAt, Finset.pair_comm]
    · rintro ⟨rfl, rfl⟩
      have := h1 (0, 0) (mem_grid.2 ⟨by simp, by simp⟩)
      simp [torusAt] at this
  · rintro ⟨h1, h2, h3⟩
    have hAB : ∀ i < m, ∀ j < n, ∀ k < m, ∀ l < n,
        [cell i j, cell ((i + 1) % m) j].toFinset ≠ [cell k l, cell k ((l + 1) % n)].toFinset := by
      intro i hi j hj k hk l hl h
      have hi' := succ_mod hi
      have hl' := succ_mod hl
      rcases pair_toFinset_eq h with ⟨ha, hb⟩ | ⟨ha, hb⟩
      · have e1 := hg.inj _ hi _ hj _ hk _ hl ha
        have e2 := hg.inj _ (hS i) _ hj _ hk _ (hR l) hb
        omega
      · have e1 := hg.inj _ hi _ hj _ hk _ (hR l) ha
        have e2 := hg.inj _ (hS i) _ hj _ hk _ hl hb
        omega
    constructor
    · rintro ⟨i, j⟩ hp
      obtain ⟨hi, hj⟩ := mem_grid.1 hp
      simp only [torusAt, List.map_cons, List.map_nil, List.nodup_cons, List.mem_singleton, List.not_mem_nil, not_false_eq_true,
        List.nodup_nil, and_true]
      exact hAB i hi j hj i hi j hj
    · refine (grid_nodup m n).imp_of_mem fun {p q} hp hq hne => ?_
      obtain ⟨i, j⟩ := p
      obtain ⟨k, l⟩ := q
      obtain ⟨hi, hj⟩ := mem_grid.1 hp
      obtain ⟨hk, hl⟩ := mem_grid.1 hq
      simp only at hi hj hk hl
      have hne' : ¬ (i = k ∧ j = l) := fun h => hne (Prod.ext h.1 h.2)
      have hi' := succ_mod hi
      have hj' := succ_mod hj
      have hk' := succ_mod hk
      have hl' := succ_mod hl
      intro s hs ht
      simp only [torusAt, List.map_cons, List.map_nil, List.mem_cons, List.not_mem_nil, or_false] at hs ht
      rcases hs with rfl | rfl <;> rcases ht with h | h
      · rcases pair_toFinset_eq h with ⟨ha, hb⟩ | ⟨ha, hb⟩
        · have e1 := hg.inj _ hi _ hj _ hk _ hl ha
          omega
        · have e1 := hg.inj _ hi _ hj _ (hS k) _ hl ha
          have e2 := hg.inj _ (hS i) _ hj _ hk _ hl hb
          omega
      · exact hAB i hi j hj k hk l hl h
      · exact hAB k hk l hl i hi j hj h.symm
      · rcases pair_toFinset_eq h with ⟨ha, hb⟩ | ⟨ha, hb⟩
        · have e1 := hg.inj _ hi _ hj _ hk _ hl ha
          omega
        · have e1 := hg.inj _ hi _ hj _ hk _ (hR l) ha
          have e2 := hg.inj _ hi _ (hR j) _ hk _ hl hb
          omega

/-- The number of positions of scopes at which a cell occurs. -/
theorem torus_count {g : NDVarArray} {m n k : Nat} {cell : Nat → Nat → Var} (hg : IsGrid g m n k cell) {i j : Nat} (hi : i < m) (hj : j < n) :
    ((grid m n).flatMap (torusAt cell m n)).flatten.count (cell i j) = 4 := by
  have hS : ∀ a < m, (a + 1) % m < m := fun a ha => Nat.mod_lt _ (by omega)
  have hR : ∀ b < n, (b + 1) % n < n := fun b hb => Nat.mod_lt _ (by omega)
  have one : ∀ f : Nat × Nat → Nat × Nat, (∀ p ∈ grid m n, f p ∈ grid m n) → (∀ p ∈ grid m n, ∀ q ∈ grid m n, f p = f q → p = q) →
      (∃ p ∈ grid m n, f p = (i, j)) → ((grid m n).map (fun p => if cell (f p).1 (f p).2 = cell i j then 1 else 0)).sum = 1 := by
    intro f h1 h2 h3
    have hnd : ((grid m n).map f).Nodup := List.Nodup.map_on (fun p hp q hq h => h2 p hp q hq h) (grid_nodup m n)
    have hmem : (i, j) ∈ (grid m n).map f := List.mem_map.2 h3
    have hc := List.count_eq_one_of_mem hnd hmem
    refine Eq.trans ?_ hc
    have : ∀ l : List (Nat × Nat), (∀ p ∈ l, f p ∈ grid m n) →
        (l.map (fun p => if cell (f p).1 (f p).2 = cell i j then 1 else 0)).sum = (l.map f).count (i, j) := by
      intro l
      induction l with
      | nil => intro _; rfl
      | cons p l ih =>
        intro hl
        rw [List.map_cons, List.sum_cons, ih (fun q hq => hl q (by simp [hq])), List.map_cons, List.count_cons, add_comm]
        congr 1
        obtain ⟨e1, e2⟩ := mem_grid.1 (hl p (by simp))
        by_cases h : f p = (i, j)
        · rw [h]; simp
        · rw [if_neg (fun e => h (Prod.ext (hg.inj _ e1 _ e2 _ hi _ hj e).1 (hg.inj _ e1 _ e2 _ hi _ hj e).2))]
          simp [h]
    exact this _ h1
  have hsum : ((grid m n).flatMap (torusAt cell m n)).flatten.count (cell i j) =
      ((grid m n).map (fun p => if cell p.1 p.2 = cell i j then 1 else 0)).sum +
      ((grid m n).map (fun p => if cell ((p.1 + 1) % m) p.2 = cell i j then 1 else 0)).sum +
      ((grid m n).map (fun p => if cell p.1 p.2 = cell i j then 1 else 0)).sum +
      ((grid m n).map (fun p => if cell p.1 ((p.2 + 1) % n) = cell i j then 1 else 0)).sum := by
    generalize grid m n = l
    induction l with
    | nil => rfl
    | cons p l ih =>
      rw [List.flatMap_cons, List.flatten_append, List.count_append, ih]
      simp only [torusAt, List.flatten_cons, List.flatten_nil, List.append_nil, List.cons_append, List.nil_append, List.count_cons,
        List.count_nil, List.map_cons, List.sum_cons, beq_iff_eq]
      omega
  have o1 := one id (fun _ h => h) (fun _ _ _ _ h => h) ⟨(i, j), mem_grid.2 ⟨hi, hj⟩, rfl⟩
  have o2 := one (fun p => ((p.1 + 1) % m, p.2)) (fun p hp => mem_grid.2 ⟨hS _ (mem_grid.1 hp).1, (mem_grid.1 hp).2⟩)
    (by
      rintro ⟨a, b⟩ hp ⟨c, d⟩ hq h
      obtain ⟨ha, -⟩ := mem_grid.1 hp
      obtain ⟨hc, -⟩ := mem_grid.1 hq
      simp only [Prod.mk.injEq] at h ha hc ⊢
      have := succ_mod ha
      have := succ_mod hc
      omega)
    (by
      rcases Nat.eq_zero_or_pos i with rfl | h
      · exact ⟨(m - 1, j), mem_grid.2 ⟨by simp only; omega, hj⟩, by simp [show m - 1 + 1 = m by omega]⟩
      · exact ⟨(i - 1, j), mem_grid.2 ⟨by simp only; omega, hj⟩, by simp [show i - 1 + 1 = i by omega, Nat.mod_eq_of_lt hi]⟩)
  have o3 := one (fun p => (p.1, (p.2 + 1) % n)) (fun p hp => mem_grid.2 ⟨(mem_grid.1 hp).1, hR _ (mem_grid.1 hp).2⟩)
    (by
      rintro ⟨a, b⟩ hp ⟨c, d⟩ hq h
      obtain ⟨-, ha⟩ := mem_grid.1 hp
      obtain ⟨-, hc⟩ := mem_grid.1 hq
      simp only [Prod.mk.injEq] at h ha hc ⊢
      have := succ_mod ha
      have := succ_mod hc
      omega)
    (by
      rcases Nat.eq_zero_or_pos j with rfl | h
      · exact ⟨(i, n - 1), mem_grid.2 ⟨hi, by simp only; omega⟩, by simp [show n - 1 + 1 = n by omega]⟩
      · exact ⟨(i, j - 1), mem_grid.2 ⟨hi, by simp only; omega⟩, by simp [show j - 1 + 1 = j by omega, Nat.mod_eq_of_lt hj]⟩)
  simp only [id] at o1 o2 o3
  rw [hsum, o1, o2, o3]

/-! ### The program -/

/-- The factor group of the program. -/
def isingGroup [Ring α] (idV idF m n : Nat) (J : α) : FGroup α :=
  { objId := idF, ftype := .enum, kind := .pairwise 2 2, varsForFactors := (grid m n).flatMap (torusAt (isingCell idV m n) m n),
    configs := mgridConfigs 2 2,
    logPotentials := (List.replicate ((grid m n).flatMap (torusAt (isingCell idV m n) m n)).length [J * 1, J * -1, J * -1, J * 1]).flatten }

theorem torus_ne {m n : Nat} (cell : Nat → Nat → Var) (hm : 1 ≤ m) (hn : 1 ≤ n) : (grid m n).flatMap (torusAt cell m n) ≠ [] := by
  intro h
  rw [List.flatMap_eq_nil_iff] at h
  have := h (0, 0) (mem_grid.2 ⟨hm, hn⟩)
  simp [torusAt] at this

theorem torus_pairs {m n : Nat} (cell : Nat → Nat → Var) {vs : List Var} (h : vs ∈ (grid m n).flatMap (torusAt cell m n)) :
    ∃ i < m, ∃ j < n, ∃ k < m, ∃ l < n, vs = [cell i j, cell k l] := by
  obtain ⟨p, hp, h⟩ := List.mem_flatMap.1 h
  obtain ⟨hi, hj⟩ := mem_grid.1 hp
  simp only [torusAt, List.mem_cons, List.not_mem_nil, or_false] at h
  rcases h with rfl | rfl
  · exact ⟨_, hi, _, hj, _, Nat.mod_lt _ (by omega), _, hj, rfl⟩
  · exact ⟨_, hi, _, hj, _, hi, _, Nat.mod_lt _ (by omega), rfl⟩

theorem ising_eq [Ring α] (idV idF m n : Nat) (J : α) (hm : 1 ≤ m) (hn : 1 ≤ n) (hs : m * n ≤ 1000000000) :
    (ising idV idF m n J : Py (NDVarArray × FGroup α × FactorGraph κ α)) =
      match (FactorGraph.create [.arr (uniArr idV [m, n] 2)] : FactorGraph κ α).addAll [.one (isingGroup idV idF m n J)] with
      | .ok fg => .ok (uniArr idV [m, n] 2, isingGroup idV idF m n J, fg)
      | .error e => .error e := by
  unfold ising
  rw [create_scalar idV [m, n] 2 (by simpa using hs)]
  simp only [bind, Except.bind]
  rw [isingScopes_eq]
  simp only
  rw [pairwise_create_ok idF _ 2 2 _ (torus_ne _ hm hn) (by simp) (fun vs hvs => by
    obtain ⟨i, -, j, -, k, -, l, -, rfl⟩ := torus_pairs _ hvs
    exact ⟨_, _, rfl, rfl, rfl⟩)]
  simp only
  rw [← isingGroup]
  cases (FactorGraph.create [.arr (uniArr idV [m, n] 2)] : FactorGraph κ α).addAll [.one (isingGroup idV idF m n J)] <;> rfl

theorem ising_setsOf [Ring α] (idV idF m n : Nat) (J : α) (hm : 1 ≤ m) (hn : 1 ≤ n) :
    (∀ t, (setsOf (AddArg.flatList [.one (isingGroup idV idF m n J)]) t).Nodup) ↔ m ≠ 2 ∧ n ≠ 2 ∧ ¬ (m = 1 ∧ n = 1) := by
  rw [← torus_nodup (isGrid_uniArr idV m n 2) hm hn]
  constructor
  · intro h
    simpa [setsOf, AddArg.flatList, AddArg.flat, isingGroup] using h .enum
  · intro h t
    cases t
    · simpa [setsOf, AddArg.flatList, AddArg.flat, isingGroup] using h
    · simp [setsOf, AddArg.flatList, AddArg.flat, isingGroup]
    · simp [setsOf, AddArg.flatList, AddArg.flat, isingGroup]

/-- **C67 (sizes).** The program builds its graph exactly for the sizes at which no two of the factors of the torus have the same
variables: at least one row and one column, at most `10 ^ 9` variables, no side of length 2, and more than one variable.  For all other sizes
it stops with a `ValueError`. -/
theorem C67_sizes [Ring α] (idV idF m n : Nat) (J : α) :
    ((∃ r, (ising idV idF m n J : Py (NDVarArray × FGroup α × FactorGraph κ α)) = .ok r) ↔
      1 ≤ m ∧ 1 ≤ n ∧ m * n ≤ 1000000000 ∧ m ≠ 2 ∧ n ≠ 2 ∧ ¬ (m = 1 ∧ n = 1)) ∧
    ((¬ ∃ r, (ising idV idF m n J : Py (NDVarArray × FGroup α × FactorGraph κ α)) = .ok r) →
      (ising idV idF m n J : Py (NDVarArray × FGroup α × FactorGraph κ α)) = .error .valueError) := by
  by_cases hs : m * n ≤ 1000000000
  · by_cases hmn : 1 ≤ m ∧ 1 ≤ n
    · obtain ⟨hm, hn⟩ := hmn
      have hS := ising_setsOf idV idF m n J hm hn
      obtain ⟨a1, a2⟩ := addAll_create (κ := κ) [.arr (uniArr idV [m, n] 2)] [.one (isingGroup idV idF m n J)]
      rw [ising_eq idV idF m n J hm hn hs]
      by_cases hc : m ≠ 2 ∧ n ≠ 2 ∧ ¬ (m = 1 ∧ n = 1)
      · obtain ⟨fg, hfg⟩ := a1 (hS.2 hc)
        rw [hfg]
        exact ⟨⟨fun _ => ⟨hm, hn, hs, hc⟩, fun _ => ⟨_, rfl⟩⟩, fun h => absurd ⟨_, rfl⟩ h⟩
      · rw [a2 (fun h => hc (hS.1 h))]
        exact ⟨⟨fun ⟨r, hr⟩ => (by cases hr), fun h => absurd h.2.2.2 hc⟩, fun _ => rfl⟩
    · have e : (ising idV idF m n J : Py (NDVarArray × FGroup α × FactorGraph κ α)) = .error .valueError := by
        have hnil : grid m n = [] := by
          rw [List.eq_nil_iff_forall_not_mem]
          intro p hp
          obtain ⟨h1, h2⟩ := mem_grid.1 hp
          exact hmn ⟨by omega, by omega⟩
        unfold ising
        rw [create_scalar idV [m, n] 2 (by simpa using hs)]
        simp only [bind, Except.bind]
        rw [isingScopes_eq, hnil]
        rfl
      rw [e]
      exact ⟨⟨fun ⟨r, hr⟩ => (by cases hr), fun h => absurd ⟨h.1, h.2.1⟩ hmn⟩, fun _ => rfl⟩
  · have e : (ising idV idF m n J : Py (NDVarArray × FGroup α × FactorGraph κ α)) = .error .valueError := by
      unfold ising
      rw [create_scalar_large idV [m, n] 2 (by simpa using hs)]
      rfl
    rw [e]
    exact ⟨⟨fun ⟨r, hr⟩ => (by cases hr), fun h => absurd h.2.2.1 hs⟩, fun _ => rfl⟩

/-- What the program builds: the variables, the compiled graph, its scopes and its factors. -/
theorem ising_built [Ring α] {idV idF m n : Nat} {J : α} {vars : NDVarArray} {group : FGroup α} {fg : FactorGraph κ α}
    (h : ising idV idF m n J = .ok (vars, group, fg)) (garbage : Garbage) :
    1 ≤ m ∧ 1 ≤ n ∧ vars = uniArr idV [m, n] 2 ∧ ∃ st : FGState κ α, Compiled [.arr vars] [.one group] garbage st ∧
      graphOf [.arr vars] [.one group] = fg ∧ fg.scopesOf .or = [] ∧ fg.scopesOf .and = [] ∧
      fg.allScopes = (grid m n).flatMap (torusAt (isingCell idV m n) m n) ∧
      (fg.allScopes.map List.toFinset).Nodup ∧
      fg.factors st.logPotentials =
        ((grid m n).flatMap (torusAt (isingCell idV m n) m n)).map (fun vs => ⟨vs, (mgridConfigs 2 2).rows.zip [J * 1, J * -1, J * -1, J * 1]⟩) := by
  obtain ⟨hm, hn, hs, hc⟩ := (C67_sizes (κ := κ) idV idF m n J).1.1 ⟨_, h⟩
  rw [ising_eq idV idF m n J hm hn hs] at h
  obtain ⟨fg', hfg⟩ := (addAll_create (κ := κ) [.arr (uniArr idV [m, n] 2)] [.one (isingGroup idV idF m n J)]).1
    ((ising_setsOf idV idF m n J hm hn).2 hc)
  rw [hfg] at h
  simp only [Except.ok.injEq, Prod.mk.injEq] at h
  obtain ⟨rfl, rfl, rfl⟩ := h
  have hgrid := isGrid_uniArr idV m n 2
  have hmemv : ∀ v, v ∈ graphVars [(.arr (uniArr idV [m, n] 2) : VGroup κ)] ↔ ∃ i < m, ∃ j < n, v = isingCell idV m n i j := by
    intro v
    rw [← hgrid.vars]
    simp [graphVars, VGroup.variables]
  have hflat : AddArg.flatList [.one (isingGroup idV idF m n J)] = [isingGroup idV idF m n J] := by simp [AddArg.flatList, AddArg.flat]
  have hvalid : (isingGroup idV idF m n J).Valid (fun v => v ∈ graphVars [(.arr (uniArr idV [m, n] 2) : VGroup κ)]) :=
    pairs_valid (a := 2) (b := 2) rfl rfl (by omega) (by omega) (torus_ne _ hm hn) (fun vs hvs => by
      obtain ⟨i, hi, j, hj, k, hk, l, hl, rfl⟩ := torus_pairs _ hvs
      exact ⟨_, _, rfl, rfl, rfl, (hmemv _).2 ⟨i, hi, j, hj, rfl⟩, (hmemv _).2 ⟨k, hk, l, hl, rfl⟩⟩)
      (by simp [isingGroup])
  obtain ⟨hg, st, hst, hgr, hlp⟩ := compiled_build (vgroupsOk_one idV [m, n] 2 (by simpa using hs)) hfg
    (by rw [hflat]; intro g hg; rw [List.mem_singleton] at hg; subst hg; exact hvalid)
    (by rw [hflat]; simp) (by rw [hflat]; simp [isingGroup]) (by rw [hflat]; simp [isingGroup]) garbage
  rw [hflat] at hgr
  have hge : fg'.groups .enum = [isingGroup idV idF m n J] := by rw [hgr]; simp [isingGroup]
  have hgo : fg'.groups .or = [] := by rw [hgr]; simp [isingGroup]
  have hga : fg'.groups .and = [] := by rw [hgr]; simp [isingGroup]
  have hsc : fg'.allScopes = (grid m n).flatMap (torusAt (isingCell idV m n) m n) := by
    simp [FactorGraph.allScopes, FactorGraph.scopesOf, FType.all, hge, hgo, hga, isingGroup]
  have hfac : fg'.factors st.logPotentials =
      ((grid m n).flatMap (torusAt (isingCell idV m n) m n)).map (fun vs => ⟨vs, (mgridConfigs 2 2).rows.zip [J * 1, J * -1, J * -1, J * 1]⟩) := by
    have e := tableFacs_blocks (((grid m n).flatMap (torusAt (isingCell idV m n) m n)).map (fun vs => (vs, [J * 1, J * -1, J * -1, J * 1])))
      (mgridConfigs 2 2) (by
        intro p hp
        obtain ⟨vs, -, rfl⟩ := List.mem_map.1 hp
        rfl)
    rw [List.map_map, List.map_map] at e
    unfold FactorGraph.factors
    rw [hlp]
    simp only [FactorGraph.tables, FactorGraph.scopesOf, hge, hgo, hga, List.flatMap_cons, List.flatMap_nil, List.append_nil, List.map_nil]
    rw [show (isingGroup idV idF m n J).logPotentials = (((grid m n).flatMap (torusAt (isingCell idV m n) m n)).map
      (fun vs => (vs, [J * 1, J * -1, J * -1, J * 1]))).flatMap (·.2) by
        rw [List.flatMap_map]; simp only [isingGroup, List.flatMap_def, List.map_const']]
    exact e
  refine ⟨hm, hn, rfl, st, hst, hg, ?_, ?_, hsc, ?_, hfac⟩
  · simp [FactorGraph.scopesOf, hgo]
  · simp [FactorGraph.scopesOf, hga]
  · rw [hsc]
    exact (torus_nodup hgrid hm hn).2 hc

/-- **C67 (model).** Whenever the program builds its graph, the graph compiles, belief propagation can be set up on it, every variable of
the array has four places in factors, and every assignment of states is a joint assignment whose score is that of the Ising model on a torus:
all evidence, plus `J` times the product of the spins for every cell and its neighbour below and its neighbour to the right, the last row and
column being followed by the first. -/
theorem C67_model [Ring α] {idV idF m n : Nat} {J : α} {vars : NDVarArray} {group : FGroup α} {fg : FactorGraph κ α}
    (h : ising idV idF m n J = .ok (vars, group, fg)) (garbage : Garbage) :
    ∃ (cell : Nat → Nat → Var) (st : FGState κ α), IsGrid vars m n 2 cell ∧
      Compiled [.arr vars] [.one group] garbage st ∧ graphOf [.arr vars] [.one group] = fg ∧
      (∀ state T, ∃ bp, BP.create st state T = .ok bp) ∧
      (∀ i < m, ∀ j < n, fg.allScopes.flatten.count (cell i j) = 4) ∧
      ∀ x : Var → Nat, (∀ i < m, ∀ j < n, x (cell i j) < 2) →
        (∃ ρ, Joint (graphVars [(.arr vars : VGroup κ)]) (fg.factors st.logPotentials) x ρ) ∧
        ∀ ev ρ, Joint (graphVars [(.arr vars : VGroup κ)]) (fg.factors st.logPotentials) x ρ →
          jointScore (graphVars [(.arr vars : VGroup κ)]) (fg.factors st.logPotentials) ev x ρ =
            ∑ v ∈ graphVars [(.arr vars : VGroup κ)], ev v (x v) +
            ∑ i ∈ Finset.range m, ∑ j ∈ Finset.range n,
              (J * (spin (x (cell i j)) * spin (x (cell ((i + 1) % m) j))) + J * (spin (x (cell i j)) * spin (x (cell i ((j + 1) % n))))) := by
  obtain ⟨hm, hn, rfl, st, hst, hg, -, -, hsc, -, hfac⟩ := ising_built h garbage
  have hgrid := isGrid_uniArr idV m n 2
  have hmemv : ∀ v, v ∈ graphVars [(.arr (uniArr idV [m, n] 2) : VGroup κ)] ↔ ∃ i < m, ∃ j < n, v = isingCell idV m n i j := by
    intro v
    rw [← hgrid.vars]
    simp [graphVars, VGroup.variables]
  refine ⟨isingCell idV m n, st, hgrid, hst, hg, fun state T => ?_, fun i hi j hj => ?_, fun x hx => ?_⟩
  · refine (C51_partial hst state T).1.2 ?_
    rw [hg, hsc]
    exact torus_ne _ hm hn
  · rw [hsc]
    exact torus_count hgrid hi hj
  · have hw : List.Forall₂ (fun F w => F.Weighs x w) (fg.factors st.logPotentials)
        (((grid m n).flatMap (torusAt (isingCell idV m n) m n)).map
          (fun vs => J * (spin (x (vs.getD 0 ⟨0, 0⟩)) * spin (x (vs.getD 1 ⟨0, 0⟩))))) := by
      rw [hfac, List.forall₂_map_left_iff, List.forall₂_map_right_iff, List.forall₂_same]
      intro vs hvs
      obtain ⟨i, hi, j, hj, k, hk, l, hl, rfl⟩ := torus_pairs _ hvs
      have h1 := hx i hi j hj
      have h2 := hx k hk l hl
      refine pair_weighs _ _ 2 2 _ rfl x h1 h2 _ ?_
      simp only [List.getD_cons_zero, List.getD_cons_succ]
      generalize x (isingCell idV m n i j) = a at h1 ⊢
      generalize x (isingCell idV m n k l) = b at h2 ⊢
      interval_cases a <;> interval_cases b <;> simp [spin]
    have hxx : ∀ v ∈ graphVars [(.arr (uniArr idV [m, n] 2) : VGroup κ)], x v < v.n := by
      intro v hv
      obtain ⟨i, hi, j, hj, rfl⟩ := (hmemv v).1 hv
      exact hx i hi j hj
    obtain ⟨j1, j2⟩ := joint_weighs hxx hw
    refine ⟨j1, fun ev ρ hρ => ?_⟩
    rw [j2 ev ρ hρ]
    congr 1
    rw [← grid_sum m n (fun p => J * (spin (x (isingCell idV m n p.1 p.2)) * spin (x (isingCell idV m n ((p.1 + 1) % m) p.2))) +
      J * (spin (x (isingCell idV m n p.1 p.2)) * spin (x (isingCell idV m n p.1 ((p.2 + 1) % n)))))]
    rw [List.map_flatMap, List.flatMap_def, List.sum_flatten, List.map_map]
    congr 1
    refine List.map_congr_left fun p _ => ?_
    simp [torusAt]

/-- Non-vacuity of C67: the sizes of the program itself, and a single row of three variables. -/
example : (∃ r, (ising 1 2 50 50 (4 / 5 : ℚ) : Py (NDVarArray × FGroup ℚ × FactorGraph Nat ℚ)) = .ok r) ∧
    (∃ r, (ising 1 2 1 3 (4 / 5 : ℚ) : Py (NDVarArray × FGroup ℚ × FactorGraph Nat ℚ)) = .ok r) ∧
    (ising 1 2 2 5 (4 / 5 : ℚ) : Py (NDVarArray × FGroup ℚ × FactorGraph Nat ℚ)) = .error .valueError :=
  ⟨(C67_sizes 1 2 50 50 _).1.2 (by norm_num), (C67_sizes 1 2 1 3 _).1.2 (by norm_num),
    (C67_sizes 1 2 2 5 _).2 (fun h => by have := (C67_sizes (κ := Nat) 1 2 2 5 (4 / 5 : ℚ)).1.1 h; omega)⟩

end PGMax
