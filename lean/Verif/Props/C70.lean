import Verif.Lemmas.Enums
import Verif.Lemmas.Writes
import Verif.Props.C43

/-! # C70: the program for Gaussian Markov random fields -/

namespace PGMax

section

variable {κ α : Type}

/-- The variables of the program. -/
abbrev gCell (idV M N K : Nat) (i j : Nat) : Var := uniCell idV [M, N] K [i, j]

/-- One of the directions: pairs of the cells `(i + a, j + b)` and `(i + c, j + d)` for `i < m` and `j < n`. -/
structure GDir where
  m : Nat
  n : Nat
  a : Nat
  b : Nat
  c : Nat
  d : Nat

/-- The scopes in a direction. -/
abbrev gScopes (idV M N K : Nat) (D : GDir) : List (List Var) :=
  (grid D.m D.n).map (fun p => [gCell idV M N K (p.1 + D.a) (p.2 + D.b), gCell idV M N K (p.1 + D.c) (p.2 + D.d)])

/-- The factor group of a direction, with the same matrix for all factors. -/
abbrev gGroup (idV M N K : Nat) (id : Nat) (D : GDir) (A : List α) : FGroup α :=
  enumGroup id (.pairwise K K) (mgridConfigs K K) ((gScopes idV M N K D).map (fun vs => (vs, A)))

/-- The direction stays inside the array. -/
def GDir.Fits (D : GDir) (M N : Nat) : Prop := ∀ i < D.m, ∀ j < D.n, i + D.a < M ∧ j + D.b < N ∧ i + D.c < M ∧ j + D.d < N

abbrev gD1 (M N : Nat) : GDir := ⟨M - 1, N, 0, 0, 1, 0⟩
abbrev gD2 (M N : Nat) : GDir := ⟨M, N - 1, 0, 0, 0, 1⟩
abbrev gD3 (M N : Nat) : GDir := ⟨M - 1, N - 1, 0, 0, 1, 1⟩
abbrev gD4 (M N : Nat) : GDir := ⟨M - 1, N - 1, 1, 0, 0, 1⟩

theorem gFits (M N : Nat) : (gD1 M N).Fits M N ∧ (gD2 M N).Fits M N ∧ (gD3 M N).Fits M N ∧ (gD4 M N).Fits M N := by
  refine ⟨?_, ?_, ?_, ?_⟩ <;> intro i hi j hj <;> simp only at hi hj ⊢ <;> omega

theorem gCell_at (idV M N K : Nat) {i j : Nat} (hi : i < M) (hj : j < N) :
    (uniArr idV [M, N] K).at [(i : Int), (j : Int)] = .ok (gCell idV M N K i j) :=
  uniArr_at idV [M, N] K (by simp) (cs := [i, j]) (by simp [hi, hj])

theorem gCell_inj {idV M N K i j k l : Nat} (hi : i < M) (hj : j < N) (hk : k < M) (hl : l < N) (h : gCell idV M N K i j = gCell idV M N K k l) :
    i = k ∧ j = l := (isGrid_uniArr idV M N K).inj i hi j hj k hk l hl h

theorem pairScopes_eq (idV M N K : Nat) (D : GDir) (hD : D.Fits M N) (a b : Nat → Nat → List Int)
    (ha : ∀ i j, a i j = [((i + D.a : Nat) : Int), ((j + D.b : Nat) : Int)]) (hb : ∀ i j, b i j = [((i + D.c : Nat) : Int), ((j + D.d : Nat) : Int)]) :
    pairScopes (uniArr idV [M, N] K) D.m D.n a b = .ok (gScopes idV M N K D) := by
  unfold pairScopes
  refine mapM_ok _ _ _ (fun p hp => ?_)
  obtain ⟨hi, hj⟩ := mem_grid.1 hp
  obtain ⟨h1, h2, h3, h4⟩ := hD p.1 hi p.2 hj
  rw [ha, hb, gCell_at _ _ _ _ h1 h2, py_ok_bind, gCell_at _ _ _ _ h3 h4, py_ok_bind]
  rfl

theorem gCreate [Zero α] (idV M N K id : Nat) (D : GDir) (h : gScopes idV M N K D ≠ []) :
    (PairwiseFactorGroup.create id (gScopes idV M N K D) none true : Py (FGroup α)) = .ok (gGroup idV M N K id D (List.replicate (K * K) 0)) := by
  rw [pairwise_create_none id _ K K true h (by
    intro vs hvs
    obtain ⟨p, -, rfl⟩ := List.mem_map.1 hvs
    exact ⟨_, _, rfl, rfl, rfl⟩)]
  unfold gGroup enumGroup
  rw [List.map_map, List.flatMap_map]
  simp [Function.comp_def, List.flatMap_def, List.map_const']

theorem gScopes_nil {idV M N K : Nat} {D : GDir} : gScopes idV M N K D = [] ↔ D.m = 0 ∨ D.n = 0 := by
  rw [List.map_eq_nil_iff]
  constructor
  · intro h
    by_contra hc
    have : (0, 0) ∈ grid D.m D.n := mem_grid.2 ⟨by omega, by omega⟩
    rw [h] at this
    cases this
  · intro h
    rw [List.eq_nil_iff_forall_not_mem]
    intro p hp
    have := mem_grid.1 hp
    omega

/-- The groups of the program, with the given matrices. -/
abbrev gGroups (idV idT idL idD idE M N K : Nat) (A B C D : List α) : List (FGroup α) :=
  [gGroup idV M N K idT (gD1 M N) A, gGroup idV M N K idL (gD2 M N) B, gGroup idV M N K idD (gD3 M N) C, gGroup idV M N K idE (gD4 M N) D]

abbrev gZeros [Zero α] (idV idT idL idD idE M N K : Nat) : List (FGroup α) :=
  gGroups idV idT idL idD idE M N K (List.replicate (K * K) 0) (List.replicate (K * K) 0) (List.replicate (K * K) 0) (List.replicate (K * K) 0)

theorem gDir_nodup (idV M N K : Nat) (D : GDir) (hD : D.Fits M N) (h : D.a ≠ D.c ∨ D.b ≠ D.d) : ((gScopes idV M N K D).map List.toFinset).Nodup := by
  rw [List.map_map]
  refine List.Nodup.map_on (fun p hp q hq e => ?_) (grid_nodup _ _)
  obtain ⟨hi, hj⟩ := mem_grid.1 hp
  obtain ⟨hk, hl⟩ := mem_grid.1 hq
  obtain ⟨a1, a2, a3, a4⟩ := hD _ hi _ hj
  obtain ⟨b1, b2, b3, b4⟩ := hD _ hk _ hl
  rcases pair_toFinset_eq e with ⟨e1, e2⟩ | ⟨e1, e2⟩
  · have := gCell_inj a1 a2 b1 b2 e1
    exact Prod.ext (by omega) (by omega)
  · have := gCell_inj a1 a2 b3 b4 e1
    have := gCell_inj a3 a4 b1 b2 e2
    omega

theorem gDir_disjoint (idV M N K : Nat) (D E : GDir) (hD : D.Fits M N) (hE : E.Fits M N)
    (h : ∀ i j k l, ¬ (i + D.a = k + E.a ∧ j + D.b = l + E.b ∧ i + D.c = k + E.c ∧ j + D.d = l + E.d) ∧
      ¬ (i + D.a = k + E.c ∧ j + D.b = l + E.d ∧ i + D.c = k + E.a ∧ j + D.d = l + E.b)) :
    List.Disjoint ((gScopes idV M N K D).map List.toFinset) ((gScopes idV M N K E).map List.toFinset) := by
  rw [List.map_map, List.map_map]
  intro s hs ht
  obtain ⟨p, hp, rfl⟩ := List.mem_map.1 hs
  obtain ⟨q, hq, e⟩ := List.mem_map.1 ht
  obtain ⟨hi, hj⟩ := mem_grid.1 hp
  obtain ⟨hk, hl⟩ := mem_grid.1 hq
  obtain ⟨a1, a2, a3, a4⟩ := hD _ hi _ hj
  obtain ⟨b1, b2, b3, b4⟩ := hE _ hk _ hl
  obtain ⟨n1, n2⟩ := h p.1 p.2 q.1 q.2
  rcases pair_toFinset_eq e.symm with ⟨e1, e2⟩ | ⟨e1, e2⟩
  · have := gCell_inj a1 a2 b1 b2 e1
    have := gCell_inj a3 a4 b3 b4 e2
    exact n1 ⟨by omega, by omega, by omega, by omega⟩
  · have := gCell_inj a1 a2 b3 b4 e1
    have := gCell_inj a3 a4 b1 b2 e2
    exact n2 ⟨by omega, by omega, by omega, by omega⟩

theorem gSets_nodup (idV M N K : Nat) :
    ((gScopes idV M N K (gD1 M N) ++ (gScopes idV M N K (gD2 M N) ++ (gScopes idV M N K (gD3 M N) ++ gScopes idV M N K (gD4 M N)))).map
      List.toFinset).Nodup := by
  obtain ⟨f1, f2, f3, f4⟩ := gFits M N
  rw [List.map_append, List.map_append, List.map_append]
  refine List.nodup_append'.2 ⟨gDir_nodup _ _ _ _ _ f1 (by simp), List.nodup_append'.2 ⟨gDir_nodup _ _ _ _ _ f2 (by simp),
    List.nodup_append'.2 ⟨gDir_nodup _ _ _ _ _ f3 (by simp), gDir_nodup _ _ _ _ _ f4 (by simp), ?_⟩, ?_⟩, ?_⟩
  · exact gDir_disjoint _ _ _ _ _ _ f3 f4 (by intro i j k l; simp only; omega)
  · rw [List.disjoint_append_right]
    exact ⟨gDir_disjoint _ _ _ _ _ _ f2 f3 (by intro i j k l; simp only; omega), gDir_disjoint _ _ _ _ _ _ f2 f4 (by intro i j k l; simp only; omega)⟩
  · rw [List.disjoint_append_right, List.disjoint_append_right]
    exact ⟨gDir_disjoint _ _ _ _ _ _ f1 f2 (by intro i j k l; simp only; omega), gDir_disjoint _ _ _ _ _ _ f1 f3 (by intro i j k l; simp only; omega),
      gDir_disjoint _ _ _ _ _ _ f1 f4 (by intro i j k l; simp only; omega)⟩

theorem gmrf_eq [Zero α] (idV idT idL idD idE : Nat) {M N K : Nat} (hM : 2 ≤ M) (hN : 2 ≤ N) (hs : M * N ≤ 1000000000) :
    ∃ fg : FactorGraph κ α, (FactorGraph.create [.arr (uniArr idV [M, N] K)]).addAll [.list ((gZeros idV idT idL idD idE M N K).map .one)] = .ok fg ∧
      (gmrf idV idT idL idD idE M N K : Py (Gmrf κ α)) = .ok ⟨uniArr idV [M, N] K, gGroup idV M N K idT (gD1 M N) (List.replicate (K * K) 0),
        gGroup idV M N K idL (gD2 M N) (List.replicate (K * K) 0), gGroup idV M N K idD (gD3 M N) (List.replicate (K * K) 0),
        gGroup idV M N K idE (gD4 M N) (List.replicate (K * K) 0), fg⟩ := by
  obtain ⟨f1, f2, f3, f4⟩ := gFits M N
  obtain ⟨fg, hfg⟩ := (addAll_create (κ := κ) [.arr (uniArr idV [M, N] K)] [.list ((gZeros (α := α) idV idT idL idD idE M N K).map .one)]).1 (by
    have hf : AddArg.flatList [.list ((gZeros (α := α) idV idT idL idD idE M N K).map .one)] = gZeros idV idT idL idD idE M N K := by
      simp [AddArg.flatList, AddArg.flat]
    rw [hf, setsOf_enum (by simp [enumGroup])]
    have := gSets_nodup idV M N K
    simpa [enumGroup, Function.comp_def] using this)
  refine ⟨fg, hfg, ?_⟩
  unfold gmrf
  rw [create_scalar idV [M, N] K (by simpa using hs), py_ok_bind]
  rw [pairScopes_eq idV M N K (gD1 M N) f1 _ _ (by intro i j; simp) (by intro i j; simp), py_ok_bind, gCreate _ _ _ _ _ _ (by
    rw [ne_eq, gScopes_nil]; simp only; omega), py_ok_bind]
  rw [pairScopes_eq idV M N K (gD2 M N) f2 _ _ (by intro i j; simp) (by intro i j; simp), py_ok_bind, gCreate _ _ _ _ _ _ (by
    rw [ne_eq, gScopes_nil]; simp only; omega), py_ok_bind]
  rw [pairScopes_eq idV M N K (gD3 M N) f3 _ _ (by intro i j; simp) (by intro i j; simp), py_ok_bind, gCreate _ _ _ _ _ _ (by
    rw [ne_eq, gScopes_nil]; simp only; omega), py_ok_bind]
  rw [pairScopes_eq idV M N K (gD4 M N) f4 _ _ (by intro i j; simp) (by intro i j; simp), py_ok_bind, gCreate _ _ _ _ _ _ (by
    rw [ne_eq, gScopes_nil]; simp only; omega), py_ok_bind]
  rw [show [AddArg.one (gGroup idV M N K idT (gD1 M N) (List.replicate (K * K) (0 : α))), .one (gGroup idV M N K idL (gD2 M N) (List.replicate (K * K) 0)),
    .one (gGroup idV M N K idD (gD3 M N) (List.replicate (K * K) 0)), .one (gGroup idV M N K idE (gD4 M N) (List.replicate (K * K) 0))] =
      (gZeros idV idT idL idD idE M N K).map .one from rfl, hfg, py_ok_bind]
  rfl

/-- **C70 (sizes).** The program builds its graph exactly for images with at least two rows, at least two columns and at most `10 ^ 9` pixels;
otherwise it stops with a `ValueError`. -/
theorem C70_sizes [Zero α] (idV idT idL idD idE M N K : Nat) :
    ((∃ r, (gmrf idV idT idL idD idE M N K : Py (Gmrf κ α)) = .ok r) ↔ 2 ≤ M ∧ 2 ≤ N ∧ M * N ≤ 1000000000) ∧
    ((¬ ∃ r, (gmrf idV idT idL idD idE M N K : Py (Gmrf κ α)) = .ok r) → (gmrf idV idT idL idD idE M N K : Py (Gmrf κ α)) = .error .valueError) := by
  by_cases h : 2 ≤ M ∧ 2 ≤ N ∧ M * N ≤ 1000000000
  · obtain ⟨fg, -, e⟩ := gmrf_eq (κ := κ) (α := α) idV idT idL idD idE (K := K) h.1 h.2.1 h.2.2
    rw [e]
    exact ⟨⟨fun _ => h, fun _ => ⟨_, rfl⟩⟩, fun hn => absurd ⟨_, rfl⟩ hn⟩
  · have e : (gmrf idV idT idL idD idE M N K : Py (Gmrf κ α)) = .error .valueError := by
      by_cases hs : M * N ≤ 1000000000
      · obtain ⟨f1, f2, f3, f4⟩ := gFits M N
        unfold gmrf
        rw [create_scalar idV [M, N] K (by simpa using hs), py_ok_bind]
        rw [pairScopes_eq idV M N K (gD1 M N) f1 _ _ (by intro i j; simp) (by intro i j; simp), py_ok_bind]
        by_cases h1 : gScopes idV M N K (gD1 M N) = []
        · rw [h1]; rfl
        rw [gCreate _ _ _ _ _ _ h1, py_ok_bind,
          pairScopes_eq idV M N K (gD2 M N) f2 _ _ (by intro i j; simp) (by intro i j; simp), py_ok_bind]
        have h2 : gScopes idV M N K (gD2 M N) = [] := by
          rw [gScopes_nil] at h1 ⊢
          simp only at h1 ⊢
          omega
        rw [h2]; rfl
      · unfold gmrf
        rw [create_scalar_large idV [M, N] K (by simpa using hs)]
        rfl
    rw [e]
    exact ⟨⟨fun ⟨r, hr⟩ => (by cases hr), fun h' => absurd h' h⟩, fun _ => rfl⟩

/-! ### The model -/

theorem gGroup_vars (idV M N K id : Nat) (D : GDir) (A : List α) : (gGroup idV M N K id D A).varsForFactors = gScopes idV M N K D := by
  unfold gGroup enumGroup
  rw [List.map_map]
  exact List.map_id _

theorem gGroup_flatten (idV M N K id : Nat) (D : GDir) (hD : D.Fits M N) (hne : D.a ≠ D.c ∨ D.b ≠ D.d) (Z A : List α) :
    (gGroup idV M N K id D Z).flatten ⟨[K, K], A⟩ = .ok (gGroup idV M N K id D A).logPotentials := by
  obtain ⟨fs, hfs, hl⟩ := pairwise_factors (gGroup idV M N K id D Z) K K (gScopes idV M N K D) rfl (gGroup_vars ..) rfl (by
    intro vs hvs
    obtain ⟨p, -, rfl⟩ := List.mem_map.1 hvs
    exact ⟨_, _, rfl, rfl, rfl⟩) (gDir_nodup idV M N K D hD hne)
  unfold FGroup.flatten
  show (do
    let __do_lift ← (gGroup idV M N K id D Z).factors
    _) = _
  rw [hfs, py_ok_bind, hl]
  rw [if_neg (by simp)]
  show (if [K, K] = [K, K] then _ else _) = _
  rw [if_pos rfl]
  unfold gGroup enumGroup tile
  rw [List.flatMap_map]
  simp [Function.comp_def, List.flatMap_def, List.map_const', pure, Except.pure]

theorem gGroup_pots_length (idV M N K id : Nat) (D : GDir) (A B : List α) (h : A.length = B.length) :
    (gGroup idV M N K id D A).logPotentials.length = (gGroup idV M N K id D B).logPotentials.length := by
  unfold gGroup enumGroup
  rw [List.flatMap_map, List.flatMap_map, List.length_flatMap, List.length_flatMap]
  simp [Function.comp_def, List.map_const', h]

theorem gGroup_valid {known : Var → Prop} (idV M N K id : Nat) (D : GDir) (hD : D.Fits M N) (hne : gScopes idV M N K D ≠ []) (hK : 1 ≤ K) (A : List α)
    (hA : A.length = K * K) (hk : ∀ i < M, ∀ j < N, known (gCell idV M N K i j)) : (gGroup idV M N K id D A).Valid known := by
  refine pairs_valid (a := K) (b := K) rfl rfl (by omega) (by omega) (by rw [gGroup_vars]; exact hne) ?_ ?_
  · intro vs hvs
    rw [gGroup_vars] at hvs
    obtain ⟨p, hp, rfl⟩ := List.mem_map.1 hvs
    obtain ⟨hi, hj⟩ := mem_grid.1 hp
    obtain ⟨h1, h2, h3, h4⟩ := hD _ hi _ hj
    exact ⟨_, _, rfl, rfl, rfl, hk _ h1 _ h2, hk _ h3 _ h4⟩
  · rw [gGroup_vars]
    unfold gGroup enumGroup
    rw [List.flatMap_map, List.length_flatMap]
    simp [Function.comp_def, List.map_const', hA]

theorem gGroup_weighs [Zero α] (idV M N K id : Nat) (D : GDir) (hD : D.Fits M N) (A : List α) (hA : A.length = K * K) (x : Var → Nat)
    (hx : ∀ i < M, ∀ j < N, x (gCell idV M N K i j) < K) :
    List.Forall₂ (fun F w => F.Weighs x w)
      (tableFacs ((gGroup idV M N K id D A).varsForFactors.map (fun vs => (vs, (gGroup idV M N K id D A).configs))) (gGroup idV M N K id D A).logPotentials)
      ((grid D.m D.n).map (fun p => A.getD (x (gCell idV M N K (p.1 + D.a) (p.2 + D.b)) * K + x (gCell idV M N K (p.1 + D.c) (p.2 + D.d))) 0)) := by
  rw [show (gGroup idV M N K id D A).configs = mgridConfigs K K from rfl, enumGroup_facs]
  swap
  · intro p hp
    obtain ⟨vs, -, rfl⟩ := List.mem_map.1 hp
    rw [mgrid_rows_length]
    exact hA
  rw [List.map_map, List.map_map, List.forall₂_map_left_iff, List.forall₂_map_right_iff, List.forall₂_same]
  intro p hp
  obtain ⟨hi, hj⟩ := mem_grid.1 hp
  obtain ⟨h1, h2, h3, h4⟩ := hD _ hi _ hj
  refine pair_weighs _ _ K K _ hA x (hx _ h1 _ h2) (hx _ h3 _ h4) _ ?_
  have b1 := hx _ h1 _ h2
  have b2 := hx _ h3 _ h4
  have : x (gCell idV M N K (p.1 + D.a) (p.2 + D.b)) * K + x (gCell idV M N K (p.1 + D.c) (p.2 + D.d)) < A.length := by
    rw [hA]
    calc _ < x (gCell idV M N K (p.1 + D.a) (p.2 + D.b)) * K + K := by omega
      _ = (x (gCell idV M N K (p.1 + D.a) (p.2 + D.b)) + 1) * K := by rw [Nat.add_mul, Nat.one_mul]
      _ ≤ K * K := Nat.mul_le_mul_right _ b1
  rw [List.getD, List.getElem?_eq_getElem this]
  rfl

theorem mem_gVars (κ : Type) (idV M N K : Nat) (v : Var) :
    v ∈ graphVars [(.arr (uniArr idV [M, N] K) : VGroup κ)] ↔ ∃ i < M, ∃ j < N, v = gCell idV M N K i j := by
  rw [← (isGrid_uniArr idV M N K).vars]
  simp [graphVars, VGroup.variables]

theorem gVars_sum [AddCommMonoid α] (κ : Type) (idV M N K : Nat) (f : Var → α) :
    ∑ v ∈ graphVars [(.arr (uniArr idV [M, N] K) : VGroup κ)], f v = ∑ i ∈ Finset.range M, ∑ j ∈ Finset.range N, f (gCell idV M N K i j) := by
  have hnd : ((grid M N).map (fun p => gCell idV M N K p.1 p.2)).Nodup := by
    refine List.Nodup.map_on (fun p hp q hq e => ?_) (grid_nodup _ _)
    obtain ⟨hi, hj⟩ := mem_grid.1 hp
    obtain ⟨hk, hl⟩ := mem_grid.1 hq
    have := gCell_inj hi hj hk hl e
    exact Prod.ext this.1 this.2
  have hset : graphVars [(.arr (uniArr idV [M, N] K) : VGroup κ)] = ((grid M N).map (fun p => gCell idV M N K p.1 p.2)).toFinset := by
    ext v
    rw [mem_gVars, List.mem_toFinset, List.mem_map]
    constructor
    · rintro ⟨i, hi, j, hj, rfl⟩; exact ⟨(i, j), mem_grid.2 ⟨hi, hj⟩, rfl⟩
    · rintro ⟨p, hp, rfl⟩; exact ⟨_, (mem_grid.1 hp).1, _, (mem_grid.1 hp).2, rfl⟩
  rw [hset, List.sum_toFinset _ hnd, List.map_map]
  exact grid_sum M N (fun p => f (gCell idV M N K p.1 p.2))

/-- The factors in a direction. -/
abbrev gFacs (idV M N K : Nat) (D : GDir) (A : List α) : List (SFac α) := (gScopes idV M N K D).map (fun vs => ⟨vs, (mgridConfigs K K).rows.zip A⟩)

theorem gGroup_facs (idV M N K id : Nat) (D : GDir) (A : List α) (hA : A.length = K * K) :
    tableFacs ((gGroup idV M N K id D A).varsForFactors.map (fun vs => (vs, (gGroup idV M N K id D A).configs))) (gGroup idV M N K id D A).logPotentials = gFacs idV M N K D A := by
  rw [show (gGroup idV M N K id D A).configs = mgridConfigs K K from rfl, enumGroup_facs]
  · rw [List.map_map]
    rfl
  · intro p hp
    obtain ⟨vs, -, rfl⟩ := List.mem_map.1 hp
    rw [mgrid_rows_length]
    exact hA

/-- The graph of the program, and the arrays after `init`. -/
theorem gmrf_arrays [Field α] [LinearOrder α] [DecidableEq κ] {idV idT idL idD idE M N K : Nat} (hK : 1 ≤ K) (hids : [idT, idL, idD, idE].Nodup) {r : Gmrf κ α}
    (h : gmrf idV idT idL idD idE M N K = .ok r) (garbage : Garbage) :
    r.vars = uniArr idV [M, N] K ∧ ∃ st : FGState κ α,
      Compiled [.arr r.vars] [.list [.one r.topDown, .one r.leftRight, .one r.diagonal0, .one r.diagonal1]] garbage st ∧
      graphOf [.arr r.vars] [.list [.one r.topDown, .one r.leftRight, .one r.diagonal0, .one r.diagonal1]] = r.fg ∧
      r.fg.allScopes = gScopes idV M N K (gD1 M N) ++ (gScopes idV M N K (gD2 M N) ++ (gScopes idV M N K (gD3 M N) ++ gScopes idV M N K (gD4 M N))) ∧
      (∀ lp, r.fg.factors lp = tableFacs r.fg.tables lp) ∧
      ∀ stateId T, ∃ state bp, bpStateOf stateId st = .ok state ∧ BP.create st state T = .ok bp ∧
        ∀ A B C D E : List α, A.length = K * K → B.length = K * K → C.length = K * K → D.length = K * K → E.length = M * N * K →
        ∀ ups : List (FGroup α × NDArr α), ups.Perm [(r.topDown, ⟨[K, K], A⟩), (r.leftRight, ⟨[K, K], B⟩), (r.diagonal0, ⟨[K, K], C⟩), (r.diagonal1, ⟨[K, K], D⟩)] →
        ∃ arrs, bp.update none (some ups) none (some [.group (.arr r.vars) (.arr ⟨[M, N, K], E⟩)]) = .ok arrs ∧
          arrs.ftovMsgs = List.replicate st.totalFactorNumStates 0 ∧ arrs.logPotentials.length = st.logPotentials.length ∧ arrs.evidence.length = st.numVarStates ∧
          (∀ i < M, ∀ j < N, ∀ s < K, readEv st.varsToStarts arrs.evidence (gCell idV M N K i j) s = E.getD ((i * N + j) * K + s) 0) ∧
          r.fg.factors arrs.logPotentials = gFacs idV M N K (gD1 M N) A ++ (gFacs idV M N K (gD2 M N) B ++ (gFacs idV M N K (gD3 M N) C ++ gFacs idV M N K (gD4 M N) D)) ∧
          ∀ x : Var → Nat, (∀ i < M, ∀ j < N, x (gCell idV M N K i j) < K) →
            (∃ ρ, Joint (graphVars [(.arr r.vars : VGroup κ)]) (r.fg.factors arrs.logPotentials) x ρ) ∧
            ∀ ρ, Joint (graphVars [(.arr r.vars : VGroup κ)]) (r.fg.factors arrs.logPotentials) x ρ →
              jointScore (graphVars [(.arr r.vars : VGroup κ)]) (r.fg.factors arrs.logPotentials) (readEv st.varsToStarts arrs.evidence) x ρ =
                ∑ i ∈ Finset.range M, ∑ j ∈ Finset.range N, E.getD ((i * N + j) * K + x (gCell idV M N K i j)) 0 +
                (∑ i ∈ Finset.range (M - 1), ∑ j ∈ Finset.range N, A.getD (x (gCell idV M N K i j) * K + x (gCell idV M N K (i + 1) j)) 0 +
                (∑ i ∈ Finset.range M, ∑ j ∈ Finset.range (N - 1), B.getD (x (gCell idV M N K i j) * K + x (gCell idV M N K i (j + 1))) 0 +
                (∑ i ∈ Finset.range (M - 1), ∑ j ∈ Finset.range (N - 1), C.getD (x (gCell idV M N K i j) * K + x (gCell idV M N K (i + 1) (j + 1))) 0 +
                ∑ i ∈ Finset.range (M - 1), ∑ j ∈ Finset.range (N - 1), D.getD (x (gCell idV M N K (i + 1) j) * K + x (gCell idV M N K i (j + 1))) 0))) := by
  obtain ⟨hM, hN, hs⟩ := (C70_sizes (κ := κ) (α := α) idV idT idL idD idE M N K).1.1 ⟨_, h⟩
  obtain ⟨fg, hfg, e⟩ := gmrf_eq (κ := κ) (α := α) idV idT idL idD idE (K := K) hM hN hs
  rw [e] at h
  cases h
  obtain ⟨f1, f2, f3, f4⟩ := gFits M N
  have n1 : gScopes idV M N K (gD1 M N) ≠ [] := by rw [ne_eq, gScopes_nil]; simp only; omega
  have n2 : gScopes idV M N K (gD2 M N) ≠ [] := by rw [ne_eq, gScopes_nil]; simp only; omega
  have n3 : gScopes idV M N K (gD3 M N) ≠ [] := by rw [ne_eq, gScopes_nil]; simp only; omega
  have n4 : gScopes idV M N K (gD4 M N) ≠ [] := by rw [ne_eq, gScopes_nil]; simp only; omega
  have hknown : ∀ i < M, ∀ j < N, gCell idV M N K i j ∈ graphVars [(.arr (uniArr idV [M, N] K) : VGroup κ)] := fun i hi j hj =>
    (mem_gVars κ idV M N K _).2 ⟨i, hi, j, hj, rfl⟩
  have hvalid : ∀ A B C D : List α, A.length = K * K → B.length = K * K → C.length = K * K → D.length = K * K →
      ∀ g ∈ gGroups idV idT idL idD idE M N K A B C D, g.Valid (fun v => v ∈ graphVars [(.arr (uniArr idV [M, N] K) : VGroup κ)]) := by
    intro A B C D hA hB hC hD g hg
    simp only [gGroups, List.mem_cons, List.not_mem_nil, or_false] at hg
    rcases hg with rfl | rfl | rfl | rfl
    · exact gGroup_valid _ _ _ _ _ _ f1 n1 hK _ hA hknown
    · exact gGroup_valid _ _ _ _ _ _ f2 n2 hK _ hB hknown
    · exact gGroup_valid _ _ _ _ _ _ f3 n3 hK _ hC hknown
    · exact gGroup_valid _ _ _ _ _ _ f4 n4 hK _ hD hknown
  have hz : (List.replicate (K * K) (0 : α)).length = K * K := by simp
  have hfl : AddArg.flatList [.list ((gZeros (α := α) idV idT idL idD idE M N K).map .one)] = gZeros idV idT idL idD idE M N K := by
    simp [AddArg.flatList, AddArg.flat]
  have hen : ∀ g ∈ AddArg.flatList [.list ((gZeros (α := α) idV idT idL idD idE M N K).map .one)], g.ftype = .enum := by
    rw [hfl]; simp [enumGroup]
  obtain ⟨hg, st, hst, hsc, htab, -, hlps, hfacs, -⟩ := enum_build (vgroupsOk_one idV [M, N] K (by simpa using hs)) hfg
    (by rw [hfl]; exact hvalid _ _ _ _ hz hz hz hz) (by rw [hfl]; simpa [enumGroup] using hids) hen garbage
  have hall : fg.allGroups = gZeros idV idT idL idD idE M N K := by
    have hgr := fun t => addAll_groups hfg t
    rw [hfl] at hgr
    unfold FactorGraph.allGroups
    simp [FType.all, hgr, FactorGraph.create, enumGroup]
  rw [hfl] at hsc htab hlps
  have htables : ∀ A B C D : List α, fg.tables = (gGroups idV idT idL idD idE M N K A B C D).flatMap (fun g => g.varsForFactors.map (fun vs => (vs, g.configs))) := by
    intro A B C D
    rw [htab]
    simp only [List.flatMap_cons, List.flatMap_nil, gGroup_vars]
    rfl
  refine ⟨rfl, st, hst, hg, ?_, hfacs, fun stateId T => ?_⟩
  · rw [hsc]
    simp only [List.flatMap_cons, List.flatMap_nil, List.append_nil, gGroup_vars]
  obtain ⟨bp, hbp⟩ := (C51_partial hst (⟨⟨stateId, st.logPotentials⟩, ⟨stateId, List.replicate st.totalFactorNumStates 0⟩,
      ⟨stateId, List.replicate st.numVarStates 0⟩⟩ : BPState α) T).1.2 (by
    rw [hg, hsc]
    intro hc
    rw [List.flatMap_eq_nil_iff] at hc
    have := hc (gGroup idV M N K idT (gD1 M N) (List.replicate (K * K) 0)) (by simp)
    rw [gGroup_vars] at this
    exact n1 this)
  refine ⟨_, bp, by simp [bpStateOf, LogPotentials.create, FToVMessages.create, Evidence.create, BPState.create, bind, Except.bind], hbp, ?_⟩
  intro A B C D E hA hB hC hD hE ups hups
  obtain ⟨b1, b2, -⟩ := BP_create_ok hbp
  -- log potentials
  have hid : idT ≠ idL ∧ idT ≠ idD ∧ idT ≠ idE ∧ idL ≠ idD ∧ idL ≠ idE ∧ idD ≠ idE := by
    simp at hids; tauto
  obtain ⟨i1, i2, i3, i4, i5, i6⟩ := hid
  let y : FGroup α → List α := fun g =>
    if g.objId = idT then (gGroup idV M N K idT (gD1 M N) A).logPotentials else if g.objId = idL then (gGroup idV M N K idL (gD2 M N) B).logPotentials
    else if g.objId = idD then (gGroup idV M N K idD (gD3 M N) C).logPotentials else (gGroup idV M N K idE (gD4 M N) D).logPotentials
  have y1 : y (gGroup idV M N K idT (gD1 M N) (List.replicate (K * K) 0)) = (gGroup idV M N K idT (gD1 M N) A).logPotentials := by
    simp [y, enumGroup]
  have y2 : y (gGroup idV M N K idL (gD2 M N) (List.replicate (K * K) 0)) = (gGroup idV M N K idL (gD2 M N) B).logPotentials := by
    simp [y, enumGroup, i1.symm]
  have y3 : y (gGroup idV M N K idD (gD3 M N) (List.replicate (K * K) 0)) = (gGroup idV M N K idD (gD3 M N) C).logPotentials := by
    simp [y, enumGroup, i2.symm, i4.symm]
  have y4 : y (gGroup idV M N K idE (gD4 M N) (List.replicate (K * K) 0)) = (gGroup idV M N K idE (gD4 M N) D).logPotentials := by
    simp [y, enumGroup, i3.symm, i5.symm, i6.symm]
  have hlp := update_all hst y (by
    rw [hg, hall]
    intro g hg'
    simp only [List.mem_cons, List.not_mem_nil, or_false] at hg'
    rcases hg' with rfl | rfl | rfl | rfl
    · rw [y1]; exact gGroup_pots_length _ _ _ _ _ _ _ _ (by rw [hA, hz])
    · rw [y2]; exact gGroup_pots_length _ _ _ _ _ _ _ _ (by rw [hB, hz])
    · rw [y3]; exact gGroup_pots_length _ _ _ _ _ _ _ _ (by rw [hC, hz])
    · rw [y4]; exact gGroup_pots_length _ _ _ _ _ _ _ _ (by rw [hD, hz])) ups (by
    rw [hg, hall]
    exact hups.map _) (by
    intro p hp
    have hp := hups.mem_iff.1 hp
    simp only [List.mem_cons, List.not_mem_nil, or_false] at hp
    rcases hp with rfl | rfl | rfl | rfl
    · rw [y1]; exact gGroup_flatten _ _ _ _ _ _ f1 (by simp) _ _
    · rw [y2]; exact gGroup_flatten _ _ _ _ _ _ f2 (by simp) _ _
    · rw [y3]; exact gGroup_flatten _ _ _ _ _ _ f3 (by simp) _ _
    · rw [y4]; exact gGroup_flatten _ _ _ _ _ _ f4 (by simp) _ _) st.logPotentials rfl
  have hflat : (gZeros idV idT idL idD idE M N K).flatMap y = (gGroups idV idT idL idD idE M N K A B C D).flatMap (·.logPotentials) := by
    simp only [List.flatMap_cons, List.flatMap_nil, y1, y2, y3, y4]
  rw [hg, hall, hflat] at hlp
  -- evidence
  obtain ⟨ev, v1, v2, v3, -⟩ := uniArr_evidence hst (List.replicate st.numVarStates (0 : α)) (by simp) idV [M, N] K (by simp)
    (by simp; exact ⟨by omega, by omega⟩) E (by simpa using hE)
  refine ⟨⟨(gGroups idV idT idL idD idE M N K A B C D).flatMap (·.logPotentials), List.replicate st.totalFactorNumStates 0, ev⟩, ?_, rfl, ?_, v2.trans (by simp), fun i hi j hj s hs => ?_, ?_, fun x hx => ?_⟩
  · unfold BPFun.update
    simp only [b1, b2]
    rw [hlp, py_ok_bind]
    show (do
      let ev ← updateEvidence st (List.replicate st.numVarStates (0 : α)) [.group (.arr (uniArr idV [M, N] K)) (.arr ⟨[M, N, K], E⟩)]
      _) = _
    unfold updateEvidence
    rw [List.foldlM_cons, show (⟨[M, N, K], E⟩ : NDArr α) = ⟨[M, N] ++ [K], E⟩ from rfl, v1]
    rfl
  · rw [hlps]
    simp only [List.flatMap_cons, List.flatMap_nil, List.append_nil, List.length_append]
    rw [gGroup_pots_length idV M N K idT (gD1 M N) A _ (hA.trans hz.symm), gGroup_pots_length idV M N K idL (gD2 M N) B _ (hB.trans hz.symm),
      gGroup_pots_length idV M N K idD (gD3 M N) C _ (hC.trans hz.symm), gGroup_pots_length idV M N K idE (gD4 M N) D _ (hD.trans hz.symm)]
  · rw [v3 [i, j] (by simp [hi, hj]) s hs]
    simp [rowMajor]
  · rw [hfacs, htables A B C D, tableFacs_groups _ (fun g hg' => (hvalid A B C D hA hB hC hD g hg').enumOk (by
      simp only [gGroups, List.mem_cons, List.not_mem_nil, or_false] at hg'
      rcases hg' with rfl | rfl | rfl | rfl <;> rfl))]
    simp only [List.flatMap_cons, List.flatMap_nil, List.append_nil]
    rw [gGroup_facs _ _ _ _ _ _ _ hA, gGroup_facs _ _ _ _ _ _ _ hB, gGroup_facs _ _ _ _ _ _ _ hC, gGroup_facs _ _ _ _ _ _ _ hD]
  · have hxx : ∀ v ∈ graphVars [(.arr (uniArr idV [M, N] K) : VGroup κ)], x v < v.n := by
      intro v hv
      obtain ⟨i, hi, j, hj, rfl⟩ := (mem_gVars κ idV M N K v).1 hv
      exact hx i hi j hj
    have hw : List.Forall₂ (fun F w => F.Weighs x w) (fg.factors ((gGroups idV idT idL idD idE M N K A B C D).flatMap (·.logPotentials)))
        ((grid (M - 1) N).map (fun p => A.getD (x (gCell idV M N K (p.1 + 0) (p.2 + 0)) * K + x (gCell idV M N K (p.1 + 1) (p.2 + 0))) 0) ++
        ((grid M (N - 1)).map (fun p => B.getD (x (gCell idV M N K (p.1 + 0) (p.2 + 0)) * K + x (gCell idV M N K (p.1 + 0) (p.2 + 1))) 0) ++
        ((grid (M - 1) (N - 1)).map (fun p => C.getD (x (gCell idV M N K (p.1 + 0) (p.2 + 0)) * K + x (gCell idV M N K (p.1 + 1) (p.2 + 1))) 0) ++
        (grid (M - 1) (N - 1)).map (fun p => D.getD (x (gCell idV M N K (p.1 + 1) (p.2 + 0)) * K + x (gCell idV M N K (p.1 + 0) (p.2 + 1))) 0)))) := by
      rw [hfacs, htables A B C D, tableFacs_groups _ (fun g hg' => (hvalid A B C D hA hB hC hD g hg').enumOk (by
        simp only [gGroups, List.mem_cons, List.not_mem_nil, or_false] at hg'
        rcases hg' with rfl | rfl | rfl | rfl <;> rfl))]
      simp only [List.flatMap_cons, List.flatMap_nil, List.append_nil]
      exact List.rel_append (gGroup_weighs _ _ _ _ _ _ f1 _ hA x hx) (List.rel_append (gGroup_weighs _ _ _ _ _ _ f2 _ hB x hx)
        (List.rel_append (gGroup_weighs _ _ _ _ _ _ f3 _ hC x hx) (gGroup_weighs _ _ _ _ _ _ f4 _ hD x hx)))
    obtain ⟨j1, j2⟩ := joint_weighs hxx hw
    refine ⟨j1, fun ρ hρ => ?_⟩
    rw [j2 _ ρ hρ, List.sum_append, List.sum_append, List.sum_append, grid_sum, grid_sum, grid_sum, grid_sum, gVars_sum]
    congr 1
    refine Finset.sum_congr rfl fun i hi => Finset.sum_congr rfl fun j hj => ?_
    rw [Finset.mem_range] at hi hj
    rw [v3 [i, j] (by simp [hi, hj]) _ (hx i hi j hj)]
    simp [rowMajor]

/-- **C70 (model).** Whenever the program builds its graph and variables have states, the graph compiles and belief propagation can be set up.
`init` with evidence for the array of variables and one matrix of log potentials for each group, in any order, succeeds.  With the resulting arrays
every assignment of states is a joint assignment, and its score is that of a field of pixels with eight neighbours each: the evidence of every
pixel, plus for every pixel the entries of the four matrices for the states of the pixel and its neighbour below, to the right and below right,
and for the states of the pixel below and the pixel to the right. -/
theorem C70_model [Field α] [LinearOrder α] [DecidableEq κ] {idV idT idL idD idE M N K : Nat} (hK : 1 ≤ K) (hids : [idT, idL, idD, idE].Nodup) {r : Gmrf κ α}
    (h : gmrf idV idT idL idD idE M N K = .ok r) (garbage : Garbage) :
    ∃ (cell : Nat → Nat → Var) (st : FGState κ α), IsGrid r.vars M N K cell ∧
      Compiled [.arr r.vars] [.list [.one r.topDown, .one r.leftRight, .one r.diagonal0, .one r.diagonal1]] garbage st ∧
      graphOf [.arr r.vars] [.list [.one r.topDown, .one r.leftRight, .one r.diagonal0, .one r.diagonal1]] = r.fg ∧
      ∀ stateId T, ∃ state bp, bpStateOf stateId st = .ok state ∧ BP.create st state T = .ok bp ∧
        ∀ A B C D E : List α, A.length = K * K → B.length = K * K → C.length = K * K → D.length = K * K → E.length = M * N * K →
        ∀ ups : List (FGroup α × NDArr α), ups.Perm [(r.topDown, ⟨[K, K], A⟩), (r.leftRight, ⟨[K, K], B⟩), (r.diagonal0, ⟨[K, K], C⟩), (r.diagonal1, ⟨[K, K], D⟩)] →
        ∃ arrs, bp.update none (some ups) none (some [.group (.arr r.vars) (.arr ⟨[M, N, K], E⟩)]) = .ok arrs ∧
          ∀ x : Var → Nat, (∀ i < M, ∀ j < N, x (cell i j) < K) →
            (∃ ρ, Joint (graphVars [(.arr r.vars : VGroup κ)]) (r.fg.factors arrs.logPotentials) x ρ) ∧
            ∀ ρ, Joint (graphVars [(.arr r.vars : VGroup κ)]) (r.fg.factors arrs.logPotentials) x ρ →
              jointScore (graphVars [(.arr r.vars : VGroup κ)]) (r.fg.factors arrs.logPotentials) (readEv st.varsToStarts arrs.evidence) x ρ =
                ∑ i ∈ Finset.range M, ∑ j ∈ Finset.range N, E.getD ((i * N + j) * K + x (cell i j)) 0 +
                (∑ i ∈ Finset.range (M - 1), ∑ j ∈ Finset.range N, A.getD (x (cell i j) * K + x (cell (i + 1) j)) 0 +
                (∑ i ∈ Finset.range M, ∑ j ∈ Finset.range (N - 1), B.getD (x (cell i j) * K + x (cell i (j + 1))) 0 +
                (∑ i ∈ Finset.range (M - 1), ∑ j ∈ Finset.range (N - 1), C.getD (x (cell i j) * K + x (cell (i + 1) (j + 1))) 0 +
                ∑ i ∈ Finset.range (M - 1), ∑ j ∈ Finset.range (N - 1), D.getD (x (cell (i + 1) j) * K + x (cell i (j + 1))) 0))) := by
  obtain ⟨hv, st, hst, hg, -, -, hall⟩ := gmrf_arrays hK hids h garbage
  refine ⟨_, st, hv ▸ isGrid_uniArr idV M N K, hst, hg, fun stateId T => ?_⟩
  obtain ⟨state, bp, h1, h2, h3⟩ := hall stateId T
  refine ⟨state, bp, h1, h2, fun A B C D E hA hB hC hD hE ups hups => ?_⟩
  obtain ⟨arrs, e, -, -, -, -, -, hx⟩ := h3 A B C D E hA hB hC hD hE ups hups
  exact ⟨arrs, e, hx⟩

/-- Non-vacuity of C70: images of 28 by 28 pixels and 7 states, and images of one row. -/
example : (∃ r, (gmrf 1 2 3 4 5 28 28 7 : Py (Gmrf Nat ℚ)) = .ok r) ∧ (gmrf 1 2 3 4 5 1 28 7 : Py (Gmrf Nat ℚ)) = .error .valueError :=
  ⟨(C70_sizes 1 2 3 4 5 28 28 7).1.2 (by norm_num),
    (C70_sizes 1 2 3 4 5 1 28 7).2 (fun h => by have := (C70_sizes (κ := Nat) (α := ℚ) 1 2 3 4 5 1 28 7).1.1 h; omega)⟩

end

end PGMax
