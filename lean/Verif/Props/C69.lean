import Verif.Lemmas.Enums
import Mathlib.Tactic.IntervalCases

/-! # C69: the restricted Boltzmann machine program -/

namespace PGMax

section

variable {κ α : Type} {idH idV idA idB idP : Nat}

/-- The variables of the program. -/
abbrev rHid (idH nh : Nat) (i : Nat) : Var := uniCell idH [nh] 2 [i]

/-- The hidden variables of the program, or the visible ones. -/
abbrev rUnary [Zero α] (id : Nat) (b : List α) : List (List Var × List α) := (List.range b.length).map (fun i => ([rHid id b.length i], [0, b.getD i 0]))

/-- The pairs of the program. -/
abbrev rPairs [Zero α] (idH idV : Nat) (bh bv : List α) (W : NDArr α) : List (List Var × List α) :=
  (grid bh.length bv.length).map (fun p => ([rHid idH bh.length p.1, rHid idV bv.length p.2], [0, 0, 0, W.data.getD (p.1 * bv.length + p.2) 0]))

/-- The two variable groups. -/
abbrev rVgs (κ : Type) (idH idV nh nv : Nat) : List (VGroup κ) := [.arr (uniArr idH [nh] 2), .arr (uniArr idV [nv] 2)]

/-- The three factor groups. -/
abbrev rGroups [Zero α] (idH idV idA idB idP : Nat) (bh bv : List α) (W : NDArr α) : List (FGroup α) :=
  [enumGroup idA .enumGroup ⟨1, [[0], [1]]⟩ (rUnary idH bh), enumGroup idB .enumGroup ⟨1, [[0], [1]]⟩ (rUnary idV bv),
    enumGroup idP (.pairwise 2 2) (mgridConfigs 2 2) (rPairs idH idV bh bv W)]

theorem rHid_at (id nh : Nat) {i : Nat} (hi : i < nh) : (uniArr id [nh] 2).at [(i : Int)] = .ok (rHid id nh i) :=
  uniArr_at id [nh] 2 (by simp) (cs := [i]) (by simp [hi])

theorem rHid_inj {id nh i j : Nat} (hi : i < nh) (hj : j < nh) (h : rHid id nh i = rHid id nh j) : i = j := by
  have := uniCell_inj (cs := [i]) (ds := [j]) (by simp [hi]) (by simp [hj]) h
  simpa using this

theorem rHid_ne {nh nv i j : Nat} (hid : idH % 2 ^ 32 ≠ idV % 2 ^ 32) (h1 : nh ≤ 1000000000) (h2 : nv ≤ 1000000000) (hi : i < nh) (hj : j < nv) :
    rHid idH nh i ≠ rHid idV nv j :=
  uniCell_ne hid (by simpa using h1) (by simpa using h2) (by simp [hi]) (by simp [hj])

theorem rUnary_pots [Zero α] (id : Nat) (b : List α) : b.flatMap (fun z => [0, z]) = (rUnary id b).flatMap (·.2) := by
  conv_lhs => rw [list_eq_range b 0, List.flatMap_map]
  rw [List.flatMap_map]

theorem rPairs_pots [Zero α] (bh bv : List α) (W : NDArr α) (h : W.data.length = bh.length * bv.length) :
    W.data.flatMap (fun w => [0, 0, 0, w]) = (rPairs idH idV bh bv W).flatMap (·.2) := by
  conv_lhs => rw [list_eq_range W.data 0, h, ← grid_index, List.map_map, List.flatMap_map]
  rw [List.flatMap_map]
  rfl

theorem rSets_nodup [Zero α] (hid : idH % 2 ^ 32 ≠ idV % 2 ^ 32) {bh bv : List α} {W : NDArr α} (hs : RbmSizes bh bv W) :
    (((rUnary idH bh ++ rUnary idV bv ++ rPairs idH idV bh bv W).map (fun p => p.1)).map List.toFinset).Nodup := by
  obtain ⟨h1, h2, h3, h4, h5⟩ := hs
  have hp : ∀ i j, ({rHid idH bh.length i} : Finset Var) = {rHid idV bv.length j} → rHid idH bh.length i = rHid idV bv.length j :=
    fun i j h => Finset.singleton_inj.1 h
  have hpair : ∀ v, ∀ p ∈ grid bh.length bv.length, ¬ ([v].toFinset = [rHid idH bh.length p.1, rHid idV bv.length p.2].toFinset) := by
    intro v p hp h
    obtain ⟨k1, k2⟩ := mem_grid.1 hp
    have a1 : rHid idH bh.length p.1 ∈ [v].toFinset := by rw [h]; simp
    have a2 : rHid idV bv.length p.2 ∈ [v].toFinset := by rw [h]; simp
    simp only [List.toFinset_cons, List.toFinset_nil, insert_empty_eq, Finset.mem_singleton] at a1 a2
    exact rHid_ne hid h2 h4 k1 k2 (a1.trans a2.symm)
  simp only [List.map_append, List.map_map]
  rw [List.nodup_append, List.nodup_append]
  refine ⟨⟨?_, ?_, ?_⟩, ?_, ?_⟩
  · refine List.Nodup.map_on (fun i hi j hj h => ?_) List.nodup_range
    rw [List.mem_range] at hi hj
    exact rHid_inj hi hj (by simpa using h)
  · refine List.Nodup.map_on (fun i hi j hj h => ?_) List.nodup_range
    rw [List.mem_range] at hi hj
    exact rHid_inj hi hj (by simpa using h)
  · rintro _ ha _ hb rfl
    obtain ⟨i, hi, rfl⟩ := List.mem_map.1 ha
    obtain ⟨j, hj, e⟩ := List.mem_map.1 hb
    rw [List.mem_range] at hi hj
    exact rHid_ne hid h2 h4 hi hj (by simpa using e.symm)
  · refine List.Nodup.map_on (fun p hp q hq h => ?_) (grid_nodup _ _)
    obtain ⟨k1, k2⟩ := mem_grid.1 hp
    obtain ⟨j1, j2⟩ := mem_grid.1 hq
    rcases pair_toFinset_eq h with ⟨e1, e2⟩ | ⟨e1, e2⟩
    · exact Prod.ext (rHid_inj k1 j1 e1) (rHid_inj k2 j2 e2)
    · exact absurd e1 (rHid_ne hid h2 h4 k1 j2)
  · rintro _ ha _ hb rfl
    obtain ⟨p, hp, e⟩ := List.mem_map.1 hb
    rw [List.mem_append] at ha
    rcases ha with ha | ha
    · obtain ⟨i, -, e'⟩ := List.mem_map.1 ha
      exact hpair _ p hp (e'.trans e.symm)
    · obtain ⟨i, -, e'⟩ := List.mem_map.1 ha
      exact hpair _ p hp (e'.trans e.symm)

theorem rbm_eq [Zero α] (hid : idH % 2 ^ 32 ≠ idV % 2 ^ 32) {bh bv : List α} {W : NDArr α} (hs : RbmSizes bh bv W) :
    ∃ fg : FactorGraph κ α, (FactorGraph.create (rVgs κ idH idV bh.length bv.length)).addAll
        [.list ((rGroups idH idV idA idB idP bh bv W).map .one)] = .ok fg ∧
      (rbm idH idV idA idB idP bh bv W : Py (Rbm κ α)) = .ok ⟨uniArr idH [bh.length] 2, uniArr idV [bv.length] 2,
        enumGroup idA .enumGroup ⟨1, [[0], [1]]⟩ (rUnary idH bh), enumGroup idB .enumGroup ⟨1, [[0], [1]]⟩ (rUnary idV bv),
        enumGroup idP (.pairwise 2 2) (mgridConfigs 2 2) (rPairs idH idV bh bv W), fg⟩ := by
  obtain ⟨h1, h2, h3, h4, h5⟩ := hs
  obtain ⟨fg, hfg⟩ := (addAll_create (κ := κ) (rVgs κ idH idV bh.length bv.length) [.list ((rGroups idH idV idA idB idP bh bv W).map .one)]).1 (by
    have hf : AddArg.flatList [.list ((rGroups idH idV idA idB idP bh bv W).map .one)] = rGroups idH idV idA idB idP bh bv W := by
      simp [AddArg.flatList, AddArg.flat]
    rw [hf, setsOf_enum (by simp [enumGroup])]
    have := rSets_nodup (W := W) hid ⟨h1, h2, h3, h4, h5⟩
    simpa [enumGroup] using this)
  refine ⟨fg, hfg, ?_⟩
  unfold rbm
  rw [create_scalar idH [bh.length] 2 (by simpa using h2), py_ok_bind, create_scalar idV [bv.length] 2 (by simpa using h4), py_ok_bind]
  rw [mapM_ok _ (fun i => [rHid idH bh.length i]) _ (fun i hi => by
    rw [List.mem_range] at hi
    rw [rHid_at _ _ hi, py_ok_bind]; rfl), py_ok_bind]
  have c1 := enum_create_2d (α := α) idA ((List.range bh.length).map (fun i => [rHid idH bh.length i])) ⟨1, [[0], [1]]⟩ (bh.flatMap (fun b => [0, b]))
    (by intro h; have := congrArg List.length h; rw [List.length_map, List.length_range, List.length_nil] at this; omega)
  rw [List.length_map, List.length_range] at c1
  rw [show (⟨[bh.length, 2], bh.flatMap (fun b => [0, b])⟩ : NDArr α) = ⟨[bh.length, [[0], [1]].length], bh.flatMap (fun b => [0, b])⟩ from rfl, c1, py_ok_bind]
  rw [mapM_ok _ (fun i => [rHid idV bv.length i]) _ (fun i hi => by
    rw [List.mem_range] at hi
    rw [rHid_at _ _ hi, py_ok_bind]; rfl), py_ok_bind]
  have c2 := enum_create_2d (α := α) idB ((List.range bv.length).map (fun i => [rHid idV bv.length i])) ⟨1, [[0], [1]]⟩ (bv.flatMap (fun b => [0, b]))
    (by intro h; have := congrArg List.length h; rw [List.length_map, List.length_range, List.length_nil] at this; omega)
  rw [List.length_map, List.length_range] at c2
  rw [show (⟨[bv.length, 2], bv.flatMap (fun b => [0, b])⟩ : NDArr α) = ⟨[bv.length, [[0], [1]].length], bv.flatMap (fun b => [0, b])⟩ from rfl, c2, py_ok_bind]
  rw [mapM_ok _ (fun p => [rHid idH bh.length p.1, rHid idV bv.length p.2]) _ (fun p hp => by
    obtain ⟨k1, k2⟩ := mem_grid.1 hp
    rw [rHid_at _ _ k1, py_ok_bind, rHid_at _ _ k2, py_ok_bind]; rfl), py_ok_bind]
  have hlen : (grid bh.length bv.length).length = bh.length * bv.length := by
    have := congrArg List.length (grid_index bh.length bv.length)
    simpa using this
  rw [pairwise_create_3d idP _ W.data.length 2 2 _ (by
      intro h
      have := congrArg List.length h
      rw [List.length_map, hlen, List.length_nil] at this
      have := Nat.mul_pos h1 h3
      omega) (by rw [List.length_flatMap]; simp [List.map_const']) (by
      intro vs hvs
      obtain ⟨p, -, rfl⟩ := List.mem_map.1 hvs
      exact ⟨_, _, rfl, rfl, rfl⟩), if_pos (by rw [List.length_map, hlen, h5]), py_ok_bind]
  have g1 : (⟨idA, .enum, .enumGroup, (List.range bh.length).map (fun i => [rHid idH bh.length i]), ⟨1, [[0], [1]]⟩, bh.flatMap (fun b => [0, b])⟩ : FGroup α) =
      enumGroup idA .enumGroup ⟨1, [[0], [1]]⟩ (rUnary idH bh) := by
    rw [rUnary_pots idH, enumGroup, List.map_map]; rfl
  have g2 : (⟨idB, .enum, .enumGroup, (List.range bv.length).map (fun i => [rHid idV bv.length i]), ⟨1, [[0], [1]]⟩, bv.flatMap (fun b => [0, b])⟩ : FGroup α) =
      enumGroup idB .enumGroup ⟨1, [[0], [1]]⟩ (rUnary idV bv) := by
    rw [rUnary_pots idV, enumGroup, List.map_map]; rfl
  have g3 : (⟨idP, .enum, .pairwise 2 2, (grid bh.length bv.length).map (fun p => [rHid idH bh.length p.1, rHid idV bv.length p.2]), mgridConfigs 2 2,
      W.data.flatMap (fun w => [0, 0, 0, w])⟩ : FGroup α) = enumGroup idP (.pairwise 2 2) (mgridConfigs 2 2) (rPairs idH idV bh bv W) := by
    rw [rPairs_pots (idH := idH) (idV := idV) bh bv W h5, enumGroup, List.map_map]; rfl
  rw [g1, g2, g3]
  rw [show [AddArg.one (enumGroup idA .enumGroup ⟨1, [[0], [1]]⟩ (rUnary idH bh)), .one (enumGroup idB .enumGroup ⟨1, [[0], [1]]⟩ (rUnary idV bv)),
    .one (enumGroup idP (.pairwise 2 2) (mgridConfigs 2 2) (rPairs idH idV bh bv W))] = (rGroups idH idV idA idB idP bh bv W).map .one from rfl, hfg, py_ok_bind]
  rfl

/-- **C69 (sizes).** The program builds its graph exactly if there are between one and `10 ^ 9` hidden and visible variables and `W` has as many
entries as there are pairs of them, whatever its shape; otherwise it stops with a `ValueError`. -/
theorem C69_sizes [Zero α] (hid : idH % 2 ^ 32 ≠ idV % 2 ^ 32) (bh bv : List α) (W : NDArr α) :
    ((∃ r : Rbm κ α, rbm idH idV idA idB idP bh bv W = .ok r) ↔ RbmSizes bh bv W) ∧
    ((¬ ∃ r : Rbm κ α, rbm idH idV idA idB idP bh bv W = .ok r) → (rbm idH idV idA idB idP bh bv W : Py (Rbm κ α)) = .error .valueError) := by
  by_cases hs : RbmSizes bh bv W
  · obtain ⟨fg, -, e⟩ := rbm_eq (κ := κ) (idA := idA) (idB := idB) (idP := idP) hid hs
    exact ⟨⟨fun _ => hs, fun _ => ⟨_, e⟩⟩, fun h => absurd ⟨_, e⟩ h⟩
  · have e : (rbm idH idV idA idB idP bh bv W : Py (Rbm κ α)) = .error .valueError := by
      unfold rbm
      by_cases h2 : bh.length ≤ 1000000000
      swap
      · rw [create_scalar_large idH [bh.length] 2 (by simpa using h2), py_error_bind]
      rw [create_scalar idH [bh.length] 2 (by simpa using h2), py_ok_bind]
      by_cases h4 : bv.length ≤ 1000000000
      swap
      · rw [create_scalar_large idV [bv.length] 2 (by simpa using h4), py_error_bind]
      rw [create_scalar idV [bv.length] 2 (by simpa using h4), py_ok_bind]
      rw [mapM_ok _ (fun i => [rHid idH bh.length i]) _ (fun i hi => by
        rw [List.mem_range] at hi
        rw [rHid_at _ _ hi, py_ok_bind]; rfl), py_ok_bind]
      by_cases h1 : 1 ≤ bh.length
      swap
      · rw [show bh.length = 0 by omega]
        rfl
      have c1 := enum_create_2d (α := α) idA ((List.range bh.length).map (fun i => [rHid idH bh.length i])) ⟨1, [[0], [1]]⟩ (bh.flatMap (fun b => [0, b]))
        (by intro h; have := congrArg List.length h; rw [List.length_map, List.length_range, List.length_nil] at this; omega)
      rw [List.length_map, List.length_range] at c1
      rw [show (⟨[bh.length, 2], bh.flatMap (fun b => [0, b])⟩ : NDArr α) = ⟨[bh.length, [[0], [1]].length], bh.flatMap (fun b => [0, b])⟩ from rfl, c1, py_ok_bind]
      rw [mapM_ok _ (fun i => [rHid idV bv.length i]) _ (fun i hi => by
        rw [List.mem_range] at hi
        rw [rHid_at _ _ hi, py_ok_bind]; rfl), py_ok_bind]
      by_cases h3 : 1 ≤ bv.length
      swap
      · rw [show bv.length = 0 by omega]
        rfl
      have c2 := enum_create_2d (α := α) idB ((List.range bv.length).map (fun i => [rHid idV bv.length i])) ⟨1, [[0], [1]]⟩ (bv.flatMap (fun b => [0, b]))
        (by intro h; have := congrArg List.length h; rw [List.length_map, List.length_range, List.length_nil] at this; omega)
      rw [List.length_map, List.length_range] at c2
      rw [show (⟨[bv.length, 2], bv.flatMap (fun b => [0, b])⟩ : NDArr α) = ⟨[bv.length, [[0], [1]].length], bv.flatMap (fun b => [0, b])⟩ from rfl, c2, py_ok_bind]
      rw [mapM_ok _ (fun p => [rHid idH bh.length p.1, rHid idV bv.length p.2]) _ (fun p hp => by
        obtain ⟨k1, k2⟩ := mem_grid.1 hp
        rw [rHid_at _ _ k1, py_ok_bind, rHid_at _ _ k2, py_ok_bind]; rfl), py_ok_bind]
      have hlen : (grid bh.length bv.length).length = bh.length * bv.length := by
        have := congrArg List.length (grid_index bh.length bv.length)
        simpa using this
      rw [pairwise_create_3d idP _ W.data.length 2 2 _ (by
          intro h
          have := congrArg List.length h
          rw [List.length_map, hlen, List.length_nil] at this
          have := Nat.mul_pos h1 h3
          omega) (by rw [List.length_flatMap]; simp [List.map_const']) (by
          intro vs hvs
          obtain ⟨p, -, rfl⟩ := List.mem_map.1 hvs
          exact ⟨_, _, rfl, rfl, rfl⟩), if_neg (by
          rw [List.length_map, hlen]
          exact fun h5 => hs ⟨h1, h2, h3, h4, h5⟩), py_error_bind]
    rw [e]
    exact ⟨⟨fun ⟨r, hr⟩ => (by cases hr), fun h => absurd h hs⟩, fun _ => rfl⟩

theorem rVgs_ok (hid : idH % 2 ^ 32 ≠ idV % 2 ^ 32) {nh nv : Nat} (h2 : nh ≤ 1000000000) (h4 : nv ≤ 1000000000) : VGroupsOk (rVgs κ idH idV nh nv) :=
  vgroupsOk_of [(idH, .arr (uniArr idH [nh] 2)), (idV, .arr (uniArr idV [nv] 2))]
    (by
      intro q hq
      simp only [List.mem_cons, List.not_mem_nil, or_false] at hq
      rcases hq with rfl | rfl
      · exact uniArr_built _ _ _ (by simpa using h2)
      · exact uniArr_built _ _ _ (by simpa using h4))
    (by simpa using hid)

theorem mem_rVgs {nh nv : Nat} (v : Var) : v ∈ graphVars (rVgs κ idH idV nh nv) ↔ (∃ i < nh, v = rHid idH nh i) ∨ ∃ j < nv, v = rHid idV nv j := by
  have key : ∀ (id n : Nat), v ∈ (uniArr id [n] 2).variables ↔ ∃ i < n, v = rHid id n i := by
    intro id n
    rw [mem_uniArr]
    constructor
    · rintro ⟨cs, h, rfl⟩
      cases h with
      | cons h1 h => cases h; exact ⟨_, h1, rfl⟩
    · rintro ⟨i, hi, rfl⟩; exact ⟨[i], by simp [hi], rfl⟩
  rw [← key, ← key]
  simp [graphVars, VGroup.variables]

theorem rGroups_valid [Zero α] {bh bv : List α} {W : NDArr α} (hs : RbmSizes bh bv W) : ∀ g ∈ rGroups idH idV idA idB idP bh bv W,
    g.Valid (fun v => v ∈ graphVars (rVgs κ idH idV bh.length bv.length)) := by
  obtain ⟨h1, h2, h3, h4, h5⟩ := hs
  intro g hg
  have hlen : (grid bh.length bv.length).length = bh.length * bv.length := by
    have := congrArg List.length (grid_index bh.length bv.length)
    simpa using this
  simp only [rGroups, List.mem_cons, List.not_mem_nil, or_false] at hg
  rcases hg with rfl | rfl | rfl
  · refine enumGroup_valid _ _ _ _ ?_ (by simp) (by simp) ?_ ?_ ?_ ?_
    · intro h; have := congrArg List.length h; rw [List.length_map, List.length_range, List.length_nil] at this; omega
    · rintro p hp v hv
      obtain ⟨i, hi, rfl⟩ := List.mem_map.1 hp
      rw [List.mem_singleton] at hv
      exact (mem_rVgs v).2 (.inl ⟨i, List.mem_range.1 hi, hv⟩)
    · intro p hp; obtain ⟨i, hi, rfl⟩ := List.mem_map.1 hp; rfl
    · intro p hp r hr
      obtain ⟨i, hi, rfl⟩ := List.mem_map.1 hp
      simp only [List.mem_cons, List.not_mem_nil, or_false] at hr
      rcases hr with rfl | rfl <;> simp [rHid, uniCell]
    · intro p hp; obtain ⟨i, hi, rfl⟩ := List.mem_map.1 hp; rfl
  · refine enumGroup_valid _ _ _ _ ?_ (by simp) (by simp) ?_ ?_ ?_ ?_
    · intro h; have := congrArg List.length h; rw [List.length_map, List.length_range, List.length_nil] at this; omega
    · rintro p hp v hv
      obtain ⟨i, hi, rfl⟩ := List.mem_map.1 hp
      rw [List.mem_singleton] at hv
      exact (mem_rVgs v).2 (.inr ⟨i, List.mem_range.1 hi, hv⟩)
    · intro p hp; obtain ⟨i, hi, rfl⟩ := List.mem_map.1 hp; rfl
    · intro p hp r hr
      obtain ⟨i, hi, rfl⟩ := List.mem_map.1 hp
      simp only [List.mem_cons, List.not_mem_nil, or_false] at hr
      rcases hr with rfl | rfl <;> simp [rHid, uniCell]
    · intro p hp; obtain ⟨i, hi, rfl⟩ := List.mem_map.1 hp; rfl
  · refine enumGroup_valid _ _ _ _ ?_ (by decide) (by decide) ?_ ?_ ?_ ?_
    · intro h
      have := congrArg List.length h
      rw [List.length_map, hlen, List.length_nil] at this
      have := Nat.mul_pos h1 h3
      omega
    · rintro p hp v hv
      obtain ⟨q, hq, rfl⟩ := List.mem_map.1 hp
      obtain ⟨k1, k2⟩ := mem_grid.1 hq
      simp only [List.mem_cons, List.not_mem_nil, or_false] at hv
      rcases hv with rfl | rfl
      · exact (mem_rVgs _).2 (.inl ⟨_, k1, rfl⟩)
      · exact (mem_rVgs _).2 (.inr ⟨_, k2, rfl⟩)
    · intro p hp; obtain ⟨i, hi, rfl⟩ := List.mem_map.1 hp; rfl
    · intro p hp r hr
      obtain ⟨q, hq, rfl⟩ := List.mem_map.1 hp
      obtain ⟨i, j, hi, hj, rfl⟩ := (mgrid_mem 2 2 r).1 hr
      simp [rHid, uniCell, hi, hj]
    · intro p hp; obtain ⟨i, hi, rfl⟩ := List.mem_map.1 hp; rfl

theorem unary_weighs [Semiring α] (v : Var) (b : α) (x : Var → Nat) (hx : x v < 2) :
    (SFac.mk [v] ([[0], [1]].zip [0, b])).Weighs x ((x v : α) * b) := by
  generalize hy : x v = y at hx
  constructor
  · simp only [List.map_cons, List.map_nil, hy]
    interval_cases y <;> simp
  · intro r hr e
    simp only [List.map_cons, List.map_nil, hy] at e
    simp only [List.zip_cons_cons, List.zip_nil_right, List.mem_cons, List.not_mem_nil, or_false] at hr
    interval_cases y <;> rcases hr with rfl | rfl <;> simp_all

/-- **C69 (model).** Whenever the program builds its graph, the graph compiles, belief propagation can be set up on it, and every assignment of
states is a joint assignment whose score is that of the restricted Boltzmann machine: all evidence, `bh` and `bv` of the variables in state 1, and
the entry of `W` for every pair of a hidden and a visible variable that are both in state 1. -/
theorem C69_model [Semiring α] (hid : idH % 2 ^ 32 ≠ idV % 2 ^ 32) (hf : [idA, idB, idP].Nodup) {bh bv : List α} {W : NDArr α} {r : Rbm κ α}
    (h : rbm idH idV idA idB idP bh bv W = .ok r) (garbage : Garbage) :
    ∃ (H V : List Nat → Var) (st : FGState κ α), IsArr r.hidden [bh.length] 2 H ∧ IsArr r.visible [bv.length] 2 V ∧
      Compiled [.arr r.hidden, .arr r.visible] [.list [.one r.hiddenUnaries, .one r.visibleUnaries, .one r.pairwise]] garbage st ∧
      graphOf [.arr r.hidden, .arr r.visible] [.list [.one r.hiddenUnaries, .one r.visibleUnaries, .one r.pairwise]] = r.fg ∧
      (∀ state T, ∃ bp, BP.create st state T = .ok bp) ∧
      ∀ x : Var → Nat, (∀ v ∈ graphVars [(.arr r.hidden : VGroup κ), .arr r.visible], x v < 2) →
        (∃ ρ, Joint (graphVars [(.arr r.hidden : VGroup κ), .arr r.visible]) (r.fg.factors st.logPotentials) x ρ) ∧
        ∀ ev ρ, Joint (graphVars [(.arr r.hidden : VGroup κ), .arr r.visible]) (r.fg.factors st.logPotentials) x ρ →
          jointScore (graphVars [(.arr r.hidden : VGroup κ), .arr r.visible]) (r.fg.factors st.logPotentials) ev x ρ =
            ∑ v ∈ graphVars [(.arr r.hidden : VGroup κ), .arr r.visible], ev v (x v) +
            (∑ i ∈ Finset.range bh.length, (x (H [i]) : α) * bh.getD i 0 + ∑ j ∈ Finset.range bv.length, (x (V [j]) : α) * bv.getD j 0 +
              ∑ i ∈ Finset.range bh.length, ∑ j ∈ Finset.range bv.length,
                (x (H [i]) : α) * (x (V [j]) : α) * W.data.getD (i * bv.length + j) 0) := by
  have hs := (C69_sizes (κ := κ) (idA := idA) (idB := idB) (idP := idP) hid bh bv W).1.1 ⟨r, h⟩
  obtain ⟨fg, hfg, e⟩ := rbm_eq (κ := κ) (idA := idA) (idB := idB) (idP := idP) hid hs
  rw [e] at h
  cases h
  have hfl : AddArg.flatList [.list ((rGroups idH idV idA idB idP bh bv W).map .one)] = rGroups idH idV idA idB idP bh bv W := by
    simp [AddArg.flatList, AddArg.flat]
  obtain ⟨hg, st, hst, hsc, -, -, -, -, hfac⟩ := enum_build (rVgs_ok hid hs.2.1 hs.2.2.2.1) hfg (by rw [hfl]; exact rGroups_valid hs)
    (by rw [hfl]; simpa [enumGroup] using hf) (by rw [hfl]; simp [enumGroup]) garbage
  rw [hfl] at hsc hfac
  refine ⟨_, _, st, isArr_uniArr _ _ _ (by simp), isArr_uniArr _ _ _ (by simp), hst, hg, fun state T => ?_, fun x hx => ?_⟩
  · refine (C51_partial hst state T).1.2 ?_
    rw [hg, hsc]
    have : rUnary idH bh ≠ [] := by
      intro h; have := congrArg List.length h; rw [List.length_map, List.length_range, List.length_nil] at this; have := hs.1; omega
    simp [enumGroup]
    intro hc
    have := hs.1
    rw [hc] at this
    simp at this
  · have hx2 : ∀ v ∈ graphVars (rVgs κ idH idV bh.length bv.length), x v < v.n := by
      intro v hv
      have := hx v hv
      rcases (mem_rVgs v).1 hv with ⟨i, -, rfl⟩ | ⟨j, -, rfl⟩ <;> exact this
    have hxh : ∀ i < bh.length, x (rHid idH bh.length i) < 2 := fun i hi => hx _ ((mem_rVgs _).2 (.inl ⟨i, hi, rfl⟩))
    have hxv : ∀ j < bv.length, x (rHid idV bv.length j) < 2 := fun j hj => hx _ ((mem_rVgs _).2 (.inr ⟨j, hj, rfl⟩))
    have hw : List.Forall₂ (fun F w => F.Weighs x w) (fg.factors st.logPotentials)
        ((List.range bh.length).map (fun i => (x (rHid idH bh.length i) : α) * bh.getD i 0) ++
          ((List.range bv.length).map (fun j => (x (rHid idV bv.length j) : α) * bv.getD j 0) ++
          (grid bh.length bv.length).map (fun p => (x (rHid idH bh.length p.1) : α) * (x (rHid idV bv.length p.2) : α) *
            W.data.getD (p.1 * bv.length + p.2) 0))) := by
      rw [hfac]
      simp only [rGroups, List.flatMap_cons, List.flatMap_nil, List.append_nil]
      refine List.rel_append ?_ (List.rel_append ?_ ?_)
      · rw [show (enumGroup idA .enumGroup ⟨1, [[0], [1]]⟩ (rUnary idH bh)).configs = ⟨1, [[0], [1]]⟩ from rfl, enumGroup_facs]
        swap
        · intro p hp; obtain ⟨i, hi, rfl⟩ := List.mem_map.1 hp; rfl
        rw [List.map_map, List.forall₂_map_left_iff, List.forall₂_map_right_iff, List.forall₂_same]
        intro i hi
        exact unary_weighs _ _ x (hxh i (List.mem_range.1 hi))
      · rw [show (enumGroup idB .enumGroup ⟨1, [[0], [1]]⟩ (rUnary idV bv)).configs = ⟨1, [[0], [1]]⟩ from rfl, enumGroup_facs]
        swap
        · intro p hp; obtain ⟨i, hi, rfl⟩ := List.mem_map.1 hp; rfl
        rw [List.map_map, List.forall₂_map_left_iff, List.forall₂_map_right_iff, List.forall₂_same]
        intro i hi
        exact unary_weighs _ _ x (hxv i (List.mem_range.1 hi))
      · rw [show (enumGroup idP (.pairwise 2 2) (mgridConfigs 2 2) (rPairs idH idV bh bv W)).configs = mgridConfigs 2 2 from rfl, enumGroup_facs]
        swap
        · intro p hp; obtain ⟨i, hi, rfl⟩ := List.mem_map.1 hp; rfl
        rw [List.map_map, List.forall₂_map_left_iff, List.forall₂_map_right_iff, List.forall₂_same]
        intro p hp
        obtain ⟨k1, k2⟩ := mem_grid.1 hp
        have b1 := hxh _ k1
        have b2 := hxv _ k2
        refine pair_weighs _ _ 2 2 _ rfl x b1 b2 _ ?_
        generalize x (rHid idH bh.length p.1) = a at b1 ⊢
        generalize x (rHid idV bv.length p.2) = b at b2 ⊢
        interval_cases a <;> interval_cases b <;> simp
    obtain ⟨j1, j2⟩ := joint_weighs hx2 hw
    refine ⟨j1, fun ev ρ hρ => ?_⟩
    rw [j2 ev ρ hρ, List.sum_append, List.sum_append, add_assoc, grid_sum bh.length bv.length
      (fun p => (x (rHid idH bh.length p.1) : α) * (x (rHid idV bv.length p.2) : α) * W.data.getD (p.1 * bv.length + p.2) 0),
      range_sum, range_sum]

/-! ### Factor by factor -/

theorem addUnary (idF : Nat → Nat) (fg : FactorGraph κ α) (k : Nat) (v : Var) (a b : α) (hv : v.n = 2) :
    addEnumFactor idF fg k [v] ⟨[2, 1], [0, 1]⟩ ⟨[2], [a, b]⟩ = fg.addAll [.one (enumGroup (idF k) .single ⟨1, [[0], [1]]⟩ [([v], [a, b])])] := by
  have : EnumFactor.create [v] ⟨[2, 1], [0, 1]⟩ true ⟨[2], [a, b]⟩ true = .ok ⟨[v], ⟨1, [[0], [1]]⟩, [a, b]⟩ := by
    simp [EnumFactor.create, rows, slice, List.range_succ, hv, pure, Except.pure]
  unfold addEnumFactor
  rw [this, py_ok_bind]
  rfl

theorem addPair (idF : Nat → Nat) (fg : FactorGraph κ α) (k : Nat) (v w : Var) (a b c d : α) (hv : v.n = 2) (hw : w.n = 2) :
    addEnumFactor idF fg k [v, w] ⟨[4, 2], [0, 0, 0, 1, 1, 0, 1, 1]⟩ ⟨[4], [a, b, c, d]⟩ =
      fg.addAll [.one (enumGroup (idF k) .single (mgridConfigs 2 2) [([v, w], [a, b, c, d])])] := by
  have : EnumFactor.create [v, w] ⟨[4, 2], [0, 0, 0, 1, 1, 0, 1, 1]⟩ true ⟨[4], [a, b, c, d]⟩ true =
      .ok ⟨[v, w], mgridConfigs 2 2, [a, b, c, d]⟩ := by
    simp [EnumFactor.create, rows, slice, List.range_succ, hv, hw, pure, Except.pure, mgridConfigs]
  unfold addEnumFactor
  rw [this, py_ok_bind]
  rfl

/-- The groups of single factors of the alternative program. -/
abbrev rSingles [Zero α] (idH idV : Nat) (idF : Nat → Nat) (bh bv : List α) (W : NDArr α) : List (FGroup α) :=
  (List.range bh.length).map (fun i => enumGroup (idF i) .single ⟨1, [[0], [1]]⟩ [([rHid idH bh.length i], [0, bh.getD i 0])]) ++
  (List.range bv.length).map (fun j => enumGroup (idF (bh.length + j)) .single ⟨1, [[0], [1]]⟩ [([rHid idV bv.length j], [0, bv.getD j 0])]) ++
  (grid bh.length bv.length).map (fun p => enumGroup (idF (bh.length + bv.length + (p.1 * bv.length + p.2))) .single (mgridConfigs 2 2)
    [([rHid idH bh.length p.1, rHid idV bv.length p.2], [0, 0, 0, W.data.getD (p.1 * bv.length + p.2) 0])])

theorem rbmFactors_eq [Zero α] (hid : idH % 2 ^ 32 ≠ idV % 2 ^ 32) (idF : Nat → Nat) {bh bv : List α} {W : NDArr α} (hs : RbmSizes bh bv W)
    (hW : W.shape = [bh.length, bv.length]) :
    ∃ fg : FactorGraph κ α, (FactorGraph.create (rVgs κ idH idV bh.length bv.length)).addAll
        ((rSingles idH idV idF bh bv W).map .one) = .ok fg ∧
      (rbmFactors idH idV idF bh bv W : Py (NDVarArray × NDVarArray × FactorGraph κ α)) =
        .ok (uniArr idH [bh.length] 2, uniArr idV [bv.length] 2, fg) := by
  obtain ⟨fg, hfg⟩ := (addAll_create (κ := κ) (rVgs κ idH idV bh.length bv.length) ((rSingles idH idV idF bh bv W).map .one)).1 (by
    rw [flatList_ones, setsOf_enum]
    · have := rSets_nodup (W := W) hid hs
      simp only [rSingles, List.flatMap_append, List.flatMap_map, enumGroup, List.map_cons, List.map_nil, ← List.map_eq_flatMap]
      simpa [List.map_append, List.map_map, Function.comp_def] using this
    · intro g hg
      simp only [rSingles, List.mem_append, List.mem_map] at hg
      rcases hg with (⟨i, -, rfl⟩ | ⟨i, -, rfl⟩) | ⟨i, -, rfl⟩ <;> rfl)
  refine ⟨fg, hfg, ?_⟩
  obtain ⟨h1, h2, h3, h4, h5⟩ := hs
  unfold rbmFactors
  rw [create_scalar idH [bh.length] 2 (by simpa using h2), py_ok_bind, create_scalar idV [bv.length] 2 (by simpa using h4), py_ok_bind]
  simp only
  rw [foldlM_addAll _ (fun i => enumGroup (idF i) .single ⟨1, [[0], [1]]⟩ [([rHid idH bh.length i], [0, bh.getD i 0])]) _ (fun fg i hi => by
    rw [rHid_at _ _ (List.mem_range.1 hi), py_ok_bind, addUnary _ _ _ _ _ _ rfl])]
  have step2 : ∀ fg : FactorGraph κ α, (List.range bv.length).foldlM (fun fg (jj : Nat) => do
      let v ← (uniArr idV [bv.length] 2).at [(jj : Int)]
      addEnumFactor idF fg (bh.length + jj) [v] ⟨[2, 1], [0, 1]⟩ ⟨[2], [0, bv.getD jj 0]⟩) fg = _ := fun fg =>
    foldlM_addAll _ (fun j => enumGroup (idF (bh.length + j)) .single ⟨1, [[0], [1]]⟩ [([rHid idV bv.length j], [0, bv.getD j 0])]) _ (fun fg i hi => by
      rw [rHid_at _ _ (List.mem_range.1 hi), py_ok_bind, addUnary _ _ _ _ _ _ rfl]) fg
  have step3 : ∀ fg : FactorGraph κ α, (grid bh.length bv.length).foldlM (fun fg p => do
      let v ← (uniArr idH [bh.length] 2).at [(p.1 : Int)]
      let w ← (uniArr idV [bv.length] 2).at [(p.2 : Int)]
      let z ← W.at2 p.1 p.2
      addEnumFactor idF fg (bh.length + bv.length + (p.1 * bv.length + p.2)) [v, w] ⟨[4, 2], [0, 0, 0, 1, 1, 0, 1, 1]⟩ ⟨[4], [0, 0, 0, z]⟩) fg = _ := fun fg =>
    foldlM_addAll _ (fun p => enumGroup (idF (bh.length + bv.length + (p.1 * bv.length + p.2))) .single (mgridConfigs 2 2)
      [([rHid idH bh.length p.1, rHid idV bv.length p.2], [0, 0, 0, W.data.getD (p.1 * bv.length + p.2) 0])]) _ (fun fg p hp => by
      obtain ⟨k1, k2⟩ := mem_grid.1 hp
      have hlt : p.1 * bv.length + p.2 < W.data.length := by
        rw [h5]
        have := Nat.mul_le_mul_right bv.length (show p.1 + 1 ≤ bh.length from k1)
        rw [Nat.add_mul] at this
        omega
      have hz : W.at2 p.1 p.2 = .ok (W.data.getD (p.1 * bv.length + p.2) 0) := by
        unfold NDArr.at2
        rw [hW]
        simp [k1, k2, List.getElem?_eq_getElem hlt, List.getD]
      rw [rHid_at _ _ k1, py_ok_bind, rHid_at _ _ k2, py_ok_bind, hz, py_ok_bind, addPair _ _ _ _ _ _ _ _ _ rfl rfl]) fg
  simp only [rSingles, List.map_append] at hfg
  rw [addAll_append, addAll_append] at hfg
  cases hA : (FactorGraph.create (rVgs κ idH idV bh.length bv.length) : FactorGraph κ α).addAll
      (((List.range bh.length).map (fun i => enumGroup (idF i) .single ⟨1, [[0], [1]]⟩ [([rHid idH bh.length i], [0, bh.getD i 0])])).map .one) with
  | error e => rw [hA] at hfg; cases hfg
  | ok fg1 =>
    rw [hA] at hfg
    simp only at hfg
    rw [py_ok_bind, step2]
    cases hB : fg1.addAll (((List.range bv.length).map (fun j => enumGroup (idF (bh.length + j)) .single ⟨1, [[0], [1]]⟩
        [([rHid idV bv.length j], [0, bv.getD j 0])])).map .one) with
    | error e => rw [hB] at hfg; cases hfg
    | ok fg2 =>
      rw [hB] at hfg
      simp only at hfg
      rw [py_ok_bind, step3, hfg, py_ok_bind]
      rfl

/-- **C69 (alternative).** If `W` has a row for every hidden and a column for every visible variable, the alternative program in the notes, which
adds the factors one by one, builds an equivalent graph over the same variables: it compiles, with the same log potentials, and for all arrays
belief propagation on it gives the same messages and beliefs at any temperature, damping and number of iterations. -/
theorem C69_alternative {α : Type} [Field α] [LinearOrder α] [IsStrictOrderedRing α] (hid : idH % 2 ^ 32 ≠ idV % 2 ^ 32) (hf : [idA, idB, idP].Nodup)
    {idF : Nat → Nat} (hF : Function.Injective idF) {bh bv : List α} {W : NDArr α}
    (hW : W.shape = [bh.length, bv.length]) {r : Rbm κ α} (h : rbm idH idV idA idB idP bh bv W = .ok r) (garbage garbage' : Garbage) :
    ∃ (fg' : FactorGraph κ α) (hist' : List (AddArg α)) (st st' : FGState κ α), rbmFactors idH idV idF bh bv W = .ok (r.hidden, r.visible, fg') ∧
      Compiled [.arr r.hidden, .arr r.visible] [.list [.one r.hiddenUnaries, .one r.visibleUnaries, .one r.pairwise]] garbage st ∧
      Compiled [.arr r.hidden, .arr r.visible] hist' garbage' st' ∧ graphOf [.arr r.hidden, .arr r.visible] hist' = fg' ∧
      st'.logPotentials = st.logPotentials ∧ fg'.allScopes = r.fg.allScopes ∧ (∀ lp, fg'.factors lp = r.fg.factors lp) ∧
      ∀ (state state' : BPState α) (T : α) (bp bp' : BPFun κ α), BP.create st state T = .ok bp → BP.create st' state' T = .ok bp' →
        ∀ (env : Env α), Fits env r.fg T → ∀ (a : BPArrays α) (n : Nat) (d : α), a.logPotentials.length = st.logPotentials.length →
          a.evidence.length = st.numVarStates → a.ftovMsgs.length = st.totalFactorNumStates →
          (bp'.runBP env a n d).ftovMsgs = (bp.runBP env a n d).ftovMsgs ∧
          ∀ v start, st.varsToStarts v = some start → ∀ s < v.n,
            (bp'.flatBeliefs (bp'.runBP env a n d))[start + s]? = (bp.flatBeliefs (bp.runBP env a n d))[start + s]? := by
  have hs := (C69_sizes (κ := κ) (idA := idA) (idB := idB) (idP := idP) hid bh bv W).1.1 ⟨r, h⟩
  obtain ⟨fg, hfg, e⟩ := rbm_eq (κ := κ) (idA := idA) (idB := idB) (idP := idP) hid hs
  rw [e] at h
  cases h
  obtain ⟨fg', hfg', e'⟩ := rbmFactors_eq (κ := κ) hid idF hs hW
  have hfl : AddArg.flatList [.list ((rGroups idH idV idA idB idP bh bv W).map .one)] = rGroups idH idV idA idB idP bh bv W := by
    simp [AddArg.flatList, AddArg.flat]
  obtain ⟨hg, st, hst, hsc, htab, hno, hlp, hfac, -⟩ := enum_build (rVgs_ok hid hs.2.1 hs.2.2.2.1) hfg (by rw [hfl]; exact rGroups_valid hs)
    (by rw [hfl]; simpa [enumGroup] using hf) (by rw [hfl]; simp [enumGroup]) garbage
  rw [hfl] at hsc htab hlp
  obtain ⟨hg', st', hst', hsc', htab', hno', hlp', hfac', -⟩ := enum_build (rVgs_ok hid hs.2.1 hs.2.2.2.1) hfg' (by
      rw [flatList_ones]
      intro g hg
      simp only [rSingles, List.mem_append, List.mem_map] at hg
      rcases hg with (⟨i, hi, rfl⟩ | ⟨i, hi, rfl⟩) | ⟨p, hp, rfl⟩
      · refine enumGroup_valid _ _ _ _ (by simp) (by simp) (by simp) ?_ (by simp) ?_ (by simp)
        · simp only [List.mem_singleton, forall_eq]
          exact (mem_rVgs _).2 (.inl ⟨i, List.mem_range.1 hi, rfl⟩)
        · simp [rHid, uniCell]
      · refine enumGroup_valid _ _ _ _ (by simp) (by simp) (by simp) ?_ (by simp) ?_ (by simp)
        · simp only [List.mem_singleton, forall_eq]
          exact (mem_rVgs _).2 (.inr ⟨i, List.mem_range.1 hi, rfl⟩)
        · simp [rHid, uniCell]
      · obtain ⟨k1, k2⟩ := mem_grid.1 hp
        refine enumGroup_valid _ _ _ _ (by simp) (by decide) (by decide) ?_ (by simp [mgridConfigs]) ?_ (by simp [mgrid_rows_length])
        · simp only [List.mem_cons, List.not_mem_nil, or_false, forall_eq, forall_eq_or_imp]
          exact ⟨(mem_rVgs _).2 (.inl ⟨_, k1, rfl⟩), (mem_rVgs _).2 (.inr ⟨_, k2, rfl⟩)⟩
        · intro q hq r hr
          rw [List.mem_singleton] at hq
          subst hq
          obtain ⟨i, j, hi, hj, rfl⟩ := (mgrid_mem 2 2 r).1 hr
          simp [rHid, uniCell, hi, hj])
    (by
      rw [flatList_ones]
      have : (rSingles idH idV idF bh bv W).map (·.objId) = (List.range (bh.length + bv.length + bh.length * bv.length)).map idF := by
        rw [List.range_add, List.range_add, ← grid_index]
        simp [rSingles, enumGroup, Function.comp_def]
      rw [this]
      exact List.Nodup.map hF List.nodup_range)
    (by
      rw [flatList_ones]
      intro g hg
      simp only [rSingles, List.mem_append, List.mem_map] at hg
      rcases hg with (⟨i, -, rfl⟩ | ⟨i, -, rfl⟩) | ⟨i, -, rfl⟩ <;> rfl) garbage'
  rw [flatList_ones] at hsc' htab' hlp'
  have t1 : fg'.allScopes = fg.allScopes := by
    rw [hsc, hsc']
    simp [rSingles, rGroups, enumGroup, List.flatMap_append, List.flatMap_map, ← List.map_eq_flatMap, Function.comp_def]
  have t2 : fg'.tables = fg.tables := by
    rw [htab, htab']
    simp [rSingles, rGroups, enumGroup, List.flatMap_append, List.flatMap_map, ← List.map_eq_flatMap, Function.comp_def]
  have t3 : st'.logPotentials = st.logPotentials := by
    rw [hlp, hlp']
    simp [rSingles, rGroups, enumGroup, List.flatMap_append, List.flatMap_map, Function.comp_def]
  have t4 : ∀ lp, fg'.factors lp = fg.factors lp := fun lp => by rw [hfac, hfac', t2]
  have t5 : ∀ t, fg'.scopesOf t = fg.scopesOf t := by
    intro t
    by_cases ht : t = .enum
    · subst ht
      simpa [FactorGraph.allScopes, FType.all, hno .or (by decide), hno .and (by decide), hno' .or (by decide), hno' .and (by decide)] using t1
    · rw [hno t ht, hno' t ht]
  refine ⟨fg', _, st, st', e', hst, hst', hg', t3, t1, t4, ?_⟩
  intro state state' T bp bp' hbp hbp' env hfit a n d hl he hm
  have hvs : st'.varsToStarts = st.varsToStarts := by
    funext v
    apply Option.ext
    intro s
    rw [hst.starts_iff, hst'.starts_iff]
  have hnv : st'.numVarStates = st.numVarStates := by
    rw [hst.numVarStates, hst'.numVarStates]
  have := C49 hst hst' hbp hbp' env (by rw [hg]; exact hfit) a a n d hl (by rw [t3]; exact hl) he (by rw [hnv]; exact he) hm rfl
    ⟨by rw [hg, hg', t4]; exact List.forall₂_same.2 fun F _ => ⟨rfl, List.Perm.refl _⟩, fun t => by rw [hg, hg', t5]⟩ (fun v s s' h1 h2 k hk => by rw [hvs])
  refine ⟨this.1, fun v start hv s hs => ?_⟩
  exact this.2 v start start hv (by rw [hvs]; exact hv) s hs

/-- Non-vacuity of C69: two hidden and three visible variables; weights of the transposed shape are not noticed by the program. -/
example : (∃ r : Rbm Nat ℚ, rbm 1 2 3 4 5 [1, -1] [2, 0, 3] ⟨[2, 3], [1, 2, 3, 4, 5, 6]⟩ = .ok r) ∧
    (∃ r : Rbm Nat ℚ, rbm 1 2 3 4 5 [1, -1] [2, 0, 3] ⟨[3, 2], [1, 2, 3, 4, 5, 6]⟩ = .ok r) ∧
    (rbm 1 2 3 4 5 [1, -1] [2, 0, 3] ⟨[2, 2], [1, 2, 3, 4]⟩ : Py (Rbm Nat ℚ)) = .error .valueError := by
  refine ⟨(C69_sizes (by decide) _ _ _).1.2 (by simp [RbmSizes]), (C69_sizes (by decide) _ _ _).1.2 (by simp [RbmSizes]),
    (C69_sizes (by decide) _ _ _).2 fun h => ?_⟩
  have := (C69_sizes (κ := Nat) (by decide) _ _ _).1.1 h
  simp [RbmSizes] at this

end

end PGMax
