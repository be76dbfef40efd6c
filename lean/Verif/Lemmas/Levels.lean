import Mathlib.Algebra.BigOperators.Group.Finset.Basic
import Mathlib.Algebra.Order.BigOperators.Group.Finset
import Mathlib.Algebra.Order.Ring.Defs
import Mathlib.Data.Finset.Lattice.Basic
import Mathlib.Tactic.Linarith
/-! Sums of a supermodular set function over several sets are largest for the level sets of the number of sets that contain an element. -/
namespace PGMax

variable {α : Type _} [Field α] [LinearOrder α] [IsStrictOrderedRing α]

/-- The elements below `n` with count at least `t`. -/
def level (n : Nat) (k : Nat → Nat) (t : Nat) : Finset Nat := (Finset.range n).filter (fun j => t ≤ k j)

theorem mem_level {n : Nat} {k : Nat → Nat} {t j : Nat} : j ∈ level n k t ↔ j < n ∧ t ≤ k j := by
  unfold level
  rw [Finset.mem_filter, Finset.mem_range]

/-- The sum over the levels `1 .. N`. -/
def levels (g : Finset Nat → α) (n : Nat) (k : Nat → Nat) (N : Nat) : α := ∑ t ∈ Finset.range N, g (level n k (t + 1))

theorem levels_congr (g : Finset Nat → α) {n : Nat} {k k' : Nat → Nat} (h : ∀ j < n, k j = k' j) (N : Nat) : levels g n k N = levels g n k' N := by
  unfold levels
  refine Finset.sum_congr rfl fun t _ => congrArg g ?_
  ext j
  rw [mem_level, mem_level]
  constructor <;> rintro ⟨h1, h2⟩ <;> have := h j h1 <;> omega

theorem levels_more {g : Finset Nat → α} (h0 : g ∅ = 0) {n : Nat} {k : Nat → Nat} {N : Nat} (hN : ∀ j < n, k j ≤ N) (M : Nat) : levels g n k (N + M) = levels g n k N := by
  unfold levels
  rw [Finset.sum_range_add]
  refine (add_eq_left).2 (Finset.sum_eq_zero fun t _ => ?_)
  have : level n k (N + t + 1) = ∅ := by
    refine Finset.eq_empty_of_forall_notMem fun j hj => ?_
    have := mem_level.1 hj
    have := hN j this.1
    omega
  rw [this, h0]

theorem levels_big {g : Finset Nat → α} (h0 : g ∅ = 0) {n : Nat} {k : Nat → Nat} {N M : Nat} (hN : ∀ j < n, k j ≤ N) (hM : ∀ j < n, k j ≤ M) : levels g n k N = levels g n k M := by
  rcases le_total N M with h | h
  · obtain ⟨d, rfl⟩ := Nat.exists_eq_add_of_le h
    exact (levels_more h0 hN d).symm
  · obtain ⟨d, rfl⟩ := Nat.exists_eq_add_of_le h
    exact levels_more h0 hM d

/-- Supermodular on the subsets of `R`. -/
structure Super (g : Finset Nat → α) (R : Finset Nat) : Prop where
  zero : g ∅ = 0
  super : ∀ S ⊆ R, ∀ S' ⊆ R, g S + g S' ≤ g (S ∪ S') + g (S ∩ S')

/-- One more set. -/
theorem Super.insert {g : Finset Nat → α} {n : Nat} {R : Finset Nat} (h : Super g R) {k : Nat → Nat} (hk : ∀ j < n, j ∉ R → k j = 0) {S : Finset Nat} (hS : S ⊆ R) (hn : ∀ j ∈ S, j < n) (N : Nat) :
    levels g n k N + g S ≤ levels g n (fun j => k j + if j ∈ S then 1 else 0) N + g (S ∩ level n k N) := by
  induction N with
  | zero =>
    have : S ∩ level n k 0 = S := by
      ext j
      rw [Finset.mem_inter, mem_level]
      exact ⟨fun h => h.1, fun h => ⟨h, hn j h, by omega⟩⟩
    rw [this]
    simp [levels]
  | succ N ih =>
    have hsub : level n k (N + 1) ⊆ R := by
      intro j hj
      by_contra hR
      have := mem_level.1 hj
      have := hk j this.1 hR
      omega
    have h1 := h.super (level n k (N + 1)) hsub (S ∩ level n k N) (Finset.inter_subset_left.trans hS)
    have e1 : level n k (N + 1) ∪ S ∩ level n k N = level n (fun j => k j + if j ∈ S then 1 else 0) (N + 1) := by
      ext j
      simp only [Finset.mem_union, Finset.mem_inter, mem_level]
      by_cases hj : j ∈ S
      · simp only [hj, if_true, true_and]
        constructor
        · rintro (h | h) <;> exact ⟨h.1, by omega⟩
        · rintro h
          exact .inr ⟨h.1, by omega⟩
      · simp [hj]
    have e2 : level n k (N + 1) ∩ (S ∩ level n k N) = S ∩ level n k (N + 1) := by
      ext j
      simp only [Finset.mem_inter, mem_level]
      constructor
      · rintro ⟨h1, h2, h3⟩
        exact ⟨h2, h1⟩
      · rintro ⟨h1, h2⟩
        exact ⟨h2, h1, h2.1, by omega⟩
    rw [e1, e2] at h1
    have s1 : levels g n k (N + 1) = levels g n k N + g (level n k (N + 1)) := Finset.sum_range_succ _ _
    have s2 : levels g n (fun j => k j + if j ∈ S then 1 else 0) (N + 1) = levels g n (fun j => k j + if j ∈ S then 1 else 0) N + g (level n (fun j => k j + if j ∈ S then 1 else 0) (N + 1)) :=
      Finset.sum_range_succ _ _
    rw [s1, s2]
    linarith

/-- The sum over all levels. -/
def allLevels (g : Finset Nat → α) (n : Nat) (k : Nat → Nat) : α := levels g n k (∑ j ∈ Finset.range n, k j)

theorem le_sum_range {n : Nat} (k : Nat → Nat) {j : Nat} (hj : j < n) : k j ≤ ∑ j ∈ Finset.range n, k j :=
  Finset.single_le_sum (f := k) (fun _ _ => Nat.zero_le _) (Finset.mem_range.2 hj)

theorem allLevels_eq {g : Finset Nat → α} (h0 : g ∅ = 0) {n : Nat} {k : Nat → Nat} {N : Nat} (hN : ∀ j < n, k j ≤ N) : allLevels g n k = levels g n k N :=
  levels_big h0 (fun _ hj => le_sum_range k hj) hN

theorem allLevels_congr (g : Finset Nat → α) {n : Nat} {k k' : Nat → Nat} (h : ∀ j < n, k j = k' j) : allLevels g n k = allLevels g n k' := by
  unfold allLevels
  rw [Finset.sum_congr rfl (fun j hj => h j (Finset.mem_range.1 hj))]
  exact levels_congr g h _

theorem Super.one {g : Finset Nat → α} {n : Nat} {R : Finset Nat} (h : Super g R) {k : Nat → Nat} (hk : ∀ j < n, j ∉ R → k j = 0) {S : Finset Nat} (hS : S ⊆ R) (hn : ∀ j ∈ S, j < n) :
    allLevels g n k + g S ≤ allLevels g n (fun j => k j + if j ∈ S then 1 else 0) := by
  have hN : ∀ j < n, k j ≤ ∑ j ∈ Finset.range n, k j := fun _ hj => le_sum_range k hj
  have h1 := h.insert hk hS hn (∑ j ∈ Finset.range n, k j + 1)
  have e : S ∩ level n k (∑ j ∈ Finset.range n, k j + 1) = ∅ := by
    refine Finset.eq_empty_of_forall_notMem fun j hj => ?_
    have := mem_level.1 (Finset.mem_inter.1 hj).2
    have := hN j this.1
    omega
  rw [e, h.zero, add_zero] at h1
  rw [allLevels_eq h.zero (N := ∑ j ∈ Finset.range n, k j + 1) (fun j hj => (hN j hj).trans (by omega)),
    allLevels_eq h.zero (k := fun j => k j + if j ∈ S then 1 else 0) (N := ∑ j ∈ Finset.range n, k j + 1) (fun j hj => by
      have := hN j hj
      split <;> omega)]
  exact h1

theorem Super.add {g : Finset Nat → α} {n : Nat} {R : Finset Nat} (h : Super g R) {k k' : Nat → Nat} (hk : ∀ j < n, j ∉ R → k j = 0) (hk' : ∀ j < n, j ∉ R → k' j = 0) :
    allLevels g n k + allLevels g n k' ≤ allLevels g n (fun j => k j + k' j) := by
  have key : ∀ m, allLevels g n k + levels g n k' m ≤ allLevels g n (fun j => k j + min (k' j) m) := by
    intro m
    induction m with
    | zero => simp [levels]
    | succ m ih =>
      have s1 : levels g n k' (m + 1) = levels g n k' m + g (level n k' (m + 1)) := Finset.sum_range_succ _ _
      have h1 := h.one (n := n) (k := fun j => k j + min (k' j) m) (fun j hj hR => by rw [hk j hj hR, hk' j hj hR]; simp) (S := level n k' (m + 1)) (fun j hj => by
        by_contra hR
        have := mem_level.1 hj
        have := hk' j this.1 hR
        omega) (fun j hj => (mem_level.1 hj).1)
      rw [s1]
      refine le_trans (by linarith) (h1.trans (le_of_eq (allLevels_congr g fun j hj => ?_)))
      simp only [mem_level, hj, true_and]
      split <;> omega
  refine (key _).trans (le_of_eq (allLevels_congr g fun j hj => ?_))
  rw [min_eq_left (le_sum_range k' hj)]

theorem allLevels_zero {g : Finset Nat → α} {n : Nat} {k : Nat → Nat} (h : ∀ j < n, k j = 0) : allLevels g n k = 0 := by
  unfold allLevels
  rw [Finset.sum_eq_zero fun j hj => h j (Finset.mem_range.1 hj)]
  rfl

theorem Super.single {g : Finset Nat → α} {n : Nat} {R : Finset Nat} (h : Super g R) {S : Finset Nat} (hS : S ⊆ R) (hn : ∀ j ∈ S, j < n) : g S ≤ allLevels g n (fun j => if j ∈ S then 1 else 0) := by
  have := h.one (n := n) (k := fun _ => 0) (fun _ _ _ => rfl) hS hn
  rw [allLevels_zero (fun _ _ => rfl), zero_add] at this
  refine this.trans (le_of_eq (allLevels_congr g fun j _ => by simp))

end PGMax
