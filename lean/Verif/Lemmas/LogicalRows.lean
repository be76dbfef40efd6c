import Verif.Spec.BP
import Mathlib.Algebra.Order.Field.Basic
import Mathlib.Algebra.BigOperators.Group.List.Basic
import Mathlib.Algebra.BigOperators.Ring.List
import Mathlib.Order.Bounds.Basic
import Mathlib.Tactic.Linarith
import Mathlib.Tactic.Ring

/-! Helper lemmas: maxima and sums over the configurations of OR and AND factors (specification level). -/

namespace PGMax

variable {α : Type _}

theorem mem_bits (n : Nat) (p : List Nat) : p ∈ bits n ↔ p.length = n ∧ ∀ b ∈ p, b < 2 := by
  induction n generalizing p with
  | zero =>
    simp only [bits, List.mem_singleton]
    constructor
    · rintro rfl; simp
    · rintro ⟨h, -⟩; exact List.length_eq_zero_iff.1 h
  | succ n ih =>
    simp only [bits, List.mem_flatMap, List.mem_cons, List.not_mem_nil, or_false]
    constructor
    · rintro ⟨p', hp', h⟩
      obtain ⟨h1, h2⟩ := (ih p').1 hp'
      rcases h with rfl | rfl
      · simp [h1]; exact h2
      · simp [h1]; exact h2
    · rintro ⟨h1, h2⟩
      cases p with
      | nil => simp at h1
      | cons b p =>
        refine ⟨p, (ih p).2 ⟨by simpa using h1, fun b hb => h2 b (by simp [hb])⟩, ?_⟩
        have := h2 b (by simp)
        rcases (show b = 0 ∨ b = 1 by omega) with rfl | rfl
        · simp
        · simp

/-- The configurations of a logical factor with relevant state `rel`: the child is in the other state iff some parent is. -/
def lRows [Zero α] (rel n : Nat) : List (List Nat × α) :=
  (bits n).map (fun p => (p ++ [if 1 - rel ∈ p then 1 - rel else rel], 0))

theorem orRows_eq [Zero α] (n : Nat) : (orRows n : List (List Nat × α)) = lRows 0 n := rfl
theorem andRows_eq [Zero α] (n : Nat) : (andRows n : List (List Nat × α)) = lRows 1 n := rfl

theorem mem_rowsAt_child [Zero α] (rel n s : Nat) (F : SFac α) (hF : F.rows = lRows rel n) (r : List Nat × α) :
    r ∈ F.rowsAt n s ↔ ∃ p ∈ bits n, (if 1 - rel ∈ p then 1 - rel else rel) = s ∧ r = (p ++ [s], 0) := by
  unfold SFac.rowsAt
  rw [hF, List.mem_filter, lRows, List.mem_map]
  constructor
  · rintro ⟨⟨p, hp, rfl⟩, h⟩
    have hl := ((mem_bits n p).1 hp).1
    simp only [decide_eq_true_eq] at h
    rw [List.getElem?_append_right (by omega), hl, Nat.sub_self] at h
    simp only [List.getElem?_cons_zero, Option.some.injEq] at h
    exact ⟨p, hp, h, by rw [h]⟩
  · rintro ⟨p, hp, h, rfl⟩
    have hl := ((mem_bits n p).1 hp).1
    refine ⟨⟨p, hp, by rw [h]⟩, ?_⟩
    simp only [decide_eq_true_eq]
    rw [List.getElem?_append_right (by omega), hl, Nat.sub_self]
    rfl

theorem mem_rowsAt_parent [Zero α] (rel n k s : Nat) (hk : k < n) (F : SFac α) (hF : F.rows = lRows rel n) (r : List Nat × α) :
    r ∈ F.rowsAt k s ↔ ∃ p ∈ bits n, p[k]? = some s ∧ r = (p ++ [if 1 - rel ∈ p then 1 - rel else rel], 0) := by
  unfold SFac.rowsAt
  rw [hF, List.mem_filter, lRows, List.mem_map]
  constructor
  · rintro ⟨⟨p, hp, rfl⟩, h⟩
    have hl := ((mem_bits n p).1 hp).1
    simp only [decide_eq_true_eq] at h
    rw [List.getElem?_append_left (by omega)] at h
    exact ⟨p, hp, h, rfl⟩
  · rintro ⟨p, hp, h, rfl⟩
    have hl := ((mem_bits n p).1 hp).1
    refine ⟨⟨p, hp, rfl⟩, ?_⟩
    simp only [decide_eq_true_eq]
    rw [List.getElem?_append_left (by omega)]
    exact h

section
variable [Field α]

theorem scoreBut_child (n : Nat) (q : Nat → Nat → α) (p : List Nat) (hp : p.length = n) (c : Nat) :
    scoreBut (n + 1) q n (p ++ [c], 0) = ((List.range n).map (fun j => q j (p.getD j 0))).sum := by
  unfold scoreBut
  rw [zero_add, List.range_succ, List.filter_append]
  have h1 : (List.range n).filter (fun j => j ≠ n) = List.range n := by
    rw [List.filter_eq_self]
    intro a ha
    have := List.mem_range.1 ha
    simp; omega
  rw [h1]
  simp only [ne_eq, not_true_eq_false, decide_false, List.filter_cons, Bool.false_eq_true, if_false, List.filter_nil, List.append_nil]
  congr 1
  apply List.map_congr_left
  intro j hj
  have := List.mem_range.1 hj
  rw [List.getD_eq_getElem?_getD, List.getElem?_append_left (by omega), ← List.getD_eq_getElem?_getD]

theorem scoreBut_parent (n k : Nat) (hk : k < n) (q : Nat → Nat → α) (p : List Nat) (hp : p.length = n) (c : Nat) :
    scoreBut (n + 1) q k (p ++ [c], 0) = (((List.range n).filter (fun j => j ≠ k)).map (fun j => q j (p.getD j 0))).sum + q n c := by
  unfold scoreBut
  rw [zero_add, List.range_succ, List.filter_append, List.map_append, List.sum_append]
  have h1 : [n].filter (fun j => j ≠ k) = [n] := by
    rw [List.filter_eq_self]
    intro a ha
    rw [List.mem_singleton.1 ha]
    simp; omega
  rw [h1]
  congr 1
  · congr 1
    apply List.map_congr_left
    intro j hj
    have := List.mem_range.1 (List.mem_filter.1 hj).1
    rw [List.getD_eq_getElem?_getD, List.getElem?_append_left (by omega), ← List.getD_eq_getElem?_getD]
  · simp [List.getElem?_append_right, hp]

/-- The incoming messages along a bit vector: those of the relevant states plus the differences of the parents that are in
the other state. -/
theorem sum_bits (rel n : Nat) (hrel : rel < 2) (q : Nat → Nat → α) (p : List Nat) (hp : p ∈ bits n) (S : List Nat) (hS : ∀ j ∈ S, j < n) :
    (S.map (fun j => q j (p.getD j 0))).sum = (S.map (fun j => q j rel)).sum +
      (S.map (fun j => if p.getD j 0 = 1 - rel then q j (1 - rel) - q j rel else 0)).sum := by
  obtain ⟨hl, hb⟩ := (mem_bits n p).1 hp
  rw [← List.sum_map_add]
  congr 1
  apply List.map_congr_left
  intro j hj
  have hjl : j < p.length := by rw [hl]; exact hS j hj
  have hg : p.getD j 0 = p[j] := by simp [List.getD, List.getElem?_eq_getElem hjl]
  have := hb _ (List.getElem_mem hjl)
  rw [hg]
  split
  · rename_i h; rw [h]; ring
  · rename_i h; rw [show p[j] = rel by omega]; ring

/-- The bit vector with the parents in `h` in the other state. -/
def hotBits (rel n : Nat) (h : Nat → Bool) : List Nat := (List.range n).map (fun j => if h j then 1 - rel else rel)

theorem hotBits_mem (rel n : Nat) (hrel : rel < 2) (h : Nat → Bool) : hotBits rel n h ∈ bits n := by
  rw [mem_bits]
  refine ⟨by simp [hotBits], ?_⟩
  intro b hb
  obtain ⟨j, -, rfl⟩ := List.mem_map.1 hb
  split <;> omega

theorem hotBits_getElem? (rel n : Nat) (h : Nat → Bool) (j : Nat) (hj : j < n) :
    (hotBits rel n h)[j]? = some (if h j then 1 - rel else rel) := by
  simp [hotBits, List.getElem?_range hj]

theorem hotBits_getD (rel n : Nat) (h : Nat → Bool) (j : Nat) (hj : j < n) :
    (hotBits rel n h).getD j 0 = if h j then 1 - rel else rel := by
  rw [List.getD_eq_getElem?_getD, hotBits_getElem? rel n h j hj]; rfl

theorem hot_mem (rel n : Nat) (hrel : rel < 2) (h : Nat → Bool) : 1 - rel ∈ hotBits rel n h ↔ ∃ j < n, h j = true := by
  unfold hotBits
  rw [List.mem_map]
  constructor
  · rintro ⟨j, hj, he⟩
    refine ⟨j, List.mem_range.1 hj, ?_⟩
    by_contra hc
    rw [if_neg hc] at he
    omega
  · rintro ⟨j, hj, he⟩
    exact ⟨j, List.mem_range.2 hj, by rw [if_pos he]⟩

theorem mem_getD {p : List Nat} {x : Nat} (h : x ∈ p) : ∃ j < p.length, p.getD j 0 = x := by
  obtain ⟨j, hj, e⟩ := List.mem_iff_getElem.1 h
  exact ⟨j, hj, by simp [List.getD, List.getElem?_eq_getElem hj, e]⟩

end

section
variable [Field α] [LinearOrder α] [IsStrictOrderedRing α]

theorem hot_le (S : List Nat) (h : Nat → Prop) [DecidablePred h] (x : Nat → α) :
    (S.map (fun j => if h j then x j else 0)).sum ≤ (S.map (fun j => max 0 (x j))).sum := by
  induction S with
  | nil => simp
  | cons a S ih =>
    simp only [List.map_cons, List.sum_cons]
    have : (if h a then x a else 0) ≤ max 0 (x a) := by
      split
      · exact le_max_right _ _
      · exact le_max_left _ _
    linarith

theorem hot_le_of_mem (S : List Nat) (h : Nat → Prop) [DecidablePred h] (x : Nat → α) (j0 : Nat) (hj0 : j0 ∈ S) (hh : h j0) :
    (S.map (fun j => if h j then x j else 0)).sum ≤ (S.map (fun j => max 0 (x j))).sum + min 0 (x j0) := by
  induction S with
  | nil => cases hj0
  | cons a S ih =>
    simp only [List.map_cons, List.sum_cons]
    have h1 : (if h a then x a else 0) ≤ max 0 (x a) := by
      split
      · exact le_max_right _ _
      · exact le_max_left _ _
    rcases List.mem_cons.1 hj0 with rfl | hm
    · have h2 := hot_le S h x
      rw [if_pos hh]
      have h3 : x j0 = max 0 (x j0) + min 0 (x j0) := by rw [max_add_min]; simp
      linarith
    · have := ih hm
      linarith

theorem hot_eq_pos (S : List Nat) (x : Nat → α) :
    (S.map (fun j => if 0 < x j then x j else 0)).sum = (S.map (fun j => max 0 (x j))).sum := by
  congr 1
  apply List.map_congr_left
  intro j _
  split
  · rename_i h; rw [max_eq_right h.le]
  · rename_i h; rw [max_eq_left (not_lt.1 h)]

theorem hot_eq (S : List Nat) (hS : S.Nodup) (x : Nat → α) (m : Nat) (hm : m ∈ S) :
    (S.map (fun j => if 0 < x j ∨ j = m then x j else 0)).sum = (S.map (fun j => max 0 (x j))).sum + min 0 (x m) := by
  induction S with
  | nil => cases hm
  | cons a S ih =>
    simp only [List.map_cons, List.sum_cons]
    rw [List.nodup_cons] at hS
    rcases List.mem_cons.1 hm with rfl | hm'
    · rw [if_pos (.inr rfl)]
      have h3 : x m = max 0 (x m) + min 0 (x m) := by rw [max_add_min]; simp
      have h4 : (S.map (fun j => if 0 < x j ∨ j = m then x j else 0)).sum = (S.map (fun j => max 0 (x j))).sum := by
        rw [← hot_eq_pos]
        congr 1
        apply List.map_congr_left
        intro j hj
        have : j ≠ m := fun h => hS.1 (h ▸ hj)
        simp [this]
      rw [h4]
      linarith
    · have hne : a ≠ m := fun h => hS.1 (h ▸ hm')
      rw [ih hS.2 hm']
      have : (if 0 < x a ∨ a = m then x a else 0) = max 0 (x a) := by
        by_cases h : 0 < x a
        · rw [if_pos (.inl h), max_eq_right h.le]
        · rw [if_neg (by simp [h, hne]), max_eq_left (not_lt.1 h)]
      rw [this]; ring

/-- Max over the configurations: message to the child. -/
theorem lRows_child (rel n : Nat) (hrel : rel < 2) (F : SFac α) (hF : F.rows = lRows rel n) (q : Nat → Nat → α) (x : Nat → α)
    (hx : ∀ j < n, x j = q j (1 - rel) - q j rel) (m : Nat) (hm : m < n) (hmax : ∀ j < n, x j ≤ x m) :
    IsGreatest {z | ∃ r ∈ F.rowsAt n rel, z = scoreBut (n + 1) q n r} ((List.range n).map (fun j => q j rel)).sum ∧
    IsGreatest {z | ∃ r ∈ F.rowsAt n (1 - rel), z = scoreBut (n + 1) q n r}
      (((List.range n).map (fun j => q j rel)).sum + (((List.range n).map (fun j => max 0 (x j))).sum + min 0 (x m))) := by
  have hne : 1 - rel ≠ rel := by omega
  have hsum : ∀ p ∈ bits n, ((List.range n).map (fun j => q j (p.getD j 0))).sum = ((List.range n).map (fun j => q j rel)).sum +
      ((List.range n).map (fun j => if p.getD j 0 = 1 - rel then x j else 0)).sum := by
    intro p hp
    rw [sum_bits rel n hrel q p hp (List.range n) (fun j hj => List.mem_range.1 hj)]
    congr 2
    apply List.map_congr_left
    intro j hj
    rw [hx j (List.mem_range.1 hj)]
  refine ⟨⟨?_, ?_⟩, ?_, ?_⟩
  · have hb := hotBits_mem rel n hrel (fun _ => false)
    refine ⟨(hotBits rel n (fun _ => false) ++ [rel], 0), (mem_rowsAt_child rel n rel F hF _).2 ⟨_, hb, ?_, rfl⟩, ?_⟩
    · rw [if_neg]
      rw [hot_mem rel n hrel]
      simp
    · rw [scoreBut_child n q _ ((mem_bits n _).1 hb).1]
      congr 1
      apply List.map_congr_left
      intro j hj
      rw [hotBits_getD rel n _ j (List.mem_range.1 hj)]
      rfl
  · rintro z ⟨r, hr, rfl⟩
    obtain ⟨p, hp, hc, rfl⟩ := (mem_rowsAt_child rel n rel F hF _).1 hr
    have hl := ((mem_bits n p).1 hp).1
    rw [scoreBut_child n q p hl, hsum p hp]
    have hnot : 1 - rel ∉ p := by
      intro h
      rw [if_pos h] at hc
      exact hne hc
    have : (List.range n).map (fun j => if p.getD j 0 = 1 - rel then x j else 0) = (List.range n).map (fun _ => (0 : α)) := by
      apply List.map_congr_left
      intro j hj
      have hj' := List.mem_range.1 hj
      rw [if_neg]
      intro h
      apply hnot
      rw [← h, List.getD_eq_getElem?_getD, List.getElem?_eq_getElem (by omega)]
      exact List.getElem_mem _
    rw [this]
    simp
  · have hb := hotBits_mem rel n hrel (fun j => decide (0 < x j ∨ j = m))
    refine ⟨_, (mem_rowsAt_child rel n (1 - rel) F hF _).2 ⟨_, hb, ?_, rfl⟩, ?_⟩
    · rw [if_pos]
      rw [hot_mem rel n hrel]
      exact ⟨m, hm, by simp⟩
    · rw [scoreBut_child n q _ ((mem_bits n _).1 hb).1, hsum _ hb, ← hot_eq (List.range n) List.nodup_range x m (List.mem_range.2 hm)]
      congr 2
      apply List.map_congr_left
      intro j hj
      rw [hotBits_getD rel n _ j (List.mem_range.1 hj)]
      simp only [decide_eq_true_eq]
      by_cases h : 0 < x j ∨ j = m
      · rw [if_pos h, if_pos h, if_pos rfl]
      · rw [if_neg h, if_neg h, if_neg (Ne.symm hne)]
  · rintro z ⟨r, hr, rfl⟩
    obtain ⟨p, hp, hc, rfl⟩ := (mem_rowsAt_child rel n (1 - rel) F hF _).1 hr
    have hl := ((mem_bits n p).1 hp).1
    rw [scoreBut_child n q p hl, hsum p hp]
    have hmem : 1 - rel ∈ p := by
      by_contra h
      rw [if_neg h] at hc
      exact hne hc.symm
    obtain ⟨j0, hj0, he⟩ := mem_getD hmem
    have h1 := hot_le_of_mem (List.range n) (fun j => p.getD j 0 = 1 - rel) x j0 (List.mem_range.2 (by omega)) he
    have h2 : min 0 (x j0) ≤ min 0 (x m) := min_le_min le_rfl (hmax j0 (by omega))
    linarith

/-- Max over the configurations: message to parent `k`, in the other state, and in the relevant state (the child can only be
in the other state if there is a second parent). -/
theorem lRows_parent (rel n : Nat) (hrel : rel < 2) (F : SFac α) (hF : F.rows = lRows rel n) (q : Nat → Nat → α) (x : Nat → α)
    (hx : ∀ j < n, x j = q j (1 - rel) - q j rel) (k : Nat) (hk : k < n) :
    IsGreatest {z | ∃ r ∈ F.rowsAt k (1 - rel), z = scoreBut (n + 1) q k r}
      ((((List.range n).filter (fun j => j ≠ k)).map (fun j => q j rel)).sum
        + (((List.range n).filter (fun j => j ≠ k)).map (fun j => max 0 (x j))).sum + q n (1 - rel)) ∧
    (n = 1 → IsGreatest {z | ∃ r ∈ F.rowsAt k rel, z = scoreBut (n + 1) q k r} (q n rel)) ∧
    (∀ m < n, m ≠ k → (∀ j < n, j ≠ k → x j ≤ x m) →
      IsGreatest {z | ∃ r ∈ F.rowsAt k rel, z = scoreBut (n + 1) q k r}
      ((((List.range n).filter (fun j => j ≠ k)).map (fun j => q j rel)).sum
        + max (q n rel) (q n (1 - rel) + (((List.range n).filter (fun j => j ≠ k)).map (fun j => max 0 (x j))).sum + min 0 (x m)))) := by
  have hne : 1 - rel ≠ rel := by omega
  obtain ⟨S, hS⟩ : ∃ S, S = (List.range n).filter (fun j => j ≠ k) := ⟨_, rfl⟩
  rw [← hS]
  have hSmem : ∀ j, j ∈ S ↔ j < n ∧ j ≠ k := by
    intro j
    rw [hS, List.mem_filter, List.mem_range]
    simp
  have hSnd : S.Nodup := by rw [hS]; exact List.nodup_range.filter _
  have hsb : ∀ p ∈ bits n, ∀ c, scoreBut (n + 1) q k (p ++ [c], 0) = (S.map (fun j => q j rel)).sum +
      (S.map (fun j => if p.getD j 0 = 1 - rel then x j else 0)).sum + q n c := by
    intro p hp c
    rw [scoreBut_parent n k hk q p ((mem_bits n p).1 hp).1, ← hS, sum_bits rel n hrel q p hp S (fun j hj => ((hSmem j).1 hj).1)]
    congr 3
    apply List.map_congr_left
    intro j hj
    rw [hx j ((hSmem j).1 hj).1]
  have hhot : ∀ h : Nat → Bool, (S.map (fun j => if (hotBits rel n h).getD j 0 = 1 - rel then x j else 0)).sum
      = (S.map (fun j => if h j then x j else 0)).sum := by
    intro h
    congr 1
    apply List.map_congr_left
    intro j hj
    rw [hotBits_getD rel n _ j ((hSmem j).1 hj).1]
    by_cases hh : h j
    · rw [if_pos hh, if_pos rfl, if_pos hh]
    · rw [if_neg hh, if_neg (Ne.symm hne), if_neg hh]
  have hnohot : ∀ p ∈ bits n, 1 - rel ∉ p → (S.map (fun j => if p.getD j 0 = 1 - rel then x j else 0)).sum = 0 := by
    intro p hp hnot
    have hl := ((mem_bits n p).1 hp).1
    have : S.map (fun j => if p.getD j 0 = 1 - rel then x j else 0) = S.map (fun _ => (0 : α)) := by
      apply List.map_congr_left
      intro j hj
      have hj' := ((hSmem j).1 hj).1
      rw [if_neg]
      intro h
      apply hnot
      rw [← h, List.getD_eq_getElem?_getD, List.getElem?_eq_getElem (by omega)]
      exact List.getElem_mem _
    rw [this]
    simp
  refine ⟨⟨?_, ?_⟩, ?_, ?_⟩
  · have hb := hotBits_mem rel n hrel (fun j => decide (0 < x j ∨ j = k))
    refine ⟨_, (mem_rowsAt_parent rel n k (1 - rel) hk F hF _).2 ⟨_, hb, ?_, rfl⟩, ?_⟩
    · rw [hotBits_getElem? rel n _ k hk]; simp
    · rw [hsb _ hb, hhot, if_pos ((hot_mem rel n hrel _).2 ⟨k, hk, by simp⟩), ← hot_eq_pos S x]
      congr 3
      apply List.map_congr_left
      intro j hj
      have := ((hSmem j).1 hj).2
      simp [this]
  · rintro z ⟨r, hr, rfl⟩
    obtain ⟨p, hp, hc, rfl⟩ := (mem_rowsAt_parent rel n k (1 - rel) hk F hF _).1 hr
    rw [hsb p hp, if_pos (List.mem_of_getElem? hc)]
    have := hot_le S (fun j => p.getD j 0 = 1 - rel) x
    linarith
  · rintro rfl
    have hk0 : k = 0 := by omega
    subst hk0
    have hS0 : S = [] := by rw [hS]; rfl
    have hb := hotBits_mem rel 1 hrel (fun _ => false)
    constructor
    · refine ⟨_, (mem_rowsAt_parent rel 1 0 rel hk F hF _).2 ⟨_, hb, ?_, rfl⟩, ?_⟩
      · rw [hotBits_getElem? rel 1 _ 0 hk]; rfl
      · rw [hsb _ hb, hS0, if_neg]
        · simp
        · rw [hot_mem rel 1 hrel]; simp
    · rintro z ⟨r, hr, rfl⟩
      obtain ⟨p, hp, hc, rfl⟩ := (mem_rowsAt_parent rel 1 0 rel hk F hF _).1 hr
      have hl := ((mem_bits 1 p).1 hp).1
      rw [hsb p hp, hS0, if_neg]
      · simp
      · intro hm
        obtain ⟨j, hj, he⟩ := mem_getD hm
        have hj0 : j = 0 := by omega
        rw [hj0, List.getD_eq_getElem?_getD, hc] at he
        exact hne he.symm
  · intro m hm hmk hmax
    constructor
    · by_cases hcase : q n (1 - rel) + (S.map (fun j => max 0 (x j))).sum + min 0 (x m) ≤ q n rel
      · rw [max_eq_left hcase]
        have hb := hotBits_mem rel n hrel (fun _ => false)
        refine ⟨_, (mem_rowsAt_parent rel n k rel hk F hF _).2 ⟨_, hb, ?_, rfl⟩, ?_⟩
        · rw [hotBits_getElem? rel n _ k hk]; rfl
        · have hno : 1 - rel ∉ hotBits rel n (fun _ => false) := by rw [hot_mem rel n hrel]; simp
          rw [hsb _ hb, if_neg hno, hnohot _ hb hno, add_zero]
      · rw [max_eq_right (not_le.1 hcase).le]
        have hb := hotBits_mem rel n hrel (fun j => decide ((0 < x j ∨ j = m) ∧ j ≠ k))
        refine ⟨_, (mem_rowsAt_parent rel n k rel hk F hF _).2 ⟨_, hb, ?_, rfl⟩, ?_⟩
        · rw [hotBits_getElem? rel n _ k hk]; simp
        · rw [hsb _ hb, hhot, if_pos ((hot_mem rel n hrel _).2 ⟨m, hm, by simp [hmk]⟩)]
          have e : (S.map (fun j => if decide ((0 < x j ∨ j = m) ∧ j ≠ k) = true then x j else 0)).sum
              = (S.map (fun j => if 0 < x j ∨ j = m then x j else 0)).sum := by
            congr 1
            apply List.map_congr_left
            intro j hj
            have := ((hSmem j).1 hj).2
            simp [this]
          rw [e, hot_eq S hSnd x m ((hSmem m).2 ⟨hm, hmk⟩)]
          ring
    · rintro z ⟨r, hr, rfl⟩
      obtain ⟨p, hp, hc, rfl⟩ := (mem_rowsAt_parent rel n k rel hk F hF _).1 hr
      have hl := ((mem_bits n p).1 hp).1
      by_cases hmem : 1 - rel ∈ p
      · rw [hsb p hp, if_pos hmem]
        obtain ⟨j0, hj0, he⟩ := mem_getD hmem
        have hj0k : j0 ≠ k := by
          rintro rfl
          rw [List.getD_eq_getElem?_getD, hc] at he
          exact hne he.symm
        have h1 := hot_le_of_mem S (fun j => p.getD j 0 = 1 - rel) x j0 ((hSmem j0).2 ⟨by omega, hj0k⟩) he
        have h2 : min 0 (x j0) ≤ min 0 (x m) := min_le_min le_rfl (hmax j0 (by omega) hj0k)
        have h3 := le_max_right (q n rel) (q n (1 - rel) + (S.map (fun j => max 0 (x j))).sum + min 0 (x m))
        linarith
      · rw [hsb p hp, if_neg hmem, hnohot p hp hmem]
        have h3 := le_max_left (q n rel) (q n (1 - rel) + (S.map (fun j => max 0 (x j))).sum + min 0 (x m))
        linarith

end

section
variable [CommRing α]

/-- The sum over all bit vectors of a product of weights. -/
theorem bits_sum_prod (n : Nat) (w : Nat → Nat → α) :
    ((bits n).map (fun p => ((List.range n).map (fun j => w j (p.getD j 0))).prod)).sum
      = ((List.range n).map (fun j => w j 0 + w j 1)).prod := by
  induction n generalizing w with
  | zero => simp [bits]
  | succ n ih =>
    have hcons : ∀ b p, ((List.range (n + 1)).map (fun j => w j ((b :: p : List Nat).getD j 0))).prod
        = w 0 b * ((List.range n).map (fun j => w (j + 1) (p.getD j 0))).prod := by
      intro b p
      rw [List.range_succ_eq_map, List.map_cons, List.prod_cons, List.map_map]
      rfl
    rw [List.range_succ_eq_map, List.map_cons, List.prod_cons, List.map_map]
    rw [show (fun j => w j 0 + w j 1) ∘ Nat.succ = fun j => w (j + 1) 0 + w (j + 1) 1 from rfl, ← ih (fun j b => w (j + 1) b)]
    rw [← List.range_succ_eq_map, ← List.sum_map_mul_left]
    have hfm : ∀ l : List (List Nat), (l.flatMap (fun p => [0 :: p, 1 :: p])).map (fun p => ((List.range (n + 1)).map (fun j => w j (p.getD j 0))).prod)
        = l.flatMap (fun p => [w 0 0 * ((List.range n).map (fun j => w (j + 1) (p.getD j 0))).prod,
            w 0 1 * ((List.range n).map (fun j => w (j + 1) (p.getD j 0))).prod]) := by
      intro l
      rw [List.map_flatMap]
      congr 1
      funext p
      rw [List.map_cons, List.map_cons, List.map_nil, hcons, hcons]
    rw [bits, hfm]
    generalize bits n = l
    induction l with
    | nil => rfl
    | cons p l ihl =>
      rw [List.flatMap_cons, List.sum_append, ihl, List.map_cons, List.sum_cons]
      simp only [List.sum_cons, List.sum_nil]
      ring

/-- The same sum when the child's weight `c` depends on whether some parent is in the other state. -/
theorem lRows_sum (rel n : Nat) (hrel : rel < 2) (w : Nat → Nat → α) (c : Nat → α) :
    ((bits n).map (fun p => ((List.range n).map (fun j => w j (p.getD j 0))).prod * c (if 1 - rel ∈ p then 1 - rel else rel))).sum
      = (((List.range n).map (fun j => w j (1 - rel) + w j rel)).prod - ((List.range n).map (fun j => w j rel)).prod) * c (1 - rel)
        + ((List.range n).map (fun j => w j rel)).prod * c rel := by
  have h1 : ∀ p ∈ bits n, ((List.range n).map (fun j => w j (p.getD j 0))).prod * c (if 1 - rel ∈ p then 1 - rel else rel)
      = ((List.range n).map (fun j => w j (p.getD j 0))).prod * c (1 - rel)
        + ((List.range n).map (fun j => if p.getD j 0 = rel then w j rel else 0)).prod * (c rel - c (1 - rel)) := by
    intro p hp
    obtain ⟨hl, hb⟩ := (mem_bits n p).1 hp
    by_cases hm : 1 - rel ∈ p
    · rw [if_pos hm]
      have : ((List.range n).map (fun j => if p.getD j 0 = rel then w j rel else 0)).prod = 0 := by
        apply List.prod_eq_zero
        obtain ⟨j, hj, he⟩ := mem_getD hm
        exact List.mem_map.2 ⟨j, List.mem_range.2 (by omega), if_neg (by omega)⟩
      rw [this]; ring
    · rw [if_neg hm]
      have hall : ∀ j < n, p.getD j 0 = rel := by
        intro j hj
        have hg : p.getD j 0 = p[j] := by simp [List.getD, List.getElem?_eq_getElem (show j < p.length by omega)]
        have h2 := hb _ (List.getElem_mem (show j < p.length by omega))
        rw [hg]
        by_contra hc
        exact hm (by rw [show 1 - rel = p[j] by omega]; exact List.getElem_mem _)
      have e1 : (List.range n).map (fun j => w j (p.getD j 0)) = (List.range n).map (fun j => if p.getD j 0 = rel then w j rel else 0) := by
        apply List.map_congr_left
        intro j hj
        have := hall j (List.mem_range.1 hj)
        simp only [this, if_true]
      rw [e1]; ring
  rw [List.map_congr_left h1, List.sum_map_add, List.sum_map_mul_right, List.sum_map_mul_right, bits_sum_prod]
  have h2 := bits_sum_prod n (fun j b => if b = rel then w j rel else 0)
  rw [h2]
  have e2 : (List.range n).map (fun j => w j 0 + w j 1) = (List.range n).map (fun j => w j (1 - rel) + w j rel) := by
    apply List.map_congr_left
    intro j _
    rcases (show rel = 0 ∨ rel = 1 by omega) with rfl | rfl
    · exact add_comm _ _
    · rfl
  have e3 : (List.range n).map (fun j => (if 0 = rel then w j rel else 0) + (if 1 = rel then w j rel else 0)) = (List.range n).map (fun j => w j rel) := by
    apply List.map_congr_left
    intro j _
    rcases (show rel = 0 ∨ rel = 1 by omega) with rfl | rfl <;> simp
  rw [e2, e3]; ring

end

end PGMax
