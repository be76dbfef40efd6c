import Verif.Model.ExamplesPlot
import Verif.Spec.Plot
import Verif.Lemmas.Block
import Verif.Spec.VGroup
import Mathlib.Tactic.Ring
import Mathlib.Tactic.Linarith

/-! Helper lemmas: the pixels of `plot_images`. -/

namespace PGMax

theorem flatMap_range_block {β : Type _} (a m : Nat) (f : Nat → List β) (hf : ∀ k < a, (f k).length = m) {k s : Nat} (hk : k < a) (hs : s < m) :
    ((List.range a).flatMap f)[k * m + s]? = (f k)[s]? := by
  have h := flatMap_getElem?_block (List.range a) f k s k (by rw [List.getElem?_range hk]) (by rw [hf k hk]; exact hs)
  have e : (((List.range a).map (fun y => (f y).length)).take k).sum = k * m := by
    rw [← List.map_take, List.take_range, Nat.min_eq_left hk.le, List.map_congr_left (g := fun _ => m) (fun y hy => hf y (by have := List.mem_range.1 hy; omega))]
    simp
  rw [e] at h
  exact h

variable {α : Type _}

theorem tabulate3_length (a b c : Nat) (f : Nat → Nat → Nat → α) : (tabulate3 a b c f).length = a * b * c := by
  unfold tabulate3
  simp [List.length_flatMap, Nat.mul_assoc]

theorem tabulate3_at {a b c y x ch : Nat} (f : Nat → Nat → Nat → α) (hy : y < a) (hx : x < b) (hc : ch < c) : (tabulate3 a b c f)[rowMajor [a, b, c] [y, x, ch]]? = some (f y x ch) := by
  have hlen : ∀ y, ((List.range b).flatMap fun x => (List.range c).map fun ch => f y x ch).length = b * c := by
    intro y
    simp [List.length_flatMap]
  have h1 : x * c + ch < b * c := by
    have : (x + 1) * c ≤ b * c := Nat.mul_le_mul_right _ hx
    rw [Nat.add_mul, Nat.one_mul] at this
    omega
  simp only [rowMajor, List.prod_cons, List.prod_nil, Nat.mul_one, Nat.add_zero]
  unfold tabulate3
  rw [flatMap_range_block a (b * c) _ (fun k _ => hlen k) hy h1, flatMap_range_block b c _ (fun k _ => by simp) hx hc]
  simp [hc]

/-- The blocks of two numbers are different. -/
theorem block_iff (H r r0 y0 : Nat) (hy : y0 < H) : ((H + 1) * r + 1 ≤ (H + 1) * r0 + 1 + y0 ∧ (H + 1) * r0 + 1 + y0 < (H + 1) * r + 1 + H) ↔ r = r0 := by
  constructor
  · rintro ⟨h1, h2⟩
    rcases lt_trichotomy r r0 with h | h | h
    · have : (H + 1) * (r + 1) ≤ (H + 1) * r0 := Nat.mul_le_mul_left _ h
      rw [Nat.mul_add, Nat.mul_one] at this
      omega
    · exact h
    · have : (H + 1) * (r0 + 1) ≤ (H + 1) * r := Nat.mul_le_mul_left _ h
      rw [Nat.mul_add, Nat.mul_one] at this
      omega
  · rintro rfl
    omega

theorem block_not (H r r0 : Nat) : ¬ ((H + 1) * r + 1 ≤ (H + 1) * r0 ∧ (H + 1) * r0 < (H + 1) * r + 1 + H) := by
  rintro ⟨h1, h2⟩
  rcases Nat.lt_or_ge r r0 with h | h
  · have : (H + 1) * (r + 1) ≤ (H + 1) * r0 := Nat.mul_le_mul_left _ h
    rw [Nat.mul_add, Nat.mul_one] at this
    omega
  · have : (H + 1) * r0 ≤ (H + 1) * r := Nat.mul_le_mul_left _ h
    omega

section
variable [Field α] {H W n : Nat} (images : List α)

theorem plotWrite_at (r c im : Nat) (big : Nat → Nat → Nat → α) {r0 c0 y0 x0 : Nat} (hy : y0 < H) (hx : x0 < W) (ch : Nat) :
    plotWrite H W r c im images big ((H + 1) * r0 + 1 + y0) ((W + 1) * c0 + 1 + x0) ch =
      if r = r0 ∧ c = c0 then images.getD ((im * H + y0) * W + x0) 0 else big ((H + 1) * r0 + 1 + y0) ((W + 1) * c0 + 1 + x0) ch := by
  unfold plotWrite
  by_cases h : r = r0 ∧ c = c0
  · obtain ⟨rfl, rfl⟩ := h
    rw [if_pos (by omega), if_pos ⟨rfl, rfl⟩, Nat.add_sub_cancel_left, Nat.add_sub_cancel_left]
  · rw [if_neg, if_neg h]
    rintro ⟨h1, h2, h3, h4⟩
    exact h ⟨(block_iff H r r0 y0 hy).1 ⟨h1, h2⟩, (block_iff W c c0 x0 hx).1 ⟨h3, h4⟩⟩

/-- Rows and columns between the blocks. -/
def OffBlocks (H W y x : Nat) : Prop := (∃ r, y = (H + 1) * r) ∨ ∃ c, x = (W + 1) * c

theorem plotWrite_off (r c im : Nat) (big : Nat → Nat → Nat → α) {y x : Nat} (h : OffBlocks H W y x) (ch : Nat) : plotWrite H W r c im images big y x ch = big y x ch := by
  unfold plotWrite
  rw [if_neg]
  rintro ⟨h1, h2, h3, h4⟩
  rcases h with ⟨r0, rfl⟩ | ⟨c0, rfl⟩
  · exact block_not H r r0 ⟨h1, h2⟩
  · exact block_not W c c0 ⟨h3, h4⟩

/-- One row of images. -/
theorem plotRow (r nc : Nat) (st : (Nat → Nat → Nat → α) × Nat) :
    let st' := (List.range nc).foldl (fun st c => (if st.2 < n then plotWrite H W r c st.2 images st.1 else st.1, st.2 + 1)) st
    st'.2 = st.2 + nc ∧ (∀ y x ch, OffBlocks H W y x → st'.1 y x ch = st.1 y x ch) ∧
    ∀ r0 c0 y0 x0 ch, y0 < H → x0 < W → st'.1 ((H + 1) * r0 + 1 + y0) ((W + 1) * c0 + 1 + x0) ch =
      if r = r0 ∧ c0 < nc ∧ st.2 + c0 < n then images.getD (((st.2 + c0) * H + y0) * W + x0) 0 else st.1 ((H + 1) * r0 + 1 + y0) ((W + 1) * c0 + 1 + x0) ch := by
  induction nc with
  | zero => simp
  | succ nc ih =>
    simp only at ih ⊢
    rw [List.range_succ, List.foldl_append, List.foldl_cons, List.foldl_nil]
    obtain ⟨h1, h2, h3⟩ := ih
    generalize (List.range nc).foldl (fun st c => (if st.2 < n then plotWrite H W r c st.2 images st.1 else st.1, st.2 + 1)) st = q at *
    refine ⟨by simp only; omega, fun y x ch h => ?_, fun r0 c0 y0 x0 ch hy hx => ?_⟩
    · simp only
      rw [← h2 y x ch h]
      split_ifs
      · exact plotWrite_off images r nc _ _ h ch
      · rfl
    · simp only
      by_cases hq : q.2 < n
      · rw [if_pos hq, plotWrite_at images r nc _ _ hy hx, h3 r0 c0 y0 x0 ch hy hx]
        by_cases hc : r = r0 ∧ nc = c0
        · obtain ⟨rfl, rfl⟩ := hc
          rw [if_pos ⟨rfl, rfl⟩, if_pos ⟨rfl, by omega, by omega⟩, h1]
        · rw [if_neg hc]
          congr 1
          apply propext
          constructor
          · rintro ⟨e1, e2, e3⟩
            exact ⟨e1, by omega, e3⟩
          · rintro ⟨e1, e2, e3⟩
            exact ⟨e1, by omega, e3⟩
      · rw [if_neg hq, h3 r0 c0 y0 x0 ch hy hx]
        congr 1
        apply propext
        constructor
        · rintro ⟨e1, e2, e3⟩
          exact ⟨e1, by omega, e3⟩
        · rintro ⟨e1, e2, e3⟩
          exact ⟨e1, by omega, e3⟩

/-- The two loops. -/
theorem plotLoop_at (nr nc : Nat) (big : Nat → Nat → Nat → α) :
    (plotLoop n H W nr nc images big).2 = nr * nc ∧ (∀ y x ch, OffBlocks H W y x → (plotLoop n H W nr nc images big).1 y x ch = big y x ch) ∧
    ∀ r0 c0 y0 x0 ch, c0 < nc → y0 < H → x0 < W → (plotLoop n H W nr nc images big).1 ((H + 1) * r0 + 1 + y0) ((W + 1) * c0 + 1 + x0) ch =
      if r0 < nr ∧ r0 * nc + c0 < n then images.getD (((r0 * nc + c0) * H + y0) * W + x0) 0 else big ((H + 1) * r0 + 1 + y0) ((W + 1) * c0 + 1 + x0) ch := by
  unfold plotLoop
  induction nr with
  | zero => simp
  | succ nr ih =>
    rw [List.range_succ, List.foldl_append, List.foldl_cons, List.foldl_nil]
    obtain ⟨h1, h2, h3⟩ := ih
    generalize (List.range nr).foldl (fun st r => (List.range nc).foldl (fun st c => (if st.2 < n then plotWrite H W r c st.2 images st.1 else st.1, st.2 + 1)) st) (big, 0) = q at *
    obtain ⟨k1, k2, k3⟩ := plotRow (H := H) (W := W) (n := n) images nr nc q
    refine ⟨by rw [k1, h1]; ring, fun y x ch h => by rw [k2 y x ch h, h2 y x ch h], fun r0 c0 y0 x0 ch hc hy hx => ?_⟩
    rw [k3 r0 c0 y0 x0 ch hy hx, h3 r0 c0 y0 x0 ch hc hy hx, h1]
    by_cases e : nr = r0
    · subst e
      by_cases e2 : nr * nc + c0 < n
      · rw [if_pos ⟨rfl, hc, e2⟩, if_pos ⟨by omega, e2⟩]
      · rw [if_neg (by tauto), if_neg (by tauto), if_neg (by tauto)]
    · rw [if_neg (by tauto)]
      congr 1
      apply propext
      constructor
      · rintro ⟨e1, e3⟩
        exact ⟨by omega, e3⟩
      · rintro ⟨e1, e3⟩
        exact ⟨by omega, e3⟩

end

section
variable [LinearOrder α]

theorem foldl_min_spec (xs : List α) (x : α) : IsLeast {v | v ∈ x :: xs} (xs.foldl min x) := by
  induction xs generalizing x with
  | nil => simp [IsLeast, lowerBounds]
  | cons y ys ih =>
    obtain ⟨h1, h2⟩ := ih (min x y)
    simp only [Set.mem_setOf_eq, List.mem_cons] at h1
    constructor
    · simp only [List.foldl_cons, Set.mem_setOf_eq, List.mem_cons]
      rcases h1 with h | h
      · rw [h]
        rcases min_choice x y with e | e <;> rw [e] <;> simp
      · exact .inr (.inr h)
    · intro v hv
      simp only [Set.mem_setOf_eq, List.mem_cons] at hv
      have hm : List.foldl min (min x y) ys ≤ min x y := h2 (by simp)
      rcases hv with rfl | rfl | hv
      · exact hm.trans (min_le_left _ _)
      · exact hm.trans (min_le_right _ _)
      · exact h2 (by simp [hv])

theorem foldl_max_spec' (xs : List α) (x : α) : IsGreatest {v | v ∈ x :: xs} (xs.foldl max x) := by
  induction xs generalizing x with
  | nil => simp [IsGreatest, upperBounds]
  | cons y ys ih =>
    obtain ⟨h1, h2⟩ := ih (max x y)
    simp only [Set.mem_setOf_eq, List.mem_cons] at h1
    constructor
    · simp only [List.foldl_cons, Set.mem_setOf_eq, List.mem_cons]
      rcases h1 with h | h
      · rw [h]
        rcases max_choice x y with e | e <;> rw [e] <;> simp
      · exact .inr (.inr h)
    · intro v hv
      simp only [Set.mem_setOf_eq, List.mem_cons] at hv
      have hm : max x y ≤ List.foldl max (max x y) ys := h2 (by simp)
      rcases hv with rfl | rfl | hv
      · exact (le_max_left _ _).trans hm
      · exact (le_max_right _ _).trans hm
      · exact h2 (by simp [hv])

theorem arrMin_ok {xs : List α} {lo : α} (h : IsLeast {v | v ∈ xs} lo) : arrMin xs = .ok lo := by
  cases xs with
  | nil => simp [IsLeast] at h
  | cons x xs => exact congrArg Except.ok ((foldl_min_spec xs x).unique h)

theorem arrMax_ok {xs : List α} {hi : α} (h : IsGreatest {v | v ∈ xs} hi) : arrMax xs = .ok hi := by
  cases xs with
  | nil => simp [IsGreatest] at h
  | cons x xs => exact congrArg Except.ok ((foldl_max_spec' xs x).unique h)

end

theorem ceilSqrt_spec (n : Nat) : n ≤ ceilSqrt n * ceilSqrt n ∧ ∀ k, n ≤ k * k → ceilSqrt n ≤ k := by
  unfold ceilSqrt
  split_ifs with h
  · refine ⟨h.ge, fun k hk => ?_⟩
    by_contra hc
    have : k * k < Nat.sqrt n * Nat.sqrt n := Nat.mul_self_lt_mul_self (by omega)
    omega
  · refine ⟨(Nat.lt_succ_sqrt n).le, fun k hk => ?_⟩
    have h1 := Nat.sqrt_le n
    by_contra hc
    have : k * k ≤ Nat.sqrt n * Nat.sqrt n := Nat.mul_self_le_mul_self (by omega)
    omega

theorem plotGrid_ok {n R C : Nat} {nr : Option Int} (h : IsTiling n nr R C) : plotGrid n nr = .ok ((R : Int), (C : Int)) := by
  rcases h with ⟨rfl, hR, rfl⟩ | ⟨rfl, rfl, h1, h2⟩
  · unfold plotGrid
    have e : Int.fdiv ((R * C : Nat) : Int) (R : Int) = C := by
      rw [Nat.cast_mul, Int.mul_fdiv_cancel_left _ (by omega)]
    simp only
    rw [if_neg (by omega), e, if_pos (by push_cast; rfl)]
  · unfold plotGrid
    have e : ceilSqrt n = R := le_antisymm ((ceilSqrt_spec n).2 _ h1) (h2 _ (ceilSqrt_spec n).1)
    rw [e]

end PGMax
