import Mathlib.Algebra.Order.Field.Basic
import Mathlib.Order.Bounds.Basic

/-!
# What `plot_images` is meant to return

Images one beside the other, from black (the smallest number in all images) to white (the largest one), in `R` rows of `C` images, with purple lines between the rows.
-/

namespace PGMax

variable {α : Type _} [Field α] [LinearOrder α]

/-- The grey level of `v`, if the numbers in the images are between `lo` and `hi`. -/
def greyLevel (lo hi eps v : α) : α := (v - lo) / (hi - lo + eps)

/-- `R` rows and `C` columns for `n` images: `nr` rows without empty places, or the smallest square. -/
def IsTiling (n : Nat) (nr : Option Int) (R C : Nat) : Prop :=
  (nr = some (R : Int) ∧ 0 < R ∧ n = R * C) ∨ (nr = none ∧ R = C ∧ n ≤ R * R ∧ ∀ k, n ≤ k * k → R ≤ k)

/-- The big image (given by its pixels and colour channels) shows `n` images of `H` by `W` pixels with grey levels `grey`. -/
structure ShowsImages (n H W R C : Nat) (grey : Nat → Nat → Nat → α) (pixel : Nat → Nat → Nat → Option α) : Prop where
  image : ∀ im < n, ∀ y < H, ∀ x < W, ∀ ch < 3, pixel ((H + 1) * (im / C) + 1 + y) ((W + 1) * (im % C) + 1 + x) ch = some (grey im y x)
  empty : ∀ im, n ≤ im → im < R * C → ∀ y < H, ∀ x < W, ∀ ch < 3, pixel ((H + 1) * (im / C) + 1 + y) ((W + 1) * (im % C) + 1 + x) ch = some 0
  line : ∀ r ≤ R, ∀ x < (W + 1) * C + 1, pixel ((H + 1) * r) x 0 = some (1 / 2) ∧ pixel ((H + 1) * r) x 1 = some 0 ∧ pixel ((H + 1) * r) x 2 = some (1 / 2)
  between : ∀ r < R, ∀ y < H, ∀ c ≤ C, ∀ ch < 3, pixel ((H + 1) * r + 1 + y) ((W + 1) * c) ch = some 0

end PGMax
