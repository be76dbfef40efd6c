import Verif.Model.Arr
import Mathlib.Algebra.Order.Field.Basic

/-!
# Specification: where the RCN program sees an oriented edge
-/

namespace PGMax

/-- Coordinate `x` of an axis of length `n`, moved to the border if it is outside. -/
def clamp (n : Nat) (x : Int) : Nat := (max 0 (min x ((n : Int) - 1))).toNat

/-- Channel `i` of the images `f` detects an edge at row `r`, column `c`: its value is at least the threshold, it is the largest value of all `n` channels at this pixel, and
it is at least as large as the values of the channel at all pixels that the mask (with `a` rows and `b` columns, its centre on the pixel) contains; pixels outside of the image are
moved to its border. -/
structure Detects {α : Type _} [LE α] (threshold : α) (n H W a b : Nat) (mask : Nat → Nat → Bool) (f : Nat → Nat → Nat → α) (i r c : Nat) : Prop where
  bright : threshold ≤ f i r c
  channel : ∀ j < n, f j r c ≤ f i r c
  peak : ∀ u < a, ∀ w < b, mask u w = true → f i (clamp H ((r : Int) + u - (a / 2 : Nat))) (clamp W ((c : Int) + w - (b / 2 : Nat))) ≤ f i r c

end PGMax
