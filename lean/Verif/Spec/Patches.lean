import Verif.Spec.Programs
import Verif.Spec.Gmrf

/-! # Specification for the program with hidden variables over patches of an image -/

namespace PGMax

variable {α : Type _}

/-- Images of `h + 2` by `w + 2` pixels for which there is at least one patch of 3 by 3 pixels, and at most `10 ^ 9` pixels. -/
abbrev PatchSizes (h w : Nat) : Prop := 1 ≤ h ∧ 1 ≤ w ∧ (h + 2) * (w + 2) ≤ 1000000000

/-- The evidence of pixel `(a, b)` for state `t`: from the array `E` of shape `(h + 2, w + 2, P)`, except for pixel `(0, 0)`, for which it is from `e`. -/
def patchEv [Zero α] (h w P : Nat) (E e : List α) (a b t : Nat) : α :=
  if a = 0 ∧ b = 0 then e.getD t 0 else (⟨[h + 2, w + 2, P], E⟩ : NDArr α).read [a, b, t]

/-- The energy of hidden states `z` and pixels `y`: over all patches and positions in them, the potential of the hidden state, the state of the pixel and the position. -/
def patchScore [AddCommMonoid α] (h w Q P : Nat) (W : List α) (z y : Nat → Nat → Nat) : α :=
  ∑ r ∈ Finset.range h, ∑ c ∈ Finset.range w, ∑ k ∈ Finset.range 3, ∑ l ∈ Finset.range 3,
    (⟨[Q, P, 3, 3], W⟩ : NDArr α).read [z r c, y (r + k) (c + l), k, l]

/-- The array has the numbers `p a b t` for the cells `(a, b)` of an `M` by `N` grid and the states `t < K`. -/
def HoldsGrid (M N K : Nat) (m : NDArr (Option ℝ)) (p : Nat → Nat → Nat → ℝ) : Prop :=
  m.shape = [M, N, K] ∧ m.WF ∧ ∀ a < M, ∀ b < N, ∀ t < K, m.data[rowMajor [M, N, K] [a, b, t]]? = some (some (p a b t))

/-- What speaks for state `t` of pixel `(a, b)` if the potentials are sums of a term for the hidden variable and a term `B k l` for the pixel: its terms in all patches that contain it. -/
def pixelTerms [AddCommMonoid α] (h w : Nat) (B : Nat → Nat → Nat → α) (a b t : Nat) : α :=
  ∑ k ∈ Finset.range 3, ∑ l ∈ Finset.range 3, if k ≤ a ∧ l ≤ b ∧ a - k < h ∧ b - l < w then B k l t else 0

/-- What speaks for state `t` of a hidden variable then: its terms for all positions in its patch. -/
def hiddenTerms [AddCommMonoid α] (A : Nat → Nat → Nat → α) (t : Nat) : α := ∑ k ∈ Finset.range 3, ∑ l ∈ Finset.range 3, A k l t

end PGMax
