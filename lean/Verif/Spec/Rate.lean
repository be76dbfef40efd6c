import Verif.Spec.Range
import Mathlib.Algebra.BigOperators.Group.Finset.Basic
import Mathlib.Algebra.Field.Basic
import Mathlib.Data.Nat.Choose.Basic

/-!
# Specification: how far damped iterations lag behind
-/

namespace PGMax

/-- The probability that fewer than `k` of `n` independent trials succeed, if one trial fails with probability `d`. -/
def lag {α : Type _} [Field α] (d : α) (n k : Nat) : α := ∑ j ∈ Finset.range k, (n.choose j : α) * (1 - d) ^ j * d ^ (n - j)

open Classical in
/-- The total of `E` over the other variables and of `P` over the factors that are connected with variable `v`. -/
noncomputable def totalAround {α : Type _} [AddCommMonoid α] (vars : Finset Var) (scopes : List (List Var)) (E : Var → α) (P : Nat → α) (v : Var) : α :=
  ∑ u ∈ vars with u ≠ v ∧ (bipartite scopes).Reachable (.inl u) (.inl v), E u
    + ∑ g ∈ Finset.range scopes.length with (bipartite scopes).Reachable (.inr g) (.inl v), P g

/-- The differences of the first `n` values of `x` and `y` lie in an interval of length at most `δ` that contains 0. -/
def CloseWithin {α : Type _} [Field α] [LE α] (n : Nat) (x y : Nat → α) (δ : α) : Prop :=
  ∃ lo hi, lo ≤ 0 ∧ 0 ≤ hi ∧ hi - lo ≤ δ ∧ ∀ s < n, lo ≤ x s - y s ∧ x s - y s ≤ hi

open Classical in
/-- The largest number of factors on a path from a factor behind the message of factor `f` to variable `v` to `v`. -/
noncomputable def factorsBehind (scopes : List (List Var)) (f : Nat) (v : Var) : Nat :=
  ((Finset.range scopes.length).filter (fun g => Behind scopes f v (.inr g))).sup (fun g => ((bipartite scopes).dist (.inl v) (.inr g) + 1) / 2)

end PGMax
