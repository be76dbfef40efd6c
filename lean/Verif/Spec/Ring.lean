import Verif.Spec.SumProduct

/-!
# Specification: rings of variables with two states
-/

namespace PGMax

/-- The variables are `v 0, …, v (n - 1)`, all with two states, and factor `k` is on `v k` and the next variable, the next of the last being the first. -/
structure IsRing (vars : Finset Var) (scopes : List (List Var)) (n : Nat) (v : Nat → Var) : Prop where
  pos : 0 < n
  mem : ∀ w, w ∈ vars ↔ ∃ k < n, w = v k
  inj : ∀ i < n, ∀ j < n, v i = v j → i = j
  binary : ∀ k < n, (v k).n = 2
  scopes : scopes = (List.range n).map (fun k => [v k, v ((k + 1) % n)])

/-- What the distributions `b` of variables with two states tell about the true weights `W` of states and their total `Z`: these are `C` times a mixture of the distribution with that of the other state,
where `1 + c` is the factor between `Z` and `C`, and `C δ` bounds the error; if the weights of two states differ by more than `4 C δ`, the state with the larger weight has the larger probability. -/
structure RingMix (vars : Finset Var) (W b : Var → Nat → ℝ) (Z C c δ : ℝ) : Prop where
  total : Z = C * (1 + c)
  pos : 0 < C
  low : -1 < c
  high : c < 1 + 2 * δ
  states : ∀ w ∈ vars, ∀ s < 2, |W w s - C * (b w s + c * (1 - b w s))| ≤ C * δ
  order : ∀ w ∈ vars, ∀ s < 2, ∀ t < 2, W w t + 4 * C * δ < W w s → b w t < b w s

end PGMax
