import Verif.Spec.Floored

/-!
# Specification: how far changes of the inputs and rounding errors spread
-/

namespace PGMax

/-- Two arrays of the same length whose entries differ by at most `ε`. -/
def Near (ε : ℝ) (x y : List ℝ) : Prop := List.Forall₂ (fun a b => |a - b| ≤ ε) x y

/-- The bound on the difference of the messages after `n` iterations: each of them multiplies the difference by at most `4 L`, for factors with at
most `L` incoming messages at their variables, and adds at most `4 A ε`, for a change of log potentials and evidence by `ε` and factors of fewer than `A`
variables; `D` is the difference before the first iteration. -/
noncomputable def spread (L A ε D : ℝ) (n : Nat) : ℝ := (4 * L) ^ n * D + 4 * A * ε * ∑ k ∈ Finset.range n, (4 * L) ^ k

/-- The inputs of the factors of a graph: at most `L` incoming messages at the variables of a factor, and fewer than `A` variables. -/
structure Inputs (scopes : List (List Var)) (L A : ℝ) : Prop where
  one_le : 1 ≤ L
  inputs : ∀ vs ∈ scopes, (inputsBut scopes vs vs.length : ℝ) ≤ L
  arity : ∀ vs ∈ scopes, (vs.length : ℝ) + 1 ≤ A

end PGMax
