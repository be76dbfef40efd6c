import Verif.Spec.SumProduct
import Mathlib.Combinatorics.SimpleGraph.Metric

/-!
# Specification: the part of a factor graph behind a message
-/

namespace PGMax

variable {κ α : Type _}

/-- A variable or factor `x` lies behind the message of factor `f` to variable `v`: it is connected with `f` and closer to `f` than to `v`. -/
def Behind (scopes : List (List Var)) (f : Nat) (v : Var) (x : Var ⊕ Nat) : Prop :=
  (bipartite scopes).Reachable x (.inr f) ∧ (bipartite scopes).dist x (.inr f) < (bipartite scopes).dist x (.inl v)

open Classical in
/-- The total of `E` over the variables and of `P` over the factors behind the message of factor `f` to variable `v`. -/
noncomputable def totalBehind [AddCommMonoid α] (vars : Finset Var) (scopes : List (List Var)) (E : Var → α) (P : Nat → α) (f : Nat) (v : Var) : α :=
  ∑ u ∈ vars with Behind scopes f v (.inl u), E u + ∑ g ∈ Finset.range scopes.length with Behind scopes f v (.inr g), P g

/-- The evidence of any two states of `v` differs by at most `E v`. -/
def EvWithin [Sub α] [LE α] (vars : Finset Var) (ev : Var → Nat → α) (E : Var → α) : Prop :=
  ∀ v ∈ vars, ∀ s < v.n, ∀ t < v.n, ev v s - ev v t ≤ E v

end PGMax
