import Verif.Spec.Textbook
import Verif.Spec.Beliefs
import Mathlib.Algebra.BigOperators.Group.Finset.Basic
import Mathlib.Combinatorics.SimpleGraph.Basic

/-!
# Specification: joint assignments, their scores, exact max-marginals, and tree-structured graphs
-/

namespace PGMax

variable {κ α : Type _}

/-- All variables of the variable groups of a graph. -/
def graphVars (vgs : List (VGroup κ)) : Finset Var := (vgs.flatMap VGroup.variables).toFinset

/-- In the decoded states `r` of the group `g`, variable `v` has state `j`. -/
def VGroup.StateIn (v : Var) (j : Nat) : VGroup κ → GroupStates κ → Prop
  | .arr g, .arr a => ∃ k : Nat, g.variables[k]? = some v ∧ a.data[k]? = some j
  | .dict g, .dict d => ∃ (k : Nat) (x : κ × NDArr Nat), g.variables[k]? = some v ∧ d[k]? = some x ∧ x.2 = ⟨[], [j]⟩
  | _, _ => False

/-- A joint assignment: a state `x v` of every variable, and for every factor `f` one of its configurations `ρ f`, which agrees
with the states. -/
structure Joint (vars : Finset Var) (factors : List (SFac α)) (x : Var → Nat) (ρ : Nat → List Nat × α) : Prop where
  states : ∀ v ∈ vars, x v < v.n
  rows : ∀ f F, factors[f]? = some F → ρ f ∈ F.rows ∧ (ρ f).1 = F.scope.map x

/-- The score of a joint assignment: all evidence and all log potentials. -/
def jointScore [AddCommMonoid α] (vars : Finset Var) (factors : List (SFac α)) (ev : Var → Nat → α) (x : Var → Nat) (ρ : Nat → List Nat × α) : α :=
  ∑ v ∈ vars, ev v (x v) + ∑ f ∈ Finset.range factors.length, (ρ f).2

/-- `M s` is the largest score of a joint assignment with variable `v` in state `s`, for all states of `v`. -/
def IsMaxMarginal [AddCommMonoid α] [LE α] (vars : Finset Var) (factors : List (SFac α)) (ev : Var → Nat → α) (v : Var) (M : Nat → α) : Prop :=
  ∀ s < v.n, IsGreatest {z | ∃ x ρ, Joint vars factors x ρ ∧ x v = s ∧ z = jointScore vars factors ev x ρ} (M s)

/-- `x`, `ρ` is a joint assignment with the largest score. -/
def IsMAP [AddCommMonoid α] [LE α] (vars : Finset Var) (factors : List (SFac α)) (ev : Var → Nat → α) (x : Var → Nat) (ρ : Nat → List Nat × α) : Prop :=
  Joint vars factors x ρ ∧ ∀ x' ρ', Joint vars factors x' ρ' → jointScore vars factors ev x' ρ' ≤ jointScore vars factors ev x ρ

/-- The factor graph: an edge between a variable and a factor (an index) if the variable is in the scope of the factor. -/
def bipartite (scopes : List (List Var)) : SimpleGraph (Var ⊕ Nat) where
  Adj
    | .inl v, .inr f => ∃ i, IsEdge scopes f i v
    | .inr f, .inl v => ∃ i, IsEdge scopes f i v
    | _, _ => False
  symm := by
    constructor
    rintro (_ | _) (_ | _) h <;> exact h
  loopless := by
    constructor
    rintro (_ | _) h <;> exact h

end PGMax
