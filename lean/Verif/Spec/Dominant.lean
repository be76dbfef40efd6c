import Verif.Spec.Tree

/-!
# Specification: evidence that is stronger than all factors
-/

namespace PGMax

variable {α : Type _}

/-- The evidence of `v` for the state `x v` exceeds that for any other state by more than the sum of `b f` over the edges of `v` (`f` being the factor). -/
def Dominant [Add α] [Zero α] [LT α] (scopes : List (List Var)) (ev : Var → Nat → α) (b : Nat → α) (x : Var → Nat) (v : Var) : Prop :=
  x v < v.n ∧ ∀ s < v.n, s ≠ x v → ev v s + ((edgesOf scopes v).map (fun e => b e.1)).sum < ev v (x v)

/-- `x`, `ρ` is a joint assignment whose score is larger than that of all others. -/
def IsUniqueMAP [AddCommMonoid α] [LT α] (vars : Finset Var) (factors : List (SFac α)) (ev : Var → Nat → α) (x : Var → Nat) (ρ : Nat → List Nat × α) : Prop :=
  Joint vars factors x ρ ∧ ∀ x' ρ', Joint vars factors x' ρ' → (∃ v ∈ vars, x' v ≠ x v) → jointScore vars factors ev x' ρ' < jointScore vars factors ev x ρ

end PGMax
