import Verif.Spec.Cover
import Verif.Spec.Tree

/-!
# Specification: the part of a factor graph near a variable
-/

namespace PGMax

variable {α : Type _}

/-- `idx` lists the factors that have a variable within `n` steps of `r`, and `vars` are all variables within `n + 1` steps, which are those of these factors, and `r`. -/
structure IsBall (scopes : List (List Var)) (r : Var) (n : Nat) (idx : List Nat) (vars : Finset Var) : Prop where
  nodup : idx.Nodup
  facs : ∀ f, f ∈ idx ↔ ∃ vs, scopes[f]? = some vs ∧ ∃ u ∈ vs, Within scopes n r u
  vars : ∀ u, u ∈ vars ↔ Within scopes (n + 1) r u

/-- The factors in a list of indices. -/
def subgraph (factors : List (SFac α)) (idx : List Nat) : List (SFac α) := idx.map (fun f => factors.getD f ⟨[], []⟩)

end PGMax
