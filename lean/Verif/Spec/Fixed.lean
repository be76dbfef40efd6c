import Verif.Spec.Dominant
import Mathlib.Data.Finset.Card

/-!
# Specification: parts of a graph with at most one loop
-/

namespace PGMax

/-- The variables in `S` and their factors have at most one loop in each connected component: any edges (factor, position, variable) between them touch
at least as many factors and variables as there are edges. -/
def FewLoops (scopes : List (List Var)) (S : Var → Prop) : Prop :=
  ∀ E : Finset (Nat × Nat × Var), (∀ e ∈ E, IsEdge scopes e.1 e.2.1 e.2.2 ∧ S e.2.2) → E.card ≤ (E.image (fun e => e.1)).card + (E.image (fun e => e.2.2)).card

end PGMax
