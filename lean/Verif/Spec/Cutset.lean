import Verif.Spec.Dominant

/-!
# Specification: the graph without some of its variables
-/

namespace PGMax

/-- The scopes without the variables in `D`. -/
def without (D : Finset Var) (scopes : List (List Var)) : List (List Var) := scopes.map (fun vs => vs.filter (fun v => v ∉ D))

end PGMax
