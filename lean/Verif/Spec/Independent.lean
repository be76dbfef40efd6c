import Verif.Spec.Moved
import Verif.Spec.Textbook

/-!
# Specification: models in which the variables are independent
-/

namespace PGMax

variable {α : Type _}

/-- Every factor has all configurations, and its log potential is a constant plus one term `g f i s` for every position `i` of its scope and the state `s` there; the terms of a position differ by at most 1000. -/
def Independent [Ring α] [LE α] (g : Msgs α) (factors : List (SFac α)) : Prop :=
  ∀ f F, factors[f]? = some F → F.Complete ∧ F.rows ≠ [] ∧ F.Separable (g f) ∧ ∀ i v, F.scope[i]? = some v → ∀ s < v.n, ∀ t < v.n, g f i s - g f i t ≤ 1000

/-- What speaks for state `s` of variable `v`: its evidence and the terms of all factors at `v`. -/
def localScore [AddCommMonoid α] (scopes : List (List Var)) (ev : Var → Nat → α) (g : Msgs α) (v : Var) (s : Nat) : α :=
  ev v s + ((edgesOf scopes v).map (fun e => g e.1 e.2 s)).sum

end PGMax
