import Verif.Spec.Tree

/-!
# Specification: states that the evidence and all factors agree on
-/

namespace PGMax

variable {α : Type _}

/-- In the factor `F`, the states `x` are a configuration, and none has a larger log potential. -/
def SFac.Favours [LE α] (F : SFac α) (x : Var → Nat) : Prop := ∃ w, (F.scope.map x, w) ∈ F.rows ∧ ∀ r ∈ F.rows, r.2 ≤ w

/-- No other state of `v` has more evidence than `x v`. -/
def FavoursState [LE α] (ev : Var → Nat → α) (x : Var → Nat) (v : Var) : Prop := x v < v.n ∧ ∀ s < v.n, ev v s ≤ ev v (x v)

/-- All other states of `v` have less evidence than `x v`. -/
def PrefersState [LT α] (ev : Var → Nat → α) (x : Var → Nat) (v : Var) : Prop := x v < v.n ∧ ∀ s < v.n, s ≠ x v → ev v s < ev v (x v)

end PGMax
