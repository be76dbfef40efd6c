import Verif.Spec.Tree
import Verif.Spec.Textbook

/-!
# Specification: the same model with terms of single variables in the evidence instead of the factors
-/

namespace PGMax

variable {α : Type _}

/-- The total of the terms `g` (position, state) of the states of a configuration. -/
def termsOf [AddCommMonoid α] (n : Nat) (g : Nat → Nat → α) (c : List Nat) : α := ∑ j ∈ Finset.range n, g j (c.getD j 0)

/-- The factors `factors'` with the evidence `ev'` of the variables `vars` are `factors` with `ev`, except that the terms `g f i s` (factor, position in its scope, state) are moved from the factors to the evidence. -/
structure Moved [Ring α] (g : Msgs α) (vars : Finset Var) (factors factors' : List (SFac α)) (ev ev' : Var → Nat → α) : Prop where
  length : factors'.length = factors.length
  factor : ∀ (f : Nat) F F', factors[f]? = some F → factors'[f]? = some F' →
    F'.scope = F.scope ∧ F'.rows = F.rows.map (fun r => (r.1, r.2 - termsOf F.scope.length (g f) r.1))
  evidence : ∀ v ∈ vars, ∀ s < v.n, ev' v s = ev v s + ((edgesOf (factors.map (·.scope)) v).map (fun e => g e.1 e.2 s)).sum

/-- Messages that differ by the terms `g`, up to a constant for each message. -/
def MovedMsgs [Ring α] (scopes : List (List Var)) (g m m' : Msgs α) : Prop :=
  ∃ c : Nat → Nat → α, ∀ f i v s, IsEdge scopes f i v → s < v.n → m' f i s = m f i s - g f i s + c f i

/-- The terms of factor `f` do not depend on the states, or its table is complete and the log potentials are in a range of 1000, before and after the move. -/
def MovesFreely [Field α] [LE α] (g : Msgs α) (f : Nat) (F F' : SFac α) : Prop :=
  (∀ i v, F.scope[i]? = some v → ∀ s < v.n, ∀ t < v.n, g f i s = g f i t) ∨ (F.Complete ∧ F.rows ≠ [] ∧ F.Within 1000 ∧ F'.Within 1000)

/-- The log potentials of the factor are a constant plus the terms `g` (position, state) of single variables. -/
def SFac.Separable [Ring α] (F : SFac α) (g : Nat → Nat → α) : Prop := ∃ k, ∀ r ∈ F.rows, r.2 = k + termsOf F.scope.length g r.1

end PGMax
