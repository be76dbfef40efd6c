import Verif.Spec.Textbook

/-!
# Specification: models that favour higher states more
-/

namespace PGMax

variable {α : Type _}

/-- The scores `y` of the states `0 .. n - 1` favour higher states more than `x` does. -/
def Rises [Sub α] [LE α] (n : Nat) (x y : Nat → α) : Prop := ∀ s s', s ≤ s' → s' < n → y s - x s ≤ y s' - x s'

/-- The factor `F'` favours higher states of its variables more than `F` does, and higher states of one variable with higher states of the others: for a configuration of each factor, the configuration
of the larger states in `F'` and that of the smaller states in `F` have at least the same log potentials in total. `F.Rises F` holds for the tables that are called attractive (or supermodular). -/
def SFac.Rises [Add α] [LE α] (F F' : SFac α) : Prop :=
  F'.scope = F.scope ∧ ∀ r ∈ F.rows, ∀ r' ∈ F'.rows, ∃ p ∈ F'.rows, ∃ q ∈ F.rows,
    p.1 = List.zipWith max r.1 r'.1 ∧ q.1 = List.zipWith min r.1 r'.1 ∧ r.2 + r'.2 ≤ p.2 + q.2

/-- Normalisation leaves the differences between the entries of the factor's messages, or there are at most two entries. -/
def SFac.Gentle [Field α] [LE α] (F : SFac α) : Prop := (∀ v ∈ F.scope, v.n ≤ 2) ∨ (F.Complete ∧ F.Within 1000)

/-- Every message of `m'` favours higher states more than that of `m` does. -/
def RisingMsgs [Sub α] [LE α] (scopes : List (List Var)) (m m' : Msgs α) : Prop := ∀ f i v, IsEdge scopes f i v → Rises v.n (m f i) (m' f i)

/-- Of the factors at the same place, the second favours higher states more. -/
def RisingFactors [Add α] [LE α] (factors factors' : List (SFac α)) : Prop := List.Forall₂ SFac.Rises factors factors'

/-- The messages that favour state 0 most, among those with values from -1000 to 0. -/
def IsLowest [Field α] (scopes : List (List Var)) (m : Msgs α) : Prop := ∀ f i v s, IsEdge scopes f i v → s < v.n → m f i s = if s = 0 then 0 else -1000

/-- The messages that favour the last state most, among those with values from -1000 to 0. -/
def IsHighest [Field α] (scopes : List (List Var)) (m : Msgs α) : Prop := ∀ f i v s, IsEdge scopes f i v → s < v.n → m f i s = if s + 1 = v.n then 0 else -1000

end PGMax
