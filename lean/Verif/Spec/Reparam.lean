import Verif.Spec.Tree

/-!
# Specification: factors after their messages are subtracted and shares of the beliefs are added
-/

namespace PGMax

variable {α : Type _}

/-- The log potential of a configuration of factor `f` with variables `scope`, less the messages that the factor sends to the states of the configuration, plus the shares `w f i` of
the beliefs `B` of these states. -/
def reweighted [Ring α] (m : Msgs α) (B : Var → Nat → α) (w : Nat → Nat → α) (f : Nat) (scope : List Var) (row : List Nat × α) : α :=
  row.2 + ∑ i ∈ Finset.range scope.length, (w f i * B (scope.getD i ⟨0, 0⟩) (row.1.getD i 0) - m f i (row.1.getD i 0))

/-- The share of the belief of `v` that no factor takes. -/
def shareLeft [Ring α] (scopes : List (List Var)) (w : Nat → Nat → α) (v : Var) : α := 1 - ((edgesOf scopes v).map (fun e => w e.1 e.2)).sum

end PGMax
