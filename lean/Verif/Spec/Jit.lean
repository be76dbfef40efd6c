import Verif.Spec.Beliefs
import Verif.Model.Jit

/-! Specification for C115: dictionaries that pass through `jax.jit`. -/

namespace PGMax

variable {κ α : Type _}

/-- The hash of a key of a dictionary of evidence. -/
def EvidenceUpdate.keyHash (hashTuple : Var → Int) : EvidenceUpdate κ α → Int
  | .group g _ => g.hash
  | .var v _ => hashTuple v

/-- Python can sort the names: it can compare any two of them. -/
def Sortable (ltName : PyLt κ) (names : List κ) : Prop := ∀ a ∈ names, ∀ b ∈ names, ltName a b ≠ none

/-- The data for a dictionary of variables are a dictionary (a name occurs once) whose names Python can sort. -/
def EvidenceUpdate.Sorts (ltName : PyLt κ) : EvidenceUpdate κ α → Prop
  | .group _ (.dict d) => (d.map (·.1)).Nodup ∧ Sortable ltName (d.map (·.1))
  | _ => True

/-- The beliefs `b` of the group `g` are `B`; in a dictionary in any order. -/
def VGroup.Holds [DecidableEq κ] (B : Var → Nat → α) : VGroup κ → GroupBeliefs κ α → Prop
  | .arr g, .arr a => (VGroup.arr g : VGroup κ).Reports B (.arr a)
  | .dict g, .dict d => (d.map (·.1)).Perm g.names ∧
      ∀ (k : Nat) name v, g.names[k]? = some name → g.variables[k]? = some v → d.lookup name = some ((List.range v.n).map (B v))
  | _, _ => False

/-- The values for the variable `v` in the flattened data `x` of a group. -/
def VGroup.part (g : VGroup κ) (x : List α) (v : Var) : List α :=
  slice x (g.numStates.take (g.variables.idxOf v)).sum ((g.numStates.take (g.variables.idxOf v)).sum + v.n)

end PGMax
