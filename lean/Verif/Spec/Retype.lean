import Verif.Spec.Iso
import Verif.Spec.Textbook

/-!
# Specification: two descriptions of the same model with factors of different types

Here a graph is only a list of factors (scope, configurations, log potentials), so that an OR factor is the same as an enumeration factor
that lists its configurations.
-/

namespace PGMax

variable {κ κ' α : Type _}

/-- The renaming `R` turns the factors `Fs` into the factors `Fs'`, with the constant `k f` added to all log potentials of factor `f`.
Factors correspond if their configurations do, whatever their types. -/
structure Renaming.Models [Add α] (R : Renaming) (Fs Fs' : List (SFac α)) (k : Nat → α) : Prop where
  /-- as many factors -/
  facs : ∀ f, f < Fs.length ↔ R.fac f < Fs'.length
  /-- factors have as many variables -/
  lengths : ∀ (f : Nat) (F F' : SFac α), Fs[f]? = some F → Fs'[R.fac f]? = some F' → F'.scope.length = F.scope.length
  /-- the renamed variables, at their new positions -/
  scopes : ∀ f i v, IsEdge (Fs.map (·.scope)) f i v → IsEdge (Fs'.map (·.scope)) (R.fac f) (R.pos f i) (R.var v)
  /-- the renamed configurations, in some order, with the log potentials plus `k f` -/
  rows : ∀ (f : Nat) (F F' : SFac α), Fs[f]? = some F → Fs'[R.fac f]? = some F' →
    ∃ l, l.Perm F'.rows ∧ List.Forall₂ (R.Row f F.scope) (F.shift (k f)).rows l

/-- Small numbers: evidence of at most `E`, log potentials of at most `P`, variables that occur at most `D` times in factors, factors
of at most `K` variables, and the sizes that this gives for configurations leave room below `1e5` (with damping 0: at least 1000). -/
structure SmallNumbers [Field α] [LinearOrder α] (Fs : List (SFac α)) (ev : Var → Nat → α) (d E P : α) (D K : Nat) : Prop where
  damping : 0 ≤ d ∧ d < 1
  nonneg : 0 ≤ E ∧ 0 ≤ P
  evidence : ∀ F ∈ Fs, ∀ v ∈ F.scope, ∀ s < v.n, |ev v s| ≤ E
  pots : ∀ F ∈ Fs, ∀ r ∈ F.rows, |r.2| ≤ P
  degree : ∀ v, (edgesOf (Fs.map (·.scope)) v).length ≤ D
  size : ∀ F ∈ Fs, F.scope.length ≤ K
  room : 1000 * (1 + d) ≤ (1 - d) * (100000 - (P + K * (E + 1000 * D)))

end PGMax
