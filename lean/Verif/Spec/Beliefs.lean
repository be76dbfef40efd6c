import Verif.Spec.BP
import Verif.Model.BP
import Mathlib.Analysis.SpecialFunctions.Exp

/-!
# Specification of reported beliefs, decoded states and marginals

`B v s` is the belief of variable `v` in state `s`.  The `k`-th variable of an array of variables has row-major position `k`.
-/

namespace PGMax

variable {κ α : Type _}

/-- `m` is the largest number of states in the list `ns`. -/
def Widest (ns : List Nat) (m : Nat) : Prop := (∀ n ∈ ns, n ≤ m) ∧ (ns ≠ [] → m ∈ ns)

/-- The beliefs `b` reported for the group `g` are `B`: an array of the group's shape with a last axis for the states, filled up
with `-inf` (the last axis may be missing if it has length 1), or a dictionary with the group's names and one entry per state. -/
def VGroup.Reports (B : Var → Nat → α) : VGroup κ → GroupBeliefs κ α → Prop
  | .arr g, .arr a => ∃ m, Widest g.numStates m ∧ a.WF ∧ (a.shape = g.shape ++ [m] ∨ (a.shape = g.shape ∧ m = 1)) ∧
      ∀ (k : Nat) v s, g.variables[k]? = some v → s < m → a.data[k * m + s]? = some (if s < v.n then (WithBot.some (B v s)) else ⊥)
  | .dict g, .dict d => d.map (·.1) = g.names ∧
      ∀ (k : Nat) v, g.variables[k]? = some v → ∃ x : κ × List α, d[k]? = some x ∧ x.2 = (List.range v.n).map (B v)
  | _, _ => False

/-- The number of states of the group is only equal to its number of variables if all of them have one state (this holds for
groups without 0-state variables), and the names of a dictionary are different. -/
def VGroup.Regular : VGroup κ → Prop
  | .arr g => g.numStates.sum = g.numStates.length → ∀ n ∈ g.numStates, n = 1
  | .dict g => g.names.Nodup ∧ (g.numStates.sum = g.numStates.length → ∀ n ∈ g.numStates, n = 1)

/-- The group's variables have at least one state each; not all variables of an array have exactly one. -/
def VGroup.Stated : VGroup κ → Prop
  | .arr g => (∀ n ∈ g.numStates, 1 ≤ n) ∧ ∃ n ∈ g.numStates, n ≠ 1
  | .dict g => ∀ n ∈ g.numStates, 1 ≤ n

/-- `j` is the smallest of the states `0 .. n - 1` with the largest value of `f`. -/
def IsFirstMax [LinearOrder α] (f : Nat → α) (n j : Nat) : Prop := j < n ∧ (∀ s < n, f s ≤ f j) ∧ ∀ s < j, f s < f j

/-- The decoded states `r` of the group `g` are maximisers of `B`, one per variable, under the variable's index or name. -/
def VGroup.Decodes [LinearOrder α] (B : Var → Nat → α) : VGroup κ → GroupStates κ → Prop
  | .arr g, .arr a => a.shape = g.shape ∧ a.WF ∧
      ∀ (k : Nat) v, g.variables[k]? = some v → ∃ j, a.data[k]? = some j ∧ IsFirstMax (B v) v.n j
  | .dict g, .dict d => d.map (·.1) = g.names ∧
      ∀ (k : Nat) v, g.variables[k]? = some v → ∃ (x : κ × NDArr Nat) (j : Nat), d[k]? = some x ∧ x.2 = ⟨[], [j]⟩ ∧ IsFirstMax (B v) v.n j
  | _, _ => False

/-- The distribution on the states `0 .. n - 1` proportional to `exp f`. -/
noncomputable def gibbs (f : Nat → ℝ) (n s : Nat) : ℝ := Real.exp (f s) / ((List.range n).map (fun t => Real.exp (f t))).sum

/-- The marginals `r` of the group `g` are the distributions proportional to `exp B`, under the variable's index or name, with
probability 0 for padding. -/
def VGroup.HasMarginals (B : Var → Nat → ℝ) : VGroup κ → GroupMarginals κ ℝ → Prop
  | .arr g, .arr a => ∃ m, Widest g.numStates m ∧ a.WF ∧ a.shape = g.shape ++ [m] ∧
      ∀ (k : Nat) v s, g.variables[k]? = some v → s < m → a.data[k * m + s]? = some (some (if s < v.n then gibbs (B v) v.n s else 0))
  | .dict g, .dict d => d.map (·.1) = g.names ∧
      ∀ (k : Nat) v, g.variables[k]? = some v → ∃ x : κ × NDArr (Option ℝ), d[k]? = some x ∧ x.2.shape = [v.n] ∧
        x.2.data = (List.range v.n).map (fun s => some (gibbs (B v) v.n s))
  | _, _ => False

end PGMax
