import Verif.Model.ProgramGates
import Verif.Spec.Textbook
import Mathlib.Algebra.Order.Field.Basic

/-! # Specification: the inputs of the programs that test OR and AND factors -/

namespace PGMax

/-- The inputs with which the program is run: at least two factors, each of at least one parent and fewer than `K`; evidence of at most `E` for every state of
every variable, which leaves room below `1e5`; objects that exist at the same time have different `id()`s. -/
structure GateInputs {α : Type} [Field α] [LinearOrder α] (idP1 idC1 idP2 idC2 : Nat) (idF : Nat → Nat) (idG1 idG2 : Nat) (ps : List Nat) (evParents evChildren : List α) (E : α)
    (K : Nat) : Prop where
  arrays1 : idP1 % 2 ^ 32 ≠ idC1 % 2 ^ 32
  arrays2 : idP2 % 2 ^ 32 ≠ idC2 % 2 ^ 32
  ids : ∀ k < ps.length, ∀ l < ps.length, idF k = idF l → k = l
  groups : ∀ k < ps.length, idF k ≠ idG1 ∧ idF k ≠ idG2
  factors : 2 ≤ ps.length
  parents : ∀ p ∈ ps, 1 ≤ p ∧ p < K
  few : ps.sum ≤ 100000
  lenParents : evParents.length = ps.sum * 2
  lenChildren : evChildren.length = ps.length * 2
  evidence : ∀ x ∈ evParents ++ evChildren, |x| ≤ E
  room : (K : α) * (E + 1000) ≤ 97000

/-- The evidence of the variables of gate `k`: its parents are consecutive in the array of parents, position `ps[k]` is its child. -/
def gateEvidence {α : Type} [Zero α] (ps : List Nat) (evParents evChildren : List α) (k j t : Nat) : α :=
  if j < ps.getD k 0 then evParents.getD (((ps.take k).sum + j) * 2 + t) 0 else evChildren.getD (k * 2 + t) 0

/-- The best total evidence `e` of the other variables of a gate of `p` parents, if its variable `i` is in state `s`: the child is the OR (or AND) of the parents. -/
def gateOut {α : Type} [Add α] [Zero α] [LinearOrder α] (isAnd : Bool) (p : Nat) (e : Nat → Nat → α) (i s : Nat) : WithBot α :=
  ((((bits p).map (fun q => q ++ [if isAnd then (if 0 ∈ q then 0 else 1) else (if 1 ∈ q then 1 else 0)])).filter (fun r => r[i]? = some s)).map
    (fun r => (((List.range (p + 1)).filter (fun j => j ≠ i)).map (fun j => e j (r.getD j 0))).sum)).maximum

end PGMax
