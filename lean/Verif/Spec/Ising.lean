import Mathlib.Algebra.BigOperators.Group.Finset.Basic
import Mathlib.Algebra.Order.Field.Basic
import Mathlib.Algebra.Order.Group.Unbundled.Abs

/-!
# Specification: max-product on a torus of cells with two states

A message is one number, its log odds: the value for state 1 minus the value for state 0.  Every cell is coupled to the cell below it and to the cell to the right of it; the last row and
column are followed by the first.
-/

namespace PGMax

/-- The messages on a torus.  The factor between cell `(i, j)` and the cell below it sends `up i j` to the former and `down i j` to the latter; the factor between cell `(i, j)` and the cell to the
right of it sends `left i j` to the former and `right i j` to the latter. -/
structure TorusMsgs (α : Type _) where
  up : Nat → Nat → α
  down : Nat → Nat → α
  left : Nat → Nat → α
  right : Nat → Nat → α

variable {α : Type _} [Field α] [LinearOrder α]

/-- The log odds that the first cell of a factor gets, if the log odds of the second are `a`; `A s t` is the log potential of states `s` and `t`. -/
def oddsToFirst (A : Nat → Nat → α) (a : α) : α := max (A 1 0) (A 1 1 + a) - max (A 0 0) (A 0 1 + a)

/-- The log odds that the second cell of a factor gets, if the log odds of the first are `a`. -/
def oddsToSecond (A : Nat → Nat → α) (a : α) : α := max (A 0 1) (A 1 1 + a) - max (A 0 0) (A 1 0 + a)

/-- The log odds of a cell of an `m` by `n` torus, given those of the evidence and the messages. -/
def cellOdds (m n : Nat) (e : Nat → Nat → α) (M : TorusMsgs α) (i j : Nat) : α :=
  e i j + M.up i j + M.left i j + M.down ((i + (m - 1)) % m) j + M.right i ((j + (n - 1)) % n)

/-- The messages after `t` iterations with damping `d`, from messages that are zero. -/
def torusMsgs (m n : Nat) (A : Nat → Nat → α) (e : Nat → Nat → α) (d : α) : Nat → TorusMsgs α
  | 0 => ⟨fun _ _ => 0, fun _ _ => 0, fun _ _ => 0, fun _ _ => 0⟩
  | t + 1 =>
    let M := torusMsgs m n A e d t
    let o := cellOdds m n e M
    { up := fun i j => d * M.up i j + (1 - d) * oddsToFirst A (o ((i + 1) % m) j - M.down i j)
      down := fun i j => d * M.down i j + (1 - d) * oddsToSecond A (o i j - M.up i j)
      left := fun i j => d * M.left i j + (1 - d) * oddsToFirst A (o i ((j + 1) % n) - M.right i j)
      right := fun i j => d * M.right i j + (1 - d) * oddsToSecond A (o i j - M.left i j) }

/-- The log odds of the cells after `t` iterations. -/
def torusOdds (m n : Nat) (A : Nat → Nat → α) (e : Nat → Nat → α) (d : α) (t : Nat) : Nat → Nat → α := cellOdds m n e (torusMsgs m n A e d t)

/-- The log potentials of two spins -1 and 1 with coupling `J`. -/
def coupling (J : α) (s t : Nat) : α := if s = t then J else -J

/-- The image of the more likely states, row by row. -/
def likelyImage (m n : Nat) (o : Nat → Nat → α) : List Nat := (List.range (m * n)).map (fun c => if 0 < o (c / n) (c % n) then 1 else 0)

/-- The log odds of the entries of an `m` by `n` by 2 array. -/
def imageOdds (n : Nat) (E : List α) (i j : Nat) : α := E.getD ((i * n + j) * 2 + 1) 0 - E.getD ((i * n + j) * 2) 0

/-- The sizes of all messages together. -/
def totalOdds (m n : Nat) (M : TorusMsgs α) : α := ∑ i ∈ Finset.range m, ∑ j ∈ Finset.range n, (|M.up i j| + |M.down i j| + |M.left i j| + |M.right i j|)

/-- The colours of a checkerboard. -/
def checker {α : Type _} [Field α] (i j : Nat) : α := if (i + j) % 2 = 0 then 1 else -1

end PGMax
