import Mathlib.Algebra.BigOperators.Group.Finset.Basic
import Mathlib.Algebra.Order.Field.Basic
import Mathlib.Analysis.SpecialFunctions.Log.Basic

/-!
# Specification: belief propagation in restricted Boltzmann machines

The units have states 0 and 1, so that a message is one number, its log odds: the value for state 1 minus the value for state 0.
-/

namespace PGMax

/-- A restricted Boltzmann machine: numbers of hidden and visible units, biases and weights. -/
structure RbmNet (α : Type _) where
  nh : Nat
  nv : Nat
  bh : Nat → α
  bv : Nat → α
  w : Nat → Nat → α

/-- The messages between hidden units `i` and visible units `j`, as log odds. -/
structure RbmMsgs (α : Type _) where
  toV : Nat → Nat → α
  toH : Nat → Nat → α

variable {α : Type _} [Field α] [LinearOrder α]

/-- Max-product: the log odds that a unit with log odds `a` gives to a unit that is connected to it with weight `w`. -/
def maxBump (w a : α) : α := max 0 (w + a) - max 0 a

/-- The same for sum-product. -/
noncomputable def sumBump (w a : ℝ) : ℝ := Real.log ((1 + Real.exp (w + a)) / (1 + Real.exp a))

/-- The messages after `t` iterations with damping `d`, from messages that are zero.  `eh` and `ev` are the log odds in the evidence; the biases come in with damping, too. -/
def rbmMsgs (g : α → α → α) (N : RbmNet α) (eh ev : Nat → α) (d : α) : Nat → RbmMsgs α
  | 0 => ⟨fun _ _ => 0, fun _ _ => 0⟩
  | t + 1 =>
    let m := rbmMsgs g N eh ev d t
    ⟨fun i j => d * m.toV i j + (1 - d) * g (N.w i j) (eh i + (1 - d ^ t) * N.bh i + ∑ l ∈ (Finset.range N.nv).erase j, m.toH i l),
     fun i j => d * m.toH i j + (1 - d) * g (N.w i j) (ev j + (1 - d ^ t) * N.bv j + ∑ l ∈ (Finset.range N.nh).erase i, m.toV l j)⟩

/-- The log odds of hidden unit `i` after `t` iterations. -/
def hiddenOdds (g : α → α → α) (N : RbmNet α) (eh ev : Nat → α) (d : α) (t i : Nat) : α :=
  eh i + (1 - d ^ t) * N.bh i + ∑ j ∈ Finset.range N.nv, (rbmMsgs g N eh ev d t).toH i j

/-- The log odds of visible unit `j` after `t` iterations. -/
def visibleOdds (g : α → α → α) (N : RbmNet α) (eh ev : Nat → α) (d : α) (t j : Nat) : α :=
  ev j + (1 - d ^ t) * N.bv j + ∑ i ∈ Finset.range N.nh, (rbmMsgs g N eh ev d t).toV i j

/-- The machine with the biases `bh` and `bv`, and the weights `W`, row by row. -/
def RbmNet.ofLists (bh bv W : List α) : RbmNet α where
  nh := bh.length
  nv := bv.length
  bh i := bh.getD i 0
  bv j := bv.getD j 0
  w i j := W.getD (i * bv.length + j) 0

/-- Biases of at most `B`, weights of at most `w`, and evidence of at most `e`, are so small that the constants of the code do no harm: nothing is clipped at `-1000`,
and `-1e5` acts as minus infinity. -/
structure RbmNet.Small (N : RbmNet α) (e : α) : Prop where
  bounds : ∃ B w, (∀ i < N.nh, |N.bh i| ≤ B) ∧ (∀ j < N.nv, |N.bv j| ≤ B) ∧ (∀ i < N.nh, ∀ j < N.nv, |N.w i j| ≤ w) ∧ B ≤ 1000 ∧ w ≤ 1000 ∧
    w + 2 * (e + B) + (N.nh + N.nv : α) * w ≤ 100000

/-- The log odds of the entries of an array with two entries for every unit. -/
def pairOdds (xs : List α) (i : Nat) : α := xs.getD (i * 2 + 1) 0 - xs.getD (i * 2) 0

/-- The more likely states of `n` units; 0 if the log odds are 0. -/
def likelyStates (odds : Nat → α) (n : Nat) : List Nat := (List.range n).map (fun i => if 0 < odds i then 1 else 0)

/-- The probability of state 1, given its log odds. -/
noncomputable def logistic (x : ℝ) : ℝ := 1 / (1 + Real.exp (-x))

/-- The marginals of `n` units that are on with the probabilities `p`. -/
def unitMarginals (p : Nat → ℝ) (n : Nat) : List (Option ℝ) := (List.range n).flatMap (fun i => [some (1 - p i), some (p i)])

end PGMax
