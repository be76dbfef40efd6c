import Verif.Spec.Beliefs
import Verif.Spec.Separate

/-!
# Specification: pairs of variables that are tied to the same state
-/

namespace PGMax

variable {κ α : Type _}

/-- The belief of a variable with evidence `x` after `n` iterations with damping 1/2, if the only factor it is in ties it to a variable with evidence `y`. -/
def tiedBelief [Field α] [LinearOrder α] (n N : Nat) (x y : Nat → α) (s : Nat) : α := x s + fadedMsg (1 / 2) n N (fun t => WithBot.some (y t)) s

/-- Both variables of a tied pair are decoded to state `j`. -/
def TieDecodes [Field α] [LinearOrder α] (n N : Nat) (x y : Nat → α) (j : Nat) : Prop := IsFirstMax (tiedBelief n N x y) N j ∧ IsFirstMax (tiedBelief n N y x) N j

/-- Among the states with the largest total evidence, all have the same evidence for both variables as the first of them, `j`. -/
def TieClear [Add α] [LT α] (N : Nat) (x y : Nat → α) (j : Nat) : Prop := j < N ∧ ∀ s < N, s ≠ j → x s + y s < x j + y j ∨ j < s ∧ x s = x j ∧ y s = y j

/-- Inputs of the program: different names, two objects that are different for the code, different ids of the groups, as many numbers of states as names, all of them positive and not all 1, and
evidence of at most 49000. -/
structure TieInputs [Field α] [LinearOrder α] (idD idA : Nat) (idF : Nat → Nat) (names : List κ) (ns : List Nat) (x y : Nat → Nat → α) : Prop where
  groups : idD % 2 ^ 32 ≠ idA % 2 ^ 32
  ids : ∀ i < ns.length, ∀ j < ns.length, idF i = idF j → i = j
  nodup : names.Nodup
  lengths : names.length = ns.length
  few : ns.length ≤ 1000000000
  pos : ∀ n ∈ ns, 1 ≤ n
  more : ∃ n ∈ ns, n ≠ 1
  evidence : ∀ i s, |x i s| ≤ 49000 ∧ |y i s| ≤ 49000

end PGMax
