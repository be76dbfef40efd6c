import Verif.Model.VGroup

/-! Independent specifications for the properties of variable groups. -/

namespace PGMax

/-- `g` is a variable group constructed by an object with `id(self) = objId` (either class, any arguments whose arrays
are genuine NumPy arrays), holding at most `10^9` variables.  The bound is checked by the code for arrays only. -/
inductive VGroup.Built {κ : Type _} : Nat → VGroup κ → Prop
  | arr {objId shape ns a} (hns : ∀ x, ns = .array x → x.WF) (h : NDVarArray.create objId shape ns = .ok a) :
      VGroup.Built objId (.arr a)
  | dict {objId names ns d} (hns : ∀ x, ns = .array x → x.WF) (hlen : names.length ≤ 1000000000)
      (h : VarDict.create objId names ns = .ok d) : VGroup.Built objId (.dict d)

/-- Row-major position of a multi-index. -/
def rowMajor : List Nat → List Nat → Nat
  | _ :: ds, i :: is => i * ds.prod + rowMajor ds is
  | _, _ => 0

/-- All multi-indices of an array of the given shape, in lexicographic order. -/
def allIndices : List Nat → List (List Nat)
  | [] => [[]]
  | d :: ds => (List.range d).flatMap (fun i => (allIndices ds).map (fun is => i :: is))

/-- A Python index `i` denotes coordinate `c` of an axis of length `d`: `c` itself, or counted from the end. -/
def Denotes (d : Nat) (i : Int) (c : Nat) : Prop := c < d ∧ (i = c ∨ i = (c : Int) - d)

/-- A slice bound, as Python's language reference describes it: negative bounds count from the end, bounds beyond the
ends are cut off. -/
def boundOf (d : Nat) (dflt : Nat) : Option Int → Nat
  | none => dflt
  | some x => if x < 0 then (x + d).toNat else min x.toNat d

/-- Coordinate `c` of an axis of length `d` is selected by one component of an index (slices with positive steps). -/
def Selected (d : Nat) (c : Nat) : Ix → Bool
  | .int i => decide (i = (c : Int)) || decide (i = (c : Int) - d)
  | .slice a b s =>
      let lo := boundOf d 0 a
      let hi := boundOf d d b
      decide (lo ≤ c) && decide (c < hi) && decide ((c - lo) % (s.getD 1).toNat = 0)

/-- A multi-index is selected by an index expression; missing trailing components select everything. -/
def SelectedAll : List Nat → List Nat → List Ix → Bool
  | d :: ds, c :: cs, ix :: ixs => Selected d c ix && SelectedAll ds cs ixs
  | _, _, _ => true

/-- An index component is acceptable on an axis of length `d`: integers in range, slices with positive step. -/
def IxOk (d : Nat) : Ix → Prop
  | .int i => -(d : Int) ≤ i ∧ i < d
  | .slice _ _ s => 0 < s.getD 1

/-- Every component is acceptable, and there are at most as many components as axes. -/
def IxsOk : List Nat → List Ix → Prop
  | _, [] => True
  | [], _ :: _ => False
  | d :: ds, ix :: ixs => IxOk d ix ∧ IxsOk ds ixs

end PGMax
