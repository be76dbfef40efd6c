import Verif.Model.Arr
import Mathlib.Order.WithBot

/-!
# Model of `pgmax/vgroup`
-/

namespace PGMax

/-- A variable handle: the tuple `(variable hash, number of states)` (vgroup.py:18-19).
Simplification: state counts are natural numbers (the code stores int64 and never validates them). -/
structure Var where
  hash : Nat
  n : Nat
  deriving DecidableEq, Repr

/-- `pgmax/vgroup/vgroup.py:12`: `MAX_SIZE = 1e9`. -/
def MAX_SIZE : Nat := 1000000000

/-- `pgmax/vgroup/vgroup.py:28-33`, `VarGroup.__post_init__`: the hash is computed once from the object id;
an assertion guards the int64 range. -/
def vgPostInit (objId : Nat) : Py Nat :=
  let thisId := objId % 2 ^ 32
  let hash := thisId * MAX_SIZE
  if hash < 2 ^ 63 then .ok hash else .error .assertionError

/-- The `num_states` constructor argument (varray.py:37-50, vdict.py:28-43): an integer, an integer array of
some shape, or anything else (for instance a float array).  `np.issubdtype(dtype, int)` holds only for the
platform's `int64`, so an array of another integer type, such as `int32`, is also `other`. -/
inductive NumStatesArg
  | scalar (n : Nat)
  | array (a : NDArr Nat)
  | other
  deriving DecidableEq, Repr

/-- `pgmax/vgroup/varray.py:15-26`, `NDVarArray` after construction.  `numStates` is the int array of shape
`shape`, stored as its row-major data. -/
structure NDVarArray where
  hash : Nat
  shape : List Nat
  numStates : List Nat
  deriving DecidableEq, Repr

/-- `pgmax/vgroup/varray.py:28-50`, `NDVarArray.__post_init__`.
Simplification: `np.prod` does not overflow.  For `shape = ()` the code's `np.prod(())` is the float `1.0`; the
hash of the single variable is then a float64, which is exact: a group hash is a multiple of `2^9` below `2^62`
and the index is 0. -/
def NDVarArray.create (objId : Nat) (shape : List Nat) (ns : NumStatesArg) : Py NDVarArray := do
  let hash ← vgPostInit objId
  if shape.prod > MAX_SIZE then throw .valueError
  match ns with
  | .scalar n => pure { hash := hash, shape := shape, numStates := List.replicate shape.prod n }
  | .array a =>
      if a.shape ≠ shape then throw .valueError
      else pure { hash := hash, shape := shape, numStates := a.data }
  | .other => throw .valueError

/-- `pgmax/vgroup/varray.py:78-86`, `NDVarArray.variable_hashes` (row-major data of the array of shape `shape`). -/
def NDVarArray.variableHashes (g : NDVarArray) : List Nat :=
  (List.range g.shape.prod).map (fun i => g.hash + i)

/-- `pgmax/vgroup/vgroup.py:69-81`, `VarGroup.variables`, for an array. -/
def NDVarArray.variables (g : NDVarArray) : List Var :=
  List.zipWith Var.mk g.variableHashes g.numStates

/-- One component of an index expression: an integer or a slice `start:stop:step`. Code: `pgmax/vgroup/varray.py:52-76`. -/
inductive Ix
  | int (i : Int)
  | slice (start stop step : Option Int)
  deriving DecidableEq, Repr

/-- Python's `slice.indices(n)` followed by `range`: the positions selected by a slice along an axis of length
`n` (`PySlice_AdjustIndices`).  A zero step raises ValueError. Code: `pgmax/vgroup/varray.py:72-73`. -/
def slicePositions (n : Nat) (start stop step : Option Int) : Py (List Nat) :=
  let st : Int := step.getD 1
  if st = 0 then .error .valueError
  else if 0 < st then
    let adj (x : Int) : Int := if x < 0 then max (x + n) 0 else min x n
    let a : Int := (start.map adj).getD 0
    let b : Int := (stop.map adj).getD n
    let cnt : Nat := if a < b then ((b - a - 1) / st + 1).toNat else 0
    .ok ((List.range cnt).map (fun (k : Nat) => (a + st * (k : Int)).toNat))
  else
    let adj (x : Int) : Int := if x < 0 then max (x + n) (-1) else min x (n - 1)
    let a : Int := (start.map adj).getD (n - 1)
    let b : Int := (stop.map adj).getD (-1)
    let cnt : Nat := if b < a then ((a - b - 1) / (-st) + 1).toNat else 0
    .ok ((List.range cnt).map (fun (k : Nat) => (a + st * (k : Int)).toNat))

/-- Positions selected along an axis of length `n` by one index component; an integer out of range raises
IndexError (NumPy; varray.py:58 relies on it). -/
def Ix.select (n : Nat) : Ix → Py (List Nat)
  | .int i =>
      if 0 ≤ i ∧ i < n then .ok [i.toNat]
      else if i < 0 ∧ 0 ≤ i + n then .ok [(i + n).toNat]
      else .error .indexError
  | .slice a b s => slicePositions n a b s

/-- NumPy basic indexing: the row-major positions of the selected elements, in result order.  Missing trailing
components are full slices; too many components raise IndexError. Code: `pgmax/vgroup/varray.py:72-73`. -/
def flatPositions : List Nat → List Ix → Py (List Nat)
  | shape, [] => .ok (List.range shape.prod)
  | [], _ :: _ => .error .indexError
  | d :: ds, ix :: ixs => do
      let sel ← ix.select d
      let rest ← flatPositions ds ixs
      pure (sel.flatMap (fun k => rest.map (fun r => k * ds.prod + r)))

/-- NumPy basic indexing: the shape of the result (integer components drop their axis). Code: `pgmax/vgroup/varray.py:69-76`. -/
def resultShape : List Nat → List Ix → Py (List Nat)
  | shape, [] => .ok shape
  | [], _ :: _ => .error .indexError
  | _ :: ds, .int _ :: ixs => resultShape ds ixs
  | d :: ds, .slice a b s :: ixs => do
      let sel ← slicePositions d a b s
      let rest ← resultShape ds ixs
      pure (sel.length :: rest)

/-- What `NDVarArray.__getitem__` can return: a list of variables (slices), one variable, or — when the first
component is an integer but the index does not single out one element — a pair of arrays. Code: `pgmax/vgroup/varray.py:52-76`. -/
inductive GetResult
  | vars (l : List Var)
  | one (v : Var)
  | arrays (shape : List Nat) (hashes : List Nat) (numStates : List Nat)
  deriving DecidableEq, Repr

/-- `pgmax/vgroup/varray.py:52-76`, `NDVarArray.__getitem__`.  A bare integer or slice is the one-component
index.  `val[0]` on an empty tuple raises IndexError. -/
def NDVarArray.getitem (g : NDVarArray) (val : List Ix) : Py GetResult := do
  match val with
  | [] => throw .indexError
  | .slice _ _ _ :: _ =>
      let pos ← flatPositions g.shape val
      let hs := pos.filterMap (fun p => g.variableHashes[p]?)
      let ns := pos.filterMap (fun p => g.numStates[p]?)
      pure (.vars (List.zipWith Var.mk hs ns))
  | .int _ :: _ =>
      let pos ← flatPositions g.shape val
      let hs := pos.filterMap (fun p => g.variableHashes[p]?)
      let ns := pos.filterMap (fun p => g.numStates[p]?)
      let rsh ← resultShape g.shape val
      match rsh, hs, ns with
      | [], [h], [n] => pure (.one ⟨h, n⟩)
      | _, _, _ => pure (.arrays rsh hs ns)

/-- `ndarray.max()` of an int array: raises ValueError on an empty array. Code: `pgmax/vgroup/varray.py:105`, `141`, `pgmax/factor/logical.py:59`. -/
def npMax : List Nat → Py Nat
  | [] => .error .valueError
  | n :: ns => .ok (ns.foldl max n)

/-- Row-major positions selected by the boolean mask `np.arange(m) < num_states[..., None]`
(varray.py:107, 143). -/
def maskPositions (ns : List Nat) (m : Nat) : List Nat :=
  (List.range ns.length).flatMap
    (fun k => ((List.range m).filter (fun s => s < ns.getD k 0)).map (fun s => k * m + s))

/-- `pgmax/vgroup/varray.py:88-113`, `NDVarArray.flatten`. -/
def NDVarArray.flatten {α : Type _} (g : NDVarArray) (data : NDArr α) : Py (List α) := do
  if data.shape = g.shape then pure data.data
  else
    let m ← npMax g.numStates
    if data.shape = g.shape ++ [m] then
      pure ((maskPositions g.numStates m).filterMap (fun p => data.data[p]?))
    else throw .valueError

/-- `pgmax/vgroup/varray.py:115-152`, `NDVarArray.unflatten`.  `⊥` is `-jnp.inf`. -/
def NDVarArray.unflatten {α : Type _} (g : NDVarArray) (flat : NDArr α) : Py (NDArr (WithBot α)) := do
  if flat.shape.length ≠ 1 then throw .valueError
  if flat.data.length = g.shape.prod then
    pure { shape := g.shape, data := flat.data.map WithBot.some }
  else if flat.data.length = g.numStates.sum then
    let m ← npMax g.numStates
    let data : List (WithBot α) := List.replicate ((g.shape ++ [m]).prod) ⊥
    pure { shape := g.shape ++ [m],
           data := scatterSet data (maskPositions g.numStates m) (flat.data.map WithBot.some) }
  else throw .valueError

/-- `pgmax/vgroup/vdict.py:14-23`, `VarDict` after construction. -/
structure VarDict (κ : Type _) where
  hash : Nat
  names : List κ
  numStates : List Nat
  deriving DecidableEq, Repr

/-- `pgmax/vgroup/vdict.py:25-43`, `VarDict.__post_init__`. -/
def VarDict.create {κ : Type _} (objId : Nat) (names : List κ) (ns : NumStatesArg) : Py (VarDict κ) := do
  let hash ← vgPostInit objId
  match ns with
  | .scalar n => pure { hash := hash, names := names, numStates := List.replicate names.length n }
  | .array a =>
      if a.shape ≠ [names.length] then throw .valueError
      else pure { hash := hash, names := names, numStates := a.data }
  | .other => throw .valueError

/-- `pgmax/vgroup/vdict.py:45-53`, `VarDict.variable_hashes`. -/
def VarDict.variableHashes {κ : Type _} (g : VarDict κ) : List Nat :=
  (List.range g.names.length).map (fun i => g.hash + i)

/-- `pgmax/vgroup/vgroup.py:69-81`, `VarGroup.variables`, for a dictionary. -/
def VarDict.variables {κ : Type _} (g : VarDict κ) : List Var :=
  List.zipWith Var.mk g.variableHashes g.numStates

/-- `pgmax/vgroup/vdict.py:55-70`, `VarDict.__getitem__`. -/
def VarDict.getitem {κ : Type _} [DecidableEq κ] (g : VarDict κ) (name : κ) : Py Var :=
  if name ∈ g.names then
    let i := g.names.idxOf name
    match g.variableHashes[i]?, g.numStates[i]? with
    | some h, some n => .ok ⟨h, n⟩
    | _, _ => .error .indexError
  else .error .valueError

/-- `pgmax/vgroup/vdict.py:92-105`: the body of the validation loop of `VarDict.flatten`; both branches raise
ValueError. -/
def VarDict.flattenRejects {κ α : Type _} [DecidableEq κ] (g : VarDict κ) (name : κ) (arr : NDArr α) : Bool :=
  if name ∈ g.names then
    arr.shape != [g.numStates.getD (g.names.idxOf name) 0] && arr.shape != [1]
  else true

/-- Python `d[k]` on a mapping: KeyError when missing. Code: `pgmax/vgroup/vdict.py:100-108`. -/
def dictGet {κ β : Type _} [DecidableEq κ] (d : List (κ × β)) (k : κ) : Py β :=
  match d.lookup k with
  | some v => .ok v
  | none => .error .keyError

/-- `jnp.concatenate` of one-dimensional arrays: ValueError if there is none. Code: `pgmax/vgroup/vdict.py:107`. -/
def concatArrays {α : Type _} : List (List α) → Py (List α)
  | [] => .error .valueError
  | parts => .ok parts.flatten

/-- `pgmax/vgroup/vdict.py:72-110`, `VarDict.flatten`.  The mapping is an association list; `data[var_name]` on a
missing name raises KeyError. -/
def VarDict.flatten {κ α : Type _} [DecidableEq κ] (g : VarDict κ) (data : List (κ × NDArr α)) :
    Py (List α) := do
  if data.any (fun p => g.flattenRejects p.1 p.2) then throw .valueError
  let parts ← g.names.mapM (fun name => (dictGet data name).map (·.data))
  concatArrays parts

/-- Python `d[k] = v` on an insertion-ordered dictionary. Code: `pgmax/vgroup/vdict.py:150-161`. -/
def dictSet {κ β : Type _} [DecidableEq κ] : List (κ × β) → κ → β → List (κ × β)
  | [], k, v => [(k, v)]
  | (k', v') :: d, k, v => if k' = k then (k, v) :: d else (k', v') :: dictSet d k v

/-- `pgmax/vgroup/vdict.py:150-161`: the loop of `VarDict.unflatten`; `start` is the running offset. -/
def VarDict.unflattenLoop {κ α : Type _} [DecidableEq κ] (g : VarDict κ) (flat : List α) (useNumStates : Bool) :
    List κ → Nat → List (κ × List α) → List (κ × List α)
  | [], _, acc => acc
  | name :: rest, start, acc =>
      if useNumStates then
        let n := g.numStates.getD (g.names.idxOf name) 0
        g.unflattenLoop flat useNumStates rest (start + n) (dictSet acc name (PGMax.slice flat start (start + n)))
      else
        g.unflattenLoop flat useNumStates rest (start + 1)
          (dictSet acc name (PGMax.slice flat start (start + 1)))

/-- `pgmax/vgroup/vdict.py:112-162`, `VarDict.unflatten`. -/
def VarDict.unflatten {κ α : Type _} [DecidableEq κ] (g : VarDict κ) (flat : NDArr α) :
    Py (List (κ × List α)) := do
  if flat.shape.length ≠ 1 then throw .valueError
  if flat.data.length = g.names.length then
    pure (g.unflattenLoop flat.data false g.names 0 [])
  else if flat.data.length = g.numStates.sum then
    pure (g.unflattenLoop flat.data true g.names 0 [])
  else throw .valueError

/-- A variable group: array or dictionary (`pgmax/vgroup/__init__.py`). -/
inductive VGroup (κ : Type _)
  | arr (a : NDVarArray)
  | dict (d : VarDict κ)
  deriving DecidableEq

namespace VGroup
variable {κ : Type _}

/-- `pgmax/vgroup/vgroup.py:35-36`, `VarGroup.__hash__`. -/
def hash : VGroup κ → Nat
  | .arr a => a.hash
  | .dict d => d.hash

/-- `pgmax/vgroup/vgroup.py:38-39`, `VarGroup.__eq__`: two groups are equal iff their hashes are. -/
def pyEq (g h : VGroup κ) : Bool := g.hash == h.hash

/-- `pgmax/vgroup/vgroup.py:41-42`, `VarGroup.__lt__`. -/
def pyLt (g h : VGroup κ) : Bool := decide (g.hash < h.hash)

/-- `group.num_states.flatten()`. Code: `pgmax/vgroup/vgroup.py:80`, `pgmax/fgraph/fgraph.py:98`. -/
def numStates : VGroup κ → List Nat
  | .arr a => a.numStates
  | .dict d => d.numStates

end VGroup

/-- `pgmax/vgroup/vgroup.py:69-81`, `VarGroup.variables`. -/
def VGroup.variables {κ : Type _} : VGroup κ → List Var
  | .arr a => a.variables
  | .dict d => d.variables

end PGMax
