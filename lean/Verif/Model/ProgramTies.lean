import Verif.Model.ExamplesRun

/-!
# Model of the program in `tests/fgraph/test_fgraph.py:188-228` that ties variables of a dictionary to variables of an array

The names (there `"a"`, `"b"`, `"c"`), the numbers of states (there 2, 3, 4), the random evidence and the number of iterations (there 50) are parameters here.
-/

namespace PGMax

variable {κ α : Type _}

/-- What `ties` makes. Code: `tests/fgraph/test_fgraph.py:189-202`. -/
structure Ties (κ α : Type _) where
  vdict : VarDict κ
  varray : NDVarArray
  fg : FactorGraph κ α

/-- `tests/fgraph/test_fgraph.py:195-202`: one round of the loop.  For `num_state = 0` the array of the configurations is `np.array([])`, which is rejected. -/
def addTie [Zero α] [DecidableEq κ] (idF : Nat → Nat) (vdict : VarDict κ) (varray : NDVarArray) (fg : FactorGraph κ α) (q : (κ × Nat) × Nat) : Py (FactorGraph κ α) := do
  let v ← vdict.getitem q.1.1
  let w ← varray.at [(q.2 : Int)]
  if q.1.2 = 0 then throw .valueError
  addEnumFactor idF fg q.2 [v, w] ⟨[q.1.2, 2], (List.range q.1.2).flatMap (fun (idx : Nat) => [(idx : Int), (idx : Int)])⟩ ⟨[q.1.2], List.replicate q.1.2 0⟩

/-- `tests/fgraph/test_fgraph.py:189-202`: the variables and the graph. -/
def ties [Zero α] [DecidableEq κ] (idD idA : Nat) (idF : Nat → Nat) (names : List κ) (ns : List Nat) : Py (Ties κ α) := do
  let vdict ← VarDict.create idD names (.array ⟨[ns.length], ns⟩)
  let varray ← NDVarArray.create idA [ns.length] (.array ⟨[ns.length], ns⟩)
  let fg ← (names.zip ns).zipIdx.foldlM (addTie idF vdict varray) (FactorGraph.create [.dict vdict, .arr varray])
  pure ⟨vdict, varray, fg⟩

/-- `map_states[vdict]` for a dictionary of variables. Code: `tests/fgraph/test_fgraph.py:223`. -/
def dictStates [DecidableEq κ] (rs : List (VGroup κ × GroupStates κ)) (v : VarDict κ) : Py (List (κ × NDArr Nat)) :=
  match rs.find? (fun p => decide (p.1 = .dict v)) with
  | some (_, .dict d) => .ok d
  | _ => .error .keyError

/-- `map_states[varray]` for an array of variables. Code: `tests/fgraph/test_fgraph.py:224`. -/
def arrStates [DecidableEq κ] (rs : List (VGroup κ × GroupStates κ)) (v : NDVarArray) : Py (NDArr Nat) :=
  match rs.find? (fun p => decide (p.1 = .arr v)) with
  | some (_, .arr a) => .ok a
  | _ => .error .keyError

/-- `tests/fgraph/test_fgraph.py:227-228`: one round of the loop; the state in the dictionary is a 0-dimensional array. -/
def checkTie [DecidableEq κ] (d : List (κ × NDArr Nat)) (a : NDArr Nat) (q : κ × Nat) : Py Unit := do
  let x ← dictGet d q.1
  let y ← match a.data[q.2]? with
    | some y => .ok y
    | none => .error .indexError
  if x.data ≠ [y] then throw .assertionError

/-- `tests/fgraph/test_fgraph.py:188-228`, the program.  `x i s` and `y i s` are the random numbers for state `s` of the `i`-th variable of the dictionary and of the array.  `np.max` of
an empty array raises ValueError.  The damping is the default of `run_bp`, 0.5. -/
def tiesTest [Field α] [LinearOrder α] [DecidableEq κ] (env : Env α) (idD idA : Nat) (idF : Nat → Nat) (garbage : Garbage) (stateId : Nat) (names : List κ) (ns : List Nat)
    (x y : Nat → Nat → α) (numIters : Nat) : Py Unit := do
  let t ← ties (α := α) idD idA idF names ns
  let st ← t.fg.fgState garbage
  let state ← bpStateOf stateId st
  let bp ← BP.create st state 0
  let arrs ← bp.update none none none (some (t.vdict.variables.zipIdx.map (fun p => .var p.1 ⟨[p.1.n], (List.range p.1.n).map (x p.2)⟩)))
  let m ← npMax ns
  let arrs ← bp.update (some arrs) none none (some [.group (.arr t.varray) (.arr ⟨[ns.length, m], (List.range ns.length).flatMap (fun i => (List.range m).map (y i))⟩)])
  if arrs.evidence.any (fun e => decide (e = 0)) then throw .assertionError
  let bs ← bp.getBeliefs (bp.runBP env arrs numIters (1 / 2))
  let rs ← decodeMapStates bs
  let d ← dictStates rs t.vdict
  let a ← arrStates rs t.varray
  names.zipIdx.forM (checkTie d a)

end PGMax
