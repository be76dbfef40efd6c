import Verif.Model.Jit

/-!
# Model of the classes that JAX takes apart: `BPArrays` and the wirings

`BPArrays`, `Wiring`, `EnumWiring` and `LogicalWiring` are registered as pytrees.  JAX takes an object apart with `tree_flatten`, which uses `jax.tree_util.tree_flatten` on the dictionary of the fields and so
sorts the names of the fields, and builds an object from new parts with `tree_unflatten`, which calls the class and so runs `__post_init__` again.

Simplifications: what JAX remembers of the dictionary (`treedef`) is the list of sorted names.  A call with a missing argument raises TypeError in Python, KeyError here; a part of another kind than the field (an array
with another number of axes) is used until something fails in Python, and is an AttributeError here.
-/

namespace PGMax

variable {α β γ : Type _}

/-- `jax.tree_util.tree_flatten(dictionary)`: the values and the names, in the order of the names. Code: `pgmax/infer/bp_state.py:35`, `pgmax/factor/factor.py:33`. -/
def dictFlatten (d : List (String × β)) : Py (List β × List String) := do
  let s ← pySort (fun p q => some (decide (p.1 < q.1))) d
  pure (s.map Prod.snd, s.map Prod.fst)

/-- `aux_data.unflatten(children)`. Code: `pgmax/infer/bp_state.py:39`, `pgmax/factor/factor.py:37`. -/
def dictUnflatten (names : List String) (children : List β) : Py (List (String × β)) :=
  if children.length ≠ names.length then .error .valueError else .ok (names.zip children)

/-- The value that `cls(**d)` gives to a field. Code: `pgmax/infer/bp_state.py:39`, `pgmax/factor/factor.py:37`. -/
def fieldOf (d : List (String × β)) (name : String) : Py β :=
  match d.lookup name with
  | some x => .ok x
  | none => .error .keyError

/-! ### `BPArrays` -/

/-- `pgmax/infer/bp_state.py:34-35`, `BPArrays.tree_flatten`. -/
def BPArrays.treeFlatten (a : BPArrays α) : Py (List (List α) × List String) :=
  dictFlatten [("log_potentials", a.logPotentials), ("ftov_msgs", a.ftovMsgs), ("evidence", a.evidence)]

/-- `pgmax/infer/bp_state.py:37-39`, `BPArrays.tree_unflatten`.  `__post_init__` only makes arrays read-only. -/
def BPArrays.treeUnflatten (aux : List String) (children : List (List α)) : Py (BPArrays α) := do
  let d ← dictUnflatten aux children
  let lp ← fieldOf d "log_potentials"
  let ft ← fieldOf d "ftov_msgs"
  let ev ← fieldOf d "evidence"
  pure ⟨lp, ft, ev⟩

/-- `jax.tree_util.tree_map(f, a)`; `jax.device_put(a)` is the case in which `f` does not change values. Code: `pgmax/infer/bp_state.py:34-39`. -/
def BPArrays.treeMap (f : List α → List β) (a : BPArrays α) : Py (BPArrays β) := do
  let p ← a.treeFlatten
  BPArrays.treeUnflatten p.2 (p.1.map f)

/-- `jax.vmap(f, in_axes=0, out_axes=0)(b)` for a function of `BPArrays`: the parts of `b` are batches, which must have the same size; `f` is called with the object built from the `i`-th slices of all parts, and the parts
of the results are stacked. Code: `examples/rbm.py:192-197`. -/
def vmapArrays (f : BPArrays α → Py (BPArrays α)) (b : BPArrays (List α)) : Py (BPArrays (List α)) := do
  let p ← b.treeFlatten
  let n := (p.1.headD []).length
  if p.1.any (fun leaf => decide (leaf.length ≠ n)) then throw .valueError
  let results ← (List.range n).mapM (fun i => do
    let a ← BPArrays.treeUnflatten p.2 (p.1.map (fun leaf => leaf.getD i []))
    let r ← f a
    r.treeFlatten)
  BPArrays.treeUnflatten p.2 ((List.range p.1.length).map (fun j => results.map (fun r => r.1.getD j [])))

/-! ### Wirings -/

/-- A part of a wiring: an array of numbers, an array of pairs of numbers, or a number. Code: `pgmax/factor/enum.py:33`, `pgmax/factor/logical.py:43-45`. -/
inductive WPart
  | nums (xs : List Nat)
  | pairs (xs : List (Nat × Nat))
  | int (i : Int)
  deriving DecidableEq, Repr

/-- The part, if it is an array of numbers (`pgmax/factor/factor.py:35-37`). -/
def WPart.asNums : WPart → Py (List Nat)
  | .nums xs => .ok xs
  | _ => .error .attributeError

/-- The part, if it is an array of pairs (`pgmax/factor/factor.py:35-37`). -/
def WPart.asPairs : WPart → Py (List (Nat × Nat))
  | .pairs xs => .ok xs
  | _ => .error .attributeError

/-- The part, if it is a number (`pgmax/factor/factor.py:35-37`). -/
def WPart.asInt : WPart → Py Int
  | .int i => .ok i
  | _ => .error .attributeError

/-- `pgmax/factor/factor.py:32-33`, `tree_flatten` of an `EnumWiring`. -/
def EnumWiring.treeFlatten (w : EnumWiring) : Py (List WPart × List String) :=
  dictFlatten [("edges_num_states", .nums w.edgesNumStates), ("var_states_for_edges", .nums w.varStatesForEdges), ("factor_configs_edge_states", .pairs w.factorConfigsEdgeStates)]

/-- `pgmax/factor/factor.py:35-37`, `tree_unflatten` of an `EnumWiring`; `num_val_configs` is computed again (`pgmax/factor/enum.py:38-42`). -/
def EnumWiring.treeUnflatten (aux : List String) (children : List WPart) : Py EnumWiring := do
  let d ← dictUnflatten aux children
  let ens ← (← fieldOf d "edges_num_states").asNums
  let vs ← (← fieldOf d "var_states_for_edges").asNums
  let fc ← (← fieldOf d "factor_configs_edge_states").asPairs
  pure ⟨ens, vs, fc⟩

/-- `jax.tree_util.tree_map(f, w)`. Code: `pgmax/factor/factor.py:32-37`. -/
def EnumWiring.treeMap (f : WPart → WPart) (w : EnumWiring) : Py EnumWiring := do
  let p ← w.treeFlatten
  EnumWiring.treeUnflatten p.2 (p.1.map f)

/-- `pgmax/factor/factor.py:32-33`, `tree_flatten` of a `LogicalWiring`. -/
def LogicalWiring.treeFlatten (w : LogicalWiring) : Py (List WPart × List String) :=
  dictFlatten [("edges_num_states", .nums w.edgesNumStates), ("var_states_for_edges", .nums w.varStatesForEdges), ("parents_edge_states", .pairs w.parentsEdgeStates),
    ("children_edge_states", .nums w.childrenEdgeStates), ("edge_states_offset", .int w.edgeStatesOffset)]

/-- `pgmax/factor/factor.py:35-37`, `tree_unflatten` of a `LogicalWiring`; `__post_init__` (`pgmax/factor/logical.py:47-67`) validates again. -/
def LogicalWiring.treeUnflatten (aux : List String) (children : List WPart) : Py LogicalWiring := do
  let d ← dictUnflatten aux children
  let ens ← (← fieldOf d "edges_num_states").asNums
  let vs ← (← fieldOf d "var_states_for_edges").asNums
  let ps ← (← fieldOf d "parents_edge_states").asPairs
  let cs ← (← fieldOf d "children_edge_states").asNums
  let off ← (← fieldOf d "edge_states_offset").asInt
  LogicalWiring.validate ⟨ens, vs, ps, cs, off⟩

/-- `jax.tree_util.tree_map(f, w)`. Code: `pgmax/factor/factor.py:32-37`. -/
def LogicalWiring.treeMap (f : WPart → WPart) (w : LogicalWiring) : Py LogicalWiring := do
  let p ← w.treeFlatten
  LogicalWiring.treeUnflatten p.2 (p.1.map f)

end PGMax
