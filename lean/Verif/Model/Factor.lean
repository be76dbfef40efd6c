import Verif.Model.VGroup

/-!
# Model of `pgmax/factor`: factors and wirings (the message updates are in `Messages.lean`)
-/

namespace PGMax

/-- The keys of `FAC_TO_VAR_UPDATES` (`pgmax/factor/__init__.py:13-21`): the three factor types. -/
inductive FType
  | enum | or | and
  deriving DecidableEq, Repr

/-- `pgmax/factor/__init__.py:13-21`: the iteration order of `FAC_TO_VAR_UPDATES`. -/
def FType.all : List FType := [.enum, .or, .and]

/-- A 2-D configuration table of shape `(rows.length, ncols)` with non-negative entries. Code: `pgmax/factor/enum.py:46-65`. -/
structure Configs where
  ncols : Nat
  rows : List (List Nat)
  deriving DecidableEq, Repr

/-- Every row of a 2-D array has the same length. Code: assumed of the arrays at `pgmax/factor/enum.py:46-65`. -/
def Configs.WF (c : Configs) : Prop := ∀ r ∈ c.rows, r.length = c.ncols

/-- The `vars_to_starts` dictionary: variable ↦ global start index. Code: `pgmax/fgraph/fgraph.py:95-107`. -/
abbrev StartMap := Var → Option Nat

/-- Python `d[k]`: KeyError when missing. Code: `pgmax/factor/enum.py:190`, `pgmax/factor/logical.py:170`. -/
def StartMap.get (d : StartMap) (v : Var) : Py Nat :=
  match d v with
  | some s => .ok s
  | none => .error .keyError

/-- `pgmax/factor/enum.py:45-65`, `EnumFactor` after construction. -/
structure EnumFactor (α : Type _) where
  vars : List Var
  configs : Configs
  logPotentials : List α

/-- `pgmax/factor/enum.py:67-101`, `EnumFactor.__post_init__`.  `cfgInt` / `lpFloat` say whether the dtypes of
`factor_configs` / `log_potentials` are integer / floating. -/
def EnumFactor.create {α : Type _} (vars : List Var) (cfg : NDArr Int) (cfgInt : Bool)
    (lp : NDArr α) (lpFloat : Bool) : Py (EnumFactor α) := do
  if !cfgInt then throw .valueError
  if !lpFloat then throw .valueError
  match cfg.shape with
  | [nr, nc] =>
      if vars.length ≠ nc then throw .valueError
      if lp.shape ≠ [nr] then throw .valueError
      let rws := rows cfg.data nr nc
      if rws.all (fun r => (r.zip vars).all (fun p => decide (0 ≤ p.1) && decide (p.1 < p.2.n))) then
        pure { vars := vars, configs := { ncols := nc, rows := rws.map (·.map Int.toNat) },
               logPotentials := lp.data }
      else throw .valueError
  | _ => throw .valueError

/-- `pgmax/factor/logical.py:70-95, 209-240`, `ORFactor` / `ANDFactor` after construction. -/
structure LogicalFactor where
  vars : List Var
  isAnd : Bool
  deriving DecidableEq, Repr

/-- `pgmax/factor/logical.py:88-95`, `LogicalFactor.__post_init__`. -/
def LogicalFactor.create (vars : List Var) (isAnd : Bool) : Py LogicalFactor := do
  if vars.length < 2 then throw .valueError
  if vars.all (fun v => v.n = 2) then pure { vars := vars, isAnd := isAnd }
  else throw .valueError

/-- `pgmax/factor/logical.py:223, 240` and `pgmax/fgroup/logical.py:59, 72`: `edge_states_offset`. -/
def edgeStatesOffset (isAnd : Bool) : Int := if isAnd then -1 else 1

/-! ### `_compile_var_states_numba` -/

/-- `pgmax/factor/factor.py:76-93`, `_compile_var_states_numba`: the loop over `variable_idx`, writing
`var_states[idx] + arange(end - start)` into the slice `start:end`.  `out` is the (uninitialised) array. -/
def compileVarStates (out : List Nat) (numStatesCumsum varStates : List Nat) : Py (List Nat) :=
  (List.range (numStatesCumsum.length - 1)).foldlM (init := out) (fun acc i =>
    let start := numStatesCumsum.getD i 0
    let stop := numStatesCumsum.getD (i + 1) 0
    sliceAssign acc start stop ((List.range (stop - start)).map (fun k => varStates.getD i 0 + k)))

/-! ### Enumeration wiring -/

/-- `pgmax/factor/enum.py:17-33` and `factor.py:12-25`, `EnumWiring`. -/
structure EnumWiring where
  edgesNumStates : List Nat
  varStatesForEdges : List Nat
  factorConfigsEdgeStates : List (Nat × Nat)
  deriving DecidableEq, Repr

/-- `pgmax/factor/enum.py:38-42`: `num_val_configs`, read off the last row. -/
def EnumWiring.numValConfigs (w : EnumWiring) : Nat :=
  match w.factorConfigsEdgeStates.getLast? with
  | none => 0
  | some p => p.1 + 1

/-- `pgmax/factor/enum.py:219-248`, `_compile_enumeration_wiring_numba`: the three nested loops, updating the
`(n, 2)` array in place.  `out` is the (uninitialised) array. -/
def compileEnumWiring (out : List (Nat × Nat)) (configs : Configs) (starts : List Nat) (numFactors : Nat) :
    List (Nat × Nat) :=
  let nc := configs.rows.length
  let nv := configs.ncols
  (List.range numFactors).foldl (init := out) (fun acc f =>
    (List.range nc).foldl (init := acc) (fun acc c =>
      let fc := nc * f + c
      let acc := (List.range nv).foldl (init := acc) (fun acc k =>
        acc.modify (nv * fc + k) (fun p => (fc, p.2)))
      (List.range nv).foldl (init := acc) (fun acc v =>
        acc.modify (nv * fc + v) (fun p =>
          (p.1, starts.getD (nv * f + v) 0 + (configs.rows.getD c []).getD v 0)))))

/-- `pgmax/factor/enum.py:187-191` (and `logical.py:167-171`): look up the start index of every variable of every
factor. -/
def lookupVarStates (varsForFactors : List (List Var)) (starts : StartMap) : Py (List Nat) :=
  varsForFactors.flatten.mapM starts.get

/-- Contents of uninitialised memory (`np.empty`): what is found at each address when the arrays of each factor group
(identified by its object id) are allocated. Code: `pgmax/factor/enum.py:194`, `204`, `pgmax/factor/logical.py:178`, `185-186`, `pgmax/fgroup/fgroup.py:104`. -/
def Garbage := Nat → Nat → Nat

instance (n : Nat) : OfNat Garbage n := ⟨fun _ _ => n⟩

/-- `np.empty(n)`: every `stride`-th word of the memory, from `off`.  (Different arrays take different words, so that their
contents are independent.) Code: `pgmax/factor/enum.py:194`, `204`, `pgmax/factor/logical.py:178`, `185-186`, `pgmax/fgroup/fgroup.py:104`. -/
def npEmpty (mem : Nat → Nat) (stride off n : Nat) : List Nat := (List.range n).map (fun i => mem (stride * i + off))

/-- `pgmax/factor/enum.py:156-216`, `EnumFactor.compile_wiring`.  The `np.empty` arrays hold the arbitrary contents of
`mem`. -/
def EnumFactor.compileWiring (mem : Nat → Nat) (factorEdgesNumStates : List Nat)
    (varsForFactors : List (List Var)) (configs : Configs) (starts : StartMap) (numFactors : Nat) :
    Py EnumWiring := do
  let varStates ← lookupVarStates varsForFactors starts
  let nsCumsum := cumsum0 factorEdgesNumStates
  let vsfe ← compileVarStates (npEmpty mem 3 0 (nsCumsum.getLastD 0)) nsCumsum varStates
  if factorEdgesNumStates.length ≠ numFactors * configs.ncols then throw .valueError
  let fces := compileEnumWiring
    ((npEmpty mem 3 1 (numFactors * configs.rows.length * configs.ncols)).zip
      (npEmpty mem 3 2 (numFactors * configs.rows.length * configs.ncols)))
    configs (cumsum0 factorEdgesNumStates) numFactors
  pure { edgesNumStates := factorEdgesNumStates, varStatesForEdges := vsfe, factorConfigsEdgeStates := fces }

/-- `pgmax/factor/enum.py:120-126`: `wiring.factor_configs_edge_states[-1, 0] + 1`; IndexError on a wiring without
entries. -/
def EnumWiring.countFromLast (w : EnumWiring) : Py Nat :=
  match w.factorConfigsEdgeStates.getLast? with
  | some p => .ok (p.1 + 1)
  | none => .error .indexError

/-- Adding offsets to the two columns of an index array (enum.py:138-143, logical.py:124-126). -/
def shiftPairs (l : List (Nat × Nat)) (a b : Nat) : List (Nat × Nat) := l.map (fun p => (p.1 + a, p.2 + b))

/-- `pgmax/factor/enum.py:103-154`, `EnumFactor.concatenate_wirings`. -/
def EnumFactor.concatenateWirings (ws : List EnumWiring) : Py EnumWiring := do
  match ws with
  | [] => pure { edgesNumStates := [], varStatesForEdges := [], factorConfigsEdgeStates := [] }
  | _ =>
    let counts ← ws.mapM EnumWiring.countFromLast
    let cfgCumsum := (cumsum0 counts).dropLast
    let nesCumsum := (cumsum0 (ws.map (fun w => w.edgesNumStates.sum))).dropLast
    pure {
      edgesNumStates := ws.flatMap (·.edgesNumStates)
      varStatesForEdges := ws.flatMap (·.varStatesForEdges)
      factorConfigsEdgeStates := ws.zipIdx.flatMap (fun (w, i) =>
        shiftPairs w.factorConfigsEdgeStates (cfgCumsum.getD i 0) (nesCumsum.getD i 0)) }

/-! ### Logical wiring -/

/-- `pgmax/factor/logical.py:18-45`, `LogicalWiring`. -/
structure LogicalWiring where
  edgesNumStates : List Nat
  varStatesForEdges : List Nat
  parentsEdgeStates : List (Nat × Nat)
  childrenEdgeStates : List Nat
  edgeStatesOffset : Int
  deriving DecidableEq, Repr

/-- `np.unique(xs).shape[0]`: the number of different values. Code: `pgmax/factor/logical.py:54`. -/
def numUnique (xs : List Nat) : Nat := xs.dedup.length

/-- `pgmax/factor/logical.py:47-67`, `LogicalWiring.__post_init__`: validation.  `.max()` of an empty index array is
not reached, since then the number of unique indices is 0. -/
def LogicalWiring.validate (w : LogicalWiring) : Py LogicalWiring := do
  if w.childrenEdgeStates.length > 0 then
    let idx := w.parentsEdgeStates.map (·.1)
    let n := w.childrenEdgeStates.length
    if numUnique idx ≠ n then throw .valueError
    if n ≤ idx.foldl max 0 then throw .valueError
    if w.edgeStatesOffset ≠ 1 ∧ w.edgeStatesOffset ≠ -1 then throw .valueError
    pure w
  else pure w

/-- `pgmax/factor/logical.py:243-271`, `_compile_logical_wiring_numba`: the loop over the factors.  The two columns
of `parents_edge_states` and `children_edge_states` are updated in place. -/
def compileLogicalWiring (col0 col1 children : List Nat) (numParents numParentsCumsum edgesCumsum : List Nat)
    (relevant : Nat) : Py (List Nat × List Nat × List Nat) :=
  (List.range numParents.length).foldlM (init := (col0, col1, children)) (fun acc f => do
    let start := numParentsCumsum.getD f 0
    let stop := numParentsCumsum.getD (f + 1) 0
    let c0 ← sliceAssign acc.1 start stop [f]
    let c1 ← sliceAssign acc.2.1 start stop
      (arange2 (edgesCumsum.getD f 0 + relevant) (edgesCumsum.getD f 0 + 2 * numParents.getD f 0))
    let ch := acc.2.2.set f (edgesCumsum.getD f 0 + 2 * numParents.getD f 0 + relevant)
    pure (c0, c1, ch))

/-- `pgmax/factor/logical.py:174`: `relevant_state = (-edge_states_offset + 1) // 2`. -/
def relevantState (offset : Int) : Nat := ((-offset + 1) / 2).toNat

/-- `pgmax/factor/logical.py:141-206`, `LogicalFactor.compile_wiring`.
Simplification: a factor without any variable (size 0, whose parent count would be -1) is rejected here; the code
would fail or produce unusable arrays. -/
def LogicalFactor.compileWiring (mem : Nat → Nat) (factorEdgesNumStates : List Nat)
    (varsForFactors : List (List Var)) (factorSizes : List Nat) (starts : StartMap) (offset : Int) :
    Py LogicalWiring := do
  let varStates ← lookupVarStates varsForFactors starts
  let relevant := relevantState offset
  let nsCumsum := (List.range (varStates.length + 1)).map (2 * ·)
  let vsfe ← compileVarStates (npEmpty mem 4 0 (2 * varStates.length)) nsCumsum varStates
  if factorSizes.any (· == 0) then throw .valueError
  let numParents := factorSizes.map (· - 1)
  let numParentsCumsum := cumsum0 numParents
  let edgesCumsum := cumsum0 (factorSizes.map (2 * ·))
  let np := numParentsCumsum.getLastD 0
  let r ← compileLogicalWiring (npEmpty mem 4 1 np) (npEmpty mem 4 2 np)
    (npEmpty mem 4 3 factorSizes.length) numParents numParentsCumsum edgesCumsum relevant
  LogicalWiring.validate
    { edgesNumStates := factorEdgesNumStates, varStatesForEdges := vsfe,
      parentsEdgeStates := r.1.zip r.2.1, childrenEdgeStates := r.2.2, edgeStatesOffset := offset }

/-- `pgmax/factor/logical.py:97-139`, `LogicalFactor.concatenate_wirings`.  Note line 125: the factor indices of
wiring `ww` are shifted by `ww` (the number of preceding *wirings*). -/
def LogicalFactor.concatenateWirings (ws : List LogicalWiring) : Py LogicalWiring :=
  match ws with
  | [] =>
    LogicalWiring.validate
      { edgesNumStates := [], varStatesForEdges := [], parentsEdgeStates := [], childrenEdgeStates := [],
        edgeStatesOffset := 1 }
  | w0 :: _ =>
    let nesCumsum := (cumsum0 (ws.map (fun w => w.edgesNumStates.sum))).dropLast
    LogicalWiring.validate
      { edgesNumStates := ws.flatMap (·.edgesNumStates)
        varStatesForEdges := ws.flatMap (·.varStatesForEdges)
        parentsEdgeStates := ws.zipIdx.flatMap (fun (w, i) =>
          shiftPairs w.parentsEdgeStates i (nesCumsum.getD i 0))
        childrenEdgeStates := ws.zipIdx.flatMap (fun (w, i) =>
          w.childrenEdgeStates.map (fun p => p + nesCumsum.getD i 0))
        edgeStatesOffset := w0.edgeStatesOffset }

end PGMax
