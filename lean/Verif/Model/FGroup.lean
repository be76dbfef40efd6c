import Verif.Model.Factor
import Mathlib.Data.Finset.Basic
import Mathlib.Data.List.Basic

/-!
# Model of `pgmax/fgroup`
-/

namespace PGMax

/-- Which factor-group class an object belongs to, with the data its `flatten` / `unflatten` use. Code: `pgmax/fgroup/enum.py:18`, `174`, `pgmax/fgroup/logical.py:51`, `64`, `pgmax/fgroup/fgroup.py:202`. -/
inductive FKind
  /-- `EnumFactorGroup` -/
  | enumGroup
  /-- `PairwiseFactorGroup` with `log_potential_matrix.shape[-2:] = (a, b)` -/
  | pairwise (a b : Nat)
  /-- `ORFactorGroup` / `ANDFactorGroup` -/
  | logicalGroup
  /-- `SingleFactorGroup` -/
  | single
  deriving DecidableEq, Repr

/-- `pgmax/fgroup/fgroup.py:26-47`, a factor group after construction.  `objId` is `id(self)`, which is also its
hash (fgroup.py:53-60).  `configs` is unused for logical groups.  `logPotentials` is `factor_group_log_potentials`,
the flattened array (fgroup.py:123-126). -/
structure FGroup (α : Type _) where
  objId : Nat
  ftype : FType
  kind : FKind
  varsForFactors : List (List Var)
  configs : Configs
  logPotentials : List α

namespace FGroup
variable {α : Type _}

/-- `pgmax/fgroup/fgroup.py:134-137`, `num_factors`. -/
def numFactors (g : FGroup α) : Nat := g.varsForFactors.length

/-- `pgmax/fgroup/fgroup.py:82-94`, `factor_sizes`. -/
def factorSizes (g : FGroup α) : List Nat := g.varsForFactors.map (·.length)

/-- `pgmax/fgroup/fgroup.py:96-111`, `factor_edges_num_states`: the double loop filling one array. -/
def factorEdgesNumStates (g : FGroup α) : List Nat := g.varsForFactors.flatMap (fun vs => vs.map (·.n))

/-- The factor type's `edge_states_offset` for logical groups (fgroup/logical.py:59, 72). -/
def offset (g : FGroup α) : Int := edgeStatesOffset (g.ftype == .and)

end FGroup

/-- `pgmax/fgroup/enum.py:44-69`, `EnumFactorGroup.__post_init__` (after `FactorGroup.__post_init__`,
fgroup.py:49-51).  `lp = none` is the default argument; `lpFloat` says whether its dtype is floating.
The configurations are not validated here (nor anywhere else on this path). -/
def EnumFactorGroup.create {α : Type _} [Zero α] (objId : Nat) (varsForFactors : List (List Var))
    (configs : Configs) (lp : Option (NDArr α)) (lpFloat : Bool) : Py (FGroup α) := do
  if varsForFactors.length = 0 then throw .valueError
  let nf := varsForFactors.length
  let nc := configs.rows.length
  let flat ← match lp with
    | none => pure (List.replicate (nf * nc) (0 : α))
    | some a =>
        if a.shape ≠ [nc] ∧ a.shape ≠ [nf, nc] then throw .valueError
        else if a.shape = [nf, nc] then pure a.data
        else pure (tile a.data nf)
  if lp.isSome && !lpFloat then throw .valueError
  pure { objId := objId, ftype := .enum, kind := .enumGroup, varsForFactors := varsForFactors,
         configs := configs, logPotentials := flat }

/-- `pgmax/fgroup/enum.py:255-263`: `np.mgrid[:a, :b].transpose((1, 2, 0)).reshape((-1, 2))`. -/
def mgridConfigs (a b : Nat) : Configs :=
  { ncols := 2, rows := (List.range a).flatMap (fun i => (List.range b).map (fun j => [i, j])) }

/-- `pgmax/fgroup/enum.py:265-275, 381-394`: broadcasting the matrix to `(num_factors, a, b)` and
`_compute_log_potentials`: `log_potentials[f, c] = matrix[f, configs[c,0], configs[c,1]]`.
`mats` is the broadcast matrix, one row-major `a*b` block per factor. -/
def computeLogPotentials {α : Type _} (mats : List (List α)) (configs : Configs) (b : Nat) : List α :=
  mats.flatMap (fun m => configs.rows.filterMap (fun r => m[r.getD 0 0 * b + r.getD 1 0]?))

/-- `pgmax/fgroup/enum.py:202-275`, `PairwiseFactorGroup.__post_init__`.  `mat = none` is the default argument (a zero
matrix of the first factor's state counts).  `mFloat`: floating dtype. -/
def PairwiseFactorGroup.create {α : Type _} [Zero α] (objId : Nat) (varsForFactors : List (List Var))
    (mat : Option (NDArr α)) (mFloat : Bool) : Py (FGroup α) := do
  if varsForFactors.length = 0 then throw .valueError
  let nf := varsForFactors.length
  let m ← match mat with
    | some m => pure m
    | none => match varsForFactors with
      | (v0 :: v1 :: _) :: _ =>
          pure ({ shape := [v0.n, v1.n], data := List.replicate (v0.n * v1.n) (0 : α) } : NDArr α)
      | _ => throw .indexError
  if m.shape.length ≠ 2 ∧ m.shape.length ≠ 3 then throw .valueError
  if mat.isSome && !mFloat then throw .valueError
  if m.shape.length = 3 ∧ m.shape.getD 0 0 ≠ nf then throw .valueError
  let a := m.shape.getD (m.shape.length - 2) 0
  let b := m.shape.getD (m.shape.length - 1) 0
  if varsForFactors.any (fun vs => match vs with
      | [v0, v1] => v0.n != a || v1.n != b
      | _ => true) then throw .valueError
  let configs := mgridConfigs a b
  let mats := if m.shape.length = 3 then rows m.data nf (a * b) else List.replicate nf m.data
  pure { objId := objId, ftype := .enum, kind := .pairwise a b, varsForFactors := varsForFactors,
         configs := configs, logPotentials := computeLogPotentials mats configs b }

/-- `pgmax/fgroup/logical.py:14-73`, `ORFactorGroup` / `ANDFactorGroup`: only the base-class check of
`FactorGroup.__post_init__` (fgroup.py:49-51) runs. -/
def LogicalFactorGroup.create {α : Type _} (objId : Nat) (varsForFactors : List (List Var)) (isAnd : Bool) :
    Py (FGroup α) := do
  if varsForFactors.length = 0 then throw .valueError
  pure { objId := objId, ftype := if isAnd then .and else .or, kind := .logicalGroup,
         varsForFactors := varsForFactors, configs := ⟨0, []⟩, logPotentials := [] }

/-- `pgmax/fgroup/fgroup.py:201-231`, `SingleFactorGroup` wrapping an `EnumFactor` (fgraph.py:143-147). -/
def SingleFactorGroup.ofEnum {α : Type _} (objId : Nat) (f : EnumFactor α) : FGroup α :=
  { objId := objId, ftype := .enum, kind := .single, varsForFactors := [f.vars], configs := f.configs,
    logPotentials := f.logPotentials }

/-- `pgmax/fgroup/fgroup.py:201-231`, `SingleFactorGroup` wrapping an `ORFactor` / `ANDFactor`. -/
def SingleFactorGroup.ofLogical {α : Type _} (objId : Nat) (f : LogicalFactor) : FGroup α :=
  { objId := objId, ftype := if f.isAnd then .and else .or, kind := .single, varsForFactors := [f.vars],
    configs := ⟨0, []⟩, logPotentials := [] }

/-- The factors built by `_get_variables_to_factors` (fgroup/enum.py:80-93, 286-299; fgroup/logical.py:38-47). -/
inductive AnyFactor (α : Type _)
  | enum (f : EnumFactor α)
  | logical (f : LogicalFactor)

namespace FGroup
variable {α : Type _}

/-- One factor of the group, built (and validated, enum.py:97-101 / logical.py:88-95) on demand: factor `ii` over
`variables` with its own row of log potentials.  (Shapes and dtypes are right by construction of the group.)
For a `SingleFactorGroup` this is the stored factor. -/
def buildFactor (g : FGroup α) (ii : Nat) (vs : List Var) : Py (AnyFactor α) :=
  match g.ftype with
  | .enum =>
      let nc := g.configs.rows.length
      if g.kind ≠ .single ∧ (vs.length ≠ g.configs.ncols ∨
          g.configs.rows.any (fun r => (r.zip vs).any (fun p => decide (p.2.n ≤ p.1)))) then
        .error .valueError
      else .ok (.enum { vars := vs, configs := g.configs,
                        logPotentials := slice g.logPotentials (ii * nc) (ii * nc + nc) })
  | .or => (LogicalFactor.create vs false).map .logical
  | .and => (LogicalFactor.create vs true).map .logical

/-- `collections.OrderedDict([(frozenset(vars), factor), ...])` (fgroup/enum.py:80-92, 286-298,
fgroup/logical.py:38-46, fgroup.py:241): later duplicates overwrite the value, keeping the first position. -/
def variablesToFactors (g : FGroup α) : Py (List (Finset Var × AnyFactor α)) := do
  let fs ← (List.range g.varsForFactors.length).mapM (fun ii =>
    let vs := g.varsForFactors.getD ii []
    (g.buildFactor ii vs).map (fun f => (vs.toFinset, f)))
  pure (fs.foldl (fun d p => dictSet d p.1 p.2) [])

/-- `pgmax/fgroup/fgroup.py:128-132`, `factors`. -/
def factors (g : FGroup α) : Py (List (AnyFactor α)) := g.variablesToFactors.map (·.map (·.2))

/-- `pgmax/fgroup/fgroup.py:62-80`, `FactorGroup.__getitem__`. -/
def getitem (g : FGroup α) (vars : List Var) : Py (AnyFactor α) := do
  let d ← g.variablesToFactors
  match d.lookup vars.toFinset with
  | some f => pure f
  | none => throw .valueError

/-- `sum([variable[1] for variable in self.variables_for_factors[0]])` (fgroup/enum.py:110-112). -/
def firstEdgeStates (g : FGroup α) : Nat := ((g.varsForFactors.headD []).map (·.n)).sum

/-- `pgmax/fgroup/enum.py:95-129` and `301-332`, `flatten`; `fgroup.py:150-161, 243-254`: the other groups raise
NotImplementedError. -/
def flatten (g : FGroup α) (data : NDArr α) : Py (List α) := do
  match g.kind with
  | .enumGroup =>
      let nf := (← g.factors).length
      let nc := g.configs.rows.length
      let es := g.firstEdgeStates
      if data.shape ≠ [nf, nc] ∧ data.shape ≠ [nf, es] ∧ data.shape ≠ [nc] then throw .valueError
      if data.shape = [nc] then pure (tile data.data nf) else pure data.data
  | .pairwise a b =>
      let nf := (← g.factors).length
      if data.shape ≠ [nf, a, b] ∧ data.shape ≠ [nf, a + b] ∧ data.shape ≠ [a, b] then throw .valueError
      if data.shape = [a, b] then pure (tile data.data nf) else pure data.data
  | .logicalGroup => throw .notImplemented
  | .single => throw .notImplemented

/-- `pgmax/fgroup/enum.py:131-170` and `334-378`, `unflatten`. -/
def unflatten (g : FGroup α) (flat : NDArr α) : Py (NDArr α) := do
  match g.kind with
  | .enumGroup =>
      if flat.shape.length ≠ 1 then throw .valueError
      let nf := (← g.factors).length
      let nc := g.configs.rows.length
      let es := g.firstEdgeStates
      if flat.data.length = nf * nc then pure { shape := [nf, nc], data := flat.data }
      else if flat.data.length = nf * es then pure { shape := [nf, es], data := flat.data }
      else throw .valueError
  | .pairwise a b =>
      if flat.shape.length ≠ 1 then throw .valueError
      let nf := (← g.factors).length
      if flat.data.length = nf * (a * b) then pure { shape := [nf, a, b], data := flat.data }
      else if flat.data.length = nf * (a + b) then pure { shape := [nf, a + b], data := flat.data }
      else throw .valueError
  | .logicalGroup => throw .notImplemented
  | .single => throw .notImplemented

end FGroup

end PGMax
