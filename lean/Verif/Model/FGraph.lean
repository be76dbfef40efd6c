import Verif.Model.FGroup
import Mathlib.Logic.Function.Basic

/-!
# Model of `pgmax/fgraph/fgraph.py`

The process-global memoisation of the compiled properties is modelled separately in `Cache.lean`; here every
property is the function it computes.
-/

namespace PGMax

/-- `pgmax/fgraph/fgraph.py:66-107`, a `FactorGraph`.  `groups` is `_factor_types_to_groups`, `seen` is
`_factor_types_to_variables_for_factors` (a set of frozensets, kept as a list of sets). -/
structure FactorGraph (κ α : Type _) where
  varGroups : List (VGroup κ)
  varsToStarts : StartMap
  numVarStates : Nat
  groups : FType → List (FGroup α)
  seen : FType → List (Finset Var)

/-- Python `dict.update(zip(keys, values))`. Code: `pgmax/fgraph/fgraph.py:100-105`. -/
def dictUpdate (d : StartMap) (kvs : List (Var × Nat)) : StartMap :=
  kvs.foldl (fun d p => fun v => if v = p.1 then some p.2 else d v) d

namespace FactorGraph
variable {κ α : Type _}

/-- `pgmax/fgraph/fgraph.py:94-107`: one iteration of the loop over the variable groups. -/
def initStep (st : StartMap × Nat) (vg : VGroup κ) : StartMap × Nat :=
  let cs := cumsum0 vg.numStates
  (dictUpdate st.1 (vg.variables.zip (cs.dropLast.map (fun c => st.2 + c))), st.2 + cs.getLastD 0)

/-- `pgmax/fgraph/fgraph.py:77-107`, `FactorGraph.__post_init__`. -/
def create (vgs : List (VGroup κ)) : FactorGraph κ α :=
  let r := vgs.foldl initStep (fun _ => none, 0)
  { varGroups := vgs, varsToStarts := r.1, numVarStates := r.2, groups := fun _ => [], seen := fun _ => [] }

/-- `pgmax/fgraph/fgraph.py:150-156`: the loop over the factors of the group.  The set of seen scopes is updated
as the loop runs and is *not* rolled back when a duplicate is met. -/
def addScopes : List (Finset Var) → List (List Var) → List (Finset Var) × Option PyErr
  | seen, [] => (seen, none)
  | seen, vs :: rest =>
      if vs.toFinset ∈ seen then (seen, some .valueError)
      else addScopes (seen ++ [vs.toFinset]) rest

/-- `pgmax/fgraph/fgraph.py:141-158`, `add_factors` for one factor group (a single factor has been wrapped into a
`SingleFactorGroup`, lines 143-147).  Returns the new graph and the exception raised, if any. -/
def addGroup (fg : FactorGraph κ α) (g : FGroup α) : FactorGraph κ α × Option PyErr :=
  let r := addScopes (fg.seen g.ftype) g.varsForFactors
  let fg := { fg with seen := Function.update fg.seen g.ftype r.1 }
  match r.2 with
  | some e => (fg, some e)
  | none => ({ fg with groups := Function.update fg.groups g.ftype (fg.groups g.ftype ++ [g]) }, none)

end FactorGraph

/-- The argument of `add_factors` (fgraph.py:121-125): a factor (already wrapped) or factor group, or a list. -/
inductive AddArg (α : Type _)
  | one (g : FGroup α)
  | list (l : List (AddArg α))

namespace FactorGraph
variable {κ α : Type _}

mutual
/-- `pgmax/fgraph/fgraph.py:119-158`, `add_factors`. -/
def addFactors (fg : FactorGraph κ α) : AddArg α → FactorGraph κ α × Option PyErr
  | .one g => fg.addGroup g
  | .list l => addList fg l
/-- `pgmax/fgraph/fgraph.py:136-139`: a list is added element by element; the first exception propagates. -/
def addList (fg : FactorGraph κ α) : List (AddArg α) → FactorGraph κ α × Option PyErr
  | [] => (fg, none)
  | a :: l =>
      match fg.addFactors a with
      | (fg', none) => addList fg' l
      | (fg', some e) => (fg', some e)
end

/-- The running state of `compute_offsets` (fgraph.py:170-206). -/
structure Offsets where
  typeToMsgsRange : FType → Nat × Nat
  typeToPotsRange : FType → Nat × Nat
  groupToMsgsStart : Nat → Option Nat
  groupToPotsStart : Nat → Option Nat
  totalNumStates : Nat
  totalNumConfigs : Nat

/-- `pgmax/fgraph/fgraph.py:183-194`: one iteration of the inner loop.  Dictionaries keyed by factor groups are keyed
by the groups' ids (fgroup.py:53-57). -/
def offsetsGroupStep (o : Offsets) (g : FGroup α) : Offsets :=
  { o with
    groupToMsgsStart := fun i => if i = g.objId then some o.totalNumStates else o.groupToMsgsStart i
    groupToPotsStart := fun i => if i = g.objId then some o.totalNumConfigs else o.groupToPotsStart i
    totalNumStates := o.totalNumStates + g.factorEdgesNumStates.sum
    totalNumConfigs := o.totalNumConfigs + g.logPotentials.length }

/-- `pgmax/fgraph/fgraph.py:180-203`: one iteration of the outer loop. -/
def offsetsTypeStep (fg : FactorGraph κ α) (o : Offsets) (t : FType) : Offsets :=
  let o' := (fg.groups t).foldl offsetsGroupStep o
  { o' with
    typeToMsgsRange := Function.update o'.typeToMsgsRange t (o.totalNumStates, o'.totalNumStates)
    typeToPotsRange := Function.update o'.typeToPotsRange t (o.totalNumConfigs, o'.totalNumConfigs) }

/-- `pgmax/fgraph/fgraph.py:160-206`, `compute_offsets`. -/
def computeOffsets (fg : FactorGraph κ α) : Offsets :=
  FType.all.foldl fg.offsetsTypeStep
    { typeToMsgsRange := fun _ => (0, 0), typeToPotsRange := fun _ => (0, 0),
      groupToMsgsStart := fun _ => none, groupToPotsStart := fun _ => none,
      totalNumStates := 0, totalNumConfigs := 0 }

end FactorGraph

/-- `pgmax/fgroup/fgroup.py:176-198`, `compile_wiring` of a group of enumeration factors. -/
def FGroup.compileEnum {α : Type _} (garbage : Garbage) (g : FGroup α) (starts : StartMap) : Py EnumWiring :=
  EnumFactor.compileWiring (garbage g.objId) g.factorEdgesNumStates g.varsForFactors g.configs starts
    g.numFactors

/-- `pgmax/fgroup/fgroup.py:176-198`, `compile_wiring` of a group of OR / AND factors. -/
def FGroup.compileLogical {α : Type _} (garbage : Garbage) (g : FGroup α) (starts : StartMap) : Py LogicalWiring :=
  LogicalFactor.compileWiring (garbage g.objId) g.factorEdgesNumStates g.varsForFactors g.factorSizes starts g.offset

/-- The compiled wirings of the three factor types (fgraph.py:208-235). -/
structure Wirings where
  enum : EnumWiring
  or : LogicalWiring
  and : LogicalWiring
  deriving DecidableEq

namespace Wirings

/-- `wiring[factor_type].edges_num_states`. Code: `pgmax/infer/bp.py:83`. -/
def edgesNumStates (w : Wirings) : FType → List Nat
  | .enum => w.enum.edgesNumStates
  | .or => w.or.edgesNumStates
  | .and => w.and.edgesNumStates

/-- `wiring[factor_type].var_states_for_edges`. Code: `pgmax/infer/bp.py:87-89`, `pgmax/infer/bp_state.py:179-184`. -/
def varStatesForEdges (w : Wirings) : FType → List Nat
  | .enum => w.enum.varStatesForEdges
  | .or => w.or.varStatesForEdges
  | .and => w.and.varStatesForEdges

end Wirings

/-- `pgmax/fgraph/fgraph.py:29-63`, `FactorGraphState`. -/
structure FGState (κ α : Type _) where
  varGroups : List (VGroup κ)
  varsToStarts : StartMap
  numVarStates : Nat
  totalFactorNumStates : Nat
  typeToMsgsRange : FType → Nat × Nat
  typeToPotsRange : FType → Nat × Nat
  groupToPotsStart : Nat → Option Nat
  logPotentials : List α
  wiring : Wirings

namespace FactorGraph
variable {κ α : Type _}

/-- `pgmax/fgraph/fgraph.py:208-235`, `wiring`. -/
def wiring (garbage : Garbage) (fg : FactorGraph κ α) : Py Wirings := do
  let e ← (fg.groups .enum).mapM (fun g => g.compileEnum garbage fg.varsToStarts)
  let o ← (fg.groups .or).mapM (fun g => g.compileLogical garbage fg.varsToStarts)
  let a ← (fg.groups .and).mapM (fun g => g.compileLogical garbage fg.varsToStarts)
  pure { enum := ← EnumFactor.concatenateWirings e
         or := ← LogicalFactor.concatenateWirings o
         and := ← LogicalFactor.concatenateWirings a }

/-- `pgmax/fgraph/fgraph.py:237-259`, `log_potentials` of one factor type. -/
def logPotentialsOf (fg : FactorGraph κ α) (t : FType) : List α := (fg.groups t).flatMap (·.logPotentials)

/-- `pgmax/fgraph/fgraph.py:293-317`, `fg_state`. -/
def fgState (garbage : Garbage) (fg : FactorGraph κ α) : Py (FGState κ α) := do
  let o := fg.computeOffsets
  let w ← fg.wiring garbage
  pure { varGroups := fg.varGroups, varsToStarts := fg.varsToStarts, numVarStates := fg.numVarStates,
         totalFactorNumStates := o.totalNumStates, typeToMsgsRange := o.typeToMsgsRange,
         typeToPotsRange := o.typeToPotsRange, groupToPotsStart := o.groupToPotsStart,
         logPotentials := FType.all.flatMap fg.logPotentialsOf, wiring := w }

/-- `pgmax/fgraph/fgraph.py:261-286`, `factors`: for every factor type, the factors of its groups, which are built (and
validated) on demand. -/
def allFactors (fg : FactorGraph κ α) : Py (List (FType × List (AnyFactor α))) :=
  FType.all.mapM (fun t => ((fg.groups t).mapM FGroup.factors).map (fun fs => (t, fs.flatten)))

end FactorGraph

end PGMax
