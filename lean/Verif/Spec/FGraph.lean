import Verif.Spec.VGroup
import Verif.Model.FGraph

/-! Independent specifications for the properties of factor graphs. -/

namespace PGMax

variable {κ α : Type _}

/-- A list of variable groups constructed by the code, none of which compares equal to another. -/
structure VGroupsOk (vgs : List (VGroup κ)) : Prop where
  built : ∀ g ∈ vgs, ∃ objId, VGroup.Built objId g
  distinct : vgs.Pairwise (fun g h => g.pyEq h = false)

/-- The graph after a sequence of `add_factors` calls, exceptions being caught. -/
def FactorGraph.addHistory (fg : FactorGraph κ α) (hist : List (AddArg α)) : FactorGraph κ α :=
  hist.foldl (fun fg a => (fg.addFactors a).1) fg

/-- The factors of type `t` in the graph, as (set of variables) — the scope of every factor of every group. -/
def FactorGraph.scopeSets (fg : FactorGraph κ α) (t : FType) : List (Finset Var) :=
  (fg.groups t).flatMap (fun g => g.varsForFactors.map List.toFinset)

/-- Python object identity: two groups with the same id are the same object. -/
def IdsOk (gs : List (FGroup α)) : Prop := ∀ g ∈ gs, ∀ h ∈ gs, g.objId = h.objId → g = h

/-- Total number of edge states of a group: one per state of every variable of every factor. -/
def FGroup.numEdgeStates (g : FGroup α) : Nat := (g.varsForFactors.map (fun vs => (vs.map (·.n)).sum)).sum

/-- Where the messages of position `i` of factor `f` start, in a flat array that lists the states of every variable of
every factor in order. -/
def edgeStart (scopes : List (List Var)) (f i : Nat) : Nat :=
  ((scopes.take f).map (fun vs => (vs.map (·.n)).sum)).sum + (((scopes.getD f []).take i).map (·.n)).sum

/-- A valid scope of an OR / AND factor: a child and at least one parent, all binary. -/
def LogicalScope (vs : List Var) : Prop := 2 ≤ vs.length ∧ ∀ v ∈ vs, v.n = 2

/-- A valid table for the scopes of an enumeration group: at least one row and one column, one column per variable of
every factor, every value a state of its variable, and one log potential per factor and row. -/
structure EnumTableOk (g : FGroup α) : Prop where
  cols : 0 < g.configs.ncols
  rowsNe : g.configs.rows ≠ []
  width : ∀ vs ∈ g.varsForFactors, vs.length = g.configs.ncols
  inRange : ∀ vs ∈ g.varsForFactors, ∀ r ∈ g.configs.rows, List.Forall₂ (fun s v => s < v.n) r vs
  pots : g.logPotentials.length = g.varsForFactors.length * g.configs.rows.length

/-- A valid factor group over known variables. -/
structure FGroup.Valid (known : Var → Prop) (g : FGroup α) : Prop where
  ne : g.varsForFactors ≠ []
  vars : ∀ vs ∈ g.varsForFactors, ∀ v ∈ vs, known v
  enumOk : g.ftype = .enum → EnumTableOk g
  logicalOk : g.ftype ≠ .enum → g.logPotentials = [] ∧ ∀ vs ∈ g.varsForFactors, LogicalScope vs

/-- A graph of valid groups over its own variables, each listed under its type. -/
def FactorGraph.Valid (fg : FactorGraph κ α) : Prop :=
  ∀ t, ∀ g ∈ fg.groups t, g.ftype = t ∧ g.Valid (fun v => (fg.varsToStarts v).isSome)

/-- Every group of type `t` but the last consists of a single factor. -/
def FactorGraph.SinglesButLast (fg : FactorGraph κ α) (t : FType) : Prop :=
  ∀ g ∈ (fg.groups t).dropLast, g.varsForFactors.length = 1

/-- The factors of an enumeration group: scope, table, own log potentials. -/
def FGroup.enumFactors (g : FGroup α) : List (List Var × Configs × List α) :=
  (List.range g.varsForFactors.length).map (fun f => (g.varsForFactors.getD f [], g.configs,
    slice g.logPotentials (f * g.configs.rows.length) (f * g.configs.rows.length + g.configs.rows.length)))

mutual
/-- The groups in an argument of `add_factors`. -/
def AddArg.flat : AddArg α → List (FGroup α)
  | .one g => [g]
  | .list l => AddArg.flatList l
/-- The groups in a list of arguments. -/
def AddArg.flatList : List (AddArg α) → List (FGroup α)
  | [] => []
  | a :: l => a.flat ++ AddArg.flatList l
end

/-- The scopes of the factors of type `t`, in order of addition. -/
def FactorGraph.scopesOf (fg : FactorGraph κ α) (t : FType) : List (List Var) := (fg.groups t).flatMap (·.varsForFactors)

/-- The scopes of all factors: enumeration, OR, AND, each in order of addition.  The factor with number `f` in this list
is "factor `f`" in the statements about messages; position `i` of its scope is its `i`-th edge, whose messages are at
`edgeStart fg.allScopes f i + state` of the flat message array. -/
def FactorGraph.allScopes (fg : FactorGraph κ α) : List (List Var) := FType.all.flatMap fg.scopesOf

/-- The graph reached from variable groups `vgs` by a history of `add_factors` calls. -/
def graphOf (vgs : List (VGroup κ)) (hist : List (AddArg α)) : FactorGraph κ α := (FactorGraph.create vgs).addHistory hist

/-- `st` is the compiled state of the graph reached from variable groups `vgs` by `hist`: distinct variable groups, valid
factor groups over their variables, one object per id. -/
structure Compiled (vgs : List (VGroup κ)) (hist : List (AddArg α)) (garbage : Garbage) (st : FGState κ α) : Prop where
  vgroups : VGroupsOk vgs
  valid : ∀ a ∈ hist, ∀ g ∈ a.flat,
    g.Valid (fun v => ((FactorGraph.create vgs : FactorGraph κ α).varsToStarts v).isSome)
  ids : IdsOk (FType.all.flatMap (graphOf vgs hist).groups)
  compiled : (graphOf vgs hist).fgState garbage = .ok st

/-- The edges (factor, position) of a variable. -/
def edgesOf (scopes : List (List Var)) (v : Var) : List (Nat × Nat) :=
  (List.range scopes.length).flatMap (fun f =>
    ((List.range (scopes.getD f []).length).filter (fun i => (scopes.getD f [])[i]? = some v)).map (fun i => (f, i)))

end PGMax
