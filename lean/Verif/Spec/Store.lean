import Verif.Spec.BP
import Verif.Model.BPState

/-! Specification for C62: the log potentials, messages and evidence as independent cells. -/

namespace PGMax

variable {κ α : Type _}

/-- What can be read: the log potentials of a group, the message of factor `f` to the `i`-th variable of its scope, the evidence of a
variable. -/
inductive Cell (α : Type _)
  | pots (g : FGroup α)
  | msg (f i : Nat)
  | ev (v : Var)

/-- The cells of a graph. -/
def Cell.Exists (vgs : List (VGroup κ)) (fg : FactorGraph κ α) : Cell α → Prop
  | .pots g => ∃ t, g ∈ fg.groups t
  | .msg f i => ∃ vs v, fg.allScopes[f]? = some vs ∧ vs[i]? = some v
  | .ev v => ∃ g ∈ vgs, v ∈ g.variables

/-- Reading a cell. -/
def BPState.read (st : FGState κ α) (fg : FactorGraph κ α) (s : BPState α) : Cell α → Py (List α)
  | .pots g => LogPotentials.getitem st s.logPotentials.value g
  | .msg f i => .ok (slice s.ftovMsgs.value (edgeStart fg.allScopes f i)
      (edgeStart fg.allScopes f i + (((fg.allScopes.getD f [])[i]?).map (·.n)).getD 0))
  | .ev v => Evidence.getitem st s.evidence.value v

/-- Arrays as a BP state, to read them. -/
def BPArrays.asState (a : BPArrays α) : BPState α := ⟨⟨0, a.logPotentials⟩, ⟨0, a.ftovMsgs⟩, ⟨0, a.evidence⟩⟩

/-- The assignments that the documentation allows. -/
def Write.Accepted [DecidableEq κ] (vgs : List (VGroup κ)) (fg : FactorGraph κ α) : Write κ α → Prop
  | .pots g d => (∃ t, g ∈ fg.groups t) ∧ ∃ x, g.flatten d = .ok x ∧ x.length = g.logPotentials.length
  | .msgs v d => (∃ g ∈ vgs, v ∈ g.variables) ∧ d.shape = [v.n]
  | .evidence (.var v d) => (∃ g ∈ vgs, v ∈ g.variables) ∧ d.shape = [v.n]
  | .evidence (.group g d) => g ∈ vgs ∧ g.variables ≠ [] ∧ ∃ x, g.flatten d = .ok x

/-- The value that an assignment gives to a cell, if it concerns the cell. -/
def Write.value [Field α] [DecidableEq κ] (fg : FactorGraph κ α) : Write κ α → Cell α → Option (List α)
  | .pots g d, .pots k => if k.objId = g.objId then (g.flatten d).toOption else none
  | .msgs v d, .msg f i => if (fg.allScopes.getD f [])[i]? = some v then
      some (d.data.map (· / ((edgesOf fg.allScopes v).length : α))) else none
  | .evidence (.var v d), .ev w => if w = v then some d.data else none
  | .evidence (.group g d), .ev w => if w ∈ g.variables then (g.flatten d).toOption.map (fun x =>
      slice x (g.numStates.take (g.variables.idxOf w)).sum ((g.numStates.take (g.variables.idxOf w)).sum + w.n)) else none
  | _, _ => none

open Classical in
/-- The value of a cell after a sequence of assignments: that of the last accepted one concerning it, else the initial one. -/
noncomputable def lastValue [Field α] [DecidableEq κ] (vgs : List (VGroup κ)) (fg : FactorGraph κ α) (ws : List (Write κ α)) (c : Cell α)
    (x : List α) : List α :=
  ((ws.reverse.filter (fun w => w.Accepted vgs fg)).findSome? (fun w => w.value fg c)).getD x

/-- Well-formed data, where the library could be misled: a group is one of the graph or shares neither id nor hash with one; evidence
for a group gives every state a value or is rejected; evidence of one value is not given for a variable of several states (it would
be broadcast). -/
def Write.Fair [DecidableEq κ] (vgs : List (VGroup κ)) (fg : FactorGraph κ α) : Write κ α → Prop
  | .pots g _ => (∃ t, g ∈ fg.groups t) ∨ ∀ t, ∀ k ∈ fg.groups t, k.objId ≠ g.objId
  | .msgs _ d => d.WF
  | .evidence (.var v d) => d.WF ∧ (d.shape = [1] → v.n = 1)
  | .evidence (.group g d) => (g ∈ vgs ∨ ∀ k ∈ vgs, k.hash ≠ g.hash) ∧ ∀ x, g.flatten d = .ok x → x.length = g.numStates.sum

end PGMax
