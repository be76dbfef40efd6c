import Verif.Spec.BP

/-!
# Specification for the order of factors

A graph together with its log potentials and messages is a list of factors, each with its type, its table and the messages
it sends.
-/

namespace PGMax

variable {κ α : Type _}

/-- A factor without its log potentials: type, scope, table (unused for OR and AND). -/
abbrev Header := FType × List Var × Configs

/-- The number of log potentials of a factor. -/
def numPots (h : Header) : Nat :=
  match h.1 with
  | .enum => h.2.2.rows.length
  | .or => 0
  | .and => 0

/-- The number of message values of a factor. -/
def numMsgs (h : Header) : Nat := (h.2.1.map (·.n)).sum

/-- The factor with its log potentials at the front of an array. -/
def Header.fac [Zero α] (h : Header) (lp : List α) : SFac α :=
  match h.1 with
  | .enum => ⟨h.2.1, h.2.2.rows.zip lp⟩
  | .or => ⟨h.2.1, orRows (h.2.1.length - 1)⟩
  | .and => ⟨h.2.1, andRows (h.2.1.length - 1)⟩

/-- The factors with their log potentials and messages, taken from two arrays in order. -/
def load [Zero α] : List Header → List α → List α → List (FType × SFac α × List α)
  | [], _, _ => []
  | h :: H, lp, ms => (h.1, h.fac lp, ms.take (numMsgs h)) :: load H (lp.drop (numPots h)) (ms.drop (numMsgs h))

/-- The factors of a group. -/
def FGroup.headers (g : FGroup α) : List Header := g.varsForFactors.map (fun vs => (g.ftype, vs, g.configs))

/-- All factors of a graph, with their log potentials and messages. -/
def FactorGraph.loaded [Zero α] (fg : FactorGraph κ α) (lp ms : List α) : List (FType × SFac α × List α) :=
  load ((FType.all.flatMap fg.groups).flatMap FGroup.headers) lp ms

/-- Groups with their log potentials and messages, taken from two arrays in order. -/
def groupBlocks : List (FGroup α) → List α → List α → List (FGroup α × List α × List α)
  | [], _, _ => []
  | g :: gs, lp, ms => (g, lp.take g.logPotentials.length, ms.take g.numEdgeStates) ::
      groupBlocks gs (lp.drop g.logPotentials.length) (ms.drop g.numEdgeStates)

end PGMax
