import Verif.Spec.FGraph
import Verif.Model.Arr

/-!
# Specification of belief propagation

A graph is a list of factors; a factor is its scope (list of variables) and the list of its joint configurations with
their log potentials.  A message array is a function of factor number, position in the factor's scope, and state.
Nothing here mentions flat arrays, wirings or factor types, except `readMsgs` / `readEv`, which say how such functions
are stored in the flat arrays.
-/

namespace PGMax

variable {κ α : Type _}

/-- Messages: factor, position in its scope, state. -/
abbrev Msgs (α : Type _) := Nat → Nat → Nat → α

/-- The messages stored in a flat array. -/
def readMsgs [Zero α] (scopes : List (List Var)) (xs : List α) : Msgs α :=
  fun f i s => xs.getD (edgeStart scopes f i + s) 0

/-- The evidence stored in a flat array. -/
def readEv [Zero α] (starts : Var → Option Nat) (xs : List α) : Var → Nat → α :=
  fun v s => xs.getD ((starts v).getD 0 + s) 0

/-- Position `i` of factor `f` is variable `v`. -/
def IsEdge (scopes : List (List Var)) (f i : Nat) (v : Var) : Prop := ∃ vs, scopes[f]? = some vs ∧ vs[i]? = some v

/-- Two families of messages agree on all edges and states of a graph. -/
def AgreeOn (scopes : List (List Var)) (m m' : Msgs α) : Prop := ∀ f i v s, IsEdge scopes f i v → s < v.n → m f i s = m' f i s

/-- Agreement on the edges of the variables in `S`. -/
def AgreeIn (scopes : List (List Var)) (S : Var → Prop) (m m' : Msgs α) : Prop :=
  ∀ f i v s, IsEdge scopes f i v → S v → s < v.n → m f i s = m' f i s

/-- `S` is a union of connected components: every factor lies inside or outside. -/
def Separated (scopes : List (List Var)) (S : Var → Prop) : Prop :=
  ∀ vs ∈ scopes, (∀ v ∈ vs, S v) ∨ (∀ v ∈ vs, ¬ S v)

/-- The message from variable `v` to the edge `e` (an edge of `v`) in state `s`: evidence plus the messages of all other
edges of `v`. -/
def varToFac [Add α] [Zero α] (scopes : List (List Var)) (ev : Var → Nat → α) (m : Msgs α) (v : Var) (e : Nat × Nat)
    (s : Nat) : α :=
  ev v s + (((edgesOf scopes v).filter (fun e' => e' ≠ e)).map (fun e' => m e'.1 e'.2 s)).sum

/-- The belief of variable `v` in state `s`: evidence plus the messages of all its edges. -/
def beliefOf [Add α] [Zero α] (scopes : List (List Var)) (ev : Var → Nat → α) (m : Msgs α) (v : Var) (s : Nat) : α :=
  ev v s + ((edgesOf scopes v).map (fun e => m e.1 e.2 s)).sum

/-- A factor: its variables, and its joint configurations (one state per variable) with their log potentials. -/
structure SFac (α : Type _) where
  scope : List Var
  rows : List (List Nat × α)

/-- All 0/1 vectors of length `n`. -/
def bits : Nat → List (List Nat)
  | 0 => [[]]
  | n + 1 => (bits n).flatMap (fun p => [0 :: p, 1 :: p])

/-- The configurations of an OR factor of `n` parents: any parents, the child is 1 iff some parent is. -/
def orRows [Zero α] (n : Nat) : List (List Nat × α) := (bits n).map (fun p => (p ++ [if 1 ∈ p then 1 else 0], 0))

/-- The configurations of an AND factor of `n` parents: any parents, the child is 0 iff some parent is. -/
def andRows [Zero α] (n : Nat) : List (List Nat × α) := (bits n).map (fun p => (p ++ [if 0 ∈ p then 0 else 1], 0))

/-- Enumeration factors with given scopes and tables; the log potentials are taken from an array in order. -/
def tableFacs : List (List Var × Configs) → List α → List (SFac α)
  | [], _ => []
  | (vs, cf) :: L, lp => ⟨vs, cf.rows.zip lp⟩ :: tableFacs L (lp.drop cf.rows.length)

/-- The scopes and tables of the enumeration factors of a graph. -/
def FactorGraph.tables (fg : FactorGraph κ α) : List (List Var × Configs) :=
  (fg.groups .enum).flatMap (fun g => g.varsForFactors.map (fun vs => (vs, g.configs)))

/-- The factors of a graph, with the log potentials in the array `lp`. -/
def FactorGraph.factors [Zero α] (fg : FactorGraph κ α) (lp : List α) : List (SFac α) :=
  tableFacs fg.tables lp ++ (fg.scopesOf .or).map (fun vs => ⟨vs, orRows (vs.length - 1)⟩)
    ++ (fg.scopesOf .and).map (fun vs => ⟨vs, andRows (vs.length - 1)⟩)

/-- The number of OR and AND parents in a graph. -/
def FactorGraph.numParents (fg : FactorGraph κ α) : Nat := ((fg.scopesOf .or ++ fg.scopesOf .and).map (fun vs => vs.length - 1)).sum

/-- The state of the parents of a logical factor `f` in which they do not determine the child: 0 for OR, 1 for AND. -/
def FactorGraph.restState (fg : FactorGraph κ α) (f : Nat) : Nat :=
  if f < (fg.scopesOf .enum).length + (fg.scopesOf .or).length then 0 else 1

/-- How much the incoming messages `q` of edge `i` of logical factor `f` favour the determining state. -/
def FactorGraph.pull [Sub α] (fg : FactorGraph κ α) (q : Msgs α) (f i : Nat) : α :=
  q f i (1 - fg.restState f) - q f i (fg.restState f)

/-- Log potential of a configuration plus the incoming messages `q` (position, state) of the positions other than `i`. -/
def scoreBut [Add α] [Zero α] (n : Nat) (q : Nat → Nat → α) (i : Nat) (row : List Nat × α) : α :=
  row.2 + (((List.range n).filter (fun j => j ≠ i)).map (fun j => q j (row.1.getD j 0))).sum

/-- The configurations of a factor in which position `i` is in state `s`. -/
def SFac.rowsAt (F : SFac α) (i s : Nat) : List (List Nat × α) := F.rows.filter (fun r => r.1[i]? = some s)

/-- The largest element of a list (`d` if it is empty). -/
def maxOf [Max α] (d : α) : List α → α
  | [] => d
  | x :: xs => xs.foldl max x

/-- All values of all messages lie in `[-1000, 0]`, and every message has a state with value 0. -/
def Normalised [Field α] [LE α] (scopes : List (List Var)) (m : Msgs α) : Prop :=
  ∀ f i v, IsEdge scopes f i v → (∀ s < v.n, -1000 ≤ m f i s ∧ m f i s ≤ 0) ∧ ∃ s < v.n, m f i s = 0

/-- The size within which the first start index `-100000` of `segment_max_opt` is clamped to 0 (only needed if
`dynamic_slice` first adds the length of the array to negative indices): edge states plus states of any variable. -/
def SegFits (env : Env α) (fg : FactorGraph κ α) : Prop :=
  env.wrapNeg = false ∨ ∀ f i v, IsEdge fg.allScopes f i v → (fg.allScopes.map (fun vs => (vs.map (·.n)).sum)).sum + v.n ≤ 100000

/-- The sizes within which the integer literal 100000 of the code means "infinity". -/
structure Fits [Zero α] (env : Env α) (fg : FactorGraph κ α) (T : α) : Prop where
  seg : SegFits env fg
  par : T = 0 → fg.numParents ≤ 100000

end PGMax
