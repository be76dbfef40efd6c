import Verif.Spec.Tree
import Mathlib.Logic.Equiv.List

/-!
# Specification: the tree that a factor graph unwraps into

Walks from a root variable that never go straight back over the edge they came by. In the tree every walk is a variable (a copy of the
variable where the walk ends), and every way to go on is a factor (a copy of the factor that is entered).
-/

namespace PGMax

variable {α : Type _}

/-- The steps of a walk, the last one first: `(f, i, j)` enters factor `f` from its variable at position `i` and leaves to the one at
position `j`. -/
abbrev Steps := List (Nat × Nat × Nat)

/-- The variable where a walk from `r` ends. -/
def walkEnd (scopes : List (List Var)) (r : Var) : Steps → Var
  | [] => r
  | (f, _, j) :: _ => (scopes.getD f []).getD j r

/-- The places (factor, position) by which a walk can go on: all places of its last variable, except the one it came by. -/
def walkNext (scopes : List (List Var)) (r : Var) : Steps → List (Nat × Nat)
  | [] => edgesOf scopes r
  | (f, i, j) :: p => (edgesOf scopes (walkEnd scopes r ((f, i, j) :: p))).filter (fun e => e ≠ (f, j))

/-- All walks of `n` steps. -/
def walks (scopes : List (List Var)) (r : Var) : Nat → List Steps
  | 0 => [[]]
  | n + 1 => (walks scopes r n).flatMap (fun p => (walkNext scopes r p).flatMap (fun e =>
      ((List.range (scopes.getD e.1 []).length).filter (fun j => j ≠ e.2)).map (fun j => (e.1, e.2, j) :: p)))

/-- The variable of the tree for a walk: its name is the number of the walk, and it has the states of the last variable. -/
def treeVar (scopes : List (List Var)) (r : Var) (p : Steps) : Var := ⟨Encodable.encode p, (walkEnd scopes r p).n⟩

/-- The places by which walks of fewer than `n` steps can go on. -/
def treePlaces (scopes : List (List Var)) (r : Var) (n : Nat) : List (Steps × Nat × Nat) :=
  ((List.range n).flatMap (walks scopes r)).flatMap (fun p => (walkNext scopes r p).map (fun e => (p, e)))

/-- The copy of factor `f` that a walk `p` enters at position `i`: between the walk and its continuations. -/
def treeFac (factors : List (SFac α)) (r : Var) (p : Steps) (f i : Nat) : SFac α :=
  ⟨(List.range ((factors.map (·.scope)).getD f []).length).map (fun j => treeVar (factors.map (·.scope)) r (if j = i then p else (f, i, j) :: p)),
    (factors.getD f ⟨[], []⟩).rows⟩

/-- The factors of the tree that has the walks of at most `n` steps as variables. -/
def unwrap (factors : List (SFac α)) (r : Var) (n : Nat) : List (SFac α) :=
  (treePlaces (factors.map (·.scope)) r n).map (fun q => treeFac factors r q.1 q.2.1 q.2.2)

/-- The variables of the tree. -/
def unwrapVars (scopes : List (List Var)) (r : Var) (n : Nat) : Finset Var :=
  (((List.range (n + 1)).flatMap (walks scopes r)).map (treeVar scopes r)).toFinset

/-- The evidence of the variables of the tree: that of the last variables of the walks. -/
def unwrapEv [Zero α] (scopes : List (List Var)) (r : Var) (ev : Var → Nat → α) (v : Var) (s : Nat) : α :=
  match (Encodable.decode v.hash : Option Steps) with
  | some p => ev (walkEnd scopes r p) s
  | none => 0

end PGMax
