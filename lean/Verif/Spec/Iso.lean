import Verif.Spec.Tree
import Mathlib.Logic.Equiv.Defs

/-!
# Specification: isomorphic factor graphs

A renaming gives new numbers to the factors, new positions to the variables of each factor, new names to the variables, and new
numbers to the states of each variable.
-/

namespace PGMax

variable {κ κ' α : Type _}

/-- A renaming of the parts of a factor graph. -/
structure Renaming where
  /-- the new number of a factor -/
  fac : Equiv.Perm Nat
  /-- the new position of a variable in the scope of a factor (given by its old number) -/
  pos : Nat → Equiv.Perm Nat
  /-- the new name of a variable -/
  var : Var → Var
  /-- the new number of a state of a variable (given by its old name) -/
  state : Var → Equiv.Perm Nat

/-- `r'` is the configuration `r` of factor `f` after the renaming, with the same log potential. -/
def Renaming.Row (R : Renaming) (f : Nat) (scope : List Var) (r r' : List Nat × α) : Prop :=
  r'.1.length = r.1.length ∧ r'.2 = r.2 ∧
  ∀ (i : Nat) (v : Var) (s : Nat), scope[i]? = some v → r.1[i]? = some s → r'.1[R.pos f i]? = some (R.state v s)

/-- The renaming `R` turns the graph `fg` with log potentials `lp` into the graph `fg'` with log potentials `lp'`. -/
structure Renaming.Iso [Zero α] (R : Renaming) (fg : FactorGraph κ α) (fg' : FactorGraph κ' α) (lp lp' : List α) : Prop where
  /-- as many factors -/
  facs : ∀ f, f < fg.allScopes.length ↔ R.fac f < fg'.allScopes.length
  /-- as many enumeration factors -/
  enums : ∀ f, f < (fg.scopesOf .enum).length ↔ R.fac f < (fg'.scopesOf .enum).length
  /-- factors have as many variables -/
  lengths : ∀ (f : Nat) (vs vs' : List Var), fg.allScopes[f]? = some vs → fg'.allScopes[R.fac f]? = some vs' → vs'.length = vs.length
  /-- the renamed variables, at their new positions -/
  scopes : ∀ f i v, IsEdge fg.allScopes f i v → IsEdge fg'.allScopes (R.fac f) (R.pos f i) (R.var v)
  /-- enumeration factors have the renamed configurations, in some order -/
  rows : ∀ (f : Nat) (F F' : SFac α), f < (fg.scopesOf .enum).length → (fg.factors lp)[f]? = some F → (fg'.factors lp')[R.fac f]? = some F' →
    ∃ l, l.Perm F'.rows ∧ List.Forall₂ (R.Row f F.scope) F.rows l
  /-- OR and AND factors have the same child, and in both graphs the same states of parents and child determine the others -/
  logical : ∀ (f : Nat) (vs : List Var), (fg.scopesOf .enum).length ≤ f → fg.allScopes[f]? = some vs →
    R.pos f (vs.length - 1) = vs.length - 1 ∧ ∀ v ∈ vs, R.state v (fg.restState f) = fg'.restState (R.fac f)

/-- The renaming is injective on the variables of a graph, gives variables of the other graph, and preserves the number of states. -/
structure Renaming.VarsOk (R : Renaming) (vars vars' : Finset Var) : Prop where
  known : ∀ v ∈ vars, R.var v ∈ vars'
  inj : ∀ v ∈ vars, ∀ w ∈ vars, R.var v = R.var w → v = w
  size : ∀ v ∈ vars, (R.var v).n = v.n
  states : ∀ v ∈ vars, ∀ s, s < v.n ↔ R.state v s < v.n

/-- The order of the parents of OR and AND factors is kept, or the evidence of every parent and child is far from preferring one state by `1e5`
(by 1000 for each factor). -/
def Renaming.OrderOk [Field α] [LE α] (R : Renaming) (fg : FactorGraph κ α) (ev : Var → Nat → α) : Prop :=
  ∀ (f : Nat) (vs : List Var), (fg.scopesOf .enum).length ≤ f → fg.allScopes[f]? = some vs →
    (∀ i < vs.length, R.pos f i = i) ∨
    ∀ v ∈ vs, 1000 * ((edgesOf fg.allScopes v).length : α) - 100000 ≤ ev v (1 - fg.restState f) - ev v (fg.restState f)

/-- Messages of two graphs that correspond under a renaming. -/
def Renaming.SameMsgs (R : Renaming) (scopes : List (List Var)) (m m' : Msgs α) : Prop :=
  ∀ f i v s, IsEdge scopes f i v → s < v.n → m' (R.fac f) (R.pos f i) (R.state v s) = m f i s

/-- Values of the states of the variables of two graphs that correspond under a renaming. -/
def Renaming.SameVals (R : Renaming) (vars : Finset Var) (x x' : Var → Nat → α) : Prop :=
  ∀ v ∈ vars, ∀ s < v.n, x' (R.var v) (R.state v s) = x v s

end PGMax
