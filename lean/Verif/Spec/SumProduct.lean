import Verif.Spec.Tree
import Mathlib.Analysis.SpecialFunctions.Log.Basic

/-!
# Specification: textbook sum-product belief propagation, and sums over joint assignments
-/

namespace PGMax

variable {α : Type _}

/-- `T log Σ exp (x / T)`. -/
noncomputable def lse (T : ℝ) (l : List ℝ) : ℝ := T * Real.log ((l.map (fun x => Real.exp (x / T))).sum)

/-- The message of a factor to its `i`-th variable in state `s`, if the factor summarises the scores (log potential plus the other
variables' messages) of the configurations with `c[i] = s` by `Φ`; minus infinity if there are none. -/
def sumOut [Add α] [Zero α] (Φ : List α → α) (F : SFac α) (q : Nat → Nat → α) (i s : Nat) : WithBot α :=
  if F.rowsAt i s = [] then ⊥ else WithBot.some (Φ ((F.rowsAt i s).map (scoreBut F.scope.length q i)))

/-- One synchronous iteration with damping `d`, in which factor `f` summarises scores by `Φ f`. -/
def sumStep [Field α] [LinearOrder α] (Φ : Nat → List α → α) (factors : List (SFac α)) (ev : Var → Nat → α) (d : α) (m : Msgs α) : Msgs α := fun f i =>
  match factors[f]? with
  | none => fun _ => 0
  | some F =>
    match F.scope[i]? with
    | none => fun _ => 0
    | some v => tbNorm v.n (fun s => (sumOut (Φ f) F (tbIn factors ev m f F) i s).map (fun x => d * m f i s + (1 - d) * x))

/-- `n` iterations from the messages `m`. Textbook sum-product at temperature `T` is `Φ f = lse T` for all factors. -/
def sumRun [Field α] [LinearOrder α] (Φ : Nat → List α → α) (factors : List (SFac α)) (ev : Var → Nat → α) (d : α) : Nat → Msgs α → Msgs α
  | 0, m => tbInit factors m
  | n + 1, m => sumStep Φ factors ev d (sumRun Φ factors ev d n m)

open Classical in
/-- All ways of giving the variables in `A` one of their states; the others are as in `x0`. -/
noncomputable def assignments (A : Finset Var) (x0 : Var → Nat) : Finset (Var → Nat) :=
  (A.pi (fun v => Finset.range v.n)).image (fun p v => if h : v ∈ A then p v h else x0 v)

/-- The weight of factor `F` in states `x`: the sum of `exp (log potential / T)` over its configurations equal to `x`. -/
noncomputable def SFac.weight (T : ℝ) (F : SFac ℝ) (x : Var → Nat) : ℝ :=
  ((F.rows.filter (fun r => r.1 = F.scope.map x)).map (fun r => Real.exp (r.2 / T))).sum

/-- The weight of an assignment: `exp (evidence / T)` times the weights of all factors. -/
noncomputable def jointWeight (T : ℝ) (vars : Finset Var) (factors : List (SFac ℝ)) (ev : Var → Nat → ℝ) (x : Var → Nat) : ℝ :=
  Real.exp ((∑ v ∈ vars, ev v (x v)) / T) * (factors.map (fun F => F.weight T x)).prod

/-- The total weight of the assignments with variable `v` in state `s`. -/
noncomputable def stateWeight (T : ℝ) (vars : Finset Var) (factors : List (SFac ℝ)) (ev : Var → Nat → ℝ) (v : Var) (s : Nat) : ℝ :=
  ∑ x ∈ assignments vars (fun _ => 0) with x v = s, jointWeight T vars factors ev x

/-- The total weight of all assignments (the partition function). -/
noncomputable def totalWeight (T : ℝ) (vars : Finset Var) (factors : List (SFac ℝ)) (ev : Var → Nat → ℝ) : ℝ :=
  ∑ x ∈ assignments vars (fun _ => 0), jointWeight T vars factors ev x

/-- How many messages go into the score of a configuration of `F` for position `i`: one for every other edge of every other variable. -/
def inputsBut (scopes : List (List Var)) (scope : List Var) (i : Nat) : Nat :=
  (((List.range scope.length).filter (fun j => j ≠ i)).map (fun j => (edgesOf scopes (scope.getD j ⟨0, 0⟩)).length - 1)).sum

end PGMax
