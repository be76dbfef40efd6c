import Verif.Spec.SumProduct
import Verif.Spec.Consistent
import Verif.Spec.Tree
import Mathlib.Analysis.SpecialFunctions.Log.Basic

/-!
# Specification: distributions of variables and factors, and their Bethe free energy
-/

namespace PGMax

/-- The number of edges of a variable. -/
def degree (scopes : List (List Var)) (v : Var) : Nat := (edgesOf scopes v).length

/-- The probability of the `k`-th configuration of a factor, if these are proportional to their weights. -/
noncomputable def SFac.rowProb (T : ℝ) (F : SFac ℝ) (q : Nat → Nat → ℝ) (k : Nat) : ℝ :=
  rowWeight T F.scope.length q (F.rows.getD k ([], 0)) / (F.rows.map (rowWeight T F.scope.length q)).sum

/-- The probability of the states `x`: that of all configurations equal to them. -/
noncomputable def SFac.assignProb (T : ℝ) (F : SFac ℝ) (q : Nat → Nat → ℝ) (x : Var → Nat) : ℝ :=
  ((F.rows.filter (fun r => r.1 = F.scope.map x)).map (rowWeight T F.scope.length q)).sum / (F.rows.map (rowWeight T F.scope.length q)).sum

/-- The distribution of a variable's states by its belief at temperature `T`. -/
noncomputable def stateDist (T : ℝ) (factors : List (SFac ℝ)) (ev : Var → Nat → ℝ) (m : Msgs ℝ) (v : Var) (s : Nat) : ℝ :=
  gibbs (fun s => beliefOf (factors.map (·.scope)) ev m v s / T) v.n s

/-- The distribution of the configurations of factor `f`: proportional to `exp` of log potential and incoming messages, divided by `T`. -/
noncomputable def rowDist (T : ℝ) (factors : List (SFac ℝ)) (ev : Var → Nat → ℝ) (m : Msgs ℝ) (f k : Nat) : ℝ :=
  (factors.getD f ⟨[], []⟩).rowProb T (tbIn factors ev m f (factors.getD f ⟨[], []⟩)) k

/-- The probability of the states `x` by this distribution. -/
noncomputable def factorDist (T : ℝ) (factors : List (SFac ℝ)) (ev : Var → Nat → ℝ) (m : Msgs ℝ) (f : Nat) (x : Var → Nat) : ℝ :=
  (factors.getD f ⟨[], []⟩).assignProb T (tbIn factors ev m f (factors.getD f ⟨[], []⟩)) x

/-- The positions of the configurations of a factor in which position `i` is in state `s`. -/
def SFac.placesAt (F : SFac ℝ) (i s : Nat) : Finset Nat := (Finset.range F.rows.length).filter (fun k => (F.rows.getD k ([], 0)).1[i]? = some s)

/-- Numbers `P f k` for the configurations of all factors and `b v s` for the states of all variables, such that all have the total `c`, and summing those of the configurations of a factor
gives those of the states of its variables.  Distributions have the total 1, differences of distributions the total 0. -/
structure LocallyConsistent (vars : Finset Var) (factors : List (SFac ℝ)) (c : ℝ) (P : Nat → Nat → ℝ) (b : Var → Nat → ℝ) : Prop where
  states : ∀ v ∈ vars, ∑ s ∈ Finset.range v.n, b v s = c
  tables : ∀ f F, factors[f]? = some F → ∑ k ∈ Finset.range F.rows.length, P f k = c
  edges : ∀ f F i v, factors[f]? = some F → F.scope[i]? = some v → ∀ s < v.n, ∑ k ∈ F.placesAt i s, P f k = b v s

/-- The Bethe free energy at temperature `T`: energy less `T` times entropy, where the entropy is that of all factors, less that of every variable as often as it has edges too many. -/
noncomputable def betheEnergy (T : ℝ) (vars : Finset Var) (factors : List (SFac ℝ)) (ev : Var → Nat → ℝ) (P : Nat → Nat → ℝ) (b : Var → Nat → ℝ) : ℝ :=
  ∑ f ∈ Finset.range factors.length, ∑ k ∈ Finset.range (factors.getD f ⟨[], []⟩).rows.length, P f k * (T * Real.log (P f k) - ((factors.getD f ⟨[], []⟩).rows.getD k ([], 0)).2)
    - ∑ v ∈ vars, ∑ s ∈ Finset.range v.n, b v s * (ev v s + ((degree (factors.map (·.scope)) v : ℝ) - 1) * (T * Real.log (b v s)))

/-- What the totals of the weights say about the logarithm of the partition function: the totals of all factors, less that of every variable as often as it has edges too many. -/
noncomputable def betheLogTotal (T : ℝ) (vars : Finset Var) (factors : List (SFac ℝ)) (ev : Var → Nat → ℝ) (m : Msgs ℝ) : ℝ :=
  ∑ f ∈ Finset.range factors.length, Real.log ((factors.getD f ⟨[], []⟩).rows.map (rowWeight T (factors.getD f ⟨[], []⟩).scope.length (tbIn factors ev m f (factors.getD f ⟨[], []⟩)))).sum
    - ∑ v ∈ vars, ((degree (factors.map (·.scope)) v : ℝ) - 1) * Real.log (∑ s ∈ Finset.range v.n, Real.exp (beliefOf (factors.map (·.scope)) ev m v s / T))

/-- The total weight of the assignments with the states `x0` on the variables `vs`. -/
noncomputable def clusterWeight (T : ℝ) (vars : Finset Var) (factors : List (SFac ℝ)) (ev : Var → Nat → ℝ) (vs : List Var) (x0 : Var → Nat) : ℝ :=
  ∑ x ∈ assignments vars (fun _ => 0) with vs.map x = vs.map x0, jointWeight T vars factors ev x

end PGMax
