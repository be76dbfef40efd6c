import Verif.Spec.SumProduct

/-!
# Specification: the distribution of a factor's configurations
-/

namespace PGMax

/-- The weight of a configuration of a factor with `n` variables: `exp ((log potential + incoming messages q) / T)`. -/
noncomputable def rowWeight (T : ℝ) (n : Nat) (q : Nat → Nat → ℝ) (row : List Nat × ℝ) : ℝ := Real.exp ((row.2 + ∑ j ∈ Finset.range n, q j (row.1.getD j 0)) / T)

/-- The probability that position `i` is in state `s`, if the configurations of the factor have probabilities proportional to their weights. -/
noncomputable def SFac.prob (T : ℝ) (F : SFac ℝ) (q : Nat → Nat → ℝ) (i s : Nat) : ℝ :=
  ((F.rowsAt i s).map (rowWeight T F.scope.length q)).sum / (F.rows.map (rowWeight T F.scope.length q)).sum

end PGMax
