import Verif.Spec.Beliefs
import Verif.Spec.SumProduct
import Mathlib.Analysis.SpecialFunctions.Log.Basic

/-!
# Specification: what the GMRF program should predict

The states of a pixel are clones of three classes: the first `k₀` states of class 0, the next `k₁` of class 1, the others of class 2.
-/

namespace PGMax

/-- The class of a state. -/
def cloneClass (k₀ k₁ s : Nat) : Nat := if s < k₀ then 0 else if s < k₀ + k₁ then 1 else 2

/-- The probability of a class, if `P` are the probabilities of the `K` states. -/
noncomputable def classProb (k₀ k₁ K : Nat) (P : Nat → ℝ) (y : Nat) : ℝ := ∑ s ∈ (Finset.range K).filter (fun s => cloneClass k₀ k₁ s = y), P s

/-- The probability of the observation `y` of a pixel of class `c`: a pixel is observed as 0 with probability `p c`. -/
noncomputable def observation (p : Nat → ℝ) (y : ℝ) (c : Nat) : ℝ := if y = 0 then p c else 1 - p c

/-- `P` is a distribution on `K` states, without zeros. -/
def IsPosDist (K : Nat) (P : Nat → ℝ) : Prop := (∀ s < K, 0 < P s) ∧ ∑ s ∈ Finset.range K, P s = 1

/-- The array has the numbers `P c s` for the pixels `c` (in row-major order) of `M` by `N` images and states `s`. -/
def HoldsPixels (M N K : Nat) (a : NDArr (Option ℝ)) (P : Nat → Nat → ℝ) : Prop :=
  a.shape = [M, N, K] ∧ a.WF ∧ ∀ c < M * N, ∀ s < K, a.data[c * K + s]? = some (some (P c s))

/-! ## The field of pixels -/

/-- A factor of two variables with the matrix `A` of log potentials, row by row. -/
def pairFac (K : Nat) (A : List ℝ) (v w : Var) : SFac ℝ := ⟨[v, w], (List.range K).flatMap (fun s => (List.range K).map (fun t => ([s, t], A.getD (s * K + t) 0)))⟩

/-- All pairs of numbers below `m` and `n`. -/
def pairsOf (m n : Nat) : List (Nat × Nat) := (List.range m).flatMap (fun i => (List.range n).map (fun j => (i, j)))

/-- The factors of a field of `M` by `N` pixels: `A` between a pixel and the one below, `B` between a pixel and the one to the right, `C` between a pixel and the one below and to the right,
and `D` between a pixel and the one above and to the right.  `pix` are the variables of the pixels, row by row. -/
def fieldFactors (pix : Nat → Var) (M N K : Nat) (A B C D : List ℝ) : List (SFac ℝ) :=
  (pairsOf (M - 1) N).map (fun p => pairFac K A (pix (p.1 * N + p.2)) (pix ((p.1 + 1) * N + p.2))) ++
  ((pairsOf M (N - 1)).map (fun p => pairFac K B (pix (p.1 * N + p.2)) (pix (p.1 * N + (p.2 + 1)))) ++
  ((pairsOf (M - 1) (N - 1)).map (fun p => pairFac K C (pix (p.1 * N + p.2)) (pix ((p.1 + 1) * N + (p.2 + 1)))) ++
  (pairsOf (M - 1) (N - 1)).map (fun p => pairFac K D (pix ((p.1 + 1) * N + p.2)) (pix (p.1 * N + (p.2 + 1))))))

/-- The marginals of the variable `v` after `n` iterations of sum-product, from messages that are zero. -/
noncomputable def sumProductMarginal (factors : List (SFac ℝ)) (ev : Var → Nat → ℝ) (n : Nat) (v : Var) : Nat → ℝ :=
  gibbs (beliefOf (factors.map (·.scope)) ev (sumRun (fun _ => lse 1) factors ev 0 n (fun _ _ _ => 0)) v) v.n

end PGMax
