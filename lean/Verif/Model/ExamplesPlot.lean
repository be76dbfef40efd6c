import Verif.Model.ExamplesDeconv
import Mathlib.Data.Nat.Sqrt

/-!
# Model of `plot_images` in `examples/pmp_binary_deconvolution.py`

The array that the function returns; `plt.figure` and `plt.imshow` only show it.
-/

namespace PGMax

/-- Exceptions of `plot_images`. Code: `examples/pmp_binary_deconvolution.py:35-64`. -/
inductive PlotErr
  | valueError | typeError | zeroDivisionError | assertionError | keyError
  deriving DecidableEq, Repr

section
variable {α : Type _}

/-- `images.min()`; empty arrays have none. Code: `examples/pmp_binary_deconvolution.py:38`. -/
def arrMin [LinearOrder α] : List α → Except PlotErr α
  | [] => .error .valueError
  | x :: xs => .ok (xs.foldl min x)

/-- `images.max()`; empty arrays have none. Code: `examples/pmp_binary_deconvolution.py:39`. -/
def arrMax [LinearOrder α] : List α → Except PlotErr α
  | [] => .error .valueError
  | x :: xs => .ok (xs.foldl max x)

/-- `np.ceil(np.sqrt(n)).astype(int)`, without rounding errors. Code: `examples/pmp_binary_deconvolution.py:42`. -/
def ceilSqrt (n : Nat) : Nat := if Nat.sqrt n * Nat.sqrt n = n then Nat.sqrt n else Nat.sqrt n + 1

/-- `examples/pmp_binary_deconvolution.py:41-45`: the numbers of rows and columns of images. -/
def plotGrid (n : Nat) (nr : Option Int) : Except PlotErr (Int × Int) :=
  match nr with
  | none => .ok (ceilSqrt n, ceilSqrt n)
  | some nr =>
    if nr = 0 then .error .zeroDivisionError
    else if (n : Int) = nr * Int.fdiv n nr then .ok (nr, Int.fdiv n nr) else .error .assertionError

/-- `examples/pmp_binary_deconvolution.py:46-48`: black, with every `(H + 1)`-th row purple. -/
def plotBlank [Field α] (H : Nat) : Nat → Nat → Nat → α := fun y _ ch => if y % (H + 1) = 0 then [1 / 2, 0, 1 / 2].getD ch 0 else 0

/-- `examples/pmp_binary_deconvolution.py:54-58`: the assignment to a block, `images` in row-major order. -/
def plotWrite [Field α] (H W r c im : Nat) (images : List α) (big : Nat → Nat → Nat → α) : Nat → Nat → Nat → α := fun y x ch =>
  if (H + 1) * r + 1 ≤ y ∧ y < (H + 1) * r + 1 + H ∧ (W + 1) * c + 1 ≤ x ∧ x < (W + 1) * c + 1 + W then images.getD ((im * H + (y - ((H + 1) * r + 1))) * W + (x - ((W + 1) * c + 1))) 0 else big y x ch

/-- `examples/pmp_binary_deconvolution.py:50-59`: the two loops, with the counter `im`. -/
def plotLoop [Field α] (n H W nr nc : Nat) (images : List α) (big : Nat → Nat → Nat → α) : (Nat → Nat → Nat → α) × Nat :=
  (List.range nr).foldl (fun st r => (List.range nc).foldl (fun st c => (if st.2 < n then plotWrite H W r c st.2 images st.1 else st.1, st.2 + 1)) st) (big, 0)

/-- An array with three axes. Code: `examples/pmp_binary_deconvolution.py:46-48`. -/
def tabulate3 (a b c : Nat) (f : Nat → Nat → Nat → α) : List α := (List.range a).flatMap fun y => (List.range b).flatMap fun x => (List.range c).map fun ch => f y x ch

/-- `examples/pmp_binary_deconvolution.py:35-64`: the array that `plot_images` returns.  `eps` is `1e-10`.  `intNumpy` says that `images` is a NumPy array of integers (or Booleans): for these the
assignment `/=` raises; arrays of floating-point numbers and JAX arrays are divided. -/
def plotImages [Field α] [LinearOrder α] (eps : α) (intNumpy : Bool) (images : NDArr α) (nr : Option Int) : Except PlotErr (NDArr α) :=
  match images.shape with
  | [n, H, W] => do
    let mn ← arrMin images.data
    let shifted := images.data.map (fun x => x - mn)
    let mx ← arrMax shifted
    if intNumpy then .error .typeError
    else
      let scaled := shifted.map (fun x => x / (mx + eps))
      let grid ← plotGrid n nr
      if (H + 1) * grid.1 + 1 < 0 ∨ (W + 1) * grid.2 + 1 < 0 then .error .valueError
      else
        let a := ((H + 1) * grid.1 + 1).toNat
        let b := ((W + 1) * grid.2 + 1).toNat
        let big := (plotLoop n H W grid.1.toNat grid.2.toNat scaled (plotBlank H)).1
        pure ⟨[a, b, 3], tabulate3 a b 3 big⟩
  | _ => .error .valueError

end

/-- `examples/pmp_binary_deconvolution.py:253`: `plot_images(map_states[W].reshape(-1, feat_height, feat_width), nr=n_samples)`; the decoded states (a JAX array) are numbers here. -/
def deconvPlot {κ α : Type} [Field α] [LinearOrder α] [DecidableEq κ] (eps : α) (W : NDVarArray) (fH fW n : Nat) (maps : PyTree κ Nat) : Except PlotErr (NDArr α) :=
  match (maps.treedef.zip maps.leaves).find? (fun p => decide (p.1.1 = .arr W)) with
  | some (_, w) => plotImages eps false ⟨[w.data.length / (fH * fW), fH, fW], w.data.map (fun (k : Nat) => (k : α))⟩ (some n)
  | none => .error .keyError

end PGMax
