import Mathlib.Algebra.Order.Field.Basic
import Mathlib.Data.List.Basic
import Mathlib.Data.List.Nodup

/-!
# NumPy / JAX array primitives used by PGMax

Arrays are lists (1-D) or a shape together with row-major data (n-D).  Every primitive below is the
documented behaviour of the NumPy / JAX operation that the cited PGMax lines call; together they form
the part of the trusted base that concerns the libraries.  Where a library's behaviour outside the
well-formed case is unspecified or version dependent it is a *parameter* (`Env`), and theorems are
stated for every value of the parameter.
-/

namespace PGMax

/-- Python exceptions raised by the modelled code (exceptions are values in the model). Code: the `raise` statements, e.g. `pgmax/factor/enum.py:69-101`, and the exceptions of NumPy, e.g. `pgmax/vgroup/varray.py:105`. -/
inductive PyErr
  | valueError | indexError | keyError | assertionError | attributeError | notImplemented
  deriving DecidableEq, Repr

/-- A Python computation that either returns or raises. Code: e.g. `pgmax/factor/enum.py:67-101`. -/
abbrev Py (α : Type _) := Except PyErr α

/-- An n-dimensional NumPy/JAX array: its shape and its row-major ("C order") data. Code: e.g. the arguments and results at `pgmax/vgroup/varray.py:88-152`. -/
structure NDArr (α : Type _) where
  shape : List Nat
  data : List α
  deriving DecidableEq, Repr

/-- Every NumPy array has as many elements as its shape says. Code: assumed of the arrays at `pgmax/vgroup/varray.py:88-152`. -/
def NDArr.WF {α : Type _} (a : NDArr α) : Prop := a.data.length = a.shape.prod

instance {α : Type _} (a : NDArr α) : Decidable a.WF := inferInstanceAs (Decidable (_ = _))

/-- What is not fixed by the model: `jnp.exp` and `jnp.log`; the value an out-of-bounds gather yields
(JAX clamps or fills, depending on version and mode); whether `lax.dynamic_slice` adds the dimension to
negative start indices before clamping (JAX 0.3.13, the version in /repo/poetry.lock, does; plain XLA does
not).  Theorems quantify over the components they do not constrain. Code: `pgmax/infer/bp.py:359`, `pgmax/factor/enum.py:295-312`, `pgmax/factor/logical.py:397`. -/
structure Env (α : Type _) where
  exp : α → α
  log : α → α
  oob : α
  wrapNeg : Bool

/-- `pgmax/utils.py:6-8`: `NEG_INF = -100000.0`. -/
def NEG_INF {α : Type _} [Field α] : α := -100000

/-- `np.cumsum` starting from an accumulator. Code: `pgmax/factor/enum.py:193`, `pgmax/fgraph/fgraph.py:99`. -/
def cumsumFrom (a : Nat) : List Nat → List Nat
  | [] => []
  | n :: ns => (a + n) :: cumsumFrom (a + n) ns

/-- `np.cumsum(ns)`. Code: `pgmax/factor/enum.py:123`, `193`, `pgmax/factor/logical.py:118`, `184`, `pgmax/fgraph/fgraph.py:99`, `pgmax/infer/bp_utils.py:45`. -/
def cumsum (ns : List Nat) : List Nat := cumsumFrom 0 ns

/-- `np.insert(np.cumsum(ns), 0, 0)` (fgraph.py:99, enum.py:193,207, logical.py:184,189). -/
def cumsum0 (ns : List Nat) : List Nat := 0 :: cumsum ns

/-- `np.arange(start, stop, 2)` (logical.py:262-266). -/
def arange2 (start stop : Nat) : List Nat :=
  (List.range ((stop - start + 1) / 2)).map (fun k => start + 2 * k)

/-- NumPy/JAX slice assignment `xs[start:stop] = vals` (also `xs.at[start:stop].set(vals)`).
The slice is clamped to the array; `vals` must have the length of the slice or length one
(broadcasting), otherwise an error is raised. Code: `pgmax/infer/bp_state.py:72`, `190`, `274`, `279`, `pgmax/infer/bp.py:195`, `pgmax/factor/factor.py:91`. -/
def sliceAssign {α : Type _} (xs : List α) (start stop : Nat) (vals : List α) : Py (List α) :=
  let a := min start xs.length
  let len := min stop xs.length - a
  if vals.length = len then .ok (xs.take a ++ vals ++ xs.drop (a + len))
  else match vals with
    | [v] => .ok (xs.take a ++ List.replicate len v ++ xs.drop (a + len))
    | _ => .error .valueError

/-- NumPy slice `xs[start:stop]` with non-negative bounds. Code: `pgmax/infer/bp_state.py:108-125`, `313-325`, `pgmax/infer/bp.py:190-191`, `246`. -/
def slice {α : Type _} (xs : List α) (start stop : Nat) : List α := (xs.take stop).drop start

/-- `xs.at[idx].op(vals)` for a commutative `op` (`add`, `max`), or `set` when `idx` has no duplicates:
process the updates in order, an out-of-bounds index is dropped (JAX's default scatter mode). Code: `pgmax/infer/bp.py:300`, `pgmax/factor/enum.py:287-303`, `pgmax/factor/logical.py:293-301`. -/
def scatterWith {α β : Type _} (f : α → β → α) (xs : List α) (idx : List Nat) (vals : List β) : List α :=
  (idx.zip vals).foldl (fun acc p => acc.modify p.1 (fun x => f x p.2)) xs

/-- `xs.at[idx].add(vals)`. Code: `pgmax/infer/bp.py:264`, `300`, `pgmax/factor/enum.py:287`, `301`, `pgmax/factor/logical.py:366`, `405`. -/
def scatterAdd {α : Type _} [Add α] (xs : List α) (idx : List Nat) (vals : List α) : List α :=
  scatterWith (· + ·) xs idx vals

/-- `xs.at[idx].max(vals)`. Code: `pgmax/factor/enum.py:292`, `pgmax/factor/logical.py:293`, `300`. -/
def scatterMax {α : Type _} [Max α] (xs : List α) (idx : List Nat) (vals : List α) : List α :=
  scatterWith max xs idx vals

/-- `xs.at[idx].set(vals)`. Code: `pgmax/factor/logical.py:358`, `377`, `427-435`. -/
def scatterSet {α : Type _} (xs : List α) (idx : List Nat) (vals : List α) : List α :=
  scatterWith (fun _ v => v) xs idx vals

/-- `xs[idx]` for an index array; `oob` is the result for an out-of-bounds index. Code: `pgmax/infer/bp.py:301`, `pgmax/factor/enum.py:288`, `293`. -/
def gather {α : Type _} (oob : α) (xs : List α) (idx : List Nat) : List α :=
  idx.map (fun i => xs.getD i oob)

/-- NumPy/JAX index normalisation for an array of length `n`: a negative index counts from the end.
An index that stays out of bounds is mapped to `n` (so that gathers yield `oob` and scatters drop it). Code: `pgmax/factor/logical.py:427`, `432`, `435`. -/
def wrapIdx (n : Nat) (i : Int) : Nat :=
  if 0 ≤ i then i.toNat
  else if 0 ≤ i + n then (i + n).toNat
  else n

/-- `jnp.tile(xs, k)` for a 1-D array. Code: `pgmax/fgroup/enum.py:125`, `328`. -/
def tile {α : Type _} (xs : List α) (k : Nat) : List α := (List.replicate k xs).flatten

/-- `jnp.repeat(xs, reps, total_repeat_length=n)`: truncated, or padded with the last value. Code: `pgmax/infer/bp.py:325-329`. -/
def repeatTo {α : Type _} (oob : α) (xs : List α) (reps : List Nat) (n : Nat) : List α :=
  let r := (xs.zip reps).flatMap (fun p => List.replicate p.2 p.1)
  r.take n ++ List.replicate (n - r.length) (r.getLastD oob)

/-- `x.reshape((a, b))` of a 1-D array, as a list of rows. Code: `pgmax/fgroup/enum.py:159`, `163`, `363`, `369`. -/
def rows {α : Type _} (xs : List α) (a b : Nat) : List (List α) :=
  (List.range a).map (fun i => slice xs (i * b) (i * b + b))

end PGMax
