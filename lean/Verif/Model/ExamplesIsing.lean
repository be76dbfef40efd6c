import Verif.Model.Batch
import Verif.Model.Examples

/-!
# Model of inference in `examples/ising_model.py`

The arrays of noise and the number of iterations (3000) are arguments here.
-/

namespace PGMax

/-- What the program makes before it runs belief propagation. Code: `examples/ising_model.py:29-50`. -/
structure IsingSetup (κ α : Type _) where
  vars : NDVarArray
  group : FGroup α
  bp : BPFun κ α

/-- `examples/ising_model.py:29-50`: the graph (`ising` of `Verif.Model.Examples`) and `bp`. -/
def isingSetup (κ : Type) {α : Type} [Field α] [LinearOrder α] (idV idF : Nat) (garbage : Garbage) (stateId : Nat) (m n : Nat) (J : α) : Py (IsingSetup κ α) := do
  let r ← ising (κ := κ) idV idF m n J
  let st ← r.2.2.fgState garbage
  let state ← bpStateOf stateId st
  let bp ← BP.create st state 0
  pure ⟨r.1, r.2.1, bp⟩

/-- `examples/ising_model.py:53-56` and `70-73`: `bp.init` with evidence for `variables` and, in `loss`, log potentials, and `bp.run_bp` with the default damping 0.5. -/
def isingRun {κ α : Type} [Field α] [LinearOrder α] [DecidableEq κ] (env : Env α) (s : IsingSetup κ α) (lps : Option (List (FGroup α × NDArr α))) (E : NDArr α) (numIters : Nat) :
    Py (BPArrays α) := do
  let arrs ← s.bp.update none lps none (some [.group (.arr s.vars) (.arr E)])
  pure (s.bp.runBP env arrs numIters (1 / 2))

/-- `examples/ising_model.py:53-60`: `img`. -/
def isingImage {κ α : Type} [Field α] [LinearOrder α] [DecidableEq κ] (env : Env α) (s : IsingSetup κ α) (E : NDArr α) (numIters : Nat) : Py (NDArr Nat) := do
  let arrs ← isingRun env s none E numIters
  let bs ← s.bp.getBeliefs arrs
  match ← decodeMapStates bs with
  | [(_, .arr a)] => pure a
  | _ => .error .keyError

/-- `-jnp.sum(a)`; `none` (infinity) if there is an entry `-inf`. Code: `examples/ising_model.py:75`. -/
def negSum {α : Type} [Field α] (a : NDArr (WithBot α)) : Option α :=
  match a.data.sum with
  | ⊥ => none
  | (x : α) => some (-x)

/-- `examples/ising_model.py:69-76`: `loss`. -/
def isingLoss {κ α : Type} [Field α] [LinearOrder α] [DecidableEq κ] (env : Env α) (s : IsingSetup κ α) (lps : Option (List (FGroup α × NDArr α))) (E : NDArr α) (numIters : Nat) :
    Py (Option α) := do
  let arrs ← isingRun env s lps E numIters
  match ← s.bp.getBeliefs arrs with
  | [(_, .arr a)] => pure (negSum a)
  | _ => .error .keyError

/-- `examples/ising_model.py:79`, `83`: `batch_loss(None, {variables: E})`; `jax.vmap` computes `loss` for every sample. -/
def isingBatchLoss {κ α : Type} [Field α] [LinearOrder α] [DecidableEq κ] (env : Env α) (s : IsingSetup κ α) (E : NDArr α) (numIters : Nat) : Py (NDArr (Option α)) :=
  match E.shape with
  | [] => .error .valueError
  | n :: _ => do
    let ls ← (List.range n).mapM (fun k => isingLoss env s none (E.sample k) numIters)
    pure ⟨[n], ls⟩

/-- The value after an assignment, or its exception. Code: `examples/ising_model.py:95-109`. -/
def Part.assigned {α : Type _} (r : Part α × Option PyErr) : Py (Part α) :=
  match r.2 with
  | some e => .error e
  | none => .ok r.1

/-- `examples/ising_model.py:95-109`: the evidence of cell (0, 0), the same after it has been set to `x`, and the evidence of cell `(a, b)` (there `(10, 10)`) after the evidence of all cells has been
set to `E`. -/
def isingEvidence {κ α : Type} [Field α] [LinearOrder α] [DecidableEq κ] (s : IsingSetup κ α) (stateId : Nat) (arrs : BPArrays α) (x E : NDArr α) (a b : Nat) : Py (List α × List α × List α) := do
  let state ← s.bp.toBPState stateId arrs
  let v ← s.vars.at [0, 0]
  let q₀ ← Evidence.getitem s.bp.st state.evidence.value v
  let p₁ ← Part.assigned (Evidence.setitem s.bp.st state.evidence (.var v x))
  let q₁ ← Evidence.getitem s.bp.st p₁.value v
  let p₂ ← Part.assigned (Evidence.setitem s.bp.st p₁ (.group (.arr s.vars) (.arr E)))
  let w ← s.vars.at [(a : Int), (b : Int)]
  let q₂ ← Evidence.getitem s.bp.st p₂.value w
  pure (q₀, q₁, q₂)

end PGMax
