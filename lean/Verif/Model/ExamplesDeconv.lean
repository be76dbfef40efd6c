import Verif.Model.Batch
import Verif.Model.ExamplesRun

/-!
# Model of inference in `examples/pmp_binary_deconvolution.py`

The arrays of Gumbel noise are arguments here.
-/

namespace PGMax

/-- What the program makes before it draws samples. Code: `examples/pmp_binary_deconvolution.py:111-201`. -/
structure DeconvSetup (κ α : Type _) where
  net : Deconv κ α
  bp : BPFun κ α

/-- `examples/pmp_binary_deconvolution.py:111-187` and `201`: the graph (`deconv` of `Verif.Model.Examples`) and `bp`. -/
def deconvSetup (κ : Type) (α : Type) [Field α] [LinearOrder α] [DecidableEq κ] (idW idS idSW idX idA idO : Nat) (garbage : Garbage) (stateId : Nat) (nImg nChan imH imW nFeat fH fW : Nat) :
    Py (DeconvSetup κ α) := do
  let r ← deconv (κ := κ) (α := α) idW idS idSW idX idA idO nImg nChan imH imW nFeat fH fW
  let st ← r.fg.fgState garbage
  let state ← bpStateOf stateId st
  let bp ← BP.create st state 0
  pure ⟨r, bp⟩

/-- The decoded states of a single sample: `bp.init`, `bp.run_bp`, `bp.get_beliefs` and `decode_map_states` of
`examples/pmp_binary_deconvolution.py:229-245` without the batch. -/
def deconvSample {κ α : Type} [Field α] [LinearOrder α] [DecidableEq κ] (env : Env α) (s : DeconvSetup κ α) (lS lW lX : α) (noiseS noiseW xGt : List α) :
    Py (List (VGroup κ × GroupStates κ)) := do
  let arrs ← s.bp.update none none none (some (deconvUpdates s.net lS lW lX noiseS noiseW xGt))
  let bs ← s.bp.getBeliefs (s.bp.runBP env arrs 100 (1 / 2))
  decodeMapStates bs

/-- `u[None] + v` for an array `v` with one more axis, of length `n`, in row-major order. Code: `examples/pmp_binary_deconvolution.py:231-234`. -/
def addBatch {α : Type _} [Add α] (n : Nat) (u v : List α) : List α := List.zipWith (· + ·) (List.replicate n u).flatten v

/-- `examples/pmp_binary_deconvolution.py:211-245`: `map_states`.  `lS`, `lW`, `lX` are `logit(pS)`, `logit(pW)`, `logit(pX)`; `noiseS` and `noiseW` are the arrays of Gumbel noise, `xGt` is
`X_gt`, all in row-major order. -/
def deconvSamples {κ α : Type} [Field α] [LinearOrder α] [DecidableEq κ] (env : Env α) (s : DeconvSetup κ α) (n : Nat) (lS lW lX : α) (noiseS noiseW xGt : List α) :
    Py (PyTree κ Nat) := do
  let uW := setColumn 1 (List.replicate s.net.W.shape.prod lW)
  let uS := setColumn 1 (List.replicate s.net.S.shape.prod lS)
  let uX := setColumn 0 (xGt.map (fun x => (2 * x - 1) * lX))
  let batch ← s.bp.vmapInit [
    (.arr s.net.S, ⟨n :: (s.net.S.shape ++ [2]), addBatch n uS noiseS⟩),
    (.arr s.net.W, ⟨n :: (s.net.W.shape ++ [2]), addBatch n uW noiseW⟩),
    (.arr s.net.SW, ⟨n :: s.net.SW.shape, List.replicate (n * s.net.SW.shape.prod) 0⟩),
    (.arr s.net.X, ⟨n :: (s.net.X.shape ++ [2]), addBatch n uX (List.replicate (n * uX.length) 0)⟩)]
  let beliefs ← s.bp.vmapBeliefs (s.bp.vmapRun env batch 100 (1 / 2))
  decodeTree beliefs

end PGMax
