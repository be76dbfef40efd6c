import Verif.Model.Examples
import Verif.Model.BP

/-!
# Model of the parts of the programs in `examples/` that prepare and use inference

Random noise, images and parameters are arguments here.
-/

namespace PGMax

variable {κ α : Type _}

/-- `u = np.zeros(shape + (2,))`, `u[..., s] = values` (`pmp_binary_deconvolution.py:212-220`), in row-major order: the two entries of every cell,
given the list of `values` for the cells. -/
def setColumn [Zero α] (s : Nat) (values : List α) : List α := values.flatMap (fun v => if s = 0 then [v, 0] else [0, v])

/-- `examples/pmp_binary_deconvolution.py:212-236`: the entries of the dictionary `evidence_updates` for one of the samples of the batch
(`jax.vmap` takes one slice of every array).  `lS`, `lW`, `lX` are `logit(pS)`, `logit(pW)`, `logit(pX)`; `noiseS` and `noiseW` are the Gumbel
noise of this sample; `xGt` is `X_gt` in row-major order.  `SW` gets an array of the shape of `SW`, without an axis for the states. -/
def deconvUpdates [Ring α] (r : Deconv κ α) (lS lW lX : α) (noiseS noiseW xGt : List α) : List (EvidenceUpdate κ α) :=
  let uW := setColumn 1 (List.replicate r.W.shape.prod lW)
  let uS := setColumn 1 (List.replicate r.S.shape.prod lS)
  let uX := setColumn 0 (xGt.map (fun x => (2 * x - 1) * lX))
  [.group (.arr r.S) (.arr ⟨r.S.shape ++ [2], List.zipWith (· + ·) uS noiseS⟩),
   .group (.arr r.W) (.arr ⟨r.W.shape ++ [2], List.zipWith (· + ·) uW noiseW⟩),
   .group (.arr r.SW) (.arr ⟨r.SW.shape, List.replicate r.SW.shape.prod 0⟩),
   .group (.arr r.X) (.arr ⟨r.X.shape ++ [2], List.zipWith (· + ·) uX (List.replicate uX.length 0)⟩)]

/-- `bu_msg[f, r - hps : r + hps + 1, c - vps : c + vps + 1].ravel()` (`rcn.py:378`). -/
def rcnWindow (hps vps : Nat) (bu : NDArr α) (p : Int × Int × Int) : Py (List α) := do
  let pos ← flatPositions bu.shape [.int p.1, .slice (some (p.2.1 - hps)) (some (p.2.1 + hps + 1)) none,
    .slice (some (p.2.2 - vps)) (some (p.2.2 + vps + 1)) none]
  pure (pos.filterMap (fun i => bu.data[i]?))

/-- `evidence[v] = xs` for a row of length `m`: NumPy broadcasts an array with one entry; other lengths raise ValueError. Code: `examples/rcn.py:378`. -/
def assignRow (m : Nat) (xs : List α) : Py (List α) :=
  if xs.length = m then .ok xs
  else match xs with
    | [x] => .ok (List.replicate m x)
    | _ => .error .valueError

/-- `examples/rcn.py:369-380`, `get_evidence`; the rows of `frc` are triples. -/
def rcnEvidence (hps vps : Nat) (bu : NDArr α) (frc : List (Int × Int × Int)) : Py (NDArr α) := do
  let M := (2 * hps + 1) * (2 * vps + 1)
  let rows ← frc.mapM (fun p => do
    let xs ← rcnWindow hps vps bu p
    assignRow M xs)
  pure ⟨[frc.length, M], rows.flatten⟩

/-- `examples/rcn.py:397-399`: the argument of `bp.init`, a dictionary from arrays of variables to evidence. -/
def rcnUpdates (hps vps : Nat) (vars : List NDVarArray) (frcs : List (List (Int × Int × Int))) (bu : NDArr α) : Py (List (EvidenceUpdate κ α)) :=
  (vars.zip frcs).mapM (fun p => do
    let e ← rcnEvidence hps vps bu p.2
    pure (.group (.arr p.1) (.arr e)))

/-- `examples/rcn.py:411-415`: `jnp.sum(evidence[jnp.arange(map.shape[0]), map])`; `jax.numpy` moves indices that are too large to the last
entry of the axis. -/
def rcnScore [Zero α] [Add α] (evidence : NDArr α) (map : NDArr Nat) : α :=
  let n := evidence.shape.getD 0 0
  let m := evidence.shape.getD 1 0
  ((List.range map.data.length).map (fun i => evidence.data.getD (min i (n - 1) * m + min (map.data.getD i 0) (m - 1)) 0)).sum

/-- The array of decoded states, if the group is an array. Code: `examples/rcn.py:410-417`. -/
def GroupStates.arr? : GroupStates κ → Option (NDArr Nat)
  | .arr a => some a
  | .dict _ => none

/-- `examples/rcn.py:410-417`: the scores of all networks for one image, from their evidence and decoded states. -/
def rcnScores [Zero α] [Add α] (evidence : List (NDArr α)) (maps : List (NDArr Nat)) : List α := List.zipWith rcnScore evidence maps

/-- `examples/rcn.py:426`: `np.argmax(scores, axis=1)`, for one image. -/
def rcnBestModel [LinearOrder α] (scores : List α) : Nat := argmax scores

/-- `examples/rcn.py:206-285` and `384-426` for one image: the decoded states and the scores of all networks, in order, and the index of the network that the program predicts.
`rcn` (`Verif.Model.Examples`) builds the graph; `n` is `num_iters`, which is 30 in the program, and `d` the damping, whose default is 1/2.  The scores of the program are
computed by `tree_multimap` over two dictionaries with the same keys; here they are lists in the order of the networks. -/
def rcnInfer (κ : Type) {α : Type} [Field α] [LinearOrder α] [DecidableEq κ] (env : Env α) (idV : Nat → Nat) (idF : Nat → Nat → Nat) (garbage : Garbage) (stateId : Nat)
    (hps vps : Nat) (frcs : List (List (Int × Int × Int))) (edges : List (List (Nat × Nat × Nat))) (bu : NDArr α) (n : Nat) (d : α) : Py (List (NDArr Nat) × List α × Nat) := do
  let r ← rcn (κ := κ) (α := α) idV idF hps vps (frcs.map List.length) edges
  let st ← r.2.fgState garbage
  let state ← bpStateOf stateId st
  let bp ← BP.create st state 0
  let ups ← rcnUpdates hps vps r.1 frcs bu
  let arrs ← bp.update none none none (some ups)
  let bs ← bp.getBeliefs (bp.runBP env arrs n d)
  let rs ← decodeMapStates bs
  let es ← frcs.mapM (rcnEvidence hps vps bu)
  let maps := rs.filterMap (fun p => p.2.arr?)
  pure (maps, rcnScores es maps, rcnBestModel (rcnScores es maps))

/-- `examples/rcn.py:443-446`: `activations`, the positions that are drawn for the decoded states of a model. -/
def rcnActivations (hps vps : Nat) (frc : List (Int × Int × Int)) (map : NDArr Nat) : List (Int × Int) :=
  List.zipWith (fun p (s : Nat) => (p.2.1 + ((s / (2 * vps + 1) : Nat) - (hps : Int)), p.2.2 + ((s % (2 * vps + 1) : Nat) - (vps : Int)))) frc map.data

end PGMax
