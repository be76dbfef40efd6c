import Verif.Model.ExamplesRun

/-!
# Model of `get_bu_msg` in `examples/rcn.py`, and of the whole program

The result of the convolutions (`rcn.py:309-313`, `fftconvolve`) is an argument here.  Images are lists of rows of pixels, put together in row-major order.
-/

namespace PGMax

variable {κ α : Type _}

/-- The position inside an axis of length `n` that is nearest to `x` (`mode="nearest"` of `scipy.ndimage`). Code: `examples/rcn.py:320`. -/
def nearest (n : Nat) (x : Int) : Nat := min x.toNat (n - 1)

/-- `max` of a list of numbers, where NumPy raises ValueError for an empty list. Code: inside of `maximum_filter` at `examples/rcn.py:320`. -/
def imgMax [LinearOrder α] : List α → Py α
  | [] => .error .valueError
  | x :: xs => .ok (xs.foldl max x)

/-- `scipy.ndimage.maximum_filter(layer, footprint=mask, mode="nearest")` (`rcn.py:320`) for an image with `H` rows and `W` columns.  The entry of the footprint at `size // 2` of both
axes lies on the pixel.  A footprint without true entries raises ValueError.  Simplification: a footprint that has not two axes raises ValueError too (`RuntimeError`). -/
def maximumFilter [Zero α] [LinearOrder α] (mask : NDArr Bool) (H W : Nat) (layer : List α) : Py (List α) :=
  match mask.shape with
  | [a, b] =>
      let cells := (grid a b).filter (fun q => mask.data.getD (q.1 * b + q.2) false)
      if cells = [] then .error .valueError
      else (grid H W).mapM (fun p => imgMax (cells.map (fun q =>
        layer.getD (nearest H ((p.1 : Int) + q.1 - (a / 2 : Nat)) * W + nearest W ((p.2 : Int) + q.2 - (b / 2 : Nat))) 0)))
  | _ => .error .valueError

/-- `rcn.py:319-321`: the loop over `zip(filtered, suppression_masks)`; layers without a mask keep their zeros. -/
def localize [Zero α] [One α] [LinearOrder α] (H W : Nat) : List (List α) → List (NDArr Bool) → Py (List (List α))
  | layer :: layers, mask :: masks => do
      let competitors ← maximumFilter mask H W layer
      let rest ← localize H W layers masks
      pure (List.zipWith (fun c x => if c ≤ x then 1 else 0) competitors layer :: rest)
  | layers, [] => .ok (layers.map (fun layer => layer.map (fun _ => 0)))
  | [], _ => .ok []

/-- `rcn.py:322` and `325-326` for one pixel of one channel: `localized`, the largest value of all channels, `filtered`. -/
def binarize [Field α] [LinearOrder α] (threshold : α) (loc cross x : α) : α :=
  let loc := if x < cross then 0 else loc
  let loc := loc * min (max (x / threshold) 0) 1
  if loc < 1 then 0 else loc

/-- `rcn.py:328-338`: pooling of every channel with its two neighbours, where `num_orients` is the number of channels, and the remapping of 0 to -1. -/
def pool [Field α] [LinearOrder α] (localized : List (List α)) : List (List α) :=
  (List.range localized.length).map (fun (i : Nat) =>
    let pc := (localized.getD i []).map (fun _ => (-1 : α))
    let pc := [0, -1, 1].foldl (fun pc (offset : Int) =>
      let ch := ((i : Int) + offset) % (localized.length : Int)
      List.zipWith max pc (localized.getD ch.toNat [])) pc
    pc.map (fun x => if x = 0 then -1 else x))

/-- `examples/rcn.py:298-339`, `get_bu_msg`, after the convolutions: `filtered` are the images of the channels, `threshold` is `brightness_diff_threshold`.
Simplification: all images have `H * W` pixels. -/
def buMsg [Field α] [LinearOrder α] (threshold : α) (masks : List (NDArr Bool)) (H W : Nat) (filtered : List (List α)) : Py (NDArr α) := do
  let cross ← (List.range (H * W)).mapM (fun k => imgMax (filtered.map (fun layer => layer.getD k 0)))
  if filtered = [] then throw .valueError
  let layers := filtered.map (fun layer => layer.map (fun x => if x < 0 then 0 else x))
  let localized ← localize H W layers masks
  let localized := List.zipWith (fun loc layer => List.zipWith (fun l p => binarize threshold l p.1 p.2) loc (cross.zip layer)) localized layers
  pure ⟨[filtered.length, H, W], (pool localized).flatten⟩

/-- `examples/rcn.py:392-419`: one round of the loop over the test images: the decoded states and the scores of all networks. -/
def rcnImage [Field α] [LinearOrder α] [DecidableEq κ] (env : Env α) (hps vps : Nat) (frcs : List (List (Int × Int × Int))) (threshold : α) (masks : List (NDArr Bool)) (H W n : Nat) (d : α)
    (vars : List NDVarArray) (bp : BPFun κ α) (img : List (List α)) : Py (List (NDArr Nat) × List α) := do
  let bu ← buMsg threshold masks H W img
  let ups ← rcnUpdates hps vps vars frcs bu
  let arrs ← bp.update none none none (some ups)
  let bs ← bp.getBeliefs (bp.runBP env arrs n d)
  let rs ← decodeMapStates bs
  let es ← frcs.mapM (rcnEvidence hps vps bu)
  let maps := rs.filterMap (fun p => p.2.arr?)
  pure (maps, rcnScores es maps)

/-- `examples/rcn.py:428`: the number of right predictions divided by the number of test images; NaN (`none`) if there are none. -/
def rcnAccuracy [Field α] (preds labels : List Nat) : Option α :=
  if labels = [] then none
  else some (((List.zipWith (fun (a b : Nat) => if a = b then 1 else 0) preds labels).sum : Nat) / (labels.length : Nat))

/-- `examples/rcn.py:206-285` and `384-430`: the program, from the loaded model (`frcs`, `edges`, `masks`, the labels of the networks `trainLabels`) and the test images (after the convolutions) with their
labels, to the decoded states and scores of all images, the predicted labels and the accuracy.  The graph and `bp` are made once, before the loop over the images. -/
def rcnProgram (κ : Type) {α : Type} [Field α] [LinearOrder α] [DecidableEq κ] (env : Env α) (idV : Nat → Nat) (idF : Nat → Nat → Nat) (garbage : Garbage) (stateId : Nat)
    (hps vps : Nat) (frcs : List (List (Int × Int × Int))) (edges : List (List (Nat × Nat × Nat))) (threshold : α) (masks : List (NDArr Bool)) (H W n : Nat) (d : α)
    (trainLabels : List Nat) (tests : List (List (List α) × Nat)) : Py (List (List (NDArr Nat) × List α) × List Nat × Option α) := do
  let r ← rcn (κ := κ) (α := α) idV idF hps vps (frcs.map List.length) edges
  let st ← r.2.fgState garbage
  let state ← bpStateOf stateId st
  let bp ← BP.create st state 0
  let results ← tests.mapM (fun t => rcnImage env hps vps frcs threshold masks H W n d r.1 bp t.1)
  let preds ← results.mapM (fun p => match trainLabels[rcnBestModel p.2]? with
    | some label => .ok label
    | none => .error .indexError)
  pure (results, preds, rcnAccuracy preds (tests.map (·.2)))

end PGMax
