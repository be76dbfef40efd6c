import Verif.Model.ExamplesRun

/-!
# Model of inference, prediction and loss of `examples/gmrf.py`

The images and parameters that the program loads are arguments here.  A loss is an `Option`: `none` stands for NaN and infinities.
-/

namespace PGMax

variable {κ α β : Type _}

/-- `np.repeat(xs, ns)` for one-dimensional arrays, as in `examples/gmrf.py:41-48`: NumPy broadcasts an array of counts with one entry; other lengths raise ValueError. -/
def npRepeat (xs : List β) (ns : List Nat) : Py (List β) :=
  if xs.length = ns.length then .ok (List.zipWith (fun n x => List.replicate n x) ns xs).flatten
  else match ns with
    | [n] => .ok (xs.flatMap (List.replicate n))
    | _ => .error .valueError

/-- `examples/gmrf.py:42-50`: `prototype_targets`. -/
def gmrfTargets [Zero α] [One α] (nClones : List Nat) : Py (List (List α)) := do
  let a ← npRepeat [1, 0, 0] nClones
  let b ← npRepeat [0, 1, 0] nClones
  let c ← npRepeat [0, 0, 1] nClones
  pure [a, b, c]

/-- What the program makes before it looks at images. Code: `examples/gmrf.py:40-97`. -/
structure GmrfSetup (κ α : Type _) where
  net : Gmrf κ α
  bp : BPFun κ α
  pContour : List α
  targets : List (List α)

/-- `examples/gmrf.py:40-97` for `M` by `N` images: `p_contour`, `prototype_targets`, the graph (`gmrf` of `Verif.Model.Examples`) and `bp`.  `pc` is `data["p_contour"]`. -/
def gmrfSetup (κ : Type) {α : Type} [Field α] [LinearOrder α] [DecidableEq κ] (idV idT idL idD idE : Nat) (garbage : Garbage) (stateId : Nat) (pc : List α) (nClones : List Nat)
    (M N : Nat) : Py (GmrfSetup κ α) := do
  let pContour ← npRepeat pc nClones
  let targets ← gmrfTargets nClones
  let r ← gmrf (κ := κ) (α := α) idV idT idL idD idE M N nClones.sum
  let st ← r.fg.fgState garbage
  let state ← bpStateOf stateId st
  let bp ← BP.create st state 1
  pure ⟨r, bp, pContour, targets⟩

/-- `examples/gmrf.py:113` and `161`: `jnp.log(jnp.where(noisy_image[..., None] == 0, p_contour, 1 - p_contour))`. -/
def gmrfEvidence [Field α] [LinearOrder α] (env : Env α) (pContour : List α) (noisy : NDArr α) : NDArr α :=
  ⟨noisy.shape ++ [pContour.length], noisy.data.flatMap (fun y => pContour.map (fun p => env.log (if y = 0 then p else 1 - p)))⟩

/-- The matrices of the dictionary `log_potentials` (`examples/gmrf.py:100-105`). -/
structure GmrfPotentials (α : Type _) where
  topDown : NDArr α
  leftRight : NDArr α
  diagonal0 : NDArr α
  diagonal1 : NDArr α

/-- `examples/gmrf.py:113-126` and `161-174`: `marginals[variables]`. -/
def gmrfMarginals {κ α : Type} [Field α] [LinearOrder α] [DecidableEq κ] (env : Env α) (s : GmrfSetup κ α) (lps : GmrfPotentials α) (noisy : NDArr α) : Py (NDArr (Option α)) := do
  let arrs ← s.bp.update none (some [(s.net.topDown, lps.topDown), (s.net.leftRight, lps.leftRight), (s.net.diagonal0, lps.diagonal0), (s.net.diagonal1, lps.diagonal1)]) none
    (some [.group (.arr s.net.vars) (.arr (gmrfEvidence env s.pContour noisy))])
  let bs ← s.bp.getBeliefs (s.bp.runBP env arrs 15 0)
  let ms ← getMarginals env bs
  match ms with
  | [(_, .arr a)] => pure a
  | _ => .error .keyError

/-- The sum of an array with NaNs. Code: `examples/gmrf.py:175`. -/
def sumNan [Zero α] [Add α] (xs : List (Option α)) : Option α := xs.foldr (fun x y => x.bind (fun a => y.map (fun b => a + b))) (some 0)

/-- The mean of an array with NaNs; NaN for an empty array. Code: `examples/gmrf.py:175`, `181`. -/
def meanNan [Field α] (xs : List (Option α)) : Option α := if xs = [] then none else (sumNan xs).map (fun s => s / (xs.length : α))

/-- `np.argmax` of an array with NaNs: the first NaN counts as the largest entry. Code: `examples/gmrf.py:128`. -/
def argmaxNan [LinearOrder α] (xs : List (Option α)) : Nat :=
  match xs.findIdx? Option.isNone with
  | some i => i
  | none => argmax (xs.filterMap id)

/-- One entry of `pred_image` (`examples/gmrf.py:128-138`), from the marginals of one pixel: the sum of all but the last two, and the last two.
Simplification: IndexError if there are fewer than two. -/
def gmrfClass [LinearOrder α] [Zero α] [Add α] (row : List (Option α)) : Py Nat :=
  if row.length < 2 then .error .indexError
  else .ok (argmaxNan [sumNan (row.take (row.length - 2)), row.getD (row.length - 2) none, row.getD (row.length - 1) none])

/-- `examples/gmrf.py:128-138`: `pred_image`. -/
def gmrfPredict [LinearOrder α] [Zero α] [Add α] (marginals : NDArr (Option α)) : Py (NDArr Nat) := do
  let shape := marginals.shape.dropLast
  let classes ← (rows marginals.data shape.prod (marginals.shape.getLastD 0)).mapM gmrfClass
  pure ⟨shape, classes⟩

/-- `jnp.log` with NaN and infinities as `none`. Code: `examples/gmrf.py:175`. -/
def logNan [Zero α] [LT α] [DecidableLT α] (env : Env α) (x : Option α) : Option α := x.bind (fun x => if 0 < x then some (env.log x) else none)

/-- One entry of `jnp.log(jnp.sum(target * marginals[variables], axis=-1))` (`examples/gmrf.py:175`). -/
def gmrfLogProb [Field α] [LinearOrder α] (env : Env α) (target : List α) (row : List (Option α)) : Option α :=
  logNan env (sumNan (List.zipWith (fun t m => m.map (fun x => t * x)) target row))

/-- `examples/gmrf.py:162` and `175-176`: the loss, from the marginals; labels that are too large are moved to the last row of `prototype_targets`, as `jax.numpy` does.
Simplification: ValueError if the shapes of the images differ (`jax.numpy` would broadcast an axis of length 1). -/
def gmrfLossOf [Field α] [LinearOrder α] (env : Env α) (targets : List (List α)) (target : NDArr Nat) (marginals : NDArr (Option α)) : Py (Option α) :=
  if target.shape = marginals.shape.dropLast then
    .ok ((meanNan (List.zipWith (fun y row => gmrfLogProb env (targets.getD (min y (targets.length - 1)) []) row) target.data
      (rows marginals.data target.shape.prod (marginals.shape.getLastD 0)))).map (fun x => -x))
  else .error .valueError

/-- `examples/gmrf.py:160-176`: `loss`. -/
def gmrfLoss {κ α : Type} [Field α] [LinearOrder α] [DecidableEq κ] (env : Env α) (s : GmrfSetup κ α) (lps : GmrfPotentials α) (noisy : NDArr α) (target : NDArr Nat) : Py (Option α) := do
  let ms ← gmrfMarginals env s lps noisy
  gmrfLossOf env s.targets target ms

/-- `examples/gmrf.py:180-185`: `batch_loss`; `jax.vmap` computes `loss` for every pair of images. -/
def gmrfBatchLoss {κ α : Type} [Field α] [LinearOrder α] [DecidableEq κ] (env : Env α) (s : GmrfSetup κ α) (lps : GmrfPotentials α) (images : List (NDArr α × NDArr Nat)) : Py (Option α) := do
  let ls ← images.mapM (fun p => gmrfLoss env s lps p.1 p.2)
  pure (meanNan ls)

end PGMax
