import Verif.Model.Factor

/-!
# Model of the message updates
`pgmax/factor/enum.py:251-315`, `pgmax/factor/logical.py:274-438`, `pgmax/infer/bp_utils.py`,
`pgmax/infer/bp.py:279-332`.

Floating-point arithmetic is modelled by an arbitrary ordered field (`ℝ` where `exp`/`log` are used, `ℚ` for
evaluation); rounding, overflow, infinities and NaNs are not modelled.
-/

namespace PGMax

variable {α : Type _} [Field α] [LinearOrder α]

/-- Elementwise operation on two arrays of equal length. Code: e.g. `pgmax/infer/bp.py:301`, `pgmax/factor/logical.py:341-348`. -/
def zipOp (f : α → α → α) (xs ys : List α) : List α := List.zipWith f xs ys

/-- `pgmax/infer/bp.py:279-302`, `pass_var_to_fac_messages`. -/
def passVarToFac (env : Env α) (ftov evidence : List α) (vsfe : List Nat) : List α :=
  let varSums := scatterAdd evidence vsfe ftov
  zipOp (· - ·) (gather env.oob varSums vsfe) ftov

/-- `pgmax/factor/enum.py:285-289`: `fac_config_summary_sum`. -/
def enumSummary (env : Env α) (vtof : List α) (fces : List (Nat × Nat)) (lp : List α) (nvc : Nat) : List α :=
  zipOp (· + ·)
    (scatterAdd (List.replicate nvc 0) (fces.map (·.1)) (gather env.oob vtof (fces.map (·.2)))) lp

/-- `pgmax/factor/enum.py:290-294`: `max_factor_config_summary_for_edge_states`. -/
def enumMaxes (env : Env α) (vtof : List α) (fces : List (Nat × Nat)) (summary : List α) : List α :=
  scatterMax (List.replicate vtof.length NEG_INF) (fces.map (·.2)) (gather env.oob summary (fces.map (·.1)))

/-- `pgmax/factor/enum.py:251-315`, `pass_enum_fac_to_var_messages`. -/
def passEnum (env : Env α) (temperature : α) (vtof : List α) (fces : List (Nat × Nat)) (lp : List α)
    (nvc : Nat) : List α :=
  let summary := enumSummary env vtof fces lp nvc
  let maxes := enumMaxes env vtof fces summary
  let ftov := zipOp (· - ·) maxes vtof
  if temperature = 0 then ftov
  else
    let args := zipOp (· - ·) (gather env.oob summary (fces.map (·.1)))
      (gather env.oob maxes (fces.map (·.2)))
    let sums := scatterAdd (List.replicate vtof.length (env.exp NEG_INF)) (fces.map (·.2))
      (args.map (fun x => env.exp (x / temperature)))
    zipOp (· + ·) ftov (sums.map (fun x => temperature * env.log x))

/-- `pgmax/factor/logical.py:274-303`, `get_maxes_and_argmaxes`: the maxes. -/
def labelMaxes (data : List α) (labels : List Nat) (numLabels : Nat) : List α :=
  scatterMax (List.replicate numLabels NEG_INF) labels data

/-- `pgmax/factor/logical.py:274-303`, `get_maxes_and_argmaxes`: the argmaxes.  Position `i` of the data competes
with value `i` if it attains the max of its label and `i - num_obs` otherwise. -/
def labelArgmaxes (env : Env α) (data : List α) (labels : List Nat) (numLabels : Nat) : List Int :=
  let maxes := labelMaxes data labels numLabels
  let at_ := gather env.oob maxes labels
  let pos : List Int := (List.range data.length).map (fun (i : Nat) =>
    (i : Int) - (data.length : Int) * (if data.getD i 0 ≠ at_.getD i 0 then 1 else 0))
  scatterMax (List.replicate numLabels (-100000 : Int)) labels pos

/-- Gather with possibly negative indices (`xs[idx]`). Code: `pgmax/factor/logical.py:341-348`. -/
def gatherI (env : Env α) (xs : List α) (idx : List Int) : List α :=
  gather env.oob xs (idx.map (wrapIdx xs.length))

/-- Scatter-set with possibly negative indices (`xs.at[idx].set(vals)`). Code: `pgmax/factor/logical.py:427-437`. -/
def scatterSetI (xs : List α) (idx : List Int) (vals : List α) : List α :=
  scatterSet xs (idx.map (wrapIdx xs.length)) vals

/-- `pgmax/factor/logical.py:341-348`: difference between the other and the relevant state of each edge. -/
def edgeDiffs (env : Env α) (vtof : List α) (idx : List Nat) (offset : Int) : List α :=
  zipOp (· - ·) (gatherI env vtof (idx.map (fun (i : Nat) => (i : Int) + offset))) (gather env.oob vtof idx)

/-- `pgmax/factor/logical.py:352-389`: max-product messages `(parents_msgs, children_msgs)`. -/
def logicalMax (env : Env α) (ptof ctof : List α) (fidx : List Nat) (nf : Nat) : List α × List α :=
  let arg1 := labelArgmaxes env ptof fidx nf
  let arg2 := labelArgmaxes env (scatterSetI ptof arg1 (List.replicate arg1.length NEG_INF)) fidx nf
  let pos := ptof.map (fun x => max 0 x)
  let sumPos := scatterAdd (List.replicate nf 0) fidx pos
  let pm := zipOp min
    (zipOp (· - ·) (zipOp (· + ·) (gather env.oob ctof fidx) (gather env.oob sumPos fidx)) pos)
    ((gather env.oob (gatherI env ptof arg1) fidx).map (fun x => max 0 (-x)))
  let pm := scatterSetI pm arg1
    (zipOp min
      (zipOp (· - ·) (zipOp (· + ·) ctof sumPos) (gatherI env pos arg1))
      ((gatherI env ptof arg2).map (fun x => max 0 (-x))))
  let cm := zipOp (· + ·) sumPos ((gatherI env ptof arg1).map (fun x => min 0 x))
  (pm, cm)

/-- `jax.nn.sigmoid`. Code: `pgmax/factor/logical.py:414-415`. -/
def sigmoid (env : Env α) (x : α) : α := 1 / (1 + env.exp (-x))

/-- `jax.nn.log_sigmoid`: `-softplus(-x) = -log(exp(-x) + exp 0)`. Code: `pgmax/factor/logical.py:400`. -/
def logSigmoid (env : Env α) (x : α) : α := -(env.log (env.exp (-x) + env.exp 0))

/-- `pgmax/factor/logical.py:392-398`: the function `g`. -/
def logicalG (env : Env α) (temperature x : α) : α :=
  if x = 0 then 0 else x + temperature * env.log (1 - env.exp (-x / temperature))

/-- `pgmax/factor/logical.py:390-420`: messages at positive temperature. -/
def logicalSum (env : Env α) (temperature : α) (ptof ctof : List α) (fidx : List Nat) (nf : Nat) :
    List α × List α :=
  let ls := ptof.map (fun x => -temperature * logSigmoid env (-x / temperature))
  let sumLs := scatterAdd (List.replicate nf 0) fidx ls
  let gm := (zipOp (· - ·) (gather env.oob sumLs fidx) ls).map (logicalG env temperature)
  let pm := zipOp (fun x c => -temperature *
      env.log (sigmoid env (x / temperature) + sigmoid env (-x / temperature) * env.exp (-c / temperature)))
    gm (gather env.oob ctof fidx)
  (pm, sumLs.map (logicalG env temperature))

/-- `jnp.bincount(labels, length=n)`. Code: `pgmax/factor/logical.py:423`. -/
def bincount (labels : List Nat) (n : Nat) : List Nat := (List.range n).map (fun i => labels.count i)

/-- `pgmax/factor/logical.py:422-429`: a factor with a single parent sends it the child's message.
`first_elements = concatenate([zeros(1), cumsum(num_parents)])[:-1]`. -/
def singleParentFix (env : Env α) (pm ctof : List α) (fidx : List Nat) (nf : Nat) : List α :=
  let np := bincount fidx nf
  let first := (cumsum0 np).dropLast
  scatterSet pm first
    (List.zipWith (fun (n : Nat) (p : α × α) => if n = 1 then p.1 else p.2) np
      (ctof.zip (gather env.oob pm first)))

/-- `pgmax/factor/logical.py:306-438`, `pass_logical_fac_to_var_messages`. -/
def passLogical (env : Env α) (temperature : α) (vtof : List α) (parents : List (Nat × Nat))
    (children : List Nat) (offset : Int) : List α :=
  let nf := children.length
  let fidx := parents.map (·.1)
  let pidx := parents.map (·.2)
  let ptof := edgeDiffs env vtof pidx offset
  let ctof := edgeDiffs env vtof children offset
  let pc := if temperature = 0 then logicalMax env ptof ctof fidx nf
    else logicalSum env temperature ptof ctof fidx nf
  let pm := singleParentFix env pc.1 ctof fidx nf
  let out := List.replicate vtof.length 0
  let out := scatterSetI out (pidx.map (fun (i : Nat) => (i : Int) + offset)) pm
  scatterSetI out (children.map (fun (i : Nat) => (i : Int) + offset)) pc.2

/-! ### Normalisation -/

/-- `jax.lax.dynamic_slice(data, [start], [size])`: the start index is normalised (see `Env.wrapNeg`) and clamped so
that the slice fits. Code: `pgmax/infer/bp_utils.py:35-37`. -/
def dynamicSlice (env : Env α) (data : List α) (start : Int) (size : Nat) : List α :=
  let s : Int := if env.wrapNeg && decide (start < 0) then start + data.length else start
  let s : Nat := (max 0 (min s ((data.length : Int) - size))).toNat
  slice data s (s + size)

/-- `jnp.max` of a non-empty 1-D array. Code: `pgmax/infer/bp_utils.py:32`. -/
def listMax (oob : α) : List α → α
  | [] => oob
  | x :: xs => xs.foldl max x

/-- `pgmax/infer/bp_utils.py:42-47`: `start_indices`; the first one is `int(NEG_INF)`. -/
def segStartIndices (lens : List Nat) : List Int :=
  ((-100000 : Int) :: (cumsum lens).map (fun (n : Nat) => (n : Int))).dropLast

/-- `pgmax/infer/bp_utils.py:11-49`, `segment_max_opt`. -/
def segmentMaxOpt (env : Env α) (data : List α) (lens : List Nat) (maxLen : Nat) : List α :=
  let expanded := data ++ List.replicate maxLen 0
  List.zipWith (fun start len =>
      let sl := dynamicSlice env expanded start maxLen
      listMax env.oob ((List.range maxLen).map (fun k => if k < len then sl.getD k env.oob else NEG_INF)))
    (segStartIndices lens) lens

/-- `pgmax/infer/bp.py:305-332`, `normalize_and_clip_msgs`. -/
def normalizeAndClip (env : Env α) (msgs : List α) (lens : List Nat) (maxLen : Nat) : List α :=
  let maxes := segmentMaxOpt env msgs lens maxLen
  let msgs := zipOp (· - ·) msgs (repeatTo env.oob maxes lens msgs.length)
  msgs.map (fun x => max x (-1000))

end PGMax
