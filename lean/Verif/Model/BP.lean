import Verif.Model.BPState
import Verif.Model.Messages

/-!
# Model of `pgmax/infer/bp.py`
-/

namespace PGMax

variable {κ α : Type _} [Field α] [LinearOrder α]

/-- `pgmax/fgraph/fgraph.py:319-331`, `FactorGraph.bp_state` for the graph state `st`. -/
def bpStateOf (stateId : Nat) (st : FGState κ α) : Py (BPState α) := do
  BPState.create (← LogPotentials.create stateId st none) (← FToVMessages.create stateId st none)
    (← Evidence.create stateId st none)

/-- The closure created by `BP` (bp.py:70-106): the graph state, the BP state's arrays, the concatenated
`edges_num_states` and `var_states_for_edges`, and `max_msg_size`. -/
structure BPFun (κ α : Type _) where
  st : FGState κ α
  state : BPState α
  edgesNumStates : List Nat
  maxMsgSize : Nat
  varStatesForEdges : List Nat
  temperature : α

/-- `pgmax/infer/bp.py:70-106`, `BP`.  `np.max` of an empty array (no factors) raises ValueError. -/
def BP.create (st : FGState κ α) (state : BPState α) (temperature : α) : Py (BPFun κ α) := do
  let ens := FType.all.flatMap st.wiring.edgesNumStates
  let m ← npMax ens
  pure { st := st, state := state, edgesNumStates := ens, maxMsgSize := m,
         varStatesForEdges := FType.all.flatMap st.wiring.varStatesForEdges, temperature := temperature }

namespace BPFun

/-- `pgmax/infer/bp.py:108-151`, `update` (and `init = partial(update, None)`, line 270). -/
def update [DecidableEq κ] (bp : BPFun κ α) (arrs : Option (BPArrays α))
    (lpUps : Option (List (FGroup α × NDArr α))) (ftUps : Option (List (Var × NDArr α)))
    (evUps : Option (List (EvidenceUpdate κ α))) : Py (BPArrays α) := do
  let a : BPArrays α := match arrs with
    | some a => a
    | none => ⟨bp.state.logPotentials.value, bp.state.ftovMsgs.value, bp.state.evidence.value⟩
  let lp ← match lpUps with
    | some u => updateLogPotentials bp.st a.logPotentials u
    | none => pure a.logPotentials
  let ft ← match ftUps with
    | some u => updateFtovMsgs bp.st a.ftovMsgs u
    | none => pure a.ftovMsgs
  let ev ← match evUps with
    | some u => updateEvidence bp.st a.evidence u
    | none => pure a.evidence
  pure ⟨lp, ft, ev⟩

/-- `FAC_TO_VAR_UPDATES[factor_type](...)` with the inference arguments taken from the wiring
(bp.py:91-103, 189-194). -/
def facToVar (env : Env α) (bp : BPFun κ α) (t : FType) (vtof lp : List α) : List α :=
  match t with
  | .enum => passEnum env bp.temperature vtof bp.st.wiring.enum.factorConfigsEdgeStates lp
      bp.st.wiring.enum.numValConfigs
  | .or => passLogical env bp.temperature vtof bp.st.wiring.or.parentsEdgeStates
      bp.st.wiring.or.childrenEdgeStates bp.st.wiring.or.edgeStatesOffset
  | .and => passLogical env bp.temperature vtof bp.st.wiring.and.parentsEdgeStates
      bp.st.wiring.and.childrenEdgeStates bp.st.wiring.and.edgeStatesOffset

/-- `pgmax/infer/bp.py:183-195`: the messages of all factor types, written into their ranges.
`ftov_msgs.at[a:b].set(x)` with `x` of the length of the range. -/
def newMsgs (env : Env α) (bp : BPFun κ α) (lp vtof : List α) : List α :=
  FType.all.foldl (init := List.replicate vtof.length 0) (fun acc t =>
    let r := bp.st.typeToMsgsRange t
    let q := bp.st.typeToPotsRange t
    let m := bp.facToVar env t (slice vtof r.1 r.2) (slice lp q.1 q.2)
    acc.take r.1 ++ m ++ acc.drop r.2)

/-- `pgmax/infer/bp.py:175-203`: one iteration of belief propagation. -/
def step (env : Env α) (bp : BPFun κ α) (lp evidence : List α) (damping : α) (msgs : List α) : List α :=
  let vtof := passVarToFac env msgs evidence bp.varStatesForEdges
  let ftov := bp.newMsgs env lp vtof
  let delta := zipOp (· - ·) ftov msgs
  let msgs := zipOp (· + ·) msgs (delta.map (fun x => (1 - damping) * x))
  normalizeAndClip env msgs bp.edgesNumStates bp.maxMsgSize

/-- `jax.lax.scan(update, msgs, None, n)`: `n` iterations. Code: `pgmax/infer/bp.py:205`. -/
def iterate (f : List α → List α) : Nat → List α → List α
  | 0, x => x
  | n + 1, x => iterate f n (f x)

/-- `pgmax/infer/bp.py:153-209`, `run_bp`. -/
def runBP (env : Env α) (bp : BPFun κ α) (arrs : BPArrays α) (numIters : Nat) (damping : α) : BPArrays α :=
  let msgs := normalizeAndClip env arrs.ftovMsgs bp.edgesNumStates bp.maxMsgSize
  { logPotentials := arrs.logPotentials
    ftovMsgs := iterate (bp.step env arrs.logPotentials arrs.evidence damping) numIters msgs
    evidence := arrs.evidence }

/-- `pgmax/infer/bp.py:211-229`, `to_bp_state`. -/
def toBPState (stateId : Nat) (bp : BPFun κ α) (a : BPArrays α) : Py (BPState α) := do
  BPState.create
    (← LogPotentials.create stateId bp.st (some ⟨[a.logPotentials.length], a.logPotentials⟩))
    (← FToVMessages.create stateId bp.st (some ⟨[a.ftovMsgs.length], a.ftovMsgs⟩))
    (← Evidence.create stateId bp.st (some ⟨[a.evidence.length], a.evidence⟩))

end BPFun

/-- The unflattened data of a variable group: an array or a mapping from names. Code: `pgmax/infer/bp.py:231-249`. -/
inductive GroupBeliefs (κ α : Type _)
  | arr (a : NDArr (WithBot α))
  | dict (d : List (κ × List α))

/-- `VarGroup.unflatten` dispatched on the class. Code: `pgmax/infer/bp.py:231-249`; `pgmax/vgroup/varray.py:115-152`, `pgmax/vgroup/vdict.py:112-162`. -/
def VGroup.unflatten [DecidableEq κ] (g : VGroup κ) (flat : List α) : Py (GroupBeliefs κ α) :=
  match g with
  | .arr g => (g.unflatten ⟨[flat.length], flat⟩).map .arr
  | .dict g => (g.unflatten ⟨[flat.length], flat⟩).map .dict

/-- `pgmax/infer/bp.py:231-249`, `unflatten_beliefs`: the groups' slices are taken in order. -/
def unflattenBeliefs [DecidableEq κ] (flat : List α) :
    List (VGroup κ) → Nat → Py (List (VGroup κ × GroupBeliefs κ α))
  | [], _ => .ok []
  | g :: gs, start => do
      let len := g.numStates.sum
      let b ← g.unflatten (slice flat start (start + len))
      let rest ← unflattenBeliefs flat gs (start + len)
      pure ((g, b) :: rest)

/-- `pgmax/infer/bp.py:262-266`: flat beliefs. -/
def BPFun.flatBeliefs (bp : BPFun κ α) (a : BPArrays α) : List α :=
  scatterAdd a.evidence bp.varStatesForEdges a.ftovMsgs

/-- `pgmax/infer/bp.py:251-267`, `get_beliefs`. -/
def BPFun.getBeliefs [DecidableEq κ] (bp : BPFun κ α) (a : BPArrays α) :
    Py (List (VGroup κ × GroupBeliefs κ α)) :=
  unflattenBeliefs (bp.flatBeliefs a) bp.st.varGroups 0

/-- `jnp.argmax` of a 1-D array: the first position of the maximum. Code: `pgmax/infer/bp.py:345`. -/
def argmax {β : Type _} [LinearOrder β] (xs : List β) : Nat :=
  match xs with
  | [] => 0
  | x :: xs => xs.idxOf (xs.foldl max x) |> fun i => if xs.foldl max x = x then 0 else i + 1

/-- `jnp.argmax(x, axis=-1)` of an array: ValueError for a 0-dimensional array (there is no last axis) and for a last axis
of length 0. Code: `pgmax/infer/bp.py:345`. -/
def argmaxLast {β : Type _} [LinearOrder β] (a : NDArr β) : Py (NDArr Nat) :=
  match a.shape.getLast? with
  | none => .error .valueError
  | some m =>
    if m = 0 then .error .valueError
    else .ok { shape := a.shape.dropLast, data := (rows a.data a.shape.dropLast.prod m).map argmax }

/-- The decoded states of a variable group. Code: `pgmax/infer/bp.py:336-345`. -/
inductive GroupStates (κ : Type _)
  | arr (a : NDArr Nat)
  | dict (d : List (κ × NDArr Nat))

/-- `pgmax/infer/bp.py:335-345`, `decode_map_states`, on the beliefs of one variable group: `argmax` over the last axis of
every array. -/
def decodeGroup : GroupBeliefs κ α → Py (GroupStates κ)
  | .arr a => (argmaxLast a).map .arr
  | .dict d => (d.mapM (fun p => (argmaxLast ⟨[p.2.length], p.2⟩).map (fun x => (p.1, x)))).map .dict

/-- `pgmax/infer/bp.py:335-345`, `decode_map_states`.
Simplification: `jax.jit` rebuilds dictionaries with sorted keys; names that Python cannot sort are not modelled. -/
def decodeMapStates (bs : List (VGroup κ × GroupBeliefs κ α)) : Py (List (VGroup κ × GroupStates κ)) :=
  bs.mapM (fun p => (decodeGroup p.2).map (fun x => (p.1, x)))

/-- `jnp.max` of values of which some may be `-inf`. Code: inside of `logsumexp` at `pgmax/infer/bp.py:359`. -/
def maxBot : List (WithBot α) → WithBot α
  | [] => ⊥
  | x :: xs => max x (maxBot xs)

/-- `jnp.exp` of a difference `x - c` for `x` finite or `-inf` and finite `c`. Code: `pgmax/infer/bp.py:359`. -/
def expSub (env : Env α) (x : WithBot α) (c : α) : α :=
  match x with
  | ⊥ => 0
  | some x => env.exp (x - c)

/-- `jax.scipy.special.logsumexp` of a row: with the maximum `amax` subtracted before and added after (`-inf`, if all values
are `-inf`). Code: `pgmax/infer/bp.py:359`. -/
def logsumexpRow (env : Env α) (xs : List (WithBot α)) : WithBot α :=
  match maxBot xs with
  | ⊥ => ⊥
  | some amax => some (env.log ((xs.map (fun x => expSub env x amax)).sum) + amax)

/-- One row of `pgmax/infer/bp.py:358-360`: `exp(x - logsumexp(x))`.  `none` is NaN (a row of only `-inf`). -/
def marginalRow (env : Env α) (xs : List (WithBot α)) : List (Option α) :=
  match logsumexpRow env xs with
  | ⊥ => xs.map (fun _ => none)
  | some l => xs.map (fun x => some (expSub env x l))

/-- The map of `pgmax/infer/bp.py:358-360` on one array: `logsumexp` over the last axis; ValueError for a 0-dimensional array.
Simplification: a last axis of length 0 (an array without elements) is returned as it is. -/
def marginalsLast (env : Env α) (a : NDArr (WithBot α)) : Py (NDArr (Option α)) :=
  match a.shape.getLast? with
  | none => .error .valueError
  | some m => .ok { shape := a.shape, data := (rows a.data a.shape.dropLast.prod m).flatMap (marginalRow env) }

/-- The marginals of a variable group. Code: `pgmax/infer/bp.py:349-360`. -/
inductive GroupMarginals (κ α : Type _)
  | arr (a : NDArr (Option α))
  | dict (d : List (κ × NDArr (Option α)))

/-- `pgmax/infer/bp.py:348-360`, `get_marginals`, on the beliefs of one variable group. -/
def marginalsGroup (env : Env α) : GroupBeliefs κ α → Py (GroupMarginals κ α)
  | .arr a => (marginalsLast env a).map .arr
  | .dict d => (d.mapM (fun p => (marginalsLast env ⟨[p.2.length], p.2.map WithBot.some⟩).map (fun x => (p.1, x)))).map .dict

/-- `pgmax/infer/bp.py:348-360`, `get_marginals`. -/
def getMarginals (env : Env α) (bs : List (VGroup κ × GroupBeliefs κ α)) : Py (List (VGroup κ × GroupMarginals κ α)) :=
  bs.mapM (fun p => (marginalsGroup env p.2).map (fun x => (p.1, x)))

end PGMax
