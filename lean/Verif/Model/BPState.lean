import Verif.Model.FGraph

/-!
# Model of `pgmax/infer/bp_state.py`

JAX flattens dictionary arguments of jitted functions in sorted key order; the processing order of an update
dictionary is therefore a parameter (the order of the association list), and `Props` shows when it does not matter.
-/

namespace PGMax

variable {κ α : Type _}

/-- `pgmax/infer/bp_state.py:14-39`, `BPArrays`. -/
structure BPArrays (α : Type _) where
  logPotentials : List α
  ftovMsgs : List α
  evidence : List α
  deriving DecidableEq, Repr

/-- `pgmax/infer/bp_state.py:62-76`: one iteration of `update_log_potentials`. -/
def updateLogPotential (st : FGState κ α) (lp : List α) (g : FGroup α) (data : NDArr α) : Py (List α) := do
  match st.groupToPotsStart g.objId with
  | some start =>
      let flat ← g.flatten data
      if flat.length ≠ g.logPotentials.length then throw .valueError
      sliceAssign lp start (start + flat.length) flat
  | none => throw .valueError

/-- `pgmax/infer/bp_state.py:42-78`, `update_log_potentials`. -/
def updateLogPotentials (st : FGState κ α) (lp : List α) (ups : List (FGroup α × NDArr α)) : Py (List α) :=
  ups.foldlM (fun lp p => updateLogPotential st lp p.1 p.2) lp

/-- `pgmax/infer/bp_state.py:108-125`, `LogPotentials.__getitem__`. -/
def LogPotentials.getitem (st : FGState κ α) (value : List α) (g : FGroup α) : Py (List α) :=
  match st.groupToPotsStart g.objId with
  | some start => .ok (slice value start (start + g.logPotentials.length))
  | none => .error .valueError

/-- `pgmax/infer/bp_state.py:179-184`: `var_states_for_edges` of all factor types. -/
def FGState.allVarStates (st : FGState κ α) : List Nat :=
  FType.all.flatMap st.wiring.varStatesForEdges

/-- `pgmax/infer/bp_state.py:186-188`: `np.nonzero(var_states_for_edges == start)[0]`. -/
def nonzeroEq (xs : List Nat) (x : Nat) : List Nat :=
  (List.range xs.length).filter (fun i => xs.getD i 0 == x && i < xs.length)

/-- `pgmax/infer/bp_state.py:171-194`: one iteration of `update_ftov_msgs`. -/
def updateFtovMsg [Field α] (st : FGState κ α) (msgs : List α) (v : Var) (data : NDArr α) : Py (List α) := do
  match st.varsToStarts v with
  | some vstart =>
      if data.shape ≠ [v.n] then throw .valueError
      let starts := nonzeroEq st.allVarStates vstart
      starts.foldlM (fun m s => sliceAssign m s (s + v.n) (data.data.map (· / (starts.length : α)))) msgs
  | none => throw .valueError

/-- `pgmax/infer/bp_state.py:151-195`, `update_ftov_msgs`. -/
def updateFtovMsgs [Field α] (st : FGState κ α) (msgs : List α) (ups : List (Var × NDArr α)) : Py (List α) :=
  ups.foldlM (fun m p => updateFtovMsg st m p.1 p.2) msgs

/-- The data given for a variable group: an array (NDVarArray) or a mapping (VarDict). Code: `pgmax/infer/bp_state.py:253-284`. -/
inductive GroupData (κ α : Type _)
  | arr (a : NDArr α)
  | dict (d : List (κ × NDArr α))

/-- `VarGroup.flatten` dispatched on the class; data of the wrong kind raises (an AttributeError in the code). Code: `pgmax/infer/bp_state.py:273`; `pgmax/vgroup/varray.py:88-113`, `pgmax/vgroup/vdict.py:72-110`. -/
def VGroup.flatten [DecidableEq κ] : VGroup κ → GroupData κ α → Py (List α)
  | .arr g, .arr a => g.flatten a
  | .dict g, .dict d => g.flatten d
  | _, _ => .error .attributeError

/-- A key of the evidence-update dictionary with its data (bp_state.py:268-269). -/
inductive EvidenceUpdate (κ α : Type _)
  | group (g : VGroup κ) (data : GroupData κ α)
  | var (v : Var) (data : NDArr α)

/-- `pgmax/infer/bp_state.py:268-283`: one iteration of `update_evidence`.  Membership of a group in the list of
groups uses `VarGroup.__eq__` (equal hashes).  Simplification: a variable tuple is never equal to a group, and data
given for a single variable is one-dimensional. -/
def updateEvidence1 [DecidableEq κ] (st : FGState κ α) (ev : List α) : EvidenceUpdate κ α → Py (List α)
  | .group g data =>
      if st.varGroups.any (fun h => h.pyEq g) then do
        let first ← match g.variables with
          | v :: _ => (.ok v : Py Var)
          | [] => .error .indexError
        let start ← st.varsToStarts.get first
        let flat ← g.flatten data
        sliceAssign ev start (start + flat.length) flat
      else .error .valueError
  | .var v data =>
      match st.varsToStarts v with
      | some start => if data.shape.length = 1 then sliceAssign ev start (start + v.n) data.data
          else .error .valueError
      | none => .error .valueError

/-- `pgmax/infer/bp_state.py:252-284`, `update_evidence`. -/
def updateEvidence [DecidableEq κ] (st : FGState κ α) (ev : List α) (ups : List (EvidenceUpdate κ α)) :
    Py (List α) :=
  ups.foldlM (updateEvidence1 st) ev

/-- `pgmax/infer/bp_state.py:313-325`, `Evidence.__getitem__`. -/
def Evidence.getitem (st : FGState κ α) (value : List α) (v : Var) : Py (List α) := do
  let start ← st.varsToStarts.get v
  pure (slice value start (start + v.n))

/-- A `LogPotentials` / `FToVMessages` / `Evidence` object: the graph state it belongs to (identified by `stateId`,
the identity of the `FactorGraphState` object, which has no `__eq__`) and its value. Code: `pgmax/infer/bp_state.py:82-94`, `199-210`, `288-299`. -/
structure Part (α : Type _) where
  stateId : Nat
  value : List α
  deriving DecidableEq, Repr

/-- `pgmax/infer/bp_state.py:96-106`, `LogPotentials.__post_init__`. -/
def LogPotentials.create (stateId : Nat) (st : FGState κ α) (value : Option (NDArr α)) : Py (Part α) :=
  match value with
  | none => .ok ⟨stateId, st.logPotentials⟩
  | some v => if v.shape = [st.logPotentials.length] then .ok ⟨stateId, v.data⟩ else .error .valueError

/-- `pgmax/infer/bp_state.py:212-224`, `FToVMessages.__post_init__`. -/
def FToVMessages.create [Zero α] (stateId : Nat) (st : FGState κ α) (value : Option (NDArr α)) : Py (Part α) :=
  match value with
  | none => .ok ⟨stateId, List.replicate st.totalFactorNumStates 0⟩
  | some v => if v.shape = [st.totalFactorNumStates] then .ok ⟨stateId, v.data⟩ else .error .valueError

/-- `pgmax/infer/bp_state.py:301-311`, `Evidence.__post_init__`. -/
def Evidence.create [Zero α] (stateId : Nat) (st : FGState κ α) (value : Option (NDArr α)) : Py (Part α) :=
  match value with
  | none => .ok ⟨stateId, List.replicate st.numVarStates 0⟩
  | some v => if v.shape = [st.numVarStates] then .ok ⟨stateId, v.data⟩ else .error .valueError

/-- `object.__setattr__(self, "value", ...)` with a computed value: if computing it raises, the object stays as it is. Code: `pgmax/infer/bp_state.py:138-148`, `239-249`, `342-352`. -/
def Part.assign (p : Part α) : Py (List α) → Part α × Option PyErr
  | .ok x => ({ p with value := x }, none)
  | .error e => (p, some e)

/-- `pgmax/infer/bp_state.py:127-148`, `LogPotentials.__setitem__`. -/
def LogPotentials.setitem (st : FGState κ α) (p : Part α) (g : FGroup α) (data : NDArr α) : Part α × Option PyErr :=
  p.assign (updateLogPotentials st p.value [(g, data)])

/-- `pgmax/infer/bp_state.py:226-249`, `FToVMessages.__setitem__`. -/
def FToVMessages.setitem [Field α] (st : FGState κ α) (p : Part α) (v : Var) (data : NDArr α) : Part α × Option PyErr :=
  p.assign (updateFtovMsgs st p.value [(v, data)])

/-- `pgmax/infer/bp_state.py:327-352`, `Evidence.__setitem__`; the name and the data are given together. -/
def Evidence.setitem [DecidableEq κ] (st : FGState κ α) (p : Part α) (u : EvidenceUpdate κ α) : Part α × Option PyErr :=
  p.assign (updateEvidence st p.value [u])

/-- `pgmax/infer/bp_state.py:355-384`, `BPState`. -/
structure BPState (α : Type _) where
  logPotentials : Part α
  ftovMsgs : Part α
  evidence : Part α
  deriving DecidableEq, Repr

/-- `pgmax/infer/bp_state.py:374-380`, `BPState.__post_init__`. -/
def BPState.create (lp ft ev : Part α) : Py (BPState α) :=
  if lp.stateId ≠ ft.stateId ∨ ft.stateId ≠ ev.stateId then .error .valueError
  else .ok ⟨lp, ft, ev⟩

/-- An assignment by the user: `bp_state.log_potentials[g] = data`, `bp_state.ftov_msgs[v] = data` or
`bp_state.evidence[name] = data`. Code: `pgmax/infer/bp_state.py:127-148`, `226-249`, `327-352`. -/
inductive Write (κ α : Type _)
  | pots (g : FGroup α) (data : NDArr α)
  | msgs (v : Var) (data : NDArr α)
  | evidence (u : EvidenceUpdate κ α)

/-- The BP state after an assignment, and the exception it raised. Code: `pgmax/infer/bp_state.py:127-148`, `226-249`, `327-352`. -/
def BPState.write [Field α] [DecidableEq κ] (st : FGState κ α) (s : BPState α) : Write κ α → BPState α × Option PyErr
  | .pots g data => let r := LogPotentials.setitem st s.logPotentials g data; ({ s with logPotentials := r.1 }, r.2)
  | .msgs v data => let r := FToVMessages.setitem st s.ftovMsgs v data; ({ s with ftovMsgs := r.1 }, r.2)
  | .evidence u => let r := Evidence.setitem st s.evidence u; ({ s with evidence := r.1 }, r.2)

/-- The BP state after a sequence of assignments, exceptions being caught. Code: `pgmax/infer/bp_state.py:127-148`, `226-249`, `327-352`. -/
def BPState.writes [Field α] [DecidableEq κ] (st : FGState κ α) (s : BPState α) (ws : List (Write κ α)) : BPState α :=
  ws.foldl (fun s w => (s.write st w).1) s

end PGMax
