import Verif.Model.BP

/-!
# Model of dictionaries that pass through `jax.jit`

`update_log_potentials`, `update_ftov_msgs`, `update_evidence` (`pgmax/infer/bp_state.py:41`, `151`, `252`), `get_beliefs`, `decode_map_states` and `get_marginals`
(`pgmax/infer/bp.py:251`, `334`, `347`) are compiled with `jax.jit`.  JAX takes the dictionaries in their arguments and results apart in the order of the sorted keys and
builds new ones in this order; keys are sorted with Python's `list.sort`, which compares with `<`.  The functions in `BPState.lean` and `BP.lean` take the order as given; the functions here sort.

Simplification: `list.sort` is insertion sort here.  Where `<` is a total order of the keys the results are the same; the theorems use nothing else.
-/

namespace PGMax

variable {κ α β γ : Type _}

/-- Python's `x < y`: `none` if it raises TypeError. Code: `pgmax/vgroup/vgroup.py:41`, `pgmax/fgroup/fgroup.py:59`. -/
abbrev PyLt (γ : Type _) := γ → γ → Option Bool

/-- Inserts `x` into a sorted list, after the elements that are not larger.  If a comparison raises, JAX raises an exception (ValueError; RuntimeError in old versions). Code: inside of `jax.jit` at `pgmax/infer/bp_state.py:41`, `151`, `252`. -/
def insertKey (lt : PyLt γ) (x : γ) : List γ → Py (List γ)
  | [] => .ok [x]
  | y :: ys =>
    match lt x y with
    | none => .error .valueError
    | some true => .ok (x :: y :: ys)
    | some false => (insertKey lt x ys).map (fun zs => y :: zs)

/-- `keys.sort()`. Code: inside of `jax.jit` at `pgmax/infer/bp_state.py:41`, `151`, `252`. -/
def pySort (lt : PyLt γ) (xs : List γ) : Py (List γ) := xs.foldlM (fun acc x => insertKey lt x acc) []

/-- A dictionary that passed through `jax.jit`. Code: `pgmax/infer/bp_state.py:41`, `151`, `252`, `pgmax/infer/bp.py:251`. -/
def jitDict (lt : PyLt κ) (d : List (κ × β)) : Py (List (κ × β)) := pySort (fun p q => lt p.1 q.1) d

/-- `<` of the tuples that represent variables: lexicographic. Code: keys of the updates at `pgmax/infer/bp_state.py:152-194`; variables are tuples, `pgmax/vgroup/vgroup.py:70-81`. -/
def Var.ltTuple (v w : Var) : Bool := decide (v.hash < w.hash) || (decide (v.hash = w.hash) && decide (v.n < w.n))

/-- `<` of the keys of a dictionary of evidence.  Groups compare their hashes with those of any object (`pgmax/vgroup/vgroup.py:15`, `38-42`: `total_ordering` makes `>` from `<` and `==`, and a tuple
that does not know how to compare itself to a group leaves the comparison to the group); `hashTuple` is Python's `hash` of a tuple. -/
def evidenceLt (hashTuple : Var → Int) : EvidenceUpdate κ α → EvidenceUpdate κ α → Option Bool
  | .group g _, .group k _ => some (decide (g.hash < k.hash))
  | .group g _, .var w _ => some (decide ((g.hash : Int) < hashTuple w))
  | .var v _, .group k _ => some (!decide ((k.hash : Int) < hashTuple v) && !decide ((k.hash : Int) = hashTuple v))
  | .var v _, .var w _ => some (v.ltTuple w)

/-- The dictionaries inside of a dictionary of evidence: those of the data of a `VarDict`. Code: `pgmax/infer/bp_state.py:252-284`. -/
def EvidenceUpdate.jit (ltName : PyLt κ) : EvidenceUpdate κ α → Py (EvidenceUpdate κ α)
  | .group g (.dict d) => (jitDict ltName d).map (fun d => .group g (.dict d))
  | u => .ok u

/-- `pgmax/infer/bp_state.py:41-78`, `update_log_potentials`, compiled: groups of factors compare their ids (`pgmax/fgroup/fgroup.py:53-60`). -/
def jitUpdateLogPotentials (st : FGState κ α) (lp : List α) (ups : List (FGroup α × NDArr α)) : Py (List α) := do
  let ups ← pySort (fun p q => some (decide (p.1.objId < q.1.objId))) ups
  updateLogPotentials st lp ups

/-- `pgmax/infer/bp_state.py:150-195`, `update_ftov_msgs`, compiled. -/
def jitUpdateFtovMsgs [Field α] (st : FGState κ α) (msgs : List α) (ups : List (Var × NDArr α)) : Py (List α) := do
  let ups ← pySort (fun p q => some (p.1.ltTuple q.1)) ups
  updateFtovMsgs st msgs ups

/-- `pgmax/infer/bp_state.py:251-284`, `update_evidence`, compiled. -/
def jitUpdateEvidence [DecidableEq κ] (ltName : PyLt κ) (hashTuple : Var → Int) (st : FGState κ α) (ev : List α) (ups : List (EvidenceUpdate κ α)) : Py (List α) := do
  let ups ← pySort (evidenceLt hashTuple) ups
  let ups ← ups.mapM (fun u => u.jit ltName)
  updateEvidence st ev ups

/-- `pgmax/infer/bp.py:108-151`, `update`, with the compiled functions. -/
def BPFun.jitUpdate [Field α] [DecidableEq κ] (ltName : PyLt κ) (hashTuple : Var → Int) (bp : BPFun κ α) (arrs : Option (BPArrays α))
    (lpu : Option (List (FGroup α × NDArr α))) (mu : Option (List (Var × NDArr α))) (eu : Option (List (EvidenceUpdate κ α))) : Py (BPArrays α) := do
  let a := match arrs with
    | some a => a
    | none => ⟨bp.state.logPotentials.value, bp.state.ftovMsgs.value, bp.state.evidence.value⟩
  let lp ← match lpu with
    | some u => jitUpdateLogPotentials bp.st a.logPotentials u
    | none => .ok a.logPotentials
  let ft ← match mu with
    | some u => jitUpdateFtovMsgs bp.st a.ftovMsgs u
    | none => .ok a.ftovMsgs
  let ev ← match eu with
    | some u => jitUpdateEvidence ltName hashTuple bp.st a.evidence u
    | none => .ok a.evidence
  pure ⟨lp, ft, ev⟩

/-- The dictionaries inside of the result of `get_beliefs`. Code: `pgmax/infer/bp.py:251-267`. -/
def GroupBeliefs.jit (ltName : PyLt κ) : GroupBeliefs κ α → Py (GroupBeliefs κ α)
  | .dict d => (jitDict ltName d).map .dict
  | b => .ok b

/-- `pgmax/infer/bp.py:251-267`, `get_beliefs`, compiled. -/
def BPFun.jitBeliefs [Field α] [LinearOrder α] [DecidableEq κ] (ltName : PyLt κ) (bp : BPFun κ α) (a : BPArrays α) : Py (List (VGroup κ × GroupBeliefs κ α)) := do
  let bs ← bp.getBeliefs a
  let bs ← pySort (fun p q => some (decide (p.1.hash < q.1.hash))) bs
  bs.mapM (fun p => (p.2.jit ltName).map (fun b => (p.1, b)))

/-- Python's `hash` of a pair of integers that are not negative (CPython 3.8 and later, 64 bit: `tuplehash` in `Objects/tupleobject.c`; the hash of an integer is its
remainder modulo 2^61 - 1). Code: compared with groups at `pgmax/vgroup/vgroup.py:38-42`. -/
def pyTupleHash (v : Var) : Int :=
  let lane (acc x : Nat) : Nat :=
    let acc := (acc + x % (2 ^ 61 - 1) * 14029467366897019727) % 2 ^ 64
    let acc := acc * 2 ^ 31 % 2 ^ 64 + acc / 2 ^ 33
    acc * 11400714785074694791 % 2 ^ 64
  let acc : Nat := (lane (lane 2870177450012600261 v.hash) v.n + Nat.xor 2 (Nat.xor 2870177450012600261 3527539)) % 2 ^ 64
  if acc = 2 ^ 64 - 1 then 1546275796
  else if acc < 2 ^ 63 then acc else (acc : Int) - 2 ^ 64

end PGMax
