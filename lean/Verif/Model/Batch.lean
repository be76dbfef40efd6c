import Verif.Model.BP

/-!
# Model of batches: `jax.vmap` of the functions of belief propagation

The docstrings of `pgmax/infer/bp.py` and the programs in `examples/` apply `jax.vmap` to `bp.init`, `bp.run_bp` and `bp.get_beliefs`, and `decode_map_states` and `get_marginals`
to the batches of beliefs.  `jax.vmap(f, in_axes=0, out_axes=0)` computes `f` for every index of the first axis of all arrays, and stacks the results along a new first axis.
Batches of `BPArrays` are lists here.  Simplification: batches without samples are an error.
-/

namespace PGMax

variable {κ α β γ : Type _}

/-- `a[i]` for a batch `a`. Code: `examples/rbm.py:208`. -/
def NDArr.sample (a : NDArr β) (i : Nat) : NDArr β :=
  ⟨a.shape.tail, slice a.data (i * a.shape.tail.prod) (i * a.shape.tail.prod + a.shape.tail.prod)⟩

/-- `jnp.stack(xs)`: ValueError without arrays and for different shapes. Code: inside of `jax.vmap` at `examples/rbm.py:186-198`. -/
def stackArrs (xs : List (NDArr β)) : Py (NDArr β) :=
  match xs with
  | [] => .error .valueError
  | x :: _ => if xs.all (fun y => decide (y.shape = x.shape)) then .ok ⟨xs.length :: x.shape, xs.flatMap (fun y => y.data)⟩ else .error .valueError

/-- A PyTree of data of variable groups: its structure (the groups and, for dictionaries, the names) and its arrays, in order. Code: `pgmax/infer/bp.py:345`, `358`. -/
structure PyTree (κ β : Type _) where
  treedef : List (VGroup κ × Option (List κ))
  leaves : List (NDArr β)

/-- `jax.tree_util.tree_map`, for functions that may raise exceptions. Code: `pgmax/infer/bp.py:345`, `358`. -/
def PyTree.mapM (f : NDArr β → Py (NDArr γ)) (t : PyTree κ β) : Py (PyTree κ γ) := do
  let ls ← t.leaves.mapM f
  pure ⟨t.treedef, ls⟩

/-- `tree_map(lambda a: a[i], t)`. Code: `examples/rbm.py:208`. -/
def PyTree.sample (t : PyTree κ β) (i : Nat) : PyTree κ β := ⟨t.treedef, t.leaves.map (fun a => a.sample i)⟩

/-- What `jax.vmap` makes of the values of a function: one array from every position in the trees. Code: `examples/rbm.py:186-198`, `examples/pmp_binary_deconvolution.py:229-244`. -/
def stackTrees (ts : List (PyTree κ β)) : Py (PyTree κ β) :=
  match ts with
  | [] => .error .valueError
  | t :: _ => do
    let ls ← (List.range t.leaves.length).mapM (fun j => stackArrs (ts.map (fun u => u.leaves.getD j ⟨[], []⟩)))
    pure ⟨t.treedef, ls⟩

/-- The beliefs of `get_beliefs` as a PyTree. Code: `pgmax/infer/bp.py:252-267`. -/
def beliefsTree (bs : List (VGroup κ × GroupBeliefs κ α)) : PyTree κ (WithBot α) where
  treedef := bs.map (fun p => match p.2 with
    | .arr _ => (p.1, none)
    | .dict d => (p.1, some (d.map (fun q => q.1))))
  leaves := bs.flatMap (fun p => match p.2 with
    | .arr a => [a]
    | .dict d => d.map (fun q => ⟨[q.2.length], q.2.map WithBot.some⟩))

/-- Decoded states as a PyTree. Code: `pgmax/infer/bp.py:336-345`. -/
def statesTree (ss : List (VGroup κ × GroupStates κ)) : PyTree κ Nat where
  treedef := ss.map (fun p => match p.2 with
    | .arr _ => (p.1, none)
    | .dict d => (p.1, some (d.map (fun q => q.1))))
  leaves := ss.flatMap (fun p => match p.2 with
    | .arr a => [a]
    | .dict d => d.map (fun q => q.2))

/-- Marginals as a PyTree. Code: `pgmax/infer/bp.py:349-360`. -/
def marginalsTree (ms : List (VGroup κ × GroupMarginals κ α)) : PyTree κ (Option α) where
  treedef := ms.map (fun p => match p.2 with
    | .arr _ => (p.1, none)
    | .dict d => (p.1, some (d.map (fun q => q.1))))
  leaves := ms.flatMap (fun p => match p.2 with
    | .arr a => [a]
    | .dict d => d.map (fun q => q.2))

/-- `pgmax/infer/bp.py:335-345`, `decode_map_states`, on a batch of beliefs. -/
def decodeTree [LinearOrder α] (t : PyTree κ (WithBot α)) : Py (PyTree κ Nat) := t.mapM argmaxLast

/-- `pgmax/infer/bp.py:348-360`, `get_marginals`, on a batch of beliefs. -/
def marginalTree [Field α] [LinearOrder α] (env : Env α) (t : PyTree κ (WithBot α)) : Py (PyTree κ (Option α)) := t.mapM (marginalsLast env)

/-- `jax.vmap(bp.init, in_axes=0, out_axes=0)(evidence_updates={group: array, ...})` (`examples/rbm.py:186-191`, `examples/pmp_binary_deconvolution.py:229-236`):
ValueError if the first axes of the arrays differ in length. -/
def BPFun.vmapInit [Field α] [LinearOrder α] [DecidableEq κ] (bp : BPFun κ α) (ups : List (VGroup κ × NDArr α)) : Py (List (BPArrays α)) :=
  match ups with
  | [] => .error .valueError
  | (_, ⟨[], _⟩) :: _ => .error .valueError
  | (g, ⟨n :: s, data⟩) :: rest =>
    if rest.all (fun u => decide (u.2.shape.head? = some n)) then
      (List.range n).mapM (fun i => bp.update none none none (some (((g, ⟨n :: s, data⟩) :: rest).map (fun u => .group u.1 (.arr (u.2.sample i))))))
    else .error .valueError

/-- `jax.vmap(functools.partial(bp.run_bp, num_iters=n, damping=d), in_axes=0, out_axes=0)` (`examples/rbm.py:192-196`). -/
def BPFun.vmapRun [Field α] [LinearOrder α] (env : Env α) (bp : BPFun κ α) (batch : List (BPArrays α)) (n : Nat) (d : α) : List (BPArrays α) :=
  batch.map (fun a => bp.runBP env a n d)

/-- `jax.vmap(bp.get_beliefs, in_axes=0, out_axes=0)` (`examples/rbm.py:198`). -/
def BPFun.vmapBeliefs [Field α] [LinearOrder α] [DecidableEq κ] (bp : BPFun κ α) (batch : List (BPArrays α)) : Py (PyTree κ (WithBot α)) := do
  let ts ← batch.mapM (fun a => (bp.getBeliefs a).map beliefsTree)
  stackTrees ts

end PGMax
