import Verif.Model.Batch
import Verif.Model.Examples

/-!
# Model of inference in `examples/rbm.py`

The arrays of Gumbel noise are arguments here.
-/

namespace PGMax

/-- What the program makes before it draws samples. Code: `examples/rbm.py:47-85` and `150`. -/
structure RbmSetup (κ α : Type _) where
  net : Rbm κ α
  bp : BPFun κ α

/-- `examples/rbm.py:47-85` and `150` (`T = 0`), `133` (`T = 0`), `140` (`T = 1`): the graph (`rbm` of `Verif.Model.Examples`) and `bp`. -/
def rbmSetup (κ : Type) {α : Type} [Field α] [LinearOrder α] [DecidableEq κ] (idH idV idA idB idP : Nat) (garbage : Garbage) (stateId : Nat) (bh bv : List α) (W : NDArr α) (T : α) :
    Py (RbmSetup κ α) := do
  let r ← rbm (κ := κ) idH idV idA idB idP bh bv W
  let st ← r.fg.fgState garbage
  let state ← bpStateOf stateId st
  let bp ← BP.create st state T
  pure ⟨r, bp⟩

/-- `examples/rbm.py:153-170`: the decoded states of one sample, of which the program shows `[visible_variables]`; `gh` and `gv` are the arrays of noise. -/
def rbmSample {κ α : Type} [Field α] [LinearOrder α] [DecidableEq κ] (env : Env α) (s : RbmSetup κ α) (gh gv : NDArr α) : Py (List (VGroup κ × GroupStates κ)) := do
  let arrs ← s.bp.update none none none (some [.group (.arr s.net.hidden) (.arr gh), .group (.arr s.net.visible) (.arr gv)])
  let bs ← s.bp.getBeliefs (s.bp.runBP env arrs 100 (1 / 2))
  decodeMapStates bs

/-- `examples/rbm.py:185-199`: `map_states` of a batch of samples. -/
def rbmSamples {κ α : Type} [Field α] [LinearOrder α] [DecidableEq κ] (env : Env α) (s : RbmSetup κ α) (gh gv : NDArr α) : Py (PyTree κ Nat) := do
  let batch ← s.bp.vmapInit [(.arr s.net.hidden, gh), (.arr s.net.visible, gv)]
  let X ← s.bp.vmapBeliefs (s.bp.vmapRun env batch 100 (1 / 2))
  decodeTree X

/-- `examples/rbm.py:134-136`: `map_states` without noise. -/
def rbmMap {κ α : Type} [Field α] [LinearOrder α] [DecidableEq κ] (env : Env α) (s : RbmSetup κ α) : Py (List (VGroup κ × GroupStates κ)) := do
  let arrs ← s.bp.update none none none none
  let bs ← s.bp.getBeliefs (s.bp.runBP env arrs 100 (1 / 2))
  decodeMapStates bs

/-- `examples/rbm.py:141-143`: `marginals`. -/
def rbmMarginals {κ α : Type} [Field α] [LinearOrder α] [DecidableEq κ] (env : Env α) (s : RbmSetup κ α) : Py (List (VGroup κ × GroupMarginals κ α)) := do
  let arrs ← s.bp.update none none none none
  let bs ← s.bp.getBeliefs (s.bp.runBP env arrs 100 (1 / 2))
  getMarginals env bs

end PGMax
