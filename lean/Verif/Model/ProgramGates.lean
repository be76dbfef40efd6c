import Verif.Model.ExamplesRun
import Verif.Model.ExamplesIsing

/-!
# Model of the programs in `tests/factor/test_or.py` and `tests/factor/test_and.py`

Both programs build the same logical factors twice: in one graph some of them are lists of configurations (enumeration factors) and the others are logical
factors, in the other graph it is the other way round.  They run BP in both graphs and compare the beliefs.  The programs differ in the kind of the factors
(`isAnd`).  The random numbers (`num_parents`, evidence, temperature) are parameters here; `first` is `idx == 0`.
-/

namespace PGMax

variable {κ α : Type _}

/-- `list(itertools.product([0, 1], repeat=n))`. Code: `tests/factor/test_or.py:80`. -/
def binProduct : Nat → List (List Nat)
  | 0 => [[]]
  | n + 1 => [0, 1].flatMap (fun b => (binProduct n).map (fun r => b :: r))

/-- `tests/factor/test_or.py:80-90` and `tests/factor/test_and.py:80-92`: the rows of `valid_configs`; the child is the last column. -/
def gateConfigs (isAnd : Bool) (p : Nat) : List (List Nat) :=
  if isAnd then List.replicate (p + 1) 1 :: (binProduct (p + 1)).filter (fun r => decide (r.dropLast.sum < p) && decide (r.getLastD 0 = 0))
  else List.replicate (p + 1) 0 :: (binProduct (p + 1)).filter (fun r => decide (1 ≤ r.dropLast.sum) && decide (r.getLastD 0 = 1))

/-- `tests/factor/test_or.py:32`: `np.insert(np.cumsum(num_parents), 0, 0)[k]`. -/
def cumParents (ps : List Nat) (k : Nat) : Nat := (ps.take k).sum

/-- `tests/factor/test_or.py:58-64` (and `:67-73` for the other graph): the variables of factor `k`. -/
def gateVars (parents children : NDVarArray) (ps : List Nat) (k : Nat) : Py (List Var) := do
  let vs ← (List.range' (cumParents ps k) (cumParents ps (k + 1) - cumParents ps k)).mapM (fun (idx : Nat) => parents.at [(idx : Int)])
  let v ← children.at [(k : Int)]
  pure (vs ++ [v])

/-- `tests/factor/test_or.py:80-115`, the body of the loop, for the graph to which factor `k` goes: check the number of configurations, list them in an
enumeration factor. -/
def addGateTable [Zero α] (isAnd : Bool) (idF : Nat → Nat) (fg : FactorGraph κ α) (k : Nat) (vars : List Var) (p : Nat) : Py (FactorGraph κ α) := do
  let cfg := gateConfigs isAnd p
  if cfg.length ≠ 2 ^ p then throw .assertionError
  addEnumFactor idF fg k vars ⟨[cfg.length, p + 1], cfg.flatten.map (fun (s : Nat) => (s : Int))⟩ ⟨[cfg.length], List.replicate cfg.length 0⟩

/-- What `gates` makes. Code: `tests/factor/test_or.py:41-142`. -/
structure Gates (κ α : Type _) where
  parents1 : NDVarArray
  children1 : NDVarArray
  parents2 : NDVarArray
  children2 : NDVarArray
  fg1 : FactorGraph κ α
  fg2 : FactorGraph κ α

/-- `tests/factor/test_or.py:41-142`: the variables and the two graphs. -/
def gates [Zero α] (isAnd first : Bool) (idP1 idC1 idP2 idC2 : Nat) (idF : Nat → Nat) (idG1 idG2 : Nat) (ps : List Nat) : Py (Gates κ α) := do
  let parents1 ← NDVarArray.create idP1 [ps.sum] (.scalar 2)
  let children1 ← NDVarArray.create idC1 [ps.length] (.scalar 2)
  let fg1 := FactorGraph.create [.arr parents1, .arr children1]
  let parents2 ← NDVarArray.create idP2 [ps.sum] (.scalar 2)
  let children2 ← NDVarArray.create idC2 [ps.length] (.scalar 2)
  let fg2 := FactorGraph.create [.arr parents2, .arr children2]
  let vars ← (List.range ps.length).mapM (fun k => do
    let vars1 ← gateVars parents1 children1 ps k
    let vars2 ← gateVars parents2 children2 ps k
    pure (vars1, vars2))
  let fgs ← (List.range ps.length).foldlM (fun (s : FactorGraph κ α × FactorGraph κ α) k =>
    if k < ps.length / 2 ∨ first = true then do
      let fg1 ← addGateTable isAnd idF s.1 k (vars.getD k ([], [])).1 (ps.getD k 0)
      pure (fg1, s.2)
    else do
      let fg2 ← addGateTable isAnd idF s.2 k (vars.getD k ([], [])).2 (ps.getD k 0)
      pure (s.1, fg2)) (fg1, fg2)
  let logical1 := ((List.range ps.length).filter (fun k => !decide (k < ps.length / 2 ∨ first = true))).map (fun k => (vars.getD k ([], [])).1)
  let logical2 := ((List.range ps.length).filter (fun k => decide (k < ps.length / 2 ∨ first = true))).map (fun k => (vars.getD k ([], [])).2)
  let fg1 ← if first then pure fgs.1 else do
    let group1 ← LogicalFactorGroup.create idG1 logical1 isAnd
    fgs.1.addAll [.one group1]
  let group2 ← LogicalFactorGroup.create idG2 logical2 isAnd
  let fg2 ← fgs.2.addAll [.one group2]
  pure ⟨parents1, children1, parents2, children2, fg1, fg2⟩

/-- `beliefs[variables]` for an array of variables.  Simplification: `KeyError` if the beliefs of the group are not an array. Code: `tests/factor/test_or.py:169-174`. -/
def arrBeliefs [DecidableEq κ] (bs : List (VGroup κ × GroupBeliefs κ α)) (v : NDVarArray) : Py (NDArr (WithBot α)) :=
  match bs.find? (fun p => decide (p.1 = .arr v)) with
  | some (_, .arr a) => .ok a
  | _ => .error .keyError

/-- The test of `np.allclose` for two numbers: `abs(a - b) <= atol + rtol * abs(b)`, with `rtol = 1e-5`.  `⊥` is the entry for a missing state. Code: `tests/factor/test_or.py:169-174`. -/
def closeNums [Field α] [LinearOrder α] (atol : α) : WithBot α → WithBot α → Bool
  | some x, some y => decide (|x - y| ≤ atol + 1 / 100000 * |y|)
  | none, none => true
  | _, _ => false

/-- `np.allclose(a, b, atol=atol)`.  Simplification: arrays of different shapes are not broadcast but raise ValueError. Code: `tests/factor/test_or.py:169-174`. -/
def allClose [Field α] [LinearOrder α] (atol : α) (a b : NDArr (WithBot α)) : Py Bool :=
  if a.shape = b.shape then .ok ((a.data.zip b.data).all (fun q => closeNums atol q.1 q.2)) else .error .valueError

/-- `tests/factor/test_or.py:144-168`, for one of the graphs: `bp`, `bp.init`, `bp.run_bp` (with its default damping) and `bp.get_beliefs`. -/
def gateBeliefs [Field α] [LinearOrder α] [DecidableEq κ] (env : Env α) (garbage : Garbage) (stateId : Nat) (T : α) (fg : FactorGraph κ α) (parents children : NDVarArray)
    (evParents evChildren : NDArr α) (numIters : Nat) : Py (List (VGroup κ × GroupBeliefs κ α)) := do
  let st ← fg.fgState garbage
  let state ← bpStateOf stateId st
  let bp ← BP.create st state T
  let arrs ← bp.update none none none (some [.group (.arr parents) (.arr evParents), .group (.arr children) (.arr evChildren)])
  bp.getBeliefs (bp.runBP env arrs numIters (1 / 2))

/-- `tests/factor/test_or.py:9-174`, the body of the loop: the program raises AssertionError if the beliefs differ.  `num_iters` is 5 there. -/
def gateTest (κ : Type) [Field α] [LinearOrder α] [DecidableEq κ] (isAnd first : Bool) (idP1 idC1 idP2 idC2 : Nat) (idF : Nat → Nat) (idG1 idG2 : Nat) (env : Env α)
    (garbage1 garbage2 : Garbage) (stateId1 stateId2 : Nat) (ps : List Nat) (T : α) (evParents evChildren : List α) (numIters : Nat) : Py Unit := do
  let g ← gates (κ := κ) (α := α) isAnd first idP1 idC1 idP2 idC2 idF idG1 idG2 ps
  let bs1 ← gateBeliefs env garbage1 stateId1 T g.fg1 g.parents1 g.children1 ⟨[ps.sum, 2], evParents⟩ ⟨[ps.length, 2], evChildren⟩ numIters
  let bs2 ← gateBeliefs env garbage2 stateId2 T g.fg2 g.parents2 g.children2 ⟨[ps.sum, 2], evParents⟩ ⟨[ps.length, 2], evChildren⟩ numIters
  let c1 ← arrBeliefs bs1 g.children1
  let c2 ← arrBeliefs bs2 g.children2
  if !(← allClose (1 / 10000) c1 c2) then throw .assertionError
  let p1 ← arrBeliefs bs1 g.parents1
  let p2 ← arrBeliefs bs2 g.parents2
  if !(← allClose (1 / 10000) p1 p2) then throw .assertionError

end PGMax
