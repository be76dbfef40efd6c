import Verif.Model.ExamplesIsing

/-!
# Model of the program in `tests/test_pgmax.py:386-434` (`test_e2e_heretic`)

Hidden variables are connected to the pixels of a patch of 3 by 3 pixels.  The size of the image, the numbers of states, the potentials, the evidence, the
temperature and the number of iterations are parameters here (there 30 by 30, 3 and 17, zero, zero, 1.0 and 1).
-/

namespace PGMax

variable {κ α : Type _}

/-- `tests/test_pgmax.py:400-412`, `binary_connected_variables(num_hidden_rows, num_hidden_cols, kernel_row, kernel_col)`. -/
def patchScopes (hidden pixel : NDVarArray) (rows cols kr kc : Nat) : Py (List (List Var)) :=
  (grid rows cols).mapM (fun p => do
    let v ← hidden.at [(p.1 : Int), (p.2 : Int)]
    let u ← pixel.at [((p.1 + kr : Nat) : Int), ((p.2 + kc : Nat) : Int)]
    pure [v, u])

/-- `tests/test_pgmax.py:419`, `W_pot[:, :, k_row, k_col]`, where `W_pot` has shape `(Q, P, 3, 3)` and the entries `W` in row-major order. -/
def patchMatrix [Zero α] (Q P : Nat) (W : List α) (kr kc : Nat) : NDArr α :=
  ⟨[Q, P], (grid Q P).map (fun s => W.getD (((s.1 * P + s.2) * 3 + kr) * 3 + kc) 0)⟩

/-- What `patches` builds. Code: `tests/test_pgmax.py:388-421`. -/
structure Patches (κ α : Type _) where
  pixel : NDVarArray
  hidden : NDVarArray
  fg : FactorGraph κ α

/-- `tests/test_pgmax.py:388-421`: variables, factors and graph for images of `h + 2` by `w + 2` pixels with `P` states, and hidden variables with `Q`
states.  `idX`, `idZ` and `idF k` are the `id()` of the two arrays and of the `k`-th factor group. -/
def patches [Zero α] (idX idZ : Nat) (idF : Nat → Nat) (h w Q P : Nat) (W : List α) : Py (Patches κ α) := do
  let pixel ← NDVarArray.create idX [h + 2, w + 2] (.scalar P)
  let hidden ← NDVarArray.create idZ [h, w] (.scalar Q)
  let fg := FactorGraph.create [.arr pixel, .arr hidden]
  let fg ← (grid 3 3).foldlM (fun fg k => do
    let scopes ← patchScopes hidden pixel h w k.1 k.2
    let group ← PairwiseFactorGroup.create (idF (k.1 * 3 + k.2)) scopes (some (patchMatrix Q P W k.1 k.2)) true
    fg.addAll [.one group]) fg
  pure ⟨pixel, hidden, fg⟩

/-- What `patchesSetup` makes. Code: `tests/test_pgmax.py:388-432`. -/
structure PatchesSetup (κ α : Type _) where
  net : Patches κ α
  bp : BPFun κ α
  arrays : BPArrays α

/-- `tests/test_pgmax.py:388-432`: the graph, its evidence (`E` for all pixels, then `e` for the pixel `(0, 0)`), `bp` and `bp.init()`. -/
def patchesSetup [DecidableEq κ] [Field α] [LinearOrder α] (idX idZ : Nat) (idF : Nat → Nat) (garbage : Garbage) (stateId h w Q P : Nat) (W : List α) (E e : NDArr α) (T : α) :
    Py (PatchesSetup κ α) := do
  let r ← patches (κ := κ) (α := α) idX idZ idF h w Q P W
  let st ← r.fg.fgState garbage
  let state ← bpStateOf stateId st
  let ev ← Part.assigned (Evidence.setitem st state.evidence (.group (.arr r.pixel) (.arr E)))
  let v ← r.pixel.at [0, 0]
  let ev ← Part.assigned (Evidence.setitem st ev (.var v e))
  let _ ← Evidence.getitem st ev.value v
  let u ← r.hidden.at [0, 0]
  let _ ← Evidence.getitem st ev.value u
  let bp ← BP.create st { state with evidence := ev } T
  let arrays ← bp.update none none none none
  pure ⟨r, bp, arrays⟩

/-- `tests/test_pgmax.py:432-433`: `marginals` after `n` iterations with damping `d` (there `1` and the default `0.5`). -/
def patchesMarginals [DecidableEq κ] [Field α] [LinearOrder α] (env : Env α) (s : PatchesSetup κ α) (n : Nat) (d : α) : Py (List (VGroup κ × GroupMarginals κ α)) := do
  let bs ← s.bp.getBeliefs (s.bp.runBP env s.arrays n d)
  getMarginals env bs

end PGMax
