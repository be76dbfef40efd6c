import Verif.Model.ExamplesRun
import Verif.Model.ExamplesIsing

/-!
# Model of the program in `tests/test_pgmax.py:15-377` that labels the cuts of a depth image

A cut is a place between two neighbouring pixels.  `(0, r, c)` is the cut between the pixels `(r, c)` and `(r + 1, c)`, `(1, r, c)` that between `(r, c)`
and `(r, c + 1)`.  The size of the image (there 3 by 3), the depth image, the noise and `SUPPRESSION_DIAMETER` (there 2) are parameters here.
-/

namespace PGMax

variable {κ α : Type _}

/-- The names in the dictionary of variables. Code: `tests/test_pgmax.py:201-207`. -/
abbrev CutName := Nat × Nat × Nat

/-- `tests/test_pgmax.py:17-30`, `create_valid_suppression_config_arr`: the rows of the array. -/
def suppressionConfigs (d : Nat) : List (List Nat) :=
  let base := List.replicate d 0
  base :: (List.range d).flatMap (fun idx => [base.set idx 1, base.set idx 2])

/-- `tests/test_pgmax.py:158-190`, `valid_configs_non_supp`: the rows of the array. -/
def crossingConfigs : List (List Nat) :=
  [[0, 0, 0, 0], [1, 0, 1, 0], [2, 0, 2, 0], [0, 0, 1, 1], [0, 0, 2, 2], [2, 0, 0, 1], [1, 0, 0, 2], [1, 0, 1, 1], [2, 0, 2, 1], [1, 0, 1, 2],
   [2, 0, 2, 2], [0, 1, 0, 1], [1, 1, 0, 0], [0, 1, 2, 0], [1, 1, 0, 1], [2, 1, 0, 1], [0, 1, 1, 1], [0, 1, 2, 1], [1, 1, 1, 0], [2, 1, 2, 0],
   [0, 2, 0, 2], [2, 2, 0, 0], [0, 2, 1, 0], [2, 2, 0, 2], [1, 2, 0, 2], [0, 2, 2, 2], [0, 2, 1, 2], [2, 2, 2, 0], [1, 2, 1, 0]]

/-- `tests/test_pgmax.py:204-206`, `additional_names`. -/
def cutNames (M N : Nat) : List CutName :=
  (List.range (M - 1)).map (fun row => (0, row, N - 1)) ++ (List.range (N - 1)).map (fun col => (1, M - 1, col))

/-- `tests/test_pgmax.py:266-295`, `curr_vars` for `row` and `col`. -/
def crossingVars (g : NDVarArray) (e : VarDict CutName) (M N row col : Nat) : Py (List Var) := do
  if row ≠ M - 2 ∧ col ≠ N - 2 then
    pure [← g.at [0, (row : Int), (col : Int)], ← g.at [1, (row : Int), (col : Int)],
      ← g.at [0, (row : Int), ((col + 1 : Nat) : Int)], ← g.at [1, ((row + 1 : Nat) : Int), (col : Int)]]
  else if row ≠ M - 2 then
    pure [← g.at [0, (row : Int), (col : Int)], ← g.at [1, (row : Int), (col : Int)],
      ← e.getitem (0, row, col + 1), ← g.at [1, ((row + 1 : Nat) : Int), (col : Int)]]
  else if col ≠ N - 2 then
    pure [← g.at [0, (row : Int), (col : Int)], ← g.at [1, (row : Int), (col : Int)],
      ← g.at [0, (row : Int), ((col + 1 : Nat) : Int)], ← e.getitem (1, row + 1, col)]
  else
    pure [← g.at [0, (row : Int), (col : Int)], ← g.at [1, (row : Int), (col : Int)],
      ← e.getitem (0, row, col + 1), ← e.getitem (1, row + 1, col)]

/-- `tests/test_pgmax.py:316-332`, `vert_suppression_vars`; the pairs of the grid are `(col, start_row)`. -/
def verticalVars (g : NDVarArray) (e : VarDict CutName) (M N D : Nat) : Py (List (List Var)) :=
  (grid N (M - D)).mapM (fun p => (List.range' p.2 D).mapM (fun (r : Nat) =>
    if p.1 ≠ N - 1 then g.at [0, (r : Int), (p.1 : Int)] else e.getitem (0, r, p.1)))

/-- `tests/test_pgmax.py:334-350`, `horz_suppression_vars`; the pairs of the grid are `(row, start_col)`. -/
def horizontalVars (g : NDVarArray) (e : VarDict CutName) (M N D : Nat) : Py (List (List Var)) :=
  (grid M (N - D)).mapM (fun p => (List.range' p.2 D).mapM (fun (c : Nat) =>
    if p.1 ≠ M - 1 then g.at [1, (p.1 : Int), (c : Int)] else e.getitem (1, p.1, c)))

/-- What `cuts` builds. Code: `tests/test_pgmax.py:201-364`. -/
structure Cuts (α : Type _) where
  grid : NDVarArray
  extra : VarDict CutName
  fg : FactorGraph CutName α

/-- `tests/test_pgmax.py:201-207` and `260-364`: variables, factors and graph for images of `M` by `N` pixels (`1 ≤ M` and `1 ≤ N`).  The two branches
at `296-313` are the same.  `idG`, `idE`, `idV`, `idH` and `idF k` are the `id()` of the array, the dictionary, the two factor groups and the group made for
the `k`-th single factor. -/
def cuts [Zero α] (idG idE idV idH : Nat) (idF : Nat → Nat) (M N D : Nat) : Py (Cuts α) := do
  let g ← NDVarArray.create idG [2, M - 1, N - 1] (.scalar 3)
  let e ← VarDict.create idE (cutNames M N) (.scalar 3)
  let fg := FactorGraph.create [.arr g, .dict e]
  let fg ← (grid (M - 1) (N - 1)).foldlM (fun fg p => do
    let vars ← crossingVars g e M N p.1 p.2
    addEnumFactor idF fg (p.1 * (N - 1) + p.2) vars ⟨[29, 4], crossingConfigs.flatten.map (fun (s : Nat) => (s : Int))⟩ ⟨[29], List.replicate 29 0⟩) fg
  let vs ← verticalVars g e M N D
  let hs ← horizontalVars g e M N D
  let vertical ← EnumFactorGroup.create idV vs ⟨D, suppressionConfigs D⟩ none true
  let fg ← fg.addAll [.one vertical]
  let horizontal ← EnumFactorGroup.create idH hs ⟨D, suppressionConfigs D⟩ (some ⟨[(suppressionConfigs D).length], List.replicate (suppressionConfigs D).length 0⟩) true
  let fg ← fg.addAll [.one horizontal]
  pure ⟨g, e, fg⟩

/-- `tests/test_pgmax.py:144-152`: the label of a cut, from the difference of the depths of its two pixels. -/
def cutLabel [Zero α] [LinearOrder α] (difference : α) : Nat :=
  if 0 < difference then 2 else if difference < 0 then 1 else 0

/-- `tests/test_pgmax.py:137-155`: `gt_has_cuts[i, row, col]`.  The depth image is a function of row and column here. -/
def cutTruth [AddGroup α] [LinearOrder α] (M N : Nat) (depth : Nat → Nat → α) (q : CutName) : Nat :=
  if q.1 = 0 then (if q.2.1 < M - 1 then cutLabel (depth q.2.1 q.2.2 - depth (q.2.1 + 1) q.2.2) else 0)
  else (if q.2.2 < N - 1 then cutLabel (depth q.2.1 q.2.2 - depth q.2.1 (q.2.2 + 1)) else 0)

/-- `tests/test_pgmax.py:237-248`: `evidence_vals_arr`; `noise` are the two numbers `0.1 * rng.logistic(size=...)`. -/
def cutValues [Ring α] (truth : Nat) (noise : α × α) : List α :=
  let vals : List α := [0, 0, 0].set truth 2
  let vals := vals.map (fun y => y - vals.getD 0 0)
  [vals.getD 0 0, vals.getD 1 0 + noise.1, vals.getD 2 0 + noise.2]

/-- The indices of the loops at `tests/test_pgmax.py:233-235`. -/
def cutPlaces (M N : Nat) : List CutName := (List.range 2).flatMap (fun i => (grid M N).map (fun p => (i, p.1, p.2)))

/-- `tests/test_pgmax.py:231-257`: `grid_evidence_arr`, as the list of its rows of three numbers in row-major order, and `additional_vars_evidence_dict`. -/
def cutEvidence [Ring α] [LinearOrder α] (g : NDVarArray) (e : VarDict CutName) (M N : Nat) (depth : Nat → Nat → α) (noise : CutName → α × α) :
    Py (List (List α) × List (CutName × NDArr α)) :=
  (cutPlaces M N).foldlM (fun s q =>
    let vals := cutValues (cutTruth M N depth q) (noise q)
    match g.at [(q.1 : Int), (q.2.1 : Int), (q.2.2 : Int)] with
    | .ok _ => .ok (s.1.set (q.1 * ((M - 1) * (N - 1)) + (q.2.1 * (N - 1) + q.2.2)) vals, s.2)
    | .error .indexError =>
      match e.getitem q with
      | .ok _ => .ok (s.1, dictSet s.2 q ⟨[3], vals⟩)
      | .error .valueError => .ok s
      | .error err => .error err
    | .error err => .error err) (List.replicate (2 * ((M - 1) * (N - 1))) [0, 0, 0], [])

/-- What `cutsSetup` makes. Code: `tests/test_pgmax.py:201-378`. -/
structure CutsSetup (α : Type _) where
  net : Cuts α
  bp : BPFun CutName α
  arrays : BPArrays α

/-- `tests/test_pgmax.py:201-378`: the graph, its evidence, `bp` and `bp.init()`. -/
def cutsSetup [Field α] [LinearOrder α] (idG idE idV idH : Nat) (idF : Nat → Nat) (garbage : Garbage) (stateId M N D : Nat) (depth : Nat → Nat → α)
    (noise : CutName → α × α) : Py (CutsSetup α) := do
  let r ← cuts (α := α) idG idE idV idH idF M N D
  let E ← cutEvidence r.grid r.extra M N depth noise
  let st ← r.fg.fgState garbage
  let state ← bpStateOf stateId st
  let ev ← Part.assigned (Evidence.setitem st state.evidence (.group (.arr r.grid) (.arr ⟨[2, M - 1, N - 1, 3], E.1.flatten⟩)))
  let ev ← Part.assigned (Evidence.setitem st ev (.group (.dict r.extra) (.dict E.2)))
  let bp ← BP.create st { state with evidence := ev } 0
  let arrays ← bp.update none none none none
  pure ⟨r, bp, arrays⟩

end PGMax
