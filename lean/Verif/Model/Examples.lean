import Verif.Model.FGraph

/-!
# Model of the programs in `examples/` that build factor graphs

Only the parts that build variables, factor groups and the graph.  The fixed sizes in the programs are parameters here.
-/

namespace PGMax

variable {κ α : Type _}

/-- `variables[i, j, ...]` with one integer for every axis (`varray.py:52-76`), where a program puts the result into a list of variables.
Simplification: any other result of `__getitem__` is an error here. -/
def NDVarArray.at (g : NDVarArray) (idx : List Int) : Py Var :=
  match g.getitem (idx.map .int) with
  | .ok (.one v) => .ok v
  | .ok _ => .error .indexError
  | .error e => .error e

/-- Calls of `add_factors` one after another; an exception ends the program. Code: `pgmax/fgraph/fgraph.py:119-158`; e.g. `examples/rbm.py:103-129`. -/
def FactorGraph.addAll (fg : FactorGraph κ α) : List (AddArg α) → Py (FactorGraph κ α)
  | [] => .ok fg
  | a :: l =>
      match fg.addFactors a with
      | (fg', none) => addAll fg' l
      | (_, some e) => .error e

/-- `for ii in range(m): for jj in range(n)`. Code: `examples/ising_model.py:33-34`, `examples/gmrf.py:63-64`. -/
def grid (m n : Nat) : List (Nat × Nat) := (List.range m).flatMap (fun i => (List.range n).map (fun j => (i, j)))

/-- `examples/ising_model.py:32-38`, the loop that builds `variables_for_factors` (there `m = n = 50`). -/
def isingScopes (g : NDVarArray) (m n : Nat) : Py (List (List Var)) := do
  let ls ← (grid m n).mapM (fun p => do
    let kk := (p.1 + 1) % m
    let ll := (p.2 + 1) % n
    let a ← g.at [(p.1 : Int), (p.2 : Int)]
    let b ← g.at [(kk : Int), (p.2 : Int)]
    let c ← g.at [(p.1 : Int), (p.2 : Int)]
    let d ← g.at [(p.1 : Int), (ll : Int)]
    pure [[a, b], [c, d]])
  pure ls.flatten

/-- `examples/ising_model.py:28-44`: variables, factor group and graph (there `J = 0.8`).  `idV` and `idF` are the `id()` of the
variable group and the factor group. -/
def ising [Ring α] (idV idF : Nat) (m n : Nat) (J : α) : Py (NDVarArray × FGroup α × FactorGraph κ α) := do
  let vars ← NDVarArray.create idV [m, n] (.scalar 2)
  let fg := FactorGraph.create [.arr vars]
  let scopes ← isingScopes vars m n
  let group ← PairwiseFactorGroup.create idF scopes (some ⟨[2, 2], [J * 1, J * -1, J * -1, J * 1]⟩) true
  let fg ← fg.addAll [.one group]
  pure (vars, group, fg)

/-- The indices of the seven nested loops at `examples/pmp_binary_deconvolution.py:142-148`. -/
structure Place where
  img : Nat
  chan : Nat
  sh : Nat
  sw : Nat
  feat : Nat
  fh : Nat
  fw : Nat
  deriving DecidableEq, Repr

/-- `examples/pmp_binary_deconvolution.py:142-148`, the seven nested loops. -/
def places (nImg nChan sH sW nFeat fH fW : Nat) : List Place :=
  (List.range nImg).flatMap fun i => (List.range nChan).flatMap fun c => (List.range sH).flatMap fun a => (List.range sW).flatMap fun b =>
    (List.range nFeat).flatMap fun f => (List.range fH).flatMap fun u => (List.range fW).map fun w => ⟨i, c, a, b, f, u, w⟩

/-- `d[key].append(value)` for a `defaultdict(list)`, which keeps the order in which keys were first used. Code: `examples/pmp_binary_deconvolution.py:141`, `169`. -/
def dictAppend {β γ : Type _} [DecidableEq β] (d : List (β × List γ)) (key : β) (value : γ) : List (β × List γ) :=
  if key ∈ d.map (·.1) then d.map (fun p => if p.1 = key then (p.1, p.2 ++ [value]) else p) else d ++ [(key, [value])]

/-- `examples/pmp_binary_deconvolution.py:149-169`, the body of the loops. -/
def deconvStep (S W SW X : NDVarArray) (st : List (List Var) × List (Var × List Var)) (p : Place) :
    Py (List (List Var) × List (Var × List Var)) := do
  let h := p.fh + p.sh
  let w := p.fw + p.sw
  let swVar ← SW.at [(p.img : Int), (p.chan : Int), (h : Int), (w : Int), (p.feat : Int), (p.fh : Int), (p.fw : Int)]
  let sVar ← S.at [(p.img : Int), (p.feat : Int), (p.sh : Int), (p.sw : Int)]
  let wVar ← W.at [(p.chan : Int), (p.feat : Int), (p.fh : Int), (p.fw : Int)]
  let xVar ← X.at [(p.img : Int), (p.chan : Int), (h : Int), (w : Int)]
  pure (st.1 ++ [[sVar, wVar, swVar]], dictAppend st.2 xVar swVar)

/-- What `deconv` builds. Code: `examples/pmp_binary_deconvolution.py:111-187`. -/
structure Deconv (κ α : Type _) where
  S : NDVarArray
  W : NDVarArray
  SW : NDVarArray
  X : NDVarArray
  andGroup : FGroup α
  orGroup : FGroup α
  fg : FactorGraph κ α

/-- `examples/pmp_binary_deconvolution.py:111-187`: variables, factor groups and graph.  The `id()`s of the four arrays and two groups are
parameters, as are the shape of the images and of the features.
Simplification: an array with a negative dimension (`np.full`) is rejected before the array `W` is built, not after. -/
def deconv (idW idS idSW idX idA idO : Nat) (nImg nChan imH imW nFeat fH fW : Nat) : Py (Deconv κ α) := do
  let sHeight : Int := (imH : Int) - fH + 1
  let sWidth : Int := (imW : Int) - fW + 1
  if sHeight < 0 ∨ sWidth < 0 then throw .valueError
  let W ← NDVarArray.create idW [nChan, nFeat, fH, fW] (.scalar 2)
  let S ← NDVarArray.create idS [nImg, nFeat, sHeight.toNat, sWidth.toNat] (.scalar 2)
  let SW ← NDVarArray.create idSW [nImg, nChan, imH, imW, nFeat, fH, fW] (.scalar 2)
  let X ← NDVarArray.create idX [nImg, nChan, imH, imW] (.scalar 2)
  let fg := FactorGraph.create [.arr S, .arr W, .arr SW, .arr X]
  let r ← (places nImg nChan sHeight.toNat sWidth.toNat nFeat fH fW).foldlM (deconvStep S W SW X) ([], [])
  let andGroup ← LogicalFactorGroup.create idA r.1 true
  let fg ← fg.addAll [.one andGroup]
  let orGroup ← LogicalFactorGroup.create idO (r.2.map (fun p => p.2 ++ [p.1])) false
  let fg ← fg.addAll [.one orGroup]
  if FType.all.any (fun t => decide (0 < (fg.groups t).length) && decide ((fg.groups t).length ≠ 1)) then throw .assertionError
  pure ⟨S, W, SW, X, andGroup, orGroup, fg⟩

/-- What `rbm` builds. Code: `examples/rbm.py:47-85`. -/
structure Rbm (κ α : Type _) where
  hidden : NDVarArray
  visible : NDVarArray
  hiddenUnaries : FGroup α
  visibleUnaries : FGroup α
  pairwise : FGroup α
  fg : FactorGraph κ α

/-- `examples/rbm.py:47-85`: variables, factor groups and graph for the arrays `bh`, `bv` (one-dimensional) and `W` of the loaded file.
`W.data` is `W.ravel()`, its length the `-1` of the `reshape`.  The `id()`s of arrays and groups are parameters. -/
def rbm [Zero α] (idH idV idA idB idP : Nat) (bh bv : List α) (W : NDArr α) : Py (Rbm κ α) := do
  let hidden ← NDVarArray.create idH [bh.length] (.scalar 2)
  let visible ← NDVarArray.create idV [bv.length] (.scalar 2)
  let fg := FactorGraph.create [.arr hidden, .arr visible]
  let hs ← (List.range bh.length).mapM (fun (ii : Nat) => do
    let v ← hidden.at [(ii : Int)]
    pure [v])
  let hiddenUnaries ← EnumFactorGroup.create idA hs ⟨1, [[0], [1]]⟩ (some ⟨[bh.length, 2], bh.flatMap (fun b => [0, b])⟩) true
  let vs ← (List.range bv.length).mapM (fun (jj : Nat) => do
    let v ← visible.at [(jj : Int)]
    pure [v])
  let visibleUnaries ← EnumFactorGroup.create idB vs ⟨1, [[0], [1]]⟩ (some ⟨[bv.length, 2], bv.flatMap (fun b => [0, b])⟩) true
  let ps ← (grid bh.length bv.length).mapM (fun p => do
    let v ← hidden.at [(p.1 : Int)]
    let w ← visible.at [(p.2 : Int)]
    pure [v, w])
  let pairwise ← PairwiseFactorGroup.create idP ps (some ⟨[W.data.length, 2, 2], W.data.flatMap (fun w => [0, 0, 0, w])⟩) true
  let fg ← fg.addAll [.list [.one hiddenUnaries, .one visibleUnaries, .one pairwise]]
  pure ⟨hidden, visible, hiddenUnaries, visibleUnaries, pairwise, fg⟩

/-- `W[ii, jj]` for non-negative indices.  Simplification: only two-dimensional arrays have entries. Code: `examples/rbm.py:126`. -/
def NDArr.at2 (W : NDArr α) (i j : Nat) : Py α :=
  match W.shape with
  | [r, c] => if i < r ∧ j < c then
      match W.data[i * c + j]? with
      | some w => .ok w
      | none => .error .indexError
    else .error .indexError
  | _ => .error .indexError

/-- `fg.add_factors(factor)` for the `k`-th factor of a program, wrapped in an object with `id()` `idF k` (`fgraph.py:143-147`). -/
def addEnumFactor (idF : Nat → Nat) (fg : FactorGraph κ α) (k : Nat) (vars : List Var) (cfg : NDArr Int) (lp : NDArr α) : Py (FactorGraph κ α) := do
  let f ← EnumFactor.create vars cfg true lp true
  fg.addAll [.one (SingleFactorGroup.ofEnum (idF k) f)]

/-- `examples/rbm.py:98-129`, the alternative way of building the same graph, factor by factor. -/
def rbmFactors [Zero α] (idH idV : Nat) (idF : Nat → Nat) (bh bv : List α) (W : NDArr α) : Py (NDVarArray × NDVarArray × FactorGraph κ α) := do
  let hidden ← NDVarArray.create idH [bh.length] (.scalar 2)
  let visible ← NDVarArray.create idV [bv.length] (.scalar 2)
  let fg := FactorGraph.create [.arr hidden, .arr visible]
  let fg ← (List.range bh.length).foldlM (fun fg (ii : Nat) => do
    let v ← hidden.at [(ii : Int)]
    addEnumFactor idF fg ii [v] ⟨[2, 1], [0, 1]⟩ ⟨[2], [0, bh.getD ii 0]⟩) fg
  let fg ← (List.range bv.length).foldlM (fun fg (jj : Nat) => do
    let v ← visible.at [(jj : Int)]
    addEnumFactor idF fg (bh.length + jj) [v] ⟨[2, 1], [0, 1]⟩ ⟨[2], [0, bv.getD jj 0]⟩) fg
  let fg ← (grid bh.length bv.length).foldlM (fun fg p => do
    let v ← hidden.at [(p.1 : Int)]
    let w ← visible.at [(p.2 : Int)]
    let z ← W.at2 p.1 p.2
    addEnumFactor idF fg (bh.length + bv.length + (p.1 * bv.length + p.2)) [v, w] ⟨[4, 2], [0, 0, 0, 1, 1, 0, 1, 1]⟩ ⟨[4], [0, 0, 0, z]⟩) fg
  pure (hidden, visible, fg)

/-- What `gmrf` builds. Code: `examples/gmrf.py:52-95`. -/
structure Gmrf (κ α : Type _) where
  vars : NDVarArray
  topDown : FGroup α
  leftRight : FGroup α
  diagonal0 : FGroup α
  diagonal1 : FGroup α
  fg : FactorGraph κ α

/-- `[variables[a], variables[b]] for ii in range(m) for jj in range(n)`, where the two indices are functions of `ii` and `jj`. Code: `examples/gmrf.py:61-90`. -/
def pairScopes (g : NDVarArray) (m n : Nat) (a b : Nat → Nat → List Int) : Py (List (List Var)) :=
  (grid m n).mapM (fun p => do
    let v ← g.at (a p.1 p.2)
    let w ← g.at (b p.1 p.2)
    pure [v, w])

/-- `examples/gmrf.py:52-95`: variables, factor groups and graph for `M` by `N` images and `K = np.sum(n_clones)` states.  For `diagonal1` the
row `ii` ranges over `range(1, M)`, so it is one more than the row counted here. -/
def gmrf [Zero α] (idV idT idL idD idE : Nat) (M N K : Nat) : Py (Gmrf κ α) := do
  let vars ← NDVarArray.create idV [M, N] (.scalar K)
  let fg := FactorGraph.create [.arr vars]
  let s1 ← pairScopes vars (M - 1) N (fun ii jj => [(ii : Int), (jj : Int)]) (fun ii jj => [(ii : Int) + 1, (jj : Int)])
  let topDown ← PairwiseFactorGroup.create idT s1 none true
  let s2 ← pairScopes vars M (N - 1) (fun ii jj => [(ii : Int), (jj : Int)]) (fun ii jj => [(ii : Int), (jj : Int) + 1])
  let leftRight ← PairwiseFactorGroup.create idL s2 none true
  let s3 ← pairScopes vars (M - 1) (N - 1) (fun ii jj => [(ii : Int), (jj : Int)]) (fun ii jj => [(ii : Int) + 1, (jj : Int) + 1])
  let diagonal0 ← PairwiseFactorGroup.create idD s3 none true
  let s4 ← pairScopes vars (M - 1) (N - 1) (fun i jj => let ii : Int := (i : Int) + 1; [ii, (jj : Int)])
    (fun i jj => let ii : Int := (i : Int) + 1; [ii - 1, (jj : Int) + 1])
  let diagonal1 ← PairwiseFactorGroup.create idE s4 none true
  let fg ← fg.addAll [.list [.one topDown, .one leftRight, .one diagonal0, .one diagonal1]]
  pure ⟨vars, topDown, leftRight, diagonal0, diagonal1, fg⟩

/-- `examples/rcn.py:229-258`, `valid_configs`: the rows of the array.  `np.unravel_index` is division with remainder by the length of a row,
`np.ravel_multi_index` its inverse; `max(r1 - r, 0)` is the truncated difference of natural numbers. -/
def validConfigs (r hps vps : Nat) : List (List Nat) :=
  (List.range ((2 * hps + 1) * (2 * vps + 1))).flatMap fun i =>
    let r1 := i / (2 * vps + 1)
    let c1 := i % (2 * vps + 1)
    let r2min := r1 - r
    let r2max := min (r1 + r) (2 * hps)
    let c2min := c1 - r
    let c2max := min (c1 + r) (2 * vps)
    (List.range' r2min (r2max + 1 - r2min)).flatMap fun r2 => (List.range' c2min (c2max + 1 - c2min)).map fun c2 => [i, r2 * (2 * vps + 1) + c2]

/-- `xs[i]` for a list and a non-negative index. Code: `examples/rcn.py:274-285`. -/
def listAt {β : Type _} (xs : List β) (i : Nat) : Py β :=
  match xs[i]? with
  | some x => .ok x
  | none => .error .indexError

/-- `examples/rcn.py:277-285`, the body of the loops for the edge `e = (i1, i2, r)` of the model with index `idx`.  The list of valid
configurations (`rcn.py:261-264`) has 22 entries.  Simplification: the entries of an edge are not negative. -/
def rcnEdge [Zero α] (hps vps : Nat) (vars : List NDVarArray) (idx : Nat) (idF : Nat) (fg : FactorGraph κ α) (e : Nat × Nat × Nat) : Py (FactorGraph κ α) := do
  let g ← listAt vars idx
  let v ← g.at [(e.1 : Int)]
  let w ← g.at [(e.2.1 : Int)]
  let configs ← listAt ((List.range 22).map (fun r => validConfigs r hps vps)) e.2.2
  let group ← EnumFactorGroup.create idF [[v, w]] ⟨2, configs⟩ none true
  fg.addAll [.one group]

/-- `examples/rcn.py:206-285`: variables, factor groups and graph.  `sizes` are the lengths of the arrays in `frcs`; `idV idx` is the `id()` of the
array of variables of a model, `idF idx k` that of the group of its `k`-th edge. -/
def rcn [Zero α] (idV : Nat → Nat) (idF : Nat → Nat → Nat) (hps vps : Nat) (sizes : List Nat) (edges : List (List (Nat × Nat × Nat))) :
    Py (List NDVarArray × FactorGraph κ α) := do
  if sizes.length ≠ edges.length then throw .assertionError
  let M := (2 * hps + 1) * (2 * vps + 1)
  let vars ← (List.range sizes.length).mapM (fun (idx : Nat) => NDVarArray.create (idV idx) [sizes.getD idx 0] (.scalar M))
  let fg := FactorGraph.create (vars.map .arr)
  let fg ← (List.range edges.length).foldlM (fun fg (idx : Nat) =>
    (edges.getD idx []).zipIdx.foldlM (fun fg p => rcnEdge hps vps vars idx (idF idx p.2) fg p.1) fg) fg
  pure (vars, fg)

end PGMax
