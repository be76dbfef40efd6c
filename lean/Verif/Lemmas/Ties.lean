import Verif.Model.ProgramTies
import Verif.Spec.Ties
import Verif.Lemmas.GatesRun

/-! # Helper lemmas: the graph of the program that ties variables of a dictionary to variables of an array -/

namespace PGMax

section
variable {κ α : Type} {idD idA : Nat} {idF : Nat → Nat} {names : List κ} {ns : List Nat}

/-- The `i`-th variable of a group. -/
def tVar (id : Nat) (ns : List Nat) (i : Nat) : Var := ⟨id % 2 ^ 32 * 1000000000 + i, ns.getD i 0⟩
/-- The dictionary. -/
def tDict (id : Nat) (names : List κ) (ns : List Nat) : VarDict κ := ⟨id % 2 ^ 32 * 1000000000, names, ns⟩
/-- The array. -/
def tArr (id : Nat) (ns : List Nat) : NDVarArray := ⟨id % 2 ^ 32 * 1000000000, [ns.length], ns⟩

theorem tDict_create (hl : names.length = ns.length) : VarDict.create idD names (.array ⟨[ns.length], ns⟩) = .ok (tDict idD names ns) := by
  unfold VarDict.create
  rw [vgPostInit_ok, hl]
  simp [tDict, MAX_SIZE, bind, Except.bind, pure, Except.pure]

theorem tArr_create (hf : ns.length ≤ 1000000000) : NDVarArray.create idA [ns.length] (.array ⟨[ns.length], ns⟩) = .ok (tArr idA ns) := by
  unfold NDVarArray.create
  rw [vgPostInit_ok]
  simp only [bind, Except.bind, List.prod_cons, List.prod_nil, Nat.mul_one]
  rw [if_neg (by unfold MAX_SIZE; omega)]
  simp [tArr, MAX_SIZE, bind, Except.bind, pure, Except.pure]

theorem zipWith_tVar (id : Nat) (ns : List Nat) : List.zipWith Var.mk ((List.range ns.length).map (fun i => id % 2 ^ 32 * 1000000000 + i)) ns = (List.range ns.length).map (tVar id ns) := by
  apply List.ext_getElem?
  intro i
  rw [List.getElem?_zipWith, List.getElem?_map, List.getElem?_map]
  by_cases hi : i < ns.length
  · rw [List.getElem?_range hi, List.getElem?_eq_getElem hi]
    simp [tVar, List.getD, hi]
  · rw [List.getElem?_eq_none (by simpa using hi)]
    simp

theorem tDict_variables (hl : names.length = ns.length) : (tDict idD names ns).variables = (List.range ns.length).map (tVar idD ns) := by
  rw [← zipWith_tVar]
  simp [VarDict.variables, VarDict.variableHashes, tDict, hl]

theorem tArr_variables : (tArr idA ns).variables = (List.range ns.length).map (tVar idA ns) := by
  rw [← zipWith_tVar]
  simp [NDVarArray.variables, NDVarArray.variableHashes, tArr]

theorem tDict_getitem [DecidableEq κ] (hl : names.length = ns.length) (hn : names.Nodup) {i : Nat} {name : κ} (hi : names[i]? = some name) :
    (tDict idD names ns).getitem name = .ok (tVar idD ns i) := by
  obtain ⟨h1, h2⟩ := List.getElem?_eq_some_iff.1 hi
  have hidx : names.idxOf name = i := by rw [← h2]; exact hn.idxOf_getElem i h1
  unfold VarDict.getitem
  rw [if_pos (show name ∈ (tDict idD names ns).names from List.mem_of_getElem? hi)]
  show (match (tDict idD names ns).variableHashes[names.idxOf name]?, ns[names.idxOf name]? with
    | some h, some n => (.ok ⟨h, n⟩ : Py Var)
    | _, _ => .error .indexError) = _
  rw [hidx, List.getElem?_eq_getElem (show i < ns.length by omega)]
  simp [VarDict.variableHashes, tDict, h1, tVar, List.getD, show i < ns.length by omega]

theorem tArr_at {i : Nat} (hi : i < ns.length) : (tArr idA ns).at [(i : Int)] = .ok (tVar idA ns i) := by
  have h1 : flatPositions [ns.length] [Ix.int (i : Int)] = .ok [i] := by
    simp [flatPositions, Ix.select, hi, bind, Except.bind, pure, Except.pure]
  have h2 : resultShape [ns.length] [Ix.int (i : Int)] = .ok [] := by simp [resultShape]
  unfold NDVarArray.at NDVarArray.getitem
  simp only [List.map_cons, List.map_nil, show (tArr idA ns).shape = [ns.length] from rfl, h1, h2, bind, Except.bind, pure, Except.pure]
  simp [NDVarArray.variableHashes, tArr, hi, tVar, List.getD]

theorem tVar_ne (hid : idD % 2 ^ 32 ≠ idA % 2 ^ 32) (hf : ns.length ≤ 1000000000) {i j : Nat} (hi : i < ns.length) (hj : j < ns.length) : tVar idD ns i ≠ tVar idA ns j := by
  intro h
  have := congrArg Var.hash h
  simp only [tVar] at this
  omega

theorem tVar_inj {id i j : Nat} (h : tVar id ns i = tVar id ns j) : i = j := by
  have := congrArg Var.hash h
  simp only [tVar] at this
  omega

/-- The rows of the table of a tie. -/
def tRows (N : Nat) : List (List Nat) := (List.range N).map (fun s => [s, s])

/-- The group that wraps the factor of tie `i`. -/
def tGroup [Zero α] (idD idA : Nat) (idF : Nat → Nat) (ns : List Nat) (i : Nat) : FGroup α :=
  enumGroup (idF i) .single ⟨2, tRows (ns.getD i 0)⟩ [([tVar idD ns i, tVar idA ns i], List.replicate (ns.getD i 0) 0)]

theorem addTie_eq [Zero α] [DecidableEq κ] (hl : names.length = ns.length) (hn : names.Nodup) (hp : ∀ n ∈ ns, 1 ≤ n) (fg : FactorGraph κ α) {i : Nat} {name : κ} (hi : names[i]? = some name) :
    addTie idF (tDict idD names ns) (tArr idA ns) fg ((name, ns.getD i 0), i) = fg.addAll [.one (tGroup idD idA idF ns i)] := by
  have hil : i < ns.length := by have := (List.getElem?_eq_some_iff.1 hi).1; omega
  have hpos : 1 ≤ ns.getD i 0 := hp _ (by rw [List.getD_eq_getElem _ _ hil]; exact List.getElem_mem hil)
  unfold addTie
  dsimp only
  rw [tDict_getitem hl hn hi, py_ok_bind, tArr_at hil, py_ok_bind, if_neg (by omega)]
  set N := ns.getD i 0 with hN
  have hrows : rows ((List.range N).flatMap (fun (idx : Nat) => [(idx : Int), (idx : Int)])) N 2 = (List.range N).map (fun (s : Nat) => [(s : Int), (s : Int)]) := by
    have := rows_of_flatten ((List.range N).map (fun (s : Nat) => [(s : Int), (s : Int)])) 2 (by
      intro r hr
      obtain ⟨s, -, rfl⟩ := List.mem_map.1 hr
      rfl)
    rwa [List.length_map, List.length_range] at this
  have hall : ((List.range N).map (fun (s : Nat) => [(s : Int), (s : Int)])).all (fun r => (r.zip [tVar idD ns i, tVar idA ns i]).all
      (fun p => decide (0 ≤ p.1) && decide (p.1 < p.2.n))) = true := by
    rw [List.all_eq_true]
    intro r hr
    obtain ⟨s, hs, rfl⟩ := List.mem_map.1 hr
    rw [List.mem_range] at hs
    simp only [tVar, ← hN, List.zip_cons_cons, List.zip_nil_right, List.all_cons, List.all_nil, Bool.and_true, Bool.and_eq_true, decide_eq_true_eq]
    omega
  have hback : ((List.range N).map (fun (s : Nat) => [(s : Int), (s : Int)])).map (·.map Int.toNat) = tRows N := by
    rw [List.map_map]
    exact List.map_congr_left fun s _ => by simp
  have hc : EnumFactor.create [tVar idD ns i, tVar idA ns i] ⟨[N, 2], (List.range N).flatMap (fun (idx : Nat) => [(idx : Int), (idx : Int)])⟩ true
      ⟨[N], List.replicate N (0 : α)⟩ true = .ok ⟨[tVar idD ns i, tVar idA ns i], ⟨2, tRows N⟩, List.replicate N 0⟩ := by
    unfold EnumFactor.create
    simp only [hrows, hall, hback, List.length_cons, List.length_nil, Bool.not_true, Bool.false_eq_true, if_false, ne_eq, not_true_eq_false, if_true]
    rfl
  unfold addEnumFactor
  show ((EnumFactor.create [tVar idD ns i, tVar idA ns i] ⟨[N, 2], (List.range N).flatMap (fun (idx : Nat) => [(idx : Int), (idx : Int)])⟩ true
      ⟨[N], List.replicate N (0 : α)⟩ true) >>= _) = _
  rw [hc]
  show fg.addAll _ = _
  simp only [tGroup, enumGroup, ← hN]
  simp [SingleFactorGroup.ofEnum]

/-- The variable groups. -/
def tVgs (idD idA : Nat) (names : List κ) (ns : List Nat) : List (VGroup κ) := [.dict (tDict idD names ns), .arr (tArr idA ns)]

theorem tVgs_ok (hid : idD % 2 ^ 32 ≠ idA % 2 ^ 32) (hl : names.length = ns.length) (hf : ns.length ≤ 1000000000) : VGroupsOk (tVgs idD idA names ns) where
  built := by
    intro g hg
    simp only [tVgs, List.mem_cons, List.not_mem_nil, or_false] at hg
    rcases hg with rfl | rfl
    · exact ⟨idD, .dict (ns := .array ⟨[ns.length], ns⟩) (by rintro x hx; cases hx; simp [NDArr.WF]) (by omega) (tDict_create hl)⟩
    · exact ⟨idA, .arr (ns := .array ⟨[ns.length], ns⟩) (by rintro x hx; cases hx; simp [NDArr.WF]) (tArr_create hf)⟩
  distinct := by
    simp only [tVgs, List.pairwise_cons, List.mem_singleton, forall_eq, List.not_mem_nil, false_implies, implies_true, List.Pairwise.nil, and_true]
    simp only [VGroup.pyEq, VGroup.hash, tDict, tArr, beq_eq_false_iff_ne, ne_eq]
    omega

theorem mem_tVgs {v : Var} (hl : names.length = ns.length) : v ∈ graphVars (tVgs idD idA names ns) ↔ ∃ i < ns.length, v = tVar idD ns i ∨ v = tVar idA ns i := by
  simp only [graphVars, tVgs, List.mem_toFinset, List.mem_flatMap, List.mem_cons, List.not_mem_nil, or_false, exists_eq_or_imp, exists_eq_left]
  show v ∈ (tDict idD names ns).variables ∨ v ∈ (tArr idA ns).variables ↔ _
  rw [tDict_variables hl, tArr_variables]
  simp only [List.mem_map, List.mem_range]
  constructor
  · rintro (⟨i, hi, rfl⟩ | ⟨i, hi, rfl⟩)
    · exact ⟨i, hi, .inl rfl⟩
    · exact ⟨i, hi, .inr rfl⟩
  · rintro ⟨i, hi, rfl | rfl⟩
    · exact .inl ⟨i, hi, rfl⟩
    · exact .inr ⟨i, hi, rfl⟩

/-- The factor of tie `i`. -/
def tFac [Zero α] (idD idA : Nat) (ns : List Nat) (i : Nat) : SFac α := ⟨[tVar idD ns i, tVar idA ns i], (tRows (ns.getD i 0)).map (fun r => (r, 0))⟩

theorem tGroup_valid [Zero α] (hl : names.length = ns.length) (hp : ∀ n ∈ ns, 1 ≤ n) {i : Nat} (hi : i < ns.length) :
    (tGroup idD idA idF ns i : FGroup α).Valid (fun v => v ∈ graphVars (tVgs idD idA names ns)) := by
  have hpos : 1 ≤ ns.getD i 0 := hp _ (by rw [List.getD_eq_getElem _ _ hi]; exact List.getElem_mem hi)
  refine enumGroup_valid _ _ _ _ (by simp) (by simp) ?_ ?_ ?_ ?_ ?_
  · intro h
    have := congrArg List.length h
    simp only [tRows, List.length_map, List.length_range, List.length_nil] at this
    omega
  · rintro p hp v hv
    rw [List.mem_singleton] at hp
    subst hp
    rw [mem_tVgs hl]
    simp only [List.mem_cons, List.not_mem_nil, or_false] at hv
    exact ⟨i, hi, hv⟩
  · intro p hp
    rw [List.mem_singleton] at hp
    subst hp
    rfl
  · intro p hp r hr
    rw [List.mem_singleton] at hp
    subst hp
    obtain ⟨s, hs, rfl⟩ := List.mem_map.1 hr
    rw [List.mem_range] at hs
    simpa [tVar] using hs
  · intro p hp
    rw [List.mem_singleton] at hp
    subst hp
    simp [tRows]

/-- What the program has made of the graph. -/
structure TieBuilt [Zero α] (idD idA : Nat) (idF : Nat → Nat) (names : List κ) (ns : List Nat) (fg : FactorGraph κ α) (garbage : Garbage) (st : FGState κ α) : Prop where
  graph : graphOf (tVgs idD idA names ns) ((List.range ns.length).map (fun i => .one (tGroup idD idA idF ns i))) = fg
  compiled : Compiled (tVgs idD idA names ns) ((List.range ns.length).map (fun i => .one (tGroup idD idA idF ns i))) garbage st
  factors : fg.factors st.logPotentials = (List.range ns.length).map (tFac idD idA ns)
  tables : tableFacs fg.tables st.logPotentials = (List.range ns.length).map (tFac idD idA ns)
  others : ∀ t, t ≠ .enum → fg.scopesOf t = []

theorem tie_build [Field α] [LinearOrder α] [DecidableEq κ] {x y : Nat → Nat → α} (h : TieInputs idD idA idF names ns x y) (garbage : Garbage) :
    ∃ (fg : FactorGraph κ α) (st : FGState κ α), ties idD idA idF names ns = .ok ⟨tDict idD names ns, tArr idA ns, fg⟩ ∧ TieBuilt idD idA idF names ns fg garbage st := by
  have hset : (((List.range ns.length).map (fun i => (tGroup idD idA idF ns i : FGroup α))).flatMap (·.varsForFactors)) =
      (List.range ns.length).map (fun i => [tVar idD ns i, tVar idA ns i]) := by
    rw [List.flatMap_map]
    simp [tGroup, enumGroup, ← List.map_eq_flatMap]
  have hnd : ∀ t, (setsOf ((List.range ns.length).map (fun i => (tGroup idD idA idF ns i : FGroup α))) t).Nodup := by
    rw [setsOf_enum (by intro g hg; obtain ⟨i, -, rfl⟩ := List.mem_map.1 hg; rfl), hset, List.map_map]
    refine List.nodup_range.map_on fun i hi j hj e => ?_
    rw [List.mem_range] at hi hj
    have hm : tVar idD ns i ∈ [tVar idD ns j, tVar idA ns j].toFinset := by
      have : tVar idD ns i ∈ [tVar idD ns i, tVar idA ns i].toFinset := by simp
      rw [show [tVar idD ns i, tVar idA ns i].toFinset = [tVar idD ns j, tVar idA ns j].toFinset from e] at this
      exact this
    rw [List.mem_toFinset, List.mem_cons, List.mem_singleton] at hm
    rcases hm with hm | hm
    · exact tVar_inj hm
    · exact absurd hm (tVar_ne h.groups h.few hi hj)
  have hflat : AddArg.flatList ((List.range ns.length).map (fun i => AddArg.one (tGroup idD idA idF ns i : FGroup α))) =
      (List.range ns.length).map (fun i => (tGroup idD idA idF ns i : FGroup α)) := by
    have := flatList_ones ((List.range ns.length).map (fun i => (tGroup idD idA idF ns i : FGroup α)))
    rwa [List.map_map] at this
  obtain ⟨fg, hfg⟩ := (addAll_create (tVgs idD idA names ns) ((List.range ns.length).map (fun i => AddArg.one (tGroup idD idA idF ns i : FGroup α)))).1 (by rw [hflat]; exact hnd)
  obtain ⟨e1, st, e2, e3, e4, e5, e6, e7, e8⟩ := enum_build (tVgs_ok h.groups h.lengths h.few) hfg
    (by
      rw [hflat]
      intro g hg
      obtain ⟨i, hi, rfl⟩ := List.mem_map.1 hg
      exact tGroup_valid h.lengths h.pos (List.mem_range.1 hi))
    (by
      rw [hflat, List.map_map]
      exact List.nodup_range.map_on fun i hi j hj e => h.ids i (List.mem_range.1 hi) j (List.mem_range.1 hj) e)
    (by rw [hflat]; intro g hg; obtain ⟨i, -, rfl⟩ := List.mem_map.1 hg; rfl) garbage
  have hfac : fg.factors st.logPotentials = (List.range ns.length).map (tFac idD idA ns) := by
    rw [e8, hflat, List.flatMap_map]
    have : ∀ i ∈ List.range ns.length, tableFacs ((tGroup idD idA idF ns i : FGroup α).varsForFactors.map (fun vs => (vs, (tGroup idD idA idF ns i : FGroup α).configs)))
        (tGroup idD idA idF ns i : FGroup α).logPotentials = [tFac idD idA ns i] := by
      intro i _
      have := enumGroup_facs (idF i) .single ⟨2, tRows (ns.getD i 0)⟩ [([tVar idD ns i, tVar idA ns i], List.replicate (ns.getD i 0) (0 : α))] (by simp [tRows])
      rw [show (tGroup idD idA idF ns i : FGroup α) = _ from rfl]
      refine this.trans ?_
      simp only [List.map_cons, List.map_nil, tFac]
      congr 2
      rw [show ns.getD i 0 = (tRows (ns.getD i 0)).length by simp [tRows], ← List.map_const']
      simp only [show (tRows (ns.getD i 0)).length = ns.getD i 0 by simp [tRows]]
      exact List.map_prod_left_eq_zip.symm
    rw [List.flatMap_congr this, ← List.map_eq_flatMap]
  refine ⟨fg, st, ?_, e1, e2, hfac, by rw [← e7]; exact hfac, e5⟩
  unfold ties
  rw [tDict_create h.lengths, py_ok_bind, tArr_create h.few, py_ok_bind]
  have hzip : (names.zip ns).zipIdx = (names.zipIdx).map (fun p => ((p.1, ns.getD p.2 0), p.2)) := by
    apply List.ext_getElem?
    intro i
    rw [List.getElem?_zipIdx, List.getElem?_map, List.getElem?_zipIdx, List.zip, List.getElem?_zipWith]
    by_cases hi : i < ns.length
    · have hi' : i < names.length := by rw [h.lengths]; exact hi
      simp [List.getElem?_eq_getElem hi, List.getElem?_eq_getElem hi', List.getD]
    · have hi' : ¬ i < names.length := by rw [h.lengths]; exact hi
      simp [List.getElem?_eq_none (not_lt.1 hi), List.getElem?_eq_none (not_lt.1 hi')]
  have hfold : (names.zip ns).zipIdx.foldlM (addTie idF (tDict idD names ns) (tArr idA ns)) (FactorGraph.create (tVgs idD idA names ns) : FactorGraph κ α) = .ok fg := by
    rw [hzip, List.foldlM_map]
    rw [foldlM_addAll _ (fun p : κ × Nat => (tGroup idD idA idF ns p.2 : FGroup α)) names.zipIdx (fun fg p hp => addTie_eq h.lengths h.nodup h.pos fg (by
      rw [List.mem_zipIdx_iff_getElem?] at hp
      exact hp))]
    rw [← hfg]
    congr 1
    rw [show (names.zipIdx.map (fun p : κ × Nat => (tGroup idD idA idF ns p.2 : FGroup α))).map AddArg.one = (names.zipIdx.map Prod.snd).map (fun i => AddArg.one (tGroup idD idA idF ns i)) by
      rw [List.map_map, List.map_map]; rfl]
    rw [List.zipIdx_map_snd, List.range_eq_range', h.lengths]
  rw [show (FactorGraph.create [.dict (tDict idD names ns), .arr (tArr idA ns)] : FactorGraph κ α) = FactorGraph.create (tVgs idD idA names ns) from rfl, hfold]
  rfl

end

end PGMax
