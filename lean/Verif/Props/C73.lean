import Verif.Props.C67
import Verif.Props.C72
import Verif.Lemmas.Pairs

/-! # C73: symmetries of the Ising program -/

namespace PGMax

/-! ### Symmetries of the torus -/

theorem torusSym_shift (m n a b : Nat) : TorusSym m n (fun p => ((p.1 + a) % m, (p.2 + b) % n)) where
  cells := fun p h1 h2 => ⟨Nat.mod_lt _ (by omega), Nat.mod_lt _ (by omega)⟩
  inj := by
    rintro ⟨i, j⟩ ⟨k, l⟩ h1 h2 h3 h4 h
    simp only [Prod.mk.injEq] at *
    have e1 : i % m = k % m := Nat.ModEq.add_right_cancel' a h.1
    have e2 : j % n = l % n := Nat.ModEq.add_right_cancel' b h.2
    rw [Nat.mod_eq_of_lt h1, Nat.mod_eq_of_lt h3] at e1
    rw [Nat.mod_eq_of_lt h2, Nat.mod_eq_of_lt h4] at e2
    exact ⟨e1, e2⟩
  next := by
    rintro ⟨i, j⟩ ⟨k, l⟩ h1 h2 (h | h) <;> cases h
    · refine .inl (.inl (Prod.ext ?_ rfl))
      simp only [Nat.mod_add_mod]
      congr 1; omega
    · refine .inl (.inr (Prod.ext rfl ?_))
      simp only [Nat.mod_add_mod]
      congr 1; omega

theorem torusSym_transpose (m : Nat) : TorusSym m m (fun p => (p.2, p.1)) where
  cells := fun p h1 h2 => ⟨h2, h1⟩
  inj := by
    rintro ⟨i, j⟩ ⟨k, l⟩ h1 h2 h3 h4 h
    simp only [Prod.mk.injEq] at *
    exact ⟨h.2, h.1⟩
  next := by
    rintro ⟨i, j⟩ ⟨k, l⟩ h1 h2 (h | h) <;> cases h
    · exact .inl (.inr rfl)
    · exact .inl (.inl rfl)

theorem torusSym_reflect (m n : Nat) : TorusSym m n (fun p => (m - 1 - p.1, p.2)) where
  cells := fun p h1 h2 => ⟨by simp only; omega, h2⟩
  inj := by
    rintro ⟨i, j⟩ ⟨k, l⟩ h1 h2 h3 h4 h
    simp only [Prod.mk.injEq] at *
    omega
  next := by
    rintro ⟨i, j⟩ ⟨k, l⟩ h1 h2 (h | h) <;> cases h
    · refine .inr (.inl (Prod.ext ?_ rfl))
      simp only at h1 h2 ⊢
      rcases succ_mod h1 with ⟨h3, h4⟩ | ⟨h3, h4⟩
      · rw [h4, Nat.mod_eq_of_lt (by omega)]; omega
      · rw [h4, show m - 1 - 0 + 1 = m by omega, Nat.mod_self]; omega
    · exact .inl (.inr rfl)

/-! ### The program -/

section
variable {κ α : Type} [Field α] [LinearOrder α] [IsStrictOrderedRing α]

theorem torus_scope_iff {cell : Nat → Nat → Var} {m n : Nat} {vs : List Var} :
    vs ∈ (grid m n).flatMap (torusAt cell m n) ↔ ∃ p q : Nat × Nat, p.1 < m ∧ p.2 < n ∧ TorusNext m n p q ∧ vs = [cell p.1 p.2, cell q.1 q.2] := by
  constructor
  · intro h
    obtain ⟨p, hp, h⟩ := List.mem_flatMap.1 h
    obtain ⟨hi, hj⟩ := mem_grid.1 hp
    simp only [torusAt, List.mem_cons, List.not_mem_nil, or_false] at h
    rcases h with rfl | rfl
    · exact ⟨p, _, hi, hj, .inl rfl, rfl⟩
    · exact ⟨p, _, hi, hj, .inr rfl, rfl⟩
  · rintro ⟨p, q, hi, hj, h | h, rfl⟩
    · subst h
      exact List.mem_flatMap.2 ⟨p, mem_grid.2 ⟨hi, hj⟩, by simp [torusAt]⟩
    · subst h
      exact List.mem_flatMap.2 ⟨p, mem_grid.2 ⟨hi, hj⟩, by simp [torusAt]⟩

theorem grid_length (m n : Nat) : (grid m n).length = m * n := by
  simp [grid, List.length_flatMap, List.map_const', List.sum_replicate]

theorem torusNext_lt {m n : Nat} {p q : Nat × Nat} (h1 : p.1 < m) (h2 : p.2 < n) (h : TorusNext m n p q) : q.1 < m ∧ q.2 < n := by
  rcases h with rfl | rfl
  · exact ⟨Nat.mod_lt _ (by omega), h2⟩
  · exact ⟨h1, Nat.mod_lt _ (by omega)⟩

theorem isGrid_cell {idV m n : Nat} {cell : Nat → Nat → Var} (h : IsGrid (uniArr idV [m, n] 2) m n 2 cell) {i j : Nat} (hi : i < m) (hj : j < n) :
    isingCell idV m n i j = cell i j := by
  have h1 := h.getitem i hi j hj
  have h2 := (isGrid_uniArr idV m n 2).getitem i hi j hj
  rw [h1] at h2
  injection h2 with h2
  injection h2 with h2
  exact h2.symm

/-- **C73.** Let `φ` be a symmetry of the torus, and exchange the two states of all variables if `flip`.  If the evidence `ev'` is the evidence
`ev` moved in this way, then so are the beliefs of belief propagation on the graph of the Ising program, after any number of iterations from zero messages,
at any damping and temperature. -/
theorem C73 {idV idF m n : Nat} {J : α} {vars : NDVarArray} {group : FGroup α} {fg : FactorGraph κ α}
    (h : ising idV idF m n J = .ok (vars, group, fg)) {cell : Nat → Nat → Var} (hcell : IsGrid vars m n 2 cell)
    {garbage : Garbage} {st : FGState κ α} (hst : Compiled [.arr vars] [.one group] garbage st)
    {state : BPState α} {T : α} {bp : BPFun κ α} (hbp : BP.create st state T = .ok bp)
    (env : Env α) (hfit : env.wrapNeg = false ∨ 8 * (m * n) + 2 ≤ 100000)
    (φ : Nat × Nat → Nat × Nat) (hφ : TorusSym m n φ) (flip : Bool) (ev ev' : List α)
    (hev : ev.length = st.numVarStates) (hev' : ev'.length = st.numVarStates)
    (hse : ∀ i < m, ∀ j < n, ∀ s < 2, readEv st.varsToStarts ev' (cell (φ (i, j)).1 (φ (i, j)).2) (if flip then 1 - s else s) =
      readEv st.varsToStarts ev (cell i j) s) (k : Nat) (d : α) :
    ∀ i < m, ∀ j < n, ∀ s < 2, ∃ start start' b, st.varsToStarts (cell i j) = some start ∧
      st.varsToStarts (cell (φ (i, j)).1 (φ (i, j)).2) = some start' ∧
      (bp.flatBeliefs (bp.runBP env ⟨st.logPotentials, List.replicate st.totalFactorNumStates 0, ev⟩ k d))[start + s]? = some b ∧
      (bp.flatBeliefs (bp.runBP env ⟨st.logPotentials, List.replicate st.totalFactorNumStates 0, ev'⟩ k d))[start' + (if flip then 1 - s else s)]? = some b := by
  obtain ⟨hm, hn, rfl, st', hst', rfl, hor, hand, hsc, hnd, hfac⟩ := ising_built h garbage
  obtain rfl : st' = st := by
    have e1 := hst'.st_eq
    have e2 := hst.st_eq
    exact e1.trans e2.symm
  have hgrid := isGrid_uniArr idV m n 2
  have hcc : ∀ {i j : Nat}, i < m → j < n → isingCell idV m n i j = cell i j := fun hi hj => isGrid_cell hcell hi hj
  have hmemv : ∀ v, v ∈ graphVars [(.arr (uniArr idV [m, n] 2) : VGroup κ)] ↔ ∃ i < m, ∃ j < n, v = cell i j := by
    intro v
    rw [← hcell.vars]
    simp [graphVars, VGroup.variables]
  have hscope : ∀ {vs : List Var}, vs ∈ (grid m n).flatMap (torusAt (isingCell idV m n) m n) ↔
      ∃ p q : Nat × Nat, p.1 < m ∧ p.2 < n ∧ TorusNext m n p q ∧ vs = [cell p.1 p.2, cell q.1 q.2] := by
    intro vs
    rw [torus_scope_iff]
    constructor <;> rintro ⟨p, q, h1, h2, h3, rfl⟩
    · obtain ⟨h4, h5⟩ := torusNext_lt h1 h2 h3
      exact ⟨p, q, h1, h2, h3, by rw [hcc h1 h2, hcc h4 h5]⟩
    · obtain ⟨h4, h5⟩ := torusNext_lt h1 h2 h3
      exact ⟨p, q, h1, h2, h3, by rw [hcc h1 h2, hcc h4 h5]⟩
  -- the map of variables
  classical
  let ψ : Var → Var := fun v => if hv : ∃ p : Nat × Nat, p.1 < m ∧ p.2 < n ∧ v = cell p.1 p.2 then cell (φ hv.choose).1 (φ hv.choose).2 else v
  have hψ : ∀ p : Nat × Nat, p.1 < m → p.2 < n → ψ (cell p.1 p.2) = cell (φ p).1 (φ p).2 := by
    intro p h1 h2
    have hv : ∃ q : Nat × Nat, q.1 < m ∧ q.2 < n ∧ cell p.1 p.2 = cell q.1 q.2 := ⟨p, h1, h2, rfl⟩
    have e : hv.choose = p := by
      obtain ⟨h3, h4, h5⟩ := hv.choose_spec
      obtain ⟨h6, h7⟩ := hcell.inj _ h1 _ h2 _ h3 _ h4 h5
      exact Prod.ext h6.symm h7.symm
    simp only [ψ]
    rw [dif_pos hv, e]
  have hψinj : ∀ p q : Nat × Nat, p.1 < m → p.2 < n → q.1 < m → q.2 < n → ψ (cell p.1 p.2) = ψ (cell q.1 q.2) → cell p.1 p.2 = cell q.1 q.2 := by
    intro p q h1 h2 h3 h4 he
    rw [hψ p h1 h2, hψ q h3 h4] at he
    obtain ⟨h5, h6⟩ := hφ.cells p h1 h2
    obtain ⟨h7, h8⟩ := hφ.cells q h3 h4
    obtain ⟨h9, h10⟩ := hcell.inj _ h5 _ h6 _ h7 _ h8 he
    rw [hφ.inj p q h1 h2 h3 h4 (Prod.ext h9 h10)]
  let τ : Equiv.Perm Nat := if flip then Equiv.swap 0 1 else Equiv.refl _
  have hτ : ∀ s < 2, τ s = if flip then 1 - s else s := by
    intro s hs
    cases flip
    · rfl
    · interval_cases s <;> rfl
  obtain ⟨R, hRv, hRs, hR⟩ := pairIso hfac hor hand (fun vs hvs => by
      obtain ⟨p, q, -, -, -, rfl⟩ := hscope.1 hvs
      exact ⟨_, _, rfl⟩) (by rw [← hsc]; exact hnd) (φ := ψ)
    (fun vs hvs ws hws he => by
      obtain ⟨p, q, h1, h2, h3, rfl⟩ := hscope.1 hvs
      obtain ⟨p', q', h1', h2', h3', rfl⟩ := hscope.1 hws
      obtain ⟨h4, h5⟩ := torusNext_lt h1 h2 h3
      obtain ⟨h4', h5'⟩ := torusNext_lt h1' h2' h3'
      simp only [List.map_cons, List.map_nil] at he
      rcases pair_toFinset_eq he with ⟨e1, e2⟩ | ⟨e1, e2⟩
      · rw [hψinj _ _ h1 h2 h1' h2' e1, hψinj _ _ h4 h5 h4' h5' e2]
      · rw [hψinj _ _ h1 h2 h4' h5' e1, hψinj _ _ h4 h5 h1' h2' e2]
        simp [Finset.pair_comm])
    (fun vs hvs => by
      obtain ⟨p, q, h1, h2, h3, rfl⟩ := hscope.1 hvs
      obtain ⟨h4, h5⟩ := torusNext_lt h1 h2 h3
      simp only [List.map_cons, List.map_nil, hψ p h1 h2, hψ q h4 h5]
      obtain ⟨h6, h7⟩ := hφ.cells p h1 h2
      obtain ⟨h8, h9⟩ := hφ.cells q h4 h5
      rcases hφ.next p q h1 h2 h3 with h10 | h10
      · exact ⟨_, hscope.2 ⟨_, _, h6, h7, h10, rfl⟩, rfl⟩
      · exact ⟨_, hscope.2 ⟨_, _, h8, h9, h10, rfl⟩, by simp [Finset.pair_comm]⟩)
    τ
    (by
      intro r hr
      rw [show (mgridConfigs 2 2).rows.zip [J * 1, J * -1, J * -1, J * 1] = [([0, 0], J * 1), ([0, 1], J * -1), ([1, 0], J * -1), ([1, 1], J * 1)] from rfl] at hr
      simp only [List.mem_cons, List.not_mem_nil, or_false] at hr
      rcases hr with rfl | rfl | rfl | rfl <;> exact ⟨_, _, rfl⟩)
    (by
      rw [show (mgridConfigs 2 2).rows.zip [J * 1, J * -1, J * -1, J * 1] = [([0, 0], J * 1), ([0, 1], J * -1), ([1, 0], J * -1), ([1, 1], J * 1)] from rfl]
      cases flip
      · simp [τ]
      · exact List.reverse_perm [([0, 0], J * 1), ([0, 1], J * -1), ([1, 0], J * -1), ([1, 1], J * 1)])
    (by
      rw [show (mgridConfigs 2 2).rows.zip [J * 1, J * -1, J * -1, J * 1] = [([0, 0], J * 1), ([0, 1], J * -1), ([1, 0], J * -1), ([1, 1], J * 1)] from rfl]
      simp only [List.map_cons, List.map_nil, List.reverse_cons, List.reverse_nil, List.nil_append, List.cons_append]
      exact List.Perm.cons _ (List.Perm.swap _ _ _))
  have hvn : ∀ {i j : Nat}, i < m → j < n → (cell i j).n = 2 := fun hi hj => hcell.states _ hi _ hj
  have hfits : Fits env (graphOf [(.arr (uniArr idV [m, n] 2) : VGroup κ)] [.one group]) T := by
    constructor
    · rcases hfit with h1 | h1
      · exact .inl h1
      · refine .inr fun f i v hv => ?_
        have h2 := hst.edge_vars f i v hv
        obtain ⟨a, ha, b, hb, rfl⟩ := (hmemv v).1 h2
        rw [hvn ha hb, hsc]
        have h3 : ∀ vs ∈ (grid m n).flatMap (torusAt (isingCell idV m n) m n), (vs.map (·.n)).sum = 4 := by
          intro vs hvs
          obtain ⟨p, q, h3, h4, h5, rfl⟩ := hscope.1 hvs
          obtain ⟨h6, h7⟩ := torusNext_lt h3 h4 h5
          simp [hvn h3 h4, hvn h6 h7]
        rw [List.map_congr_left h3, List.map_const', List.sum_replicate, List.length_flatMap]
        simp only [torusAt, List.length_cons, List.length_nil, List.map_const', List.sum_replicate, smul_eq_mul]
        rw [show (grid m n).length = m * n from grid_length m n]
        omega
    · intro _
      simp [FactorGraph.numParents, hor, hand]
  have hlog : ∀ (f : Nat) (vs : List Var), ((graphOf [(.arr (uniArr idV [m, n] 2) : VGroup κ)] [.one group]).scopesOf .enum).length ≤ f →
      (graphOf [(.arr (uniArr idV [m, n] 2) : VGroup κ)] [.one group]).allScopes[f]? = some vs → False := by
    intro f vs h1 h2
    have h3 := (List.getElem?_eq_some_iff.1 h2).1
    simp only [FactorGraph.allScopes, FType.all, List.flatMap_cons, List.flatMap_nil, hor, hand, List.append_nil] at h3
    omega
  have z : ∀ (k : Nat) (f i s : Nat), readMsgs (graphOf [(.arr (uniArr idV [m, n] 2) : VGroup κ)] [.one group]).allScopes (List.replicate k (0 : α)) f i s = 0 := by
    intro k f i s
    unfold readMsgs
    rw [List.getD_eq_getElem?_getD, List.getElem?_replicate]
    split <;> rfl
  have key := (C72_kept hst hst hbp hbp env hfits hfits ⟨st'.logPotentials, List.replicate st'.totalFactorNumStates 0, ev⟩
    ⟨st'.logPotentials, List.replicate st'.totalFactorNumStates 0, ev'⟩ k d rfl rfl (by simp) (by simp) hev hev' R hR
    { known := by
        intro v hv
        obtain ⟨i, hi, j, hj, rfl⟩ := (hmemv v).1 hv
        rw [hRv, hψ (i, j) hi hj]
        obtain ⟨h1, h2⟩ := hφ.cells (i, j) hi hj
        exact (hmemv _).2 ⟨_, h1, _, h2, rfl⟩
      inj := by
        intro v hv w hw he
        obtain ⟨i, hi, j, hj, rfl⟩ := (hmemv v).1 hv
        obtain ⟨i', hi', j', hj', rfl⟩ := (hmemv w).1 hw
        rw [hRv] at he
        exact hψinj (i, j) (i', j') hi hj hi' hj' he
      size := by
        intro v hv
        obtain ⟨i, hi, j, hj, rfl⟩ := (hmemv v).1 hv
        rw [hRv, hψ (i, j) hi hj]
        obtain ⟨h1, h2⟩ := hφ.cells (i, j) hi hj
        rw [hvn h1 h2, hvn hi hj]
      states := by
        intro v hv s
        obtain ⟨i, hi, j, hj, rfl⟩ := (hmemv v).1 hv
        rw [hRs, hvn hi hj]
        cases flip
        · exact Iff.rfl
        · rcases s with _ | _ | s
          · simp [τ]
          · simp [τ]
          · simp only [τ, if_true]
            rw [Equiv.swap_apply_of_ne_of_ne (by omega) (by omega)] }
    (by
      intro v hv s hs
      obtain ⟨i, hi, j, hj, rfl⟩ := (hmemv v).1 hv
      rw [hvn hi hj] at hs
      rw [hRv, hψ (i, j) hi hj, hRs, hτ s hs]
      exact hse i hi j hj s hs)
    (by intro f i v s _ _; rw [z, z])
    (fun f vs h1 h2 => (hlog f vs h1 h2).elim)).2
  intro i hi j hj s hs
  obtain ⟨start, start', h1, h2, h3⟩ := key (cell i j) ((hmemv _).2 ⟨i, hi, j, hj, rfl⟩)
  obtain ⟨b, h4, h5⟩ := h3 s (by rw [hvn hi hj]; exact hs)
  rw [hRv, hψ (i, j) hi hj] at h2
  rw [hRs, hτ s hs] at h5
  exact ⟨start, start', b, h1, h2, h4, h5⟩

/-- **C73 (uniform evidence).** If all cells have the same evidence, all cells have the same beliefs. -/
theorem C73_uniform {idV idF m n : Nat} {J : α} {vars : NDVarArray} {group : FGroup α} {fg : FactorGraph κ α}
    (h : ising idV idF m n J = .ok (vars, group, fg)) {cell : Nat → Nat → Var} (hcell : IsGrid vars m n 2 cell)
    {garbage : Garbage} {st : FGState κ α} (hst : Compiled [.arr vars] [.one group] garbage st)
    {state : BPState α} {T : α} {bp : BPFun κ α} (hbp : BP.create st state T = .ok bp)
    (env : Env α) (hfit : env.wrapNeg = false ∨ 8 * (m * n) + 2 ≤ 100000) (ev : List α) (hev : ev.length = st.numVarStates) (e : Nat → α)
    (he : ∀ i < m, ∀ j < n, ∀ s < 2, readEv st.varsToStarts ev (cell i j) s = e s) (k : Nat) (d : α) :
    ∃ b : Nat → α, ∀ i < m, ∀ j < n, ∀ s < 2, ∃ start, st.varsToStarts (cell i j) = some start ∧
      (bp.flatBeliefs (bp.runBP env ⟨st.logPotentials, List.replicate st.totalFactorNumStates 0, ev⟩ k d))[start + s]? = some (b s) := by
  obtain ⟨hm, hn, -⟩ := (C67_sizes (κ := κ) idV idF m n J).1.1 ⟨_, h⟩
  refine ⟨fun s => (bp.flatBeliefs (bp.runBP env ⟨st.logPotentials, List.replicate st.totalFactorNumStates 0, ev⟩ k d)).getD
    ((st.varsToStarts (cell 0 0)).getD 0 + s) 0, fun i hi j hj s hs => ?_⟩
  obtain ⟨start, start', b, h1, h2, h3, h4⟩ := C73 h hcell hst hbp env hfit _ (torusSym_shift m n i j) false ev ev hev hev
    (fun i' hi' j' hj' s hs => by
      simp only [Bool.false_eq_true, if_false]
      rw [he _ (Nat.mod_lt _ (by omega)) _ (Nat.mod_lt _ (by omega)) s hs, he i' hi' j' hj' s hs]) k d 0 hm 0 hn s hs
  simp only [zero_add, Nat.mod_eq_of_lt hi, Nat.mod_eq_of_lt hj, Bool.false_eq_true, if_false] at h2 h4
  refine ⟨start', h2, ?_⟩
  simp only [h4, h1, List.getD_eq_getElem?_getD, Option.getD_some, h3]

/-- **C73 (no preferred spin).** If the evidence of no cell prefers one of its states, then no belief does. -/
theorem C73_flip {idV idF m n : Nat} {J : α} {vars : NDVarArray} {group : FGroup α} {fg : FactorGraph κ α}
    (h : ising idV idF m n J = .ok (vars, group, fg)) {cell : Nat → Nat → Var} (hcell : IsGrid vars m n 2 cell)
    {garbage : Garbage} {st : FGState κ α} (hst : Compiled [.arr vars] [.one group] garbage st)
    {state : BPState α} {T : α} {bp : BPFun κ α} (hbp : BP.create st state T = .ok bp)
    (env : Env α) (hfit : env.wrapNeg = false ∨ 8 * (m * n) + 2 ≤ 100000) (ev : List α) (hev : ev.length = st.numVarStates)
    (he : ∀ i < m, ∀ j < n, readEv st.varsToStarts ev (cell i j) 0 = readEv st.varsToStarts ev (cell i j) 1) (k : Nat) (d : α) :
    ∀ i < m, ∀ j < n, ∃ start b, st.varsToStarts (cell i j) = some start ∧
      (bp.flatBeliefs (bp.runBP env ⟨st.logPotentials, List.replicate st.totalFactorNumStates 0, ev⟩ k d))[start]? = some b ∧
      (bp.flatBeliefs (bp.runBP env ⟨st.logPotentials, List.replicate st.totalFactorNumStates 0, ev⟩ k d))[start + 1]? = some b := by
  intro i hi j hj
  obtain ⟨start, start', b, h1, h2, h3, h4⟩ := C73 h hcell hst hbp env hfit (fun p => p)
    ⟨fun _ h1 h2 => ⟨h1, h2⟩, fun _ _ _ _ _ _ h => h, fun _ _ _ _ h => .inl h⟩ true ev ev hev hev
    (fun i hi j hj s hs => by
      have := he i hi j hj
      interval_cases s
      · exact this.symm
      · exact this) k d i hi j hj 0 (by omega)
  rw [h1] at h2
  cases h2
  exact ⟨start, b, h1, by simpa using h3, by simpa using h4⟩

end

/-! ## Non-vacuity -/

/-- The program for a 3 by 3 torus. -/
def exIsing : Py (NDVarArray × FGroup ℚ × FactorGraph Nat ℚ) := ising 1 2 3 3 1

/-- Max-product beliefs after `n` undamped iterations from zero messages. -/
def exIsingBeliefs (ev : List ℚ) (n : Nat) : Py (List ℚ) := do
  let r ← exIsing
  let st ← r.2.2.fgState 0
  let bp ← BP.create st exBPState 0
  pure (bp.flatBeliefs (bp.runBP exEnv ⟨st.logPotentials, List.replicate st.totalFactorNumStates 0, ev⟩ n 0))

/-- Non-vacuity of C73: the graph exists and belief propagation can be set up on it, transposition is a symmetry, and the beliefs for evidence
on two cells and for the transposed and flipped evidence are each other's transposed and flipped versions. -/
example : (∃ (vars : NDVarArray) (group : FGroup ℚ) (fg : FactorGraph Nat ℚ) (cell : Nat → Nat → Var) (st : FGState Nat ℚ) (bp : BPFun Nat ℚ),
      ising 1 2 3 3 1 = .ok (vars, group, fg) ∧ IsGrid vars 3 3 2 cell ∧ Compiled [.arr vars] [.one group] 0 st ∧ BP.create st exBPState 0 = .ok bp) ∧
    TorusSym 3 3 (fun p => (p.2, p.1)) ∧ (exEnv.wrapNeg = false ∨ 8 * (3 * 3) + 2 ≤ 100000) ∧
    exIsingBeliefs [0, 0, 1, 0, 0, 0,  0, 0, 0, 0, 3, 0,  0, 0, 0, 0, 0, 0] 2 = .ok [0, -5, 1, -4, 0, -6,  0, -5, 0, -6, 3, -2,  0, -6, 0, -5, 0, -5] ∧
    exIsingBeliefs [0, 0, 0, 0, 0, 0,  0, 1, 0, 0, 0, 0,  0, 0, 0, 3, 0, 0] 2 = .ok [-5, 0, -5, 0, -6, 0,  -4, 1, -6, 0, -5, 0,  -6, 0, -2, 3, -5, 0] := by
  refine ⟨?_, torusSym_transpose 3, .inr (by norm_num), by decide +kernel, by decide +kernel⟩
  obtain ⟨⟨vars, group, fg⟩, h⟩ := (C67_sizes (κ := Nat) 1 2 3 3 (1 : ℚ)).1.2 (by norm_num)
  obtain ⟨cell, st, h1, h2, -, h3, -⟩ := C67_model h 0
  obtain ⟨bp, h4⟩ := h3 exBPState 0
  exact ⟨vars, group, fg, cell, st, bp, h, h1, h2, h4⟩

end PGMax
