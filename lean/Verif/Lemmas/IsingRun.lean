import Verif.Lemmas.IsingOdds
import Verif.Lemmas.RbmRun
import Verif.Model.ExamplesIsing

/-! # Helper lemmas: inference in the Ising program -/

namespace PGMax

section
variable {κ α : Type} [Field α] [LinearOrder α] {idV idF m n : Nat}

/-- The log potentials of `k` factors with the same table. -/
def potList (k : Nat) (A : Nat → Nat → α) : List α := (List.replicate k [A 0 0, A 0 1, A 1 0, A 1 1]).flatten

/-- The variable groups and the graph of the program. -/
abbrev iVgs (κ : Type) (idV m n : Nat) : List (VGroup κ) := [.arr (uniArr idV [m, n] 2)]

/-- What the program has made. -/
structure IsingBuilt (idV idF m n : Nat) (J : α) (s : IsingSetup κ α) (garbage : Garbage) (st : FGState κ α) : Prop where
  rows : 1 ≤ m
  cols : 1 ≤ n
  vars : s.vars = uniArr idV [m, n] 2
  group : s.group = isingGroup idV idF m n J
  compiled : Compiled (iVgs κ idV m n) [.one (isingGroup idV idF m n J)] garbage st
  bp : ∃ state, BP.create st state 0 = .ok s.bp ∧ state.logPotentials.value = st.logPotentials ∧ state.ftovMsgs.value = List.replicate st.totalFactorNumStates 0 ∧
    state.evidence.value = List.replicate st.numVarStates 0
  pots : st.logPotentials = potList (m * n * 2) (coupling J)
  factors : ∀ A, (graphOf (iVgs κ idV m n) [.one (isingGroup idV idF m n J)]).factors (potList (m * n * 2) A) = torusFacs m n (isingCell idV m n) A
  tables : ∀ lp, (graphOf (iVgs κ idV m n) [.one (isingGroup idV idF m n J)]).factors lp = tableFacs (graphOf (iVgs κ idV m n) [.one (isingGroup idV idF m n J)]).tables lp
  parents : (graphOf (iVgs κ idV m n) [.one (isingGroup idV idF m n J)]).numParents = 0
  update : ∀ A : Nat → Nat → α, updateLogPotentials st st.logPotentials [(isingGroup idV idF m n J, ⟨[2, 2], [A 0 0, A 0 1, A 1 0, A 1 1]⟩)] = .ok (potList (m * n * 2) A)

theorem torusCells (idV m n : Nat) : TorusCells m n (isingCell idV m n) where
  two _ _ _ _ := rfl
  inj := (isGrid_uniArr idV m n 2).inj

theorem ising_setup {J : α} (hm : 1 ≤ m) (hn : 1 ≤ n) (hs : m * n ≤ 1000000000) (hc : m ≠ 2 ∧ n ≠ 2 ∧ ¬ (m = 1 ∧ n = 1)) (garbage : Garbage) (stateId : Nat) :
    ∃ s st, isingSetup κ idV idF garbage stateId m n J = .ok s ∧ IsingBuilt idV idF m n J s garbage st := by
  obtain ⟨fg, hfg⟩ := (addAll_create (κ := κ) [.arr (uniArr idV [m, n] 2)] [.one (isingGroup idV idF m n J)]).1 ((ising_setsOf idV idF m n J hm hn).2 hc)
  have e := ising_eq (κ := κ) idV idF m n J hm hn hs
  rw [hfg] at e
  simp only at e
  have hgrid := isGrid_uniArr idV m n 2
  have hmemv : ∀ v, v ∈ graphVars [(.arr (uniArr idV [m, n] 2) : VGroup κ)] ↔ ∃ i < m, ∃ j < n, v = isingCell idV m n i j := by
    intro v
    rw [← hgrid.vars]
    simp [graphVars, VGroup.variables]
  have hfl : AddArg.flatList [.one (isingGroup idV idF m n J)] = [isingGroup idV idF m n J] := by simp [AddArg.flatList, AddArg.flat]
  have hvalid : (isingGroup idV idF m n J).Valid (fun v => v ∈ graphVars [(.arr (uniArr idV [m, n] 2) : VGroup κ)]) :=
    pairs_valid (a := 2) (b := 2) rfl rfl (by omega) (by omega) (torus_ne _ hm hn) (fun vs hvs => by
      obtain ⟨i, hi, j, hj, k, hk, l, hl, rfl⟩ := torus_pairs _ hvs
      exact ⟨_, _, rfl, rfl, rfl, (hmemv _).2 ⟨i, hi, j, hj, rfl⟩, (hmemv _).2 ⟨k, hk, l, hl, rfl⟩⟩)
      (by simp [isingGroup])
  obtain ⟨hg, st, hst, hsc, htab, hno, hlp, hall, -⟩ := enum_build (vgroupsOk_one idV [m, n] 2 (by simpa using hs)) hfg
    (by rw [hfl]; intro g hg; rw [List.mem_singleton] at hg; subst hg; exact hvalid) (by rw [hfl]; simp) (by rw [hfl]; simp [isingGroup]) garbage
  rw [hfl] at hsc htab hlp
  simp only [List.flatMap_cons, List.flatMap_nil, List.append_nil] at hsc htab hlp
  have hpot : st.logPotentials = potList (m * n * 2) (coupling J) := by
    rw [hlp]
    simp only [isingGroup, potList, torusScopes_length]
    simp [coupling]
  obtain ⟨bp, hbp⟩ := (C51_partial hst (⟨⟨stateId, st.logPotentials⟩, ⟨stateId, List.replicate st.totalFactorNumStates 0⟩,
      ⟨stateId, List.replicate st.numVarStates 0⟩⟩ : BPState α) 0).1.2 (by
    rw [hg, hsc]
    exact torus_ne _ hm hn)
  refine ⟨⟨uniArr idV [m, n] 2, isingGroup idV idF m n J, bp⟩, st, ?_, hm, hn, rfl, rfl, hst, ⟨_, hbp, rfl, rfl, rfl⟩, hpot, fun A => ?_, by rw [hg]; exact hall, ?_, fun A => ?_⟩
  · unfold isingSetup
    rw [e, py_ok_bind]
    have h4 := hst.compiled
    rw [hg] at h4
    rw [h4, py_ok_bind, show bpStateOf stateId st = .ok _ by
      simp [bpStateOf, LogPotentials.create, FToVMessages.create, Evidence.create, BPState.create, bind, Except.bind]; rfl, py_ok_bind, hbp, py_ok_bind]
    rfl
  · rw [hg, hall, htab]
    have e := tableFacs_blocks (((grid m n).flatMap (torusAt (isingCell idV m n) m n)).map (fun vs => (vs, [A 0 0, A 0 1, A 1 0, A 1 1])))
      (mgridConfigs 2 2) (by
        intro p hp
        obtain ⟨vs, -, rfl⟩ := List.mem_map.1 hp
        rfl)
    rw [List.map_map, List.map_map] at e
    rw [show potList (m * n * 2) A = (((grid m n).flatMap (torusAt (isingCell idV m n) m n)).map (fun vs => (vs, [A 0 0, A 0 1, A 1 0, A 1 1]))).flatMap (·.2) by
      rw [List.flatMap_map]; simp only [potList, List.flatMap_def, List.map_const', ← torusScopes_length (isingCell idV m n)]]
    exact e
  · rw [hg]
    simp [FactorGraph.numParents, hno]
  · have hag : fg.allGroups = [isingGroup idV idF m n J] := by
      have hgr := fun t => addAll_groups hfg t
      rw [hfl] at hgr
      unfold FactorGraph.allGroups
      simp [FType.all, hgr, FactorGraph.create, isingGroup]
    have := update_all hst (fun _ => potList (m * n * 2) A) (by
      rw [hg, hag]
      intro g hg'
      rw [List.mem_singleton] at hg'
      subst hg'
      have : (isingGroup idV idF m n J).logPotentials.length = st.logPotentials.length := by rw [hlp]
      rw [this, hpot]
      simp [potList]) [(isingGroup idV idF m n J, ⟨[2, 2], [A 0 0, A 0 1, A 1 0, A 1 1]⟩)] (by rw [hg, hag]; exact List.Perm.refl _) (by
      intro p hp
      rw [List.mem_singleton] at hp
      subst hp
      obtain ⟨fs, hfs, hl⟩ := pairwise_factors (isingGroup idV idF m n J) 2 2 ((grid m n).flatMap (torusAt (isingCell idV m n) m n)) rfl rfl rfl (by
        intro vs hvs
        obtain ⟨i, hi, j, hj, k, hk, l, hl, rfl⟩ := torus_pairs _ hvs
        exact ⟨_, _, rfl, rfl, rfl⟩) ((torus_nodup hgrid hm hn).2 hc)
      unfold FGroup.flatten
      show (do
        let __do_lift ← (isingGroup idV idF m n J).factors
        _) = _
      rw [hfs, py_ok_bind, hl]
      rw [if_neg (by simp)]
      show (if [2, 2] = [2, 2] then _ else _) = _
      rw [if_pos rfl, torusScopes_length]
      unfold tile potList
      simp [pure, Except.pure]) st.logPotentials rfl
    rw [this, hg, hag]
    simp

/-- The arrays after `init`. -/
structure IsingInit (idV m n : Nat) (A : Nat → Nat → α) (E : List α) (st : FGState κ α) (arrs : BPArrays α) : Prop where
  pots : arrs.logPotentials = potList (m * n * 2) A
  msgs : arrs.ftovMsgs = List.replicate st.totalFactorNumStates 0
  len : arrs.evidence.length = st.numVarStates
  ev : ∀ i < m, ∀ j < n, ∀ t < 2, readEv st.varsToStarts arrs.evidence (isingCell idV m n i j) t = E.getD ((i * n + j) * 2 + t) 0

variable {J : α} {s : IsingSetup κ α} {garbage : Garbage} {st : FGState κ α} {E : List α} {arrs : BPArrays α} {A : Nat → Nat → α}

theorem IsingBuilt.init [DecidableEq κ] (h : IsingBuilt idV idF m n J s garbage st) (hE : E.length = m * n * 2) :
    (∃ arrs, s.bp.update none none none (some [.group (.arr s.vars) (.arr ⟨[m, n, 2], E⟩)]) = .ok arrs ∧ IsingInit idV m n (coupling J) E st arrs) ∧
    ∀ A : Nat → Nat → α, ∃ arrs, s.bp.update none (some [(s.group, ⟨[2, 2], [A 0 0, A 0 1, A 1 0, A 1 1]⟩)]) none (some [.group (.arr s.vars) (.arr ⟨[m, n, 2], E⟩)]) = .ok arrs ∧
      IsingInit idV m n A E st arrs := by
  obtain ⟨state, hbp, p1, p2, p3⟩ := h.bp
  obtain ⟨b1, b2, -⟩ := BP_create_ok hbp
  obtain ⟨ev, v1, v2, v3, -⟩ := uniArr_evidence h.compiled (List.replicate st.numVarStates (0 : α)) (by simp) idV [m, n] 2 (by simp)
    (by have := h.rows; have := h.cols; simp; omega) E (by simpa using hE)
  have v3' : ∀ i < m, ∀ j < n, ∀ t < 2, readEv st.varsToStarts ev (isingCell idV m n i j) t = E.getD ((i * n + j) * 2 + t) 0 := by
    intro i hi j hj t ht
    rw [v3 [i, j] (by simp [hi, hj]) t ht]
    simp [rowMajor]
  have v4 : updateEvidence st (List.replicate st.numVarStates (0 : α)) [.group (.arr (uniArr idV [m, n] 2)) (.arr ⟨[m, n, 2], E⟩)] = .ok ev := by
    unfold updateEvidence
    rw [List.foldlM_cons, show (⟨[m, n, 2], E⟩ : NDArr α) = ⟨[m, n] ++ [2], E⟩ from rfl, v1]
    rfl
  constructor
  · refine ⟨⟨st.logPotentials, List.replicate st.totalFactorNumStates 0, ev⟩, ?_, h.pots, rfl, v2.trans (by simp), v3'⟩
    unfold BPFun.update
    simp only [b1, b2, p1, p2, p3, h.vars]
    simp only [pure_bind]
    rw [v4]
    rfl
  · intro A
    refine ⟨⟨potList (m * n * 2) A, List.replicate st.totalFactorNumStates 0, ev⟩, ?_, rfl, rfl, v2.trans (by simp), v3'⟩
    unfold BPFun.update
    simp only [b1, b2, p1, p2, p3, h.vars, h.group]
    rw [h.update A, py_ok_bind, pure_bind, v4]
    rfl

theorem IsingBuilt.scopes (h : IsingBuilt idV idF m n J s garbage st) : (graphOf (iVgs κ idV m n) [.one (isingGroup idV idF m n J)]).allScopes =
    (grid m n).flatMap (torusAt (isingCell idV m n) m n) := by
  rw [← torusFacs_scopes _ (coupling J), ← h.factors, FactorGraph.factors_scopes]

theorem IsingBuilt.fits (h : IsingBuilt idV idF m n J s garbage st) {env : Env α} (hsize : env.wrapNeg = false ∨ 8 * (m * n) + 2 ≤ 100000) :
    Fits env (graphOf (iVgs κ idV m n) [.one (isingGroup idV idF m n J)]) (0 : α) := by
  refine ⟨hsize.imp_right fun hsz f k v he => ?_, fun _ => by rw [h.parents]; omega⟩
  rw [h.scopes] at he ⊢
  have hn : v.n = 2 := by
    obtain ⟨i, _, j, _, ⟨_, ⟨_, rfl⟩ | ⟨_, rfl⟩⟩ | ⟨_, ⟨_, rfl⟩ | ⟨_, rfl⟩⟩⟩ := torus_edge_cases he <;> rfl
  have h3 : ∀ vs ∈ (grid m n).flatMap (torusAt (isingCell idV m n) m n), (vs.map (·.n)).sum = 4 := by
    intro vs hvs
    obtain ⟨i, hi, j, hj, k, hk, l, hl, rfl⟩ := torus_pairs _ hvs
    rfl
  rw [hn, List.map_congr_left h3, List.map_const', List.sum_replicate, torusScopes_length, smul_eq_mul]
  omega

section
variable [IsStrictOrderedRing α]

theorem binFac_tame {v w : Var} (hv : v.n = 2) (hw : w.n = 2) {c : α} (hA : ∀ s < 2, ∀ t < 2, |A s t| ≤ c) :
    (SFac.mk [v, w] (binTable A)).Complete ∧ (SFac.mk [v, w] (binTable A)).Within (2 * c) ∧ (SFac.mk [v, w] (binTable A)).Full := by
  refine ⟨⟨by simp, fun x hx => ?_⟩, fun r hr r' hr' => ?_, fun k u t hk ht => ?_⟩
  · cases hx with
    | cons h1 h2 =>
      cases h2 with
      | cons h2 h3 =>
        cases h3
        rename_i t u
        rw [hv] at h1
        rw [hw] at h2
        interval_cases t <;> interval_cases u
        · exact ⟨A 0 0, by simp⟩
        · exact ⟨A 0 1, by simp⟩
        · exact ⟨A 1 0, by simp⟩
        · exact ⟨A 1 1, by simp⟩
  · have hle : ∀ r ∈ binTable A, |r.2| ≤ c := by
      intro r hr
      simp only [binTable, List.mem_cons, List.not_mem_nil, or_false] at hr
      rcases hr with rfl | rfl | rfl | rfl <;> exact hA _ (by omega) _ (by omega)
    have h1 := abs_le.1 (hle r hr)
    have h2 := abs_le.1 (hle r' hr')
    linarith
  · match k with
    | 0 =>
      obtain rfl : v = u := by simpa using hk
      rw [hv] at ht
      interval_cases t <;> simp [SFac.rowsAt]
    | 1 =>
      obtain rfl : w = u := by simpa using hk
      rw [hw] at ht
      interval_cases t <;> simp [SFac.rowsAt]
    | k + 2 => simp at hk

/-- The hypotheses of the refinement theorems. -/
theorem IsingBuilt.tame (h : IsingBuilt idV idF m n J s garbage st) (hi : IsingInit idV m n A E st arrs) {c : α} (hA : ∀ s < 2, ∀ t < 2, |A s t| ≤ c) (hc : c ≤ 500)
    (hE : ∀ x ∈ E, |x| ≤ 45000) {d : α} (hd : 0 ≤ d ∧ d ≤ 1) :
    Tame (graphOf (iVgs κ idV m n) [.one (isingGroup idV idF m n J)]) arrs.logPotentials (readEv st.varsToStarts arrs.evidence) d (fun _ => 2 * c) ∧
      LogicalTame (graphOf (iVgs κ idV m n) [.one (isingGroup idV idF m n J)]) (readEv st.varsToStarts arrs.evidence) (fun _ => 2 * c) ∧
      Mild (graphOf (iVgs κ idV m n) [.one (isingGroup idV idF m n J)]).allScopes (fun _ => 2 * c)
        (readMsgs (graphOf (iVgs κ idV m n) [.one (isingGroup idV idF m n J)]).allScopes arrs.ftovMsgs) ∧
      (∀ f i v, IsEdge (graphOf (iVgs κ idV m n) [.one (isingGroup idV idF m n J)]).allScopes f i v → ∃ t < v.n,
        -100000 ≤ readMsgs (graphOf (iVgs κ idV m n) [.one (isingGroup idV idF m n J)]).allScopes arrs.ftovMsgs f i t) ∧
      arrs.ftovMsgs.length = st.totalFactorNumStates ∧ ∀ f i t, readMsgs (graphOf (iVgs κ idV m n) [.one (isingGroup idV idF m n J)]).allScopes arrs.ftovMsgs f i t = 0 := by
  have hc0 : 0 ≤ c := (abs_nonneg _).trans (hA 0 (by omega) 0 (by omega))
  have hfacs := h.factors A
  have htabs := h.tables (potList (m * n * 2) A)
  have hsc := h.scopes
  have hgrid := isGrid_uniArr idV m n 2
  have hcell := torusCells idV m n
  have hpos : ∀ v ∈ graphVars (iVgs κ idV m n), 0 < v.n := by
    intro v hv
    have : v ∈ (uniArr idV [m, n] 2).variables := by simpa [graphVars, VGroup.variables] using hv
    obtain ⟨i, -, j, -, rfl⟩ := (hgrid.vars v).1 this
    exact Nat.zero_lt_two
  obtain ⟨hz, hlen, hinit⟩ := h.compiled.zero_msgs hi.msgs hpos
  have hlenT : (graphOf (iVgs κ idV m n) [.one (isingGroup idV idF m n J)]).tables.length = m * n * 2 := by
    have := congrArg List.length htabs
    rw [tableFacs_length, hfacs, torusFacs, List.length_map, torusScopes_length] at this
    exact this.symm
  have hget : ∀ k : Nat, |E.getD k 0| ≤ 45000 := by
    intro k
    rw [List.getD]
    cases hk : E[k]? with
    | none => simp
    | some x => exact hE x (List.mem_of_getElem? hk)
  have hlt : ∀ {a b : Nat}, a < b → (a + 1) % b < b := fun h => Nat.mod_lt _ (by omega)
  refine ⟨⟨hd, ?_, fun v => 45000 + ((edgesOf (graphOf (iVgs κ idV m n) [.one (isingGroup idV idF m n J)]).allScopes v).map (fun _ => 2 * c)).sum, ?_, ?_⟩, ?_, ?_, hinit, hlen, hz⟩
  · intro f F hF
    rw [hi.pots, hfacs] at hF
    have hf := (List.getElem?_eq_some_iff.1 hF).1
    rw [torusFacs, List.length_map, torusScopes_length] at hf
    refine .inr ⟨by rw [hlenT]; exact hf, ?_⟩
    unfold torusFacs at hF
    rw [List.getElem?_map] at hF
    obtain ⟨vs, hvs, rfl⟩ := Option.map_eq_some_iff.1 hF
    obtain ⟨i, hi, j, hj, k, hk, l, hl, rfl⟩ := torus_pairs _ (List.mem_of_getElem? hvs)
    exact ⟨(binFac_tame rfl rfl hA).1, (binFac_tame rfl rfl hA).2.1⟩
  · intro f k v t he ht
    refine add_le_add_left ?_ _
    rw [hsc] at he
    obtain ⟨i, hi', j, hj', rfl⟩ : ∃ i < m, ∃ j < n, v = isingCell idV m n i j := by
      obtain ⟨i, hi, j, hj, ⟨_, ⟨_, rfl⟩ | ⟨_, rfl⟩⟩ | ⟨_, ⟨_, rfl⟩ | ⟨_, rfl⟩⟩⟩ := torus_edge_cases he
      · exact ⟨i, hi, j, hj, rfl⟩
      · exact ⟨_, hlt hi, j, hj, rfl⟩
      · exact ⟨i, hi, j, hj, rfl⟩
      · exact ⟨i, hi, _, hlt hj, rfl⟩
    rw [hi.ev i hi' j hj' t ht]
    exact hget _
  · have hR : ∀ i < m, ∀ j < n, ((edgesOf (graphOf (iVgs κ idV m n) [.one (isingGroup idV idF m n J)]).allScopes (isingCell idV m n i j)).map (fun _ => 2 * c)).sum = 8 * c := by
      intro i hi j hj
      rw [hsc, ((hcell.edges hi hj).map _).sum_eq]
      simp only [List.map_cons, List.map_nil, List.sum_cons, List.sum_nil]
      ring
    intro F hF
    rw [hi.pots, ← htabs, hfacs] at hF
    obtain ⟨vs, hvs, rfl⟩ := List.mem_map.1 hF
    obtain ⟨i, hi, j, hj, k, hk, l, hl, rfl⟩ := torus_pairs _ hvs
    refine ⟨100000, fun r hr => ?_, le_rfl, .inl (binFac_tame rfl rfl hA).2.2⟩
    simp only [List.map_cons, List.map_nil, List.sum_cons, List.sum_nil, hR _ hi _ hj, hR _ hk _ hl]
    have : |r.2| ≤ c := by
      simp only [binTable, List.mem_cons, List.not_mem_nil, or_false] at hr
      rcases hr with rfl | rfl | rfl | rfl <;> exact hA _ (by omega) _ (by omega)
    linarith
  · intro f vs hvs hle
    have hf := (List.getElem?_eq_some_iff.1 hvs).1
    rw [hlenT] at hle
    rw [hsc, torusScopes_length] at hf
    omega
  · intro f k v he
    refine .inr fun t _ u _ => ?_
    rw [hz, hz, sub_self]
    linarith

/-- What belief propagation computes. -/
theorem IsingBuilt.run [DecidableEq κ] (h : IsingBuilt idV idF m n J s garbage st) {env : Env α} (hsize : env.wrapNeg = false ∨ 8 * (m * n) + 2 ≤ 100000)
    (hi : IsingInit idV m n A E st arrs) {c : α} (hA : ∀ s < 2, ∀ t < 2, |A s t| ≤ c) (hc : c ≤ 500)
    (hE : ∀ x ∈ E, |x| ≤ 45000) {d : α} (hd : 0 ≤ d ∧ d ≤ 1) (t : Nat) : (s.bp.runBP env arrs t d).ftovMsgs.length = st.totalFactorNumStates ∧
    ∃ M : Msgs α, (torusOf n M).Same m n (torusMsgs m n A (imageOdds n E) d t) ∧ Totals n m M ∧ ∀ i < m, ∀ j < n, ∀ u < 2,
      beliefOf (graphOf (iVgs κ idV m n) [.one (isingGroup idV idF m n J)]).allScopes (readEv st.varsToStarts arrs.evidence)
        (readMsgs (graphOf (iVgs κ idV m n) [.one (isingGroup idV idF m n J)]).allScopes (s.bp.runBP env arrs t d).ftovMsgs) (isingCell idV m n i j) u =
      E.getD ((i * n + j) * 2 + u) 0 + M (facDown n i j) 0 u + M (facRight n i j) 0 u + M (facDown n ((i + (m - 1)) % m) j) 1 u + M (facRight n i ((j + (n - 1)) % n)) 1 u := by
  obtain ⟨state, hbp, -⟩ := h.bp
  obtain ⟨q1, q2, q3, q4, q5, q6⟩ := h.tame hi hA hc hE hd
  have hlp : arrs.logPotentials.length = st.logPotentials.length := by
    rw [hi.pots, h.pots]
    simp [potList]
  refine ⟨h.compiled.run_length hbp env arrs t d hlp q5, ?_⟩
  have hcell := torusCells idV m n
  have hrun := h.compiled.run_textbook_tame hbp env (h.fits hsize) arrs t d hlp hi.len q5 q1 q2 q4 q3
  rw [tbRun_sumRun, hi.pots, h.factors] at hrun
  obtain ⟨r1, r2⟩ := hcell.run hA hc hd (readEv st.varsToStarts arrs.evidence) (e := imageOdds n E) (fun i hi' j hj' => by
    rw [hi.ev i hi' j hj' 1 (by omega), hi.ev i hi' j hj' 0 (by omega)]; rfl) q6 t
  refine ⟨_, r1, r2, fun i hi' j hj' u hu => ?_⟩
  rw [beliefOf_agree hrun _ (s := u) (by exact hu), h.scopes, hcell.belief _ _ hi' hj', hi.ev i hi' j hj' u hu]

end

end

end PGMax
