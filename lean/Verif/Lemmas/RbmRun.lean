import Verif.Lemmas.RbmOdds
import Verif.Lemmas.Tame
import Verif.Lemmas.Writes
import Verif.Lemmas.Gmrf
import Verif.Props.C69
import Verif.Props.C76
import Verif.Model.ExamplesRbm

/-! # Helper lemmas: inference in the RBM program -/

namespace PGMax

section
variable {κ α : Type} [Field α] [LinearOrder α] {idH idV idA idB idP : Nat}

/-- What the program has made. -/
structure RbmBuilt (idH idV : Nat) (bh bv : List α) (W : NDArr α) (T : α) (s : RbmSetup κ α) (hist : List (AddArg α)) (garbage : Garbage) (st : FGState κ α) : Prop where
  hidden : s.net.hidden = uniArr idH [bh.length] 2
  visible : s.net.visible = uniArr idV [bv.length] 2
  compiled : Compiled (rVgs κ idH idV bh.length bv.length) hist garbage st
  bp : ∃ state, BP.create st state T = .ok s.bp ∧ state.logPotentials.value = st.logPotentials ∧ state.ftovMsgs.value = List.replicate st.totalFactorNumStates 0 ∧
    state.evidence.value = List.replicate st.numVarStates 0
  factors : (graphOf (rVgs κ idH idV bh.length bv.length) hist).factors st.logPotentials =
    (RbmNet.ofLists bh bv W.data).factors (rHid idH bh.length) (rHid idV bv.length)
  tables : ∀ lp, (graphOf (rVgs κ idH idV bh.length bv.length) hist).factors lp = tableFacs (graphOf (rVgs κ idH idV bh.length bv.length) hist).tables lp
  parents : (graphOf (rVgs κ idH idV bh.length bv.length) hist).numParents = 0

theorem rbm_setup [DecidableEq κ] (hid : idH % 2 ^ 32 ≠ idV % 2 ^ 32) (hf : [idA, idB, idP].Nodup) {bh bv : List α} {W : NDArr α} (hs : RbmSizes bh bv W) (garbage : Garbage)
    (stateId : Nat) (T : α) : ∃ s hist st, rbmSetup κ idH idV idA idB idP garbage stateId bh bv W T = .ok s ∧ RbmBuilt idH idV bh bv W T s hist garbage st := by
  obtain ⟨fg, hfg, e⟩ := rbm_eq (κ := κ) (idA := idA) (idB := idB) (idP := idP) hid hs
  have hfl : AddArg.flatList [.list ((rGroups idH idV idA idB idP bh bv W).map .one)] = rGroups idH idV idA idB idP bh bv W := by
    simp [AddArg.flatList, AddArg.flat]
  obtain ⟨hg, st, hst, hsc, -, hno, -, hall, hfac⟩ := enum_build (rVgs_ok hid hs.2.1 hs.2.2.2.1) hfg (by rw [hfl]; exact rGroups_valid hs)
    (by rw [hfl]; simpa [enumGroup] using hf) (by rw [hfl]; simp [enumGroup]) garbage
  rw [hfl] at hsc hfac
  obtain ⟨bp, hbp⟩ := (C51_partial hst (⟨⟨stateId, st.logPotentials⟩, ⟨stateId, List.replicate st.totalFactorNumStates 0⟩,
      ⟨stateId, List.replicate st.numVarStates 0⟩⟩ : BPState α) T).1.2 (by
    rw [hg, hsc]
    have : rUnary idH bh ≠ [] := by
      intro h; have := congrArg List.length h; rw [List.length_map, List.length_range, List.length_nil] at this; have := hs.1; omega
    simp [enumGroup]
    intro hc
    have := hs.1
    rw [hc] at this
    simp at this)
  refine ⟨⟨⟨uniArr idH [bh.length] 2, uniArr idV [bv.length] 2, enumGroup idA .enumGroup ⟨1, [[0], [1]]⟩ (rUnary idH bh), enumGroup idB .enumGroup ⟨1, [[0], [1]]⟩ (rUnary idV bv),
    enumGroup idP (.pairwise 2 2) (mgridConfigs 2 2) (rPairs idH idV bh bv W), fg⟩, bp⟩, _, st, ?_, rfl, rfl, hst, ⟨_, hbp, rfl, rfl, rfl⟩, ?_, by rw [hg]; exact hall, ?_⟩
  · unfold rbmSetup
    rw [e, py_ok_bind]
    have h4 := hst.compiled
    rw [hg] at h4
    rw [h4, py_ok_bind, show bpStateOf stateId st = .ok _ by
      simp [bpStateOf, LogPotentials.create, FToVMessages.create, Evidence.create, BPState.create, bind, Except.bind]; rfl, py_ok_bind, hbp, py_ok_bind]
    rfl
  · rw [hg, hfac]
    simp only [rGroups, List.flatMap_cons, List.flatMap_nil, List.append_nil]
    unfold RbmNet.factors
    congr 1
    · rw [show (enumGroup idA .enumGroup ⟨1, [[0], [1]]⟩ (rUnary idH bh)).configs = ⟨1, [[0], [1]]⟩ from rfl, enumGroup_facs]
      · rw [List.map_map]; rfl
      · intro p hp; obtain ⟨i, hi, rfl⟩ := List.mem_map.1 hp; rfl
    congr 1
    · rw [show (enumGroup idB .enumGroup ⟨1, [[0], [1]]⟩ (rUnary idV bv)).configs = ⟨1, [[0], [1]]⟩ from rfl, enumGroup_facs]
      · rw [List.map_map]; rfl
      · intro p hp; obtain ⟨i, hi, rfl⟩ := List.mem_map.1 hp; rfl
    · rw [show (enumGroup idP (.pairwise 2 2) (mgridConfigs 2 2) (rPairs idH idV bh bv W)).configs = mgridConfigs 2 2 from rfl, enumGroup_facs]
      · rw [List.map_map]; rfl
      · intro p hp; obtain ⟨i, hi, rfl⟩ := List.mem_map.1 hp; rfl
  · rw [hg]
    simp [FactorGraph.numParents, hno]

/-- The arrays after `init`. -/
structure RbmInit (idH idV : Nat) (bh bv : List α) (Eh Ev : List α) (s : RbmSetup κ α) (st : FGState κ α) (arrs : BPArrays α) : Prop where
  pots : arrs.logPotentials = st.logPotentials
  msgs : arrs.ftovMsgs = List.replicate st.totalFactorNumStates 0
  len : arrs.evidence.length = st.numVarStates
  evH : ∀ i < bh.length, ∀ t < 2, readEv st.varsToStarts arrs.evidence (rHid idH bh.length i) t = Eh.getD (i * 2 + t) 0
  evV : ∀ j < bv.length, ∀ t < 2, readEv st.varsToStarts arrs.evidence (rHid idV bv.length j) t = Ev.getD (j * 2 + t) 0

theorem RbmBuilt.init [DecidableEq κ] {bh bv : List α} {W : NDArr α} {T : α} {s : RbmSetup κ α} {hist : List (AddArg α)} {garbage : Garbage} {st : FGState κ α}
    (h : RbmBuilt idH idV bh bv W T s hist garbage st) (hid : idH % 2 ^ 32 ≠ idV % 2 ^ 32) (hs : RbmSizes bh bv W) {Eh Ev : List α} (hh : Eh.length = bh.length * 2) (hv : Ev.length = bv.length * 2) :
    ∃ arrs, s.bp.update none none none (some [.group (.arr s.net.hidden) (.arr ⟨[bh.length, 2], Eh⟩), .group (.arr s.net.visible) (.arr ⟨[bv.length, 2], Ev⟩)]) = .ok arrs ∧
      RbmInit idH idV bh bv Eh Ev s st arrs := by
  obtain ⟨state, hbp, p1, p2, p3⟩ := h.bp
  obtain ⟨b1, b2, -⟩ := BP_create_ok hbp
  obtain ⟨h1, h2, h3, h4, h5⟩ := hs
  have hdis : (uniArr idH [bh.length] 2).variables.Disjoint (uniArr idV [bv.length] 2).variables := by
    intro v k1 k2
    obtain ⟨cs, c1, rfl⟩ := (mem_uniArr _ _ _ _).1 k1
    obtain ⟨ds, d1, e⟩ := (mem_uniArr _ _ _ _).1 k2
    exact uniCell_ne hid (by simpa using h2) (by simpa using h4) c1 d1 e
  obtain ⟨ev, v1, v2, v3, -⟩ := uniArrs_evidence h.compiled 2 [(idH, [bh.length], Eh), (idV, [bv.length], Ev)]
    (by intro q hq; simp only [List.mem_cons, List.not_mem_nil, or_false] at hq; rcases hq with rfl | rfl <;> simp)
    (by intro q hq; simp only [List.mem_cons, List.not_mem_nil, or_false] at hq; rcases hq with rfl | rfl <;> simp <;> omega)
    (by intro q hq; simp only [List.mem_cons, List.not_mem_nil, or_false] at hq; rcases hq with rfl | rfl <;> simpa)
    (by simpa using hdis) (List.replicate st.numVarStates (0 : α)) (by simp)
  refine ⟨⟨st.logPotentials, List.replicate st.totalFactorNumStates 0, ev⟩, ?_, rfl, rfl, v2.trans (by simp), fun i hi t ht => ?_, fun j hj t ht => ?_⟩
  · unfold BPFun.update
    simp only [b1, b2, p1, p2, p3, h.hidden, h.visible]
    show (do
      let ev ← updateEvidence st (List.replicate st.numVarStates (0 : α)) [.group (.arr (uniArr idH [bh.length] 2)) (.arr ⟨[bh.length, 2], Eh⟩),
        .group (.arr (uniArr idV [bv.length] 2)) (.arr ⟨[bv.length, 2], Ev⟩)]
      _) = _
    have v1' : updateEvidence st (List.replicate st.numVarStates (0 : α)) [.group (.arr (uniArr idH [bh.length] 2)) (.arr ⟨[bh.length, 2], Eh⟩),
        .group (.arr (uniArr idV [bv.length] 2)) (.arr ⟨[bv.length, 2], Ev⟩)] = .ok ev := v1
    rw [v1', py_ok_bind]
    rfl
  · have := v3 (idH, [bh.length], Eh) (by simp) [i] (by simpa using hi) t ht
    simpa [rowMajor] using this
  · have := v3 (idV, [bv.length], Ev) (by simp) [j] (by simpa using hj) t ht
    simpa [rowMajor] using this

/-- `init` without updates. -/
theorem RbmBuilt.init_none [DecidableEq κ] {bh bv : List α} {W : NDArr α} {T : α} {s : RbmSetup κ α} {hist : List (AddArg α)} {garbage : Garbage} {st : FGState κ α}
    (h : RbmBuilt idH idV bh bv W T s hist garbage st) : ∃ arrs, s.bp.update none none none none = .ok arrs ∧ RbmInit idH idV bh bv [] [] s st arrs := by
  obtain ⟨state, hbp, p1, p2, p3⟩ := h.bp
  obtain ⟨b1, b2, -⟩ := BP_create_ok hbp
  have key : ∀ v t, readEv st.varsToStarts (List.replicate st.numVarStates (0 : α)) v t = 0 := by
    intro v t
    unfold readEv
    simp only [List.getD, List.getElem?_replicate]
    split <;> rfl
  refine ⟨⟨st.logPotentials, List.replicate st.totalFactorNumStates 0, List.replicate st.numVarStates 0⟩, ?_, rfl, rfl, by simp, fun i _ t _ => ?_, fun j _ t _ => ?_⟩
  · unfold BPFun.update
    simp only [b2, p1, p2, p3]
    rfl
  · simp only [key]; simp
  · simp only [key]; simp

theorem rbmVars (hid : idH % 2 ^ 32 ≠ idV % 2 ^ 32) {bh bv : List α} {W : NDArr α} (hs : RbmSizes bh bv W) :
    RbmVars (RbmNet.ofLists bh bv W.data) (rHid idH bh.length) (rHid idV bv.length) where
  hn _ _ := rfl
  vn _ _ := rfl
  hinj _ hi _ hk h := rHid_inj hi hk h
  vinj _ hi _ hk h := rHid_inj hi hk h
  ne _ hi _ hj := rHid_ne hid hs.2.1 hs.2.2.2.1 hi hj

section
variable {bh bv : List α} {W : NDArr α} {T : α} {s : RbmSetup κ α} {hist : List (AddArg α)} {garbage : Garbage} {st : FGState κ α}

theorem RbmBuilt.scopes (h : RbmBuilt idH idV bh bv W T s hist garbage st) : (graphOf (rVgs κ idH idV bh.length bv.length) hist).allScopes =
    ((RbmNet.ofLists bh bv W.data).factors (rHid idH bh.length) (rHid idV bv.length)).map (·.scope) := by
  rw [← h.factors, FactorGraph.factors_scopes]

theorem RbmBuilt.fits (h : RbmBuilt idH idV bh bv W T s hist garbage st) {env : Env α}
    (hsize : env.wrapNeg = false ∨ 4 * (bh.length * bv.length) + 2 * bh.length + 2 * bv.length + 2 ≤ 100000) : Fits env (graphOf (rVgs κ idH idV bh.length bv.length) hist) T := by
  refine ⟨hsize.imp_right fun hsz f k v he => ?_, fun _ => by rw [h.parents]; omega⟩
  rw [h.scopes] at he ⊢
  have hn : v.n = 2 := by
    rcases RbmNet.edge_cases he with ⟨i, _, _, _, rfl⟩ | ⟨j, _, _, _, rfl⟩ | ⟨i, _, j, _, _, ⟨_, rfl⟩ | ⟨_, rfl⟩⟩ <;> rfl
  rw [hn]
  unfold RbmNet.factors
  simp only [List.map_append, List.map_map, List.sum_append]
  have e1 : ∀ (n : Nat) (g : Nat → Nat) (c : Nat), (∀ i, g i = c) → ((List.range n).map g).sum = n * c := by
    intro n g c hg
    rw [List.map_congr_left (g := fun _ => c) (fun i _ => hg i)]
    simp
  have e2 : ∀ (g : Nat × Nat → Nat) (c : Nat), (∀ i, g i = c) → ((grid bh.length bv.length).map g).sum = bh.length * bv.length * c := by
    intro g c hg
    rw [List.map_congr_left (g := fun _ => c) (fun i _ => hg i)]
    simp [grid_length]
  refine le_trans (Nat.add_le_add_right (Nat.add_le_add (e1 _ _ 2 (fun _ => rfl)).le (Nat.add_le_add (e1 _ _ 2 (fun _ => rfl)).le (e2 _ 4 (fun _ => rfl)).le)) 2) ?_
  show bh.length * 2 + (bv.length * 2 + bh.length * bv.length * 4) + 2 ≤ 100000
  omega

end

section
variable [IsStrictOrderedRing α] {bh bv : List α} {W : NDArr α} {T : α} {s : RbmSetup κ α} {hist : List (AddArg α)} {garbage : Garbage} {st : FGState κ α} {Eh Ev : List α} {arrs : BPArrays α}

theorem unaryFac_tame {v : Var} (hv : v.n = 2) {b B : α} (hb : |b| ≤ B) : (SFac.mk [v] [([0], 0), ([1], b)]).Complete ∧ (SFac.mk [v] [([0], 0), ([1], b)]).Within B := by
  have h0 : 0 ≤ B := (abs_nonneg b).trans hb
  rw [abs_le] at hb
  refine ⟨⟨by simp, fun c hc => ?_⟩, fun r hr r' hr' => ?_⟩
  · cases hc with
    | cons h1 h2 =>
      cases h2
      rename_i t
      rw [hv] at h1
      interval_cases t
      · exact ⟨0, by simp⟩
      · exact ⟨b, by simp⟩
  · simp only [List.mem_cons, List.not_mem_nil, or_false] at hr hr'
    rcases hr with rfl | rfl <;> rcases hr' with rfl | rfl <;> simp only <;> linarith

theorem pairFac_tame {v w : Var} (hv : v.n = 2) (hw : w.n = 2) {b B : α} (hb : |b| ≤ B) :
    (SFac.mk [v, w] [([0, 0], 0), ([0, 1], 0), ([1, 0], 0), ([1, 1], b)]).Complete ∧ (SFac.mk [v, w] [([0, 0], 0), ([0, 1], 0), ([1, 0], 0), ([1, 1], b)]).Within B := by
  have h0 : 0 ≤ B := (abs_nonneg b).trans hb
  rw [abs_le] at hb
  refine ⟨⟨by simp, fun c hc => ?_⟩, fun r hr r' hr' => ?_⟩
  · cases hc with
    | cons h1 h2 =>
      cases h2 with
      | cons h2 h3 =>
        cases h3
        rename_i t u
        rw [hv] at h1
        rw [hw] at h2
        interval_cases t <;> interval_cases u
        · exact ⟨0, by simp⟩
        · exact ⟨0, by simp⟩
        · exact ⟨0, by simp⟩
        · exact ⟨b, by simp⟩
  · simp only [List.mem_cons, List.not_mem_nil, or_false] at hr hr'
    rcases hr with rfl | rfl | rfl | rfl <;> rcases hr' with rfl | rfl | rfl | rfl <;> simp only <;> linarith

omit [LinearOrder α] [IsStrictOrderedRing α] in
theorem unaryFac_full {v : Var} (hv : v.n = 2) (b : α) : (SFac.mk [v] [([0], 0), ([1], b)]).Full := by
  intro k u t hk ht
  match k with
  | 0 =>
    obtain rfl : v = u := by simpa using hk
    rw [hv] at ht
    interval_cases t <;> simp [SFac.rowsAt]
  | k + 1 => simp at hk

omit [LinearOrder α] [IsStrictOrderedRing α] in
theorem pairFac_full {v w : Var} (hv : v.n = 2) (hw : w.n = 2) (b : α) : (SFac.mk [v, w] [([0, 0], 0), ([0, 1], 0), ([1, 0], 0), ([1, 1], b)]).Full := by
  intro k u t hk ht
  match k with
  | 0 =>
    obtain rfl : v = u := by simpa using hk
    rw [hv] at ht
    interval_cases t <;> simp [SFac.rowsAt]
  | 1 =>
    obtain rfl : w = u := by simpa using hk
    rw [hw] at ht
    interval_cases t <;> simp [SFac.rowsAt]
  | k + 2 => simp at hk

/-- The hypotheses of the refinement theorems. -/
theorem RbmBuilt.tame [DecidableEq κ] (h : RbmBuilt idH idV bh bv W T s hist garbage st) (hid : idH % 2 ^ 32 ≠ idV % 2 ^ 32) (hs : RbmSizes bh bv W)
    (hi : RbmInit idH idV bh bv Eh Ev s st arrs) {e : α} (heh : ∀ x ∈ Eh, |x| ≤ e) (hev : ∀ x ∈ Ev, |x| ≤ e) (he0 : 0 ≤ e) (hsm : (RbmNet.ofLists bh bv W.data).Small e) {d : α}
    (hd : 0 ≤ d ∧ d ≤ 1) : ∃ b, Tame (graphOf (rVgs κ idH idV bh.length bv.length) hist) arrs.logPotentials (readEv st.varsToStarts arrs.evidence) d b ∧
      LogicalTame (graphOf (rVgs κ idH idV bh.length bv.length) hist) (readEv st.varsToStarts arrs.evidence) b ∧
      Mild (graphOf (rVgs κ idH idV bh.length bv.length) hist).allScopes b (readMsgs (graphOf (rVgs κ idH idV bh.length bv.length) hist).allScopes arrs.ftovMsgs) ∧
      (∀ f i v, IsEdge (graphOf (rVgs κ idH idV bh.length bv.length) hist).allScopes f i v → ∃ t < v.n,
        -100000 ≤ readMsgs (graphOf (rVgs κ idH idV bh.length bv.length) hist).allScopes arrs.ftovMsgs f i t) ∧
      arrs.ftovMsgs.length = st.totalFactorNumStates ∧ ∀ f i t, readMsgs (graphOf (rVgs κ idH idV bh.length bv.length) hist).allScopes arrs.ftovMsgs f i t = 0 := by
  have hv := rbmVars hid hs
  have hfacs := h.factors
  have htabs := h.tables st.logPotentials
  have hsc := h.scopes
  obtain ⟨B, w, s1, s2, s3, s4, s5, s6⟩ := hsm.bounds
  have hB : 0 ≤ B := (abs_nonneg _).trans (s1 0 hs.1)
  have hw : 0 ≤ w := (abs_nonneg _).trans (s3 0 hs.1 0 hs.2.2.1)
  have hpos : ∀ v ∈ graphVars (rVgs κ idH idV bh.length bv.length), 0 < v.n := by
    intro v hv
    rcases (mem_rVgs v).1 hv with ⟨i, -, rfl⟩ | ⟨j, -, rfl⟩ <;> exact Nat.zero_lt_two
  obtain ⟨hz, hlen, hinit⟩ := h.compiled.zero_msgs hi.msgs hpos
  have hlenT : (graphOf (rVgs κ idH idV bh.length bv.length) hist).tables.length =
      ((RbmNet.ofLists bh bv W.data).factors (rHid idH bh.length) (rHid idV bv.length)).length := by
    rw [← hfacs, htabs, tableFacs_length]
  have hget : ∀ {l : List α} {k : Nat}, (∀ x ∈ l, |x| ≤ e) → |l.getD k 0| ≤ e := by
    intro l k hl
    rw [List.getD]
    cases hk : l[k]? with
    | none => simpa using he0
    | some x => exact hl x (List.mem_of_getElem? hk)
  generalize hN : RbmNet.ofLists bh bv W.data = N at *
  have n1 : N.nh = bh.length := by rw [← hN]; rfl
  have n2 : N.nv = bv.length := by rw [← hN]; rfl
  refine ⟨fun f => if f < N.nh + N.nv then B else w, ⟨hd, ?_, fun v => e + ((edgesOf (graphOf (rVgs κ idH idV bh.length bv.length) hist).allScopes v).map
    (fun q => if q.1 < N.nh + N.nv then B else w)).sum, ?_, ?_⟩, ?_, ?_, hinit, hlen, hz⟩
  · intro f F hF
    rw [hi.pots, hfacs] at hF
    have hlt := (List.getElem?_eq_some_iff.1 hF).1
    refine .inr ⟨by rw [hlenT]; exact hlt, ?_⟩
    beta_reduce
    rcases N.fac_cases hF with ⟨i, hi, rfl, rfl⟩ | ⟨j, hj, rfl, rfl⟩ | ⟨i, hi, j, hj, rfl, rfl⟩
    · rw [if_pos (by omega)]
      exact unaryFac_tame (hv.hn _ hi) (s1 _ hi)
    · rw [if_pos (by omega)]
      exact unaryFac_tame (hv.vn _ hj) (s2 _ hj)
    · rw [if_neg (by unfold RbmNet.pair; omega)]
      exact pairFac_tame (hv.hn _ hi) (hv.vn _ hj) (s3 _ hi _ hj)
  · intro f k v t he ht
    refine add_le_add_left ?_ _
    rw [hsc] at he
    have key : (∃ i < bh.length, v = rHid idH bh.length i) ∨ ∃ j < bv.length, v = rHid idV bv.length j := by
      rcases RbmNet.edge_cases he with ⟨i, hi, -, -, rfl⟩ | ⟨j, hj, -, -, rfl⟩ | ⟨i, hi, j, hj, -, ⟨-, rfl⟩ | ⟨-, rfl⟩⟩
      · exact .inl ⟨i, by omega, rfl⟩
      · exact .inr ⟨j, by omega, rfl⟩
      · exact .inl ⟨i, by omega, rfl⟩
      · exact .inr ⟨j, by omega, rfl⟩
    rcases key with ⟨i, hi', rfl⟩ | ⟨j, hj', rfl⟩
    · rw [hi.evH i hi' t ht]; exact hget heh
    · rw [hi.evV j hj' t ht]; exact hget hev
  · have hRh : ∀ i < N.nh, ((edgesOf (graphOf (rVgs κ idH idV bh.length bv.length) hist).allScopes (rHid idH bh.length i)).map (fun q => if q.1 < N.nh + N.nv then B else w)).sum =
        B + N.nv * w := by
      intro i hi
      rw [hsc, ((hv.edges_h hi).map _).sum_eq, List.map_cons, List.sum_cons, if_pos (by simp only; omega), List.map_map,
        show ((fun q : Nat × Nat => if q.1 < N.nh + N.nv then B else w) ∘ fun j => (N.pair i j, 0)) = fun _ => w from
          funext fun k => if_neg (by simp only [RbmNet.pair]; omega)]
      simp
    have hRv : ∀ j < N.nv, ((edgesOf (graphOf (rVgs κ idH idV bh.length bv.length) hist).allScopes (rHid idV bv.length j)).map (fun q => if q.1 < N.nh + N.nv then B else w)).sum =
        B + N.nh * w := by
      intro j hj
      rw [hsc, ((hv.edges_v hj).map _).sum_eq, List.map_cons, List.sum_cons, if_pos (by simp only; omega), List.map_map,
        show ((fun q : Nat × Nat => if q.1 < N.nh + N.nv then B else w) ∘ fun i => (N.pair i j, 1)) = fun _ => w from
          funext fun k => if_neg (by simp only [RbmNet.pair]; omega)]
      simp
    intro F hF
    rw [hi.pots, ← htabs, hfacs] at hF
    obtain ⟨f, hF⟩ := List.mem_iff_getElem?.1 hF
    have hnh : (0 : α) ≤ N.nh * w := mul_nonneg (Nat.cast_nonneg _) hw
    have hnv : (0 : α) ≤ N.nv * w := mul_nonneg (Nat.cast_nonneg _) hw
    refine ⟨100000, fun r hr => ?_, le_rfl, .inl ?_⟩
    · rcases N.fac_cases hF with ⟨i, hi, rfl, rfl⟩ | ⟨j, hj, rfl, rfl⟩ | ⟨i, hi, j, hj, rfl, rfl⟩
      · simp only [List.mem_cons, List.not_mem_nil, or_false] at hr
        simp only [List.map_cons, List.map_nil, List.sum_cons, List.sum_nil, hRh _ hi]
        have := s1 _ hi
        rcases hr with rfl | rfl <;> simp only [abs_zero] <;> linarith
      · simp only [List.mem_cons, List.not_mem_nil, or_false] at hr
        simp only [List.map_cons, List.map_nil, List.sum_cons, List.sum_nil, hRv _ hj]
        have := s2 _ hj
        rcases hr with rfl | rfl <;> simp only [abs_zero] <;> linarith
      · simp only [List.mem_cons, List.not_mem_nil, or_false] at hr
        simp only [List.map_cons, List.map_nil, List.sum_cons, List.sum_nil, hRh _ hi, hRv _ hj]
        have := s3 _ hi _ hj
        rcases hr with rfl | rfl | rfl | rfl <;> simp only [abs_zero] <;> linarith
    · intro k v t hk ht
      rcases N.fac_cases hF with ⟨i, hi, rfl, rfl⟩ | ⟨j, hj, rfl, rfl⟩ | ⟨i, hi, j, hj, rfl, rfl⟩
      · exact unaryFac_full (hv.hn _ hi) _ k v t hk ht
      · exact unaryFac_full (hv.vn _ hj) _ k v t hk ht
      · exact pairFac_full (hv.hn _ hi) (hv.vn _ hj) _ k v t hk ht
  · intro f vs hvs hle
    have hlt := (List.getElem?_eq_some_iff.1 hvs).1
    rw [hlenT] at hle
    rw [hsc, List.length_map] at hlt
    omega
  · intro f k v he
    refine .inr fun t _ u _ => ?_
    rw [hz, hz, sub_self]
    simp only
    split <;> assumption

/-- The groups of the program. -/
theorem rbm_groups {bh bv : List α} {W : NDArr α} (hs : RbmSizes bh bv W) :
    (∀ g ∈ rVgs κ idH idV bh.length bv.length, g.Regular) ∧ ∀ g ∈ rVgs κ idH idV bh.length bv.length, g.Stated := by
  have key : ∀ id n, 1 ≤ n → (VGroup.arr (uniArr id [n] 2) : VGroup κ).Regular ∧ (VGroup.arr (uniArr id [n] 2) : VGroup κ).Stated := by
    intro id n hn
    constructor
    · intro hsum
      simp only [uniArr, List.sum_replicate, List.length_replicate, List.prod_cons, List.prod_nil, Nat.mul_one, smul_eq_mul] at hsum
      omega
    · refine ⟨fun m hm => ?_, 2, ?_, by omega⟩
      · have := (List.mem_replicate.1 hm).2
        omega
      · simp only [uniArr, List.prod_cons, List.prod_nil, Nat.mul_one]
        exact List.mem_replicate.2 ⟨by omega, rfl⟩
  unfold rVgs
  simp only [List.mem_cons, List.not_mem_nil, or_false, forall_eq_or_imp, forall_eq]
  exact ⟨⟨(key _ _ hs.1).1, (key _ _ hs.2.2.1).1⟩, (key _ _ hs.1).2, (key _ _ hs.2.2.1).2⟩

/-- The log odds of the beliefs that the specification has. -/
theorem RbmVars.spec_odds {N : RbmNet α} {H V : Nat → Var} {Φ : Nat → List α → α} {g : α → α → α} (hv : RbmVars N H V) (hb : Bumps Φ g) {d : α} (hd : 0 ≤ d ∧ d ≤ 1) (ev : Var → Nat → α) {eh ev' : Nat → α}
    (hh : ∀ i < N.nh, ev (H i) 1 - ev (H i) 0 = eh i) (hv' : ∀ j < N.nv, ev (V j) 1 - ev (V j) 0 = ev' j) {e : α} (hsm : N.Small e) {m : Msgs α} (hm : ∀ f k s, m f k s = 0) (t : Nat) :
    (∀ i < N.nh, beliefOf ((N.factors H V).map (·.scope)) ev (sumRun Φ (N.factors H V) ev d t m) (H i) 1 -
      beliefOf ((N.factors H V).map (·.scope)) ev (sumRun Φ (N.factors H V) ev d t m) (H i) 0 = hiddenOdds g N eh ev' d t i) ∧
    ∀ j < N.nv, beliefOf ((N.factors H V).map (·.scope)) ev (sumRun Φ (N.factors H V) ev d t m) (V j) 1 -
      beliefOf ((N.factors H V).map (·.scope)) ev (sumRun Φ (N.factors H V) ev d t m) (V j) 0 = visibleOdds g N eh ev' d t j := by
  obtain ⟨B, w, s1, s2, s3, s4, s5, -⟩ := hsm.bounds
  obtain ⟨o1, o2, o3⟩ := hv.odds hb hd ev hh hv' (fun i hi => (s1 i hi).trans s4) (fun i hi => (s2 i hi).trans s4) (fun i hi j hj => (s3 i hi j hj).trans s5) hm t
  refine ⟨fun i hi => ?_, fun j hj => ?_⟩
  · rw [hv.belief_h _ _ hi, hh i hi, o1 i hi]
    unfold hiddenOdds
    congr 1
    exact Finset.sum_congr rfl fun j hj => (o3 i hi j (Finset.mem_range.1 hj)).1
  · rw [hv.belief_v _ _ hj, hv' j hj, o2 j hj]
    unfold visibleOdds
    congr 1
    exact Finset.sum_congr rfl fun i hi => (o3 i (Finset.mem_range.1 hi) j hj).2

omit [LinearOrder α] [IsStrictOrderedRing α] in
/-- Beliefs only depend on the messages of edges. -/
theorem beliefOf_agree {scopes : List (List Var)} {m m' : Msgs α} (h : AgreeOn scopes m m') (ev : Var → Nat → α) {v : Var} {s : Nat} (hs : s < v.n) :
    beliefOf scopes ev m v s = beliefOf scopes ev m' v s := by
  unfold beliefOf
  congr 2
  exact List.map_congr_left fun e he => h e.1 e.2 v s ((mem_edgesOf _ _ _ _).1 he) hs

/-- The log odds of the beliefs. -/
theorem RbmBuilt.belief_odds [DecidableEq κ] (h : RbmBuilt idH idV bh bv W (0 : α) s hist garbage st) (hid : idH % 2 ^ 32 ≠ idV % 2 ^ 32) (hs : RbmSizes bh bv W) {env : Env α}
    (hsize : env.wrapNeg = false ∨ 4 * (bh.length * bv.length) + 2 * bh.length + 2 * bv.length + 2 ≤ 100000)
    (hi : RbmInit idH idV bh bv Eh Ev s st arrs) {e : α} (heh : ∀ x ∈ Eh, |x| ≤ e) (hev : ∀ x ∈ Ev, |x| ≤ e) (he0 : 0 ≤ e) (hsm : (RbmNet.ofLists bh bv W.data).Small e) {d : α}
    (hd : 0 ≤ d ∧ d ≤ 1) (t : Nat) : (s.bp.runBP env arrs t d).ftovMsgs.length = st.totalFactorNumStates ∧
    (∀ i < bh.length, beliefOf (graphOf (rVgs κ idH idV bh.length bv.length) hist).allScopes (readEv st.varsToStarts arrs.evidence)
        (readMsgs (graphOf (rVgs κ idH idV bh.length bv.length) hist).allScopes (s.bp.runBP env arrs t d).ftovMsgs) (rHid idH bh.length i) 1 -
      beliefOf (graphOf (rVgs κ idH idV bh.length bv.length) hist).allScopes (readEv st.varsToStarts arrs.evidence)
        (readMsgs (graphOf (rVgs κ idH idV bh.length bv.length) hist).allScopes (s.bp.runBP env arrs t d).ftovMsgs) (rHid idH bh.length i) 0 =
      hiddenOdds maxBump (RbmNet.ofLists bh bv W.data) (pairOdds Eh) (pairOdds Ev) d t i) ∧
    (∀ j < bv.length, beliefOf (graphOf (rVgs κ idH idV bh.length bv.length) hist).allScopes (readEv st.varsToStarts arrs.evidence)
        (readMsgs (graphOf (rVgs κ idH idV bh.length bv.length) hist).allScopes (s.bp.runBP env arrs t d).ftovMsgs) (rHid idV bv.length j) 1 -
      beliefOf (graphOf (rVgs κ idH idV bh.length bv.length) hist).allScopes (readEv st.varsToStarts arrs.evidence)
        (readMsgs (graphOf (rVgs κ idH idV bh.length bv.length) hist).allScopes (s.bp.runBP env arrs t d).ftovMsgs) (rHid idV bv.length j) 0 =
      visibleOdds maxBump (RbmNet.ofLists bh bv W.data) (pairOdds Eh) (pairOdds Ev) d t j) := by
  obtain ⟨state, hbp, -⟩ := h.bp
  obtain ⟨b, q1, q2, q3, q4, q5, q6⟩ := h.tame hid hs hi heh hev he0 hsm hd
  have hlp : arrs.logPotentials.length = st.logPotentials.length := by rw [hi.pots]
  refine ⟨h.compiled.run_length hbp env arrs t d hlp q5, ?_⟩
  have hv := rbmVars hid hs
  have hrun := h.compiled.run_textbook_tame hbp env (h.fits hsize) arrs t d hlp hi.len q5 q1 q2 q4 q3
  have hspec := hv.spec_odds bumps_max hd (readEv st.varsToStarts arrs.evidence) (eh := pairOdds Eh) (ev' := pairOdds Ev)
    (fun i hi' => by rw [hi.evH i hi' 1 (by omega), hi.evH i hi' 0 (by omega)]; rfl)
    (fun i hi' => by rw [hi.evV i hi' 1 (by omega), hi.evV i hi' 0 (by omega)]; rfl) hsm q6 t
  rw [tbRun_sumRun, hi.pots, h.factors] at hrun
  rw [← h.scopes] at hspec
  refine ⟨fun i hi' => ?_, fun j hj' => ?_⟩
  · rw [← hspec.1 i hi', beliefOf_agree hrun _ (s := 1) (by show 1 < 2; omega), beliefOf_agree hrun _ (s := 0) (by show 0 < 2; omega)]
  · rw [← hspec.2 j hj', beliefOf_agree hrun _ (s := 1) (by show 1 < 2; omega), beliefOf_agree hrun _ (s := 0) (by show 0 < 2; omega)]

theorem firstMax_two {f : Nat → α} {o : α} (h : f 1 - f 0 = o) {j : Nat} (hj : IsFirstMax f 2 j) : j = if 0 < o then 1 else 0 := by
  obtain ⟨h1, h2, h3⟩ := hj
  have h2' := h2 1 (by omega)
  interval_cases j
  · rw [if_neg]
    rw [not_lt, ← h]
    exact sub_nonpos.2 h2'
  · rw [if_pos]
    rw [← h]
    exact sub_pos.2 (h3 0 (by omega))

/-- The decoded states. -/
theorem RbmBuilt.decode [DecidableEq κ] (h : RbmBuilt idH idV bh bv W (0 : α) s hist garbage st) (hid : idH % 2 ^ 32 ≠ idV % 2 ^ 32) (hs : RbmSizes bh bv W) {env : Env α}
    (hsize : env.wrapNeg = false ∨ 4 * (bh.length * bv.length) + 2 * bh.length + 2 * bv.length + 2 ≤ 100000)
    (hi : RbmInit idH idV bh bv Eh Ev s st arrs) {e : α} (heh : ∀ x ∈ Eh, |x| ≤ e) (hev : ∀ x ∈ Ev, |x| ≤ e) (he0 : 0 ≤ e) (hsm : (RbmNet.ofLists bh bv W.data).Small e) {d : α}
    (hd : 0 ≤ d ∧ d ≤ 1) (t : Nat) : ∃ bs, s.bp.getBeliefs (s.bp.runBP env arrs t d) = .ok bs ∧ decodeMapStates bs = .ok [
      (.arr s.net.hidden, .arr ⟨[bh.length], likelyStates (hiddenOdds maxBump (RbmNet.ofLists bh bv W.data) (pairOdds Eh) (pairOdds Ev) d t) bh.length⟩),
      (.arr s.net.visible, .arr ⟨[bv.length], likelyStates (visibleOdds maxBump (RbmNet.ofLists bh bv W.data) (pairOdds Eh) (pairOdds Ev) d t) bv.length⟩)] := by
  obtain ⟨state, hbp, -⟩ := h.bp
  obtain ⟨b1, b2, b3⟩ := h.belief_odds hid hs hsize hi heh hev he0 hsm hd t
  have hre : (s.bp.runBP env arrs t d).evidence = arrs.evidence := runBP_evidence ..
  obtain ⟨bs, rs, e1, e2, e3, e4⟩ := C35_partial h.compiled hbp (s.bp.runBP env arrs t d) b1 (by rw [hre]; exact hi.len) (rbm_groups hs).1 (rbm_groups hs).2
  refine ⟨bs, e1, ?_⟩
  rw [e2]
  rw [hre] at e4
  have one : ∀ (id n : Nat) (o : Nat → α) (r : GroupStates κ), (VGroup.arr (uniArr id [n] 2) : VGroup κ).Decodes (beliefOf (graphOf (rVgs κ idH idV bh.length bv.length) hist).allScopes
      (readEv st.varsToStarts arrs.evidence) (readMsgs (graphOf (rVgs κ idH idV bh.length bv.length) hist).allScopes (s.bp.runBP env arrs t d).ftovMsgs)) r →
      (∀ i < n, beliefOf (graphOf (rVgs κ idH idV bh.length bv.length) hist).allScopes (readEv st.varsToStarts arrs.evidence)
        (readMsgs (graphOf (rVgs κ idH idV bh.length bv.length) hist).allScopes (s.bp.runBP env arrs t d).ftovMsgs) (rHid id n i) 1 -
      beliefOf (graphOf (rVgs κ idH idV bh.length bv.length) hist).allScopes (readEv st.varsToStarts arrs.evidence)
        (readMsgs (graphOf (rVgs κ idH idV bh.length bv.length) hist).allScopes (s.bp.runBP env arrs t d).ftovMsgs) (rHid id n i) 0 = o i) → r = .arr ⟨[n], likelyStates o n⟩ := by
    intro id n o r hr ho
    cases r with
    | dict => exact hr.elim
    | arr r =>
      obtain ⟨r1, r2, r3⟩ := hr
      obtain ⟨sh, dat⟩ := r
      have r1 : sh = [n] := r1
      subst r1
      have hl : dat.length = n := by simpa [NDArr.WF] using r2
      congr 2
      apply List.ext_getElem?
      intro k
      by_cases hk : k < n
      · obtain ⟨j, h1, h2⟩ := r3 k (rHid id n k) (by
          unfold NDVarArray.variables NDVarArray.variableHashes uniArr
          simp [hk, uniCell, rowMajor])
        rw [h1, firstMax_two (ho k hk) h2]
        simp [likelyStates, hk]
      · rw [List.getElem?_eq_none (by omega), List.getElem?_eq_none (by simp [likelyStates]; omega)]
  match rs, e3, e4 with
  | [], e3, _ => simp [rVgs] at e3
  | [_], e3, _ => simp [rVgs] at e3
  | _ :: _ :: _ :: _, e3, _ => simp [rVgs] at e3
  | [(g, r), (g', r')], e3, e4 =>
    obtain ⟨rfl, rfl⟩ : g = .arr (uniArr idH [bh.length] 2) ∧ g' = .arr (uniArr idV [bv.length] 2) := by simpa [rVgs] using e3
    rw [one _ _ _ r (e4 (.arr (uniArr idH [bh.length] 2), r) (by simp)) b2, one _ _ _ r' (e4 (.arr (uniArr idV [bv.length] 2), r') (by simp)) b3, h.hidden, h.visible]

end

end

end PGMax
