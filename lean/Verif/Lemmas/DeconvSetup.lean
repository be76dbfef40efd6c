import Verif.Lemmas.DeconvInit
import Verif.Lemmas.Gmrf
import Verif.Lemmas.RbmRun
import Verif.Props.C74
import Verif.Model.ExamplesDeconv

/-! Helper lemmas: inference in the deconvolution program. -/

namespace PGMax

section
variable {κ α : Type} [Field α] [LinearOrder α] {idW idS idSW idX idA idO nImg nChan imH imW nFeat fH fW : Nat}

/-- The factors of the graph. -/
theorem deconv_factors {fg : FactorGraph κ α} (hge : fg.groups .enum = []) (hgo : fg.groups .or = [dOr idSW idX idO nImg nChan imH imW nFeat fH fW])
    (hga : fg.groups .and = [dAnd idW idS idSW idA nImg nChan imH imW nFeat fH fW]) (lp : List α) : fg.factors lp =
      ((dDict idSW idX nImg nChan imH imW nFeat fH fW).map (fun p => (⟨p.2 ++ [p.1], orRows ((p.2 ++ [p.1]).length - 1)⟩ : SFac α))) ++
      ((dPlaces nImg nChan imH imW nFeat fH fW).map (fun p => (⟨[dS idS nImg imH imW nFeat fH fW p, dW idW nChan nFeat fH fW p,
        dSW idSW nImg nChan imH imW nFeat fH fW p], andRows 2⟩ : SFac α))) := by
  unfold FactorGraph.factors
  simp only [FactorGraph.tables, FactorGraph.scopesOf, hge, hgo, hga, List.flatMap_cons, List.flatMap_nil, List.append_nil, tableFacs, List.nil_append,
    dOr, dAnd, List.map_map]
  rfl

/-- The graph of the program, as a graph of places and pixels. -/
theorem deconv_graph (hi : DeconvIds idW idS idSW idX idA idO) (hs : DeconvSizes nImg nChan imH imW nFeat fH fW) (lS lW lX : α) (noiseS noiseW xGt : List α) {fg : FactorGraph κ α}
    (hge : fg.groups .enum = []) (hgo : fg.groups .or = [dOr idSW idX idO nImg nChan imH imW nFeat fH fW])
    (hga : fg.groups .and = [dAnd idW idS idSW idA nImg nChan imH imW nFeat fH fW]) (lp : List α) : ∃ key par,
    DeconvGraph (DeconvNet.ofLists nImg nChan imH imW nFeat fH fW lS lW lX noiseS noiseW xGt) (fg.factors lp) (dDict idSW idX nImg nChan imH imW nFeat fH fW).length
      (dPlaces nImg nChan imH imW nFeat fH fW) (uniCell idS [nImg, nFeat, imH - fH + 1, imW - fW + 1] 2) (uniCell idW [nChan, nFeat, fH, fW] 2)
      (uniCell idSW [nImg, nChan, imH, imW, nFeat, fH, fW] 2) (uniCell idX [nImg, nChan, imH, imW] 2) key par := by
  obtain ⟨f1, f2, f3⟩ := dDict_facts idSW idX nImg nChan imH imW nFeat fH fW
  have f4 := dictAppend_filter (dX idX nImg nChan imH imW) (dSW idSW nImg nChan imH imW nFeat fH fW) (dPlaces nImg nChan imH imW nFeat fH fW)
  obtain ⟨p1, p2, p3, p4⟩ := deconv_prods hs
  have hh := hs.2.2.2.2.1
  have hw := hs.2.2.2.2.2.2.1
  have hd := hi.arrays
  simp only [List.map_cons, List.map_nil, List.nodup_cons, List.mem_cons, List.not_mem_nil, or_false, not_or] at hd
  have hex : ∀ g : Nat, ∃ q : Place, ∀ e : Var × List Var, (dDict idSW idX nImg nChan imH imW nFeat fH fW)[g]? = some e →
      q ∈ dPlaces nImg nChan imH imW nFeat fH fW ∧ dX idX nImg nChan imH imW q = e.1 := by
    intro g
    cases hg : (dDict idSW idX nImg nChan imH imW nFeat fH fW)[g]? with
    | none => exact ⟨⟨0, 0, 0, 0, 0, 0, 0⟩, fun e he => by cases he⟩
    | some e =>
      obtain ⟨q, hq, e'⟩ := (f2 e.1).1 (List.mem_map_of_mem (List.mem_of_getElem? hg))
      exact ⟨q, fun e' he => by cases he; exact ⟨hq, ‹_›⟩⟩
  choose q hq using hex
  have hin : ∀ p ∈ dPlaces nImg nChan imH imW nFeat fH fW, InShape [nImg, nChan, imH, imW] p.pixel := by
    intro p hp
    obtain ⟨h1, h2, h3, h4, h5, h6, h7⟩ := mem_places.1 hp
    simp [InShape, Place.pixel, h1, h2]; omega
  have hpix : ∀ p ∈ dPlaces nImg nChan imH imW nFeat fH fW, ∀ p' ∈ dPlaces nImg nChan imH imW nFeat fH fW,
      (dX idX nImg nChan imH imW p = dX idX nImg nChan imH imW p' ↔ p.pixel = p'.pixel) := by
    intro p hp p' hp'
    exact ⟨fun e => uniCell_inj (hin p hp) (hin p' hp') e, fun e => congrArg (uniCell idX [nImg, nChan, imH, imW] 2) e⟩
  refine ⟨fun g => (q g).pixel, fun g => (dPlaces nImg nChan imH imW nFeat fH fW).filter (fun p => p.pixel = (q g).pixel), ?_⟩
  have hor : ∀ g < (dDict idSW idX nImg nChan imH imW nFeat fH fW).length, ∃ e, (dDict idSW idX nImg nChan imH imW nFeat fH fW)[g]? = some e ∧
      q g ∈ dPlaces nImg nChan imH imW nFeat fH fW ∧ dX idX nImg nChan imH imW (q g) = e.1 := by
    intro g hg
    exact ⟨_, List.getElem?_eq_getElem hg, hq g _ (List.getElem?_eq_getElem hg)⟩
  constructor
  case hh => exact hh
  case hw => exact hw
  case mem => exact fun p => mem_places
  case nodup => exact places_nodup _ _ _ _ _ _ _
  case len => rw [deconv_factors hge hgo hga]; simp
  case or =>
    intro g hg
    obtain ⟨e, h1, h2, h3⟩ := hor g hg
    rw [deconv_factors hge hgo hga, List.getElem?_append_left (by simpa using hg), List.getElem?_map, h1, Option.map_some]
    have he := List.mem_of_getElem? h1
    have h4 : e.2 = ((dPlaces nImg nChan imH imW nFeat fH fW).filter (fun p => p.pixel = (q g).pixel)).map (dSW idSW nImg nChan imH imW nFeat fH fW) := by
      rw [f4 e he]
      congr 1
      refine List.filter_congr fun p hp => ?_
      rw [← h3]
      exact decide_eq_decide.2 (hpix p hp _ h2)
    rw [List.length_append, List.length_singleton, Nat.add_sub_cancel, h4, List.length_map, ← h3]
    rfl
  case and =>
    intro k p hp
    rw [deconv_factors hge hgo hga, List.getElem?_append_right (by simp), List.length_map, Nat.add_sub_cancel_left, List.getElem?_map, hp]
    rfl
  case parNodup => exact fun g _ => (places_nodup _ _ _ _ _ _ _).filter _
  case parMem => intro g _ p; rw [List.mem_filter]; simp
  case keyInj =>
    intro g hg g' hg' e
    obtain ⟨a, h1, h2, h3⟩ := hor g hg
    obtain ⟨b, k1, k2, k3⟩ := hor g' hg'
    have hab : a.1 = b.1 := by rw [← h3, ← k3]; exact (hpix _ h2 _ k2).2 e
    refine (List.getElem?_inj (by simpa using hg) f1).1 ?_
    rw [List.getElem?_map, List.getElem?_map, h1, k1]
    exact congrArg some hab
  case keyEx =>
    intro p hp
    obtain ⟨e, he, h1⟩ := List.mem_map.1 ((f2 _).2 ⟨p, hp, rfl⟩)
    obtain ⟨g, hg⟩ := List.mem_iff_getElem?.1 he
    have hlt := (List.getElem?_eq_some_iff.1 hg).1
    obtain ⟨h2, h3⟩ := hq g e hg
    exact ⟨g, hlt, (hpix _ h2 _ hp).1 (h3.trans h1)⟩
  case keyPar =>
    intro g hg
    obtain ⟨e, h1, h2, h3⟩ := hor g hg
    exact ⟨_, h2, rfl⟩
  case two => exact fun cs => ⟨rfl, rfl, rfl, rfl⟩
  case sInj => exact fun cs cs' h h' e => uniCell_inj h h' e
  case wInj => exact fun cs cs' h h' e => uniCell_inj h h' e
  case swInj => exact fun cs cs' h h' e => uniCell_inj h h' e
  case xInj => exact fun cs cs' h h' e => uniCell_inj h h' e
  case sw => exact fun cs cs' h h' => uniCell_ne (by omega) p2 p1 h h'
  case ssw => exact fun cs cs' h h' => uniCell_ne (by omega) p2 p3 h h'
  case sx => exact fun cs cs' h h' => uniCell_ne (by omega) p2 p4 h h'
  case wsw => exact fun cs cs' h h' => uniCell_ne (by omega) p1 p3 h h'
  case wx => exact fun cs cs' h h' => uniCell_ne (by omega) p1 p4 h h'
  case swx => exact fun cs cs' h h' => uniCell_ne (by omega) p3 p4 h h'

/-- What the program has made. -/
structure DeconvBuilt (idW idS idSW idX idA idO nImg nChan imH imW nFeat fH fW : Nat) (s : DeconvSetup κ α) (garbage : Garbage) (st : FGState κ α) : Prop where
  net : s.net = ⟨uniArr idS [nImg, nFeat, imH - fH + 1, imW - fW + 1] 2, uniArr idW [nChan, nFeat, fH, fW] 2,
    uniArr idSW [nImg, nChan, imH, imW, nFeat, fH, fW] 2, uniArr idX [nImg, nChan, imH, imW] 2, dAnd idW idS idSW idA nImg nChan imH imW nFeat fH fW,
    dOr idSW idX idO nImg nChan imH imW nFeat fH fW, s.net.fg⟩
  vgs : VGroupsOk (dVgs κ idW idS idSW idX nImg nChan imH imW nFeat fH fW)
  compiled : Compiled (dVgs κ idW idS idSW idX nImg nChan imH imW nFeat fH fW) (dHist α idW idS idSW idX idA idO nImg nChan imH imW nFeat fH fW) garbage st
  fg : graphOf (dVgs κ idW idS idSW idX nImg nChan imH imW nFeat fH fW) (dHist α idW idS idSW idX idA idO nImg nChan imH imW nFeat fH fW) = s.net.fg
  enum : s.net.fg.groups .enum = []
  or : s.net.fg.groups .or = [dOr idSW idX idO nImg nChan imH imW nFeat fH fW]
  and : s.net.fg.groups .and = [dAnd idW idS idSW idA nImg nChan imH imW nFeat fH fW]
  bp : ∃ state, BP.create st state 0 = .ok s.bp ∧ state.logPotentials.value = st.logPotentials ∧ state.ftovMsgs.value = List.replicate st.totalFactorNumStates 0 ∧
    state.evidence.value = List.replicate st.numVarStates 0

theorem deconv_setup [DecidableEq κ] (hi : DeconvIds idW idS idSW idX idA idO) (hs : DeconvSizes nImg nChan imH imW nFeat fH fW) (garbage : Garbage) (stateId : Nat) :
    ∃ (s : DeconvSetup κ α) (st : FGState κ α), deconvSetup κ α idW idS idSW idX idA idO garbage stateId nImg nChan imH imW nFeat fH fW = .ok s ∧
      DeconvBuilt idW idS idSW idX idA idO nImg nChan imH imW nFeat fH fW s garbage st := by
  obtain ⟨r, hr⟩ := (C68_sizes (κ := κ) (α := α) hi nImg nChan imH imW nFeat fH fW).1.2 hs
  obtain ⟨-, fg, st, rfl, hvg, hst, hg, hge, hgo, hga⟩ := deconv_built hi hr garbage
  obtain ⟨bp, hbp⟩ := (C51_partial hst (⟨⟨stateId, st.logPotentials⟩, ⟨stateId, List.replicate st.totalFactorNumStates 0⟩,
      ⟨stateId, List.replicate st.numVarStates 0⟩⟩ : BPState α) 0).1.2 (by
    rw [hg]
    have : (dAnd idW idS idSW idA nImg nChan imH imW nFeat fH fW : FGroup α).varsForFactors ≠ [] := by simpa [dAnd] using dPlaces_ne hs
    simp [FactorGraph.allScopes, FactorGraph.scopesOf, FType.all, hge, hgo, hga, this])
  refine ⟨⟨⟨uniArr idS [nImg, nFeat, imH - fH + 1, imW - fW + 1] 2, uniArr idW [nChan, nFeat, fH, fW] 2, uniArr idSW [nImg, nChan, imH, imW, nFeat, fH, fW] 2,
    uniArr idX [nImg, nChan, imH, imW] 2, dAnd idW idS idSW idA nImg nChan imH imW nFeat fH fW, dOr idSW idX idO nImg nChan imH imW nFeat fH fW, fg⟩, bp⟩, st, ?_, rfl, hvg, hst, hg, hge, hgo, hga, _, hbp, rfl, rfl, rfl⟩
  unfold deconvSetup
  have h4 := hst.compiled
  rw [hg] at h4
  rw [hr, py_ok_bind, h4, py_ok_bind, show bpStateOf stateId st = .ok _ by
    simp [bpStateOf, LogPotentials.create, FToVMessages.create, Evidence.create, BPState.create, bind, Except.bind]; rfl, py_ok_bind, hbp, py_ok_bind]
  rfl

/-- The arrays after `init`. -/
structure DeconvInit (idW idS idSW idX : Nat) (N : DeconvNet α) (st : FGState κ α) (arrs : BPArrays α) : Prop where
  pots : arrs.logPotentials = st.logPotentials
  msgs : arrs.ftovMsgs = List.replicate st.totalFactorNumStates 0
  len : arrs.evidence.length = st.numVarStates
  ev : DeconvEvidence N (uniCell idS [N.nImg, N.nFeat, N.imH - N.fH + 1, N.imW - N.fW + 1] 2) (uniCell idW [N.nChan, N.nFeat, N.fH, N.fW] 2)
      (uniCell idSW [N.nImg, N.nChan, N.imH, N.imW, N.nFeat, N.fH, N.fW] 2) (uniCell idX [N.nImg, N.nChan, N.imH, N.imW] 2) (readEv st.varsToStarts arrs.evidence)

theorem DeconvBuilt.init [DecidableEq κ] {s : DeconvSetup κ α} {garbage : Garbage} {st : FGState κ α}
    (h : DeconvBuilt idW idS idSW idX idA idO nImg nChan imH imW nFeat fH fW s garbage st) (hs : DeconvSizes nImg nChan imH imW nFeat fH fW) (lS lW lX : α) {noiseS noiseW xGt : List α}
    (nS' : noiseS.length = [nImg, nFeat, imH - fH + 1, imW - fW + 1].prod * 2) (nW' : noiseW.length = [nChan, nFeat, fH, fW].prod * 2)
    (nX' : xGt.length = [nImg, nChan, imH, imW].prod) :
    ∃ arrs, s.bp.update none none none (some (deconvUpdates s.net lS lW lX noiseS noiseW xGt)) = .ok arrs ∧
      DeconvInit idW idS idSW idX (DeconvNet.ofLists nImg nChan imH imW nFeat fH fW lS lW lX noiseS noiseW xGt) st arrs := by
  obtain ⟨state, hbp, q1, q2, q3⟩ := h.bp
  obtain ⟨b1, b2, -⟩ := BP_create_ok hbp
  obtain ⟨z1, z2, z3, z4, z5, z6, z7, z8⟩ := hs
  have hst := h.compiled
  have pS : 0 < [nImg, nFeat, imH - fH + 1, imW - fW + 1].prod := by simp; omega
  have pW : 0 < [nChan, nFeat, fH, fW].prod := by simp; omega
  have pSW : 0 < [nImg, nChan, imH, imW, nFeat, fH, fW].prod := by simp; omega
  have pX : 0 < [nImg, nChan, imH, imW].prod := by simp; omega
  have hdisj : (dVgs κ idW idS idSW idX nImg nChan imH imW nFeat fH fW).Pairwise (fun a b => a.variables.Disjoint b.variables) :=
    (List.nodup_flatMap.1 h.vgs.nodup).2
  have hstart : ∀ g ∈ dVgs κ idW idS idSW idX nImg nChan imH imW nFeat fH fW, ∀ v ∈ g.variables, ∃ t, st.varsToStarts v = some t := by
    intro g hg' v hv
    obtain ⟨i, hi'⟩ := List.mem_iff_getElem?.1 (List.mem_flatMap.2 ⟨g, hg', hv⟩)
    exact ⟨_, (hst.starts_iff v _).2 ⟨i, hi', rfl⟩⟩
  obtain ⟨e1, u1, l1, c1, o1⟩ := uniArr_evidence hst (List.replicate st.numVarStates (0 : α)) (by simp) idS [nImg, nFeat, imH - fH + 1, imW - fW + 1] 2
    (by simp) pS (List.zipWith (· + ·) (setColumn 1 (List.replicate [nImg, nFeat, imH - fH + 1, imW - fW + 1].prod lS)) noiseS) (by
      rw [List.length_zipWith, setColumn_length, List.length_replicate, nS', Nat.min_self])
  obtain ⟨e2, u2, l2, c2, o2⟩ := uniArr_evidence hst e1 (by simp [l1]) idW [nChan, nFeat, fH, fW] 2
    (by simp) pW (List.zipWith (· + ·) (setColumn 1 (List.replicate [nChan, nFeat, fH, fW].prod lW)) noiseW) (by
      rw [List.length_zipWith, setColumn_length, List.length_replicate, nW', Nat.min_self])
  obtain ⟨e3, u3, l3, c3, o3⟩ := uniArr_evidence_short hst e2 (by simp [l1, l2]) idSW [nImg, nChan, imH, imW, nFeat, fH, fW] 2 (by omega)
    (by simp) pSW (List.replicate [nImg, nChan, imH, imW, nFeat, fH, fW].prod 0) (by simp)
  obtain ⟨e4, u4, l4, c4, o4⟩ := uniArr_evidence hst e3 (by simp [l1, l2, l3]) idX [nImg, nChan, imH, imW] 2
    (by simp) pX (List.zipWith (· + ·) (setColumn 0 (xGt.map (fun x => (2 * x - 1) * lX)))
      (List.replicate (setColumn 0 (xGt.map (fun x => (2 * x - 1) * lX))).length 0)) (by
      rw [List.length_zipWith, List.length_replicate, Nat.min_self, setColumn_length, List.length_map, nX'])
  have hall : updateEvidence st (List.replicate st.numVarStates (0 : α)) (deconvUpdates s.net lS lW lX noiseS noiseW xGt) = .ok e4 := by
    rw [h.net]
    unfold updateEvidence deconvUpdates
    rw [List.foldlM_cons, show (uniArr idS [nImg, nFeat, imH - fH + 1, imW - fW + 1] 2).shape = [nImg, nFeat, imH - fH + 1, imW - fW + 1] from rfl,
      u1, py_ok_bind, List.foldlM_cons, show (uniArr idW [nChan, nFeat, fH, fW] 2).shape = [nChan, nFeat, fH, fW] from rfl, u2, py_ok_bind,
      List.foldlM_cons, show (uniArr idSW [nImg, nChan, imH, imW, nFeat, fH, fW] 2).shape = [nImg, nChan, imH, imW, nFeat, fH, fW] from rfl, u3,
      py_ok_bind, List.foldlM_cons, show (uniArr idX [nImg, nChan, imH, imW] 2).shape = [nImg, nChan, imH, imW] from rfl, u4, py_ok_bind]
    rfl
  simp only [dVgs, List.pairwise_cons, List.mem_cons, List.not_mem_nil, or_false, forall_eq_or_imp, forall_eq] at hdisj hstart
  obtain ⟨⟨d12, d13, d14⟩, ⟨d23, d24⟩, d34, -⟩ := hdisj
  obtain ⟨t1, t2, t3, t4⟩ := hstart
  have m1 : ∀ cs, InShape [nImg, nFeat, imH - fH + 1, imW - fW + 1] cs →
      uniCell idS [nImg, nFeat, imH - fH + 1, imW - fW + 1] 2 cs ∈ (uniArr idS [nImg, nFeat, imH - fH + 1, imW - fW + 1] 2).variables :=
    fun cs hcs => (mem_uniArr _ _ _ _).2 ⟨cs, hcs, rfl⟩
  have m2 : ∀ cs, InShape [nChan, nFeat, fH, fW] cs → uniCell idW [nChan, nFeat, fH, fW] 2 cs ∈ (uniArr idW [nChan, nFeat, fH, fW] 2).variables :=
    fun cs hcs => (mem_uniArr _ _ _ _).2 ⟨cs, hcs, rfl⟩
  have m3 : ∀ cs, InShape [nImg, nChan, imH, imW, nFeat, fH, fW] cs →
      uniCell idSW [nImg, nChan, imH, imW, nFeat, fH, fW] 2 cs ∈ (uniArr idSW [nImg, nChan, imH, imW, nFeat, fH, fW] 2).variables :=
    fun cs hcs => (mem_uniArr _ _ _ _).2 ⟨cs, hcs, rfl⟩
  have hz : ∀ n i, (List.replicate n (0 : α)).getD i 0 = 0 := by
    intro n i
    rw [List.getD, List.getElem?_replicate]
    split <;> rfl
  have r1 : ∀ cs, InShape [nImg, nFeat, imH - fH + 1, imW - fW + 1] cs → ∀ s < 2,
      readEv st.varsToStarts e4 (uniCell idS [nImg, nFeat, imH - fH + 1, imW - fW + 1] 2 cs) s =
        (if s = 1 then lS else 0) + noiseS.getD (rowMajor [nImg, nFeat, imH - fH + 1, imW - fW + 1] cs * 2 + s) 0 := by
    intro cs hcs s hs
    obtain ⟨t, ht⟩ := t1 _ (m1 cs hcs)
    rw [o4 _ t ht (fun hc => d14 (m1 cs hcs) hc) s hs, o3 _ t ht (fun hc => d13 (m1 cs hcs) hc) s hs,
      o2 _ t ht (fun hc => d12 (m1 cs hcs) hc) s hs, c1 cs hcs s hs, addColumn_getD 1 (by omega) _ _ (by rw [nS', List.length_replicate]) _ s hs
        (by rw [List.length_replicate]; exact rowMajor_lt _ _ hcs)]
    rw [List.getD, List.getElem?_replicate, if_pos (rowMajor_lt _ _ hcs), Option.getD_some]
  have r2 : ∀ cs, InShape [nChan, nFeat, fH, fW] cs → ∀ s < 2,
      readEv st.varsToStarts e4 (uniCell idW [nChan, nFeat, fH, fW] 2 cs) s =
        (if s = 1 then lW else 0) + noiseW.getD (rowMajor [nChan, nFeat, fH, fW] cs * 2 + s) 0 := by
    intro cs hcs s hs
    obtain ⟨t, ht⟩ := t2 _ (m2 cs hcs)
    rw [o4 _ t ht (fun hc => d24 (m2 cs hcs) hc) s hs, o3 _ t ht (fun hc => d23 (m2 cs hcs) hc) s hs,
      c2 cs hcs s hs, addColumn_getD 1 (by omega) _ _ (by rw [nW', List.length_replicate]) _ s hs
        (by rw [List.length_replicate]; exact rowMajor_lt _ _ hcs)]
    rw [List.getD, List.getElem?_replicate, if_pos (rowMajor_lt _ _ hcs), Option.getD_some]
  have r3 : ∀ cs, InShape [nImg, nChan, imH, imW, nFeat, fH, fW] cs → ∀ s < 2,
      readEv st.varsToStarts e4 (uniCell idSW [nImg, nChan, imH, imW, nFeat, fH, fW] 2 cs) s = 0 := by
    intro cs hcs s hs
    obtain ⟨t, ht⟩ := t3 _ (m3 cs hcs)
    rw [o4 _ t ht (fun hc => d34 (m3 cs hcs) hc) s hs, c3 cs hcs s hs, o2 _ t ht (fun hc => d23 hc (m3 cs hcs)) s hs,
      o1 _ t ht (fun hc => d13 hc (m3 cs hcs)) s hs]
    unfold readEv
    rw [hz, hz, ite_self]
  have r4 : ∀ cs, InShape [nImg, nChan, imH, imW] cs → ∀ s < 2,
      readEv st.varsToStarts e4 (uniCell idX [nImg, nChan, imH, imW] 2 cs) s =
        if s = 0 then (2 * xGt.getD (rowMajor [nImg, nChan, imH, imW] cs) 0 - 1) * lX else 0 := by
    intro cs hcs s hs
    have hlt := rowMajor_lt _ _ hcs
    rw [c4 cs hcs s hs, addColumn_getD 0 (by omega) _ _ (by rw [List.length_replicate, setColumn_length]) _ s hs (by rw [List.length_map, nX']; exact hlt)]
    have h1 : (List.map (fun x => (2 * x - 1) * lX) xGt).getD (rowMajor [nImg, nChan, imH, imW] cs) 0 =
        (2 * xGt.getD (rowMajor [nImg, nChan, imH, imW] cs) 0 - 1) * lX := by
      rw [List.getD, List.getD, List.getElem?_map, List.getElem?_eq_getElem (by rw [nX']; exact hlt)]
      rfl
    rw [h1, hz, add_zero]
  refine ⟨⟨st.logPotentials, List.replicate st.totalFactorNumStates 0, e4⟩, ?_, rfl, rfl, ?_, ?_, ?_, ?_, ?_⟩
  · unfold BPFun.update
    simp only [b1, b2, q1, q2, q3, hall]
    rfl
  · simp [l1, l2, l3, l4]
  · intro cs hcs
    have h1 := r1 cs hcs 1 (by omega)
    have h0 := r1 cs hcs 0 (by omega)
    simp only [DeconvNet.ofLists, pairOdds] at h1 h0 ⊢
    rw [h1, h0]
    simp
    ring
  · intro cs hcs
    have h1 := r2 cs hcs 1 (by omega)
    have h0 := r2 cs hcs 0 (by omega)
    simp only [DeconvNet.ofLists, pairOdds] at h1 h0 ⊢
    rw [h1, h0]
    simp
    ring
  · intro cs hcs
    have h1 := r3 cs hcs 1 (by omega)
    have h0 := r3 cs hcs 0 (by omega)
    simp only [DeconvNet.ofLists] at h1 h0 ⊢
    rw [h1, h0, sub_self]
  · intro cs hcs
    have h1 := r4 cs hcs 1 (by omega)
    have h0 := r4 cs hcs 0 (by omega)
    simp only [DeconvNet.ofLists] at h1 h0 ⊢
    rw [h1, h0]
    simp
    ring

/-- The edges of the graph are so few that the literal 100000 of the code is larger than their number. -/
theorem DeconvBuilt.segFits {s : DeconvSetup κ α} {garbage : Garbage} {st : FGState κ α}
    (h : DeconvBuilt idW idS idSW idX idA idO nImg nChan imH imW nFeat fH fW s garbage st) (hs : DeconvSizes nImg nChan imH imW nFeat fH fW) {env : Env α}
    (hsize : env.wrapNeg = false ∨ 8 * (nImg * nChan * (imH - fH + 1) * (imW - fW + 1) * nFeat * fH * fW) + 2 * (nImg * nChan * imH * imW) + 2 ≤ 100000) :
    SegFits env (graphOf (dVgs κ idW idS idSW idX nImg nChan imH imW nFeat fH fW) (dHist α idW idS idSW idX idA idO nImg nChan imH imW nFeat fH fW)) := by
  refine hsize.imp_right fun hsz f k v he => ?_
  rw [h.fg] at he ⊢
  rw [← FactorGraph.factors_scopes _ ([] : List α), deconv_factors h.enum h.or h.and] at he ⊢
  obtain ⟨f1, f2, f3⟩ := dDict_facts idSW idX nImg nChan imH imW nFeat fH fW
  have ftot : ((dDict idSW idX nImg nChan imH imW nFeat fH fW).map (fun e => e.2.length)).sum = (dPlaces nImg nChan imH imW nFeat fH fW).length :=
    dictAppend_total (dX idX nImg nChan imH imW) (dSW idSW nImg nChan imH imW nFeat fH fW) (dPlaces nImg nChan imH imW nFeat fH fW)
  have hplaces : (dPlaces nImg nChan imH imW nFeat fH fW).length = nImg * nChan * (imH - fH + 1) * (imW - fW + 1) * nFeat * fH * fW := by
    simp [places, List.length_flatMap, Nat.mul_assoc]
  have htwo : ∀ e ∈ dDict idSW idX nImg nChan imH imW nFeat fH fW, ∀ v ∈ e.2 ++ [e.1], v.n = 2 := by
    intro e he v hv
    rcases List.mem_append.1 hv with hv | hv
    · obtain ⟨p, -, -, rfl⟩ := (f3 e he v).1 hv
      rfl
    · rw [List.mem_singleton] at hv
      obtain ⟨p, -, e'⟩ := (f2 e.1).1 (List.mem_map_of_mem he)
      rw [hv, ← e']
      rfl
  have hdict : (dDict idSW idX nImg nChan imH imW nFeat fH fW).length ≤ nImg * nChan * imH * imW := by
    have hsub : (dDict idSW idX nImg nChan imH imW nFeat fH fW).map (·.1) ⊆ (allIndices [nImg, nChan, imH, imW]).map (uniCell idX [nImg, nChan, imH, imW] 2) := by
      intro v hv
      obtain ⟨p, hp, rfl⟩ := (f2 v).1 hv
      refine List.mem_map_of_mem ((mem_allIndices _ _).2 ?_)
      obtain ⟨h1, h2, h3, h4, h5, h6, h7⟩ := mem_places.1 hp
      have hh := hs.2.2.2.2.1
      have hw := hs.2.2.2.2.2.2.1
      simp [h1, h2]; omega
    have := (f1.subperm hsub).length_le
    have hl := congrArg List.length (allIndices_map_rowMajor [nImg, nChan, imH, imW])
    rw [List.length_map, List.length_range] at hl
    rw [List.length_map, List.length_map, hl] at this
    simpa [Nat.mul_assoc] using this
  have hn : v.n = 2 := by
    obtain ⟨vs, hvs, hv⟩ := he
    rw [List.map_append] at hvs
    have hm := List.mem_of_getElem? hvs
    have hv := List.mem_of_getElem? hv
    rcases List.mem_append.1 hm with hm | hm
    · rw [List.map_map] at hm
      obtain ⟨e, he, rfl⟩ := List.mem_map.1 hm
      exact htwo e he v hv
    · rw [List.map_map] at hm
      obtain ⟨p, hp, rfl⟩ := List.mem_map.1 hm
      simp only [Function.comp_apply, List.mem_cons, List.not_mem_nil, or_false] at hv
      rcases hv with rfl | rfl | rfl <;> rfl
  rw [hn]
  rw [List.map_append, List.map_append, List.sum_append, List.map_map, List.map_map, List.map_map, List.map_map]
  have e1 : ((dDict idSW idX nImg nChan imH imW nFeat fH fW).map ((fun vs => (vs.map (·.n)).sum) ∘ SFac.scope ∘ fun p =>
      (⟨p.2 ++ [p.1], orRows ((p.2 ++ [p.1]).length - 1)⟩ : SFac α))).sum =
      2 * (dPlaces nImg nChan imH imW nFeat fH fW).length + 2 * (dDict idSW idX nImg nChan imH imW nFeat fH fW).length := by
    rw [List.map_congr_left (g := fun e => 2 * e.2.length + 2)]
    · rw [← ftot]
      generalize dDict idSW idX nImg nChan imH imW nFeat fH fW = l
      induction l with
      | nil => rfl
      | cons e l ih => simp only [List.map_cons, List.sum_cons, List.length_cons, ih]; omega
    · intro e he
      show ((e.2 ++ [e.1]).map (·.n)).sum = _
      rw [List.map_congr_left (g := fun _ => 2) (htwo e he)]
      simp
      omega
  have e2 : ((dPlaces nImg nChan imH imW nFeat fH fW).map ((fun vs => (vs.map (·.n)).sum) ∘ SFac.scope ∘ fun p =>
      (⟨[dS idS nImg imH imW nFeat fH fW p, dW idW nChan nFeat fH fW p, dSW idSW nImg nChan imH imW nFeat fH fW p], andRows 2⟩ : SFac α))).sum =
      6 * (dPlaces nImg nChan imH imW nFeat fH fW).length := by
    rw [List.map_congr_left (g := fun _ => 6)]
    · simp [Nat.mul_comm]
    · intro p _
      rfl
  refine le_trans (Nat.add_le_add_right (Nat.add_le_add e1.le e2.le) 2) ?_
  rw [hplaces]
  omega

end

end PGMax
