import Verif.Lemmas.DeconvSetup

/-! Helper lemmas: what is decoded in the deconvolution program. -/

namespace PGMax

section
variable {κ α : Type} [Field α] [LinearOrder α]

theorem allIndices_length (shape : List Nat) : (allIndices shape).length = shape.prod := by
  have hl := congrArg List.length (allIndices_map_rowMajor shape)
  rwa [List.length_map, List.length_range] at hl

theorem decodes_cells [IsStrictOrderedRing α] [DecidableEq κ] {id : Nat} {shape : List Nat} {bel : Var → Nat → α} {o : List Nat → α} {r : GroupStates κ} (hr : (VGroup.arr (uniArr id shape 2) : VGroup κ).Decodes bel r)
    (ho : ∀ cs, InShape shape cs → bel (uniCell id shape 2 cs) 1 - bel (uniCell id shape 2 cs) 0 = o cs) : r = .arr ⟨shape, likelyCells shape o⟩ := by
  cases r with
  | dict => exact hr.elim
  | arr r =>
    obtain ⟨r1, r2, r3⟩ := hr
    obtain ⟨sh, dat⟩ := r
    have r1 : sh = shape := r1
    subst r1
    have hl : dat.length = sh.prod := r2
    congr 2
    apply List.ext_getElem?
    intro k
    rw [uniArr_variables] at r3
    by_cases hk : k < sh.prod
    · have hk' : k < (allIndices sh).length := by rw [allIndices_length]; exact hk
      obtain ⟨j, h1, h2⟩ := r3 k (uniCell id sh 2 (allIndices sh)[k]) (by rw [List.getElem?_map, List.getElem?_eq_getElem hk']; rfl)
      rw [h1, firstMax_two (ho _ ((mem_allIndices _ _).1 (List.getElem_mem hk'))) h2]
      unfold likelyCells
      rw [List.getElem?_map, List.getElem?_eq_getElem hk']
      rfl
    · rw [List.getElem?_eq_none (by omega), List.getElem?_eq_none (by unfold likelyCells; rw [List.length_map, allIndices_length]; omega)]

theorem uniArr_regular {id : Nat} {shape : List Nat} (h : 0 < shape.prod) :
    (VGroup.arr (uniArr id shape 2) : VGroup κ).Regular ∧ (VGroup.arr (uniArr id shape 2) : VGroup κ).Stated := by
  constructor
  · intro hsum
    simp only [uniArr, List.sum_replicate, List.length_replicate, smul_eq_mul] at hsum
    omega
  · refine ⟨fun m hm => ?_, 2, ?_, by omega⟩
    · have := (List.mem_replicate.1 hm).2
      omega
    · simp only [uniArr]
      exact List.mem_replicate.2 ⟨by omega, rfl⟩

variable {idW idS idSW idX idA idO nImg nChan imH imW nFeat fH fW : Nat} {s : DeconvSetup κ α} {garbage : Garbage} {st : FGState κ α}

theorem deconv_groups (hs : DeconvSizes nImg nChan imH imW nFeat fH fW) :
    (∀ g ∈ dVgs κ idW idS idSW idX nImg nChan imH imW nFeat fH fW, g.Regular) ∧ ∀ g ∈ dVgs κ idW idS idSW idX nImg nChan imH imW nFeat fH fW, g.Stated := by
  obtain ⟨z1, z2, z3, z4, z5, z6, z7, z8⟩ := hs
  have pS : 0 < [nImg, nFeat, imH - fH + 1, imW - fW + 1].prod := by simp; omega
  have pW : 0 < [nChan, nFeat, fH, fW].prod := by simp; omega
  have pSW : 0 < [nImg, nChan, imH, imW, nFeat, fH, fW].prod := by simp; omega
  have pX : 0 < [nImg, nChan, imH, imW].prod := by simp; omega
  unfold dVgs
  simp only [List.mem_cons, List.not_mem_nil, or_false, forall_eq_or_imp, forall_eq]
  exact ⟨⟨(uniArr_regular pS).1, (uniArr_regular pW).1, (uniArr_regular pSW).1, (uniArr_regular pX).1⟩,
    (uniArr_regular pS).2, (uniArr_regular pW).2, (uniArr_regular pSW).2, (uniArr_regular pX).2⟩

variable [IsStrictOrderedRing α]

/-- What is decoded after `t` iterations. -/
theorem DeconvBuilt.decode [DecidableEq κ] (h : DeconvBuilt idW idS idSW idX idA idO nImg nChan imH imW nFeat fH fW s garbage st) (hi : DeconvIds idW idS idSW idX idA idO)
    (hs : DeconvSizes nImg nChan imH imW nFeat fH fW) {env : Env α}
    (hsize : env.wrapNeg = false ∨ 8 * (nImg * nChan * (imH - fH + 1) * (imW - fW + 1) * nFeat * fH * fW) + 2 * (nImg * nChan * imH * imW) + 2 ≤ 100000)
    {lS lW lX : α} {noiseS noiseW xGt : List α} {N : DeconvNet α} (hN : N = DeconvNet.ofLists nImg nChan imH imW nFeat fH fW lS lW lX noiseS noiseW xGt) {arrs : BPArrays α}
    (ha : DeconvInit idW idS idSW idX N st arrs) {d : α} (hd : 0 ≤ d ∧ d ≤ 1) (t : Nat) (hq : N.Quiet d t) :
    (s.bp.runBP env arrs t d).ftovMsgs.length = st.totalFactorNumStates ∧
    ∃ bs, s.bp.getBeliefs (s.bp.runBP env arrs t d) = .ok bs ∧ decodeMapStates bs = .ok [
      (.arr s.net.S, .arr ⟨[nImg, nFeat, imH - fH + 1, imW - fW + 1], N.statesS (N.run d t)⟩), (.arr s.net.W, .arr ⟨[nChan, nFeat, fH, fW], N.statesW (N.run d t)⟩),
      (.arr s.net.SW, .arr ⟨[nImg, nChan, imH, imW, nFeat, fH, fW], N.statesSW (N.run d t)⟩), (.arr s.net.X, .arr ⟨[nImg, nChan, imH, imW], N.statesX (N.run d t)⟩)] := by
  obtain ⟨state, hbp, -⟩ := h.bp
  obtain ⟨key, par, hG⟩ := deconv_graph hi hs lS lW lX noiseS noiseW xGt h.enum h.or h.and arrs.logPotentials
  rw [← hN] at hG
  have hEv := ha.ev
  have e7 : N.nImg = nImg ∧ N.nChan = nChan ∧ N.imH = imH ∧ N.imW = imW ∧ N.nFeat = nFeat ∧ N.fH = fH ∧ N.fW = fW := by subst hN; exact ⟨rfl, rfl, rfl, rfl, rfl, rfl, rfl⟩
  have er : N.rows = imH - fH + 1 ∧ N.cols = imW - fW + 1 := by subst hN; exact ⟨rfl, rfl⟩
  clear hN
  obtain ⟨e1, e2, e3, e4, e5, e6, e7⟩ := e7
  rw [e1, e2, e3, e4, e5, e6, e7] at hEv
  have hscopes : (graphOf (dVgs κ idW idS idSW idX nImg nChan imH imW nFeat fH fW) (dHist α idW idS idSW idX idA idO nImg nChan imH imW nFeat fH fW)).allScopes =
      (s.net.fg.factors arrs.logPotentials).map (·.scope) := by rw [h.fg, FactorGraph.factors_scopes]
  have hrest : ∀ g, (graphOf (dVgs κ idW idS idSW idX nImg nChan imH imW nFeat fH fW) (dHist α idW idS idSW idX idA idO nImg nChan imH imW nFeat fH fW)).restState g =
      if g < (dDict idSW idX nImg nChan imH imW nFeat fH fW).length then 0 else 1 := by
    intro g
    rw [h.fg]
    unfold FactorGraph.restState FactorGraph.scopesOf
    rw [h.enum, h.or]
    simp [dOr]
  have h0 : ∀ f i s, readMsgs (graphOf (dVgs κ idW idS idSW idX nImg nChan imH imW nFeat fH fW)
      (dHist α idW idS idSW idX idA idO nImg nChan imH imW nFeat fH fW)).allScopes arrs.ftovMsgs f i s = 0 := by
    intro f i s
    rw [ha.msgs]
    unfold readMsgs
    rw [List.getD, List.getElem?_replicate]
    split <;> rfl
  have hrun := fun t => hG.run hEv h0 d t
  obtain ⟨r1, r2⟩ := h.compiled.run_logical hbp env (h.segFits hs hsize) (by rw [h.fg]; simp [FactorGraph.tables, h.enum]) arrs t d hd (by rw [ha.pots]) ha.len (by rw [ha.msgs]; simp)
    (fun f i v he => by
      refine ⟨0, ?_, by rw [h0]; norm_num⟩
      rw [hscopes] at he
      rcases hG.edge_cases he with ⟨-, p, -, -, rfl⟩ | ⟨-, -, rfl⟩ | ⟨p, -, -, ⟨-, rfl⟩ | ⟨-, rfl⟩ | ⟨-, rfl⟩⟩ <;> exact Nat.zero_lt_two)
    (fun t' ht' => by
      have := hrun t'
      rw [h.fg] at this hscopes hrest ⊢
      exact hG.parentsOpen hEv hscopes hrest this (N.run_toSW d t') (hq t' ht'))
  refine ⟨r1, ?_⟩
  have hre : (s.bp.runBP env arrs t d).evidence = arrs.evidence := runBP_evidence ..
  obtain ⟨bs, rs, g1, g2, g3, g4⟩ := C35_partial h.compiled hbp (s.bp.runBP env arrs t d) r1 (by rw [hre]; exact ha.len) (deconv_groups hs).1 (deconv_groups hs).2
  refine ⟨bs, g1, ?_⟩
  rw [g2]
  rw [hre] at g4
  have hM := hrun t
  have hfacs : (graphOf (dVgs κ idW idS idSW idX nImg nChan imH imW nFeat fH fW) (dHist α idW idS idSW idX idA idO nImg nChan imH imW nFeat fH fW)).factors arrs.logPotentials =
      s.net.fg.factors arrs.logPotentials := by rw [h.fg]
  rw [hfacs] at r2
  generalize readMsgs (graphOf (dVgs κ idW idS idSW idX nImg nChan imH imW nFeat fH fW) (dHist α idW idS idSW idX idA idO nImg nChan imH imW nFeat fH fW)).allScopes
    (s.bp.runBP env arrs t d).ftovMsgs = R at r2 g4
  generalize tbRun (s.net.fg.factors arrs.logPotentials) (readEv st.varsToStarts arrs.evidence) d t (readMsgs (graphOf (dVgs κ idW idS idSW idX nImg nChan imH imW nFeat fH fW)
    (dHist α idW idS idSW idX idA idO nImg nChan imH imW nFeat fH fW)).allScopes arrs.ftovMsgs) = M at r2 hM
  rw [hscopes] at r2 g4
  generalize readEv st.varsToStarts arrs.evidence = ev at hEv g4
  generalize N.run d t = D at hM
  have hbel : ∀ v : Var, v.n = 2 → beliefOf ((s.net.fg.factors arrs.logPotentials).map (·.scope)) ev R v 1 - beliefOf ((s.net.fg.factors arrs.logPotentials).map (·.scope)) ev R v 0 =
      beliefOf ((s.net.fg.factors arrs.logPotentials).map (·.scope)) ev M v 1 - beliefOf ((s.net.fg.factors arrs.logPotentials).map (·.scope)) ev M v 0 := by
    intro v hv
    rw [beliefOf_agree r2 ev (s := 1) (by omega), beliefOf_agree r2 ev (s := 0) (by omega)]
  have bS : ∀ cs, InShape [nImg, nFeat, imH - fH + 1, imW - fW + 1] cs → beliefOf ((s.net.fg.factors arrs.logPotentials).map (·.scope)) ev R
        (uniCell idS [nImg, nFeat, imH - fH + 1, imW - fW + 1] 2 cs) 1 -
      beliefOf ((s.net.fg.factors arrs.logPotentials).map (·.scope)) ev R (uniCell idS [nImg, nFeat, imH - fH + 1, imW - fW + 1] 2 cs) 0 =
      N.oddsS D (cs.getD 0 0) (cs.getD 1 0) (cs.getD 2 0) (cs.getD 3 0) := by
    intro cs hcs
    have hl := hcs.length_eq
    match cs, hl with
    | [i, f, a, b], _ =>
      rw [hbel _ rfl]
      have hcs' : InShape [N.nImg, N.nFeat, N.rows, N.cols] [i, f, a, b] := by rw [e1, e5, er.1, er.2]; exact hcs
      exact hG.belief_S hM ev hcs' (hEv.s _ hcs')
  have bW : ∀ cs, InShape [nChan, nFeat, fH, fW] cs → beliefOf ((s.net.fg.factors arrs.logPotentials).map (·.scope)) ev R (uniCell idW [nChan, nFeat, fH, fW] 2 cs) 1 -
      beliefOf ((s.net.fg.factors arrs.logPotentials).map (·.scope)) ev R (uniCell idW [nChan, nFeat, fH, fW] 2 cs) 0 =
      N.oddsW D (cs.getD 0 0) (cs.getD 1 0) (cs.getD 2 0) (cs.getD 3 0) := by
    intro cs hcs
    have hl := hcs.length_eq
    match cs, hl with
    | [c, f, u, w], _ =>
      rw [hbel _ rfl]
      have hcs' : InShape [N.nChan, N.nFeat, N.fH, N.fW] [c, f, u, w] := by rw [e2, e5, e6, e7]; exact hcs
      exact hG.belief_W hM ev hcs' (hEv.w _ hcs')
  have bSW : ∀ cs, InShape [nImg, nChan, imH, imW, nFeat, fH, fW] cs → beliefOf ((s.net.fg.factors arrs.logPotentials).map (·.scope)) ev R
        (uniCell idSW [nImg, nChan, imH, imW, nFeat, fH, fW] 2 cs) 1 -
      beliefOf ((s.net.fg.factors arrs.logPotentials).map (·.scope)) ev R (uniCell idSW [nImg, nChan, imH, imW, nFeat, fH, fW] 2 cs) 0 =
      N.oddsSW D (cs.getD 0 0) (cs.getD 1 0) (cs.getD 2 0) (cs.getD 3 0) (cs.getD 4 0) (cs.getD 5 0) (cs.getD 6 0) := by
    intro cs hcs
    have hl := hcs.length_eq
    match cs, hl with
    | [i, c, y, z, f, u, w], _ =>
      rw [hbel _ rfl]
      have hcs' : InShape [N.nImg, N.nChan, N.imH, N.imW, N.nFeat, N.fH, N.fW] [i, c, y, z, f, u, w] := by rw [e1, e2, e3, e4, e5, e6, e7]; exact hcs
      show _ = N.oddsSW D i c y z f u w
      unfold DeconvNet.oddsSW
      split
      · rename_i hc
        have hp : (⟨i, c, y - u, z - w, f, u, w⟩ : Place) ∈ dPlaces nImg nChan imH imW nFeat fH fW := by
          rw [hG.mem]
          simp only [InShape, List.forall₂_cons, List.Forall₂.nil, and_true] at hcs'
          dsimp only
          refine ⟨hcs'.1, hcs'.2.1, by omega, by omega, hcs'.2.2.2.2.1, hcs'.2.2.2.2.2.1, hcs'.2.2.2.2.2.2⟩
        have hsp : (⟨i, c, y - u, z - w, f, u, w⟩ : Place).spot = [i, c, y, z, f, u, w] := by
          unfold Place.spot
          dsimp only
          rw [show u + (y - u) = y by omega, show w + (z - w) = z by omega]
        rw [← hsp]
        exact hG.belief_SW hM ev hp (hEv.sw _ (by rw [hsp]; exact hcs'))
      · rename_i hc
        refine hG.belief_SW_none ev hcs' ?_ (hEv.sw _ hcs')
        intro p hp e
        have hp := (hG.mem p).1 hp
        simp only [Place.spot, List.cons.injEq, and_true] at e
        obtain ⟨x1, x2, x3, x4, x5, x6, x7⟩ := e
        exact hc ⟨by omega, by omega, by omega, by omega⟩
  have bX : ∀ cs, InShape [nImg, nChan, imH, imW] cs → beliefOf ((s.net.fg.factors arrs.logPotentials).map (·.scope)) ev R (uniCell idX [nImg, nChan, imH, imW] 2 cs) 1 -
      beliefOf ((s.net.fg.factors arrs.logPotentials).map (·.scope)) ev R (uniCell idX [nImg, nChan, imH, imW] 2 cs) 0 =
      N.oddsX D (cs.getD 0 0) (cs.getD 1 0) (cs.getD 2 0) (cs.getD 3 0) := by
    intro cs hcs
    have hl := hcs.length_eq
    match cs, hl with
    | [i, c, y, z], _ =>
      rw [hbel _ rfl]
      have hcs' : InShape [N.nImg, N.nChan, N.imH, N.imW] [i, c, y, z] := by rw [e1, e2, e3, e4]; exact hcs
      obtain ⟨z1, z2, z3, z4, z5, z6, z7, z8⟩ := hs
      have hcs2 := hcs
      simp only [InShape, List.forall₂_cons, List.Forall₂.nil, and_true] at hcs2
      have hp : (⟨i, c, min y (imH - fH), min z (imW - fW), 0, y - min y (imH - fH), z - min z (imW - fW)⟩ : Place) ∈ dPlaces nImg nChan imH imW nFeat fH fW := by
        rw [hG.mem, e1, e2, e5, e6, e7, er.1, er.2]
        dsimp only
        refine ⟨hcs2.1, hcs2.2.1, by omega, by omega, z3, by omega, by omega⟩
      obtain ⟨g, hg, hk⟩ := hG.keyEx _ hp
      have hk : key g = [i, c, y, z] := by
        rw [hk]
        unfold Place.pixel
        dsimp only
        rw [show y - min y (imH - fH) + min y (imH - fH) = y by omega, show z - min z (imW - fW) + min z (imW - fW) = z by omega]
      rw [← hk] at hcs' ⊢
      have := hG.belief_X hM ev hg (hEv.x _ hcs')
      rw [this, hk]
      rfl
  match rs, g3, g4 with
  | [], g3, _ => simp [dVgs] at g3
  | [_], g3, _ => simp [dVgs] at g3
  | [_, _], g3, _ => simp [dVgs] at g3
  | [_, _, _], g3, _ => simp [dVgs] at g3
  | _ :: _ :: _ :: _ :: _ :: _, g3, _ => simp [dVgs] at g3
  | [(a1, b1), (a2, b2), (a3, b3), (a4, b4)], g3, g4 =>
    simp only [dVgs, List.map_cons, List.map_nil, List.cons.injEq, and_true] at g3
    obtain ⟨rfl, rfl, rfl, rfl⟩ := g3
    simp only [List.mem_cons, List.not_mem_nil, or_false, forall_eq_or_imp, forall_eq] at g4
    obtain ⟨k1, k2, k3, k4⟩ := g4
    rw [decodes_cells k1 bS, decodes_cells k2 bW, decodes_cells k3 bSW, decodes_cells k4 bX, h.net]
    unfold DeconvNet.statesS DeconvNet.statesW DeconvNet.statesSW DeconvNet.statesX
    rw [e1, e2, e3, e4, e5, e6, e7, er.1, er.2]

end

end PGMax
