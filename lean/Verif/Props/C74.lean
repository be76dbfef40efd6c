import Verif.Model.ExamplesRun
import Verif.Lemmas.Writes
import Verif.Props.C43
import Verif.Props.C68

/-! # C74: the evidence of the binary deconvolution program -/

namespace PGMax

section
variable {κ α : Type}

theorem setColumn_length [Zero α] (s : Nat) (l : List α) : (setColumn s l).length = l.length * 2 := by
  unfold setColumn
  induction l with
  | nil => rfl
  | cons a l ih => rw [List.flatMap_cons, List.length_append, ih]; split <;> simp <;> omega

theorem setColumn_getElem? [Zero α] (s : Nat) (hs : s < 2) (l : List α) (i t : Nat) (ht : t < 2) (hi : i < l.length) :
    (setColumn s l)[i * 2 + t]? = some (if t = s then l.getD i 0 else 0) := by
  unfold setColumn
  induction l generalizing i with
  | nil => simp at hi
  | cons a l ih =>
    rw [List.flatMap_cons]
    cases i with
    | zero =>
      have h0 : t = 0 ∨ t = 1 := by omega
      have : s = 0 ∨ s = 1 := by omega
      rcases h0 with rfl | rfl <;> rcases this with rfl | rfl <;> simp
    | succ i =>
      have hl : (if s = 0 then [a, 0] else [0, a]).length = 2 := by split <;> rfl
      rw [List.getElem?_append_right (by rw [hl]; omega), hl, show (i + 1) * 2 + t - 2 = i * 2 + t by omega, ih i (by simpa using hi)]
      simp

theorem addColumn_getD [Ring α] (s : Nat) (hs : s < 2) (l noise : List α) (hn : noise.length = l.length * 2) (i t : Nat) (ht : t < 2) (hi : i < l.length) :
    (List.zipWith (· + ·) (setColumn s l) noise).getD (i * 2 + t) 0 = (if t = s then l.getD i 0 else 0) + noise.getD (i * 2 + t) 0 := by
  have h1 := setColumn_getElem? s hs l i t ht hi
  have h2 : noise[i * 2 + t]? = some (noise.getD (i * 2 + t) 0) := by
    rw [List.getD, List.getElem?_eq_getElem (by omega), Option.getD_some]
  rw [List.getD, List.getElem?_zipWith, h1, h2]
  rfl

theorem sum_map_cells [AddCommMonoid α] (shape : List Nat) (f g : List Nat → α) (h : ∀ cs, List.Forall₂ (fun c d => c < d) cs shape → f cs = g cs) :
    ((allIndices shape).map f).sum = ((allIndices shape).map g).sum := by
  congr 1
  exact List.map_congr_left fun cs hcs => h cs ((mem_allIndices shape cs).1 hcs)

theorem sum_ite_countP [Ring α] (l : List (List Nat)) (p : List Nat → Bool) (a : α) :
    (l.map (fun cs => if p cs then a else 0)).sum = a * (l.countP p : α) := by
  induction l with
  | nil => simp
  | cons c l ih =>
    rw [List.map_cons, List.sum_cons, ih, List.countP_cons]
    by_cases h : p c = true
    · rw [if_pos h, if_pos h]; push_cast; rw [mul_add, mul_one, add_comm]
    · rw [if_neg h, if_neg h]; simp

variable {idW idS idSW idX idA idO nImg nChan imH imW nFeat fH fW : Nat}

/-- **C74.** Whenever the deconvolution program builds its graph, `bp.init` accepts the evidence of the program, in every order of the dictionary.
`SW` is given an array without an axis for the states; the result is as if it had been given zeros.  The
initial messages are zero, and the score of a joint assignment is the noise at the states of `S` and `W`, plus `logit(pS)` for every variable of
`S` and `logit(pW)` for every variable of `W` that is on, plus `logit(pX)` for every pixel that differs from the image, up to a constant. -/
theorem C74 (hi : DeconvIds idW idS idSW idX idA idO) [Field α] [LinearOrder α] [DecidableEq κ] {r : Deconv κ α}
    (h : deconv idW idS idSW idX idA idO nImg nChan imH imW nFeat fH fW = .ok r) {garbage : Garbage} {st : FGState κ α}
    (hst : Compiled [.arr r.S, .arr r.W, .arr r.SW, .arr r.X] [.one r.andGroup, .one r.orGroup] garbage st) {S W SW X : List Nat → Var}
    (hS : IsArr r.S [nImg, nFeat, imH - fH + 1, imW - fW + 1] 2 S) (hW : IsArr r.W [nChan, nFeat, fH, fW] 2 W)
    (hSW : IsArr r.SW [nImg, nChan, imH, imW, nFeat, fH, fW] 2 SW) (hX : IsArr r.X [nImg, nChan, imH, imW] 2 X)
    {stateId : Nat} {T : α} {state : BPState α} {bp : BPFun κ α} (hstate : bpStateOf stateId st = .ok state) (hbp : BP.create st state T = .ok bp)
    (lS lW lX : α) (noiseS noiseW xGt : List α) (nS : noiseS.length = nImg * nFeat * (imH - fH + 1) * (imW - fW + 1) * 2)
    (nW : noiseW.length = nChan * nFeat * fH * fW * 2) (nX : xGt.length = nImg * nChan * imH * imW) (h01 : ∀ g ∈ xGt, g = 0 ∨ g = 1)
    (ups : List (EvidenceUpdate κ α)) (hups : ups.Perm (deconvUpdates r lS lW lX noiseS noiseW xGt)) :
    ∃ arrs, bp.update none none none (some ups) = .ok arrs ∧ arrs.logPotentials = st.logPotentials ∧
      arrs.ftovMsgs = List.replicate st.totalFactorNumStates 0 ∧
      (∀ cs ∈ allIndices [nImg, nChan, imH, imW, nFeat, fH, fW], ∀ s < 2, readEv st.varsToStarts arrs.evidence (SW cs) s = 0) ∧
      ∀ x ρ, Joint (graphVars [(.arr r.S : VGroup κ), .arr r.W, .arr r.SW, .arr r.X]) (r.fg.factors arrs.logPotentials) x ρ →
        jointScore (graphVars [(.arr r.S : VGroup κ), .arr r.W, .arr r.SW, .arr r.X]) (r.fg.factors arrs.logPotentials)
            (readEv st.varsToStarts arrs.evidence) x ρ =
          ((allIndices [nImg, nFeat, imH - fH + 1, imW - fW + 1]).map
            (fun cs => noiseS.getD (rowMajor [nImg, nFeat, imH - fH + 1, imW - fW + 1] cs * 2 + x (S cs)) 0)).sum +
          ((allIndices [nChan, nFeat, fH, fW]).map (fun cs => noiseW.getD (rowMajor [nChan, nFeat, fH, fW] cs * 2 + x (W cs)) 0)).sum +
          lS * ((allIndices [nImg, nFeat, imH - fH + 1, imW - fW + 1]).countP (fun cs => x (S cs) = 1) : α) +
          lW * ((allIndices [nChan, nFeat, fH, fW]).countP (fun cs => x (W cs) = 1) : α) +
          lX * ((allIndices [nImg, nChan, imH, imW]).countP (fun cs => xGt.getD (rowMajor [nImg, nChan, imH, imW] cs) 0 ≠ (x (X cs) : α)) : α) -
          lX * (xGt.countP (· = 0) : α) := by
  obtain ⟨hs, fg, st', rfl, hvg, hst', hg, hge, hgo, hga⟩ := deconv_built hi h garbage
  obtain ⟨S', W', SW', X', st'', -, -, -, -, hst'', -, -, hmod⟩ := C68_model hi h garbage
  obtain rfl : st'' = st := by rw [hst''.st_eq, hst.st_eq]
  clear hst''
  obtain ⟨b1, b2, -⟩ := BP_create_ok hbp
  have hval : state = ⟨⟨stateId, st''.logPotentials⟩, ⟨stateId, List.replicate st''.totalFactorNumStates 0⟩,
      ⟨stateId, List.replicate st''.numVarStates 0⟩⟩ := by
    simp [bpStateOf, LogPotentials.create, FToVMessages.create, Evidence.create, BPState.create, bind, Except.bind] at hstate
    exact hstate.symm
  subst hval
  obtain ⟨z1, z2, z3, z4, z5, z6, z7, z8⟩ := hs
  have pS : 0 < [nImg, nFeat, imH - fH + 1, imW - fW + 1].prod := by simp; omega
  have pW : 0 < [nChan, nFeat, fH, fW].prod := by simp; omega
  have pSW : 0 < [nImg, nChan, imH, imW, nFeat, fH, fW].prod := by simp; omega
  have pX : 0 < [nImg, nChan, imH, imW].prod := by simp; omega
  have hdisj : (dVgs κ idW idS idSW idX nImg nChan imH imW nFeat fH fW).Pairwise (fun a b => a.variables.Disjoint b.variables) :=
    (List.nodup_flatMap.1 hvg.nodup).2
  have hstart : ∀ g ∈ dVgs κ idW idS idSW idX nImg nChan imH imW nFeat fH fW, ∀ v ∈ g.variables, ∃ t, st''.varsToStarts v = some t := by
    intro g hg' v hv
    obtain ⟨i, hi'⟩ := List.mem_iff_getElem?.1 (List.mem_flatMap.2 ⟨g, hg', hv⟩)
    exact ⟨_, (hst.starts_iff v _).2 ⟨i, hi', rfl⟩⟩
  have nS' : noiseS.length = [nImg, nFeat, imH - fH + 1, imW - fW + 1].prod * 2 := by rw [nS]; simp [Nat.mul_assoc]
  have nW' : noiseW.length = [nChan, nFeat, fH, fW].prod * 2 := by rw [nW]; simp [Nat.mul_assoc]
  have nX' : xGt.length = [nImg, nChan, imH, imW].prod := by rw [nX]; simp [Nat.mul_assoc]
  -- the four entries, in the order of the program
  obtain ⟨e1, u1, l1, c1, o1⟩ := uniArr_evidence hst (List.replicate st''.numVarStates (0 : α)) (by simp) idS [nImg, nFeat, imH - fH + 1, imW - fW + 1] 2
    (by simp) pS (List.zipWith (· + ·) (setColumn 1 (List.replicate [nImg, nFeat, imH - fH + 1, imW - fW + 1].prod lS)) noiseS) (by
      rw [List.length_zipWith, setColumn_length, List.length_replicate, nS', Nat.min_self])
  obtain ⟨e2, u2, l2, c2, o2⟩ := uniArr_evidence hst e1 (by simp [l1]) idW [nChan, nFeat, fH, fW] 2
    (by simp) pW (List.zipWith (· + ·) (setColumn 1 (List.replicate [nChan, nFeat, fH, fW].prod lW)) noiseW) (by
      rw [List.length_zipWith, setColumn_length, List.length_replicate, nW', Nat.min_self])
  obtain ⟨e3, u3, l3, c3, o3⟩ := uniArr_evidence_short hst e2 (by simp [l1, l2]) idSW [nImg, nChan, imH, imW, nFeat, fH, fW] 2 (by omega)
    (by simp) pSW (List.replicate [nImg, nChan, imH, imW, nFeat, fH, fW].prod 0) (by simp)
  obtain ⟨e4, u4, l4, c4, o4⟩ := uniArr_evidence hst e3 (by simp [l1, l2, l3]) idX [nImg, nChan, imH, imW] 2
    (by simp) pX (List.zipWith (· + ·) (setColumn 0 (xGt.map (fun x => (2 * x - 1) * lX)))
      (List.replicate (setColumn 0 (xGt.map (fun x => (2 * x - 1) * lX))).length 0)) (by
      rw [List.length_zipWith, List.length_replicate, Nat.min_self, setColumn_length, List.length_map, nX'])
  have hall : updateEvidence st'' (List.replicate st''.numVarStates (0 : α)) (deconvUpdates
      (⟨uniArr idS [nImg, nFeat, imH - fH + 1, imW - fW + 1] 2, uniArr idW [nChan, nFeat, fH, fW] 2,
        uniArr idSW [nImg, nChan, imH, imW, nFeat, fH, fW] 2, uniArr idX [nImg, nChan, imH, imW] 2,
        dAnd idW idS idSW idA nImg nChan imH imW nFeat fH fW, dOr idSW idX idO nImg nChan imH imW nFeat fH fW, fg⟩ : Deconv κ α)
      lS lW lX noiseS noiseW xGt) = .ok e4 := by
    unfold updateEvidence deconvUpdates
    rw [List.foldlM_cons, show (uniArr idS [nImg, nFeat, imH - fH + 1, imW - fW + 1] 2).shape = [nImg, nFeat, imH - fH + 1, imW - fW + 1] from rfl,
      u1, py_ok_bind, List.foldlM_cons, show (uniArr idW [nChan, nFeat, fH, fW] 2).shape = [nChan, nFeat, fH, fW] from rfl, u2, py_ok_bind,
      List.foldlM_cons, show (uniArr idSW [nImg, nChan, imH, imW, nFeat, fH, fW] 2).shape = [nImg, nChan, imH, imW, nFeat, fH, fW] from rfl, u3,
      py_ok_bind, List.foldlM_cons, show (uniArr idX [nImg, nChan, imH, imW] 2).shape = [nImg, nChan, imH, imW] from rfl, u4, py_ok_bind]
    rfl
  have hev : updateEvidence st'' (List.replicate st''.numVarStates (0 : α)) ups = .ok e4 := by
    refine (C25_evidence_partial hst _ _ hups.symm ?_ ?_ _ (by simp) e4).1 hall
    · unfold deconvUpdates
      simpa [EvidenceUpdate.targets, VGroup.variables] using hdisj
    · intro u hu
      unfold deconvUpdates at hu
      simp only [List.mem_cons, List.not_mem_nil, or_false] at hu
      rcases hu with rfl | rfl | rfl | rfl
      · refine uniArr_evidence_ok hvg _ _ _ (by omega) (by simp) _ ?_
        simp only [NDArr.WF, List.length_zipWith, setColumn_length, List.length_replicate, nS']
        simp [uniArr, Nat.mul_assoc]
      · refine uniArr_evidence_ok hvg _ _ _ (by omega) (by simp) _ ?_
        simp only [NDArr.WF, List.length_zipWith, setColumn_length, List.length_replicate, nW']
        simp [uniArr, Nat.mul_assoc]
      · refine uniArr_evidence_ok hvg _ _ _ (by omega) (by simp) _ ?_
        simp [NDArr.WF, uniArr]
      · refine uniArr_evidence_ok hvg _ _ _ (by omega) (by simp) _ ?_
        simp only [NDArr.WF, List.length_zipWith, setColumn_length, List.length_replicate, List.length_map, nX']
        simp [uniArr, Nat.mul_assoc]
  simp only [dVgs, List.pairwise_cons, List.mem_cons, List.not_mem_nil, or_false, forall_eq_or_imp, forall_eq] at hdisj hstart
  obtain ⟨⟨d12, d13, d14⟩, ⟨d23, d24⟩, d34, -⟩ := hdisj
  obtain ⟨t1, t2, t3, t4⟩ := hstart
  -- the evidence of every variable
  have m1 : ∀ cs, List.Forall₂ (fun c d => c < d) cs [nImg, nFeat, imH - fH + 1, imW - fW + 1] →
      uniCell idS [nImg, nFeat, imH - fH + 1, imW - fW + 1] 2 cs ∈ (uniArr idS [nImg, nFeat, imH - fH + 1, imW - fW + 1] 2).variables :=
    fun cs hcs => (mem_uniArr _ _ _ _).2 ⟨cs, hcs, rfl⟩
  have m2 : ∀ cs, List.Forall₂ (fun c d => c < d) cs [nChan, nFeat, fH, fW] →
      uniCell idW [nChan, nFeat, fH, fW] 2 cs ∈ (uniArr idW [nChan, nFeat, fH, fW] 2).variables :=
    fun cs hcs => (mem_uniArr _ _ _ _).2 ⟨cs, hcs, rfl⟩
  have m3 : ∀ cs, List.Forall₂ (fun c d => c < d) cs [nImg, nChan, imH, imW, nFeat, fH, fW] →
      uniCell idSW [nImg, nChan, imH, imW, nFeat, fH, fW] 2 cs ∈ (uniArr idSW [nImg, nChan, imH, imW, nFeat, fH, fW] 2).variables :=
    fun cs hcs => (mem_uniArr _ _ _ _).2 ⟨cs, hcs, rfl⟩
  have hz : ∀ n i, (List.replicate n (0 : α)).getD i 0 = 0 := by
    intro n i
    rw [List.getD, List.getElem?_replicate]
    split <;> rfl
  have r1 : ∀ cs, List.Forall₂ (fun c d => c < d) cs [nImg, nFeat, imH - fH + 1, imW - fW + 1] → ∀ s < 2,
      readEv st''.varsToStarts e4 (uniCell idS [nImg, nFeat, imH - fH + 1, imW - fW + 1] 2 cs) s =
        (if s = 1 then lS else 0) + noiseS.getD (rowMajor [nImg, nFeat, imH - fH + 1, imW - fW + 1] cs * 2 + s) 0 := by
    intro cs hcs s hs
    obtain ⟨t, ht⟩ := t1 _ (m1 cs hcs)
    rw [o4 _ t ht (fun hc => d14 (m1 cs hcs) hc) s hs, o3 _ t ht (fun hc => d13 (m1 cs hcs) hc) s hs,
      o2 _ t ht (fun hc => d12 (m1 cs hcs) hc) s hs, c1 cs hcs s hs, addColumn_getD 1 (by omega) _ _ (by rw [nS', List.length_replicate]) _ s hs
        (by rw [List.length_replicate]; exact rowMajor_lt _ _ hcs)]
    rw [List.getD, List.getElem?_replicate, if_pos (rowMajor_lt _ _ hcs), Option.getD_some]
  have r2 : ∀ cs, List.Forall₂ (fun c d => c < d) cs [nChan, nFeat, fH, fW] → ∀ s < 2,
      readEv st''.varsToStarts e4 (uniCell idW [nChan, nFeat, fH, fW] 2 cs) s =
        (if s = 1 then lW else 0) + noiseW.getD (rowMajor [nChan, nFeat, fH, fW] cs * 2 + s) 0 := by
    intro cs hcs s hs
    obtain ⟨t, ht⟩ := t2 _ (m2 cs hcs)
    rw [o4 _ t ht (fun hc => d24 (m2 cs hcs) hc) s hs, o3 _ t ht (fun hc => d23 (m2 cs hcs) hc) s hs,
      c2 cs hcs s hs, addColumn_getD 1 (by omega) _ _ (by rw [nW', List.length_replicate]) _ s hs
        (by rw [List.length_replicate]; exact rowMajor_lt _ _ hcs)]
    rw [List.getD, List.getElem?_replicate, if_pos (rowMajor_lt _ _ hcs), Option.getD_some]
  have r3 : ∀ cs, List.Forall₂ (fun c d => c < d) cs [nImg, nChan, imH, imW, nFeat, fH, fW] → ∀ s < 2,
      readEv st''.varsToStarts e4 (uniCell idSW [nImg, nChan, imH, imW, nFeat, fH, fW] 2 cs) s = 0 := by
    intro cs hcs s hs
    obtain ⟨t, ht⟩ := t3 _ (m3 cs hcs)
    rw [o4 _ t ht (fun hc => d34 (m3 cs hcs) hc) s hs, c3 cs hcs s hs, o2 _ t ht (fun hc => d23 hc (m3 cs hcs)) s hs,
      o1 _ t ht (fun hc => d13 hc (m3 cs hcs)) s hs]
    unfold readEv
    rw [hz, hz, ite_self]
  have r4 : ∀ cs, List.Forall₂ (fun c d => c < d) cs [nImg, nChan, imH, imW] → ∀ s < 2,
      readEv st''.varsToStarts e4 (uniCell idX [nImg, nChan, imH, imW] 2 cs) s =
        if s = 0 then (2 * xGt.getD (rowMajor [nImg, nChan, imH, imW] cs) 0 - 1) * lX else 0 := by
    intro cs hcs s hs
    have hlt := rowMajor_lt _ _ hcs
    rw [c4 cs hcs s hs, addColumn_getD 0 (by omega) _ _ (by rw [List.length_replicate, setColumn_length]) _ s hs (by rw [List.length_map, nX']; exact hlt)]
    have h1 : (List.map (fun x => (2 * x - 1) * lX) xGt).getD (rowMajor [nImg, nChan, imH, imW] cs) 0 =
        (2 * xGt.getD (rowMajor [nImg, nChan, imH, imW] cs) 0 - 1) * lX := by
      rw [List.getD, List.getD, List.getElem?_map, List.getElem?_eq_getElem (by rw [nX']; exact hlt)]
      rfl
    rw [h1, hz, add_zero]
  have a1 := isArr_unique hS (isArr_uniArr idS _ 2 (by simp))
  have a2 := isArr_unique hW (isArr_uniArr idW _ 2 (by simp))
  have a3 := isArr_unique hSW (isArr_uniArr idSW _ 2 (by simp))
  have a4 := isArr_unique hX (isArr_uniArr idX _ 2 (by simp))
  refine ⟨⟨st''.logPotentials, List.replicate st''.totalFactorNumStates 0, e4⟩, ?_, rfl, rfl, ?_, ?_⟩
  · unfold BPFun.update
    simp only [b1, b2, hev]
    rfl
  · intro cs hcs s hs
    have hcs := (mem_allIndices _ _).1 hcs
    rw [a3 cs hcs]
    exact r3 cs hcs s hs
  · intro x ρ hρ
    have hx : ∀ v ∈ graphVars (dVgs κ idW idS idSW idX nImg nChan imH imW nFeat fH fW), x v < 2 := by
      intro v hv
      have h1 := hρ.states v hv
      simp only [graphVars, dVgs, List.mem_toFinset, List.flatMap_cons, List.flatMap_nil, List.mem_append, VGroup.variables, mem_uniArr, List.not_mem_nil,
        or_false] at hv
      rcases hv with ⟨cs, -, rfl⟩ | ⟨cs, -, rfl⟩ | ⟨cs, -, rfl⟩ | ⟨cs, -, rfl⟩ <;> exact h1
    have x1 : ∀ cs, List.Forall₂ (fun c d => c < d) cs [nImg, nFeat, imH - fH + 1, imW - fW + 1] →
        x (uniCell idS [nImg, nFeat, imH - fH + 1, imW - fW + 1] 2 cs) < 2 := fun cs hcs =>
      hx _ (List.mem_toFinset.2 (List.mem_flatMap.2 ⟨.arr _, by simp, m1 cs hcs⟩))
    have x2 : ∀ cs, List.Forall₂ (fun c d => c < d) cs [nChan, nFeat, fH, fW] → x (uniCell idW [nChan, nFeat, fH, fW] 2 cs) < 2 := fun cs hcs =>
      hx _ (List.mem_toFinset.2 (List.mem_flatMap.2 ⟨.arr _, by simp, m2 cs hcs⟩))
    have x3 : ∀ cs, List.Forall₂ (fun c d => c < d) cs [nImg, nChan, imH, imW, nFeat, fH, fW] →
        x (uniCell idSW [nImg, nChan, imH, imW, nFeat, fH, fW] 2 cs) < 2 := fun cs hcs =>
      hx _ (List.mem_toFinset.2 (List.mem_flatMap.2 ⟨.arr _, by simp, m3 cs hcs⟩))
    have x4 : ∀ cs, List.Forall₂ (fun c d => c < d) cs [nImg, nChan, imH, imW] → x (uniCell idX [nImg, nChan, imH, imW] 2 cs) < 2 := fun cs hcs =>
      hx _ (List.mem_toFinset.2 (List.mem_flatMap.2 ⟨.arr _, by simp, (mem_uniArr _ _ _ _).2 ⟨cs, hcs, rfl⟩⟩))
    rw [(hmod x hx).2 _ ρ hρ, graphVars_sum hvg]
    simp only [List.map_cons, List.map_nil, List.sum_cons, List.sum_nil, add_zero]
    have s1 : ((VGroup.variables (.arr (uniArr idS [nImg, nFeat, imH - fH + 1, imW - fW + 1] 2) : VGroup κ)).map
        (fun v => readEv st''.varsToStarts e4 v (x v))).sum =
        lS * ((allIndices [nImg, nFeat, imH - fH + 1, imW - fW + 1]).countP (fun cs => x (S cs) = 1) : α) +
        ((allIndices [nImg, nFeat, imH - fH + 1, imW - fW + 1]).map
            (fun cs => noiseS.getD (rowMajor [nImg, nFeat, imH - fH + 1, imW - fW + 1] cs * 2 + x (S cs)) 0)).sum := by
      show ((uniArr idS [nImg, nFeat, imH - fH + 1, imW - fW + 1] 2).variables.map _).sum = _
      rw [uniArr_variables, List.map_map, ← sum_ite_countP, ← List.sum_map_add]
      refine sum_map_cells _ _ _ fun cs hcs => ?_
      rw [Function.comp_apply, r1 cs hcs _ (x1 cs hcs), a1 cs hcs]
      simp
    have s2 : ((VGroup.variables (.arr (uniArr idW [nChan, nFeat, fH, fW] 2) : VGroup κ)).map
        (fun v => readEv st''.varsToStarts e4 v (x v))).sum =
        lW * ((allIndices [nChan, nFeat, fH, fW]).countP (fun cs => x (W cs) = 1) : α) +
        ((allIndices [nChan, nFeat, fH, fW]).map (fun cs => noiseW.getD (rowMajor [nChan, nFeat, fH, fW] cs * 2 + x (W cs)) 0)).sum := by
      show ((uniArr idW [nChan, nFeat, fH, fW] 2).variables.map _).sum = _
      rw [uniArr_variables, List.map_map, ← sum_ite_countP, ← List.sum_map_add]
      refine sum_map_cells _ _ _ fun cs hcs => ?_
      rw [Function.comp_apply, r2 cs hcs _ (x2 cs hcs), a2 cs hcs]
      simp
    have s3 : ((VGroup.variables (.arr (uniArr idSW [nImg, nChan, imH, imW, nFeat, fH, fW] 2) : VGroup κ)).map
        (fun v => readEv st''.varsToStarts e4 v (x v))).sum = 0 := by
      show ((uniArr idSW [nImg, nChan, imH, imW, nFeat, fH, fW] 2).variables.map _).sum = _
      rw [uniArr_variables, List.map_map, sum_map_cells _ _ (fun _ => (0 : α)) fun cs hcs => ?_]
      · simp
      · rw [Function.comp_apply, r3 cs hcs _ (x3 cs hcs)]
    have s4 : ((VGroup.variables (.arr (uniArr idX [nImg, nChan, imH, imW] 2) : VGroup κ)).map
        (fun v => readEv st''.varsToStarts e4 v (x v))).sum + lX * (xGt.countP (· = 0) : α) =
        lX * ((allIndices [nImg, nChan, imH, imW]).countP
          (fun cs => xGt.getD (rowMajor [nImg, nChan, imH, imW] cs) 0 ≠ (x (X cs) : α)) : α) := by
      have hc : xGt.countP (· = 0) = (allIndices [nImg, nChan, imH, imW]).countP (fun cs => xGt.getD (rowMajor [nImg, nChan, imH, imW] cs) 0 = 0) := by
        conv_lhs => rw [list_eq_range xGt 0]
        rw [nX', ← allIndices_map_rowMajor, List.map_map, List.countP_map]
        rfl
      show ((uniArr idX [nImg, nChan, imH, imW] 2).variables.map _).sum + _ = _
      rw [uniArr_variables, List.map_map, hc, ← sum_ite_countP, ← sum_ite_countP, ← List.sum_map_add]
      refine sum_map_cells _ _ _ fun cs hcs => ?_
      have hlt := rowMajor_lt _ _ hcs
      have hmem : xGt.getD (rowMajor [nImg, nChan, imH, imW] cs) 0 ∈ xGt := by
        rw [List.getD, List.getElem?_eq_getElem (by rw [nX']; exact hlt), Option.getD_some]
        exact List.getElem_mem _
      rw [Function.comp_apply, r4 cs hcs _ (x4 cs hcs), a4 cs hcs]
      have hb : x (uniCell idX [nImg, nChan, imH, imW] 2 cs) = 0 ∨ x (uniCell idX [nImg, nChan, imH, imW] 2 cs) = 1 := by
        have := x4 cs hcs
        omega
      rcases hb with hb | hb <;> rcases h01 _ hmem with h0 | h0 <;> rw [hb, h0] <;> simp
      ring
    rw [s1, s2, s3, eq_sub_iff_add_eq, ← s4]
    ring

/-- **C74 (shape).** What an array of the shape of `SW`, without an axis for the states, does to the evidence of the graph in general: its values are
taken for the first half of the states of `SW`, two values for a variable, and the rest of the evidence stays.  The program's array is
harmless because its values are zero. -/
theorem C74_shape (hi : DeconvIds idW idS idSW idX idA idO) [Zero α] [DecidableEq κ] {r : Deconv κ α}
    (h : deconv idW idS idSW idX idA idO nImg nChan imH imW nFeat fH fW = .ok r) {garbage : Garbage} {st : FGState κ α}
    (hst : Compiled [.arr r.S, .arr r.W, .arr r.SW, .arr r.X] [.one r.andGroup, .one r.orGroup] garbage st) {SW : List Nat → Var}
    (hSW : IsArr r.SW [nImg, nChan, imH, imW, nFeat, fH, fW] 2 SW) (ev : List α) (hev : ev.length = st.numVarStates) (E : List α)
    (hE : E.length = [nImg, nChan, imH, imW, nFeat, fH, fW].prod) :
    ∃ ev', updateEvidence st ev [.group (.arr r.SW) (.arr ⟨[nImg, nChan, imH, imW, nFeat, fH, fW], E⟩)] = .ok ev' ∧
      ∀ cs ∈ allIndices [nImg, nChan, imH, imW, nFeat, fH, fW], ∀ s < 2, readEv st.varsToStarts ev' (SW cs) s =
        if rowMajor [nImg, nChan, imH, imW, nFeat, fH, fW] cs * 2 + s < E.length then E.getD (rowMajor [nImg, nChan, imH, imW, nFeat, fH, fW] cs * 2 + s) 0
        else readEv st.varsToStarts ev (SW cs) s := by
  obtain ⟨⟨z1, z2, z3, z4, z5, z6, z7, z8⟩, fg, st', rfl, -⟩ := deconv_built hi h garbage
  obtain ⟨e, u1, -, u2, -⟩ := uniArr_evidence_short hst ev hev idSW [nImg, nChan, imH, imW, nFeat, fH, fW] 2 (by omega) (by simp) (by simp; omega) E hE
  refine ⟨e, ?_, fun cs hcs s hs => ?_⟩
  · unfold updateEvidence
    rw [List.foldlM_cons, u1]
    rfl
  · have hcs := (mem_allIndices _ _).1 hcs
    rw [isArr_unique hSW (isArr_uniArr idSW _ 2 (by simp)) cs hcs, hE]
    exact u2 cs hcs s hs

/-- Non-vacuity of C74: two images of 6 by 7 pixels and 3 features of 2 by 3 pixels. -/
example : ∃ (r : Deconv Nat ℚ) (st : FGState Nat ℚ) (state : BPState ℚ) (bp : BPFun Nat ℚ), deconv 1 2 3 4 5 6 2 1 6 7 3 2 3 = .ok r ∧
    Compiled [.arr r.S, .arr r.W, .arr r.SW, .arr r.X] [.one r.andGroup, .one r.orGroup] (fun _ _ => 0) st ∧ bpStateOf 7 st = .ok state ∧
    BP.create st state 0 = .ok bp ∧ ∃ arrs, bp.update none none none
      (some (deconvUpdates r (-3) (-2) (-5) (List.replicate 300 1) (List.replicate 36 0) (List.replicate 84 1))) = .ok arrs := by
  have hi : DeconvIds 1 2 3 4 5 6 := ⟨by decide, by decide⟩
  obtain ⟨r, h⟩ := (C68_sizes (κ := Nat) (α := ℚ) hi 2 1 6 7 3 2 3).1.2 (by unfold DeconvSizes; omega)
  obtain ⟨S, W, SW, X, st, hS, hW, hSW, hX, hst, -, hbp, -⟩ := C68_model hi h (fun _ _ => 0)
  have hs : bpStateOf 7 st = .ok (⟨⟨7, st.logPotentials⟩, ⟨7, List.replicate st.totalFactorNumStates 0⟩, ⟨7, List.replicate st.numVarStates 0⟩⟩ : BPState ℚ) := by
    simp [bpStateOf, LogPotentials.create, FToVMessages.create, Evidence.create, BPState.create, bind, Except.bind]
  obtain ⟨bp, hbp⟩ := hbp (⟨⟨7, st.logPotentials⟩, ⟨7, List.replicate st.totalFactorNumStates 0⟩, ⟨7, List.replicate st.numVarStates 0⟩⟩ : BPState ℚ) 0
  obtain ⟨arrs, ha, -⟩ := C74 hi h hst hS hW hSW hX hs hbp (-3) (-2) (-5) (List.replicate 300 1) (List.replicate 36 0) (List.replicate 84 1)
    (by rw [List.length_replicate]) (by rw [List.length_replicate]) (by rw [List.length_replicate])
    (fun g hg => .inr (List.eq_of_mem_replicate hg)) _ (List.Perm.refl _)
  exact ⟨r, st, _, bp, h, hst, hs, hbp, arrs, ha⟩

end
end PGMax
