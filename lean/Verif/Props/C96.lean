import Verif.Lemmas.DeconvSym
import Verif.Props.C95

/-! # C96: symmetries of the deconvolution program -/

namespace PGMax

variable {κ α : Type} [Field α] [LinearOrder α] [IsStrictOrderedRing α] [DecidableEq κ] {idW idS idSW idX idA idO nImg nChan imH imW nFeat fH fW : Nat}

/-- **C96.** If the noise and the images of a second run are those of the first with new numbers (for images, channels, features, rows and columns), then so are all decoded arrays. -/
theorem C96 (hi : DeconvIds idW idS idSW idX idA idO) (hs : DeconvSizes nImg nChan imH imW nFeat fH fW) (garbage : Garbage) (stateId : Nat) {env : Env α}
    (hsize : env.wrapNeg = false ∨ 8 * (nImg * nChan * (imH - fH + 1) * (imW - fW + 1) * nFeat * fH * fW) + 2 * (nImg * nChan * imH * imW) + 2 ≤ 100000) :
    ∃ s : DeconvSetup κ α, deconvSetup κ α idW idS idSW idX idA idO garbage stateId nImg nChan imH imW nFeat fH fW = .ok s ∧
      ∀ (σ : DeconvSym) (lS lW lX : α) (noiseS noiseW xGt noiseS' noiseW' xGt' : List α) (N N' : DeconvNet α),
        N = DeconvNet.ofLists nImg nChan imH imW nFeat fH fW lS lW lX noiseS noiseW xGt → N' = DeconvNet.ofLists nImg nChan imH imW nFeat fH fW lS lW lX noiseS' noiseW' xGt' →
        noiseS.length = nImg * nFeat * (imH - fH + 1) * (imW - fW + 1) * 2 → noiseW.length = nChan * nFeat * fH * fW * 2 → xGt.length = nImg * nChan * imH * imW →
        noiseS'.length = nImg * nFeat * (imH - fH + 1) * (imW - fW + 1) * 2 → noiseW'.length = nChan * nFeat * fH * fW * 2 → xGt'.length = nImg * nChan * imH * imW →
        σ.Maps N N' → N.Quiet (1 / 2) 100 →
        ∃ S W SW X S' W' SW' X' : List Nat,
          deconvSample env s lS lW lX noiseS noiseW xGt = .ok [(.arr s.net.S, .arr ⟨[nImg, nFeat, imH - fH + 1, imW - fW + 1], S⟩), (.arr s.net.W, .arr ⟨[nChan, nFeat, fH, fW], W⟩),
            (.arr s.net.SW, .arr ⟨[nImg, nChan, imH, imW, nFeat, fH, fW], SW⟩), (.arr s.net.X, .arr ⟨[nImg, nChan, imH, imW], X⟩)] ∧
          deconvSample env s lS lW lX noiseS' noiseW' xGt' = .ok [(.arr s.net.S, .arr ⟨[nImg, nFeat, imH - fH + 1, imW - fW + 1], S'⟩), (.arr s.net.W, .arr ⟨[nChan, nFeat, fH, fW], W'⟩),
            (.arr s.net.SW, .arr ⟨[nImg, nChan, imH, imW, nFeat, fH, fW], SW'⟩), (.arr s.net.X, .arr ⟨[nImg, nChan, imH, imW], X'⟩)] ∧
          (∀ i < nImg, ∀ f < nFeat, ∀ a < imH - fH + 1, ∀ b < imW - fW + 1, S'[rowMajor [nImg, nFeat, imH - fH + 1, imW - fW + 1] [σ.img i, σ.feat f, σ.sh a, σ.sw b]]? =
            S[rowMajor [nImg, nFeat, imH - fH + 1, imW - fW + 1] [i, f, a, b]]?) ∧
          (∀ c < nChan, ∀ f < nFeat, ∀ u < fH, ∀ w < fW, W'[rowMajor [nChan, nFeat, fH, fW] [σ.chan c, σ.feat f, σ.fh u, σ.fw w]]? = W[rowMajor [nChan, nFeat, fH, fW] [c, f, u, w]]?) ∧
          (∀ i < nImg, ∀ c < nChan, ∀ y < imH, ∀ z < imW, ∀ f < nFeat, ∀ u < fH, ∀ w < fW,
            SW'[rowMajor [nImg, nChan, imH, imW, nFeat, fH, fW] [σ.img i, σ.chan c, σ.y y, σ.z z, σ.feat f, σ.fh u, σ.fw w]]? = SW[rowMajor [nImg, nChan, imH, imW, nFeat, fH, fW] [i, c, y, z, f, u, w]]?) ∧
          (∀ i < nImg, ∀ c < nChan, ∀ y < imH, ∀ z < imW, X'[rowMajor [nImg, nChan, imH, imW] [σ.img i, σ.chan c, σ.y y, σ.z z]]? = X[rowMajor [nImg, nChan, imH, imW] [i, c, y, z]]?) := by
  obtain ⟨s, h1, h2⟩ := C95 (κ := κ) (α := α) hi hs garbage stateId (env := env) hsize
  refine ⟨s, h1, fun σ lS lW lX noiseS noiseW xGt noiseS' noiseW' xGt' N N' hN hN' l1 l2 l3 l1' l2' l3' hσ hq => ?_⟩
  obtain ⟨s1, s2, s3, s4, s5, s6, s7, -⟩ := id hs
  have hH : N.fH ≤ N.imH := by rw [hN]; exact s5
  have hW : N.fW ≤ N.imW := by rw [hN]; exact s7
  have hq' := hσ.quiet hH hW hq
  have hm := hσ.run hH hW (1 / 2) 100
  refine ⟨_, _, _, _, _, _, _, _, h2 lS lW lX _ _ _ N hN l1 l2 l3 hq, h2 lS lW lX _ _ _ N' hN' l1' l2' l3' hq', ?_⟩
  generalize N.run (1 / 2) 100 = m at *
  generalize N'.run (1 / 2) 100 = m' at *
  clear hq hq' h2 h1
  have m1 := hσ.img
  have m2 := hσ.chan
  have m3 := hσ.feat
  have m4 := hσ.sh
  have m5 := hσ.fh
  have m6 := hσ.y
  have m7 := hσ.sw
  have m8 := hσ.fw
  have m9 := hσ.z
  subst hN hN'
  refine ⟨fun i hi f hf a ha b hb => ?_, fun c hc f hf u hu w hw => ?_, fun i hi c hc y hy z hz f hf u hu w hw => ?_, fun i hi c hc y hy z hz => ?_⟩
  · have e := hσ.oddsS hm hi hf ha hb
    have k1 := likelyCells_at (shape := [nImg, nFeat, imH - fH + 1, imW - fW + 1]) (cs := [i, f, a, b]) (by simpa using ⟨hi, hf, Nat.lt_succ_iff.1 ha, Nat.lt_succ_iff.1 hb⟩)
      (fun cs => (DeconvNet.ofLists nImg nChan imH imW nFeat fH fW lS lW lX noiseS noiseW xGt).oddsS m (cs.getD 0 0) (cs.getD 1 0) (cs.getD 2 0) (cs.getD 3 0))
    have k2 := likelyCells_at (shape := [nImg, nFeat, imH - fH + 1, imW - fW + 1]) (cs := [σ.img i, σ.feat f, σ.sh a, σ.sw b])
      (by simpa using ⟨m1.lt hi, m3.lt hf, Nat.lt_succ_iff.1 (m4.lt ha), Nat.lt_succ_iff.1 (m7.lt hb)⟩)
      (fun cs => (DeconvNet.ofLists nImg nChan imH imW nFeat fH fW lS lW lX noiseS' noiseW' xGt').oddsS m' (cs.getD 0 0) (cs.getD 1 0) (cs.getD 2 0) (cs.getD 3 0))
    refine Eq.trans k2 (Eq.trans ?_ k1.symm)
    simp only [List.getD_cons_zero, List.getD_cons_succ]
    rw [e]
  · have e := hσ.oddsW hm hc hf hu hw
    have k1 := likelyCells_at (shape := [nChan, nFeat, fH, fW]) (cs := [c, f, u, w]) (by simpa using ⟨hc, hf, hu, hw⟩)
      (fun cs => (DeconvNet.ofLists nImg nChan imH imW nFeat fH fW lS lW lX noiseS noiseW xGt).oddsW m (cs.getD 0 0) (cs.getD 1 0) (cs.getD 2 0) (cs.getD 3 0))
    have k2 := likelyCells_at (shape := [nChan, nFeat, fH, fW]) (cs := [σ.chan c, σ.feat f, σ.fh u, σ.fw w]) (by simpa using ⟨m2.lt hc, m3.lt hf, m5.lt hu, m8.lt hw⟩)
      (fun cs => (DeconvNet.ofLists nImg nChan imH imW nFeat fH fW lS lW lX noiseS' noiseW' xGt').oddsW m' (cs.getD 0 0) (cs.getD 1 0) (cs.getD 2 0) (cs.getD 3 0))
    refine Eq.trans k2 (Eq.trans ?_ k1.symm)
    simp only [List.getD_cons_zero, List.getD_cons_succ]
    rw [e]
  · have e := hσ.oddsSW hm hH hW hi hc hy hz hf hu hw
    have k1 := likelyCells_at (shape := [nImg, nChan, imH, imW, nFeat, fH, fW]) (cs := [i, c, y, z, f, u, w]) (by simpa using ⟨hi, hc, hy, hz, hf, hu, hw⟩)
      (fun cs => (DeconvNet.ofLists nImg nChan imH imW nFeat fH fW lS lW lX noiseS noiseW xGt).oddsSW m (cs.getD 0 0) (cs.getD 1 0) (cs.getD 2 0) (cs.getD 3 0) (cs.getD 4 0) (cs.getD 5 0) (cs.getD 6 0))
    have k2 := likelyCells_at (shape := [nImg, nChan, imH, imW, nFeat, fH, fW]) (cs := [σ.img i, σ.chan c, σ.y y, σ.z z, σ.feat f, σ.fh u, σ.fw w])
      (by simpa using ⟨m1.lt hi, m2.lt hc, m6.lt hy, m9.lt hz, m3.lt hf, m5.lt hu, m8.lt hw⟩)
      (fun cs => (DeconvNet.ofLists nImg nChan imH imW nFeat fH fW lS lW lX noiseS' noiseW' xGt').oddsSW m' (cs.getD 0 0) (cs.getD 1 0) (cs.getD 2 0) (cs.getD 3 0) (cs.getD 4 0) (cs.getD 5 0) (cs.getD 6 0))
    refine Eq.trans k2 (Eq.trans ?_ k1.symm)
    simp only [List.getD_cons_zero, List.getD_cons_succ]
    rw [e]
  · have e := hσ.oddsX hm hi hc hy hz
    have k1 := likelyCells_at (shape := [nImg, nChan, imH, imW]) (cs := [i, c, y, z]) (by simpa using ⟨hi, hc, hy, hz⟩)
      (fun cs => (DeconvNet.ofLists nImg nChan imH imW nFeat fH fW lS lW lX noiseS noiseW xGt).oddsX m (cs.getD 0 0) (cs.getD 1 0) (cs.getD 2 0) (cs.getD 3 0))
    have k2 := likelyCells_at (shape := [nImg, nChan, imH, imW]) (cs := [σ.img i, σ.chan c, σ.y y, σ.z z]) (by simpa using ⟨m1.lt hi, m2.lt hc, m6.lt hy, m9.lt hz⟩)
      (fun cs => (DeconvNet.ofLists nImg nChan imH imW nFeat fH fW lS lW lX noiseS' noiseW' xGt').oddsX m' (cs.getD 0 0) (cs.getD 1 0) (cs.getD 2 0) (cs.getD 3 0))
    refine Eq.trans k2 (Eq.trans ?_ k1.symm)
    simp only [List.getD_cons_zero, List.getD_cons_succ]
    rw [e]

omit [IsStrictOrderedRing α] in
/-- **C96, other orders.** New orders of images, channels and features are such symmetries, if noise and images are reordered accordingly. -/
theorem C96_relabel {img chan feat : Nat → Nat} (h1 : Renumbers img nImg nImg) (h2 : Renumbers chan nChan nChan) (h3 : Renumbers feat nFeat nFeat) {lS lW lX : α} {noiseS noiseW xGt noiseS' noiseW' xGt' : List α}
    (hS : ∀ i < nImg, ∀ f < nFeat, ∀ a < imH - fH + 1, ∀ b < imW - fW + 1, ∀ x < 2, noiseS'[rowMajor [nImg, nFeat, imH - fH + 1, imW - fW + 1, 2] [img i, feat f, a, b, x]]? =
      noiseS[rowMajor [nImg, nFeat, imH - fH + 1, imW - fW + 1, 2] [i, f, a, b, x]]?)
    (hW : ∀ c < nChan, ∀ f < nFeat, ∀ u < fH, ∀ w < fW, ∀ x < 2, noiseW'[rowMajor [nChan, nFeat, fH, fW, 2] [chan c, feat f, u, w, x]]? = noiseW[rowMajor [nChan, nFeat, fH, fW, 2] [c, f, u, w, x]]?)
    (hX : ∀ i < nImg, ∀ c < nChan, ∀ y < imH, ∀ z < imW, xGt'[rowMajor [nImg, nChan, imH, imW] [img i, chan c, y, z]]? = xGt[rowMajor [nImg, nChan, imH, imW] [i, c, y, z]]?) :
    (DeconvSym.relabel img chan feat).Maps (DeconvNet.ofLists nImg nChan imH imW nFeat fH fW lS lW lX noiseS noiseW xGt) (DeconvNet.ofLists nImg nChan imH imW nFeat fH fW lS lW lX noiseS' noiseW' xGt') := by
  have hr : ∀ a b c d i j k l x : Nat, rowMajor [a, b, c, d, 2] [i, j, k, l, x] = rowMajor [a, b, c, d] [i, j, k, l] * 2 + x := by
    intro a b c d i j k l x
    simp only [rowMajor, List.prod_cons, List.prod_nil]
    ring
  refine ⟨h1, h2, h3, .id _, .id _, .id _, .id _, .id _, .id _, fun _ _ _ _ => rfl, fun _ _ _ _ => rfl, fun i hi f hf a ha b hb => ?_, fun c hc f hf u hu w hw => ?_, fun i hi c hc y hy z hz => ?_⟩
  · have e0 := hS i hi f hf a ha b hb 0 (by omega)
    have e1 := hS i hi f hf a ha b hb 1 (by omega)
    simp only [hr, Nat.add_zero] at e0
    rw [hr, hr] at e1
    simp only [DeconvNet.ofLists, DeconvSym.relabel, pairOdds, List.getD, id]
    rw [e0, e1]
  · have e0 := hW c hc f hf u hu w hw 0 (by omega)
    have e1 := hW c hc f hf u hu w hw 1 (by omega)
    simp only [hr, Nat.add_zero] at e0
    rw [hr, hr] at e1
    simp only [DeconvNet.ofLists, DeconvSym.relabel, pairOdds, List.getD, id]
    rw [e0, e1]
  · have e0 := hX i hi c hc y hy z hz
    simp only [DeconvNet.ofLists, DeconvSym.relabel, List.getD, id]
    rw [e0]

omit [IsStrictOrderedRing α] in
/-- **C96, mirrored images.** Mirrored images are such a symmetry, if the noise is mirrored accordingly. -/
theorem C96_mirror (hH : fH ≤ imH) (hW' : fW ≤ imW) (v h : Bool) {σ : DeconvSym} (hσ : σ = DeconvSym.mirror imH imW fH fW v h) {lS lW lX : α} {noiseS noiseW xGt noiseS' noiseW' xGt' : List α}
    (hS : ∀ i < nImg, ∀ f < nFeat, ∀ a < imH - fH + 1, ∀ b < imW - fW + 1, ∀ x < 2, noiseS'[rowMajor [nImg, nFeat, imH - fH + 1, imW - fW + 1, 2] [i, f, σ.sh a, σ.sw b, x]]? =
      noiseS[rowMajor [nImg, nFeat, imH - fH + 1, imW - fW + 1, 2] [i, f, a, b, x]]?)
    (hW : ∀ c < nChan, ∀ f < nFeat, ∀ u < fH, ∀ w < fW, ∀ x < 2, noiseW'[rowMajor [nChan, nFeat, fH, fW, 2] [c, f, σ.fh u, σ.fw w, x]]? = noiseW[rowMajor [nChan, nFeat, fH, fW, 2] [c, f, u, w, x]]?)
    (hX : ∀ i < nImg, ∀ c < nChan, ∀ y < imH, ∀ z < imW, xGt'[rowMajor [nImg, nChan, imH, imW] [i, c, σ.y y, σ.z z]]? = xGt[rowMajor [nImg, nChan, imH, imW] [i, c, y, z]]?) :
    σ.Maps (DeconvNet.ofLists nImg nChan imH imW nFeat fH fW lS lW lX noiseS noiseW xGt) (DeconvNet.ofLists nImg nChan imH imW nFeat fH fW lS lW lX noiseS' noiseW' xGt') := by
  have hr : ∀ a b c d i j k l x : Nat, rowMajor [a, b, c, d, 2] [i, j, k, l, x] = rowMajor [a, b, c, d] [i, j, k, l] * 2 + x := by
    intro a b c d i j k l x
    simp only [rowMajor, List.prod_cons, List.prod_nil]
    ring
  have hmir : ∀ (n m : Nat) (v : Bool), m ≤ n → Renumbers (fun a => if v then n - m - a else a) (n - m + 1) (n - m + 1) := fun n m v _ => Renumbers.mirror (n - m + 1) v
  have ei : σ.img = id := by rw [hσ]; rfl
  have ec : σ.chan = id := by rw [hσ]; rfl
  have ef : σ.feat = id := by rw [hσ]; rfl
  refine ⟨by rw [ei]; exact .id _, by rw [ec]; exact .id _, by rw [ef]; exact .id _, by rw [hσ]; exact hmir imH fH v hH, by rw [hσ]; exact .mirror fH v, by rw [hσ]; exact .mirror imH v,
    by rw [hσ]; exact hmir imW fW h hW', by rw [hσ]; exact .mirror fW h, by rw [hσ]; exact .mirror imW h, fun u hu a ha => ?_, fun w hw b hb => ?_, fun i hi f hf a ha b hb => ?_,
    fun c hc f hf u hu w hw => ?_, fun i hi c hc y hy z hz => ?_⟩
  · rw [hσ]
    simp only [DeconvNet.ofLists, DeconvNet.rows] at hu ha
    cases v <;> simp only [DeconvSym.mirror, if_true, Bool.false_eq_true, if_false] <;> omega
  · rw [hσ]
    simp only [DeconvNet.ofLists, DeconvNet.cols] at hw hb
    cases h <;> simp only [DeconvSym.mirror, if_true, Bool.false_eq_true, if_false] <;> omega
  · have e0 := hS i hi f hf a ha b hb 0 (by omega)
    have e1 := hS i hi f hf a ha b hb 1 (by omega)
    simp only [hr, Nat.add_zero] at e0
    rw [hr, hr] at e1
    rw [ei, ef]
    simp only [DeconvNet.ofLists, pairOdds, List.getD, id]
    rw [e0, e1]
  · have e0 := hW c hc f hf u hu w hw 0 (by omega)
    have e1 := hW c hc f hf u hu w hw 1 (by omega)
    simp only [hr, Nat.add_zero] at e0
    rw [hr, hr] at e1
    rw [ec, ef]
    simp only [DeconvNet.ofLists, pairOdds, List.getD, id]
    rw [e0, e1]
  · have e0 := hX i hi c hc y hy z hz
    rw [ei, ec]
    simp only [DeconvNet.ofLists, List.getD, id]
    rw [e0]

/-- **C96, noise is needed.** If the noise is the same for two features, then the decoded arrays do not tell them apart: the features are equal and they are put at the same positions. -/
theorem C96_equal (hi : DeconvIds idW idS idSW idX idA idO) (hs : DeconvSizes nImg nChan imH imW nFeat fH fW) (garbage : Garbage) (stateId : Nat) {env : Env α}
    (hsize : env.wrapNeg = false ∨ 8 * (nImg * nChan * (imH - fH + 1) * (imW - fW + 1) * nFeat * fH * fW) + 2 * (nImg * nChan * imH * imW) + 2 ≤ 100000) :
    ∃ s : DeconvSetup κ α, deconvSetup κ α idW idS idSW idX idA idO garbage stateId nImg nChan imH imW nFeat fH fW = .ok s ∧
      ∀ (lS lW lX : α) (noiseS noiseW xGt : List α) (f g : Nat), f < nFeat → g < nFeat →
        noiseS.length = nImg * nFeat * (imH - fH + 1) * (imW - fW + 1) * 2 → noiseW.length = nChan * nFeat * fH * fW * 2 → xGt.length = nImg * nChan * imH * imW →
        (DeconvNet.ofLists nImg nChan imH imW nFeat fH fW lS lW lX noiseS noiseW xGt).Quiet (1 / 2) 100 →
        (∀ i < nImg, ∀ a < imH - fH + 1, ∀ b < imW - fW + 1, ∀ x < 2, noiseS[rowMajor [nImg, nFeat, imH - fH + 1, imW - fW + 1, 2] [i, f, a, b, x]]? =
          noiseS[rowMajor [nImg, nFeat, imH - fH + 1, imW - fW + 1, 2] [i, g, a, b, x]]?) →
        (∀ c < nChan, ∀ u < fH, ∀ w < fW, ∀ x < 2, noiseW[rowMajor [nChan, nFeat, fH, fW, 2] [c, f, u, w, x]]? = noiseW[rowMajor [nChan, nFeat, fH, fW, 2] [c, g, u, w, x]]?) →
        ∃ S W SW X : List Nat,
          deconvSample env s lS lW lX noiseS noiseW xGt = .ok [(.arr s.net.S, .arr ⟨[nImg, nFeat, imH - fH + 1, imW - fW + 1], S⟩), (.arr s.net.W, .arr ⟨[nChan, nFeat, fH, fW], W⟩),
            (.arr s.net.SW, .arr ⟨[nImg, nChan, imH, imW, nFeat, fH, fW], SW⟩), (.arr s.net.X, .arr ⟨[nImg, nChan, imH, imW], X⟩)] ∧
          (∀ i < nImg, ∀ a < imH - fH + 1, ∀ b < imW - fW + 1, S[rowMajor [nImg, nFeat, imH - fH + 1, imW - fW + 1] [i, f, a, b]]? = S[rowMajor [nImg, nFeat, imH - fH + 1, imW - fW + 1] [i, g, a, b]]?) ∧
          (∀ c < nChan, ∀ u < fH, ∀ w < fW, W[rowMajor [nChan, nFeat, fH, fW] [c, f, u, w]]? = W[rowMajor [nChan, nFeat, fH, fW] [c, g, u, w]]?) := by
  obtain ⟨s, h1, h2⟩ := C96 (κ := κ) (α := α) hi hs garbage stateId (env := env) hsize
  refine ⟨s, h1, fun lS lW lX noiseS noiseW xGt f g hf hg l1 l2 l3 hq hS hW => ?_⟩
  have hsw : ∀ k, k < nFeat → (if k = f then g else if k = g then f else k) < nFeat := by
    intro k hk
    split_ifs <;> assumption
  have h3 : Renumbers (fun k => if k = f then g else if k = g then f else k) nFeat nFeat := by
    refine ⟨fun k hk => hsw k hk, fun k _ l _ e => ?_, fun k hk => ⟨_, hsw k hk, ?_⟩⟩
    · simp only at e
      split_ifs at e <;> omega
    · simp only
      split_ifs <;> omega
  have hM := C96_relabel (imH := imH) (imW := imW) (fH := fH) (fW := fW) (lS := lS) (lW := lW) (lX := lX) (.id nImg) (.id nChan) h3 (noiseS := noiseS) (noiseW := noiseW) (xGt := xGt) (noiseS' := noiseS) (noiseW' := noiseW) (xGt' := xGt)
    (fun i hi k hk a ha b hb x hx => by
      simp only [id]
      split_ifs with e1 e2
      · rw [e1, hS i hi a ha b hb x hx]
      · rw [e2, hS i hi a ha b hb x hx]
      · rfl)
    (fun c hc k hk u hu w hw x hx => by
      simp only [id]
      split_ifs with e1 e2
      · rw [e1, hW c hc u hu w hw x hx]
      · rw [e2, hW c hc u hu w hw x hx]
      · rfl) (fun _ _ _ _ _ _ _ _ => rfl)
  obtain ⟨S, W, SW, X, S', W', SW', X', e1, e2, e3, e4, -⟩ := h2 _ lS lW lX noiseS noiseW xGt noiseS noiseW xGt _ _ rfl rfl l1 l2 l3 l1 l2 l3 hM hq
  rw [e1] at e2
  simp only [Except.ok.injEq, List.cons.injEq, Prod.mk.injEq, true_and, and_true, GroupStates.arr.injEq, NDArr.mk.injEq] at e2
  obtain ⟨rfl, rfl, rfl, rfl⟩ := e2
  refine ⟨S, W, SW, X, e1, fun i hi a ha b hb => ?_, fun c hc u hu w hw => ?_⟩
  · have := e3 i hi f hf a ha b hb
    simp only [DeconvSym.relabel, id, if_true] at this
    exact this.symm
  · have := e4 c hc f hf u hu w hw
    simp only [DeconvSym.relabel, id, if_true] at this
    exact this.symm

/-- Non-vacuity: two features of one pixel in an image of one pixel, in the other order; the two arrays of noise meet the hypotheses of `C96_relabel`. -/
example : (DeconvSym.relabel id id (fun k => 1 - k)).Maps (DeconvNet.ofLists 1 1 1 1 2 1 1 (-1) (-1 / 2) (-8) [0, 1, 0, 0] [0, 0, 0, 0] [1] : DeconvNet ℚ)
    (DeconvNet.ofLists 1 1 1 1 2 1 1 (-1) (-1 / 2) (-8) [0, 0, 0, 1] [0, 0, 0, 0] [1]) :=
  C96_relabel (.id 1) (.id 1) (Renumbers.mirror 2 true) (by decide +kernel) (by decide +kernel) (by decide +kernel)

/-- Non-vacuity: an image of three pixels and a feature of two pixels, mirrored left to right. -/
example : (DeconvSym.mirror 1 3 1 2 false true).Maps (DeconvNet.ofLists 1 1 1 3 1 1 2 (-1) (-1 / 2) (-8) [0, 1, 0, 0] [0, 3, 0, 0] [1, 0, 0] : DeconvNet ℚ)
    (DeconvNet.ofLists 1 1 1 3 1 1 2 (-1) (-1 / 2) (-8) [0, 0, 0, 1] [0, 0, 0, 3] [0, 0, 1]) :=
  C96_mirror (by omega) (by omega) false true rfl (by decide +kernel) (by decide +kernel) (by decide +kernel)

end PGMax
