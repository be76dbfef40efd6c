import Verif.Lemmas.Plot
import Verif.Props.C96

/-! # C97: `plot_images` of the deconvolution program -/

namespace PGMax

section
variable {α : Type _} [Field α] [LinearOrder α] [IsStrictOrderedRing α]

/-- **C97.** `plot_images` shows every image once, in the given number of rows or in the smallest square, with grey levels from the smallest to the largest number of all images. -/
theorem C97 {n H W R C : Nat} {nr : Option Int} {eps lo hi : α} {images : List α} (hw : images.length = n * H * W) (hg : IsTiling n nr R C) (hlo : IsLeast {v | v ∈ images} lo)
    (hhi : IsGreatest {v | v ∈ images} hi) :
    ∃ out : NDArr α, plotImages eps false ⟨[n, H, W], images⟩ nr = .ok out ∧ out.WF ∧ out.shape = [(H + 1) * R + 1, (W + 1) * C + 1, 3] ∧
      ShowsImages n H W R C (fun im y x => greyLevel lo hi eps (images.getD (rowMajor [n, H, W] [im, y, x]) 0))
        (fun y x ch => out.data[rowMajor [(H + 1) * R + 1, (W + 1) * C + 1, 3] [y, x, ch]]?) := by
  have h1 := arrMin_ok hlo
  have hhi' : IsGreatest {v | v ∈ images.map (fun x => x - lo)} (hi - lo) := by
    constructor
    · exact List.mem_map.2 ⟨hi, hhi.1, rfl⟩
    · rintro v hv
      obtain ⟨x, hx, rfl⟩ := List.mem_map.1 hv
      exact sub_le_sub_right (hhi.2 hx) _
  have h2 := arrMax_ok hhi'
  have h3 := plotGrid_ok hg
  have e1 : (((H : Int) + 1) * (R : Int) + 1).toNat = (H + 1) * R + 1 := by
    have : ((H : Int) + 1) * (R : Int) + 1 = (((H + 1) * R + 1 : Nat) : Int) := by push_cast; ring
    rw [this, Int.toNat_natCast]
  have e2 : (((W : Int) + 1) * (C : Int) + 1).toNat = (W + 1) * C + 1 := by
    have : ((W : Int) + 1) * (C : Int) + 1 = (((W + 1) * C + 1 : Nat) : Int) := by push_cast; ring
    rw [this, Int.toNat_natCast]
  have h4 : ¬ (((H : Int) + 1) * (R : Int) + 1 < 0 ∨ ((W : Int) + 1) * (C : Int) + 1 < 0) := by
    have : (0 : Int) ≤ ((H : Int) + 1) * (R : Int) := by positivity
    have : (0 : Int) ≤ ((W : Int) + 1) * (C : Int) := by positivity
    omega
  refine ⟨⟨[(H + 1) * R + 1, (W + 1) * C + 1, 3], tabulate3 ((H + 1) * R + 1) ((W + 1) * C + 1) 3
    (plotLoop n H W R C ((images.map (fun x => x - lo)).map (fun x => x / (hi - lo + eps))) (plotBlank H)).1⟩, ?_, ?_, rfl, ?_⟩
  · unfold plotImages
    simp only [h1, bind, Except.bind, h2, h3, Bool.false_eq_true, if_false, h4, e1, e2, Int.toNat_natCast]
    rfl
  · unfold NDArr.WF
    rw [tabulate3_length]
    simp [Nat.mul_assoc]
  · obtain ⟨-, k2, k3⟩ := plotLoop_at (H := H) (W := W) (n := n) ((images.map (fun x => x - lo)).map (fun x => x / (hi - lo + eps))) R C (plotBlank H)
    have hcov : ∀ im < R * C, im / C < R ∧ im % C < C ∧ im / C * C + im % C = im := by
      intro im him
      have hC : 0 < C := by
        rcases Nat.eq_zero_or_pos C with h | h
        · subst h; omega
        · exact h
      exact ⟨(Nat.div_lt_iff_lt_mul hC).2 him, Nat.mod_lt _ hC, Nat.div_add_mod' im C⟩
    have hnle : n ≤ R * C := by
      rcases hg with ⟨-, -, h⟩ | ⟨-, rfl, h, -⟩
      · exact h.le
      · exact h
    have bnd : ∀ {m b r y : Nat}, r < b → y < m → (m + 1) * r + 1 + y < (m + 1) * b + 1 := by
      intro m b r y hr hy
      have : (m + 1) * (r + 1) ≤ (m + 1) * b := Nat.mul_le_mul_left _ hr
      rw [Nat.mul_add, Nat.mul_one] at this
      omega
    have bnd' : ∀ {m b r : Nat}, r ≤ b → (m + 1) * r < (m + 1) * b + 1 := by
      intro m b r hr
      have : (m + 1) * r ≤ (m + 1) * b := Nat.mul_le_mul_left _ hr
      omega
    have hblank : ∀ r y x ch, y < H → plotBlank (α := α) H ((H + 1) * r + 1 + y) x ch = 0 := by
      intro r y x ch hy
      unfold plotBlank
      rw [if_neg]
      rw [Nat.add_assoc, Nat.mul_add_mod, Nat.mod_eq_of_lt (by omega)]
      omega
    refine ⟨fun im him y hy x hx ch hch => ?_, fun im h1 h2 y hy x hx ch hch => ?_, fun r hr x hx => ?_, fun r hr y hy c hc ch hch => ?_⟩
    · obtain ⟨c1, c2, c3⟩ := hcov im (by omega)
      rw [tabulate3_at _ (bnd c1 hy) (bnd c2 hx) hch, k3 _ _ _ _ _ c2 hy hx, if_pos ⟨c1, by omega⟩, c3]
      have hidx : (im * H + y) * W + x < images.length := by
        rw [hw]
        have q1 : (im * H + y + 1) * W ≤ n * H * W := by
          refine Nat.mul_le_mul_right _ ?_
          have : (im + 1) * H ≤ n * H := Nat.mul_le_mul_right _ him
          rw [Nat.add_mul, Nat.one_mul] at this
          omega
        rw [Nat.add_mul, Nat.one_mul] at q1
        omega
      have hr : rowMajor [n, H, W] [im, y, x] = (im * H + y) * W + x := by
        simp only [rowMajor, List.prod_cons, List.prod_nil]
        ring
      rw [hr]
      unfold greyLevel
      rw [List.getD, List.getElem?_map, List.getElem?_map, List.getElem?_eq_getElem hidx, List.getD, List.getElem?_eq_getElem hidx]
      rfl
    · obtain ⟨c1, c2, c3⟩ := hcov im h2
      rw [tabulate3_at _ (bnd c1 hy) (bnd c2 hx) hch, k3 _ _ _ _ _ c2 hy hx, if_neg (by omega), hblank _ _ _ _ hy]
    · have hoff : OffBlocks H W ((H + 1) * r) x := .inl ⟨r, rfl⟩
      rw [tabulate3_at _ (bnd' hr) hx (by omega), tabulate3_at _ (bnd' hr) hx (by omega), tabulate3_at _ (bnd' hr) hx (by omega), k2 _ _ _ hoff, k2 _ _ _ hoff, k2 _ _ _ hoff]
      unfold plotBlank
      rw [if_pos (by simp), if_pos (by simp), if_pos (by simp)]
      exact ⟨rfl, rfl, rfl⟩
    · rw [tabulate3_at _ (bnd hr hy) (bnd' hc) hch, k2 _ _ _ (.inr ⟨c, rfl⟩), hblank _ _ _ _ hy]

/-- **C97, grey levels.** The grey levels are at least 0 and less than 1, larger numbers are brighter, and the smallest number is black. -/
theorem C97_grey {eps lo hi : α} (he : 0 < eps) (h : lo ≤ hi) :
    (∀ v, lo ≤ v → v ≤ hi → 0 ≤ greyLevel lo hi eps v ∧ greyLevel lo hi eps v < 1) ∧ StrictMono (greyLevel lo hi eps) ∧ greyLevel lo hi eps lo = 0 := by
  have hd : 0 < hi - lo + eps := by linarith
  refine ⟨fun v h1 h2 => ⟨div_nonneg (by linarith) hd.le, (div_lt_one hd).2 (by linarith)⟩, fun v w hvw => ?_, by unfold greyLevel; rw [sub_self, zero_div]⟩
  exact div_lt_div_of_pos_right (by linarith) hd

omit [IsStrictOrderedRing α] in
/-- **C97, exceptions.** `plot_images` returns for arrays with three axes that are not empty and can be divided in place, if the number of rows is not given or is positive and divides the number of
images; otherwise it raises. -/
theorem C97_errors (eps : α) (intNumpy : Bool) {images : NDArr α} (hw : images.WF) (nr : Option Int) :
    ((∃ out, plotImages eps intNumpy images nr = .ok out) ↔
      images.shape.length = 3 ∧ images.data ≠ [] ∧ intNumpy = false ∧ ∀ k, nr = some k → 0 < k ∧ k ∣ (images.shape.getD 0 0 : Int)) ∧
    (images.shape.length ≠ 3 → plotImages eps intNumpy images nr = .error .valueError) ∧
    (images.data = [] → plotImages eps intNumpy images nr = .error .valueError) ∧
    (images.shape.length = 3 → images.data ≠ [] → intNumpy = true → plotImages eps intNumpy images nr = .error .typeError) ∧
    (images.shape.length = 3 → images.data ≠ [] → intNumpy = false → nr = some 0 → plotImages eps intNumpy images nr = .error .zeroDivisionError) ∧
    (images.shape.length = 3 → images.data ≠ [] → intNumpy = false → ∀ k, nr = some k → k ≠ 0 → ¬ k ∣ (images.shape.getD 0 0 : Int) → plotImages eps intNumpy images nr = .error .assertionError) ∧
    (images.shape.length = 3 → images.data ≠ [] → intNumpy = false → ∀ k, nr = some k → k < 0 → k ∣ (images.shape.getD 0 0 : Int) → plotImages eps intNumpy images nr = .error .valueError) := by
  obtain ⟨shape, data⟩ := images
  have hlen : shape.length ≠ 3 → plotImages eps intNumpy ⟨shape, data⟩ nr = .error .valueError := by
    intro h
    unfold plotImages
    split
    · next e => rw [show shape = _ from e] at h; simp at h
    · rfl
  have hempty : data = [] → plotImages eps intNumpy ⟨shape, data⟩ nr = .error .valueError := by
    rintro rfl
    unfold plotImages
    split <;> rfl
  simp only
  by_cases h3 : shape.length = 3
  swap
  · refine ⟨⟨fun ⟨out, h⟩ => ?_, fun h => absurd h.1 h3⟩, hlen, hempty, fun h => absurd h h3, fun h => absurd h h3, fun h => absurd h h3, fun h => absurd h h3⟩
    rw [hlen h3] at h
    cases h
  by_cases hd : data = []
  · refine ⟨⟨fun ⟨out, h⟩ => ?_, fun h => absurd hd h.2.1⟩, hlen, hempty, fun _ h => absurd hd h, fun _ h => absurd hd h, fun _ h => absurd hd h, fun _ h => absurd hd h⟩
    rw [hempty hd] at h
    cases h
  obtain ⟨n, H, W, rfl⟩ : ∃ n H W, shape = [n, H, W] := by
    match shape, h3 with
    | [n, H, W], _ => exact ⟨n, H, W, rfl⟩
  obtain ⟨x, xs, rfl⟩ : ∃ x xs, data = x :: xs := List.exists_cons_of_ne_nil hd
  have hH : 0 < H := by
    rcases Nat.eq_zero_or_pos H with h | h
    · subst h; simp [NDArr.WF] at hw
    · exact h
  have hval : plotImages eps intNumpy ⟨[n, H, W], x :: xs⟩ nr = if intNumpy then .error .typeError else (plotGrid n nr).bind (fun grid =>
      if (H + 1) * grid.1 + 1 < 0 ∨ (W + 1) * grid.2 + 1 < 0 then .error .valueError
      else .ok ⟨[((H + 1) * grid.1 + 1).toNat, ((W + 1) * grid.2 + 1).toNat, 3], tabulate3 ((H + 1) * grid.1 + 1).toNat ((W + 1) * grid.2 + 1).toNat 3
        (plotLoop n H W grid.1.toNat grid.2.toNat (((x :: xs).map (fun v => v - xs.foldl min x)).map (fun v => v / (((xs.map (fun v => v - xs.foldl min x)).foldl max (x - xs.foldl min x)) + eps))) (plotBlank H)).1⟩) := rfl
  have hneg : ∀ k : Int, k < 0 → (H + 1 : Int) * k + 1 < 0 := by
    intro k hk
    have : (H + 1 : Int) * k ≤ (H + 1 : Int) * (-1) := mul_le_mul_of_nonneg_left (by omega) (by omega)
    omega
  have hfd : ∀ k : Int, k ∣ (n : Int) ↔ (n : Int) = k * Int.fdiv n k := by
    intro k
    constructor
    · intro h
      exact (Int.mul_fdiv_cancel' h).symm
    · intro h
      exact ⟨_, h⟩
  refine ⟨⟨?_, ?_⟩, hlen, hempty, fun _ _ h => ?_, fun _ _ h h' => ?_, fun _ _ h k h' h0 hk => ?_, fun _ _ h k h' h0 hk => ?_⟩
  · rintro ⟨out, h⟩
    rw [hval] at h
    cases intNumpy with
    | true => simp at h
    | false =>
      refine ⟨rfl, by simp, rfl, ?_⟩
      rintro k rfl
      rw [if_neg (by simp)] at h
      unfold plotGrid at h
      simp only at h
      split_ifs at h with g1 g2
      · cases h
      · simp only [Except.bind] at h
        refine ⟨?_, (hfd k).2 g2⟩
        by_contra hc
        rw [if_pos (.inl (hneg k (by omega)))] at h
        cases h
      · cases h
  · rintro ⟨-, -, rfl, hk⟩
    rw [hval, if_neg (by simp)]
    cases nr with
    | none =>
      unfold plotGrid
      simp only [Except.bind]
      rw [if_neg]
      · exact ⟨_, rfl⟩
      · have : (0 : Int) ≤ (H + 1 : Int) * (ceilSqrt n : Int) := by positivity
        have : (0 : Int) ≤ (W + 1 : Int) * (ceilSqrt n : Int) := by positivity
        omega
    | some k =>
      obtain ⟨k1, k2⟩ := hk k rfl
      unfold plotGrid
      simp only
      rw [if_neg (by omega), if_pos ((hfd k).1 k2)]
      simp only [Except.bind]
      rw [if_neg]
      · exact ⟨_, rfl⟩
      · have : (0 : Int) ≤ (H + 1 : Int) * k := by positivity
        have : (0 : Int) ≤ (W + 1 : Int) * Int.fdiv n k := mul_nonneg (by omega) (Int.fdiv_nonneg (by omega) (by omega))
        omega
  · rw [hval, h]
    rfl
  · rw [hval, h, h', if_neg (by simp)]
    rfl
  · rw [hval, h, h', if_neg (by simp)]
    unfold plotGrid
    simp only
    rw [if_neg h0, if_neg (fun e => hk ((hfd k).2 e))]
    rfl
  · rw [hval, h, h', if_neg (by simp)]
    unfold plotGrid
    simp only
    rw [if_neg (by omega), if_pos ((hfd k).1 hk)]
    simp only [Except.bind]
    rw [if_pos (.inl (hneg k h0))]

end

section
variable {κ α : Type} [Field α] [LinearOrder α] [IsStrictOrderedRing α] [DecidableEq κ] {idW idS idSW idX idA idO nImg nChan imH imW nFeat fH fW : Nat}

/-- **C97, the last picture of the program.** Row `k` shows the features that are decoded in sample `k`: feature `f` of channel `c` is image `c * nFeat + f` of this row. -/
theorem C97_program (hi : DeconvIds idW idS idSW idX idA idO) (hs : DeconvSizes nImg nChan imH imW nFeat fH fW) (garbage : Garbage) (stateId : Nat) {env : Env α}
    (hsize : env.wrapNeg = false ∨ 8 * (nImg * nChan * (imH - fH + 1) * (imW - fW + 1) * nFeat * fH * fW) + 2 * (nImg * nChan * imH * imW) + 2 ≤ 100000) :
    ∃ s : DeconvSetup κ α, deconvSetup κ α idW idS idSW idX idA idO garbage stateId nImg nChan imH imW nFeat fH fW = .ok s ∧
      ∀ (n : Nat) (lS lW lX : α) (noiseS noiseW xGt : List α) (mS mW : Nat) (N : Nat → DeconvNet α), mS = nImg * nFeat * (imH - fH + 1) * (imW - fW + 1) * 2 → mW = nChan * nFeat * fH * fW * 2 →
        (∀ k, N k = DeconvNet.ofLists nImg nChan imH imW nFeat fH fW lS lW lX ((noiseS.drop (k * mS)).take mS) ((noiseW.drop (k * mW)).take mW) xGt) → 1 ≤ n →
        noiseS.length = n * mS → noiseW.length = n * mW → xGt.length = nImg * nChan * imH * imW → (∀ k < n, (N k).Quiet (1 / 2) 100) →
        ∃ (maps : PyTree κ Nat), deconvSamples env s n lS lW lX noiseS noiseW xGt = .ok maps ∧
          ∀ (eps : α) (on : Nat → Nat → Nat → Nat → Nat → α), (∀ k c f u w, on k c f u w = if 0 < (N k).oddsW ((N k).run (1 / 2) 100) c f u w then 1 else 0) →
            ∃ (out : NDArr α) (lo hi : α), deconvPlot eps s.net.W fH fW n maps = .ok out ∧ out.WF ∧ out.shape = [(fH + 1) * n + 1, (fW + 1) * (nChan * nFeat) + 1, 3] ∧
              IsLeast {v | ∃ k < n, ∃ c < nChan, ∃ f < nFeat, ∃ u < fH, ∃ w < fW, v = on k c f u w} lo ∧
              IsGreatest {v | ∃ k < n, ∃ c < nChan, ∃ f < nFeat, ∃ u < fH, ∃ w < fW, v = on k c f u w} hi ∧
              ∀ k < n, ∀ c < nChan, ∀ f < nFeat, ∀ u < fH, ∀ w < fW, ∀ ch < 3,
                out.data[rowMajor out.shape [(fH + 1) * k + 1 + u, (fW + 1) * (c * nFeat + f) + 1 + w, ch]]? = some (greyLevel lo hi eps (on k c f u w)) := by
  obtain ⟨s, h1, h2⟩ := C95_batch (κ := κ) (α := α) hi hs garbage stateId (env := env) hsize
  obtain ⟨s', st, h1', h3⟩ := deconv_setup (κ := κ) (α := α) hi hs garbage stateId
  obtain rfl : s = s' := Except.ok.inj (h1.symm.trans h1')
  refine ⟨s, h1, fun n lS lW lX noiseS noiseW xGt mS mW N eS eW hN hn nS nW nX hq => ?_⟩
  refine ⟨_, h2 n lS lW lX noiseS noiseW xGt mS mW N eS eW hN hn nS nW nX hq, fun eps on hon => ?_⟩
  have hne : s.net.S ≠ s.net.W := by
    rw [h3.net]
    intro e
    have e' : idS % 2 ^ 32 * 1000000000 = idW % 2 ^ 32 * 1000000000 := congrArg NDVarArray.hash e
    have := hi.arrays
    rw [List.map_cons, List.map_cons, List.nodup_cons] at this
    exact this.1 (by rw [Nat.eq_of_mul_eq_mul_right (by norm_num) e']; exact List.mem_cons_self)
  obtain ⟨z1, z2, z3, z4, z5, z6, z7, -⟩ := id hs
  have hfind : deconvPlot eps s.net.W fH fW n ⟨[((.arr s.net.S : VGroup κ), none), (.arr s.net.W, none), (.arr s.net.SW, none), (.arr s.net.X, none)],
          [⟨[n, nImg, nFeat, imH - fH + 1, imW - fW + 1], (List.range n).flatMap (fun k => (N k).statesS ((N k).run (1 / 2) 100))⟩,
           ⟨[n, nChan, nFeat, fH, fW], (List.range n).flatMap (fun k => (N k).statesW ((N k).run (1 / 2) 100))⟩,
           ⟨[n, nImg, nChan, imH, imW, nFeat, fH, fW], (List.range n).flatMap (fun k => (N k).statesSW ((N k).run (1 / 2) 100))⟩,
           ⟨[n, nImg, nChan, imH, imW], (List.range n).flatMap (fun k => (N k).statesX ((N k).run (1 / 2) 100))⟩]⟩ =
      plotImages eps false ⟨[((List.range n).flatMap (fun k => (N k).statesW ((N k).run (1 / 2) 100))).length / (fH * fW), fH, fW],
        ((List.range n).flatMap (fun k => (N k).statesW ((N k).run (1 / 2) 100))).map (fun (k : Nat) => (k : α))⟩ (some n) := by
    unfold deconvPlot
    simp only [List.zip_cons_cons]
    rw [List.find?_cons_of_neg (by simpa using hne), List.find?_cons_of_pos (by simp)]
  have hst : ∀ k, (N k).statesW ((N k).run (1 / 2) 100) = likelyCells [nChan, nFeat, fH, fW] (fun cs => (N k).oddsW ((N k).run (1 / 2) 100) (cs.getD 0 0) (cs.getD 1 0) (cs.getD 2 0) (cs.getD 3 0)) := by
    intro k
    unfold DeconvNet.statesW
    simp only [hN k, DeconvNet.ofLists]
  have hlen1 : ∀ k, ((N k).statesW ((N k).run (1 / 2) 100)).length = nChan * nFeat * fH * fW := by
    intro k
    rw [hst]
    unfold likelyCells
    rw [List.length_map, allIndices_length]
    simp [Nat.mul_assoc]
  have hlen : ((List.range n).flatMap (fun k => (N k).statesW ((N k).run (1 / 2) 100))).length = n * (nChan * nFeat) * fH * fW := by
    rw [List.length_flatMap, List.map_congr_left (fun k _ => hlen1 k)]
    simp [Nat.mul_assoc]
  have hdiv : ((List.range n).flatMap (fun k => (N k).statesW ((N k).run (1 / 2) 100))).length / (fH * fW) = n * (nChan * nFeat) := by
    rw [hlen, Nat.mul_assoc]
    exact Nat.mul_div_cancel _ (Nat.mul_pos (by omega) (by omega))
  have hr4 : ∀ k c f u w, rowMajor [n * (nChan * nFeat), fH, fW] [k * (nChan * nFeat) + (c * nFeat + f), u, w] = k * (nChan * nFeat * fH * fW) + rowMajor [nChan, nFeat, fH, fW] [c, f, u, w] := by
    intro k c f u w
    simp only [rowMajor, List.prod_cons, List.prod_nil]
    ring
  have hcell : ∀ k < n, ∀ c < nChan, ∀ f < nFeat, ∀ u < fH, ∀ w < fW, (((List.range n).flatMap (fun k => (N k).statesW ((N k).run (1 / 2) 100))).map (fun (k : Nat) => (k : α)))[rowMajor [n * (nChan * nFeat), fH, fW]
      [k * (nChan * nFeat) + (c * nFeat + f), u, w]]? = some (on k c f u w) := by
    intro k hk c hc f hf u hu w hw
    have hin : List.Forall₂ (fun c d => c < d) [c, f, u, w] [nChan, nFeat, fH, fW] := by simpa using ⟨hc, hf, hu, hw⟩
    have hlt : rowMajor [nChan, nFeat, fH, fW] [c, f, u, w] < nChan * nFeat * fH * fW := by
      have := rowMajor_lt _ _ hin
      simpa [Nat.mul_assoc] using this
    rw [hr4, List.getElem?_map, flatMap_range_block n _ _ (fun k _ => hlen1 k) hk hlt, hst, likelyCells_at hin, hon]
    simp only [List.getD_cons_zero, List.getD_cons_succ, Option.map_some]
    split_ifs <;> simp
  have hmem : ∀ v, v ∈ ((List.range n).flatMap (fun k => (N k).statesW ((N k).run (1 / 2) 100))).map (fun (k : Nat) => (k : α)) ↔ ∃ k < n, ∃ c < nChan, ∃ f < nFeat, ∃ u < fH, ∃ w < fW, v = on k c f u w := by
    intro v
    constructor
    · intro hv
      obtain ⟨x, hx, rfl⟩ := List.mem_map.1 hv
      obtain ⟨k, hk, hx⟩ := List.mem_flatMap.1 hx
      rw [hst] at hx
      obtain ⟨cs, hcs, rfl⟩ := List.mem_map.1 hx
      have hin := (mem_allIndices _ _).1 hcs
      match cs, hin with
      | [c, f, u, w], hin =>
        simp only [List.forall₂_cons, List.Forall₂.nil, and_true] at hin
        refine ⟨k, List.mem_range.1 hk, c, hin.1, f, hin.2.1, u, hin.2.2.1, w, hin.2.2.2, ?_⟩
        rw [hon]
        simp only [List.getD_cons_zero, List.getD_cons_succ]
        split_ifs <;> simp
    · rintro ⟨k, hk, c, hc, f, hf, u, hu, w, hw, rfl⟩
      exact List.mem_of_getElem? (hcell k hk c hc f hf u hu w hw)
  generalize hdata : ((List.range n).flatMap (fun k => (N k).statesW ((N k).run (1 / 2) 100))).map (fun (k : Nat) => (k : α)) = data at *
  have hdl : data.length = n * (nChan * nFeat) * fH * fW := by rw [← hdata, List.length_map, hlen]
  obtain ⟨x, xs, rfl⟩ : ∃ x xs, data = x :: xs := by
    apply List.exists_cons_of_ne_nil
    rintro rfl
    have : 0 < n * (nChan * nFeat) * fH * fW := Nat.mul_pos (Nat.mul_pos (Nat.mul_pos (by omega) (Nat.mul_pos (by omega) (by omega))) (by omega)) (by omega)
    simp at hdl
    omega
  have hset : {v | v ∈ x :: xs} = {v | ∃ k < n, ∃ c < nChan, ∃ f < nFeat, ∃ u < fH, ∃ w < fW, v = on k c f u w} := Set.ext hmem
  obtain ⟨out, o1, o2, o3, o4⟩ := C97 (eps := eps) (nr := some (n : Int)) (R := n) (C := nChan * nFeat) hdl (.inl ⟨rfl, by omega, rfl⟩) (foldl_min_spec xs x) (foldl_max_spec' xs x)
  refine ⟨out, xs.foldl min x, xs.foldl max x, ?_, o2, o3, ?_, ?_, fun k hk c hc f hf u hu w hw ch hch => ?_⟩
  · rw [hfind, hdiv]
    exact o1
  · rw [← hset]
    exact foldl_min_spec xs x
  · rw [← hset]
    exact foldl_max_spec' xs x
  · have hcf : c * nFeat + f < nChan * nFeat := by
      have : (c + 1) * nFeat ≤ nChan * nFeat := Nat.mul_le_mul_right _ hc
      rw [Nat.add_mul, Nat.one_mul] at this
      omega
    have him : k * (nChan * nFeat) + (c * nFeat + f) < n * (nChan * nFeat) := by
      have : (k + 1) * (nChan * nFeat) ≤ n * (nChan * nFeat) := Nat.mul_le_mul_right _ hk
      rw [Nat.add_mul, Nat.one_mul] at this
      omega
    have := o4.image _ him u hu w hw ch hch
    rw [show (k * (nChan * nFeat) + (c * nFeat + f)) / (nChan * nFeat) = k by rw [Nat.mul_comm, Nat.mul_add_div (by omega), Nat.div_eq_of_lt hcf, Nat.add_zero],
      show (k * (nChan * nFeat) + (c * nFeat + f)) % (nChan * nFeat) = c * nFeat + f by rw [Nat.mul_comm, Nat.mul_add_mod, Nat.mod_eq_of_lt hcf]] at this
    rw [o3, this, List.getD, hcell k hk c hc f hf u hu w hw]
    rfl

end

/-- Non-vacuity: three images of one by two pixels, without a number of rows: two rows of two images, the last place is empty. -/
example : IsTiling 3 none 2 2 ∧ IsTiling 3 (some 3) 3 1 ∧ plotImages (1 : ℚ) false ⟨[3, 1, 2], [0, 1, 2, 3, 1, 1]⟩ none =
    .ok ⟨[5, 7, 3], tabulate3 5 7 3 (fun y x ch => if y % 2 = 0 then [1 / 2, 0, 1 / 2].getD ch 0 else
      (([[0, 0, 1 / 4, 0, 1 / 2, 3 / 4, 0], [0, 1 / 4, 1 / 4, 0, 0, 0, 0]] : List (List ℚ)).getD (y / 2) []).getD x 0)⟩ := by
  refine ⟨.inr ⟨rfl, rfl, by norm_num, fun k hk => by by_contra hc; interval_cases k <;> omega⟩, .inl ⟨rfl, by norm_num, rfl⟩, by decide +kernel⟩

end PGMax
