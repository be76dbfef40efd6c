import Verif.Props.C91_C92 -- not used: evaluating the examples of both files at the same time needs much memory
import Verif.Lemmas.DeconvDecode
import Verif.Lemmas.BatchDecode

/-! # C95: inference in the deconvolution program -/

namespace PGMax

section
variable {κ α : Type} [Field α] [LinearOrder α] [IsStrictOrderedRing α] [DecidableEq κ] {idW idS idSW idX idA idO nImg nChan imH imW nFeat fH fW : Nat}

/-- **C95.** For all sizes for which the deconvolution program builds its graph, it makes `bp` without an exception, and for all priors, noise and images for which no conjunction hears log odds
of 100000 or more, what is decoded for a sample are the signs of the log odds of `Verif.Spec.Deconv` after 100 iterations with damping 1/2. -/
theorem C95 (hi : DeconvIds idW idS idSW idX idA idO) (hs : DeconvSizes nImg nChan imH imW nFeat fH fW) (garbage : Garbage) (stateId : Nat) {env : Env α}
    (hsize : env.wrapNeg = false ∨ 8 * (nImg * nChan * (imH - fH + 1) * (imW - fW + 1) * nFeat * fH * fW) + 2 * (nImg * nChan * imH * imW) + 2 ≤ 100000) :
    ∃ s : DeconvSetup κ α, deconvSetup κ α idW idS idSW idX idA idO garbage stateId nImg nChan imH imW nFeat fH fW = .ok s ∧
      ∀ (lS lW lX : α) (noiseS noiseW xGt : List α) (N : DeconvNet α), N = DeconvNet.ofLists nImg nChan imH imW nFeat fH fW lS lW lX noiseS noiseW xGt →
        noiseS.length = nImg * nFeat * (imH - fH + 1) * (imW - fW + 1) * 2 → noiseW.length = nChan * nFeat * fH * fW * 2 → xGt.length = nImg * nChan * imH * imW → N.Quiet (1 / 2) 100 →
        deconvSample env s lS lW lX noiseS noiseW xGt = .ok [
          (.arr s.net.S, .arr ⟨[nImg, nFeat, imH - fH + 1, imW - fW + 1], N.statesS (N.run (1 / 2) 100)⟩),
          (.arr s.net.W, .arr ⟨[nChan, nFeat, fH, fW], N.statesW (N.run (1 / 2) 100)⟩),
          (.arr s.net.SW, .arr ⟨[nImg, nChan, imH, imW, nFeat, fH, fW], N.statesSW (N.run (1 / 2) 100)⟩),
          (.arr s.net.X, .arr ⟨[nImg, nChan, imH, imW], N.statesX (N.run (1 / 2) 100)⟩)] := by
  obtain ⟨s, st, h1, h2⟩ := deconv_setup (κ := κ) (α := α) hi hs garbage stateId
  refine ⟨s, h1, fun lS lW lX noiseS noiseW xGt N hN nS nW nX hq => ?_⟩
  obtain ⟨arrs, h3, h4⟩ := h2.init hs lS lW lX (noiseS := noiseS) (noiseW := noiseW) (xGt := xGt) (by rw [nS]; simp [Nat.mul_assoc]) (by rw [nW]; simp [Nat.mul_assoc])
    (by rw [nX]; simp [Nat.mul_assoc])
  rw [← hN] at h4
  obtain ⟨-, bs, h5, h6⟩ := h2.decode hi hs hsize hN h4 (d := 1 / 2) ⟨by norm_num, by norm_num⟩ 100 hq
  unfold deconvSample
  rw [h3, py_ok_bind, h5, py_ok_bind, h6]

omit [IsStrictOrderedRing α] [DecidableEq κ] [LinearOrder α] in
theorem addBatch_length (n : Nat) (u v : List α) (hv : v.length = n * u.length) : (addBatch n u v).length = n * u.length := by
  unfold addBatch
  rw [List.length_zipWith, hv]
  simp

omit [IsStrictOrderedRing α] [DecidableEq κ] [LinearOrder α] in
/-- Sample `k` of `u[None] + v`. -/
theorem addBatch_slice (n : Nat) (u v : List α) (hv : v.length = n * u.length) {k : Nat} (hk : k < n) :
    slice (addBatch n u v) (k * u.length) (k * u.length + u.length) = List.zipWith (· + ·) u ((v.drop (k * u.length)).take u.length) := by
  have hsl : ∀ w : List α, slice w (k * u.length) (k * u.length + u.length) = (w.drop (k * u.length)).take u.length := by
    intro w
    unfold slice
    rw [List.drop_take, Nat.add_sub_cancel_left]
  rw [hsl]
  unfold addBatch
  rw [List.drop_zipWith, List.take_zipWith]
  congr 1
  clear hsl hv v
  induction k generalizing n with
  | zero =>
    obtain ⟨m, rfl⟩ : ∃ m, n = m + 1 := ⟨n - 1, by omega⟩
    rw [List.replicate_succ, List.flatten_cons, Nat.zero_mul, List.drop_zero, List.take_left]
  | succ k ih =>
    obtain ⟨m, rfl⟩ : ∃ m, n = m + 1 := ⟨n - 1, by omega⟩
    rw [List.replicate_succ, List.flatten_cons, Nat.add_mul, Nat.one_mul, Nat.add_comm, ← List.drop_drop, List.drop_left]
    exact ih m (by omega)

omit [Field α] [LinearOrder α] [IsStrictOrderedRing α] [DecidableEq κ] in
/-- A batch of decoded arrays. -/
theorem batch_arrs {n : Nat} (L : List (VGroup κ × List Nat × (Nat → List Nat))) (hn : 1 ≤ n) {Y : PyTree κ Nat}
    (h : IsBatchTree ((List.range n).map (fun k => statesTree (L.map (fun q => (q.1, .arr ⟨q.2.1, q.2.2 k⟩))))) Y) :
    Y = ⟨L.map (fun q => (q.1, none)), L.map (fun q => ⟨n :: q.2.1, (List.range n).flatMap q.2.2⟩)⟩ := by
  have hleaves : ∀ k, (statesTree (L.map (fun q => (q.1, GroupStates.arr ⟨q.2.1, q.2.2 k⟩)))).leaves = L.map (fun q => ⟨q.2.1, q.2.2 k⟩) := by
    intro k
    unfold statesTree
    simp only [List.flatMap_map]
    rw [← List.map_eq_flatMap]
  have htd : ∀ k, (statesTree (L.map (fun q => (q.1, GroupStates.arr ⟨q.2.1, q.2.2 k⟩)))).treedef = L.map (fun q => (q.1, none)) := by
    intro k
    unfold statesTree
    simp only [List.map_map]
    rfl
  have h0 : statesTree (L.map (fun q => (q.1, GroupStates.arr ⟨q.2.1, q.2.2 0⟩))) ∈ (List.range n).map (fun k => statesTree (L.map (fun q => (q.1, .arr ⟨q.2.1, q.2.2 k⟩)))) :=
    List.mem_map.2 ⟨0, List.mem_range.2 (by omega), rfl⟩
  have h1 := h.treedef _ h0
  have h2 := h.length _ h0
  rw [hleaves, List.length_map] at h2
  rw [htd] at h1
  obtain ⟨td, ls⟩ := Y
  congr 1
  · exact h1.symm
  · apply List.ext_getElem?
    intro j
    by_cases hj : j < L.length
    · have hj' : j < ls.length := by rw [← show L.length = ls.length from h2]; exact hj
      obtain ⟨sh, hb⟩ := h.leaf j ls[j] (List.getElem?_eq_getElem hj')
      have hget : ∀ k, (statesTree (L.map (fun q => (q.1, GroupStates.arr ⟨q.2.1, q.2.2 k⟩)))).leaves.getD j ⟨[], []⟩ = ⟨L[j].2.1, L[j].2.2 k⟩ := by
        intro k
        rw [hleaves, List.getD, List.getElem?_map, List.getElem?_eq_getElem hj]
        rfl
      have r1 := hb.shape ⟨L[j].2.1, L[j].2.2 0⟩ (List.mem_map.2 ⟨_, h0, hget 0⟩)
      have e1 := hb.eq
      subst r1
      rw [List.map_map, List.flatMap_map, List.length_map, List.length_range] at e1
      rw [List.getElem?_eq_getElem hj', List.getElem?_map, List.getElem?_eq_getElem hj, e1]
      simp only [Function.comp_apply, hget, Option.map_some]
    · rw [List.getElem?_eq_none (by rw [← show L.length = ls.length from h2]; omega), List.getElem?_eq_none (by simpa using hj)]

/-- **C95, batches.** Sample `k` of a batch of `n` samples is decoded from block `k` of the two arrays of noise and from the images. -/
theorem C95_batch (hi : DeconvIds idW idS idSW idX idA idO) (hs : DeconvSizes nImg nChan imH imW nFeat fH fW) (garbage : Garbage) (stateId : Nat) {env : Env α}
    (hsize : env.wrapNeg = false ∨ 8 * (nImg * nChan * (imH - fH + 1) * (imW - fW + 1) * nFeat * fH * fW) + 2 * (nImg * nChan * imH * imW) + 2 ≤ 100000) :
    ∃ s : DeconvSetup κ α, deconvSetup κ α idW idS idSW idX idA idO garbage stateId nImg nChan imH imW nFeat fH fW = .ok s ∧
      ∀ (n : Nat) (lS lW lX : α) (noiseS noiseW xGt : List α) (mS mW : Nat) (N : Nat → DeconvNet α), mS = nImg * nFeat * (imH - fH + 1) * (imW - fW + 1) * 2 → mW = nChan * nFeat * fH * fW * 2 →
        (∀ k, N k = DeconvNet.ofLists nImg nChan imH imW nFeat fH fW lS lW lX ((noiseS.drop (k * mS)).take mS) ((noiseW.drop (k * mW)).take mW) xGt) → 1 ≤ n →
        noiseS.length = n * mS → noiseW.length = n * mW → xGt.length = nImg * nChan * imH * imW → (∀ k < n, (N k).Quiet (1 / 2) 100) →
        deconvSamples env s n lS lW lX noiseS noiseW xGt = .ok ⟨[(.arr s.net.S, none), (.arr s.net.W, none), (.arr s.net.SW, none), (.arr s.net.X, none)],
          [⟨[n, nImg, nFeat, imH - fH + 1, imW - fW + 1], (List.range n).flatMap (fun k => (N k).statesS ((N k).run (1 / 2) 100))⟩,
           ⟨[n, nChan, nFeat, fH, fW], (List.range n).flatMap (fun k => (N k).statesW ((N k).run (1 / 2) 100))⟩,
           ⟨[n, nImg, nChan, imH, imW, nFeat, fH, fW], (List.range n).flatMap (fun k => (N k).statesSW ((N k).run (1 / 2) 100))⟩,
           ⟨[n, nImg, nChan, imH, imW], (List.range n).flatMap (fun k => (N k).statesX ((N k).run (1 / 2) 100))⟩]⟩ := by
  obtain ⟨s, st, h1, h2⟩ := deconv_setup (κ := κ) (α := α) hi hs garbage stateId
  refine ⟨s, h1, fun n lS lW lX noiseS noiseW xGt mS mW N eS eW hN hn nS nW nX hq => ?_⟩
  obtain ⟨state, hbp, -⟩ := h2.bp
  have eS' : mS = [nImg, nFeat, imH - fH + 1, imW - fW + 1].prod * 2 := by rw [eS]; simp [Nat.mul_assoc]
  have eW' : mW = [nChan, nFeat, fH, fW].prod * 2 := by rw [eW]; simp [Nat.mul_assoc]
  have hblock : ∀ (l : List α) (m k : Nat), l.length = n * m → k < n → ((l.drop (k * m)).take m).length = m := by
    intro l m k hl hk
    have : (k + 1) * m ≤ n * m := Nat.mul_le_mul_right _ hk
    rw [Nat.add_mul, Nat.one_mul] at this
    rw [List.length_take, List.length_drop, hl]
    omega
  have hex : ∀ k, ∃ arrs, k < n → s.bp.update none none none (some (deconvUpdates s.net lS lW lX ((noiseS.drop (k * mS)).take mS) ((noiseW.drop (k * mW)).take mW) xGt)) = .ok arrs ∧
      DeconvInit idW idS idSW idX (N k) st arrs := by
    intro k
    by_cases hk : k < n
    · obtain ⟨arrs, h3, h4⟩ := h2.init hs lS lW lX (noiseS := (noiseS.drop (k * mS)).take mS) (noiseW := (noiseW.drop (k * mW)).take mW) (xGt := xGt)
        (by rw [hblock _ _ _ nS hk, eS']) (by rw [hblock _ _ _ nW hk, eW']) (by rw [nX]; simp [Nat.mul_assoc])
      rw [← hN k] at h4
      exact ⟨arrs, fun _ => ⟨h3, h4⟩⟩
    · exact ⟨⟨[], [], []⟩, fun h => absurd h hk⟩
  choose arrsOf hinit using hex
  have hd : (0 : α) ≤ 1 / 2 ∧ (1 / 2 : α) ≤ 1 := ⟨by norm_num, by norm_num⟩
  have hdec := fun k (hk : k < n) => h2.decode hi hs hsize (hN k) (hinit k hk).2 hd 100 (hq k hk)
  have hlen : ∀ a ∈ s.bp.vmapRun env ((List.range n).map arrsOf) 100 (1 / 2), a.ftovMsgs.length = st.totalFactorNumStates ∧ a.evidence.length = st.numVarStates := by
    intro a ha
    unfold BPFun.vmapRun at ha
    rw [List.map_map] at ha
    obtain ⟨k, hk, rfl⟩ := List.mem_map.1 ha
    have hk := List.mem_range.1 hk
    refine ⟨(hdec k hk).1, ?_⟩
    rw [Function.comp_apply, runBP_evidence]
    exact (hinit k hk).2.len
  let ss : BPArrays α → List (VGroup κ × GroupStates κ) := fun a => match (s.bp.getBeliefs a).bind decodeMapStates with
    | .ok r => r
    | .error _ => []
  have hss0 : ∀ a bs r, s.bp.getBeliefs a = .ok bs → decodeMapStates bs = .ok r → ss a = r := by
    intro a bs r e1 e2
    simp only [ss, e1, Except.bind, e2]
  clear_value ss
  have hss : ∀ k < n, (∃ bs, s.bp.getBeliefs (s.bp.runBP env (arrsOf k) 100 (1 / 2)) = .ok bs ∧ decodeMapStates bs = .ok (ss (s.bp.runBP env (arrsOf k) 100 (1 / 2)))) ∧
      ss (s.bp.runBP env (arrsOf k) 100 (1 / 2)) = [
          (.arr s.net.S, .arr ⟨[nImg, nFeat, imH - fH + 1, imW - fW + 1], (N k).statesS ((N k).run (1 / 2) 100)⟩),
          (.arr s.net.W, .arr ⟨[nChan, nFeat, fH, fW], (N k).statesW ((N k).run (1 / 2) 100)⟩),
          (.arr s.net.SW, .arr ⟨[nImg, nChan, imH, imW, nFeat, fH, fW], (N k).statesSW ((N k).run (1 / 2) 100)⟩),
          (.arr s.net.X, .arr ⟨[nImg, nChan, imH, imW], (N k).statesX ((N k).run (1 / 2) 100)⟩)] := by
    intro k hk
    obtain ⟨-, bs, e1, e2⟩ := hdec k hk
    have e3 := hss0 _ _ _ e1 e2
    exact ⟨⟨bs, e1, by rw [e3, e2]⟩, e3⟩
  obtain ⟨X, Y, x1, x2, x3⟩ := decode_batch h2.compiled hbp (s.bp.vmapRun env ((List.range n).map arrsOf) 100 (1 / 2)) (by
      unfold BPFun.vmapRun
      intro h
      have := congrArg List.length h
      simp at this
      omega) hlen (deconv_groups hs).1 (by
      intro g hg
      simp only [dVgs, List.mem_cons, List.not_mem_nil, or_false, VGroup.arr.injEq] at hg
      rcases hg with rfl | rfl | rfl | rfl <;> simp [uniArr]) ss (by
      intro a ha
      unfold BPFun.vmapRun at ha
      rw [List.map_map] at ha
      obtain ⟨k, hk, rfl⟩ := List.mem_map.1 ha
      exact (hss k (List.mem_range.1 hk)).1)
  have shS : s.net.S.shape = [nImg, nFeat, imH - fH + 1, imW - fW + 1] := by rw [h2.net]; rfl
  have shW : s.net.W.shape = [nChan, nFeat, fH, fW] := by rw [h2.net]; rfl
  have shSW : s.net.SW.shape = [nImg, nChan, imH, imW, nFeat, fH, fW] := by rw [h2.net]; rfl
  have shX : s.net.X.shape = [nImg, nChan, imH, imW] := by rw [h2.net]; rfl
  have lcol : ∀ (c : Nat) (l : List α), (setColumn c l).length = l.length * 2 := setColumn_length
  have hup : s.bp.vmapInit [
      (.arr s.net.S, ⟨n :: (s.net.S.shape ++ [2]), addBatch n (setColumn 1 (List.replicate s.net.S.shape.prod lS)) noiseS⟩),
      (.arr s.net.W, ⟨n :: (s.net.W.shape ++ [2]), addBatch n (setColumn 1 (List.replicate s.net.W.shape.prod lW)) noiseW⟩),
      (.arr s.net.SW, ⟨n :: s.net.SW.shape, List.replicate (n * s.net.SW.shape.prod) 0⟩),
      (.arr s.net.X, ⟨n :: (s.net.X.shape ++ [2]), addBatch n (setColumn 0 (xGt.map (fun x => (2 * x - 1) * lX)))
        (List.replicate (n * (setColumn 0 (xGt.map (fun x => (2 * x - 1) * lX))).length) 0)⟩)] = .ok ((List.range n).map arrsOf) := by
    simp only [BPFun.vmapInit]
    rw [if_pos (by simp)]
    refine mapM_ok _ _ _ fun k hk => ?_
    have hk := List.mem_range.1 hk
    have e1 := (hinit k hk).1
    have pS : (s.net.S.shape ++ [2]).prod = (setColumn 1 (List.replicate s.net.S.shape.prod lS)).length := by rw [lcol]; simp
    have pW : (s.net.W.shape ++ [2]).prod = (setColumn 1 (List.replicate s.net.W.shape.prod lW)).length := by rw [lcol]; simp
    have pX : (s.net.X.shape ++ [2]).prod = (setColumn 0 (xGt.map (fun x => (2 * x - 1) * lX))).length := by rw [lcol, List.length_map, nX, shX]; simp [Nat.mul_assoc]
    have qS : (setColumn 1 (List.replicate s.net.S.shape.prod lS)).length = mS := by rw [lcol, List.length_replicate, shS, eS']
    have qW : (setColumn 1 (List.replicate s.net.W.shape.prod lW)).length = mW := by rw [lcol, List.length_replicate, shW, eW']
    have z1 := addBatch_slice n (setColumn 1 (List.replicate s.net.S.shape.prod lS)) noiseS (by rw [nS, qS]) hk
    have z2 := addBatch_slice n (setColumn 1 (List.replicate s.net.W.shape.prod lW)) noiseW (by rw [nW, qW]) hk
    have z4 := addBatch_slice n (setColumn 0 (xGt.map (fun x => (2 * x - 1) * lX)))
        (List.replicate (n * (setColumn 0 (xGt.map (fun x => (2 * x - 1) * lX))).length) 0) (by rw [List.length_replicate]) hk
    have zrep : ∀ m, slice (List.replicate (n * m) (0 : α)) (k * m) (k * m + m) = List.replicate m 0 := by
      intro m
      have : (k + 1) * m ≤ n * m := Nat.mul_le_mul_right _ hk
      rw [Nat.add_mul, Nat.one_mul] at this
      unfold slice
      rw [List.take_replicate, List.drop_replicate]
      congr 1
      omega
    have zrep' : ∀ m, ((List.replicate (n * m) (0 : α)).drop (k * m)).take m = List.replicate m 0 := by
      intro m
      rw [← zrep m]
      unfold slice
      rw [List.drop_take, Nat.add_sub_cancel_left]
    rw [zrep'] at z4
    rw [qS] at z1
    rw [qW] at z2
    simp only [List.map_cons, List.map_nil, NDArr.sample, List.tail_cons]
    rw [pS, pW, pX, qS, qW, z1, z2, z4, zrep]
    exact e1
  unfold deconvSamples
  simp only
  rw [hup, py_ok_bind, x1, py_ok_bind, x2]
  congr 1
  unfold BPFun.vmapRun at x3
  rw [List.map_map, List.map_map, List.map_congr_left (g := fun k => statesTree ([((.arr s.net.S : VGroup κ), [nImg, nFeat, imH - fH + 1, imW - fW + 1], fun k => (N k).statesS ((N k).run (1 / 2) 100)),
          (.arr s.net.W, [nChan, nFeat, fH, fW], fun k => (N k).statesW ((N k).run (1 / 2) 100)),
          (.arr s.net.SW, [nImg, nChan, imH, imW, nFeat, fH, fW], fun k => (N k).statesSW ((N k).run (1 / 2) 100)),
          (.arr s.net.X, [nImg, nChan, imH, imW], fun k => (N k).statesX ((N k).run (1 / 2) 100))].map (fun q => (q.1, .arr ⟨q.2.1, q.2.2 k⟩)))) (by
    intro k hk
    simp only [Function.comp_apply]
    rw [(hss k (List.mem_range.1 hk)).2]
    rfl)] at x3
  exact batch_arrs _ hn x3

end

section
variable {α : Type _} [Field α] [LinearOrder α] [IsStrictOrderedRing α]

theorem maxBump_le (w a : α) : |maxBump w a| ≤ |w| := by
  unfold maxBump
  rw [abs_le]
  rcases le_total 0 w with hw | hw
  · rw [abs_of_nonneg hw]
    constructor
    · have := max_le_max (le_refl (0 : α)) (show a ≤ w + a by linarith)
      linarith
    · have : max 0 (w + a) ≤ w + max 0 a := max_le (by linarith [le_max_left 0 a]) (by linarith [le_max_right 0 a])
      linarith
  · rw [abs_of_nonpos hw]
    constructor
    · have : max 0 a ≤ -w + max 0 (w + a) := max_le (by linarith [le_max_left 0 (w + a)]) (by linarith [le_max_right 0 (w + a)])
      linarith
    · have := max_le_max (le_refl (0 : α)) (show w + a ≤ a by linarith)
      linarith

theorem orBack_le {ι : Type _} [DecidableEq ι] (s : Finset ι) (x : ι → α) (c : α) (p : ι) : |orBack s x c p| ≤ |c| := by
  unfold orBack
  by_cases he : s.erase p = ∅
  · rw [if_pos he, he, Finset.sum_empty]
    simp
  rw [if_neg he]
  have hne := Finset.nonempty_iff_ne_empty.2 he
  unfold orOdds
  have hA : 0 ≤ ∑ q ∈ s.erase p, max 0 (x q) := Finset.sum_nonneg fun q _ => le_max_left _ _
  have hpk : min 0 (peak (s.erase p) x) < 0 → ∑ q ∈ s.erase p, max 0 (x q) = 0 := by
    intro h
    refine Finset.sum_eq_zero fun q hq => max_eq_left ?_
    have h1 : x q ≤ peak (s.erase p) x := by
      unfold peak
      rw [dif_pos hne]
      exact Finset.le_sup' x hq
    have h2 : peak (s.erase p) x < 0 := by
      rcases lt_min_iff.not.1 (not_lt.2 h.le) with _
      by_contra hc
      rw [min_eq_left (not_lt.1 hc)] at h
      exact lt_irrefl _ h
    exact (h1.trans_lt h2).le
  rw [abs_le]
  have hm : min 0 (peak (s.erase p) x) ≤ 0 := min_le_left _ _
  generalize min 0 (peak (s.erase p) x) = m at *
  generalize ∑ q ∈ s.erase p, max 0 (x q) = A at *
  rcases hm.lt_or_eq with hm | hm
  · rw [hpk hm]
    rcases le_total 0 c with hc | hc
    · rw [abs_of_nonneg hc]
      constructor
      · have : max 0 (c + (0 + m)) ≤ c := max_le hc (by linarith)
        linarith
      · linarith [le_max_left 0 (c + (0 + m))]
    · rw [abs_of_nonpos hc, max_eq_left (by linarith)]
      constructor <;> linarith
  · subst hm
    rcases le_total 0 (c + (A + 0)) with h | h
    · rw [max_eq_right h]
      constructor <;> linarith [abs_nonneg c]
    · rw [max_eq_left h]
      constructor
      · linarith [neg_abs_le c]
      · linarith [le_abs_self c, abs_nonneg c]

theorem damped_le {d old new B : α} (hd : 0 ≤ d ∧ d ≤ 1) (ho : |old| ≤ B) (hn : |new| ≤ B) : |damped d old new| ≤ B := by
  have hB : 0 ≤ B := (abs_nonneg _).trans ho
  rw [abs_le] at ho hn ⊢
  have h1 : d * old + (1 - d) * new ≤ B := by
    have := mul_le_mul_of_nonneg_left ho.2 hd.1
    have := mul_le_mul_of_nonneg_left hn.2 (sub_nonneg.2 hd.2)
    linarith
  have h2 : -B ≤ d * old + (1 - d) * new := by
    have := mul_le_mul_of_nonneg_left ho.1 hd.1
    have := mul_le_mul_of_nonneg_left hn.1 (sub_nonneg.2 hd.2)
    linarith
  unfold damped
  constructor
  · rcases le_total 1000 (d * old + (1 - d) * new) with h | h
    · rw [min_eq_left h]
      exact le_trans (by linarith) (le_max_right _ _)
    · rw [min_eq_right h]
      exact h2.trans (le_max_right _ _)
  · refine max_le ?_ ((min_le_right _ _).trans h1)
    linarith

variable {N : DeconvNet α} {B d : α}

theorem DeconvNet.run_le (hd : 0 ≤ d ∧ d ≤ 1) (hX : ∀ cs, |N.eX cs| ≤ B) (t : Nat) (p : Place) :
    |(N.run d t).up p| ≤ B ∧ |(N.run d t).toS p| ≤ B ∧ |(N.run d t).toW p| ≤ B := by
  have hB : 0 ≤ B := (abs_nonneg _).trans (hX [])
  induction t with
  | zero => simpa [DeconvNet.run] using hB
  | succ t ih =>
    obtain ⟨h1, h2, h3⟩ := ih
    exact ⟨damped_le hd h1 ((orBack_le _ _ _ _).trans (hX _)), damped_le hd h2 ((maxBump_le _ _).trans h1), damped_le hd h3 ((maxBump_le _ _).trans h1)⟩

/-- **C95, sizes.** No conjunction hears log odds of 100000 if the log odds of the pixels are at most `B` and those of `S` and `W`, together with `B` for every message that they receive, are smaller. -/
theorem C95_quiet (hd : 0 ≤ d ∧ d ≤ 1) (hX : ∀ cs, |N.eX cs| ≤ B) (hS : ∀ cs, N.eS cs + (N.nChan * N.fH * N.fW : ℕ) * B < 100000) (hW : ∀ cs, N.eW cs + (N.nImg * N.rows * N.cols : ℕ) * B < 100000)
    (n : Nat) : N.Quiet d n := by
  have hB : 0 ≤ B := (abs_nonneg _).trans (hX [])
  have key : ∀ (s : Finset Place) (f : Place → α) (p : Place) (k : Nat), s.card ≤ k → (∀ q, |f q| ≤ B) → p ∈ s → ∑ q ∈ s, f q - f p ≤ k * B := by
    intro s f p k hk hf hp
    have h1 : ∑ q ∈ s.erase p, f q = ∑ q ∈ s, f q - f p := by rw [← Finset.add_sum_erase s f hp]; ring
    rw [← h1]
    have h2 : ∑ q ∈ s.erase p, f q ≤ (s.erase p).card • B := Finset.sum_le_card_nsmul _ _ _ fun q _ => (le_abs_self _).trans (hf q)
    rw [nsmul_eq_mul] at h2
    refine h2.trans (mul_le_mul_of_nonneg_right ?_ hB)
    exact_mod_cast (Finset.card_erase_le).trans hk
  intro t _ p hp
  obtain ⟨h1, h2, h3, h4, h5, h6, h7⟩ := hp
  constructor
  · have hm : p ∈ N.atS p.img p.feat p.sh p.sw := DeconvNet.mem_atS.2 ⟨rfl, rfl, rfl, rfl, h2, h6, h7⟩
    have hc : (N.atS p.img p.feat p.sh p.sw).card ≤ N.nChan * N.fH * N.fW := by
      refine Finset.card_image_le.trans ?_
      simp [Nat.mul_assoc]
    have := key _ _ p _ hc (fun q => (DeconvNet.run_le hd hX t q).2.1) hm
    have := hS [p.img, p.feat, p.sh, p.sw]
    unfold DeconvNet.fromS DeconvNet.oddsS
    linarith
  · have hm : p ∈ N.atW p.chan p.feat p.fh p.fw := DeconvNet.mem_atW.2 ⟨rfl, rfl, rfl, rfl, h1, h3, h4⟩
    have hc : (N.atW p.chan p.feat p.fh p.fw).card ≤ N.nImg * N.rows * N.cols := by
      refine Finset.card_image_le.trans ?_
      simp [Nat.mul_assoc]
    have := key _ _ p _ hc (fun q => (DeconvNet.run_le hd hX t q).2.2) hm
    have := hW [p.chan, p.feat, p.fh, p.fw]
    unfold DeconvNet.fromW DeconvNet.oddsW
    linarith

end

/-- Non-vacuity: one image of two pixels and one feature of one pixel meet the hypotheses (ids, sizes, lengths, the bounds of `C95_quiet` for both samples). -/
example : DeconvIds 1 2 3 4 5 6 ∧ DeconvSizes 1 1 1 2 1 1 1 ∧ ([0, 1 / 2, 0, 0, 0, 0, 0, 12] : List ℚ).length = 2 * (1 * 1 * (1 - 1 + 1) * (2 - 1 + 1) * 2) ∧ ([0, 1, 0, 0] : List ℚ).length = 2 * (1 * 1 * 1 * 1 * 2) ∧
    (∀ k < 2, (DeconvNet.ofLists 1 1 1 2 1 1 1 (-1) (-1 / 2) (-8) ((([0, 1 / 2, 0, 0, 0, 0, 0, 12] : List ℚ).drop (k * 4)).take 4) ((([0, 1, 0, 0] : List ℚ).drop (k * 2)).take 2) [1, 0]).Quiet (1 / 2) 100) := by
  refine ⟨⟨by decide, by decide⟩, by unfold DeconvSizes; decide, by decide, by decide, ?_⟩
  have hX : ∀ i, |((1 : ℚ) - 2 * ([1, 0] : List ℚ).getD i 0) * -8| ≤ 8 := by
    intro i
    rcases i with _ | _ | i <;> norm_num
  have hp : ∀ (l : List ℚ) i, (∀ x ∈ l, |x| ≤ 12) → pairOdds l i ≤ 24 := by
    intro l i hl
    have h : ∀ j, |l.getD j 0| ≤ 12 := by
      intro j
      rw [List.getD]
      rcases hj : l[j]? with _ | x
      · norm_num
      · exact hl x (List.mem_of_getElem? hj)
    have h1 := abs_le.1 (h (i * 2 + 1))
    have h2 := abs_le.1 (h (i * 2))
    unfold pairOdds
    linarith
  have hl : ∀ (l : List ℚ) a b, (∀ x ∈ l, |x| ≤ 12) → ∀ x ∈ (l.drop a).take b, |x| ≤ 12 := fun l a b h x hx => h x (List.mem_of_mem_drop (List.mem_of_mem_take hx))
  intro k _
  have hS : ∀ x ∈ (([0, 1 / 2, 0, 0, 0, 0, 0, 12] : List ℚ).drop (k * 4)).take 4, |x| ≤ 12 := hl _ _ _ (by decide +kernel)
  have hW : ∀ x ∈ (([0, 1, 0, 0] : List ℚ).drop (k * 2)).take 2, |x| ≤ 12 := hl _ _ _ (by decide +kernel)
  generalize (([0, 1 / 2, 0, 0, 0, 0, 0, 12] : List ℚ).drop (k * 4)).take 4 = nS at *
  generalize (([0, 1, 0, 0] : List ℚ).drop (k * 2)).take 2 = nW at *
  refine C95_quiet (B := 8) ⟨by norm_num, by norm_num⟩ (fun cs => ?_) (fun cs => ?_) (fun cs => ?_) 100
  · simpa only [DeconvNet.ofLists] using hX (rowMajor [1, 1, 1, 2] cs)
  · have := hp nS (rowMajor [1, 1, 1 - 1 + 1, 2 - 1 + 1] cs) hS
    have e : (((1 * 1 * 1 : ℕ) : ℚ)) = 1 := by norm_num
    show -1 + pairOdds nS (rowMajor [1, 1, 1 - 1 + 1, 2 - 1 + 1] cs) + ((1 * 1 * 1 : ℕ) : ℚ) * 8 < 100000
    rw [e]
    linarith
  · have := hp nW (rowMajor [1, 1, 1, 1] cs) hW
    have e : (((1 * (1 - 1 + 1) * (2 - 1 + 1) : ℕ) : ℚ)) = 2 := by norm_num
    show -1 / 2 + pairOdds nW (rowMajor [1, 1, 1, 1] cs) + ((1 * (1 - 1 + 1) * (2 - 1 + 1) : ℕ) : ℚ) * 8 < 100000
    rw [e]
    linarith

/-- Two features of one pixel in an image of one pixel: noise for one of them makes it explain the pixel. -/
example : ((deconvSetup Nat ℚ 1 2 3 4 5 6 (fun _ _ => 0) 7 1 1 1 1 2 1 1).bind (fun s =>
    (deconvSample exEnv s (-1) (-1 / 2) (-8) [0, 1, 0, 0] [0, 0, 0, 0] [1]).map (fun r => r.filterMap (fun p => p.2.arr?)))).toOption
    = some [⟨[1, 2, 1, 1], [1, 0]⟩, ⟨[1, 2, 1, 1], [1, 0]⟩, ⟨[1, 1, 1, 1, 2, 1, 1], [1, 0]⟩, ⟨[1, 1, 1, 1], [1]⟩] := by
  decide +kernel

end PGMax
