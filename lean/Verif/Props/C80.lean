import Verif.Lemmas.Image

/-! # C80: the bottom-up messages of the RCN program -/

namespace PGMax

variable {α : Type _}

theorem buMsg_ok [Field α] [LinearOrder α] [IsStrictOrderedRing α] (threshold : α) (masks : List (NDArr Bool)) (H W : Nat) (filtered : List (List α)) (hne : filtered ≠ [])
    (hlen : ∀ layer ∈ filtered, layer.length = H * W)
    (hmask : ∀ (j : Nat) mask, masks[j]? = some mask → j < filtered.length → MaskOk mask) :
    ∃ localized : List (List α), buMsg threshold masks H W filtered = .ok ⟨[filtered.length, H, W], (pool localized).flatten⟩ ∧ localized.length = filtered.length ∧
      (∀ l ∈ localized, l.length = H * W) ∧ (∀ l ∈ localized, ∀ x ∈ l, x = 0 ∨ x = 1) ∧
      (0 < threshold → ∀ i < filtered.length, ∀ r < H, ∀ c < W, (localized.getD i []).getD (r * W + c) 0 = 1 ↔
        ∃ mask, masks[i]? = some mask ∧ Detects threshold filtered.length H W (mask.shape.getD 0 0) (mask.shape.getD 1 0)
          (fun u w => mask.data.getD (u * mask.shape.getD 1 0 + w) false) (fun j r c => (filtered.getD j []).getD (r * W + c) 0) i r c) := by
  classical
  have key := fun k : Nat => imgMax_spec (l := filtered.map (fun layer => layer.getD k 0)) (fun e => hne (List.map_eq_nil_iff.1 e))
  choose cross hc1 hc2 using key
  set layers := filtered.map (fun layer => layer.map (fun x => if x < 0 then 0 else x)) with hlayers
  have hll : ∀ layer ∈ layers, layer.length = H * W := by
    intro layer hlay
    obtain ⟨l, hl, rfl⟩ := List.mem_map.1 hlay
    rw [List.length_map]
    exact hlen l hl
  obtain ⟨ls, h1, h2, h3⟩ := localize_spec H W layers masks hll (fun j mask hj hlt => hmask j mask hj (by simpa [hlayers] using hlt))
  have hlayn : layers.length = filtered.length := by simp [hlayers]
  -- one pixel
  have pix : ∀ i < filtered.length, ∃ layer loc, filtered[i]? = some layer ∧ layers[i]? = some (layer.map (fun x => if x < 0 then 0 else x)) ∧ ls[i]? = some loc ∧ loc.length = H * W ∧
      ∀ r < H, ∀ c < W, loc[r * W + c]? = some (if ∃ mask, masks[i]? = some mask ∧
        Peak mask H W (fun r c => (layer.map (fun x => if x < 0 then 0 else x)).getD (r * W + c) 0) r c then 1 else 0) := by
    intro i hi
    have e1 := List.getElem?_eq_getElem hi
    have e2 : layers[i]? = some (filtered[i].map (fun x => if x < 0 then 0 else x)) := by rw [hlayers, List.getElem?_map, e1]; rfl
    obtain ⟨loc, k1, k2, k3⟩ := h3 i _ e2
    exact ⟨_, loc, e1, e2, k1, k2, k3⟩
  have hpix : ∀ k < H * W, k / W < H ∧ k % W < W ∧ k / W * W + k % W = k := by
    intro k hk
    have hW : 0 < W := by
      rcases Nat.eq_zero_or_pos W with rfl | h
      · omega
      · exact h
    exact ⟨Nat.div_lt_of_lt_mul (by rw [Nat.mul_comm]; exact hk), Nat.mod_lt _ hW, Nat.div_add_mod' k W⟩
  have hrow : ∀ i < filtered.length, ∃ layer, filtered[i]? = some layer ∧
      ∃ l, (List.zipWith (fun loc layer => List.zipWith (fun l p => binarize threshold l p.1 p.2) loc (((List.range (H * W)).map cross).zip layer)) ls layers)[i]? = some l ∧
        l.length = H * W ∧ ∀ r < H, ∀ c < W, l[r * W + c]? = some (binarize threshold (if ∃ mask, masks[i]? = some mask ∧
          Peak mask H W (fun r c => (layer.map (fun x => if x < 0 then 0 else x)).getD (r * W + c) 0) r c then 1 else 0) (cross (r * W + c))
            (if layer.getD (r * W + c) 0 < 0 then 0 else layer.getD (r * W + c) 0)) := by
    intro i hi
    obtain ⟨layer, loc, k1, k2, k3, k4, k5⟩ := pix i hi
    have hl := hlen layer (List.mem_of_getElem? k1)
    refine ⟨layer, k1, _, by rw [List.getElem?_zipWith, k3, k2], by simp [k4, hl], fun r hr c hc => ?_⟩
    have hlt := pixel_lt hr hc
    have e : layer[r * W + c]? = some (layer.getD (r * W + c) 0) := by rw [List.getD, List.getElem?_eq_getElem (by rw [hl]; exact hlt)]; rfl
    have ez : (((List.range (H * W)).map cross).zip (layer.map (fun x => if x < 0 then 0 else x)))[r * W + c]? =
        some (cross (r * W + c), if layer.getD (r * W + c) 0 < 0 then 0 else layer.getD (r * W + c) 0) := by
      rw [List.getElem?_zip_eq_some]
      refine ⟨by rw [List.getElem?_map, List.getElem?_range hlt]; rfl, by rw [List.getElem?_map, e]; rfl⟩
    rw [List.getElem?_zipWith, k5 r hr c hc, ez]
  refine ⟨List.zipWith (fun loc layer => List.zipWith (fun l p => binarize threshold l p.1 p.2) loc (((List.range (H * W)).map cross).zip layer)) ls layers, ?_, ?_, ?_, ?_, ?_⟩
  · unfold buMsg
    rw [mapM_ok _ cross _ (fun k _ => hc1 k), py_ok_bind]
    simp only [if_neg hne]
    rw [← hlayers]
    show (do
      let localized ← localize H W layers masks
      pure (⟨[filtered.length, H, W], (pool (List.zipWith (fun loc layer => List.zipWith (fun l (p : α × α) => binarize threshold l p.1 p.2) loc
        (((List.range (H * W)).map cross).zip layer)) localized layers)).flatten⟩ : NDArr α)) = _
    rw [h1, py_ok_bind]
    rfl
  · rw [List.length_zipWith, h2, hlayn, min_self]
  · intro l hl
    obtain ⟨i, hi⟩ := List.mem_iff_getElem?.1 hl
    have hlt := (List.getElem?_eq_some_iff.1 hi).1
    rw [List.length_zipWith, h2, hlayn, min_self] at hlt
    obtain ⟨layer, -, l', k1, k2, -⟩ := hrow i hlt
    rw [hi] at k1
    cases k1
    exact k2
  · intro l hl x hx
    obtain ⟨i, hi⟩ := List.mem_iff_getElem?.1 hl
    have hlt := (List.getElem?_eq_some_iff.1 hi).1
    rw [List.length_zipWith, h2, hlayn, min_self] at hlt
    obtain ⟨layer, -, l', k1, k2, k3⟩ := hrow i hlt
    rw [hi] at k1
    cases k1
    obtain ⟨k, hk⟩ := List.mem_iff_getElem?.1 hx
    have hklt := (List.getElem?_eq_some_iff.1 hk).1
    rw [k2] at hklt
    obtain ⟨p1, p2, p3⟩ := hpix k hklt
    have := k3 _ p1 _ p2
    rw [p3, hk] at this
    cases this
    exact binarize_values _ _ _ (by split <;> simp)
  · intro ht i hi r hr c hc
    obtain ⟨layer, k0, l, k1, k2, k3⟩ := hrow i hi
    have e0 : filtered.getD i [] = layer := by rw [List.getD, k0, Option.getD_some]
    rw [List.getD, List.getD, k1, Option.getD_some, k3 r hr c hc, Option.getD_some, binarize_eq ht _ _ (by split <;> simp)]
    have hlt := pixel_lt hr hc
    have hz : ∀ k < H * W, (layer.map (fun x => if x < 0 then 0 else x)).getD k 0 = if layer.getD k 0 < 0 then 0 else layer.getD k 0 := by
      intro k hk
      have e : layer[k]? = some (layer.getD k 0) := by
        rw [List.getD, List.getElem?_eq_getElem (by rw [hlen layer (List.mem_of_getElem? k0)]; exact hk)]
        rfl
      rw [List.getD, List.getElem?_map, e]
      rfl
    have hcl : ∀ x y : Int, clamp H x * W + clamp W y < H * W := fun x y => pixel_lt (clamp_lt _ (by omega)) (clamp_lt _ (by omega))
    have hcross : ∀ x, cross (r * W + c) ≤ x ↔ ∀ j < filtered.length, (filtered.getD j []).getD (r * W + c) 0 ≤ x := by
      intro x
      rw [hc2]
      constructor
      · intro h j hj
        refine h _ (List.mem_map.2 ⟨filtered.getD j [], ?_, rfl⟩)
        rw [List.getD, List.getElem?_eq_getElem hj]
        exact List.getElem_mem hj
      · intro h y hy
        obtain ⟨l, hl, rfl⟩ := List.mem_map.1 hy
        obtain ⟨j, hj⟩ := List.mem_iff_getElem?.1 hl
        have := h j (List.getElem?_eq_some_iff.1 hj).1
        rwa [show filtered.getD j [] = l by rw [List.getD, hj, Option.getD_some]] at this
    have hpeak : ∀ mask, threshold ≤ layer.getD (r * W + c) 0 → (Peak mask H W (fun r c => (layer.map (fun x => if x < 0 then 0 else x)).getD (r * W + c) 0) r c ↔
        Peak mask H W (fun r c => layer.getD (r * W + c) 0) r c) := by
      intro mask hb
      unfold Peak
      refine forall_congr' fun u => imp_congr_right fun hu => forall_congr' fun w => imp_congr_right fun hw => imp_congr_right fun _ => ?_
      simp only
      rw [hz _ (hcl _ _), hz _ hlt, if_neg (not_lt.2 (ht.le.trans hb))]
      split
      · exact ⟨fun _ => by linarith, fun _ => ht.le.trans hb⟩
      · rfl
    constructor
    · rintro ⟨k4, k5, k6⟩
      have hb : threshold ≤ layer.getD (r * W + c) 0 := by
        split at k6
        · linarith
        · exact k6
      rw [if_neg (not_lt.2 (ht.le.trans hb)), hcross] at k5
      have k4 : ∃ mask, masks[i]? = some mask ∧ Peak mask H W (fun r c => (layer.map (fun x => if x < 0 then 0 else x)).getD (r * W + c) 0) r c := by
        by_contra hcon
        rw [if_neg hcon] at k4
        exact zero_ne_one k4
      obtain ⟨mask, k7, k8⟩ := k4
      rw [hpeak mask hb] at k8
      refine ⟨mask, k7, ?_, ?_, ?_⟩
      · rw [e0]
        exact hb
      · rw [e0]
        exact k5
      · rw [e0]
        exact k8
    · rintro ⟨mask, k7, d1, d2, d3⟩
      rw [e0] at d1 d2 d3
      rw [if_neg (not_lt.2 (ht.le.trans d1)), hcross]
      exact ⟨if_pos ⟨mask, k7, (hpeak mask d1).2 d3⟩, d2, d1⟩

/-- **C80, the inputs.** `get_bu_msg` returns, if there is a channel and all masks that are used have two axes and a true entry; otherwise it raises an exception. -/
theorem C80_inputs [Field α] [LinearOrder α] [IsStrictOrderedRing α] (threshold : α) (masks : List (NDArr Bool)) (H W : Nat) (filtered : List (List α))
    (hlen : ∀ layer ∈ filtered, layer.length = H * W) :
    (∃ bu, buMsg threshold masks H W filtered = .ok bu) ↔
      filtered ≠ [] ∧ ∀ (j : Nat) mask, masks[j]? = some mask → j < filtered.length →
        ∃ a b, mask.shape = [a, b] ∧ ∃ u < a, ∃ w < b, mask.data.getD (u * b + w) false = true := by
  constructor
  · rintro ⟨bu, h⟩
    have hne : filtered ≠ [] := by
      rintro rfl
      unfold buMsg at h
      rcases Nat.eq_zero_or_pos (H * W) with e | e
      · rw [e] at h
        cases h
      · rw [show H * W = (H * W - 1) + 1 by omega, List.range_succ_eq_map, List.mapM_cons] at h
        cases h
    refine ⟨hne, fun j mask hj hlt => ?_⟩
    have key := fun k : Nat => imgMax_spec (l := filtered.map (fun layer => layer.getD k 0)) (fun e => hne (List.map_eq_nil_iff.1 e))
    choose cross hc1 hc2 using key
    unfold buMsg at h
    rw [mapM_ok _ cross _ (fun k _ => hc1 k), py_ok_bind] at h
    simp only [if_neg hne] at h
    refine localize_ok (H := H) (W := W) (layers := filtered.map (fun layer => layer.map (fun x => if x < 0 then 0 else x))) ?_ hj (by simpa using hlt)
    cases e : localize H W (filtered.map (fun layer => layer.map (fun x => if x < 0 then 0 else x))) masks with
    | ok ls => exact ⟨ls, rfl⟩
    | error e' =>
      have h' : (do
        let localized ← localize H W (filtered.map (fun (layer : List α) => layer.map (fun x => if x < 0 then 0 else x))) masks
        pure (⟨[filtered.length, H, W], (pool (List.zipWith (fun (loc layer : List α) => List.zipWith (fun l (p : α × α) => binarize threshold l p.1 p.2) loc
          (((List.range (H * W)).map cross).zip layer)) localized (filtered.map (fun (layer : List α) => layer.map (fun x => if x < 0 then 0 else x))))).flatten⟩ : NDArr α)) = .ok bu := h
      rw [e] at h'
      cases h'
  · rintro ⟨hne, hmask⟩
    obtain ⟨localized, h, -⟩ := buMsg_ok threshold masks H W filtered hne hlen hmask
    exact ⟨_, h⟩

/-- **C80.** Entry `(i, r, c)` of the bottom-up messages is 1, if channel `i` or one of the two channels next to it (the last channel is next to the first) detects an edge at row `r` and column `c`, and -1
otherwise. -/
theorem C80 [Field α] [LinearOrder α] [IsStrictOrderedRing α] {threshold : α} (ht : 0 < threshold) (masks : List (NDArr Bool)) (H W : Nat) (filtered : List (List α)) (hne : filtered ≠ [])
    (hlen : ∀ layer ∈ filtered, layer.length = H * W)
    (hmask : ∀ (j : Nat) mask, masks[j]? = some mask → j < filtered.length →
        ∃ a b, mask.shape = [a, b] ∧ ∃ u < a, ∃ w < b, mask.data.getD (u * b + w) false = true) :
    ∃ bu, buMsg threshold masks H W filtered = .ok bu ∧ bu.shape = [filtered.length, H, W] ∧ bu.WF ∧ (∀ x ∈ bu.data, x = -1 ∨ x = 1) ∧
      ∀ i < filtered.length, ∀ r < H, ∀ c < W, bu.read [i, r, c] = 1 ↔
        ∃ j < filtered.length, (j = i ∨ (j + 1) % filtered.length = i ∨ (i + 1) % filtered.length = j) ∧ ∃ mask a b, masks[j]? = some mask ∧ mask.shape = [a, b] ∧
          Detects threshold filtered.length H W a b (fun u w => mask.data.getD (u * b + w) false) (fun j r c => (filtered.getD j []).getD (r * W + c) 0) j r c := by
  obtain ⟨localized, h1, h2, h3, h4, h5⟩ := buMsg_ok threshold masks H W filtered hne hlen hmask
  obtain ⟨p1, p2⟩ := pool_spec h3 h4
  rw [h2] at p1 p2
  have hl : ∀ i < (pool localized).length, ((pool localized).getD i []).length = H * W := fun i hi => (p2 i (by rw [← p1]; exact hi)).1
  have hflat : (pool localized).flatten.length = filtered.length * (H * W) := by
    rw [List.length_flatten, List.map_congr_left (g := fun _ => H * W), List.map_const', List.sum_replicate, smul_eq_mul, p1]
    intro l hl'
    obtain ⟨j, hj⟩ := List.mem_iff_getElem?.1 hl'
    have := hl j (List.getElem?_eq_some_iff.1 hj).1
    rwa [List.getD, hj, Option.getD_some] at this
  refine ⟨_, h1, rfl, by rw [NDArr.WF, hflat]; simp, ?_, ?_⟩
  · intro x hx
    obtain ⟨l, hl1, hl2⟩ := List.mem_flatten.1 hx
    obtain ⟨i, hi⟩ := List.mem_iff_getElem?.1 hl1
    obtain ⟨k, hk⟩ := List.mem_iff_getElem?.1 hl2
    have hilt := (List.getElem?_eq_some_iff.1 hi).1
    have hil : (pool localized).getD i [] = l := by rw [List.getD, hi, Option.getD_some]
    have hklt := (List.getElem?_eq_some_iff.1 hk).1
    rw [p1] at hilt
    obtain ⟨q1, q2⟩ := p2 i hilt
    rw [hil] at q1 q2
    have := q2 k (by rw [← q1]; exact hklt)
    rw [List.getD, hk, Option.getD_some] at this
    rw [this]
    split
    · exact .inr rfl
    · exact .inl rfl
  · intro i hi r hr c hc
    have hlt := pixel_lt hr hc
    have e : (⟨[filtered.length, H, W], (pool localized).flatten⟩ : NDArr α).read [i, r, c] = ((pool localized).getD i []).getD (r * W + c) 0 := by
      rw [← (flatten_getD hl 0 (by rw [p1]; exact hi) hlt).1]
      unfold NDArr.read
      simp [rowMajor]
    have hn : 0 < filtered.length := by omega
    have hnb : ∀ j, j ∈ neighbours filtered.length i ↔ j < filtered.length ∧ (j = i ∨ (j + 1) % filtered.length = i ∨ (i + 1) % filtered.length = j) := by
      intro j
      unfold neighbours
      simp only [List.mem_cons, List.not_mem_nil, or_false]
      generalize filtered.length = n at *
      constructor
      · rintro (rfl | rfl | rfl)
        · exact ⟨hi, .inl rfl⟩
        · refine ⟨Nat.mod_lt _ hn, .inr (.inl ?_)⟩
          rw [Nat.mod_add_mod, show i + (n - 1) + 1 = i + n by omega, Nat.add_mod_right, Nat.mod_eq_of_lt hi]
        · exact ⟨Nat.mod_lt _ hn, .inr (.inr rfl)⟩
      · rintro ⟨hj, rfl | rfl | rfl⟩
        · exact .inl rfl
        · right; left
          rw [Nat.mod_add_mod, show j + 1 + (n - 1) = j + n by omega, Nat.add_mod_right, Nat.mod_eq_of_lt hj]
        · exact .inr (.inr rfl)
    rw [e, (p2 i hi).2 _ hlt]
    have : (if ∃ j ∈ neighbours filtered.length i, (localized.getD j []).getD (r * W + c) 0 = 1 then (1 : α) else -1) = 1 ↔
        ∃ j ∈ neighbours filtered.length i, (localized.getD j []).getD (r * W + c) 0 = 1 := by
      split
      · exact ⟨fun _ => ‹_›, fun _ => rfl⟩
      · refine ⟨fun h => absurd h (by norm_num), fun h => absurd h ‹_›⟩
    rw [this]
    constructor
    · rintro ⟨j, hj, hd⟩
      obtain ⟨hj1, hj2⟩ := (hnb j).1 hj
      obtain ⟨mask, hm, hd⟩ := (h5 ht j hj1 r hr c hc).1 hd
      obtain ⟨a, b, hs, -⟩ := hmask j mask hm hj1
      refine ⟨j, hj1, hj2, mask, a, b, hm, hs, ?_⟩
      rw [hs] at hd
      exact hd
    · rintro ⟨j, hj1, hj2, mask, a, b, hm, hs, hd⟩
      refine ⟨j, (hnb j).2 ⟨hj1, hj2⟩, (h5 ht j hj1 r hr c hc).2 ⟨mask, hm, ?_⟩⟩
      rw [hs]
      exact hd

/-- **C80, the threshold.** With a larger threshold every pixel of every channel that is active was active before. -/
theorem C80_threshold [Field α] [LinearOrder α] [IsStrictOrderedRing α] {t t' : α} (ht : 0 < t) (htt : t ≤ t') (masks : List (NDArr Bool)) (H W : Nat) (filtered : List (List α))
    (hlen : ∀ layer ∈ filtered, layer.length = H * W) {bu bu' : NDArr α} (h : buMsg t masks H W filtered = .ok bu) (h' : buMsg t' masks H W filtered = .ok bu') :
    ∀ i < filtered.length, ∀ r < H, ∀ c < W, bu'.read [i, r, c] = 1 → bu.read [i, r, c] = 1 := by
  obtain ⟨hne, hmask⟩ := (C80_inputs t masks H W filtered hlen).1 ⟨bu, h⟩
  obtain ⟨b1, k1, -, -, -, k2⟩ := C80 ht masks H W filtered hne hlen hmask
  obtain ⟨b2, k3, -, -, -, k4⟩ := C80 (ht.trans_le htt) masks H W filtered hne hlen hmask
  obtain rfl : b1 = bu := by rw [h] at k1; injection k1 with e; exact e.symm
  obtain rfl : b2 = bu' := by rw [h'] at k3; injection k3 with e; exact e.symm
  intro i hi r hr c hc hone
  obtain ⟨j, hj, hij, mask, a, b, hm, hs, hd⟩ := (k4 i hi r hr c hc).1 hone
  exact (k2 i hi r hr c hc).2 ⟨j, hj, hij, mask, a, b, hm, hs, htt.trans hd.bright, hd.channel, hd.peak⟩

/-- The images of the example: 3 channels of 2 by 3 pixels. -/
def exImages : List (List ℚ) := [[5, 4, 1, 0, 0, -2], [3, 6, 1, 0, 7, -1], [1, 1, 1, 2, 0, -3]]

/-- The masks of the example: a row of three pixels, a row of three pixels, a single pixel. -/
def exMasks : List (NDArr Bool) := [⟨[1, 3], [true, true, true]⟩, ⟨[1, 3], [true, true, true]⟩, ⟨[1, 1], [true]⟩]

/-- Non-vacuity of C80: four channels, so that channel 3 (without a mask) is next to channels 2 and 0 only, and the messages that the program computes. -/
example : buMsg 2 exMasks 2 3 (exImages ++ [[0, 0, 0, 0, 0, 0]]) =
      .ok ⟨[4, 2, 3], [1, 1, -1, -1, 1, -1, 1, 1, -1, 1, 1, -1, -1, 1, -1, 1, 1, -1, 1, -1, -1, 1, -1, -1]⟩ ∧
    (∀ layer ∈ exImages ++ [[0, 0, 0, 0, 0, 0]], layer.length = 2 * 3) ∧
    (∀ (j : Nat) mask, exMasks[j]? = some mask → j < (exImages ++ [[0, 0, 0, 0, 0, 0]]).length →
      ∃ a b, mask.shape = [a, b] ∧ ∃ u < a, ∃ w < b, mask.data.getD (u * b + w) false = true) := by
  refine ⟨by decide +kernel, by decide, fun j mask h _ => ?_⟩
  have hm : mask ∈ exMasks := List.mem_of_getElem? h
  simp only [exMasks, List.mem_cons, List.not_mem_nil, or_false] at hm
  rcases hm with rfl | rfl | rfl
  · exact ⟨1, 3, rfl, 0, by norm_num, 0, by norm_num, rfl⟩
  · exact ⟨1, 3, rfl, 0, by norm_num, 0, by norm_num, rfl⟩
  · exact ⟨1, 1, rfl, 0, by norm_num, 0, by norm_num, rfl⟩

end PGMax
