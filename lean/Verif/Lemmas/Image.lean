import Verif.Model.ExamplesImage
import Verif.Spec.Image
import Verif.Spec.Programs
import Verif.Lemmas.Enums
import Verif.Lemmas.Grid
import Mathlib.Tactic.FieldSimp
import Mathlib.Tactic.Linarith

/-! # The bottom-up messages of the RCN program -/

namespace PGMax

variable {α : Type _}

theorem nearest_eq {n : Nat} (x : Int) (hn : 0 < n) : nearest n x = clamp n x := by
  unfold nearest clamp
  omega

theorem clamp_lt {n : Nat} (x : Int) (hn : 0 < n) : clamp n x < n := by
  unfold clamp
  omega

theorem foldl_max_le [LinearOrder α] (l : List α) (a x : α) : l.foldl max a ≤ x ↔ a ≤ x ∧ ∀ y ∈ l, y ≤ x := by
  induction l generalizing a with
  | nil => simp
  | cons b l ih =>
    rw [List.foldl_cons, ih, max_le_iff]
    simp [and_assoc]

theorem imgMax_spec [LinearOrder α] {l : List α} (h : l ≠ []) : ∃ m, imgMax l = .ok m ∧ ∀ x, m ≤ x ↔ ∀ y ∈ l, y ≤ x := by
  cases l with
  | nil => exact absurd rfl h
  | cons a l =>
    refine ⟨_, rfl, fun x => ?_⟩
    rw [foldl_max_le]
    simp

theorem grid_getElem? {H W r c : Nat} (hr : r < H) (hc : c < W) : (grid H W)[r * W + c]? = some (r, c) := by
  have hlt : r * W + c < H * W := calc
    _ < r * W + W := by omega
    _ = (r + 1) * W := by ring
    _ ≤ _ := Nat.mul_le_mul_right _ hr
  have h1 := congrArg (fun l => l[r * W + c]?) (grid_index H W)
  simp only [List.getElem?_map, List.getElem?_range hlt] at h1
  obtain ⟨p, hp, e⟩ := Option.map_eq_some_iff.1 h1
  rw [hp]
  obtain ⟨p1, p2⟩ := mem_grid.1 (List.mem_of_getElem? hp)
  have hW : 0 < W := by omega
  have d1 := congrArg (· / W) e
  have d2 := congrArg (· % W) e
  simp only [Nat.mul_comm _ W, Nat.mul_add_div hW, Nat.mul_add_mod, Nat.div_eq_of_lt p2, Nat.div_eq_of_lt hc, Nat.mod_eq_of_lt p2, Nat.mod_eq_of_lt hc, Nat.add_zero] at d1 d2
  rw [← d1, ← d2]

theorem grid_length (H W : Nat) : (grid H W).length = H * W := by
  have := congrArg List.length (grid_index H W)
  simpa using this

theorem pixel_lt {H W r c : Nat} (hr : r < H) (hc : c < W) : r * W + c < H * W := by
  have := (List.getElem?_eq_some_iff.1 (grid_getElem? hr hc)).1
  rwa [grid_length] at this

/-- A footprint that `maximum_filter` accepts. -/
def MaskOk (mask : NDArr Bool) : Prop := ∃ a b, mask.shape = [a, b] ∧ ∃ u < a, ∃ w < b, mask.data.getD (u * b + w) false = true

/-- The pixel is at least as large as all pixels of the footprint around it. -/
def Peak [LE α] (mask : NDArr Bool) (H W : Nat) (f : Nat → Nat → α) (r c : Nat) : Prop :=
  ∀ u < mask.shape.getD 0 0, ∀ w < mask.shape.getD 1 0, mask.data.getD (u * mask.shape.getD 1 0 + w) false = true →
    f (clamp H ((r : Int) + u - (mask.shape.getD 0 0 / 2 : Nat))) (clamp W ((c : Int) + w - (mask.shape.getD 1 0 / 2 : Nat))) ≤ f r c

theorem maximumFilter_spec [Zero α] [LinearOrder α] {mask : NDArr Bool} (hm : MaskOk mask) (H W : Nat) (layer : List α) :
    ∃ l, maximumFilter mask H W layer = .ok l ∧ l.length = H * W ∧ ∀ r < H, ∀ c < W, ∃ m, l[r * W + c]? = some m ∧
      (m ≤ layer.getD (r * W + c) 0 ↔ Peak mask H W (fun r c => layer.getD (r * W + c) 0) r c) := by
  obtain ⟨a, b, hs, u, hu, w, hw, ht⟩ := hm
  have hcells : (grid a b).filter (fun q => mask.data.getD (q.1 * b + q.2) false) ≠ [] :=
    List.ne_nil_of_mem (List.mem_filter.2 ⟨mem_grid.2 ⟨hu, hw⟩, ht⟩ : (u, w) ∈ _)
  have key := fun p : Nat × Nat => imgMax_spec (l := ((grid a b).filter (fun q => mask.data.getD (q.1 * b + q.2) false)).map (fun q =>
        layer.getD (nearest H ((p.1 : Int) + q.1 - (a / 2 : Nat)) * W + nearest W ((p.2 : Int) + q.2 - (b / 2 : Nat))) 0))
      (fun e => hcells (List.map_eq_nil_iff.1 e))
  choose m hm1 hm2 using key
  refine ⟨(grid H W).map m, ?_, by rw [List.length_map, grid_length], ?_⟩
  · unfold maximumFilter
    rw [hs]
    simp only
    rw [if_neg hcells]
    exact mapM_ok _ _ _ (fun p _ => hm1 p)
  · intro r hr c hc
    refine ⟨m (r, c), by rw [List.getElem?_map, grid_getElem? hr hc]; rfl, ?_⟩
    rw [hm2]
    unfold Peak
    rw [hs]
    simp only [List.getD_cons_zero, List.getD_cons_succ]
    constructor
    · intro h u hu w hw ht
      have := h _ (List.mem_map.2 ⟨(u, w), List.mem_filter.2 ⟨mem_grid.2 ⟨hu, hw⟩, ht⟩, rfl⟩)
      simp only at this
      rwa [nearest_eq _ (by omega), nearest_eq _ (by omega)] at this
    · intro h y hy
      obtain ⟨⟨u, w⟩, hq, rfl⟩ := List.mem_map.1 hy
      obtain ⟨hq, ht⟩ := List.mem_filter.1 hq
      obtain ⟨h1, h2⟩ := mem_grid.1 hq
      simp only
      rw [nearest_eq _ (by omega), nearest_eq _ (by omega)]
      exact h u h1 w h2 ht

open Classical in
theorem localize_spec [Zero α] [One α] [LinearOrder α] (H W : Nat) (layers : List (List α)) (masks : List (NDArr Bool)) (hl : ∀ layer ∈ layers, layer.length = H * W)
    (hm : ∀ (j : Nat) mask, masks[j]? = some mask → j < layers.length → MaskOk mask) :
    ∃ ls, localize H W layers masks = .ok ls ∧ ls.length = layers.length ∧ ∀ (j : Nat) layer, layers[j]? = some layer → ∃ loc, ls[j]? = some loc ∧ loc.length = H * W ∧
      ∀ r < H, ∀ c < W, loc[r * W + c]? =
        some (if ∃ mask, masks[j]? = some mask ∧ Peak mask H W (fun r c => layer.getD (r * W + c) 0) r c then 1 else 0) := by
  induction layers generalizing masks with
  | nil =>
    refine ⟨[], ?_, rfl, fun j layer h => by simp at h⟩
    cases masks <;> rfl
  | cons layer layers ih =>
    cases masks with
    | nil =>
      refine ⟨(layer :: layers).map (fun layer => layer.map (fun _ => 0)), rfl, by simp, fun j l hj => ?_⟩
      refine ⟨l.map (fun _ => 0), by rw [List.getElem?_map, hj]; rfl, by rw [List.length_map]; exact hl l (List.mem_of_getElem? hj), ?_⟩
      intro r hr c hc
      rw [if_neg (by simp), List.getElem?_map, List.getElem?_eq_getElem (by rw [hl l (List.mem_of_getElem? hj)]; exact pixel_lt hr hc)]
      rfl
    | cons mask masks =>
      obtain ⟨l, h1, h2, h3⟩ := maximumFilter_spec (hm 0 mask rfl (by simp)) H W layer
      obtain ⟨ls, i1, i2, i3⟩ := ih masks (fun layer hlay => hl layer (by simp [hlay])) (fun j mask hj hlt => hm (j + 1) mask hj (by simpa using hlt))
      refine ⟨List.zipWith (fun c x => if c ≤ x then 1 else 0) l layer :: ls, ?_, by simp [i2], ?_⟩
      · unfold localize
        rw [h1, py_ok_bind, i1, py_ok_bind]
        rfl
      · intro j lay hj
        cases j with
        | zero =>
          cases hj
          have hlay := hl layer (by simp)
          refine ⟨_, rfl, by rw [List.length_zipWith, h2, hlay, min_self], fun r hr c hc => ?_⟩
          obtain ⟨m, e1, e2⟩ := h3 r hr c hc
          have hlt : r * W + c < layer.length := by rw [hlay]; exact pixel_lt hr hc
          have e3 : layer[r * W + c]? = some (layer.getD (r * W + c) 0) := by rw [List.getD, List.getElem?_eq_getElem hlt]; rfl
          rw [List.getElem?_zipWith, e1, e3]
          simp only [Option.some.injEq, List.getElem?_cons_zero, exists_eq_left', e2]
        | succ j => exact i3 j lay hj

theorem localize_ok [Zero α] [One α] [LinearOrder α] {H W : Nat} {layers : List (List α)} {masks : List (NDArr Bool)} (h : ∃ ls, localize H W layers masks = .ok ls)
    {j : Nat} {mask : NDArr Bool} (hj : masks[j]? = some mask) (hlt : j < layers.length) : MaskOk mask := by
  induction layers generalizing masks j with
  | nil => simp at hlt
  | cons layer layers ih =>
    cases masks with
    | nil => simp at hj
    | cons m masks =>
      obtain ⟨ls, h⟩ := h
      unfold localize at h
      cases e1 : maximumFilter m H W layer with
      | error e => rw [e1] at h; cases h
      | ok l =>
        rw [e1, py_ok_bind] at h
        cases e2 : localize H W layers masks with
        | error e => rw [e2] at h; cases h
        | ok ls' =>
          cases j with
          | succ j => exact ih ⟨_, e2⟩ hj (by simpa using hlt)
          | zero =>
            cases hj
            unfold maximumFilter at e1
            split at e1
            · rename_i a b hs
              simp only at e1
              split at e1
              · cases e1
              · rename_i hc
                obtain ⟨q, hq⟩ := List.exists_mem_of_ne_nil _ hc
                obtain ⟨hq, ht⟩ := List.mem_filter.1 hq
                obtain ⟨k1, k2⟩ := mem_grid.1 hq
                exact ⟨a, b, hs, q.1, k1, q.2, k2, ht⟩
            · cases e1

theorem binarize_values [Field α] [LinearOrder α] [IsStrictOrderedRing α] (threshold cross x : α) {loc : α} (hloc : loc = 0 ∨ loc = 1) :
    binarize threshold loc cross x = 0 ∨ binarize threshold loc cross x = 1 := by
  unfold binarize
  simp only
  have h1 : min (max (x / threshold) 0) 1 ≤ 1 := min_le_right _ _
  rcases hloc with rfl | rfl
  · simp
  · by_cases hx : x < cross
    · simp [hx]
    · rw [if_neg hx, one_mul]
      split
      · exact .inl rfl
      · exact .inr (le_antisymm h1 (not_lt.1 ‹_›))

theorem binarize_eq [Field α] [LinearOrder α] [IsStrictOrderedRing α] {threshold : α} (ht : 0 < threshold) (cross x : α) {loc : α} (hloc : loc = 0 ∨ loc = 1) :
    binarize threshold loc cross x = 1 ↔ loc = 1 ∧ cross ≤ x ∧ threshold ≤ x := by
  unfold binarize
  simp only
  rcases hloc with rfl | rfl
  · simp
  · by_cases hx : x < cross
    · simp [hx, not_le.2 hx]
    · rw [if_neg hx, one_mul]
      by_cases hb : threshold ≤ x
      · have : 1 ≤ x / threshold := (one_le_div ht).2 hb
        have e : min (max (x / threshold) 0) 1 = 1 := min_eq_right (le_max_of_le_left this)
        simp [e, hb, not_lt.1 hx]
      · have h1 : x / threshold < 1 := (div_lt_one ht).2 (not_le.1 hb)
        have h2 : min (max (x / threshold) 0) 1 < 1 := lt_of_le_of_lt (min_le_left _ _) (max_lt h1 one_pos)
        rw [if_pos h2]
        simp [hb]

/-- The channels that `pool` combines. -/
def neighbours (n i : Nat) : List Nat := [i, (i + (n - 1)) % n, (i + 1) % n]

theorem pool_spec [Field α] [LinearOrder α] [IsStrictOrderedRing α] {localized : List (List α)} {L : Nat} (hl : ∀ l ∈ localized, l.length = L)
    (hv : ∀ l ∈ localized, ∀ x ∈ l, x = 0 ∨ x = 1) :
    (pool localized).length = localized.length ∧ ∀ i < localized.length, ((pool localized).getD i []).length = L ∧ ∀ k < L,
      ((pool localized).getD i []).getD k 0 = if ∃ j ∈ neighbours localized.length i, (localized.getD j []).getD k 0 = 1 then 1 else -1 := by
  refine ⟨by simp [pool], fun i hi => ?_⟩
  have hmem : ∀ j < localized.length, localized.getD j [] ∈ localized := by
    intro j hj
    rw [List.getD, List.getElem?_eq_getElem hj]
    exact List.getElem_mem hj
  have hch : ∀ (o : Int) (j : Nat), ((i : Int) + o) % (localized.length : Int) = (j : Int) → (((i : Int) + o) % (localized.length : Int)).toNat = j := by
    intro o j h
    rw [h]
    rfl
  have c0 : (((i : Int) + 0) % (localized.length : Int)).toNat = i := by
    refine hch 0 i ?_
    rw [Int.add_zero]
    exact_mod_cast Nat.mod_eq_of_lt hi
  have c1 : (((i : Int) + -1) % (localized.length : Int)).toNat = (i + (localized.length - 1)) % localized.length := by
    refine hch (-1) _ ?_
    have : (i : Int) + -1 = ((i + (localized.length - 1) : Nat) : Int) - (localized.length : Int) := by omega
    rw [this, Int.sub_emod_right]
    rfl
  have c2 : (((i : Int) + 1) % (localized.length : Int)).toNat = (i + 1) % localized.length := hch 1 _ (by rfl)
  have hlt1 : (i + (localized.length - 1)) % localized.length < localized.length := Nat.mod_lt _ (by omega)
  have hlt2 : (i + 1) % localized.length < localized.length := Nat.mod_lt _ (by omega)
  have he : (pool localized).getD i [] = (List.zipWith max (List.zipWith max (List.zipWith max ((localized.getD i []).map (fun _ => (-1 : α))) (localized.getD i []))
      (localized.getD ((i + (localized.length - 1)) % localized.length) [])) (localized.getD ((i + 1) % localized.length) [])).map (fun x => if x = 0 then -1 else x) := by
    unfold pool
    rw [List.getD, List.getElem?_map, List.getElem?_range hi]
    simp only [Option.map_some, Option.getD_some, List.foldl_cons, List.foldl_nil, c0, c1, c2]
  have l0 := hl _ (hmem i hi)
  have l1 := hl _ (hmem _ hlt1)
  have l2 := hl _ (hmem _ hlt2)
  rw [he]
  refine ⟨by simp only [List.length_map, List.length_zipWith, l0, l1, l2, min_self], fun k hk => ?_⟩
  have g : ∀ j < localized.length, (localized.getD j [])[k]? = some ((localized.getD j []).getD k 0) := by
    intro j hj
    rw [List.getD, List.getD, List.getElem?_eq_getElem (by rw [← List.getD, hl _ (hmem j hj)]; exact hk)]
    rfl
  have v : ∀ j < localized.length, (localized.getD j []).getD k 0 = 0 ∨ (localized.getD j []).getD k 0 = 1 := fun j hj => hv _ (hmem j hj) _ (List.mem_of_getElem? (g j hj))
  conv_lhs => rw [List.getD]
  rw [List.getElem?_map, List.getElem?_zipWith, List.getElem?_zipWith, List.getElem?_zipWith, List.getElem?_map, g i hi, g _ hlt1, g _ hlt2]
  simp only [Option.map_some, Option.getD_some, neighbours, List.mem_cons, List.not_mem_nil, or_false, exists_eq_or_imp, exists_eq_left]
  rcases v i hi with e0 | e0 <;> rcases v _ hlt1 with e1 | e1 <;> rcases v _ hlt2 with e2 | e2 <;> rw [e0, e1, e2] <;> norm_num

theorem flatten_getD {ls : List (List α)} {L : Nat} (hl : ∀ i < ls.length, (ls.getD i []).length = L) (d : α) {i k : Nat} (hi : i < ls.length) (hk : k < L) :
    ls.flatten.getD (i * L + k) d = (ls.getD i []).getD k d ∧ ls.flatten.length = ls.length * L := by
  induction ls generalizing i with
  | nil => simp at hi
  | cons l ls ih =>
    have h0 : l.length = L := hl 0 (by simp)
    have hlen : ls.flatten.length = ls.length * L := by
      rw [List.length_flatten, List.map_congr_left (g := fun _ => L), List.map_const', List.sum_replicate, smul_eq_mul]
      intro l hl'
      obtain ⟨j, hj⟩ := List.mem_iff_getElem?.1 hl'
      have := hl (j + 1) (by simpa using (List.getElem?_eq_some_iff.1 hj).1)
      rw [List.getD, List.getElem?_cons_succ, hj] at this
      exact this
    refine ⟨?_, by rw [List.flatten_cons, List.length_append, hlen, h0, List.length_cons]; ring⟩
    rw [List.flatten_cons]
    cases i with
    | zero => rw [List.getD_append _ _ _ _ (by omega)]; simp
    | succ i =>
      have := (ih (fun i hi => by simpa using hl (i + 1) (by simpa using hi)) (i := i) (by simpa using hi)).1
      rw [List.getD_append_right _ _ _ _ (by rw [h0, Nat.add_mul]; omega), h0, show (i + 1) * L + k - L = i * L + k by rw [Nat.add_mul]; omega, this]
      simp

end PGMax
