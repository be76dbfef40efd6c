import Verif.Model.ExamplesRun
import Verif.Lemmas.Writes
import Verif.Props.C38
import Verif.Props.C71

/-! # C75: inference in the RCN program -/

namespace PGMax

section
variable {κ α : Type}

theorem flatMap_range_map {β : Type} (m n : Nat) (g : Nat → Nat → β) :
    (List.range m).flatMap (fun i => (List.range n).map (g i)) = (List.range (m * n)).map (fun s => g (s / n) (s % n)) := by
  induction m with
  | zero => simp
  | succ m ih =>
    rw [List.range_succ, List.flatMap_append, ih, Nat.succ_mul, List.range_add, List.map_append, List.flatMap_cons, List.flatMap_nil, List.append_nil,
      List.map_map]
    congr 1
    refine List.map_congr_left fun i hi => ?_
    have hi := List.mem_range.1 hi
    have h1 : (m * n + i) / n = m := by rw [Nat.mul_comm, Nat.mul_add_div (by omega), Nat.div_eq_of_lt hi, Nat.add_zero]
    have h2 : (m * n + i) % n = i := by rw [Nat.mul_comm, Nat.mul_add_mod, Nat.mod_eq_of_lt hi]
    simp only [Function.comp_apply, h1, h2]

/-- The positions that the window of radius `h` around `r` selects along an axis of length `H`. -/
theorem slice_axis (H r h : Nat) : ∃ a n, slicePositions H (some ((r : Int) - h)) (some ((r : Int) + h + 1)) none = .ok ((List.range n).map (fun k => a + k)) ∧
    (0 < n → a + n ≤ H) ∧ (h ≤ r → r + h < H → a = r - h ∧ n = 2 * h + 1) ∧ (2 * h < H → r < H → ¬(h ≤ r ∧ r + h < H) → n = 0 ∨ 2 ≤ n ∧ n ≤ 2 * h) := by
  have hadj : ∀ a b : Nat, (List.range (if (a : Int) < b then (((b : Int) - a - 1) / 1 + 1).toNat else 0)).map (fun (k : Nat) => ((a : Int) + 1 * (k : Int)).toNat) =
      (List.range (b - a)).map (fun k => a + k) := by
    intro a b
    have : (if (a : Int) < b then (((b : Int) - a - 1) / 1 + 1).toNat else 0) = b - a := by split <;> omega
    rw [this]
    refine List.map_congr_left fun k _ => ?_
    omega
  by_cases hr : h ≤ r
  · refine ⟨min (r - h) H, min (r + h + 1) H - min (r - h) H, ?_, ?_, ?_, ?_⟩
    · rw [← hadj]
      unfold slicePositions
      simp only [Option.getD_none, Option.map_some, Option.getD_some, one_ne_zero, if_false, zero_lt_one, if_true]
      rw [if_neg (show ¬((r : Int) - h < 0) by omega), if_neg (show ¬((r : Int) + h + 1 < 0) by omega)]
      have e1 : min ((r : Int) - h) H = (min (r - h) H : Nat) := by omega
      have e2 : min ((r : Int) + h + 1) H = (min (r + h + 1) H : Nat) := by omega
      rw [e1, e2]
    · omega
    · omega
    · omega
  · refine ⟨r + H - h, min (r + h + 1) H - (r + H - h), ?_, ?_, ?_, ?_⟩
    · rw [← hadj]
      unfold slicePositions
      simp only [Option.getD_none, Option.map_some, Option.getD_some, one_ne_zero, if_false, zero_lt_one, if_true]
      rw [if_pos (show ((r : Int) - h < 0) by omega), if_neg (show ¬((r : Int) + h + 1 < 0) by omega)]
      have e1 : max ((r : Int) - h + H) 0 = (r + H - h : Nat) := by omega
      have e2 : min ((r : Int) + h + 1) H = (min (r + h + 1) H : Nat) := by omega
      rw [e1, e2]
    · omega
    · omega
    · omega

theorem rcnWindow_eq [Zero α] {hps vps F H W : Nat} {bu : NDArr α} (hb : bu.WF) (hs : bu.shape = [F, H, W]) (f r c : Nat) (hf : f < F) : ∃ a n b m,
    rcnWindow hps vps bu ((f : Int), (r : Int), (c : Int)) = .ok ((List.range (n * m)).map (fun s => bu.read [f, a + s / m, b + s % m])) ∧
    (hps ≤ r → r + hps < H → a = r - hps ∧ n = 2 * hps + 1) ∧ (2 * hps < H → r < H → ¬(hps ≤ r ∧ r + hps < H) → n = 0 ∨ 2 ≤ n ∧ n ≤ 2 * hps) ∧
    (vps ≤ c → c + vps < W → b = c - vps ∧ m = 2 * vps + 1) ∧ (2 * vps < W → c < W → ¬(vps ≤ c ∧ c + vps < W) → m = 0 ∨ 2 ≤ m ∧ m ≤ 2 * vps) := by
  obtain ⟨a, n, e1, a1, a2, a3⟩ := slice_axis H r hps
  obtain ⟨b, m, e2, b1, b2, b3⟩ := slice_axis W c vps
  refine ⟨a, n, b, m, ?_, a2, a3, b2, b3⟩
  have hpos : flatPositions bu.shape [.int (f : Int), .slice (some ((r : Int) - hps)) (some ((r : Int) + hps + 1)) none,
      .slice (some ((c : Int) - vps)) (some ((c : Int) + vps + 1)) none] =
      .ok ((List.range (n * m)).map (fun s => f * (H * W) + ((a + s / m) * W + (b + s % m)))) := by
    rw [hs]
    simp only [flatPositions, Ix.select, e1, e2, if_pos (show 0 ≤ (f : Int) ∧ (f : Int) < F by omega), bind, Except.bind, pure, Except.pure,
      Int.toNat_natCast, List.prod_cons, List.prod_nil, List.range_one, Nat.mul_one, List.map_cons, List.map_nil, Nat.add_zero, List.flatMap_cons,
      List.flatMap_nil, List.append_nil]
    congr 1
    rw [← flatMap_range_map n m (fun i j => f * (H * W) + ((a + i) * W + (b + j))), ← List.map_eq_flatMap, List.flatMap_map, List.map_flatMap]
    simp only [List.map_map]
    rfl
  unfold rcnWindow
  simp only [hpos, bind, Except.bind, pure, Except.pure]
  rw [List.filterMap_map]
  congr 1
  have : ∀ s ∈ List.range (n * m), ((fun i => bu.data[i]?) ∘ fun s => f * (H * W) + ((a + s / m) * W + (b + s % m))) s =
      some (bu.read [f, a + s / m, b + s % m]) := by
    intro s hs'
    have hs' := List.mem_range.1 hs'
    have hm : 0 < m := Nat.pos_of_ne_zero (by rintro rfl; simp at hs')
    have hn : 0 < n := Nat.pos_of_ne_zero (by rintro rfl; simp at hs')
    have h1 : s / m < n := Nat.div_lt_of_lt_mul (by rw [Nat.mul_comm]; exact hs')
    have h2 : s % m < m := Nat.mod_lt _ hm
    have a1 := a1 hn
    have b1 := b1 hm
    have hrm : rowMajor [F, H, W] [f, a + s / m, b + s % m] = f * (H * W) + ((a + s / m) * W + (b + s % m)) := by simp [rowMajor]
    have hlt := rowMajor_lt [F, H, W] [f, a + s / m, b + s % m] (by simp [hf]; omega)
    have hlen : bu.data.length = [F, H, W].prod := by rw [← hs]; exact hb
    rw [Function.comp_apply, NDArr.read, hs, ← hrm, List.getD, List.getElem?_eq_getElem (by rw [hlen]; exact hlt), Option.getD_some]
  rw [List.filterMap_congr this]
  rw [List.filterMap_eq_map']

/-- Rows of `frcs`, as the integers of the program. -/
abbrev rcnInts (frc : List (Nat × Nat × Nat)) : List (Int × Int × Int) := frc.map (fun p => ((p.1 : Int), (p.2.1 : Int), (p.2.2 : Int)))

theorem mapM_all_error {β γ : Type} (f : β → Py γ) (e : PyErr) (l : List β) (h : ∀ b ∈ l, (∃ c, f b = .ok c) ∨ f b = .error e) (hn : ∃ b ∈ l, ¬∃ c, f b = .ok c) :
    l.mapM f = .error e := by
  induction l with
  | nil => simp at hn
  | cons b l ih =>
    rw [List.mapM_cons]
    rcases h b (by simp) with ⟨c, hc⟩ | hc
    · rw [hc, py_ok_bind, ih (fun b hb => h b (by simp [hb])), py_error_bind]
      obtain ⟨b', hb', hne⟩ := hn
      rw [List.mem_cons] at hb'
      rcases hb' with rfl | hb'
      · exact absurd ⟨c, hc⟩ hne
      · exact ⟨b', hb', hne⟩
    · rw [hc, py_error_bind]

/-- One row of the evidence. -/
theorem rcnRow_inside [Zero α] {hps vps F H W : Nat} {bu : NDArr α} (hb : bu.WF) (hs : bu.shape = [F, H, W]) (p : Nat × Nat × Nat) (hp : RcnInside hps vps F H W p) :
    (do
      let xs ← rcnWindow hps vps bu ((p.1 : Int), (p.2.1 : Int), (p.2.2 : Int))
      assignRow ((2 * hps + 1) * (2 * vps + 1)) xs) =
    .ok ((List.range ((2 * hps + 1) * (2 * vps + 1))).map
      (fun s => bu.read [p.1, p.2.1 - hps + s / (2 * vps + 1), p.2.2 - vps + s % (2 * vps + 1)])) := by
  obtain ⟨h1, h2, h3, h4, h5⟩ := hp
  obtain ⟨a, n, b, m, e, r1, -, r2, -⟩ := rcnWindow_eq (hps := hps) (vps := vps) hb hs p.1 p.2.1 p.2.2 h1
  obtain ⟨rfl, rfl⟩ := r1 h2 h3
  obtain ⟨rfl, rfl⟩ := r2 h4 h5
  rw [e, py_ok_bind]
  unfold assignRow
  rw [if_pos (by simp)]

theorem rcnRow_outside [Zero α] {hps vps F H W : Nat} {bu : NDArr α} (hb : bu.WF) (hs : bu.shape = [F, H, W]) (hH : 2 * hps < H) (hW : 2 * vps < W)
    (p : Nat × Nat × Nat) (h1 : p.1 < F) (h2 : p.2.1 < H) (h3 : p.2.2 < W) (hp : ¬RcnInside hps vps F H W p) :
    (do
      let xs ← rcnWindow hps vps bu ((p.1 : Int), (p.2.1 : Int), (p.2.2 : Int))
      assignRow ((2 * hps + 1) * (2 * vps + 1)) xs) = .error .valueError := by
  obtain ⟨a, n, b, m, e, r1, r2, r3, r4⟩ := rcnWindow_eq (hps := hps) (vps := vps) hb hs p.1 p.2.1 p.2.2 h1
  have key : n * m ≠ 1 ∧ n * m < (2 * hps + 1) * (2 * vps + 1) := by
    by_cases i1 : hps ≤ p.2.1 ∧ p.2.1 + hps < H
    · have i2 : ¬(vps ≤ p.2.2 ∧ p.2.2 + vps < W) := fun i2 => hp ⟨h1, i1.1, i1.2, i2.1, i2.2⟩
      obtain ⟨-, rfl⟩ := r1 i1.1 i1.2
      rcases r4 hW h3 i2 with rfl | ⟨k1, k2⟩
      · simp
      · constructor
        · intro hc; have := Nat.eq_one_of_mul_eq_one_left hc; omega
        · exact Nat.mul_lt_mul_of_pos_left (by omega) (by omega)
    · have hm : m ≤ 2 * vps + 1 := by
        by_cases i2 : vps ≤ p.2.2 ∧ p.2.2 + vps < W
        · obtain ⟨-, rfl⟩ := r3 i2.1 i2.2; exact le_rfl
        · rcases r4 hW h3 i2 with rfl | ⟨k1, k2⟩ <;> omega
      rcases r2 hH h2 i1 with rfl | ⟨k1, k2⟩
      · simp
      · constructor
        · intro hc; have := Nat.eq_one_of_mul_eq_one_right hc; omega
        · calc n * m ≤ n * (2 * vps + 1) := Nat.mul_le_mul_left _ hm
            _ < (2 * hps + 1) * (2 * vps + 1) := Nat.mul_lt_mul_of_pos_right (by omega) (by omega)
  rw [e, py_ok_bind]
  unfold assignRow
  rw [if_neg (by rw [List.length_map, List.length_range]; exact key.2.ne)]
  split
  · rename_i x hx
    have := congrArg List.length hx
    rw [List.length_map, List.length_range, List.length_singleton] at this
    exact absurd this key.1
  · rfl

/-- The evidence of a model, specified. -/
abbrev rcnEv [Zero α] (hps vps : Nat) (bu : NDArr α) (frc : List (Nat × Nat × Nat)) : List α :=
  frc.flatMap (fun p => (List.range ((2 * hps + 1) * (2 * vps + 1))).map
    (fun s => bu.read [p.1, p.2.1 - hps + s / (2 * vps + 1), p.2.2 - vps + s % (2 * vps + 1)]))

theorem flatMap_uniform_length {β γ : Type} (l : List β) (f : β → List γ) (k : Nat) (h : ∀ b ∈ l, (f b).length = k) : (l.flatMap f).length = l.length * k := by
  induction l with
  | nil => simp
  | cons b l ih => rw [List.flatMap_cons, List.length_append, h b (by simp), ih (fun b hb => h b (by simp [hb])), List.length_cons]; ring

theorem flatMap_uniform_getElem? {β γ : Type} (l : List β) (f : β → List γ) (k : Nat) (h : ∀ b ∈ l, (f b).length = k) (i s : Nat) (hs : s < k) :
    (l.flatMap f)[i * k + s]? = l[i]?.bind (fun b => (f b)[s]?) := by
  induction l generalizing i with
  | nil => simp
  | cons b l ih =>
    have hb := h b (by simp)
    rw [List.flatMap_cons]
    cases i with
    | zero => rw [Nat.zero_mul, Nat.zero_add, List.getElem?_append_left (by omega)]; rfl
    | succ i =>
      rw [List.getElem?_append_right (by rw [hb, Nat.succ_mul]; omega), hb, show (i + 1) * k + s - k = i * k + s by rw [Nat.succ_mul]; omega,
        ih (fun b hb => h b (by simp [hb]))]
      rfl

theorem rcnEvidence_eq [Zero α] {hps vps F H W : Nat} {bu : NDArr α} (hb : bu.WF) (hs : bu.shape = [F, H, W]) (frc : List (Nat × Nat × Nat))
    (hin : ∀ p ∈ frc, RcnInside hps vps F H W p) :
    rcnEvidence hps vps bu (rcnInts frc) = .ok ⟨[frc.length, (2 * hps + 1) * (2 * vps + 1)], rcnEv hps vps bu frc⟩ := by
  unfold rcnEvidence
  simp only
  rw [List.mapM_map, mapM_ok _ (fun p => (List.range ((2 * hps + 1) * (2 * vps + 1))).map
    (fun s => bu.read [p.1, p.2.1 - hps + s / (2 * vps + 1), p.2.2 - vps + s % (2 * vps + 1)])) frc, py_ok_bind]
  · simp [rcnEv, List.flatMap, pure, Except.pure]
  · intro p hp
    exact rcnRow_inside hb hs p (hin p hp)

/-- **C75 (1).** If the windows around all positions lie inside the image, then `get_evidence` returns, for variable `v` with `(f, r, c) = frc[v]` and its
state `s`, the entry of `bu_msg` in channel `f` at the pixel displaced from the top left corner `(r - hps, c - vps)` of the window by `s`, read as
a position in the window. -/
theorem C75_evidence [Zero α] {hps vps F H W : Nat} {bu : NDArr α} (hb : bu.WF) (hs : bu.shape = [F, H, W]) (frc : List (Nat × Nat × Nat))
    (hin : ∀ p ∈ frc, RcnInside hps vps F H W p) :
    ∃ E, rcnEvidence hps vps bu (rcnInts frc) = .ok ⟨[frc.length, (2 * hps + 1) * (2 * vps + 1)], E⟩ ∧ E.length = frc.length * ((2 * hps + 1) * (2 * vps + 1)) ∧
      ∀ v p, frc[v]? = some p → ∀ s < (2 * hps + 1) * (2 * vps + 1), E[v * ((2 * hps + 1) * (2 * vps + 1)) + s]? =
        some (bu.read [p.1, p.2.1 - hps + s / (2 * vps + 1), p.2.2 - vps + s % (2 * vps + 1)]) := by
  refine ⟨rcnEv hps vps bu frc, rcnEvidence_eq hb hs frc hin, flatMap_uniform_length _ _ _ (by simp), ?_⟩
  intro v p hv s hs'
  rw [flatMap_uniform_getElem? _ _ _ (by simp) _ _ hs', hv]
  simp [hs']

/-- **C75 (2).** If the image is larger than the windows and the positions lie in the image, then `get_evidence` succeeds exactly if the windows lie in
the image; otherwise it stops with ValueError. -/
theorem C75_windows [Zero α] {hps vps F H W : Nat} {bu : NDArr α} (hb : bu.WF) (hs : bu.shape = [F, H, W]) (hH : 2 * hps < H) (hW : 2 * vps < W)
    (frc : List (Nat × Nat × Nat)) (hf : ∀ p ∈ frc, p.1 < F ∧ p.2.1 < H ∧ p.2.2 < W) :
    ((∃ e, rcnEvidence hps vps bu (rcnInts frc) = .ok e) ↔ ∀ p ∈ frc, RcnInside hps vps F H W p) ∧
    ((¬∃ e, rcnEvidence hps vps bu (rcnInts frc) = .ok e) → rcnEvidence hps vps bu (rcnInts frc) = .error .valueError) := by
  have key : (¬∀ p ∈ frc, RcnInside hps vps F H W p) → rcnEvidence hps vps bu (rcnInts frc) = .error .valueError := by
    intro hn
    push Not at hn
    obtain ⟨p, hp, hn⟩ := hn
    unfold rcnEvidence
    simp only
    rw [List.mapM_map, mapM_all_error _ .valueError, py_error_bind]
    · intro q hq
      obtain ⟨q1, q2, q3⟩ := hf q hq
      by_cases hi : RcnInside hps vps F H W q
      · exact .inl ⟨_, rcnRow_inside hb hs q hi⟩
      · exact .inr (rcnRow_outside hb hs hH hW q q1 q2 q3 hi)
    · obtain ⟨q1, q2, q3⟩ := hf p hp
      refine ⟨p, hp, ?_⟩
      rintro ⟨c, hc⟩
      have := (rcnRow_outside hb hs hH hW p q1 q2 q3 hn).symm.trans hc
      cases this
  constructor
  · constructor
    · rintro ⟨e, he⟩
      by_contra hn
      rw [key hn] at he
      cases he
    · intro hin
      obtain ⟨E, hE, -⟩ := C75_evidence hb hs frc hin
      exact ⟨_, hE⟩
  · intro hn
    refine key fun hin => hn ?_
    obtain ⟨E, hE, -⟩ := C75_evidence hb hs frc hin
    exact ⟨_, hE⟩

/-- **C75 (3).** For images smaller than the windows there is no exception: at position `(0, 0)` of a 2 by 2 image, with windows of 3 by 3 pixels,
all states get the value of the pixel at the opposite corner. -/
theorem C75_broadcast : rcnEvidence 1 1 (⟨[1, 2, 2], [10, 11, 12, 13]⟩ : NDArr ℚ) (rcnInts [(0, 0, 0)]) = .ok ⟨[1, 9], List.replicate 9 13⟩ := by
  decide +kernel

theorem rcnScore_eq [AddCommMonoid α] {hps vps F H W : Nat} {bu : NDArr α} (hb : bu.WF) (hs : bu.shape = [F, H, W]) (frc : List (Nat × Nat × Nat))
    (hin : ∀ p ∈ frc, RcnInside hps vps F H W p) {e : NDArr α} (he : rcnEvidence hps vps bu (rcnInts frc) = .ok e) (map : NDArr Nat)
    (hlen : map.data.length = frc.length) (hmap : ∀ s ∈ map.data, s < (2 * hps + 1) * (2 * vps + 1)) :
    rcnScore e map = deformScore hps vps bu frc (fun i => map.data.getD i 0) := by
  obtain ⟨E, hE, -, hread⟩ := C75_evidence hb hs frc hin
  rw [hE] at he
  cases he
  unfold rcnScore deformScore
  simp only [List.getD_cons_zero, List.getD_cons_succ]
  rw [← range_sum, hlen]
  congr 1
  refine List.map_congr_left fun i hi => ?_
  have hi := List.mem_range.1 hi
  have hp := List.getElem?_eq_getElem hi
  have hs1 : map.data.getD i 0 < (2 * hps + 1) * (2 * vps + 1) := by
    rw [List.getD, List.getElem?_eq_getElem (by omega), Option.getD_some]
    exact hmap _ (List.getElem_mem _)
  have hp' : frc.getD i (0, 0, 0) = frc[i] := by rw [List.getD, hp, Option.getD_some]
  rw [Nat.min_eq_left (show i ≤ frc.length - 1 by omega), Nat.min_eq_left (by omega), hp', List.getD, hread i _ hp _ hs1, Option.getD_some]

/-- **C75 (4).** For the evidence of (1) and any states of the variables in the window, the program's score is the sum of the entries of `bu_msg` in the channels
of the features at the positions that it draws, which lie in the image. -/
theorem C75_score [AddCommMonoid α] {hps vps F H W : Nat} {bu : NDArr α} (hb : bu.WF) (hs : bu.shape = [F, H, W]) (frc : List (Nat × Nat × Nat))
    (hin : ∀ p ∈ frc, RcnInside hps vps F H W p) {e : NDArr α} (he : rcnEvidence hps vps bu (rcnInts frc) = .ok e) (map : NDArr Nat)
    (hmap : List.Forall₂ (fun _ s => s < (2 * hps + 1) * (2 * vps + 1)) frc map.data) :
    List.Forall₂ (fun (p : Nat × Nat × Nat) (a : Int × Int) => 0 ≤ a.1 ∧ a.1 < H ∧ 0 ≤ a.2 ∧ a.2 < W ∧ |a.1 - p.2.1| ≤ hps ∧ |a.2 - p.2.2| ≤ vps)
      frc (rcnActivations hps vps (rcnInts frc) map) ∧
    rcnScore e map = (List.zipWith (fun (p : Nat × Nat × Nat) (a : Int × Int) => bu.read [p.1, a.1.toNat, a.2.toNat]) frc (rcnActivations hps vps (rcnInts frc) map)).sum := by
  obtain ⟨E, hE, -, hread⟩ := C75_evidence hb hs frc hin
  rw [hE] at he
  cases he
  have hlen := hmap.length_eq
  have hget : ∀ (i : Nat) (p : Nat × Nat × Nat) (s : Nat), frc[i]? = some p → map.data[i]? = some s → s < (2 * hps + 1) * (2 * vps + 1) ∧
      (rcnActivations hps vps (rcnInts frc) map)[i]? = some ((p.2.1 : Int) + ((s / (2 * vps + 1) : Nat) - (hps : Int)),
        (p.2.2 : Int) + ((s % (2 * vps + 1) : Nat) - (vps : Int))) := by
    intro i p s hp hs'
    constructor
    · exact (List.forall₂_iff_get.1 hmap).2 i (List.getElem?_eq_some_iff.1 hp).1 (List.getElem?_eq_some_iff.1 hs').1 |> fun h => by
        rw [List.get_eq_getElem, (List.getElem?_eq_some_iff.1 hs').2] at h
        exact h
    · unfold rcnActivations
      rw [List.getElem?_zipWith, List.getElem?_map, hp, hs']
      rfl
  constructor
  · rw [List.forall₂_iff_get]
    refine ⟨by simp [rcnActivations, hlen], fun i h1 h2 => ?_⟩
    obtain ⟨hs1, hs2⟩ := hget i frc[i] (map.data[i]'(by rw [← hlen]; exact h1)) (List.getElem?_eq_getElem _) (List.getElem?_eq_getElem _)
    rw [List.getElem?_eq_getElem h2, Option.some.injEq] at hs2
    rw [List.get_eq_getElem, List.get_eq_getElem, hs2]
    obtain ⟨-, i1, i2, i3, i4⟩ := hin frc[i] (List.getElem_mem _)
    have k1 : map.data[i]'(by rw [← hlen]; exact h1) / (2 * vps + 1) < 2 * hps + 1 := Nat.div_lt_of_lt_mul (by rw [Nat.mul_comm]; exact hs1)
    have k2 : map.data[i]'(by rw [← hlen]; exact h1) % (2 * vps + 1) < 2 * vps + 1 := Nat.mod_lt _ (by omega)
    simp only [_root_.abs_le]
    generalize map.data[i]'(by rw [← hlen]; exact h1) / (2 * vps + 1) = u at *
    generalize map.data[i]'(by rw [← hlen]; exact h1) % (2 * vps + 1) = w at *
    omega
  · unfold rcnScore
    simp only [List.getD_cons_zero, List.getD_cons_succ]
    congr 1
    apply List.ext_getElem?
    intro i
    by_cases hi : i < frc.length
    · have hp := List.getElem?_eq_getElem hi
      have hs' := List.getElem?_eq_getElem (show i < map.data.length by rw [← hlen]; exact hi)
      obtain ⟨hs1, hs2⟩ := hget i _ _ hp hs'
      obtain ⟨-, i1, i2, i3, i4⟩ := hin frc[i] (List.getElem_mem _)
      rw [List.getElem?_map, List.getElem?_range (by rw [← hlen]; exact hi), Option.map_some, List.getElem?_zipWith, hp, hs2]
      simp only [Option.some.injEq]
      have hm : map.data.getD i 0 = map.data[i]'(by rw [← hlen]; exact hi) := by rw [List.getD, hs', Option.getD_some]
      rw [hm, Nat.min_eq_left (show i ≤ frc.length - 1 by omega), Nat.min_eq_left (by omega), List.getD,
        hread i _ hp _ hs1, Option.getD_some]
      generalize map.data[i]'(by rw [← hlen]; exact hi) / (2 * vps + 1) = u
      generalize map.data[i]'(by rw [← hlen]; exact hi) % (2 * vps + 1) = w
      congr 3
      · omega
      · congr 1; omega
    · rw [List.getElem?_eq_none (by simp; omega), List.getElem?_eq_none (by simp; omega)]

/-- The states of the variables of a network as the array that `decode_map_states` returns. -/
abbrev rcnStates (n : Nat) (y : Nat → Nat) : NDArr Nat := ⟨[n], (List.range n).map y⟩

/-- **C75 (5).** Whenever the RCN program builds its graph, every network has a feature, and all windows lie inside the image, `get_evidence` succeeds for all
networks and `bp.init` accepts the evidence, in every order of the dictionary.  Initial messages are zero, and the score of every joint assignment
is the sum over the networks of the program's scores for the states of their variables. -/
theorem C75_model [Field α] [LinearOrder α] [DecidableEq κ] {idV : Nat → Nat} {idF : Nat → Nat → Nat} {hps vps : Nat} {sizes : List Nat}
    {edges : List (List (Nat × Nat × Nat))} (hid : ∀ i < sizes.length, ∀ j < sizes.length, idV i % 2 ^ 32 = idV j % 2 ^ 32 → i = j)
    (hF : ∀ a b c d, idF a b = idF c d → a = c ∧ b = d) {vars : List NDVarArray} {fg : FactorGraph κ α}
    (h : rcn idV idF hps vps sizes edges = .ok (vars, fg)) {hist : List (AddArg α)} {garbage : Garbage} {st : FGState κ α}
    (hst : Compiled (vars.map .arr) hist garbage st) (hg : graphOf (vars.map .arr) hist = fg) {cell : Nat → List Nat → Var}
    (hcell : ∀ idx g, vars[idx]? = some g → IsArr g [sizes.getD idx 0] ((2 * hps + 1) * (2 * vps + 1)) (cell idx))
    {frcs : List (List (Nat × Nat × Nat))} (hfr : frcs.map List.length = sizes) (hpos : ∀ n ∈ sizes, 1 ≤ n) {F H W : Nat} {bu : NDArr α} (hb : bu.WF)
    (hs : bu.shape = [F, H, W]) (hin : ∀ frc ∈ frcs, ∀ p ∈ frc, RcnInside hps vps F H W p)
    {stateId : Nat} {T : α} {state : BPState α} {bp : BPFun κ α} (hstate : bpStateOf stateId st = .ok state) (hbp : BP.create st state T = .ok bp) :
    ∃ ups, rcnUpdates hps vps vars (frcs.map rcnInts) bu = .ok ups ∧ ∀ ups', ups'.Perm ups →
      ∃ arrs, bp.update none none none (some ups') = .ok arrs ∧ arrs.logPotentials = st.logPotentials ∧
        arrs.ftovMsgs = List.replicate st.totalFactorNumStates 0 ∧ arrs.evidence.length = st.numVarStates ∧
        (∀ idx frc, frcs[idx]? = some frc → ∀ v p, frc[v]? = some p → ∀ s < (2 * hps + 1) * (2 * vps + 1),
          readEv st.varsToStarts arrs.evidence (cell idx [v]) s = bu.read [p.1, p.2.1 - hps + s / (2 * vps + 1), p.2.2 - vps + s % (2 * vps + 1)]) ∧
        ∀ x ρ, Joint (graphVars (vars.map (.arr : NDVarArray → VGroup κ))) (fg.factors arrs.logPotentials) x ρ →
          jointScore (graphVars (vars.map (.arr : NDVarArray → VGroup κ))) (fg.factors arrs.logPotentials) (readEv st.varsToStarts arrs.evidence) x ρ =
            ∑ idx ∈ Finset.range frcs.length, deformScore hps vps bu (frcs.getD idx []) (fun i => x (cell idx [i])) ∧
          ∀ idx frc, frcs[idx]? = some frc → ∀ e, rcnEvidence hps vps bu (rcnInts frc) = .ok e →
            rcnScore e (rcnStates frc.length (fun i => x (cell idx [i]))) = deformScore hps vps bu frc (fun i => x (cell idx [i])) := by
  obtain ⟨cell', hist', st', -, hcell', hst', hg', -, hmod⟩ := C71_model hid hF h garbage
  obtain rfl : st' = st := by
    have h1 := hst'.compiled
    have h2 := hst.compiled
    rw [hg'] at h1
    rw [hg, h1] at h2
    exact Except.ok.inj h2
  obtain ⟨b1, b2, -⟩ := BP_create_ok hbp
  have hval : state = ⟨⟨stateId, st'.logPotentials⟩, ⟨stateId, List.replicate st'.totalFactorNumStates 0⟩,
      ⟨stateId, List.replicate st'.numVarStates 0⟩⟩ := by
    simp [bpStateOf, LogPotentials.create, FToVMessages.create, Evidence.create, BPState.create, bind, Except.bind] at hstate
    exact hstate.symm
  subst hval
  obtain ⟨hl, hsm, he, hn⟩ := (C71_inputs (κ := κ) (α := α) (idF := idF) (hps := hps) (vps := vps) (edges := edges) hid).1.1 ⟨_, h⟩
  rw [rcn_eq hl hsm he] at h
  cases hfg : (FactorGraph.create ((cVars idV hps vps sizes).map .arr) : FactorGraph κ α).addAll
      (((cEdges edges).map (cGroup idV idF hps vps sizes)).map .one) with
  | error e => rw [hfg, py_error_bind] at h; cases h
  | ok fg' =>
  rw [hfg, py_ok_bind] at h
  cases h
  clear hfg
  have hn : frcs.length = sizes.length := by rw [← hfr, List.length_map]
  have hsz : ∀ idx < sizes.length, (frcs.getD idx []).length = sizes.getD idx 0 := by
    intro idx hidx
    rw [← hfr, List.getD, List.getD, List.getElem?_map, List.getElem?_eq_getElem (by omega)]
    rfl
  have hin' : ∀ idx < sizes.length, ∀ p ∈ frcs.getD idx [], RcnInside hps vps F H W p := by
    intro idx hidx
    rw [List.getD, List.getElem?_eq_getElem (by omega), Option.getD_some]
    exact hin _ (List.getElem_mem _)
  -- the cells
  have hc : ∀ idx < sizes.length, ∀ i < sizes.getD idx 0, cell idx [i] = cCell idV hps vps sizes idx i ∧ cell' idx [i] = cCell idV hps vps sizes idx i := by
    intro idx hidx i hi
    have hv : (cVars idV hps vps sizes)[idx]? = some (uniArr (idV idx) [sizes.getD idx 0] (cStates hps vps)) := by
      rw [List.getElem?_map, List.getElem?_range hidx, Option.map_some]
    exact ⟨isArr_unique (hcell idx _ hv) (isArr_uniArr _ _ _ (by simp)) [i] (by simpa using hi),
      isArr_unique (hcell' idx _ hv) (isArr_uniArr _ _ _ (by simp)) [i] (by simpa using hi)⟩
  -- the evidence
  let L : List (Nat × List Nat × List α) := (List.range sizes.length).map (fun idx => (idV idx, [sizes.getD idx 0], rcnEv hps vps bu (frcs.getD idx [])))
  have hups : (rcnUpdates hps vps (cVars idV hps vps sizes) (frcs.map rcnInts) bu : Py (List (EvidenceUpdate κ α))) =
      .ok (L.map (fun q => .group (.arr (uniArr q.1 q.2.1 (cStates hps vps))) (.arr ⟨q.2.1 ++ [cStates hps vps], q.2.2⟩))) := by
    have hz : (cVars idV hps vps sizes).zip (frcs.map rcnInts) =
        (List.range sizes.length).map (fun idx => (uniArr (idV idx) [sizes.getD idx 0] (cStates hps vps), rcnInts (frcs.getD idx []))) := by
      rw [list_eq_range frcs [], List.map_map, hn, List.zip_map', ← hn, ← list_eq_range frcs []]
      rfl
    unfold rcnUpdates
    rw [hz, List.mapM_map, mapM_ok _ (fun idx => (.group (.arr (uniArr (idV idx) [sizes.getD idx 0] (cStates hps vps)))
      (.arr ⟨[sizes.getD idx 0] ++ [cStates hps vps], rcnEv hps vps bu (frcs.getD idx [])⟩) : EvidenceUpdate κ α))]
    · rw [List.map_map]
      rfl
    · intro idx hidx
      have hidx := List.mem_range.1 hidx
      rw [Function.comp_apply, rcnEvidence_eq hb hs _ (hin' idx hidx), py_ok_bind, hsz idx hidx]
      rfl
  have hmemL : ∀ q ∈ L, ∃ idx < sizes.length, q = (idV idx, [sizes.getD idx 0], rcnEv hps vps bu (frcs.getD idx [])) := by
    intro q hq
    obtain ⟨idx, hidx, rfl⟩ := List.mem_map.1 hq
    exact ⟨idx, List.mem_range.1 hidx, rfl⟩
  have hLmem : ∀ q ∈ L, (.arr (uniArr q.1 q.2.1 (cStates hps vps)) : VGroup κ) ∈ (cVars idV hps vps sizes).map .arr := by
    intro q hq
    obtain ⟨idx, hidx, rfl⟩ := hmemL q hq
    exact List.mem_map.2 ⟨_, List.mem_map.2 ⟨idx, List.mem_range.2 hidx, rfl⟩, rfl⟩
  have hpos' : ∀ idx < sizes.length, 1 ≤ sizes.getD idx 0 := by
    intro idx hidx
    rw [List.getD, List.getElem?_eq_getElem hidx, Option.getD_some]
    exact hpos _ (List.getElem_mem _)
  have hdisj : L.Pairwise (fun a b => (uniArr a.1 a.2.1 (cStates hps vps)).variables.Disjoint (uniArr b.1 b.2.1 (cStates hps vps)).variables) := by
    have := (List.nodup_flatMap.1 hst.vgroups.nodup).2
    rw [List.map_map, List.pairwise_map] at this
    exact List.pairwise_map.2 this
  obtain ⟨e, hev, hel, her, -⟩ := uniArrs_evidence hst (cStates hps vps) L hLmem (by
      intro q hq
      obtain ⟨idx, hidx, rfl⟩ := hmemL q hq
      have := hpos' idx hidx
      simp only [List.prod_cons, List.prod_nil, Nat.mul_one]
      omega)
    (by
      intro q hq
      obtain ⟨idx, hidx, rfl⟩ := hmemL q hq
      simp only [List.prod_cons, List.prod_nil, Nat.mul_one]
      rw [flatMap_uniform_length _ _ (cStates hps vps) (by simp), hsz idx hidx])
    hdisj (List.replicate st'.numVarStates (0 : α)) (by simp)
  have hread : ∀ idx frc, frcs[idx]? = some frc → ∀ v p, frc[v]? = some p → ∀ s < (2 * hps + 1) * (2 * vps + 1),
      readEv st'.varsToStarts e (cell idx [v]) s = bu.read [p.1, p.2.1 - hps + s / (2 * vps + 1), p.2.2 - vps + s % (2 * vps + 1)] := by
    intro idx frc hfrc v p hp s hs'
    have hidx : idx < sizes.length := by rw [← hn]; exact (List.getElem?_eq_some_iff.1 hfrc).1
    have hf : frcs.getD idx [] = frc := by rw [List.getD, hfrc, Option.getD_some]
    have hv : v < sizes.getD idx 0 := by rw [← hsz idx hidx, hf]; exact (List.getElem?_eq_some_iff.1 hp).1
    rw [(hc idx hidx v hv).1]
    have := her (idV idx, [sizes.getD idx 0], rcnEv hps vps bu (frcs.getD idx [])) (List.mem_map.2 ⟨idx, List.mem_range.2 hidx, rfl⟩) [v] (by simpa using hv) s hs'
    simp only at this
    rw [this, show rowMajor [sizes.getD idx 0] [v] = v by simp [rowMajor], hf, List.getD, flatMap_uniform_getElem? _ _ _ (by simp) _ _ hs', hp]
    simp [hs']
  refine ⟨_, hups, fun ups' hperm => ⟨⟨st'.logPotentials, List.replicate st'.totalFactorNumStates 0, e⟩, ?_, rfl, rfl, by simpa using hel, hread, ?_⟩⟩
  · have hev : updateEvidence st' (List.replicate st'.numVarStates (0 : α)) ups' = .ok e := by
      refine (C25_evidence_partial hst _ _ hperm.symm ?_ ?_ _ (by simp) e).1 hev
      · exact List.pairwise_map.2 hdisj
      · intro u hu
        obtain ⟨q, hq, rfl⟩ := List.mem_map.1 hu
        refine uniArr_evidence_ok hst.vgroups _ _ _ (Nat.mul_pos (by omega) (by omega)) (hLmem q hq) _ ?_
        obtain ⟨idx, hidx, rfl⟩ := hmemL q hq
        simp only [NDArr.WF]
        rw [flatMap_uniform_length _ _ (cStates hps vps) (by simp), hsz idx hidx]
        simp
    unfold BPFun.update
    simp only [b1, b2, hev]
    rfl
  · intro x ρ hρ
    have hx := ((hmod x).1.1 ⟨ρ, hρ⟩).1
    constructor
    · rw [(hmod x).2 _ ρ hρ, hn]
      refine Finset.sum_congr rfl fun idx hidx => ?_
      have hidx := Finset.mem_range.1 hidx
      unfold deformScore
      rw [hsz idx hidx]
      refine Finset.sum_congr rfl fun i hi => ?_
      have hi := Finset.mem_range.1 hi
      have hf : frcs[idx]? = some (frcs.getD idx []) := by rw [List.getD, List.getElem?_eq_getElem (by omega), Option.getD_some]
      have hp : (frcs.getD idx [])[i]? = some ((frcs.getD idx []).getD i (0, 0, 0)) := by
        rw [List.getD_eq_getElem?_getD (l := frcs.getD idx []), List.getElem?_eq_getElem (by rw [hsz idx hidx]; exact hi), Option.getD_some]
      have hx1 := hx idx hidx i hi
      have h1 := hread idx _ hf i _ hp (x (cell' idx [i])) hx1
      simp only
      rw [(hc idx hidx i hi).1, (hc idx hidx i hi).2] at *
      exact h1
    · intro idx frc hfrc E hE
      have hidx : idx < sizes.length := by rw [← hn]; exact (List.getElem?_eq_some_iff.1 hfrc).1
      have hf : frcs.getD idx [] = frc := by rw [List.getD, hfrc, Option.getD_some]
      have hlen : frc.length = sizes.getD idx 0 := by rw [← hf]; exact hsz idx hidx
      rw [rcnScore_eq hb hs frc (hin frc (List.mem_of_getElem? hfrc)) hE _ (by simp)]
      · unfold deformScore
        refine Finset.sum_congr rfl fun i hi => ?_
        have hi := Finset.mem_range.1 hi
        have : ((List.range frc.length).map (fun i => x (cell idx [i]))).getD i 0 = x (cell idx [i]) := by
          rw [List.getD, List.getElem?_map, List.getElem?_range hi]
          rfl
        simp only [this]
      · intro s hs'
        obtain ⟨i, hi, rfl⟩ := List.mem_map.1 hs'
        have hi := List.mem_range.1 hi
        have := hx idx hidx i (by rw [← hlen]; exact hi)
        rw [(hc idx hidx i (by rw [← hlen]; exact hi)).1]
        rw [(hc idx hidx i (by rw [← hlen]; exact hi)).2] at this
        exact this

/-- Non-vacuity of C75 (5): two networks in an image of 8 by 10 pixels with 2 channels, and windows of 5 by 7 pixels. -/
example : ∃ (vars : List NDVarArray) (fg : FactorGraph Nat ℚ) (st : FGState Nat ℚ) (state : BPState ℚ) (bp : BPFun Nat ℚ) (ups : List (EvidenceUpdate Nat ℚ)),
    rcn id Nat.pair 2 3 [3, 2] [[(0, 1, 2), (1, 2, 0)], [(0, 1, 3)]] = .ok (vars, fg) ∧ fg.fgState (fun _ _ => 0) = .ok st ∧
    bpStateOf 7 st = .ok state ∧ BP.create st state 0 = .ok bp ∧
    rcnUpdates 2 3 vars ([[(0, 3, 4), (1, 4, 4), (0, 5, 6)], [(1, 2, 3), (1, 5, 5)]].map rcnInts) ⟨[2, 8, 10], (List.range 160).map (fun i : Nat => (i : ℚ))⟩ = .ok ups ∧
    ∃ arrs, bp.update none none none (some ups) = .ok arrs := by
  have hid : ∀ i < [3, 2].length, ∀ j < [3, 2].length, id i % 2 ^ 32 = id j % 2 ^ 32 → i = j := by decide
  obtain ⟨⟨vars, fg⟩, h⟩ := (C71_inputs (κ := Nat) (α := ℚ) (idF := Nat.pair) (hps := 2) (vps := 3)
    (edges := [[(0, 1, 2), (1, 2, 0)], [(0, 1, 3)]]) hid).1.2 ⟨rfl, by decide, by decide, by decide⟩
  have hF : ∀ a b c d, Nat.pair a b = Nat.pair c d → a = c ∧ b = d := fun a b c d => Nat.pair_eq_pair.1
  obtain ⟨cell, hist, st, -, hcell, hst, hg, hbp, -⟩ := C71_model hid hF h (fun _ _ => 0)
  have hs : bpStateOf 7 st = .ok (⟨⟨7, st.logPotentials⟩, ⟨7, List.replicate st.totalFactorNumStates 0⟩, ⟨7, List.replicate st.numVarStates 0⟩⟩ : BPState ℚ) := by
    simp [bpStateOf, LogPotentials.create, FToVMessages.create, Evidence.create, BPState.create, bind, Except.bind]
  obtain ⟨bp, hbp⟩ := (hbp (⟨⟨7, st.logPotentials⟩, ⟨7, List.replicate st.totalFactorNumStates 0⟩, ⟨7, List.replicate st.numVarStates 0⟩⟩ : BPState ℚ) 0).2 (by simp)
  obtain ⟨ups, hu, hall⟩ := C75_model hid hF h hst hg hcell (frcs := [[(0, 3, 4), (1, 4, 4), (0, 5, 6)], [(1, 2, 3), (1, 5, 5)]]) rfl (by decide)
    (F := 2) (H := 8) (W := 10) (bu := ⟨[2, 8, 10], (List.range 160).map (fun i : Nat => (i : ℚ))⟩) (by simp [NDArr.WF]) rfl (by unfold RcnInside; decide) hs hbp
  obtain ⟨arrs, ha, -⟩ := hall ups (List.Perm.refl _)
  have := hst.compiled
  rw [hg] at this
  exact ⟨vars, fg, st, _, bp, ups, h, this, hs, hbp, hu, arrs, ha⟩

end
end PGMax
