import Verif.Lemmas.VGroup
import Mathlib.Data.List.Sort
import Mathlib.Data.List.Perm.Basic

/-! Helper lemmas about slices of variable arrays. -/

namespace PGMax

theorem arith_prog_sorted (a st cnt : Nat) (hst : 0 < st) :
    ((List.range cnt).map (fun k => a + st * k)).Pairwise (· < ·) := by
  rw [List.pairwise_map]
  apply List.Pairwise.imp _ List.pairwise_lt_range
  intro i j hij
  have : st * i < st * j := Nat.mul_lt_mul_of_pos_left hij hst
  omega

theorem filter_range_sorted (n : Nat) (p : Nat → Bool) : ((List.range n).filter p).Pairwise (· < ·) :=
  List.Pairwise.filter _ List.pairwise_lt_range

theorem eq_of_sorted_mem {l1 l2 : List Nat} (h1 : l1.Pairwise (· < ·)) (h2 : l2.Pairwise (· < ·))
    (h : ∀ x, x ∈ l1 ↔ x ∈ l2) : l1 = l2 := by
  have n1 : l1.Nodup := h1.imp (fun h => Nat.ne_of_lt h)
  have n2 : l2.Nodup := h2.imp (fun h => Nat.ne_of_lt h)
  exact List.Perm.eq_of_pairwise (fun a b _ _ hab hba => absurd hab (Nat.lt_asymm hba)) h1 h2
    ((List.perm_ext_iff_of_nodup n1 n2).2 h)

theorem slicePositions_pos (d : Nat) (a b s : Option Int) (hs : 0 < s.getD 1) :
    slicePositions d a b s = .ok ((List.range d).filter (fun c => Selected d c (.slice a b s))) := by
  obtain ⟨st, hst⟩ : ∃ st : Nat, s.getD 1 = st := ⟨(s.getD 1).toNat, by omega⟩
  have hst0 : 0 < st := by omega
  have hlo : ((a.map (fun x : Int => if x < 0 then max (x + d) 0 else min x d)).getD 0 : Int) = boundOf d 0 a := by
    cases a with
    | none => simp [boundOf]
    | some x => simp only [Option.map_some, Option.getD_some, boundOf]; split <;> omega
  have hhi : ((b.map (fun x : Int => if x < 0 then max (x + d) 0 else min x d)).getD d : Int) = boundOf d d b := by
    cases b with
    | none => simp [boundOf]
    | some x => simp only [Option.map_some, Option.getD_some, boundOf]; split <;> omega
  have hhid : boundOf d d b ≤ d ∨ d < boundOf d d b ∧ False := by
    left
    cases b with
    | none => simp [boundOf]
    | some x => simp only [boundOf]; split <;> omega
  have hhid : boundOf d d b ≤ d := by simpa using hhid
  unfold slicePositions
  simp only [hst]
  rw [if_neg (by omega), if_pos (by omega)]
  simp only [hlo, hhi]
  congr 1
  generalize hL : boundOf d 0 a = lo at *
  generalize hH : boundOf d d b = hi at *
  apply eq_of_sorted_mem
  · have : (fun k : Nat => ((lo : Int) + (st : Int) * k).toNat) = (fun k => lo + st * k) := by
      funext k; rw [← Nat.cast_mul, ← Nat.cast_add, Int.toNat_natCast]
    rw [this]
    exact arith_prog_sorted _ _ _ hst0
  · exact filter_range_sorted _ _
  · intro x
    simp only [List.mem_map, List.mem_range, List.mem_filter, Selected, hL, hH, Bool.and_eq_true,
      decide_eq_true_eq, hst, Int.toNat_natCast]
    constructor
    · rintro ⟨k, hk, rfl⟩
      split at hk
      · rename_i hlt
        have e : ((hi : Int) - lo - 1) / st + 1 = (((hi - lo - 1) / st + 1 : Nat) : Int) := by
          push_cast; congr 2; omega
        rw [e, Int.toNat_natCast] at hk
        have hk' : k ≤ (hi - lo - 1) / st := by omega
        have h2 : k * st ≤ hi - lo - 1 := (Nat.le_div_iff_mul_le hst0).1 hk'
        have h3 : ((lo : Int) + (st : Int) * k).toNat = lo + st * k := by
          rw [← Nat.cast_mul, ← Nat.cast_add, Int.toNat_natCast]
        rw [h3]
        have h4 : st * k = k * st := mul_comm _ _
        refine ⟨by omega, ⟨by omega, by omega⟩, ?_⟩
        rw [show lo + st * k - lo = st * k by omega, Nat.mul_mod_right]
      · omega
    · rintro ⟨hx, ⟨h1, h2⟩, h3⟩
      refine ⟨(x - lo) / st, ?_, ?_⟩
      · rw [if_pos (by omega)]
        have e : ((hi : Int) - lo - 1) / st + 1 = (((hi - lo - 1) / st + 1 : Nat) : Int) := by
          push_cast; congr 2; omega
        rw [e, Int.toNat_natCast]
        have : (x - lo) / st ≤ (hi - lo - 1) / st := Nat.div_le_div_right (by omega)
        omega
      · have h5 : st * ((x - lo) / st) = x - lo := Nat.mul_div_cancel' (Nat.dvd_of_mod_eq_zero h3)
        rw [← Nat.cast_mul, h5]; omega

theorem select_ok (d : Nat) (ix : Ix) (h : IxOk d ix) :
    ix.select d = .ok ((List.range d).filter (fun c => Selected d c ix)) := by
  cases ix with
  | slice a b s => exact slicePositions_pos d a b s h
  | int i =>
    simp only [IxOk] at h
    obtain ⟨c, hc⟩ : ∃ c, Denotes d i c := by
      by_cases h0 : 0 ≤ i
      · exact ⟨i.toNat, by omega, Or.inl (by omega)⟩
      · exact ⟨(i + d).toNat, by omega, Or.inr (by omega)⟩
    rw [select_int_of_denotes hc]
    congr 1
    apply eq_of_sorted_mem
    · simp
    · exact filter_range_sorted _ _
    · intro x
      obtain ⟨hc1, hc2⟩ := hc
      simp only [List.mem_singleton, List.mem_filter, List.mem_range, Selected, Bool.or_eq_true,
        decide_eq_true_eq]
      omega

theorem range_flatMap_mul (d n : Nat) :
    (List.range d).flatMap (fun i => (List.range n).map (fun r => i * n + r)) = List.range (d * n) := by
  induction d with
  | zero => simp
  | succ d ih =>
    rw [List.range_succ, List.flatMap_append, ih]
    simp only [List.flatMap_cons, List.flatMap_nil, List.append_nil]
    rw [show (d + 1) * n = d * n + n by ring, List.range_add]

theorem allIndices_map_rowMajor (shape : List Nat) :
    (allIndices shape).map (rowMajor shape) = List.range shape.prod := by
  induction shape with
  | nil => simp [allIndices, rowMajor]
  | cons d ds ih =>
    simp only [allIndices, List.map_flatMap, List.map_map, List.prod_cons]
    rw [← range_flatMap_mul]
    congr 1
    funext i
    rw [← ih, List.map_map]
    apply List.map_congr_left
    intro cs _
    simp [rowMajor]

theorem mem_allIndices (shape is : List Nat) :
    is ∈ allIndices shape ↔ List.Forall₂ (fun c d => c < d) is shape := by
  induction shape generalizing is with
  | nil => simp [allIndices]
  | cons d ds ih =>
    simp only [allIndices, List.mem_flatMap, List.mem_map, List.mem_range]
    constructor
    · rintro ⟨i, hi, cs, hcs, rfl⟩
      exact .cons hi ((ih _).1 hcs)
    · intro h
      cases h with
      | cons h1 h2 => exact ⟨_, h1, _, (ih _).2 h2, rfl⟩

theorem selectedAll_nil (shape cs : List Nat) : SelectedAll shape cs [] = true := by
  cases shape <;> cases cs <;> rfl

theorem flatPositions_ok : ∀ (shape : List Nat) (ixs : List Ix), IxsOk shape ixs →
    flatPositions shape ixs
      = .ok (((allIndices shape).filter (fun c => SelectedAll shape c ixs)).map (rowMajor shape)) := by
  intro shape
  induction shape with
  | nil =>
    intro ixs h
    cases ixs with
    | nil => simp [flatPositions, allIndices, rowMajor, SelectedAll]
    | cons _ _ => exact absurd h (by simp [IxsOk])
  | cons d ds ih =>
    intro ixs h
    cases ixs with
    | nil =>
      have : (fun c => SelectedAll (d :: ds) c []) = (fun _ => true) := by
        funext c; exact selectedAll_nil _ _
      rw [this, List.filter_true, allIndices_map_rowMajor]
      simp [flatPositions]
    | cons ix ixs =>
      obtain ⟨h1, h2⟩ := h
      simp only [flatPositions, select_ok d ix h1, ih ixs h2, bind, Except.bind, pure, Except.pure]
      congr 1
      simp only [allIndices, List.filter_flatMap, List.map_flatMap, List.map_map, List.filter_map]
      generalize List.range d = l
      induction l with
      | nil => simp
      | cons i l ihl =>
        simp only [List.flatMap_cons, List.filter_cons]
        by_cases hi : Selected d i ix = true
        · rw [if_pos hi, List.flatMap_cons, ihl]
          congr 1
          have : (fun c => SelectedAll (d :: ds) (i :: c) (ix :: ixs)) = (fun c => SelectedAll ds c ixs) := by
            funext c; simp [SelectedAll, hi]
          rw [show ((fun c => SelectedAll (d :: ds) c (ix :: ixs)) ∘ fun is => i :: is)
            = (fun c => SelectedAll ds c ixs) from this]
          rfl
        · rw [if_neg hi, ihl]
          have : ((fun c => SelectedAll (d :: ds) c (ix :: ixs)) ∘ fun is => i :: is) = (fun _ => false) := by
            funext c; simp [SelectedAll, hi]
          rw [this]; simp

end PGMax
