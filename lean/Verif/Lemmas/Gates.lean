import Verif.Model.ProgramGates
import Verif.Props.C69
import Verif.Lemmas.LogicalRows
import Verif.Lemmas.Build
import Mathlib.Algebra.BigOperators.Group.List.Basic
import Mathlib.Algebra.Order.BigOperators.Group.List

/-! # Helper lemmas: the programs that test OR and AND factors -/

namespace PGMax

/-! ### The configurations -/

theorem mem_binProduct (n : Nat) (r : List Nat) : r ∈ binProduct n ↔ r.length = n ∧ ∀ b ∈ r, b < 2 := by
  induction n generalizing r with
  | zero =>
    simp only [binProduct, List.mem_singleton]
    constructor
    · rintro rfl; simp
    · rintro ⟨h, -⟩; exact List.eq_nil_of_length_eq_zero h
  | succ n ih =>
    simp only [binProduct, List.flatMap_cons, List.flatMap_nil, List.append_nil, List.mem_append, List.mem_map]
    constructor
    · rintro (⟨q, hq, rfl⟩ | ⟨q, hq, rfl⟩) <;> obtain ⟨h1, h2⟩ := (ih q).1 hq <;> exact ⟨by simp [h1], by simpa using h2⟩
    · rintro ⟨h1, h2⟩
      cases r with
      | nil => simp at h1
      | cons b q =>
        have hb := h2 b (by simp)
        have hq := (ih q).2 ⟨by simpa using h1, fun c hc => h2 c (by simp [hc])⟩
        have : b = 0 ∨ b = 1 := by omega
        rcases this with rfl | rfl
        · exact .inl ⟨q, hq, rfl⟩
        · exact .inr ⟨q, hq, rfl⟩

theorem binProduct_nodup (n : Nat) : (binProduct n).Nodup := by
  induction n with
  | zero => simp [binProduct]
  | succ n ih =>
    simp only [binProduct, List.flatMap_cons, List.flatMap_nil, List.append_nil]
    rw [List.nodup_append]
    refine ⟨ih.map (fun a b h => by simpa using h), ih.map (fun a b h => by simpa using h), ?_⟩
    intro a ha b hb e
    obtain ⟨q, -, rfl⟩ := List.mem_map.1 ha
    obtain ⟨q', -, rfl⟩ := List.mem_map.1 hb
    simp at e

theorem bits_nodup (n : Nat) : (bits n).Nodup := by
  induction n with
  | zero => simp [bits]
  | succ n ih =>
    simp only [bits]
    rw [List.nodup_flatMap]
    refine ⟨fun p _ => by simp, ih.imp fun {a b} hne => ?_⟩
    intro q h1 h2
    simp only [List.mem_cons, List.not_mem_nil, or_false] at h1 h2
    rcases h1 with rfl | rfl <;> rcases h2 with h | h <;> simp at h <;> exact hne h

theorem bits_length (n : Nat) : (bits n).length = 2 ^ n := by
  induction n with
  | zero => rfl
  | succ n ih => simp [bits, List.length_flatMap, ih, pow_succ]

/-- The configuration of a gate with the given states of the parents. -/
def gateRow (isAnd : Bool) (q : List Nat) : List Nat := q ++ [if isAnd then (if 0 ∈ q then 0 else 1) else (if 1 ∈ q then 1 else 0)]

theorem gateRow_length (isAnd : Bool) (q : List Nat) : (gateRow isAnd q).length = q.length + 1 := by simp [gateRow]

theorem bits_sum_pos {q : List Nat} (h : ∀ b ∈ q, b < 2) : 1 ≤ q.sum ↔ 1 ∈ q := by
  constructor
  · intro h1
    by_contra hc
    have : ∀ b ∈ q, b = 0 := fun b hb => by
      have := h b hb
      have h2 : b ≠ 1 := fun e => hc (e ▸ hb)
      omega
    rw [List.sum_eq_zero this] at h1
    omega
  · intro h1
    exact List.le_sum_of_mem h1

theorem bits_sum_lt {q : List Nat} (h : ∀ b ∈ q, b < 2) : q.sum < q.length ↔ 0 ∈ q := by
  induction q with
  | nil => simp
  | cons b q ih =>
    have hb := h b (by simp)
    have ih := ih (fun c hc => h c (by simp [hc]))
    have hle : q.sum ≤ q.length := by
      have := List.sum_le_card_nsmul q 1 (fun c hc => by have := h c (by simp [hc]); omega)
      simpa using this
    rw [List.sum_cons, List.length_cons, List.mem_cons, ← ih]
    omega

theorem mem_gateConfigs (isAnd : Bool) {p : Nat} (hp : 1 ≤ p) (r : List Nat) : r ∈ gateConfigs isAnd p ↔ ∃ q ∈ bits p, gateRow isAnd q = r := by
  have hlast : ∀ (q : List Nat) (c : Nat), (q ++ [c]).dropLast = q ∧ (q ++ [c]).getLastD 0 = c := fun q c => by simp
  have hsplit : ∀ r : List Nat, r ∈ binProduct (p + 1) → ∃ q c, r = q ++ [c] ∧ q ∈ bits p ∧ c < 2 := by
    intro r hr
    obtain ⟨h1, h2⟩ := (mem_binProduct _ _).1 hr
    have hne : r ≠ [] := by rintro rfl; simp at h1
    refine ⟨r.dropLast, r.getLast hne, (List.dropLast_append_getLast hne).symm, (mem_bits _ _).2 ⟨by simp [h1], fun b hb => h2 b (List.mem_of_mem_dropLast hb)⟩, h2 _ (List.getLast_mem hne)⟩
  have hjoin : ∀ (q : List Nat) (c : Nat), q ∈ bits p → c < 2 → q ++ [c] ∈ binProduct (p + 1) := by
    intro q c hq hc
    obtain ⟨h1, h2⟩ := (mem_bits _ _).1 hq
    refine (mem_binProduct _ _).2 ⟨by simp [h1], fun b hb => ?_⟩
    rw [List.mem_append, List.mem_singleton] at hb
    rcases hb with hb | rfl
    · exact h2 b hb
    · exact hc
  have hrep : ∀ c < 2, List.replicate p c ∈ bits p := fun c hc => (mem_bits _ _).2 ⟨by simp, fun b hb => by rw [List.eq_of_mem_replicate hb]; exact hc⟩
  cases isAnd
  · simp only [gateConfigs, Bool.false_eq_true, if_false, List.mem_cons, List.mem_filter, Bool.and_eq_true, decide_eq_true_eq]
    constructor
    · rintro (rfl | ⟨hr, h1, h2⟩)
      · refine ⟨List.replicate p 0, hrep 0 (by omega), ?_⟩
        simp [gateRow, List.replicate_succ']
      · obtain ⟨q, c, rfl, hq, hc⟩ := hsplit r hr
        rw [(hlast q c).1] at h1
        rw [(hlast q c).2] at h2
        refine ⟨q, hq, ?_⟩
        simp [gateRow, h2, (bits_sum_pos ((mem_bits _ _).1 hq).2).1 h1]
    · rintro ⟨q, hq, rfl⟩
      by_cases h1 : 1 ∈ q
      · refine .inr ⟨hjoin q _ hq (by simp [h1]), ?_, ?_⟩
        · simp only [gateRow, (hlast _ _).1]
          exact (bits_sum_pos ((mem_bits _ _).1 hq).2).2 h1
        · simp [gateRow, h1]
      · left
        have hq' : q = List.replicate p 0 := by
          refine List.eq_replicate_iff.2 ⟨((mem_bits _ _).1 hq).1, fun b hb => ?_⟩
          have := ((mem_bits _ _).1 hq).2 b hb
          have h2 : b ≠ 1 := fun e => h1 (e ▸ hb)
          omega
        simp [gateRow, h1]
        rw [hq', List.replicate_succ']
  · simp only [gateConfigs, if_true, List.mem_cons, List.mem_filter, Bool.and_eq_true, decide_eq_true_eq]
    constructor
    · rintro (rfl | ⟨hr, h1, h2⟩)
      · refine ⟨List.replicate p 1, hrep 1 (by omega), ?_⟩
        simp [gateRow, List.replicate_succ']
      · obtain ⟨q, c, rfl, hq, hc⟩ := hsplit r hr
        rw [(hlast q c).1] at h1
        rw [(hlast q c).2] at h2
        refine ⟨q, hq, ?_⟩
        rw [← ((mem_bits _ _).1 hq).1] at h1
        simp [gateRow, h2, (bits_sum_lt ((mem_bits _ _).1 hq).2).1 h1]
    · rintro ⟨q, hq, rfl⟩
      by_cases h1 : 0 ∈ q
      · refine .inr ⟨hjoin q _ hq (by simp [h1]), ?_, ?_⟩
        · simp only [gateRow, (hlast _ _).1]
          rw [← ((mem_bits _ _).1 hq).1]
          exact (bits_sum_lt ((mem_bits _ _).1 hq).2).2 h1
        · simp [gateRow, h1]
      · left
        have hq' : q = List.replicate p 1 := by
          refine List.eq_replicate_iff.2 ⟨((mem_bits _ _).1 hq).1, fun b hb => ?_⟩
          have := ((mem_bits _ _).1 hq).2 b hb
          have h2 : b ≠ 0 := fun e => h1 (e ▸ hb)
          omega
        simp [gateRow, h1]
        rw [hq', List.replicate_succ']

theorem gateConfigs_nodup (isAnd : Bool) {p : Nat} (hp : 1 ≤ p) : (gateConfigs isAnd p).Nodup := by
  cases isAnd
  · simp only [gateConfigs, Bool.false_eq_true, if_false, List.nodup_cons, List.mem_filter, Bool.and_eq_true, decide_eq_true_eq]
    refine ⟨?_, (binProduct_nodup _).filter _⟩
    rintro ⟨-, -, h⟩
    simp [List.replicate_succ'] at h
  · simp only [gateConfigs, if_true, List.nodup_cons, List.mem_filter, Bool.and_eq_true, decide_eq_true_eq]
    refine ⟨?_, (binProduct_nodup _).filter _⟩
    rintro ⟨-, -, h⟩
    simp [List.replicate_succ'] at h

/-- The program lists the configurations of the logical factor. -/
theorem gateConfigs_perm (isAnd : Bool) {p : Nat} (hp : 1 ≤ p) : (gateConfigs isAnd p).Perm ((bits p).map (gateRow isAnd)) := by
  refine (List.perm_ext_iff_of_nodup (gateConfigs_nodup isAnd hp) ((bits_nodup p).map_on ?_)).2 fun r => ?_
  · intro a _ b _ e
    have := congrArg List.dropLast e
    simpa [gateRow] using this
  · rw [mem_gateConfigs isAnd hp, List.mem_map]

theorem gateConfigs_length (isAnd : Bool) {p : Nat} (hp : 1 ≤ p) : (gateConfigs isAnd p).length = 2 ^ p := by
  rw [(gateConfigs_perm isAnd hp).length_eq, List.length_map, bits_length]

theorem gateConfigs_row (isAnd : Bool) {p : Nat} (hp : 1 ≤ p) {r : List Nat} (hr : r ∈ gateConfigs isAnd p) : r.length = p + 1 ∧ ∀ b ∈ r, b < 2 := by
  obtain ⟨q, hq, rfl⟩ := (mem_gateConfigs isAnd hp r).1 hr
  obtain ⟨h1, h2⟩ := (mem_bits _ _).1 hq
  refine ⟨by rw [gateRow_length, h1], fun b hb => ?_⟩
  rw [gateRow, List.mem_append, List.mem_singleton] at hb
  rcases hb with hb | rfl
  · exact h2 b hb
  · split <;> split <;> omega

/-! ### The variables of the factors -/

theorem cumParents_succ (ps : List Nat) (k : Nat) : cumParents ps (k + 1) = cumParents ps k + ps.getD k 0 := by
  unfold cumParents
  rw [List.take_add_one, List.sum_append, List.getD_eq_getElem?_getD]
  cases ps[k]? <;> simp

theorem cumParents_mono (ps : List Nat) {k l : Nat} (h : k ≤ l) : cumParents ps k ≤ cumParents ps l := by
  induction h with
  | refl => exact le_rfl
  | step _ ih => exact ih.trans (by rw [cumParents_succ]; omega)

theorem cumParents_le (ps : List Nat) (k : Nat) : cumParents ps k ≤ ps.sum := by
  have h1 : cumParents ps (max k ps.length) = ps.sum := by
    unfold cumParents
    rw [List.take_of_length_le (le_max_right _ _)]
  rw [← h1]
  exact cumParents_mono ps (le_max_left _ _)

/-- The scope of factor `k`. -/
def gScope (idP idC : Nat) (ps : List Nat) (k : Nat) : List Var :=
  (List.range' (cumParents ps k) (ps.getD k 0)).map (rHid idP ps.sum) ++ [rHid idC ps.length k]

theorem gScope_length (idP idC : Nat) (ps : List Nat) (k : Nat) : (gScope idP idC ps k).length = ps.getD k 0 + 1 := by simp [gScope]

theorem gBlock_lt {ps : List Nat} {k i : Nat} (hi : i ∈ List.range' (cumParents ps k) (ps.getD k 0)) : i < ps.sum := by
  rw [List.mem_range'_1] at hi
  have := cumParents_le ps (k + 1)
  rw [cumParents_succ] at this
  omega

theorem gBlock_unique {ps : List Nat} {k l i : Nat} (h1 : i ∈ List.range' (cumParents ps k) (ps.getD k 0)) (h2 : i ∈ List.range' (cumParents ps l) (ps.getD l 0)) : k = l := by
  rw [List.mem_range'_1, ← cumParents_succ] at h1 h2
  rcases lt_trichotomy k l with h | h | h
  · have := cumParents_mono ps (show k + 1 ≤ l from h); omega
  · exact h
  · have := cumParents_mono ps (show l + 1 ≤ k from h); omega

theorem gateVars_eq (idP idC : Nat) {ps : List Nat} {k : Nat} (hk : k < ps.length) :
    gateVars (uniArr idP [ps.sum] 2) (uniArr idC [ps.length] 2) ps k = .ok (gScope idP idC ps k) := by
  unfold gateVars
  rw [cumParents_succ, Nat.add_sub_cancel_left, mapM_ok _ (rHid idP ps.sum) _ (fun i hi => rHid_at _ _ (gBlock_lt hi)), rHid_at _ _ hk]
  rfl

/-- A variable is in the scope of one factor only, at one place. -/
theorem gScope_unique {idP idC : Nat} (hid : idP % 2 ^ 32 ≠ idC % 2 ^ 32) {ps : List Nat} (h1 : ps.sum ≤ 1000000000) (h2 : ps.length ≤ 1000000000) {k l i j : Nat} {v : Var}
    (hk : k < ps.length) (hl : l < ps.length) (hi : (gScope idP idC ps k)[i]? = some v) (hj : (gScope idP idC ps l)[j]? = some v) : k = l ∧ i = j := by
  have key : ∀ k i, k < ps.length → (gScope idP idC ps k)[i]? = some v →
      (∃ m, m < ps.sum ∧ m ∈ List.range' (cumParents ps k) (ps.getD k 0) ∧ v = rHid idP ps.sum m ∧ m = cumParents ps k + i) ∨ (v = rHid idC ps.length k ∧ i = ps.getD k 0) := by
    intro k i hk h
    unfold gScope at h
    by_cases hlt : i < ps.getD k 0
    · left
      rw [List.getElem?_append_left (by simpa using hlt), List.getElem?_map, List.getElem?_range' (by simpa using hlt)] at h
      have hm : cumParents ps k + i ∈ List.range' (cumParents ps k) (ps.getD k 0) := by rw [List.mem_range'_1]; omega
      refine ⟨cumParents ps k + i, gBlock_lt hm, hm, ?_, rfl⟩
      simpa using h.symm
    · right
      rw [List.getElem?_append_right (by simpa using hlt)] at h
      have h3 : i - ps.getD k 0 = 0 := by
        by_contra hne
        rw [List.getElem?_eq_none (by simp only [List.length_map, List.length_range', List.length_singleton]; omega)] at h
        cases h
      simp only [List.length_map, List.length_range', h3, List.getElem?_cons_zero, Option.some.injEq] at h
      exact ⟨h.symm, by omega⟩
  rcases key k i hk hi with ⟨m, a1, a2, a3, a4⟩ | ⟨a3, a4⟩ <;> rcases key l j hl hj with ⟨n, b1, b2, b3, b4⟩ | ⟨b3, b4⟩
  · have hmn : m = n := rHid_inj a1 b1 (a3.symm.trans b3)
    subst hmn
    have hkl := gBlock_unique a2 b2
    subst hkl
    exact ⟨rfl, by omega⟩
  · exact absurd (a3.symm.trans b3) (rHid_ne hid h1 h2 a1 hl)
  · exact absurd (b3.symm.trans a3) (rHid_ne hid h1 h2 b1 hk)
  · have hkl : k = l := rHid_inj hk hl (a3.symm.trans b3)
    subst hkl
    exact ⟨rfl, by omega⟩

theorem gScope_n {idP idC : Nat} {ps : List Nat} {k : Nat} {v : Var} (hv : v ∈ gScope idP idC ps k) : v.n = 2 := by
  unfold gScope at hv
  rw [List.mem_append, List.mem_map, List.mem_singleton] at hv
  rcases hv with ⟨i, -, rfl⟩ | rfl <;> rfl

theorem gScope_mem {κ : Type} {idP idC : Nat} {ps : List Nat} {k : Nat} (hk : k < ps.length) {v : Var} (hv : v ∈ gScope idP idC ps k) :
    v ∈ graphVars (rVgs κ idP idC ps.sum ps.length) := by
  rw [mem_rVgs]
  unfold gScope at hv
  rw [List.mem_append, List.mem_map, List.mem_singleton] at hv
  rcases hv with ⟨i, hi, rfl⟩ | rfl
  · exact .inl ⟨i, gBlock_lt hi, rfl⟩
  · exact .inr ⟨k, hk, rfl⟩

end PGMax
