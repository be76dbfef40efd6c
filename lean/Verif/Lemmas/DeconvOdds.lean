import Verif.Spec.Deconv
import Verif.Lemmas.LogicalRun
import Verif.Lemmas.LogicalRows
import Verif.Lemmas.RbmOdds

/-! Helper lemmas: max-product on log odds in OR and AND factors. -/

namespace PGMax

section
variable {α : Type _} [Field α] [LinearOrder α]

theorem tbOut_greatest {F : SFac α} {q : Nat → Nat → α} {n i s : Nat} {x : α} (hn : F.scope.length = n)
    (h : IsGreatest {z | ∃ r ∈ F.rowsAt i s, z = scoreBut n q i r} x) : tbOut F q i s = WithBot.some x := by
  subst hn
  refine List.maximum_eq_coe_iff.2 ⟨?_, ?_⟩
  · obtain ⟨r, hr, he⟩ := h.1
    rw [he]
    exact List.mem_map.2 ⟨r, hr, rfl⟩
  · intro a ha
    obtain ⟨r, hr, rfl⟩ := List.mem_map.1 ha
    exact h.2 ⟨r, hr, rfl⟩

section
variable {ι ι' : Type _} [DecidableEq ι] [DecidableEq ι']

theorem peak_spec {s : Finset ι} (hs : s.Nonempty) (x : ι → α) : ∃ m ∈ s, peak s x = x m ∧ ∀ j ∈ s, x j ≤ x m := by
  obtain ⟨m, hm, e⟩ := Finset.exists_mem_eq_sup' hs x
  refine ⟨m, hm, ?_, fun j hj => ?_⟩
  · rw [peak, dif_pos hs, e]
  · rw [← e]
    exact Finset.le_sup' x hj

theorem peak_eq {s : Finset ι} {x : ι → α} {m : ι} (hm : m ∈ s) (h : ∀ j ∈ s, x j ≤ x m) : peak s x = x m := by
  rw [peak, dif_pos ⟨m, hm⟩]
  exact le_antisymm (Finset.sup'_le _ _ h) (Finset.le_sup' x hm)

theorem peak_image {s : Finset ι} (φ : ι → ι') (x : ι' → α) : peak (s.image φ) x = peak s (x ∘ φ) := by
  rcases s.eq_empty_or_nonempty with rfl | hs
  · simp [peak]
  · obtain ⟨m, hm, e, h⟩ := peak_spec hs (x ∘ φ)
    rw [e]
    refine peak_eq (Finset.mem_image_of_mem φ hm) ?_
    intro j hj
    obtain ⟨i, hi, rfl⟩ := Finset.mem_image.1 hj
    exact h i hi

theorem peak_congr {s : Finset ι} {x y : ι → α} (h : ∀ j ∈ s, x j = y j) : peak s x = peak s y := by
  rcases s.eq_empty_or_nonempty with rfl | hs
  · simp [peak]
  · obtain ⟨m, hm, e, hle⟩ := peak_spec hs y
    rw [e, peak_eq hm (fun j hj => by rw [h j hj, h m hm]; exact hle j hj), h m hm]

theorem orOdds_congr {s : Finset ι} {x y : ι → α} (h : ∀ j ∈ s, x j = y j) : orOdds s x = orOdds s y := by
  rw [orOdds, orOdds, peak_congr h, Finset.sum_congr rfl (fun j hj => by rw [h j hj])]

theorem orOdds_image {s : Finset ι} {φ : ι → ι'} (hφ : Set.InjOn φ s) (x : ι' → α) : orOdds (s.image φ) x = orOdds s (x ∘ φ) := by
  rw [orOdds, orOdds, peak_image, Finset.sum_image hφ]
  rfl

theorem orBack_congr {s : Finset ι} {x y : ι → α} (c : α) {p : ι} (h : ∀ j ∈ s, j ≠ p → x j = y j) : orBack s x c p = orBack s y c p := by
  have h' : ∀ j ∈ s.erase p, x j = y j := fun j hj => h j (Finset.mem_of_mem_erase hj) (Finset.ne_of_mem_erase hj)
  rw [orBack, orBack, orOdds_congr h', Finset.sum_congr rfl (fun j hj => by rw [h' j hj])]

theorem erase_image {s : Finset ι} {φ : ι → ι'} (hφ : Set.InjOn φ s) {p : ι} (hp : p ∈ s) : (s.image φ).erase (φ p) = (s.erase p).image φ := by
  ext y
  simp only [Finset.mem_erase, Finset.mem_image]
  constructor
  · rintro ⟨h1, a, ha, rfl⟩
    exact ⟨a, ⟨fun h => h1 (by rw [h]), ha⟩, rfl⟩
  · rintro ⟨a, ⟨h1, h2⟩, rfl⟩
    exact ⟨fun h => h1 (hφ h2 hp h), a, h2, rfl⟩

theorem orBack_image {s : Finset ι} {φ : ι → ι'} (hφ : Set.InjOn φ s) (x : ι' → α) (c : α) {p : ι} (hp : p ∈ s) :
    orBack (s.image φ) x c (φ p) = orBack s (x ∘ φ) c p := by
  have hφ' : Set.InjOn φ (s.erase p) := hφ.mono (by intro j hj; exact Finset.mem_of_mem_erase hj)
  rw [orBack, orBack, erase_image hφ hp, orOdds_image hφ', Finset.sum_image hφ']
  simp only [Finset.image_eq_empty]
  rfl

/-- The elements of a list without repetitions, by their positions. -/
theorem toFinset_image {l : List ι} (d : ι) : l.toFinset = (Finset.range l.length).image (fun j => l.getD j d) := by
  ext a
  simp only [List.mem_toFinset, Finset.mem_image, Finset.mem_range]
  constructor
  · intro h
    obtain ⟨j, hj, e⟩ := List.mem_iff_getElem.1 h
    exact ⟨j, hj, by rw [List.getD, List.getElem?_eq_getElem hj, Option.getD_some, e]⟩
  · rintro ⟨j, hj, rfl⟩
    rw [List.getD, List.getElem?_eq_getElem hj, Option.getD_some]
    exact List.getElem_mem hj

theorem getD_injOn {l : List ι} (hl : l.Nodup) (d : ι) : Set.InjOn (fun j => l.getD j d) (Finset.range l.length) := by
  intro i hi j hj e
  have hi := Finset.mem_range.1 hi
  have hj := Finset.mem_range.1 hj
  simp only [List.getD, List.getElem?_eq_getElem hi, List.getElem?_eq_getElem hj, Option.getD_some] at e
  exact (List.Nodup.getElem_inj_iff hl).1 e

end

theorem range_filter_sum (n k : Nat) (f : Nat → α) : (((List.range n).filter (fun j => j ≠ k)).map f).sum = ∑ j ∈ (Finset.range n).erase k, f j := by
  rw [← List.sum_toFinset _ (List.nodup_range.filter _)]
  congr 1
  ext j
  simp [and_comm]

variable [IsStrictOrderedRing α]

/-- An OR factor to its child. -/
theorem or_child {F : SFac α} {n : Nat} (hF : F.rows = orRows n) (hn : F.scope.length = n + 1) (h0 : 0 < n) (q : Nat → Nat → α) :
    ∃ a b, tbOut F q n 0 = WithBot.some a ∧ tbOut F q n 1 = WithBot.some b ∧ b - a = orOdds (Finset.range n) (fun j => q j 1 - q j 0) := by
  obtain ⟨m, hm, e, hle⟩ := peak_spec (s := Finset.range n) ⟨0, Finset.mem_range.2 h0⟩ (fun j => q j 1 - q j 0)
  obtain ⟨g1, g2⟩ := lRows_child 0 n (by omega) F hF q (fun j => q j 1 - q j 0) (fun _ _ => rfl) m (Finset.mem_range.1 hm)
    (fun j hj => hle j (Finset.mem_range.2 hj))
  refine ⟨_, _, tbOut_greatest hn g1, tbOut_greatest hn g2, ?_⟩
  rw [orOdds, e, range_sum, range_sum]
  ring

/-- An OR factor to a parent. -/
theorem or_parent {F : SFac α} {n k : Nat} (hF : F.rows = orRows n) (hn : F.scope.length = n + 1) (hk : k < n) (q : Nat → Nat → α) :
    ∃ a b, tbOut F q k 0 = WithBot.some a ∧ tbOut F q k 1 = WithBot.some b ∧ b - a = orBack (Finset.range n) (fun j => q j 1 - q j 0) (q n 1 - q n 0) k := by
  obtain ⟨g1, g2, g3⟩ := lRows_parent 0 n (by omega) F hF q (fun j => q j 1 - q j 0) (fun _ _ => rfl) k hk
  by_cases h1 : n = 1
  · refine ⟨_, _, tbOut_greatest hn (g2 h1), tbOut_greatest hn g1, ?_⟩
    obtain rfl : k = 0 := by omega
    subst h1
    simp [orBack]
  · have hne : ((Finset.range n).erase k).Nonempty := by
      by_cases h : k = 0
      · exact ⟨1, Finset.mem_erase.2 ⟨by omega, Finset.mem_range.2 (by omega)⟩⟩
      · exact ⟨0, Finset.mem_erase.2 ⟨by omega, Finset.mem_range.2 (by omega)⟩⟩
    obtain ⟨m, hm, e, hle⟩ := peak_spec hne (fun j => q j 1 - q j 0)
    obtain ⟨m1, m2⟩ := Finset.mem_erase.1 hm
    refine ⟨_, _, tbOut_greatest hn (g3 m (Finset.mem_range.1 m2) m1 (fun j hj hjk => hle j (Finset.mem_erase.2 ⟨hjk, Finset.mem_range.2 hj⟩))), tbOut_greatest hn g1, ?_⟩
    rw [orBack, if_neg hne.ne_empty, orOdds, e, range_filter_sum, range_filter_sum]
    generalize ∑ j ∈ (Finset.range n).erase k, q j 0 = A
    generalize ∑ j ∈ (Finset.range n).erase k, max 0 (q j 1 - q j 0) = B
    generalize min 0 (q m 1 - q m 0) = D
    show A + B + q n (1 - 0) - (A + max (q n 0) (q n (1 - 0) + B + D)) = q n 1 - q n 0 + B - max 0 (q n 1 - q n 0 + (B + D))
    rw [show max (q n 0) (q n (1 - 0) + B + D) = q n 0 + max 0 (q n 1 - q n 0 + (B + D)) by
      rw [← max_add_add_left]
      congr 1 <;> simp <;> ring]
    simp
    ring

/-- An AND factor with two parents. -/
theorem and_two {F : SFac α} (hF : F.rows = andRows 2) (hn : F.scope.length = 3) (q : Nat → Nat → α) :
    (∃ a b, tbOut F q 0 0 = WithBot.some a ∧ tbOut F q 0 1 = WithBot.some b ∧ b - a = maxBump (q 2 1 - q 2 0) (q 1 1 - q 1 0)) ∧
    (∃ a b, tbOut F q 1 0 = WithBot.some a ∧ tbOut F q 1 1 = WithBot.some b ∧ b - a = maxBump (q 2 1 - q 2 0) (q 0 1 - q 0 0)) ∧
    (∃ a b, tbOut F q 2 0 = WithBot.some a ∧ tbOut F q 2 1 = WithBot.some b ∧ b - a = andOdds (q 0 1 - q 0 0) (q 1 1 - q 1 0)) := by
  have hbits : F.rows = [([0, 0, 0], 0), ([1, 0, 0], 0), ([0, 1, 0], 0), ([1, 1, 1], 0)] := by rw [hF]; simp [andRows, bits]
  have two : ∀ x y : α, List.maximum [x, y] = WithBot.some (max x y) := fun x y => by rw [List.maximum_cons, List.maximum_singleton]; rfl
  have three : ∀ x y z : α, List.maximum [x, y, z] = WithBot.some (max x (max y z)) := fun x y z => by rw [List.maximum_cons, two]; rfl
  have r3 : List.range 3 = [0, 1, 2] := rfl
  have dist : ∀ x y c : α, max x y = c + max (x - c) (y - c) := fun x y c => by rw [← max_add_add_left]; simp
  refine ⟨⟨max (q 1 0 + q 2 0) (q 1 1 + q 2 0), max (q 1 0 + q 2 0) (q 1 1 + q 2 1), ?_, ?_, ?_⟩, ⟨max (q 0 0 + q 2 0) (q 0 1 + q 2 0), max (q 0 0 + q 2 0) (q 0 1 + q 2 1), ?_, ?_, ?_⟩,
    ⟨max (q 0 0 + q 1 0) (max (q 0 1 + q 1 0) (q 0 0 + q 1 1)), q 0 1 + q 1 1, ?_, ?_, ?_⟩⟩
  · simp [tbOut, hn, SFac.rowsAt, hbits, scoreBut, r3, two]
  · simp [tbOut, hn, SFac.rowsAt, hbits, scoreBut, r3, two]
  · rw [dist (q 1 0 + q 2 0) (q 1 1 + q 2 0) (q 1 0 + q 2 0), dist (q 1 0 + q 2 0) (q 1 1 + q 2 1) (q 1 0 + q 2 0), maxBump, sub_self,
      show q 1 1 + q 2 1 - (q 1 0 + q 2 0) = q 2 1 - q 2 0 + (q 1 1 - q 1 0) by ring, show q 1 1 + q 2 0 - (q 1 0 + q 2 0) = q 1 1 - q 1 0 by ring]
    ring
  · simp [tbOut, hn, SFac.rowsAt, hbits, scoreBut, r3, two]
  · simp [tbOut, hn, SFac.rowsAt, hbits, scoreBut, r3, two]
  · rw [dist (q 0 0 + q 2 0) (q 0 1 + q 2 0) (q 0 0 + q 2 0), dist (q 0 0 + q 2 0) (q 0 1 + q 2 1) (q 0 0 + q 2 0), maxBump, sub_self,
      show q 0 1 + q 2 1 - (q 0 0 + q 2 0) = q 2 1 - q 2 0 + (q 0 1 - q 0 0) by ring, show q 0 1 + q 2 0 - (q 0 0 + q 2 0) = q 0 1 - q 0 0 by ring]
    ring
  · simp [tbOut, hn, SFac.rowsAt, hbits, scoreBut, r3, three]
  · simp [tbOut, hn, SFac.rowsAt, hbits, scoreBut, r3]
  · rw [dist (q 0 0 + q 1 0) _ (q 0 0 + q 1 0), dist (q 0 1 + q 1 0) _ (q 0 0 + q 1 0), add_sub_cancel_left, andOdds, sub_self,
      show q 0 1 + q 1 0 - (q 0 0 + q 1 0) = q 0 1 - q 0 0 by ring, show q 0 0 + q 1 1 - (q 0 0 + q 1 0) = q 1 1 - q 1 0 by ring]
    ring

end

end PGMax
