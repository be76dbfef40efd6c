import Verif.Lemmas.LogicalRows
import Verif.Lemmas.Scatter
import Mathlib.Analysis.SpecialFunctions.Log.Basic

/-! # Sums over the configurations of an OR / AND factor -/

namespace PGMax

theorem sum_filter_ite {β γ : Type _} [AddMonoid γ] (l : List β) (P : β → Bool) (g : β → γ) :
    ((l.filter P).map g).sum = (l.map (fun b => if P b then g b else 0)).sum := by
  induction l with
  | nil => rfl
  | cons b l ih =>
    by_cases h : P b
    · rw [List.filter_cons_of_pos h]; simp [h, ih]
    · rw [List.filter_cons_of_neg h]; simp [h, ih]

theorem exp_sum_div (T : ℝ) (l : List Nat) (g : Nat → ℝ) :
    Real.exp ((l.map g).sum / T) = (l.map (fun j => Real.exp (g j / T))).prod := by
  induction l with
  | nil => simp
  | cons a l ih => rw [List.map_cons, List.sum_cons, add_div, Real.exp_add, ih, List.map_cons, List.prod_cons]

theorem prod_filter_ne {γ : Type _} [CommMonoid γ] (l : List Nat) (hn : l.Nodup) (i : Nat) (hi : i ∈ l) (g : Nat → γ) :
    (l.map g).prod = ((l.filter (fun j => j ≠ i)).map g).prod * g i := by
  induction l with
  | nil => simp at hi
  | cons a l ih =>
    rw [List.nodup_cons] at hn
    by_cases ha : a = i
    · subst ha
      rw [List.filter_cons_of_neg (by simp), List.map_cons, List.prod_cons, mul_comm]
      rw [List.filter_eq_self.2]
      intro b hb
      simp only [ne_eq, decide_eq_true_eq]
      rintro rfl
      exact hn.1 hb
    · rw [List.filter_cons_of_pos (by simpa using ha), List.map_cons, List.prod_cons, List.map_cons, List.prod_cons,
        ih hn.2 (by simpa [Ne.symm ha] using hi), mul_assoc]

theorem prod_range_but {γ : Type _} [CommMonoid γ] (n i : Nat) (hi : i < n) (g : Nat → γ) :
    ((List.range n).map g).prod = (((List.range n).filter (fun j => j ≠ i)).map g).prod * g i :=
  prod_filter_ne _ List.nodup_range i (by simpa using hi) g

theorem lRows_filter_sum (rel n i s : Nat) (F : SFac ℝ) (hF : F.rows = lRows rel n) (g : List Nat × ℝ → ℝ) :
    ((F.rowsAt i s).map g).sum = ((bits n).map (fun p =>
      if (p ++ [if 1 - rel ∈ p then 1 - rel else rel])[i]? = some s then g (p ++ [if 1 - rel ∈ p then 1 - rel else rel], 0) else 0)).sum := by
  unfold SFac.rowsAt
  rw [sum_filter_ite, hF, lRows, List.map_map]
  congr 1
  apply List.map_congr_left
  intro p _
  simp

theorem prod_mul_exp (l : List Nat) (T : ℝ) (a x : Nat → ℝ) :
    (l.map (fun j => Real.exp ((a j + x j) / T) + Real.exp (a j / T))).prod
      = (l.map (fun j => Real.exp (a j / T))).prod * (l.map (fun j => 1 + Real.exp (x j / T))).prod := by
  induction l with
  | nil => simp
  | cons b l ih =>
    simp only [List.map_cons, List.prod_cons]
    rw [ih, add_div, Real.exp_add]
    ring

/-- Sums for the child. -/
theorem lRows_sum_child (rel n : Nat) (hrel : rel < 2) (F : SFac ℝ) (hF : F.rows = lRows rel n) (T : ℝ) (q : Nat → Nat → ℝ)
    (x : Nat → ℝ) (hx : ∀ j < n, x j = q j (1 - rel) - q j rel) :
    ((F.rowsAt n rel).map (fun r => Real.exp (scoreBut (n + 1) q n r / T))).sum
      = ((List.range n).map (fun j => Real.exp (q j rel / T))).prod ∧
    ((F.rowsAt n (1 - rel)).map (fun r => Real.exp (scoreBut (n + 1) q n r / T))).sum
      = ((List.range n).map (fun j => Real.exp (q j rel / T))).prod
        * (((List.range n).map (fun j => 1 + Real.exp (x j / T))).prod - 1) := by
  have hne : 1 - rel ≠ rel := by omega
  have key : ∀ s, ((F.rowsAt n s).map (fun r => Real.exp (scoreBut (n + 1) q n r / T))).sum
      = (((List.range n).map (fun j => Real.exp (q j (1 - rel) / T) + Real.exp (q j rel / T))).prod
          - ((List.range n).map (fun j => Real.exp (q j rel / T))).prod) * (if 1 - rel = s then 1 else 0)
        + ((List.range n).map (fun j => Real.exp (q j rel / T))).prod * (if rel = s then 1 else 0) := by
    intro s
    rw [lRows_filter_sum rel n n s F hF, ← lRows_sum rel n hrel (fun j b => Real.exp (q j b / T)) (fun b => if b = s then 1 else 0)]
    congr 1
    apply List.map_congr_left
    intro p hp
    have hl := ((mem_bits n p).1 hp).1
    rw [scoreBut_child n q p hl, exp_sum_div, List.getElem?_append_right (by omega), hl]
    simp
  have hpr : ((List.range n).map (fun j => Real.exp (q j (1 - rel) / T) + Real.exp (q j rel / T))).prod
      = ((List.range n).map (fun j => Real.exp (q j rel / T))).prod * ((List.range n).map (fun j => 1 + Real.exp (x j / T))).prod := by
    rw [← prod_mul_exp]
    congr 1
    apply List.map_congr_left
    intro j hj
    rw [hx j (List.mem_range.1 hj)]
    congr 3
    ring
  constructor
  · rw [key]; simp [hne]
  · rw [key, hpr]; simp [hne.symm]; ring

/-- Sums for a parent. -/
theorem lRows_sum_parent (rel n : Nat) (hrel : rel < 2) (F : SFac ℝ) (hF : F.rows = lRows rel n) (T : ℝ) (q : Nat → Nat → ℝ)
    (x : Nat → ℝ) (hx : ∀ j < n, x j = q j (1 - rel) - q j rel) (k : Nat) (hk : k < n) :
    ((F.rowsAt k rel).map (fun r => Real.exp (scoreBut (n + 1) q k r / T))).sum
      = (((List.range n).filter (fun j => j ≠ k)).map (fun j => Real.exp (q j rel / T))).prod
        * (((((List.range n).filter (fun j => j ≠ k)).map (fun j => 1 + Real.exp (x j / T))).prod - 1) * Real.exp (q n (1 - rel) / T)
          + Real.exp (q n rel / T)) ∧
    ((F.rowsAt k (1 - rel)).map (fun r => Real.exp (scoreBut (n + 1) q k r / T))).sum
      = (((List.range n).filter (fun j => j ≠ k)).map (fun j => Real.exp (q j rel / T))).prod
        * ((((List.range n).filter (fun j => j ≠ k)).map (fun j => 1 + Real.exp (x j / T))).prod * Real.exp (q n (1 - rel) / T)) := by
  have hne : 1 - rel ≠ rel := by omega
  have key : ∀ s, ((F.rowsAt k s).map (fun r => Real.exp (scoreBut (n + 1) q k r / T))).sum
      = ((((List.range n).filter (fun j => j ≠ k)).map (fun j => Real.exp (q j (1 - rel) / T) + Real.exp (q j rel / T))).prod
            * ((if 1 - rel = s then 1 else 0) + if rel = s then 1 else 0)
          - (((List.range n).filter (fun j => j ≠ k)).map (fun j => Real.exp (q j rel / T))).prod * (if rel = s then 1 else 0))
            * Real.exp (q n (1 - rel) / T)
        + (((List.range n).filter (fun j => j ≠ k)).map (fun j => Real.exp (q j rel / T))).prod * (if rel = s then 1 else 0)
            * Real.exp (q n rel / T) := by
    intro s
    have hsum := lRows_sum rel n hrel (fun j b => if j = k then (if b = s then 1 else 0) else Real.exp (q j b / T))
      (fun b => Real.exp (q n b / T))
    rw [prod_range_but n k hk, prod_range_but n k hk] at hsum
    have hc : ∀ g : Nat → ℝ, ∀ g' : Nat → ℝ, (∀ j, j ≠ k → g j = g' j) →
        (((List.range n).filter (fun j => j ≠ k)).map g).prod = (((List.range n).filter (fun j => j ≠ k)).map g').prod := by
      intro g g' hg
      congr 1
      apply List.map_congr_left
      intro j hj
      rw [List.mem_filter] at hj
      exact hg j (by simpa using hj.2)
    rw [hc (fun j => (if j = k then (if 1 - rel = s then (1 : ℝ) else 0) else Real.exp (q j (1 - rel) / T))
          + (if j = k then (if rel = s then (1 : ℝ) else 0) else Real.exp (q j rel / T)))
          (fun j => Real.exp (q j (1 - rel) / T) + Real.exp (q j rel / T)) (fun j hj => by simp only [if_neg hj]),
      hc (fun j => (if j = k then (if rel = s then (1 : ℝ) else 0) else Real.exp (q j rel / T)))
          (fun j => Real.exp (q j rel / T)) (fun j hj => by simp only [if_neg hj])] at hsum
    simp only [if_true] at hsum
    rw [← hsum, lRows_filter_sum rel n k s F hF]
    congr 1
    apply List.map_congr_left
    intro p hp
    have hl := ((mem_bits n p).1 hp).1
    rw [scoreBut_parent n k hk q p hl, add_div, Real.exp_add, exp_sum_div, prod_range_but n k hk]
    rw [hc (fun j => if j = k then (if p.getD j 0 = s then (1 : ℝ) else 0) else Real.exp (q j (p.getD j 0) / T))
      (fun j => Real.exp (q j (p.getD j 0) / T)) (fun j hj => by simp only [if_neg hj])]
    rw [List.getElem?_append_left (by omega), List.getElem?_eq_getElem (by omega), getD_of_some (List.getElem?_eq_getElem (by omega : k < p.length))]
    simp only [if_true, Option.some.injEq]
    split <;> ring
  have hpr : (((List.range n).filter (fun j => j ≠ k)).map (fun j => Real.exp (q j (1 - rel) / T) + Real.exp (q j rel / T))).prod
      = (((List.range n).filter (fun j => j ≠ k)).map (fun j => Real.exp (q j rel / T))).prod
        * (((List.range n).filter (fun j => j ≠ k)).map (fun j => 1 + Real.exp (x j / T))).prod := by
    rw [← prod_mul_exp]
    congr 1
    apply List.map_congr_left
    intro j hj
    rw [List.mem_filter] at hj
    rw [hx j (List.mem_range.1 hj.1)]
    congr 3
    ring
  constructor
  · rw [key, hpr, if_neg hne, if_pos rfl]; ring
  · rw [key, hpr, if_neg hne.symm, if_pos rfl]; ring

end PGMax
