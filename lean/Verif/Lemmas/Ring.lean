import Mathlib.LinearAlgebra.Matrix.Determinant.Basic
import Mathlib.Algebra.BigOperators.Fin
import Mathlib.Data.Real.Basic
import Mathlib.Algebra.Group.Fin.Basic
import Mathlib.Tactic.FinCases
import Mathlib.Tactic.Positivity
import Mathlib.Tactic.Ring
import Mathlib.Tactic.Linarith
import Mathlib.Tactic.FieldSimp
import Mathlib.Algebra.Order.BigOperators.Group.Finset
import Mathlib.Data.Fintype.BigOperators
/-! Sums over closed paths. -/
namespace PGMax

open Matrix

abbrev Mat2 := Matrix (Fin 2) (Fin 2) ℝ

/-- The sum over all paths from `a` to `b`. -/
theorem path_sum : ∀ (n : Nat) (K : Fin n → Mat2) (a b : Fin 2),
    ∑ y : Fin (n + 1) → Fin 2, (if y 0 = a ∧ y (Fin.last n) = b then ∏ k : Fin n, K k (y k.castSucc) (y k.succ) else 0) = (List.ofFn K).prod a b
  | 0, K, a, b => by
    rw [List.ofFn_zero, List.prod_nil, Matrix.one_apply]
    by_cases h : a = b
    · subst h
      rw [if_pos rfl, Finset.sum_eq_single (fun _ => a)]
      · simp
      · intro y _ hy
        rw [if_neg]
        rintro ⟨h1, -⟩
        exact hy (funext fun k => by
          have hk : k = 0 := Fin.ext (by omega)
          rw [hk, h1])
      · simp
    · rw [if_neg h]
      refine Finset.sum_eq_zero fun y _ => if_neg ?_
      rintro ⟨h1, h2⟩
      exact h (h1.symm.trans h2)
  | n + 1, K, a, b => by
    rw [List.ofFn_succ, List.prod_cons, Matrix.mul_apply]
    have ih := fun c => path_sum n (fun k => K k.succ) c b
    simp only [← ih, Finset.mul_sum]
    rw [Finset.sum_comm, ← (Fin.consEquiv (fun _ : Fin (n + 2) => Fin 2)).sum_comp, Fintype.sum_prod_type, Finset.sum_comm]
    refine Finset.sum_congr rfl fun y _ => ?_
    simp only [Fin.consEquiv_apply, Fin.cons_zero, mul_ite, mul_zero]
    have e : ∀ c : Fin 2, (Fin.cons c y : Fin (n + 2) → Fin 2) (Fin.last (n + 1)) = y (Fin.last n) := fun c => by
      rw [← Fin.succ_last, Fin.cons_succ]
    simp only [e]
    rw [Finset.sum_eq_single a, Finset.sum_eq_single (y 0)]
    · by_cases h : y (Fin.last n) = b
      · simp only [h, and_self, if_true]
        rw [Fin.prod_univ_succ]
        simp
      · simp [h]
    · intro c _ hc
      exact if_neg fun h => hc h.1.symm
    · simp
    · intro c _ hc
      exact if_neg fun h => hc h.1
    · simp

/-- The sum over all closed paths from `a`. -/
theorem cycle_sum (m : Nat) (K : Fin (m + 1) → Mat2) (a : Fin 2) :
    ∑ y : Fin (m + 1) → Fin 2, (if y 0 = a then ∏ k : Fin (m + 1), K k (y k) (y (k + 1)) else 0) = (List.ofFn K).prod a a := by
  rw [List.ofFn_succ', List.concat_eq_append, List.prod_append, List.prod_singleton, Matrix.mul_apply]
  simp only [← path_sum, Finset.sum_mul]
  rw [Finset.sum_comm]
  refine Finset.sum_congr rfl fun y _ => ?_
  simp only [ite_mul, zero_mul]
  rw [Finset.sum_eq_single (y (Fin.last m))]
  · by_cases h : y 0 = a
    · rw [if_pos h, if_pos ⟨h, rfl⟩, Fin.prod_univ_castSucc, Fin.last_add_one, h]
      have e : ∀ k : Fin m, (k.castSucc + 1 : Fin (m + 1)) = k.succ := fun k => Fin.ext (by
        rw [Fin.val_add, Fin.val_succ, Fin.val_castSucc]
        rcases m with _ | m
        · exact absurd k.2 (by omega)
        · rw [Fin.val_one, Nat.mod_eq_of_lt (by omega)])
      simp only [e]
    · rw [if_neg h, if_neg fun h' => h h'.1]
  · intro c _ hc
    exact if_neg fun h => hc h.2.symm
  · simp

theorem rotate_sum (m : Nat) (K : Fin (m + 1) → Mat2) (j : Fin (m + 1)) (a : Fin 2) :
    ∑ y : Fin (m + 1) → Fin 2, (if y j = a then ∏ k : Fin (m + 1), K k (y k) (y (k + 1)) else 0) = (List.ofFn (fun k => K (k + j))).prod a a := by
  rw [← cycle_sum, ← (Equiv.arrowCongr (Equiv.addRight j) (Equiv.refl (Fin 2))).sum_comp]
  refine Finset.sum_congr rfl fun y _ => ?_
  have e : ∀ k, (Equiv.arrowCongr (Equiv.addRight j) (Equiv.refl (Fin 2))) y k = y (k - j) := fun k => by
    simp [Equiv.arrowCongr, sub_eq_add_neg]
  simp only [e, sub_self]
  congr 1
  rw [← Equiv.prod_comp (Equiv.addRight j)]
  refine Finset.prod_congr rfl fun k _ => ?_
  rw [Equiv.coe_addRight, add_sub_cancel_right, add_right_comm, add_sub_cancel_right]

theorem prod_nonneg' {n : Nat} {K : Fin n → Mat2} (hK : ∀ k a b, 0 ≤ K k a b) (a b : Fin 2) : 0 ≤ (List.ofFn K).prod a b := by
  rw [← path_sum]
  refine Finset.sum_nonneg fun y _ => ?_
  split
  · exact Finset.prod_nonneg fun k _ => hK _ _ _
  · exact le_rfl

theorem prod_pos' {n : Nat} {K : Fin (n + 1) → Mat2} (hK : ∀ k a b, 0 < K k a b) (a b : Fin 2) : 0 < (List.ofFn K).prod a b := by
  rw [← path_sum]
  refine Finset.sum_pos' (fun y _ => ?_) ⟨fun k => if k = 0 then a else b, Finset.mem_univ _, ?_⟩
  · split
    · exact Finset.prod_nonneg fun k _ => (hK _ _ _).le
    · exact le_rfl
  · rw [if_pos ⟨if_pos rfl, if_neg (Fin.last_pos).ne'⟩]
    exact Finset.prod_pos fun k _ => hK _ _ _

theorem prod_rows {E : ℝ} (hE : 1 ≤ E) : ∀ {n : Nat} {K : Fin n → Mat2}, (∀ k a b, 0 ≤ K k a b) → (∀ k a, E⁻¹ ≤ ∑ b, K k a b ∧ ∑ b, K k a b ≤ E) → ∀ a,
    (E ^ n)⁻¹ ≤ ∑ b, (List.ofFn K).prod a b ∧ ∑ b, (List.ofFn K).prod a b ≤ E ^ n
  | 0, K, _, _, a => by
    rw [List.ofFn_zero, List.prod_nil]
    simp [Matrix.one_apply]
  | n + 1, K, hK, hr, a => by
    have ih := prod_rows hE (K := fun k => K k.succ) (fun k => hK _) (fun k => hr _)
    have hE0 : 0 < E := by linarith
    have e : ∑ b, (List.ofFn K).prod a b = ∑ c, K 0 a c * ∑ b, (List.ofFn (fun k => K k.succ)).prod c b := by
      rw [List.ofFn_succ, List.prod_cons]
      simp only [Matrix.mul_apply, Finset.mul_sum]
      exact Finset.sum_comm
    rw [e]
    constructor
    · calc (E ^ (n + 1))⁻¹ = E⁻¹ * (E ^ n)⁻¹ := by rw [pow_succ, mul_inv, mul_comm]
        _ ≤ (∑ c, K 0 a c) * (E ^ n)⁻¹ := mul_le_mul_of_nonneg_right (hr 0 a).1 (by positivity)
        _ = ∑ c, K 0 a c * (E ^ n)⁻¹ := Finset.sum_mul ..
        _ ≤ _ := Finset.sum_le_sum fun c _ => mul_le_mul_of_nonneg_left (ih c).1 (hK _ _ _)
    · calc _ ≤ ∑ c, K 0 a c * E ^ n := Finset.sum_le_sum fun c _ => mul_le_mul_of_nonneg_left (ih c).2 (hK _ _ _)
        _ = (∑ c, K 0 a c) * E ^ n := (Finset.sum_mul ..).symm
        _ ≤ E * E ^ n := mul_le_mul_of_nonneg_right (hr 0 a).2 (by positivity)
        _ = E ^ (n + 1) := by rw [pow_succ, mul_comm]

theorem prod_cols {E : ℝ} (hE : 1 ≤ E) : ∀ {n : Nat} {K : Fin n → Mat2} {π : Fin (n + 1) → Fin 2 → ℝ}, (∀ k a b, 0 ≤ K k a b) → (∀ k a, 0 ≤ π k a) →
    (∀ k b, π k.succ b * E⁻¹ ≤ ∑ a, π k.castSucc a * K k a b ∧ ∑ a, π k.castSucc a * K k a b ≤ π k.succ b * E) → ∀ b,
    π (Fin.last n) b * (E ^ n)⁻¹ ≤ ∑ a, π 0 a * (List.ofFn K).prod a b ∧ ∑ a, π 0 a * (List.ofFn K).prod a b ≤ π (Fin.last n) b * E ^ n
  | 0, K, π, _, _, _, b => by
    rw [List.ofFn_zero, List.prod_nil]
    simp [Matrix.one_apply]
  | n + 1, K, π, hK, hπ, hc, b => by
    have ih := prod_cols hE (K := fun k => K k.succ) (π := fun k => π k.succ) (fun k => hK _) (fun k => hπ _) (fun k b => by
      have := hc k.succ b
      rwa [← Fin.succ_castSucc] at this) b
    have hE0 : 0 < E := by linarith
    have e : ∑ a, π 0 a * (List.ofFn K).prod a b = ∑ c, (∑ a, π 0 a * K 0 a c) * (List.ofFn (fun k => K k.succ)).prod c b := by
      rw [List.ofFn_succ, List.prod_cons]
      simp only [Matrix.mul_apply, Finset.mul_sum, Finset.sum_mul]
      rw [Finset.sum_comm]
      exact Finset.sum_congr rfl fun c _ => Finset.sum_congr rfl fun a _ => by ring
    rw [e]
    have hn := prod_nonneg' (K := fun k => K k.succ) (fun k => hK _)
    rw [Fin.succ_last] at ih
    have h0 := hc 0
    simp only [Fin.castSucc_zero] at h0
    constructor
    · calc π (Fin.last (n + 1)) b * (E ^ (n + 1))⁻¹ = E⁻¹ * (π (Fin.last (n + 1)) b * (E ^ n)⁻¹) := by rw [pow_succ, mul_inv]; ring
        _ ≤ E⁻¹ * ∑ c, π (Fin.succ 0) c * (List.ofFn (fun k => K k.succ)).prod c b := mul_le_mul_of_nonneg_left ih.1 (by positivity)
        _ = ∑ c, (π (Fin.succ 0) c * E⁻¹) * (List.ofFn (fun k => K k.succ)).prod c b := by
          rw [Finset.mul_sum]
          exact Finset.sum_congr rfl fun c _ => by ring
        _ ≤ _ := Finset.sum_le_sum fun c _ => mul_le_mul_of_nonneg_right (h0 c).1 (hn c b)
    · calc _ ≤ ∑ c, (π (Fin.succ 0) c * E) * (List.ofFn (fun k => K k.succ)).prod c b := Finset.sum_le_sum fun c _ => mul_le_mul_of_nonneg_right (h0 c).2 (hn c b)
        _ = E * ∑ c, π (Fin.succ 0) c * (List.ofFn (fun k => K k.succ)).prod c b := by
          rw [Finset.mul_sum]
          exact Finset.sum_congr rfl fun c _ => by ring
        _ ≤ E * (π (Fin.last (n + 1)) b * E ^ n) := mul_le_mul_of_nonneg_left ih.2 hE0.le
        _ = _ := by rw [pow_succ]; ring

/-- Closed paths around a ring of two states, if steps from each state have the total 1 and keep the distributions `π`, up to a factor `E`. -/
theorem ring_core {E : ℝ} (hE : 1 ≤ E) {m : Nat} {K : Fin (m + 1) → Mat2} {π : Fin (m + 1) → Fin 2 → ℝ} (hK : ∀ k a b, 0 ≤ K k a b) (hπ : ∀ k a, 0 ≤ π k a) (h1 : ∀ k, π k 0 + π k 1 = 1)
    (hr : ∀ k a, E⁻¹ ≤ ∑ b, K k a b ∧ ∑ b, K k a b ≤ E) (hc : ∀ k b, π (k + 1) b * E⁻¹ ≤ ∑ a, π k a * K k a b ∧ ∑ a, π k a * K k a b ≤ π (k + 1) b * E) (j : Fin (m + 1)) {W : Fin 2 → ℝ}
    (hW : ∀ a, W a = ∑ y : Fin (m + 1) → Fin 2, (if y j = a then ∏ k : Fin (m + 1), K k (y k) (y (k + 1)) else 0)) (a : Fin 2) :
    |W a - (π j a + (W 0 + W 1 - 1) * (1 - π j a))| ≤ E ^ (m + 1) - 1 ∧ W a ≤ E ^ (m + 1) := by
  simp only [rotate_sum] at hW
  have hE0 : 0 < E := by linarith
  have hp : 1 ≤ E ^ (m + 1) := one_le_pow₀ hE
  have hi : 1 - (E ^ (m + 1))⁻¹ ≤ E ^ (m + 1) - 1 := by
    have h2 : 0 < E ^ (m + 1) := by positivity
    have h3 : E ^ (m + 1) * (E ^ (m + 1))⁻¹ = 1 := mul_inv_cancel₀ h2.ne'
    have h4 : 0 ≤ (E ^ (m + 1))⁻¹ := by positivity
    nlinarith
  have rows := prod_rows hE (K := fun k => K (k + j)) (fun k => hK _) (fun k => hr _)
  have cols := prod_cols hE (K := fun k => K (k + j)) (π := fun k => π (Fin.ofNat (m + 1) k.val + j)) (fun k => hK _) (fun k => hπ _) (fun k b => by
    have e1 : Fin.ofNat (m + 1) k.castSucc.val = k := Fin.ext (by simp [Fin.ofNat, Nat.mod_eq_of_lt k.2])
    have e2 : Fin.ofNat (m + 1) k.succ.val = k + 1 := Fin.ext (by simp [Fin.ofNat, Fin.val_add])
    rw [e1, e2, add_right_comm]
    exact hc (k + j) b)
  have e0 : Fin.ofNat (m + 1) ((0 : Fin (m + 1 + 1)).val) + j = j := by
    have : Fin.ofNat (m + 1) ((0 : Fin (m + 1 + 1)).val) = 0 := Fin.ext (by simp [Fin.ofNat])
    rw [this, zero_add]
  have el : Fin.ofNat (m + 1) (Fin.last (m + 1)).val + j = j := by
    have : Fin.ofNat (m + 1) (Fin.last (m + 1)).val = 0 := Fin.ext (by simp [Fin.ofNat])
    rw [this, zero_add]
  simp only [e0, el] at cols
  have hn := prod_nonneg' (K := fun k => K (k + j)) (fun k => hK _)
  generalize (List.ofFn (fun k => K (k + j))).prod = M at *
  have w0 := hW 0
  have w1 := hW 1
  have r0 := rows 0
  have r1 := rows 1
  have c0 := cols 0
  have c1 := cols 1
  rw [Fin.sum_univ_two] at r0 r1 c0 c1
  have n01 := hn 0 1
  have n10 := hn 1 0
  have hj := h1 j
  have p0 := hπ j 0
  have p1 := hπ j 1
  generalize E ^ (m + 1) = Q at *
  rw [w0, w1]
  generalize M 0 0 = p at *
  generalize M 0 1 = q at *
  generalize M 1 0 = r at *
  generalize M 1 1 = s at *
  generalize Q⁻¹ = R at *
  have hπ0 : π j 0 = 1 - π j 1 := by linarith
  generalize hu : π j 1 = u at *
  rw [hπ0] at c0 c1 p0
  have key : |p - ((1 - u) + (p + s - 1) * u)| ≤ Q - 1 := by
    rw [abs_le]
    constructor <;> nlinarith
  refine ⟨?_, ?_⟩
  · fin_cases a
    · show |W 0 - (π j 0 + (p + s - 1) * (1 - π j 0))| ≤ Q - 1
      rw [w0, hπ0, sub_sub_cancel]
      exact key
    · show |W 1 - (π j 1 + (p + s - 1) * (1 - π j 1))| ≤ Q - 1
      rw [hu, w1, ← abs_neg]
      convert key using 2
      ring
  · fin_cases a
    · show W 0 ≤ Q
      linarith
    · show W 1 ≤ Q
      linarith

theorem ring_lt {E : ℝ} (hE : 1 ≤ E) {m : Nat} {K : Fin (m + 1) → Mat2} (hK : ∀ k a b, 0 < K k a b) (hr : ∀ k a, E⁻¹ ≤ ∑ b, K k a b ∧ ∑ b, K k a b ≤ E) (j : Fin (m + 1)) {W : Fin 2 → ℝ}
    (hW : ∀ a, W a = ∑ y : Fin (m + 1) → Fin 2, (if y j = a then ∏ k : Fin (m + 1), K k (y k) (y (k + 1)) else 0)) (a : Fin 2) : W a < E ^ (m + 1) := by
  simp only [rotate_sum] at hW
  have rows := (prod_rows hE (K := fun k => K (k + j)) (fun k a b => (hK _ a b).le) (fun k => hr _) a).2
  have hp := prod_pos' (K := fun k => K (k + j)) (fun k => hK _)
  rw [Fin.sum_univ_two] at rows
  rw [hW]
  fin_cases a
  · have := hp 0 1
    show (List.ofFn (fun k => K (k + j))).prod 0 0 < _
    have rows : (List.ofFn (fun k => K (k + j))).prod 0 0 + (List.ofFn (fun k => K (k + j))).prod 0 1 ≤ E ^ (m + 1) := rows
    linarith
  · have := hp 1 0
    show (List.ofFn (fun k => K (k + j))).prod 1 1 < _
    have rows : (List.ofFn (fun k => K (k + j))).prod 1 0 + (List.ofFn (fun k => K (k + j))).prod 1 1 ≤ E ^ (m + 1) := rows
    linarith

/-- If steps from each state have the total 1, the excess of closed paths is the product of the determinants. -/
theorem ring_det {m : Nat} {K : Fin (m + 1) → Mat2} (hK : ∀ k a b, 0 ≤ K k a b) (hr : ∀ k a, ∑ b, K k a b = 1) (j : Fin (m + 1)) {W : Fin 2 → ℝ}
    (hW : ∀ a, W a = ∑ y : Fin (m + 1) → Fin 2, (if y j = a then ∏ k : Fin (m + 1), K k (y k) (y (k + 1)) else 0)) : W 0 + W 1 - 1 = ∏ k, (K k 0 0 * K k 1 1 - K k 0 1 * K k 1 0) := by
  simp only [rotate_sum] at hW
  have rows := prod_rows (le_refl 1) (K := fun k => K (k + j)) (fun k => hK _) (fun k a => by rw [hr, inv_one]; exact ⟨le_rfl, le_rfl⟩)
  simp only [one_pow, inv_one, Fin.sum_univ_two] at rows
  have e : (List.ofFn (fun k => K (k + j))).prod.det = ∏ k, (K k 0 0 * K k 1 1 - K k 0 1 * K k 1 0) := by
    have h1 := map_list_prod (Matrix.detMonoidHom (n := Fin 2) (R := ℝ)) (List.ofFn (fun k => K (k + j)))
    rw [List.map_ofFn, List.prod_ofFn] at h1
    refine h1.trans ?_
    exact Fintype.prod_equiv (Equiv.addRight j) _ _ fun k => Matrix.det_fin_two _
  rw [Matrix.det_fin_two] at e
  rw [hW, hW, ← e]
  have h0 := le_antisymm (rows 0).2 (rows 0).1
  have h1 := le_antisymm (rows 1).2 (rows 1).1
  generalize (List.ofFn (fun k => K (k + j))).prod = M at *
  have h2 : M 0 1 = 1 - M 0 0 := by linarith
  have h3 : M 1 0 = 1 - M 1 1 := by linarith
  rw [h2, h3]
  ring

end PGMax
