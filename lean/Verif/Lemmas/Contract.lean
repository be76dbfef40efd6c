import Verif.Lemmas.Damped
import Mathlib.Analysis.MeanInequalities

/-! Helper lemmas: sum-product iterations of weak complete tables are contractions. -/

namespace PGMax

open Filter Topology

/-- Changing all scores by amounts in an interval changes the summaries of two lists of scores, which differ by at most `R`, by amounts that differ
by at most `c` times the length of the interval. -/
def Contracts (Φ : List ℝ → ℝ) (R c : ℝ) : Prop :=
  ∀ (l : List (List Nat × ℝ)) (g g' h h' : List Nat × ℝ → ℝ) (lo hi : ℝ), l ≠ [] → (∀ r ∈ l, g r - h r ≤ R ∧ h r - g r ≤ R) →
    (∀ r ∈ l, g' r - g r = h' r - h r ∧ lo ≤ g' r - g r ∧ g' r - g r ≤ hi) →
    (Φ (l.map h') - Φ (l.map h)) - (Φ (l.map g') - Φ (l.map g)) ≤ c * (hi - lo)

/-- The contraction factor of a table whose log potentials differ by at most `R`. -/
noncomputable def contraction (T R : ℝ) : ℝ := 1 - Real.exp (-2 * R / T) / (1 + Real.exp (-100000))

/-- The inequality behind the contraction. -/
theorem log_contract {P Q ε D : ℝ} (hε : 0 ≤ ε ∧ ε ≤ 1) (hQ : 1 ≤ Q) (hQD : Real.log Q ≤ D) (hP : ε * Q + (1 - ε) ≤ P) : Real.log Q - Real.log P ≤ (1 - ε) * D := by
  have hQ0 : 0 < Q := by linarith
  have h1 := Real.geom_mean_le_arith_mean2_weighted hε.1 (sub_nonneg.2 hε.2) hQ0.le zero_le_one (by ring)
  rw [Real.one_rpow, mul_one, mul_one] at h1
  have h2 := Real.log_le_log (Real.rpow_pos_of_pos hQ0 ε) (h1.trans hP)
  rw [Real.log_rpow hQ0] at h2
  have h3 := mul_le_mul_of_nonneg_left hQD (sub_nonneg.2 hε.2)
  linarith

/-- Sums of weights with a multiple of the largest weight. -/
theorem sum_contract {l : List (List Nat × ℝ)} (hl : l ≠ []) {A A' B B' : List Nat × ℝ → ℝ} {η u : ℝ} (hη : 0 ≤ η) (hu : 0 < u)
    (hA : ∀ r ∈ l, 0 < A r) (hB : ∀ r ∈ l, 0 < B r) (hAB : ∀ r ∈ l, A r ≤ u * B r ∧ B r ≤ u * A r)
    (hup : ∀ r ∈ l, A r ≤ A' r) (hup' : ∀ r ∈ l, B r ≤ B' r) (hrat : ∀ r ∈ l, A' r * B r = B' r * A r) {N : (List Nat × ℝ → ℝ) → ℝ}
    (hN : ∀ X, N X = η * maxOf 0 (l.map X) + (l.map X).sum) :
    u⁻¹ ^ 2 / (1 + η) * (N B' / N B) + (1 - u⁻¹ ^ 2 / (1 + η)) ≤ N A' / N A := by
  have hmono : ∀ X Y : List Nat × ℝ → ℝ, ∀ k : ℝ, (∀ r ∈ l, X r ≤ Y r + k) → maxOf 0 (l.map X) ≤ maxOf 0 (l.map Y) + k :=
    fun X Y k h => (summary_max (α := ℝ)).mono l X Y k hl h
  have hsum : ∀ X : List Nat × ℝ → ℝ, (∀ r ∈ l, 0 < X r) → 0 < (l.map X).sum := by
    intro X hX
    obtain ⟨r, hr⟩ := List.exists_mem_of_ne_nil l hl
    refine lt_of_lt_of_le (hX r hr) (List.single_le_sum ?_ _ (List.mem_map_of_mem hr))
    intro x hx
    obtain ⟨r', hr', rfl⟩ := List.mem_map.1 hx
    exact (hX r' hr').le
  have hmax : ∀ X : List Nat × ℝ → ℝ, (∀ r ∈ l, 0 < X r) → 0 < maxOf 0 (l.map X) := by
    intro X hX
    obtain ⟨h1, -⟩ := maxOf_spec 0 (l.map X) (by simpa using hl)
    obtain ⟨r, hr, e⟩ := List.mem_map.1 h1
    rw [← e]
    exact hX r hr
  have hNpos : ∀ X : List Nat × ℝ → ℝ, (∀ r ∈ l, 0 < X r) → 0 < N X := by
    intro X hX
    rw [hN]
    have := hsum X hX
    have := hmax X hX
    positivity
  have hNA := hNpos A hA
  have hNB := hNpos B hB
  -- the sums of the increases
  have e1 : (l.map A').sum = (l.map A).sum + (l.map (fun r => A' r - A r)).sum := by
    rw [← List.sum_map_add]; congr 1; apply List.map_congr_left; intro r _; ring
  have e2 : (l.map B').sum = (l.map B).sum + (l.map (fun r => B' r - B r)).sum := by
    rw [← List.sum_map_add]; congr 1; apply List.map_congr_left; intro r _; ring
  -- increases of `B` are at most `u` times increases of `A`
  have hinc : (l.map (fun r => B' r - B r)).sum ≤ u * (l.map (fun r => A' r - A r)).sum := by
    rw [← List.sum_map_mul_left]
    refine List.sum_le_sum (fun r hr => ?_)
    have h1 := hrat r hr
    have h2 := (hAB r hr).2
    have h3 := hup r hr
    have h4 := hA r hr
    have h5 : (B' r - B r) * A r = (A' r - A r) * B r := by linarith
    have h6 : (A' r - A r) * B r ≤ (A' r - A r) * (u * A r) := mul_le_mul_of_nonneg_left h2 (by linarith)
    have h7 : (B' r - B r) * A r ≤ (u * (A' r - A r)) * A r := by rw [h5]; linarith
    exact le_of_mul_le_mul_right h7 h4
  have hmA : maxOf 0 (l.map A) ≤ maxOf 0 (l.map A') := by simpa using hmono A A' 0 (fun r hr => by simpa using hup r hr)
  have hmB : maxOf 0 (l.map B') ≤ maxOf 0 (l.map B) + (l.map (fun r => B' r - B r)).sum := by
    refine hmono B' B _ (fun r hr => ?_)
    have : B' r - B r ≤ (l.map (fun r => B' r - B r)).sum := by
      refine List.single_le_sum ?_ _ (List.mem_map_of_mem (f := fun r => B' r - B r) hr)
      intro x hx
      obtain ⟨r', hr', rfl⟩ := List.mem_map.1 hx
      exact sub_nonneg.2 (hup' r' hr')
    linarith
  have hnab : N A ≤ u * N B := by
    rw [hN, hN]
    have h1 : (l.map A).sum ≤ u * (l.map B).sum := by
      rw [← List.sum_map_mul_left]
      exact List.sum_le_sum (fun r hr => (hAB r hr).1)
    have h2 : maxOf 0 (l.map A) ≤ u * maxOf 0 (l.map B) := by
      obtain ⟨h3, -⟩ := maxOf_spec 0 (l.map A) (by simpa using hl)
      obtain ⟨-, h4⟩ := maxOf_spec 0 (l.map B) (by simpa using hl)
      obtain ⟨r, hr, e⟩ := List.mem_map.1 h3
      rw [← e]
      exact (hAB r hr).1.trans (mul_le_mul_of_nonneg_left (h4 _ (List.mem_map_of_mem hr)) hu.le)
    have := mul_le_mul_of_nonneg_left h2 hη
    nlinarith
  set ΔA := (l.map (fun r => A' r - A r)).sum with hΔA
  set ΔB := (l.map (fun r => B' r - B r)).sum with hΔB
  have hΔA0 : 0 ≤ ΔA := by
    rw [hΔA]
    refine List.sum_nonneg ?_
    intro x hx
    obtain ⟨r', hr', rfl⟩ := List.mem_map.1 hx
    exact sub_nonneg.2 (hup r' hr')
  have k1 : N A + ΔA ≤ N A' := by
    rw [hN, hN, e1]
    have := mul_le_mul_of_nonneg_left hmA hη
    linarith
  have k2 : N B' ≤ N B + (1 + η) * ΔB := by
    rw [hN, hN, e2]
    have := mul_le_mul_of_nonneg_left hmB hη
    linarith
  have k3 : N B' / N B ≤ 1 + (1 + η) * ΔB / N B := by
    rw [div_le_iff₀ hNB, add_mul, one_mul, div_mul_cancel₀ _ hNB.ne']
    exact k2
  have k4 : 1 + ΔA / N A ≤ N A' / N A := by
    rw [le_div_iff₀ hNA, add_mul, one_mul, div_mul_cancel₀ _ hNA.ne']
    exact k1
  have hη1 : 0 < 1 + η := by linarith
  refine le_trans ?_ k4
  have k5 : u⁻¹ ^ 2 / (1 + η) * (N B' / N B) ≤ u⁻¹ ^ 2 / (1 + η) + u⁻¹ ^ 2 * ΔB / N B := by
    have := mul_le_mul_of_nonneg_left k3 (show 0 ≤ u⁻¹ ^ 2 / (1 + η) by positivity)
    refine this.trans (le_of_eq ?_)
    field_simp
  have k6 : u⁻¹ ^ 2 * ΔB / N B ≤ ΔA / N A := by
    rw [div_le_div_iff₀ hNB hNA]
    have h1 : ΔB * N A ≤ u * ΔA * (u * N B) := by
      rcases le_total 0 ΔB with h0 | h0
      · exact mul_le_mul hinc hnab hNA.le (by positivity)
      · exact le_trans (mul_nonpos_of_nonpos_of_nonneg h0 hNA.le) (by positivity)
    have h2 := mul_le_mul_of_nonneg_left h1 (show 0 ≤ u⁻¹ ^ 2 by positivity)
    refine le_trans (le_of_eq (by ring)) (h2.trans (le_of_eq ?_))
    field_simp
  linarith

theorem contraction_mem {T R : ℝ} (hT : 0 < T) (hR : 0 ≤ R) : 0 ≤ contraction T R ∧ contraction T R < 1 := by
  unfold contraction
  have h1 : Real.exp (-2 * R / T) ≤ 1 := by
    rw [← Real.exp_zero]
    refine Real.exp_le_exp.2 (div_nonpos_of_nonpos_of_nonneg (by linarith) hT.le)
  have h2 := Real.exp_pos (-2 * R / T)
  have h3 := Real.exp_pos (-100000)
  refine ⟨sub_nonneg.2 ((div_le_one (by positivity)).2 (by linarith)), sub_lt_self _ (by positivity)⟩

/-- A multiple of the largest weight and the sum of the weights. -/
theorem contracts_of {T : ℝ} (hT : 0 < T) {η : ℝ} (hη : 0 ≤ η) {Φ : List ℝ → ℝ}
    (hΦ : ∀ (l : List (List Nat × ℝ)) (g : List Nat × ℝ → ℝ), l ≠ [] →
      Φ (l.map g) = T * Real.log (η * maxOf 0 (l.map (fun r => Real.exp (g r / T))) + (l.map (fun r => Real.exp (g r / T))).sum)) {R : ℝ} (hR : 0 ≤ R) :
    Contracts Φ R (1 - Real.exp (-2 * R / T) / (1 + η)) := by
  intro l g g' h h' lo hi hl hgh hδ
  have hmul : ∀ (k : ℝ) (X : List Nat × ℝ → ℝ), 0 < k → maxOf 0 (l.map (fun r => k * X r)) = k * maxOf 0 (l.map X) := by
    intro k X hk
    obtain ⟨a1, a2⟩ := maxOf_spec 0 (l.map (fun r => k * X r)) (by simpa using hl)
    obtain ⟨b1, b2⟩ := maxOf_spec 0 (l.map X) (by simpa using hl)
    obtain ⟨r, hr, e⟩ := List.mem_map.1 a1
    obtain ⟨r', hr', e'⟩ := List.mem_map.1 b1
    refine le_antisymm ?_ ?_
    · rw [← e]
      exact mul_le_mul_of_nonneg_left (b2 _ (List.mem_map_of_mem hr)) hk.le
    · rw [← e']
      exact a2 _ (List.mem_map.2 ⟨r', hr', rfl⟩)
  let N : (List Nat × ℝ → ℝ) → ℝ := fun X => η * maxOf 0 (l.map X) + (l.map X).sum
  have hNmul : ∀ (k : ℝ) (X : List Nat × ℝ → ℝ), 0 < k → N (fun r => k * X r) = k * N X := by
    intro k X hk
    show η * maxOf 0 (l.map (fun r => k * X r)) + (l.map (fun r => k * X r)).sum = k * (η * maxOf 0 (l.map X) + (l.map X).sum)
    rw [hmul k X hk, List.sum_map_mul_left]
    ring
  have hNpos : ∀ X : List Nat × ℝ → ℝ, (∀ r ∈ l, 0 < X r) → 0 < N X := by
    intro X hX
    obtain ⟨r, hr⟩ := List.exists_mem_of_ne_nil l hl
    have h1 : 0 < (l.map X).sum := by
      refine lt_of_lt_of_le (hX r hr) (List.single_le_sum ?_ _ (List.mem_map_of_mem hr))
      intro x hx
      obtain ⟨r', hr', rfl⟩ := List.mem_map.1 hx
      exact (hX r' hr').le
    have h2 : 0 < maxOf 0 (l.map X) := by
      obtain ⟨h1, -⟩ := maxOf_spec 0 (l.map X) (by simpa using hl)
      obtain ⟨r, hr, e⟩ := List.mem_map.1 h1
      rw [← e]
      exact hX r hr
    show 0 < η * maxOf 0 (l.map X) + (l.map X).sum
    positivity
  have hNmono : ∀ X Y : List Nat × ℝ → ℝ, (∀ r ∈ l, X r ≤ Y r) → N X ≤ N Y := by
    intro X Y hXY
    have h1 : maxOf 0 (l.map X) ≤ maxOf 0 (l.map Y) := by
      simpa using (summary_max (α := ℝ)).mono l X Y 0 hl (fun r hr => by simpa using hXY r hr)
    exact add_le_add (mul_le_mul_of_nonneg_left h1 hη) (List.sum_le_sum hXY)
  -- weights; the new ones with the smallest increase removed
  let A : List Nat × ℝ → ℝ := fun r => Real.exp (g r / T)
  let B : List Nat × ℝ → ℝ := fun r => Real.exp (h r / T)
  let A' : List Nat × ℝ → ℝ := fun r => Real.exp ((g' r - lo) / T)
  let B' : List Nat × ℝ → ℝ := fun r => Real.exp ((h' r - lo) / T)
  have hA : ∀ r ∈ l, 0 < A r := fun r _ => Real.exp_pos _
  have hB : ∀ r ∈ l, 0 < B r := fun r _ => Real.exp_pos _
  have hA' : ∀ r ∈ l, 0 < A' r := fun r _ => Real.exp_pos _
  have hB' : ∀ r ∈ l, 0 < B' r := fun r _ => Real.exp_pos _
  have hval : ∀ k : List Nat × ℝ → ℝ, Φ (l.map k) = T * Real.log (N (fun r => Real.exp (k r / T))) := fun k => hΦ l k hl
  have hval' : ∀ k : List Nat × ℝ → ℝ, Φ (l.map k) = lo + T * Real.log (N (fun r => Real.exp ((k r - lo) / T))) := by
    intro k
    have e : (fun r => Real.exp (k r / T)) = fun r => Real.exp (lo / T) * Real.exp ((k r - lo) / T) := by
      funext r
      rw [← Real.exp_add]
      congr 1
      ring
    rw [hval, e, hNmul _ _ (Real.exp_pos _), Real.log_mul (Real.exp_pos _).ne' (hNpos _ (fun r _ => Real.exp_pos _)).ne', Real.log_exp, mul_add, mul_div_cancel₀ _ hT.ne']
  have hd : ∀ {x y : ℝ}, x ≤ y → x / T ≤ y / T := fun h => div_le_div_of_nonneg_right h hT.le
  have key := sum_contract (N := N) hl hη (Real.exp_pos (R / T)) hA hB (A' := A') (B' := B') (fun r hr => by
      obtain ⟨h1, h2⟩ := hgh r hr
      show Real.exp _ ≤ Real.exp _ * Real.exp _ ∧ Real.exp _ ≤ Real.exp _ * Real.exp _
      rw [← Real.exp_add, ← Real.exp_add, ← add_div, ← add_div]
      exact ⟨Real.exp_le_exp.2 (hd (by linarith)), Real.exp_le_exp.2 (hd (by linarith))⟩)
    (fun r hr => Real.exp_le_exp.2 (hd (by linarith [(hδ r hr).2.1])))
    (fun r hr => Real.exp_le_exp.2 (hd (by linarith [(hδ r hr).1, (hδ r hr).2.1])))
    (fun r hr => by
      show Real.exp _ * Real.exp _ = Real.exp _ * Real.exp _
      rw [← Real.exp_add, ← Real.exp_add, ← add_div, ← add_div]
      congr 2
      linarith [(hδ r hr).1]) (fun X => rfl)
  have hexp : (Real.exp (R / T))⁻¹ ^ 2 = Real.exp (-2 * R / T) := by
    rw [← Real.exp_neg, ← Real.exp_nat_mul]
    congr 1
    push_cast
    ring
  rw [hexp] at key
  have hε : 0 ≤ Real.exp (-2 * R / T) / (1 + η) ∧ Real.exp (-2 * R / T) / (1 + η) ≤ 1 := by
    have h1 : Real.exp (-2 * R / T) ≤ 1 := by
      rw [← Real.exp_zero]
      exact Real.exp_le_exp.2 (div_nonpos_of_nonpos_of_nonneg (by linarith) hT.le)
    have h2 := Real.exp_pos (-2 * R / T)
    exact ⟨by positivity, (div_le_one (by positivity)).2 (by linarith)⟩
  have hQ : 1 ≤ N B' / N B := (one_le_div (hNpos B hB)).2 (hNmono _ _ (fun r hr => Real.exp_le_exp.2 (hd (by linarith [(hδ r hr).1, (hδ r hr).2.1]))))
  have hQD : Real.log (N B' / N B) ≤ (hi - lo) / T := by
    rw [Real.log_le_iff_le_exp (by linarith), div_le_iff₀ (hNpos B hB), ← hNmul _ _ (Real.exp_pos _)]
    refine hNmono _ _ (fun r hr => ?_)
    show Real.exp _ ≤ Real.exp _ * Real.exp _
    rw [← Real.exp_add, ← add_div]
    exact Real.exp_le_exp.2 (hd (by linarith [(hδ r hr).1, (hδ r hr).2.2]))
  have hfin := log_contract hε hQ hQD key
  rw [Real.log_div (hNpos B' hB').ne' (hNpos B hB).ne', Real.log_div (hNpos A' hA').ne' (hNpos A hA).ne'] at hfin
  rw [hval' h', hval' g', hval h, hval g]
  have := mul_le_mul_of_nonneg_left hfin hT.le
  have e : T * ((1 - Real.exp (-2 * R / T) / (1 + η)) * ((hi - lo) / T)) = (1 - Real.exp (-2 * R / T) / (1 + η)) * (hi - lo) := by
    field_simp
  rw [e] at this
  refine le_trans (le_of_eq ?_) this
  show lo + T * Real.log (N B') - T * Real.log (N B) - (lo + T * Real.log (N A') - T * Real.log (N A)) = _
  ring

theorem contracts_lse {T R : ℝ} (hT : 0 < T) (hR : 0 ≤ R) : Contracts (lse T) R (contraction T R) := by
  intro l g g' h h' lo hi hl hgh hδ
  have h1 := contracts_of (Φ := lse T) hT le_rfl (fun l g _ => by
    unfold lse
    rw [List.map_map, zero_mul, zero_add]
    rfl) hR l g g' h h' lo hi hl hgh hδ
  refine h1.trans (mul_le_mul_of_nonneg_right ?_ ?_)
  · unfold contraction
    have h2 := Real.exp_pos (-2 * R / T)
    have h3 := Real.exp_pos (-100000)
    have : Real.exp (-2 * R / T) / (1 + Real.exp (-100000)) ≤ Real.exp (-2 * R / T) / (1 + 0) := by
      refine div_le_div_of_nonneg_left h2.le (by norm_num) (by linarith)
    linarith
  · obtain ⟨r, hr⟩ := List.exists_mem_of_ne_nil l hl
    linarith [(hδ r hr).2.1, (hδ r hr).2.2]

theorem contracts_regLse {T R : ℝ} (hT : 0 < T) (hR : 0 ≤ R) : Contracts (regLse T) R (contraction T R) := by
  refine contracts_of hT (Real.exp_pos _).le (fun l g hl => ?_) hR
  rw [regLse_eq hT (by simpa using hl), List.map_map]
  have : Real.exp (maxOf 0 (l.map g) / T) = maxOf 0 (l.map (fun r => Real.exp (g r / T))) := by
    obtain ⟨a1, a2⟩ := maxOf_spec 0 (l.map g) (by simpa using hl)
    obtain ⟨b1, b2⟩ := maxOf_spec 0 (l.map (fun r => Real.exp (g r / T))) (by simpa using hl)
    obtain ⟨r, hr, e⟩ := List.mem_map.1 a1
    obtain ⟨r', hr', e'⟩ := List.mem_map.1 b1
    refine le_antisymm ?_ ?_
    · rw [← e]
      exact b2 _ (List.mem_map.2 ⟨r, hr, rfl⟩)
    · rw [← e']
      exact Real.exp_le_exp.2 (div_le_div_of_nonneg_right (a2 _ (List.mem_map_of_mem hr')) hT.le)
  rw [this]
  rfl

theorem contracts_codeSummary (tables : Nat) {T R : ℝ} (hT : 0 < T) (hR : 0 ≤ R) (f : Nat) : Contracts (codeSummary tables T f) R (contraction T R) := by
  unfold codeSummary
  split
  · exact contracts_regLse hT hR
  · exact contracts_lse hT hR

/-- On every edge, the differences of the messages lie in an interval of length at most `D` that contains 0. -/
def Close (scopes : List (List Var)) (D : ℝ) (m m' : Msgs ℝ) : Prop :=
  ∃ lo hi : Nat → Nat → ℝ, ∀ f i v, IsEdge scopes f i v → lo f i ≤ 0 ∧ 0 ≤ hi f i ∧ hi f i - lo f i ≤ D ∧
    ∀ s < v.n, lo f i ≤ m f i s - m' f i s ∧ m f i s - m' f i s ≤ hi f i

theorem Close.abs_le {scopes : List (List Var)} {D : ℝ} {m m' : Msgs ℝ} (h : Close scopes D m m') {f i : Nat} {v : Var} (he : IsEdge scopes f i v) {s : Nat} (hs : s < v.n) :
    |m f i s - m' f i s| ≤ D := by
  obtain ⟨lo, hi, h⟩ := h
  obtain ⟨h1, h2, h3, h4⟩ := h f i v he
  obtain ⟨h5, h6⟩ := h4 s hs
  rw [_root_.abs_le]
  constructor <;> linarith

theorem Close.of_abs {scopes : List (List Var)} {D : ℝ} {m m' : Msgs ℝ} (h : ∀ f i v s, IsEdge scopes f i v → s < v.n → |m f i s - m' f i s| ≤ D) (hD : 0 ≤ D) :
    Close scopes (2 * D) m m' := by
  refine ⟨fun _ _ => -D, fun _ _ => D, fun f i v he => ⟨by linarith, hD, by linarith, fun s hs => ?_⟩⟩
  exact _root_.abs_le.1 (h f i v s he hs)

theorem sum_between (l : List (Nat × Nat)) (x lo hi : Nat × Nat → ℝ) (D : ℝ) (h : ∀ e ∈ l, lo e ≤ x e ∧ x e ≤ hi e ∧ hi e - lo e ≤ D) :
    (l.map lo).sum ≤ (l.map x).sum ∧ (l.map x).sum ≤ (l.map hi).sum ∧ (l.map hi).sum - (l.map lo).sum ≤ D * (l.length : ℝ) := by
  induction l with
  | nil => simp
  | cons e l ih =>
    obtain ⟨h1, h2, h3⟩ := ih (fun e he => h e (by simp [he]))
    obtain ⟨k1, k2, k3⟩ := h e (by simp)
    simp only [List.map_cons, List.sum_cons, List.length_cons, Nat.cast_add, Nat.cast_one]
    exact ⟨by linarith, by linarith, by linarith⟩

theorem filter_edges_length {scopes : List (List Var)} {f i : Nat} {v : Var} (he : IsEdge scopes f i v) :
    ((edgesOf scopes v).filter (fun e' => e' ≠ (f, i))).length = (edgesOf scopes v).length - 1 := by
  have h1 : ((edgesOf scopes v).filter (fun e' => e' ≠ (f, i))) = (edgesOf scopes v).erase (f, i) := by
    rw [(edgesOf_nodup scopes v).erase_eq_filter]
    congr 1
    funext e
    by_cases h : e = (f, i) <;> simp [h]
  rw [h1, List.length_erase_of_mem ((mem_edgesOf _ _ _ _).2 he)]

/-- The differences of the scores of all configurations lie in one interval. -/
theorem Close.score {factors : List (SFac ℝ)} {f : Nat} {F : SFac ℝ} (hF : factors[f]? = some F) {m m' : Msgs ℝ} {D : ℝ} (ev : Var → Nat → ℝ)
    (h : Close (factors.map (·.scope)) D m m') (i : Nat) :
    ∃ LO HI, HI - LO ≤ D * (inputsBut (factors.map (·.scope)) F.scope i : ℝ) ∧ ∀ r : List Nat × ℝ, List.Forall₂ (fun s (v : Var) => s < v.n) r.1 F.scope →
      LO ≤ scoreBut F.scope.length (tbIn factors ev m f F) i r - scoreBut F.scope.length (tbIn factors ev m' f F) i r ∧
      scoreBut F.scope.length (tbIn factors ev m f F) i r - scoreBut F.scope.length (tbIn factors ev m' f F) i r ≤ HI := by
  obtain ⟨lo, hi, hlh⟩ := h
  have hsub : ∀ (l : List (Nat × Nat)) (s : Nat), (l.map (fun e' => m e'.1 e'.2 s)).sum - (l.map (fun e' => m' e'.1 e'.2 s)).sum = (l.map (fun e' => m e'.1 e'.2 s - m' e'.1 e'.2 s)).sum := by
    intro l s
    induction l with
    | nil => simp
    | cons a l ih => simp only [List.map_cons, List.sum_cons]; rw [← ih]; ring
  have hvar : ∀ j w, F.scope[j]? = some w → ∀ t < w.n,
      (((edgesOf (factors.map (·.scope)) w).filter (fun e' => e' ≠ (f, j))).map (fun e => lo e.1 e.2)).sum ≤ tbIn factors ev m f F j t - tbIn factors ev m' f F j t ∧
      tbIn factors ev m f F j t - tbIn factors ev m' f F j t ≤ (((edgesOf (factors.map (·.scope)) w).filter (fun e' => e' ≠ (f, j))).map (fun e => hi e.1 e.2)).sum := by
    intro j w hw t ht
    rw [tbIn_at hw, tbIn_at hw]
    unfold varToFac
    rw [add_sub_add_left_eq_sub, hsub]
    have := sum_between ((edgesOf (factors.map (·.scope)) w).filter (fun e' => e' ≠ (f, j))) (fun e' => m e'.1 e'.2 t - m' e'.1 e'.2 t) (fun e => lo e.1 e.2) (fun e => hi e.1 e.2) D (by
      intro e he
      obtain ⟨-, -, h3, h4⟩ := hlh e.1 e.2 w ((mem_edgesOf _ _ _ _).1 (List.mem_filter.1 he).1)
      exact ⟨(h4 t ht).1, (h4 t ht).2, h3⟩)
    exact ⟨this.1, this.2.1⟩
  have hwid : ∀ j w, F.scope[j]? = some w → (((edgesOf (factors.map (·.scope)) w).filter (fun e' => e' ≠ (f, j))).map (fun e => hi e.1 e.2)).sum
      - (((edgesOf (factors.map (·.scope)) w).filter (fun e' => e' ≠ (f, j))).map (fun e => lo e.1 e.2)).sum ≤ D * (((edgesOf (factors.map (·.scope)) w).length - 1 : Nat) : ℝ) := by
    intro j w hw
    have := sum_between ((edgesOf (factors.map (·.scope)) w).filter (fun e' => e' ≠ (f, j))) (fun _ => 0) (fun e => lo e.1 e.2) (fun e => hi e.1 e.2) D (by
      intro e he
      obtain ⟨h1, h2, h3, -⟩ := hlh e.1 e.2 w ((mem_edgesOf _ _ _ _).1 (List.mem_filter.1 he).1)
      exact ⟨h1, h2, h3⟩)
    rw [filter_edges_length ⟨_, getElem?_scopes hF, hw⟩] at this
    exact this.2.2
  have hvar' : ∀ j w, F.scope[j]? = some w → ∃ a b, b - a ≤ D * (((edgesOf (factors.map (·.scope)) w).length - 1 : Nat) : ℝ) ∧ ∀ t < w.n,
      a ≤ tbIn factors ev m f F j t - tbIn factors ev m' f F j t ∧ tbIn factors ev m f F j t - tbIn factors ev m' f F j t ≤ b :=
    fun j w hw => ⟨_, _, hwid j w hw, hvar j w hw⟩
  clear hvar hwid
  have key : ∀ l : List Nat, (∀ j ∈ l, j < F.scope.length) → ∃ LO HI, HI - LO ≤ D * ((l.map (fun j => (edgesOf (factors.map (·.scope)) (F.scope.getD j ⟨0, 0⟩)).length - 1)).sum : Nat) ∧
      ∀ r : List Nat × ℝ, List.Forall₂ (fun s (v : Var) => s < v.n) r.1 F.scope →
        LO ≤ (l.map (fun j => tbIn factors ev m f F j (r.1.getD j 0))).sum - (l.map (fun j => tbIn factors ev m' f F j (r.1.getD j 0))).sum ∧
        (l.map (fun j => tbIn factors ev m f F j (r.1.getD j 0))).sum - (l.map (fun j => tbIn factors ev m' f F j (r.1.getD j 0))).sum ≤ HI := by
    intro l
    induction l with
    | nil => intro _; exact ⟨0, 0, by simp, by simp⟩
    | cons j l ih =>
      intro hl
      obtain ⟨LO, HI, h1, h2⟩ := ih (fun k hk => hl k (by simp [hk]))
      have hj := hl j (by simp)
      have hw := List.getElem?_eq_getElem hj
      generalize F.scope[j] = w at hw
      obtain ⟨a, b, ha, hab⟩ := hvar' j w hw
      refine ⟨a + LO, b + HI, ?_, ?_⟩
      rotate_left
      · intro r hfit
        obtain ⟨k1, k2⟩ := h2 r hfit
        have hlen := hfit.length_eq
        obtain ⟨w', hw', hlt⟩ := forall₂_getElem? hfit (List.getElem?_eq_getElem (show j < r.1.length by omega))
        rw [hw] at hw'
        cases hw'
        obtain ⟨q1, q2⟩ := hab _ hlt
        simp only [List.map_cons, List.sum_cons]
        rw [getD_of_some (List.getElem?_eq_getElem (show j < r.1.length by omega)), add_sub_add_comm]
        exact ⟨add_le_add q1 k1, add_le_add q2 k2⟩
      · simp only [List.map_cons, List.sum_cons]
        rw [getD_of_some hw, Nat.cast_add, mul_add]
        linarith
  obtain ⟨LO, HI, h1, h2⟩ := key ((List.range F.scope.length).filter (fun j => j ≠ i)) (fun j hj => by have := (List.mem_filter.1 hj).1; simpa using this)
  refine ⟨LO, HI, h1, fun r hr => ?_⟩
  unfold scoreBut
  rw [add_sub_add_left_eq_sub]
  exact h2 r hr

/-- The rows of a complete table. -/
theorem SFac.Complete.rowsAt_ne {F : SFac ℝ} (hF : F.Complete) (hrow : ∀ r ∈ F.rows, List.Forall₂ (fun s (v : Var) => s < v.n) r.1 F.scope)
    (hne : F.rows ≠ []) {i : Nat} {v : Var} (hi : F.scope[i]? = some v) {s : Nat} (hs : s < v.n) : F.rowsAt i s ≠ [] := by
  obtain ⟨r, hr⟩ := List.exists_mem_of_ne_nil _ hne
  have hr' := hrow r hr
  have hlt : i < r.1.length := by
    rw [hr'.length_eq]
    exact (List.getElem?_eq_some_iff.1 hi).1
  obtain ⟨w, hw, hlt'⟩ := forall₂_getElem? hr' (List.getElem?_eq_getElem hlt)
  rw [hi] at hw
  cases hw
  intro hnil
  obtain ⟨φ, hp, -⟩ := hF.perm hrow hi hlt' hs
  rw [hnil] at hp
  have := List.perm_nil.1 hp
  rw [List.map_eq_nil_iff] at this
  have hmem : r ∈ F.rowsAt i r.1[i] := List.mem_filter.2 ⟨hr, by simp [List.getElem?_eq_getElem hlt]⟩
  rw [this] at hmem
  cases hmem

/-- Changes of the messages of a complete table. -/
theorem SFac.Complete.contract {factors : List (SFac ℝ)} {f : Nat} {F : SFac ℝ} (hF : factors[f]? = some F) (hc : F.Complete)
    (hrow : ∀ r ∈ F.rows, List.Forall₂ (fun s (v : Var) => s < v.n) r.1 F.scope) {R : ℝ} (hR : F.Within R) {Φ : List ℝ → ℝ} (hΦ : Summary Φ) {c : ℝ}
    (hcon : Contracts Φ R c) (hc0 : 0 ≤ c) (ev : Var → Nat → ℝ) {m m' : Msgs ℝ} {D : ℝ} (h : Close (factors.map (·.scope)) D m m') {i : Nat} {v : Var} (hi : F.scope[i]? = some v)
    (hne : F.rows ≠ []) :
    ∃ lo hi, lo ≤ hi ∧ hi - lo ≤ c * (D * (inputsBut (factors.map (·.scope)) F.scope i : ℝ)) ∧ ∀ s < v.n,
      lo ≤ Φ ((F.rowsAt i s).map (scoreBut F.scope.length (tbIn factors ev m f F) i)) - Φ ((F.rowsAt i s).map (scoreBut F.scope.length (tbIn factors ev m' f F) i)) ∧
      Φ ((F.rowsAt i s).map (scoreBut F.scope.length (tbIn factors ev m f F) i)) - Φ ((F.rowsAt i s).map (scoreBut F.scope.length (tbIn factors ev m' f F) i)) ≤ hi := by
  obtain ⟨LO, HI, hw, hsc⟩ := Close.score hF ev h i
  obtain ⟨r0, hr0⟩ := List.exists_mem_of_ne_nil _ hne
  have hLH : LO ≤ HI := (hsc r0 (hrow r0 hr0)).1.trans (hsc r0 (hrow r0 hr0)).2
  let x : Nat → ℝ := fun s => Φ ((F.rowsAt i s).map (scoreBut F.scope.length (tbIn factors ev m f F) i)) - Φ ((F.rowsAt i s).map (scoreBut F.scope.length (tbIn factors ev m' f F) i))
  have hx : ∀ s < v.n, ∀ s' < v.n, x s' - x s ≤ c * (HI - LO) := by
    intro s hs s' hs'
    obtain ⟨φ, hp, hφ⟩ := hc.perm hrow hi hs hs'
    show (_ - _) - (_ - _) ≤ _
    rw [← hΦ.perm _ _ (hp.map (scoreBut F.scope.length (tbIn factors ev m f F) i)), ← hΦ.perm _ _ (hp.map (scoreBut F.scope.length (tbIn factors ev m' f F) i)), List.map_map, List.map_map]
    have hmemφ : ∀ r ∈ F.rowsAt i s, φ r ∈ F.rows := fun r hr => (List.mem_filter.1 (hp.mem_iff.1 (List.mem_map.2 ⟨r, hr, rfl⟩))).1
    have hq : ∀ (q : Nat → Nat → ℝ), ∀ r ∈ F.rowsAt i s, scoreBut F.scope.length q i (φ r) = scoreBut F.scope.length q i r + ((φ r).2 - r.2) := by
      intro q r hr
      unfold scoreBut
      have h3 : ((List.range F.scope.length).filter (fun j => j ≠ i)).map (fun j => q j ((φ r).1.getD j 0))
          = ((List.range F.scope.length).filter (fun j => j ≠ i)).map (fun j => q j (r.1.getD j 0)) := by
        apply List.map_congr_left
        intro j hj
        have hji : j ≠ i := by simpa using (List.mem_filter.1 hj).2
        rw [hφ r hr, List.getD, List.getD, List.getElem?_set_ne hji.symm]
      rw [h3]
      ring
    refine hcon (F.rowsAt i s) _ _ _ _ LO HI (hc.rowsAt_ne hrow hne hi hs) ?_ ?_
    · intro r hr
      have h1 := hR r (List.mem_filter.1 hr).1 _ (hmemφ r hr)
      have h2 := hR _ (hmemφ r hr) r (List.mem_filter.1 hr).1
      simp only [Function.comp]
      rw [hq _ r hr]
      constructor <;> linarith
    · intro r hr
      simp only [Function.comp]
      rw [hq _ r hr, hq _ r hr]
      refine ⟨by ring, hsc r (hrow r (List.mem_filter.1 hr).1)⟩
  by_cases hn : v.n = 0
  · refine ⟨0, 0, le_rfl, ?_, fun s hs => by omega⟩
    rw [sub_zero]
    exact mul_nonneg hc0 (by linarith)
  · obtain ⟨s0, hs0, hmin⟩ := Finset.exists_min_image (Finset.range v.n) x ⟨0, Finset.mem_range.2 (by omega)⟩
    refine ⟨x s0, x s0 + c * (HI - LO), by nlinarith [mul_nonneg hc0 (sub_nonneg.2 hLH)], ?_, fun s hs => ⟨hmin s (Finset.mem_range.2 hs), ?_⟩⟩
    · rw [add_sub_cancel_left]
      exact mul_le_mul_of_nonneg_left hw hc0
    · have := hx s0 (Finset.mem_range.1 hs0) s hs
      show x s ≤ _
      linarith

/-- One iteration with weak complete tables is a contraction. -/
theorem Close.step {factors : List (SFac ℝ)} {Φ : Nat → List ℝ → ℝ} (hΦ : ∀ f, Summary (Φ f)) (hrow : ∀ F ∈ factors, ∀ r ∈ F.rows, List.Forall₂ (fun s (v : Var) => s < v.n) r.1 F.scope)
    (hne : ∀ F ∈ factors, F.rows ≠ []) {R : Nat → ℝ} {c : Nat → ℝ} (hcon : ∀ f, Contracts (Φ f) (R f) (c f)) (hc0 : ∀ f, 0 ≤ c f)
    (hc : ∀ (f : Nat) (F : SFac ℝ), factors[f]? = some F → F.Complete ∧ F.Within (R f)) {ρ : ℝ}
    (hρ : ∀ (f : Nat) (F : SFac ℝ) (i : Nat) (v : Var), factors[f]? = some F → F.scope[i]? = some v → c f * (inputsBut (factors.map (·.scope)) F.scope i : ℝ) ≤ ρ) (ev : Var → Nat → ℝ) {d : ℝ} (hd : 0 ≤ d ∧ d ≤ 1)
    {m m' : Msgs ℝ} {D : ℝ} (hD : 0 ≤ D) (h : Close (factors.map (·.scope)) D m m') :
    Close (factors.map (·.scope)) ((d + (1 - d) * ρ) * D) (sumStep Φ factors ev d m) (sumStep Φ factors ev d m') := by
  have key : ∀ f i, ∃ lo hi : ℝ, ∀ v, IsEdge (factors.map (·.scope)) f i v → lo ≤ 0 ∧ 0 ≤ hi ∧ hi - lo ≤ (d + (1 - d) * ρ) * D ∧
      ∀ s < v.n, lo ≤ sumStep Φ factors ev d m f i s - sumStep Φ factors ev d m' f i s ∧ sumStep Φ factors ev d m f i s - sumStep Φ factors ev d m' f i s ≤ hi := by
    intro f i
    by_cases hex : ∃ v, IsEdge (factors.map (·.scope)) f i v
    · obtain ⟨v, hv⟩ := hex
      have huniq : ∀ w, IsEdge (factors.map (·.scope)) f i w → w = v := by
        rintro w ⟨vs, h1, h2⟩
        obtain ⟨vs', h1', h2'⟩ := hv
        rw [h1] at h1'
        cases h1'
        rw [h2] at h2'
        exact Option.some.inj h2'
      obtain ⟨F, hF, hi⟩ : ∃ F, factors[f]? = some F ∧ F.scope[i]? = some v := by
        obtain ⟨vs, h1, h2⟩ := hv
        rw [List.getElem?_map] at h1
        cases hF : factors[f]? with
        | none => rw [hF] at h1; cases h1
        | some F => rw [hF] at h1; cases h1; exact ⟨F, rfl, h2⟩
      have hFm := List.mem_of_getElem? hF
      obtain ⟨hcF, hRF⟩ := hc f F hF
      obtain ⟨lo, hi', h1, h2, h3⟩ := hcF.contract hF (hrow F hFm) hRF (hΦ f) (hcon f) (hc0 f) ev h hi (hne F hFm)
      obtain ⟨mlo, mhi, hm⟩ := h
      obtain ⟨a1, a2, a3, a4⟩ := hm f i v hv
      have hd1 : 0 ≤ 1 - d := by linarith [hd.2]
      obtain ⟨lo', hi'', k1, k2, k3, k4⟩ := tbNorm_osc (n := v.n) (lo := d * mlo f i + (1 - d) * lo) (hi := d * mhi f i + (1 - d) * hi')
        (x := fun s => (sumOut (Φ f) F (tbIn factors ev m f F) i s).map (fun x => d * m f i s + (1 - d) * x))
        (y := fun s => (sumOut (Φ f) F (tbIn factors ev m' f F) i s).map (fun x => d * m' f i s + (1 - d) * x)) (by
          intro s hs
          right
          have hrows := hcF.rowsAt_ne (hrow F hFm) (hne F hFm) hi hs
          unfold sumOut
          rw [if_neg hrows, if_neg hrows]
          refine ⟨_, _, rfl, rfl, ?_⟩
          obtain ⟨b1, b2⟩ := h3 s hs
          obtain ⟨b3, b4⟩ := a4 s hs
          have q1 := mul_le_mul_of_nonneg_left b3 hd.1
          have q2 := mul_le_mul_of_nonneg_left b4 hd.1
          have q3 := mul_le_mul_of_nonneg_left b1 hd1
          have q4 := mul_le_mul_of_nonneg_left b2 hd1
          constructor <;> linarith) (by
          have q1 := mul_le_mul_of_nonneg_left (a1.trans a2) hd.1
          have q2 := mul_le_mul_of_nonneg_left h1 hd1
          linarith)
      refine ⟨lo', hi'', fun w hw => ?_⟩
      rw [huniq w hw]
      refine ⟨k1, k2, k3.trans ?_, fun s hs => ?_⟩
      · have q1 := mul_le_mul_of_nonneg_left a3 hd.1
        have q2 := mul_le_mul_of_nonneg_left h2 hd1
        have q3 := mul_le_mul_of_nonneg_left (mul_le_mul_of_nonneg_right (hρ f F i v hF hi) hD) hd1
        linarith
      · rw [sumStep_at Φ hF hi, sumStep_at Φ hF hi]
        exact k4 s hs
    · exact ⟨0, 0, fun v hv => absurd ⟨v, hv⟩ hex⟩
  choose lo hi hlh using key
  exact ⟨lo, hi, fun f i v he => hlh f i v he⟩

section
variable {factors : List (SFac ℝ)} {Φ : Nat → List ℝ → ℝ} {ev : Var → Nat → ℝ} {d ρ : ℝ}

theorem isEdge_factors {f i : Nat} {v : Var} (he : IsEdge (factors.map (·.scope)) f i v) : ∃ F, factors[f]? = some F ∧ F.scope[i]? = some v := by
  obtain ⟨vs, h1, h2⟩ := he
  rw [List.getElem?_map] at h1
  cases hF : factors[f]? with
  | none => rw [hF] at h1; cases h1
  | some F => rw [hF] at h1; cases h1; exact ⟨F, rfl, h2⟩

theorem sumRun_mem (m : Msgs ℝ) (n : Nat) {f i : Nat} {v : Var} (he : IsEdge (factors.map (·.scope)) f i v) {s : Nat} (hs : s < v.n) :
    -1000 ≤ sumRun Φ factors ev d n m f i s ∧ sumRun Φ factors ev d n m f i s ≤ 0 := by
  obtain ⟨F, hF, hi⟩ := isEdge_factors he
  cases n with
  | zero =>
    show -1000 ≤ tbInit factors m f i s ∧ tbInit factors m f i s ≤ 0
    rw [tbInit_at hF hi]
    exact tbNorm_mem _ hs
  | succ n =>
    show -1000 ≤ sumStep Φ factors ev d _ f i s ∧ sumStep Φ factors ev d _ f i s ≤ 0
    rw [sumStep_at Φ hF hi]
    exact tbNorm_mem _ hs

/-- Runs from any messages, of any lengths, approach each other. -/
theorem sumRun_approach (hstep : ∀ m m' D, 0 ≤ D → Close (factors.map (·.scope)) D m m' →
      Close (factors.map (·.scope)) (ρ * D) (sumStep Φ factors ev d m) (sumStep Φ factors ev d m')) (hρ : 0 ≤ ρ) (m m' : Msgs ℝ) (n k : Nat) :
    Close (factors.map (·.scope)) (2000 * ρ ^ n) (sumRun Φ factors ev d n m) (sumRun Φ factors ev d (n + k) m') := by
  induction n with
  | zero =>
    refine ⟨fun _ _ => -1000, fun _ _ => 1000, fun f i v he => ⟨by norm_num, by norm_num, by norm_num, fun s hs => ?_⟩⟩
    have h1 := sumRun_mem (Φ := Φ) (ev := ev) (d := d) m 0 he hs
    have h2 := sumRun_mem (Φ := Φ) (ev := ev) (d := d) m' (0 + k) he hs
    constructor <;> linarith [h1.1, h1.2, h2.1, h2.2]
  | succ n ih =>
    have := hstep _ _ _ (by positivity) ih
    rw [show 2000 * ρ ^ (n + 1) = ρ * (2000 * ρ ^ n) by ring, show n + 1 + k = n + k + 1 by omega]
    exact this

/-- Normalisation of nearly equal messages. -/
theorem tbNorm_abs {n : Nat} {x y : Nat → ℝ} {D : ℝ} (h : ∀ s < n, |x s - y s| ≤ D) {s : Nat} (hs : s < n) :
    |tbNorm n (fun s => WithBot.some (x s)) s - tbNorm n (fun s => WithBot.some (y s)) s| ≤ 2 * D := by
  obtain ⟨lo, hi, h1, h2, h3, h4⟩ := tbNorm_osc (n := n) (x := fun s => WithBot.some (x s)) (y := fun s => WithBot.some (y s)) (lo := -D) (hi := D)
    (fun s hs => .inr ⟨x s, y s, rfl, rfl, (abs_le.1 (h s hs)).1, (abs_le.1 (h s hs)).2⟩) (by
      have := (abs_nonneg _).trans (h s hs)
      linarith)
  obtain ⟨h5, h6⟩ := h4 s hs
  rw [abs_le]
  constructor <;> linarith

theorem tbNorm_idem {n : Nat} (x : Nat → WithBot ℝ) (hx : ∃ s < n, x s ≠ ⊥) {s : Nat} (hs : s < n) : tbNorm n (fun s => WithBot.some (tbNorm n x s)) s = tbNorm n x s := by
  obtain ⟨t, ht, he⟩ := Finset.exists_mem_eq_sup (Finset.range n) ⟨s, Finset.mem_range.2 hs⟩ x
  obtain ⟨X, hX⟩ : ∃ X : ℝ, x t = WithBot.some X := by
    obtain ⟨u, hu, hne⟩ := hx
    have hle : x u ≤ x t := by rw [← he]; exact Finset.le_sup (Finset.mem_range.2 hu)
    cases hxt : x t with
    | bot => rw [hxt] at hle; exact absurd (le_bot_iff.1 hle) hne
    | coe X => exact ⟨X, rfl⟩
  rw [hX] at he
  have hsup : (Finset.range n).sup (fun s => (WithBot.some (tbNorm n x s) : WithBot ℝ)) = WithBot.some 0 := by
    refine sup_eq ⟨t, Finset.mem_range.1 ht, ?_⟩ (fun u hu => WithBot.coe_le_coe.2 (tbNorm_mem x hu).2)
    rw [tbNorm_coe he hX, sub_self, max_eq_left (by norm_num)]
  rw [tbNorm_coe hsup rfl, sub_zero, max_eq_left (tbNorm_mem x hs).1]

theorem sumRun_init (hne : ∀ F ∈ factors, ∀ i v, F.scope[i]? = some v → ∀ s < v.n, F.rowsAt i s ≠ []) (m : Msgs ℝ) (n : Nat)
    {f i : Nat} {v : Var} (he : IsEdge (factors.map (·.scope)) f i v) {s : Nat} (hs : s < v.n) :
    tbInit factors (sumRun Φ factors ev d n m) f i s = sumRun Φ factors ev d n m f i s := by
  obtain ⟨F, hF, hi⟩ := isEdge_factors he
  rw [tbInit_at hF hi]
  cases n with
  | zero =>
    show tbNorm v.n (fun s => WithBot.some (tbInit factors m f i s)) s = tbInit factors m f i s
    simp only [tbInit_at hF hi]
    exact tbNorm_idem _ ⟨s, hs, WithBot.coe_ne_bot⟩ hs
  | succ n =>
    show tbNorm v.n (fun s => WithBot.some (sumStep Φ factors ev d _ f i s)) s = sumStep Φ factors ev d _ f i s
    simp only [sumStep_at Φ hF hi]
    refine tbNorm_idem _ ⟨s, hs, ?_⟩ hs
    unfold sumOut
    rw [if_neg (hne F (List.mem_of_getElem? hF) i v hi s hs)]
    exact WithBot.coe_ne_bot

/-- Contracting iterations converge geometrically to messages that they do not change. -/
theorem sumRun_limit (hne : ∀ F ∈ factors, ∀ i v, F.scope[i]? = some v → ∀ s < v.n, F.rowsAt i s ≠ [])
    (hstep : ∀ m m' D, 0 ≤ D → Close (factors.map (·.scope)) D m m' →
      Close (factors.map (·.scope)) (ρ * D) (sumStep Φ factors ev d m) (sumStep Φ factors ev d m')) (hρ : 0 ≤ ρ ∧ ρ < 1) :
    ∃ L : Msgs ℝ, (∀ m n f i v s, IsEdge (factors.map (·.scope)) f i v → s < v.n → |sumRun Φ factors ev d n m f i s - L f i s| ≤ 2000 * ρ ^ n) ∧
      AgreeOn (factors.map (·.scope)) (tbInit factors L) L ∧ AgreeOn (factors.map (·.scope)) (sumStep Φ factors ev d L) L := by
  have hpow : Tendsto (fun n => 2000 * ρ ^ n) atTop (𝓝 0) := by
    have := (tendsto_pow_atTop_nhds_zero_of_lt_one hρ.1 hρ.2).const_mul 2000
    simpa using this
  have hlim : ∀ f i s, ∃ l, ∀ v, IsEdge (factors.map (·.scope)) f i v → s < v.n → Tendsto (fun n => sumRun Φ factors ev d n (fun _ _ _ => 0) f i s) atTop (𝓝 l) := by
    intro f i s
    by_cases hex : ∃ v, IsEdge (factors.map (·.scope)) f i v ∧ s < v.n
    · obtain ⟨v, he, hs⟩ := hex
      have hc : CauchySeq (fun n => sumRun Φ factors ev d n (fun _ _ _ => 0) f i s) := by
        refine cauchySeq_of_le_tendsto_0' (fun n => 2000 * ρ ^ n) (fun n k hnk => ?_) hpow
        obtain ⟨j, rfl⟩ : ∃ j, k = n + j := ⟨k - n, by omega⟩
        rw [Real.dist_eq]
        exact (sumRun_approach hstep hρ.1 _ _ n j).abs_le he hs
      obtain ⟨l, hl⟩ := cauchySeq_tendsto_of_complete hc
      exact ⟨l, fun _ _ _ => hl⟩
    · exact ⟨0, fun v he hs => absurd ⟨v, he, hs⟩ hex⟩
  choose L hL using hlim
  have hbound : ∀ m n f i v s, IsEdge (factors.map (·.scope)) f i v → s < v.n → |sumRun Φ factors ev d n m f i s - L f i s| ≤ 2000 * ρ ^ n := by
    intro m n f i v s he hs
    have h1 : Tendsto (fun k => |sumRun Φ factors ev d n m f i s - sumRun Φ factors ev d (n + k) (fun _ _ _ => 0) f i s|) atTop (𝓝 |sumRun Φ factors ev d n m f i s - L f i s|) := by
      refine (Tendsto.sub tendsto_const_nhds ?_).abs
      have := (tendsto_add_atTop_iff_nat (f := fun k => sumRun Φ factors ev d k (fun _ _ _ => 0) f i s) n).2 (hL f i s v he hs)
      simpa only [Nat.add_comm] using this
    exact le_of_tendsto h1 (Eventually.of_forall (fun k => (sumRun_approach hstep hρ.1 _ _ n k).abs_le he hs))
  have hzero : ∀ {x : ℝ} (C : ℝ), (∀ n : Nat, |x| ≤ C * (2000 * ρ ^ n)) → x = 0 := by
    intro x C h
    have h1 : Tendsto (fun n => C * (2000 * ρ ^ n)) atTop (𝓝 0) := by simpa using hpow.const_mul C
    exact abs_eq_zero.1 (le_antisymm (ge_of_tendsto h1 (Eventually.of_forall h)) (abs_nonneg _))
  refine ⟨L, hbound, ?_, ?_⟩
  · intro f i v s he hs
    obtain ⟨F, hF, hi⟩ := isEdge_factors he
    refine sub_eq_zero.1 (hzero 3 (fun n => ?_))
    have h1 := hbound (fun _ _ _ => 0) n f i v s he hs
    have h2 := tbNorm_abs (n := v.n) (x := L f i) (y := sumRun Φ factors ev d n (fun _ _ _ => 0) f i) (D := 2000 * ρ ^ n) (fun t ht => by
      rw [abs_sub_comm]
      exact hbound _ n f i v t he ht) hs
    have h3 := sumRun_init (Φ := Φ) (ev := ev) (d := d) hne (fun _ _ _ => 0) n he hs
    rw [tbInit_at hF hi] at h3 ⊢
    rw [h3] at h2
    rw [abs_le] at *
    constructor <;> linarith
  · intro f i v s he hs
    refine sub_eq_zero.1 (hzero (2 * ρ + ρ) (fun n => ?_))
    have h1 := hbound (fun _ _ _ => 0) (n + 1) f i v s he hs
    have h2 := (hstep _ _ _ (by have := hρ.1; positivity) (Close.of_abs (hbound (fun _ _ _ => 0) n) (by have := hρ.1; positivity))).abs_le he hs
    have h3 : sumRun Φ factors ev d (n + 1) (fun _ _ _ => 0) f i s = sumStep Φ factors ev d (sumRun Φ factors ev d n (fun _ _ _ => 0)) f i s := rfl
    rw [h3, pow_succ] at h1
    rw [abs_le] at *
    constructor <;> linarith

end

end PGMax
