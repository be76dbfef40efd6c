import Verif.Lemmas.Complete
import Mathlib.Topology.Order.Real
import Mathlib.Topology.Algebra.Monoid
import Mathlib.Analysis.SpecificLimits.Basic

/-! Helper lemmas: damped iterations on rooted forests converge. -/

namespace PGMax

open Filter Topology

section
variable {α : Type _} [Field α] [LinearOrder α] [IsStrictOrderedRing α]

/-- Normalised messages: bounds of the difference of two messages move so that they contain 0. -/
theorem tbNorm_osc {n : Nat} {x y : Nat → WithBot α} {lo hi : α}
    (h : ∀ s < n, (x s = ⊥ ∧ y s = ⊥) ∨ ∃ a b : α, x s = WithBot.some a ∧ y s = WithBot.some b ∧ lo ≤ a - b ∧ a - b ≤ hi) (hle : lo ≤ hi) :
    ∃ lo' hi', lo' ≤ 0 ∧ 0 ≤ hi' ∧ hi' - lo' ≤ hi - lo ∧ ∀ s < n, lo' ≤ tbNorm n x s - tbNorm n y s ∧ tbNorm n x s - tbNorm n y s ≤ hi' := by
  by_cases hall : ∀ s < n, x s = ⊥ ∧ y s = ⊥
  · refine ⟨0, 0, le_rfl, le_rfl, by linarith, fun s hs => ?_⟩
    obtain ⟨h1, h2⟩ := hall s hs
    rw [tbNorm_bot h1, tbNorm_bot h2, sub_self]
    exact ⟨le_rfl, le_rfl⟩
  · push Not at hall
    obtain ⟨s0, hs0, hne⟩ := hall
    obtain ⟨a0, b0, ha0, hb0, -⟩ : ∃ a b : α, x s0 = WithBot.some a ∧ y s0 = WithBot.some b ∧ lo ≤ a - b ∧ a - b ≤ hi := by
      rcases h s0 hs0 with ⟨h1, h2⟩ | h
      · exact absurd h2 (hne h1)
      · exact h
    have key : ∀ (x : Nat → WithBot α) (a0 : α), x s0 = WithBot.some a0 → ∃ X : α, (Finset.range n).sup x = WithBot.some X ∧ (∃ t < n, x t = WithBot.some X) ∧
        ∀ t < n, x t ≤ WithBot.some X := by
      intro x a0 ha0
      obtain ⟨t, ht, he⟩ := Finset.exists_mem_eq_sup (Finset.range n) ⟨s0, Finset.mem_range.2 hs0⟩ x
      have hall : ∀ u < n, x u ≤ x t := by
        intro u hu
        rw [← he]
        exact Finset.le_sup (Finset.mem_range.2 hu)
      have := hall s0 hs0
      rw [ha0] at this
      cases hxt : x t with
      | bot => rw [hxt] at this; exact absurd (le_bot_iff.1 this) WithBot.coe_ne_bot
      | coe X => exact ⟨X, by rw [he, hxt], ⟨t, Finset.mem_range.1 ht, hxt⟩, fun u hu => by rw [← hxt]; exact hall u hu⟩
    obtain ⟨X, hX, ⟨t, ht, hxt⟩, hXle⟩ := key x a0 ha0
    obtain ⟨Y, hY, ⟨u, hu, hyu⟩, hYle⟩ := key y b0 hb0
    have k1 : X - Y ≤ hi := by
      rcases h t ht with ⟨h5, -⟩ | ⟨a', b', h5, h6, -, h7⟩
      · rw [hxt] at h5; cases h5
      · rw [hxt] at h5
        have := WithBot.coe_injective h5
        have h8 := hYle t ht
        rw [h6] at h8
        have := WithBot.coe_le_coe.1 h8
        linarith
    have k2 : lo ≤ X - Y := by
      rcases h u hu with ⟨-, h5⟩ | ⟨a', b', h5, h6, h7, -⟩
      · rw [hyu] at h5; cases h5
      · rw [hyu] at h6
        have := WithBot.coe_injective h6
        have h8 := hXle u hu
        rw [h5] at h8
        have := WithBot.coe_le_coe.1 h8
        linarith
    refine ⟨lo - (X - Y), hi - (X - Y), by linarith, by linarith, by linarith, fun s hs => ?_⟩
    rcases h s hs with ⟨h1, h2⟩ | ⟨a, b, h1, h2, h3, h4⟩
    · rw [tbNorm_bot h1, tbNorm_bot h2, sub_self]
      constructor <;> linarith
    · rw [tbNorm_coe hX h1, tbNorm_coe hY h2]
      constructor
      · rcases le_total (a - X) (-1000) with g | g <;> rcases le_total (b - Y) (-1000) with g' | g' <;> simp only [max_eq_left g, max_eq_right g, max_eq_left g', max_eq_right g'] <;> linarith
      · rcases le_total (a - X) (-1000) with g | g <;> rcases le_total (b - Y) (-1000) with g' | g' <;> simp only [max_eq_left g, max_eq_right g, max_eq_left g', max_eq_right g'] <;> linarith

theorem tbNorm_mem {n : Nat} (x : Nat → WithBot α) {s : Nat} (hs : s < n) : -1000 ≤ tbNorm n x s ∧ tbNorm n x s ≤ 0 := by
  cases hx : x s with
  | bot => rw [tbNorm_bot hx]; norm_num
  | coe a =>
    have hle : x s ≤ (Finset.range n).sup x := Finset.le_sup (Finset.mem_range.2 hs)
    cases hX : (Finset.range n).sup x with
    | bot => rw [hX, hx] at hle; exact absurd (le_bot_iff.1 hle) WithBot.coe_ne_bot
    | coe X =>
      rw [hX, hx] at hle
      have := WithBot.coe_le_coe.1 hle
      rw [tbNorm_coe hX hx]
      exact ⟨le_max_right _ _, max_le (by linarith) (by norm_num)⟩

/-- A message that does not change without damping does not change with damping. -/
theorem tbNorm_damped {n : Nat} {o : Nat → WithBot α} {m : Nat → α} (hm : ∀ s < n, m s = tbNorm n o s) {d : α} (hd : 0 ≤ d ∧ d ≤ 1) {s : Nat} (hs : s < n) :
    tbNorm n (fun s => (o s).map (fun x => d * m s + (1 - d) * x)) s = m s := by
  cases hos : o s with
  | bot => rw [hm s hs, tbNorm_bot hos, tbNorm_bot (by rw [hos]; rfl)]
  | coe a =>
    obtain ⟨t, ht, he⟩ := Finset.exists_mem_eq_sup (Finset.range n) ⟨s, Finset.mem_range.2 hs⟩ o
    have hall : ∀ u < n, o u ≤ o t := by
      intro u hu
      rw [← he]
      exact Finset.le_sup (Finset.mem_range.2 hu)
    obtain ⟨X, hX⟩ : ∃ X : α, o t = WithBot.some X := by
      have := hall s hs
      cases hxt : o t with
      | bot => rw [hxt, hos] at this; exact absurd (le_bot_iff.1 this) WithBot.coe_ne_bot
      | coe X => exact ⟨X, rfl⟩
    have htn := Finset.mem_range.1 ht
    rw [hX] at he
    have hval : ∀ u < n, ∀ b : α, o u = WithBot.some b → m u = max (b - X) (-1000) ∧ b ≤ X := by
      intro u hu b hb
      refine ⟨by rw [hm u hu, tbNorm_coe he hb], ?_⟩
      have := hall u hu
      rw [hb, hX] at this
      exact WithBot.coe_le_coe.1 this
    have hsup : (Finset.range n).sup (fun s => (o s).map (fun x => d * m s + (1 - d) * x)) = WithBot.some ((1 - d) * X) := by
      refine sup_eq ⟨t, htn, ?_⟩ ?_
      · rw [hX, WithBot.map_coe, (hval t htn X hX).1, sub_self, max_eq_left (by norm_num), mul_zero, zero_add]
      · intro u hu
        cases hou : o u with
        | bot => exact bot_le
        | coe b =>
          obtain ⟨h1, h2⟩ := hval u hu b hou
          rw [WithBot.map_coe, h1]
          refine WithBot.coe_le_coe.2 ?_
          have h3 : max (b - X) (-1000) ≤ 0 := max_le (by linarith) (by norm_num)
          nlinarith [mul_le_mul_of_nonneg_left h2 (sub_nonneg.2 hd.2), mul_nonpos_of_nonneg_of_nonpos hd.1 h3]
    obtain ⟨h1, h2⟩ := hval s hs a hos
    rw [tbNorm_coe hsup (a := d * m s + (1 - d) * a) (by rw [hos, WithBot.map_coe]), h1]
    rcases le_total (a - X) (-1000) with g | g
    · rw [max_eq_right g, max_eq_right]
      nlinarith [mul_le_mul_of_nonneg_left g (sub_nonneg.2 hd.2)]
    · rw [max_eq_left g, max_eq_left]
      · ring
      · nlinarith

end

/-- A linear recursion with vanishing inhomogeneity vanishes. -/
theorem tendsto_damped {E B : Nat → ℝ} {d : ℝ} (hd : 0 ≤ d ∧ d < 1) (hE : ∀ n, 0 ≤ E n) (hEB : ∀ n, E (n + 1) = d * E n + (1 - d) * B n)
    (hB : Tendsto B atTop (𝓝 0)) : Tendsto E atTop (𝓝 0) := by
  rw [Metric.tendsto_atTop] at hB ⊢
  intro ε hε
  obtain ⟨N, hN⟩ := hB (ε / 2) (by linarith)
  have hb : ∀ n ≥ N, B n ≤ ε / 2 := by
    intro n hn
    have := hN n hn
    rw [Real.dist_eq, sub_zero] at this
    exact (abs_lt.1 this).2.le
  have hk : ∀ k, E (N + k) ≤ d ^ k * E N + ε / 2 := by
    intro k
    induction k with
    | zero => simp; linarith
    | succ k ih =>
      rw [show N + (k + 1) = N + k + 1 by omega, hEB]
      have h1 := mul_le_mul_of_nonneg_left ih hd.1
      have h2 := mul_le_mul_of_nonneg_left (hb (N + k) (by omega)) (sub_nonneg.2 hd.2.le)
      rw [pow_succ]
      nlinarith
  have hpow : Tendsto (fun k => d ^ k * E N) atTop (𝓝 (0 * E N)) := (tendsto_pow_atTop_nhds_zero_of_lt_one hd.1 hd.2).mul_const _
  rw [zero_mul, Metric.tendsto_atTop] at hpow
  obtain ⟨K, hK⟩ := hpow (ε / 2) (by linarith)
  refine ⟨N + K, fun n hn => ?_⟩
  obtain ⟨k, rfl⟩ : ∃ k, n = N + k := ⟨n - N, by omega⟩
  have h1 := hK k (by omega)
  rw [Real.dist_eq, sub_zero] at h1 ⊢
  rw [abs_of_nonneg (hE _)]
  have := hk k
  have := (abs_lt.1 h1).2
  linarith

section
variable {factors : List (SFac ℝ)} {up : Nat → Nat} {par : Var → Option (Nat × Nat)} {ht : Nat → Nat}

/-- Differences of scores from differences of the messages from below. -/
theorem RootedForest.score_osc (hR : RootedForest (factors.map (·.scope)) up par ht)
    (hrow : ∀ (f : Nat) (F : SFac ℝ), factors[f]? = some F → ∀ r ∈ F.rows, List.Forall₂ (fun s (v : Var) => s < v.n) r.1 F.scope)
    {ev : Var → Nat → ℝ} {m m' : Msgs ℝ} {f : Nat} {F : SFac ℝ} (hF : factors[f]? = some F) {lo hi : Nat → ℝ}
    (hm : ∀ g v s, ht g < ht f → IsEdge (factors.map (·.scope)) g (up g) v → s < v.n → lo g ≤ m g (up g) s - m' g (up g) s ∧ m g (up g) s - m' g (up g) s ≤ hi g)
    {r : List Nat × ℝ} (hr : r ∈ F.rows) :
    (∑ j ∈ Finset.range F.scope.length with j ≠ up f, ∑ e ∈ (edgesOf (factors.map (·.scope)) (varOn (factors.map (·.scope)) f j)).toFinset with e.2 = up e.1, lo e.1)
      ≤ scoreBut F.scope.length (tbIn factors ev m f F) (up f) r - scoreBut F.scope.length (tbIn factors ev m' f F) (up f) r ∧
    scoreBut F.scope.length (tbIn factors ev m f F) (up f) r - scoreBut F.scope.length (tbIn factors ev m' f F) (up f) r
      ≤ (∑ j ∈ Finset.range F.scope.length with j ≠ up f, ∑ e ∈ (edgesOf (factors.map (·.scope)) (varOn (factors.map (·.scope)) f j)).toFinset with e.2 = up e.1, hi e.1) := by
  rw [hR.scoreBut_eq hF, hR.scoreBut_eq hF, add_sub_add_left_eq_sub, ← Finset.sum_sub_distrib]
  have hterm : ∀ j ∈ (Finset.range F.scope.length).filter (fun j => j ≠ up f), ∀ e ∈ ((edgesOf (factors.map (·.scope)) (varOn (factors.map (·.scope)) f j)).toFinset).filter (fun e => e.2 = up e.1),
      lo e.1 ≤ m e.1 e.2 (r.1.getD j 0) - m' e.1 e.2 (r.1.getD j 0) ∧ m e.1 e.2 (r.1.getD j 0) - m' e.1 e.2 (r.1.getD j 0) ≤ hi e.1 := by
    intro j hj e he
    obtain ⟨h1, h2⟩ := Finset.mem_filter.1 hj
    have hjl := Finset.mem_range.1 h1
    have hej := isEdge_varOn (getElem?_scopes hF) hjl
    have hp := (hR.par_iff _ _ _).2 ⟨hej, h2⟩
    obtain ⟨g, i⟩ := e
    obtain ⟨k3, k4⟩ := Finset.mem_filter.1 he
    simp only at k4
    subst k4
    have hg := (mem_edgesOf _ _ _ _).1 (List.mem_toFinset.1 k3)
    refine hm g _ _ (hR.height _ _ _ _ hp hg) hg ?_
    have hfit := hrow f F hF r hr
    have hlen := hfit.length_eq
    obtain ⟨w, hw, hlt⟩ := forall₂_getElem? hfit (List.getElem?_eq_getElem (show j < r.1.length by omega))
    obtain ⟨vs, k1, k2⟩ := hej
    rw [getElem?_scopes hF] at k1
    cases k1
    rw [k2] at hw
    cases hw
    rw [getD_of_some (List.getElem?_eq_getElem (show j < r.1.length by omega))]
    exact hlt
  constructor
  · refine Finset.sum_le_sum (fun j hj => ?_)
    unfold upSum
    rw [add_sub_add_left_eq_sub, ← Finset.sum_sub_distrib]
    exact Finset.sum_le_sum (fun e he => (hterm j hj e he).1)
  · refine Finset.sum_le_sum (fun j hj => ?_)
    unfold upSum
    rw [add_sub_add_left_eq_sub, ← Finset.sum_sub_distrib]
    exact Finset.sum_le_sum (fun e he => (hterm j hj e he).2)

/-- The damped messages upwards converge to messages that do not change without damping. -/
theorem RootedForest.damped (hR : RootedForest (factors.map (·.scope)) up par ht)
    (hrow : ∀ (f : Nat) (F : SFac ℝ), factors[f]? = some F → ∀ r ∈ F.rows, List.Forall₂ (fun s (v : Var) => s < v.n) r.1 F.scope)
    {Φ : Nat → List ℝ → ℝ} (hΦ : ∀ f, Summary (Φ f)) (ev : Var → Nat → ℝ) {d : ℝ} (hd : 0 ≤ d ∧ d < 1) (m0 ms : Msgs ℝ)
    (hfix : ∀ f F v, factors[f]? = some F → F.scope[up f]? = some v → ∀ s < v.n, ms f (up f) s = tbNorm v.n (sumOut (Φ f) F (tbIn factors ev ms f F) (up f)) s) :
    ∀ h f, ht f < h → ∃ E : Nat → ℝ, Tendsto E atTop (𝓝 0) ∧ (∀ n, 0 ≤ E n) ∧ ∀ n, ∃ lo hi, lo ≤ 0 ∧ 0 ≤ hi ∧ hi - lo ≤ E n ∧
      ∀ v s, IsEdge (factors.map (·.scope)) f (up f) v → s < v.n → lo ≤ sumRun Φ factors ev d n m0 f (up f) s - ms f (up f) s ∧
        sumRun Φ factors ev d n m0 f (up f) s - ms f (up f) s ≤ hi := by
  intro h
  induction h with
  | zero => intro f hf; omega
  | succ h ih =>
    intro f hf
    cases hF : factors[f]? with
    | none =>
      refine ⟨fun _ => 0, tendsto_const_nhds, fun _ => le_rfl, fun n => ⟨0, 0, le_rfl, le_rfl, by simp, ?_⟩⟩
      rintro v s ⟨vs, h1, -⟩
      rw [List.getElem?_map, hF] at h1
      cases h1
    | some F =>
      have hup := hR.up_lt f _ (getElem?_scopes hF)
      have hv := List.getElem?_eq_getElem hup
      generalize F.scope[up f] = v at hv
      -- errors of the messages from below
      have hih : ∀ g, ∃ E : Nat → ℝ, Tendsto E atTop (𝓝 0) ∧ (∀ n, 0 ≤ E n) ∧ (ht g < ht f → ∀ n, ∃ lo hi, lo ≤ 0 ∧ 0 ≤ hi ∧ hi - lo ≤ E n ∧
          ∀ v s, IsEdge (factors.map (·.scope)) g (up g) v → s < v.n → lo ≤ sumRun Φ factors ev d n m0 g (up g) s - ms g (up g) s ∧
            sumRun Φ factors ev d n m0 g (up g) s - ms g (up g) s ≤ hi) := by
        intro g
        by_cases hg : ht g < ht f
        · obtain ⟨E, h1, h2, h3⟩ := ih g (by omega)
          exact ⟨E, h1, h2, fun _ => h3⟩
        · exact ⟨fun _ => 0, tendsto_const_nhds, fun _ => le_rfl, fun h => absurd h hg⟩
      choose Eg hEg1 hEg2 hEg3 using hih
      let B : Nat → ℝ := fun n => ∑ j ∈ Finset.range F.scope.length with j ≠ up f,
        ∑ e ∈ (edgesOf (factors.map (·.scope)) (varOn (factors.map (·.scope)) f j)).toFinset with e.2 = up e.1, Eg e.1 n
      have hB : Tendsto B atTop (𝓝 0) := by
        have : Tendsto B atTop (𝓝 (∑ j ∈ Finset.range F.scope.length with j ≠ up f,
            ∑ e ∈ (edgesOf (factors.map (·.scope)) (varOn (factors.map (·.scope)) f j)).toFinset with e.2 = up e.1, (0 : ℝ))) :=
          tendsto_finsetSum _ (fun j _ => tendsto_finsetSum _ (fun e _ => hEg1 e.1))
        simpa using this
      have hB0 : ∀ n, 0 ≤ B n := fun n => Finset.sum_nonneg (fun j _ => Finset.sum_nonneg (fun e _ => hEg2 e.1 n))
      let E : Nat → ℝ := fun n => Nat.rec 2000 (fun n e => d * e + (1 - d) * B n) n
      have hE0 : E 0 = 2000 := rfl
      have hE1 : ∀ n, E (n + 1) = d * E n + (1 - d) * B n := fun n => rfl
      have hEn : ∀ n, 0 ≤ E n := by
        intro n
        induction n with
        | zero => rw [hE0]; norm_num
        | succ n ihn => rw [hE1]; exact add_nonneg (mul_nonneg hd.1 ihn) (mul_nonneg (by linarith [hd.2]) (hB0 n))
      refine ⟨E, tendsto_damped hd hEn hE1 hB, hEn, ?_⟩
      have hedge : ∀ {w : Var}, IsEdge (factors.map (·.scope)) f (up f) w → w = v := by
        rintro w ⟨vs, h1, h2⟩
        rw [getElem?_scopes hF] at h1
        cases h1
        rw [hv] at h2
        exact (Option.some.inj h2).symm
      intro n
      induction n with
      | zero =>
        refine ⟨-1000, 1000, by norm_num, by norm_num, by rw [hE0]; norm_num, ?_⟩
        intro w s hw hs
        rw [hedge hw] at hs
        show -1000 ≤ tbInit factors m0 f (up f) s - _ ∧ tbInit factors m0 f (up f) s - _ ≤ 1000
        rw [tbInit_at hF hv, hfix f F v hF hv s hs]
        have h1 := tbNorm_mem (fun s => ((m0 f (up f) s : ℝ) : WithBot ℝ)) hs
        have h2 := tbNorm_mem (sumOut (Φ f) F (tbIn factors ev ms f F) (up f)) hs
        constructor <;> linarith [h1.1, h1.2, h2.1, h2.2]
      | succ n ihn =>
        obtain ⟨lo, hi, h1, h2, h3, h4⟩ := ihn
        have hlh : ∀ g, ∃ lo hi : ℝ, lo ≤ 0 ∧ 0 ≤ hi ∧ hi - lo ≤ Eg g n ∧ (ht g < ht f → ∀ v s, IsEdge (factors.map (·.scope)) g (up g) v → s < v.n →
            lo ≤ sumRun Φ factors ev d n m0 g (up g) s - ms g (up g) s ∧ sumRun Φ factors ev d n m0 g (up g) s - ms g (up g) s ≤ hi) := by
          intro g
          by_cases hg : ht g < ht f
          · obtain ⟨lo, hi, h1, h2, h3, h4⟩ := hEg3 g hg n
            exact ⟨lo, hi, h1, h2, h3, fun _ => h4⟩
          · exact ⟨0, 0, le_rfl, le_rfl, by simpa using hEg2 g n, fun h => absurd h hg⟩
        choose gl gh hg1 hg2 hg3 hg4 using hlh
        let LO := ∑ j ∈ Finset.range F.scope.length with j ≠ up f,
          ∑ e ∈ (edgesOf (factors.map (·.scope)) (varOn (factors.map (·.scope)) f j)).toFinset with e.2 = up e.1, gl e.1
        let HI := ∑ j ∈ Finset.range F.scope.length with j ≠ up f,
          ∑ e ∈ (edgesOf (factors.map (·.scope)) (varOn (factors.map (·.scope)) f j)).toFinset with e.2 = up e.1, gh e.1
        have hw : HI - LO ≤ B n := by
          show HI - LO ≤ ∑ j ∈ Finset.range F.scope.length with j ≠ up f, _
          rw [← Finset.sum_sub_distrib]
          refine Finset.sum_le_sum (fun j _ => ?_)
          rw [← Finset.sum_sub_distrib]
          exact Finset.sum_le_sum (fun e _ => hg3 e.1)
        have hLO : LO ≤ 0 := Finset.sum_nonpos (fun j _ => Finset.sum_nonpos (fun e _ => hg1 e.1))
        have hHI : 0 ≤ HI := Finset.sum_nonneg (fun j _ => Finset.sum_nonneg (fun e _ => hg2 e.1))
        have hscore := fun {r : List Nat × ℝ} (hr : r ∈ F.rows) => hR.score_osc hrow (ev := ev) hF (m := sumRun Φ factors ev d n m0) (m' := ms) (lo := gl) (hi := gh)
          (fun g v s hg he hs => hg4 g hg v s he hs) hr
        obtain ⟨lo', hi', k1, k2, k3, k4⟩ := tbNorm_osc (n := v.n) (lo := d * lo + (1 - d) * LO) (hi := d * hi + (1 - d) * HI)
          (x := fun s => (sumOut (Φ f) F (tbIn factors ev (sumRun Φ factors ev d n m0) f F) (up f) s).map (fun x => d * sumRun Φ factors ev d n m0 f (up f) s + (1 - d) * x))
          (y := fun s => (sumOut (Φ f) F (tbIn factors ev ms f F) (up f) s).map (fun x => d * ms f (up f) s + (1 - d) * x)) (by
            intro s hs
            unfold sumOut
            by_cases hrows : F.rowsAt (up f) s = []
            · left
              rw [if_pos hrows, if_pos hrows]
              exact ⟨rfl, rfl⟩
            · right
              rw [if_neg hrows, if_neg hrows]
              refine ⟨_, _, rfl, rfl, ?_⟩
              have b1 := (hΦ f).mono (F.rowsAt (up f) s) (scoreBut F.scope.length (tbIn factors ev (sumRun Φ factors ev d n m0) f F) (up f))
                (scoreBut F.scope.length (tbIn factors ev ms f F) (up f)) HI hrows (fun r hr => by
                  have := (hscore (List.mem_filter.1 hr).1).2
                  show _ ≤ _ + HI
                  linarith)
              have b2 := (hΦ f).mono (F.rowsAt (up f) s) (scoreBut F.scope.length (tbIn factors ev ms f F) (up f))
                (scoreBut F.scope.length (tbIn factors ev (sumRun Φ factors ev d n m0) f F) (up f)) (-LO) hrows (fun r hr => by
                  have : LO ≤ _ := (hscore (List.mem_filter.1 hr).1).1
                  linarith)
              generalize Φ f _ = P at b1 b2 ⊢
              generalize Φ f _ = Q at b1 b2 ⊢
              obtain ⟨c1, c2⟩ := h4 v s ⟨_, getElem?_scopes hF, hv⟩ hs
              generalize sumRun Φ factors ev d n m0 f (up f) s = M at *
              have q1 := mul_le_mul_of_nonneg_left c1 hd.1
              have q2 := mul_le_mul_of_nonneg_left c2 hd.1
              have hd1 : 0 ≤ 1 - d := by linarith [hd.2]
              have q3 := mul_le_mul_of_nonneg_left b1 hd1
              have q4 := mul_le_mul_of_nonneg_left b2 hd1
              constructor <;> nlinarith) (by
            have hd1 : 0 ≤ 1 - d := by linarith [hd.2]
            have q1 := mul_le_mul_of_nonneg_left (h1.trans h2) hd.1
            have q2 := mul_le_mul_of_nonneg_left (hLO.trans hHI) hd1
            linarith)
        refine ⟨lo', hi', k1, k2, ?_, ?_⟩
        · refine k3.trans ?_
          rw [hE1]
          have hd1 : 0 ≤ 1 - d := by linarith [hd.2]
          have q1 := mul_le_mul_of_nonneg_left h3 hd.1
          have q2 := mul_le_mul_of_nonneg_left hw hd1
          nlinarith
        · intro w s hw hs
          rw [hedge hw] at hs
          have := k4 s hs
          rw [tbNorm_damped (m := ms f (up f)) (fun s hs => hfix f F v hF hv s hs) ⟨hd.1, hd.2.le⟩ hs] at this
          show lo' ≤ sumStep Φ factors ev d _ f (up f) s - _ ∧ sumStep Φ factors ev d _ f (up f) s - _ ≤ hi'
          rw [sumStep_at Φ hF hv]
          exact this

end

/-- Damped iterations on forests converge to the messages that undamped iterations reach. -/
theorem sumRun_damped {factors : List (SFac ℝ)} {Φ : Nat → List ℝ → ℝ} (hΦ : ∀ f, Summary (Φ f)) (hG : (bipartite (factors.map (·.scope))).IsAcyclic)
    (hnd : ∀ F ∈ factors, F.scope.Nodup)
    (hne : ∀ F ∈ factors, F.scope ≠ []) (hrow : ∀ F ∈ factors, ∀ r ∈ F.rows, List.Forall₂ (fun s (v : Var) => s < v.n) r.1 F.scope)
    (ev : Var → Nat → ℝ) (m0 m1 : Msgs ℝ) {d : ℝ} (hd : 0 ≤ d ∧ d < 1) (b : Nat) (hb : factors.length ≤ b) {f i : Nat} {v : Var}
    (he : IsEdge (factors.map (·.scope)) f i v) {s : Nat} (hs : s < v.n) :
    Tendsto (fun n => sumRun Φ factors ev d n m0 f i s) atTop (𝓝 (sumRun Φ factors ev 0 b m1 f i s)) := by
  have hlt : f < factors.length := by
    obtain ⟨vs, h1, -⟩ := he
    simpa using (List.getElem?_eq_some_iff.1 h1).1
  have hdist : ∀ v f, (bipartite (factors.map (·.scope))).dist (.inl v) (.inr f) < 2 * factors.length := by
    intro v f
    have := dist_lt_factors (scopes := factors.map (·.scope)) v f (by simp; omega)
    simpa using this
  obtain ⟨hR, hroot, hht⟩ := rootedForest hG (by simpa using hnd) (by simpa using hne) v factors.length (hdist v) (fun w g _ => hdist w g)
  have hup : upOf (factors.map (·.scope)) v f = i := by
    by_contra hc
    have := (hR.par_iff v f i).2 ⟨he, fun h => hc h.symm⟩
    rw [hroot] at this
    cases this
  obtain ⟨b, rfl⟩ := Nat.exists_eq_succ_of_ne_zero (show b ≠ 0 by omega)
  have hrow' : ∀ (f : Nat) (F : SFac ℝ), factors[f]? = some F → ∀ r ∈ F.rows, List.Forall₂ (fun s (v : Var) => s < v.n) r.1 F.scope :=
    fun f F hF => hrow F (List.mem_of_getElem? hF)
  obtain ⟨E, hE1, hE2, hE3⟩ := hR.damped hrow' hΦ ev hd m0 (sumRun Φ factors ev 0 (b + 1) m1) (by
    intro g F w hF hw s hs
    have hgl : g < factors.length := (List.getElem?_eq_some_iff.1 hF).1
    have hh := hht g (by simpa using hgl)
    show sumStep Φ factors ev 0 _ g _ s = _
    rw [sumStep_undamped Φ hF hw]
    congr 1
    funext t
    refine sumOut_congr _ (fun r hr => hR.score_up_congr hrow' hF (fun g' w' t' hg' he' ht' => ?_) (List.mem_filter.1 hr).1)
    have hb0 : b ≠ 0 := by
      rintro rfl
      omega
    obtain ⟨b, rfl⟩ := Nat.exists_eq_succ_of_ne_zero hb0
    exact hR.sum_converged hrow' Φ ev m1 m1 _ g' w' t' b (b + 1) le_rfl (by omega) (by omega) he' ht') _ f (Nat.lt_succ_self _)
  rw [← hup]
  rw [tendsto_iff_dist_tendsto_zero]
  refine squeeze_zero (fun _ => dist_nonneg) (fun n => ?_) hE1
  obtain ⟨lo, hi, h1, h2, h3, h4⟩ := hE3 n
  obtain ⟨h5, h6⟩ := h4 v s (by rw [hup]; exact he) hs
  rw [Real.dist_eq, abs_le]
  constructor <;> linarith

end PGMax
