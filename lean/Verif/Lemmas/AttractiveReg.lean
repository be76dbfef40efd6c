import Verif.Lemmas.Attractive
import Verif.Lemmas.Complete

/-! # Sums with the offset of the code keep the order, for factors of two variables

The code adds `exp (-1e5)` times the largest term to its sums (`regLse`). For factors of one or two variables the messages still rise with those that come in. -/

namespace PGMax

/-- Two numbers below `A` with a product below `A * B`. -/
theorem add_le_of_mul {x y A B : ℝ} (hx : 0 ≤ x) (h1 : x ≤ A) (h2 : y ≤ A) (hB : 0 ≤ B) (h : x * y ≤ A * B) : x + y ≤ A + B := by
  rcases (hx.trans h1).eq_or_lt with h0 | h0
  · subst h0
    have : x = 0 := le_antisymm h1 hx
    linarith
  · have := mul_nonneg (sub_nonneg.2 h1) (sub_nonneg.2 h2)
    refine le_of_mul_le_mul_left ?_ h0
    nlinarith

/-- Four functions on a chain: a value of `a` and one of `b` times the functions at `k`. -/
theorem chain_cross {a b c d : Nat → ℝ} (ha : ∀ k, 0 ≤ a k) (hb : ∀ k, 0 ≤ b k) (hc : ∀ k, 0 ≤ c k) (hd : ∀ k, 0 ≤ d k) (h : ∀ i j, a i * b j ≤ c (max i j) * d (min i j))
    {C D : ℝ} (hC : ∀ k, c k ≤ C) (hD : ∀ k, d k ≤ D) (i j k : Nat) : a i * b k + a k * b j ≤ C * d k + D * c k := by
  have hC0 : 0 ≤ C := (hc 0).trans (hC 0)
  have hD0 : 0 ≤ D := (hd 0).trans (hD 0)
  have hA := mul_nonneg hC0 (hd k)
  have hB := mul_nonneg hD0 (hc k)
  have hx := mul_nonneg (ha i) (hb k)
  have hprod : (a i * b k) * (a k * b j) ≤ (C * d k) * (D * c k) := by
    have h1 : a i * b j ≤ C * D := (h i j).trans (mul_le_mul (hC _) (hD _) (hd _) hC0)
    have h2 : a k * b k ≤ c k * d k := by simpa using h k k
    calc (a i * b k) * (a k * b j) = (a i * b j) * (a k * b k) := by ring
      _ ≤ (C * D) * (c k * d k) := mul_le_mul h1 h2 (mul_nonneg (ha k) (hb k)) (mul_nonneg hC0 hD0)
      _ = _ := by ring
  have x1 : k ≤ i → a i * b k ≤ C * d k := fun hk => by
    have := h i k
    rw [max_eq_left hk, min_eq_right hk] at this
    exact this.trans (mul_le_mul_of_nonneg_right (hC _) (hd _))
  have x2 : i ≤ k → a i * b k ≤ D * c k := fun hk => by
    have := h i k
    rw [max_eq_right hk, min_eq_left hk] at this
    rw [mul_comm D]
    exact this.trans (mul_le_mul_of_nonneg_left (hD _) (hc _))
  have y1 : k ≤ j → a k * b j ≤ C * d k := fun hk => by
    have := h k j
    rw [max_eq_right hk, min_eq_left hk] at this
    exact this.trans (mul_le_mul_of_nonneg_right (hC _) (hd _))
  have y2 : j ≤ k → a k * b j ≤ D * c k := fun hk => by
    have := h k j
    rw [max_eq_left hk, min_eq_right hk] at this
    rw [mul_comm D]
    exact this.trans (mul_le_mul_of_nonneg_left (hD _) (hc _))
  rcases le_total k i with hi | hi <;> rcases le_total k j with hj | hj
  · exact add_le_of_mul hx (x1 hi) (y1 hj) hB hprod
  · exact add_le_add (x1 hi) (y2 hj)
  · rw [add_comm (C * d k)]
    exact add_le_add (x2 hi) (y1 hj)
  · rw [add_comm (C * d k)]
    exact add_le_of_mul hx (x2 hi) (y2 hj) hA (by rw [mul_comm (D * c k)]; exact hprod)

/-- The sum with the offset, as a logarithm. -/
theorem regLse_log {T : ℝ} (hT : 0 < T) (l : List ℝ) (hl : l ≠ []) :
    regLse T l = T * Real.log ((l.map (fun x => Real.exp (x / T))).sum + Real.exp (-100000) * Real.exp (maxOf 0 l / T)) := by
  unfold regLse
  generalize maxOf 0 l = M
  have e : (l.map (fun x => Real.exp (x / T))).sum = Real.exp (M / T) * (l.map (fun x => Real.exp ((x - M) / T))).sum := by
    rw [← List.sum_map_mul_left]
    refine congrArg List.sum (List.map_congr_left fun x _ => ?_)
    rw [← Real.exp_add]
    congr 1
    field_simp
    ring
  have hp : 0 < Real.exp (-100000) + (l.map (fun x => Real.exp ((x - M) / T))).sum := by
    refine add_pos_of_pos_of_nonneg (Real.exp_pos _) (List.sum_nonneg fun x hx => ?_)
    obtain ⟨y, -, rfl⟩ := List.mem_map.1 hx
    exact (Real.exp_pos _).le
  rw [e, mul_comm (Real.exp (-100000)), ← mul_add, Real.log_mul (Real.exp_pos _).ne' (by linarith), Real.log_exp]
  rw [add_comm (Real.exp (-100000))]
  field_simp

theorem lse_exp {T : ℝ} (hT : 0 < T) {l : List ℝ} (hl : l ≠ []) : Real.exp (lse T l / T) = (l.map (fun x => Real.exp (x / T))).sum := by
  unfold lse
  rw [mul_div_cancel_left₀ _ hT.ne', Real.exp_log]
  refine List.sum_pos _ (fun x hx => ?_) (by simpa using hl)
  obtain ⟨y, -, rfl⟩ := List.mem_map.1 hx
  exact Real.exp_pos _

/-- The weight of the rows with key `k`. -/
def keyWeight {β : Type _} (l : List β) (key : β → Nat) (w : β → ℝ) (k : Nat) : ℝ := ((l.filter (fun r => key r = k)).map w).sum

section

variable {β : Type _} {l : List β} {key : β → Nat} {w : β → ℝ}

theorem keyWeight_cons (r : β) (k : Nat) : keyWeight (r :: l) key w k = (if key r = k then w r else 0) + keyWeight l key w k := by
  unfold keyWeight
  rw [List.filter_cons]
  by_cases hc : key r = k
  · simp [hc]
  · simp [hc]

theorem keyWeight_none {k : Nat} (h : ∀ r ∈ l, key r ≠ k) : keyWeight l key w k = 0 := by
  have : l.filter (fun r => key r = k) = [] := by
    rw [List.filter_eq_nil_iff]
    intro r hr he
    exact h r hr (by simpa using he)
  simp only [keyWeight, this, List.map_nil, List.sum_nil]

theorem keyWeight_at (hnd : (l.map key).Nodup) {r : β} (hr : r ∈ l) : keyWeight l key w (key r) = w r := by
  induction l with
  | nil => cases hr
  | cons r0 l ih =>
    rw [List.map_cons, List.nodup_cons] at hnd
    rw [keyWeight_cons]
    rcases List.mem_cons.1 hr with rfl | hr
    · rw [if_pos rfl, keyWeight_none, add_zero]
      exact fun r' hr' he => hnd.1 (List.mem_map.2 ⟨r', hr', he⟩)
    · rw [if_neg, zero_add, ih hnd.2 hr]
      exact fun he => hnd.1 (List.mem_map.2 ⟨r, hr, he.symm⟩)

theorem keyWeight_sum {N : Nat} (h : ∀ r ∈ l, key r < N) : ∑ k ∈ Finset.range N, keyWeight l key w k = (l.map w).sum := by
  induction l with
  | nil => simp [keyWeight]
  | cons r l ih =>
    simp only [keyWeight_cons]
    rw [Finset.sum_add_distrib, ih (fun r hr => h r (by simp [hr])), Finset.sum_ite_eq, if_pos (Finset.mem_range.2 (h r (by simp)))]
    rfl

theorem keyWeight_nonneg (hw : ∀ r, 0 ≤ w r) (k : Nat) : 0 ≤ keyWeight l key w k :=
  List.sum_nonneg fun x hx => by
    obtain ⟨r, -, rfl⟩ := List.mem_map.1 hx
    exact hw r

theorem keyWeight_le (hnd : (l.map key).Nodup) {M : ℝ} (hM : 0 ≤ M) (h : ∀ r ∈ l, w r ≤ M) (k : Nat) : keyWeight l key w k ≤ M := by
  by_cases hk : ∃ r ∈ l, key r = k
  · obtain ⟨r, hr, rfl⟩ := hk
    rw [keyWeight_at hnd hr]
    exact h r hr
  · rw [keyWeight_none fun r hr he => hk ⟨r, hr, he⟩]
    exact hM

end

/-- Sums with the offset keep the order, for factors of one or two variables. -/
theorem SFac.Rises.through_reg {F F' : SFac ℝ} (h : F.Rises F') (hrow : ∀ r ∈ F.rows, List.Forall₂ (fun s (v : Var) => s < v.n) r.1 F.scope)
    (hrow' : ∀ r ∈ F'.rows, List.Forall₂ (fun s (v : Var) => s < v.n) r.1 F'.scope) (hfull : F.Full) (hfull' : F'.Full)
    (hnd : (F.rows.map (·.1)).Nodup) (hnd' : (F'.rows.map (·.1)).Nodup) (htwo : F.scope.length ≤ 2) {T : ℝ} (hT : 0 < T) : RisesThrough (regLse T) F F' := by
  intro q q' i v hi hq s s' hle hs
  have hi' : F'.scope[i]? = some v := by rw [h.1]; exact hi
  have hil := (List.getElem?_eq_some_iff.1 hi).1
  have tl := h.through_lse hrow hrow' hfull hfull' hnd hnd' hT q q' i v hi hq s s' hle hs
  have tm := h.through_max hrow hrow' hfull hfull' q q' i v hi hq s s' hle hs
  -- the state of the other variable
  let key : List Nat × ℝ → Nat := fun r => r.1.getD (1 - i) 0
  have keys : ∀ (G : SFac ℝ) k, G.scope = F.scope → (∀ r ∈ G.rows, List.Forall₂ (fun s (v : Var) => s < v.n) r.1 G.scope) → (G.rows.map (·.1)).Nodup → ((G.rowsAt i k).map key).Nodup := by
    intro G k hG hr hn
    have hsub : ((G.rowsAt i k).map (·.1)).Nodup := (List.filter_sublist.map _).nodup hn
    refine List.Nodup.map_on (fun r h1 r' h2 he => ?_) hsub.of_map
    obtain ⟨m1, e1⟩ := List.mem_filter.1 h1
    obtain ⟨m2, e2⟩ := List.mem_filter.1 h2
    have e1 : r.1[i]? = some k := by simpa using e1
    have e2 : r'.1[i]? = some k := by simpa using e2
    have l1 := (hr r m1).length_eq
    have l2 := (hr r' m2).length_eq
    rw [hG] at l1 l2
    have : r.1 = r'.1 := by
      refine List.ext_getElem (by omega) fun j hj hj' => ?_
      by_cases hji : j = i
      · subst hji
        rw [List.getElem?_eq_getElem hj, Option.some.injEq] at e1
        rw [List.getElem?_eq_getElem hj', Option.some.injEq] at e2
        rw [e1, e2]
      · obtain rfl : j = 1 - i := by omega
        simpa only [key, List.getD, List.getElem?_eq_getElem hj, List.getElem?_eq_getElem hj', Option.getD_some] using he
    exact List.inj_on_of_nodup_map hsub h1 h2 this
  have nd : ∀ k, ((F.rowsAt i k).map key).Nodup := fun k => keys F k rfl hrow hnd
  have nd' : ∀ k, ((F'.rowsAt i k).map key).Nodup := fun k => keys F' k h.1 hrow' hnd'
  let w : List Nat × ℝ → ℝ := fun r => Real.exp (scoreBut F.scope.length q i r / T)
  let w' : List Nat × ℝ → ℝ := fun r => Real.exp (scoreBut F'.scope.length q' i r / T)
  have w0 : ∀ r, 0 ≤ w r := fun r => (Real.exp_pos _).le
  have w0' : ∀ r, 0 ≤ w' r := fun r => (Real.exp_pos _).le
  have four : ∀ x y, keyWeight (F.rowsAt i s') key w x * keyWeight (F'.rowsAt i s) key w' y ≤
      keyWeight (F'.rowsAt i s') key w' (max x y) * keyWeight (F.rowsAt i s) key w (min x y) := by
    intro x y
    by_cases hx : ∃ r ∈ F.rowsAt i s', key r = x
    · by_cases hy : ∃ r ∈ F'.rowsAt i s, key r = y
      · obtain ⟨r, hr, rfl⟩ := hx
        obtain ⟨r', hr', rfl⟩ := hy
        obtain ⟨p, hp, t, ht, ep, et, hsum⟩ := h.rows hrow hrow' hi hq hle hr hr'
        have l1 := (hrow r (List.mem_filter.1 hr).1).length_eq
        have l2 := (hrow' r' (List.mem_filter.1 hr').1).length_eq
        rw [h.1] at l2
        have kp : max (key r) (key r') = key p := by
          simp only [key, ep]
          by_cases hj : 1 - i < F.scope.length
          · rw [zipWith_getD (by omega) (by omega)]
          · simp only [List.getD, List.getElem?_eq_none (show r.1.length ≤ 1 - i by omega), List.getElem?_eq_none (show r'.1.length ≤ 1 - i by omega),
              List.getElem?_eq_none (show (List.zipWith max r.1 r'.1).length ≤ 1 - i by rw [List.length_zipWith]; omega), Option.getD_none, max_self]
        have kt : min (key r) (key r') = key t := by
          simp only [key, et]
          by_cases hj : 1 - i < F.scope.length
          · rw [zipWith_getD (by omega) (by omega)]
          · simp only [List.getD, List.getElem?_eq_none (show r.1.length ≤ 1 - i by omega), List.getElem?_eq_none (show r'.1.length ≤ 1 - i by omega),
              List.getElem?_eq_none (show (List.zipWith min r.1 r'.1).length ≤ 1 - i by rw [List.length_zipWith]; omega), Option.getD_none, min_self]
        rw [kp, kt, keyWeight_at (nd _) hr, keyWeight_at (nd' _) hr', keyWeight_at (nd' _) hp, keyWeight_at (nd _) ht]
        simp only [w, w']
        rw [← Real.exp_add, ← Real.exp_add, ← add_div, ← add_div]
        exact Real.exp_le_exp.2 (div_le_div_of_nonneg_right hsum hT.le)
      · rw [keyWeight_none (l := F'.rowsAt i s) (fun r hr he => hy ⟨r, hr, he⟩), mul_zero]
        exact mul_nonneg (keyWeight_nonneg w0' _) (keyWeight_nonneg w0 _)
    · rw [keyWeight_none (l := F.rowsAt i s') (fun r hr he => hx ⟨r, hr, he⟩), zero_mul]
      exact mul_nonneg (keyWeight_nonneg w0' _) (keyWeight_nonneg w0 _)
  have n1 : (F.rowsAt i s').map (scoreBut F.scope.length q i) ≠ [] := by simpa using hfull i v s' hi hs
  have n2 : (F'.rowsAt i s).map (scoreBut F'.scope.length q' i) ≠ [] := by simpa using hfull' i v s hi' (by omega)
  have n3 : (F'.rowsAt i s').map (scoreBut F'.scope.length q' i) ≠ [] := by simpa using hfull' i v s' hi' hs
  have n4 : (F.rowsAt i s).map (scoreBut F.scope.length q i) ≠ [] := by simpa using hfull i v s hi (by omega)
  obtain ⟨r, hr, e⟩ := List.mem_map.1 (maxOf_spec 0 _ n1).1
  obtain ⟨r', hr', e'⟩ := List.mem_map.1 (maxOf_spec 0 _ n2).1
  have m3 := (maxOf_spec 0 _ n3).2
  have m4 := (maxOf_spec 0 _ n4).2
  simp only at tl tm ⊢
  have sums : ∀ (l : List (List Nat × ℝ)) (u : List Nat × ℝ → ℝ), ((l.map u).map (fun x => Real.exp (x / T))).sum = (l.map (fun r => Real.exp (u r / T))).sum := by
    intro l u
    rw [List.map_map]
    rfl
  have E1 := lse_exp hT n1
  have E2 := lse_exp hT n2
  have E3 := lse_exp hT n3
  have E4 := lse_exp hT n4
  rw [sums] at E1 E2 E3 E4
  have R1 := regLse_log hT _ n1
  have R2 := regLse_log hT _ n2
  have R3 := regLse_log hT _ n3
  have R4 := regLse_log hT _ n4
  rw [sums] at R1 R2 R3 R4
  generalize maxOf 0 ((F.rowsAt i s').map (scoreBut F.scope.length q i)) = M1 at *
  generalize maxOf 0 ((F'.rowsAt i s).map (scoreBut F'.scope.length q' i)) = M2 at *
  generalize maxOf 0 ((F'.rowsAt i s').map (scoreBut F'.scope.length q' i)) = M3 at *
  generalize maxOf 0 ((F.rowsAt i s).map (scoreBut F.scope.length q i)) = M4 at *
  -- all keys are below some bound
  obtain ⟨N, hN⟩ : ∃ N, ∀ r ∈ F.rows ++ F'.rows, key r < N := by
    refine ⟨((F.rows ++ F'.rows).map key).sum + 1, fun r hr => ?_⟩
    have := List.single_le_sum (l := (F.rows ++ F'.rows).map key) (fun _ _ => Nat.zero_le _) _ (List.mem_map.2 ⟨r, hr, rfl⟩)
    omega
  have b1 : ∀ k, ∀ r ∈ F.rowsAt i k, key r < N := fun k r hr => hN r (List.mem_append_left _ (List.mem_filter.1 hr).1)
  have b2 : ∀ k, ∀ r ∈ F'.rowsAt i k, key r < N := fun k r hr => hN r (List.mem_append_right _ (List.mem_filter.1 hr).1)
  have S1 := keyWeight_sum (w := w) (b1 s')
  have S2 := keyWeight_sum (w := w') (b2 s)
  have S3 := keyWeight_sum (w := w') (b2 s')
  have S4 := keyWeight_sum (w := w) (b1 s)
  have cross := Finset.sum_le_sum (s := Finset.range N) fun k _ => chain_cross (keyWeight_nonneg w0) (keyWeight_nonneg w0') (keyWeight_nonneg w0') (keyWeight_nonneg w0) four
    (C := Real.exp (M3 / T)) (D := Real.exp (M4 / T))
    (keyWeight_le (nd' _) (Real.exp_pos _).le fun p hp => Real.exp_le_exp.2 (div_le_div_of_nonneg_right (m3 _ (List.mem_map.2 ⟨p, hp, rfl⟩)) hT.le))
    (keyWeight_le (nd _) (Real.exp_pos _).le fun p hp => Real.exp_le_exp.2 (div_le_div_of_nonneg_right (m4 _ (List.mem_map.2 ⟨p, hp, rfl⟩)) hT.le)) (key r) (key r') k
  rw [Finset.sum_add_distrib, Finset.sum_add_distrib, ← Finset.mul_sum, ← Finset.mul_sum, ← Finset.mul_sum, ← Finset.sum_mul, S1, S2, S3, S4, keyWeight_at (nd _) hr, keyWeight_at (nd' _) hr'] at cross
  have e1 : w r = Real.exp (M1 / T) := by simp only [w, e]
  have e2 : w' r' = Real.exp (M2 / T) := by simp only [w', e']
  rw [e1, e2] at cross
  simp only [w, w'] at cross
  rw [← E1, ← E2, ← E3, ← E4] at cross
  rw [← E1] at R1
  rw [← E2] at R2
  rw [← E3] at R3
  rw [← E4] at R4
  generalize lse T ((F.rowsAt i s').map (scoreBut F.scope.length q i)) = L1 at *
  generalize lse T ((F'.rowsAt i s).map (scoreBut F'.scope.length q' i)) = L2 at *
  generalize lse T ((F'.rowsAt i s').map (scoreBut F'.scope.length q' i)) = L3 at *
  generalize lse T ((F.rowsAt i s).map (scoreBut F.scope.length q i)) = L4 at *
  have sl : Real.exp (L1 / T) * Real.exp (L2 / T) ≤ Real.exp (L3 / T) * Real.exp (L4 / T) := by
    rw [← Real.exp_add, ← Real.exp_add, ← add_div, ← add_div]
    exact Real.exp_le_exp.2 (div_le_div_of_nonneg_right (by linarith) hT.le)
  have sm : Real.exp (M1 / T) * Real.exp (M2 / T) ≤ Real.exp (M3 / T) * Real.exp (M4 / T) := by
    rw [← Real.exp_add, ← Real.exp_add, ← add_div, ← add_div]
    exact Real.exp_le_exp.2 (div_le_div_of_nonneg_right (by linarith) hT.le)
  have hp : ∀ a b : ℝ, 0 < Real.exp a + Real.exp (-100000) * Real.exp b := fun a b => add_pos (Real.exp_pos _) (mul_pos (Real.exp_pos _) (Real.exp_pos _))
  have p1 := hp (L1 / T) (M1 / T)
  have p2 := hp (L2 / T) (M2 / T)
  have p3 := hp (L3 / T) (M3 / T)
  have p4 := hp (L4 / T) (M4 / T)
  have hε := Real.exp_pos (-100000)
  rw [R1, R2, R3, R4]
  clear R1 R2 R3 R4 E1 E2 E3 E4
  generalize Real.exp (-100000) = ε at *
  have hfin : (Real.exp (L1 / T) + ε * Real.exp (M1 / T)) * (Real.exp (L2 / T) + ε * Real.exp (M2 / T)) ≤
      (Real.exp (L3 / T) + ε * Real.exp (M3 / T)) * (Real.exp (L4 / T) + ε * Real.exp (M4 / T)) := by
    have c1 := mul_le_mul_of_nonneg_left cross hε.le
    have c2 := mul_le_mul_of_nonneg_left sm (mul_nonneg hε.le hε.le)
    linarith
  have hlog := Real.log_le_log (mul_pos p1 p2) hfin
  rw [Real.log_mul p1.ne' p2.ne', Real.log_mul p3.ne' p4.ne'] at hlog
  have := mul_le_mul_of_nonneg_left hlog hT.le
  linarith

end PGMax
