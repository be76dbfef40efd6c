import Verif.Spec.Consistent
import Verif.Lemmas.Fixed
import Verif.Lemmas.SumTextbook

/-! # Factor distributions and messages that change little -/

namespace PGMax

/-- What a message says about the summaries it was computed from, if it is not clipped and changes little. -/
theorem near_message {α : Type _} [Field α] [LinearOrder α] [IsStrictOrderedRing α] {n : Nat} {out : Nat → WithBot α} {m m' : Nat → α} {d η : α} (hd : d < 1)
    (hstep : ∀ s < n, tbNorm n (fun s => (out s).map (fun x => d * m s + (1 - d) * x)) s = m' s) (hη : ∀ s < n, |m' s - m s| ≤ η) (hclip : ∀ s < n, -1000 < m' s) :
    ∃ c, ∀ s < n, ∃ o, out s = WithBot.some o ∧ |o - m s - c| ≤ η / (1 - d) := by
  have hd' : 0 < 1 - d := by linarith
  rcases Nat.eq_zero_or_pos n with rfl | hn
  · exact ⟨0, fun s hs => absurd hs (Nat.not_lt_zero s)⟩
  have hout : ∀ s < n, ∃ o, out s = WithBot.some o := by
    intro s hs
    cases e : out s with
    | bot =>
      have h1 := hstep s hs
      rw [tbNorm_bot (by simp only [e]; rfl)] at h1
      have h2 := hclip s hs
      rw [← h1] at h2
      exact absurd h2 (lt_irrefl _)
    | coe o => exact ⟨o, rfl⟩
  obtain ⟨t, ht, hsup⟩ := Finset.exists_mem_eq_sup (Finset.range n) ⟨0, Finset.mem_range.2 hn⟩ (fun s => (out s).map (fun x => d * m s + (1 - d) * x))
  obtain ⟨o', ho'⟩ := hout t (Finset.mem_range.1 ht)
  have hb : (Finset.range n).sup (fun s => (out s).map (fun x => d * m s + (1 - d) * x)) = WithBot.some (d * m t + (1 - d) * o') := by
    rw [hsup]
    simp only [ho']
    rfl
  generalize d * m t + (1 - d) * o' = b at hb
  refine ⟨b / (1 - d), fun s hs => ?_⟩
  obtain ⟨o, ho⟩ := hout s hs
  refine ⟨o, ho, ?_⟩
  have h1 := hstep s hs
  rw [tbNorm_coe hb (a := d * m s + (1 - d) * o) (by simp only [ho]; rfl)] at h1
  have h2 : d * m s + (1 - d) * o - b = m' s := by
    rcases max_cases (d * m s + (1 - d) * o - b) (-1000) with ⟨h3, -⟩ | ⟨h3, -⟩
    · rw [← h3, h1]
    · have h4 := hclip s hs
      rw [← h1, h3] at h4
      exact absurd h4 (lt_irrefl _)
  have h3 : o - m s - b / (1 - d) = (m' s - m s) / (1 - d) := by
    rw [← h2]
    field_simp
    ring
  rw [h3, abs_div, abs_of_pos hd']
  exact div_le_div_of_nonneg_right (hη s hs) hd'.le

/-- Splitting a sum over configurations by the state of position `i`. -/
theorem sum_by_state (i n : Nat) (g : List Nat × ℝ → ℝ) (l : List (List Nat × ℝ)) (hl : ∀ r ∈ l, ∃ s < n, r.1[i]? = some s) :
    (l.map g).sum = ∑ s ∈ Finset.range n, ((l.filter (fun r => r.1[i]? = some s)).map g).sum := by
  induction l with
  | nil => simp
  | cons r l ih =>
    obtain ⟨s0, hs0, hr⟩ := hl r (List.mem_cons_self ..)
    have h1 : ∀ s, (((r :: l).filter (fun r => r.1[i]? = some s)).map g).sum = (if s = s0 then g r else 0) + ((l.filter (fun r => r.1[i]? = some s)).map g).sum := by
      intro s
      rw [List.filter_cons, hr]
      by_cases h : s = s0
      · subst h
        simp
      · simp [h, Ne.symm h]
    rw [Finset.sum_congr rfl (fun s _ => h1 s), Finset.sum_add_distrib, ← ih (fun r hr => hl r (List.mem_cons_of_mem _ hr)), Finset.sum_ite_eq' , if_pos (Finset.mem_range.2 hs0)]
    simp

theorem gibbs_eq (f : Nat → ℝ) (n s : Nat) : gibbs f n s = Real.exp (f s) / ∑ t ∈ Finset.range n, Real.exp (f t) := by
  unfold gibbs
  rw [← List.sum_toFinset _ List.nodup_range, List.toFinset_range]

/-- Distributions with nearly the same weights, up to a constant, are nearly the same. -/
theorem gibbs_near {n : Nat} {w B : Nat → ℝ} {c δ₁ δ₂ : ℝ} (hw : ∀ s < n, Real.exp (B s + c - δ₁) ≤ w s ∧ w s ≤ Real.exp (B s + c + δ₂)) {s : Nat} (hs : s < n) :
    gibbs B n s * Real.exp (-(δ₁ + δ₂)) ≤ w s / ∑ t ∈ Finset.range n, w t ∧ w s / ∑ t ∈ Finset.range n, w t ≤ gibbs B n s * Real.exp (δ₁ + δ₂) := by
  rw [gibbs_eq]
  have hne : (Finset.range n).Nonempty := ⟨s, Finset.mem_range.2 hs⟩
  have hZ : 0 < ∑ t ∈ Finset.range n, Real.exp (B t) := Finset.sum_pos (fun t _ => Real.exp_pos _) hne
  have hW : 0 < ∑ t ∈ Finset.range n, w t := Finset.sum_pos (fun t ht => lt_of_lt_of_le (Real.exp_pos _) (hw t (Finset.mem_range.1 ht)).1) hne
  have h1 : (∑ t ∈ Finset.range n, Real.exp (B t)) * Real.exp (c - δ₁) ≤ ∑ t ∈ Finset.range n, w t := by
    rw [Finset.sum_mul]
    refine Finset.sum_le_sum fun t ht => ?_
    rw [← Real.exp_add]
    exact le_trans (by rw [add_sub_assoc]) (hw t (Finset.mem_range.1 ht)).1
  have h2 : ∑ t ∈ Finset.range n, w t ≤ (∑ t ∈ Finset.range n, Real.exp (B t)) * Real.exp (c + δ₂) := by
    rw [Finset.sum_mul]
    refine Finset.sum_le_sum fun t ht => ?_
    rw [← Real.exp_add]
    exact le_trans (hw t (Finset.mem_range.1 ht)).2 (by rw [add_assoc])
  constructor
  · rw [div_mul_eq_mul_div, div_le_div_iff₀ hZ hW, ← Real.exp_add]
    calc Real.exp (B s + -(δ₁ + δ₂)) * ∑ t ∈ Finset.range n, w t ≤ Real.exp (B s + -(δ₁ + δ₂)) * ((∑ t ∈ Finset.range n, Real.exp (B t)) * Real.exp (c + δ₂)) :=
          mul_le_mul_of_nonneg_left h2 (Real.exp_pos _).le
      _ = Real.exp (B s + c - δ₁) * ∑ t ∈ Finset.range n, Real.exp (B t) := by
          rw [mul_comm (∑ t ∈ Finset.range n, Real.exp (B t)), ← mul_assoc, ← Real.exp_add]
          congr 2
          ring
      _ ≤ _ := mul_le_mul_of_nonneg_right (hw s hs).1 hZ.le
  · rw [div_mul_eq_mul_div, div_le_div_iff₀ hW hZ, ← Real.exp_add]
    calc w s * ∑ t ∈ Finset.range n, Real.exp (B t) ≤ Real.exp (B s + c + δ₂) * ∑ t ∈ Finset.range n, Real.exp (B t) := mul_le_mul_of_nonneg_right (hw s hs).2 hZ.le
      _ = Real.exp (B s + (δ₁ + δ₂)) * ((∑ t ∈ Finset.range n, Real.exp (B t)) * Real.exp (c - δ₁)) := by
          rw [mul_comm (∑ t ∈ Finset.range n, Real.exp (B t)) (Real.exp (c - δ₁)), ← mul_assoc, ← Real.exp_add]
          congr 2
          ring
      _ ≤ _ := mul_le_mul_of_nonneg_left h1 (Real.exp_pos _).le

/-- The weight of the configurations with position `i` in state `s`, from the incoming message and the summary of the other scores. -/
theorem sum_rowWeight {T : ℝ} (hT : 0 < T) {n i : Nat} (hi : i < n) (q : Nat → Nat → ℝ) (s : Nat) {l : List (List Nat × ℝ)} (hne : l ≠ []) (hl : ∀ r ∈ l, r.1[i]? = some s) :
    (l.map (rowWeight T n q)).sum = Real.exp ((q i s + lse T (l.map (scoreBut n q i))) / T) := by
  have h1 : (l.map (rowWeight T n q)).sum = Real.exp (q i s / T) * ((l.map (scoreBut n q i)).map (fun x => Real.exp (x / T))).sum := by
    rw [List.map_map, ← List.sum_map_mul_left]
    congr 1
    refine List.map_congr_left fun r hr => ?_
    have e := scoreAll_eq hi q r
    unfold scoreAll at e
    unfold rowWeight
    rw [e, Function.comp, ← Real.exp_add]
    congr 1
    have : r.1.getD i 0 = s := by rw [List.getD, hl r hr]; rfl
    rw [this]
    ring
  have hpos : 0 < ((l.map (scoreBut n q i)).map (fun x => Real.exp (x / T))).sum := by
    refine List.sum_pos _ (fun x hx => ?_) (by simpa using hne)
    obtain ⟨y, -, rfl⟩ := List.mem_map.1 hx
    exact Real.exp_pos _
  rw [h1, add_div, Real.exp_add]
  congr 1
  unfold lse
  rw [mul_div_cancel_left₀ _ hT.ne', Real.exp_log hpos]

/-- If the message of a factor to position `i` is not clipped and changes little, the probabilities of the states by the factor's weights and by the variable's belief are nearly equal. -/
theorem prob_near {T : ℝ} (hT : 0 < T) {factors : List (SFac ℝ)} {ev : Var → Nat → ℝ} {d : ℝ} (hd : d < 1) {m m' : Msgs ℝ} {f i : Nat} {F : SFac ℝ} {v : Var} (hF : factors[f]? = some F)
    (hi : F.scope[i]? = some v) (hrow : ∀ r ∈ F.rows, List.Forall₂ (fun s (v : Var) => s < v.n) r.1 F.scope) (Φ : Nat → List ℝ → ℝ) {ε : ℝ}
    (hΦ : ∀ l : List ℝ, l ≠ [] → lse T l ≤ Φ f l ∧ Φ f l ≤ lse T l + ε) (hstep : ∀ s < v.n, sumStep Φ factors ev d m f i s = m' f i s) {η : ℝ}
    (hη : ∀ s < v.n, |m' f i s - m f i s| ≤ η) (hclip : ∀ s < v.n, -1000 < m' f i s) {s : Nat} (hs : s < v.n) :
    gibbs (fun s => beliefOf (factors.map (·.scope)) ev m v s / T) v.n s * Real.exp (-((2 * η / (1 - d) + ε) / T)) ≤ F.prob T (tbIn factors ev m f F) i s ∧
      F.prob T (tbIn factors ev m f F) i s ≤ gibbs (fun s => beliefOf (factors.map (·.scope)) ev m v s / T) v.n s * Real.exp ((2 * η / (1 - d) + ε) / T) := by
  have hil := (List.getElem?_eq_some_iff.1 hi).1
  obtain ⟨c, hc⟩ := near_message hd (out := sumOut (Φ f) F (tbIn factors ev m f F) i) (m := m f i) (m' := m' f i) (η := η)
    (fun s hs => by rw [← hstep s hs, sumStep_at Φ hF hi]) hη hclip
  have hsplit : (F.rows.map (rowWeight T F.scope.length (tbIn factors ev m f F))).sum =
      ∑ t ∈ Finset.range v.n, ((F.rowsAt i t).map (rowWeight T F.scope.length (tbIn factors ev m f F))).sum := by
    refine sum_by_state i v.n _ F.rows fun r hr => ?_
    have hl := (hrow r hr).length_eq
    obtain ⟨w, hw, hlt⟩ := forall₂_getElem? (hrow r hr) (List.getElem?_eq_getElem (show i < r.1.length by rw [hl]; exact hil))
    rw [hi] at hw
    cases hw
    exact ⟨_, hlt, List.getElem?_eq_getElem _⟩
  unfold SFac.prob
  rw [hsplit]
  have hw : ∀ t < v.n, Real.exp (beliefOf (factors.map (·.scope)) ev m v t / T + c / T - (η / (1 - d) + ε) / T) ≤ ((F.rowsAt i t).map (rowWeight T F.scope.length (tbIn factors ev m f F))).sum ∧
      ((F.rowsAt i t).map (rowWeight T F.scope.length (tbIn factors ev m f F))).sum ≤ Real.exp (beliefOf (factors.map (·.scope)) ev m v t / T + c / T + η / (1 - d) / T) := by
    intro t ht
    obtain ⟨o, ho, h1⟩ := hc t ht
    have hne : F.rowsAt i t ≠ [] := by
      intro e
      unfold sumOut at ho
      rw [if_pos e] at ho
      exact absurd ho.symm (WithBot.coe_ne_bot)
    have h2 : Φ f ((F.rowsAt i t).map (scoreBut F.scope.length (tbIn factors ev m f F) i)) = o := by
      unfold sumOut at ho
      rw [if_neg hne] at ho
      exact WithBot.coe_injective ho
    obtain ⟨h3, h4⟩ := hΦ _ (show (F.rowsAt i t).map (scoreBut F.scope.length (tbIn factors ev m f F) i) ≠ [] by simpa using hne)
    rw [h2] at h3 h4
    obtain ⟨h5, h6⟩ := abs_le.1 h1
    have h7 : beliefOf (factors.map (·.scope)) ev m v t = tbIn factors ev m f F i t + m f i t := by
      rw [tbIn_at hi]
      exact belief_eq ev m ⟨F.scope, by rw [List.getElem?_map, hF]; rfl, hi⟩ t
    rw [sum_rowWeight hT hil _ t hne (fun r hr => of_decide_eq_true (List.mem_filter.1 hr).2), ← add_div, ← sub_div, ← add_div]
    refine ⟨Real.exp_le_exp.2 (div_le_div_of_nonneg_right ?_ hT.le), Real.exp_le_exp.2 (div_le_div_of_nonneg_right ?_ hT.le)⟩ <;> linarith
  have key := gibbs_near (B := fun t => beliefOf (factors.map (·.scope)) ev m v t / T) hw hs
  have e : (η / (1 - d) + ε) / T + η / (1 - d) / T = (2 * η / (1 - d) + ε) / T := by ring
  rw [e] at key
  exact key

end PGMax
