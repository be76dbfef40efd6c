import Verif.Lemmas.Floored

/-! Helper lemmas: distance between runs with nearly equal rules. -/

namespace PGMax

theorem maxOf_close {β : Type _} {l : List β} {c : List ℝ} {f g : β → ℝ} {E : ℝ} (hE : 0 ≤ E) (h : ∀ x ∈ l, |f x - g x| ≤ E) :
    |maxOf 0 (l.map f ++ c) - maxOf 0 (l.map g ++ c)| ≤ E := by
  by_cases hne : l.map f ++ c = []
  · obtain ⟨h1, h2⟩ := List.append_eq_nil_iff.1 hne
    rw [List.map_eq_nil_iff] at h1
    simp [h1, h2, hE]
  · have key : ∀ f g : β → ℝ, (∀ x ∈ l, f x ≤ g x + E) → l.map f ++ c ≠ [] → maxOf 0 (l.map f ++ c) ≤ maxOf 0 (l.map g ++ c) + E := by
      intro f g h hne
      obtain ⟨h1, -⟩ := maxOf_spec 0 _ hne
      obtain ⟨-, h2⟩ := maxOf_spec 0 (l.map g ++ c) (by
        intro h'
        apply hne
        obtain ⟨h1, h2⟩ := List.append_eq_nil_iff.1 h'
        rw [List.map_eq_nil_iff] at h1
        simp [h1, h2])
      rcases List.mem_append.1 h1 with h3 | h3
      · obtain ⟨x, hx, he⟩ := List.mem_map.1 h3
        rw [← he]
        have := h2 (g x) (List.mem_append_left _ (List.mem_map.2 ⟨x, hx, rfl⟩))
        linarith [h x hx]
      · have := h2 _ (List.mem_append_right _ h3)
        linarith
    rw [abs_le]
    have k1 := key f g (fun x hx => by linarith [(abs_le.1 (h x hx)).2]) hne
    have k2 := key g f (fun x hx => by linarith [(abs_le.1 (h x hx)).1]) (by
        intro h'
        apply hne
        obtain ⟨h1, h2⟩ := List.append_eq_nil_iff.1 h'
        rw [List.map_eq_nil_iff] at h1
        simp [h1, h2])
    constructor <;> linarith

theorem flNorm_close {scopes : List (List Var)} {n : Nat} {x y : Nat → ℝ} {E : ℝ} (hE : 0 ≤ E) (h : ∀ s < n, |x s - y s| ≤ E) {s : Nat} (hs : s < n) :
    |flNorm scopes n x s - flNorm scopes n y s| ≤ 2 * E := by
  unfold flNorm
  refine le_trans (abs_max_sub_max_le_abs _ _ _) ?_
  have h1 := maxOf_close (c := if Exceeded scopes n then [(-100000 : ℝ)] else []) hE (fun t ht => h t (List.mem_range.1 ht))
  have h2 := abs_le.1 (h s hs)
  have h3 := abs_le.1 h1
  rw [abs_le]
  constructor <;> linarith

/-- Runs with nearly equal rules stay close. -/
theorem flRun_close {factors : List (SFac ℝ)} {out out' : Nat → SFac ℝ → (Nat → Nat → ℝ) → Nat → Nat → ℝ} {δ : ℝ} (hδ : 0 ≤ δ) {L : ℝ} (hL1 : 1 ≤ L)
    (hout : ∀ f F, factors[f]? = some F → ∀ (q : Nat → Nat → ℝ) (i s : Nat) (v : Var), F.scope[i]? = some v → s < v.n → |out f F q i s - out' f F q i s| ≤ δ)
    (ev : Var → Nat → ℝ)
    (hlip : ∀ f F, factors[f]? = some F → ∀ (m m' : Msgs ℝ) (D : ℝ), (∀ f i v s, IsEdge (factors.map (·.scope)) f i v → s < v.n → |m f i s - m' f i s| ≤ D) → 0 ≤ D →
      ∀ (i s : Nat) (v : Var), F.scope[i]? = some v → s < v.n → |out' f F (tbIn factors ev m f F) i s - out' f F (tbIn factors ev m' f F) i s| ≤ L * D)
    {d : ℝ} (hd : 0 ≤ d ∧ d ≤ 1) (m : Msgs ℝ) (n : Nat) :
    ∀ f i v s, IsEdge (factors.map (·.scope)) f i v → s < v.n →
      |flRun out factors ev d n m f i s - flRun out' factors ev d n m f i s| ≤ 2 * δ * ∑ k ∈ Finset.range n, (2 * L) ^ k := by
  induction n with
  | zero => intro f i v s _ _; simp [flRun]
  | succ n ih =>
    intro f i v s he hs
    obtain ⟨vs, h1, h2⟩ := he
    rw [List.getElem?_map] at h1
    obtain ⟨F, hF, rfl⟩ := Option.map_eq_some_iff.1 h1
    generalize hDe : 2 * δ * ∑ k ∈ Finset.range n, (2 * L) ^ k = D at ih
    have hD : 0 ≤ D := by
      rw [← hDe]
      exact mul_nonneg (by linarith) (Finset.sum_nonneg (fun k _ => pow_nonneg (by linarith) _))
    have hgoal : 2 * δ * ∑ k ∈ Finset.range (n + 1), (2 * L) ^ k = 2 * (δ + L * D) := by
      rw [Finset.sum_range_succ', ← hDe]
      simp only [pow_succ, pow_zero]
      rw [← Finset.sum_mul]
      ring
    rw [hgoal]
    show |flStep out factors ev d _ f i s - flStep out' factors ev d _ f i s| ≤ _
    rw [flStep_at hF h2, flStep_at hF h2]
    generalize flRun out factors ev d n m = mc at ih ⊢
    generalize flRun out' factors ev d n m = mt at ih ⊢
    have hLD : 0 ≤ L * D := mul_nonneg (by linarith) hD
    refine flNorm_close (by linarith) ?_ hs
    intro t ht
    have e1 := abs_le.1 (hout f F hF (tbIn factors ev mc f F) i t v h2 ht)
    have e2 := abs_le.1 (hlip f F hF mc mt D ih hD i t v h2 ht)
    have e3 := abs_le.1 (ih f i v t ⟨_, getElem?_scopes hF, h2⟩ ht)
    have hDL : D ≤ L * D := by nlinarith
    generalize out f F (tbIn factors ev mc f F) i t = A at *
    generalize out' f F (tbIn factors ev mc f F) i t = A' at *
    generalize out' f F (tbIn factors ev mt f F) i t = B at *
    have e : d * mc f i t + (1 - d) * A - (d * mt f i t + (1 - d) * B) = d * (mc f i t - mt f i t) + (1 - d) * (A - B) := by ring
    rw [e, abs_le]
    have e4 : -(δ + L * D) ≤ mc f i t - mt f i t ∧ mc f i t - mt f i t ≤ δ + L * D := ⟨by linarith, by linarith⟩
    have e5 : -(δ + L * D) ≤ A - B ∧ A - B ≤ δ + L * D := ⟨by linarith, by linarith⟩
    constructor
    · nlinarith [mul_le_mul_of_nonneg_left e4.1 hd.1, mul_le_mul_of_nonneg_left e5.1 (sub_nonneg.2 hd.2)]
    · nlinarith [mul_le_mul_of_nonneg_left e4.2 hd.1, mul_le_mul_of_nonneg_left e5.2 (sub_nonneg.2 hd.2)]

/-- `lse` and the maximum. -/
theorem lse_max {T : ℝ} (hT : 0 < T) {l : List ℝ} (hl : l ≠ []) : maxOf 0 l ≤ lse T l ∧ lse T l ≤ maxOf 0 l + T * (l.length : ℝ) := by
  obtain ⟨h1, h2⟩ := maxOf_spec 0 l hl
  generalize maxOf 0 l = M at *
  have hpos : 0 < (l.map (fun x => Real.exp (x / T))).sum := by
    have := sum_map_exp_pos hl (fun x => x / T)
    exact this
  have h3 : Real.exp (M / T) ≤ (l.map (fun x => Real.exp (x / T))).sum := by
    refine List.single_le_sum ?_ _ (List.mem_map.2 ⟨M, h1, rfl⟩)
    intro x hx
    obtain ⟨r, -, rfl⟩ := List.mem_map.1 hx
    exact (Real.exp_pos _).le
  have h4 : (l.map (fun x => Real.exp (x / T))).sum ≤ (l.length : ℝ) * Real.exp (M / T) := by
    have : ∀ y ∈ l.map (fun x => Real.exp (x / T)), y ≤ Real.exp (M / T) := by
      intro y hy
      obtain ⟨x, hx, rfl⟩ := List.mem_map.1 hy
      exact Real.exp_le_exp.2 (div_le_div_of_nonneg_right (h2 x hx) hT.le)
    have := List.sum_le_card_nsmul _ _ this
    simpa using this
  have hlen : (1 : ℝ) ≤ (l.length : ℝ) := by
    have := List.length_pos_of_ne_nil hl
    exact_mod_cast this
  unfold lse
  constructor
  · have := Real.log_le_log (Real.exp_pos _) h3
    rw [Real.log_exp] at this
    have := mul_le_mul_of_nonneg_left this hT.le
    rwa [mul_div_cancel₀ _ hT.ne'] at this
  · have h5 := Real.log_le_log hpos h4
    rw [Real.log_mul (by linarith) (Real.exp_pos _).ne', Real.log_exp] at h5
    have h6 : Real.log (l.length : ℝ) ≤ (l.length : ℝ) := (Real.log_le_sub_one_of_pos (by linarith)).trans (by linarith)
    have h7 := mul_le_mul_of_nonneg_left (h5.trans (add_le_add_left h6 _)) hT.le
    rw [mul_add, mul_div_cancel₀ _ hT.ne'] at h7
    linarith

theorem maxFloor_eq (l : List ℝ) : maxFloor l = maxOf 0 (-100000 :: l) := rfl

/-- An enumeration factor at a positive temperature and at temperature 0. -/
theorem flEnumSum_close {T : ℝ} (hT : 0 < T) (F : SFac ℝ) (q : Nat → Nat → ℝ) (i s : Nat) :
    |flEnumSum T F q i s - flEnum F q i s| ≤ T * (100001 + (F.rows.length : ℝ)) := by
  unfold flEnumSum flEnum
  have hlen : (((F.rowsAt i s).length : Nat) : ℝ) ≤ (F.rows.length : ℝ) := Nat.cast_le.2 (List.length_filter_le _ _)
  have hlen' : ((F.rowsAt i s).map (fun r => scoreBut F.scope.length q i r + q i s)).length = (F.rowsAt i s).length := List.length_map _
  rw [sub_sub_sub_cancel_right]
  generalize (F.rowsAt i s).map (fun r => scoreBut F.scope.length q i r + q i s) = l at *
  have h0 : ∀ x ∈ (-100000 :: l), x ≤ maxFloor l := by rw [maxFloor_eq]; exact (maxOf_spec 0 _ (by simp)).2
  obtain ⟨k1, k2⟩ := lse_max hT (l := (maxFloor l - T * 100000) :: l) (by simp)
  obtain ⟨g1, g2⟩ := maxOf_spec 0 ((maxFloor l - T * 100000) :: l) (by simp)
  have g3 := g2 _ List.mem_cons_self
  have g4 : maxOf 0 ((maxFloor l - T * 100000) :: l) ≤ maxFloor l := by
    rcases List.mem_cons.1 g1 with g1 | g1
    · rw [g1]
      have : 0 ≤ T * 100000 := by positivity
      linarith
    · exact h0 _ (by simp [g1])
  have g5 : ((((maxFloor l - T * 100000) :: l).length : Nat) : ℝ) = (F.rowsAt i s).length + 1 := by rw [List.length_cons, hlen']; push_cast; ring
  rw [g5] at k2
  generalize lse T ((maxFloor l - T * 100000) :: l) = A at *
  generalize maxOf 0 ((maxFloor l - T * 100000) :: l) = B at *
  have h5 := mul_le_mul_of_nonneg_left hlen hT.le
  have h6 : 0 ≤ T * (F.rows.length : ℝ) := by positivity
  rw [abs_le]
  constructor <;> nlinarith

section
variable {κ : Type _} {vgs : List (VGroup κ)} {hist : List (AddArg ℝ)} {garbage : Garbage} {st : FGState κ ℝ}

theorem inputsBut_le (scopes : List (List Var)) (vs : List Var) (i : Nat) : inputsBut scopes vs i ≤ inputsBut scopes vs vs.length := by
  unfold inputsBut
  have e : (List.range vs.length).filter (fun j => j ≠ vs.length) = List.range vs.length := by
    rw [List.filter_eq_self]
    intro j hj
    have := List.mem_range.1 hj
    simp; omega
  rw [e]
  exact List.Sublist.sum_le_sum (List.filter_sublist.map _) (fun _ _ => Nat.zero_le _)

theorem degree_le (scopes : List (List Var)) (vs : List Var) {i : Nat} {v : Var} (hi : vs[i]? = some v) : (edgesOf scopes v).length - 1 ≤ inputsBut scopes vs vs.length := by
  unfold inputsBut
  have hil := (List.getElem?_eq_some_iff.1 hi).1
  refine List.single_le_sum (fun _ _ => Nat.zero_le _) _ (List.mem_map.2 ⟨i, List.mem_filter.2 ⟨List.mem_range.2 hil, by simp; omega⟩, ?_⟩)
  rw [getD_of_some hi]

/-- The limit rule is Lipschitz. -/
theorem flOutLimit_lip {fg : FactorGraph κ ℝ} {factors : List (SFac ℝ)} (hrow : ∀ F ∈ factors, ∀ r ∈ F.rows, List.Forall₂ (fun s (v : Var) => s < v.n) r.1 F.scope)
    {L : ℝ} (hL : ∀ F ∈ factors, (inputsBut (factors.map (·.scope)) F.scope F.scope.length : ℝ) ≤ L) (ev : Var → Nat → ℝ)
    {f : Nat} {F : SFac ℝ} (hF : factors[f]? = some F) {m m' : Msgs ℝ} {D : ℝ}
    (hm : ∀ f i v s, IsEdge (factors.map (·.scope)) f i v → s < v.n → |m f i s - m' f i s| ≤ D) (hD : 0 ≤ D) {i s : Nat} {v : Var} (hi : F.scope[i]? = some v) (hs : s < v.n) :
    |flOutLimit fg f F (tbIn factors ev m f F) i s - flOutLimit fg f F (tbIn factors ev m' f F) i s| ≤ 2 * L * D := by
  have hFm := List.mem_of_getElem? hF
  have hLF := hL F hFm
  have hL0 : 0 ≤ L := le_trans (Nat.cast_nonneg _) hLF
  have hsc : ∀ t, ∀ r ∈ F.rowsAt i t, |scoreBut F.scope.length (tbIn factors ev m f F) i r - scoreBut F.scope.length (tbIn factors ev m' f F) i r| ≤ L * D := by
    intro t r hr
    refine le_trans (scoreBut_close hF ev hm i (hrow F hFm r (List.mem_filter.1 hr).1)) ?_
    rw [mul_comm]
    refine mul_le_mul_of_nonneg_right (le_trans ?_ hLF) hD
    exact_mod_cast inputsBut_le _ _ _
  have hq : |tbIn factors ev m f F i s - tbIn factors ev m' f F i s| ≤ L * D := by
    rw [tbIn_at hi, tbIn_at hi]
    refine le_trans (varToFac_close ev ⟨_, getElem?_scopes hF, hi⟩ hs hm) ?_
    rw [mul_comm]
    refine mul_le_mul_of_nonneg_right (le_trans ?_ hLF) hD
    exact_mod_cast degree_le _ _ hi
  have hLD : 0 ≤ L * D := mul_nonneg hL0 hD
  unfold flOutLimit
  split
  · unfold flEnum
    generalize tbIn factors ev m f F = q at *
    generalize tbIn factors ev m' f F = q' at *
    have key : ∀ q : Nat → Nat → ℝ, maxFloor ((F.rowsAt i s).map (fun r => scoreBut F.scope.length q i r + q i s)) - q i s
        = maxOf 0 ((F.rowsAt i s).map (scoreBut F.scope.length q i) ++ [-100000 - q i s]) := by
      intro q
      rw [maxFloor_eq]
      obtain ⟨a1, a2⟩ := maxOf_spec 0 (-100000 :: (F.rowsAt i s).map (fun r => scoreBut F.scope.length q i r + q i s)) (by simp)
      obtain ⟨b1, b2⟩ := maxOf_spec 0 ((F.rowsAt i s).map (scoreBut F.scope.length q i) ++ [-100000 - q i s]) (by simp)
      apply le_antisymm
      · rcases List.mem_cons.1 a1 with a1 | a1
        · rw [a1]
          exact b2 _ (List.mem_append_right _ (by simp))
        · obtain ⟨r, hr, he⟩ := List.mem_map.1 a1
          rw [← he, add_sub_cancel_right]
          exact b2 _ (List.mem_append_left _ (List.mem_map.2 ⟨r, hr, rfl⟩))
      · rcases List.mem_append.1 b1 with b1 | b1
        · obtain ⟨r, hr, he⟩ := List.mem_map.1 b1
          rw [← he]
          have := a2 (scoreBut F.scope.length q i r + q i s) (List.mem_cons_of_mem _ (List.mem_map.2 ⟨r, hr, rfl⟩))
          linarith
        · rw [List.mem_singleton.1 b1]
          have := a2 (-100000) List.mem_cons_self
          linarith
    rw [key, key]
    have h1 := maxOf_close (l := (F.rowsAt i s).map (fun r => (scoreBut F.scope.length q i r, scoreBut F.scope.length q' i r)) ++ [(-100000 - q i s, -100000 - q' i s)]) (c := [])
      (f := Prod.fst) (g := Prod.snd) hLD (by
        intro x hx
        rcases List.mem_append.1 hx with hx | hx
        · obtain ⟨r, hr, rfl⟩ := List.mem_map.1 hx
          exact hsc s r hr
        · rw [List.mem_singleton.1 hx]
          simp only
          rw [sub_sub_sub_cancel_left, abs_sub_comm]
          exact hq)
    simp only [List.map_append, List.map_map, List.map_cons, List.map_nil, List.append_nil, Function.comp_def] at h1
    linarith
  · have h1 := maxOf_close (l := F.rowsAt i s) (c := []) hLD (hsc s)
    have h2 := maxOf_close (l := F.rowsAt i (fg.restState f)) (c := []) hLD (hsc _)
    simp only [List.append_nil] at h1 h2
    rw [abs_le] at *
    constructor <;> linarith

/-- The rule at a positive temperature and the limit rule. -/
theorem flOutSum_close {T : ℝ} (hT : 0 < T) {fg : FactorGraph κ ℝ} {f : Nat} {F : SFac ℝ} (hne : fg.tables.length ≤ f → ∀ s < 2, ∀ i < F.scope.length, F.rowsAt i s ≠ [])
    (q : Nat → Nat → ℝ) {i s : Nat} (hi : i < F.scope.length) (hs : fg.tables.length ≤ f → s < 2) :
    |flOutSum T fg f F q i s - flOutLimit fg f F q i s| ≤ T * (100001 + (F.rows.length : ℝ)) := by
  unfold flOutSum flOutLimit
  split
  · exact flEnumSum_close hT F q i s
  · next hf =>
    have hf := not_lt.1 hf
    have hrest : fg.restState f < 2 := by unfold FactorGraph.restState; split <;> omega
    have hb : ∀ t < 2, maxOf 0 ((F.rowsAt i t).map (scoreBut F.scope.length q i)) ≤ lse T ((F.rowsAt i t).map (scoreBut F.scope.length q i)) ∧
        lse T ((F.rowsAt i t).map (scoreBut F.scope.length q i)) ≤ maxOf 0 ((F.rowsAt i t).map (scoreBut F.scope.length q i)) + T * (F.rows.length : ℝ) := by
      intro t ht
      obtain ⟨h1, h2⟩ := lse_max hT (l := (F.rowsAt i t).map (scoreBut F.scope.length q i)) (by simpa using hne hf t ht i hi)
      refine ⟨h1, h2.trans ?_⟩
      rw [List.length_map]
      have : (((F.rowsAt i t).length : Nat) : ℝ) ≤ (F.rows.length : ℝ) := Nat.cast_le.2 (List.length_filter_le _ _)
      have := mul_le_mul_of_nonneg_left this hT.le
      linarith
    have h1 := hb s (hs hf)
    have h2 := hb _ hrest
    have h3 : 0 ≤ T * 100001 := by positivity
    rw [abs_le, mul_add]
    constructor <;> linarith

end

end PGMax
