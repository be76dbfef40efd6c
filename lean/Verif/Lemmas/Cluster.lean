import Verif.Lemmas.BetheTree

/-! # The joint distribution of the variables of a factor, in forests -/

namespace PGMax

variable {factors : List (SFac ℝ)} {vars : Finset Var} {ev : Var → Nat → ℝ} {T : ℝ} {m : Msgs ℝ} {up : Nat → Nat} {par : Var → Option (Nat × Nat)} {ht : Nat → Nat}

/-- The assignments with given states on some variables. -/
theorem filter_assignments {vars : Finset Var} {vs : List Var} (hvs : ∀ v ∈ vs, v ∈ vars) {x0 : Var → Nat} (hx0 : ∀ v ∈ vs, x0 v < v.n) :
    (assignments vars (fun _ => 0)).filter (fun x => vs.map x = vs.map x0) = assignments (vars.filter (fun v => v ∉ vs)) (fun v => if v ∈ vs then x0 v else 0) := by
  ext x
  rw [Finset.mem_filter, mem_assignments, mem_assignments]
  have e : vs.map x = vs.map x0 ↔ ∀ v ∈ vs, x v = x0 v := by
    constructor
    · intro h v hv
      exact List.map_inj_left.1 h v hv
    · intro h
      exact List.map_congr_left h
  rw [e]
  constructor
  · rintro ⟨⟨h1, h2⟩, h3⟩
    refine ⟨fun v hv => h1 v (Finset.mem_filter.1 hv).1, fun v hv => ?_⟩
    by_cases hm : v ∈ vs
    · rw [if_pos hm, h3 v hm]
    · rw [if_neg hm]
      exact h2 v fun h => hv (Finset.mem_filter.2 ⟨h, hm⟩)
  · rintro ⟨h1, h2⟩
    have h3 : ∀ v ∈ vs, x v = x0 v := by
      intro v hv
      rw [h2 v (fun h => (Finset.mem_filter.1 h).2 hv), if_pos hv]
    refine ⟨⟨fun v hv => ?_, fun v hv => ?_⟩, h3⟩
    · by_cases hm : v ∈ vs
      · rw [h3 v hm]
        exact hx0 v hm
      · exact h1 v (Finset.mem_filter.2 ⟨hv, hm⟩)
    · rw [h2 v (fun h => hv (Finset.mem_filter.1 h).1), if_neg (fun h => hv (hvs v h))]

/-- In a forest, with distributions of variables and factors that nearly agree, that of a factor below a root nearly gives the total weight of the assignments with given states on its variables. -/
theorem RootedForest.cluster_near (hR : RootedForest (factors.map (·.scope)) up par ht) (hT : 0 < T) (hvars : ∀ F ∈ factors, ∀ v ∈ F.scope, v ∈ vars) (hnd : ∀ F ∈ factors, F.scope.Nodup)
    (hpos : ∀ v ∈ vars, 0 < v.n) (hrow : ∀ F ∈ factors, ∀ r ∈ F.rows, List.Forall₂ (fun s (v : Var) => s < v.n) r.1 F.scope) {δ : Nat → ℝ}
    (hcons : ∀ f F v, factors[f]? = some F → F.scope[up f]? = some v → ∀ s < v.n,
      gibbs (fun s => beliefOf (factors.map (·.scope)) ev m v s / T) v.n s * Real.exp (-δ f) ≤ F.prob T (tbIn factors ev m f F) (up f) s ∧
        F.prob T (tbIn factors ev m f F) (up f) s ≤ gibbs (fun s => beliefOf (factors.map (·.scope)) ev m v s / T) v.n s * Real.exp (δ f))
    {f₀ : Nat} {F₀ : SFac ℝ} {r : Var} (hF₀ : factors[f₀]? = some F₀) (hr : F₀.scope[up f₀]? = some r) (hroot : par r = none) {x0 : Var → Nat} (hx0 : ∀ v ∈ F₀.scope, x0 v < v.n) :
    Real.exp (betheLogTotal T vars factors ev m) * (F₀.assignProb T (tbIn factors ev m f₀ F₀) x0 * Real.exp (-∑ f ∈ (Finset.range factors.length).erase f₀, δ f)) ≤
        clusterWeight T vars factors ev F₀.scope x0 ∧
      clusterWeight T vars factors ev F₀.scope x0 ≤
        Real.exp (betheLogTotal T vars factors ev m) * (F₀.assignProb T (tbIn factors ev m f₀ F₀) x0 * Real.exp (∑ f ∈ (Finset.range factors.length).erase f₀, δ f)) := by
  classical
  have hlt₀ := (List.getElem?_eq_some_iff.1 hF₀).1
  have hFm := List.mem_of_getElem? hF₀
  have hrs := List.mem_of_getElem? hr
  have hrv := hvars F₀ hFm r hrs
  have hvars' : ∀ f j v, IsEdge (factors.map (·.scope)) f j v → v ∈ vars := by
    rintro f j v ⟨vs, h1, h2⟩
    exact scopes_vars' hvars vs (List.mem_of_getElem? h1) v (List.mem_of_getElem? h2)
  set b : Var → Nat → ℝ := fun v s => gibbs (fun s => beliefOf (factors.map (·.scope)) ev m v s / T) v.n s with hbdef
  set S := (Finset.range factors.length).erase f₀ with hSdef
  have hS : ∀ f ∈ S, f < factors.length := fun f hf => Finset.mem_range.1 (Finset.mem_of_mem_erase hf)
  let low := S.biUnion (kids vars par)
  let top := (vars.filter (fun v => par v = none)).erase r
  have hscope : ∀ v, v ∈ F₀.scope → v = r ∨ ∃ j, par v = some (f₀, j) := by
    intro v hv
    obtain ⟨j, hj⟩ := List.mem_iff_getElem?.1 hv
    by_cases hju : j = up f₀
    · left
      rw [hju, hr] at hj
      exact (Option.some.inj hj).symm
    · exact .inr ⟨j, (hR.par_iff v f₀ j).2 ⟨⟨_, getElem?_scopes hF₀, hj⟩, hju⟩⟩
  have hlow : ∀ v, v ∈ low ↔ v ∈ vars ∧ v ∉ F₀.scope ∧ par v ≠ none := by
    intro v
    simp only [low, Finset.mem_biUnion, kids, Finset.mem_filter]
    constructor
    · rintro ⟨f, hf, h1, j, h2⟩
      refine ⟨h1, fun h3 => ?_, by rw [h2]; simp⟩
      rcases hscope v h3 with rfl | ⟨j', h4⟩
      · rw [hroot] at h2
        cases h2
      · rw [h2] at h4
        cases h4
        exact Finset.ne_of_mem_erase hf rfl
    · rintro ⟨h1, h2, h3⟩
      obtain ⟨⟨f, j⟩, he⟩ := Option.ne_none_iff_exists'.1 h3
      obtain ⟨⟨vs, k1, k2⟩, -⟩ := (hR.par_iff v f j).1 he
      have hl := (List.getElem?_eq_some_iff.1 k1).1
      rw [List.length_map] at hl
      refine ⟨f, Finset.mem_erase.2 ⟨fun e => ?_, Finset.mem_range.2 hl⟩, h1, j, he⟩
      subst e
      rw [getElem?_scopes hF₀] at k1
      cases k1
      exact h2 (List.mem_of_getElem? k2)
  have htop : ∀ v, v ∈ top ↔ v ∈ vars ∧ v ∉ F₀.scope ∧ par v = none := by
    intro v
    simp only [top, Finset.mem_erase, Finset.mem_filter]
    constructor
    · rintro ⟨h1, h2, h3⟩
      refine ⟨h2, fun h4 => ?_, h3⟩
      rcases hscope v h4 with rfl | ⟨j', h4⟩
      · exact h1 rfl
      · rw [h3] at h4
        cases h4
    · rintro ⟨h1, h2, h3⟩
      exact ⟨fun e => h2 (e ▸ hrs), h1, h3⟩
  have hvs : vars.filter (fun v => v ∉ F₀.scope) = top ∪ low := by
    ext v
    rw [Finset.mem_union, hlow, htop, Finset.mem_filter]
    tauto
  have hd : Disjoint top low := by
    rw [Finset.disjoint_left]
    intro v hv hv'
    exact ((hlow v).1 hv').2.2 ((htop v).1 hv).2.2
  have hroots : vars.filter (fun v => par v = none) = insert r top := (Finset.insert_erase (Finset.mem_filter.2 ⟨hrv, hroot⟩)).symm
  have hrt : r ∉ top := Finset.notMem_erase _ _
  set y0 : Var → Nat := fun v => if v ∈ F₀.scope then x0 v else 0 with hy0
  have hy0v : ∀ v ∈ vars, y0 v < v.n := by
    intro v hv
    simp only [hy0]
    split
    · exact hx0 v ‹_›
    · exact hpos v hv
  have hbpos : 0 < b r (x0 r) := gibbs_pos _ (hx0 r hrs)
  have hbnn : ∀ v s, 0 ≤ b v s := by
    intro v s
    simp only [hbdef]
    rw [gibbs_eq]
    exact div_nonneg (Real.exp_pos _).le (Finset.sum_nonneg fun t _ => (Real.exp_pos _).le)
  have hvr : varOn (factors.map (·.scope)) f₀ (up f₀) = r := by
    unfold varOn
    rw [getD_of_some (getElem?_scopes hF₀), getD_of_some hr]
  have hval : ∀ y ∈ assignments top y0, ∀ v ∈ vars, y v < v.n := by
    intro y hy v hv
    by_cases h1 : v ∈ top
    · exact (mem_assignments.1 hy).1 v h1
    · rw [(mem_assignments.1 hy).2 v h1]
      exact hy0v v hv
  have hZ : clusterWeight T vars factors ev F₀.scope x0 = Real.exp (betheLogTotal T vars factors ev m) * (F₀.assignProb T (tbIn factors ev m f₀ F₀) x0 *
      ∑ y ∈ assignments top y0, (∏ v ∈ top, b v (y v)) * ∑ x ∈ assignments low y, ∏ f ∈ S, kern T factors ev m up f x) := by
    unfold clusterWeight
    rw [filter_assignments (hvars F₀ hFm) hx0, hvs, sum_assignments_union hd, Finset.mul_sum, Finset.mul_sum]
    refine Finset.sum_congr rfl fun y hy => ?_
    rw [Finset.mul_sum, Finset.mul_sum, Finset.mul_sum]
    refine Finset.sum_congr rfl fun x hx => ?_
    have hxv : ∀ v ∈ vars, x v < v.n := by
      intro v hv
      by_cases h1 : v ∈ low
      · exact (mem_assignments.1 hx).1 v h1
      · rw [(mem_assignments.1 hx).2 v h1]
        exact hval y hy v hv
    have hxs : ∀ v ∈ F₀.scope, x v = x0 v := by
      intro v hv
      rw [(mem_assignments.1 hx).2 v (fun h => ((hlow v).1 h).2.1 hv), (mem_assignments.1 hy).2 v (fun h => ((htop v).1 h).2.1 hv)]
      simp only [hy0]
      rw [if_pos hv]
    rw [hR.weight_reparam (m := m) hT hvars hxv, hroots, Finset.prod_insert hrt]
    have hp1 : ∏ v ∈ top, gibbs (fun s => beliefOf (factors.map (·.scope)) ev m v s / T) v.n (x v) = ∏ v ∈ top, b v (y v) :=
      Finset.prod_congr rfl fun v hv => by rw [(mem_assignments.1 hx).2 v (Finset.disjoint_left.1 hd hv)]
    have hp2 : ∏ f ∈ Finset.range factors.length, kern T factors ev m up f x = kern T factors ev m up f₀ x * ∏ f ∈ S, kern T factors ev m up f x :=
      (Finset.mul_prod_erase _ _ (Finset.mem_range.2 hlt₀)).symm
    have hk : b r (x r) * kern T factors ev m up f₀ x = F₀.assignProb T (tbIn factors ev m f₀ F₀) x0 := by
      unfold kern
      rw [getD_of_some hF₀, hvr]
      have : F₀.assignProb T (tbIn factors ev m f₀ F₀) x = F₀.assignProb T (tbIn factors ev m f₀ F₀) x0 := by
        unfold SFac.assignProb
        rw [List.map_congr_left hxs]
      rw [this, hxs r hrs]
      exact mul_div_cancel₀ _ hbpos.ne'
    change Real.exp _ * ((b r (x r) * _) * ∏ f ∈ Finset.range factors.length, kern T factors ev m up f x) = _
    rw [hp1, hp2, ← hk]
    ring
  have hone : ∑ y ∈ assignments top y0, ∏ v ∈ top, b v (y v) = 1 := by
    rw [sum_assignments_prod]
    refine Finset.prod_eq_one fun v hv => ?_
    have hZ : 0 < ∑ t ∈ Finset.range v.n, Real.exp (beliefOf (factors.map (·.scope)) ev m v t / T) :=
      Finset.sum_pos (fun t _ => Real.exp_pos _) ⟨0, Finset.mem_range.2 (hpos v ((htop v).1 hv).1)⟩
    simp only [hbdef, gibbs_eq]
    rw [← Finset.sum_div, div_self hZ.ne']
  have hPnn : ∀ y : Var → Nat, 0 ≤ ∏ v ∈ top, b v (y v) := fun y => Finset.prod_nonneg fun v _ => hbnn _ _
  have hAP : 0 ≤ F₀.assignProb T (tbIn factors ev m f₀ F₀) x0 := by
    have hnn : ∀ l : List (List Nat × ℝ), 0 ≤ (l.map (rowWeight T F₀.scope.length (tbIn factors ev m f₀ F₀))).sum := fun l => List.sum_nonneg fun y hy => by
      obtain ⟨r, -, rfl⟩ := List.mem_map.1 hy
      exact (Real.exp_pos _).le
    exact div_nonneg (hnn _) (hnn _)
  have hQ := fun y (hy : y ∈ assignments top y0) => hR.kern_sum (ev := ev) (m := m) hT hvars hnd hrow hcons S hS (hval y hy)
  rw [hZ]
  constructor
  · refine mul_le_mul_of_nonneg_left (mul_le_mul_of_nonneg_left ?_ hAP) (Real.exp_pos _).le
    calc _ = ∑ y ∈ assignments top y0, (∏ v ∈ top, b v (y v)) * Real.exp (-∑ f ∈ S, δ f) := by rw [← Finset.sum_mul, hone, one_mul]
      _ ≤ _ := Finset.sum_le_sum fun y hy => mul_le_mul_of_nonneg_left (hQ y hy).1 (hPnn y)
  · refine mul_le_mul_of_nonneg_left (mul_le_mul_of_nonneg_left ?_ hAP) (Real.exp_pos _).le
    calc _ ≤ ∑ y ∈ assignments top y0, (∏ v ∈ top, b v (y v)) * Real.exp (∑ f ∈ S, δ f) := Finset.sum_le_sum fun y hy => mul_le_mul_of_nonneg_left (hQ y hy).2 (hPnn y)
      _ = _ := by rw [← Finset.sum_mul, hone, one_mul]

end PGMax
