import Verif.Spec.SumProduct
import Verif.Lemmas.Tree
import Verif.Lemmas.LogicalSum
import Mathlib.Algebra.BigOperators.Field

/-! Helper lemmas: sums over joint assignments of rooted forests. -/

namespace PGMax

theorem mem_assignments {A : Finset Var} {x0 x : Var → Nat} : x ∈ assignments A x0 ↔ (∀ v ∈ A, x v < v.n) ∧ ∀ v, v ∉ A → x v = x0 v := by
  classical
  unfold assignments
  rw [Finset.mem_image]
  constructor
  · rintro ⟨p, hp, rfl⟩
    rw [Finset.mem_pi] at hp
    refine ⟨fun v hv => ?_, fun v hv => ?_⟩
    · simp only [dif_pos hv]; exact Finset.mem_range.1 (hp v hv)
    · simp only [dif_neg hv]
  · rintro ⟨h1, h2⟩
    refine ⟨fun v _ => x v, Finset.mem_pi.2 (fun v hv => Finset.mem_range.2 (h1 v hv)), ?_⟩
    funext v
    split
    · rfl
    · next h => exact (h2 v h).symm

/-- Summing over the states of two disjoint sets of variables. -/
theorem sum_assignments_union {A B : Finset Var} (hd : Disjoint A B) (x0 : Var → Nat) (G : (Var → Nat) → ℝ) :
    ∑ x ∈ assignments (A ∪ B) x0, G x = ∑ y ∈ assignments A x0, ∑ x ∈ assignments B y, G x := by
  classical
  rw [← Finset.sum_fiberwise_of_maps_to (s := assignments (A ∪ B) x0) (t := assignments A x0) (g := fun x v => if v ∈ A then x v else x0 v)]
  · refine Finset.sum_congr rfl (fun y hy => ?_)
    obtain ⟨y1, y2⟩ := mem_assignments.1 hy
    refine Finset.sum_congr ?_ (fun _ _ => rfl)
    ext x
    rw [Finset.mem_filter, mem_assignments, mem_assignments]
    constructor
    · rintro ⟨⟨h1, h2⟩, h3⟩
      refine ⟨fun v hv => h1 v (Finset.mem_union_right _ hv), fun v hv => ?_⟩
      rw [← h3]
      show x v = if v ∈ A then x v else x0 v
      split
      · rfl
      · next h => exact h2 v (by rw [Finset.mem_union]; tauto)
    · rintro ⟨h1, h2⟩
      have hA : ∀ v ∈ A, x v = y v := fun v hv => h2 v (Finset.disjoint_left.1 hd hv)
      refine ⟨⟨fun v hv => ?_, fun v hv => ?_⟩, ?_⟩
      · rcases Finset.mem_union.1 hv with hv | hv
        · rw [hA v hv]; exact y1 v hv
        · exact h1 v hv
      · rw [Finset.mem_union, not_or] at hv
        rw [h2 v hv.2, y2 v hv.1]
      · funext v
        split
        · next h => exact hA v h
        · next h => exact (y2 v h).symm
  · intro x hx
    obtain ⟨h1, h2⟩ := mem_assignments.1 hx
    refine mem_assignments.2 ⟨fun v hv => ?_, fun v hv => ?_⟩
    · rw [if_pos hv]; exact h1 v (Finset.mem_union_left _ hv)
    · rw [if_neg hv]

theorem assignments_empty (x0 : Var → Nat) : assignments ∅ x0 = {x0} := by
  ext x
  rw [mem_assignments, Finset.mem_singleton]
  constructor
  · rintro ⟨-, h⟩; funext v; exact h v (by simp)
  · rintro rfl; simp

theorem mul_list_sum {β : Type _} (l : List β) (w : β → ℝ) (c : ℝ) : (l.map w).sum * c = (l.map (fun r => w r * c)).sum := by
  induction l with
  | nil => simp
  | cons a l ih => simp [add_mul, ih]

theorem list_sum_comm {β γ : Type _} (s : Finset γ) (l : List β) (w : γ → β → ℝ) :
    ∑ y ∈ s, (l.map (w y)).sum = (l.map (fun r => ∑ y ∈ s, w y r)).sum := by
  induction l with
  | nil => simp
  | cons a l ih => simp [Finset.sum_add_distrib, ih]

/-- Summing a function of the configuration of a factor over the states of its variables other than position `u`. -/
theorem sum_rows {F : SFac ℝ} (hnd : F.scope.Nodup) (hrow : ∀ r ∈ F.rows, List.Forall₂ (fun s (v : Var) => s < v.n) r.1 F.scope)
    {u : Nat} {v : Var} (hu : F.scope[u]? = some v) {B : Finset Var} (hB : ∀ w, w ∈ B ↔ w ∈ F.scope ∧ w ≠ v) (x : Var → Nat) (w : List Nat × ℝ → ℝ) :
    ∑ y ∈ assignments B x, ((F.rows.filter (fun r => r.1 = F.scope.map y)).map w).sum = ((F.rowsAt u (x v)).map w).sum := by
  classical
  have hvB : v ∉ B := fun h => ((hB v).1 h).2 rfl
  have e1 : ∀ y : Var → Nat, ((F.rows.filter (fun r => r.1 = F.scope.map y)).map w).sum = (F.rows.map (fun r => if r.1 = F.scope.map y then w r else 0)).sum := by
    intro y
    rw [sum_filter_ite]
    simp
  simp only [e1]
  rw [list_sum_comm]
  unfold SFac.rowsAt
  rw [sum_filter_ite]
  congr 1
  apply List.map_congr_left
  intro r hr
  have hfit := hrow r hr
  have hlen := hfit.length_eq
  have hul := (List.getElem?_eq_some_iff.1 hu).1
  simp only [decide_eq_true_eq]
  by_cases hru : r.1[u]? = some (x v)
  · rw [if_pos hru]
    -- the only assignment equal to the row
    let y : Var → Nat := fun z => if z ∈ B then r.1.getD (F.scope.idxOf z) 0 else x z
    have hy : ∀ (j : Nat) (z : Var), F.scope[j]? = some z → r.1[j]? = some (y z) := by
      intro j z hj
      have hjl := (List.getElem?_eq_some_iff.1 hj).1
      have hz : z ∈ F.scope := List.mem_of_getElem? hj
      by_cases hzv : z = v
      · subst hzv
        have : j = u := by
          have h1 := (List.getElem?_eq_some_iff.1 hj).2
          have h2 := (List.getElem?_eq_some_iff.1 hu).2
          exact (List.Nodup.getElem_inj_iff hnd).1 (h1.trans h2.symm)
        subst this
        simp only [y]
        rw [if_neg hvB, hru]
      · have hzB : z ∈ B := (hB z).2 ⟨hz, hzv⟩
        have hidx : F.scope.idxOf z = j := by
          have h1 := (List.getElem?_eq_some_iff.1 hj).2
          rw [← h1]
          exact List.Nodup.idxOf_getElem hnd j hjl
        simp only [y]
        rw [if_pos hzB, hidx, getD_of_some (List.getElem?_eq_getElem (show j < r.1.length by omega)), List.getElem?_eq_getElem]
    have hmap : r.1 = F.scope.map y := by
      apply List.ext_getElem?
      intro j
      by_cases hj : j < F.scope.length
      · rw [hy j _ (List.getElem?_eq_getElem hj), List.getElem?_map, List.getElem?_eq_getElem hj]; rfl
      · rw [List.getElem?_eq_none (by omega), List.getElem?_eq_none (by simp; omega)]
    have hymem : y ∈ assignments B x := by
      refine mem_assignments.2 ⟨fun z hz => ?_, fun z hz => by simp only [y]; rw [if_neg hz]⟩
      obtain ⟨j, hj⟩ := List.mem_iff_getElem?.1 ((hB z).1 hz).1
      obtain ⟨z', hz', hlt⟩ := forall₂_getElem? hfit (hy j z hj)
      rw [hj] at hz'
      cases hz'
      exact hlt
    rw [Finset.sum_eq_single y]
    · rw [if_pos hmap]
    · intro y' hy' hne
      rw [if_neg]
      intro hr'
      apply hne
      funext z
      by_cases hz : z ∈ B
      · obtain ⟨j, hj⟩ := List.mem_iff_getElem?.1 ((hB z).1 hz).1
        have h1 := hy j z hj
        rw [hr', List.getElem?_map, hj] at h1
        exact Option.some.inj h1
      · rw [(mem_assignments.1 hy').2 z hz, (mem_assignments.1 hymem).2 z hz]
    · intro h; exact absurd hymem h
  · rw [if_neg hru]
    apply Finset.sum_eq_zero
    intro y hy
    rw [if_neg]
    intro hr'
    apply hru
    rw [hr', List.getElem?_map, hu]
    simp only [Option.map_some]
    rw [(mem_assignments.1 hy).2 v hvB]

section
variable {scopes : List (List Var)} {up : Nat → Nat} {par : Var → Option (Nat × Nat)} {ht : Nat → Nat}

open Classical in
/-- The variables below factor `f`. -/
noncomputable def kids (vars : Finset Var) (par : Var → Option (Nat × Nat)) (f : Nat) : Finset Var := vars.filter (fun v => ∃ j, par v = some (f, j))

/-- Top-down generation: the sum over all states below the roots of a product of kernels that each sum to about 1. -/
theorem RootedForest.kernel_sum (hR : RootedForest scopes up par ht) {vars : Finset Var} (κ : Nat → (Var → Nat) → ℝ) (lo : Nat → ℝ)
    (hdep : ∀ f x y, (∀ j v, IsEdge scopes f j v → x v = y v) → κ f x = κ f y) (hnn : ∀ f x, 0 ≤ κ f x) (hlo : ∀ f, 0 ≤ lo f)
    (hsum : ∀ f < scopes.length, ∀ x : Var → Nat, (∀ v ∈ vars, x v < v.n) → lo f ≤ ∑ y ∈ assignments (kids vars par f) x, κ f y ∧ ∑ y ∈ assignments (kids vars par f) x, κ f y ≤ 1)
    (S : Finset Nat) : (∀ f ∈ S, f < scopes.length) → ∀ x0 : Var → Nat, (∀ v ∈ vars, x0 v < v.n) →
      ∏ f ∈ S, lo f ≤ ∑ x ∈ assignments (S.biUnion (kids vars par)) x0, ∏ f ∈ S, κ f x ∧
      ∑ x ∈ assignments (S.biUnion (kids vars par)) x0, ∏ f ∈ S, κ f x ≤ 1 := by
  classical
  induction S using Finset.induction_on_min_value (f := ht) with
  | empty => intro _ x0 _; simp [assignments_empty]
  | insert g S hg hmin ih =>
    intro hS x0 hx0
    obtain ⟨ih1, ih2⟩ := ih (fun f hf => hS f (Finset.mem_insert_of_mem hf)) x0 hx0
    have hgl := hS g (Finset.mem_insert_self _ _)
    have hdisj : Disjoint (S.biUnion (kids vars par)) (kids vars par g) := by
      rw [Finset.disjoint_left]
      intro v hv hv'
      obtain ⟨f, hf, hvf⟩ := Finset.mem_biUnion.1 hv
      obtain ⟨-, j, hj⟩ := Finset.mem_filter.1 hvf
      obtain ⟨-, j', hj'⟩ := Finset.mem_filter.1 hv'
      rw [hj] at hj'
      cases hj'
      exact hg hf
    have hU : (insert g S).biUnion (kids vars par) = S.biUnion (kids vars par) ∪ kids vars par g := by
      rw [Finset.biUnion_insert, Finset.union_comm]
    have hsame : ∀ y ∈ assignments (S.biUnion (kids vars par)) x0, ∑ x ∈ assignments (kids vars par g) y, ∏ f ∈ insert g S, κ f x
        = (∑ x ∈ assignments (kids vars par g) y, κ g x) * ∏ f ∈ S, κ f y := by
      intro y _
      rw [Finset.sum_mul]
      refine Finset.sum_congr rfl (fun x hx => ?_)
      rw [Finset.prod_insert hg]
      congr 1
      refine Finset.prod_congr rfl (fun f hf => hdep f x y ?_)
      intro j v he
      apply (mem_assignments.1 hx).2
      intro hv
      obtain ⟨-, j', hj'⟩ := Finset.mem_filter.1 hv
      by_cases hju : j = up f
      · subst hju
        have := hR.height v g j' f hj' he
        have := hmin f hf
        omega
      · have := (hR.par_iff v f j).2 ⟨he, hju⟩
        rw [hj'] at this
        cases this
        exact hg hf
    have hval : ∀ y ∈ assignments (S.biUnion (kids vars par)) x0, ∀ v ∈ vars, y v < v.n := by
      intro y hy v hv
      obtain ⟨h1, h2⟩ := mem_assignments.1 hy
      by_cases hvS : v ∈ S.biUnion (kids vars par)
      · exact h1 v hvS
      · rw [h2 v hvS]; exact hx0 v hv
    have hP : ∀ y, 0 ≤ ∏ f ∈ S, κ f y := fun y => Finset.prod_nonneg (fun f _ => hnn f y)
    rw [hU, sum_assignments_union hdisj, Finset.sum_congr rfl hsame, Finset.prod_insert hg]
    constructor
    · calc lo g * ∏ f ∈ S, lo f ≤ lo g * ∑ y ∈ assignments (S.biUnion (kids vars par)) x0, ∏ f ∈ S, κ f y := mul_le_mul_of_nonneg_left ih1 (hlo g)
        _ = ∑ y ∈ assignments (S.biUnion (kids vars par)) x0, lo g * ∏ f ∈ S, κ f y := Finset.mul_sum _ _ _
        _ ≤ _ := Finset.sum_le_sum (fun y hy => mul_le_mul_of_nonneg_right (hsum g hgl y (hval y hy)).1 (hP y))
    · refine le_trans (Finset.sum_le_sum (fun y hy => ?_)) ih2
      calc _ ≤ 1 * ∏ f ∈ S, κ f y := mul_le_mul_of_nonneg_right (hsum g hgl y (hval y hy)).2 (hP y)
        _ = _ := one_mul _

end


theorem prod_map_range {β : Type _} (l : List β) (g : β → ℝ) (d : β) : (l.map g).prod = ∏ f ∈ Finset.range l.length, g (l.getD f d) := by
  induction l with
  | nil => simp
  | cons a l ih =>
    rw [List.map_cons, List.prod_cons, List.length_cons, Finset.prod_range_succ', ih, mul_comm]
    simp

section
variable {factors : List (SFac ℝ)} {up : Nat → Nat} {par : Var → Option (Nat × Nat)} {ht : Nat → Nat}

/-- The messages upwards are log-sums over the configurations below, up to a constant per factor and an error. -/
def SumUp (T : ℝ) (factors : List (SFac ℝ)) (up : Nat → Nat) (ev : Var → Nat → ℝ) (m : Msgs ℝ) (K ε : Nat → ℝ) : Prop :=
  ∀ (f : Nat) (F : SFac ℝ) (v : Var), factors[f]? = some F → F.scope[up f]? = some v → ∀ s < v.n, F.rowsAt (up f) s ≠ [] ∧
    lse T ((F.rowsAt (up f) s).map (fun r => r.2 + ∑ j ∈ Finset.range F.scope.length with j ≠ up f,
      upSum (factors.map (·.scope)) up ev m (varOn (factors.map (·.scope)) f j) (r.1.getD j 0))) ≤ m f (up f) s + K f ∧
    m f (up f) s + K f ≤ lse T ((F.rowsAt (up f) s).map (fun r => r.2 + ∑ j ∈ Finset.range F.scope.length with j ≠ up f,
      upSum (factors.map (·.scope)) up ev m (varOn (factors.map (·.scope)) f j) (r.1.getD j 0))) + ε f

/-- The conditional weight of the states below factor `f`. -/
noncomputable def kernel (T : ℝ) (factors : List (SFac ℝ)) (up : Nat → Nat) (ev : Var → Nat → ℝ) (m : Msgs ℝ) (K : Nat → ℝ) (f : Nat) (x : Var → Nat) : ℝ :=
  (factors.getD f ⟨[], []⟩).weight T x *
    Real.exp ((∑ j ∈ Finset.range ((factors.map (·.scope)).getD f []).length with j ≠ up f,
        upSum (factors.map (·.scope)) up ev m (varOn (factors.map (·.scope)) f j) (x (varOn (factors.map (·.scope)) f j))
      - m f (up f) (x (varOn (factors.map (·.scope)) f (up f))) - K f) / T)

theorem weight_nonneg (T : ℝ) (F : SFac ℝ) (x : Var → Nat) : 0 ≤ F.weight T x :=
  List.sum_nonneg (by
    intro a ha
    obtain ⟨r, -, rfl⟩ := List.mem_map.1 ha
    exact (Real.exp_pos _).le)

theorem sum_map_exp_pos {β : Type _} {l : List β} (hl : l ≠ []) (g : β → ℝ) : 0 < (l.map (fun r => Real.exp (g r))).sum := by
  cases l with
  | nil => exact absurd rfl hl
  | cons a l =>
    rw [List.map_cons, List.sum_cons]
    have : 0 ≤ (l.map (fun r => Real.exp (g r))).sum := List.sum_nonneg (by
      intro b hb
      obtain ⟨r, -, rfl⟩ := List.mem_map.1 hb
      exact (Real.exp_pos _).le)
    have := Real.exp_pos (g a)
    linarith

/-- The weight of an assignment in terms of kernels and root beliefs. -/
theorem RootedForest.weight_eq (hR : RootedForest (factors.map (·.scope)) up par ht) {vars : Finset Var}
    (hvars : ∀ f j v, IsEdge (factors.map (·.scope)) f j v → v ∈ vars) (T : ℝ) (ev : Var → Nat → ℝ) (m : Msgs ℝ) (K : Nat → ℝ) (x : Var → Nat) :
    jointWeight T vars factors ev x = Real.exp ((∑ v ∈ vars with par v = none, upSum (factors.map (·.scope)) up ev m v (x v) + ∑ f ∈ Finset.range factors.length, K f) / T)
      * ∏ f ∈ Finset.range factors.length, kernel T factors up ev m K f x := by
  have h1 := hR.sum_up hvars ev m x
  have h2 := hR.sum_children hvars (fun v => upSum (factors.map (·.scope)) up ev m v (x v))
  have h3 := Finset.sum_filter_add_sum_filter_not vars (fun v => par v = none) (fun v => upSum (factors.map (·.scope)) up ev m v (x v))
  rw [List.length_map] at h1 h2
  unfold jointWeight kernel
  rw [Finset.prod_mul_distrib, prod_map_range _ _ ⟨[], []⟩, ← Real.exp_sum, mul_comm (Real.exp _), mul_left_comm, ← Real.exp_add, ← Finset.sum_div, ← add_div,
    Finset.sum_sub_distrib, Finset.sum_sub_distrib, ← h2]
  congr 3
  rw [h1] at h3
  linear_combination (-1) * h3

theorem RootedForest.mem_kids (hR : RootedForest (factors.map (·.scope)) up par ht) {vars : Finset Var}
    (hvars : ∀ f j v, IsEdge (factors.map (·.scope)) f j v → v ∈ vars) {f : Nat} {F : SFac ℝ} (hF : factors[f]? = some F) (hnd : F.scope.Nodup) {v : Var} (hv : F.scope[up f]? = some v)
    (w : Var) : w ∈ kids vars par f ↔ w ∈ F.scope ∧ w ≠ v := by
  classical
  unfold kids
  rw [Finset.mem_filter]
  constructor
  · rintro ⟨-, j, hj⟩
    obtain ⟨⟨vs, h1, h2⟩, h3⟩ := (hR.par_iff w f j).1 hj
    rw [getElem?_scopes hF] at h1
    cases h1
    refine ⟨List.mem_of_getElem? h2, ?_⟩
    rintro rfl
    apply h3
    obtain ⟨a1, a2⟩ := List.getElem?_eq_some_iff.1 h2
    obtain ⟨b1, b2⟩ := List.getElem?_eq_some_iff.1 hv
    exact (List.Nodup.getElem_inj_iff hnd).1 (a2.trans b2.symm)
  · rintro ⟨h1, h2⟩
    obtain ⟨j, hj⟩ := List.mem_iff_getElem?.1 h1
    have he : IsEdge (factors.map (·.scope)) f j w := ⟨_, getElem?_scopes hF, hj⟩
    refine ⟨hvars _ _ _ he, j, (hR.par_iff w f j).2 ⟨he, ?_⟩⟩
    rintro rfl
    rw [hj] at hv
    exact h2 (Option.some.inj hv)

/-- A kernel sums to about 1. -/
theorem RootedForest.kernel_total (hR : RootedForest (factors.map (·.scope)) up par ht) {T : ℝ} (hT : 0 < T) {vars : Finset Var}
    (hvars : ∀ f j v, IsEdge (factors.map (·.scope)) f j v → v ∈ vars) (hnd : ∀ F ∈ factors, F.scope.Nodup)
    (hrow : ∀ (f : Nat) (F : SFac ℝ), factors[f]? = some F → ∀ r ∈ F.rows, List.Forall₂ (fun s (v : Var) => s < v.n) r.1 F.scope)
    {ev : Var → Nat → ℝ} {m : Msgs ℝ} {K ε : Nat → ℝ} (hfix : SumUp T factors up ev m K ε) (f : Nat) (hf : f < factors.length) (x : Var → Nat) (hx : ∀ v ∈ vars, x v < v.n) :
    Real.exp (-ε f / T) ≤ ∑ y ∈ assignments (kids vars par f) x, kernel T factors up ev m K f y ∧
      ∑ y ∈ assignments (kids vars par f) x, kernel T factors up ev m K f y ≤ 1 := by
  have hF := List.getElem?_eq_getElem hf
  generalize hFe : factors[f] = F at hF
  have hup := hR.up_lt f _ (getElem?_scopes hF)
  have he := isEdge_varOn (getElem?_scopes hF) hup
  have hv := hvars _ _ _ he
  obtain ⟨vs, k1, k2⟩ := he
  rw [getElem?_scopes hF] at k1
  cases k1
  generalize hve : varOn (factors.map (·.scope)) f (up f) = v at hv k2
  have hFnd := hnd F (List.mem_of_getElem? hF)
  have hB := hR.mem_kids hvars hF hFnd k2
  obtain ⟨hne, hlo, hhi⟩ := hfix f F v hF k2 (x v) (hx v hv)
  have hvk : v ∉ kids vars par f := fun h => ((hB v).1 h).2 rfl
  -- the kernel as a sum over rows
  have hk : ∀ y ∈ assignments (kids vars par f) x, kernel T factors up ev m K f y
      = ((F.rows.filter (fun r => r.1 = F.scope.map y)).map (fun r => Real.exp ((r.2 + ∑ j ∈ Finset.range F.scope.length with j ≠ up f,
        upSum (factors.map (·.scope)) up ev m (varOn (factors.map (·.scope)) f j) (r.1.getD j 0)) / T) * Real.exp (-(m f (up f) (x v) + K f) / T))).sum := by
    intro y hy
    have hyv := (mem_assignments.1 hy).2 v hvk
    unfold kernel SFac.weight
    rw [getD_of_some hF, getD_of_some (getElem?_scopes hF), mul_list_sum, hve, hyv]
    congr 1
    apply List.map_congr_left
    intro r hr
    have hr' := (List.mem_filter.1 hr).2
    simp only [decide_eq_true_eq] at hr'
    have hs : ∑ j ∈ Finset.range F.scope.length with j ≠ up f,
        upSum (factors.map (·.scope)) up ev m (varOn (factors.map (·.scope)) f j) (r.1.getD j 0)
        = ∑ j ∈ Finset.range F.scope.length with j ≠ up f,
        upSum (factors.map (·.scope)) up ev m (varOn (factors.map (·.scope)) f j) (y (varOn (factors.map (·.scope)) f j)) := by
      refine Finset.sum_congr rfl (fun j hj => ?_)
      rw [hr', getD_of_some (getElem?_map_varOn hF y (Finset.mem_range.1 (Finset.mem_filter.1 hj).1))]
    rw [hs, ← Real.exp_add, ← Real.exp_add]
    congr 1
    ring
  rw [Finset.sum_congr rfl hk, sum_rows hFnd (hrow f F hF) k2 hB x, ← mul_list_sum]
  have hS := sum_map_exp_pos hne (fun r => (r.2 + ∑ j ∈ Finset.range F.scope.length with j ≠ up f,
        upSum (factors.map (·.scope)) up ev m (varOn (factors.map (·.scope)) f j) (r.1.getD j 0)) / T)
  unfold lse at hlo hhi
  rw [List.map_map] at hlo hhi
  simp only [Function.comp_def] at hlo hhi
  generalize ((F.rowsAt (up f) (x v)).map (fun r => Real.exp ((r.2 + ∑ j ∈ Finset.range F.scope.length with j ≠ up f,
        upSum (factors.map (·.scope)) up ev m (varOn (factors.map (·.scope)) f j) (r.1.getD j 0)) / T))).sum = S at hS hlo hhi ⊢
  generalize m f (up f) (x v) + K f = a at hlo hhi ⊢
  have hSe : S = Real.exp (Real.log S) := (Real.exp_log hS).symm
  rw [hSe, ← Real.exp_add]
  constructor
  · apply Real.exp_le_exp.2
    rw [div_le_iff₀ hT, add_mul, div_mul_cancel₀ _ hT.ne']
    linarith
  · rw [← Real.exp_zero]
    apply Real.exp_le_exp.2
    have : Real.log S + -a / T = (T * Real.log S - a) / T := by field_simp; ring
    rw [this]
    exact div_nonpos_of_nonpos_of_nonneg (by linarith) hT.le

/-- Root beliefs are log-sums over all joint assignments, up to a constant and the total error. -/
theorem RootedForest.sum_exact (hR : RootedForest (factors.map (·.scope)) up par ht) {T : ℝ} (hT : 0 < T) {vars : Finset Var}
    (hvars : ∀ f j v, IsEdge (factors.map (·.scope)) f j v → v ∈ vars) (hpos : ∀ v ∈ vars, 0 < v.n) (hnd : ∀ F ∈ factors, F.scope.Nodup)
    (hrow : ∀ (f : Nat) (F : SFac ℝ), factors[f]? = some F → ∀ r ∈ F.rows, List.Forall₂ (fun s (v : Var) => s < v.n) r.1 F.scope)
    {ev : Var → Nat → ℝ} {m : Msgs ℝ} {K ε : Nat → ℝ} (hfix : SumUp T factors up ev m K ε) {r : Var} (hr : r ∈ vars) (hroot : par r = none) :
    ∃ c, ∀ s < r.n, 0 < stateWeight T vars factors ev r s ∧
      T * Real.log (stateWeight T vars factors ev r s) ≤ beliefOf (factors.map (·.scope)) ev m r s + c ∧
      beliefOf (factors.map (·.scope)) ev m r s + c ≤ T * Real.log (stateWeight T vars factors ev r s) + ∑ f ∈ Finset.range factors.length, ε f := by
  classical
  let others := (vars.filter (fun v => par v = none)).erase r
  let low := (Finset.range factors.length).biUnion (kids vars par)
  have hlow : ∀ v, v ∈ low ↔ v ∈ vars ∧ par v ≠ none := by
    intro v
    simp only [low, Finset.mem_biUnion, kids, Finset.mem_filter, Finset.mem_range]
    constructor
    · rintro ⟨f, -, h1, j, h2⟩
      exact ⟨h1, by rw [h2]; simp⟩
    · rintro ⟨h1, h2⟩
      obtain ⟨⟨f, j⟩, he⟩ := Option.ne_none_iff_exists'.1 h2
      obtain ⟨⟨vs, k1, -⟩, -⟩ := (hR.par_iff v f j).1 he
      have := (List.getElem?_eq_some_iff.1 k1).1
      rw [List.length_map] at this
      exact ⟨f, this, h1, j, he⟩
  have hothers : ∀ v, v ∈ others ↔ v ≠ r ∧ v ∈ vars ∧ par v = none := by
    intro v; simp only [others, Finset.mem_erase, Finset.mem_filter]
  have hvs : vars = (others ∪ {r}) ∪ low := by
    ext v
    rw [Finset.mem_union, Finset.mem_union, Finset.mem_singleton, hlow, hothers]
    constructor
    · intro hv
      by_cases h1 : v = r
      · exact .inl (.inr h1)
      · by_cases h2 : par v = none
        · exact .inl (.inl ⟨h1, hv, h2⟩)
        · exact .inr ⟨hv, h2⟩
    · rintro ((⟨-, h, -⟩ | rfl) | ⟨h, -⟩)
      · exact h
      · exact hr
      · exact h
  have hd1 : Disjoint (others ∪ {r}) low := by
    rw [Finset.disjoint_left]
    intro v hv hv'
    rw [Finset.mem_union, Finset.mem_singleton, hothers] at hv
    have h2 := ((hlow v).1 hv').2
    rcases hv with ⟨-, -, h⟩ | rfl
    · exact h2 h
    · exact h2 hroot
  have hd2 : Disjoint others {r} := by
    rw [Finset.disjoint_singleton_right, hothers]
    tauto
  let bel := upSum (factors.map (·.scope)) up ev m
  have hQ := hR.kernel_sum (vars := vars) (kernel T factors up ev m K) (fun f => Real.exp (-ε f / T)) (by
      intro f x y hxy
      unfold kernel
      cases hF : factors[f]? with
      | none =>
        have : factors.getD f ⟨[], []⟩ = ⟨[], []⟩ := by rw [List.getD_eq_getElem?_getD, hF]; rfl
        rw [this]
        simp [SFac.weight]
      | some F =>
        rw [getD_of_some hF, getD_of_some (getElem?_scopes hF)]
        have hx : ∀ j < F.scope.length, x (varOn (factors.map (·.scope)) f j) = y (varOn (factors.map (·.scope)) f j) :=
          fun j hj => hxy j _ (isEdge_varOn (getElem?_scopes hF) hj)
        have hm : F.scope.map x = F.scope.map y := by
          apply List.map_congr_left
          intro v hv
          obtain ⟨j, hj⟩ := List.mem_iff_getElem?.1 hv
          exact hxy j v ⟨_, getElem?_scopes hF, hj⟩
        unfold SFac.weight
        rw [hm, hx _ (hR.up_lt f _ (getElem?_scopes hF))]
        congr 5
        refine Finset.sum_congr rfl (fun j hj => ?_)
        rw [hx j (Finset.mem_range.1 (Finset.mem_filter.1 hj).1)])
    (fun f x => mul_nonneg (weight_nonneg _ _ _) (Real.exp_pos _).le) (fun f => (Real.exp_pos _).le)
    (fun f hf x hx => hR.kernel_total hT hvars hnd hrow hfix f (by simpa using hf) x hx)
    (Finset.range factors.length) (fun f hf => by simpa using hf)
  let Kt := ∑ f ∈ Finset.range factors.length, K f
  let C := ∑ y ∈ assignments others (fun _ => 0), Real.exp ((∑ v ∈ others, bel v (y v) + Kt) / T)
  have hCpos : 0 < C := by
    refine Finset.sum_pos (fun y _ => Real.exp_pos _) ⟨fun _ => 0, mem_assignments.2 ⟨fun v hv => ?_, fun _ _ => rfl⟩⟩
    exact hpos v ((hothers v).1 hv).2.1
  -- the total weight
  have hZ : ∀ s < r.n, stateWeight T vars factors ev r s = ∑ y ∈ assignments others (fun _ => 0),
      Real.exp ((bel r s + ∑ v ∈ others, bel v (y v) + Kt) / T) *
        ∑ x ∈ assignments low (Function.update y r s), ∏ f ∈ Finset.range factors.length, kernel T factors up ev m K f x := by
    intro s hs
    unfold stateWeight
    rw [Finset.sum_filter]
    have e1 : assignments vars (fun _ => 0) = assignments ((others ∪ {r}) ∪ low) (fun _ => 0) := by rw [← hvs]
    rw [e1, sum_assignments_union hd1, sum_assignments_union hd2]
    refine Finset.sum_congr rfl (fun y hy => ?_)
    have hry : r ∉ others := fun h => ((hothers r).1 h).1 rfl
    rw [Finset.sum_eq_single (Function.update y r s)]
    · rw [Finset.mul_sum]
      refine Finset.sum_congr rfl (fun x hx => ?_)
      have hxz : ∀ v, v ∉ low → x v = Function.update y r s v := (mem_assignments.1 hx).2
      have hxr : x r = s := by rw [hxz r (fun h => ((hlow r).1 h).2 hroot)]; simp
      have hxo : ∀ v ∈ others, x v = y v := by
        intro v hv
        obtain ⟨h1, -, h3⟩ := (hothers v).1 hv
        rw [hxz v (fun h => ((hlow v).1 h).2 h3), Function.update_of_ne h1]
      rw [if_pos hxr, hR.weight_eq hvars T ev m K x, ← Finset.add_sum_erase _ _ (Finset.mem_filter.2 ⟨hr, hroot⟩), hxr,
        Finset.sum_congr rfl (fun v hv => by rw [hxo v hv])]
    · intro z hz hne
      apply Finset.sum_eq_zero
      intro x hx
      rw [if_neg]
      intro hxs
      apply hne
      obtain ⟨z1, z2⟩ := mem_assignments.1 hz
      have hxz := (mem_assignments.1 hx).2 r (fun h => ((hlow r).1 h).2 hroot)
      funext v
      by_cases hvr : v = r
      · subst hvr; rw [Function.update_self, ← hxz, hxs]
      · rw [Function.update_of_ne hvr, z2 v (by simpa using hvr)]
    · intro h
      refine absurd (mem_assignments.2 ⟨?_, ?_⟩) h
      · intro v hv
        rw [Finset.mem_singleton] at hv
        subst hv
        rw [Function.update_self]; exact hs
      · intro v hv
        rw [Finset.mem_singleton] at hv
        rw [Function.update_of_ne hv]
  refine ⟨T * Real.log C, fun s hs => ?_⟩
  have hb : beliefOf (factors.map (·.scope)) ev m r s = bel r s := hR.beliefOf_eq hroot ev m s
  have hfac : ∀ y : Var → Nat, Real.exp ((bel r s + ∑ v ∈ others, bel v (y v) + Kt) / T) = Real.exp (bel r s / T) * Real.exp ((∑ v ∈ others, bel v (y v) + Kt) / T) := by
    intro y
    rw [← Real.exp_add]
    congr 1
    ring
  have hA : ∑ y ∈ assignments others (fun _ => 0), Real.exp ((bel r s + ∑ v ∈ others, bel v (y v) + Kt) / T) = Real.exp (bel r s / T) * C := by
    rw [Finset.sum_congr rfl (fun y _ => hfac y), ← Finset.mul_sum]
  have hbounds : ∀ y ∈ assignments others (fun _ => 0), ∏ f ∈ Finset.range factors.length, Real.exp (-ε f / T) ≤
      ∑ x ∈ assignments low (Function.update y r s), ∏ f ∈ Finset.range factors.length, kernel T factors up ev m K f x ∧
      ∑ x ∈ assignments low (Function.update y r s), ∏ f ∈ Finset.range factors.length, kernel T factors up ev m K f x ≤ 1 := by
    intro y hy
    refine hQ (Function.update y r s) (fun v hv => ?_)
    obtain ⟨y1, y2⟩ := mem_assignments.1 hy
    by_cases hvr : v = r
    · subst hvr; rw [Function.update_self]; exact hs
    · rw [Function.update_of_ne hvr]
      by_cases hvo : v ∈ others
      · exact y1 v hvo
      · rw [y2 v hvo]; exact hpos v hv
  have hprod : ∏ f ∈ Finset.range factors.length, Real.exp (-ε f / T) = Real.exp (-(∑ f ∈ Finset.range factors.length, ε f) / T) := by
    rw [← Real.exp_sum, ← Finset.sum_div, Finset.sum_neg_distrib]
  have hup : stateWeight T vars factors ev r s ≤ Real.exp (bel r s / T) * C := by
    rw [hZ s hs, ← hA]
    refine Finset.sum_le_sum (fun y hy => ?_)
    exact mul_le_of_le_one_right (Real.exp_pos _).le (hbounds y hy).2
  have hlo : Real.exp (bel r s / T) * C * Real.exp (-(∑ f ∈ Finset.range factors.length, ε f) / T) ≤ stateWeight T vars factors ev r s := by
    rw [hZ s hs, ← hA, ← hprod, Finset.sum_mul]
    refine Finset.sum_le_sum (fun y hy => ?_)
    exact mul_le_mul_of_nonneg_left (hbounds y hy).1 (Real.exp_pos _).le
  have hApos : 0 < Real.exp (bel r s / T) * C := mul_pos (Real.exp_pos _) hCpos
  have hWpos : 0 < stateWeight T vars factors ev r s := lt_of_lt_of_le (mul_pos hApos (Real.exp_pos _)) hlo
  have hlogA : T * Real.log (Real.exp (bel r s / T) * C) = bel r s + T * Real.log C := by
    rw [Real.log_mul (Real.exp_pos _).ne' hCpos.ne', Real.log_exp, mul_add, mul_div_cancel₀ _ hT.ne']
  refine ⟨hWpos, ?_, ?_⟩
  · rw [hb, ← hlogA]
    exact mul_le_mul_of_nonneg_left (Real.log_le_log hWpos hup) hT.le
  · rw [hb, ← hlogA]
    have h1 := Real.log_le_log (mul_pos hApos (Real.exp_pos _)) hlo
    rw [Real.log_mul hApos.ne' (Real.exp_pos _).ne', Real.log_exp] at h1
    have h2 := mul_le_mul_of_nonneg_left h1 hT.le
    rw [mul_add, mul_div_cancel₀ _ hT.ne'] at h2
    linarith

end

end PGMax
