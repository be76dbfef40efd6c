import Verif.Spec.Tree
import Verif.Lemmas.Textbook
import Mathlib.Algebra.BigOperators.Group.Finset.Sigma
import Mathlib.Algebra.BigOperators.Ring.Finset
import Mathlib.Algebra.Order.BigOperators.Group.Finset

/-! Helper lemmas: max-product belief propagation on rooted forests. -/

namespace PGMax

variable {α : Type _}

/-- A rooted forest: every factor `f` has a position `up f` (its variable towards the root) and a height `ht f`; `par v` is the
factor and position above variable `v` (none for roots); heights decrease downwards. -/
structure RootedForest (scopes : List (List Var)) (up : Nat → Nat) (par : Var → Option (Nat × Nat)) (ht : Nat → Nat) : Prop where
  up_lt : ∀ f vs, scopes[f]? = some vs → up f < vs.length
  par_iff : ∀ v f j, par v = some (f, j) ↔ IsEdge scopes f j v ∧ j ≠ up f
  height : ∀ v f j g, par v = some (f, j) → IsEdge scopes g (up g) v → ht g < ht f

/-- Position `j` of factor `f`. -/
def varOn (scopes : List (List Var)) (f j : Nat) : Var := (scopes.getD f []).getD j ⟨0, 0⟩

theorem IsEdge.varOn {scopes : List (List Var)} {f j : Nat} {v : Var} (h : IsEdge scopes f j v) : varOn scopes f j = v := by
  obtain ⟨vs, h1, h2⟩ := h
  unfold PGMax.varOn
  rw [getD_of_some h1, getD_of_some h2]

theorem isEdge_varOn {scopes : List (List Var)} {f j : Nat} {vs : List Var} (h1 : scopes[f]? = some vs) (h2 : j < vs.length) :
    IsEdge scopes f j (varOn scopes f j) := by
  refine ⟨vs, h1, ?_⟩
  unfold PGMax.varOn
  rw [getD_of_some h1, getD_of_some (List.getElem?_eq_getElem h2), List.getElem?_eq_getElem h2]

section
variable [Field α] {scopes : List (List Var)} {up : Nat → Nat} {par : Var → Option (Nat × Nat)} {ht : Nat → Nat}

/-- Evidence plus the messages from below. -/
def upSum (scopes : List (List Var)) (up : Nat → Nat) (ev : Var → Nat → α) (m : Msgs α) (v : Var) (t : Nat) : α :=
  ev v t + ∑ e ∈ (edgesOf scopes v).toFinset with e.2 = up e.1, m e.1 e.2 t

theorem RootedForest.varToFac_eq (hR : RootedForest scopes up par ht) {v : Var} {f j : Nat} (hv : par v = some (f, j)) (ev : Var → Nat → α) (m : Msgs α) (t : Nat) :
    varToFac scopes ev m v (f, j) t = upSum scopes up ev m v t := by
  unfold varToFac upSum
  rw [← List.sum_toFinset _ ((edgesOf_nodup scopes v).filter _)]
  congr 1
  apply Finset.sum_congr _ (fun _ _ => rfl)
  ext ⟨g, i⟩
  simp only [List.mem_toFinset, List.mem_filter, Finset.mem_filter, ne_eq, decide_not, Bool.not_eq_eq_eq_not, Bool.not_true, decide_eq_false_iff_not]
  refine and_congr_right (fun he => ?_)
  have he' := (mem_edgesOf _ _ _ _).1 he
  constructor
  · intro hne
    by_contra hup
    have := (hR.par_iff v g i).2 ⟨he', hup⟩
    rw [hv] at this
    exact hne (Option.some.inj this).symm
  · intro hup heq
    cases heq
    exact ((hR.par_iff v f j).1 hv).2 hup

theorem RootedForest.beliefOf_eq (hR : RootedForest scopes up par ht) {v : Var} (hv : par v = none) (ev : Var → Nat → α) (m : Msgs α) (t : Nat) :
    beliefOf scopes ev m v t = upSum scopes up ev m v t := by
  unfold beliefOf upSum
  rw [← List.sum_toFinset _ (edgesOf_nodup scopes v)]
  congr 1
  apply Finset.sum_congr _ (fun _ _ => rfl)
  ext ⟨g, i⟩
  simp only [List.mem_toFinset, Finset.mem_filter]
  refine (and_iff_left_of_imp (fun he => ?_)).symm
  have he' := (mem_edgesOf _ _ _ _).1 he
  by_contra hup
  have := (hR.par_iff v g i).2 ⟨he', hup⟩
  rw [hv] at this
  cases this

/-- The sum of the messages from below over all variables is the sum over all factors of their messages upwards. -/
theorem RootedForest.sum_up (hR : RootedForest scopes up par ht) {vars : Finset Var} (hvars : ∀ f j v, IsEdge scopes f j v → v ∈ vars)
    (ev : Var → Nat → α) (m : Msgs α) (x : Var → Nat) :
    ∑ v ∈ vars, upSum scopes up ev m v (x v) = ∑ v ∈ vars, ev v (x v) + ∑ f ∈ Finset.range scopes.length, m f (up f) (x (varOn scopes f (up f))) := by
  have hedge : ∀ f ∈ Finset.range scopes.length, IsEdge scopes f (up f) (varOn scopes f (up f)) := by
    intro f hf
    have h1 := List.getElem?_eq_getElem (Finset.mem_range.1 hf)
    exact isEdge_varOn h1 (hR.up_lt f _ h1)
  unfold upSum
  rw [Finset.sum_add_distrib]
  congr 1
  rw [← Finset.sum_fiberwise_of_maps_to (s := Finset.range scopes.length) (t := vars) (g := fun f => varOn scopes f (up f)) (fun f hf => hvars _ _ _ (hedge f hf))]
  refine Finset.sum_congr rfl (fun v _ => ?_)
  refine Finset.sum_nbij' (fun e => e.1) (fun f => (f, up f)) ?_ ?_ ?_ ?_ ?_
  · rintro ⟨f, i⟩ he
    simp only [Finset.mem_filter, List.mem_toFinset] at he
    obtain ⟨he, rfl⟩ := he
    have he' := (mem_edgesOf _ _ _ _).1 he
    obtain ⟨vs, h1, -⟩ := he'
    exact Finset.mem_filter.2 ⟨Finset.mem_range.2 (List.getElem?_eq_some_iff.1 h1).1, IsEdge.varOn ((mem_edgesOf _ _ _ _).1 he)⟩
  · intro f hf
    obtain ⟨h1, h2⟩ := Finset.mem_filter.1 hf
    refine Finset.mem_filter.2 ⟨List.mem_toFinset.2 ((mem_edgesOf _ _ _ _).2 ?_), rfl⟩
    have := hedge f h1
    rw [h2] at this
    exact this
  · rintro ⟨f, i⟩ he
    have := (Finset.mem_filter.1 he).2
    simp only at this
    rw [this]
  · intro f _; rfl
  · rintro ⟨f, i⟩ he
    simp only [Finset.mem_filter, List.mem_toFinset] at he
    obtain ⟨he, rfl⟩ := he
    rw [IsEdge.varOn ((mem_edgesOf _ _ _ _).1 he)]

/-- The variables below some factor, listed by factor. -/
theorem RootedForest.sum_children (hR : RootedForest scopes up par ht) {vars : Finset Var} (hvars : ∀ f j v, IsEdge scopes f j v → v ∈ vars) (g : Var → α) :
    ∑ v ∈ vars with par v ≠ none, g v
      = ∑ f ∈ Finset.range scopes.length, ∑ j ∈ Finset.range (scopes.getD f []).length with j ≠ up f, g (varOn scopes f j) := by
  have hpar : ∀ {v}, v ∈ vars.filter (fun v => par v ≠ none) → ∃ f j, par v = some (f, j) ∧ IsEdge scopes f j v ∧ j ≠ up f := by
    intro v hv
    obtain ⟨-, h2⟩ := Finset.mem_filter.1 hv
    obtain ⟨⟨f, j⟩, he⟩ := Option.ne_none_iff_exists'.1 h2
    exact ⟨f, j, he, (hR.par_iff v f j).1 he⟩
  rw [← Finset.sum_fiberwise_of_maps_to (s := vars.filter (fun v => par v ≠ none)) (t := Finset.range scopes.length) (g := fun v => ((par v).getD (0, 0)).1)]
  · refine Finset.sum_congr rfl (fun f hf => ?_)
    have h1 := List.getElem?_eq_getElem (Finset.mem_range.1 hf)
    have hsc : scopes.getD f [] = scopes[f]'(Finset.mem_range.1 hf) := getD_of_some h1
    refine Finset.sum_nbij' (fun v => ((par v).getD (0, 0)).2) (fun j => varOn scopes f j) ?_ ?_ ?_ ?_ ?_
    · intro v hv
      obtain ⟨hv1, hv2⟩ := Finset.mem_filter.1 hv
      obtain ⟨f', j, he, ⟨vs, k1, k2⟩, k3⟩ := hpar hv1
      rw [he] at hv2 ⊢
      simp only [Option.getD_some] at hv2 ⊢
      subst hv2
      refine Finset.mem_filter.2 ⟨Finset.mem_range.2 ?_, k3⟩
      rw [getD_of_some k1]
      exact (List.getElem?_eq_some_iff.1 k2).1
    · intro j hj
      obtain ⟨hj1, hj2⟩ := Finset.mem_filter.1 hj
      have he := isEdge_varOn h1 (by rw [hsc] at hj1; exact Finset.mem_range.1 hj1)
      have hp := (hR.par_iff _ _ _).2 ⟨he, hj2⟩
      refine Finset.mem_filter.2 ⟨Finset.mem_filter.2 ⟨hvars _ _ _ he, ?_⟩, ?_⟩
      · rw [hp]; simp
      · rw [hp]; rfl
    · intro v hv
      obtain ⟨hv1, hv2⟩ := Finset.mem_filter.1 hv
      obtain ⟨f', j, he, k, k3⟩ := hpar hv1
      rw [he] at hv2 ⊢
      simp only [Option.getD_some] at hv2 ⊢
      subst hv2
      exact k.varOn
    · intro j hj
      obtain ⟨hj1, hj2⟩ := Finset.mem_filter.1 hj
      have he := isEdge_varOn h1 (by rw [hsc] at hj1; exact Finset.mem_range.1 hj1)
      have hp := (hR.par_iff _ _ _).2 ⟨he, hj2⟩
      rw [hp]; rfl
    · intro v hv
      obtain ⟨hv1, hv2⟩ := Finset.mem_filter.1 hv
      obtain ⟨f', j, he, k, k3⟩ := hpar hv1
      rw [he] at hv2 ⊢
      simp only [Option.getD_some] at hv2 ⊢
      subst hv2
      rw [k.varOn]
  · intro v hv
    obtain ⟨f', j, he, ⟨vs, k1, k2⟩, k3⟩ := hpar hv
    rw [he]
    exact Finset.mem_range.2 (List.getElem?_eq_some_iff.1 k1).1

end

section
variable [Field α] [LinearOrder α] {factors : List (SFac α)} {up : Nat → Nat} {par : Var → Option (Nat × Nat)} {ht : Nat → Nat}

/-- The messages upwards are those of the optimal configurations below, up to a constant per factor. -/
def FixedUp (factors : List (SFac α)) (up : Nat → Nat) (ev : Var → Nat → α) (m : Msgs α) (K : Nat → α) : Prop :=
  ∀ (f : Nat) (F : SFac α) (v : Var), factors[f]? = some F → F.scope[up f]? = some v → ∀ s < v.n,
    IsGreatest {z | ∃ r ∈ F.rowsAt (up f) s,
      z = r.2 + ∑ j ∈ Finset.range F.scope.length with j ≠ up f, upSum (factors.map (·.scope)) up ev m (varOn (factors.map (·.scope)) f j) (r.1.getD j 0)} (m f (up f) s + K f)

variable [IsStrictOrderedRing α]

omit [LinearOrder α] [IsStrictOrderedRing α] in
/-- The slacks of all factors add up to the score's distance from the root beliefs. -/
theorem RootedForest.sum_slack (hR : RootedForest (factors.map (·.scope)) up par ht) {vars : Finset Var}
    (hvars : ∀ f j v, IsEdge (factors.map (·.scope)) f j v → v ∈ vars) (ev : Var → Nat → α) (m : Msgs α) (K : Nat → α) (x : Var → Nat) (ρ : Nat → List Nat × α) :
    ∑ f ∈ Finset.range factors.length, (m f (up f) (x (varOn (factors.map (·.scope)) f (up f))) + K f - ((ρ f).2 +
      ∑ j ∈ Finset.range ((factors.map (·.scope)).getD f []).length with j ≠ up f,
        upSum (factors.map (·.scope)) up ev m (varOn (factors.map (·.scope)) f j) (x (varOn (factors.map (·.scope)) f j))))
    = ∑ v ∈ vars with par v = none, upSum (factors.map (·.scope)) up ev m v (x v) + ∑ f ∈ Finset.range factors.length, K f - jointScore vars factors ev x ρ := by
  have h1 := hR.sum_up hvars ev m x
  have h2 := hR.sum_children hvars (fun v => upSum (factors.map (·.scope)) up ev m v (x v))
  have h3 := Finset.sum_filter_add_sum_filter_not vars (fun v => par v = none) (fun v => upSum (factors.map (·.scope)) up ev m v (x v))
  rw [List.length_map] at h1 h2
  rw [Finset.sum_sub_distrib, Finset.sum_add_distrib, Finset.sum_add_distrib, ← h2]
  unfold jointScore
  rw [h1] at h3
  linear_combination (-1) * h3

omit [Field α] [LinearOrder α] [IsStrictOrderedRing α] in
theorem getElem?_scopes {f : Nat} {F : SFac α} (hF : factors[f]? = some F) : (factors.map (·.scope))[f]? = some F.scope := by
  rw [List.getElem?_map, hF]; rfl

omit [Field α] [LinearOrder α] [IsStrictOrderedRing α] in
theorem getElem?_map_varOn {f : Nat} {F : SFac α} (hF : factors[f]? = some F) (x : Var → Nat) {j : Nat} (hj : j < F.scope.length) :
    (F.scope.map x)[j]? = some (x (varOn (factors.map (·.scope)) f j)) := by
  obtain ⟨vs, h1, h2⟩ := isEdge_varOn (getElem?_scopes hF) hj
  rw [getElem?_scopes hF] at h1
  cases h1
  rw [List.getElem?_map, h2]; rfl

/-- No joint assignment is better than the root beliefs. -/
theorem RootedForest.score_le (hR : RootedForest (factors.map (·.scope)) up par ht) {vars : Finset Var}
    (hvars : ∀ f j v, IsEdge (factors.map (·.scope)) f j v → v ∈ vars) {ev : Var → Nat → α} {m : Msgs α} {K : Nat → α}
    (hfix : FixedUp factors up ev m K) {x : Var → Nat} {ρ : Nat → List Nat × α} (hJ : Joint vars factors x ρ) :
    jointScore vars factors ev x ρ ≤ ∑ v ∈ vars with par v = none, upSum (factors.map (·.scope)) up ev m v (x v) + ∑ f ∈ Finset.range factors.length, K f := by
  have hs := hR.sum_slack hvars ev m K x ρ
  have h0 := Finset.sum_nonneg (s := Finset.range factors.length) (f := fun f => (m f (up f) (x (varOn (factors.map (·.scope)) f (up f))) + K f - ((ρ f).2 +
      ∑ j ∈ Finset.range ((factors.map (·.scope)).getD f []).length with j ≠ up f,
        upSum (factors.map (·.scope)) up ev m (varOn (factors.map (·.scope)) f j) (x (varOn (factors.map (·.scope)) f j))))) ?_
  · rw [hs] at h0
    linarith
  · intro f hf
    have hF := List.getElem?_eq_getElem (Finset.mem_range.1 hf)
    obtain ⟨h1, h2⟩ := hJ.rows f _ hF
    have hup := hR.up_lt f _ (getElem?_scopes hF)
    have he := isEdge_varOn (getElem?_scopes hF) hup
    have hv := hvars _ _ _ he
    obtain ⟨vs, k1, k2⟩ := he
    rw [getElem?_scopes hF] at k1
    cases k1
    have hg := (hfix f _ _ hF k2 _ (hJ.states _ hv)).2 ⟨ρ f, List.mem_filter.2 ⟨h1, ?_⟩, rfl⟩
    · rw [getD_of_some (getElem?_scopes hF)]
      refine sub_nonneg.2 (le_trans (le_of_eq ?_) hg)
      congr 1
      refine Finset.sum_congr rfl (fun j hj => ?_)
      rw [h2, getD_of_some (getElem?_map_varOn hF x (Finset.mem_range.1 (Finset.mem_filter.1 hj).1))]
    · simp only [decide_eq_true_eq]
      rw [h2]
      exact getElem?_map_varOn hF x hup

/-- There is a joint assignment with given root states in which every factor is in an optimal configuration. -/
theorem RootedForest.exists_tight (hR : RootedForest (factors.map (·.scope)) up par ht) {vars : Finset Var}
    (hvars : ∀ f j v, IsEdge (factors.map (·.scope)) f j v → v ∈ vars) (hpos : ∀ v ∈ vars, 0 < v.n)
    (hrow : ∀ (f : Nat) (F : SFac α), factors[f]? = some F → ∀ r ∈ F.rows, List.Forall₂ (fun s (v : Var) => s < v.n) r.1 F.scope)
    {ev : Var → Nat → α} {m : Msgs α} {K : Nat → α} (hfix : FixedUp factors up ev m K) (x0 : Var → Nat) (hx0 : ∀ v ∈ vars, x0 v < v.n) (H : Nat)
    (hH : ∀ f < factors.length, ht f < H) :
    ∃ x ρ, Joint vars factors x ρ ∧ (∀ v, par v = none → x v = x0 v) ∧
      jointScore vars factors ev x ρ = ∑ v ∈ vars with par v = none, upSum (factors.map (·.scope)) up ev m v (x v) + ∑ f ∈ Finset.range factors.length, K f := by
  classical
  have hbest : ∀ (f : Nat) (F : SFac α) (v : Var), factors[f]? = some F → F.scope[up f]? = some v → ∀ s < v.n, ∃ r ∈ F.rowsAt (up f) s,
      m f (up f) s + K f = r.2 + ∑ j ∈ Finset.range F.scope.length with j ≠ up f,
        upSum (factors.map (·.scope)) up ev m (varOn (factors.map (·.scope)) f j) (r.1.getD j 0) :=
    fun f F v hF hv s hs => (hfix f F v hF hv s hs).1
  have key : ∀ k ≤ H, ∃ (x : Var → Nat) (ρ : Nat → List Nat × α), (∀ v ∈ vars, x v < v.n) ∧ (∀ v, par v = none → x v = x0 v) ∧
      ∀ (f : Nat) (F : SFac α), factors[f]? = some F → H - k ≤ ht f → ρ f ∈ F.rows ∧ (ρ f).1 = F.scope.map x ∧
        m f (up f) (x (varOn (factors.map (·.scope)) f (up f))) + K f = (ρ f).2 + ∑ j ∈ Finset.range F.scope.length with j ≠ up f,
          upSum (factors.map (·.scope)) up ev m (varOn (factors.map (·.scope)) f j) (x (varOn (factors.map (·.scope)) f j)) := by
    intro k
    induction k with
    | zero =>
      intro _
      refine ⟨x0, fun _ => ([], 0), hx0, fun _ _ => rfl, ?_⟩
      intro f F hF hle
      have := hH f (List.getElem?_eq_some_iff.1 hF).1
      omega
    | succ k ih =>
      intro hk
      obtain ⟨x, ρ, hx, hr, hf⟩ := ih (by omega)
      -- the optimal configurations one level further down
      have hch : ∀ f, ∃ r : List Nat × α, ∀ F, factors[f]? = some F → r ∈ F.rowsAt (up f) (x (varOn (factors.map (·.scope)) f (up f))) ∧
          m f (up f) (x (varOn (factors.map (·.scope)) f (up f))) + K f = r.2 + ∑ j ∈ Finset.range F.scope.length with j ≠ up f,
            upSum (factors.map (·.scope)) up ev m (varOn (factors.map (·.scope)) f j) (r.1.getD j 0) := by
        intro f
        cases hF : factors[f]? with
        | none => exact ⟨([], 0), by rintro F h; cases h⟩
        | some F =>
          have hup := hR.up_lt f _ (getElem?_scopes hF)
          have he := isEdge_varOn (getElem?_scopes hF) hup
          have hv := hvars _ _ _ he
          obtain ⟨vs, k1, k2⟩ := he
          rw [getElem?_scopes hF] at k1
          cases k1
          obtain ⟨r, h1, h2⟩ := hbest f F _ hF k2 _ (hx _ hv)
          exact ⟨r, by rintro F' h; cases h; exact ⟨h1, h2⟩⟩
      choose best hbest' using hch
      let x' : Var → Nat := fun v => match par v with
        | none => x v
        | some (f, j) => if ht f = H - (k + 1) then (best f).1.getD j 0 else x v
      have hx'up : ∀ (f : Nat) (F : SFac α), factors[f]? = some F → H - (k + 1) ≤ ht f →
          x' (varOn (factors.map (·.scope)) f (up f)) = x (varOn (factors.map (·.scope)) f (up f)) := by
        intro f F hF hle
        have he := isEdge_varOn (getElem?_scopes hF) (hR.up_lt f _ (getElem?_scopes hF))
        simp only [x']
        split
        · rfl
        · next g j hp =>
          have := hR.height _ g j f hp he
          rw [if_neg (by omega)]
      have hx'ch : ∀ (f : Nat) (F : SFac α) (j : Nat), factors[f]? = some F → j < F.scope.length → j ≠ up f →
          x' (varOn (factors.map (·.scope)) f j) = if ht f = H - (k + 1) then (best f).1.getD j 0 else x (varOn (factors.map (·.scope)) f j) := by
        intro f F j hF hj hne
        have hp := (hR.par_iff _ _ _).2 ⟨isEdge_varOn (getElem?_scopes hF) hj, hne⟩
        simp only [x']
        rw [hp]
      refine ⟨x', fun f => if ht f = H - (k + 1) then best f else ρ f, ?_, ?_, ?_⟩
      · intro v hv
        simp only [x']
        split
        · exact hx v hv
        · next f j hp =>
          split
          · obtain ⟨⟨vs, h1, h2⟩, h3⟩ := (hR.par_iff v f j).1 hp
            rw [List.getElem?_map] at h1
            obtain ⟨F, hF, rfl⟩ := Option.map_eq_some_iff.1 h1
            obtain ⟨b1, -⟩ := hbest' f F hF
            have hfit := hrow f F hF _ (List.mem_filter.1 b1).1
            have hlen := hfit.length_eq
            have hjl := (List.getElem?_eq_some_iff.1 h2).1
            obtain ⟨w, hw, hlt⟩ := forall₂_getElem? hfit (List.getElem?_eq_getElem (show j < (best f).1.length by omega))
            rw [h2] at hw
            cases hw
            rw [getD_of_some (List.getElem?_eq_getElem (show j < (best f).1.length by omega))]
            exact hlt
          · exact hx v hv
      · intro v hv
        simp only [x', hv]
        exact hr v hv
      · intro f F hF hle
        simp only
        by_cases hht : ht f = H - (k + 1)
        · rw [if_pos hht]
          obtain ⟨b1, b2⟩ := hbest' f F hF
          obtain ⟨b3, b4⟩ := List.mem_filter.1 b1
          simp only [decide_eq_true_eq] at b4
          have hfit := hrow f F hF _ b3
          have hlen := hfit.length_eq
          refine ⟨b3, ?_, ?_⟩
          · apply List.ext_getElem?
            intro j
            by_cases hj : j < F.scope.length
            · rw [getElem?_map_varOn hF x' hj]
              by_cases hju : j = up f
              · rw [hju, b4, hx'up f F hF hle]
              · rw [hx'ch f F j hF hj hju, if_pos hht, List.getElem?_eq_getElem (show j < (best f).1.length by omega),
                  getD_of_some (List.getElem?_eq_getElem (show j < (best f).1.length by omega))]
            · rw [List.getElem?_eq_none (by omega), List.getElem?_eq_none (by simp; omega)]
          · rw [hx'up f F hF hle, b2]
            congr 1
            refine Finset.sum_congr rfl (fun j hj => ?_)
            obtain ⟨j1, j2⟩ := Finset.mem_filter.1 hj
            rw [hx'ch f F j hF (Finset.mem_range.1 j1) j2, if_pos hht]
        · rw [if_neg hht]
          obtain ⟨c1, c2, c3⟩ := hf f F hF (by omega)
          have hsame : ∀ j < F.scope.length, x' (varOn (factors.map (·.scope)) f j) = x (varOn (factors.map (·.scope)) f j) := by
            intro j hj
            by_cases hju : j = up f
            · rw [hju]; exact hx'up f F hF hle
            · rw [hx'ch f F j hF hj hju, if_neg hht]
          refine ⟨c1, ?_, ?_⟩
          · rw [c2]
            apply List.ext_getElem?
            intro j
            by_cases hj : j < F.scope.length
            · rw [getElem?_map_varOn hF x hj, getElem?_map_varOn hF x' hj, hsame j hj]
            · rw [List.getElem?_eq_none (by simp; omega), List.getElem?_eq_none (by simp; omega)]
          · rw [hx'up f F hF hle, c3]
            congr 1
            refine Finset.sum_congr rfl (fun j hj => ?_)
            rw [hsame j (Finset.mem_range.1 (Finset.mem_filter.1 hj).1)]
  obtain ⟨x, ρ, h1, h2, h3⟩ := key H le_rfl
  refine ⟨x, ρ, ⟨h1, fun f F hF => ⟨(h3 f F hF (by omega)).1, (h3 f F hF (by omega)).2.1⟩⟩, h2, ?_⟩
  have hs := hR.sum_slack hvars ev m K x ρ
  rw [Finset.sum_eq_zero] at hs
  · linear_combination hs
  · intro f hf
    have hF := List.getElem?_eq_getElem (Finset.mem_range.1 hf)
    rw [getD_of_some (getElem?_scopes hF), (h3 f _ hF (by omega)).2.2, sub_self]

/-- Root beliefs are max-marginals, up to a constant. -/
theorem RootedForest.exact (hR : RootedForest (factors.map (·.scope)) up par ht) {vars : Finset Var}
    (hvars : ∀ f j v, IsEdge (factors.map (·.scope)) f j v → v ∈ vars) (hpos : ∀ v ∈ vars, 0 < v.n)
    (hrow : ∀ (f : Nat) (F : SFac α), factors[f]? = some F → ∀ r ∈ F.rows, List.Forall₂ (fun s (v : Var) => s < v.n) r.1 F.scope)
    {ev : Var → Nat → α} {m : Msgs α} {K : Nat → α} (hfix : FixedUp factors up ev m K) {r : Var} (hr : r ∈ vars) (hroot : par r = none) :
    ∃ c, IsMaxMarginal vars factors ev r (fun s => beliefOf (factors.map (·.scope)) ev m r s + c) := by
  classical
  -- the best states of the other roots
  have hmaxst : ∀ v : Var, ∃ t, v ∈ vars → t < v.n ∧ ∀ t' < v.n, upSum (factors.map (·.scope)) up ev m v t' ≤ upSum (factors.map (·.scope)) up ev m v t := by
    intro v
    by_cases hv : v ∈ vars
    · obtain ⟨t, h1, h2⟩ := Finset.exists_max_image (Finset.range v.n) (upSum (factors.map (·.scope)) up ev m v) ⟨0, Finset.mem_range.2 (hpos v hv)⟩
      exact ⟨t, fun _ => ⟨Finset.mem_range.1 h1, fun t' ht' => h2 t' (Finset.mem_range.2 ht')⟩⟩
    · exact ⟨0, fun h => absurd h hv⟩
  choose best hb using hmaxst
  have hr' : r ∈ vars.filter (fun v => par v = none) := Finset.mem_filter.2 ⟨hr, hroot⟩
  refine ⟨∑ v ∈ (vars.filter (fun v => par v = none)).erase r, upSum (factors.map (·.scope)) up ev m v (best v) + ∑ f ∈ Finset.range factors.length, K f, ?_⟩
  intro s hs
  simp only
  rw [hR.beliefOf_eq hroot]
  constructor
  · obtain ⟨x, ρ, h1, h2, h3⟩ := hR.exists_tight hvars hpos hrow hfix (fun v => if v = r then s else best v) (by
        intro v hv
        split
        · next h => rw [h]; exact hs
        · exact (hb v hv).1) ((Finset.range factors.length).sup ht + 1) (fun f hf => by
          have := Finset.le_sup (f := ht) (Finset.mem_range.2 hf)
          omega)
    refine ⟨x, ρ, h1, by rw [h2 r hroot]; simp, ?_⟩
    rw [h3, ← Finset.add_sum_erase _ _ hr', h2 r hroot]
    simp only [if_true]
    rw [add_assoc]
    congr 2
    refine Finset.sum_congr rfl (fun v hv => ?_)
    obtain ⟨hne, hv⟩ := Finset.mem_erase.1 hv
    rw [h2 v (Finset.mem_filter.1 hv).2, if_neg hne]
  · rintro z ⟨x, ρ, hJ, hxr, rfl⟩
    refine le_trans (hR.score_le hvars hfix hJ) ?_
    rw [← Finset.add_sum_erase _ _ hr', hxr, add_assoc]
    have := Finset.sum_le_sum (s := (vars.filter (fun v => par v = none)).erase r) (f := fun v => upSum (factors.map (·.scope)) up ev m v (x v))
      (g := fun v => upSum (factors.map (·.scope)) up ev m v (best v)) (fun v hv => by
        have hv' := (Finset.mem_filter.1 (Finset.mem_erase.1 hv).2).1
        exact (hb v hv').2 _ (hJ.states v hv'))
    linarith

/-! ### Convergence -/

omit [LinearOrder α] [IsStrictOrderedRing α] in
theorem upSum_congr {scopes : List (List Var)} {ev : Var → Nat → α} {m m' : Msgs α} {v : Var} {t : Nat}
    (h : ∀ g, IsEdge scopes g (up g) v → m g (up g) t = m' g (up g) t) : upSum scopes up ev m v t = upSum scopes up ev m' v t := by
  unfold upSum
  congr 1
  refine Finset.sum_congr rfl (fun e he => ?_)
  obtain ⟨g, i⟩ := e
  obtain ⟨h1, h2⟩ := Finset.mem_filter.1 he
  simp only at h2
  subst h2
  exact h g ((mem_edgesOf _ _ _ _).1 (List.mem_toFinset.1 h1))

omit [LinearOrder α] [IsStrictOrderedRing α] in
theorem RootedForest.scoreBut_eq (hR : RootedForest (factors.map (·.scope)) up par ht) {f : Nat} {F : SFac α} (hF : factors[f]? = some F)
    (ev : Var → Nat → α) (m : Msgs α) (r : List Nat × α) :
    scoreBut F.scope.length (tbIn factors ev m f F) (up f) r = r.2 + ∑ j ∈ Finset.range F.scope.length with j ≠ up f,
      upSum (factors.map (·.scope)) up ev m (varOn (factors.map (·.scope)) f j) (r.1.getD j 0) := by
  unfold scoreBut
  rw [← List.sum_toFinset _ (List.nodup_range.filter _)]
  congr 1
  have e : ((List.range F.scope.length).filter (fun j => j ≠ up f)).toFinset = (Finset.range F.scope.length).filter (fun j => j ≠ up f) := by
    ext j; simp
  rw [e]
  refine Finset.sum_congr rfl (fun j hj => ?_)
  obtain ⟨h1, h2⟩ := Finset.mem_filter.1 hj
  have he := isEdge_varOn (getElem?_scopes hF) (Finset.mem_range.1 h1)
  have hp := (hR.par_iff _ _ _).2 ⟨he, h2⟩
  obtain ⟨vs, k1, k2⟩ := he
  rw [getElem?_scopes hF] at k1
  cases k1
  rw [tbIn_at k2, hR.varToFac_eq hp]

omit [IsStrictOrderedRing α] in
theorem RootedForest.tbOut_up_congr (hR : RootedForest (factors.map (·.scope)) up par ht)
    (hrow : ∀ (f : Nat) (F : SFac α), factors[f]? = some F → ∀ r ∈ F.rows, List.Forall₂ (fun s (v : Var) => s < v.n) r.1 F.scope)
    {ev : Var → Nat → α} {m m' : Msgs α} {f : Nat} {F : SFac α} (hF : factors[f]? = some F)
    (hm : ∀ g v s, ht g < ht f → IsEdge (factors.map (·.scope)) g (up g) v → s < v.n → m g (up g) s = m' g (up g) s) (s : Nat) :
    tbOut F (tbIn factors ev m f F) (up f) s = tbOut F (tbIn factors ev m' f F) (up f) s := by
  unfold tbOut
  congr 1
  apply List.map_congr_left
  intro r hr
  rw [hR.scoreBut_eq hF, hR.scoreBut_eq hF]
  congr 1
  refine Finset.sum_congr rfl (fun j hj => ?_)
  obtain ⟨h1, h2⟩ := Finset.mem_filter.1 hj
  have hjl := Finset.mem_range.1 h1
  have he := isEdge_varOn (getElem?_scopes hF) hjl
  have hp := (hR.par_iff _ _ _).2 ⟨he, h2⟩
  apply upSum_congr
  intro g hg
  refine hm g _ _ (hR.height _ _ _ _ hp hg) hg ?_
  have hfit := hrow f F hF r (List.mem_filter.1 hr).1
  have hlen := hfit.length_eq
  obtain ⟨w, hw, hlt⟩ := forall₂_getElem? hfit (List.getElem?_eq_getElem (show j < r.1.length by omega))
  obtain ⟨vs, k1, k2⟩ := he
  rw [getElem?_scopes hF] at k1
  cases k1
  rw [k2] at hw
  cases hw
  rw [getD_of_some (List.getElem?_eq_getElem (show j < r.1.length by omega))]
  exact hlt

omit [IsStrictOrderedRing α] in
theorem tbStep_undamped {f i : Nat} {F : SFac α} {v : Var} (hF : factors[f]? = some F) (hi : F.scope[i]? = some v)
    (ev : Var → Nat → α) (m : Msgs α) (s : Nat) : tbStep factors ev 0 m f i s = tbNorm v.n (tbOut F (tbIn factors ev m f F) i) s := by
  rw [tbStep_at hF hi]
  congr 1
  funext s
  cases tbOut F (tbIn factors ev m f F) i s with
  | bot => rfl
  | coe a => simp

omit [IsStrictOrderedRing α] in
/-- The messages upwards no longer change after as many iterations as the height, and do not depend on the initial messages. -/
theorem RootedForest.converged (hR : RootedForest (factors.map (·.scope)) up par ht)
    (hrow : ∀ (f : Nat) (F : SFac α), factors[f]? = some F → ∀ r ∈ F.rows, List.Forall₂ (fun s (v : Var) => s < v.n) r.1 F.scope)
    (ev : Var → Nat → α) (m0 m1 : Msgs α) : ∀ (h f : Nat) (v : Var) (s a b : Nat), ht f ≤ h → h ≤ a → h ≤ b → IsEdge (factors.map (·.scope)) f (up f) v → s < v.n →
      tbRun factors ev 0 (a + 1) m0 f (up f) s = tbRun factors ev 0 (b + 1) m1 f (up f) s := by
  intro h
  induction h with
  | zero =>
    intro f v s a b hf ha hb he hs
    obtain ⟨vs, k1, k2⟩ := he
    rw [List.getElem?_map] at k1
    obtain ⟨F, hF, rfl⟩ := Option.map_eq_some_iff.1 k1
    show tbStep factors ev 0 _ f (up f) s = tbStep factors ev 0 _ f (up f) s
    rw [tbStep_undamped hF k2, tbStep_undamped hF k2]
    congr 1
    funext s
    exact hR.tbOut_up_congr hrow hF (fun g _ _ hg => by omega) s
  | succ h ih =>
    intro f v s a b hf ha hb he hs
    obtain ⟨vs, k1, k2⟩ := he
    rw [List.getElem?_map] at k1
    obtain ⟨F, hF, rfl⟩ := Option.map_eq_some_iff.1 k1
    show tbStep factors ev 0 _ f (up f) s = tbStep factors ev 0 _ f (up f) s
    rw [tbStep_undamped hF k2, tbStep_undamped hF k2]
    congr 1
    funext s
    refine hR.tbOut_up_congr hrow hF (fun g v s hg he hs => ?_) s
    obtain ⟨a, rfl⟩ := Nat.exists_eq_succ_of_ne_zero (show a ≠ 0 by omega)
    obtain ⟨b, rfl⟩ := Nat.exists_eq_succ_of_ne_zero (show b ≠ 0 by omega)
    exact ih g v s a b (by omega) (by omega) (by omega) he hs

/-- A message that is not clipped. -/
theorem tbNorm_unclipped {n : Nat} {x : Nat → WithBot α} (h : ∀ s < n, -1000 < tbNorm n x s) : ∃ K, ∀ s < n, x s = WithBot.some (tbNorm n x s + K) := by
  have h1 : ∀ s < n, ∃ a : α, x s = WithBot.some a := by
    intro s hs
    cases e : x s with
    | bot => have := h s hs; rw [tbNorm_bot e] at this; exact absurd this (lt_irrefl _)
    | coe a => exact ⟨a, rfl⟩
  cases e : (Finset.range n).sup x with
  | bot =>
    refine ⟨0, fun s hs => ?_⟩
    obtain ⟨a, ha⟩ := h1 s hs
    have := Finset.le_sup (f := x) (Finset.mem_range.2 hs)
    rw [e, ha] at this
    exact absurd (le_bot_iff.1 this) WithBot.coe_ne_bot
  | coe b =>
    refine ⟨b, fun s hs => ?_⟩
    obtain ⟨a, ha⟩ := h1 s hs
    have hs' := h s hs
    rw [tbNorm_coe e ha] at hs' ⊢
    rw [ha]
    rcases max_choice (a - b) (-1000) with hc | hc
    · rw [hc]; congr 1; ring
    · rw [hc] at hs'; exact absurd hs' (lt_irrefl _)

/-- After as many iterations as the height of the forest, unless messages are clipped, the messages upwards are optimal. -/
theorem RootedForest.fixedUp (hR : RootedForest (factors.map (·.scope)) up par ht)
    (hrow : ∀ (f : Nat) (F : SFac α), factors[f]? = some F → ∀ r ∈ F.rows, List.Forall₂ (fun s (v : Var) => s < v.n) r.1 F.scope)
    (ev : Var → Nat → α) (m0 : Msgs α) (n : Nat) (hn : ∀ f < factors.length, ht f < n)
    (hclip : ∀ f v s, IsEdge (factors.map (·.scope)) f (up f) v → s < v.n → -1000 < tbRun factors ev 0 n m0 f (up f) s) :
    ∃ K, FixedUp factors up ev (tbRun factors ev 0 n m0) K := by
  have hK : ∀ f, ∃ K, ∀ (F : SFac α) (v : Var), factors[f]? = some F → F.scope[up f]? = some v → ∀ s < v.n,
      tbOut F (tbIn factors ev (tbRun factors ev 0 n m0) f F) (up f) s = WithBot.some (tbRun factors ev 0 n m0 f (up f) s + K) := by
    intro f
    cases hF : factors[f]? with
    | none => exact ⟨0, by rintro F v h; cases h⟩
    | some F =>
      have hup := hR.up_lt f _ (getElem?_scopes hF)
      have hv := List.getElem?_eq_getElem hup
      have hfn := hn f (List.getElem?_eq_some_iff.1 hF).1
      obtain ⟨n, rfl⟩ := Nat.exists_eq_succ_of_ne_zero (show n ≠ 0 by omega)
      have hrun : ∀ s, tbRun factors ev 0 (n + 1) m0 f (up f) s
          = tbNorm (F.scope[up f]).n (tbOut F (tbIn factors ev (tbRun factors ev 0 n m0) f F) (up f)) s := tbStep_undamped hF hv ev _
      obtain ⟨K, hK⟩ := tbNorm_unclipped (n := (F.scope[up f]).n) (x := tbOut F (tbIn factors ev (tbRun factors ev 0 n m0) f F) (up f)) (by
        intro s hs
        have := hclip f _ s ⟨_, getElem?_scopes hF, hv⟩ hs
        rw [Nat.succ_eq_add_one, hrun] at this
        exact this)
      refine ⟨K, ?_⟩
      rintro F' v h hv' s hs
      cases h
      rw [hv] at hv'
      cases hv'
      rw [Nat.succ_eq_add_one, hrun, ← hK s hs]
      refine hR.tbOut_up_congr hrow hF (fun g w t hg he ht' => ?_) s
      obtain ⟨n, rfl⟩ := Nat.exists_eq_succ_of_ne_zero (show n ≠ 0 by omega)
      exact hR.converged hrow ev m0 m0 (ht g) g w t (n + 1) n le_rfl (by omega) (by omega) he ht'
  choose K hK using hK
  refine ⟨K, ?_⟩
  intro f F v hF hv s hs
  have h1 := hK f F v hF hv s hs
  unfold tbOut at h1
  obtain ⟨h2, h3⟩ := List.maximum_eq_coe_iff.1 h1
  constructor
  · obtain ⟨r, hr, he⟩ := List.mem_map.1 h2
    exact ⟨r, hr, by rw [← he, hR.scoreBut_eq hF]⟩
  · rintro z ⟨r, hr, rfl⟩
    rw [← hR.scoreBut_eq hF]
    exact h3 _ (List.mem_map.2 ⟨r, hr, rfl⟩)

end

end PGMax
