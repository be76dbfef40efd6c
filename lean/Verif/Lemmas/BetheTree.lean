import Verif.Lemmas.Bethe
import Verif.Lemmas.Forest

/-! # Reparametrisation, and the partition function of forests -/

namespace PGMax

variable {factors : List (SFac ℝ)} {vars : Finset Var} {ev : Var → Nat → ℝ} {m : Msgs ℝ} {T : ℝ}

/-- The probability of states by the weight of the factor and the incoming messages. -/
theorem assignProb_eq (T : ℝ) (F : SFac ℝ) (q : Nat → Nat → ℝ) (x : Var → Nat) :
    F.assignProb T q x = F.weight T x * Real.exp ((∑ i ∈ Finset.range F.scope.length, q i (x (F.scope.getD i ⟨0, 0⟩))) / T) / (F.rows.map (rowWeight T F.scope.length q)).sum := by
  unfold SFac.assignProb SFac.weight
  rw [mul_list_sum]
  congr 2
  refine List.map_congr_left fun r hr => ?_
  have e : r.1 = F.scope.map x := of_decide_eq_true (List.mem_filter.1 hr).2
  unfold rowWeight
  rw [← Real.exp_add, ← add_div]
  congr 3
  refine Finset.sum_congr rfl fun i hi => ?_
  have hi := Finset.mem_range.1 hi
  rw [e, List.getD_eq_getElem _ _ (by simpa using hi), List.getElem_map, List.getD_eq_getElem _ _ hi]

theorem gibbs_exp (B : Nat → ℝ) {n s : Nat} (hs : s < n) : gibbs B n s = Real.exp (B s - Real.log (∑ t ∈ Finset.range n, Real.exp (B t))) := by
  have hZ : 0 < ∑ t ∈ Finset.range n, Real.exp (B t) := Finset.sum_pos (fun t _ => Real.exp_pos _) ⟨s, Finset.mem_range.2 hs⟩
  rw [gibbs_eq, Real.exp_sub, Real.exp_log hZ]

/-- The messages that go to all factors in the states `x`. -/
theorem in_total_at (hvars : ∀ F ∈ factors, ∀ v ∈ F.scope, v ∈ vars) {x : Var → Nat} (hx : ∀ v ∈ vars, x v < v.n) :
    ∑ f ∈ Finset.range factors.length, ∑ i ∈ Finset.range (factors.getD f ⟨[], []⟩).scope.length,
        tbIn factors ev m f (factors.getD f ⟨[], []⟩) i (x ((factors.getD f ⟨[], []⟩).scope.getD i ⟨0, 0⟩)) =
      ∑ v ∈ vars, (ev v (x v) + ((degree (factors.map (·.scope)) v : ℝ) - 1) * beliefOf (factors.map (·.scope)) ev m v (x v)) := by
  have h := in_total (ev := ev) (m := m) hvars (fun v s => if s = x v then 1 else 0)
  have e : ∀ (v : Var) (g : Nat → ℝ), v ∈ vars → ∑ s ∈ Finset.range v.n, (if s = x v then (1 : ℝ) else 0) * g s = g (x v) := by
    intro v g hv
    rw [Finset.sum_eq_single (x v)]
    · rw [if_pos rfl, one_mul]
    · intro s _ hs
      rw [if_neg hs, zero_mul]
    · intro h
      exact absurd (Finset.mem_range.2 (hx v hv)) h
  rw [Finset.sum_congr rfl fun v hv => e v _ hv] at h
  rw [← h]
  refine Finset.sum_congr rfl fun f hf => Finset.sum_congr rfl fun i hi => ?_
  rw [e]
  have hf := Finset.mem_range.1 hf
  have hi := Finset.mem_range.1 hi
  rw [List.getD_eq_getElem _ _ hi]
  refine hvars _ ?_ _ (List.getElem_mem hi)
  rw [List.getD_eq_getElem _ _ hf]
  exact List.getElem_mem hf

/-- Whatever the messages, the weight of an assignment is the product of the probabilities of its configurations, divided by those of its states as often as variables have edges too many, up to a constant. -/
theorem jointWeight_reparam (hT : 0 < T) (hvars : ∀ F ∈ factors, ∀ v ∈ F.scope, v ∈ vars) {x : Var → Nat} (hx : ∀ v ∈ vars, x v < v.n) :
    jointWeight T vars factors ev x * ∏ v ∈ vars, gibbs (fun s => beliefOf (factors.map (·.scope)) ev m v s / T) v.n (x v) ^ degree (factors.map (·.scope)) v =
      Real.exp (betheLogTotal T vars factors ev m) * ((∏ v ∈ vars, gibbs (fun s => beliefOf (factors.map (·.scope)) ev m v s / T) v.n (x v)) *
        ∏ f ∈ Finset.range factors.length, (factors.getD f ⟨[], []⟩).assignProb T (tbIn factors ev m f (factors.getD f ⟨[], []⟩)) x) := by
  unfold jointWeight
  rw [prod_map_range _ _ ⟨[], []⟩]
  by_cases hne : ∃ f < factors.length, (factors.getD f ⟨[], []⟩).rows = []
  · obtain ⟨f, hf, e⟩ := hne
    have h1 : ∏ f ∈ Finset.range factors.length, (factors.getD f ⟨[], []⟩).weight T x = 0 :=
      Finset.prod_eq_zero (Finset.mem_range.2 hf) (by unfold SFac.weight; rw [e]; simp)
    have h2 : ∏ f ∈ Finset.range factors.length, (factors.getD f ⟨[], []⟩).assignProb T (tbIn factors ev m f (factors.getD f ⟨[], []⟩)) x = 0 :=
      Finset.prod_eq_zero (Finset.mem_range.2 hf) (by unfold SFac.assignProb; rw [e]; simp)
    rw [h1, h2]
    ring
  have hP : ∏ f ∈ Finset.range factors.length, (factors.getD f ⟨[], []⟩).assignProb T (tbIn factors ev m f (factors.getD f ⟨[], []⟩)) x =
      (∏ f ∈ Finset.range factors.length, (factors.getD f ⟨[], []⟩).weight T x) * Real.exp (∑ f ∈ Finset.range factors.length,
        ((∑ i ∈ Finset.range (factors.getD f ⟨[], []⟩).scope.length, tbIn factors ev m f (factors.getD f ⟨[], []⟩) i (x ((factors.getD f ⟨[], []⟩).scope.getD i ⟨0, 0⟩))) / T
          - Real.log ((factors.getD f ⟨[], []⟩).rows.map (rowWeight T (factors.getD f ⟨[], []⟩).scope.length (tbIn factors ev m f (factors.getD f ⟨[], []⟩)))).sum)) := by
    rw [Real.exp_sum, ← Finset.prod_mul_distrib]
    refine Finset.prod_congr rfl fun f hf => ?_
    have hZ := rowTotal_pos (F := factors.getD f ⟨[], []⟩) (fun e => hne ⟨f, Finset.mem_range.1 hf, e⟩) T (tbIn factors ev m f (factors.getD f ⟨[], []⟩))
    rw [assignProb_eq, Real.exp_sub, Real.exp_log hZ, mul_div_assoc]
  have hb : ∀ v ∈ vars, gibbs (fun s => beliefOf (factors.map (·.scope)) ev m v s / T) v.n (x v) =
      Real.exp (beliefOf (factors.map (·.scope)) ev m v (x v) / T - Real.log (∑ s ∈ Finset.range v.n, Real.exp (beliefOf (factors.map (·.scope)) ev m v s / T))) :=
    fun v hv => gibbs_exp _ (hx v hv)
  have hb' : ∀ v ∈ vars, gibbs (fun s => beliefOf (factors.map (·.scope)) ev m v s / T) v.n (x v) ^ degree (factors.map (·.scope)) v =
      Real.exp (degree (factors.map (·.scope)) v * (beliefOf (factors.map (·.scope)) ev m v (x v) / T - Real.log (∑ s ∈ Finset.range v.n, Real.exp (beliefOf (factors.map (·.scope)) ev m v s / T)))) := by
    intro v hv
    rw [hb v hv, ← Real.exp_nat_mul]
  rw [hP, Finset.prod_congr rfl hb, Finset.prod_congr rfl hb', ← Real.exp_sum, ← Real.exp_sum]
  generalize ∏ f ∈ Finset.range factors.length, (factors.getD f ⟨[], []⟩).weight T x = W
  rw [mul_right_comm, ← Real.exp_add, mul_left_comm (Real.exp _) W, mul_left_comm (Real.exp _) W, ← Real.exp_add, ← Real.exp_add, mul_comm]
  congr 2
  rw [Finset.sum_sub_distrib (s := Finset.range factors.length), ← Finset.sum_div (s := Finset.range factors.length), in_total_at hvars hx]
  unfold betheLogTotal
  have h3 : (∑ v ∈ vars, ev v (x v)) / T + ∑ v ∈ vars, (degree (factors.map (·.scope)) v : ℝ) * (beliefOf (factors.map (·.scope)) ev m v (x v) / T - Real.log (∑ s ∈ Finset.range v.n, Real.exp (beliefOf (factors.map (·.scope)) ev m v s / T))) =
      (∑ v ∈ vars, (ev v (x v) + ((degree (factors.map (·.scope)) v : ℝ) - 1) * beliefOf (factors.map (·.scope)) ev m v (x v))) / T
        - ∑ v ∈ vars, ((degree (factors.map (·.scope)) v : ℝ) - 1) * Real.log (∑ s ∈ Finset.range v.n, Real.exp (beliefOf (factors.map (·.scope)) ev m v s / T))
        + ∑ v ∈ vars, (beliefOf (factors.map (·.scope)) ev m v (x v) / T - Real.log (∑ s ∈ Finset.range v.n, Real.exp (beliefOf (factors.map (·.scope)) ev m v s / T))) := by
    rw [Finset.sum_div, Finset.sum_div, ← Finset.sum_add_distrib, ← Finset.sum_sub_distrib, ← Finset.sum_add_distrib]
    refine Finset.sum_congr rfl fun v _ => ?_
    ring
  linear_combination h3

theorem sum_assignments_single (r : Var) (y : Var → Nat) (G : (Var → Nat) → ℝ) : ∑ x ∈ assignments {r} y, G x = ∑ s ∈ Finset.range r.n, G (Function.update y r s) := by
  refine Finset.sum_nbij' (fun x => x r) (fun s => Function.update y r s) ?_ ?_ ?_ ?_ ?_
  · intro x hx
    exact Finset.mem_range.2 ((mem_assignments.1 hx).1 r (Finset.mem_singleton_self r))
  · intro s hs
    refine mem_assignments.2 ⟨fun v hv => ?_, fun v hv => ?_⟩
    · rw [Finset.mem_singleton] at hv
      subst hv
      rw [Function.update_self]
      exact Finset.mem_range.1 hs
    · rw [Finset.mem_singleton] at hv
      rw [Function.update_of_ne hv]
  · intro x hx
    funext v
    by_cases hv : v = r
    · subst hv
      rw [Function.update_self]
    · rw [Function.update_of_ne hv, (mem_assignments.1 hx).2 v (by rw [Finset.mem_singleton]; exact hv)]
  · intro s _
    rw [Function.update_self]
  · intro x hx
    congr 1
    funext v
    by_cases hv : v = r
    · subst hv
      rw [Function.update_self]
    · rw [Function.update_of_ne hv, (mem_assignments.1 hx).2 v (by rw [Finset.mem_singleton]; exact hv)]

/-- The sum of a product over the variables. -/
theorem sum_assignments_prod (g : Var → Nat → ℝ) (x0 : Var → Nat) (A : Finset Var) : ∑ x ∈ assignments A x0, ∏ v ∈ A, g v (x v) = ∏ v ∈ A, ∑ s ∈ Finset.range v.n, g v s := by
  classical
  induction A using Finset.induction_on with
  | empty => rw [assignments_empty]; simp
  | insert r A hr ih =>
    have hd : Disjoint A {r} := Finset.disjoint_singleton_right.2 hr
    rw [Finset.prod_insert hr, ← ih, Finset.insert_eq, Finset.union_comm, sum_assignments_union hd, Finset.mul_sum]
    refine Finset.sum_congr rfl fun y _ => ?_
    rw [sum_assignments_single, Finset.sum_mul]
    refine Finset.sum_congr rfl fun s _ => ?_
    rw [Finset.union_comm, ← Finset.insert_eq, Finset.prod_insert hr, Function.update_self]
    congr 1
    refine Finset.prod_congr rfl fun v hv => ?_
    rw [Function.update_of_ne (show v ≠ r from fun e => hr (e ▸ hv))]

section
variable {up : Nat → Nat} {par : Var → Option (Nat × Nat)} {ht : Nat → Nat}

/-- Sums over all edges of a forest. -/
theorem RootedForest.degree_sum (hR : RootedForest (factors.map (·.scope)) up par ht) (hvars : ∀ F ∈ factors, ∀ v ∈ F.scope, v ∈ vars) (g : Var → ℝ) :
    ∑ v ∈ vars, (degree (factors.map (·.scope)) v : ℝ) * g v = ∑ f ∈ Finset.range factors.length, g (varOn (factors.map (·.scope)) f (up f)) + ∑ v ∈ vars with par v ≠ none, g v := by
  have hvars' : ∀ f j v, IsEdge (factors.map (·.scope)) f j v → v ∈ vars := by
    rintro f j v ⟨vs, h1, h2⟩
    exact scopes_vars' hvars vs (List.mem_of_getElem? h1) v (List.mem_of_getElem? h2)
  have h1 := sum_by_factors (factors.map (·.scope)) vars (scopes_vars' hvars) (fun _ _ v => g v)
  have h2 : ∀ v ∈ vars, ((edgesOf (factors.map (·.scope)) v).map (fun _ => g v)).sum = (degree (factors.map (·.scope)) v : ℝ) * g v := by
    intro v _
    simp [degree]
  rw [Finset.sum_congr rfl h2] at h1
  rw [h1, hR.sum_children hvars', List.length_map, ← Finset.sum_add_distrib]
  refine Finset.sum_congr rfl fun f hf => ?_
  have hF := List.getElem?_eq_getElem (Finset.mem_range.1 hf)
  have e2 : (factors.map (·.scope)).getD f [] = (factors[f]'(Finset.mem_range.1 hf)).scope := by rw [List.getD, List.getElem?_map, hF]; rfl
  have hup := hR.up_lt f _ (getElem?_scopes hF)
  rw [e2, ← Finset.add_sum_erase _ _ (Finset.mem_range.2 hup)]
  congr 1
  · unfold varOn
    rw [e2]
  · refine Finset.sum_congr ?_ fun j _ => ?_
    · ext j
      simp [and_comm]
    · unfold varOn
      rw [e2]

/-- The weight of an assignment of a forest, from the roots downwards. -/
theorem RootedForest.weight_reparam (hR : RootedForest (factors.map (·.scope)) up par ht) (hT : 0 < T) (hvars : ∀ F ∈ factors, ∀ v ∈ F.scope, v ∈ vars) {x : Var → Nat} (hx : ∀ v ∈ vars, x v < v.n) :
    jointWeight T vars factors ev x = Real.exp (betheLogTotal T vars factors ev m) *
      ((∏ v ∈ vars with par v = none, gibbs (fun s => beliefOf (factors.map (·.scope)) ev m v s / T) v.n (x v)) *
        ∏ f ∈ Finset.range factors.length, (factors.getD f ⟨[], []⟩).assignProb T (tbIn factors ev m f (factors.getD f ⟨[], []⟩)) x /
          gibbs (fun s => beliefOf (factors.map (·.scope)) ev m (varOn (factors.map (·.scope)) f (up f)) s / T) (varOn (factors.map (·.scope)) f (up f)).n (x (varOn (factors.map (·.scope)) f (up f)))) := by
  have key := jointWeight_reparam (ev := ev) (m := m) hT hvars hx
  set b : Var → ℝ := fun v => gibbs (fun s => beliefOf (factors.map (·.scope)) ev m v s / T) v.n (x v) with hbdef
  have hpos : ∀ v ∈ vars, 0 < b v := fun v hv => gibbs_pos _ (hx v hv)
  have hup : ∀ f ∈ Finset.range factors.length, varOn (factors.map (·.scope)) f (up f) ∈ vars := by
    intro f hf
    have hF := List.getElem?_eq_getElem (Finset.mem_range.1 hf)
    obtain ⟨vs, h1, h2⟩ := isEdge_varOn (getElem?_scopes hF) (hR.up_lt f _ (getElem?_scopes hF))
    exact scopes_vars' hvars vs (List.mem_of_getElem? h1) _ (List.mem_of_getElem? h2)
  have h1 : ∏ v ∈ vars, b v ^ degree (factors.map (·.scope)) v = (∏ f ∈ Finset.range factors.length, b (varOn (factors.map (·.scope)) f (up f))) * ∏ v ∈ vars with par v ≠ none, b v := by
    have h2 := hR.degree_sum hvars (fun v => Real.log (b v))
    have h3 := congrArg Real.exp h2
    rw [Real.exp_add, Real.exp_sum, Real.exp_sum, Real.exp_sum] at h3
    rw [Finset.prod_congr rfl fun v hv => show b v ^ degree (factors.map (·.scope)) v = Real.exp (degree (factors.map (·.scope)) v * Real.log (b v)) by
      rw [Real.exp_nat_mul, Real.exp_log (hpos v hv)], h3]
    congr 1
    · exact Finset.prod_congr rfl fun f hf => Real.exp_log (hpos _ (hup f hf))
    · exact Finset.prod_congr rfl fun v hv => Real.exp_log (hpos _ (Finset.mem_filter.1 hv).1)
  have h2 := Finset.prod_filter_mul_prod_filter_not vars (fun v => par v = none) b
  have e : ∀ v, gibbs (fun s => beliefOf (factors.map (·.scope)) ev m v s / T) v.n (x v) = b v := fun _ => rfl
  simp only [e] at key ⊢
  rw [h1, ← h2] at key
  have hA : 0 < ∏ f ∈ Finset.range factors.length, b (varOn (factors.map (·.scope)) f (up f)) := Finset.prod_pos fun f hf => hpos _ (hup f hf)
  have hB : 0 < ∏ v ∈ vars with par v ≠ none, b v := Finset.prod_pos fun v hv => hpos _ (Finset.mem_filter.1 hv).1
  rw [Finset.prod_div_distrib]
  field_simp
  refine mul_right_cancel₀ hB.ne' ?_
  linear_combination key

/-- What factor `f` contributes to the weight of an assignment of a forest, given the state of the variable above it. -/
noncomputable def kern (T : ℝ) (factors : List (SFac ℝ)) (ev : Var → Nat → ℝ) (m : Msgs ℝ) (up : Nat → Nat) (f : Nat) (x : Var → Nat) : ℝ :=
  (factors.getD f ⟨[], []⟩).assignProb T (tbIn factors ev m f (factors.getD f ⟨[], []⟩)) x /
    gibbs (fun s => beliefOf (factors.map (·.scope)) ev m (varOn (factors.map (·.scope)) f (up f)) s / T) (varOn (factors.map (·.scope)) f (up f)).n (x (varOn (factors.map (·.scope)) f (up f)))

/-- The contributions of any factors of a forest sum to about 1. -/
theorem RootedForest.kern_sum (hR : RootedForest (factors.map (·.scope)) up par ht) (hT : 0 < T) (hvars : ∀ F ∈ factors, ∀ v ∈ F.scope, v ∈ vars) (hnd : ∀ F ∈ factors, F.scope.Nodup)
    (hrow : ∀ F ∈ factors, ∀ r ∈ F.rows, List.Forall₂ (fun s (v : Var) => s < v.n) r.1 F.scope) {δ : Nat → ℝ}
    (hcons : ∀ f F v, factors[f]? = some F → F.scope[up f]? = some v → ∀ s < v.n,
      gibbs (fun s => beliefOf (factors.map (·.scope)) ev m v s / T) v.n s * Real.exp (-δ f) ≤ F.prob T (tbIn factors ev m f F) (up f) s ∧
        F.prob T (tbIn factors ev m f F) (up f) s ≤ gibbs (fun s => beliefOf (factors.map (·.scope)) ev m v s / T) v.n s * Real.exp (δ f))
    (S : Finset Nat) (hS : ∀ f ∈ S, f < factors.length) {x0 : Var → Nat} (hx0 : ∀ v ∈ vars, x0 v < v.n) :
    Real.exp (-∑ f ∈ S, δ f) ≤ ∑ x ∈ assignments (S.biUnion (kids vars par)) x0, ∏ f ∈ S, kern T factors ev m up f x ∧
      ∑ x ∈ assignments (S.biUnion (kids vars par)) x0, ∏ f ∈ S, kern T factors ev m up f x ≤ Real.exp (∑ f ∈ S, δ f) := by
  classical
  have hvars' : ∀ f j v, IsEdge (factors.map (·.scope)) f j v → v ∈ vars := by
    rintro f j v ⟨vs, h1, h2⟩
    exact scopes_vars' hvars vs (List.mem_of_getElem? h1) v (List.mem_of_getElem? h2)
  let b : Var → Nat → ℝ := fun v s => gibbs (fun s => beliefOf (factors.map (·.scope)) ev m v s / T) v.n s
  let φ : Nat → (Var → Nat) → ℝ := fun f x => (factors.getD f ⟨[], []⟩).assignProb T (tbIn factors ev m f (factors.getD f ⟨[], []⟩)) x /
          b (varOn (factors.map (·.scope)) f (up f)) (x (varOn (factors.map (·.scope)) f (up f)))
  have hbdef : b = fun v s => gibbs (fun s => beliefOf (factors.map (·.scope)) ev m v s / T) v.n s := rfl
  have hφdef : φ = fun f x => (factors.getD f ⟨[], []⟩).assignProb T (tbIn factors ev m f (factors.getD f ⟨[], []⟩)) x /
          b (varOn (factors.map (·.scope)) f (up f)) (x (varOn (factors.map (·.scope)) f (up f))) := rfl
  change Real.exp (-∑ f ∈ S, δ f) ≤ ∑ x ∈ assignments (S.biUnion (kids vars par)) x0, ∏ f ∈ S, φ f x ∧
      ∑ x ∈ assignments (S.biUnion (kids vars par)) x0, ∏ f ∈ S, φ f x ≤ Real.exp (∑ f ∈ S, δ f)
  have hAP : ∀ (F : SFac ℝ) (q : Nat → Nat → ℝ) x, 0 ≤ F.assignProb T q x := by
    intro F q x
    have hnn : ∀ l : List (List Nat × ℝ), 0 ≤ (l.map (rowWeight T F.scope.length q)).sum := fun l => List.sum_nonneg fun y hy => by
      obtain ⟨r, -, rfl⟩ := List.mem_map.1 hy
      exact (Real.exp_pos _).le
    exact div_nonneg (hnn _) (hnn _)
  have hbnn : ∀ v s, 0 ≤ b v s := by
    intro v s
    simp only [hbdef]
    rw [gibbs_eq]
    exact div_nonneg (Real.exp_pos _).le (Finset.sum_nonneg fun t _ => (Real.exp_pos _).le)
  -- sums of the kernels
  have hsum : ∀ f < factors.length, ∀ x : Var → Nat, (∀ v ∈ vars, x v < v.n) →
      Real.exp (-δ f) ≤ ∑ y ∈ assignments (kids vars par f) x, φ f y ∧ ∑ y ∈ assignments (kids vars par f) x, φ f y ≤ Real.exp (δ f) := by
    intro f hf x hx
    have hF := List.getElem?_eq_getElem hf
    generalize hFe : factors[f] = F at hF
    have hup := hR.up_lt f _ (getElem?_scopes hF)
    have he := isEdge_varOn (getElem?_scopes hF) hup
    have hv := hvars' _ _ _ he
    obtain ⟨vs, k1, k2⟩ := he
    rw [getElem?_scopes hF] at k1
    cases k1
    have e1 : factors.getD f ⟨[], []⟩ = F := by rw [List.getD, hF]; rfl
    simp only [hφdef, e1]
    generalize hve : varOn (factors.map (·.scope)) f (up f) = v at hv k2
    have hFm := List.mem_of_getElem? hF
    have hB := hR.mem_kids hvars' hF (hnd F hFm) k2
    have hvk : v ∉ kids vars par f := fun h => ((hB v).1 h).2 rfl
    have hbp : 0 < b v (x v) := gibbs_pos _ (hx v hv)
    have h1 : ∑ y ∈ assignments (kids vars par f) x, F.assignProb T (tbIn factors ev m f F) y / b v (y v) = F.prob T (tbIn factors ev m f F) (up f) (x v) / b v (x v) := by
      rw [Finset.sum_congr rfl fun y hy => show F.assignProb T (tbIn factors ev m f F) y / b v (y v) = F.assignProb T (tbIn factors ev m f F) y / b v (x v) by
        rw [(mem_assignments.1 hy).2 v hvk], ← Finset.sum_div]
      congr 1
      unfold SFac.assignProb SFac.prob
      rw [← Finset.sum_div, sum_rows (hnd F hFm) (hrow F hFm) k2 hB x]
    rw [h1]
    obtain ⟨h2, h3⟩ := hcons f F v hF k2 (x v) (hx v hv)
    rw [le_div_iff₀ hbp, div_le_iff₀ hbp, mul_comm, mul_comm (Real.exp (δ f))]
    exact ⟨h2, h3⟩
  have hQ := hR.kernel_sum (vars := vars) (fun f x => φ f x * Real.exp (-δ f)) (fun f => Real.exp (-δ f) * Real.exp (-δ f)) (by
      intro f x y hxy
      simp only [hφdef]
      cases hF : factors[f]? with
      | none =>
        have : factors.getD f ⟨[], []⟩ = ⟨[], []⟩ := by rw [List.getD_eq_getElem?_getD, hF]; rfl
        rw [this]
        simp [SFac.assignProb]
      | some F =>
        have hm : F.scope.map x = F.scope.map y := by
          apply List.map_congr_left
          intro v hv
          obtain ⟨j, hj⟩ := List.mem_iff_getElem?.1 hv
          exact hxy j v ⟨_, getElem?_scopes hF, hj⟩
        rw [getD_of_some hF]
        unfold SFac.assignProb
        rw [hm, hxy _ _ (isEdge_varOn (getElem?_scopes hF) (hR.up_lt f _ (getElem?_scopes hF)))])
    (fun f x => mul_nonneg (div_nonneg (hAP _ _ _) (hbnn _ _)) (Real.exp_pos _).le) (fun f => mul_nonneg (Real.exp_pos _).le (Real.exp_pos _).le)
    (fun f hf x hx => by
      obtain ⟨h1, h2⟩ := hsum f (by simpa using hf) x hx
      rw [← Finset.sum_mul]
      refine ⟨mul_le_mul_of_nonneg_right h1 (Real.exp_pos _).le, ?_⟩
      calc _ ≤ Real.exp (δ f) * Real.exp (-δ f) := mul_le_mul_of_nonneg_right h2 (Real.exp_pos _).le
        _ = 1 := by rw [← Real.exp_add]; simp)
    S (fun f hf => by simpa using hS f hf)
  obtain ⟨h1, h2⟩ := hQ x0 hx0
  have e : ∀ x, ∏ f ∈ S, φ f x * Real.exp (-δ f) = (∏ f ∈ S, φ f x) * Real.exp (-∑ f ∈ S, δ f) := by
    intro x
    rw [Finset.prod_mul_distrib, ← Real.exp_sum, Finset.sum_neg_distrib]
  rw [Finset.sum_congr rfl fun x _ => e x, ← Finset.sum_mul] at h1 h2
  rw [Finset.prod_mul_distrib, ← Real.exp_sum, Finset.sum_neg_distrib] at h1
  refine ⟨le_of_mul_le_mul_right h1 (Real.exp_pos _), ?_⟩
  have := mul_le_mul_of_nonneg_right h2 (Real.exp_pos (∑ f ∈ S, δ f)).le
  rw [mul_assoc, ← Real.exp_add, neg_add_cancel, Real.exp_zero, mul_one, one_mul] at this
  exact this

/-- The partition function of a forest, from distributions of variables and factors that nearly agree. -/
theorem RootedForest.total_near (hR : RootedForest (factors.map (·.scope)) up par ht) (hT : 0 < T) (hvars : ∀ F ∈ factors, ∀ v ∈ F.scope, v ∈ vars) (hnd : ∀ F ∈ factors, F.scope.Nodup)
    (hpos : ∀ v ∈ vars, 0 < v.n) (hrow : ∀ F ∈ factors, ∀ r ∈ F.rows, List.Forall₂ (fun s (v : Var) => s < v.n) r.1 F.scope) {δ : Nat → ℝ}
    (hcons : ∀ f F v, factors[f]? = some F → F.scope[up f]? = some v → ∀ s < v.n,
      gibbs (fun s => beliefOf (factors.map (·.scope)) ev m v s / T) v.n s * Real.exp (-δ f) ≤ F.prob T (tbIn factors ev m f F) (up f) s ∧
        F.prob T (tbIn factors ev m f F) (up f) s ≤ gibbs (fun s => beliefOf (factors.map (·.scope)) ev m v s / T) v.n s * Real.exp (δ f)) :
    Real.exp (betheLogTotal T vars factors ev m - ∑ f ∈ Finset.range factors.length, δ f) ≤ totalWeight T vars factors ev ∧
      totalWeight T vars factors ev ≤ Real.exp (betheLogTotal T vars factors ev m + ∑ f ∈ Finset.range factors.length, δ f) := by
  classical
  have hvars' : ∀ f j v, IsEdge (factors.map (·.scope)) f j v → v ∈ vars := by
    rintro f j v ⟨vs, h1, h2⟩
    exact scopes_vars' hvars vs (List.mem_of_getElem? h1) v (List.mem_of_getElem? h2)
  set b : Var → Nat → ℝ := fun v s => gibbs (fun s => beliefOf (factors.map (·.scope)) ev m v s / T) v.n s with hbdef
  set φ : Nat → (Var → Nat) → ℝ := fun f x => (factors.getD f ⟨[], []⟩).assignProb T (tbIn factors ev m f (factors.getD f ⟨[], []⟩)) x /
          b (varOn (factors.map (·.scope)) f (up f)) (x (varOn (factors.map (·.scope)) f (up f))) with hφdef
  let low := (Finset.range factors.length).biUnion (kids vars par)
  have hlow : ∀ v, v ∈ low ↔ v ∈ vars ∧ par v ≠ none := by
    intro v
    simp only [low, Finset.mem_biUnion, kids, Finset.mem_filter, Finset.mem_range]
    constructor
    · rintro ⟨f, -, h1, j, h2⟩
      exact ⟨h1, by rw [h2]; simp⟩
    · rintro ⟨h1, h2⟩
      obtain ⟨⟨f, j⟩, he⟩ := Option.ne_none_iff_exists'.1 h2
      obtain ⟨⟨vs, k1, -⟩, -⟩ := (hR.par_iff v f j).1 he
      have := (List.getElem?_eq_some_iff.1 k1).1
      rw [List.length_map] at this
      exact ⟨f, this, h1, j, he⟩
  have hvs : vars = vars.filter (fun v => par v = none) ∪ low := by
    ext v
    rw [Finset.mem_union, hlow, Finset.mem_filter]
    tauto
  have hd : Disjoint (vars.filter (fun v => par v = none)) low := by
    rw [Finset.disjoint_left]
    intro v hv hv'
    exact ((hlow v).1 hv').2 (Finset.mem_filter.1 hv).2
  have hbnn : ∀ v s, 0 ≤ b v s := by
    intro v s
    simp only [hbdef]
    rw [gibbs_eq]
    exact div_nonneg (Real.exp_pos _).le (Finset.sum_nonneg fun t _ => (Real.exp_pos _).le)
  have hQ' : ∀ x0 : Var → Nat, (∀ v ∈ vars, x0 v < v.n) → Real.exp (-∑ f ∈ Finset.range factors.length, δ f) ≤ ∑ x ∈ assignments low x0, ∏ f ∈ Finset.range factors.length, φ f x ∧
      ∑ x ∈ assignments low x0, ∏ f ∈ Finset.range factors.length, φ f x ≤ Real.exp (∑ f ∈ Finset.range factors.length, δ f) := fun x0 hx0 =>
    hR.kern_sum hT hvars hnd hrow hcons (Finset.range factors.length) (fun f hf => Finset.mem_range.1 hf) hx0
  -- the total
  have hZ : totalWeight T vars factors ev = Real.exp (betheLogTotal T vars factors ev m) * ∑ y ∈ assignments (vars.filter (fun v => par v = none)) (fun _ => 0),
      (∏ v ∈ vars with par v = none, b v (y v)) * ∑ x ∈ assignments low y, ∏ f ∈ Finset.range factors.length, φ f x := by
    unfold totalWeight
    have e1 : assignments vars (fun _ => 0) = assignments (vars.filter (fun v => par v = none) ∪ low) (fun _ => 0) := by rw [← hvs]
    rw [e1, sum_assignments_union hd, Finset.mul_sum]
    refine Finset.sum_congr rfl fun y hy => ?_
    rw [Finset.mul_sum, Finset.mul_sum]
    refine Finset.sum_congr rfl fun x hx => ?_
    have hxv : ∀ v ∈ vars, x v < v.n := by
      intro v hv
      by_cases h1 : v ∈ low
      · exact (mem_assignments.1 hx).1 v h1
      · rw [(mem_assignments.1 hx).2 v h1]
        refine (mem_assignments.1 hy).1 v ?_
        rw [hvs] at hv
        exact (Finset.mem_union.1 hv).resolve_right h1
    rw [hR.weight_reparam (m := m) hT hvars hxv]
    congr 2
    refine Finset.prod_congr rfl fun v hv => ?_
    rw [(mem_assignments.1 hx).2 v (Finset.disjoint_left.1 hd hv)]
  have hone : ∑ y ∈ assignments (vars.filter (fun v => par v = none)) (fun _ => 0), ∏ v ∈ vars with par v = none, b v (y v) = 1 := by
    rw [sum_assignments_prod]
    refine Finset.prod_eq_one fun v hv => ?_
    have hZ : 0 < ∑ t ∈ Finset.range v.n, Real.exp (beliefOf (factors.map (·.scope)) ev m v t / T) :=
      Finset.sum_pos (fun t _ => Real.exp_pos _) ⟨0, Finset.mem_range.2 (hpos v (Finset.mem_filter.1 hv).1)⟩
    simp only [hbdef, gibbs_eq]
    rw [← Finset.sum_div, div_self hZ.ne']
  have hval : ∀ y ∈ assignments (vars.filter (fun v => par v = none)) (fun _ => 0), ∀ v ∈ vars, y v < v.n := by
    intro y hy v hv
    by_cases h1 : v ∈ vars.filter (fun v => par v = none)
    · exact (mem_assignments.1 hy).1 v h1
    · rw [(mem_assignments.1 hy).2 v h1]
      exact hpos v hv
  have hPnn : ∀ y : Var → Nat, 0 ≤ ∏ v ∈ vars with par v = none, b v (y v) := fun y => Finset.prod_nonneg fun v _ => hbnn _ _
  rw [hZ, sub_eq_add_neg, Real.exp_add, Real.exp_add]
  constructor
  · refine mul_le_mul_of_nonneg_left ?_ (Real.exp_pos _).le
    calc _ = ∑ y ∈ assignments (vars.filter (fun v => par v = none)) (fun _ => 0), (∏ v ∈ vars with par v = none, b v (y v)) * Real.exp (-∑ f ∈ Finset.range factors.length, δ f) := by
          rw [← Finset.sum_mul, hone, one_mul]
      _ ≤ _ := Finset.sum_le_sum fun y hy => mul_le_mul_of_nonneg_left (hQ' y (hval y hy)).1 (hPnn y)
  · refine mul_le_mul_of_nonneg_left ?_ (Real.exp_pos _).le
    calc _ ≤ ∑ y ∈ assignments (vars.filter (fun v => par v = none)) (fun _ => 0), (∏ v ∈ vars with par v = none, b v (y v)) * Real.exp (∑ f ∈ Finset.range factors.length, δ f) :=
          Finset.sum_le_sum fun y hy => mul_le_mul_of_nonneg_left (hQ' y (hval y hy)).2 (hPnn y)
      _ = _ := by rw [← Finset.sum_mul, hone, one_mul]

/-- In a forest, messages upwards that are log-sums make the distributions of factors and variables nearly agree. -/
theorem RootedForest.prob_up (hR : RootedForest (factors.map (·.scope)) up par ht) (hT : 0 < T)
    (hrow : ∀ F ∈ factors, ∀ r ∈ F.rows, List.Forall₂ (fun s (v : Var) => s < v.n) r.1 F.scope) {K ε : Nat → ℝ} (hfix : SumUp T factors up ev m K ε)
    (f : Nat) (F : SFac ℝ) (v : Var) (hF : factors[f]? = some F) (hi : F.scope[up f]? = some v) (s : Nat) (hs : s < v.n) :
    gibbs (fun s => beliefOf (factors.map (·.scope)) ev m v s / T) v.n s * Real.exp (-(ε f / T)) ≤ F.prob T (tbIn factors ev m f F) (up f) s ∧
      F.prob T (tbIn factors ev m f F) (up f) s ≤ gibbs (fun s => beliefOf (factors.map (·.scope)) ev m v s / T) v.n s * Real.exp (ε f / T) := by
  have hrow := hrow F (List.mem_of_getElem? hF)
  have hil := (List.getElem?_eq_some_iff.1 hi).1
  have hsplit : (F.rows.map (rowWeight T F.scope.length (tbIn factors ev m f F))).sum =
      ∑ t ∈ Finset.range v.n, ((F.rowsAt (up f) t).map (rowWeight T F.scope.length (tbIn factors ev m f F))).sum := by
    refine sum_by_state (up f) v.n _ F.rows fun r hr => ?_
    have hl := (hrow r hr).length_eq
    obtain ⟨w, hw, hlt⟩ := forall₂_getElem? (hrow r hr) (List.getElem?_eq_getElem (show up f < r.1.length by rw [hl]; exact hil))
    rw [hi] at hw
    cases hw
    exact ⟨_, hlt, List.getElem?_eq_getElem _⟩
  unfold SFac.prob
  rw [hsplit]
  have hw : ∀ t < v.n, Real.exp (beliefOf (factors.map (·.scope)) ev m v t / T + K f / T - ε f / T) ≤ ((F.rowsAt (up f) t).map (rowWeight T F.scope.length (tbIn factors ev m f F))).sum ∧
      ((F.rowsAt (up f) t).map (rowWeight T F.scope.length (tbIn factors ev m f F))).sum ≤ Real.exp (beliefOf (factors.map (·.scope)) ev m v t / T + K f / T + 0) := by
    intro t ht
    obtain ⟨hne, h3, h4⟩ := hfix f F v hF hi t ht
    rw [← List.map_congr_left (g := fun r => r.2 + ∑ j ∈ Finset.range F.scope.length with j ≠ up f,
      upSum (factors.map (·.scope)) up ev m (varOn (factors.map (·.scope)) f j) (r.1.getD j 0)) fun r _ => hR.scoreBut_eq hF ev m r] at h3 h4
    have h7 : beliefOf (factors.map (·.scope)) ev m v t = tbIn factors ev m f F (up f) t + m f (up f) t := by
      rw [tbIn_at hi]
      exact belief_eq ev m ⟨F.scope, by rw [List.getElem?_map, hF]; rfl, hi⟩ t
    rw [sum_rowWeight hT hil _ t hne (fun r hr => of_decide_eq_true (List.mem_filter.1 hr).2), add_zero, ← add_div, ← sub_div]
    refine ⟨Real.exp_le_exp.2 (div_le_div_of_nonneg_right ?_ hT.le), Real.exp_le_exp.2 (div_le_div_of_nonneg_right ?_ hT.le)⟩ <;> linarith
  have key := gibbs_near (B := fun t => beliefOf (factors.map (·.scope)) ev m v t / T) hw hs
  rw [add_zero] at key
  exact key

end

theorem beliefOf_agreeOn {scopes : List (List Var)} {m m' : Msgs ℝ} (hA : AgreeOn scopes m m') (ev : Var → Nat → ℝ) {v : Var} {s : Nat} (hs : s < v.n) : beliefOf scopes ev m v s = beliefOf scopes ev m' v s := by
  unfold beliefOf
  congr 2
  refine List.map_congr_left fun e he => ?_
  exact hA e.1 e.2 v s ((mem_edgesOf _ _ _ _).1 he) hs

/-- The weights of configurations depend only on the messages on edges. -/
theorem rowWeight_agreeOn {m m' : Msgs ℝ} (hA : AgreeOn (factors.map (·.scope)) m m') (hrow : ∀ F ∈ factors, ∀ r ∈ F.rows, List.Forall₂ (fun s (v : Var) => s < v.n) r.1 F.scope)
    {f : Nat} {F : SFac ℝ} (hF : factors[f]? = some F) {r : List Nat × ℝ} (hr : r ∈ F.rows) :
    rowWeight T F.scope.length (tbIn factors ev m f F) r = rowWeight T F.scope.length (tbIn factors ev m' f F) r := by
  unfold rowWeight
  congr 3
  refine Finset.sum_congr rfl fun i hi => ?_
  have hi := Finset.mem_range.1 hi
  have hfit := hrow F (List.mem_of_getElem? hF) r hr
  have hlt : i < r.1.length := by rw [hfit.length_eq]; exact hi
  obtain ⟨w, hw, hs⟩ := forall₂_getElem? hfit (List.getElem?_eq_getElem hlt)
  rw [List.getElem?_eq_getElem hi] at hw
  cases hw
  rw [List.getD_eq_getElem _ _ hlt, tbIn_belief hF hi, tbIn_belief hF hi, List.getD_eq_getElem _ _ hi, beliefOf_agreeOn hA ev hs,
    hA f i _ _ ⟨F.scope, getElem?_scopes hF, List.getElem?_eq_getElem hi⟩ hs]

theorem assignProb_agreeOn {m m' : Msgs ℝ} (hA : AgreeOn (factors.map (·.scope)) m m') (hrow : ∀ F ∈ factors, ∀ r ∈ F.rows, List.Forall₂ (fun s (v : Var) => s < v.n) r.1 F.scope)
    {f : Nat} {F : SFac ℝ} (hF : factors[f]? = some F) (x : Var → Nat) :
    F.assignProb T (tbIn factors ev m f F) x = F.assignProb T (tbIn factors ev m' f F) x := by
  unfold SFac.assignProb
  rw [List.map_congr_left (f := rowWeight T F.scope.length (tbIn factors ev m f F)) (g := rowWeight T F.scope.length (tbIn factors ev m' f F)) fun r hr => rowWeight_agreeOn hA hrow hF (List.mem_of_mem_filter hr),
    List.map_congr_left (f := rowWeight T F.scope.length (tbIn factors ev m f F)) (g := rowWeight T F.scope.length (tbIn factors ev m' f F)) fun r hr => rowWeight_agreeOn hA hrow hF hr]

/-- The totals depend only on the messages on edges. -/
theorem betheLogTotal_congr {m m' : Msgs ℝ} (hA : AgreeOn (factors.map (·.scope)) m m') (hrow : ∀ F ∈ factors, ∀ r ∈ F.rows, List.Forall₂ (fun s (v : Var) => s < v.n) r.1 F.scope) :
    betheLogTotal T vars factors ev m = betheLogTotal T vars factors ev m' := by
  unfold betheLogTotal
  congr 1
  · refine Finset.sum_congr rfl fun f hf => ?_
    have hF := List.getElem?_eq_getElem (Finset.mem_range.1 hf)
    generalize factors[f]'(Finset.mem_range.1 hf) = F at hF
    rw [getD_of_some hF]
    congr 2
    exact List.map_congr_left fun r hr => rowWeight_agreeOn hA hrow hF hr
  · refine Finset.sum_congr rfl fun v _ => ?_
    congr 2
    refine Finset.sum_congr rfl fun s hs => ?_
    rw [beliefOf_agreeOn hA ev (Finset.mem_range.1 hs)]

/-- An acyclic factor graph is a forest of height at most the number of factors. -/
theorem exists_rootedForest {scopes : List (List Var)} (hG : (bipartite scopes).IsAcyclic) (hnd : ∀ vs ∈ scopes, vs.Nodup) (hne : ∀ vs ∈ scopes, vs ≠ []) {n : Nat} (hn : scopes.length ≤ n) :
    ∃ up par ht, RootedForest scopes up par ht ∧ ∀ f < scopes.length, ht f < n := by
  rcases Nat.eq_zero_or_pos scopes.length with h0 | h0
  · have : scopes = [] := List.eq_nil_of_length_eq_zero h0
    subst this
    refine ⟨fun _ => 0, fun _ => none, fun _ => 0, ⟨?_, ?_, ?_⟩, ?_⟩
    · intro f vs h
      cases h
    · intro v f j
      constructor
      · intro h
        cases h
      · rintro ⟨⟨vs, h, -⟩, -⟩
        cases h
    · intro v f j g h
      cases h
    · intro f hf
      cases hf
  · have hd : ∀ v f, (bipartite scopes).dist (.inl v) (.inr f) < 2 * n := fun v f => lt_of_lt_of_le (dist_lt_factors v f h0) (by omega)
    obtain ⟨hR, -, hht⟩ := rootedForest hG hnd hne ⟨0, 0⟩ n (hd _) (fun v f _ => hd v f)
    exact ⟨_, _, _, hR, hht⟩

end PGMax
