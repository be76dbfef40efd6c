import Verif.Spec.Bethe
import Verif.Lemmas.Consistent
import Verif.Lemmas.SumTree
import Mathlib.Analysis.SpecialFunctions.Log.Deriv

/-! # Distributions of variables and factors: reparametrisation, and the Bethe free energy -/

namespace PGMax

variable {factors : List (SFac ℝ)} {vars : Finset Var} {ev : Var → Nat → ℝ} {m : Msgs ℝ} {T : ℝ}

theorem scopes_vars' (hvars : ∀ F ∈ factors, ∀ v ∈ F.scope, v ∈ vars) : ∀ vs ∈ factors.map (·.scope), ∀ v ∈ vs, v ∈ vars := by
  intro vs hvs v hv
  obtain ⟨F, hF, rfl⟩ := List.mem_map.1 hvs
  exact hvars F hF v hv

/-- The message of a variable to a factor is its belief without the message of the factor. -/
theorem tbIn_belief {f : Nat} {F : SFac ℝ} (hF : factors[f]? = some F) {i : Nat} (hi : i < F.scope.length) (s : Nat) :
    tbIn factors ev m f F i s = beliefOf (factors.map (·.scope)) ev m (F.scope.getD i ⟨0, 0⟩) s - m f i s := by
  have h := List.getElem?_eq_getElem hi
  rw [tbIn_at h, List.getD_eq_getElem _ _ hi]
  have := belief_eq ev m (f := f) (i := i) (v := F.scope[i]) (scopes := factors.map (·.scope)) ⟨F.scope, by rw [List.getElem?_map, hF]; rfl, h⟩ s
  linarith

theorem edges_sum_sub (l : List (Nat × Nat)) (B : ℝ) (g : Nat × Nat → ℝ) : (l.map (fun e => B - g e)).sum = l.length * B - (l.map g).sum := by
  induction l with
  | nil => simp
  | cons e l ih =>
    simp only [List.map_cons, List.sum_cons, List.length_cons, ih]
    push_cast
    ring

/-- The sum of `h` times the messages that go to all factors. -/
theorem in_total (hvars : ∀ F ∈ factors, ∀ v ∈ F.scope, v ∈ vars) (w : Var → Nat → ℝ) :
    ∑ f ∈ Finset.range factors.length, ∑ i ∈ Finset.range (factors.getD f ⟨[], []⟩).scope.length,
        ∑ s ∈ Finset.range ((factors.getD f ⟨[], []⟩).scope.getD i ⟨0, 0⟩).n, w ((factors.getD f ⟨[], []⟩).scope.getD i ⟨0, 0⟩) s * tbIn factors ev m f (factors.getD f ⟨[], []⟩) i s =
      ∑ v ∈ vars, ∑ s ∈ Finset.range v.n, w v s * (ev v s + ((degree (factors.map (·.scope)) v : ℝ) - 1) * beliefOf (factors.map (·.scope)) ev m v s) := by
  have h1 := sum_by_factors (factors.map (·.scope)) vars (scopes_vars' hvars) (fun f i v => ∑ s ∈ Finset.range v.n, w v s * (beliefOf (factors.map (·.scope)) ev m v s - m f i s))
  have h2 : ∀ v ∈ vars, ((edgesOf (factors.map (·.scope)) v).map (fun e => ∑ s ∈ Finset.range v.n, w v s * (beliefOf (factors.map (·.scope)) ev m v s - m e.1 e.2 s))).sum =
      ∑ s ∈ Finset.range v.n, w v s * (ev v s + ((degree (factors.map (·.scope)) v : ℝ) - 1) * beliefOf (factors.map (·.scope)) ev m v s) := by
    intro v _
    have e1 : ∀ l : List (Nat × Nat), (l.map (fun e => ∑ s ∈ Finset.range v.n, w v s * (beliefOf (factors.map (·.scope)) ev m v s - m e.1 e.2 s))).sum =
        ∑ s ∈ Finset.range v.n, w v s * (l.map (fun e => beliefOf (factors.map (·.scope)) ev m v s - m e.1 e.2 s)).sum := by
      intro l
      induction l with
      | nil => simp
      | cons e l ih =>
        simp only [List.map_cons, List.sum_cons, ih, ← Finset.sum_add_distrib]
        exact Finset.sum_congr rfl fun s _ => by ring
    rw [e1]
    refine Finset.sum_congr rfl fun s _ => ?_
    rw [edges_sum_sub _ _ (fun e => m e.1 e.2 s)]
    have e2 : beliefOf (factors.map (·.scope)) ev m v s = ev v s + ((edgesOf (factors.map (·.scope)) v).map (fun e => m e.1 e.2 s)).sum := rfl
    unfold degree
    linear_combination (w v s) * e2
  rw [Finset.sum_congr rfl h2, List.length_map] at h1
  rw [h1]
  refine Finset.sum_congr rfl fun f hf => ?_
  obtain ⟨F, hF⟩ : ∃ F, factors[f]? = some F := ⟨_, List.getElem?_eq_getElem (Finset.mem_range.1 hf)⟩
  have e1 : factors.getD f ⟨[], []⟩ = F := by rw [List.getD, hF]; rfl
  have e2 : (factors.map (·.scope)).getD f [] = F.scope := by rw [List.getD, List.getElem?_map, hF]; rfl
  rw [e1, e2]
  refine Finset.sum_congr rfl fun i hi => Finset.sum_congr rfl fun s _ => ?_
  rw [tbIn_belief hF (Finset.mem_range.1 hi)]

/-- The total weight of a factor is positive. -/
theorem rowTotal_pos {F : SFac ℝ} (hne : F.rows ≠ []) (T : ℝ) (q : Nat → Nat → ℝ) : 0 < (F.rows.map (rowWeight T F.scope.length q)).sum :=
  List.sum_pos _ (fun x hx => by
    obtain ⟨y, -, rfl⟩ := List.mem_map.1 hx
    exact Real.exp_pos _) (by simpa using hne)

theorem rowProb_pos {F : SFac ℝ} (T : ℝ) (q : Nat → Nat → ℝ) {k : Nat} (hk : k < F.rows.length) : 0 < F.rowProb T q k :=
  div_pos (Real.exp_pos _) (rowTotal_pos (List.ne_nil_of_length_pos (by omega)) T q)

theorem log_rowProb (hT : 0 < T) {F : SFac ℝ} (q : Nat → Nat → ℝ) {k : Nat} (hk : k < F.rows.length) :
    T * Real.log (F.rowProb T q k) = (F.rows.getD k ([], 0)).2 + ∑ i ∈ Finset.range F.scope.length, q i ((F.rows.getD k ([], 0)).1.getD i 0)
      - T * Real.log (F.rows.map (rowWeight T F.scope.length q)).sum := by
  have hZ := rowTotal_pos (F := F) (List.ne_nil_of_length_pos (by omega)) T q
  unfold SFac.rowProb
  rw [Real.log_div (by exact (Real.exp_pos _).ne') hZ.ne']
  conv_lhs => rw [rowWeight]
  rw [Real.log_exp]
  field_simp

theorem log_gibbs (hT : 0 < T) (B : Nat → ℝ) {n s : Nat} (hs : s < n) :
    T * Real.log (gibbs (fun s => B s / T) n s) = B s - T * Real.log (∑ t ∈ Finset.range n, Real.exp (B t / T)) := by
  have hZ : 0 < ∑ t ∈ Finset.range n, Real.exp (B t / T) := Finset.sum_pos (fun t _ => Real.exp_pos _) ⟨s, Finset.mem_range.2 hs⟩
  rw [gibbs_eq, Real.log_div (Real.exp_pos _).ne' hZ.ne', Real.log_exp]
  field_simp

theorem gibbs_pos (f : Nat → ℝ) {n s : Nat} (hs : s < n) : 0 < gibbs f n s := by
  rw [gibbs_eq]
  exact div_pos (Real.exp_pos _) (Finset.sum_pos (fun t _ => Real.exp_pos _) ⟨s, Finset.mem_range.2 hs⟩)

/-- A sum over the configurations of a factor, by the state of position `i`. -/
theorem sum_rowPlaces {F : SFac ℝ} (hrow : ∀ r ∈ F.rows, List.Forall₂ (fun s (v : Var) => s < v.n) r.1 F.scope) {i : Nat} {v : Var} (hi : F.scope[i]? = some v) (P : Nat → ℝ) (g : Nat → ℝ) :
    ∑ k ∈ Finset.range F.rows.length, P k * g ((F.rows.getD k ([], 0)).1.getD i 0) = ∑ s ∈ Finset.range v.n, (∑ k ∈ F.placesAt i s, P k) * g s := by
  have hst : ∀ k < F.rows.length, ∃ s < v.n, (F.rows.getD k ([], 0)).1[i]? = some s := by
    intro k hk
    have hr : F.rows.getD k ([], 0) ∈ F.rows := by rw [List.getD_eq_getElem _ _ hk]; exact List.getElem_mem hk
    have hl := (hrow _ hr).length_eq
    obtain ⟨w, hw, hlt⟩ := forall₂_getElem? (hrow _ hr) (List.getElem?_eq_getElem (show i < (F.rows.getD k ([], 0)).1.length by rw [hl]; exact (List.getElem?_eq_some_iff.1 hi).1))
    rw [hi] at hw
    cases hw
    exact ⟨_, hlt, List.getElem?_eq_getElem _⟩
  have hmap : ∀ k ∈ Finset.range F.rows.length, (F.rows.getD k ([], 0)).1.getD i 0 ∈ Finset.range v.n := by
    intro k hk
    obtain ⟨s, hs, e⟩ := hst k (Finset.mem_range.1 hk)
    rw [List.getD, e]
    exact Finset.mem_range.2 hs
  rw [← Finset.sum_fiberwise_of_maps_to hmap]
  refine Finset.sum_congr rfl fun s _ => ?_
  rw [Finset.sum_mul]
  have hset : (Finset.range F.rows.length).filter (fun k => (F.rows.getD k ([], 0)).1.getD i 0 = s) = F.placesAt i s := by
    unfold SFac.placesAt
    refine Finset.filter_congr fun k hk => ?_
    obtain ⟨t, -, e⟩ := hst k (Finset.mem_range.1 hk)
    rw [List.getD, e]
    simp
  rw [hset]
  refine Finset.sum_congr rfl fun k hk => ?_
  have := (Finset.mem_filter.1 hk).2
  rw [List.getD, this]
  rfl

/-- Averages of the logarithms of the distributions, for any numbers that are locally consistent. -/
theorem bethe_linear (hT : 0 < T) (hvars : ∀ F ∈ factors, ∀ v ∈ F.scope, v ∈ vars) (hrow : ∀ F ∈ factors, ∀ r ∈ F.rows, List.Forall₂ (fun s (v : Var) => s < v.n) r.1 F.scope)
    {c : ℝ} {P : Nat → Nat → ℝ} {b : Var → Nat → ℝ} (hC : LocallyConsistent vars factors c P b) :
    ∑ f ∈ Finset.range factors.length, ∑ k ∈ Finset.range (factors.getD f ⟨[], []⟩).rows.length, P f k *
        (T * Real.log ((factors.getD f ⟨[], []⟩).rowProb T (tbIn factors ev m f (factors.getD f ⟨[], []⟩)) k) - ((factors.getD f ⟨[], []⟩).rows.getD k ([], 0)).2)
      - ∑ v ∈ vars, ∑ s ∈ Finset.range v.n, b v s *
        (ev v s + ((degree (factors.map (·.scope)) v : ℝ) - 1) * (T * Real.log (gibbs (fun s => beliefOf (factors.map (·.scope)) ev m v s / T) v.n s))) =
      - c * T * betheLogTotal T vars factors ev m := by
  have h1 : ∀ f ∈ Finset.range factors.length, ∑ k ∈ Finset.range (factors.getD f ⟨[], []⟩).rows.length, P f k *
        (T * Real.log ((factors.getD f ⟨[], []⟩).rowProb T (tbIn factors ev m f (factors.getD f ⟨[], []⟩)) k) - ((factors.getD f ⟨[], []⟩).rows.getD k ([], 0)).2) =
      ∑ i ∈ Finset.range (factors.getD f ⟨[], []⟩).scope.length,
        ∑ s ∈ Finset.range ((factors.getD f ⟨[], []⟩).scope.getD i ⟨0, 0⟩).n, b ((factors.getD f ⟨[], []⟩).scope.getD i ⟨0, 0⟩) s * tbIn factors ev m f (factors.getD f ⟨[], []⟩) i s
      - c * T * Real.log ((factors.getD f ⟨[], []⟩).rows.map (rowWeight T (factors.getD f ⟨[], []⟩).scope.length (tbIn factors ev m f (factors.getD f ⟨[], []⟩)))).sum := by
    intro f hf
    obtain ⟨F, hF⟩ : ∃ F, factors[f]? = some F := ⟨_, List.getElem?_eq_getElem (Finset.mem_range.1 hf)⟩
    have e1 : factors.getD f ⟨[], []⟩ = F := by rw [List.getD, hF]; rfl
    rw [e1]
    generalize tbIn factors ev m f F = q
    have e2 : ∀ k ∈ Finset.range F.rows.length, P f k * (T * Real.log (F.rowProb T q k) - (F.rows.getD k ([], 0)).2) =
        ∑ i ∈ Finset.range F.scope.length, P f k * q i ((F.rows.getD k ([], 0)).1.getD i 0) - P f k * (T * Real.log (F.rows.map (rowWeight T F.scope.length q)).sum) := by
      intro k hk
      rw [log_rowProb hT q (Finset.mem_range.1 hk), ← Finset.mul_sum]
      ring
    rw [Finset.sum_congr rfl e2, Finset.sum_sub_distrib, Finset.sum_comm, ← Finset.sum_mul, hC.tables f F hF, ← mul_assoc]
    congr 1
    refine Finset.sum_congr rfl fun i hi => ?_
    have hi := List.getElem?_eq_getElem (Finset.mem_range.1 hi)
    rw [sum_rowPlaces (hrow F (List.mem_of_getElem? hF)) hi]
    rw [List.getD, hi]
    exact Finset.sum_congr rfl fun s hs => by rw [hC.edges f F i _ hF hi s (Finset.mem_range.1 hs)]; rfl
  have h2 : ∀ v ∈ vars, ∑ s ∈ Finset.range v.n, b v s *
        (ev v s + ((degree (factors.map (·.scope)) v : ℝ) - 1) * (T * Real.log (gibbs (fun s => beliefOf (factors.map (·.scope)) ev m v s / T) v.n s))) =
      ∑ s ∈ Finset.range v.n, b v s * (ev v s + ((degree (factors.map (·.scope)) v : ℝ) - 1) * beliefOf (factors.map (·.scope)) ev m v s)
        - c * T * (((degree (factors.map (·.scope)) v : ℝ) - 1) * Real.log (∑ s ∈ Finset.range v.n, Real.exp (beliefOf (factors.map (·.scope)) ev m v s / T))) := by
    intro v hv
    rw [← hC.states v hv, Finset.sum_mul, Finset.sum_mul, ← Finset.sum_sub_distrib]
    refine Finset.sum_congr rfl fun s hs => ?_
    rw [log_gibbs hT _ (Finset.mem_range.1 hs)]
    ring
  rw [Finset.sum_congr rfl h1, Finset.sum_congr rfl h2, Finset.sum_sub_distrib, Finset.sum_sub_distrib, in_total hvars b, ← Finset.mul_sum, ← Finset.mul_sum]
  unfold betheLogTotal
  ring

/-- The derivative of `p ↦ p (T log p - c)` along a line. -/
theorem hasDerivAt_term (T c : ℝ) {p : ℝ} (hp : 0 < p) (δ : ℝ) : HasDerivAt (fun t : ℝ => (p + t * δ) * (T * Real.log (p + t * δ) - c)) (δ * (T * Real.log p - c) + T * δ) 0 := by
  have h1 : HasDerivAt (fun t : ℝ => p + t * δ) δ 0 := by simpa using ((hasDerivAt_id (0 : ℝ)).mul_const δ).const_add p
  have h0 : p + (0 : ℝ) * δ = p := by ring
  have h2 := (h1.mul (((h1.log (by rw [h0]; exact hp.ne')).const_mul T).sub_const c))
  rw [h0] at h2
  refine h2.congr_deriv ?_
  field_simp

/-- The distributions are a stationary point of the Bethe free energy. -/
theorem bethe_stationary (hT : 0 < T) (hvars : ∀ F ∈ factors, ∀ v ∈ F.scope, v ∈ vars) (hrow : ∀ F ∈ factors, ∀ r ∈ F.rows, List.Forall₂ (fun s (v : Var) => s < v.n) r.1 F.scope)
    {P : Nat → Nat → ℝ} {b : Var → Nat → ℝ} (hC : LocallyConsistent vars factors 0 P b) :
    HasDerivAt (fun t : ℝ => betheEnergy T vars factors ev (fun f k => (factors.getD f ⟨[], []⟩).rowProb T (tbIn factors ev m f (factors.getD f ⟨[], []⟩)) k + t * P f k)
      (fun v s => gibbs (fun s => beliefOf (factors.map (·.scope)) ev m v s / T) v.n s + t * b v s)) 0 0 := by
  have key := bethe_linear (ev := ev) (m := m) hT hvars hrow hC
  have hd : HasDerivAt (fun t : ℝ => betheEnergy T vars factors ev (fun f k => (factors.getD f ⟨[], []⟩).rowProb T (tbIn factors ev m f (factors.getD f ⟨[], []⟩)) k + t * P f k)
      (fun v s => gibbs (fun s => beliefOf (factors.map (·.scope)) ev m v s / T) v.n s + t * b v s))
      (∑ f ∈ Finset.range factors.length, ∑ k ∈ Finset.range (factors.getD f ⟨[], []⟩).rows.length, (P f k *
        (T * Real.log ((factors.getD f ⟨[], []⟩).rowProb T (tbIn factors ev m f (factors.getD f ⟨[], []⟩)) k) - ((factors.getD f ⟨[], []⟩).rows.getD k ([], 0)).2) + T * P f k)
      - ∑ v ∈ vars, ∑ s ∈ Finset.range v.n, (b v s *
        (ev v s + ((degree (factors.map (·.scope)) v : ℝ) - 1) * (T * Real.log (gibbs (fun s => beliefOf (factors.map (·.scope)) ev m v s / T) v.n s))) +
          ((degree (factors.map (·.scope)) v : ℝ) - 1) * T * b v s)) 0 := by
    unfold betheEnergy
    refine HasDerivAt.sub ?_ ?_
    · refine HasDerivAt.fun_sum fun f _ => HasDerivAt.fun_sum fun k hk => ?_
      exact hasDerivAt_term T _ (rowProb_pos T _ (Finset.mem_range.1 hk)) (P f k)
    · refine HasDerivAt.fun_sum fun v _ => HasDerivAt.fun_sum fun s hs => ?_
      have := hasDerivAt_term (((degree (factors.map (·.scope)) v : ℝ) - 1) * T) (-ev v s) (gibbs_pos (fun s => beliefOf (factors.map (·.scope)) ev m v s / T) (Finset.mem_range.1 hs)) (b v s)
      refine (this.congr_deriv ?_).congr_of_eventuallyEq (Filter.Eventually.of_forall fun t => ?_)
      · ring
      · ring
  refine hd.congr_deriv ?_
  have h1 : ∀ f ∈ Finset.range factors.length, ∑ k ∈ Finset.range (factors.getD f ⟨[], []⟩).rows.length, T * P f k = 0 := by
    intro f hf
    have hF := List.getElem?_eq_getElem (Finset.mem_range.1 hf)
    rw [List.getD, hF, ← Finset.mul_sum]
    have := hC.tables f _ hF
    rw [Option.getD_some, this, mul_zero]
  have h2 : ∀ v ∈ vars, ∑ s ∈ Finset.range v.n, ((degree (factors.map (·.scope)) v : ℝ) - 1) * T * b v s = 0 := by
    intro v hv
    rw [← Finset.mul_sum, hC.states v hv, mul_zero]
  simp only [Finset.sum_add_distrib]
  rw [Finset.sum_congr rfl h1, Finset.sum_congr rfl h2]
  simp only [Finset.sum_const_zero, add_zero]
  rw [key]
  ring

end PGMax
