import Verif.Lemmas.Ring
import Verif.Lemmas.BetheTree
import Verif.Spec.Ring

/-! # Sums over the joint assignments of a ring -/

namespace PGMax

variable {factors : List (SFac ℝ)} {vars : Finset Var} {ev : Var → Nat → ℝ} {m : Msgs ℝ} {T : ℝ} {n : Nat} {v : Nat → Var}

/-- The probability of a configuration of two states. -/
noncomputable def SFac.pairProb (T : ℝ) (F : SFac ℝ) (q : Nat → Nat → ℝ) (s t : Nat) : ℝ :=
  ((F.rows.filter (fun r => r.1 = [s, t])).map (rowWeight T F.scope.length q)).sum / (F.rows.map (rowWeight T F.scope.length q)).sum

theorem pairProb_nonneg (T : ℝ) (F : SFac ℝ) (q : Nat → Nat → ℝ) (s t : Nat) : 0 ≤ F.pairProb T q s t := by
  refine div_nonneg (List.sum_nonneg ?_) (List.sum_nonneg ?_) <;>
  · intro z hz
    obtain ⟨r, -, rfl⟩ := List.mem_map.1 hz
    exact (Real.exp_pos _).le

theorem assignProb_pair {F : SFac ℝ} {v w : Var} (hF : F.scope = [v, w]) (T : ℝ) (q : Nat → Nat → ℝ) (x : Var → Nat) : F.assignProb T q x = F.pairProb T q (x v) (x w) := by
  unfold SFac.assignProb SFac.pairProb
  rw [hF]
  rfl

theorem two_of_fits {F : SFac ℝ} {v w : Var} (hF : F.scope = [v, w]) (hrow : ∀ r ∈ F.rows, List.Forall₂ (fun s (v : Var) => s < v.n) r.1 F.scope) {r : List Nat × ℝ} (hr : r ∈ F.rows) :
    ∃ s t, r.1 = [s, t] ∧ s < v.n ∧ t < w.n := by
  have h := hrow r hr
  rw [hF] at h
  obtain ⟨c, p⟩ := r
  match c, h with
  | [s, t], .cons h1 (.cons h2 .nil) => exact ⟨s, t, rfl, h1, h2⟩

theorem pair_left {F : SFac ℝ} {v w : Var} (hF : F.scope = [v, w]) (hrow : ∀ r ∈ F.rows, List.Forall₂ (fun s (v : Var) => s < v.n) r.1 F.scope) (T : ℝ) (q : Nat → Nat → ℝ) (s : Nat) :
    ∑ t ∈ Finset.range w.n, F.pairProb T q s t = F.prob T q 0 s := by
  unfold SFac.pairProb SFac.prob SFac.rowsAt
  rw [← Finset.sum_div, sum_by_state 1 w.n _ (F.rows.filter _) fun r hr => by
    obtain ⟨s, t, e, -, ht⟩ := two_of_fits hF hrow (List.mem_filter.1 hr).1
    exact ⟨t, ht, by rw [e]; rfl⟩]
  congr 1
  refine Finset.sum_congr rfl fun t _ => ?_
  rw [List.filter_filter]
  congr 2
  refine List.filter_congr fun r hr => ?_
  obtain ⟨s', t', e, -, -⟩ := two_of_fits hF hrow hr
  rw [e]
  simp only [List.getElem?_cons_zero, List.getElem?_cons_succ, Option.some.injEq, List.cons.injEq, and_true, Bool.decide_and]
  exact Bool.and_comm ..

theorem pair_right {F : SFac ℝ} {v w : Var} (hF : F.scope = [v, w]) (hrow : ∀ r ∈ F.rows, List.Forall₂ (fun s (v : Var) => s < v.n) r.1 F.scope) (T : ℝ) (q : Nat → Nat → ℝ) (t : Nat) :
    ∑ s ∈ Finset.range v.n, F.pairProb T q s t = F.prob T q 1 t := by
  unfold SFac.pairProb SFac.prob SFac.rowsAt
  rw [← Finset.sum_div, sum_by_state 0 v.n _ (F.rows.filter _) fun r hr => by
    obtain ⟨s, t, e, hs, -⟩ := two_of_fits hF hrow (List.mem_filter.1 hr).1
    exact ⟨s, hs, by rw [e]; rfl⟩]
  congr 1
  refine Finset.sum_congr rfl fun s _ => ?_
  rw [List.filter_filter]
  congr 2
  refine List.filter_congr fun r hr => ?_
  obtain ⟨s', t', e, -, -⟩ := two_of_fits hF hrow hr
  rw [e]
  simp

theorem gibbs_total' (B : Nat → ℝ) {n : Nat} (hn : 0 < n) : ∑ s ∈ Finset.range n, gibbs B n s = 1 := by
  unfold gibbs
  rw [← Finset.sum_div]
  exact div_self (Finset.sum_pos (fun _ _ => Real.exp_pos _) ⟨0, Finset.mem_range.2 hn⟩).ne'

namespace IsRing

theorem scope_at (hr : IsRing vars (factors.map (·.scope)) n v) {k : Nat} (hk : k < n) : ∃ F, factors[k]? = some F ∧ F.scope = [v k, v ((k + 1) % n)] := by
  have h := congrArg (fun l => l[k]?) hr.scopes
  simp only [List.getElem?_map, List.getElem?_range hk, Option.map_some] at h
  obtain ⟨F, h1, h2⟩ := Option.map_eq_some_iff.1 h
  exact ⟨F, h1, h2⟩

theorem length (hr : IsRing vars (factors.map (·.scope)) n v) : factors.length = n := by
  have := congrArg List.length hr.scopes
  simpa using this

theorem vars_eq (hr : IsRing vars (factors.map (·.scope)) n v) : vars = (Finset.range n).image v := by
  ext w
  rw [hr.mem, Finset.mem_image]
  constructor
  · rintro ⟨k, hk, rfl⟩
    exact ⟨k, Finset.mem_range.2 hk, rfl⟩
  · rintro ⟨k, hk, rfl⟩
    exact ⟨k, Finset.mem_range.1 hk, rfl⟩

theorem prod_vars (hr : IsRing vars (factors.map (·.scope)) n v) (g : Var → ℝ) : ∏ w ∈ vars, g w = ∏ k ∈ Finset.range n, g (v k) := by
  rw [hr.vars_eq, Finset.prod_image fun i hi j hj e => hr.inj i (Finset.mem_range.1 hi) j (Finset.mem_range.1 hj) e]

theorem degree_two (hr : IsRing vars (factors.map (·.scope)) n v) {k : Nat} (hk : k < n) : degree (factors.map (·.scope)) (v k) = 2 := by
  unfold degree
  have hn := hr.pos
  have hp : (edgesOf (factors.map (·.scope)) (v k)).Perm [(k, 0), ((k + n - 1) % n, 1)] := by
    refine (List.perm_ext_iff_of_nodup (edgesOf_nodup ..) (by simp)).2 fun ⟨f, i⟩ => ?_
    rw [mem_edgesOf, hr.scopes]
    simp only [List.mem_cons, List.not_mem_nil, or_false, Prod.mk.injEq]
    have hmod : ((k + n - 1) % n + 1) % n = k := by
      rcases Nat.eq_zero_or_pos k with rfl | h0
      · rw [Nat.mod_eq_of_lt (by omega : 0 + n - 1 < n), show 0 + n - 1 + 1 = n by omega, Nat.mod_self]
      · rw [show k + n - 1 = k - 1 + n by omega, Nat.add_mod_right, Nat.mod_eq_of_lt (by omega : k - 1 < n), show k - 1 + 1 = k by omega, Nat.mod_eq_of_lt hk]
    constructor
    · rintro ⟨vs, h1, h2⟩
      rw [List.getElem?_map] at h1
      obtain ⟨f', h3, rfl⟩ := Option.map_eq_some_iff.1 h1
      obtain ⟨hf, h4⟩ := List.getElem?_eq_some_iff.1 h3
      rw [List.length_range] at hf
      rw [List.getElem_range] at h4
      subst h4
      match i, h2 with
      | 0, h2 =>
        have h2 : some (v f) = some (v k) := h2
        exact .inl ⟨hr.inj f hf k hk (Option.some.inj h2), rfl⟩
      | 1, h2 =>
        have h2 : some (v ((f + 1) % n)) = some (v k) := h2
        have := hr.inj _ (Nat.mod_lt _ hn) k hk (Option.some.inj h2)
        refine .inr ⟨?_, rfl⟩
        subst this
        rcases Nat.lt_or_ge (f + 1) n with h | h
        · rw [Nat.mod_eq_of_lt h, show f + 1 + n - 1 = f + n by omega, Nat.add_mod_right, Nat.mod_eq_of_lt hf]
        · have : f + 1 = n := by omega
          rw [this, Nat.mod_self, Nat.mod_eq_of_lt (by omega : 0 + n - 1 < n)]
          omega
    · rintro (⟨rfl, rfl⟩ | ⟨rfl, rfl⟩)
      · exact ⟨_, by rw [List.getElem?_map, List.getElem?_range hk]; rfl, rfl⟩
      · refine ⟨_, by rw [List.getElem?_map, List.getElem?_range (Nat.mod_lt _ hn)]; rfl, ?_⟩
        show some (v (((k + n - 1) % n + 1) % n)) = _
        rw [hmod]
  exact hp.length_eq

/-- The step from a variable to the next. -/
noncomputable def kernel (T : ℝ) (factors : List (SFac ℝ)) (ev : Var → Nat → ℝ) (m : Msgs ℝ) (v : Nat → Var) (k s t : Nat) : ℝ :=
  (factors.getD k ⟨[], []⟩).pairProb T (tbIn factors ev m k (factors.getD k ⟨[], []⟩)) s t / stateDist T factors ev m (v k) s

theorem weight_eq (hr : IsRing vars (factors.map (·.scope)) n v) (hT : 0 < T) {x : Var → Nat} (hx : ∀ w ∈ vars, x w < w.n) :
    jointWeight T vars factors ev x = Real.exp (betheLogTotal T vars factors ev m) * ∏ k ∈ Finset.range n, kernel T factors ev m v k (x (v k)) (x (v ((k + 1) % n))) := by
  have hv : ∀ F ∈ factors, ∀ w ∈ F.scope, w ∈ vars := by
    intro F hF w hw
    obtain ⟨k, hk, e⟩ := List.getElem_of_mem hF
    have hk' : k < n := by rw [← hr.length]; exact hk
    obtain ⟨F', h1, h2⟩ := hr.scope_at hk'
    rw [List.getElem?_eq_getElem hk, e] at h1
    cases h1
    rw [h2] at hw
    simp only [List.mem_cons, List.not_mem_nil, or_false] at hw
    rcases hw with rfl | rfl
    · exact (hr.mem _).2 ⟨k, hk', rfl⟩
    · exact (hr.mem _).2 ⟨_, Nat.mod_lt _ hr.pos, rfl⟩
  have h := jointWeight_reparam (ev := ev) (m := m) hT hv hx
  rw [hr.prod_vars, hr.prod_vars, hr.length] at h
  have e1 : ∏ k ∈ Finset.range n, gibbs (fun s => beliefOf (factors.map (·.scope)) ev m (v k) s / T) (v k).n (x (v k)) ^ degree (factors.map (·.scope)) (v k) =
      (∏ k ∈ Finset.range n, stateDist T factors ev m (v k) (x (v k))) * ∏ k ∈ Finset.range n, stateDist T factors ev m (v k) (x (v k)) := by
    rw [← Finset.prod_mul_distrib]
    refine Finset.prod_congr rfl fun k hk => ?_
    rw [hr.degree_two (Finset.mem_range.1 hk), pow_two]
    rfl
  have e2 : ∏ k ∈ Finset.range n, gibbs (fun s => beliefOf (factors.map (·.scope)) ev m (v k) s / T) (v k).n (x (v k)) = ∏ k ∈ Finset.range n, stateDist T factors ev m (v k) (x (v k)) := rfl
  have hp : 0 < ∏ k ∈ Finset.range n, stateDist T factors ev m (v k) (x (v k)) :=
    Finset.prod_pos fun k hk => gibbs_pos _ (hx _ ((hr.mem _).2 ⟨k, Finset.mem_range.1 hk, rfl⟩))
  rw [e1, e2, ← mul_assoc, mul_left_comm _ (∏ k ∈ Finset.range n, stateDist T factors ev m (v k) (x (v k))), mul_comm _ (∏ k ∈ Finset.range n, stateDist T factors ev m (v k) (x (v k)))] at h
  have h := mul_left_cancel₀ hp.ne' h
  have e3 : ∏ k ∈ Finset.range n, kernel T factors ev m v k (x (v k)) (x (v ((k + 1) % n))) =
      (∏ f ∈ Finset.range n, (factors.getD f ⟨[], []⟩).assignProb T (tbIn factors ev m f (factors.getD f ⟨[], []⟩)) x) / ∏ k ∈ Finset.range n, stateDist T factors ev m (v k) (x (v k)) := by
    rw [← Finset.prod_div_distrib]
    refine Finset.prod_congr rfl fun k hk => ?_
    obtain ⟨F, h1, h2⟩ := hr.scope_at (Finset.mem_range.1 hk)
    unfold kernel
    rw [assignProb_pair (by rw [List.getD, h1]; exact h2)]
  rw [e3, ← mul_div_assoc, eq_div_iff hp.ne']
  exact h

theorem stateWeight_eq (hr : IsRing vars (factors.map (·.scope)) (n + 1) v) (hT : 0 < T) (j : Fin (n + 1)) (a : Fin 2) :
    stateWeight T vars factors ev (v j) a = Real.exp (betheLogTotal T vars factors ev m) *
      ∑ y : Fin (n + 1) → Fin 2, (if y j = a then ∏ k : Fin (n + 1), kernel T factors ev m v k (y k) (y (k + 1)) else 0) := by
  unfold stateWeight
  have hb := hr.binary
  rw [← Finset.sum_filter, Finset.mul_sum]
  have hval : ∀ x ∈ assignments vars (fun _ => 0), ∀ k < n + 1, x (v k) < 2 := fun x hx k hk => by
    rw [← hb k hk]
    exact (mem_assignments.1 hx).1 _ ((hr.mem _).2 ⟨k, hk, rfl⟩)
  classical
  let back : (Fin (n + 1) → Fin 2) → Var → Nat := fun y w => if h : ∃ k : Fin (n + 1), w = v k then (y h.choose : Nat) else 0
  have hback : ∀ y (k : Fin (n + 1)), back y (v k) = y k := fun y k => by
    have h : ∃ k' : Fin (n + 1), v k = v k' := ⟨k, rfl⟩
    have e : h.choose = k := Fin.ext (hr.inj _ h.choose.2 _ k.2 h.choose_spec.symm)
    show (if h : ∃ k' : Fin (n + 1), v k = v k' then (y h.choose : Nat) else 0) = _
    rw [dif_pos h, e]
  refine Finset.sum_nbij' (fun x k => Fin.ofNat 2 (x (v k))) back ?_ ?_ ?_ ?_ ?_
  · intro x hx
    obtain ⟨hx, e⟩ := Finset.mem_filter.1 hx
    refine Finset.mem_filter.2 ⟨Finset.mem_univ _, Fin.ext ?_⟩
    show x (v j) % 2 = a
    rw [e, Nat.mod_eq_of_lt a.2]
  · intro y hy
    refine Finset.mem_filter.2 ⟨mem_assignments.2 ⟨fun w hw => ?_, fun w hw => ?_⟩, ?_⟩
    · obtain ⟨k, hk, rfl⟩ := (hr.mem w).1 hw
      rw [hb k hk]
      exact lt_of_eq_of_lt (hback y ⟨k, hk⟩) (y _).2
    · exact dif_neg fun ⟨k, e⟩ => hw ((hr.mem w).2 ⟨k, k.2, e⟩)
    · rw [hback, (Finset.mem_filter.1 hy).2]
  · intro x hx
    obtain ⟨hx, -⟩ := Finset.mem_filter.1 hx
    funext w
    by_cases hw : w ∈ vars
    · obtain ⟨k, hk, rfl⟩ := (hr.mem w).1 hw
      have e := hback (fun k => Fin.ofNat 2 (x (v k))) ⟨k, hk⟩
      exact e.trans <| Nat.mod_eq_of_lt (hval x hx k hk)
    · rw [(mem_assignments.1 hx).2 w hw]
      exact dif_neg fun ⟨k, e⟩ => hw ((hr.mem w).2 ⟨k, k.2, e⟩)
  · intro y _
    funext k
    exact Fin.ext (by rw [hback]; exact Nat.mod_eq_of_lt (y k).2)
  · intro x hx
    obtain ⟨hx, -⟩ := Finset.mem_filter.1 hx
    rw [hr.weight_eq (m := m) hT (mem_assignments.1 hx).1, Finset.prod_range]
    congr 1
    refine Finset.prod_congr rfl fun k _ => ?_
    have e : ((k + 1 : Fin (n + 1)) : Nat) = (k + 1) % (n + 1) := by
      rw [Fin.val_add]
      simp
    show _ = kernel T factors ev m v k (x (v k) % 2) (x (v (k + 1 : Fin (n + 1))) % 2)
    rw [e, Nat.mod_eq_of_lt (hval x hx k k.2), Nat.mod_eq_of_lt (hval x hx _ (Nat.mod_lt _ (Nat.succ_pos n)))]

/-- The total weight by the states of one variable. -/
theorem total_eq (hr : IsRing vars (factors.map (·.scope)) n v) {k : Nat} (hk : k < n) :
    totalWeight T vars factors ev = stateWeight T vars factors ev (v k) 0 + stateWeight T vars factors ev (v k) 1 := by
  unfold totalWeight stateWeight
  rw [← Finset.sum_filter_add_sum_filter_not _ (fun x => x (v k) = 0)]
  congr 2
  refine Finset.filter_congr fun x hx => ?_
  have := (mem_assignments.1 hx).1 _ ((hr.mem _).2 ⟨k, hk, rfl⟩)
  rw [hr.binary k hk] at this
  omega

/-- On a ring of variables with two states: if the distributions of factors have those of variables as marginals up to a factor of `exp (± ε)`, then the true weights of states are those of the beliefs, mixed with
those of the other state. -/
theorem state_near (hr : IsRing vars (factors.map (·.scope)) n v) (hT : 0 < T) (hrow : ∀ F ∈ factors, ∀ r ∈ F.rows, List.Forall₂ (fun s (v : Var) => s < v.n) r.1 F.scope) {ε : ℝ} (hε : 0 ≤ ε)
    (hnear : ∀ (f : Nat) (F : SFac ℝ) (i : Nat) (w : Var), factors[f]? = some F → F.scope[i]? = some w → ∀ s < w.n, stateDist T factors ev m w s * Real.exp (-ε) ≤ F.prob T (tbIn factors ev m f F) i s ∧
      F.prob T (tbIn factors ev m f F) i s ≤ stateDist T factors ev m w s * Real.exp ε) {w : Var} (hw : w ∈ vars) {s : Nat} (hs : s < 2) {C c : ℝ}
    (hC : C = Real.exp (betheLogTotal T vars factors ev m)) (hc : totalWeight T vars factors ev = C * (1 + c)) :
    |stateWeight T vars factors ev w s - C * (stateDist T factors ev m w s + c * (1 - stateDist T factors ev m w s))| ≤ C * (Real.exp (n * ε) - 1) ∧
      stateWeight T vars factors ev w s ≤ C * Real.exp (n * ε) ∧
      ((∀ k < n, ∀ a < 2, ∀ b < 2, 0 < (factors.getD k ⟨[], []⟩).pairProb T (tbIn factors ev m k (factors.getD k ⟨[], []⟩)) a b) → stateWeight T vars factors ev w s < C * Real.exp (n * ε)) ∧
      (ε = 0 → (∀ k < n, ∃ p : ℕ → ℕ → ℝ, p = (factors.getD k ⟨[], []⟩).pairProb T (tbIn factors ev m k (factors.getD k ⟨[], []⟩)) ∧ p 0 1 * p 1 0 ≤ p 0 0 * p 1 1) → 0 ≤ c) := by
  obtain ⟨n, rfl⟩ : ∃ n', n = n' + 1 := ⟨n - 1, by have := hr.pos; omega⟩
  obtain ⟨j, hj, rfl⟩ := (hr.mem w).1 hw
  have hC0 : 0 < C := by rw [hC]; exact Real.exp_pos _
  have hmod : ∀ k : Fin (n + 1), ((k + 1 : Fin (n + 1)) : Nat) = (k + 1) % (n + 1) := fun k => by
    rw [Fin.val_add]
    simp
  have hpos : ∀ (k : Fin (n + 1)) (a : Fin 2), 0 < stateDist T factors ev m (v k) a := fun k a => gibbs_pos _ (by rw [hr.binary k k.2]; exact a.2)
  have hfac : ∀ k : Fin (n + 1), ∃ F, factors[k.val]? = some F ∧ F.scope = [v k, v (k + 1 : Fin (n + 1))] ∧ factors.getD k ⟨[], []⟩ = F := fun k => by
    obtain ⟨F, h1, h2⟩ := hr.scope_at k.2
    exact ⟨F, h1, by rw [hmod]; exact h2, by rw [List.getD, h1]; rfl⟩
  have k1 : ∀ (k : Fin (n + 1)) (a b : Fin 2), 0 ≤ (Matrix.of fun (a b : Fin 2) => kernel T factors ev m v k a b : Mat2) a b := by
    intro k a b
    exact div_nonneg (pairProb_nonneg ..) (hpos k a).le
  have k2 : ∀ (k : Fin (n + 1)) (a : Fin 2), 0 ≤ stateDist T factors ev m (v k) a := by
    exact fun k a => (hpos k a).le
  have k3 : ∀ k : Fin (n + 1), stateDist T factors ev m (v k) (0 : Fin 2) + stateDist T factors ev m (v k) (1 : Fin 2) = 1 := by
    intro k
    have := gibbs_total' (fun s => beliefOf (factors.map (·.scope)) ev m (v k) s / T) (n := (v k).n) (by rw [hr.binary k k.2]; decide)
    rw [hr.binary k k.2, Finset.sum_range_succ, Finset.sum_range_one] at this
    unfold stateDist
    rw [hr.binary k k.2]
    exact this
  have k4 : ∀ (k : Fin (n + 1)) (a : Fin 2), (Real.exp ε)⁻¹ ≤ ∑ b, (Matrix.of fun (a b : Fin 2) => kernel T factors ev m v k a b : Mat2) a b ∧ ∑ b, (Matrix.of fun (a b : Fin 2) => kernel T factors ev m v k a b : Mat2) a b ≤ Real.exp ε := by
    intro k a
    obtain ⟨F, h1, h2, h3⟩ := hfac k
    have := hnear k F 0 (v k) h1 (by rw [h2]; rfl) a (by rw [hr.binary k k.2]; exact a.2)
    rw [← pair_left h2 (hrow F (List.mem_of_getElem? h1)), hr.binary _ (k + 1).2, Finset.sum_range] at this
    have e : ∑ b : Fin 2, (Matrix.of fun (a b : Fin 2) => kernel T factors ev m v k a b) a b = (∑ b : Fin 2, F.pairProb T (tbIn factors ev m k F) a b) / stateDist T factors ev m (v k) a := by
      rw [Finset.sum_div]
      refine Finset.sum_congr rfl fun b _ => ?_
      show kernel T factors ev m v k a b = _
      unfold kernel
      rw [h3]
    rw [e, ← Real.exp_neg, le_div_iff₀ (hpos k a), div_le_iff₀ (hpos k a), mul_comm (Real.exp (-ε)), mul_comm (Real.exp ε)]
    exact this
  have k5 : ∀ (k : Fin (n + 1)) (b : Fin 2), stateDist T factors ev m (v (k + 1 : Fin (n + 1))) b * (Real.exp ε)⁻¹ ≤ ∑ a : Fin 2, stateDist T factors ev m (v k) a * (Matrix.of fun (a b : Fin 2) => kernel T factors ev m v k a b : Mat2) a b ∧
      ∑ a : Fin 2, stateDist T factors ev m (v k) a * (Matrix.of fun (a b : Fin 2) => kernel T factors ev m v k a b : Mat2) a b ≤ stateDist T factors ev m (v (k + 1 : Fin (n + 1))) b * Real.exp ε := by
    intro k b
    obtain ⟨F, h1, h2, h3⟩ := hfac k
    have := hnear k F 1 (v (k + 1 : Fin (n + 1))) h1 (by rw [h2]; rfl) b (by rw [hr.binary _ (k + 1).2]; exact b.2)
    rw [← pair_right h2 (hrow F (List.mem_of_getElem? h1)), hr.binary _ k.2, Finset.sum_range] at this
    have e : ∑ a : Fin 2, stateDist T factors ev m (v k) a * (Matrix.of fun (a b : Fin 2) => kernel T factors ev m v k a b) a b = ∑ a : Fin 2, F.pairProb T (tbIn factors ev m k F) a b := by
      refine Finset.sum_congr rfl fun a _ => ?_
      show stateDist T factors ev m (v k) a * kernel T factors ev m v k a b = _
      unfold kernel
      rw [h3, mul_div_cancel₀ _ (hpos k a).ne']
    rw [e, ← Real.exp_neg]
    exact this
  have k6 : ∀ a : Fin 2, stateWeight T vars factors ev (v j) a / C = ∑ y : Fin (n + 1) → Fin 2, (if y ⟨j, hj⟩ = a then ∏ k : Fin (n + 1), (Matrix.of fun (a b : Fin 2) => kernel T factors ev m v k a b : Mat2) (y k) (y (k + 1)) else 0) := by
    intro a
    have := hr.stateWeight_eq (ev := ev) (m := m) hT ⟨j, hj⟩ a
    show stateWeight T vars factors ev (v j) a / C = _
    rw [this, hC, mul_div_cancel_left₀ _ (Real.exp_pos _).ne']
    rfl
  have hE := Real.one_le_exp hε
  have key := ring_core hE k1 k2 k3 k4 k5 ⟨j, hj⟩ k6
  rw [hr.total_eq hj] at hc
  have h1 := key ⟨s, hs⟩
  rw [← Real.exp_nat_mul] at h1
  have h2 : stateWeight T vars factors ev (v j) (0 : Fin 2) / C + stateWeight T vars factors ev (v j) (1 : Fin 2) / C - 1 = c := by
    rw [← add_div]
    have hc : stateWeight T vars factors ev (v j) (0 : Fin 2) + stateWeight T vars factors ev (v j) (1 : Fin 2) = C * (1 + c) := hc
    rw [hc, mul_div_cancel_left₀ _ hC0.ne']
    ring
  simp only [h2] at h1
  obtain ⟨h3, h4⟩ := h1
  rw [div_le_iff₀ hC0, mul_comm] at h4
  refine ⟨?_, h4, fun hp => ?_, fun h0 hdet => ?_⟩
  rotate_left
  · have := ring_lt hE (fun k a b => div_pos (hp k k.2 a a.2 b b.2) (hpos k a)) k4 ⟨j, hj⟩ k6 ⟨s, hs⟩
    rw [← Real.exp_nat_mul, div_lt_iff₀ hC0, mul_comm] at this
    exact this
  · have := ring_det k1 (fun k a => by
      have := k4 k a
      rw [h0, Real.exp_zero, inv_one] at this
      exact le_antisymm this.2 this.1) ⟨j, hj⟩ k6
    rw [← h2, this]
    refine Finset.prod_nonneg fun k _ => ?_
    obtain ⟨p, rfl, h5⟩ := hdet k k.2
    have p0 := hpos k 0
    have p1 := hpos k 1
    show 0 ≤ kernel T factors ev m v k (0 : Fin 2) (0 : Fin 2) * kernel T factors ev m v k (1 : Fin 2) (1 : Fin 2) - kernel T factors ev m v k (0 : Fin 2) (1 : Fin 2) * kernel T factors ev m v k (1 : Fin 2) (0 : Fin 2)
    unfold kernel
    rw [div_mul_div_comm, div_mul_div_comm, ← sub_div]
    exact div_nonneg (sub_nonneg.2 h5) (mul_nonneg p0.le p1.le)
  have e : stateWeight T vars factors ev (v j) s - C * (stateDist T factors ev m (v j) s + c * (1 - stateDist T factors ev m (v j) s)) =
      C * (stateWeight T vars factors ev (v j) s / C - (stateDist T factors ev m (v j) s + c * (1 - stateDist T factors ev m (v j) s))) := by
    rw [mul_sub C (_ / C), mul_div_cancel₀ _ hC0.ne']
  rw [e, abs_mul, abs_of_pos hC0]
  exact mul_le_mul_of_nonneg_left h3 hC0.le

end IsRing

end PGMax
