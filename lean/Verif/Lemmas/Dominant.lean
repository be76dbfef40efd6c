import Verif.Spec.Dominant
import Verif.Lemmas.Contract

/-! # Evidence that is stronger than all factors -/

namespace PGMax

section
variable {α : Type _} [Field α] [LinearOrder α] [IsStrictOrderedRing α]

omit [IsStrictOrderedRing α] in
theorem sum_edges_but (scopes : List (List Var)) {f i : Nat} {v : Var} (he : IsEdge scopes f i v) (g : Nat × Nat → α) :
    ((edgesOf scopes v).map g).sum = g (f, i) + (((edgesOf scopes v).filter (fun e' => e' ≠ (f, i))).map g).sum := by
  have h1 : ((edgesOf scopes v).filter (fun e' => e' ≠ (f, i))) = (edgesOf scopes v).erase (f, i) := by
    rw [(edgesOf_nodup scopes v).erase_eq_filter]
    congr 1
    funext e
    by_cases h : e = (f, i) <;> simp [h]
  rw [h1]
  exact ((List.perm_cons_erase ((mem_edgesOf _ _ _ _).2 he)).map g).sum_eq.trans (by rw [List.map_cons, List.sum_cons])

theorem sum_gap (l : List (Nat × Nat)) (m : Msgs α) (b : Nat → α) (s t : Nat) (h : ∀ e ∈ l, -b e.1 ≤ m e.1 e.2 t ∧ m e.1 e.2 s ≤ 0) :
    (l.map (fun e => m e.1 e.2 s)).sum ≤ (l.map (fun e => m e.1 e.2 t)).sum + (l.map (fun e => b e.1)).sum := by
  induction l with
  | nil => simp
  | cons e l ih =>
    have h1 := ih fun e he => h e (List.mem_cons_of_mem _ he)
    have h2 := h e List.mem_cons_self
    simp only [List.map_cons, List.sum_cons]
    linarith [h2.1, h2.2]

/-- If the messages of factor `f` lie between `-b f` and 0, dominant evidence decides which state has the largest belief. -/
theorem Dominant.belief {scopes : List (List Var)} {ev : Var → Nat → α} {b : Nat → α} {x : Var → Nat} {v : Var} (h : Dominant scopes ev b x v) {m : Msgs α}
    (hm : ∀ f i, IsEdge scopes f i v → ∀ s < v.n, -b f ≤ m f i s ∧ m f i s ≤ 0) : ∀ s < v.n, s ≠ x v → beliefOf scopes ev m v s < beliefOf scopes ev m v (x v) := by
  intro s hs hne
  have h1 := h.2 s hs hne
  have h2 := sum_gap (edgesOf scopes v) m b s (x v) fun e he =>
    ⟨(hm _ _ ((mem_edgesOf _ _ _ _).1 he) _ h.1).1, (hm _ _ ((mem_edgesOf _ _ _ _).1 he) _ hs).2⟩
  unfold beliefOf
  linarith

/-- And which state has the largest message to a factor, by at least `b f`. -/
theorem Dominant.message {scopes : List (List Var)} {ev : Var → Nat → α} {b : Nat → α} {x : Var → Nat} {v : Var} (h : Dominant scopes ev b x v) {m : Msgs α}
    (hm : ∀ f i, IsEdge scopes f i v → ∀ s < v.n, -b f ≤ m f i s ∧ m f i s ≤ 0) {f i : Nat} (he : IsEdge scopes f i v) :
    ∀ s < v.n, s ≠ x v → varToFac scopes ev m v (f, i) s + b f < varToFac scopes ev m v (f, i) (x v) := by
  intro s hs hne
  have h1 := h.2 s hs hne
  rw [sum_edges_but scopes he] at h1
  have h2 := sum_gap ((edgesOf scopes v).filter (fun e' => e' ≠ (f, i))) m b s (x v) fun e he =>
    ⟨(hm _ _ ((mem_edgesOf _ _ _ _).1 (List.mem_filter.1 he).1) _ h.1).1, (hm _ _ ((mem_edgesOf _ _ _ _).1 (List.mem_filter.1 he).1) _ hs).2⟩
  unfold varToFac
  linarith

theorem Dominant.firstMax {scopes : List (List Var)} {ev : Var → Nat → α} {b : Nat → α} {x : Var → Nat} {v : Var} (h : Dominant scopes ev b x v) {m : Msgs α}
    (hm : ∀ f i, IsEdge scopes f i v → ∀ s < v.n, -b f ≤ m f i s ∧ m f i s ≤ 0) : IsFirstMax (beliefOf scopes ev m v) v.n (x v) := by
  refine ⟨h.1, fun s hs => ?_, fun s hs => h.belief hm s (hs.trans h.1) hs.ne⟩
  by_cases hne : s = x v
  · rw [hne]
  · exact (h.belief hm s hs hne).le

theorem sum_one_less {β : Type _} [DecidableEq β] (l : List β) (g g' : β → α) (R : α) (h : ∀ j ∈ l, g j ≤ g' j) {j0 : β} (hj : j0 ∈ l) (h0 : g j0 + R ≤ g' j0) :
    (l.map g).sum + R ≤ (l.map g').sum := by
  have e : ∀ g : β → α, (l.map g).sum = g j0 + ((l.erase j0).map g).sum := fun g =>
    ((List.perm_cons_erase hj).map g).sum_eq.trans (by rw [List.map_cons, List.sum_cons])
  rw [e g, e g']
  have : ((l.erase j0).map g).sum ≤ ((l.erase j0).map g').sum := List.sum_le_sum fun j hj => h j (List.mem_of_mem_erase hj)
  linarith

/-- If every other variable's message prefers the state `x` by the range of the log potentials, the maximum is attained at `x`. -/
theorem SFac.Complete.out_dominated {F : SFac α} (hc : F.Complete) (hrow : ∀ r ∈ F.rows, List.Forall₂ (fun s (v : Var) => s < v.n) r.1 F.scope)
    {R : α} (hR : F.Within R) (hR0 : 0 ≤ R) {q : Nat → Nat → α} {x : Var → Nat}
    (hq : ∀ j w, F.scope[j]? = some w → ∀ t < w.n, t ≠ x w → q j t + R ≤ q j (x w)) {i s : Nat} {θ : α}
    (hi : i < F.scope.length) (hθ : ((F.scope.map x).set i s, θ) ∈ F.rows) :
    tbOut F q i s = WithBot.some (θ + (((List.range F.scope.length).filter (fun j => j ≠ i)).map (fun j => q j ((F.scope.map x).getD j 0))).sum) := by
  have hscore : ∀ j ∈ (List.range F.scope.length).filter (fun j => j ≠ i), ((F.scope.map x).set i s).getD j 0 = (F.scope.map x).getD j 0 := by
    intro j hj
    have hji : j ≠ i := by simpa using (List.mem_filter.1 hj).2
    rw [List.getD, List.getD, List.getElem?_set_ne hji.symm]
  unfold tbOut
  refine List.maximum_eq_coe_iff.2 ⟨?_, ?_⟩
  · refine List.mem_map.2 ⟨_, List.mem_filter.2 ⟨hθ, ?_⟩, ?_⟩
    · simp [hi]
    · unfold scoreBut
      congr 2
      exact List.map_congr_left fun j hj => by rw [hscore j hj]
  · intro z hz
    obtain ⟨r, hr, rfl⟩ := List.mem_map.1 hz
    obtain ⟨hr, hri⟩ := List.mem_filter.1 hr
    have hri : r.1[i]? = some s := by simpa using hri
    have hfit := hrow r hr
    have hlen := hfit.length_eq
    have hle : ∀ j ∈ (List.range F.scope.length).filter (fun j => j ≠ i), q j (r.1.getD j 0) ≤ q j ((F.scope.map x).getD j 0) ∧
        (r.1.getD j 0 ≠ (F.scope.map x).getD j 0 → q j (r.1.getD j 0) + R ≤ q j ((F.scope.map x).getD j 0)) := by
      intro j hj
      have hjl : j < F.scope.length := by simpa using (List.mem_filter.1 hj).1
      obtain ⟨w, hw, hlt⟩ := forall₂_getElem? hfit (List.getElem?_eq_getElem (by rw [hlen]; exact hjl))
      have e1 : r.1.getD j 0 = r.1[j] := by rw [List.getD, List.getElem?_eq_getElem (by rw [hlen]; exact hjl)]; rfl
      have e2 : (F.scope.map x).getD j 0 = x w := by rw [List.getD, List.getElem?_map, hw]; rfl
      rw [e1, e2]
      by_cases hne : r.1[j] = x w
      · rw [hne]; exact ⟨le_rfl, fun h => absurd rfl h⟩
      · have := hq j w hw _ hlt hne
        exact ⟨by linarith, fun _ => this⟩
    unfold scoreBut
    by_cases hall : ∀ j ∈ (List.range F.scope.length).filter (fun j => j ≠ i), r.1.getD j 0 = (F.scope.map x).getD j 0
    · have he : r.1 = (F.scope.map x).set i s := by
        apply List.ext_getElem?
        intro j
        by_cases hji : j = i
        · subst hji
          rw [hri, List.getElem?_set_self (by simpa using hi)]
        · rw [List.getElem?_set_ne (Ne.symm hji)]
          by_cases hjl : j < F.scope.length
          · have := hall j (List.mem_filter.2 ⟨List.mem_range.2 hjl, by simpa using hji⟩)
            rw [List.getD, List.getD, List.getElem?_eq_getElem (by rw [hlen]; exact hjl), List.getElem?_eq_getElem (by simpa using hjl)] at this
            rw [List.getElem?_eq_getElem (by rw [hlen]; exact hjl), List.getElem?_eq_getElem (by simpa using hjl)]
            exact congrArg some this
          · rw [List.getElem?_eq_none (by rw [hlen]; omega), List.getElem?_eq_none (by simp; omega)]
      have : r = ((F.scope.map x).set i s, θ) := List.inj_on_of_nodup_map hc.1 hr hθ he
      rw [this]
      refine le_of_eq ?_
      congr 2
      exact List.map_congr_left fun j hj => by rw [hscore j hj]
    · push Not at hall
      obtain ⟨j0, hj0, hne⟩ := hall
      have h1 := sum_one_less _ (fun j => q j (r.1.getD j 0)) (fun j => q j ((F.scope.map x).getD j 0)) R (fun j hj => (hle j hj).1) hj0 ((hle j0 hj0).2 hne)
      have h2 := hR r hr _ hθ
      simp only at h2
      linarith

/-- Sum over the factors of a variable. -/
theorem sum_factors_le (scopes : List (List Var)) (v : Var) {b : Nat → α} (hb : ∀ f, 0 ≤ b f) :
    ∑ f ∈ Finset.range scopes.length, (if v ∈ scopes.getD f [] then b f else 0) ≤ ((edgesOf scopes v).map (fun e => b e.1)).sum := by
  unfold edgesOf
  rw [List.map_flatMap, List.flatMap_def, List.sum_flatten, List.map_map]
  rw [← List.sum_toFinset _ List.nodup_range, List.toFinset_range]
  refine Finset.sum_le_sum fun f _ => ?_
  simp only [List.map_map, Function.comp_def]
  split
  · next hv =>
    obtain ⟨i, hi⟩ := List.mem_iff_getElem?.1 hv
    have hm : i ∈ (List.range (scopes.getD f []).length).filter (fun i => (scopes.getD f [])[i]? = some v) :=
      List.mem_filter.2 ⟨List.mem_range.2 (List.getElem?_eq_some_iff.1 hi).1, by simpa using hi⟩
    exact List.single_le_sum (fun y hy => by obtain ⟨_, _, rfl⟩ := List.mem_map.1 hy; exact hb f) _ (List.mem_map.2 ⟨i, hm, rfl⟩)
  · exact List.sum_nonneg fun y hy => by obtain ⟨_, _, rfl⟩ := List.mem_map.1 hy; exact hb f

/-- The states favoured by dominant evidence are the unique MAP assignment. -/
theorem unique_map_of_dominant {factors : List (SFac α)} {vars : Finset Var} (hvars : ∀ F ∈ factors, ∀ v ∈ F.scope, v ∈ vars)
    {R : Nat → α} (hR : ∀ f, 0 ≤ R f) (hc : ∀ (f : Nat) (F : SFac α), factors[f]? = some F → F.Complete ∧ F.Within (R f)) {ev : Var → Nat → α} {x : Var → Nat}
    (hdom : ∀ v ∈ vars, Dominant (factors.map (·.scope)) ev R x v) : ∃ ρ, IsUniqueMAP vars factors ev x ρ := by
  have hex : ∀ f : Nat, ∃ r : List Nat × α, ∀ F : SFac α, factors[f]? = some F → r ∈ F.rows ∧ r.1 = F.scope.map x := by
    intro f
    cases hF : factors[f]? with
    | none => exact ⟨([], 0), fun F h => by cases h⟩
    | some F =>
      obtain ⟨θ, hθ⟩ := (hc f F hF).1.2 (F.scope.map x) (by
        rw [List.forall₂_map_left_iff, List.forall₂_same]
        exact fun v hv => (hdom v (hvars F (List.mem_of_getElem? hF) v hv)).1)
      exact ⟨_, fun F' h => by cases h; exact ⟨hθ, rfl⟩⟩
  choose ρ hρ using hex
  refine ⟨ρ, ⟨fun v hv => (hdom v hv).1, hρ⟩, ?_⟩
  rintro x' ρ' hJ ⟨v0, hv0, hne0⟩
  classical
  have hl : (factors.map (·.scope)).length = factors.length := by simp
  have hfac : ∀ f ∈ Finset.range factors.length, (ρ' f).2 ≤ (ρ f).2 + ∑ v ∈ vars.filter (fun v => x' v ≠ x v), (if v ∈ (factors.map (·.scope)).getD f [] then R f else 0) := by
    intro f hf
    obtain ⟨F, hF⟩ : ∃ F, factors[f]? = some F := ⟨_, List.getElem?_eq_getElem (Finset.mem_range.1 hf)⟩
    have hsc : (factors.map (·.scope)).getD f [] = F.scope := by
      rw [List.getD, List.getElem?_map, hF]; rfl
    obtain ⟨h1, h2⟩ := hρ f _ hF
    obtain ⟨h1', h2'⟩ := hJ.rows f _ hF
    rw [hsc]
    by_cases hall : ∀ v ∈ F.scope, x' v = x v
    · have : ρ' f = ρ f := List.inj_on_of_nodup_map (hc f _ hF).1.1 h1' h1 (by rw [h2, h2']; exact List.map_congr_left hall)
      rw [this]
      have : 0 ≤ ∑ v ∈ vars.filter (fun v => x' v ≠ x v), (if v ∈ F.scope then R f else 0) :=
        Finset.sum_nonneg fun v _ => by split; exacts [hR f, le_rfl]
      linarith
    · push Not at hall
      obtain ⟨w, hw, hne⟩ := hall
      have h3 := (hc f _ hF).2 _ h1' _ h1
      have h4 : R f ≤ ∑ v ∈ vars.filter (fun v => x' v ≠ x v), (if v ∈ F.scope then R f else 0) := by
        refine le_trans (by rw [if_pos hw]) (Finset.single_le_sum (f := fun v => if v ∈ F.scope then R f else 0)
          (fun v _ => by split; exacts [hR f, le_rfl]) (Finset.mem_filter.2 ⟨hvars _ (List.mem_of_getElem? hF) w hw, hne⟩))
      linarith
  have hS := Finset.sum_le_sum hfac
  rw [Finset.sum_add_distrib, Finset.sum_comm] at hS
  have hE : ∑ v ∈ vars, ev v (x' v) + ∑ v ∈ vars.filter (fun v => x' v ≠ x v), ∑ f ∈ Finset.range factors.length, (if v ∈ (factors.map (·.scope)).getD f [] then R f else 0)
      < ∑ v ∈ vars, ev v (x v) := by
    rw [Finset.sum_filter, ← Finset.sum_add_distrib]
    have key : ∀ v ∈ vars, x' v ≠ x v → ev v (x' v) + ∑ f ∈ Finset.range factors.length, (if v ∈ (factors.map (·.scope)).getD f [] then R f else 0) < ev v (x v) := by
      intro v hv hne
      have h1 := (hdom v hv).2 (x' v) (hJ.states v hv) hne
      have h2 := sum_factors_le (factors.map (·.scope)) v hR
      rw [hl] at h2
      linarith
    refine Finset.sum_lt_sum (fun v hv => ?_) ⟨v0, hv0, ?_⟩
    · by_cases hne : x' v = x v
      · rw [if_neg (by simp [hne]), add_zero, hne]
      · rw [if_pos hne]; exact (key v hv hne).le
    · rw [if_pos hne0]; exact key v0 hv0 hne0
  unfold jointScore
  linarith

end

end PGMax
