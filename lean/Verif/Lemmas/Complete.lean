import Verif.Lemmas.SumTextbook

/-! # Messages of complete tables -/

namespace PGMax

section
variable {α : Type _} [Field α] [LinearOrder α] [IsStrictOrderedRing α]

/-- A summary of scores that does not depend on their order, is monotone and commutes with adding constants. -/
structure Summary (Φ : List α → α) : Prop where
  perm : ∀ l l' : List α, l.Perm l' → Φ l = Φ l'
  mono : ∀ (l : List (List Nat × α)) (g g' : List Nat × α → α) (R : α), l ≠ [] → (∀ r ∈ l, g r ≤ g' r + R) → Φ (l.map g) ≤ Φ (l.map g') + R

omit [IsStrictOrderedRing α] in
theorem SFac.Complete.perm {F : SFac α} (hF : F.Complete) (hrow : ∀ r ∈ F.rows, List.Forall₂ (fun s (v : Var) => s < v.n) r.1 F.scope)
    {i : Nat} {v : Var} (hi : F.scope[i]? = some v) {s s' : Nat} (hs : s < v.n) (hs' : s' < v.n) :
    ∃ φ : List Nat × α → List Nat × α, ((F.rowsAt i s).map φ).Perm (F.rowsAt i s') ∧ ∀ r ∈ F.rowsAt i s, (φ r).1 = r.1.set i s' := by
  classical
  obtain ⟨hnd, hall⟩ := hF
  have hset : ∀ r ∈ F.rows, ∀ t < v.n, List.Forall₂ (fun s (v : Var) => s < v.n) (r.1.set i t) F.scope := by
    intro r hr t ht
    have h := hrow r hr
    rw [List.forall₂_iff_get] at h ⊢
    obtain ⟨h1, h2⟩ := h
    refine ⟨by simpa using h1, ?_⟩
    intro j hj hj'
    simp only [List.get_eq_getElem, List.getElem_set]
    split
    · next e =>
      subst e
      have := (List.getElem?_eq_some_iff.1 hi).2
      rw [this]
      exact ht
    · exact h2 j (by simpa using hj) hj'
  have hinj : ∀ r ∈ F.rows, ∀ r' ∈ F.rows, r.1 = r'.1 → r = r' := fun r hr r' hr' h => List.inj_on_of_nodup_map hnd hr hr' h
  have hrnd : F.rows.Nodup := List.Nodup.of_map _ hnd
  have hex : ∀ (t : Nat) (r : List Nat × α), ∃ r' : List Nat × α, r ∈ F.rows → t < v.n → r' ∈ F.rows ∧ r'.1 = r.1.set i t := by
    intro t r
    by_cases h : r ∈ F.rows ∧ t < v.n
    · obtain ⟨x, hx⟩ := hall _ (hset r h.1 t h.2)
      exact ⟨_, fun _ _ => ⟨hx, rfl⟩⟩
    · exact ⟨r, fun h1 h2 => absurd ⟨h1, h2⟩ h⟩
  choose φ hφ using hex
  have hlen : ∀ r ∈ F.rows, i < r.1.length := by
    intro r hr
    rw [(hrow r hr).length_eq]
    exact (List.getElem?_eq_some_iff.1 hi).1
  have hmem : ∀ t r, r ∈ F.rowsAt i t ↔ r ∈ F.rows ∧ r.1[i]? = some t := by
    intro t r
    simp [SFac.rowsAt, List.mem_filter]
  have hback : ∀ r ∈ F.rows, ∀ t, r.1[i]? = some t → ∀ u, (r.1.set i u).set i t = r.1 := by
    intro r hr t ht u
    rw [List.set_set]
    apply List.ext_getElem?
    intro j
    rw [List.getElem?_set]
    split
    · next e => subst e; rw [if_pos (hlen r hr), ht]
    · rfl
  refine ⟨φ s', ?_, fun r hr => (hφ s' r ((hmem s r).1 hr).1 hs').2⟩
  rw [List.perm_ext_iff_of_nodup]
  · intro r'
    rw [List.mem_map, hmem]
    constructor
    · rintro ⟨r, hr, rfl⟩
      obtain ⟨h1, h2⟩ := (hmem s r).1 hr
      obtain ⟨h3, h4⟩ := hφ s' r h1 hs'
      exact ⟨h3, by rw [h4, List.getElem?_set_self (hlen r h1)]⟩
    · rintro ⟨h1, h2⟩
      obtain ⟨h3, h4⟩ := hφ s r' h1 hs
      refine ⟨φ s r', (hmem _ _).2 ⟨h3, by rw [h4, List.getElem?_set_self (hlen r' h1)]⟩, ?_⟩
      obtain ⟨h5, h6⟩ := hφ s' (φ s r') h3 hs'
      refine hinj _ h5 _ h1 ?_
      rw [h6, h4]
      exact hback r' h1 s' h2 s
  · refine List.Nodup.map_on ?_ (hrnd.filter _)
    intro r hr r' hr' he
    obtain ⟨h1, h2⟩ := (hmem s r).1 hr
    obtain ⟨h1', h2'⟩ := (hmem s r').1 hr'
    have h3 := (hφ s' r h1 hs').2
    have h3' := (hφ s' r' h1' hs').2
    rw [← he, h3] at h3'
    refine hinj _ h1 _ h1' ?_
    rw [← hback r h1 s h2 s', ← hback r' h1' s h2' s', h3']
  · exact hrnd.filter _

/-- The summaries of a complete table in two states differ by at most the range of its log potentials. -/
theorem SFac.Complete.out_le {F : SFac α} (hF : F.Complete) (hrow : ∀ r ∈ F.rows, List.Forall₂ (fun s (v : Var) => s < v.n) r.1 F.scope)
    {R : α} (hR : F.Within R) {Φ : List α → α} (hΦ : Summary Φ) (q : Nat → Nat → α) {i : Nat} {v : Var} (hi : F.scope[i]? = some v) {s s' : Nat} (hs : s < v.n) (hs' : s' < v.n)
    (hne : F.rowsAt i s ≠ []) :
    Φ ((F.rowsAt i s).map (scoreBut F.scope.length q i)) ≤ Φ ((F.rowsAt i s').map (scoreBut F.scope.length q i)) + R := by
  obtain ⟨φ, hp, hφ⟩ := hF.perm hrow hi hs hs'
  rw [← hΦ.perm _ _ (hp.map _), List.map_map]
  refine hΦ.mono _ _ _ _ hne (fun r hr => ?_)
  have h1 : φ r ∈ F.rows := (List.mem_filter.1 (hp.mem_iff.1 (List.mem_map.2 ⟨r, hr, rfl⟩))).1
  have h2 := hR r (List.mem_filter.1 hr).1 _ h1
  simp only [Function.comp, scoreBut]
  have h3 : ((List.range F.scope.length).filter (fun j => j ≠ i)).map (fun j => q j ((φ r).1.getD j 0))
      = ((List.range F.scope.length).filter (fun j => j ≠ i)).map (fun j => q j (r.1.getD j 0)) := by
    apply List.map_congr_left
    intro j hj
    have hji : j ≠ i := by simpa using (List.mem_filter.1 hj).2
    rw [hφ r hr, List.getD, List.getD, List.getElem?_set_ne hji.symm]
  rw [h3]
  linarith

theorem summary_max : Summary (maxOf (0 : α)) where
  perm l l' h := by
    by_cases hl : l = []
    · subst hl
      rw [List.nil_perm.1 h]
    · have hl' : l' ≠ [] := by
        rintro rfl
        exact hl (List.perm_nil.1 h)
      obtain ⟨a1, a2⟩ := maxOf_spec 0 l hl
      obtain ⟨b1, b2⟩ := maxOf_spec 0 l' hl'
      exact le_antisymm (b2 _ (h.mem_iff.1 a1)) (a2 _ (h.mem_iff.2 b1))
  mono l g g' R hl h := by
    obtain ⟨a1, -⟩ := maxOf_spec 0 (l.map g) (by simpa using hl)
    obtain ⟨-, b2⟩ := maxOf_spec 0 (l.map g') (by simpa using hl)
    obtain ⟨r, hr, e⟩ := List.mem_map.1 a1
    rw [← e]
    exact (h r hr).trans (by have := b2 _ (List.mem_map.2 ⟨r, hr, rfl⟩); linarith)

end

theorem regLse_eq {T : ℝ} (hT : 0 < T) {l : List ℝ} (hl : l ≠ []) :
    regLse T l = T * Real.log (Real.exp (-100000) * Real.exp (maxOf 0 l / T) + (l.map (fun x => Real.exp (x / T))).sum) := by
  unfold regLse
  have h1 := sum_map_exp_pos hl (fun x => x / T)
  have h2 : Real.exp (-100000) * Real.exp (maxOf 0 l / T) + (l.map (fun x => Real.exp (x / T))).sum
      = Real.exp (maxOf 0 l / T) * (Real.exp (-100000) + (l.map (fun x => Real.exp ((x - maxOf 0 l) / T))).sum) := by
    rw [mul_add, mul_comm, mul_comm (Real.exp (maxOf 0 l / T)), mul_comm (Real.exp (maxOf 0 l / T)), mul_list_sum]
    congr 3
    funext x
    rw [← Real.exp_add]
    congr 1
    ring
  have h3 := sum_map_exp_pos hl (fun x => (x - maxOf 0 l) / T)
  rw [h2, Real.log_mul (Real.exp_pos _).ne' (by positivity), Real.log_exp, mul_add, mul_div_cancel₀ _ hT.ne']

theorem summary_lse {T : ℝ} (hT : 0 < T) : Summary (lse T) where
  perm l l' h := by
    unfold lse
    rw [(h.map _).sum_eq]
  mono l g g' R hl h := by
    unfold lse
    rw [List.map_map, List.map_map]
    have h1 := sum_map_exp_pos hl (fun r => g r / T)
    have h2 := sum_map_exp_pos hl (fun r => g' r / T)
    have h3 : (l.map (fun r => Real.exp (g r / T))).sum ≤ (l.map (fun r => Real.exp (g' r / T))).sum * Real.exp (R / T) := by
      rw [mul_list_sum]
      refine List.sum_le_sum (fun r hr => ?_)
      rw [← Real.exp_add, ← add_div]
      exact Real.exp_le_exp.2 (div_le_div_of_nonneg_right (h r hr) hT.le)
    have h4 := Real.log_le_log h1 h3
    rw [Real.log_mul h2.ne' (Real.exp_pos _).ne', Real.log_exp] at h4
    have h5 := mul_le_mul_of_nonneg_left h4 hT.le
    rw [mul_add, mul_div_cancel₀ _ hT.ne'] at h5
    exact h5

theorem summary_regLse {T : ℝ} (hT : 0 < T) : Summary (regLse T) where
  perm l l' h := by
    unfold regLse
    rw [(summary_max (α := ℝ)).perm l l' h, (h.map _).sum_eq]
  mono l g g' R hl h := by
    rw [regLse_eq hT (by simpa using hl), regLse_eq hT (by simpa using hl), List.map_map, List.map_map]
    have h1 := sum_map_exp_pos hl (fun r => g r / T)
    have h2 := sum_map_exp_pos hl (fun r => g' r / T)
    have h3 : (l.map (fun r => Real.exp (g r / T))).sum ≤ (l.map (fun r => Real.exp (g' r / T))).sum * Real.exp (R / T) := by
      rw [mul_list_sum]
      refine List.sum_le_sum (fun r hr => ?_)
      rw [← Real.exp_add, ← add_div]
      exact Real.exp_le_exp.2 (div_le_div_of_nonneg_right (h r hr) hT.le)
    have hm := (summary_max (α := ℝ)).mono l g g' R hl h
    have h0 : Real.exp (maxOf 0 (l.map g) / T) ≤ Real.exp (maxOf 0 (l.map g') / T) * Real.exp (R / T) := by
      rw [← Real.exp_add, ← add_div]
      exact Real.exp_le_exp.2 (div_le_div_of_nonneg_right hm hT.le)
    have e := Real.exp_pos (-100000 : ℝ)
    have e1 := Real.exp_pos (maxOf 0 (l.map g) / T)
    have e2 := Real.exp_pos (maxOf 0 (l.map g') / T)
    have h4 := Real.log_le_log (show 0 < Real.exp (-100000) * Real.exp (maxOf 0 (l.map g) / T) + (l.map (fun r => Real.exp (g r / T))).sum by positivity)
      (show _ ≤ (Real.exp (-100000) * Real.exp (maxOf 0 (l.map g') / T) + (l.map (fun r => Real.exp (g' r / T))).sum) * Real.exp (R / T) by
        have := mul_le_mul_of_nonneg_left h0 e.le
        nlinarith)
    rw [Real.log_mul (by positivity) (Real.exp_pos _).ne', Real.log_exp] at h4
    have h5 := mul_le_mul_of_nonneg_left h4 hT.le
    rw [mul_add, mul_div_cancel₀ _ hT.ne'] at h5
    exact h5

section
variable {κ α : Type _} [Field α] [LinearOrder α] [IsStrictOrderedRing α] {vgs : List (VGroup κ)} {hist : List (AddArg α)} {garbage : Garbage} {st : FGState κ α}

/-- An iteration at a complete table: if the previous message is at least `-B`, the new one is at least `-(R + d (B - R))`. -/
theorem Compiled.complete_step (h : Compiled vgs hist garbage st) (env : Env α) {T : α} (hT : T = 0 ∨ (0 < T ∧ EnvOk env)) {maxLen : Nat}
    (hmax : ∀ f i v, IsEdge (graphOf vgs hist).allScopes f i v → v.n ≤ maxLen) {Φ : List α → α} (hΦ : Summary Φ)
    (hsoft : ∀ F q i s, softOut env T F q i s = Φ ((F.rowsAt i s).map (scoreBut F.scope.length q i))) (lp : List α) (hlp : lp.length = st.logPotentials.length)
    (ev : Var → Nat → α) (d : α) {b : Nat → α} (hmod : Tame (graphOf vgs hist) lp ev d b) (m : Msgs α)
    (hb : Bounded (graphOf vgs hist).allScopes b m) (hcn : Clipped (graphOf vgs hist).allScopes m) {f : Nat} {F : SFac α}
    (hF : ((graphOf vgs hist).factors lp)[f]? = some F) (hf : f < (graphOf vgs hist).tables.length) (hc : F.Complete) {R : α} (hR : F.Within R)
    {i : Nat} {v : Var} (he : IsEdge (graphOf vgs hist).allScopes f i v) {s : Nat} (hs : s < v.n) {B : α} (ih : -B ≤ m f i s) :
    -(R + d * (B - R)) ≤ stepM env T (graphOf vgs hist) maxLen lp ev d m f i s := by
  have hi : F.scope[i]? = some v := by
    obtain ⟨F', hF', hi, -⟩ := (graphOf vgs hist).factors_edge lp he
    rw [hF] at hF'
    cases hF'
    exact hi
  have hrow := h.rowsFit lp hF
  rw [h.step_enum_tame env T hT hmax lp hlp _ d hmod _ hb hcn he hf hF s hs]
  have hrows : ∀ t < v.n, F.rowsAt i t ≠ [] := by
    obtain ⟨r, hr⟩ := List.exists_mem_of_ne_nil _ (h.rows_ne lp hlp (by rw [← FactorGraph.factors_table _ _ hf]; exact hF))
    have hr' := hrow r hr
    have hlt : i < r.1.length := by
      rw [hr'.length_eq]
      exact (List.getElem?_eq_some_iff.1 hi).1
    obtain ⟨w, hw, hlt'⟩ := forall₂_getElem? hr' (List.getElem?_eq_getElem hlt)
    rw [hi] at hw
    cases hw
    intro t ht hnil
    obtain ⟨φ, hp, -⟩ := hc.perm hrow hi hlt' ht
    rw [hnil] at hp
    have := List.perm_nil.1 hp
    rw [List.map_eq_nil_iff] at this
    have hmem : r ∈ F.rowsAt i r.1[i] := List.mem_filter.2 ⟨hr, by simp [List.getElem?_eq_getElem hlt]⟩
    rw [this] at hmem
    cases hmem
  unfold suppNorm
  rw [if_neg (hrows s hs)]
  refine le_trans ?_ (le_max_left _ _)
  obtain ⟨hmem, -⟩ := maxOf_spec 0 ((F.supp i v.n).map (fun s => m f i s + (1 - d) * (softOut env T F (vtofM (graphOf vgs hist).allScopes ev m f) i s - m f i s)))
    (by
      rw [Ne, List.map_eq_nil_iff]
      exact List.ne_nil_of_mem (SFac.mem_supp.2 ⟨hs, hrows s hs⟩))
  obtain ⟨t, ht, e⟩ := List.mem_map.1 hmem
  rw [← e]
  simp only [hsoft]
  obtain ⟨ht1, ht2⟩ := SFac.mem_supp.1 ht
  have h1 := hc.out_le hrow hR hΦ (vtofM (graphOf vgs hist).allScopes ev m f) hi ht1 hs ht2
  have h2 := ih
  have h3 := (hcn f i v t he ht1).2
  have h4 := mul_le_mul_of_nonneg_left h1 (sub_nonneg.2 hmod.damping.2)
  have h5 := mul_le_mul_of_nonneg_left h2 hmod.damping.1
  have h6 := mul_le_mul_of_nonneg_left h3 hmod.damping.1
  linarith

/-- The messages of a complete table are at least minus the range of its log potentials, up to the damped initial messages. -/
theorem Compiled.complete_bound (h : Compiled vgs hist garbage st) {state : BPState α} {bp : BPFun κ α} {T : α} (hbp : BP.create st state T = .ok bp)
    (env : Env α) (hT : T = 0 ∨ (0 < T ∧ EnvOk env)) (hfit : Fits env (graphOf vgs hist) T) {Φ : List α → α} (hΦ : Summary Φ)
    (hsoft : ∀ F q i s, softOut env T F q i s = Φ ((F.rowsAt i s).map (scoreBut F.scope.length q i))) (a : BPArrays α) (d : α)
    (hlp : a.logPotentials.length = st.logPotentials.length) (hev : a.evidence.length = st.numVarStates) (hm : a.ftovMsgs.length = st.totalFactorNumStates)
    (hmod : Moderate (graphOf vgs hist) a.logPotentials (readEv st.varsToStarts a.evidence) d) {f : Nat} {F : SFac α}
    (hF : ((graphOf vgs hist).factors a.logPotentials)[f]? = some F) (hf : f < (graphOf vgs hist).tables.length) (hc : F.Complete) {R : α} (hR : F.Within R)
    (n : Nat) {i : Nat} {v : Var} (he : IsEdge (graphOf vgs hist).allScopes f i v) {s : Nat} (hs : s < v.n) :
    -(R + d ^ n * (1000 - R)) ≤ readMsgs (graphOf vgs hist).allScopes (bp.runBP env a n d).ftovMsgs f i s := by
  have hmax := (h.maxMsgSize hbp).1
  have hl := h.normalize_length hbp env _ hm
  have hcl : ∀ {x y : Msgs α}, AgreeOn (graphOf vgs hist).allScopes x y → Clipped (graphOf vgs hist).allScopes y → Clipped (graphOf vgs hist).allScopes x := by
    intro x y hxy hy f i v s he hs
    rw [hxy f i v s he hs]
    exact hy f i v s he hs
  unfold BPFun.runBP
  have hclip : ∀ n, Clipped (graphOf vgs hist).allScopes (readMsgs (graphOf vgs hist).allScopes
      (BPFun.iterate (bp.step env a.logPotentials a.evidence d) n (normalizeAndClip env a.ftovMsgs bp.edgesNumStates bp.maxMsgSize))) := by
    intro n
    cases n with
    | zero => exact hcl (h.norm_read hbp env hfit.seg a.ftovMsgs hm) (normM_clipped hmax _)
    | succ n =>
      rw [iterate_succ']
      exact hcl (h.step_norm hbp env hfit.seg a.logPotentials a.evidence _ d hlp
        (h.iterate_read hbp env hfit a.logPotentials a.evidence d hlp hev n _ hl).1).2.2.2 (normM_clipped hmax _)
  induction n generalizing s with
  | zero =>
    have := (hclip 0 f i v s he hs).1
    simpa using this
  | succ n ih =>
    simp only [iterate_succ']
    have hlen := (h.iterate_read hbp env hfit a.logPotentials a.evidence d hlp hev n _ hl).1
    rw [(h.step_read hbp env hfit a.logPotentials a.evidence _ d hlp hev hlen).2 f i v s he hs]
    have := h.complete_step env hT hmax hΦ hsoft a.logPotentials hlp _ d hmod.tame _ (hclip n).bounded (hclip n) hF hf hc hR he hs (ih hs)
    rw [pow_succ]
    generalize d ^ n = D at *
    linarith

end

end PGMax
