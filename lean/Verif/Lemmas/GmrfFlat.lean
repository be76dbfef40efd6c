import Verif.Lemmas.Gmrf
import Verif.Props.C84

/-! Helper lemmas: the GMRF program with matrices that do not prefer any pair of states. -/

namespace PGMax

theorem gScopes_states (idV M N K : Nat) (D : GDir) (hm : D.m ≤ M) (hn : D.n ≤ N) : ((gScopes idV M N K D).map (fun vs => (vs.map (·.n)).sum)).sum ≤ M * N * (2 * K) := by
  unfold gScopes
  rw [List.map_map, List.map_congr_left (g := fun _ => 2 * K) (fun p _ => by simp [uniCell]; omega), List.map_const', List.sum_replicate, smul_eq_mul, show (grid D.m D.n).length = D.m * D.n by simp [grid, List.length_flatMap]]
  exact Nat.mul_le_mul_right _ (Nat.mul_le_mul hm hn)

theorem gibbs_of_log (f o : Nat → ℝ) (K : Nat) (ho : ∀ s < K, 0 < o s) {c : ℝ} (hf : ∀ s < K, f s = Real.log (o s) + c) {s : Nat} (hs : s < K) :
    gibbs f K s = o s / ∑ t ∈ Finset.range K, o t := by
  have e : ∀ t < K, Real.exp (f t) = o t * Real.exp c := fun t ht => by rw [hf t ht, Real.exp_add, Real.exp_log (ho t ht)]
  unfold gibbs
  rw [range_sum, e s hs, Finset.sum_congr rfl (fun t ht => e t (Finset.mem_range.1 ht)), ← Finset.sum_mul, mul_div_mul_right _ _ (Real.exp_ne_zero c)]

/-- If the numbers are moderate, the theorems about textbook belief propagation apply. -/
theorem GmrfRun.ready {κ : Type} [DecidableEq κ] {idV M N k₀ k₁ k₂ : Nat} {p : Nat → ℝ} {env : Env ℝ} {s : GmrfSetup κ ℝ} {lps : GmrfPotentials ℝ} {noisy : NDArr ℝ} {hist : List (AddArg ℝ)} {garbage : Garbage}
    {st : FGState κ ℝ} {arrs : BPArrays ℝ} (h : GmrfRun idV M N (k₀, k₁, k₂) p env s lps noisy hist garbage st arrs) (hK : 1 ≤ k₀ + k₁ + k₂) (hlog : env.log = Real.log)
    (hsize : env.wrapNeg = false ∨ M * N * (8 * (k₀ + k₁ + k₂)) + (k₀ + k₁ + k₂) ≤ 100000)
    (hmat : ∀ a ∈ [lps.topDown, lps.leftRight, lps.diagonal0, lps.diagonal1], ∀ y ∈ a.data, |y| ≤ 1000) (hobs : ∀ y : ℝ, ∀ c < 3, |Real.log (observation p y c)| ≤ 1000) :
    (∀ f i v, IsEdge (graphOf s.vgs hist).allScopes f i v → ∃ c < M * N, v = gPix idV (k₀ + k₁ + k₂) c) ∧ Fits env (graphOf s.vgs hist) (1 : ℝ) ∧
      (∀ f i t, readMsgs (graphOf s.vgs hist).allScopes arrs.ftovMsgs f i t = 0) ∧ arrs.ftovMsgs.length = st.totalFactorNumStates ∧
      (∀ f i v, IsEdge (graphOf s.vgs hist).allScopes f i v → ∃ t < v.n, -100000 ≤ readMsgs (graphOf s.vgs hist).allScopes arrs.ftovMsgs f i t) ∧
      Moderate (graphOf s.vgs hist) arrs.logPotentials (readEv st.varsToStarts arrs.evidence) 0 := by
  have hvn : ∀ v ∈ graphVars s.vgs, ∃ c < M * N, v = gPix idV (k₀ + k₁ + k₂) c := by
    intro v hv
    obtain ⟨g, hg, hv⟩ := mem_graphVars.1 hv
    rw [List.mem_singleton] at hg
    subst hg
    obtain ⟨c, hc⟩ := List.getElem?_of_mem hv
    have hlt : c < M * N := by
      have := (List.getElem?_eq_some_iff.1 hc).1
      rw [show VGroup.variables (.arr s.net.vars : VGroup κ) = s.net.vars.variables from rfl, h.vars, uniArr_variables] at this
      have hl := congrArg List.length (allIndices_map_rowMajor [M, N])
      rw [List.length_map, List.length_range] at hl
      rw [List.length_map, hl] at this
      simpa using this
    rw [show VGroup.variables (.arr s.net.vars : VGroup κ) = s.net.vars.variables from rfl, h.vars, uniArr_getElem hlt] at hc
    exact ⟨c, hlt, (Option.some.inj hc).symm⟩
  have hedge : ∀ f i v, IsEdge (graphOf s.vgs hist).allScopes f i v → ∃ c < M * N, v = gPix idV (k₀ + k₁ + k₂) c := by
    rintro f i v ⟨vs, h1, h2⟩
    exact hvn v (h.compiled.scopes_vars _ (List.mem_of_getElem? h1) v (List.mem_of_getElem? h2))
  have hcls : ∀ t, cloneClass k₀ k₁ t < 3 := by
    intro t
    unfold cloneClass
    split
    · omega
    · split <;> omega
  have hfit : Fits env (graphOf s.vgs hist) (1 : ℝ) := by
    refine ⟨hsize.imp_right fun hsz f i v he => ?_, fun h => absurd h one_ne_zero⟩
    obtain ⟨c, -, rfl⟩ := hedge f i v he
    rw [h.scopes]
    simp only [List.map_append, List.sum_append]
    have := gScopes_states idV M N (k₀ + k₁ + k₂) (gD1 M N) (Nat.sub_le _ _) le_rfl
    have := gScopes_states idV M N (k₀ + k₁ + k₂) (gD2 M N) le_rfl (Nat.sub_le _ _)
    have := gScopes_states idV M N (k₀ + k₁ + k₂) (gD3 M N) (Nat.sub_le _ _) (Nat.sub_le _ _)
    have := gScopes_states idV M N (k₀ + k₁ + k₂) (gD4 M N) (Nat.sub_le _ _) (Nat.sub_le _ _)
    have e : M * N * (8 * (k₀ + k₁ + k₂)) = 4 * (M * N * (2 * (k₀ + k₁ + k₂))) := by ring
    have e2 : (gPix idV (k₀ + k₁ + k₂) c).n = k₀ + k₁ + k₂ := rfl
    omega
  have hpos : ∀ v ∈ graphVars s.vgs, 0 < v.n := by
    intro v hv
    obtain ⟨c, -, rfl⟩ := hvn v hv
    exact hK
  obtain ⟨hz, hlen, hinit⟩ := h.compiled.zero_msgs h.msgs hpos
  refine ⟨hedge, hfit, hz, hlen, hinit, ?_⟩
  refine moderate_of_bounds (E := 1000) (P := 1000) (D := 8) (K := 2) (by norm_num) ?_ ?_ (by norm_num) ?_ (by norm_num)
  · intro f i v t he ht
    obtain ⟨c, hc, rfl⟩ := hedge f i v he
    rw [h.evidence c hc t ht, hlog]
    exact hobs _ _ (hcls t)
  · intro f i v he
    exact_mod_cast h.degree v
  · intro F hF
    rw [← h.tables] at hF
    obtain ⟨v, w, Q, -, -, hQ, rfl⟩ := h.mem_factors F hF
    refine ⟨by norm_num, fun r hr => ?_⟩
    have hr2 := (List.of_mem_zip hr).2
    simp only [List.mem_cons, List.not_mem_nil, or_false] at hQ
    rcases hQ with rfl | rfl | rfl | rfl
    · exact hmat _ (by simp) _ hr2
    · exact hmat _ (by simp) _ hr2
    · exact hmat _ (by simp) _ hr2
    · exact hmat _ (by simp) _ hr2

/-- If no factor prefers some states, the beliefs of a pixel are its evidence, up to a constant. -/
theorem GmrfRun.flat {κ : Type} [DecidableEq κ] {idV M N k₀ k₁ k₂ : Nat} {p : Nat → ℝ} {env : Env ℝ} {s : GmrfSetup κ ℝ} {lps : GmrfPotentials ℝ} {noisy : NDArr ℝ} {hist : List (AddArg ℝ)} {garbage : Garbage}
    {st : FGState κ ℝ} {arrs : BPArrays ℝ} (h : GmrfRun idV M N (k₀, k₁, k₂) p env s lps noisy hist garbage st arrs) (hl : lps.Sized (k₀ + k₁ + k₂)) (hK : 1 ≤ k₀ + k₁ + k₂) (hexp : env.exp = Real.exp) (hlog : env.log = Real.log)
    (hsize : env.wrapNeg = false ∨ M * N * (8 * (k₀ + k₁ + k₂)) + (k₀ + k₁ + k₂) ≤ 100000)
    (hflat : ∀ a ∈ [lps.topDown, lps.leftRight, lps.diagonal0, lps.diagonal1], ∃ x, |x| ≤ 1000 ∧ ∀ y ∈ a.data, y = x) (hobs : ∀ y : ℝ, ∀ c < 3, |Real.log (observation p y c)| ≤ 1000) {n : Nat} (hn : n ≠ 0) :
    ∀ c < M * N, ∃ C, ∀ t < k₀ + k₁ + k₂, beliefOf (graphOf s.vgs hist).allScopes (readEv st.varsToStarts arrs.evidence)
      (readMsgs (graphOf s.vgs hist).allScopes (s.bp.runBP env arrs n 0).ftovMsgs) (gPix idV (k₀ + k₁ + k₂) c) t = Real.log (observation p (noisy.data.getD c 0) (cloneClass k₀ k₁ t)) + C := by
  obtain ⟨state, hbp⟩ := h.bp
  obtain ⟨-, hfit, -, hlen, hinit, hmod⟩ := h.ready hK hlog hsize (fun a ha y hy => by
    obtain ⟨x, h1, h2⟩ := hflat a ha
    rw [h2 y hy]
    exact h1) hobs
  have hfac : ∀ F ∈ (graphOf s.vgs hist).factors arrs.logPotentials, ∃ v w x, v.n = k₀ + k₁ + k₂ ∧ w.n = k₀ + k₁ + k₂ ∧ F.scope = [v, w] ∧ |x| ≤ 1000 ∧ (∀ r ∈ F.rows, r.2 = x) ∧
      F.rows.map (·.1) = (mgridConfigs (k₀ + k₁ + k₂) (k₀ + k₁ + k₂)).rows := by
    intro F hF
    obtain ⟨v, w, Q, h1, h2, h3, rfl⟩ := h.mem_factors F hF
    have hQ : ∃ a ∈ [lps.topDown, lps.leftRight, lps.diagonal0, lps.diagonal1], Q = a.data := by
      simp only [List.mem_cons, List.not_mem_nil, or_false] at h3 ⊢
      rcases h3 with rfl | rfl | rfl | rfl
      · exact ⟨_, .inl rfl, rfl⟩
      · exact ⟨_, .inr (.inl rfl), rfl⟩
      · exact ⟨_, .inr (.inr (.inl rfl)), rfl⟩
      · exact ⟨_, .inr (.inr (.inr rfl)), rfl⟩
    obtain ⟨a, ha, rfl⟩ := hQ
    obtain ⟨x, hx1, hx2⟩ := hflat a ha
    refine ⟨v, w, x, h1, h2, rfl, hx1, fun r hr => hx2 _ (List.of_mem_zip hr).2, ?_⟩
    exact List.map_fst_zip (by rw [mgrid_rows_length, (hl a ha).2])
  intro c hc
  have hmsg : ∀ e : Nat × Nat, ∃ C, e ∈ edgesOf (graphOf s.vgs hist).allScopes (gPix idV (k₀ + k₁ + k₂) c) → ∀ t < k₀ + k₁ + k₂,
      readMsgs (graphOf s.vgs hist).allScopes (s.bp.runBP env arrs n 0).ftovMsgs e.1 e.2 t = C := by
    rintro ⟨f, i⟩
    by_cases he : (f, i) ∈ edgesOf (graphOf s.vgs hist).allScopes (gPix idV (k₀ + k₁ + k₂) c)
    · obtain ⟨F, hF, hi, -⟩ := (graphOf s.vgs hist).factors_edge arrs.logPotentials ((mem_edgesOf _ _ _ _).1 he)
      obtain ⟨v, w, x, n1, n2, e1, hx, e2, e3⟩ := hfac F (List.mem_of_getElem? hF)
      obtain ⟨C, hC⟩ := C84_separable_sum_partial h.compiled one_pos hbp env hexp hlog hfit arrs n 0 h.lp h.ev hlen hmod hinit f F hF
        (by
          refine ⟨by rw [e3]; exact mgrid_nodup _ _, fun d hd => ?_⟩
          rw [e1] at hd
          cases hd with
          | cons h1 hd =>
            cases hd with
            | cons h2 hd =>
              cases hd
              rename_i a b
              have : [a, b] ∈ F.rows.map (·.1) := by
                rw [e3, mgrid_mem]
                exact ⟨a, b, by omega, by omega, rfl⟩
              obtain ⟨r, hr, hr2⟩ := List.mem_map.1 this
              exact ⟨r.2, by rw [← hr2]; exact hr⟩)
        (by
          intro hnil
          have := congrArg List.length e3
          rw [hnil, mgrid_rows_length] at this
          have hKK : 0 < (k₀ + k₁ + k₂) * (k₀ + k₁ + k₂) := Nat.mul_pos hK hK
          simp at this
          omega)
        (fun _ _ => 0) ⟨x, fun r hr => by rw [e2 r hr]; simp [termsOf]⟩ i _ hi (by intro a _ b _; norm_num)
      refine ⟨C, fun _ t ht => ?_⟩
      rw [hC t ht, zero_pow hn]
      ring
    · exact ⟨0, fun h => absurd h he⟩
  choose C hC using hmsg
  refine ⟨((edgesOf (graphOf s.vgs hist).allScopes (gPix idV (k₀ + k₁ + k₂) c)).map C).sum, fun t ht => ?_⟩
  unfold beliefOf
  rw [h.evidence c hc t ht, hlog]
  congr 2
  exact List.map_congr_left fun e he => hC e he t ht

end PGMax
