import Verif.Lemmas.GmrfText
import Verif.Props.C85

/-! # C86: the GMRF program does 15 iterations of textbook sum-product on the field of pixels -/

namespace PGMax

/-- **C86.** With matrices and log probabilities of at most 1000, the marginals that the program computes are those of exactly 15 iterations of textbook sum-product on the field of pixels, up to a factor that
differs from 1 by less than `10 ^ 18 * exp (-100000)`; the field has the first matrix between vertical neighbours, the second between horizontal neighbours and the others on the two diagonals, and its evidence is the
log probability of the observation.
(The code adds `exp (-100000)` under the logarithm, as in C54.) -/
theorem C86_textbook {κ : Type} [DecidableEq κ] {idV idT idL idD idE : Nat} (hids : [idT, idL, idD, idE].Nodup) (garbage : Garbage) (stateId : Nat) (p : Nat → ℝ)
    (hp' : ∀ c < 3, |Real.log (p c)| ≤ 1000 ∧ |Real.log (1 - p c)| ≤ 1000) {k₀ k₁ k₂ M N : Nat} (hK : 2 ≤ k₀ + k₁ + k₂)
    (hM : 2 ≤ M) (hN : 2 ≤ N) (hs : M * N ≤ 1000000000) (env : Env ℝ) (hexp : env.exp = Real.exp) (hlog : env.log = Real.log)
    (hsize : env.wrapNeg = false ∨ M * N * (8 * (k₀ + k₁ + k₂)) + (k₀ + k₁ + k₂) ≤ 100000) :
    ∃ (s : GmrfSetup κ ℝ) (pix : Nat → Var), gmrfSetup κ idV idT idL idD idE garbage stateId [p 0, p 1, p 2] [k₀, k₁, k₂] M N = .ok s ∧ s.net.vars.variables = (List.range (M * N)).map pix ∧
      ∀ (lps : GmrfPotentials ℝ) (noisy : NDArr ℝ), lps.Sized (k₀ + k₁ + k₂) → noisy.shape = [M, N] → noisy.data.length = M * N →
        (∀ a ∈ [lps.topDown, lps.leftRight, lps.diagonal0, lps.diagonal1], ∀ y ∈ a.data, |y| ≤ 1000) →
        ∃ a P, gmrfMarginals env s lps noisy = .ok a ∧ HoldsPixels M N (k₀ + k₁ + k₂) a P ∧
          ∀ ev : Var → Nat → ℝ, (∀ c < M * N, ∀ t < k₀ + k₁ + k₂, ev (pix c) t = Real.log (observation p (noisy.data.getD c 0) (cloneClass k₀ k₁ t))) →
            ∀ c < M * N, ∀ t < k₀ + k₁ + k₂,
              Real.exp (-(10 ^ 18 * Real.exp (-100000))) * sumProductMarginal (fieldFactors pix M N (k₀ + k₁ + k₂) lps.topDown.data lps.leftRight.data lps.diagonal0.data lps.diagonal1.data) ev 15 (pix c) t ≤ P c t ∧
              P c t ≤ Real.exp (10 ^ 18 * Real.exp (-100000)) * sumProductMarginal (fieldFactors pix M N (k₀ + k₁ + k₂) lps.topDown.data lps.leftRight.data lps.diagonal0.data lps.diagonal1.data) ev 15 (pix c) t := by
  obtain ⟨s, e1, e2, hist, st, hrun⟩ := gmrf_setup (κ := κ) (idV := idV) hids garbage stateId p (k₀ := k₀) (k₁ := k₁) (k₂ := k₂) (by omega) hM hN hs env
  have hvars : s.net.vars.variables = (List.range (M * N)).map (gPix idV (k₀ + k₁ + k₂)) := by
    obtain ⟨arrs, h⟩ := hrun ⟨⟨[k₀ + k₁ + k₂, k₀ + k₁ + k₂], List.replicate ((k₀ + k₁ + k₂) * (k₀ + k₁ + k₂)) 0⟩, ⟨[k₀ + k₁ + k₂, k₀ + k₁ + k₂], List.replicate ((k₀ + k₁ + k₂) * (k₀ + k₁ + k₂)) 0⟩,
      ⟨[k₀ + k₁ + k₂, k₀ + k₁ + k₂], List.replicate ((k₀ + k₁ + k₂) * (k₀ + k₁ + k₂)) 0⟩, ⟨[k₀ + k₁ + k₂, k₀ + k₁ + k₂], List.replicate ((k₀ + k₁ + k₂) * (k₀ + k₁ + k₂)) 0⟩⟩ ⟨[M, N], List.replicate (M * N) 0⟩
      (by
        intro a ha
        simp only [List.mem_cons, List.not_mem_nil, or_false, or_self] at ha
        subst ha
        exact ⟨rfl, List.length_replicate⟩) rfl List.length_replicate
    apply List.ext_getElem?
    intro c
    rw [h.vars]
    by_cases hc : c < M * N
    · rw [uniArr_getElem hc, List.getElem?_map, List.getElem?_range hc]
      rfl
    · rw [List.getElem?_eq_none (by simpa [NDVarArray.variables, NDVarArray.variableHashes, uniArr] using hc), List.getElem?_eq_none (by simpa using hc)]
  refine ⟨s, gPix idV (k₀ + k₁ + k₂), e1, hvars, fun lps noisy hl hn1 hn2 hmat => ?_⟩
  obtain ⟨arrs, h⟩ := hrun lps noisy hl hn1 hn2
  obtain ⟨a, m1, m2⟩ := h.marginals hK (Nat.mul_pos (by omega) (by omega)) hexp hlog
  obtain ⟨state, hbp⟩ := h.bp
  obtain ⟨hedge, hfit, hz, hlen, hinit, hmod⟩ := h.ready (by omega) hlog hsize hmat (by
    intro y c hc
    unfold observation
    split
    · exact (hp' c hc).1
    · exact (hp' c hc).2)
  refine ⟨a, _, m1, m2, fun ev hev c hc t ht => ?_⟩
  have hfac := h.factors.trans (field_eq idV M N _ _ _ _ _ (hl lps.topDown (by simp)).2 (hl lps.leftRight (by simp)).2 (hl lps.diagonal0 (by simp)).2 (hl lps.diagonal1 (by simp)).2)
  have hsc := (graphOf s.vgs hist).factors_scopes arrs.logPotentials
  have hscopes : ∀ F ∈ (graphOf s.vgs hist).factors arrs.logPotentials, F.scope.length = 2 := by
    intro F hF
    obtain ⟨v, w, Q, -, -, -, rfl⟩ := h.mem_factors F hF
    rfl
  have hclose := C54_partial h.compiled one_pos hbp env hexp hlog hfit arrs 15 0 h.lp h.ev hlen hmod hinit (L := 7) (by norm_num) (by
    intro vs hvs i hi
    rw [← hsc] at hvs
    obtain ⟨F, hF, rfl⟩ := List.mem_map.1 hvs
    have hl2 := hscopes F hF
    have hd : ∀ v, (edgesOf (graphOf s.vgs hist).allScopes v).length ≤ 8 := fun v => h.degree v
    have : inputsBut (graphOf s.vgs hist).allScopes F.scope i ≤ 7 := by
      unfold inputsBut
      rw [hl2] at hi ⊢
      have : i = 0 ∨ i = 1 := by omega
      rcases this with rfl | rfl
      · have := hd (F.scope[1]?.getD ⟨0, 0⟩)
        simp [List.range_succ, List.filter_append]
        omega
      · have := hd (F.scope[0]?.getD ⟨0, 0⟩)
        simp [List.range_succ, List.filter_append]
        omega
    exact_mod_cast this)
  have hzero : readMsgs (graphOf s.vgs hist).allScopes arrs.ftovMsgs = fun _ _ _ => 0 := by
    funext f i t
    exact hz f i t
  have hev' : sumRun (fun _ => lse 1) ((graphOf s.vgs hist).factors arrs.logPotentials) (readEv st.varsToStarts arrs.evidence) 0 15 (fun _ _ _ => 0) =
      sumRun (fun _ => lse 1) ((graphOf s.vgs hist).factors arrs.logPotentials) ev 0 15 (fun _ _ _ => 0) := by
    refine sumRun_ev _ (fun F hF => ?_) (fun F hF v hv u hu => ?_) _ _ _
    · obtain ⟨f, hf⟩ := List.mem_iff_getElem?.1 hF
      exact h.compiled.rowsFit arrs.logPotentials hf
    · obtain ⟨f, hf⟩ := List.mem_iff_getElem?.1 hF
      obtain ⟨i, hi⟩ := List.mem_iff_getElem?.1 hv
      obtain ⟨c', hc', rfl⟩ := hedge f i v ⟨F.scope, by rw [← hsc, List.getElem?_map, hf]; rfl, hi⟩
      rw [h.evidence c' hc' u hu, hev c' hc' u hu, hlog]
  rw [hzero, hev', hfac] at hclose
  unfold sumProductMarginal
  rw [← hfac, hsc, hfac]
  have key := gibbs_close (n := k₀ + k₁ + k₂) (c := 8 * (Real.exp (-100000) * ∑ k ∈ Finset.range 15, (2 * 7) ^ k)) (ε := 10 ^ 18 * Real.exp (-100000))
    (f := beliefOf (graphOf s.vgs hist).allScopes (readEv st.varsToStarts arrs.evidence) (readMsgs (graphOf s.vgs hist).allScopes (s.bp.runBP env arrs 15 0).ftovMsgs) (gPix idV (k₀ + k₁ + k₂) c))
    (g := beliefOf (graphOf s.vgs hist).allScopes ev (sumRun (fun _ => lse 1) (fieldFactors (gPix idV (k₀ + k₁ + k₂)) M N (k₀ + k₁ + k₂) lps.topDown.data lps.leftRight.data lps.diagonal0.data lps.diagonal1.data) ev 0 15 (fun _ _ _ => 0)) (gPix idV (k₀ + k₁ + k₂) c))
    (fun u hu => ?_) ht
  · exact key
  · have hdeg : ((edgesOf (graphOf s.vgs hist).allScopes (gPix idV (k₀ + k₁ + k₂) c)).length : ℝ) ≤ 8 := by exact_mod_cast h.degree (gPix idV (k₀ + k₁ + k₂) c)
    have hsum : ∀ l : List (Nat × Nat), (∀ e ∈ l, e ∈ edgesOf (graphOf s.vgs hist).allScopes (gPix idV (k₀ + k₁ + k₂) c)) →
        |(l.map (fun e => readMsgs (graphOf s.vgs hist).allScopes (s.bp.runBP env arrs 15 0).ftovMsgs e.1 e.2 u)).sum -
          (l.map (fun e => sumRun (fun _ => lse 1) (fieldFactors (gPix idV (k₀ + k₁ + k₂)) M N (k₀ + k₁ + k₂) lps.topDown.data lps.leftRight.data lps.diagonal0.data lps.diagonal1.data) ev 0 15 (fun _ _ _ => 0) e.1 e.2 u)).sum| ≤
        l.length * (Real.exp (-100000) * ∑ k ∈ Finset.range 15, (2 * 7) ^ k) := by
      intro l
      induction l with
      | nil => intro _; simp
      | cons e l ih =>
        intro hl
        have a1 := ih fun e he => hl e (List.mem_cons_of_mem _ he)
        have a2 := hclose e.1 e.2 (gPix idV (k₀ + k₁ + k₂) c) u ((mem_edgesOf _ _ _ _).1 (hl e List.mem_cons_self)) hu
        rw [one_mul] at a2
        simp only [List.map_cons, List.sum_cons, List.length_cons]
        rw [add_sub_add_comm]
        refine (abs_add_le _ _).trans ?_
        push_cast
        linarith
    have a3 := hsum _ fun e he => he
    have hpos := Real.exp_pos (-100000)
    have e15 : ∑ k ∈ Finset.range 15, (2 * 7 : ℝ) ^ k = 11966776581370171 := by norm_num [Finset.sum_range_succ]
    rw [e15] at a3 ⊢
    have a4 : ((edgesOf (graphOf s.vgs hist).allScopes (gPix idV (k₀ + k₁ + k₂) c)).length : ℝ) * (Real.exp (-100000) * 11966776581370171) ≤ 8 * (Real.exp (-100000) * 11966776581370171) :=
      mul_le_mul_of_nonneg_right hdeg (by positivity)
    have a5 := abs_le.1 (a3.trans a4)
    unfold beliefOf
    rw [h.evidence c hc u hu, hev c hc u hu, hlog]
    constructor
    · linarith [a5.1]
    · linarith [a5.2]

/-- Non-vacuity of C86: images of 28 by 28 pixels, as in the program, with 10 states of class 0 and one each of classes 1 and 2; all matrices have the entries 1, -1, 1, -1, ..., and all pixels are observed as 1. -/
example (A : NDArr ℝ) (hA : A = ⟨[12, 12], (List.range 144).map (fun c => if c % 2 = 0 then 1 else -1)⟩) : ∃ (s : GmrfSetup Unit ℝ) (a : NDArr (Option ℝ)) (P : Nat → Nat → ℝ) (pix : Nat → Var),
    gmrfSetup Unit 1 2 3 4 5 (fun _ _ => 0) 6 [9 / 10, 1 / 10, 1 / 2] [10, 1, 1] 28 28 = .ok s ∧ gmrfMarginals realEnv s ⟨A, A, A, A⟩ ⟨[28, 28], List.replicate (28 * 28) 1⟩ = .ok a ∧ HoldsPixels 28 28 12 a P ∧
    Real.exp (-(10 ^ 18 * Real.exp (-100000))) * sumProductMarginal (fieldFactors pix 28 28 12 A.data A.data A.data A.data) (fun _ t => Real.log (observation (fun c => [9 / 10, 1 / 10, 1 / 2].getD c 0) 1 (cloneClass 10 1 t))) 15 (pix 100) 5 ≤ P 100 5 ∧ P 100 5 ≤ Real.exp (10 ^ 18 * Real.exp (-100000)) * sumProductMarginal (fieldFactors pix 28 28 12 A.data A.data A.data A.data) (fun _ t => Real.log (observation (fun c => [9 / 10, 1 / 10, 1 / 2].getD c 0) 1 (cloneClass 10 1 t))) 15 (pix 100) 5 := by
  obtain ⟨s, pix, e1, -, hrun⟩ := C86_textbook (κ := Unit) (idV := 1) (idT := 2) (idL := 3) (idD := 4) (idE := 5) (by decide) (fun _ _ => 0) 6 (fun c => [9 / 10, 1 / 10, 1 / 2].getD c 0) (by
      intro c hc
      have : c = 0 ∨ c = 1 ∨ c = 2 := by omega
      rcases this with rfl | rfl | rfl
      · exact ⟨log_moderate (by norm_num) (by norm_num), log_moderate (by norm_num) (by norm_num)⟩
      · exact ⟨log_moderate (by norm_num) (by norm_num), log_moderate (by norm_num) (by norm_num)⟩
      · exact ⟨log_moderate (by norm_num) (by norm_num), log_moderate (by norm_num) (by norm_num)⟩)
    (k₀ := 10) (k₁ := 1) (k₂ := 1) (M := 28) (N := 28) (by norm_num) (by norm_num) (by norm_num) (by norm_num) realEnv rfl rfl (.inr (by norm_num))
  obtain ⟨a, P, m1, m2, m3⟩ := hrun ⟨A, A, A, A⟩ ⟨[28, 28], List.replicate (28 * 28) 1⟩ (by
      intro (a : NDArr ℝ) ha
      simp only [List.mem_cons, List.not_mem_nil, or_false, or_self] at ha
      rw [ha, hA]
      exact ⟨rfl, by rw [List.length_map, List.length_range]⟩) rfl List.length_replicate (by
      intro (a : NDArr ℝ) ha (y : ℝ) hy
      simp only [List.mem_cons, List.not_mem_nil, or_false, or_self] at ha
      rw [ha, hA] at hy
      obtain ⟨c, -, rfl⟩ := List.mem_map.1 hy
      show |(if c % 2 = 0 then (1 : ℝ) else -1)| ≤ 1000
      split <;> norm_num)
  exact ⟨s, a, P, pix, e1, m1, m2, m3 _ (fun c hc t _ => by
    rw [List.getD, List.getElem?_replicate, if_pos hc]
    rfl) 100 (by norm_num) 5 (by norm_num)⟩

end PGMax
