import Verif.Props.C106
import Verif.Lemmas.Cluster

/-! # C107: on trees the distributions of factors are the joint distributions of their variables -/

namespace PGMax

variable {κ : Type _} {vgs : List (VGroup κ)} {hist : List (AddArg ℝ)} {garbage : Garbage} {st : FGState κ ℝ}

/-- A forest rooted at a variable of a given factor. -/
theorem exists_rootedForest_at {scopes : List (List Var)} (hG : (bipartite scopes).IsAcyclic) (hnd : ∀ vs ∈ scopes, vs.Nodup) (hne : ∀ vs ∈ scopes, vs ≠ []) {n : Nat} (hn : scopes.length ≤ n)
    {f : Nat} {vs : List Var} (hf : scopes[f]? = some vs) :
    ∃ up par ht r, RootedForest scopes up par ht ∧ (∀ f < scopes.length, ht f < n) ∧ vs[up f]? = some r ∧ par r = none := by
  have h0 : 0 < scopes.length := lt_of_le_of_lt (Nat.zero_le _) (List.getElem?_eq_some_iff.1 hf).1
  have hd : ∀ v f, (bipartite scopes).dist (.inl v) (.inr f) < 2 * n := fun v f => lt_of_lt_of_le (dist_lt_factors v f h0) (by omega)
  have hl : 0 < vs.length := List.length_pos_iff.2 (hne vs (List.mem_of_getElem? hf))
  obtain ⟨hR, hroot, hht⟩ := rootedForest hG hnd hne vs[0] n (hd _) (fun v f _ => hd v f)
  have hup : upOf scopes vs[0] f = 0 := by
    by_contra hc
    have := (hR.par_iff vs[0] f 0).2 ⟨⟨vs, hf, List.getElem?_eq_getElem hl⟩, fun h => hc h.symm⟩
    rw [hroot] at this
    cases this
  exact ⟨_, _, _, vs[0], hR, hht, by rw [hup]; exact List.getElem?_eq_getElem hl, hroot⟩

/-- Dividing the two bounds. -/
theorem ratio_near {A B D W Z δ δ' Δ : ℝ} (hA : 0 < A) (hD : 0 ≤ D) (hB : A = Real.exp B) (h1 : A * (D * Real.exp (-δ')) ≤ W) (h2 : W ≤ A * (D * Real.exp δ'))
    (h3 : Real.exp (B - δ) ≤ Z) (h4 : Z ≤ Real.exp (B + δ)) (hΔ : δ + δ' ≤ Δ) : D * Real.exp (-Δ) ≤ W / Z ∧ W / Z ≤ D * Real.exp Δ := by
  have hZ := (Real.exp_pos _).trans_le h3
  rw [sub_eq_add_neg, Real.exp_add, ← hB] at h3
  rw [Real.exp_add, ← hB] at h4
  rw [le_div_iff₀ hZ, div_le_iff₀ hZ]
  constructor
  · calc D * Real.exp (-Δ) * Z ≤ D * Real.exp (-Δ) * (A * Real.exp δ) := mul_le_mul_of_nonneg_left h4 (mul_nonneg hD (Real.exp_pos _).le)
      _ = A * (D * Real.exp (-Δ + δ)) := by rw [Real.exp_add]; ring
      _ ≤ A * (D * Real.exp (-δ')) := mul_le_mul_of_nonneg_left (mul_le_mul_of_nonneg_left (Real.exp_le_exp.2 (by linarith)) hD) hA.le
      _ ≤ W := h1
  · calc W ≤ A * (D * Real.exp δ') := h2
      _ ≤ A * (D * Real.exp (Δ + -δ)) := mul_le_mul_of_nonneg_left (mul_le_mul_of_nonneg_left (Real.exp_le_exp.2 (by linarith)) hD) hA.le
      _ = D * Real.exp Δ * (A * Real.exp (-δ)) := by rw [Real.exp_add]; ring
      _ ≤ D * Real.exp Δ * Z := mul_le_mul_of_nonneg_left h3 (mul_nonneg hD (Real.exp_pos _).le)

theorem assignProb_nonneg (T : ℝ) (F : SFac ℝ) (q : Nat → Nat → ℝ) (x : Var → Nat) : 0 ≤ F.assignProb T q x := by
  have hnn : ∀ l : List (List Nat × ℝ), 0 ≤ (l.map (rowWeight T F.scope.length q)).sum := fun l => List.sum_nonneg fun y hy => by
    obtain ⟨r, -, rfl⟩ := List.mem_map.1 hy
    exact (Real.exp_pos _).le
  exact div_nonneg (hnn _) (hnn _)

/-- **C107, partial.** On an acyclic factor graph with factors of any type, at any temperature `T > 0`, for moderate numbers and without damping: if no message is clipped, after as many iterations as there are
factors the distribution of a factor's configurations (proportional to `exp` of log potential and incoming messages over `T`) is the joint distribution of its variables: the total weight of the joint
assignments with states `x` on the factor's variables over that of all joint assignments, up to a factor of `exp (± 2 k exp (-1e5))` for `k` enumeration factors. Missing: numbers that are not moderate, as in C55. -/
theorem C107_partial (h : Compiled vgs hist garbage st) {state : BPState ℝ} {bp : BPFun κ ℝ} {T : ℝ} (hT : 0 < T)
    (hbp : BP.create st state T = .ok bp) (env : Env ℝ) (hexp : env.exp = Real.exp) (hlog : env.log = Real.log)
    (hfit : Fits env (graphOf vgs hist) T) (a : BPArrays ℝ) (n : Nat)
    (hlp : a.logPotentials.length = st.logPotentials.length) (hev : a.evidence.length = st.numVarStates) (hm : a.ftovMsgs.length = st.totalFactorNumStates)
    (hmod : Moderate (graphOf vgs hist) a.logPotentials (readEv st.varsToStarts a.evidence) 0)
    (hinit : ∀ f i v, IsEdge (graphOf vgs hist).allScopes f i v → ∃ s < v.n, -100000 ≤ readMsgs (graphOf vgs hist).allScopes a.ftovMsgs f i s)
    (htree : (bipartite (graphOf vgs hist).allScopes).IsAcyclic) (hnd : ∀ vs ∈ (graphOf vgs hist).allScopes, vs.Nodup)
    (hpos : ∀ v ∈ graphVars vgs, 0 < v.n)
    (hclip : ∀ f i v s, IsEdge (graphOf vgs hist).allScopes f i v → s < v.n → -1000 < readMsgs (graphOf vgs hist).allScopes (bp.runBP env a n 0).ftovMsgs f i s)
    (hn : (graphOf vgs hist).allScopes.length ≤ n) (f : Nat) (F : SFac ℝ) (hF : ((graphOf vgs hist).factors a.logPotentials)[f]? = some F) (x : Var → Nat) (hx : ∀ v ∈ F.scope, x v < v.n)
    (D : ℝ) (hD : D = factorDist T ((graphOf vgs hist).factors a.logPotentials) (readEv st.varsToStarts a.evidence) (readMsgs (graphOf vgs hist).allScopes (bp.runBP env a n 0).ftovMsgs) f x)
    (P : ℝ) (hP : P = clusterWeight T (graphVars vgs) ((graphOf vgs hist).factors a.logPotentials) (readEv st.varsToStarts a.evidence) F.scope x /
      totalWeight T (graphVars vgs) ((graphOf vgs hist).factors a.logPotentials) (readEv st.varsToStarts a.evidence)) :
    D * Real.exp (-(2 * (graphOf vgs hist).tables.length * Real.exp (-100000))) ≤ P ∧ P ≤ D * Real.exp (2 * (graphOf vgs hist).tables.length * Real.exp (-100000)) := by
  have htb := h.run_sum hT hbp env hexp hlog hfit a n 0 hlp hev hm hmod hinit
  have hsc := (graphOf vgs hist).factors_scopes a.logPotentials
  have hmemF : ∀ F ∈ (graphOf vgs hist).factors a.logPotentials, F.scope ∈ (graphOf vgs hist).allScopes := by
    intro F hF
    rw [← hsc]
    exact List.mem_map.2 ⟨F, hF, rfl⟩
  obtain ⟨up, par, ht, r, hR, hht, hur, hroot⟩ := exists_rootedForest_at htree hnd h.scopes_ne hn (f := f) (vs := F.scope) (by rw [← hsc, List.getElem?_map, hF]; rfl)
  rw [← hsc] at hR hht
  obtain ⟨K, hK⟩ := hR.sum_fixed (fun f F hF => h.rowsFit a.logPotentials hF) (codeSummary (graphOf vgs hist).tables.length T) (readEv st.varsToStarts a.evidence)
    (readMsgs (graphOf vgs hist).allScopes a.ftovMsgs) n (by simpa using hht) (fun f v s he hs => by
      rw [hsc] at he
      rw [← htb f _ v s he hs]
      exact hclip f _ v s he hs)
  have hup : SumUp T ((graphOf vgs hist).factors a.logPotentials) up (readEv st.varsToStarts a.evidence) (sumRun (codeSummary (graphOf vgs hist).tables.length T)
      ((graphOf vgs hist).factors a.logPotentials) (readEv st.varsToStarts a.evidence) 0 n (readMsgs (graphOf vgs hist).allScopes a.ftovMsgs)) K
      (fun f => if f < (graphOf vgs hist).tables.length then T * Real.exp (-100000) else 0) := by
    intro f F v hF hv s hs
    obtain ⟨h1, h2⟩ := hK f F v hF hv s hs
    refine ⟨h1, ?_⟩
    rw [h2]
    exact codeSummary_bounds _ hT f (by simpa using h1)
  have hcons := hR.prob_up hT (h.rowsFit_mem a.logPotentials) hup
  obtain ⟨h1, h2⟩ := hR.total_near hT (h.factors_vars a.logPotentials) (fun F hF => hnd _ (hmemF F hF)) hpos (h.rowsFit_mem a.logPotentials) hcons
  obtain ⟨h3, h4⟩ := hR.cluster_near hT (h.factors_vars a.logPotentials) (fun F hF => hnd _ (hmemF F hF)) hpos (h.rowsFit_mem a.logPotentials) hcons hF hur hroot hx
  have hDe : D = F.assignProb T (tbIn ((graphOf vgs hist).factors a.logPotentials) (readEv st.varsToStarts a.evidence) (sumRun (codeSummary (graphOf vgs hist).tables.length T)
      ((graphOf vgs hist).factors a.logPotentials) (readEv st.varsToStarts a.evidence) 0 n (readMsgs (graphOf vgs hist).allScopes a.ftovMsgs)) f F) x := by
    rw [hD]
    unfold factorDist
    rw [getD_of_some hF]
    exact assignProb_agreeOn (by rw [hsc]; exact htb) (h.rowsFit_mem a.logPotentials) hF x
  rw [← hDe] at h3 h4
  have hsum : ∑ f ∈ Finset.range ((graphOf vgs hist).factors a.logPotentials).length, (if f < (graphOf vgs hist).tables.length then T * Real.exp (-100000) else 0) / T ≤
      (graphOf vgs hist).tables.length * Real.exp (-100000) := by
    rw [← Finset.sum_div, ← Finset.sum_filter, Finset.sum_const, nsmul_eq_mul, mul_div_assoc, mul_div_cancel_left₀ _ hT.ne']
    refine mul_le_mul_of_nonneg_right (Nat.cast_le.2 ?_) (Real.exp_pos _).le
    refine (Finset.card_le_card (t := Finset.range (graphOf vgs hist).tables.length) ?_).trans (by simp)
    intro f hf
    exact Finset.mem_range.2 (Finset.mem_filter.1 hf).2
  have hsub : ∑ f ∈ (Finset.range ((graphOf vgs hist).factors a.logPotentials).length).erase f, (if f < (graphOf vgs hist).tables.length then T * Real.exp (-100000) else 0) / T ≤
      ∑ f ∈ Finset.range ((graphOf vgs hist).factors a.logPotentials).length, (if f < (graphOf vgs hist).tables.length then T * Real.exp (-100000) else 0) / T := by
    refine Finset.sum_le_sum_of_subset_of_nonneg (Finset.erase_subset _ _) fun g _ _ => ?_
    split
    · exact div_nonneg (mul_nonneg hT.le (Real.exp_pos _).le) hT.le
    · exact div_nonneg le_rfl hT.le
  rw [hP]
  refine ratio_near (Real.exp_pos _) (by rw [hDe]; exact assignProb_nonneg _ _ _ _) rfl h3 h4 h1 h2 ?_
  linarith

/-- **C107, partial, damping.** With any damping below 1, once messages that are not clipped change by at most `η ≥ 0`, the same holds with `2 Σ restGap`. Missing: as above. -/
theorem C107_rest_partial (h : Compiled vgs hist garbage st) {state : BPState ℝ} {bp : BPFun κ ℝ} {T : ℝ} (hT : 0 < T) (hbp : BP.create st state T = .ok bp)
    (env : Env ℝ) (hexp : env.exp = Real.exp) (hlog : env.log = Real.log) (hfit : Fits env (graphOf vgs hist) T) (a : BPArrays ℝ) (n : Nat) {d : ℝ} (hd : d < 1)
    (hlp : a.logPotentials.length = st.logPotentials.length) (hev : a.evidence.length = st.numVarStates) (hm : a.ftovMsgs.length = st.totalFactorNumStates)
    (hmod : Moderate (graphOf vgs hist) a.logPotentials (readEv st.varsToStarts a.evidence) d)
    (hinit : ∀ f i v, IsEdge (graphOf vgs hist).allScopes f i v → ∃ s < v.n, -100000 ≤ readMsgs (graphOf vgs hist).allScopes a.ftovMsgs f i s) {η : ℝ} (hη0 : 0 ≤ η) (hpos : ∀ v ∈ graphVars vgs, 0 < v.n)
    (htree : (bipartite (graphOf vgs hist).allScopes).IsAcyclic) (hnd : ∀ vs ∈ (graphOf vgs hist).allScopes, vs.Nodup)
    (hη : ∀ f i v s, IsEdge (graphOf vgs hist).allScopes f i v → s < v.n →
      |(readMsgs (graphOf vgs hist).allScopes (bp.runBP env a (n + 1) d).ftovMsgs) f i s - (readMsgs (graphOf vgs hist).allScopes (bp.runBP env a n d).ftovMsgs) f i s| ≤ η)
    (hclip : ∀ f i v s, IsEdge (graphOf vgs hist).allScopes f i v → s < v.n → -1000 < (readMsgs (graphOf vgs hist).allScopes (bp.runBP env a (n + 1) d).ftovMsgs) f i s)
    (f : Nat) (F : SFac ℝ) (hF : ((graphOf vgs hist).factors a.logPotentials)[f]? = some F) (x : Var → Nat) (hx : ∀ v ∈ F.scope, x v < v.n)
    (D : ℝ) (hD : D = factorDist T ((graphOf vgs hist).factors a.logPotentials) (readEv st.varsToStarts a.evidence) (readMsgs (graphOf vgs hist).allScopes (bp.runBP env a n d).ftovMsgs) f x)
    (P : ℝ) (hP : P = clusterWeight T (graphVars vgs) ((graphOf vgs hist).factors a.logPotentials) (readEv st.varsToStarts a.evidence) F.scope x /
      totalWeight T (graphVars vgs) ((graphOf vgs hist).factors a.logPotentials) (readEv st.varsToStarts a.evidence)) :
    D * Real.exp (-(2 * ∑ g ∈ Finset.range (graphOf vgs hist).allScopes.length, restGap (graphOf vgs hist).tables.length T d η g)) ≤ P ∧
      P ≤ D * Real.exp (2 * ∑ g ∈ Finset.range (graphOf vgs hist).allScopes.length, restGap (graphOf vgs hist).tables.length T d η g) := by
  have hsc := (graphOf vgs hist).factors_scopes a.logPotentials
  have hmemF : ∀ F ∈ (graphOf vgs hist).factors a.logPotentials, F.scope ∈ (graphOf vgs hist).allScopes := by
    intro F hF
    rw [← hsc]
    exact List.mem_map.2 ⟨F, hF, rfl⟩
  have hlen : (graphOf vgs hist).allScopes.length = ((graphOf vgs hist).factors a.logPotentials).length := by rw [← hsc, List.length_map]
  obtain ⟨up, par, ht, r, hR, -, hur, hroot⟩ := exists_rootedForest_at htree hnd h.scopes_ne le_rfl (f := f) (vs := F.scope) (by rw [← hsc, List.getElem?_map, hF]; rfl)
  rw [← hsc] at hR
  rw [hlen]
  have hcons : ∀ (f : Nat) (F : SFac ℝ) (v : Var), ((graphOf vgs hist).factors a.logPotentials)[f]? = some F → F.scope[up f]? = some v → ∀ s < v.n, _ := fun f F v hF hi s hs =>
    C83 h hT hbp env hexp hlog hfit a n hd hlp hev hm hmod hinit (η := η) f F (up f) v hF hi
      (fun s hs => hη f _ v s ⟨F.scope, by rw [← hsc, List.getElem?_map, hF]; rfl, hi⟩ hs) (fun s hs => hclip f _ v s ⟨F.scope, by rw [← hsc, List.getElem?_map, hF]; rfl, hi⟩ hs) hs
  rw [← hsc] at hcons
  obtain ⟨h1, h2⟩ := hR.total_near hT (h.factors_vars a.logPotentials) (fun F hF => hnd _ (hmemF F hF)) hpos (h.rowsFit_mem a.logPotentials) hcons
  obtain ⟨h3, h4⟩ := hR.cluster_near hT (h.factors_vars a.logPotentials) (fun F hF => hnd _ (hmemF F hF)) hpos (h.rowsFit_mem a.logPotentials) hcons hF hur hroot hx
  have hDe : D = F.assignProb T (tbIn ((graphOf vgs hist).factors a.logPotentials) (readEv st.varsToStarts a.evidence) (readMsgs (graphOf vgs hist).allScopes (bp.runBP env a n d).ftovMsgs) f F) x := by
    rw [hD]
    unfold factorDist
    rw [getD_of_some hF]
  rw [hsc, ← hDe] at h3 h4
  rw [hsc] at h1 h2
  rw [hP]
  refine ratio_near (Real.exp_pos _) (by rw [hDe]; exact assignProb_nonneg _ _ _ _) rfl h3 h4 h1 h2 ?_
  have hsub : ∑ g ∈ (Finset.range ((graphOf vgs hist).factors a.logPotentials).length).erase f, restGap (graphOf vgs hist).tables.length T d η g ≤
      ∑ g ∈ Finset.range ((graphOf vgs hist).factors a.logPotentials).length, restGap (graphOf vgs hist).tables.length T d η g := by
    refine Finset.sum_le_sum_of_subset_of_nonneg (Finset.erase_subset _ _) fun g _ _ => ?_
    unfold restGap
    refine div_nonneg (add_nonneg (div_nonneg (by linarith) (by linarith)) ?_) hT.le
    split
    · exact mul_nonneg hT.le (Real.exp_pos _).le
    · exact le_rfl
  linarith

/-! ## Non-vacuity -/

/-- The chain of two tables `exHistT`: after two iterations the joint probabilities of its first two variables are known. -/
example {env : Env ℝ} (hexp : env.exp = Real.exp) (hlog : env.log = Real.log) (hw : env.wrapNeg = false) {T : ℝ} (hT : 0 < T) (x : Var → Nat) (hx : ∀ v, x v < 2) :
    clusterWeight T (graphVars exVars) ((graphOf exVars exHistT).factors exLpT) (readEv exStateT.varsToStarts exEvT) [exVar 0, exVar 1] x /
        totalWeight T (graphVars exVars) ((graphOf exVars exHistT).factors exLpT) (readEv exStateT.varsToStarts exEvT) ≤
      factorDist T ((graphOf exVars exHistT).factors exLpT) (readEv exStateT.varsToStarts exEvT) (readMsgs (graphOf exVars exHistT).allScopes
        ((exBPT T).runBP env ⟨exLpT, List.replicate 8 0, exEvT⟩ 2 0).ftovMsgs) 0 x * Real.exp (4 * Real.exp (-100000)) := by
  have hn : ∀ v ∈ graphVars exVars, 0 < v.n := by decide +kernel
  have hc := exCompleteT
  obtain ⟨F, hF, hs⟩ : ∃ F, ((graphOf exVars exHistT).factors exLpT)[0]? = some F ∧ F.scope = [exVar 0, exVar 1] := ⟨_, rfl, rfl⟩
  have := C107_partial exStateT_compiled hT (exBPT_create T) env hexp hlog (exFitsT hw hT.ne') ⟨exLpT, List.replicate 8 0, exEvT⟩ 2 rfl rfl (by simp; rfl)
    (exModerateT (by norm_num)) exInitT exTreeT (by rw [exScopesT]; decide +kernel) hn (fun f i v s he hs => by
      obtain ⟨F, hF, -⟩ := (graphOf exVars exHistT).factors_edge exLpT he
      obtain ⟨h1, R, hR, h2⟩ := hc F (List.mem_of_getElem? hF)
      have hf' : f < (graphOf exVars exHistT).tables.length := by
        obtain ⟨vs, h1, -⟩ := he
        exact (List.getElem?_eq_some_iff.1 h1).1
      have := C56_sum_partial exStateT_compiled hT (exBPT_create T) env hexp hlog (exFitsT hw hT.ne') ⟨exLpT, List.replicate 8 0, exEvT⟩ 2 0 rfl rfl (by simp; rfl) (exModerateT (by norm_num)) f F hF hf' h1 R h2 i v he s hs
      rw [zero_pow (by omega), zero_mul, add_zero] at this
      linarith) (by rw [exScopesT]; decide) 0 F hF x (fun v hv => by
      rw [hs] at hv
      have : ∀ v ∈ [exVar 0, exVar 1], v.n = 2 := by decide
      rw [this v hv]
      exact hx v) _ rfl _ rfl
  rw [show (graphOf exVars exHistT).tables.length = 2 from rfl, hs] at this
  have h2 := this.2
  norm_num at h2 ⊢
  exact h2

end PGMax
