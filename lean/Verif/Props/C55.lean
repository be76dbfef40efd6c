import Verif.Props.C53
import Verif.Props.C54
import Mathlib.Analysis.SpecialFunctions.Pow.Real

/-! # C55: sum-product belief propagation is exact on trees -/

namespace PGMax

variable {κ : Type _} {vgs : List (VGroup κ)} {hist : List (AddArg ℝ)} {garbage : Garbage} {st : FGState κ ℝ}

/-- Iterations whose summaries are log-sums up to an error are exact on forests up to the total error. -/
theorem sumRun_exact {factors : List (SFac ℝ)} (hG : (bipartite (factors.map (·.scope))).IsAcyclic) (hnd : ∀ F ∈ factors, F.scope.Nodup)
    (hne : ∀ F ∈ factors, F.scope ≠ []) (hrow : ∀ F ∈ factors, ∀ r ∈ F.rows, List.Forall₂ (fun s (v : Var) => s < v.n) r.1 F.scope)
    {vars : Finset Var} (hvars : ∀ F ∈ factors, ∀ v ∈ F.scope, v ∈ vars) (hpos : ∀ v ∈ vars, 0 < v.n) {T : ℝ} (hT : 0 < T)
    (Φ : Nat → List ℝ → ℝ) (ε : Nat → ℝ) (hΦ : ∀ f l, l ≠ [] → lse T l ≤ Φ f l ∧ Φ f l ≤ lse T l + ε f) (ev : Var → Nat → ℝ) (m0 : Msgs ℝ) (n : Nat)
    (hclip : ∀ f i v s, IsEdge (factors.map (·.scope)) f i v → s < v.n → -1000 < sumRun Φ factors ev 0 n m0 f i s) {r : Var} (hr : r ∈ vars)
    (hn : ∀ f, (bipartite (factors.map (·.scope))).dist (.inl r) (.inr f) < 2 * n)
    (hother : ∀ v f, ¬(bipartite (factors.map (·.scope))).Reachable (.inl r) (.inl v) → (bipartite (factors.map (·.scope))).dist (.inl v) (.inr f) < 2 * n) :
    ∃ c, ∀ s < r.n, 0 < stateWeight T vars factors ev r s ∧
      T * Real.log (stateWeight T vars factors ev r s) ≤ beliefOf (factors.map (·.scope)) ev (sumRun Φ factors ev 0 n m0) r s + c ∧
      beliefOf (factors.map (·.scope)) ev (sumRun Φ factors ev 0 n m0) r s + c
        ≤ T * Real.log (stateWeight T vars factors ev r s) + ∑ f ∈ Finset.range factors.length, ε f := by
  obtain ⟨hR, hroot, hht⟩ := rootedForest hG (by simpa using hnd) (by simpa using hne) r n hn hother
  have hrow' : ∀ (f : Nat) (F : SFac ℝ), factors[f]? = some F → ∀ r ∈ F.rows, List.Forall₂ (fun s (v : Var) => s < v.n) r.1 F.scope :=
    fun f F hF => hrow F (List.mem_of_getElem? hF)
  obtain ⟨K, hK⟩ := hR.sum_fixed hrow' Φ ev m0 n (by simpa using hht) (fun f v s he hs => hclip f _ v s he hs)
  refine hR.sum_exact hT ?_ hpos hnd hrow' (m := sumRun Φ factors ev 0 n m0) (K := K) (ε := ε) ?_ hr hroot
  · rintro f j v ⟨vs, h1, h2⟩
    rw [List.getElem?_map] at h1
    obtain ⟨F, hF, rfl⟩ := Option.map_eq_some_iff.1 h1
    exact hvars F (List.mem_of_getElem? hF) v (List.mem_of_getElem? h2)
  · intro f F v hF hv s hs
    obtain ⟨h1, h2⟩ := hK f F v hF hv s hs
    refine ⟨h1, ?_⟩
    rw [h2]
    exact hΦ f _ (by simpa using h1)

/-- **C55 (1), partial.** On an acyclic factor graph (a tree, or several), at any temperature `T > 0` and with damping 0, if no message is
clipped, the beliefs of variable `r` after `n` iterations are `T` times the logarithm of its exact sum-marginals, up to a constant and an
error of at most `T exp (-1e5)` per enumeration factor, provided no path from `r` to a factor
(or from a variable to a factor in another tree) has more than `n` factors.
Missing: numbers that are not moderate, where the code's constant -1e5 does not act as minus infinity (`C55_refuted`); the size limits `Fits`. -/
theorem C55_partial (h : Compiled vgs hist garbage st) {state : BPState ℝ} {bp : BPFun κ ℝ} {T : ℝ} (hT : 0 < T)
    (hbp : BP.create st state T = .ok bp) (env : Env ℝ) (hexp : env.exp = Real.exp) (hlog : env.log = Real.log)
    (hfit : Fits env (graphOf vgs hist) T) (a : BPArrays ℝ) (n : Nat)
    (hlp : a.logPotentials.length = st.logPotentials.length) (hev : a.evidence.length = st.numVarStates) (hm : a.ftovMsgs.length = st.totalFactorNumStates)
    (hmod : Moderate (graphOf vgs hist) a.logPotentials (readEv st.varsToStarts a.evidence) 0)
    (hinit : ∀ f i v, IsEdge (graphOf vgs hist).allScopes f i v → ∃ s < v.n, -100000 ≤ readMsgs (graphOf vgs hist).allScopes a.ftovMsgs f i s)
    (htree : (bipartite (graphOf vgs hist).allScopes).IsAcyclic) (hnd : ∀ vs ∈ (graphOf vgs hist).allScopes, vs.Nodup)
    (hpos : ∀ v ∈ graphVars vgs, 0 < v.n)
    (hclip : ∀ f i v s, IsEdge (graphOf vgs hist).allScopes f i v → s < v.n → -1000 < readMsgs (graphOf vgs hist).allScopes (bp.runBP env a n 0).ftovMsgs f i s)
    (r : Var) (hr : r ∈ graphVars vgs) (hn : ∀ f, (bipartite (graphOf vgs hist).allScopes).dist (.inl r) (.inr f) < 2 * n)
    (hother : ∀ v f, ¬(bipartite (graphOf vgs hist).allScopes).Reachable (.inl r) (.inl v) → (bipartite (graphOf vgs hist).allScopes).dist (.inl v) (.inr f) < 2 * n) :
    ∃ c start, st.varsToStarts r = some start ∧ ∀ s < r.n,
      0 < stateWeight T (graphVars vgs) ((graphOf vgs hist).factors a.logPotentials) (readEv st.varsToStarts a.evidence) r s ∧
      T * Real.log (stateWeight T (graphVars vgs) ((graphOf vgs hist).factors a.logPotentials) (readEv st.varsToStarts a.evidence) r s)
        ≤ (bp.flatBeliefs (bp.runBP env a n 0)).getD (start + s) 0 + c ∧
      (bp.flatBeliefs (bp.runBP env a n 0)).getD (start + s) 0 + c
        ≤ T * Real.log (stateWeight T (graphVars vgs) ((graphOf vgs hist).factors a.logPotentials) (readEv st.varsToStarts a.evidence) r s)
          + (graphOf vgs hist).tables.length * (T * Real.exp (-100000)) := by
  have htb := h.run_sum hT hbp env hexp hlog hfit a n 0 hlp hev hm hmod hinit
  have hsc := (graphOf vgs hist).factors_scopes a.logPotentials
  have hmemF : ∀ F ∈ (graphOf vgs hist).factors a.logPotentials, F.scope ∈ (graphOf vgs hist).allScopes := by
    intro F hF
    rw [← hsc]
    exact List.mem_map.2 ⟨F, hF, rfl⟩
  obtain ⟨c, hc⟩ := sumRun_exact (factors := (graphOf vgs hist).factors a.logPotentials) (by rw [hsc]; exact htree) (fun F hF => hnd _ (hmemF F hF))
    (fun F hF => h.scopes_ne _ (hmemF F hF))
    (fun F hF => by
      obtain ⟨f, hf⟩ := List.mem_iff_getElem?.1 hF
      exact h.rowsFit a.logPotentials hf)
    (vars := graphVars vgs)
    (fun F hF v hv => by
      obtain ⟨s, hs⟩ := h.scopeVars _ (hmemF F hF) v hv
      obtain ⟨i, hi, -⟩ := (h.starts_iff v s).1 hs
      exact List.mem_toFinset.2 (List.mem_of_getElem? hi))
    hpos hT (codeSummary (graphOf vgs hist).tables.length T) _ (fun f l hl => codeSummary_bounds _ hT f hl) (readEv st.varsToStarts a.evidence)
    (readMsgs (graphOf vgs hist).allScopes a.ftovMsgs) n
    (fun f i v s he hs => by
      rw [hsc] at he
      rw [← htb f i v s he hs]
      exact hclip f i v s he hs) hr (by rw [hsc]; exact hn) (by rw [hsc]; exact hother)
  obtain ⟨g, hg, hv⟩ := mem_graphVars.1 hr
  obtain ⟨start, hstart⟩ := h.mem_starts hg hv
  refine ⟨c, start, hstart, ?_⟩
  intro s hs
  have hl := (h.run_read hbp env hfit a 0 hlp hev n hm).1
  have hb : (bp.flatBeliefs (bp.runBP env a n 0)).getD (start + s) 0 = beliefOf (graphOf vgs hist).allScopes (readEv st.varsToStarts a.evidence)
      (sumRun (codeSummary (graphOf vgs hist).tables.length T) ((graphOf vgs hist).factors a.logPotentials) (readEv st.varsToStarts a.evidence) 0 n
        (readMsgs (graphOf vgs hist).allScopes a.ftovMsgs)) r s := by
    rw [getD_of_some (C34_flat h hbp _ hl hev r start hstart s hs)]
    unfold beliefOf
    congr 2
    apply List.map_congr_left
    intro e he
    exact htb e.1 e.2 r s ((mem_edgesOf _ _ _ _).1 he) hs
  obtain ⟨h1, h2, h3⟩ := hc s hs
  rw [hsc] at h2 h3
  rw [hb]
  refine ⟨h1, h2, h3.trans (add_le_add le_rfl ?_)⟩
  have hδ : 0 ≤ T * Real.exp (-100000) := by positivity
  rw [← Finset.sum_filter, Finset.sum_const, nsmul_eq_mul]
  refine mul_le_mul_of_nonneg_right (Nat.cast_le.2 ?_) hδ
  refine (Finset.card_le_card (t := Finset.range (graphOf vgs hist).tables.length) ?_).trans (by simp)
  intro f hf
  exact Finset.mem_range.2 (Finset.mem_filter.1 hf).2

/-- The states of a variable partition the assignments. -/
theorem sum_stateWeight (T : ℝ) {vars : Finset Var} (factors : List (SFac ℝ)) (ev : Var → Nat → ℝ) {v : Var} (hv : v ∈ vars) :
    ∑ s ∈ Finset.range v.n, stateWeight T vars factors ev v s = totalWeight T vars factors ev := by
  unfold stateWeight totalWeight
  exact Finset.sum_fiberwise_of_maps_to (fun x hx => Finset.mem_range.2 ((mem_assignments.1 hx).1 v hv)) _

/-- Distributions of nearly equal functions. -/
theorem gibbs_close {f g : Nat → ℝ} {n : Nat} {c ε : ℝ} (h : ∀ s < n, g s ≤ f s + c ∧ f s + c ≤ g s + ε) {s : Nat} (hs : s < n) :
    Real.exp (-ε) * gibbs g n s ≤ gibbs f n s ∧ gibbs f n s ≤ Real.exp ε * gibbs g n s := by
  have hn : 0 < n := by omega
  have hf : gibbs f n s = gibbs (fun t => f t + c) n s := ((C36_gibbs f n hn).2.2.2 c s).symm
  rw [hf]
  unfold gibbs
  have hle : ∀ (l : List Nat) (p q : Nat → ℝ), (∀ t ∈ l, p t ≤ q t) → (l.map p).sum ≤ (l.map q).sum := by
    intro l p q hpq
    exact List.sum_le_sum hpq
  have h1 := hle (List.range n) (fun t => Real.exp (g t)) (fun t => Real.exp (f t + c)) (fun t ht => Real.exp_le_exp.2 (h t (List.mem_range.1 ht)).1)
  have h2 := hle (List.range n) (fun t => Real.exp (f t + c)) (fun t => Real.exp (g t) * Real.exp ε) (fun t ht => by
    rw [← Real.exp_add]; exact Real.exp_le_exp.2 (h t (List.mem_range.1 ht)).2)
  rw [List.sum_map_mul_right] at h2
  have hG := sum_exp_pos g n hn
  have hF := sum_exp_pos (fun t => f t + c) n hn
  generalize ((List.range n).map (fun t => Real.exp (g t))).sum = G at h1 h2 hG ⊢
  generalize ((List.range n).map (fun t => Real.exp (f t + c))).sum = F at h1 h2 hF ⊢
  obtain ⟨a1, a2⟩ := h s hs
  constructor
  · rw [← mul_div_assoc, div_le_div_iff₀ hG hF]
    have e1 : Real.exp (g s) ≤ Real.exp (f s + c) := Real.exp_le_exp.2 a1
    have e2 : Real.exp (-ε) * F ≤ G := by
      calc Real.exp (-ε) * F ≤ Real.exp (-ε) * (G * Real.exp ε) := mul_le_mul_of_nonneg_left h2 (Real.exp_pos _).le
        _ = G := by rw [mul_left_comm, ← Real.exp_add, neg_add_cancel, Real.exp_zero, mul_one]
    calc Real.exp (-ε) * Real.exp (g s) * F = Real.exp (g s) * (Real.exp (-ε) * F) := by ring
      _ ≤ Real.exp (f s + c) * G := mul_le_mul e1 e2 (by positivity) (Real.exp_pos _).le
  · rw [← mul_div_assoc, div_le_div_iff₀ hF hG]
    have e1 : Real.exp (f s + c) ≤ Real.exp ε * Real.exp (g s) := by
      rw [← Real.exp_add]; exact Real.exp_le_exp.2 (by linarith)
    exact mul_le_mul e1 h1 hG.le (by positivity)

theorem gibbs_log {W : Nat → ℝ} {n : Nat} (hW : ∀ s < n, 0 < W s) (T : ℝ) {s : Nat} (hs : s < n) :
    gibbs (fun s => T * Real.log (W s)) n s = W s ^ T / ∑ t ∈ Finset.range n, W t ^ T := by
  have e : ∀ s < n, Real.exp (T * Real.log (W s)) = W s ^ T := by
    intro s hs
    rw [Real.rpow_def_of_pos (hW s hs), mul_comm]
  unfold gibbs
  rw [e s hs]
  congr 1
  rw [← List.sum_toFinset _ List.nodup_range, List.toFinset_range]
  exact Finset.sum_congr rfl (fun t ht => e t (Finset.mem_range.1 ht))

theorem Compiled.dist_lt {α : Type _} {hist : List (AddArg α)} (n : Nat) (hn : 0 < n ∧ (graphOf vgs hist).allScopes.length ≤ n) (v : Var) (f : Nat) :
    (bipartite (graphOf vgs hist).allScopes).dist (.inl v) (.inr f) < 2 * n := by
  rcases Nat.eq_zero_or_pos (graphOf vgs hist).allScopes.length with h0 | h0
  · rw [SimpleGraph.dist_eq_zero_of_not_reachable]
    · omega
    · intro hreach
      obtain ⟨y, hy, -⟩ := exists_closer hreach (by simp)
      match y, hy with
      | .inl w, ⟨i, vs, h1, _⟩ =>
        have := (List.getElem?_eq_some_iff.1 h1).1
        omega
  · exact lt_of_lt_of_le (dist_lt_factors v f h0) (by omega)

theorem Compiled.stated_pos (h : Compiled vgs hist garbage st) (hst : ∀ g ∈ vgs, g.Stated) : ∀ v ∈ graphVars vgs, 0 < v.n := by
  intro v hv
  obtain ⟨g, hg, hv⟩ := mem_graphVars.1 hv
  obtain ⟨objId, hb⟩ := h.vgroups.built g hg
  obtain ⟨hlen, hvn⟩ := hb.vars
  have h1 : ∀ k ∈ g.numStates, 1 ≤ k := by
    have := hst g hg
    cases g with
    | arr g => exact this.1
    | dict g => exact this
  obtain ⟨i, hi⟩ := List.mem_iff_getElem?.1 hv
  exact h1 _ (List.mem_of_getElem? (hvn i v hi))

/-- **C55 (2), partial.** On an acyclic factor graph, at temperature `T > 0` and with damping 0, after as many iterations as there are factors
and if no message is clipped, `get_marginals` reports for every variable a distribution proportional to the `T`-th power of the total weights of
the assignments with the variable in each state, up to a factor between `exp (-ε)` and `exp ε`, where `ε` is `T exp (-1e5)` times the number
of enumeration factors. Missing: as in (1), and the variable groups for which `get_marginals` fails (C36). -/
theorem C55_power_partial [DecidableEq κ] (h : Compiled vgs hist garbage st) {state : BPState ℝ} {bp : BPFun κ ℝ} {T : ℝ} (hT : 0 < T)
    (hbp : BP.create st state T = .ok bp) (env : Env ℝ) (hexp : env.exp = Real.exp) (hlog : env.log = Real.log)
    (hfit : Fits env (graphOf vgs hist) T) (a : BPArrays ℝ) (n : Nat)
    (hlp : a.logPotentials.length = st.logPotentials.length) (hev : a.evidence.length = st.numVarStates) (hm : a.ftovMsgs.length = st.totalFactorNumStates)
    (hmod : Moderate (graphOf vgs hist) a.logPotentials (readEv st.varsToStarts a.evidence) 0)
    (hinit : ∀ f i v, IsEdge (graphOf vgs hist).allScopes f i v → ∃ s < v.n, -100000 ≤ readMsgs (graphOf vgs hist).allScopes a.ftovMsgs f i s)
    (htree : (bipartite (graphOf vgs hist).allScopes).IsAcyclic) (hnd : ∀ vs ∈ (graphOf vgs hist).allScopes, vs.Nodup)
    (hclip : ∀ f i v s, IsEdge (graphOf vgs hist).allScopes f i v → s < v.n → -1000 < readMsgs (graphOf vgs hist).allScopes (bp.runBP env a n 0).ftovMsgs f i s)
    (hn : 0 < n ∧ (graphOf vgs hist).allScopes.length ≤ n) (hreg : ∀ g ∈ vgs, g.Regular) (hst : ∀ g ∈ vgs, g.Stated)
    (W : Var → Nat → ℝ) (hW : W = stateWeight T (graphVars vgs) ((graphOf vgs hist).factors a.logPotentials) (readEv st.varsToStarts a.evidence))
    (ε : ℝ) (hε : ε = (graphOf vgs hist).tables.length * (T * Real.exp (-100000))) :
    ∃ bs rs B, bp.getBeliefs (bp.runBP env a n 0) = .ok bs ∧ getMarginals env bs = .ok rs ∧ rs.map (·.1) = vgs ∧
      (∀ p ∈ rs, p.1.HasMarginals B p.2) ∧ ∀ v ∈ graphVars vgs, ∀ s < v.n,
        0 < W v s ∧ Real.exp (-ε) * (W v s ^ T / ∑ t ∈ Finset.range v.n, W v t ^ T) ≤ gibbs (B v) v.n s ∧
        gibbs (B v) v.n s ≤ Real.exp ε * (W v s ^ T / ∑ t ∈ Finset.range v.n, W v t ^ T) := by
  subst hW hε
  have hl := (h.run_read hbp env hfit a 0 hlp hev n hm).1
  have hd := Compiled.dist_lt (vgs := vgs) (hist := hist) n hn
  obtain ⟨bs, rs, h1, h2, h3, h4⟩ := C36_partial h hbp env hexp hlog (bp.runBP env a n 0) hl hev hreg hst
  refine ⟨bs, rs, _, h1, h2, h3, h4, ?_⟩
  intro v hv s hs
  obtain ⟨c, start, hstart, hc⟩ := C55_partial h hT hbp env hexp hlog hfit a n hlp hev hm hmod hinit htree hnd (h.stated_pos hst) hclip v hv (hd v) (fun v f _ => hd v f)
  refine ⟨(hc s hs).1, ?_⟩
  rw [← gibbs_log (W := stateWeight T (graphVars vgs) ((graphOf vgs hist).factors a.logPotentials) (readEv st.varsToStarts a.evidence) v)
    (fun t ht => (hc t ht).1) T hs]
  refine gibbs_close (c := c) (fun t ht => ?_) hs
  have := (hc t ht).2
  rw [getD_of_some (C34_flat h hbp _ hl hev v start hstart t ht)] at this
  exact this

/-- **C55 (3), partial.** Hence at temperature 1, `get_marginals` reports for every variable and state its probability, the total weight of the
assignments with that state over the total weight of all assignments, up to a factor between `exp (-ε)` and `exp ε`. Missing: as in (2). -/
theorem C55_marginals_partial [DecidableEq κ] (h : Compiled vgs hist garbage st) {state : BPState ℝ} {bp : BPFun κ ℝ}
    (hbp : BP.create st state 1 = .ok bp) (env : Env ℝ) (hexp : env.exp = Real.exp) (hlog : env.log = Real.log)
    (hfit : Fits env (graphOf vgs hist) (1 : ℝ)) (a : BPArrays ℝ) (n : Nat)
    (hlp : a.logPotentials.length = st.logPotentials.length) (hev : a.evidence.length = st.numVarStates) (hm : a.ftovMsgs.length = st.totalFactorNumStates)
    (hmod : Moderate (graphOf vgs hist) a.logPotentials (readEv st.varsToStarts a.evidence) 0)
    (hinit : ∀ f i v, IsEdge (graphOf vgs hist).allScopes f i v → ∃ s < v.n, -100000 ≤ readMsgs (graphOf vgs hist).allScopes a.ftovMsgs f i s)
    (htree : (bipartite (graphOf vgs hist).allScopes).IsAcyclic) (hnd : ∀ vs ∈ (graphOf vgs hist).allScopes, vs.Nodup)
    (hclip : ∀ f i v s, IsEdge (graphOf vgs hist).allScopes f i v → s < v.n → -1000 < readMsgs (graphOf vgs hist).allScopes (bp.runBP env a n 0).ftovMsgs f i s)
    (hn : 0 < n ∧ (graphOf vgs hist).allScopes.length ≤ n) (hreg : ∀ g ∈ vgs, g.Regular) (hst : ∀ g ∈ vgs, g.Stated)
    (P : Var → Nat → ℝ) (hP : ∀ v s, P v s = stateWeight 1 (graphVars vgs) ((graphOf vgs hist).factors a.logPotentials) (readEv st.varsToStarts a.evidence) v s
      / totalWeight 1 (graphVars vgs) ((graphOf vgs hist).factors a.logPotentials) (readEv st.varsToStarts a.evidence))
    (ε : ℝ) (hε : ε = (graphOf vgs hist).tables.length * Real.exp (-100000)) :
    ∃ bs rs B, bp.getBeliefs (bp.runBP env a n 0) = .ok bs ∧ getMarginals env bs = .ok rs ∧ rs.map (·.1) = vgs ∧
      (∀ p ∈ rs, p.1.HasMarginals B p.2) ∧ ∀ v ∈ graphVars vgs, ∀ s < v.n,
        0 < P v s ∧ Real.exp (-ε) * P v s ≤ gibbs (B v) v.n s ∧ gibbs (B v) v.n s ≤ Real.exp ε * P v s := by
  obtain ⟨bs, rs, B, h1, h2, h3, h4, h5⟩ := C55_power_partial h one_pos hbp env hexp hlog hfit a n hlp hev hm hmod hinit htree hnd hclip hn hreg hst _ rfl ε
    (by rw [one_mul]; exact hε)
  refine ⟨bs, rs, B, h1, h2, h3, h4, fun v hv s hs => ?_⟩
  obtain ⟨h6, h7⟩ := h5 v hv s hs
  simp only [Real.rpow_one] at h7
  rw [sum_stateWeight 1 _ _ hv, ← hP] at h7
  refine ⟨?_, h7⟩
  rw [hP]
  refine div_pos h6 ?_
  rw [← sum_stateWeight 1 _ _ hv]
  exact Finset.sum_pos (fun t ht => (h5 v hv t (Finset.mem_range.1 ht)).1) ⟨s, Finset.mem_range.2 hs⟩

/-! ## Convergence -/

/-- Iterations with any summaries converge on forests, to messages that do not depend on the initial ones. -/
theorem sumRun_converged {factors : List (SFac ℝ)} (Φ : Nat → List ℝ → ℝ) (hG : (bipartite (factors.map (·.scope))).IsAcyclic) (hnd : ∀ F ∈ factors, F.scope.Nodup)
    (hne : ∀ F ∈ factors, F.scope ≠ []) (hrow : ∀ F ∈ factors, ∀ r ∈ F.rows, List.Forall₂ (fun s (v : Var) => s < v.n) r.1 F.scope)
    (ev : Var → Nat → ℝ) (m0 m1 : Msgs ℝ) (a b : Nat) (ha : factors.length ≤ a) (hb : factors.length ≤ b) {f i : Nat} {v : Var}
    (he : IsEdge (factors.map (·.scope)) f i v) {s : Nat} (hs : s < v.n) : sumRun Φ factors ev 0 a m0 f i s = sumRun Φ factors ev 0 b m1 f i s := by
  have hlt : f < factors.length := by
    obtain ⟨vs, h1, -⟩ := he
    simpa using (List.getElem?_eq_some_iff.1 h1).1
  have hdist : ∀ v f, (bipartite (factors.map (·.scope))).dist (.inl v) (.inr f) < 2 * factors.length := by
    intro v f
    have := dist_lt_factors (scopes := factors.map (·.scope)) v f (by simp; omega)
    simpa using this
  obtain ⟨hR, hroot, hht⟩ := rootedForest hG (by simpa using hnd) (by simpa using hne) v factors.length (hdist v) (fun w g _ => hdist w g)
  have hup : upOf (factors.map (·.scope)) v f = i := by
    by_contra hc
    have := (hR.par_iff v f i).2 ⟨he, fun h => hc h.symm⟩
    rw [hroot] at this
    cases this
  have hh := hht f (by simpa using hlt)
  obtain ⟨a, rfl⟩ := Nat.exists_eq_succ_of_ne_zero (show a ≠ 0 by omega)
  obtain ⟨b, rfl⟩ := Nat.exists_eq_succ_of_ne_zero (show b ≠ 0 by omega)
  have := hR.sum_converged (fun f F hF => hrow F (List.mem_of_getElem? hF)) Φ ev m0 m1 _ f v s a b le_rfl (by omega) (by omega) (by rw [hup]; exact he) hs
  rw [hup] at this
  exact this

/-- **C53, partial, positive temperatures.** On an acyclic factor graph, at any temperature `T > 0` and with damping 0, the messages after `n`
and after `n'` iterations from any two initial messages are the same if `n` and `n'` are at least the number of factors.
Missing: numbers that are not moderate (`C53_refuted`, at temperature 0). -/
theorem C53_sum_partial (h : Compiled vgs hist garbage st) {state : BPState ℝ} {bp : BPFun κ ℝ} {T : ℝ} (hT : 0 < T)
    (hbp : BP.create st state T = .ok bp) (env : Env ℝ) (hexp : env.exp = Real.exp) (hlog : env.log = Real.log)
    (hfit : Fits env (graphOf vgs hist) T) (lp ev ms ms' : List ℝ) (n n' : Nat)
    (hlp : lp.length = st.logPotentials.length) (hev : ev.length = st.numVarStates) (hm : ms.length = st.totalFactorNumStates)
    (hm' : ms'.length = st.totalFactorNumStates) (hmod : Moderate (graphOf vgs hist) lp (readEv st.varsToStarts ev) 0)
    (hinit : ∀ f i v, IsEdge (graphOf vgs hist).allScopes f i v → ∃ s < v.n, -100000 ≤ readMsgs (graphOf vgs hist).allScopes ms f i s)
    (hinit' : ∀ f i v, IsEdge (graphOf vgs hist).allScopes f i v → ∃ s < v.n, -100000 ≤ readMsgs (graphOf vgs hist).allScopes ms' f i s)
    (htree : (bipartite (graphOf vgs hist).allScopes).IsAcyclic) (hnd : ∀ vs ∈ (graphOf vgs hist).allScopes, vs.Nodup)
    (hn : (graphOf vgs hist).allScopes.length ≤ n) (hn' : (graphOf vgs hist).allScopes.length ≤ n') :
    (bp.runBP env ⟨lp, ms, ev⟩ n 0).ftovMsgs = (bp.runBP env ⟨lp, ms', ev⟩ n' 0).ftovMsgs := by
  have htb := h.run_sum hT hbp env hexp hlog hfit ⟨lp, ms, ev⟩ n 0 hlp hev hm hmod hinit
  have htb' := h.run_sum hT hbp env hexp hlog hfit ⟨lp, ms', ev⟩ n' 0 hlp hev hm' hmod hinit'
  have hsc := (graphOf vgs hist).factors_scopes lp
  have hlen : ((graphOf vgs hist).factors lp).length = (graphOf vgs hist).allScopes.length := by rw [← hsc]; simp
  have hmemF : ∀ F ∈ (graphOf vgs hist).factors lp, F.scope ∈ (graphOf vgs hist).allScopes := by
    intro F hF
    rw [← hsc]
    exact List.mem_map.2 ⟨F, hF, rfl⟩
  apply eq_of_read (scopes := (graphOf vgs hist).allScopes)
  · rw [(h.run_read hbp env hfit ⟨lp, ms, ev⟩ 0 hlp hev n hm).1, h.totalStates]
  · rw [(h.run_read hbp env hfit ⟨lp, ms', ev⟩ 0 hlp hev n' hm').1, h.totalStates]
  · intro f i v s he hs
    rw [htb f i v s he hs, htb' f i v s he hs]
    exact sumRun_converged (factors := (graphOf vgs hist).factors lp) _ (by rw [hsc]; exact htree) (fun F hF => hnd _ (hmemF F hF))
      (fun F hF => h.scopes_ne _ (hmemF F hF))
      (fun F hF => by
        obtain ⟨f, hf⟩ := List.mem_iff_getElem?.1 hF
        exact h.rowsFit lp hf) _ _ _ n n' (by omega) (by omega) (by rw [hsc]; exact he) hs

/-! ## Refutation and non-vacuity -/

/-- **C55 does not hold in general.** In the graph of one factor `exHistS`, with evidence -2e5 for both states of the second variable, state 0 of
the first variable has `exp 500` times the weight of state 1; the beliefs of the first variable at temperature 1 differ by at most 2. -/
theorem C55_refuted {env : Env ℝ} (hexp : env.exp = Real.exp) (hlog : env.log = Real.log) (hw : env.wrapNeg = false) :
    (bipartite (graphOf exVars exHistS).allScopes).IsAcyclic ∧ exStateS.varsToStarts (exVar 0) = some 0 ∧
    stateWeight 1 (graphVars exVars) ((graphOf exVars exHistS).factors [0, 0, -500, -500]) (readEv exStateS.varsToStarts exEvS) (exVar 0) 0
      = Real.exp 500 * stateWeight 1 (graphVars exVars) ((graphOf exVars exHistS).factors [0, 0, -500, -500]) (readEv exStateS.varsToStarts exEvS) (exVar 0) 1 ∧
    ((exBPS 1).flatBeliefs ((exBPS 1).runBP env ⟨[0, 0, -500, -500], [0, 0, 0, 0], exEvS⟩ 1 0)).getD 0 0
      ≤ ((exBPS 1).flatBeliefs ((exBPS 1).runBP env ⟨[0, 0, -500, -500], [0, 0, 0, 0], exEvS⟩ 1 0)).getD 1 0 + 2 := by
  have hfit : Fits env (graphOf exVars exHistS) (1 : ℝ) := ⟨.inl hw, fun h => absurd h one_ne_zero⟩
  have hstart : exStateS.varsToStarts (exVar 0) = some 0 := rfl
  refine ⟨acyclic_of_edges [(exVar 0, 0), (exVar 1, 0)] ?_ (fun v => if v = exVar 0 then 0 else 2) (fun _ => 1) (by decide +kernel) (by decide +kernel), hstart, ?_, ?_⟩
  · rintro f i v ⟨vs, h1, h2⟩
    rw [exScopesS] at h1
    match f, h1 with
    | 0, h1 =>
      cases h1
      match i, h2 with
      | 0, h2 => cases h2; simp
      | 1, h2 => cases h2; simp
  · rw [exFactorsS]
    have hv0 : exVar 0 ∈ graphVars exVars := by decide +kernel
    have hv1 : exVar 1 ∈ graphVars exVars := by decide +kernel
    have h01 : exVar 1 ≠ exVar 0 := by decide
    unfold stateWeight
    rw [Finset.mul_sum]
    refine Finset.sum_bij' (fun x _ => Function.update x (exVar 0) 1) (fun x _ => Function.update x (exVar 0) 0) ?_ ?_ ?_ ?_ ?_
    · intro x hx
      obtain ⟨h1, -⟩ := Finset.mem_filter.1 hx
      obtain ⟨h2, h3⟩ := mem_assignments.1 h1
      refine Finset.mem_filter.2 ⟨mem_assignments.2 ⟨fun v hv => ?_, fun v hv => ?_⟩, Function.update_self _ _ _⟩
      · by_cases e : v = exVar 0
        · subst e; rw [Function.update_self]; decide
        · rw [Function.update_of_ne e]; exact h2 v hv
      · rw [Function.update_of_ne (fun e : v = exVar 0 => hv (by rw [e]; exact hv0))]; exact h3 v hv
    · intro x hx
      obtain ⟨h1, -⟩ := Finset.mem_filter.1 hx
      obtain ⟨h2, h3⟩ := mem_assignments.1 h1
      refine Finset.mem_filter.2 ⟨mem_assignments.2 ⟨fun v hv => ?_, fun v hv => ?_⟩, Function.update_self _ _ _⟩
      · by_cases e : v = exVar 0
        · subst e; rw [Function.update_self]; decide
        · rw [Function.update_of_ne e]; exact h2 v hv
      · rw [Function.update_of_ne (fun e : v = exVar 0 => hv (by rw [e]; exact hv0))]; exact h3 v hv
    · intro x hx
      rw [Function.update_idem]
      exact Function.update_eq_iff.2 ⟨(Finset.mem_filter.1 hx).2.symm, fun _ _ => rfl⟩
    · intro x hx
      rw [Function.update_idem]
      exact Function.update_eq_iff.2 ⟨(Finset.mem_filter.1 hx).2.symm, fun _ _ => rfl⟩
    · intro x hx
      obtain ⟨h1, hx0⟩ := Finset.mem_filter.1 hx
      obtain ⟨h2, h3⟩ := mem_assignments.1 h1
      have hx1 : x (exVar 1) < 2 := h2 _ hv1
      unfold jointWeight
      have hev : ∀ v ∈ graphVars exVars, readEv exStateS.varsToStarts exEvS v (Function.update x (exVar 0) 1 v) = readEv exStateS.varsToStarts exEvS v (x v) := by
        intro v hv
        by_cases e : v = exVar 0
        · subst e
          rw [Function.update_self, (exReadEvS 1 (by omega)).1, (exReadEvS _ (by omega)).1]
        · rw [Function.update_of_ne e]
      rw [Finset.sum_congr rfl hev, mul_left_comm]
      congr 1
      simp only [List.map_cons, List.map_nil, List.prod_cons, List.prod_nil, mul_one, SFac.weight]
      have e0 : exFacS.scope.map x = [0, x (exVar 1)] := by simp [exFacS, hx0]
      have e1 : exFacS.scope.map (Function.update x (exVar 0) 1) = [1, x (exVar 1)] := by
        simp only [exFacS, List.map_cons, List.map_nil, Function.update_self, Function.update_of_ne h01]
      rw [e0, e1]
      have h : x (exVar 1) = 0 ∨ x (exVar 1) = 1 := by omega
      rcases h with h | h <;> rw [h] <;> simp [exFacS, ← Real.exp_add]
  · have hb : ∀ s < 2, ((exBPS 1).flatBeliefs ((exBPS 1).runBP env ⟨[0, 0, -500, -500], [0, 0, 0, 0], exEvS⟩ 1 0)).getD s 0
        = readMsgs (graphOf exVars exHistS).allScopes ((exBPS 1).runBP env ⟨[0, 0, -500, -500], [0, 0, 0, 0], exEvS⟩ 1 0).ftovMsgs 0 0 s := by
      intro s hs
      have hl := (exStateS_compiled.run_read (exBPS_create 1) env hfit ⟨[0, 0, -500, -500], [0, 0, 0, 0], exEvS⟩ 0 rfl rfl 1 rfl).1
      have := C34_flat exStateS_compiled (exBPS_create 1) _ hl rfl (exVar 0) 0 hstart s hs
      rw [Nat.zero_add] at this
      rw [getD_of_some this]
      unfold beliefOf
      have h1 := (exReadEvS s hs).1
      have h2 : edgesOf (graphOf exVars exHistS).allScopes (exVar 0) = [(0, 0)] := by rw [exScopesS]; decide +kernel
      show readEv exStateS.varsToStarts exEvS (exVar 0) s + _ = _
      rw [h1, h2]
      simp
    rw [hb 0 (by omega), hb 1 (by omega)]
    have h1 := exMessageS hexp hlog hw 1 (by omega)
    have h2 : readMsgs (graphOf exVars exHistS).allScopes ((exBPS 1).runBP env ⟨[0, 0, -500, -500], [0, 0, 0, 0], exEvS⟩ 1 0).ftovMsgs 0 0 0 ≤ 0 := by
      rw [(exStateS_compiled.run_read (exBPS_create 1) env hfit ⟨[0, 0, -500, -500], [0, 0, 0, 0], exEvS⟩ 0 rfl rfl 1 rfl).2 0 0 (exVar 0) 0 ⟨_, rfl, rfl⟩ (by decide)]
      simp only [iterM]
      unfold stepM
      exact (normM_clipped (exStateS_compiled.maxMsgSize (exBPS_create 1)).1 _ 0 0 (exVar 0) 0 ⟨_, rfl, rfl⟩ (by decide)).2
    linarith

end PGMax
