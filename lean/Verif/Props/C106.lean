import Verif.Props.C105
import Verif.Props.C56

/-! # C106: on trees the messages of sum-product belief propagation give the partition function -/

namespace PGMax

variable {κ : Type _} {vgs : List (VGroup κ)} {hist : List (AddArg ℝ)} {garbage : Garbage} {st : FGState κ ℝ}

theorem log_near {x y δ : ℝ} (h1 : Real.exp (y - δ) ≤ x) (h2 : x ≤ Real.exp (y + δ)) : 0 < x ∧ |Real.log x - y| ≤ δ := by
  have hx := (Real.exp_pos _).trans_le h1
  have h3 := Real.log_le_log (Real.exp_pos _) h1
  have h4 := Real.log_le_log hx h2
  rw [Real.log_exp] at h3 h4
  refine ⟨hx, abs_le.2 ⟨?_, ?_⟩⟩ <;> linarith

/-- **C106, partial.** On an acyclic factor graph with factors of any type, at any temperature `T > 0`, for moderate numbers and without damping: if no message is clipped, after as many iterations as there are factors
the totals of the weights of all factors and variables (`betheLogTotal`) give the logarithm of the partition function, the sum of the weights of all joint assignments,
with an error of at most `exp (-1e5)` for every enumeration factor. Missing: numbers that are not moderate, as in C55. -/
theorem C106_partial (h : Compiled vgs hist garbage st) {state : BPState ℝ} {bp : BPFun κ ℝ} {T : ℝ} (hT : 0 < T)
    (hbp : BP.create st state T = .ok bp) (env : Env ℝ) (hexp : env.exp = Real.exp) (hlog : env.log = Real.log)
    (hfit : Fits env (graphOf vgs hist) T) (a : BPArrays ℝ) (n : Nat)
    (hlp : a.logPotentials.length = st.logPotentials.length) (hev : a.evidence.length = st.numVarStates) (hm : a.ftovMsgs.length = st.totalFactorNumStates)
    (hmod : Moderate (graphOf vgs hist) a.logPotentials (readEv st.varsToStarts a.evidence) 0)
    (hinit : ∀ f i v, IsEdge (graphOf vgs hist).allScopes f i v → ∃ s < v.n, -100000 ≤ readMsgs (graphOf vgs hist).allScopes a.ftovMsgs f i s)
    (htree : (bipartite (graphOf vgs hist).allScopes).IsAcyclic) (hnd : ∀ vs ∈ (graphOf vgs hist).allScopes, vs.Nodup)
    (hpos : ∀ v ∈ graphVars vgs, 0 < v.n)
    (hclip : ∀ f i v s, IsEdge (graphOf vgs hist).allScopes f i v → s < v.n → -1000 < readMsgs (graphOf vgs hist).allScopes (bp.runBP env a n 0).ftovMsgs f i s)
    (hn : (graphOf vgs hist).allScopes.length ≤ n) :
    0 < totalWeight T (graphVars vgs) ((graphOf vgs hist).factors a.logPotentials) (readEv st.varsToStarts a.evidence) ∧
    |Real.log (totalWeight T (graphVars vgs) ((graphOf vgs hist).factors a.logPotentials) (readEv st.varsToStarts a.evidence)) -
        betheLogTotal T (graphVars vgs) ((graphOf vgs hist).factors a.logPotentials) (readEv st.varsToStarts a.evidence) (readMsgs (graphOf vgs hist).allScopes (bp.runBP env a n 0).ftovMsgs)| ≤
      (graphOf vgs hist).tables.length * Real.exp (-100000) := by
  have htb := h.run_sum hT hbp env hexp hlog hfit a n 0 hlp hev hm hmod hinit
  have hsc := (graphOf vgs hist).factors_scopes a.logPotentials
  rw [betheLogTotal_congr (by rw [hsc]; exact htb) (h.rowsFit_mem a.logPotentials)]
  have hmemF : ∀ F ∈ (graphOf vgs hist).factors a.logPotentials, F.scope ∈ (graphOf vgs hist).allScopes := by
    intro F hF
    rw [← hsc]
    exact List.mem_map.2 ⟨F, hF, rfl⟩
  obtain ⟨up, par, ht, hR, hht⟩ := exists_rootedForest htree hnd h.scopes_ne hn
  rw [← hsc] at hR hht
  obtain ⟨K, hK⟩ := hR.sum_fixed (fun f F hF => h.rowsFit a.logPotentials hF) (codeSummary (graphOf vgs hist).tables.length T) (readEv st.varsToStarts a.evidence)
    (readMsgs (graphOf vgs hist).allScopes a.ftovMsgs) n (by simpa using hht) (fun f v s he hs => by
      rw [hsc] at he
      rw [← htb f _ v s he hs]
      exact hclip f _ v s he hs)
  have hup : SumUp T ((graphOf vgs hist).factors a.logPotentials) up (readEv st.varsToStarts a.evidence) (sumRun (codeSummary (graphOf vgs hist).tables.length T)
      ((graphOf vgs hist).factors a.logPotentials) (readEv st.varsToStarts a.evidence) 0 n (readMsgs (graphOf vgs hist).allScopes a.ftovMsgs)) K
      (fun f => if f < (graphOf vgs hist).tables.length then T * Real.exp (-100000) else 0) := by
    intro f F v hF hv s hs
    obtain ⟨h1, h2⟩ := hK f F v hF hv s hs
    refine ⟨h1, ?_⟩
    rw [h2]
    exact codeSummary_bounds _ hT f (by simpa using h1)
  obtain ⟨h1, h2⟩ := hR.total_near hT (h.factors_vars a.logPotentials) (fun F hF => hnd _ (hmemF F hF)) hpos (h.rowsFit_mem a.logPotentials) (hR.prob_up hT (h.rowsFit_mem a.logPotentials) hup)
  have hsum : ∑ f ∈ Finset.range ((graphOf vgs hist).factors a.logPotentials).length, (if f < (graphOf vgs hist).tables.length then T * Real.exp (-100000) else 0) / T ≤
      (graphOf vgs hist).tables.length * Real.exp (-100000) := by
    rw [← Finset.sum_div, ← Finset.sum_filter, Finset.sum_const, nsmul_eq_mul, mul_div_assoc, mul_div_cancel_left₀ _ hT.ne']
    refine mul_le_mul_of_nonneg_right (Nat.cast_le.2 ?_) (Real.exp_pos _).le
    refine (Finset.card_le_card (t := Finset.range (graphOf vgs hist).tables.length) ?_).trans (by simp)
    intro f hf
    exact Finset.mem_range.2 (Finset.mem_filter.1 hf).2
  obtain ⟨h3, h4⟩ := log_near h1 h2
  exact ⟨h3, h4.trans hsum⟩

/-- **C106, partial, damping.** On an acyclic graph with any damping below 1, once messages that are not clipped change by at most `η`, the error is at most the sum of `restGap` over all factors. Missing: as above. -/
theorem C106_rest_partial (h : Compiled vgs hist garbage st) {state : BPState ℝ} {bp : BPFun κ ℝ} {T : ℝ} (hT : 0 < T) (hbp : BP.create st state T = .ok bp)
    (env : Env ℝ) (hexp : env.exp = Real.exp) (hlog : env.log = Real.log) (hfit : Fits env (graphOf vgs hist) T) (a : BPArrays ℝ) (n : Nat) {d : ℝ} (hd : d < 1)
    (hlp : a.logPotentials.length = st.logPotentials.length) (hev : a.evidence.length = st.numVarStates) (hm : a.ftovMsgs.length = st.totalFactorNumStates)
    (hmod : Moderate (graphOf vgs hist) a.logPotentials (readEv st.varsToStarts a.evidence) d)
    (hinit : ∀ f i v, IsEdge (graphOf vgs hist).allScopes f i v → ∃ s < v.n, -100000 ≤ readMsgs (graphOf vgs hist).allScopes a.ftovMsgs f i s) {η : ℝ} (hpos : ∀ v ∈ graphVars vgs, 0 < v.n)
    (htree : (bipartite (graphOf vgs hist).allScopes).IsAcyclic) (hnd : ∀ vs ∈ (graphOf vgs hist).allScopes, vs.Nodup)
    (hη : ∀ f i v s, IsEdge (graphOf vgs hist).allScopes f i v → s < v.n →
      |(readMsgs (graphOf vgs hist).allScopes (bp.runBP env a (n + 1) d).ftovMsgs) f i s - (readMsgs (graphOf vgs hist).allScopes (bp.runBP env a n d).ftovMsgs) f i s| ≤ η)
    (hclip : ∀ f i v s, IsEdge (graphOf vgs hist).allScopes f i v → s < v.n → -1000 < (readMsgs (graphOf vgs hist).allScopes (bp.runBP env a (n + 1) d).ftovMsgs) f i s) :
    0 < totalWeight T (graphVars vgs) ((graphOf vgs hist).factors a.logPotentials) (readEv st.varsToStarts a.evidence) ∧
    |Real.log (totalWeight T (graphVars vgs) ((graphOf vgs hist).factors a.logPotentials) (readEv st.varsToStarts a.evidence)) -
        betheLogTotal T (graphVars vgs) ((graphOf vgs hist).factors a.logPotentials) (readEv st.varsToStarts a.evidence) (readMsgs (graphOf vgs hist).allScopes (bp.runBP env a n d).ftovMsgs)| ≤
      ∑ f ∈ Finset.range (graphOf vgs hist).allScopes.length, restGap (graphOf vgs hist).tables.length T d η f := by
  have hsc := (graphOf vgs hist).factors_scopes a.logPotentials
  have hmemF : ∀ F ∈ (graphOf vgs hist).factors a.logPotentials, F.scope ∈ (graphOf vgs hist).allScopes := by
    intro F hF
    rw [← hsc]
    exact List.mem_map.2 ⟨F, hF, rfl⟩
  have hlen : (graphOf vgs hist).allScopes.length = ((graphOf vgs hist).factors a.logPotentials).length := by rw [← hsc, List.length_map]
  obtain ⟨up, par, ht, hR, -⟩ := exists_rootedForest htree hnd h.scopes_ne le_rfl
  rw [← hsc] at hR
  rw [hlen]
  obtain ⟨h1, h2⟩ := hR.total_near (m := readMsgs (graphOf vgs hist).allScopes (bp.runBP env a n d).ftovMsgs) (δ := restGap (graphOf vgs hist).tables.length T d η) (ev := readEv st.varsToStarts a.evidence)
    hT (h.factors_vars a.logPotentials) (fun F hF => hnd _ (hmemF F hF)) hpos (h.rowsFit_mem a.logPotentials) (fun f F v hF hi s hs => by
      have he : IsEdge (graphOf vgs hist).allScopes f (up f) v := ⟨F.scope, by rw [← hsc, List.getElem?_map, hF]; rfl, hi⟩
      rw [hsc]
      exact C83 h hT hbp env hexp hlog hfit a n hd hlp hev hm hmod hinit f F (up f) v hF hi (fun s hs => hη f _ v s he hs) (fun s hs => hclip f _ v s he hs) hs)
  exact log_near h1 h2

/-- **C106, partial, complete tables.** On a tree of complete tables whose log potentials differ by less than 1000 in each table, no message is clipped. Missing: as above. -/
theorem C106_tables_partial (h : Compiled vgs hist garbage st) {state : BPState ℝ} {bp : BPFun κ ℝ} {T : ℝ} (hT : 0 < T)
    (hbp : BP.create st state T = .ok bp) (env : Env ℝ) (hexp : env.exp = Real.exp) (hlog : env.log = Real.log)
    (hfit : Fits env (graphOf vgs hist) T) (a : BPArrays ℝ) (n : Nat)
    (hlp : a.logPotentials.length = st.logPotentials.length) (hev : a.evidence.length = st.numVarStates) (hm : a.ftovMsgs.length = st.totalFactorNumStates)
    (hmod : Moderate (graphOf vgs hist) a.logPotentials (readEv st.varsToStarts a.evidence) 0)
    (hinit : ∀ f i v, IsEdge (graphOf vgs hist).allScopes f i v → ∃ s < v.n, -100000 ≤ readMsgs (graphOf vgs hist).allScopes a.ftovMsgs f i s)
    (htree : (bipartite (graphOf vgs hist).allScopes).IsAcyclic) (hnd : ∀ vs ∈ (graphOf vgs hist).allScopes, vs.Nodup)
    (hpos : ∀ v ∈ graphVars vgs, 0 < v.n) (htab : (graphOf vgs hist).allScopes.length = (graphOf vgs hist).tables.length)
    (hc : ∀ F ∈ (graphOf vgs hist).factors a.logPotentials, F.Complete ∧ ∃ R < 1000, F.Within R) (hn : (graphOf vgs hist).allScopes.length ≤ n) :
    |Real.log (totalWeight T (graphVars vgs) ((graphOf vgs hist).factors a.logPotentials) (readEv st.varsToStarts a.evidence)) -
        betheLogTotal T (graphVars vgs) ((graphOf vgs hist).factors a.logPotentials) (readEv st.varsToStarts a.evidence) (readMsgs (graphOf vgs hist).allScopes (bp.runBP env a n 0).ftovMsgs)| ≤
      (graphOf vgs hist).tables.length * Real.exp (-100000) := by
  refine (C106_partial h hT hbp env hexp hlog hfit a n hlp hev hm hmod hinit htree hnd hpos (fun f i v s he hs => ?_) hn).2
  obtain ⟨F, hF, -⟩ := (graphOf vgs hist).factors_edge a.logPotentials he
  obtain ⟨h1, R, hR, h2⟩ := hc F (List.mem_of_getElem? hF)
  have hf' : f < (graphOf vgs hist).allScopes.length := by
    obtain ⟨vs, h1, -⟩ := he
    exact (List.getElem?_eq_some_iff.1 h1).1
  have := C56_sum_partial h hT hbp env hexp hlog hfit a n 0 hlp hev hm hmod f F hF (htab ▸ hf') h1 R h2 i v he s hs
  rw [zero_pow (by omega), zero_mul, add_zero] at this
  linarith

/-! ## Non-vacuity -/

/-- The chain of two tables `exHistT`: after two iterations the partition function is known up to `2 exp (-1e5)`. -/
example {env : Env ℝ} (hexp : env.exp = Real.exp) (hlog : env.log = Real.log) (hw : env.wrapNeg = false) {T : ℝ} (hT : 0 < T) :
    |Real.log (totalWeight T (graphVars exVars) ((graphOf exVars exHistT).factors exLpT) (readEv exStateT.varsToStarts exEvT)) -
        betheLogTotal T (graphVars exVars) ((graphOf exVars exHistT).factors exLpT) (readEv exStateT.varsToStarts exEvT)
          (readMsgs (graphOf exVars exHistT).allScopes ((exBPT T).runBP env ⟨exLpT, List.replicate 8 0, exEvT⟩ 2 0).ftovMsgs)| ≤ 2 * Real.exp (-100000) := by
  have hn : ∀ v ∈ graphVars exVars, 0 < v.n := by decide +kernel
  have := C106_tables_partial exStateT_compiled hT (exBPT_create T) env hexp hlog (exFitsT hw hT.ne') ⟨exLpT, List.replicate 8 0, exEvT⟩ 2 rfl rfl (by simp; rfl)
    (exModerateT (by norm_num)) exInitT exTreeT (by rw [exScopesT]; decide +kernel) hn rfl exCompleteT (by rw [exScopesT]; decide)
  rw [show (graphOf exVars exHistT).tables.length = 2 from rfl] at this
  exact_mod_cast this

end PGMax
