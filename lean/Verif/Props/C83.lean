import Verif.Lemmas.Consistent
import Verif.Props.C60
import Verif.Lemmas.Range
import Verif.Lemmas.ZeroTemp
import Mathlib.Tactic.IntervalCases

/-! # C83: when sum-product belief propagation has come to rest, the marginals of variables and factors agree -/

namespace PGMax

variable {κ : Type _} {vgs : List (VGroup κ)} {hist : List (AddArg ℝ)} {garbage : Garbage} {st : FGState κ ℝ}

/-- How far the logarithms of the probabilities may be apart if messages change by at most `η`; the second term is for enumeration factors. -/
noncomputable def restGap (tables : Nat) (T d η : ℝ) (f : Nat) : ℝ := (2 * η / (1 - d) + if f < tables then T * Real.exp (-100000) else 0) / T

/-- **C83.** On any graph of factors of any type, with or without loops, at temperature `T > 0` and for moderate numbers: if the message of a factor to one of its variables changes by at most `η` in the
`n + 1`-st iteration and is not clipped, then the probability of a state of the variable by its belief after `n` iterations, and by the distribution of the factor's configurations (proportional to
`exp` of log potential and incoming messages), differ by a factor of at most `exp (± restGap)`. Without enumeration factors and changes they are equal. -/
theorem C83 (h : Compiled vgs hist garbage st) {state : BPState ℝ} {bp : BPFun κ ℝ} {T : ℝ} (hT : 0 < T) (hbp : BP.create st state T = .ok bp)
    (env : Env ℝ) (hexp : env.exp = Real.exp) (hlog : env.log = Real.log) (hfit : Fits env (graphOf vgs hist) T) (a : BPArrays ℝ) (n : Nat) {d : ℝ} (hd : d < 1)
    (hlp : a.logPotentials.length = st.logPotentials.length) (hev : a.evidence.length = st.numVarStates) (hm : a.ftovMsgs.length = st.totalFactorNumStates)
    (hmod : Moderate (graphOf vgs hist) a.logPotentials (readEv st.varsToStarts a.evidence) d)
    (hinit : ∀ f i v, IsEdge (graphOf vgs hist).allScopes f i v → ∃ s < v.n, -100000 ≤ readMsgs (graphOf vgs hist).allScopes a.ftovMsgs f i s) {η : ℝ} (f : Nat) (F : SFac ℝ) (i : Nat) (v : Var) (hF : ((graphOf vgs hist).factors a.logPotentials)[f]? = some F) (hi : F.scope[i]? = some v)
    (hη : ∀ s < v.n, |(readMsgs (graphOf vgs hist).allScopes (bp.runBP env a (n + 1) d).ftovMsgs) f i s - (readMsgs (graphOf vgs hist).allScopes (bp.runBP env a n d).ftovMsgs) f i s| ≤ η)
    (hclip : ∀ s < v.n, -1000 < (readMsgs (graphOf vgs hist).allScopes (bp.runBP env a (n + 1) d).ftovMsgs) f i s) {s : Nat} (hs : s < v.n) :
    gibbs (fun s => beliefOf (graphOf vgs hist).allScopes (readEv st.varsToStarts a.evidence) (readMsgs (graphOf vgs hist).allScopes (bp.runBP env a n d).ftovMsgs) v s / T) v.n s * Real.exp (-restGap (graphOf vgs hist).tables.length T d η f) ≤
        F.prob T (tbIn ((graphOf vgs hist).factors a.logPotentials) (readEv st.varsToStarts a.evidence) (readMsgs (graphOf vgs hist).allScopes (bp.runBP env a n d).ftovMsgs) f F) i s ∧
      F.prob T (tbIn ((graphOf vgs hist).factors a.logPotentials) (readEv st.varsToStarts a.evidence) (readMsgs (graphOf vgs hist).allScopes (bp.runBP env a n d).ftovMsgs) f F) i s ≤
        gibbs (fun s => beliefOf (graphOf vgs hist).allScopes (readEv st.varsToStarts a.evidence) (readMsgs (graphOf vgs hist).allScopes (bp.runBP env a n d).ftovMsgs) v s / T) v.n s * Real.exp (restGap (graphOf vgs hist).tables.length T d η f) := by
  have hsc := (graphOf vgs hist).factors_scopes a.logPotentials
  have he : ∀ s < v.n, IsEdge (graphOf vgs hist).allScopes f i v := fun s hs => ⟨F.scope, by rw [← hsc, List.getElem?_map, hF]; rfl, hi⟩
  have h1 := h.run_sum hT hbp env hexp hlog hfit a n d hlp hev hm hmod hinit
  have h2 := h.run_sum hT hbp env hexp hlog hfit a (n + 1) d hlp hev hm hmod hinit
  have key := prob_near hT hd (m := (readMsgs (graphOf vgs hist).allScopes (bp.runBP env a n d).ftovMsgs)) (m' := (readMsgs (graphOf vgs hist).allScopes (bp.runBP env a (n + 1) d).ftovMsgs)) hF hi (h.rowsFit a.logPotentials hF) (codeSummary (graphOf vgs hist).tables.length T)
    (fun l hl => codeSummary_bounds _ hT f hl) (ev := (readEv st.varsToStarts a.evidence)) (fun s hs => ?_) hη hclip hs
  · rw [hsc] at key
    exact key
  · rw [h2 f i v s (he s hs) hs]
    exact h.sumStep_congr _ a.logPotentials _ d h1 f i v s (he s hs) hs

/-- **C83, reported marginals.** At temperature 1 these are the marginals that `get_marginals` returns. -/
theorem C83_marginals [DecidableEq κ] (h : Compiled vgs hist garbage st) {state : BPState ℝ} {bp : BPFun κ ℝ} (hbp : BP.create st state 1 = .ok bp)
    (env : Env ℝ) (hexp : env.exp = Real.exp) (hlog : env.log = Real.log) (hfit : Fits env (graphOf vgs hist) (1 : ℝ)) (a : BPArrays ℝ) (n : Nat) {d : ℝ} (hd : d < 1)
    (hlp : a.logPotentials.length = st.logPotentials.length) (hev : a.evidence.length = st.numVarStates) (hm : a.ftovMsgs.length = st.totalFactorNumStates)
    (hmod : Moderate (graphOf vgs hist) a.logPotentials (readEv st.varsToStarts a.evidence) d)
    (hinit : ∀ f i v, IsEdge (graphOf vgs hist).allScopes f i v → ∃ s < v.n, -100000 ≤ readMsgs (graphOf vgs hist).allScopes a.ftovMsgs f i s) {η : ℝ}
    (hreg : ∀ g ∈ vgs, g.Regular) (hst : ∀ g ∈ vgs, g.Stated) :
    ∃ B : Var → Nat → ℝ, (∃ bs rs, bp.getBeliefs (bp.runBP env a n d) = .ok bs ∧ getMarginals env bs = .ok rs ∧ rs.map (·.1) = vgs ∧ ∀ p ∈ rs, p.1.HasMarginals B p.2) ∧
      ∀ (f : Nat) (F : SFac ℝ) (i : Nat) (v : Var), ((graphOf vgs hist).factors a.logPotentials)[f]? = some F → F.scope[i]? = some v →
        (∀ s < v.n, |(readMsgs (graphOf vgs hist).allScopes (bp.runBP env a (n + 1) d).ftovMsgs) f i s - (readMsgs (graphOf vgs hist).allScopes (bp.runBP env a n d).ftovMsgs) f i s| ≤ η) →
        (∀ s < v.n, -1000 < (readMsgs (graphOf vgs hist).allScopes (bp.runBP env a (n + 1) d).ftovMsgs) f i s) → ∀ s < v.n,
        gibbs (B v) v.n s * Real.exp (-restGap (graphOf vgs hist).tables.length 1 d η f) ≤ F.prob 1 (tbIn ((graphOf vgs hist).factors a.logPotentials) (readEv st.varsToStarts a.evidence) (readMsgs (graphOf vgs hist).allScopes (bp.runBP env a n d).ftovMsgs) f F) i s ∧
          F.prob 1 (tbIn ((graphOf vgs hist).factors a.logPotentials) (readEv st.varsToStarts a.evidence) (readMsgs (graphOf vgs hist).allScopes (bp.runBP env a n d).ftovMsgs) f F) i s ≤ gibbs (B v) v.n s * Real.exp (restGap (graphOf vgs hist).tables.length 1 d η f) := by
  refine ⟨beliefOf (graphOf vgs hist).allScopes (readEv st.varsToStarts a.evidence) (readMsgs (graphOf vgs hist).allScopes (bp.runBP env a n d).ftovMsgs), ?_, fun f F i v hF hi hη hclip s hs => ?_⟩
  · exact C36_partial h hbp env hexp hlog (bp.runBP env a n d) (h.run_read hbp env hfit a d hlp hev n hm).1 hev hreg hst
  · have := C83 h one_pos hbp env hexp hlog hfit a n hd hlp hev hm hmod hinit f F i v hF hi hη hclip hs
    simpa only [div_one] using this

/-! ## Logical factors -/

theorem filter_sum_le {l : List (List Nat × ℝ)} {p p' : List Nat × ℝ → Bool} {g : List Nat × ℝ → ℝ} (hg : ∀ r, 0 ≤ g r) (h : ∀ r ∈ l, p r = true → p' r = true) :
    ((l.filter p).map g).sum ≤ ((l.filter p').map g).sum := by
  induction l with
  | nil => simp
  | cons r l ih =>
    have ih := ih fun r hr => h r (List.mem_cons_of_mem _ hr)
    have hr := h r (List.mem_cons_self ..)
    rw [List.filter_cons, List.filter_cons]
    by_cases h1 : p r = true
    · rw [if_pos h1, if_pos (hr h1)]
      simpa using ih
    · rw [if_neg h1]
      split
      · rw [List.map_cons, List.sum_cons]
        have := hg r
        linarith
      · exact ih

theorem filter_sum_cover {l : List (List Nat × ℝ)} {p : List Nat × ℝ → Bool} {k : Nat} {p' : Nat → List Nat × ℝ → Bool} {g : List Nat × ℝ → ℝ} (hg : ∀ r, 0 ≤ g r)
    (h : ∀ r ∈ l, p r = true → ∃ j < k, p' j r = true) : ((l.filter p).map g).sum ≤ ∑ j ∈ Finset.range k, ((l.filter (p' j)).map g).sum := by
  induction l with
  | nil => simp
  | cons r l ih =>
    have ih := ih fun r hr => h r (List.mem_cons_of_mem _ hr)
    have h1 : ∀ j, (((r :: l).filter (p' j)).map g).sum = (if p' j r = true then g r else 0) + ((l.filter (p' j)).map g).sum := by
      intro j
      rw [List.filter_cons]
      split <;> simp
    rw [Finset.sum_congr rfl (fun j _ => h1 j), Finset.sum_add_distrib, List.filter_cons]
    split
    · rename_i hp
      obtain ⟨j, hj, hj'⟩ := h r (List.mem_cons_self ..) hp
      have h2 : g r ≤ ∑ j ∈ Finset.range k, if p' j r = true then g r else 0 := by
        refine le_trans ?_ (Finset.single_le_sum (fun j _ => ?_) (Finset.mem_range.2 hj))
        · rw [if_pos hj']
        · split
          · exact hg r
          · exact le_rfl
      rw [List.map_cons, List.sum_cons]
      linarith
    · have h2 : 0 ≤ ∑ j ∈ Finset.range k, if p' j r = true then g r else 0 := Finset.sum_nonneg fun j _ => by
        split
        · exact hg r
        · exact le_rfl
      linarith

/-- If in all configurations the last position is in state `b` exactly if one of the others is. -/
theorem prob_last (T : ℝ) (F : SFac ℝ) (q : Nat → Nat → ℝ) (k b : Nat) (h : ∀ r ∈ F.rows, r.1[k]? = some b ↔ ∃ j < k, r.1[j]? = some b) :
    (∀ j < k, F.prob T q j b ≤ F.prob T q k b) ∧ F.prob T q k b ≤ ∑ j ∈ Finset.range k, F.prob T q j b := by
  have hg : ∀ r : List Nat × ℝ, 0 ≤ rowWeight T F.scope.length q r := fun r => (Real.exp_pos _).le
  have hZ : 0 ≤ (F.rows.map (rowWeight T F.scope.length q)).sum := List.sum_nonneg fun x hx => by
    obtain ⟨r, -, rfl⟩ := List.mem_map.1 hx
    exact hg r
  constructor
  · intro j hj
    refine div_le_div_of_nonneg_right (filter_sum_le hg fun r hr hp => ?_) hZ
    exact decide_eq_true ((h r hr).2 ⟨j, hj, of_decide_eq_true hp⟩)
  · unfold SFac.prob
    rw [← Finset.sum_div]
    refine div_le_div_of_nonneg_right (filter_sum_cover hg fun r hr hp => ?_) hZ
    obtain ⟨j, hj, e⟩ := (h r hr).1 (of_decide_eq_true hp)
    exact ⟨j, hj, decide_eq_true e⟩

theorem prob_or (T : ℝ) (F : SFac ℝ) (q : Nat → Nat → ℝ) (hrows : F.rows = orRows (F.scope.length - 1)) :
    (∀ j < F.scope.length - 1, F.prob T q j 1 ≤ F.prob T q (F.scope.length - 1) 1) ∧ F.prob T q (F.scope.length - 1) 1 ≤ ∑ j ∈ Finset.range (F.scope.length - 1), F.prob T q j 1 := by
  refine prob_last T F q _ 1 fun r hr => ?_
  rw [hrows] at hr
  obtain ⟨p, hp, rfl⟩ := List.mem_map.1 hr
  have hl := ((mem_bits _ p).1 hp).1
  rw [List.getElem?_append_right hl.le, hl, Nat.sub_self, List.getElem?_cons_zero]
  constructor
  · intro e
    by_cases h1 : 1 ∈ p
    · obtain ⟨j, hj⟩ := List.mem_iff_getElem?.1 h1
      have hjl := (List.getElem?_eq_some_iff.1 hj).1
      exact ⟨j, by omega, by rw [List.getElem?_append_left hjl]; exact hj⟩
    · rw [if_neg h1] at e
      cases e
  · rintro ⟨j, hj, e⟩
    rw [List.getElem?_append_left (by omega)] at e
    rw [if_pos (List.mem_of_getElem? e)]

theorem prob_and (T : ℝ) (F : SFac ℝ) (q : Nat → Nat → ℝ) (hrows : F.rows = andRows (F.scope.length - 1)) :
    (∀ j < F.scope.length - 1, F.prob T q j 0 ≤ F.prob T q (F.scope.length - 1) 0) ∧ F.prob T q (F.scope.length - 1) 0 ≤ ∑ j ∈ Finset.range (F.scope.length - 1), F.prob T q j 0 := by
  refine prob_last T F q _ 0 fun r hr => ?_
  rw [hrows] at hr
  obtain ⟨p, hp, rfl⟩ := List.mem_map.1 hr
  have hl := ((mem_bits _ p).1 hp).1
  rw [List.getElem?_append_right hl.le, hl, Nat.sub_self, List.getElem?_cons_zero]
  constructor
  · intro e
    by_cases h1 : 0 ∈ p
    · obtain ⟨j, hj⟩ := List.mem_iff_getElem?.1 h1
      have hjl := (List.getElem?_eq_some_iff.1 hj).1
      exact ⟨j, by omega, by rw [List.getElem?_append_left hjl]; exact hj⟩
    · rw [if_neg h1] at e
      cases e
  · rintro ⟨j, hj, e⟩
    rw [List.getElem?_append_left (by omega)] at e
    rw [if_pos (List.mem_of_getElem? e)]

/-- From probabilities of the factor to those of the variables. -/
theorem logical_near {scope : List Var} {c : Var} {δ : ℝ} (g : Var → ℝ) (P : Nat → ℝ) (hc : scope[scope.length - 1]? = some c)
    (key : ∀ i v, scope[i]? = some v → g v * Real.exp (-δ) ≤ P i ∧ P i ≤ g v * Real.exp δ)
    (h1 : ∀ j < scope.length - 1, P j ≤ P (scope.length - 1)) (h2 : P (scope.length - 1) ≤ ∑ j ∈ Finset.range (scope.length - 1), P j) :
    (∀ j p, j < scope.length - 1 → scope[j]? = some p → g p ≤ g c * Real.exp (2 * δ)) ∧
      g c ≤ (∑ j ∈ Finset.range (scope.length - 1), g (scope.getD j ⟨0, 0⟩)) * Real.exp (2 * δ) := by
  have hmul : ∀ x y : ℝ, x * Real.exp (-δ) ≤ y * Real.exp δ → x ≤ y * Real.exp (2 * δ) := by
    intro x y hxy
    have h3 := mul_le_mul_of_nonneg_right hxy (Real.exp_pos δ).le
    rw [mul_assoc, mul_assoc, ← Real.exp_add, ← Real.exp_add, neg_add_cancel, Real.exp_zero, mul_one, ← two_mul] at h3
    exact h3
  constructor
  · intro j p hj hp
    exact hmul _ _ ((key j p hp).1.trans ((h1 j hj).trans (key _ c hc).2))
  · refine hmul _ _ ((key _ c hc).1.trans (h2.trans ?_))
    rw [Finset.sum_mul]
    refine Finset.sum_le_sum fun j hj => ?_
    have hj : j < scope.length := by
      have := Finset.mem_range.1 hj
      omega
    rw [List.getD_eq_getElem _ _ hj]
    exact (key j _ (List.getElem?_eq_getElem hj)).2

/-- **C83, OR factors.** When the messages of an OR factor have come to rest, the marginals satisfy the inequalities of the OR: the child is on with at least the probability of every parent, and with at most the sum of
their probabilities (up to the factor `exp (2 restGap)`, which is 1 if messages do not change). -/
theorem C83_or (h : Compiled vgs hist garbage st) {state : BPState ℝ} {bp : BPFun κ ℝ} {T : ℝ} (hT : 0 < T) (hbp : BP.create st state T = .ok bp)
    (env : Env ℝ) (hexp : env.exp = Real.exp) (hlog : env.log = Real.log) (hfit : Fits env (graphOf vgs hist) T) (a : BPArrays ℝ) (n : Nat) {d : ℝ} (hd : d < 1)
    (hlp : a.logPotentials.length = st.logPotentials.length) (hev : a.evidence.length = st.numVarStates) (hm : a.ftovMsgs.length = st.totalFactorNumStates)
    (hmod : Moderate (graphOf vgs hist) a.logPotentials (readEv st.varsToStarts a.evidence) d)
    (hinit : ∀ f i v, IsEdge (graphOf vgs hist).allScopes f i v → ∃ s < v.n, -100000 ≤ readMsgs (graphOf vgs hist).allScopes a.ftovMsgs f i s) {η : ℝ} (f : Nat) (F : SFac ℝ) (hF : ((graphOf vgs hist).factors a.logPotentials)[f]? = some F)
    (hrows : F.rows = orRows (F.scope.length - 1)) (c : Var) (hc : F.scope[F.scope.length - 1]? = some c) (hp2 : ∀ v ∈ F.scope, 1 < v.n)
    (hη : ∀ i v, F.scope[i]? = some v → ∀ s < v.n, |(readMsgs (graphOf vgs hist).allScopes (bp.runBP env a (n + 1) d).ftovMsgs) f i s - (readMsgs (graphOf vgs hist).allScopes (bp.runBP env a n d).ftovMsgs) f i s| ≤ η)
    (hclip : ∀ i v, F.scope[i]? = some v → ∀ s < v.n, -1000 < (readMsgs (graphOf vgs hist).allScopes (bp.runBP env a (n + 1) d).ftovMsgs) f i s) :
    (∀ j p, j < F.scope.length - 1 → F.scope[j]? = some p →
      gibbs (fun s => beliefOf (graphOf vgs hist).allScopes (readEv st.varsToStarts a.evidence) (readMsgs (graphOf vgs hist).allScopes (bp.runBP env a n d).ftovMsgs) p s / T) p.n 1 ≤ gibbs (fun s => beliefOf (graphOf vgs hist).allScopes (readEv st.varsToStarts a.evidence) (readMsgs (graphOf vgs hist).allScopes (bp.runBP env a n d).ftovMsgs) c s / T) c.n 1 * Real.exp (2 * restGap (graphOf vgs hist).tables.length T d η f)) ∧
    gibbs (fun s => beliefOf (graphOf vgs hist).allScopes (readEv st.varsToStarts a.evidence) (readMsgs (graphOf vgs hist).allScopes (bp.runBP env a n d).ftovMsgs) c s / T) c.n 1 ≤
      (∑ j ∈ Finset.range (F.scope.length - 1), gibbs (fun s => beliefOf (graphOf vgs hist).allScopes (readEv st.varsToStarts a.evidence) (readMsgs (graphOf vgs hist).allScopes (bp.runBP env a n d).ftovMsgs) (F.scope.getD j ⟨0, 0⟩) s / T) (F.scope.getD j ⟨0, 0⟩).n 1) * Real.exp (2 * restGap (graphOf vgs hist).tables.length T d η f) := by
  obtain ⟨h1, h2⟩ := prob_or T F (tbIn ((graphOf vgs hist).factors a.logPotentials) (readEv st.varsToStarts a.evidence) (readMsgs (graphOf vgs hist).allScopes (bp.runBP env a n d).ftovMsgs) f F) hrows
  have key : ∀ i v, F.scope[i]? = some v → _ := fun i v hi => C83 h hT hbp env hexp hlog hfit a n hd hlp hev hm hmod hinit f F i v hF hi (hη i v hi) (hclip i v hi) (s := 1) (hp2 v (List.mem_of_getElem? hi))
  exact logical_near (fun v => gibbs (fun s => beliefOf (graphOf vgs hist).allScopes (readEv st.varsToStarts a.evidence) (readMsgs (graphOf vgs hist).allScopes (bp.runBP env a n d).ftovMsgs) v s / T) v.n 1) (fun i => F.prob T (tbIn ((graphOf vgs hist).factors a.logPotentials) (readEv st.varsToStarts a.evidence) (readMsgs (graphOf vgs hist).allScopes (bp.runBP env a n d).ftovMsgs) f F) i 1) hc key h1 h2

/-- **C83, AND factors.** For an AND factor, the child is off with at least the probability with which any parent is off, and with at most the sum of these probabilities. -/
theorem C83_and (h : Compiled vgs hist garbage st) {state : BPState ℝ} {bp : BPFun κ ℝ} {T : ℝ} (hT : 0 < T) (hbp : BP.create st state T = .ok bp)
    (env : Env ℝ) (hexp : env.exp = Real.exp) (hlog : env.log = Real.log) (hfit : Fits env (graphOf vgs hist) T) (a : BPArrays ℝ) (n : Nat) {d : ℝ} (hd : d < 1)
    (hlp : a.logPotentials.length = st.logPotentials.length) (hev : a.evidence.length = st.numVarStates) (hm : a.ftovMsgs.length = st.totalFactorNumStates)
    (hmod : Moderate (graphOf vgs hist) a.logPotentials (readEv st.varsToStarts a.evidence) d)
    (hinit : ∀ f i v, IsEdge (graphOf vgs hist).allScopes f i v → ∃ s < v.n, -100000 ≤ readMsgs (graphOf vgs hist).allScopes a.ftovMsgs f i s) {η : ℝ} (f : Nat) (F : SFac ℝ) (hF : ((graphOf vgs hist).factors a.logPotentials)[f]? = some F)
    (hrows : F.rows = andRows (F.scope.length - 1)) (c : Var) (hc : F.scope[F.scope.length - 1]? = some c) (hp2 : ∀ v ∈ F.scope, 0 < v.n)
    (hη : ∀ i v, F.scope[i]? = some v → ∀ s < v.n, |(readMsgs (graphOf vgs hist).allScopes (bp.runBP env a (n + 1) d).ftovMsgs) f i s - (readMsgs (graphOf vgs hist).allScopes (bp.runBP env a n d).ftovMsgs) f i s| ≤ η)
    (hclip : ∀ i v, F.scope[i]? = some v → ∀ s < v.n, -1000 < (readMsgs (graphOf vgs hist).allScopes (bp.runBP env a (n + 1) d).ftovMsgs) f i s) :
    (∀ j p, j < F.scope.length - 1 → F.scope[j]? = some p →
      gibbs (fun s => beliefOf (graphOf vgs hist).allScopes (readEv st.varsToStarts a.evidence) (readMsgs (graphOf vgs hist).allScopes (bp.runBP env a n d).ftovMsgs) p s / T) p.n 0 ≤ gibbs (fun s => beliefOf (graphOf vgs hist).allScopes (readEv st.varsToStarts a.evidence) (readMsgs (graphOf vgs hist).allScopes (bp.runBP env a n d).ftovMsgs) c s / T) c.n 0 * Real.exp (2 * restGap (graphOf vgs hist).tables.length T d η f)) ∧
    gibbs (fun s => beliefOf (graphOf vgs hist).allScopes (readEv st.varsToStarts a.evidence) (readMsgs (graphOf vgs hist).allScopes (bp.runBP env a n d).ftovMsgs) c s / T) c.n 0 ≤
      (∑ j ∈ Finset.range (F.scope.length - 1), gibbs (fun s => beliefOf (graphOf vgs hist).allScopes (readEv st.varsToStarts a.evidence) (readMsgs (graphOf vgs hist).allScopes (bp.runBP env a n d).ftovMsgs) (F.scope.getD j ⟨0, 0⟩) s / T) (F.scope.getD j ⟨0, 0⟩).n 0) * Real.exp (2 * restGap (graphOf vgs hist).tables.length T d η f) := by
  obtain ⟨h1, h2⟩ := prob_and T F (tbIn ((graphOf vgs hist).factors a.logPotentials) (readEv st.varsToStarts a.evidence) (readMsgs (graphOf vgs hist).allScopes (bp.runBP env a n d).ftovMsgs) f F) hrows
  have key : ∀ i v, F.scope[i]? = some v → _ := fun i v hi => C83 h hT hbp env hexp hlog hfit a n hd hlp hev hm hmod hinit f F i v hF hi (hη i v hi) (hclip i v hi) (s := 0) (hp2 v (List.mem_of_getElem? hi))
  exact logical_near (fun v => gibbs (fun s => beliefOf (graphOf vgs hist).allScopes (readEv st.varsToStarts a.evidence) (readMsgs (graphOf vgs hist).allScopes (bp.runBP env a n d).ftovMsgs) v s / T) v.n 0) (fun i => F.prob T (tbIn ((graphOf vgs hist).factors a.logPotentials) (readEv st.varsToStarts a.evidence) (readMsgs (graphOf vgs hist).allScopes (bp.runBP env a n d).ftovMsgs) f F) i 0) hc key h1 h2

/-! ## Non-vacuity -/

/-- A loop of weak factors (messages `L` that do not change exist by C60). -/
example {env : Env ℝ} (hexp : env.exp = Real.exp) (hlog : env.log = Real.log) (hw : env.wrapNeg = false) {T : ℝ} (hT : 0 < T) : ∃ L : List ℝ, ∀ f F i v,
    ((graphOf exVars exHistL).factors exLpL)[f]? = some F → F.scope[i]? = some v → ∀ s < v.n,
    gibbs (fun s => beliefOf (graphOf exVars exHistL).allScopes (readEv exStateL.varsToStarts exEvT) (readMsgs (graphOf exVars exHistL).allScopes
      ((exBPL T).runBP env ⟨exLpL, L, exEvT⟩ 0 0).ftovMsgs) v s / T) v.n s * Real.exp (-restGap (graphOf exVars exHistL).tables.length T 0 0 f) ≤
    F.prob T (tbIn ((graphOf exVars exHistL).factors exLpL) (readEv exStateL.varsToStarts exEvT) (readMsgs (graphOf exVars exHistL).allScopes
      ((exBPL T).runBP env ⟨exLpL, L, exEvT⟩ 0 0).ftovMsgs) f F) i s := by
  have hfit : Fits env (graphOf exVars exHistL) T := ⟨.inl hw, fun h => absurd h hT.ne'⟩
  obtain ⟨k, -, -, L, hL, hrun⟩ := C60_loop exStateL_compiled hT (exBPL_create T) env hexp hlog hfit exLpL exEvT rfl rfl exModerateL exCompleteL exInputsL
  have h0 := (hrun 0 le_rfl one_pos).2
  refine ⟨L, fun f F i v hF hi s hs => ?_⟩
  have hsc := (graphOf exVars exHistL).factors_scopes exLpL
  have he : IsEdge (graphOf exVars exHistL).allScopes f i v := ⟨F.scope, by rw [← hsc, List.getElem?_map, hF]; rfl, hi⟩
  have hWithin : ∀ F ∈ (graphOf exVars exHistL).factors exLpL, F.Within 1 := by
    rw [exFactorsL]
    unfold SFac.Within
    simp only [List.forall_mem_cons]
    norm_num
  have hbd : ∀ f F i v, ((graphOf exVars exHistL).factors exLpL)[f]? = some F → F.scope[i]? = some v → ∀ s < v.n,
      -1 ≤ readMsgs (graphOf exVars exHistL).allScopes ((exBPL T).runBP env ⟨exLpL, L, exEvT⟩ 1 0).ftovMsgs f i s := by
    intro f F i v hF hi s hs
    have := C56_sum_partial exStateL_compiled hT (exBPL_create T) env hexp hlog hfit ⟨exLpL, L, exEvT⟩ 1 0 rfl rfl hL exModerateL f F hF ((List.getElem?_eq_some_iff.1 hF).1)
      (exCompleteL F (List.mem_of_getElem? hF)) 1 (hWithin F (List.mem_of_getElem? hF)) i v ⟨F.scope, by rw [← hsc, List.getElem?_map, hF]; rfl, hi⟩ s hs
    linarith
  refine (C83 exStateL_compiled hT (exBPL_create T) env hexp hlog hfit ⟨exLpL, L, exEvT⟩ 0 one_pos rfl rfl hL exModerateL ?_ f F i v hF hi ?_ ?_ hs).1
  · intro f i v he
    obtain ⟨F, hF, hi, -⟩ := (graphOf exVars exHistL).factors_edge exLpL he
    refine ⟨0, exStateL_compiled.edge_pos he, ?_⟩
    have := hbd f F i v hF hi 0 (exStateL_compiled.edge_pos he)
    rw [h0] at this
    exact le_trans (by norm_num) this
  · intro s hs
    rw [h0, h0, sub_self, abs_zero]
  · intro s hs
    exact lt_of_lt_of_le (by norm_num) (hbd f F i v hF hi s hs)

/-- An OR factor. -/
def exHistO : List (AddArg ℝ) := [.one ⟨6, .or, .single, [[exVar 0, exVar 1, exVar 2]], ⟨0, []⟩, []⟩]

/-- Its compiled state. -/
noncomputable def exStateO : FGState Nat ℝ :=
  match (graphOf exVars exHistO).fgState 0 with
  | .ok st => st
  | .error _ => ⟨[], fun _ => none, 0, 0, fun _ => (0, 0), fun _ => (0, 0), fun _ => none, [],
      ⟨⟨[], [], []⟩, ⟨[], [], [], [], 1⟩, ⟨[], [], [], [], 1⟩⟩⟩

theorem exStateO_compiled : Compiled exVars exHistO 0 exStateO where
  vgroups := exVars_ok
  valid := by
    simp only [exHistO, List.mem_cons, List.not_mem_nil, or_false, forall_eq, AddArg.flat]
    exact ⟨by decide, by decide, (fun h => by cases h), fun _ => ⟨rfl, by unfold LogicalScope; decide⟩⟩
  ids := by
    have e : FType.all.flatMap (graphOf exVars exHistO).groups = [⟨6, .or, .single, [[exVar 0, exVar 1, exVar 2]], ⟨0, []⟩, []⟩] := by rfl
    rw [e]
    intro g hg k hk _
    simp only [List.mem_cons, List.not_mem_nil, or_false] at hg hk
    rw [hg, hk]
  compiled := rfl

/-- The default BP state of the graph. -/
noncomputable def exBPStateO : BPState ℝ :=
  match bpStateOf 1 exStateO with
  | .ok s => s
  | .error _ => ⟨⟨0, []⟩, ⟨0, []⟩, ⟨0, []⟩⟩

/-- Belief propagation at temperature `T` on it. -/
noncomputable def exBPO (T : ℝ) : BPFun Nat ℝ :=
  match BP.create exStateO exBPStateO T with
  | .ok bp => bp
  | .error _ => ⟨exStateO, exBPStateO, [], 0, [], 0⟩

theorem exBPO_create (T : ℝ) : BP.create exStateO exBPStateO T = .ok (exBPO T) := rfl

/-- The factor. -/
def exFacO : SFac ℝ := ⟨[exVar 0, exVar 1, exVar 2], orRows 2⟩

theorem exFactorsO (lp : List ℝ) : (graphOf exVars exHistO).factors lp = [exFacO] := rfl

theorem exScopesO : (graphOf exVars exHistO).allScopes = [[exVar 0, exVar 1, exVar 2]] := rfl

theorem exRowsO : exFacO.rows = [([0, 0, 0], 0), ([1, 0, 1], 0), ([0, 1, 1], 0), ([1, 1, 1], 0)] := by
  simp [exFacO, orRows, bits]

theorem exEdgeO {f i : Nat} {v : Var} (he : IsEdge (graphOf exVars exHistO).allScopes f i v) : f = 0 ∧ i < 3 ∧ v = exVar i ∧ exFacO.scope[i]? = some v := by
  rw [exScopesO] at he
  obtain ⟨vs, h1, h2⟩ := he
  match f, h1 with
  | 0, h1 =>
    cases h1
    match i, h2 with
    | 0, h2 => cases h2; exact ⟨rfl, by decide, rfl, rfl⟩
    | 1, h2 => cases h2; exact ⟨rfl, by decide, rfl, rfl⟩
    | 2, h2 => cases h2; exact ⟨rfl, by decide, rfl, rfl⟩

theorem exModerateO : Moderate (graphOf exVars exHistO) [] (readEv exStateO.varsToStarts exEvT) 0 := by
  refine moderate_of_bounds (E := 3) (P := 0) (D := 1) (K := 0) (by norm_num) ?_ ?_ (by norm_num) ?_ (by norm_num)
  · intro _ _ v s _ _
    unfold readEv List.getD
    cases e : exEvT[(exStateO.varsToStarts v).getD 0 + s]? with
    | none => norm_num
    | some x =>
      have hl : ∀ x ∈ exEvT, |x| ≤ 3 := by simp only [exEvT, List.forall_mem_cons]; norm_num
      exact hl x (List.mem_of_getElem? e)
  · intro f i v he
    obtain ⟨-, h1, rfl, -⟩ := exEdgeO he
    have hd : ∀ i < 3, (edgesOf [[exVar 0, exVar 1, exVar 2]] (exVar i)).length ≤ 1 := by decide +kernel
    rw [exScopesO]
    exact_mod_cast hd i h1
  · intro F hF
    exact absurd hF (List.not_mem_nil)

/-- What the factor gets is the evidence. -/
theorem exInO (ev : Var → Nat → ℝ) (m : Msgs ℝ) {j : Nat} {w : Var} (hj : exFacO.scope[j]? = some w) (t : Nat) : tbIn [exFacO] ev m 0 exFacO j t = ev w t := by
  rw [tbIn_at hj]
  unfold varToFac
  have e : (edgesOf ([exFacO].map (·.scope)) w).filter (fun e' => e' ≠ (0, j)) = [] := by
    rw [show [exFacO].map (·.scope) = [[exVar 0, exVar 1, exVar 2]] from rfl]
    match j, hj with
    | 0, hj => cases hj; decide +kernel
    | 1, hj => cases hj; decide +kernel
    | 2, hj => cases hj; decide +kernel
  rw [e]
  simp

theorem exInO_indep (ev : Var → Nat → ℝ) (m m' : Msgs ℝ) : tbIn [exFacO] ev m 0 exFacO = tbIn [exFacO] ev m' 0 exFacO := by
  funext j t
  cases hj : exFacO.scope[j]? with
  | none => unfold tbIn; rw [hj]
  | some w => rw [exInO ev m hj, exInO ev m' hj]

/-- After one iteration the messages do not change, and they are not clipped. -/
theorem exRestO {env : Env ℝ} (hexp : env.exp = Real.exp) (hlog : env.log = Real.log) (hw : env.wrapNeg = false) :
    (∀ f i v, IsEdge (graphOf exVars exHistO).allScopes f i v → ∃ s < v.n, -100000 ≤ readMsgs (graphOf exVars exHistO).allScopes (List.replicate 6 (0 : ℝ)) f i s) ∧
    (∀ i v, exFacO.scope[i]? = some v → ∀ s < v.n, readMsgs (graphOf exVars exHistO).allScopes ((exBPO 1).runBP env ⟨[], List.replicate 6 0, exEvT⟩ (1 + 1) 0).ftovMsgs 0 i s =
      readMsgs (graphOf exVars exHistO).allScopes ((exBPO 1).runBP env ⟨[], List.replicate 6 0, exEvT⟩ 1 0).ftovMsgs 0 i s) ∧
    ∀ i v, exFacO.scope[i]? = some v → ∀ s < v.n, -1000 < readMsgs (graphOf exVars exHistO).allScopes ((exBPO 1).runBP env ⟨[], List.replicate 6 0, exEvT⟩ (1 + 1) 0).ftovMsgs 0 i s := by
  have hfit : Fits env (graphOf exVars exHistO) (1 : ℝ) := ⟨.inl hw, fun h => absurd h one_ne_zero⟩
  have hinit : ∀ f i v, IsEdge (graphOf exVars exHistO).allScopes f i v → ∃ s < v.n, -100000 ≤ readMsgs (graphOf exVars exHistO).allScopes (List.replicate 6 (0 : ℝ)) f i s := by
    intro f i v he
    refine ⟨0, exStateO_compiled.edge_pos he, ?_⟩
    unfold readMsgs List.getD
    cases e : (List.replicate 6 (0 : ℝ))[edgeStart (graphOf exVars exHistO).allScopes f i + 0]? with
    | none => norm_num
    | some y =>
      have := List.eq_of_mem_replicate (List.mem_of_getElem? e)
      rw [this]
      norm_num
  have hrun := fun n => exStateO_compiled.run_sum one_pos (exBPO_create 1) env hexp hlog hfit ⟨[], List.replicate 6 0, exEvT⟩ n 0 rfl rfl rfl exModerateO hinit
  have hevb : ∀ v s, |readEv exStateO.varsToStarts exEvT v s| ≤ 3 := by
    intro v s
    unfold readEv List.getD
    cases e : exEvT[(exStateO.varsToStarts v).getD 0 + s]? with
    | none => norm_num
    | some x =>
      have hl : ∀ x ∈ exEvT, |x| ≤ 3 := by simp only [exEvT, List.forall_mem_cons]; norm_num
      exact hl x (List.mem_of_getElem? e)
  have hsame : ∀ i v, exFacO.scope[i]? = some v → ∀ s < v.n, readMsgs (graphOf exVars exHistO).allScopes ((exBPO 1).runBP env ⟨[], List.replicate 6 0, exEvT⟩ (1 + 1) 0).ftovMsgs 0 i s =
      readMsgs (graphOf exVars exHistO).allScopes ((exBPO 1).runBP env ⟨[], List.replicate 6 0, exEvT⟩ 1 0).ftovMsgs 0 i s := by
    intro i v hi s hs
    have he : IsEdge (graphOf exVars exHistO).allScopes 0 i v := ⟨_, rfl, hi⟩
    rw [hrun (1 + 1) 0 i v s he hs, hrun 1 0 i v s he hs, exFactorsO]
    change sumStep _ _ _ _ _ 0 i s = sumStep _ _ _ _ _ 0 i s
    rw [sumStep_at _ (F := exFacO) rfl hi, sumStep_at _ (F := exFacO) rfl hi]
    simp only [zero_mul]
    rw [exInO_indep]
  have hlow : ∀ i v, exFacO.scope[i]? = some v → ∀ s < v.n, -1000 < readMsgs (graphOf exVars exHistO).allScopes ((exBPO 1).runBP env ⟨[], List.replicate 6 0, exEvT⟩ (1 + 1) 0).ftovMsgs 0 i s := by
    intro i v hi s hs
    have he : IsEdge (graphOf exVars exHistO).allScopes 0 i v := ⟨_, rfl, hi⟩
    obtain ⟨-, hi3, rfl, -⟩ := exEdgeO he
    rw [hrun (1 + 1) 0 i _ s he hs, exFactorsO]
    change -1000 < sumStep _ _ _ _ _ 0 i s
    rw [sumStep_at _ (F := exFacO) rfl hi]
    generalize sumRun (codeSummary (graphOf exVars exHistO).tables.length 1) [exFacO] _ _ _ _ = m
    have hne : ∀ i < 3, ∀ s < 2, exFacO.rowsAt i s ≠ [] ∧ (exFacO.rowsAt i s).length ≤ 4 := by
      intro i hi s hs
      refine ⟨?_, ?_⟩
      · unfold SFac.rowsAt
        rw [exRowsO]
        interval_cases i <;> interval_cases s <;> simp
      · unfold SFac.rowsAt
        rw [exRowsO]
        exact List.length_filter_le _ _
    have hq : ∀ j < 3, ∀ t, |tbIn [exFacO] (readEv exStateO.varsToStarts exEvT) m 0 exFacO j t| ≤ 3 := by
      intro j hj t
      have hjs : exFacO.scope[j]? = some (exVar j) := by interval_cases j <;> rfl
      rw [exInO _ m hjs]
      exact hevb _ _
    have hscore : ∀ s, ∀ r ∈ exFacO.rowsAt i s, |scoreBut exFacO.scope.length (tbIn [exFacO] (readEv exStateO.varsToStarts exEvT) m 0 exFacO) i r| ≤ 6 := by
      intro s r hr
      have hr2 : r.2 = 0 := by
        have := (List.mem_filter.1 hr).1
        rw [exRowsO] at this
        simp only [List.mem_cons, List.not_mem_nil, or_false] at this
        rcases this with rfl | rfl | rfl | rfl <;> rfl
      unfold scoreBut
      rw [hr2, show exFacO.scope.length = 3 from rfl, zero_add]
      have h0 := abs_le.1 (hq 0 (by decide) (r.1.getD 0 0))
      have h1 := abs_le.1 (hq 1 (by decide) (r.1.getD 1 0))
      have h2 := abs_le.1 (hq 2 (by decide) (r.1.getD 2 0))
      rw [abs_le]
      interval_cases i
      · rw [show (List.range 3).filter (fun j => j ≠ 0) = [1, 2] from rfl]
        simp only [List.map_cons, List.map_nil, List.sum_cons, List.sum_nil]
        constructor <;> linarith [h1.1, h1.2, h2.1, h2.2]
      · rw [show (List.range 3).filter (fun j => j ≠ 1) = [0, 2] from rfl]
        simp only [List.map_cons, List.map_nil, List.sum_cons, List.sum_nil]
        constructor <;> linarith [h0.1, h0.2, h2.1, h2.2]
      · rw [show (List.range 3).filter (fun j => j ≠ 2) = [0, 1] from rfl]
        simp only [List.map_cons, List.map_nil, List.sum_cons, List.sum_nil]
        constructor <;> linarith [h0.1, h0.2, h1.1, h1.2]
    have hlse : ∀ s < 2, -6 ≤ lse 1 ((exFacO.rowsAt i s).map (scoreBut exFacO.scope.length (tbIn [exFacO] (readEv exStateO.varsToStarts exEvT) m 0 exFacO) i)) ∧
        lse 1 ((exFacO.rowsAt i s).map (scoreBut exFacO.scope.length (tbIn [exFacO] (readEv exStateO.varsToStarts exEvT) m 0 exFacO) i)) ≤ 10 := by
      intro s hs
      obtain ⟨n1, n2⟩ := hne i hi3 s hs
      have n3 : (exFacO.rowsAt i s).map (scoreBut exFacO.scope.length (tbIn [exFacO] (readEv exStateO.varsToStarts exEvT) m 0 exFacO) i) ≠ [] := by simpa using n1
      obtain ⟨k1, k2⟩ := lse_max (T := 1) one_pos n3
      obtain ⟨k3, -⟩ := maxOf_spec 0 _ n3
      obtain ⟨r, hr, e⟩ := List.mem_map.1 k3
      have k4 := abs_le.1 (hscore s r hr)
      rw [e] at k4
      have k5 : (((exFacO.rowsAt i s).map (scoreBut exFacO.scope.length (tbIn [exFacO] (readEv exStateO.varsToStarts exEvT) m 0 exFacO) i)).length : ℝ) ≤ 4 := by
        rw [List.length_map]
        exact_mod_cast n2
      constructor <;> linarith [k4.1, k4.2]
    have hx : ∀ s < (exVar i).n, (sumOut (codeSummary (graphOf exVars exHistO).tables.length 1 0) exFacO (tbIn [exFacO] (readEv exStateO.varsToStarts exEvT) m 0 exFacO) i s).map (fun x => 0 * m 0 i s + (1 - 0) * x) =
        WithBot.some (lse 1 ((exFacO.rowsAt i s).map (scoreBut exFacO.scope.length (tbIn [exFacO] (readEv exStateO.varsToStarts exEvT) m 0 exFacO) i))) := by
      intro s hs
      unfold sumOut
      rw [if_neg (hne i hi3 s hs).1, WithBot.map_coe, zero_mul, zero_add, sub_zero, one_mul]
      rfl
    rw [tbNorm_congr hx hs]
    have := (tbNorm_range (n := (exVar i).n) (R := 16) (x := fun s => lse 1 ((exFacO.rowsAt i s).map (scoreBut exFacO.scope.length (tbIn [exFacO] (readEv exStateO.varsToStarts exEvT) m 0 exFacO) i)))
      (fun s hs t ht => by have := hlse s hs; have := hlse t ht; linarith) hs).1
    linarith
  exact ⟨hinit, hsame, hlow⟩

/-- Non-vacuity of C83, OR factors. -/
example {env : Env ℝ} (hexp : env.exp = Real.exp) (hlog : env.log = Real.log) (hw : env.wrapNeg = false) (B : Var → Nat → ℝ)
    (hB : B = beliefOf (graphOf exVars exHistO).allScopes (readEv exStateO.varsToStarts exEvT) (readMsgs (graphOf exVars exHistO).allScopes
      ((exBPO 1).runBP env ⟨[], List.replicate 6 0, exEvT⟩ 1 0).ftovMsgs)) :
    (∀ j < 2, gibbs (B (exVar j)) 2 1 ≤ gibbs (B (exVar 2)) 2 1) ∧ gibbs (B (exVar 2)) 2 1 ≤ gibbs (B (exVar 0)) 2 1 + gibbs (B (exVar 1)) 2 1 := by
  have hfit : Fits env (graphOf exVars exHistO) (1 : ℝ) := ⟨.inl hw, fun h => absurd h one_ne_zero⟩
  obtain ⟨hinit, hsame, hlow⟩ := exRestO hexp hlog hw
  have key := C83_or exStateO_compiled one_pos (exBPO_create 1) env hexp hlog hfit ⟨[], List.replicate 6 0, exEvT⟩ 1 (d := 0) one_pos rfl rfl rfl exModerateO hinit (η := 0) 0 exFacO rfl rfl (exVar 2) rfl
    (by decide) (fun i v hi s hs => by rw [hsame i v hi s hs, sub_self, abs_zero]) hlow
  have hgap : restGap (graphOf exVars exHistO).tables.length 1 0 0 0 = 0 := by
    have : (graphOf exVars exHistO).tables.length = 0 := rfl
    simp [restGap, this]
  rw [hgap, mul_zero, Real.exp_zero, mul_one] at key
  simp only [div_one, mul_one] at key
  rw [← hB] at key
  refine ⟨fun j hj => ?_, ?_⟩
  · interval_cases j
    · exact key.1 0 (exVar 0) (by decide) rfl
    · exact key.1 1 (exVar 1) (by decide) rfl
  · have := key.2
    rw [show exFacO.scope.length - 1 = 2 from rfl, Finset.sum_range_succ, Finset.sum_range_one] at this
    exact this

end PGMax
