import Verif.Lemmas.BetheTree
import Verif.Props.C83
import Verif.Props.C93

/-! # C105: the beliefs of belief propagation rewrite the model, and those at rest are stationary points of the Bethe free energy -/

namespace PGMax

variable {κ : Type _} {vgs : List (VGroup κ)} {hist : List (AddArg ℝ)} {garbage : Garbage} {st : FGState κ ℝ}

/-- **C105.** For any graph with factors of any type, any log potentials, evidence and messages, and any temperature `T > 0`: the weight of a joint assignment is, up to the same constant for all assignments,
the product of the probabilities of its states by the distributions of all factors and all variables, divided by the probability by a variable's distribution once for every edge of the variable.
The division is written as a multiplication on the other side (all these probabilities are positive, `C105_pos`). -/
theorem C105 (h : Compiled vgs hist garbage st) {T : ℝ} (hT : 0 < T) (lp : List ℝ) (ev : Var → Nat → ℝ) (m : Msgs ℝ) {x : Var → Nat} (hx : ∀ v ∈ graphVars vgs, x v < v.n) :
    jointWeight T (graphVars vgs) ((graphOf vgs hist).factors lp) ev x *
        ∏ v ∈ graphVars vgs, stateDist T ((graphOf vgs hist).factors lp) ev m v (x v) ^ degree (graphOf vgs hist).allScopes v =
      Real.exp (betheLogTotal T (graphVars vgs) ((graphOf vgs hist).factors lp) ev m) *
        ((∏ v ∈ graphVars vgs, stateDist T ((graphOf vgs hist).factors lp) ev m v (x v)) *
          ∏ f ∈ Finset.range ((graphOf vgs hist).factors lp).length, factorDist T ((graphOf vgs hist).factors lp) ev m f x) := by
  have := jointWeight_reparam (ev := ev) (m := m) hT (h.factors_vars lp) hx
  rw [(graphOf vgs hist).factors_scopes lp] at this
  unfold stateDist factorDist
  rw [(graphOf vgs hist).factors_scopes lp]
  exact this

/-- The probabilities of the states of variables are positive. -/
theorem C105_pos (T : ℝ) (factors : List (SFac ℝ)) (ev : Var → Nat → ℝ) (m : Msgs ℝ) (v : Var) {s : Nat} (hs : s < v.n) : 0 < stateDist T factors ev m v s := gibbs_pos _ hs

/-- **C105, reported marginals.** At temperature 1 the distributions of the variables are the marginals that `get_marginals` returns, whatever the arrays of messages, evidence and log potentials. -/
theorem C105_marginals [DecidableEq κ] (h : Compiled vgs hist garbage st) {state : BPState ℝ} {bp : BPFun κ ℝ} (hbp : BP.create st state 1 = .ok bp) (env : Env ℝ) (hexp : env.exp = Real.exp)
    (hlog : env.log = Real.log) (a : BPArrays ℝ) (hm : a.ftovMsgs.length = st.totalFactorNumStates) (hev : a.evidence.length = st.numVarStates) (hreg : ∀ g ∈ vgs, g.Regular) (hst : ∀ g ∈ vgs, g.Stated) :
    ∃ (B : Var → Nat → ℝ) (P : Nat → (Var → Nat) → ℝ) (Z : ℝ), (∃ bs rs, bp.getBeliefs a = .ok bs ∧ getMarginals env bs = .ok rs ∧ rs.map (·.1) = vgs ∧ ∀ p ∈ rs, p.1.HasMarginals B p.2) ∧
      P = factorDist 1 ((graphOf vgs hist).factors a.logPotentials) (readEv st.varsToStarts a.evidence) (readMsgs (graphOf vgs hist).allScopes a.ftovMsgs) ∧ 0 < Z ∧
      ∀ x : Var → Nat, (∀ v ∈ graphVars vgs, x v < v.n) →
        jointWeight 1 (graphVars vgs) ((graphOf vgs hist).factors a.logPotentials) (readEv st.varsToStarts a.evidence) x * ∏ v ∈ graphVars vgs, gibbs (B v) v.n (x v) ^ degree (graphOf vgs hist).allScopes v =
          Z * ((∏ v ∈ graphVars vgs, gibbs (B v) v.n (x v)) * ∏ f ∈ Finset.range ((graphOf vgs hist).factors a.logPotentials).length, P f x) := by
  refine ⟨_, _, Real.exp (betheLogTotal 1 (graphVars vgs) ((graphOf vgs hist).factors a.logPotentials) (readEv st.varsToStarts a.evidence) (readMsgs (graphOf vgs hist).allScopes a.ftovMsgs)),
    C36_partial h hbp env hexp hlog a hm hev hreg hst, rfl, Real.exp_pos _, fun x hx => ?_⟩
  have := C105 h one_pos a.logPotentials (readEv st.varsToStarts a.evidence) (readMsgs (graphOf vgs hist).allScopes a.ftovMsgs) hx
  unfold stateDist at this
  simp only [div_one, (graphOf vgs hist).factors_scopes] at this
  exact this

/-- **C105, stationary.** At the distributions that any messages give, the Bethe free energy has derivative 0 in every direction that keeps totals and marginals consistent. -/
theorem C105_stationary (h : Compiled vgs hist garbage st) {T : ℝ} (hT : 0 < T) (lp : List ℝ) (ev : Var → Nat → ℝ) (m : Msgs ℝ) {P : Nat → Nat → ℝ} {b : Var → Nat → ℝ}
    (hC : LocallyConsistent (graphVars vgs) ((graphOf vgs hist).factors lp) 0 P b) :
    HasDerivAt (fun t : ℝ => betheEnergy T (graphVars vgs) ((graphOf vgs hist).factors lp) ev (fun f k => rowDist T ((graphOf vgs hist).factors lp) ev m f k + t * P f k)
      (fun v s => stateDist T ((graphOf vgs hist).factors lp) ev m v s + t * b v s)) 0 0 :=
  bethe_stationary hT (h.factors_vars lp) (h.rowsFit_mem lp) hC

/-- **C105, value.** If these distributions are consistent, their Bethe free energy is `- T betheLogTotal`. -/
theorem C105_value (h : Compiled vgs hist garbage st) {T : ℝ} (hT : 0 < T) (lp : List ℝ) (ev : Var → Nat → ℝ) (m : Msgs ℝ)
    (hC : LocallyConsistent (graphVars vgs) ((graphOf vgs hist).factors lp) 1 (rowDist T ((graphOf vgs hist).factors lp) ev m) (stateDist T ((graphOf vgs hist).factors lp) ev m)) :
    betheEnergy T (graphVars vgs) ((graphOf vgs hist).factors lp) ev (rowDist T ((graphOf vgs hist).factors lp) ev m) (stateDist T ((graphOf vgs hist).factors lp) ev m) =
      - T * betheLogTotal T (graphVars vgs) ((graphOf vgs hist).factors lp) ev m := by
  have := bethe_linear (ev := ev) (m := m) hT (h.factors_vars lp) (h.rowsFit_mem lp) hC
  rw [neg_one_mul] at this
  exact this

/-! ## At rest -/

theorem gibbs_total (B : Nat → ℝ) {n : Nat} (hn : 0 < n) : ∑ s ∈ Finset.range n, gibbs B n s = 1 := by
  unfold gibbs
  rw [← Finset.sum_div]
  exact div_self (Finset.sum_pos (fun _ _ => Real.exp_pos _) ⟨0, Finset.mem_range.2 hn⟩).ne'

theorem sum_filter_getD {β : Type _} (l : List β) (d : β) (p : β → Bool) (g : β → ℝ) :
    ∑ k ∈ (Finset.range l.length).filter (fun k => p (l.getD k d) = true), g (l.getD k d) = ((l.filter p).map g).sum := by
  rw [Finset.sum_filter]
  induction l with
  | nil => simp
  | cons x l ih =>
    rw [List.length_cons, Finset.sum_range_succ']
    simp only [List.getD_cons_succ, List.getD_cons_zero]
    rw [ih, List.filter_cons]
    split <;> simp [add_comm]

/-- The probabilities of the configurations with a state add up to that of the state. -/
theorem sum_placesAt (T : ℝ) (F : SFac ℝ) (q : Nat → Nat → ℝ) (i s : Nat) : ∑ k ∈ F.placesAt i s, F.rowProb T q k = F.prob T q i s := by
  unfold SFac.rowProb SFac.prob SFac.placesAt
  rw [← Finset.sum_div]
  congr 1
  have := sum_filter_getD F.rows ([], 0) (fun r => decide (r.1[i]? = some s)) (rowWeight T F.scope.length q)
  simp only [decide_eq_true_eq] at this
  exact this

theorem sum_rowProb (T : ℝ) (F : SFac ℝ) (q : Nat → Nat → ℝ) (hne : F.rows ≠ []) : ∑ k ∈ Finset.range F.rows.length, F.rowProb T q k = 1 := by
  unfold SFac.rowProb
  rw [← Finset.sum_div]
  have := sum_filter_getD F.rows ([], 0) (fun _ => true) (rowWeight T F.scope.length q)
  simp only [Finset.filter_true, List.filter_true] at this
  rw [this, div_self (rowTotal_pos (T := T) (q := q) hne).ne']

/-- **C105, at rest.** If no message is clipped and messages change by at most `η` in the `n + 1`-st iteration, the distributions of variables and factors after `n` iterations are distributions, and those of
factors have those of variables as marginals, up to a factor of at most `exp (± restGap)`. -/
theorem C105_rest (h : Compiled vgs hist garbage st) {state : BPState ℝ} {bp : BPFun κ ℝ} {T : ℝ} (hT : 0 < T) (hbp : BP.create st state T = .ok bp)
    (env : Env ℝ) (hexp : env.exp = Real.exp) (hlog : env.log = Real.log) (hfit : Fits env (graphOf vgs hist) T) (a : BPArrays ℝ) (n : Nat) {d : ℝ} (hd : d < 1)
    (hlp : a.logPotentials.length = st.logPotentials.length) (hev : a.evidence.length = st.numVarStates) (hm : a.ftovMsgs.length = st.totalFactorNumStates)
    (hmod : Moderate (graphOf vgs hist) a.logPotentials (readEv st.varsToStarts a.evidence) d)
    (hinit : ∀ f i v, IsEdge (graphOf vgs hist).allScopes f i v → ∃ s < v.n, -100000 ≤ readMsgs (graphOf vgs hist).allScopes a.ftovMsgs f i s) {η : ℝ} (hpos : ∀ v ∈ graphVars vgs, 0 < v.n)
    (hη : ∀ f i v s, IsEdge (graphOf vgs hist).allScopes f i v → s < v.n →
      |(readMsgs (graphOf vgs hist).allScopes (bp.runBP env a (n + 1) d).ftovMsgs) f i s - (readMsgs (graphOf vgs hist).allScopes (bp.runBP env a n d).ftovMsgs) f i s| ≤ η)
    (hclip : ∀ f i v s, IsEdge (graphOf vgs hist).allScopes f i v → s < v.n → -1000 < (readMsgs (graphOf vgs hist).allScopes (bp.runBP env a (n + 1) d).ftovMsgs) f i s)
    (P : Nat → Nat → ℝ) (hP : P = rowDist T ((graphOf vgs hist).factors a.logPotentials) (readEv st.varsToStarts a.evidence) (readMsgs (graphOf vgs hist).allScopes (bp.runBP env a n d).ftovMsgs))
    (b : Var → Nat → ℝ) (hb : b = stateDist T ((graphOf vgs hist).factors a.logPotentials) (readEv st.varsToStarts a.evidence) (readMsgs (graphOf vgs hist).allScopes (bp.runBP env a n d).ftovMsgs)) :
    (∀ v ∈ graphVars vgs, ∑ s ∈ Finset.range v.n, b v s = 1) ∧
    (∀ f F, ((graphOf vgs hist).factors a.logPotentials)[f]? = some F → ∑ k ∈ Finset.range F.rows.length, P f k = 1) ∧
    ∀ f F i v, ((graphOf vgs hist).factors a.logPotentials)[f]? = some F → F.scope[i]? = some v → ∀ s < v.n,
      b v s * Real.exp (-restGap (graphOf vgs hist).tables.length T d η f) ≤ ∑ k ∈ F.placesAt i s, P f k ∧
        ∑ k ∈ F.placesAt i s, P f k ≤ b v s * Real.exp (restGap (graphOf vgs hist).tables.length T d η f) := by
  subst hP hb
  have hsc := (graphOf vgs hist).factors_scopes a.logPotentials
  have he : ∀ {f : Nat} {F : SFac ℝ} {i : Nat} {v : Var}, ((graphOf vgs hist).factors a.logPotentials)[f]? = some F → F.scope[i]? = some v → IsEdge (graphOf vgs hist).allScopes f i v :=
    fun {f F i v} hF hi => ⟨F.scope, by rw [← hsc, List.getElem?_map, hF]; rfl, hi⟩
  have hget : ∀ {f F}, ((graphOf vgs hist).factors a.logPotentials)[f]? = some F → ((graphOf vgs hist).factors a.logPotentials).getD f ⟨[], []⟩ = F := by
    intro f F hF
    rw [List.getD, hF]
    rfl
  have key : ∀ (f : Nat) (F : SFac ℝ) (i : Nat) (v : Var), ((graphOf vgs hist).factors a.logPotentials)[f]? = some F → F.scope[i]? = some v → ∀ s < v.n, _ := fun f F i v hF hi s hs =>
    C83 h hT hbp env hexp hlog hfit a n hd hlp hev hm hmod hinit f F i v hF hi (fun s hs => hη f i v s (he hF hi) hs) (fun s hs => hclip f i v s (he hF hi) hs) hs
  refine ⟨fun v hv => gibbs_total _ (hpos v hv), fun f F hF => ?_, fun f F i v hF hi s hs => ?_⟩
  · unfold rowDist
    rw [hget hF]
    refine sum_rowProb T F _ fun hne => ?_
    have hsne : F.scope ≠ [] := h.scopes_ne _ (by rw [← hsc]; exact List.mem_map.2 ⟨F, List.mem_of_getElem? hF, rfl⟩)
    have hi := List.getElem?_eq_getElem (List.length_pos_iff.2 hsne)
    have hv := hpos _ (h.factors_vars a.logPotentials F (List.mem_of_getElem? hF) _ (List.mem_of_getElem? hi))
    have h1 := (key f F 0 _ hF hi 0 hv).1
    have h2 : F.prob T (tbIn ((graphOf vgs hist).factors a.logPotentials) (readEv st.varsToStarts a.evidence) (readMsgs (graphOf vgs hist).allScopes (bp.runBP env a n d).ftovMsgs) f F) 0 0 = 0 := by
      unfold SFac.prob SFac.rowsAt
      rw [hne]
      simp
    rw [h2] at h1
    exact absurd h1 (not_le.2 (mul_pos (gibbs_pos _ hv) (Real.exp_pos _)))
  · unfold rowDist stateDist
    rw [hget hF, sum_placesAt, hsc]
    exact key f F i v hF hi s hs

/-- **C105, exact rest.** Without enumeration factors, messages that are not clipped and do not change give consistent distributions: a stationary point of the Bethe free energy, with value `- T betheLogTotal`. -/
theorem C105_fixed (h : Compiled vgs hist garbage st) {state : BPState ℝ} {bp : BPFun κ ℝ} {T : ℝ} (hT : 0 < T) (hbp : BP.create st state T = .ok bp)
    (env : Env ℝ) (hexp : env.exp = Real.exp) (hlog : env.log = Real.log) (hfit : Fits env (graphOf vgs hist) T) (a : BPArrays ℝ) (n : Nat) {d : ℝ} (hd : d < 1)
    (hlp : a.logPotentials.length = st.logPotentials.length) (hev : a.evidence.length = st.numVarStates) (hm : a.ftovMsgs.length = st.totalFactorNumStates)
    (hmod : Moderate (graphOf vgs hist) a.logPotentials (readEv st.varsToStarts a.evidence) d)
    (hinit : ∀ f i v, IsEdge (graphOf vgs hist).allScopes f i v → ∃ s < v.n, -100000 ≤ readMsgs (graphOf vgs hist).allScopes a.ftovMsgs f i s) (hpos : ∀ v ∈ graphVars vgs, 0 < v.n)
    (hen : (graphOf vgs hist).tables.length = 0)
    (hrest : ∀ f i v s, IsEdge (graphOf vgs hist).allScopes f i v → s < v.n →
      (readMsgs (graphOf vgs hist).allScopes (bp.runBP env a (n + 1) d).ftovMsgs) f i s = (readMsgs (graphOf vgs hist).allScopes (bp.runBP env a n d).ftovMsgs) f i s)
    (hclip : ∀ f i v s, IsEdge (graphOf vgs hist).allScopes f i v → s < v.n → -1000 < (readMsgs (graphOf vgs hist).allScopes (bp.runBP env a (n + 1) d).ftovMsgs) f i s)
    (P : Nat → Nat → ℝ) (hP : P = rowDist T ((graphOf vgs hist).factors a.logPotentials) (readEv st.varsToStarts a.evidence) (readMsgs (graphOf vgs hist).allScopes (bp.runBP env a n d).ftovMsgs))
    (b : Var → Nat → ℝ) (hb : b = stateDist T ((graphOf vgs hist).factors a.logPotentials) (readEv st.varsToStarts a.evidence) (readMsgs (graphOf vgs hist).allScopes (bp.runBP env a n d).ftovMsgs)) :
    LocallyConsistent (graphVars vgs) ((graphOf vgs hist).factors a.logPotentials) 1 P b ∧
    betheEnergy T (graphVars vgs) ((graphOf vgs hist).factors a.logPotentials) (readEv st.varsToStarts a.evidence) P b =
      - T * betheLogTotal T (graphVars vgs) ((graphOf vgs hist).factors a.logPotentials) (readEv st.varsToStarts a.evidence) (readMsgs (graphOf vgs hist).allScopes (bp.runBP env a n d).ftovMsgs) ∧
    ∀ P' b', LocallyConsistent (graphVars vgs) ((graphOf vgs hist).factors a.logPotentials) 0 P' b' →
      HasDerivAt (fun t : ℝ => betheEnergy T (graphVars vgs) ((graphOf vgs hist).factors a.logPotentials) (readEv st.varsToStarts a.evidence) (fun f k => P f k + t * P' f k) (fun v s => b v s + t * b' v s)) 0 0 := by
  obtain ⟨h1, h2, h3⟩ := C105_rest h hT hbp env hexp hlog hfit a n hd hlp hev hm hmod hinit hpos (η := 0)
    (fun f i v s he hs => by rw [hrest f i v s he hs, sub_self, abs_zero]) hclip P hP b hb
  have hC : LocallyConsistent (graphVars vgs) ((graphOf vgs hist).factors a.logPotentials) 1 P b := by
    refine ⟨h1, h2, fun f F i v hF hi s hs => ?_⟩
    have := h3 f F i v hF hi s hs
    have h0 : restGap (graphOf vgs hist).tables.length T d 0 f = 0 := by
      unfold restGap
      rw [hen, if_neg (Nat.not_lt_zero f)]
      simp
    rw [h0, neg_zero, Real.exp_zero, mul_one] at this
    exact le_antisymm this.2 this.1
  subst hP hb
  exact ⟨hC, C105_value h hT _ _ _ hC, fun P' b' hC' => C105_stationary h hT _ _ _ hC'⟩

/-! ## Non-vacuity -/

/-- After one iteration on the graph of an OR factor, belief propagation is at a stationary point of the Bethe free energy; and there are directions to go. -/
example {env : Env ℝ} (hexp : env.exp = Real.exp) (hlog : env.log = Real.log) (hw : env.wrapNeg = false) (m : Msgs ℝ)
    (hm : m = readMsgs (graphOf exVars exHistO).allScopes ((exBPO 1).runBP env ⟨[], List.replicate 6 0, exEvT⟩ 1 0).ftovMsgs) :
    LocallyConsistent (graphVars exVars) [exFacO] 1 (rowDist 1 [exFacO] (readEv exStateO.varsToStarts exEvT) m) (stateDist 1 [exFacO] (readEv exStateO.varsToStarts exEvT) m) ∧
    LocallyConsistent (graphVars exVars) [exFacO] 0 (fun _ k => if k = 0 then 1 else if k = 3 then -1 else 0) (fun _ s => if s = 0 then 1 else -1) := by
  have hfit : Fits env (graphOf exVars exHistO) (1 : ℝ) := ⟨.inl hw, fun h => absurd h one_ne_zero⟩
  have hn : ∀ v ∈ graphVars exVars, v.n = 2 := by decide +kernel
  obtain ⟨hinit, hsame, hlow⟩ := exRestO hexp hlog hw
  constructor
  · refine (C105_fixed exStateO_compiled one_pos (exBPO_create 1) env hexp hlog hfit ⟨[], List.replicate 6 0, exEvT⟩ 1 (d := 0) one_pos rfl rfl rfl exModerateO hinit
      (fun v hv => by rw [hn v hv]; decide) rfl ?_ ?_ _ (by rw [exFactorsO, hm]) _ (by rw [exFactorsO, hm])).1
    · intro f i v s he hs
      obtain ⟨rfl, -, -, hi⟩ := exEdgeO he
      exact hsame i v hi s hs
    · intro f i v s he hs
      obtain ⟨rfl, -, -, hi⟩ := exEdgeO he
      exact hlow i v hi s hs
  · refine ⟨fun v hv => ?_, fun f F hF => ?_, fun f F i v hF hi s hs => ?_⟩
    · rw [hn v hv]
      simp [Finset.sum_range_succ]
    · match f, hF with
      | 0, hF =>
        cases hF
        rw [exRowsO]
        simp [Finset.sum_range_succ]
    · match f, hF with
      | 0, hF =>
        cases hF
        obtain ⟨-, hi3, rfl, -⟩ := exEdgeO (f := 0) ⟨_, rfl, hi⟩
        have hs : s < 2 := hs
        unfold SFac.placesAt
        rw [exRowsO, Finset.sum_filter]
        interval_cases i <;> interval_cases s <;> simp [Finset.sum_range_succ]

end PGMax
