import Verif.Spec.Independent
import Verif.Props.C55
import Verif.Props.C63
import Verif.Props.C84

/-! # C104: models with independent variables are solved by one iteration, on graphs with loops too -/

namespace PGMax

section
variable {α : Type _} [Field α] [LinearOrder α] [IsStrictOrderedRing α]

omit [IsStrictOrderedRing α] in
/-- **C104, model.** In an independent model every assignment is a joint assignment, and its score is a constant plus the sum of the local scores of its states. -/
theorem C104_model {factors : List (SFac α)} {vars : Finset Var} (hvars : ∀ F ∈ factors, ∀ v ∈ F.scope, v ∈ vars) {g : Msgs α} (hg : Independent g factors) :
    ∃ K, ∀ (ev : Var → Nat → α) (x : Var → Nat), (∀ v ∈ vars, x v < v.n) → (∃ ρ, Joint vars factors x ρ) ∧
      ∀ ρ, Joint vars factors x ρ → jointScore vars factors ev x ρ = K + ∑ v ∈ vars, localScore (factors.map (·.scope)) ev g v (x v) := by
  have hk : ∀ f : Nat, ∃ k, ∀ F : SFac α, factors[f]? = some F → ∀ r ∈ F.rows, r.2 = k + termsOf F.scope.length (g f) r.1 := by
    intro f
    cases hf : factors[f]? with
    | none => exact ⟨0, fun F hF => by cases hF⟩
    | some F =>
      obtain ⟨-, -, ⟨k, hk⟩, -⟩ := hg f F hf
      exact ⟨k, fun F' hF' => by cases hF'; exact hk⟩
  choose k hk using hk
  have hvars' : ∀ vs ∈ factors.map (·.scope), ∀ v ∈ vs, v ∈ vars := by
    intro vs hvs v hv
    obtain ⟨F, hF, rfl⟩ := List.mem_map.1 hvs
    exact hvars F hF v hv
  refine ⟨∑ f ∈ Finset.range factors.length, k f, fun ev x hx => ⟨?_, fun ρ hρ => ?_⟩⟩
  · have hrow : ∀ f : Nat, ∃ r : List Nat × α, ∀ F : SFac α, factors[f]? = some F → r ∈ F.rows ∧ r.1 = F.scope.map x := by
      intro f
      cases hf : factors[f]? with
      | none => exact ⟨([], 0), fun F hF => by cases hF⟩
      | some F =>
        obtain ⟨⟨-, hall⟩, -, -, -⟩ := hg f F hf
        obtain ⟨y, hy⟩ := hall (F.scope.map x) (by
          rw [List.forall₂_map_left_iff, List.forall₂_same]
          exact fun v hv => hx v (hvars F (List.mem_of_getElem? hf) v hv))
        exact ⟨_, fun F' hF' => by cases hF'; exact ⟨hy, rfl⟩⟩
    choose ρ hρ using hrow
    exact ⟨ρ, hx, fun f F hF => hρ f F hF⟩
  · unfold jointScore localScore
    rw [Finset.sum_add_distrib, sum_by_factors _ vars hvars' (fun f i v => g f i (x v)), List.length_map]
    have e2 : ∀ f ∈ Finset.range factors.length, (ρ f).2 = k f +
        ∑ i ∈ Finset.range ((factors.map (·.scope)).getD f []).length, g f i (x (((factors.map (·.scope)).getD f []).getD i ⟨0, 0⟩)) := by
      intro f hf
      obtain ⟨F, hF⟩ : ∃ F, factors[f]? = some F := ⟨_, List.getElem?_eq_getElem (Finset.mem_range.1 hf)⟩
      have h2 : (factors.map (·.scope)).getD f [] = F.scope := by rw [List.getD, List.getElem?_map, hF]; rfl
      obtain ⟨h3, h4⟩ := hρ.rows f F hF
      rw [h2, hk f F hF _ h3, h4]
      congr 1
      refine Finset.sum_congr rfl fun i hi => ?_
      have hi := Finset.mem_range.1 hi
      rw [List.getD_eq_getElem _ _ hi, List.getD, List.getElem?_map, List.getElem?_eq_getElem hi]
      rfl
    rw [Finset.sum_congr rfl e2, Finset.sum_add_distrib]
    ring

omit [LinearOrder α] [IsStrictOrderedRing α] in
theorem belief_of_terms {scopes : List (List Var)} {m m0 g : Msgs α} {p q : α} {v : Var}
    (hm : ∀ f i, IsEdge scopes f i v → ∃ C, ∀ s < v.n, m f i s = p * m0 f i s + q * g f i s + C) (ev : Var → Nat → α) :
    ∃ C, ∀ s < v.n, beliefOf scopes ev m v s = ev v s + q * ((edgesOf scopes v).map (fun e => g e.1 e.2 s)).sum + p * ((edgesOf scopes v).map (fun e => m0 e.1 e.2 s)).sum + C := by
  unfold beliefOf
  have key : ∀ l : List (Nat × Nat), (∀ e ∈ l, IsEdge scopes e.1 e.2 v) → ∃ C, ∀ s < v.n, (l.map (fun e => m e.1 e.2 s)).sum =
      q * (l.map (fun e => g e.1 e.2 s)).sum + p * (l.map (fun e => m0 e.1 e.2 s)).sum + C := by
    intro l
    induction l with
    | nil => exact fun _ => ⟨0, fun s _ => by simp⟩
    | cons e l ih =>
      intro hl
      obtain ⟨C, hC⟩ := ih fun e' he' => hl e' (by simp [he'])
      obtain ⟨c, hc⟩ := hm e.1 e.2 (hl e (by simp))
      refine ⟨C + c, fun s hs => ?_⟩
      simp only [List.map_cons, List.sum_cons]
      rw [hC s hs, hc s hs]
      ring
  obtain ⟨C, hC⟩ := key (edgesOf scopes v) fun e he => (mem_edgesOf scopes v e.1 e.2).1 he
  refine ⟨C, fun s hs => ?_⟩
  rw [hC s hs]
  ring

end

section
variable {κ α : Type _} [Field α] [LinearOrder α] [IsStrictOrderedRing α] {vgs : List (VGroup κ)} {hist : List (AddArg α)} {garbage : Garbage} {st : FGState κ α}

/-- The edges of a variable, with their factors. -/
theorem FactorGraph.edge_factor (fg : FactorGraph κ α) (lp : List α) {f i : Nat} {v : Var} (he : IsEdge fg.allScopes f i v) : ∃ F, (fg.factors lp)[f]? = some F ∧ F.scope[i]? = some v := by
  obtain ⟨vs, h1, h2⟩ := he
  rw [← fg.factors_scopes lp, List.getElem?_map, Option.map_eq_some_iff] at h1
  obtain ⟨F, hF, rfl⟩ := h1
  exact ⟨F, hF, h2⟩

/-- **C104, partial.** On any graph whose model is independent, the beliefs after `n` iterations at temperature 0 with damping `d` are, up to a constant for every variable, the evidence plus `1 - d ^ n` times the terms of the
factors, plus `d ^ n` times the initial messages.
Missing: as in C37, sizes and numbers for which -100000 does not act as minus infinity. -/
theorem C104_partial (h : Compiled vgs hist garbage st) {state : BPState α} {bp : BPFun κ α} (hbp : BP.create st state 0 = .ok bp) (env : Env α)
    (hfit : Fits env (graphOf vgs hist) (0 : α)) (a : BPArrays α) (n : Nat) (d : α)
    (hlp : a.logPotentials.length = st.logPotentials.length) (hev : a.evidence.length = st.numVarStates) (hm : a.ftovMsgs.length = st.totalFactorNumStates)
    (hmod : Moderate (graphOf vgs hist) a.logPotentials (readEv st.varsToStarts a.evidence) d) (hlmod : LogicalModerate (graphOf vgs hist) (readEv st.varsToStarts a.evidence))
    (hinit : ∀ f i v, IsEdge (graphOf vgs hist).allScopes f i v → ∃ s < v.n, -100000 ≤ readMsgs (graphOf vgs hist).allScopes a.ftovMsgs f i s)
    (g : Msgs α) (hg : Independent g ((graphOf vgs hist).factors a.logPotentials)) (v : Var) (start : Nat) (hv : st.varsToStarts v = some start) :
    ∃ C, ∀ s < v.n, (bp.flatBeliefs (bp.runBP env a n d))[start + s]? = some (readEv st.varsToStarts a.evidence v s +
      (1 - d ^ n) * ((edgesOf (graphOf vgs hist).allScopes v).map (fun e => g e.1 e.2 s)).sum +
      d ^ n * ((edgesOf (graphOf vgs hist).allScopes v).map (fun e => readMsgs (graphOf vgs hist).allScopes (bp.runBP env a 0 d).ftovMsgs e.1 e.2 s)).sum + C) := by
  have hl := (h.run_read hbp env hfit a d hlp hev n hm).1
  obtain ⟨C, hC⟩ := belief_of_terms (fun f i he => by
    obtain ⟨F, hF, hi⟩ := (graphOf vgs hist).edge_factor a.logPotentials he
    obtain ⟨h1, h2, h3, h4⟩ := hg f F hF
    exact C84_separable_partial h hbp env hfit a n d hlp hev hm hmod hlmod hinit f F hF h1 h2 (g f) h3 i v hi (h4 i v hi)) (readEv st.varsToStarts a.evidence)
  refine ⟨C, fun s hs => ?_⟩
  rw [C34_flat h hbp _ hl hev v start hv s hs, ← hC s hs]
  rfl

/-- **C104, decoding, partial.** Without damping, the states decoded after any number `n ≥ 1` of iterations at temperature 0 are a MAP assignment.
Missing: as in `C104_partial`. -/
theorem C104_map_partial [DecidableEq κ] (h : Compiled vgs hist garbage st) {state : BPState α} {bp : BPFun κ α} (hbp : BP.create st state 0 = .ok bp) (env : Env α)
    (hfit : Fits env (graphOf vgs hist) (0 : α)) (a : BPArrays α) {n : Nat} (hn : n ≠ 0)
    (hlp : a.logPotentials.length = st.logPotentials.length) (hev : a.evidence.length = st.numVarStates) (hm : a.ftovMsgs.length = st.totalFactorNumStates)
    (hmod : Moderate (graphOf vgs hist) a.logPotentials (readEv st.varsToStarts a.evidence) 0) (hlmod : LogicalModerate (graphOf vgs hist) (readEv st.varsToStarts a.evidence))
    (hinit : ∀ f i v, IsEdge (graphOf vgs hist).allScopes f i v → ∃ s < v.n, -100000 ≤ readMsgs (graphOf vgs hist).allScopes a.ftovMsgs f i s)
    (g : Msgs α) (hg : Independent g ((graphOf vgs hist).factors a.logPotentials)) (hreg : ∀ g ∈ vgs, g.Regular) (hst : ∀ g ∈ vgs, g.Stated) (hpos : ∀ v ∈ graphVars vgs, 0 < v.n) :
    ∃ bs rs x ρ, bp.getBeliefs (bp.runBP env a n 0) = .ok bs ∧ decodeMapStates bs = .ok rs ∧ rs.map (·.1) = vgs ∧ (∀ p ∈ rs, ∀ v ∈ p.1.variables, p.1.StateIn v (x v) p.2) ∧
      IsMAP (graphVars vgs) ((graphOf vgs hist).factors a.logPotentials) (readEv st.varsToStarts a.evidence) x ρ := by
  have hl := (h.run_read hbp env hfit a 0 hlp hev n hm).1
  have hsc := (graphOf vgs hist).factors_scopes a.logPotentials
  have hx : ∀ v, ∃ t, v ∈ graphVars vgs → IsFirstMax (beliefOf (graphOf vgs hist).allScopes (readEv st.varsToStarts a.evidence)
      (readMsgs (graphOf vgs hist).allScopes (bp.runBP env a n 0).ftovMsgs) v) v.n t := fun v => ⟨_, fun hv => argmax_range _ v.n (hpos v hv)⟩
  choose x hx using hx
  obtain ⟨bs, rs, e1, e2, e3, e4⟩ := h.decode_states hbp (bp.runBP env a n 0) hl hev hreg hst (fun v hv => hx v hv)
  have hvars : ∀ F ∈ (graphOf vgs hist).factors a.logPotentials, ∀ v ∈ F.scope, v ∈ graphVars vgs := by
    intro F hF v hv
    exact h.scopes_vars F.scope (by rw [← hsc]; exact List.mem_map.2 ⟨F, hF, rfl⟩) v hv
  obtain ⟨K, hK⟩ := C104_model hvars hg
  obtain ⟨⟨ρ, hρ⟩, hs⟩ := hK (readEv st.varsToStarts a.evidence) x (fun v hv => (hx v hv).1)
  refine ⟨bs, rs, x, ρ, e1, e2, e3, e4, hρ, fun x' ρ' hρ' => ?_⟩
  rw [hs ρ hρ, (hK (readEv st.varsToStarts a.evidence) x' hρ'.states).2 ρ' hρ']
  refine add_le_add le_rfl (Finset.sum_le_sum fun v hv => ?_)
  obtain ⟨C, hC⟩ := belief_of_terms (v := v) (fun f i he => by
    obtain ⟨F, hF, hi⟩ := (graphOf vgs hist).edge_factor a.logPotentials he
    obtain ⟨h1, h2, h3, h4⟩ := hg f F hF
    exact C84_separable_partial h hbp env hfit a n 0 hlp hev hm hmod hlmod hinit f F hF h1 h2 (g f) h3 i v hi (h4 i v hi)) (readEv st.varsToStarts a.evidence)
  have hle := (hx v hv).2.1 (x' v) (hρ'.states v hv)
  rw [hC _ (hρ'.states v hv), hC _ (hx v hv).1, zero_pow hn] at hle
  unfold localScore
  rw [hsc]
  linarith

end

/-! ### Marginals -/

section

/-- A complete table has one configuration with the states `x`. -/
theorem SFac.Complete.weight {F : SFac ℝ} (hF : F.Complete) (T : ℝ) {x : Var → Nat} {r : List Nat × ℝ} (hr : r ∈ F.rows) (hx : r.1 = F.scope.map x) : F.weight T x = Real.exp (r.2 / T) := by
  unfold SFac.weight
  have hnd := hF.1
  have e : F.rows.filter (fun r => r.1 = F.scope.map x) = [r] := by
    refine List.perm_singleton.1 ((List.perm_ext_iff_of_nodup ((List.Nodup.of_map _ hnd).filter _) (List.nodup_singleton r)).2 fun y => ?_)
    rw [List.mem_filter, List.mem_singleton]
    constructor
    · rintro ⟨h1, h2⟩
      exact List.inj_on_of_nodup_map hnd h1 hr ((of_decide_eq_true h2).trans hx.symm)
    · rintro rfl
      exact ⟨hr, decide_eq_true hx⟩
  rw [e]
  simp

theorem prod_exp_list (factors : List (SFac ℝ)) (T : ℝ) (hc : ∀ F ∈ factors, F.Complete) {x : Var → Nat} {ρ : Nat → List Nat × ℝ} (hρ : ∀ f F, factors[f]? = some F → ρ f ∈ F.rows ∧ (ρ f).1 = F.scope.map x) :
    (factors.map (fun F => F.weight T x)).prod = Real.exp ((∑ f ∈ Finset.range factors.length, (ρ f).2) / T) := by
  induction factors using List.reverseRecOn with
  | nil => simp
  | append_singleton l F ih =>
    have hF := hρ l.length F (by simp)
    rw [List.map_append, List.prod_append, ih (fun F hF => hc F (by simp [hF])) (fun f G hG => hρ f G (by
      rw [List.getElem?_append_left (List.getElem?_eq_some_iff.1 hG).1]; exact hG)), List.map_singleton, List.prod_singleton,
      (hc F (by simp)).weight T hF.1 hF.2, ← Real.exp_add, List.length_append, List.length_singleton, Finset.sum_range_succ, add_div]

/-- The weight of an assignment is the exponential of its score. -/
theorem jointWeight_joint {factors : List (SFac ℝ)} {vars : Finset Var} (T : ℝ) (hc : ∀ F ∈ factors, F.Complete) (ev : Var → Nat → ℝ) {x : Var → Nat} {ρ : Nat → List Nat × ℝ} (hρ : Joint vars factors x ρ) :
    jointWeight T vars factors ev x = Real.exp (jointScore vars factors ev x ρ / T) := by
  unfold jointWeight jointScore
  rw [prod_exp_list factors T hc hρ.rows, ← Real.exp_add, add_div]

/-- **C104, marginals of the model.** In an independent model the probability of a state is proportional to the exponential of its local score. -/
theorem C104_probability {factors : List (SFac ℝ)} {vars : Finset Var} (hvars : ∀ F ∈ factors, ∀ v ∈ F.scope, v ∈ vars) {g : Msgs ℝ} (hg : Independent g factors) (ev : Var → Nat → ℝ) {v : Var} (hv : v ∈ vars)
    (hpos : ∀ v ∈ vars, 0 < v.n) :
    0 < totalWeight 1 vars factors ev ∧ ∀ s < v.n, gibbs (localScore (factors.map (·.scope)) ev g v) v.n s = stateWeight 1 vars factors ev v s / totalWeight 1 vars factors ev := by
  classical
  obtain ⟨K, hK⟩ := C104_model hvars hg
  have hc : ∀ F ∈ factors, F.Complete := by
    intro F hF
    obtain ⟨f, hf⟩ := List.mem_iff_getElem?.1 hF
    exact (hg f F hf).1
  generalize hl : localScore (factors.map (·.scope)) ev g = l at *
  have hw : ∀ x, (∀ v ∈ vars, x v < v.n) → jointWeight 1 vars factors ev x = Real.exp (l v (x v)) * Real.exp (K + ∑ w ∈ vars.erase v, l w (x w)) := by
    intro x hx
    obtain ⟨⟨ρ, hρ⟩, h2⟩ := hK ev x hx
    rw [jointWeight_joint 1 hc ev hρ, h2 ρ hρ, hl, div_one, ← Real.exp_add, ← Finset.add_sum_erase _ _ hv]
    congr 1
    ring
  -- the assignments with a given state, without that state
  have hmove : ∀ s < v.n, stateWeight 1 vars factors ev v s = Real.exp (l v s) * ∑ x ∈ assignments vars (fun _ => 0) with x v = 0, Real.exp (K + ∑ w ∈ vars.erase v, l w (x w)) := by
    intro s hs
    unfold stateWeight
    rw [Finset.mul_sum]
    have hup : ∀ (x : Var → Nat) t, t < v.n → x ∈ assignments vars (fun _ => 0) → Function.update x v t ∈ assignments vars (fun _ => 0) := by
      intro x t ht hx
      obtain ⟨h1, h2⟩ := mem_assignments.1 hx
      refine mem_assignments.2 ⟨fun w hw => ?_, fun w hw => ?_⟩
      · by_cases e : w = v
        · subst e; rw [Function.update_self]; exact ht
        · rw [Function.update_of_ne e]; exact h1 w hw
      · rw [Function.update_of_ne (fun e => hw (by rw [e]; exact hv))]
        exact h2 w hw
    refine Finset.sum_bij' (fun x _ => Function.update x v 0) (fun x _ => Function.update x v s) ?_ ?_ ?_ ?_ ?_
    · intro x hx
      exact Finset.mem_filter.2 ⟨hup x 0 (hpos v hv) (Finset.mem_filter.1 hx).1, Function.update_self _ _ _⟩
    · intro x hx
      exact Finset.mem_filter.2 ⟨hup x s hs (Finset.mem_filter.1 hx).1, Function.update_self _ _ _⟩
    · intro x hx
      obtain ⟨-, h2⟩ := Finset.mem_filter.1 hx
      rw [Function.update_idem, ← h2, Function.update_eq_self]
    · intro x hx
      obtain ⟨-, h2⟩ := Finset.mem_filter.1 hx
      rw [Function.update_idem, ← h2, Function.update_eq_self]
    · intro x hx
      obtain ⟨h1, h2⟩ := Finset.mem_filter.1 hx
      rw [hw x (mem_assignments.1 h1).1, h2]
      congr 3
      refine Finset.sum_congr rfl fun w hw => ?_
      rw [Function.update_of_ne (Finset.ne_of_mem_erase hw)]
  have hR : 0 < ∑ x ∈ assignments vars (fun _ => 0) with x v = 0, Real.exp (K + ∑ w ∈ vars.erase v, l w (x w)) := by
    refine Finset.sum_pos (fun _ _ => Real.exp_pos _) ⟨fun _ => 0, Finset.mem_filter.2 ⟨mem_assignments.2 ⟨fun w hw => hpos w hw, fun _ _ => rfl⟩, rfl⟩⟩
  generalize (∑ x ∈ assignments vars (fun _ => 0) with x v = 0, Real.exp (K + ∑ w ∈ vars.erase v, l w (x w))) = R at hmove hR
  have htot : totalWeight 1 vars factors ev = ((List.range v.n).map (fun t => Real.exp (l v t))).sum * R := by
    rw [← sum_stateWeight 1 factors ev hv, Finset.sum_congr rfl (fun s hs => hmove s (Finset.mem_range.1 hs)), ← Finset.sum_mul]
    congr 1
  have hpos' := sum_exp_pos (l v) v.n (hpos v hv)
  refine ⟨by rw [htot]; positivity, fun s hs => ?_⟩
  rw [htot, hmove s hs, mul_div_mul_right _ _ hR.ne']
  rfl

variable {κ : Type _} {vgs : List (VGroup κ)} {hist : List (AddArg ℝ)} {garbage : Garbage} {st : FGState κ ℝ}

/-- The messages at any temperature. -/
theorem separable_any (h : Compiled vgs hist garbage st) {state : BPState ℝ} {bp : BPFun κ ℝ} {T : ℝ} (hbp : BP.create st state T = .ok bp) (env : Env ℝ)
    (hT : (T = 0 ∧ ∀ ev, LogicalModerate (graphOf vgs hist) ev) ∨ (0 < T ∧ env.exp = Real.exp ∧ env.log = Real.log)) (hfit : Fits env (graphOf vgs hist) T) (a : BPArrays ℝ) (n : Nat) (d : ℝ)
    (hlp : a.logPotentials.length = st.logPotentials.length) (hev : a.evidence.length = st.numVarStates) (hm : a.ftovMsgs.length = st.totalFactorNumStates)
    (hmod : Moderate (graphOf vgs hist) a.logPotentials (readEv st.varsToStarts a.evidence) d)
    (hinit : ∀ f i v, IsEdge (graphOf vgs hist).allScopes f i v → ∃ s < v.n, -100000 ≤ readMsgs (graphOf vgs hist).allScopes a.ftovMsgs f i s)
    {g : Msgs ℝ} (hg : Independent g ((graphOf vgs hist).factors a.logPotentials)) (v : Var) :
    ∃ C, ∀ s < v.n, beliefOf (graphOf vgs hist).allScopes (readEv st.varsToStarts a.evidence) (readMsgs (graphOf vgs hist).allScopes (bp.runBP env a n d).ftovMsgs) v s =
      readEv st.varsToStarts a.evidence v s + (1 - d ^ n) * ((edgesOf (graphOf vgs hist).allScopes v).map (fun e => g e.1 e.2 s)).sum +
      d ^ n * ((edgesOf (graphOf vgs hist).allScopes v).map (fun e => readMsgs (graphOf vgs hist).allScopes (bp.runBP env a 0 d).ftovMsgs e.1 e.2 s)).sum + C := by
  refine belief_of_terms (fun f i he => ?_) _
  obtain ⟨F, hF, hi⟩ := (graphOf vgs hist).edge_factor a.logPotentials he
  obtain ⟨h1, h2, h3, h4⟩ := hg f F hF
  rcases hT with ⟨rfl, hl⟩ | ⟨hT, hexp, hlog⟩
  · exact C84_separable_partial h hbp env hfit a n d hlp hev hm hmod (hl _) hinit f F hF h1 h2 (g f) h3 i v hi (h4 i v hi)
  · exact C84_separable_sum_partial h hT hbp env hexp hlog hfit a n d hlp hev hm hmod hinit f F hF h1 h2 (g f) h3 i v hi (h4 i v hi)

/-- **C104, any temperature, partial.** As `C104_partial`, over the reals and at any temperature: the beliefs do not depend on it.
Missing: as in `C104_partial`. -/
theorem C104_sum_partial (h : Compiled vgs hist garbage st) {state : BPState ℝ} {bp : BPFun κ ℝ} {T : ℝ} (hbp : BP.create st state T = .ok bp) (env : Env ℝ)
    (hT : (T = 0 ∧ ∀ ev, LogicalModerate (graphOf vgs hist) ev) ∨ (0 < T ∧ env.exp = Real.exp ∧ env.log = Real.log)) (hfit : Fits env (graphOf vgs hist) T) (a : BPArrays ℝ) (n : Nat) (d : ℝ)
    (hlp : a.logPotentials.length = st.logPotentials.length) (hev : a.evidence.length = st.numVarStates) (hm : a.ftovMsgs.length = st.totalFactorNumStates)
    (hmod : Moderate (graphOf vgs hist) a.logPotentials (readEv st.varsToStarts a.evidence) d)
    (hinit : ∀ f i v, IsEdge (graphOf vgs hist).allScopes f i v → ∃ s < v.n, -100000 ≤ readMsgs (graphOf vgs hist).allScopes a.ftovMsgs f i s)
    (g : Msgs ℝ) (hg : Independent g ((graphOf vgs hist).factors a.logPotentials)) (v : Var) (start : Nat) (hv : st.varsToStarts v = some start) :
    ∃ C, ∀ s < v.n, (bp.flatBeliefs (bp.runBP env a n d))[start + s]? = some (readEv st.varsToStarts a.evidence v s +
      (1 - d ^ n) * ((edgesOf (graphOf vgs hist).allScopes v).map (fun e => g e.1 e.2 s)).sum +
      d ^ n * ((edgesOf (graphOf vgs hist).allScopes v).map (fun e => readMsgs (graphOf vgs hist).allScopes (bp.runBP env a 0 d).ftovMsgs e.1 e.2 s)).sum + C) := by
  have hl := (h.run_read hbp env hfit a d hlp hev n hm).1
  obtain ⟨C, hC⟩ := separable_any h hbp env hT hfit a n d hlp hev hm hmod hinit hg v
  refine ⟨C, fun s hs => ?_⟩
  rw [C34_flat h hbp _ hl hev v start hv s hs, ← hC s hs]
  rfl

/-- **C104, marginals, partial.** On any graph whose model is independent, `get_marginals` after any number `n ≥ 1` of iterations without damping, at any temperature of belief propagation, are the exact marginals of the
distribution that gives assignments probabilities proportional to the exponential of their score.
Missing: as in `C104_partial`. -/
theorem C104_marginals_partial [DecidableEq κ] (h : Compiled vgs hist garbage st) {state : BPState ℝ} {bp : BPFun κ ℝ} {T : ℝ} (hbp : BP.create st state T = .ok bp) (env : Env ℝ)
    (hexp : env.exp = Real.exp) (hlog : env.log = Real.log) (hT : (T = 0 ∧ ∀ ev, LogicalModerate (graphOf vgs hist) ev) ∨ 0 < T) (hfit : Fits env (graphOf vgs hist) T) (a : BPArrays ℝ) {n : Nat} (hn : n ≠ 0)
    (hlp : a.logPotentials.length = st.logPotentials.length) (hev : a.evidence.length = st.numVarStates) (hm : a.ftovMsgs.length = st.totalFactorNumStates)
    (hmod : Moderate (graphOf vgs hist) a.logPotentials (readEv st.varsToStarts a.evidence) 0)
    (hinit : ∀ f i v, IsEdge (graphOf vgs hist).allScopes f i v → ∃ s < v.n, -100000 ≤ readMsgs (graphOf vgs hist).allScopes a.ftovMsgs f i s)
    (g : Msgs ℝ) (hg : Independent g ((graphOf vgs hist).factors a.logPotentials)) (hreg : ∀ g ∈ vgs, g.Regular) (hst : ∀ g ∈ vgs, g.Stated) (hpos : ∀ v ∈ graphVars vgs, 0 < v.n) :
    ∃ bs rs B, bp.getBeliefs (bp.runBP env a n 0) = .ok bs ∧ getMarginals env bs = .ok rs ∧ rs.map (·.1) = vgs ∧ (∀ p ∈ rs, p.1.HasMarginals B p.2) ∧
      ∀ v ∈ graphVars vgs, 0 < totalWeight 1 (graphVars vgs) ((graphOf vgs hist).factors a.logPotentials) (readEv st.varsToStarts a.evidence) ∧
        ∀ s < v.n, gibbs (B v) v.n s = stateWeight 1 (graphVars vgs) ((graphOf vgs hist).factors a.logPotentials) (readEv st.varsToStarts a.evidence) v s /
          totalWeight 1 (graphVars vgs) ((graphOf vgs hist).factors a.logPotentials) (readEv st.varsToStarts a.evidence) := by
  have hl := (h.run_read hbp env hfit a 0 hlp hev n hm).1
  have hsc := (graphOf vgs hist).factors_scopes a.logPotentials
  obtain ⟨bs, rs, e1, e2, e3, e4⟩ := C36_partial h hbp env hexp hlog (bp.runBP env a n 0) hl hev hreg hst
  refine ⟨bs, rs, _, e1, e2, e3, e4, fun v hv => ?_⟩
  have hvars : ∀ F ∈ (graphOf vgs hist).factors a.logPotentials, ∀ v ∈ F.scope, v ∈ graphVars vgs := by
    intro F hF v hv
    exact h.scopes_vars F.scope (by rw [← hsc]; exact List.mem_map.2 ⟨F, hF, rfl⟩) v hv
  obtain ⟨k1, k2⟩ := C104_probability hvars hg (readEv st.varsToStarts a.evidence) hv hpos
  refine ⟨k1, fun s hs => ?_⟩
  rw [← k2 s hs]
  obtain ⟨C, hC⟩ := separable_any h hbp env (hT.imp id fun h => ⟨h, hexp, hlog⟩) hfit a n 0 hlp hev hm hmod hinit hg v
  have e : ∀ t < v.n, beliefOf (graphOf vgs hist).allScopes (readEv st.varsToStarts (bp.runBP env a n 0).evidence) (readMsgs (graphOf vgs hist).allScopes (bp.runBP env a n 0).ftovMsgs) v t =
      localScore (((graphOf vgs hist).factors a.logPotentials).map (·.scope)) (readEv st.varsToStarts a.evidence) g v t + C := by
    intro t ht
    refine (hC t ht).trans ?_
    unfold localScore
    rw [hsc, zero_pow hn]
    ring
  exact gibbs_congr C e (hpos v hv) hs

end

/-! ### Examples -/

/-- Terms of three tables in a loop: 2 and -3 for state 1 of variables 0 and 1 in the first, 1 for state 1 of variable 2 in the second, and -2 for state 1 of variable 2 in the third. -/
def exIndep {α : Type _} [Ring α] : Msgs α := fun f i s =>
  if f = 0 then (if i = 0 then 2 * (s : α) else -3 * (s : α)) else if f = 1 then (if i = 1 then (s : α) else 0) else if i = 0 then -2 * (s : α) else 0

theorem exFactorsIndQ : (graphOf exVars exHistLQ).factors ([-2, -5, 0, -3, 0, 1, 0, 1, 2, 2, 0, 0] : List ℚ) = [⟨[exVar 0, exVar 1], [([0, 0], -2), ([0, 1], -5), ([1, 0], 0), ([1, 1], -3)]⟩,
    ⟨[exVar 1, exVar 2], [([0, 0], 0), ([0, 1], 1), ([1, 0], 0), ([1, 1], 1)]⟩, ⟨[exVar 2, exVar 0], [([0, 0], 2), ([0, 1], 2), ([1, 0], 0), ([1, 1], 0)]⟩] := rfl

theorem exFactorsIndL : (graphOf exVars exHistL).factors ([-2, -5, 0, -3, 0, 1, 0, 1, 2, 2, 0, 0] : List ℝ) = [⟨[exVar 0, exVar 1], [([0, 0], -2), ([0, 1], -5), ([1, 0], 0), ([1, 1], -3)]⟩,
    ⟨[exVar 1, exVar 2], [([0, 0], 0), ([0, 1], 1), ([1, 0], 0), ([1, 1], 1)]⟩, ⟨[exVar 2, exVar 0], [([0, 0], 2), ([0, 1], 2), ([1, 0], 0), ([1, 1], 0)]⟩] := rfl

theorem exIndepQ : Independent exIndep ((graphOf exVars exHistLQ).factors ([-2, -5, 0, -3, 0, 1, 0, 1, 2, 2, 0, 0] : List ℚ)) := by
  intro f F hF
  rw [exFactorsIndQ] at hF
  have hterm : ∀ f, f < 3 → ∀ i < 2, ∀ s < 2, ∀ t < 2, exIndep (α := ℚ) f i s - exIndep f i t ≤ 1000 := by decide +kernel
  have h2 : ∀ (f : Nat) (v w : Var) (i : Nat) (u : Var), f < 3 → v.n = 2 → w.n = 2 → [v, w][i]? = some u → ∀ s < u.n, ∀ t < u.n, exIndep (α := ℚ) f i s - exIndep f i t ≤ 1000 := by
    intro f v w i u hf hv hw hi s hs t ht
    have hi' := (List.getElem?_eq_some_iff.1 hi).1
    have hu : u = v ∨ u = w := by simpa using List.mem_of_getElem? hi
    have hu : u.n = 2 := by rcases hu with rfl | rfl <;> assumption
    exact hterm f hf i hi' s (by omega) t (by omega)
  match f with
  | 0 => cases hF; exact ⟨complete_two _ _ _ _ _ _ rfl rfl, by simp, ⟨-2, by decide +kernel⟩, fun i v hi => h2 0 _ _ i v (by omega) rfl rfl hi⟩
  | 1 => cases hF; exact ⟨complete_two _ _ _ _ _ _ rfl rfl, by simp, ⟨0, by decide +kernel⟩, fun i v hi => h2 1 _ _ i v (by omega) rfl rfl hi⟩
  | 2 => cases hF; exact ⟨complete_two _ _ _ _ _ _ rfl rfl, by simp, ⟨2, by decide +kernel⟩, fun i v hi => h2 2 _ _ i v (by omega) rfl rfl hi⟩
  | n + 3 => simp at hF

theorem exIndepL : Independent exIndep ((graphOf exVars exHistL).factors ([-2, -5, 0, -3, 0, 1, 0, 1, 2, 2, 0, 0] : List ℝ)) := by
  intro f F hF
  rw [exFactorsIndL] at hF
  have h2 : ∀ (f : Nat) (v w : Var) (i : Nat) (u : Var), v.n = 2 → w.n = 2 → [v, w][i]? = some u → ∀ s < u.n, ∀ t < u.n, exIndep (α := ℝ) f i s - exIndep f i t ≤ 1000 := by
    intro f v w i u hv hw hi s hs t ht
    have hu : u = v ∨ u = w := by simpa using List.mem_of_getElem? hi
    have hu : u.n = 2 := by rcases hu with rfl | rfl <;> assumption
    rw [hu] at hs ht
    unfold exIndep
    interval_cases s <;> interval_cases t <;> split_ifs <;> norm_num
  match f with
  | 0 => cases hF; exact ⟨complete_two _ _ _ _ _ _ rfl rfl, by simp, ⟨-2, by simp [termsOf, exIndep, Finset.sum_range_succ]; norm_num⟩, fun i v hi => h2 0 _ _ i v rfl rfl hi⟩
  | 1 => cases hF; exact ⟨complete_two _ _ _ _ _ _ rfl rfl, by simp, ⟨0, by simp [termsOf, exIndep, Finset.sum_range_succ]⟩, fun i v hi => h2 1 _ _ i v rfl rfl hi⟩
  | 2 => cases hF; exact ⟨complete_two _ _ _ _ _ _ rfl rfl, by simp, ⟨2, by simp [termsOf, exIndep, Finset.sum_range_succ]⟩, fun i v hi => h2 2 _ _ i v rfl rfl hi⟩
  | n + 3 => simp at hF

theorem exModerateIndQ {d : ℚ} (hd : 0 ≤ d ∧ d ≤ 1 / 2) : Moderate (graphOf exVars exHistLQ) [-2, -5, 0, -3, 0, 1, 0, 1, 2, 2, 0, 0] (readEv exStateLQ.varsToStarts [3, 0, 0, 1, 2, 0]) d := by
  refine moderate_of_bounds (E := 3) (P := 5) (D := 2) (K := 2) hd ?_ ?_ (by norm_num) ?_ (by norm_num)
  · intro _ _ v s _ _
    unfold readEv List.getD
    cases e : ([3, 0, 0, 1, 2, 0] : List ℚ)[(exStateLQ.varsToStarts v).getD 0 + s]? with
    | none => norm_num
    | some x =>
      have hl : ∀ x ∈ ([3, 0, 0, 1, 2, 0] : List ℚ), |x| ≤ 3 := by decide +kernel
      exact hl x (List.mem_of_getElem? e)
  · intro f i v he
    have hd : ∀ vs ∈ [[exVar 0, exVar 1], [exVar 1, exVar 2], [exVar 2, exVar 0]], ∀ v ∈ vs,
      (edgesOf [[exVar 0, exVar 1], [exVar 1, exVar 2], [exVar 2, exVar 0]] v).length ≤ 2 := by decide +kernel
    obtain ⟨vs, h1, h2⟩ := he
    have e : (graphOf exVars exHistLQ).allScopes = [[exVar 0, exVar 1], [exVar 1, exVar 2], [exVar 2, exVar 0]] := rfl
    rw [e] at h1 ⊢
    exact Nat.cast_le_ofNat.2 (hd vs (List.mem_of_getElem? h1) v (List.mem_of_getElem? h2))
  · have e' : tableFacs (graphOf exVars exHistLQ).tables ([-2, -5, 0, -3, 0, 1, 0, 1, 2, 2, 0, 0] : List ℚ) = (graphOf exVars exHistLQ).factors ([-2, -5, 0, -3, 0, 1, 0, 1, 2, 2, 0, 0] : List ℚ) := rfl
    rw [e', exFactorsIndQ]
    simp only [List.forall_mem_cons]
    norm_num

theorem exModerateIndL : Moderate (graphOf exVars exHistL) [-2, -5, 0, -3, 0, 1, 0, 1, 2, 2, 0, 0] (readEv exStateL.varsToStarts [3, 0, 0, 1, 2, 0]) 0 := by
  refine moderate_of_bounds (E := 3) (P := 5) (D := 2) (K := 2) (by norm_num) ?_ ?_ (by norm_num) ?_ (by norm_num)
  · intro _ _ v s _ _
    unfold readEv List.getD
    cases e : ([3, 0, 0, 1, 2, 0] : List ℝ)[(exStateL.varsToStarts v).getD 0 + s]? with
    | none => norm_num
    | some x =>
      have hl : ∀ x ∈ ([3, 0, 0, 1, 2, 0] : List ℝ), |x| ≤ 3 := by simp only [List.forall_mem_cons]; norm_num
      exact hl x (List.mem_of_getElem? e)
  · intro f i v he
    have hd : ∀ vs ∈ [[exVar 0, exVar 1], [exVar 1, exVar 2], [exVar 2, exVar 0]], ∀ v ∈ vs,
      (edgesOf [[exVar 0, exVar 1], [exVar 1, exVar 2], [exVar 2, exVar 0]] v).length ≤ 2 := by decide +kernel
    obtain ⟨vs, h1, h2⟩ := he
    rw [exScopesL] at h1 ⊢
    exact Nat.cast_le_ofNat.2 (hd vs (List.mem_of_getElem? h1) v (List.mem_of_getElem? h2))
  · have e' : tableFacs (graphOf exVars exHistL).tables ([-2, -5, 0, -3, 0, 1, 0, 1, 2, 2, 0, 0] : List ℝ) = (graphOf exVars exHistL).factors ([-2, -5, 0, -3, 0, 1, 0, 1, 2, 2, 0, 0] : List ℝ) := rfl
    rw [e', exFactorsIndL]
    simp only [List.forall_mem_cons]
    norm_num

theorem exPosInd : ∀ v ∈ graphVars exVars, 0 < v.n := by
  have hV : graphVars exVars = {exVar 0, exVar 1, exVar 2} := rfl
  rw [hV]
  decide +kernel

/-- Non-vacuity of C104 at temperature 0: three tables in a loop, with initial messages that are not zero. -/
example {n : Nat} (hn : n ≠ 0) : ∃ bs rs x ρ, exBPLQ.getBeliefs (exBPLQ.runBP exEnv ⟨[-2, -5, 0, -3, 0, 1, 0, 1, 2, 2, 0, 0], [0, -7, 0, 1, 0, 0, 5, 0, 0, 0, 0, 2], [3, 0, 0, 1, 2, 0]⟩ n 0) = .ok bs ∧ decodeMapStates bs = .ok rs ∧ rs.map (·.1) = exVars ∧
    (∀ p ∈ rs, ∀ v ∈ p.1.variables, p.1.StateIn v (x v) p.2) ∧ IsMAP (graphVars exVars) ((graphOf exVars exHistLQ).factors [-2, -5, 0, -3, 0, 1, 0, 1, 2, 2, 0, 0]) (readEv exStateLQ.varsToStarts [3, 0, 0, 1, 2, 0]) x ρ := by
  refine C104_map_partial exStateLQ_compiled exBPLQ_create exEnv ⟨.inl rfl, fun _ => by decide +kernel⟩ ⟨[-2, -5, 0, -3, 0, 1, 0, 1, 2, 2, 0, 0], [0, -7, 0, 1, 0, 0, 5, 0, 0, 0, 0, 2], [3, 0, 0, 1, 2, 0]⟩ hn rfl rfl rfl (exModerateIndQ (by norm_num)) ?_ ?_ exIndep exIndepQ
    exStatedT.1 exStatedT.2 exPosInd
  · intro f vs hvs hf
    have h1 := (List.getElem?_eq_some_iff.1 hvs).1
    have h2 : (graphOf exVars exHistLQ).allScopes.length = (graphOf exVars exHistLQ).tables.length := rfl
    omega
  · intro f i v he
    obtain ⟨hf, hi, hv⟩ := exEdgesLQ he
    have : ∀ f < 3, ∀ i < 2, -100000 ≤ readMsgs (graphOf exVars exHistLQ).allScopes ([0, -7, 0, 1, 0, 0, 5, 0, 0, 0, 0, 2] : List ℚ) f i 0 := by decide +kernel
    exact ⟨0, by omega, this f hf i hi⟩

/-- With damping 1/2 and zero initial messages, what the tables say about variable 2 (1 and -2 for state 1) enters its beliefs by the fraction `1 - (1 / 2) ^ n`. -/
example (n : Nat) : ∃ C, ∀ s : Nat, s < 2 → (exBPLQ.flatBeliefs (exBPLQ.runBP exEnv ⟨[-2, -5, 0, -3, 0, 1, 0, 1, 2, 2, 0, 0], List.replicate 12 0, [3, 0, 0, 1, 2, 0]⟩ n (1 / 2)))[4 + s]? =
    some ((if s = 0 then 2 else 0) - (1 - (1 / 2) ^ n) * (s : ℚ) + C) := by
  obtain ⟨C, hC⟩ := C104_partial exStateLQ_compiled exBPLQ_create exEnv ⟨.inl rfl, fun _ => by decide +kernel⟩ ⟨[-2, -5, 0, -3, 0, 1, 0, 1, 2, 2, 0, 0], List.replicate 12 0, [3, 0, 0, 1, 2, 0]⟩ n (1 / 2) rfl rfl rfl (exModerateIndQ (by norm_num)) (by
      intro f vs hvs hf
      have h1 := (List.getElem?_eq_some_iff.1 hvs).1
      have h2 : (graphOf exVars exHistLQ).allScopes.length = (graphOf exVars exHistLQ).tables.length := rfl
      omega) (by
      intro f i v he
      obtain ⟨hf, hi, hv⟩ := exEdgesLQ he
      have : ∀ f < 3, ∀ i < 2, -100000 ≤ readMsgs (graphOf exVars exHistLQ).allScopes (List.replicate 12 (0 : ℚ)) f i 0 := by decide +kernel
      exact ⟨0, by omega, this f hf i hi⟩) exIndep exIndepQ (exVar 2) 4 (by decide +kernel)
  refine ⟨C, fun s hs => ?_⟩
  rw [hC s hs]
  have h0 : ∀ s < 2, ((edgesOf (graphOf exVars exHistLQ).allScopes (exVar 2)).map (fun e => readMsgs (graphOf exVars exHistLQ).allScopes
      (exBPLQ.runBP exEnv ⟨[-2, -5, 0, -3, 0, 1, 0, 1, 2, 2, 0, 0], List.replicate 12 0, [3, 0, 0, 1, 2, 0]⟩ 0 (1 / 2)).ftovMsgs e.1 e.2 s)).sum = 0 := by decide +kernel
  have h1 : ∀ s < 2, readEv exStateLQ.varsToStarts ([3, 0, 0, 1, 2, 0] : List ℚ) (exVar 2) s = (if s = 0 then 2 else 0) ∧
      ((edgesOf (graphOf exVars exHistLQ).allScopes (exVar 2)).map (fun e => exIndep (α := ℚ) e.1 e.2 s)).sum = -(s : ℚ) := by decide +kernel
  rw [h0 s hs, (h1 s hs).1, (h1 s hs).2]
  congr 1
  ring

/-- Non-vacuity of C104 above temperature 0. -/
example {env : Env ℝ} (hexp : env.exp = Real.exp) (hlog : env.log = Real.log) (hw : env.wrapNeg = false) {T : ℝ} (hT : 0 < T) {n : Nat} (hn : n ≠ 0) :
    ∃ bs rs B, (exBPL T).getBeliefs ((exBPL T).runBP env ⟨[-2, -5, 0, -3, 0, 1, 0, 1, 2, 2, 0, 0], List.replicate 12 0, [3, 0, 0, 1, 2, 0]⟩ n 0) = .ok bs ∧ getMarginals env bs = .ok rs ∧ rs.map (·.1) = exVars ∧ (∀ p ∈ rs, p.1.HasMarginals B p.2) ∧
      ∀ v ∈ graphVars exVars, 0 < totalWeight 1 (graphVars exVars) ((graphOf exVars exHistL).factors [-2, -5, 0, -3, 0, 1, 0, 1, 2, 2, 0, 0]) (readEv exStateL.varsToStarts [3, 0, 0, 1, 2, 0]) ∧
        ∀ s < v.n, gibbs (B v) v.n s = stateWeight 1 (graphVars exVars) ((graphOf exVars exHistL).factors [-2, -5, 0, -3, 0, 1, 0, 1, 2, 2, 0, 0]) (readEv exStateL.varsToStarts [3, 0, 0, 1, 2, 0]) v s /
          totalWeight 1 (graphVars exVars) ((graphOf exVars exHistL).factors [-2, -5, 0, -3, 0, 1, 0, 1, 2, 2, 0, 0]) (readEv exStateL.varsToStarts [3, 0, 0, 1, 2, 0]) := by
  refine C104_marginals_partial exStateL_compiled (exBPL_create T) env hexp hlog (.inr hT) ⟨.inl hw, fun h => absurd h hT.ne'⟩ ⟨[-2, -5, 0, -3, 0, 1, 0, 1, 2, 2, 0, 0], List.replicate 12 0, [3, 0, 0, 1, 2, 0]⟩ hn rfl rfl rfl exModerateIndL ?_ exIndep exIndepL
    exStatedT.1 exStatedT.2 exPosInd
  intro f i v he
  obtain ⟨hf, hi, hv⟩ := exEdgesLQ (f := f) (i := i) (v := v) he
  refine ⟨0, by omega, ?_⟩
  have h0 : readMsgs (graphOf exVars exHistL).allScopes (List.replicate 12 (0 : ℝ)) f i 0 = 0 := by
    unfold readMsgs List.getD
    cases e : (List.replicate 12 (0 : ℝ))[edgeStart (graphOf exVars exHistL).allScopes f i + 0]? with
    | none => rfl
    | some y => exact List.eq_of_mem_replicate (List.mem_of_getElem? e)
  show -100000 ≤ readMsgs (graphOf exVars exHistL).allScopes (List.replicate 12 (0 : ℝ)) f i 0
  rw [h0]
  norm_num

end PGMax
