import Verif.Lemmas.Step
import Verif.Lemmas.Example3
import Verif.Lemmas.Example4

/-! # C42: fixed points and damping.  C46: disconnected parts -/

namespace PGMax

variable {κ α : Type _} {vgs : List (VGroup κ)} {hist : List (AddArg α)} {garbage : Garbage} {st : FGState κ α}

section
variable [Field α] [LinearOrder α] [IsStrictOrderedRing α]

/-- Normalising a shifted normalised message gives it back. -/
theorem norm_of_shift {x m : Nat → α} {n maxLen : Nat} (hn : n ≤ maxLen) (hm : ∀ s < n, m s ≤ 0) (h0 : ∃ s < n, m s = 0) (K : α)
    (hx : ∀ s < n, x s = m s + K) (hK : n = maxLen ∨ NEG_INF ≤ K) : segM x n maxLen = K := by
  obtain ⟨s0, hs0, h0⟩ := h0
  obtain ⟨g1, g2, g3⟩ := segM_spec x n maxLen (by omega) hn
  have hge : K ≤ segM x n maxLen := by have := g1 s0 hs0; rw [hx s0 hs0, h0, zero_add] at this; exact this
  apply le_antisymm _ hge
  rcases g2 with ⟨s, hs, g2⟩ | ⟨hlt, g2, -⟩
  · rw [g2, hx s hs]; linarith [hm s hs]
  · rcases hK with hK | hK
    · omega
    · rw [g2]; exact hK

/-- A message that is unclipped after normalisation was a shifted version of the result. -/
theorem shift_of_norm {x m : Nat → α} {n maxLen : Nat} (h0 : 0 < n) (hn : n ≤ maxLen)
    (hx : ∀ s < n, max (x s - segM x n maxLen) (-1000) = m s) (hc : ∀ s < n, -1000 < m s) :
    (∀ s < n, x s = m s + segM x n maxLen) ∧ (n = maxLen ∨ NEG_INF ≤ segM x n maxLen) := by
  constructor
  · intro s hs
    have h1 := hx s hs
    have h2 := hc s hs
    rcases max_choice (x s - segM x n maxLen) (-1000) with h | h
    · rw [h] at h1; rw [← h1]; ring
    · rw [h] at h1; rw [← h1] at h2; exact absurd h2 (lt_irrefl _)
  · by_cases h : n = maxLen
    · exact .inl h
    · exact .inr ((segM_spec x n maxLen h0 hn).2.2 (by omega))

/-- **C42, partial.** Let `msgs` be normalised messages with all values above the clipping bound -1000.  If they are a fixed
point of the undamped update, they are one of the damped update for every damping between 0 and 1 (for every damping, if all
variables in factors have equally many states).  Conversely, a fixed point of the update with damping different from 1 is one
of the undamped update, if every new message has a value of at least `-1e5` or goes to a variable with the most states.
Any temperature.
Missing: dampings outside `[0, 1]`, and new messages below `-1e5` (`C42_refuted`). -/
theorem C42_partial (h : Compiled vgs hist garbage st) {state : BPState α} {T : α} {bp : BPFun κ α}
    (hbp : BP.create st state T = .ok bp) (env : Env α) (hseg : SegFits env (graphOf vgs hist)) (lp ev msgs : List α) (d : α)
    (hlp : lp.length = st.logPotentials.length) (hm : msgs.length = st.totalFactorNumStates)
    (hnorm : Normalised (graphOf vgs hist).allScopes (readMsgs (graphOf vgs hist).allScopes msgs))
    (hclip : ∀ f i v s, IsEdge (graphOf vgs hist).allScopes f i v → s < v.n → -1000 < readMsgs (graphOf vgs hist).allScopes msgs f i s) :
    (((0 ≤ d ∧ d ≤ 1) ∨ ∃ k, ∀ f i v, IsEdge (graphOf vgs hist).allScopes f i v → v.n = k) →
      bp.step env lp ev 0 msgs = msgs → bp.step env lp ev d msgs = msgs) ∧
    (d ≠ 1 → (∀ f i v, IsEdge (graphOf vgs hist).allScopes f i v →
        (∀ f' i' v', IsEdge (graphOf vgs hist).allScopes f' i' v' → v'.n ≤ v.n) ∨
        ∃ s < v.n, -100000 ≤ readMsgs (graphOf vgs hist).allScopes
          (bp.newMsgs env lp (passVarToFac env msgs ev bp.varStatesForEdges)) f i s) →
      bp.step env lp ev d msgs = msgs → bp.step env lp ev 0 msgs = msgs) := by
  obtain ⟨-, -, hld, hrd⟩ := h.step_norm hbp env hseg lp ev msgs d hlp hm
  obtain ⟨-, -, hl0, hr0⟩ := h.step_norm hbp env hseg lp ev msgs 0 hlp hm
  obtain ⟨hmax, f', i', v', he', hv'⟩ := h.maxMsgSize hbp
  generalize readMsgs (graphOf vgs hist).allScopes (bp.newMsgs env lp (passVarToFac env msgs ev bp.varStatesForEdges)) = r at *
  constructor
  · intro hd hfix
    refine eq_of_read (hld.trans h.totalStates) (hm.trans h.totalStates) (hrd.trans ?_)
    rw [hfix] at hr0
    intro f i v s he hs
    obtain ⟨n1, n2⟩ := hnorm f i v he
    have h1 := shift_of_norm (x := fun s => readMsgs (graphOf vgs hist).allScopes msgs f i s + (1 - 0) * (r f i s - readMsgs (graphOf vgs hist).allScopes msgs f i s))
      (m := readMsgs (graphOf vgs hist).allScopes msgs f i) (h.edge_pos he) (hmax f i v he)
      (fun s hs => by have := hr0 f i v s he hs; rw [normM_at he] at this; exact this.symm) (fun s hs => hclip f i v s he hs)
    obtain ⟨h1, h2⟩ := h1
    generalize segM (fun s => readMsgs (graphOf vgs hist).allScopes msgs f i s + (1 - 0) * (r f i s - readMsgs (graphOf vgs hist).allScopes msgs f i s)) v.n bp.maxMsgSize = K at h1 h2
    rw [normM_at he]
    have hx : ∀ s < v.n, readMsgs (graphOf vgs hist).allScopes msgs f i s + (1 - d) * (r f i s - readMsgs (graphOf vgs hist).allScopes msgs f i s)
        = readMsgs (graphOf vgs hist).allScopes msgs f i s + (1 - d) * K := by
      intro s hs
      have : r f i s - readMsgs (graphOf vgs hist).allScopes msgs f i s = K := by have := h1 s hs; linarith
      rw [this]
    have hK : v.n = bp.maxMsgSize ∨ NEG_INF ≤ (1 - d) * K := by
      rcases hd with ⟨d0, d1⟩ | ⟨k, hk⟩
      · rcases h2 with h2 | h2
        · exact .inl h2
        · right
          by_cases hK0 : 0 ≤ K
          · have : (0 : α) ≤ (1 - d) * K := mul_nonneg (by linarith) hK0
            have : (NEG_INF : α) ≤ 0 := by norm_num [NEG_INF]
            linarith
          · have : d * K ≤ 0 := mul_nonpos_of_nonneg_of_nonpos d0 (by linarith)
            linarith
      · left; rw [← hv', hk f i v he, hk f' i' v' he']
    rw [norm_of_shift (m := readMsgs (graphOf vgs hist).allScopes msgs f i) (hmax f i v he) (fun s hs => (n1 s hs).2) n2 _ hx hK, hx s hs, add_sub_cancel_right,
      max_eq_left (n1 s hs).1]
  · intro hd hnew hfix
    refine eq_of_read (hl0.trans h.totalStates) (hm.trans h.totalStates) (hr0.trans ?_)
    rw [hfix] at hrd
    intro f i v s he hs
    obtain ⟨n1, n2⟩ := hnorm f i v he
    obtain ⟨h1, h2⟩ := shift_of_norm (x := fun s => readMsgs (graphOf vgs hist).allScopes msgs f i s + (1 - d) * (r f i s - readMsgs (graphOf vgs hist).allScopes msgs f i s))
      (m := readMsgs (graphOf vgs hist).allScopes msgs f i) (h.edge_pos he) (hmax f i v he)
      (fun s hs => by have := hrd f i v s he hs; rw [normM_at he] at this; exact this.symm) (fun s hs => hclip f i v s he hs)
    generalize segM (fun s => readMsgs (graphOf vgs hist).allScopes msgs f i s + (1 - d) * (r f i s - readMsgs (graphOf vgs hist).allScopes msgs f i s)) v.n bp.maxMsgSize = K at h1 h2
    have hd1 : (1 : α) - d ≠ 0 := fun h => hd (by linarith)
    have hr : ∀ s < v.n, r f i s = readMsgs (graphOf vgs hist).allScopes msgs f i s + K / (1 - d) := by
      intro s hs
      have := h1 s hs
      have h3 : r f i s - readMsgs (graphOf vgs hist).allScopes msgs f i s = K / (1 - d) := by
        rw [eq_div_iff hd1]; linarith
      linarith
    rw [normM_at he]
    have hx : ∀ s < v.n, readMsgs (graphOf vgs hist).allScopes msgs f i s + (1 - 0) * (r f i s - readMsgs (graphOf vgs hist).allScopes msgs f i s)
        = readMsgs (graphOf vgs hist).allScopes msgs f i s + K / (1 - d) := by
      intro s hs
      rw [hr s hs]; ring
    have hK : v.n = bp.maxMsgSize ∨ NEG_INF ≤ K / (1 - d) := by
      rcases hnew f i v he with hn | ⟨s, hs, hge⟩
      · left; exact le_antisymm (hmax f i v he) (hv' ▸ hn f' i' v' he')
      · right
        rw [hr s hs] at hge
        have := (n1 s hs).2
        unfold NEG_INF
        linarith
    rw [norm_of_shift (m := readMsgs (graphOf vgs hist).allScopes msgs f i) (hmax f i v he) (fun s hs => (n1 s hs).2) n2 _ hx hK, hx s hs, add_sub_cancel_right,
      max_eq_left (n1 s hs).1]

end

/-- **C42 does not hold in general.** In the graph `exHist3` with evidence 5e4 on the 2-state variable and -5e5 on the 3-state
variable, zero messages are a fixed point for damping 1/2 but not of the undamped update. -/
theorem C42_refuted :
    exBP3.step exEnv [0, 0, 0] [50000, 50000, -500000, -500000, -500000] (1 / 2) [0, 0, 0, 0, 0] = [0, 0, 0, 0, 0] ∧
    exBP3.step exEnv [0, 0, 0] [50000, 50000, -500000, -500000, -500000] 0 [0, 0, 0, 0, 0] = [-1000, -1000, 0, 0, 0] := by
  exact ⟨by decide +kernel, by decide +kernel⟩

/-- Non-vacuity of C42: non-zero messages that are a fixed point and satisfy all hypotheses. -/
example : ∃ msgs : List ℚ, msgs.length = exState3.totalFactorNumStates ∧ SegFits exEnv (graphOf exVars3 exHist3) ∧
    Normalised (graphOf exVars3 exHist3).allScopes (readMsgs (graphOf exVars3 exHist3).allScopes msgs) ∧
    (∀ f i v s, IsEdge (graphOf exVars3 exHist3).allScopes f i v → s < v.n → -1000 < readMsgs (graphOf exVars3 exHist3).allScopes msgs f i s) ∧
    exBP3.step exEnv [1, 0, 2] [0, 3, 0, 0, 0] 0 msgs = msgs := by
  have e3 : (graphOf exVars3 exHist3).allScopes = [[⟨1000000000, 2⟩, ⟨1000000001, 3⟩]] := rfl
  have hedge : ∀ f i v, IsEdge (graphOf exVars3 exHist3).allScopes f i v → (f = 0 ∧ i = 0 ∧ v = ⟨1000000000, 2⟩) ∨ (f = 0 ∧ i = 1 ∧ v = ⟨1000000001, 3⟩) := by
    rintro f i v ⟨vs, h1, h2⟩
    rw [e3] at h1
    match f, h1 with
    | 0, h1 =>
      cases h1
      match i, h2 with
      | 0, h2 => cases h2; simp
      | 1, h2 => cases h2; simp
  refine ⟨[-1, 0, -4, 0, -5], by rfl, .inl rfl, ?_, ?_, by decide +kernel⟩
  · rw [e3] at hedge ⊢
    intro f i v he
    rcases hedge f i v he with ⟨rfl, rfl, rfl⟩ | ⟨rfl, rfl, rfl⟩
    · exact ⟨by decide +kernel, 1, by decide, by decide +kernel⟩
    · exact ⟨by decide +kernel, 1, by decide, by decide +kernel⟩
  · rw [e3] at hedge ⊢
    intro f i v s he
    rcases hedge f i v he with ⟨rfl, rfl, rfl⟩ | ⟨rfl, rfl, rfl⟩
    · revert s; decide +kernel
    · revert s; decide +kernel

section C46
variable [Field α] [LinearOrder α]

theorem normM_in {scopes : List (List Var)} {S : Var → Prop} (maxLen : Nat) {m m' : Msgs α} (h : AgreeIn scopes S m m') :
    AgreeIn scopes S (normM scopes maxLen m) (normM scopes maxLen m') := by
  intro f i v s he hv hs
  rw [normM_at he, normM_at he, h f i v s he hv hs, segM_congr (fun j hj => h f i v j he hv hj)]

theorem vtofM_in {scopes : List (List Var)} {S : Var → Prop} {m m' : Msgs α} (h : AgreeIn scopes S m m') {ev ev' : Var → Nat → α}
    (hev : ∀ v, S v → ∀ s < v.n, ev v s = ev' v s) : AgreeIn scopes S (vtofM scopes ev m) (vtofM scopes ev' m') := by
  intro f i v s he hv hs
  rw [vtofM_at he, vtofM_at he]
  unfold varToFac
  rw [hev v hv s hs]
  congr 2
  apply List.map_congr_left
  intro e' he'
  exact h _ _ v s ((mem_edgesOf _ _ _ _).1 (List.mem_filter.1 he').1) hv hs

theorem Compiled.stepM_in (h : Compiled vgs hist garbage st) (env : Env α) (T : α) (maxLen : Nat) {S : Var → Prop}
    (hS : Separated (graphOf vgs hist).allScopes S) {lp lp' : List α} {ev ev' : Var → Nat → α} (d : α)
    (hev : ∀ v, S v → ∀ s < v.n, ev v s = ev' v s)
    (hlp : ∀ (f : Nat) (vs : List Var), (graphOf vgs hist).allScopes[f]? = some vs → (∀ v ∈ vs, S v) →
      ((graphOf vgs hist).factors lp)[f]? = ((graphOf vgs hist).factors lp')[f]?)
    {m m' : Msgs α} (hm : AgreeIn (graphOf vgs hist).allScopes S m m') :
    AgreeIn (graphOf vgs hist).allScopes S (stepM env T (graphOf vgs hist) maxLen lp ev d m) (stepM env T (graphOf vgs hist) maxLen lp' ev' d m') := by
  apply normM_in
  intro f i v s he hv hs
  obtain ⟨F, hF, hi, hsc⟩ := (graphOf vgs hist).factors_edge lp he
  have hall : ∀ w ∈ F.scope, S w := by
    rcases hS _ (List.mem_of_getElem? hsc) with hall | hall
    · exact hall
    · exact absurd hv (hall v (List.mem_of_getElem? hi))
  have hF' := hF
  rw [hlp f _ hsc hall] at hF'
  simp only
  rw [hm f i v s he hv hs, rawM_at _ _ hF, rawM_at _ _ hF']
  congr 3
  refine facOut_congr env T (h.facOk lp f F hF) ?_ i s v hi hs
  intro j w t hj ht
  exact vtofM_in hm hev f j w t ⟨_, hsc, hj⟩ (hall w (List.mem_of_getElem? hj)) ht

/-- **C46, partial.** Let `S` be a set of variables such that every factor has all or none of its variables in `S`.  Two runs
whose evidence, log potentials (of the factors in `S`) and initial messages agree on `S` give the same messages and beliefs
on `S` after any number of iterations, at any temperature and damping.
Missing: graphs with more than 100000 OR/AND parents at temperature 0, and (under JAX 0.3.13) with about 100000 or more edge
states, for which it is false (`C46_refuted`). -/
theorem C46_partial [IsStrictOrderedRing α] (h : Compiled vgs hist garbage st) {state : BPState α} {T : α} {bp : BPFun κ α}
    (hbp : BP.create st state T = .ok bp) (env : Env α) (hfit : Fits env (graphOf vgs hist) T) (S : Var → Prop)
    (hS : Separated (graphOf vgs hist).allScopes S) (a b : BPArrays α) (n : Nat) (d : α)
    (ha1 : a.logPotentials.length = st.logPotentials.length) (ha2 : a.evidence.length = st.numVarStates)
    (ha3 : a.ftovMsgs.length = st.totalFactorNumStates)
    (hb1 : b.logPotentials.length = st.logPotentials.length) (hb2 : b.evidence.length = st.numVarStates)
    (hb3 : b.ftovMsgs.length = st.totalFactorNumStates)
    (hev : ∀ v, S v → ∀ s < v.n, readEv st.varsToStarts a.evidence v s = readEv st.varsToStarts b.evidence v s)
    (hlp : ∀ (f : Nat) (vs : List Var), (graphOf vgs hist).allScopes[f]? = some vs → (∀ v ∈ vs, S v) →
      ((graphOf vgs hist).factors a.logPotentials)[f]? = ((graphOf vgs hist).factors b.logPotentials)[f]?)
    (hm : AgreeIn (graphOf vgs hist).allScopes S (readMsgs (graphOf vgs hist).allScopes a.ftovMsgs) (readMsgs (graphOf vgs hist).allScopes b.ftovMsgs)) :
    AgreeIn (graphOf vgs hist).allScopes S (readMsgs (graphOf vgs hist).allScopes (bp.runBP env a n d).ftovMsgs)
      (readMsgs (graphOf vgs hist).allScopes (bp.runBP env b n d).ftovMsgs) ∧
    ∀ v, S v → ∀ start, st.varsToStarts v = some start → ∀ s < v.n,
      (bp.flatBeliefs (bp.runBP env a n d))[start + s]? = (bp.flatBeliefs (bp.runBP env b n d))[start + s]? := by
  obtain ⟨la, ra⟩ := h.run_read hbp env hfit a d ha1 ha2 n ha3
  obtain ⟨lb, rb⟩ := h.run_read hbp env hfit b d hb1 hb2 n hb3
  have key : ∀ {m m' : Msgs α}, AgreeIn (graphOf vgs hist).allScopes S m m' → AgreeIn (graphOf vgs hist).allScopes S
      (iterM (stepM env T (graphOf vgs hist) bp.maxMsgSize a.logPotentials (readEv st.varsToStarts a.evidence) d) n m)
      (iterM (stepM env T (graphOf vgs hist) bp.maxMsgSize b.logPotentials (readEv st.varsToStarts b.evidence) d) n m') := by
    clear ra rb la lb
    induction n with
    | zero => exact id
    | succ n ih => exact fun hm => ih (h.stepM_in env T _ hS d hev hlp hm)
  have hmsg : AgreeIn (graphOf vgs hist).allScopes S (readMsgs (graphOf vgs hist).allScopes (bp.runBP env a n d).ftovMsgs)
      (readMsgs (graphOf vgs hist).allScopes (bp.runBP env b n d).ftovMsgs) := by
    intro f i v s he hv hs
    rw [ra f i v s he hs, rb f i v s he hs]
    exact key (normM_in _ hm) f i v s he hv hs
  refine ⟨hmsg, ?_⟩
  intro v hv start hst s hs
  obtain ⟨-, -, e3, -⟩ := BP_create_ok hbp
  have ba := h.scatter_beliefs (bp.runBP env a n d).ftovMsgs (bp.runBP env a n d).evidence la ha2 v s hs start hst
  have bb := h.scatter_beliefs (bp.runBP env b n d).ftovMsgs (bp.runBP env b n d).evidence lb hb2 v s hs start hst
  unfold BPFun.flatBeliefs
  rw [e3, ba, bb]
  unfold beliefOf
  congr 2
  · exact hev v hv s hs
  · congr 1
    apply List.map_congr_left
    intro e he
    exact hmsg _ _ v s ((mem_edgesOf _ _ _ _).1 he) hv hs

end C46

/-- Non-vacuity of C46: in the two-component graph the first two variables are separated from the rest; two runs with different
evidence, log potentials and messages elsewhere. -/
example : Fits exEnv (graphOf exVars4 exHist4) (0 : ℚ) ∧
    Separated (graphOf exVars4 exHist4).allScopes (fun v => v.hash < 2000000002) ∧
    (exBP4.runBP exEnv ⟨[1, 2, 3], [0, 0, 0, 0, 0, 0, 0, 0], [0, 5, 1, 0, 0, 3, 0, 2]⟩ 2 0).ftovMsgs = [-1, 0, -7, 0, -2, 0, -3, 0] ∧
    (exBP4.runBP exEnv ⟨[1, 2, 3], [0, 0, 0, 0, 1, 2, 3, 4], [0, 5, 1, 0, 0, -3, 9, 2]⟩ 2 0).ftovMsgs = [-1, 0, -7, 0, 0, -7, 0, -3] := by
  refine ⟨⟨.inl rfl, by decide⟩, ?_, by decide +kernel, by decide +kernel⟩
  have e : (graphOf exVars4 exHist4).allScopes = [[exVar4 0, exVar4 1], [exVar4 2, exVar4 3]] := rfl
  rw [e]
  unfold Separated
  decide

end PGMax
