import Verif.Lemmas.ZeroTemp
import Verif.Props.C39_C40
import Verif.Props.C57
import Mathlib.Tactic.IntervalCases
import Mathlib.Topology.Order.Real
import Mathlib.Topology.Algebra.Order.Field
import Mathlib.Analysis.Normed.Group.Basic
import Mathlib.Topology.Algebra.Monoid

/-! # C58: temperature 0 is the limit of small temperatures -/

namespace PGMax

open Filter Topology

variable {κ : Type _} {vgs : List (VGroup κ)} {hist : List (AddArg ℝ)} {garbage : Garbage} {st : FGState κ ℝ}

/-- **C58, the limit.** As the temperature tends to 0, the messages of `run_bp` after `n` iterations tend to those of the iteration in which
logical factors send exact maxima (`flOutLimit`); the distance is at most `2 T (100001 + R) ∑ (4 L)^k`, `k < n`, for factors with at most `R`
configurations and at most `L` incoming messages at their variables. For all numbers. -/
theorem C58_limit (h : Compiled vgs hist garbage st) {state : BPState ℝ} {bp : BPFun κ ℝ} {T : ℝ} (hT : 0 < T)
    (hbp : BP.create st state T = .ok bp) (env : Env ℝ) (hexp : env.exp = Real.exp) (hlog : env.log = Real.log)
    (hseg : SegFits env (graphOf vgs hist)) (a : BPArrays ℝ) (n : Nat) {d : ℝ} (hd : 0 ≤ d ∧ d ≤ 1)
    (hlp : a.logPotentials.length = st.logPotentials.length) (hev : a.evidence.length = st.numVarStates) (hm : a.ftovMsgs.length = st.totalFactorNumStates)
    {L R : ℝ} (hL1 : 1 ≤ L) (hL : ∀ vs ∈ (graphOf vgs hist).allScopes, (inputsBut (graphOf vgs hist).allScopes vs vs.length : ℝ) ≤ L)
    (hR : ∀ F ∈ (graphOf vgs hist).factors a.logPotentials, (F.rows.length : ℝ) ≤ R)
    (f i : Nat) (v : Var) (s : Nat) (he : IsEdge (graphOf vgs hist).allScopes f i v) (hs : s < v.n) :
    |readMsgs (graphOf vgs hist).allScopes (bp.runBP env a n d).ftovMsgs f i s
      - flRun (flOutLimit (graphOf vgs hist)) ((graphOf vgs hist).factors a.logPotentials) (readEv st.varsToStarts a.evidence) d n
          (readMsgs (graphOf vgs hist).allScopes a.ftovMsgs) f i s| ≤ 2 * (T * (100001 + R)) * ∑ k ∈ Finset.range n, (4 * L) ^ k := by
  rw [C57_sum h hT hbp env hexp hlog hseg a n d hlp hev hm f i v s he hs]
  have hsc := (graphOf vgs hist).factors_scopes a.logPotentials
  have hR0 : 0 ≤ R := by
    obtain ⟨F, hF, -⟩ := (graphOf vgs hist).factors_edge a.logPotentials he
    exact le_trans (Nat.cast_nonneg _) (hR F (List.mem_of_getElem? hF))
  rw [show (4 : ℝ) * L = 2 * (2 * L) by ring]
  refine flRun_close (by positivity) (by linarith) ?_ _ ?_ hd _ n f i v s (by rw [hsc]; exact he) hs
  · intro f F hF q i s v hi hs
    have hlgn : (graphOf vgs hist).tables.length ≤ f → v.n = 2 := by
      intro hf
      have hok := h.facOk a.logPotentials f F hF
      unfold FactorGraph.kind at hok
      rw [if_neg (not_lt.2 hf)] at hok
      exact hok.2.2 v (List.mem_of_getElem? hi)
    refine le_trans (flOutSum_close hT ?_ q (List.getElem?_eq_some_iff.1 hi).1 (fun hf => by rw [← hlgn hf]; exact hs)) ?_
    · intro hf s hs i hi
      obtain ⟨c, hc⟩ := C30 h T hT hbp env hexp hlog a.logPotentials (List.replicate st.totalFactorNumStates 0) hlp (by simp) f i F hF hf hi
      exact (hc s hs).1
    · have := hR F (List.mem_of_getElem? hF)
      exact mul_le_mul_of_nonneg_left (by linarith) hT.le
  · intro f F hF m m' D hD hD0 i s v hi hs
    refine flOutLimit_lip (fun F hF => ?_) (fun F hF => ?_) _ hF hD hD0 hi hs
    · obtain ⟨f, hf⟩ := List.mem_iff_getElem?.1 hF
      exact h.rowsFit a.logPotentials hf
    · rw [hsc]
      exact hL F.scope (by rw [← hsc]; exact List.mem_map.2 ⟨F, hF, rfl⟩)

/-- The messages of the limit depend on the incoming messages only. -/
theorem Compiled.ruleLimit_congr (h : Compiled vgs hist garbage st) (lp : List ℝ) : RuleCongr ((graphOf vgs hist).factors lp) (flOutLimit (graphOf vgs hist)) := by
  intro f F hF q q' hq i s v hi hs
  have hsc : ∀ t, (F.rowsAt i t).map (scoreBut F.scope.length q i) = (F.rowsAt i t).map (scoreBut F.scope.length q' i) := fun t =>
    List.map_congr_left (fun r hr => scoreBut_congr (h.rowsFit lp hF r (List.mem_filter.1 hr).1) hq i)
  have hsc' : (F.rowsAt i s).map (fun r => scoreBut F.scope.length q i r + q i s) = (F.rowsAt i s).map (fun r => scoreBut F.scope.length q' i r + q' i s) :=
    List.map_congr_left (fun r hr => by rw [scoreBut_congr (h.rowsFit lp hF r (List.mem_filter.1 hr).1) hq i, hq i v s hi hs])
  unfold flOutLimit flEnum
  rw [hsc, hsc, hsc', hq i v s hi hs]

/-- The messages at temperature 0. -/
theorem Compiled.ruleLimit (h : Compiled vgs hist garbage st) {state : BPState ℝ} {bp : BPFun κ ℝ}
    (hbp : BP.create st state 0 = .ok bp) (env : Env ℝ) (hfit : Fits env (graphOf vgs hist) (0 : ℝ)) (lp ev msgs : List ℝ)
    (hlp : lp.length = st.logPotentials.length) (hev : ev.length = st.numVarStates) (hml : msgs.length = st.totalFactorNumStates)
    (hclip : Clipped (graphOf vgs hist).allScopes (readMsgs (graphOf vgs hist).allScopes msgs)) (hlmod : LogicalModerate (graphOf vgs hist) (readEv st.varsToStarts ev)) :
    RuleAt env bp (graphOf vgs hist) lp (passVarToFac env msgs ev bp.varStatesForEdges) (flOutLimit (graphOf vgs hist)) := by
  obtain ⟨e1, -, -, e4, -⟩ := BP_create_ok hbp
  have hv := (h.step_norm hbp env hfit.seg lp ev msgs 0 hlp hml).1
  generalize hvtof : passVarToFac env msgs ev bp.varStatesForEdges = vtof at hv ⊢
  intro f F hF i s v hi hs
  unfold flOutLimit
  have hloc := h.newMsgs_local e1 env lp vtof hlp hv (by rw [e4]; exact hfit.par)
  by_cases hf : f < (graphOf vgs hist).tables.length
  · rw [if_pos hf, read_of_at (hloc f i s F v hF hi hs), e4, facOut_fl env (h.facOk lp f F hF) _ i s v hi]
    unfold flOut
    rw [if_pos hf]
  · rw [if_neg hf]
    have hkind : (graphOf vgs hist).kind f = some ((graphOf vgs hist).restState f) := by unfold FactorGraph.kind; rw [if_neg hf]
    have hok := h.facOk lp f F hF
    rw [hkind] at hok
    obtain ⟨hrel, hlen, h2⟩ := hok
    have hvn : v.n = 2 := h2 v (List.mem_of_getElem? hi)
    have hsc : (graphOf vgs hist).allScopes[f]? = some F.scope := by
      rw [← FactorGraph.factors_scopes (graphOf vgs hist) lp]; exact getElem?_scopes hF
    have hq : ∀ (j : Nat) (w : Var) (t : Nat), F.scope[j]? = some w → t < w.n → readMsgs (graphOf vgs hist).allScopes vtof f j t
        = varToFac (graphOf vgs hist).allScopes (readEv st.varsToStarts ev) (readMsgs (graphOf vgs hist).allScopes msgs) w (f, j) t := by
      intro j w t hj ht
      rw [← hvtof]
      exact read_of_at (C26_var_to_fac h hbp env msgs ev hml hev f j _ w t hsc hj ht)
    have hthis : F.scope.length = 2 ∨ ∃ j < F.scope.length - 1, ∃ k < F.scope.length - 1, j ≠ k ∧
        -100000 < (graphOf vgs hist).pull (readMsgs (graphOf vgs hist).allScopes vtof) f j ∧
        -100000 < (graphOf vgs hist).pull (readMsgs (graphOf vgs hist).allScopes vtof) f k := by
      rcases hlmod f F.scope hsc (not_lt.1 hf) with h1 | ⟨j, hj, k, hk, hne, hall⟩
      · exact .inl h1
      · have hp : ∀ i, i = j ∨ i = k → -100000 < (graphOf vgs hist).pull (readMsgs (graphOf vgs hist).allScopes vtof) f i := by
          intro i hi
          have hil : i < F.scope.length := by rcases hi with rfl | rfl <;> omega
          have hw := List.getElem?_eq_getElem hil
          have hwn := h2 _ (List.getElem_mem hil)
          unfold FactorGraph.pull
          rw [hq i _ _ hw (by rw [hwn]; omega), hq i _ _ hw (by rw [hwn]; omega)]
          refine lt_of_lt_of_le (hall i hi _ hw) (varToFac_diff hclip (by rw [hwn]; omega) (by rw [hwn]; omega) _)
        exact .inr ⟨j, hj, k, hk, hne, hp j (.inl rfl), hp k (.inr rfl)⟩
    obtain ⟨c, hc⟩ := C29_partial h hbp env lp vtof hlp hv f i F hF (not_lt.1 hf) (List.getElem?_eq_some_iff.1 hi).1 (.inl (hfit.par rfl)) hthis
    have hmax : ∀ t < 2, readMsgs (graphOf vgs hist).allScopes (bp.newMsgs env lp vtof) f i t + c =
        maxOf 0 ((F.rowsAt i t).map (scoreBut F.scope.length (readMsgs (graphOf vgs hist).allScopes vtof f) i)) := by
      intro t ht
      obtain ⟨z, hz, ⟨r, hr, hzr⟩, hg⟩ := hc t ht
      rw [read_of_at hz]
      obtain ⟨g1, g2⟩ := maxOf_spec 0 ((F.rowsAt i t).map (scoreBut F.scope.length (readMsgs (graphOf vgs hist).allScopes vtof f) i))
        (List.ne_nil_of_mem (List.mem_map.2 ⟨r, hr, rfl⟩))
      apply le_antisymm
      · rw [hzr]; exact g2 _ (List.mem_map.2 ⟨r, hr, rfl⟩)
      · obtain ⟨r', hr', he'⟩ := List.mem_map.1 g1
        rw [← he']
        exact hg ⟨r', hr', rfl⟩
    have h0 : readMsgs (graphOf vgs hist).allScopes (bp.newMsgs env lp vtof) f i ((graphOf vgs hist).restState f) = 0 := by
      rw [read_of_at (hloc f i ((graphOf vgs hist).restState f) F v hF hi (by omega)), hkind]
      simp [facOut, lgOut]
    rw [← hmax s (by omega), ← hmax _ hrel, h0]
    ring

/-- At temperature 0, the code is that iteration. -/
theorem Compiled.run_limit (h : Compiled vgs hist garbage st) {state : BPState ℝ} {bp : BPFun κ ℝ}
    (hbp : BP.create st state 0 = .ok bp) (env : Env ℝ) (hfit : Fits env (graphOf vgs hist) (0 : ℝ)) (a : BPArrays ℝ) (n : Nat) (d : ℝ)
    (hlp : a.logPotentials.length = st.logPotentials.length) (hev : a.evidence.length = st.numVarStates) (hm : a.ftovMsgs.length = st.totalFactorNumStates)
    (hlmod : LogicalModerate (graphOf vgs hist) (readEv st.varsToStarts a.evidence)) :
    AgreeOn (graphOf vgs hist).allScopes (readMsgs (graphOf vgs hist).allScopes (bp.runBP env a n d).ftovMsgs)
      (flRun (flOutLimit (graphOf vgs hist)) ((graphOf vgs hist).factors a.logPotentials) (readEv st.varsToStarts a.evidence) d n
          (readMsgs (graphOf vgs hist).allScopes a.ftovMsgs)) := by
  exact h.run_fl hbp env hfit.seg a n d hlp hev hm _ (h.ruleLimit_congr _) (fun msgs hml hclip => h.ruleLimit hbp env hfit _ _ msgs hlp hev hml hclip hlmod)

/-- **C58, partial.** The messages of `run_bp` at temperature `T > 0` differ from those at temperature 0 by at most
`2 T (100001 + R) ∑ (4 L)^k`, `k < n` (`L`, `R` as in `C58_limit`), for all log potentials and initial messages and all evidence that is moderate
at two parents of every logical factor with several parents.
Missing: other evidence of logical factors (`C58_refuted`). -/
theorem C58_partial (h : Compiled vgs hist garbage st) {state : BPState ℝ} {bp0 bp : BPFun κ ℝ} {T : ℝ} (hT : 0 < T)
    (hbp0 : BP.create st state 0 = .ok bp0) (hbp : BP.create st state T = .ok bp) (env : Env ℝ) (hexp : env.exp = Real.exp) (hlog : env.log = Real.log)
    (hfit : Fits env (graphOf vgs hist) (0 : ℝ)) (a : BPArrays ℝ) (n : Nat) {d : ℝ} (hd : 0 ≤ d ∧ d ≤ 1)
    (hlp : a.logPotentials.length = st.logPotentials.length) (hev : a.evidence.length = st.numVarStates) (hm : a.ftovMsgs.length = st.totalFactorNumStates)
    (hlmod : LogicalModerate (graphOf vgs hist) (readEv st.varsToStarts a.evidence))
    {L R : ℝ} (hL1 : 1 ≤ L) (hL : ∀ vs ∈ (graphOf vgs hist).allScopes, (inputsBut (graphOf vgs hist).allScopes vs vs.length : ℝ) ≤ L)
    (hR : ∀ F ∈ (graphOf vgs hist).factors a.logPotentials, (F.rows.length : ℝ) ≤ R)
    (f i : Nat) (v : Var) (s : Nat) (he : IsEdge (graphOf vgs hist).allScopes f i v) (hs : s < v.n) :
    |readMsgs (graphOf vgs hist).allScopes (bp.runBP env a n d).ftovMsgs f i s - readMsgs (graphOf vgs hist).allScopes (bp0.runBP env a n d).ftovMsgs f i s|
      ≤ 2 * (T * (100001 + R)) * ∑ k ∈ Finset.range n, (4 * L) ^ k := by
  rw [h.run_limit hbp0 env hfit a n d hlp hev hm hlmod f i v s he hs]
  exact C58_limit h hT hbp env hexp hlog hfit.seg a n hd hlp hev hm hL1 hL hR f i v s he hs

theorem exists_bounds (fg : FactorGraph κ ℝ) (lp : List ℝ) : ∃ L R : ℝ, 1 ≤ L ∧ (∀ vs ∈ fg.allScopes, (inputsBut fg.allScopes vs vs.length : ℝ) ≤ L) ∧
    ∀ F ∈ fg.factors lp, (F.rows.length : ℝ) ≤ R := by
  have key : ∀ l : List Nat, ∃ B : ℝ, 1 ≤ B ∧ ∀ x ∈ l, (x : ℝ) ≤ B := by
    intro l
    refine ⟨((l.sum + 1 : Nat) : ℝ), Nat.one_le_cast.2 (by omega), ?_⟩
    intro x hx
    exact Nat.cast_le.2 (le_trans (List.le_sum_of_mem hx) (Nat.le_succ _))
  obtain ⟨L, h1, h2⟩ := key (fg.allScopes.map (fun vs => inputsBut fg.allScopes vs vs.length))
  obtain ⟨R, -, h3⟩ := key ((fg.factors lp).map (fun F => F.rows.length))
  exact ⟨L, R, h1, fun vs hvs => h2 _ (List.mem_map.2 ⟨vs, hvs, rfl⟩), fun F hF => h3 _ (List.mem_map.2 ⟨F, hF, rfl⟩)⟩

theorem tendsto_of_linear {g : ℝ → ℝ} {x C : ℝ} (h : ∀ T, 0 < T → |g T - x| ≤ T * C) : Tendsto g (𝓝[>] 0) (𝓝 x) := by
  rw [tendsto_iff_dist_tendsto_zero]
  have h0 : Tendsto (fun T : ℝ => T * C) (𝓝[>] 0) (𝓝 0) := by
    have h1 : Tendsto (fun T : ℝ => T * C) (𝓝 0) (𝓝 (0 * C)) := Filter.Tendsto.mul_const C tendsto_id
    rw [zero_mul] at h1
    exact h1.mono_left nhdsWithin_le_nhds
  refine squeeze_zero' (Eventually.of_forall (fun _ => dist_nonneg)) ?_ h0
  filter_upwards [self_mem_nhdsWithin] with T hT
  exact h T hT

/-- The messages converge to the limit iteration. -/
theorem C58_limit_tendsto (h : Compiled vgs hist garbage st) {state : BPState ℝ} {bp : ℝ → BPFun κ ℝ}
    (hbp : ∀ T, 0 < T → BP.create st state T = .ok (bp T)) (env : Env ℝ) (hexp : env.exp = Real.exp) (hlog : env.log = Real.log)
    (hseg : SegFits env (graphOf vgs hist)) (a : BPArrays ℝ) (n : Nat) {d : ℝ} (hd : 0 ≤ d ∧ d ≤ 1)
    (hlp : a.logPotentials.length = st.logPotentials.length) (hev : a.evidence.length = st.numVarStates) (hm : a.ftovMsgs.length = st.totalFactorNumStates)
    (f i : Nat) (v : Var) (s : Nat) (he : IsEdge (graphOf vgs hist).allScopes f i v) (hs : s < v.n) :
    Tendsto (fun T => readMsgs (graphOf vgs hist).allScopes ((bp T).runBP env a n d).ftovMsgs f i s) (𝓝[>] 0)
      (𝓝 (flRun (flOutLimit (graphOf vgs hist)) ((graphOf vgs hist).factors a.logPotentials) (readEv st.varsToStarts a.evidence) d n
        (readMsgs (graphOf vgs hist).allScopes a.ftovMsgs) f i s)) := by
  obtain ⟨L, R, h1, h2, h3⟩ := exists_bounds (graphOf vgs hist) a.logPotentials
  refine tendsto_of_linear (C := 2 * (100001 + R) * ∑ k ∈ Finset.range n, (4 * L) ^ k) ?_
  intro T hT
  refine (C58_limit h hT (hbp T hT) env hexp hlog hseg a n hd hlp hev hm h1 h2 h3 f i v s he hs).trans (le_of_eq ?_)
  ring

/-- **C58, partial, limits.** The messages and the beliefs at temperature `T` tend to those at temperature 0 as `T` tends to 0 from above. Missing: as
above. -/
theorem C58_tendsto_partial (h : Compiled vgs hist garbage st) {state : BPState ℝ} {bp : ℝ → BPFun κ ℝ}
    (hbp : ∀ T, 0 ≤ T → BP.create st state T = .ok (bp T)) (env : Env ℝ) (hexp : env.exp = Real.exp) (hlog : env.log = Real.log)
    (hfit : Fits env (graphOf vgs hist) (0 : ℝ)) (a : BPArrays ℝ) (n : Nat) {d : ℝ} (hd : 0 ≤ d ∧ d ≤ 1)
    (hlp : a.logPotentials.length = st.logPotentials.length) (hev : a.evidence.length = st.numVarStates) (hm : a.ftovMsgs.length = st.totalFactorNumStates)
    (hlmod : LogicalModerate (graphOf vgs hist) (readEv st.varsToStarts a.evidence)) :
    (∀ f i v s, IsEdge (graphOf vgs hist).allScopes f i v → s < v.n →
      Tendsto (fun T => readMsgs (graphOf vgs hist).allScopes ((bp T).runBP env a n d).ftovMsgs f i s) (𝓝[>] 0)
        (𝓝 (readMsgs (graphOf vgs hist).allScopes ((bp 0).runBP env a n d).ftovMsgs f i s))) ∧
    ∀ v start, st.varsToStarts v = some start → ∀ s < v.n,
      Tendsto (fun T => ((bp T).flatBeliefs ((bp T).runBP env a n d)).getD (start + s) 0) (𝓝[>] 0)
        (𝓝 (((bp 0).flatBeliefs ((bp 0).runBP env a n d)).getD (start + s) 0)) := by
  have hmsg : ∀ f i v s, IsEdge (graphOf vgs hist).allScopes f i v → s < v.n →
      Tendsto (fun T => readMsgs (graphOf vgs hist).allScopes ((bp T).runBP env a n d).ftovMsgs f i s) (𝓝[>] 0)
        (𝓝 (readMsgs (graphOf vgs hist).allScopes ((bp 0).runBP env a n d).ftovMsgs f i s)) := by
    intro f i v s he hs
    rw [h.run_limit (hbp 0 le_rfl) env hfit a n d hlp hev hm hlmod f i v s he hs]
    exact C58_limit_tendsto h (fun T hT => hbp T hT.le) env hexp hlog hfit.seg a n hd hlp hev hm f i v s he hs
  refine ⟨hmsg, ?_⟩
  intro v start hv s hs
  have hlen : ∀ T, 0 ≤ T → ((bp T).runBP env a n d).ftovMsgs.length = st.totalFactorNumStates := by
    intro T hT
    exact (h.run_read (hbp T hT) env ⟨hfit.seg, fun _ => hfit.par rfl⟩ a d hlp hev n hm).1
  have hb : ∀ T, 0 ≤ T → ((bp T).flatBeliefs ((bp T).runBP env a n d)).getD (start + s) 0 = beliefOf (graphOf vgs hist).allScopes (readEv st.varsToStarts a.evidence)
      (readMsgs (graphOf vgs hist).allScopes ((bp T).runBP env a n d).ftovMsgs) v s := fun T hT =>
    getD_of_some (C34_flat h (hbp T hT) _ (hlen T hT) hev v start hv s hs)
  rw [hb 0 le_rfl]
  have hcongr : (fun T => ((bp T).flatBeliefs ((bp T).runBP env a n d)).getD (start + s) 0) =ᶠ[𝓝[>] 0] fun T => beliefOf (graphOf vgs hist).allScopes
      (readEv st.varsToStarts a.evidence) (readMsgs (graphOf vgs hist).allScopes ((bp T).runBP env a n d).ftovMsgs) v s := by
    filter_upwards [self_mem_nhdsWithin] with T hT
    exact hb T (le_of_lt hT)
  refine Tendsto.congr' hcongr.symm ?_
  unfold beliefOf
  refine Tendsto.const_add _ ?_
  refine tendsto_list_sum _ ?_
  intro e hmem
  exact hmsg e.1 e.2 v s ((mem_edgesOf _ _ _ _).1 hmem) hs

theorem VGroup.Decodes.stateIn {α : Type _} [Field α] [LinearOrder α] [IsStrictOrderedRing α] {B : Var → Nat → α} {g : VGroup κ} {r : GroupStates κ} (hdec : g.Decodes B r) {v : Var} (hv : v ∈ g.variables) {j : Nat}
    (hj : IsFirstMax (B v) v.n j) : g.StateIn v j r := by
  obtain ⟨k, hk⟩ := List.mem_iff_getElem?.1 hv
  cases g with
  | arr g =>
    cases r with
    | dict d => exact hdec.elim
    | arr r =>
      obtain ⟨-, -, hd⟩ := hdec
      obtain ⟨j', hj', hjm⟩ := hd k v hk
      rw [IsFirstMax.unique hj hjm]
      exact ⟨k, hk, hj'⟩
  | dict g =>
    cases r with
    | arr r => exact hdec.elim
    | dict d =>
      obtain ⟨-, hd⟩ := hdec
      obtain ⟨y, j', hy, hyj, hjm⟩ := hd k v hk
      rw [IsFirstMax.unique hj hjm]
      exact ⟨k, y, hk, hy, hyj⟩

/-- **C58, partial, decoding.** Below some positive temperature, `decode_map_states` returns the state with the largest belief at temperature 0 for
every variable that has one such state. Missing: as above, and variables with several states of maximal belief at temperature 0. -/
theorem C58_decode_partial [DecidableEq κ] (h : Compiled vgs hist garbage st) {state : BPState ℝ} {bp : ℝ → BPFun κ ℝ}
    (hbp : ∀ T, 0 ≤ T → BP.create st state T = .ok (bp T)) (env : Env ℝ) (hexp : env.exp = Real.exp) (hlog : env.log = Real.log)
    (hfit : Fits env (graphOf vgs hist) (0 : ℝ)) (a : BPArrays ℝ) (n : Nat) {d : ℝ} (hd : 0 ≤ d ∧ d ≤ 1)
    (hlp : a.logPotentials.length = st.logPotentials.length) (hev : a.evidence.length = st.numVarStates) (hm : a.ftovMsgs.length = st.totalFactorNumStates)
    (hlmod : LogicalModerate (graphOf vgs hist) (readEv st.varsToStarts a.evidence)) (hreg : ∀ g ∈ vgs, g.Regular) (hst : ∀ g ∈ vgs, g.Stated) :
    ∃ T0 > 0, ∀ T, 0 < T → T < T0 → ∃ bs rs, (bp T).getBeliefs ((bp T).runBP env a n d) = .ok bs ∧ decodeMapStates bs = .ok rs ∧ rs.map (·.1) = vgs ∧
      ∀ p ∈ rs, ∀ v ∈ p.1.variables, ∀ start, st.varsToStarts v = some start → ∀ j < v.n,
        (∀ s < v.n, s ≠ j → ((bp 0).flatBeliefs ((bp 0).runBP env a n d)).getD (start + s) 0 < ((bp 0).flatBeliefs ((bp 0).runBP env a n d)).getD (start + j) 0) →
        p.1.StateIn v j p.2 := by
  have htend := (C58_tendsto_partial h hbp env hexp hlog hfit a n hd hlp hev hm hlmod).2
  have hlen : ∀ T, 0 ≤ T → ((bp T).runBP env a n d).ftovMsgs.length = st.totalFactorNumStates := by
    intro T hT
    exact (h.run_read (hbp T hT) env ⟨hfit.seg, fun _ => hfit.par rfl⟩ a d hlp hev n hm).1
  have hevent : ∀ᶠ T in 𝓝[>] (0 : ℝ), ∀ v ∈ graphVars vgs, ∀ j ∈ Finset.range v.n, ∀ s ∈ Finset.range v.n, ∀ start, st.varsToStarts v = some start →
      ((bp 0).flatBeliefs ((bp 0).runBP env a n d)).getD (start + s) 0 < ((bp 0).flatBeliefs ((bp 0).runBP env a n d)).getD (start + j) 0 →
      ((bp T).flatBeliefs ((bp T).runBP env a n d)).getD (start + s) 0 < ((bp T).flatBeliefs ((bp T).runBP env a n d)).getD (start + j) 0 := by
    rw [Filter.eventually_all_finset]
    intro v _
    rw [Filter.eventually_all_finset]
    intro j hj
    rw [Filter.eventually_all_finset]
    intro s hs
    cases hstart : st.varsToStarts v with
    | none => exact Eventually.of_forall (fun _ start h' => by cases h')
    | some start =>
      by_cases hlt : ((bp 0).flatBeliefs ((bp 0).runBP env a n d)).getD (start + s) 0 < ((bp 0).flatBeliefs ((bp 0).runBP env a n d)).getD (start + j) 0
      · have := (htend v start hstart s (Finset.mem_range.1 hs)).eventually_lt (htend v start hstart j (Finset.mem_range.1 hj)) hlt
        filter_upwards [this] with T hT start' h' _
        cases h'
        exact hT
      · refine Eventually.of_forall (fun _ start' h' h'' => ?_)
        cases h'
        exact absurd h'' hlt
  obtain ⟨T0, hT0, hT⟩ := mem_nhdsGT_iff_exists_Ioo_subset.1 hevent
  refine ⟨T0, hT0, ?_⟩
  intro T h0 hlt
  have hev' := hT ⟨h0, hlt⟩
  obtain ⟨bs, rs, e1, e2, e3, e4⟩ := C35_partial h (hbp T h0.le) _ (hlen T h0.le) hev hreg hst
  refine ⟨bs, rs, e1, e2, e3, ?_⟩
  intro p hp v hv start hstart j hj huniq
  have hpv : p.1 ∈ vgs := by rw [← e3]; exact List.mem_map_of_mem (f := Prod.fst) hp
  have hvv : v ∈ graphVars vgs := mem_graphVars.2 ⟨p.1, hpv, hv⟩
  refine (e4 p hp).stateIn hv ?_
  have hbelief : ∀ s < v.n, s ≠ j → beliefOf (graphOf vgs hist).allScopes (readEv st.varsToStarts ((bp T).runBP env a n d).evidence)
        (readMsgs (graphOf vgs hist).allScopes ((bp T).runBP env a n d).ftovMsgs) v s
      < beliefOf (graphOf vgs hist).allScopes (readEv st.varsToStarts ((bp T).runBP env a n d).evidence)
        (readMsgs (graphOf vgs hist).allScopes ((bp T).runBP env a n d).ftovMsgs) v j := by
    intro s hs hne
    have := hev' v hvv j (Finset.mem_range.2 hj) s (Finset.mem_range.2 hs) start hstart (huniq s hs hne)
    rwa [getD_of_some (C34_flat h (hbp T h0.le) _ (hlen T h0.le) hev v start hstart s hs),
      getD_of_some (C34_flat h (hbp T h0.le) _ (hlen T h0.le) hev v start hstart j hj)] at this
  refine ⟨hj, fun s hs => ?_, fun s hs => hbelief s (hs.trans hj) hs.ne⟩
  by_cases hne : s = j
  · rw [hne]
  · exact (hbelief s hs hne).le

/-! ## Refutation and non-vacuity -/

/-- The evidence of the refutation: -2e5 for state 0 of variable 0 and 5 for state 0 of variable 2. -/
def exEvR : List ℝ := [-200000, 0, 0, 0, 5, 0]

/-- The AND factor of the graph `exHistR`. -/
def exAndR : SFac ℝ := ⟨[exVar 1, exVar 0, exVar 2], andRows 2⟩

theorem exScopesR : (graphOf exVars exHistR).allScopes = [[exVar 0, exVar 1], [exVar 1, exVar 2], [exVar 0, exVar 1], [exVar 1, exVar 0, exVar 2]] := rfl

theorem exRestR : (graphOf exVars exHistR).restState 3 = 1 := by
  have : ((graphOf exVars exHistR).scopesOf .or).length = 1 := rfl
  have e : ((graphOf exVars exHistR).scopesOf .enum).length = 2 := rfl
  simp [FactorGraph.restState, this, e]

theorem exTablesR : (graphOf exVars exHistR).tables.length = 2 := rfl

/-- The initial messages are 0. -/
theorem exInitR (out : Nat → SFac ℝ → (Nat → Nat → ℝ) → Nat → Nat → ℝ) (ev : Var → Nat → ℝ) (d : ℝ) {f i : Nat} {v : Var} {s : Nat}
    (he : IsEdge (graphOf exVars exHistR).allScopes f i v) :
    flRun out ((graphOf exVars exHistR).factors [0, 0, 0, 0]) ev d 0 (readMsgs (graphOf exVars exHistR).allScopes (List.replicate 18 0)) f i s = 0 := by
  have hz : readMsgs (graphOf exVars exHistR).allScopes (List.replicate 18 (0 : ℝ)) = fun _ _ _ => 0 := by
    funext f i s
    unfold readMsgs
    rw [List.getD_eq_getElem?_getD, List.getElem?_replicate]
    split <;> rfl
  rw [hz]
  obtain ⟨F, hF, hi, hsc⟩ := (graphOf exVars exHistR).factors_edge [0, 0, 0, 0] he
  obtain ⟨g1, g2⟩ : v.n = 2 ∧ ¬ Exceeded (graphOf exVars exHistR).allScopes v.n := by
    obtain ⟨vs, h1, h2⟩ := he
    have h3 : ∀ vs ∈ (graphOf exVars exHistR).allScopes, ∀ v ∈ vs, v.n = 2 ∧ ¬ Exceeded (graphOf exVars exHistR).allScopes v.n := by
      rw [exScopesR]; decide +kernel
    exact h3 vs (List.mem_of_getElem? h1) v (List.mem_of_getElem? h2)
  show flInit _ _ f i s = 0
  rw [flInit_at hF hi, FactorGraph.factors_scopes]
  unfold flNorm
  rw [if_neg g2, g1]
  simp [maxOf, List.range_succ]

/-- The messages to the AND factor. -/
theorem exInR (out : Nat → SFac ℝ → (Nat → Nat → ℝ) → Nat → Nat → ℝ) {j s : Nat} (hj : j < 3) (hs : s < 2) :
    tbIn ((graphOf exVars exHistR).factors [0, 0, 0, 0]) (readEv exStateR.varsToStarts exEvR) (flRun out ((graphOf exVars exHistR).factors [0, 0, 0, 0])
      (readEv exStateR.varsToStarts exEvR) 0 0 (readMsgs (graphOf exVars exHistR).allScopes (List.replicate 18 0))) 3 exAndR j s
    = if (j, s) = (1, 0) then -200000 else if (j, s) = (2, 0) then 5 else 0 := by
  have key : ∀ v, exAndR.scope[j]? = some v → tbIn ((graphOf exVars exHistR).factors [0, 0, 0, 0]) (readEv exStateR.varsToStarts exEvR)
      (flRun out ((graphOf exVars exHistR).factors [0, 0, 0, 0]) (readEv exStateR.varsToStarts exEvR) 0 0
        (readMsgs (graphOf exVars exHistR).allScopes (List.replicate 18 0))) 3 exAndR j s = readEv exStateR.varsToStarts exEvR v s := by
    intro v hv
    rw [tbIn_at hv, FactorGraph.factors_scopes]
    unfold varToFac
    rw [List.sum_eq_zero, add_zero]
    intro x hx
    obtain ⟨e, he, rfl⟩ := List.mem_map.1 hx
    exact exInitR out _ _ ((mem_edgesOf _ _ _ _).1 (List.mem_filter.1 he).1)
  interval_cases j
  · rw [key (exVar 1) rfl]
    interval_cases s <;> simp <;> rfl
  · rw [key (exVar 0) rfl]
    interval_cases s <;> simp <;> rfl
  · rw [key (exVar 2) rfl]
    interval_cases s <;> simp <;> rfl

theorem exAndRowsR : exAndR.rowsAt 0 0 = [([0, 0, 0], 0), ([0, 1, 0], 0)] ∧ exAndR.rowsAt 0 1 = [([1, 0, 0], 0), ([1, 1, 1], 0)] := by
  constructor <;> simp [exAndR, SFac.rowsAt, andRows, bits]

theorem exNotExceededR : ¬ Exceeded (graphOf exVars exHistR).allScopes 2 := by
  rw [exScopesR]; decide +kernel

/-- **C58 does not hold in general.** In the graph `exHistR`, the evidence of variable 0 is -2e5 in state 0. After one iteration, the AND factor sends 0
in state 1 to its first parent at temperature 0, and for temperatures tending to 0 the message tends to -5. -/
theorem C58_refuted {env : Env ℝ} (hexp : env.exp = Real.exp) (hlog : env.log = Real.log) (hw : env.wrapNeg = false) :
    readMsgs (graphOf exVars exHistR).allScopes ((exBPR 0).runBP env ⟨[0, 0, 0, 0], List.replicate 18 0, exEvR⟩ 1 0).ftovMsgs 3 0 1 = 0 ∧
    Tendsto (fun T => readMsgs (graphOf exVars exHistR).allScopes ((exBPR T).runBP env ⟨[0, 0, 0, 0], List.replicate 18 0, exEvR⟩ 1 0).ftovMsgs 3 0 1) (𝓝[>] 0) (𝓝 (-5)) := by
  have he : IsEdge (graphOf exVars exHistR).allScopes 3 0 (exVar 1) := ⟨_, by rw [exScopesR]; rfl, rfl⟩
  have hF : ((graphOf exVars exHistR).factors [0, 0, 0, 0])[3]? = some exAndR := rfl
  have hsc := FactorGraph.factors_scopes (graphOf exVars exHistR) [0, 0, 0, 0]
  have hval : ∀ out : Nat → SFac ℝ → (Nat → Nat → ℝ) → Nat → Nat → ℝ, ∀ x y,
      (∀ q : Nat → Nat → ℝ, (∀ j < 3, ∀ s < 2, q j s = if (j, s) = (1, 0) then -200000 else if (j, s) = (2, 0) then 5 else 0) →
        out 3 exAndR q 0 0 = x ∧ out 3 exAndR q 0 1 = y) →
      flRun out ((graphOf exVars exHistR).factors [0, 0, 0, 0]) (readEv exStateR.varsToStarts exEvR) 0 1
        (readMsgs (graphOf exVars exHistR).allScopes (List.replicate 18 0)) 3 0 1 = max (y - max x y) (-1000) := by
    intro out x y hxy
    obtain ⟨hx, hy⟩ := hxy _ (fun j hj s hs => exInR out hj hs)
    show flStep _ _ _ _ _ 3 0 1 = _
    rw [flStep_at (v := exVar 1) hF rfl, hsc]
    unfold flNorm
    rw [show (exVar 1).n = 2 from rfl, if_neg exNotExceededR]
    simp only [List.range_succ, List.range_zero, List.nil_append, List.append_nil, List.map_append, List.map_cons, List.map_nil, List.cons_append, hx, hy]
    simp [maxOf]
  constructor
  · rw [C57 exStateR_compiled (exBPR_create 0) env ⟨.inl hw, fun _ => by
      rw [show (graphOf exVars exHistR).numParents = 3 from rfl]; norm_num⟩ ⟨[0, 0, 0, 0], List.replicate 18 0, exEvR⟩ 1 0 rfl rfl rfl 3 0 (exVar 1) 1 he (by decide)]
    have h1 : lastTop [0, (-200000 : ℝ)] = 0 := by
      norm_num [lastTop, maxFloor, List.range_succ, List.filter]
    have h2 : secondTop [0, (-200000 : ℝ)] = 0 := by
      rw [secondTop, h1]
      norm_num [lastTop, maxFloor, List.range_succ, List.filter]
    rw [hval _ 0 0]
    · norm_num
    · intro q hq
      have hp : prefs 1 2 q = [0, -200000] := by
        simp only [prefs, List.range_succ, List.range_zero, List.nil_append, List.map_append, List.map_cons, List.map_nil, List.cons_append]
        rw [hq 0 (by omega) _ (by omega), hq 0 (by omega) _ (by omega), hq 1 (by omega) _ (by omega), hq 1 (by omega) _ (by omega)]
        simp
      unfold flOut
      rw [exTablesR, exRestR]
      simp only [show ¬ 3 < 2 by omega, if_false, zero_ne_one, if_true, and_true]
      rw [show exAndR.scope.length - 1 = 2 from rfl, hp, hq 2 (by omega) _ (by omega), hq 2 (by omega) _ (by omega)]
      norm_num [flLogical, h1, h2]
  · have := C58_limit_tendsto exStateR_compiled (fun T _ => exBPR_create T) env hexp hlog (.inl hw) ⟨[0, 0, 0, 0], List.replicate 18 0, exEvR⟩ 1 (d := 0) (by norm_num) rfl rfl rfl
      3 0 (exVar 1) 1 he (by decide)
    rw [hval _ 5 0] at this
    · norm_num at this
      exact this
    · intro q hq
      unfold flOutLimit
      rw [exTablesR, exRestR]
      simp only [show ¬ 3 < 2 by omega, if_false]
      refine ⟨?_, sub_self _⟩
      rw [exAndRowsR.1, exAndRowsR.2, show exAndR.scope.length = 3 from rfl]
      simp only [List.map_cons, List.map_nil, scoreBut]
      rw [show (List.range 3).filter (fun j => j ≠ 0) = [1, 2] from rfl]
      simp only [List.map_cons, List.map_nil, List.sum_cons, List.sum_nil, List.getD_cons_succ, List.getD_cons_zero]
      rw [hq 1 (by omega) 0 (by omega), hq 1 (by omega) 1 (by omega), hq 2 (by omega) 0 (by omega), hq 2 (by omega) 1 (by omega)]
      norm_num [maxOf]

/-- Non-vacuity of C58: the graph `exHistR` of two enumeration factors, an OR and an AND. -/
example {env : Env ℝ} (hexp : env.exp = Real.exp) (hlog : env.log = Real.log) (hw : env.wrapNeg = false) (n : Nat) (v : Var) (start : Nat)
    (hv : exStateR.varsToStarts v = some start) (s : Nat) (hs : s < v.n) :
    Tendsto (fun T => ((exBPR T).flatBeliefs ((exBPR T).runBP env ⟨[0, 10 ^ 7, 2, 0], List.replicate 18 0, [0, 3, 1, 0, 0, 2]⟩ n (1 / 2))).getD (start + s) 0) (𝓝[>] 0)
      (𝓝 (((exBPR 0).flatBeliefs ((exBPR 0).runBP env ⟨[0, 10 ^ 7, 2, 0], List.replicate 18 0, [0, 3, 1, 0, 0, 2]⟩ n (1 / 2))).getD (start + s) 0)) := by
  refine (C58_tendsto_partial exStateR_compiled (fun T _ => exBPR_create T) env hexp hlog ⟨.inl hw, fun _ => by
    rw [show (graphOf exVars exHistR).numParents = 3 from rfl]; norm_num⟩ ⟨[0, 10 ^ 7, 2, 0], List.replicate 18 0, [0, 3, 1, 0, 0, 2]⟩ n (d := 1 / 2) (by norm_num) rfl rfl rfl ?_).2
    v start hv s hs
  have hev : ∀ v s, |readEv exStateR.varsToStarts [0, 3, 1, 0, 0, (2 : ℝ)] v s| ≤ 3 := by
    intro v s
    unfold readEv List.getD
    cases e : ([0, 3, 1, 0, 0, (2 : ℝ)])[(exStateR.varsToStarts v).getD 0 + s]? with
    | none => norm_num
    | some x =>
      have hl : ∀ x ∈ [0, 3, 1, 0, 0, (2 : ℝ)], |x| ≤ 3 := by simp only [List.forall_mem_cons]; norm_num
      exact hl x (List.mem_of_getElem? e)
  intro f vs hvs hf
  by_cases hl : vs.length = 2
  · exact .inl hl
  · right
    have hvs' : vs = [exVar 1, exVar 0, exVar 2] := by
      rw [exScopesR] at hvs
      have := List.mem_of_getElem? hvs
      simp only [List.mem_cons, List.not_mem_nil, or_false] at this
      rcases this with rfl | rfl | rfl | rfl
      · exact absurd rfl hl
      · exact absurd rfl hl
      · exact absurd rfl hl
      · rfl
    subst hvs'
    refine ⟨0, by decide, 1, by decide, by decide, ?_⟩
    intro i _ w hw'
    have hd : (edgesOf (graphOf exVars exHistR).allScopes w).length ≤ 4 := by
      have h3 : ∀ vs ∈ (graphOf exVars exHistR).allScopes, ∀ v ∈ vs, (edgesOf (graphOf exVars exHistR).allScopes v).length ≤ 4 := by
        rw [exScopesR]; decide +kernel
      exact h3 _ (List.mem_of_getElem? hvs) w (List.mem_of_getElem? hw')
    have hd' : ((edgesOf (graphOf exVars exHistR).allScopes w).length : ℝ) ≤ 4 := by exact_mod_cast hd
    have h1 := abs_le.1 (hev w (1 - (graphOf exVars exHistR).restState f))
    have h2 := abs_le.1 (hev w ((graphOf exVars exHistR).restState f))
    linarith

end PGMax
