import Verif.Lemmas.Stability
import Verif.Props.C58
import Verif.Props.C63

/-! # C65: small changes of the inputs and rounding errors have small effects -/

namespace PGMax

variable {κ : Type _} {vgs : List (VGroup κ)} {hist : List (AddArg ℝ)} {garbage : Garbage} {st : FGState κ ℝ}

/-- The conclusion of C65: after `n` iterations, messages differ by at most `D`, beliefs by at most `ε` plus `D` for every edge of the variable, and wherever the belief of one state
exceeds the others in the second run by more than twice that, `decode_map_states` returns this state in the first run. -/
def StaysNear [DecidableEq κ] (vgs : List (VGroup κ)) (hist : List (AddArg ℝ)) (st : FGState κ ℝ) (bp : BPFun κ ℝ) (r r' : BPArrays ℝ) (ε D : ℝ) : Prop :=
  (∀ f i v s, IsEdge (graphOf vgs hist).allScopes f i v → s < v.n →
    |readMsgs (graphOf vgs hist).allScopes r.ftovMsgs f i s - readMsgs (graphOf vgs hist).allScopes r'.ftovMsgs f i s| ≤ D) ∧
  (∀ v start, st.varsToStarts v = some start → ∀ s < v.n,
    |(bp.flatBeliefs r).getD (start + s) 0 - (bp.flatBeliefs r').getD (start + s) 0| ≤ ε + D * ((edgesOf (graphOf vgs hist).allScopes v).length : ℝ)) ∧
  ((∀ g ∈ vgs, g.Regular) → (∀ g ∈ vgs, g.Stated) → ∃ bs rs, bp.getBeliefs r = .ok bs ∧ decodeMapStates bs = .ok rs ∧ rs.map (·.1) = vgs ∧
    ∀ p ∈ rs, ∀ v ∈ p.1.variables, ∀ start, st.varsToStarts v = some start → ∀ j < v.n,
      (∀ s < v.n, s ≠ j → (bp.flatBeliefs r').getD (start + s) 0 + 2 * (ε + D * ((edgesOf (graphOf vgs hist).allScopes v).length : ℝ)) < (bp.flatBeliefs r').getD (start + j) 0) →
      p.1.StateIn v j p.2)

theorem Compiled.staysNear [DecidableEq κ] (h : Compiled vgs hist garbage st) {state : BPState ℝ} {T : ℝ} {bp : BPFun κ ℝ} (hbp : BP.create st state T = .ok bp)
    {r r' : BPArrays ℝ} {ε D : ℝ} (hε : 0 ≤ ε) (hl : r.ftovMsgs.length = st.totalFactorNumStates) (hl' : r'.ftovMsgs.length = st.totalFactorNumStates)
    (hev : r.evidence.length = st.numVarStates) (hev' : r'.evidence.length = st.numVarStates) (hne : Near ε r.evidence r'.evidence)
    (hmsg : ∀ f i v s, IsEdge (graphOf vgs hist).allScopes f i v → s < v.n →
      |readMsgs (graphOf vgs hist).allScopes r.ftovMsgs f i s - readMsgs (graphOf vgs hist).allScopes r'.ftovMsgs f i s| ≤ D) :
    StaysNear vgs hist st bp r r' ε D := by
  have hbel : ∀ v start, st.varsToStarts v = some start → ∀ s < v.n,
      |(bp.flatBeliefs r).getD (start + s) 0 - (bp.flatBeliefs r').getD (start + s) 0| ≤ ε + D * ((edgesOf (graphOf vgs hist).allScopes v).length : ℝ) := by
    intro v start hv s hs
    rw [getD_of_some (C34_flat h hbp _ hl hev v start hv s hs), getD_of_some (C34_flat h hbp _ hl' hev' v start hv s hs)]
    exact belief_near hs (hne.getD hε _) hmsg
  refine ⟨hmsg, hbel, ?_⟩
  intro hreg hst
  obtain ⟨bs, rs, e1, e2, e3, e4⟩ := C35_partial h hbp _ hl hev hreg hst
  refine ⟨bs, rs, e1, e2, e3, ?_⟩
  intro p hp v hv start hstart j hj hlead
  refine (e4 p hp).stateIn hv ?_
  have hb : ∀ s < v.n, s ≠ j → beliefOf (graphOf vgs hist).allScopes (readEv st.varsToStarts r.evidence) (readMsgs (graphOf vgs hist).allScopes r.ftovMsgs) v s
      < beliefOf (graphOf vgs hist).allScopes (readEv st.varsToStarts r.evidence) (readMsgs (graphOf vgs hist).allScopes r.ftovMsgs) v j := by
    intro s hs hne
    have h1 := hlead s hs hne
    have h2 := abs_le.1 (hbel v start hstart s hs)
    have h3 := abs_le.1 (hbel v start hstart j hj)
    rw [← getD_of_some (d := 0) (C34_flat h hbp _ hl hev v start hstart s hs), ← getD_of_some (d := 0) (C34_flat h hbp _ hl hev v start hstart j hj)]
    linarith
  refine ⟨hj, fun s hs => ?_, fun s hs => hb s (hs.trans hj) hs.ne⟩
  by_cases hne : s = j
  · rw [hne]
  · exact (hb s hs hne).le

/-- **C65, positive temperatures.** Two runs of `n` iterations at the same temperature `T > 0` with damping `d`, whose log potentials and evidence differ by at most `ε` in every entry and
whose initial messages differ by at most `δ` in every entry. The messages differ by at most `spread L A ε (2 δ) n`, the beliefs and decoded states accordingly. For all numbers, and for all graphs, with loops and with OR
and AND factors; `L` and `A` bound the number of incoming messages and of variables of a factor. -/
theorem C65_sum [DecidableEq κ] (h : Compiled vgs hist garbage st) {state : BPState ℝ} {bp : BPFun κ ℝ} {T : ℝ} (hT : 0 < T) (hbp : BP.create st state T = .ok bp)
    (env : Env ℝ) (hexp : env.exp = Real.exp) (hlog : env.log = Real.log) (hseg : SegFits env (graphOf vgs hist)) (a a' : BPArrays ℝ) (n : Nat) {d : ℝ} (hd : 0 ≤ d ∧ d ≤ 1)
    (hlp : a.logPotentials.length = st.logPotentials.length) (hev : a.evidence.length = st.numVarStates) (hm : a.ftovMsgs.length = st.totalFactorNumStates)
    {ε δ L A : ℝ} (hε : 0 ≤ ε) (hδ : 0 ≤ δ) (hnlp : Near ε a.logPotentials a'.logPotentials) (hnev : Near ε a.evidence a'.evidence) (hnm : Near δ a.ftovMsgs a'.ftovMsgs)
    (hin : Inputs (graphOf vgs hist).allScopes L A) :
    StaysNear vgs hist st bp (bp.runBP env a n d) (bp.runBP env a' n d) ε (spread L A ε (2 * δ) n) := by
  have hlp' := hnlp.length_eq.symm.trans hlp
  have hev' := hnev.length_eq.symm.trans hev
  have hm' := hnm.length_eq.symm.trans hm
  have hsc := (graphOf vgs hist).factors_scopes a.logPotentials
  have hpar : T = 0 → (graphOf vgs hist).numParents ≤ 100000 := fun h0 => absurd h0 hT.ne'
  refine h.staysNear hbp hε (h.run_read hbp env ⟨hseg, hpar⟩ a d hlp hev n hm).1 (h.run_read hbp env ⟨hseg, hpar⟩ a' d hlp' hev' n hm').1 hev hev' hnev ?_
  intro f i v s he hs
  rw [C57_sum h hT hbp env hexp hlog hseg a n d hlp hev hm f i v s he hs, C57_sum h hT hbp env hexp hlog hseg a' n d hlp' hev' hm' f i v s he hs]
  exact flRun_near (ruleLip_sum hT _) (h.inNear hε hnlp hnev) (by rw [hsc]; exact hin) hδ (fun f i v s _ _ => hnm.getD hδ _) hd n f i v s (by rw [hsc]; exact he) hs

/-- **C65, partial.** The same at temperature 0, if the evidence is moderate at two parents of every logical factor with several parents.
Missing: other evidence of logical factors (`C65_refuted`). -/
theorem C65_partial [DecidableEq κ] (h : Compiled vgs hist garbage st) {state : BPState ℝ} {bp : BPFun κ ℝ} (hbp : BP.create st state 0 = .ok bp)
    (env : Env ℝ) (hfit : Fits env (graphOf vgs hist) (0 : ℝ)) (a a' : BPArrays ℝ) (n : Nat) {d : ℝ} (hd : 0 ≤ d ∧ d ≤ 1)
    (hlp : a.logPotentials.length = st.logPotentials.length) (hev : a.evidence.length = st.numVarStates) (hm : a.ftovMsgs.length = st.totalFactorNumStates)
    {ε δ L A : ℝ} (hε : 0 ≤ ε) (hδ : 0 ≤ δ) (hnlp : Near ε a.logPotentials a'.logPotentials) (hnev : Near ε a.evidence a'.evidence) (hnm : Near δ a.ftovMsgs a'.ftovMsgs)
    (hin : Inputs (graphOf vgs hist).allScopes L A) (hlmod : LogicalModerate (graphOf vgs hist) (readEv st.varsToStarts a.evidence))
    (hlmod' : LogicalModerate (graphOf vgs hist) (readEv st.varsToStarts a'.evidence)) :
    StaysNear vgs hist st bp (bp.runBP env a n d) (bp.runBP env a' n d) ε (spread L A ε (2 * δ) n) := by
  have hlp' := hnlp.length_eq.symm.trans hlp
  have hev' := hnev.length_eq.symm.trans hev
  have hm' := hnm.length_eq.symm.trans hm
  have hsc := (graphOf vgs hist).factors_scopes a.logPotentials
  refine h.staysNear hbp hε (h.run_read hbp env hfit a d hlp hev n hm).1 (h.run_read hbp env hfit a' d hlp' hev' n hm').1 hev hev' hnev ?_
  intro f i v s he hs
  rw [h.run_limit hbp env hfit a n d hlp hev hm hlmod f i v s he hs, h.run_limit hbp env hfit a' n d hlp' hev' hm' hlmod' f i v s he hs]
  exact flRun_near (ruleLip_limit _) (h.inNear hε hnlp hnev) (by rw [hsc]; exact hin) hδ (fun f i v s _ _ => hnm.getD hδ _) hd n f i v s (by rw [hsc]; exact he) hs

/-- Messages `x k` after `k` iterations that are computed with an error of at most `η` in every entry: of the initial normalisation, and of every update. -/
structure Rounded (bp : BPFun κ ℝ) (env : Env ℝ) (a : BPArrays ℝ) (d η : ℝ) (x : Nat → List ℝ) : Prop where
  init : Near η (x 0) (normalizeAndClip env a.ftovMsgs bp.edgesNumStates bp.maxMsgSize)
  step : ∀ k, Near η (x (k + 1)) (bp.step env a.logPotentials a.evidence d (x k))

theorem Compiled.rounded (h : Compiled vgs hist garbage st) {state : BPState ℝ} {T : ℝ} {bp : BPFun κ ℝ} (hbp : BP.create st state T = .ok bp)
    (env : Env ℝ) (hseg : SegFits env (graphOf vgs hist)) (a : BPArrays ℝ) {d : ℝ} (hd : 0 ≤ d ∧ d ≤ 1)
    (hlp : a.logPotentials.length = st.logPotentials.length) (hev : a.evidence.length = st.numVarStates) (hm : a.ftovMsgs.length = st.totalFactorNumStates)
    {out : Nat → SFac ℝ → (Nat → Nat → ℝ) → Nat → Nat → ℝ} (hlip : RuleLip out) (hcongr : RuleCongr ((graphOf vgs hist).factors a.logPotentials) out)
    {P : List ℝ → Prop} (hout : ∀ msgs : List ℝ, msgs.length = st.totalFactorNumStates → P msgs →
      RuleAt env bp (graphOf vgs hist) a.logPotentials (passVarToFac env msgs a.evidence bp.varStatesForEdges) out)
    (hP : ∀ n, P (bp.runBP env a n d).ftovMsgs) {η L A : ℝ} (hη : 0 ≤ η) (hin : Inputs (graphOf vgs hist).allScopes L A) {x : Nat → List ℝ} (hx : Rounded bp env a d η x)
    (hPx : ∀ n, P (x n)) (n : Nat) : (x n).length = st.totalFactorNumStates ∧ (bp.runBP env a n d).ftovMsgs.length = st.totalFactorNumStates ∧
      ∀ f i v s, IsEdge (graphOf vgs hist).allScopes f i v → s < v.n →
      |readMsgs (graphOf vgs hist).allScopes (x n) f i s - readMsgs (graphOf vgs hist).allScopes (bp.runBP env a n d).ftovMsgs f i s| ≤ η * ∑ k ∈ Finset.range (n + 1), (4 * L) ^ k := by
  have hsc := (graphOf vgs hist).factors_scopes a.logPotentials
  induction n with
  | zero =>
    have h1 := h.normalize_length hbp env _ hm
    have h2 := hx.init.length_eq
    refine ⟨by rw [h2, h1], h1, fun f i v s he hs => ?_⟩
    simp only [zero_add, Finset.range_one, Finset.sum_singleton, pow_zero, mul_one]
    exact hx.init.getD hη _
  | succ n ih =>
    obtain ⟨ih1, ih2, ih3⟩ := ih
    obtain ⟨-, -, s3, -⟩ := h.step_norm hbp env hseg a.logPotentials a.evidence (x n) d hlp ih1
    obtain ⟨-, -, t3, -⟩ := h.step_norm hbp env hseg a.logPotentials a.evidence (bp.runBP env a n d).ftovMsgs d hlp ih2
    have e : (bp.runBP env a (n + 1) d).ftovMsgs = bp.step env a.logPotentials a.evidence d (bp.runBP env a n d).ftovMsgs := iterate_succ' _ _ _
    refine ⟨by rw [(hx.step n).length_eq, s3], by rw [e, t3], fun f i v s he hs => ?_⟩
    rw [e]
    have h1 := (hx.step n).getD hη (edgeStart (graphOf vgs hist).allScopes f i + s)
    have hD : 0 ≤ η * ∑ k ∈ Finset.range (n + 1), (4 * L) ^ k :=
      mul_nonneg hη (Finset.sum_nonneg (fun k _ => pow_nonneg (by linarith [hin.one_le]) _))
    have h2 := flStep_near hlip (h.inNear le_rfl (List.forall₂_same.2 (fun _ _ => by simp)) (List.forall₂_same.2 (fun _ _ => by simp)) :
      InNear 0 ((graphOf vgs hist).factors a.logPotentials) ((graphOf vgs hist).factors a.logPotentials) (readEv st.varsToStarts a.evidence) (readEv st.varsToStarts a.evidence))
      (by rw [hsc]; exact hin) hD (by rw [hsc]; exact ih3) hd f i v s (by rw [hsc]; exact he) hs
    rw [← h.step_fl hbp env hseg _ _ (x n) d hlp hev ih1 out hcongr (hout _ ih1 (hPx n)) (fun _ _ _ _ _ _ => rfl) f i v s he hs,
      ← h.step_fl hbp env hseg _ _ (bp.runBP env a n d).ftovMsgs d hlp hev ih2 out hcongr (hout _ ih2 (hP n)) (fun _ _ _ _ _ _ => rfl) f i v s he hs] at h2
    have e2 : η * ∑ k ∈ Finset.range (n + 1 + 1), (4 * L) ^ k = η + 4 * (L * (η * ∑ k ∈ Finset.range (n + 1), (4 * L) ^ k) + A * 0) := by
      rw [Finset.sum_range_succ' _ (n + 1)]
      simp only [pow_succ, pow_zero]
      rw [← Finset.sum_mul]
      ring
    rw [e2]
    have h3 := abs_le.1 h1
    have h4 := abs_le.1 h2
    unfold readMsgs at h4 ⊢
    rw [abs_le]
    constructor <;> linarith

/-- **C65, rounding, positive temperatures.** If the initial normalisation and every update are computed with an error of at most `η` in every entry, the messages after `n` iterations are within
`η ∑ (4 L)^k`, `k ≤ n`, of those of `run_bp`, and the beliefs and decoded states accordingly. For all numbers and all graphs. -/
theorem C65_rounding_sum [DecidableEq κ] (h : Compiled vgs hist garbage st) {state : BPState ℝ} {bp : BPFun κ ℝ} {T : ℝ} (hT : 0 < T) (hbp : BP.create st state T = .ok bp)
    (env : Env ℝ) (hexp : env.exp = Real.exp) (hlog : env.log = Real.log) (hseg : SegFits env (graphOf vgs hist)) (a : BPArrays ℝ) (n : Nat) {d : ℝ} (hd : 0 ≤ d ∧ d ≤ 1)
    (hlp : a.logPotentials.length = st.logPotentials.length) (hev : a.evidence.length = st.numVarStates) (hm : a.ftovMsgs.length = st.totalFactorNumStates)
    {η L A : ℝ} (hη : 0 ≤ η) (hin : Inputs (graphOf vgs hist).allScopes L A) {x : Nat → List ℝ} (hx : Rounded bp env a d η x) :
    StaysNear vgs hist st bp ⟨a.logPotentials, x n, a.evidence⟩ (bp.runBP env a n d) 0 (η * ∑ k ∈ Finset.range (n + 1), (4 * L) ^ k) := by
  obtain ⟨h1, h2, h3⟩ := h.rounded (P := fun _ => True) hbp env hseg a hd hlp hev hm (ruleLip_sum hT _) (h.ruleSum_congr T _)
    (fun msgs hml _ => h.ruleSum hT hbp hexp hlog _ _ hlp (h.step_norm hbp env hseg a.logPotentials a.evidence msgs d hlp hml).1) (fun _ => trivial) hη hin hx (fun _ => trivial) n
  exact h.staysNear hbp le_rfl h1 h2 hev hev (List.forall₂_same.2 (fun _ _ => by simp)) h3

/-- **C65, rounding, partial.** The same at temperature 0, for evidence that is moderate at two parents of every logical factor with several parents, and if the rounded messages are in the range
`[-1000, 0]` of normalised messages. Missing: other evidence of logical factors (`C65_refuted`). -/
theorem C65_rounding_partial [DecidableEq κ] (h : Compiled vgs hist garbage st) {state : BPState ℝ} {bp : BPFun κ ℝ} (hbp : BP.create st state 0 = .ok bp)
    (env : Env ℝ) (hfit : Fits env (graphOf vgs hist) (0 : ℝ)) (a : BPArrays ℝ) (n : Nat) {d : ℝ} (hd : 0 ≤ d ∧ d ≤ 1)
    (hlp : a.logPotentials.length = st.logPotentials.length) (hev : a.evidence.length = st.numVarStates) (hm : a.ftovMsgs.length = st.totalFactorNumStates)
    (hlmod : LogicalModerate (graphOf vgs hist) (readEv st.varsToStarts a.evidence))
    {η L A : ℝ} (hη : 0 ≤ η) (hin : Inputs (graphOf vgs hist).allScopes L A) {x : Nat → List ℝ} (hx : Rounded bp env a d η x) (hrange : ∀ k, ∀ z ∈ x k, -1000 ≤ z ∧ z ≤ 0) :
    StaysNear vgs hist st bp ⟨a.logPotentials, x n, a.evidence⟩ (bp.runBP env a n d) 0 (η * ∑ k ∈ Finset.range (n + 1), (4 * L) ^ k) := by
  obtain ⟨h1, h2, h3⟩ := h.rounded (P := fun msgs => Clipped (graphOf vgs hist).allScopes (readMsgs (graphOf vgs hist).allScopes msgs)) hbp env hfit.seg a hd hlp hev hm
    (ruleLip_limit _) (h.ruleLimit_congr _) (fun msgs hml hclip => h.ruleLimit hbp env hfit _ _ msgs hlp hev hml hclip hlmod)
    (fun n f i v s he hs => (C31_run_partial h hbp env hfit.seg a d n hlp hm f i v he).1 s hs) hη hin hx (fun k f i v s he hs => by
      unfold readMsgs
      rw [List.getD_eq_getElem?_getD]
      cases hz : (x k)[edgeStart (graphOf vgs hist).allScopes f i + s]? with
      | none => norm_num
      | some z => exact hrange k z (List.mem_of_getElem? hz)) n
  exact h.staysNear hbp le_rfl h1 h2 hev hev (List.forall₂_same.2 (fun _ _ => by simp)) h3

/-! ## Refutation and non-vacuity -/

/-- The messages to the AND factor of the graph `exHistR` in the first iteration, for the evidence `x` in state 0 of variable 0 and 5 in state 0 of variable 2. -/
theorem exInX (x : ℝ) (out : Nat → SFac ℝ → (Nat → Nat → ℝ) → Nat → Nat → ℝ) {j s : Nat} (hj : j < 3) (hs : s < 2) :
    tbIn ((graphOf exVars exHistR).factors [0, 0, 0, 0]) (readEv exStateR.varsToStarts [x, 0, 0, 0, 5, 0]) (flRun out ((graphOf exVars exHistR).factors [0, 0, 0, 0])
      (readEv exStateR.varsToStarts [x, 0, 0, 0, 5, 0]) 0 0 (readMsgs (graphOf exVars exHistR).allScopes (List.replicate 18 0))) 3 exAndR j s
    = if (j, s) = (1, 0) then x else if (j, s) = (2, 0) then 5 else 0 := by
  have key : ∀ v, exAndR.scope[j]? = some v → tbIn ((graphOf exVars exHistR).factors [0, 0, 0, 0]) (readEv exStateR.varsToStarts [x, 0, 0, 0, 5, 0])
      (flRun out ((graphOf exVars exHistR).factors [0, 0, 0, 0]) (readEv exStateR.varsToStarts [x, 0, 0, 0, 5, 0]) 0 0
        (readMsgs (graphOf exVars exHistR).allScopes (List.replicate 18 0))) 3 exAndR j s = readEv exStateR.varsToStarts [x, 0, 0, 0, 5, 0] v s := by
    intro v hv
    rw [tbIn_at hv, FactorGraph.factors_scopes]
    unfold varToFac
    rw [List.sum_eq_zero, add_zero]
    intro x hx
    obtain ⟨e, he, rfl⟩ := List.mem_map.1 hx
    exact exInitR out _ _ ((mem_edgesOf _ _ _ _).1 (List.mem_filter.1 he).1)
  interval_cases j
  · rw [key (exVar 1) rfl]
    interval_cases s <;> simp <;> rfl
  · rw [key (exVar 0) rfl]
    interval_cases s <;> simp <;> rfl
  · rw [key (exVar 2) rfl]
    interval_cases s <;> simp <;> rfl

/-- **C65 does not hold in general at temperature 0.** In the graph `exHistR`, the evidence of variable 0 in state 0 is -1e5 in one run and less by any `ε > 0` in the other. After one iteration, the message of
the AND factor to its first parent in state 1 is -5 in the one and 0 in the other. -/
theorem C65_refuted {env : Env ℝ} (hw : env.wrapNeg = false) {ε : ℝ} (hε : 0 < ε) :
    readMsgs (graphOf exVars exHistR).allScopes ((exBPR 0).runBP env ⟨[0, 0, 0, 0], List.replicate 18 0, [-100000, 0, 0, 0, 5, 0]⟩ 1 0).ftovMsgs 3 0 1 = -5 ∧
    readMsgs (graphOf exVars exHistR).allScopes ((exBPR 0).runBP env ⟨[0, 0, 0, 0], List.replicate 18 0, [-100000 - ε, 0, 0, 0, 5, 0]⟩ 1 0).ftovMsgs 3 0 1 = 0 := by
  have he : IsEdge (graphOf exVars exHistR).allScopes 3 0 (exVar 1) := ⟨_, by rw [exScopesR]; rfl, rfl⟩
  have hF : ((graphOf exVars exHistR).factors [0, 0, 0, 0])[3]? = some exAndR := rfl
  have hsc := FactorGraph.factors_scopes (graphOf exVars exHistR) [0, 0, 0, 0]
  have hval : ∀ x y : ℝ, flLogical [0, x] 5 0 = y → readMsgs (graphOf exVars exHistR).allScopes
      ((exBPR 0).runBP env ⟨[0, 0, 0, 0], List.replicate 18 0, [x, 0, 0, 0, 5, 0]⟩ 1 0).ftovMsgs 3 0 1 = max (0 - max y 0) (-1000) := by
    intro x y hy
    rw [C57 exStateR_compiled (exBPR_create 0) env ⟨.inl hw, fun _ => by
      rw [show (graphOf exVars exHistR).numParents = 3 from rfl]; norm_num⟩ ⟨[0, 0, 0, 0], List.replicate 18 0, [x, 0, 0, 0, 5, 0]⟩ 1 0 rfl rfl rfl 3 0 (exVar 1) 1 he (by decide)]
    show flStep _ _ _ _ _ 3 0 1 = _
    rw [flStep_at (v := exVar 1) hF rfl, hsc]
    have hq : ∀ j < 3, ∀ s < 2, _ := fun j hj s hs => exInX x (flOut (graphOf exVars exHistR)) hj hs
    generalize tbIn ((graphOf exVars exHistR).factors [0, 0, 0, 0]) (readEv exStateR.varsToStarts [x, 0, 0, 0, 5, 0])
      (flRun (flOut (graphOf exVars exHistR)) ((graphOf exVars exHistR).factors [0, 0, 0, 0]) (readEv exStateR.varsToStarts [x, 0, 0, 0, 5, 0]) 0 0
        (readMsgs (graphOf exVars exHistR).allScopes (List.replicate 18 0))) 3 exAndR = q at hq ⊢
    have hp : prefs 1 2 q = [0, x] := by
      simp only [prefs, List.range_succ, List.range_zero, List.nil_append, List.map_append, List.map_cons, List.map_nil, List.cons_append]
      rw [hq 0 (by omega) _ (by omega), hq 0 (by omega) _ (by omega), hq 1 (by omega) _ (by omega), hq 1 (by omega) _ (by omega)]
      simp
    have h1 : flOut (graphOf exVars exHistR) 3 exAndR q 0 0 = y := by
      unfold flOut
      rw [exTablesR, exRestR]
      simp only [show ¬ 3 < 2 by omega, if_false, zero_ne_one]
      rw [show exAndR.scope.length - 1 = 2 from rfl, hp, hq 2 (by omega) _ (by omega), hq 2 (by omega) _ (by omega), ← hy]
      simp
    have h2 : flOut (graphOf exVars exHistR) 3 exAndR q 0 1 = 0 := by
      unfold flOut
      rw [exTablesR, exRestR]
      simp
    unfold flNorm
    rw [show (exVar 1).n = 2 from rfl, if_neg exNotExceededR]
    simp only [List.range_succ, List.range_zero, List.nil_append, List.append_nil, List.map_append, List.map_cons, List.map_nil, List.cons_append, h1, h2]
    simp [maxOf]
  have hlt : ∀ x : ℝ, x ≤ -100000 → lastTop [0, x] = 0 := by
    intro x hx
    simp [lastTop, maxFloor, List.range_succ, List.filter, show x ≤ 0 by linarith, show ¬ 0 ≤ x by linarith, show ¬ x = 0 by linarith]
  constructor
  · rw [hval _ 5 ?_]
    · norm_num
    · have h1 := hlt (-100000) le_rfl
      have h2 : secondTop [0, (-100000 : ℝ)] = 1 := by
        rw [secondTop, h1]
        norm_num [lastTop, maxFloor, List.range_succ, List.filter]
      norm_num [flLogical, h1, h2]
  · rw [hval _ 0 ?_]
    · norm_num
    · have h1 := hlt (-100000 - ε) (by linarith)
      have h2 : secondTop [0, (-100000 - ε : ℝ)] = 0 := by
        rw [secondTop, h1]
        simp [lastTop, maxFloor, List.range_succ, List.filter, hε.le, hε.ne']
      have h5 : max 0 (-100000 - ε) = 0 := max_eq_left (by linarith)
      norm_num [flLogical, h1, h2, h5]

theorem exInputsR : Inputs (graphOf exVars exHistR).allScopes 12 4 := by
  refine ⟨by norm_num, ?_, ?_⟩
  · have h3 : ∀ vs ∈ (graphOf exVars exHistR).allScopes, inputsBut (graphOf exVars exHistR).allScopes vs vs.length ≤ 12 := by
      rw [exScopesR]; decide +kernel
    intro vs hvs
    exact_mod_cast h3 vs hvs
  · have h3 : ∀ vs ∈ (graphOf exVars exHistR).allScopes, vs.length + 1 ≤ 4 := by
      rw [exScopesR]; decide +kernel
    intro vs hvs
    exact_mod_cast h3 vs hvs

/-- Non-vacuity of C65 at positive temperatures: the graph `exHistR` of two enumeration factors, an OR and an AND with loops. -/
example {env : Env ℝ} (hexp : env.exp = Real.exp) (hlog : env.log = Real.log) (hw : env.wrapNeg = false) (n : Nat) :
    StaysNear exVars exHistR exStateR (exBPR 1) ((exBPR 1).runBP env ⟨[0, 10 ^ 7, 2, 0], List.replicate 18 0, [0, 3, 1, 0, 0, 2]⟩ n (1 / 2))
      ((exBPR 1).runBP env ⟨[1 / 10, 10 ^ 7, 2, 0], List.replicate 18 (-1), [0, 3, 1, 1 / 20, 0, 2]⟩ n (1 / 2)) (1 / 10) (spread 12 4 (1 / 10) (2 * 1) n) :=
  C65_sum exStateR_compiled (by norm_num) (exBPR_create 1) env hexp hlog (.inl hw) ⟨[0, 10 ^ 7, 2, 0], List.replicate 18 0, [0, 3, 1, 0, 0, 2]⟩
    ⟨[1 / 10, 10 ^ 7, 2, 0], List.replicate 18 (-1), [0, 3, 1, 1 / 20, 0, 2]⟩ n (by norm_num) rfl rfl rfl (by norm_num) (by norm_num)
    (by unfold Near; norm_num [abs_of_neg]) (by unfold Near; norm_num [abs_of_neg]) (by unfold Near; norm_num [List.replicate]) exInputsR

/-- Non-vacuity of the rounding theorem: every message is too small by 1/10 after every update. -/
example {env : Env ℝ} (hexp : env.exp = Real.exp) (hlog : env.log = Real.log) (hw : env.wrapNeg = false) : ∃ x : Nat → List ℝ,
    Rounded (exBPR 1) env ⟨[0, 10 ^ 7, 2, 0], List.replicate 18 0, [0, 3, 1, 0, 0, 2]⟩ (1 / 2) (1 / 10) x ∧
    (∀ k, x (k + 1) = ((exBPR 1).step env [0, 10 ^ 7, 2, 0] [0, 3, 1, 0, 0, 2] (1 / 2) (x k)).map (· - 1 / 10)) ∧
    ∀ n, StaysNear exVars exHistR exStateR (exBPR 1) ⟨[0, 10 ^ 7, 2, 0], x n, [0, 3, 1, 0, 0, 2]⟩
      ((exBPR 1).runBP env ⟨[0, 10 ^ 7, 2, 0], List.replicate 18 0, [0, 3, 1, 0, 0, 2]⟩ n (1 / 2)) 0 (1 / 10 * ∑ k ∈ Finset.range (n + 1), (4 * 12) ^ k) := by
  have key : ∀ l : List ℝ, Near (1 / 10) (l.map (· - 1 / 10)) l := by
    intro l
    refine List.forall₂_map_left_iff.2 (List.forall₂_same.2 (fun x _ => ?_))
    rw [abs_le]
    constructor <;> linarith
  have hx : Rounded (exBPR 1) env ⟨[0, 10 ^ 7, 2, 0], List.replicate 18 0, [0, 3, 1, 0, 0, 2]⟩ (1 / 2) (1 / 10)
      (fun k => Nat.rec ((normalizeAndClip env (List.replicate 18 0) (exBPR 1).edgesNumStates (exBPR 1).maxMsgSize).map (· - 1 / 10))
        (fun _ y => ((exBPR 1).step env [0, 10 ^ 7, 2, 0] [0, 3, 1, 0, 0, 2] (1 / 2) y).map (· - 1 / 10)) k) := ⟨key _, fun k => key _⟩
  refine ⟨_, hx, fun _ => rfl, fun n => ?_⟩
  exact C65_rounding_sum exStateR_compiled (by norm_num) (exBPR_create 1) env hexp hlog (.inl hw) ⟨[0, 10 ^ 7, 2, 0], List.replicate 18 0, [0, 3, 1, 0, 0, 2]⟩ n
    (by norm_num) rfl rfl rfl (by norm_num) exInputsR hx

end PGMax
