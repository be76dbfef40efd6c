import Verif.Lemmas.Factors
import Verif.Lemmas.Example
import Mathlib.Analysis.SpecialFunctions.Log.Basic

/-! # C27, C28: messages of enumeration factors -/

namespace PGMax

variable {κ α : Type _} {vgs : List (VGroup κ)} {hist : List (AddArg α)} {garbage : Garbage} {st : FGState κ α}

section
variable [Field α] [LinearOrder α]

/-- **C27, exact form (no side conditions).** At temperature 0 the message of an enumeration factor `F` to its `i`-th
variable in state `s` is `max (-1e5, max over the configurations c with c[i] = s of their score) - q i s`, where the score
is the log potential plus the incoming messages `q` of all variables. -/
theorem C27_exact (h : Compiled vgs hist garbage st) {state : BPState α} {bp : BPFun κ α}
    (hbp : BP.create st state 0 = .ok bp) (env : Env α) (lp vtof : List α)
    (hlp : lp.length = st.logPotentials.length) (hv : vtof.length = st.totalFactorNumStates) (f i s : Nat) (F : SFac α) (v : Var)
    (hF : ((graphOf vgs hist).factors lp)[f]? = some F) (hf : f < (graphOf vgs hist).tables.length)
    (hi : F.scope[i]? = some v) (hs : s < v.n) :
    (bp.newMsgs env lp vtof)[edgeStart (graphOf vgs hist).allScopes f i + s]? = some
      (((F.rowsAt i s).map (fun r => scoreBut F.scope.length (readMsgs (graphOf vgs hist).allScopes vtof f) i r
          + readMsgs (graphOf vgs hist).allScopes vtof f i s)).foldl max (-100000)
        - readMsgs (graphOf vgs hist).allScopes vtof f i s) := by
  obtain ⟨e1, -, -, e4, -⟩ := BP_create_ok hbp
  obtain ⟨vs, cf, hk, hFe, hn, hl, hlt, hsc⟩ := h.enum_part e1 env lp vtof hlp hv f i s F v hF hf hi hs
  have hi' : vs[i]? = some v := by rw [hFe] at hi; exact hi
  rw [hn, passEnum, e4]
  simp only [if_true]
  unfold zipOp
  have hll := h.lpLength
  rw [List.getElem?_zipWith, enumMaxes_getElem? env _ h.tablesOk _ lp hl (hlp.trans hll) f i s vs cf v hk hi' hs]
  have hts := Compiled.tables_scopes (graphOf vgs hist)
  have hall : (graphOf vgs hist).allScopes = (graphOf vgs hist).scopesOf .enum ++ ((graphOf vgs hist).scopesOf .or ++ (graphOf vgs hist).scopesOf .and) := by
    simp [FactorGraph.allScopes, FType.all]
  have hsl : f < ((graphOf vgs hist).scopesOf .enum).length := by rw [← hts]; simpa using hf
  have hes : edgeStart (graphOf vgs hist).allScopes f i = edgeStart ((graphOf vgs hist).tables.map (·.1)) f i := by
    rw [hall, hts]; exact edgeStart_left _ _ _ _ hsl
  have hltE : edgeStart ((graphOf vgs hist).tables.map (·.1)) f i + s < statesOf ((graphOf vgs hist).scopesOf .enum) := by
    rw [hts]; exact PGMax.edgeStart_lt _ f i vs v s (by rw [← hts]; simp [hk]) hi' hs
  rw [List.getElem?_take, if_pos hltE, ← hes, List.getElem?_eq_getElem hlt]
  have hq : readMsgs (graphOf vgs hist).allScopes vtof f i s = vtof[edgeStart (graphOf vgs hist).allScopes f i + s] :=
    getD_of_some (List.getElem?_eq_getElem hlt)
  simp only [Option.some.injEq]
  rw [← hq, hFe, rowsAt_table _ _ _ _ _ _ (by rw [hlp, hll]; exact cfgStart_add_le _ f vs cf hk), List.map_map]
  congr 2
  apply List.map_congr_left
  intro c hc
  rw [hsc c hc, hFe]
  rfl

variable [IsStrictOrderedRing α]

/-- **C27, partial.** If some configuration with `c[i] = s` has a score (all incoming messages included) of at least
`-1e5`, the message is the maximum over these configurations of log potential plus the other incoming messages.  If there
is no such configuration, the message is `-1e5` minus the incoming message.
Missing: factors all of whose configurations at `s` score below `-1e5`, where the code replaces the score by `-1e5`
(`C27_refuted`). -/
theorem C27_partial (h : Compiled vgs hist garbage st) {state : BPState α} {bp : BPFun κ α}
    (hbp : BP.create st state 0 = .ok bp) (env : Env α) (lp vtof : List α)
    (hlp : lp.length = st.logPotentials.length) (hv : vtof.length = st.totalFactorNumStates) (f i s : Nat) (F : SFac α) (v : Var)
    (hF : ((graphOf vgs hist).factors lp)[f]? = some F) (hf : f < (graphOf vgs hist).tables.length)
    (hi : F.scope[i]? = some v) (hs : s < v.n) :
    ∃ z, (bp.newMsgs env lp vtof)[edgeStart (graphOf vgs hist).allScopes f i + s]? = some z ∧
      ((∃ r ∈ F.rowsAt i s, -100000 ≤ scoreBut F.scope.length (readMsgs (graphOf vgs hist).allScopes vtof f) i r
          + readMsgs (graphOf vgs hist).allScopes vtof f i s) →
        IsGreatest {x | ∃ r ∈ F.rowsAt i s, x = scoreBut F.scope.length (readMsgs (graphOf vgs hist).allScopes vtof f) i r} z) ∧
      (F.rowsAt i s = [] → z = -100000 - readMsgs (graphOf vgs hist).allScopes vtof f i s) := by
  refine ⟨_, C27_exact h hbp env lp vtof hlp hv f i s F v hF hf hi hs, ?_, ?_⟩
  · rintro ⟨r0, hr0, hge⟩
    obtain ⟨h1, h2, h3⟩ := foldl_max_eq ((F.rowsAt i s).map (fun r => scoreBut F.scope.length (readMsgs (graphOf vgs hist).allScopes vtof f) i r
          + readMsgs (graphOf vgs hist).allScopes vtof f i s)) (-100000)
    generalize ((F.rowsAt i s).map (fun r => scoreBut F.scope.length (readMsgs (graphOf vgs hist).allScopes vtof f) i r
          + readMsgs (graphOf vgs hist).allScopes vtof f i s)).foldl max (-100000) = M at h1 h2 h3 ⊢
    have hr0' := h2 _ (List.mem_map.2 ⟨r0, hr0, rfl⟩)
    constructor
    · rcases h3 with h3 | h3
      · exact ⟨r0, hr0, by rw [h3] at hr0' ⊢; linarith⟩
      · obtain ⟨r, hr, he⟩ := List.mem_map.1 h3
        exact ⟨r, hr, by rw [← he]; ring⟩
    · rintro x ⟨r, hr, rfl⟩
      have := h2 _ (List.mem_map.2 ⟨r, hr, rfl⟩)
      linarith
  · intro he
    rw [he]; rfl

end

/-- **C27 does not hold in general.** With evidence `-2e5` everywhere and no other message, the message of factor 0 (which
only allows equal states) to its first variable in state 0 is `1e5`; the maximum over its configurations is `-2e5`. -/
theorem C27_refuted : ∃ (vtof : List ℚ) (F : SFac ℚ), vtof = passVarToFac exEnv exBP.state.ftovMsgs.value (List.replicate 6 (-200000)) exBP.varStatesForEdges ∧
    ((graphOf exVars exHist).factors [0, 0, 0, 0])[0]? = some F ∧
    (exBP.newMsgs exEnv [0, 0, 0, 0] vtof)[edgeStart (graphOf exVars exHist).allScopes 0 0 + 0]? = some 100000 ∧
    IsGreatest {x | ∃ r ∈ F.rowsAt 0 0, x = scoreBut F.scope.length (readMsgs (graphOf exVars exHist).allScopes vtof 0) 0 r} (-200000) := by
  refine ⟨_, ⟨[exVar 0, exVar 1], [([0, 0], 0), ([1, 1], 0)]⟩, rfl, by rfl, by decide +kernel, ?_⟩
  have e : SFac.rowsAt (⟨[exVar 0, exVar 1], [([0, 0], 0), ([1, 1], 0)]⟩ : SFac ℚ) 0 0 = [([0, 0], 0)] := by rfl
  rw [e]
  have e2 : scoreBut 2 (readMsgs (graphOf exVars exHist).allScopes (passVarToFac exEnv exBP.state.ftovMsgs.value (List.replicate 6 (-200000)) exBP.varStatesForEdges) 0) 0 ([0, 0], 0)
    = -200000 := by decide +kernel
  constructor
  · exact ⟨_, List.mem_singleton.2 rfl, e2.symm⟩
  · rintro x ⟨r, hr, rfl⟩
    rw [List.mem_singleton.1 hr]
    exact e2.le

/-- Non-vacuity of C27: all hypotheses for factor 1, position 1, state 1 of the example graph with log potentials 1..4. -/
example : ([1, 2, 3, 4] : List ℚ).length = exState.logPotentials.length ∧
    ((List.range 18).map (fun (k : Nat) => (k : ℚ))).length = exState.totalFactorNumStates ∧
    ((graphOf exVars exHist).factors [(1 : ℚ), 2, 3, 4])[1]? = some ⟨[exVar 1, exVar 2], [([0, 0], 3), ([1, 1], 4)]⟩ ∧
    1 < (graphOf exVars exHist).tables.length ∧
    SFac.rowsAt (⟨[exVar 1, exVar 2], [([0, 0], 3), ([1, 1], 4)]⟩ : SFac ℚ) 1 1 = [([1, 1], 4)] ∧
    (exBP.newMsgs exEnv [1, 2, 3, 4] ((List.range 18).map (fun (k : Nat) => (k : ℚ))))[edgeStart (graphOf exVars exHist).allScopes 1 1 + 1]?
      = some (4 + 5) := by
  exact ⟨by rfl, by rfl, by rfl, by decide, by rfl, by decide +kernel⟩

/-! ## C28 -/

/-- **C28, exact form (no side conditions).** At temperature `T > 0` the message is `T log` of the sum over the
configurations `c` with `c[i] = s` of `exp ((log potential + other incoming messages) / T)`, plus the regulariser
`exp (-1e5) * exp (M / T)` inside the logarithm, where `M = max (-1e5 - q i s, the largest of these exponents)`. -/
theorem C28_exact {hist : List (AddArg ℝ)} {st : FGState κ ℝ} (h : Compiled vgs hist garbage st) {state : BPState ℝ}
    {bp : BPFun κ ℝ} (T : ℝ) (hT : 0 < T) (hbp : BP.create st state T = .ok bp) (env : Env ℝ) (hexp : env.exp = Real.exp)
    (hlog : env.log = Real.log) (lp vtof : List ℝ)
    (hlp : lp.length = st.logPotentials.length) (hv : vtof.length = st.totalFactorNumStates) (f i s : Nat) (F : SFac ℝ) (v : Var)
    (hF : ((graphOf vgs hist).factors lp)[f]? = some F) (hf : f < (graphOf vgs hist).tables.length)
    (hi : F.scope[i]? = some v) (hs : s < v.n) :
    (bp.newMsgs env lp vtof)[edgeStart (graphOf vgs hist).allScopes f i + s]? = some (T * Real.log
      (Real.exp (-100000) * Real.exp (((F.rowsAt i s).map (fun r =>
          scoreBut F.scope.length (readMsgs (graphOf vgs hist).allScopes vtof f) i r)).foldl max
            (-100000 - readMsgs (graphOf vgs hist).allScopes vtof f i s) / T)
        + ((F.rowsAt i s).map (fun r =>
          Real.exp (scoreBut F.scope.length (readMsgs (graphOf vgs hist).allScopes vtof f) i r / T))).sum)) := by
  obtain ⟨e1, -, -, e4, -⟩ := BP_create_ok hbp
  obtain ⟨vs, cf, hk, hFe, hn, hl, hlt, hsc⟩ := h.enum_part e1 env lp vtof hlp hv f i s F v hF hf hi hs
  have hi' : vs[i]? = some v := by rw [hFe] at hi; exact hi
  rw [hn, passEnum, e4]
  simp only [if_neg hT.ne']
  unfold zipOp
  have hll := h.lpLength
  have hts := Compiled.tables_scopes (graphOf vgs hist)
  have hall : (graphOf vgs hist).allScopes = (graphOf vgs hist).scopesOf .enum ++ ((graphOf vgs hist).scopesOf .or ++ (graphOf vgs hist).scopesOf .and) := by
    simp [FactorGraph.allScopes, FType.all]
  have hsl : f < ((graphOf vgs hist).scopesOf .enum).length := by rw [← hts]; simpa using hf
  have hes : edgeStart (graphOf vgs hist).allScopes f i = edgeStart ((graphOf vgs hist).tables.map (·.1)) f i := by
    rw [hall, hts]; exact edgeStart_left _ _ _ _ hsl
  have hltE : edgeStart ((graphOf vgs hist).tables.map (·.1)) f i + s < statesOf ((graphOf vgs hist).scopesOf .enum) := by
    rw [hts]; exact PGMax.edgeStart_lt _ f i vs v s (by rw [← hts]; simp [hk]) hi' hs
  have hmax := enumMaxes_getElem? env _ h.tablesOk _ lp hl (hlp.trans hll) f i s vs cf v hk hi' hs
  have hsum : ∀ c ∈ cfgsAt cf i s, _ := fun c hc => enumSummary_getElem? env _ h.tablesOk _ lp hl (hlp.trans hll) f c vs cf hk
    (by have := (List.mem_filter.1 hc).1; simpa using this)
  generalize hX : vtof.take (statesOf ((graphOf vgs hist).scopesOf .enum)) = X at *
  generalize hS : enumSummary env X (enumEntries 0 0 (graphOf vgs hist).tables) lp (totalCfgs (graphOf vgs hist).tables) = S at *
  generalize hM : enumMaxes env X (enumEntries 0 0 (graphOf vgs hist).tables) S = M at *
  have hXlt : edgeStart ((graphOf vgs hist).tables.map (·.1)) f i + s < X.length := by rw [hl, hts]; rw [hts] at hltE; exact hltE
  have hq : X[edgeStart ((graphOf vgs hist).tables.map (·.1)) f i + s]? = some (readMsgs (graphOf vgs hist).allScopes vtof f i s) := by
    rw [← hX, List.getElem?_take, if_pos hltE, ← hes, List.getElem?_eq_getElem hlt]
    rw [readMsgs, getD_of_some (List.getElem?_eq_getElem hlt)]
  rw [List.getElem?_zipWith, List.getElem?_zipWith, hmax, hq, List.getElem?_map, scatterAdd_getElem?, List.getElem?_replicate, if_pos hXlt]
  have hargs : (List.zipWith (· - ·) (gather env.oob S ((enumEntries 0 0 (graphOf vgs hist).tables).map (·.1)))
      (gather env.oob M ((enumEntries 0 0 (graphOf vgs hist).tables).map (·.2)))).map (fun x => env.exp (x / T))
      = (enumEntries 0 0 (graphOf vgs hist).tables).map (fun e => env.exp ((S.getD e.1 env.oob - M.getD e.2 env.oob) / T)) := by
    unfold gather
    rw [List.map_map, List.map_map, List.zipWith_map, List.zipWith_self, List.map_map]
    rfl
  rw [hargs, hits_map]
  have hfil := enumEntries_filter_snd 0 0 (graphOf vgs hist).tables h.tablesOk f i s vs cf v hk hi' hs
  simp only [Nat.zero_add] at hfil
  rw [hfil, List.map_map]
  simp only [Option.map_some, Option.some.injEq]
  have hle : cfgStart (graphOf vgs hist).tables f + cf.rows.length ≤ lp.length := by rw [hlp, hll]; exact cfgStart_add_le _ f vs cf hk
  have hrA : F.rowsAt i s = (cfgsAt cf i s).map (fun c => (cf.rows.getD c [], lp.getD (cfgStart (graphOf vgs hist).tables f + c) 0)) := by
    rw [hFe]; exact rowsAt_table _ _ _ _ _ _ hle
  have hcs : ∀ c ∈ cfgsAt cf i s, S.getD (cfgStart (graphOf vgs hist).tables f + c) env.oob = cfgScore (graphOf vgs hist).tables X lp f c := by
    intro c hc
    rw [getD_of_some (hsum c hc)]
    simp only [cfgScore, getD_of_some hk]
  have hbut : ∀ c ∈ cfgsAt cf i s, cfgScore (graphOf vgs hist).tables X lp f c = scoreBut F.scope.length (readMsgs (graphOf vgs hist).allScopes vtof f) i
        (cf.rows.getD c [], lp.getD (cfgStart (graphOf vgs hist).tables f + c) 0) + readMsgs (graphOf vgs hist).allScopes vtof f i s := by
    intro c hc
    rw [← hsc c hc]
  rw [hrA, List.map_map, List.map_map, hexp, hlog]
  generalize readMsgs (graphOf vgs hist).allScopes vtof f i s = q at *
  set sc : Nat → ℝ := fun c => scoreBut F.scope.length (readMsgs (graphOf vgs hist).allScopes vtof f) i
        (cf.rows.getD c [], lp.getD (cfgStart (graphOf vgs hist).tables f + c) 0) with hscdef
  have hMmap : (cfgsAt cf i s).map (cfgScore (graphOf vgs hist).tables X lp f) = (cfgsAt cf i s).map (fun c => sc c + q) :=
    List.map_congr_left hbut
  have hMval : ((cfgsAt cf i s).map (cfgScore (graphOf vgs hist).tables X lp f)).foldl max NEG_INF
      = ((cfgsAt cf i s).map sc).foldl max (-100000 - q) + q := by
    rw [hMmap]
    have : ∀ (l : List Nat) (b : ℝ), (l.map (fun c => sc c + q)).foldl max (b + q) = (l.map sc).foldl max b + q := by
      intro l
      induction l with
      | nil => intro b; rfl
      | cons c l ih =>
        intro b
        simp only [List.map_cons, List.foldl_cons]
        rw [max_add_add_right, ih]
    rw [← this]
    congr 1
    simp [NEG_INF]
  have hsums : ((List.filter (fun c => decide ((cf.rows.getD c [])[i]? = some s)) (List.range cf.rows.length)).map
      ((fun e : Nat × Nat => Real.exp ((S.getD e.1 env.oob - M.getD e.2 env.oob) / T)) ∘ fun c =>
        (cfgStart (graphOf vgs hist).tables f + c, edgeStart ((graphOf vgs hist).tables.map (·.1)) f i + s))).sum
      = Real.exp (-(((cfgsAt cf i s).map sc).foldl max (-100000 - q)) / T) * ((cfgsAt cf i s).map (fun c => Real.exp (sc c / T))).sum := by
    rw [← List.sum_map_mul_left]
    congr 1
    apply List.map_congr_left
    intro c hc
    simp only [Function.comp_apply]
    rw [hcs c hc, getD_of_some hmax, hMval, hbut c hc, ← Real.exp_add]
    congr 1
    ring
  rw [hsums, hMval]
  have hcomp' : (cfgsAt cf i s).map ((fun r => scoreBut F.scope.length (readMsgs (graphOf vgs hist).allScopes vtof f) i r) ∘ fun c =>
      (cf.rows.getD c [], lp.getD (cfgStart (graphOf vgs hist).tables f + c) 0)) = (cfgsAt cf i s).map sc := rfl
  rw [hcomp']
  generalize ((cfgsAt cf i s).map sc).foldl max (-100000 - q) = m
  have hpos : 0 ≤ ((cfgsAt cf i s).map (fun c => Real.exp (sc c / T))).sum := by
    apply List.sum_nonneg
    intro x hx
    obtain ⟨c, -, rfl⟩ := List.mem_map.1 hx
    exact (Real.exp_pos _).le
  have hcomp : (cfgsAt cf i s).map ((fun r => Real.exp (scoreBut F.scope.length (readMsgs (graphOf vgs hist).allScopes vtof f) i r / T)) ∘ fun c =>
      (cf.rows.getD c [], lp.getD (cfgStart (graphOf vgs hist).tables f + c) 0)) = (cfgsAt cf i s).map (fun c => Real.exp (sc c / T)) := rfl
  rw [hcomp]
  generalize ((cfgsAt cf i s).map (fun c => Real.exp (sc c / T))).sum = A at hpos ⊢
  have e : Real.exp NEG_INF + Real.exp (-m / T) * A = Real.exp (-m / T) * (Real.exp (-100000) * Real.exp (m / T) + A) := by
    have : Real.exp (-m / T) * Real.exp (m / T) = 1 := by rw [← Real.exp_add, neg_div, neg_add_cancel, Real.exp_zero]
    rw [mul_add, mul_left_comm, this, mul_one]
    simp [NEG_INF]
  rw [e, Real.log_mul (Real.exp_pos _).ne' (by positivity), Real.log_exp]
  field_simp
  ring

/-- **C28, error bound.** If some configuration with `c[i] = s` has a score (all incoming messages included) of at least
`-1e5`, the message exceeds `T log Σ exp (score / T)`, over the configurations with `c[i] = s`, by at most
`T * exp (-1e5)` and is never below it.
Missing: factors all of whose configurations at `s` score below `-1e5`; there the regulariser of `C28_exact` is not small
(`C28_refuted`). -/
theorem C28_sum_partial {hist : List (AddArg ℝ)} {st : FGState κ ℝ} (h : Compiled vgs hist garbage st) {state : BPState ℝ}
    {bp : BPFun κ ℝ} (T : ℝ) (hT : 0 < T) (hbp : BP.create st state T = .ok bp) (env : Env ℝ) (hexp : env.exp = Real.exp)
    (hlog : env.log = Real.log) (lp vtof : List ℝ)
    (hlp : lp.length = st.logPotentials.length) (hv : vtof.length = st.totalFactorNumStates) (f i s : Nat) (F : SFac ℝ) (v : Var)
    (hF : ((graphOf vgs hist).factors lp)[f]? = some F) (hf : f < (graphOf vgs hist).tables.length)
    (hi : F.scope[i]? = some v) (hs : s < v.n)
    (hrow : ∃ r ∈ F.rowsAt i s, -100000 ≤ scoreBut F.scope.length (readMsgs (graphOf vgs hist).allScopes vtof f) i r
          + readMsgs (graphOf vgs hist).allScopes vtof f i s) :
    ∃ z, (bp.newMsgs env lp vtof)[edgeStart (graphOf vgs hist).allScopes f i + s]? = some z ∧
      T * Real.log (((F.rowsAt i s).map (fun r =>
          Real.exp (scoreBut F.scope.length (readMsgs (graphOf vgs hist).allScopes vtof f) i r / T))).sum) ≤ z ∧
      z ≤ T * Real.log (((F.rowsAt i s).map (fun r =>
          Real.exp (scoreBut F.scope.length (readMsgs (graphOf vgs hist).allScopes vtof f) i r / T))).sum)
        + T * Real.exp (-100000) := by
  refine ⟨_, C28_exact h T hT hbp env hexp hlog lp vtof hlp hv f i s F v hF hf hi hs, ?_⟩
  obtain ⟨r0, hr0, hge⟩ := hrow
  generalize readMsgs (graphOf vgs hist).allScopes vtof f i s = q at *
  generalize hsc : scoreBut F.scope.length (readMsgs (graphOf vgs hist).allScopes vtof f) i = sc at *
  generalize F.rowsAt i s = R at *
  obtain ⟨h1, h2, h3⟩ := foldl_max_eq (R.map (fun r => sc r)) (-100000 - q)
  generalize (R.map (fun r => sc r)).foldl max (-100000 - q) = m at h1 h2 h3 ⊢
  have hnn : ∀ x ∈ R.map (fun r => Real.exp (sc r / T)), 0 ≤ x := by
    intro x hx
    obtain ⟨c, -, rfl⟩ := List.mem_map.1 hx
    exact (Real.exp_pos _).le
  have hmem : ∃ r ∈ R, m = sc r := by
    rcases h3 with h3 | h3
    · exact ⟨r0, hr0, le_antisymm (by linarith) (h2 _ (List.mem_map.2 ⟨r0, hr0, rfl⟩))⟩
    · obtain ⟨r, hr, he⟩ := List.mem_map.1 h3
      exact ⟨r, hr, he.symm⟩
  obtain ⟨r, hr, hm⟩ := hmem
  have hle : Real.exp (m / T) ≤ (R.map (fun r => Real.exp (sc r / T))).sum :=
    List.single_le_sum hnn _ (List.mem_map.2 ⟨r, hr, by rw [hm]⟩)
  generalize (R.map (fun r => Real.exp (sc r / T))).sum = A at hle ⊢
  have hA : 0 < A := lt_of_lt_of_le (Real.exp_pos _) hle
  have hE := Real.exp_pos (-100000 : ℝ)
  have hEm := Real.exp_pos (m / T)
  constructor
  · apply mul_le_mul_of_nonneg_left _ hT.le
    apply Real.log_le_log hA
    have := mul_pos hE hEm
    linarith
  · rw [← mul_add]
    apply mul_le_mul_of_nonneg_left _ hT.le
    have h4 : Real.exp (-100000) * Real.exp (m / T) + A ≤ A * (1 + Real.exp (-100000)) := by
      have := mul_le_mul_of_nonneg_left hle hE.le
      linarith
    have h5 : Real.log (Real.exp (-100000) * Real.exp (m / T) + A) ≤ Real.log (A * (1 + Real.exp (-100000))) :=
      Real.log_le_log (by positivity) h4
    rw [Real.log_mul hA.ne' (by positivity)] at h5
    have h6 := Real.log_le_sub_one_of_pos (show 0 < 1 + Real.exp (-100000 : ℝ) by positivity)
    linarith

theorem readMsgs_replicate (n : Nat) (x : ℝ) (i s : Nat) (hs : edgeStart (graphOf exVars exHistR).allScopes 0 i + s < n) :
    readMsgs (graphOf exVars exHistR).allScopes (List.replicate n x) 0 i s = x := by
  rw [readMsgs, List.getD, List.getElem?_replicate, if_pos hs]; rfl

theorem scoreBut_replicate (x y : ℝ) :
    scoreBut 2 (readMsgs (graphOf exVars exHistR).allScopes (List.replicate 18 x) 0) 0 ([0, 0], y) = y + x := by
  simp only [scoreBut]
  rw [show (List.range 2).filter (fun j => j ≠ 0) = [1] from rfl]
  simp only [List.map_cons, List.map_nil, List.sum_cons, List.sum_nil, List.getD_cons_succ, List.getD_cons_zero]
  rw [readMsgs_replicate 18 x 1 0 (by decide), add_zero]

/-- **C28 does not hold in general.** With incoming messages `-2e5` at temperature 1, factor 0 (which only allows equal
states) sends a message of at least 0 where `log` of the sum over its configurations is `-2e5`. -/
theorem C28_refuted (env : Env ℝ) (hexp : env.exp = Real.exp) (hlog : env.log = Real.log) :
    ∃ (F : SFac ℝ) (z : ℝ), ((graphOf exVars exHistR).factors [0, 0, 0, 0])[0]? = some F ∧
      ((exBPR 1).newMsgs env [0, 0, 0, 0] (List.replicate 18 (-200000)))[edgeStart (graphOf exVars exHistR).allScopes 0 0 + 0]? = some z ∧
      Real.log (((F.rowsAt 0 0).map (fun r => Real.exp (scoreBut F.scope.length
        (readMsgs (graphOf exVars exHistR).allScopes (List.replicate 18 (-200000)) 0) 0 r))).sum) = -200000 ∧ 0 ≤ z := by
  have e : SFac.rowsAt (⟨[exVar 0, exVar 1], [([0, 0], 0), ([1, 1], 0)]⟩ : SFac ℝ) 0 0 = [([0, 0], 0)] := by simp [SFac.rowsAt]
  have hz := C28_exact exStateR_compiled 1 one_pos (exBPR_create 1) env hexp hlog [0, 0, 0, 0] (List.replicate 18 (-200000))
    (by rfl) (by rw [List.length_replicate]; rfl) 0 0 0 ⟨[exVar 0, exVar 1], [([0, 0], 0), ([1, 1], 0)]⟩ (exVar 0) (by rfl)
    (by decide) (by rfl) (by decide)
  refine ⟨⟨[exVar 0, exVar 1], [([0, 0], 0), ([1, 1], 0)]⟩, _, by rfl, hz, ?_, ?_⟩
  · rw [e]
    simp only [List.map_cons, List.map_nil, List.length_cons, List.length_nil, List.sum_cons, List.sum_nil, add_zero]
    rw [scoreBut_replicate, Real.log_exp, zero_add]
  · rw [e]
    simp only [List.map_cons, List.map_nil, List.length_cons, List.length_nil, List.sum_cons, List.sum_nil, add_zero,
      List.foldl_cons, List.foldl_nil, div_one, one_mul]
    rw [scoreBut_replicate, readMsgs_replicate 18 _ 0 0 (by decide), ← Real.exp_add]
    apply Real.log_nonneg
    have h1 : max ((-100000 : ℝ) - -200000) (0 + -200000) = 100000 := by rw [max_eq_left] <;> norm_num
    rw [h1, neg_add_cancel, Real.exp_zero]
    have := Real.exp_pos (0 + -200000 : ℝ)
    linarith

/-- Non-vacuity of C28: the hypotheses for factor 0, position 0, state 0 of the real example graph. -/
example : exStateR.logPotentials.length = 4 ∧ exStateR.totalFactorNumStates = 18 ∧
    ((graphOf exVars exHistR).factors [(1 : ℝ), 2, 3, 4])[0]? = some ⟨[exVar 0, exVar 1], [([0, 0], 1), ([1, 1], 2)]⟩ ∧
    0 < (graphOf exVars exHistR).tables.length ∧
    (∃ r ∈ SFac.rowsAt (⟨[exVar 0, exVar 1], [([0, 0], 1), ([1, 1], 2)]⟩ : SFac ℝ) 0 0,
      -100000 ≤ scoreBut 2 (readMsgs (graphOf exVars exHistR).allScopes (List.replicate 18 7) 0) 0 r
        + readMsgs (graphOf exVars exHistR).allScopes (List.replicate 18 (7 : ℝ)) 0 0 0) := by
  refine ⟨by rfl, by rfl, by rfl, by decide, ([0, 0], 1), ?_, ?_⟩
  · simp [SFac.rowsAt]
  · rw [scoreBut_replicate, readMsgs_replicate 18 _ 0 0 (by decide)]
    norm_num

end PGMax
