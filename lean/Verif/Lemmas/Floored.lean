import Verif.Spec.Floored
import Verif.Lemmas.Textbook
import Verif.Lemmas.SumTextbook

/-! Helper lemmas for the specification with an explicit floor. -/

namespace PGMax

variable {κ α : Type _} {vgs : List (VGroup κ)} {hist : List (AddArg α)} {garbage : Garbage} {st : FGState κ α}

section
variable [Field α] [LinearOrder α]

theorem neg_inf_eq : (NEG_INF : α) = -100000 := by norm_num [NEG_INF]

theorem lastTop_local {xs : List α} (hne : xs ≠ []) : LocalArg xs (lastTop xs) := by
  have hpos : 0 < xs.length := List.length_pos_of_ne_nil hne
  have hM : xs.foldl max NEG_INF = maxFloor xs := by rw [neg_inf_eq]; rfl
  unfold LocalArg
  rw [hM]
  unfold lastTop
  generalize maxFloor xs = M
  cases hl : ((List.range xs.length).filter (fun j => xs.getD j 0 = M)) using List.reverseRecOn with
  | nil =>
    simp only [List.getLastD_nil]
    refine ⟨by omega, .inr ⟨?_, by omega⟩⟩
    intro hm
    obtain ⟨j, hj⟩ := List.mem_iff_getElem?.1 hm
    have : j ∈ ((List.range xs.length).filter (fun j => xs.getD j 0 = M)) :=
      List.mem_filter.2 ⟨List.mem_range.2 (List.getElem?_eq_some_iff.1 hj).1, decide_eq_true (getD_of_some hj)⟩
    rw [hl] at this
    simp at this
  | append_singleton l J _ =>
    rw [List.getLastD_concat]
    have hJ : J ∈ ((List.range xs.length).filter (fun j => xs.getD j 0 = M)) := by rw [hl]; simp
    obtain ⟨h1, h2⟩ := List.mem_filter.1 hJ
    rw [List.mem_range] at h1
    refine ⟨h1, .inl ⟨?_, ?_⟩⟩
    · rw [List.getElem?_eq_getElem h1]
      have h2' : xs.getD J 0 = M := by simpa using h2
      rw [← h2', getD_of_some (List.getElem?_eq_getElem h1)]
    · intro j hj
      have hjm : j ∈ ((List.range xs.length).filter (fun j => xs.getD j 0 = M)) :=
        List.mem_filter.2 ⟨List.mem_range.2 (List.getElem?_eq_some_iff.1 hj).1, decide_eq_true (getD_of_some hj)⟩
      have hs : ((List.range xs.length).filter (fun j => xs.getD j 0 = M)).Pairwise (· < ·) := List.pairwise_lt_range.filter _
      rw [hl] at hs hjm
      rw [List.pairwise_append] at hs
      rcases List.mem_append.1 hjm with h | h
      · exact (hs.2.2 j h J (by simp)).le
      · simp at h; omega

theorem argL_eq_lastTop {xs : List α} (hne : xs ≠ []) : argL xs = lastTop xs := (lastTop_local hne).eq

theorem logicalOut_fl (env : Env α) (xs : List α) (hne : xs ≠ []) (y : α) (i : Nat) (hi : i ≤ xs.length) :
    logicalOut env 0 xs y i = flLogical xs y i := by
  have hset : xs.set (lastTop xs) NEG_INF ≠ [] := by
    intro h; rw [List.set_eq_nil_iff] at h; exact hne h
  unfold logicalOut flLogical maxP maxC secondTop
  rw [if_pos rfl, if_pos rfl, argL_eq_lastTop hne, argL_eq_lastTop hset, neg_inf_eq]
  by_cases h : i < xs.length
  · rw [if_pos h, if_neg (by omega : ¬ i = xs.length)]
    by_cases h1 : xs.length = 1
    · rw [if_pos h1, if_pos h1]
    · rw [if_neg h1, if_neg h1]
      by_cases h2 : i = lastTop xs
      · rw [if_pos h2, if_pos h2, ← h2]
      · rw [if_neg h2, if_neg h2]
  · rw [if_neg h, if_pos (by omega : i = xs.length)]

theorem facOut_fl (env : Env α) {fg : FactorGraph κ α} {f : Nat} {F : SFac α} (hok : FacOk (fg.kind f) F) (q : Nat → Nat → α) (i s : Nat) (v : Var)
    (hi : F.scope[i]? = some v) : facOut env 0 (fg.kind f) F q i s = flOut fg f F q i s := by
  unfold flOut
  unfold FactorGraph.kind at hok ⊢
  by_cases hf : f < fg.tables.length
  · rw [if_pos hf, if_pos hf]
    simp only [facOut, enumOut, if_true, flEnum, maxFloor, neg_inf_eq]
  · rw [if_neg hf] at hok
    rw [if_neg hf, if_neg hf]
    simp only [facOut, lgOut]
    by_cases hs : s = fg.restState f
    · rw [if_pos hs, if_pos hs]
    · rw [if_neg hs, if_neg hs]
      have hl := hok.2.1
      have hil := (List.getElem?_eq_some_iff.1 hi).1
      refine logicalOut_fl env _ ?_ _ i ?_
      · intro h
        have := congrArg List.length h
        simp at this
        omega
      · simp; omega

variable [IsStrictOrderedRing α]

omit [IsStrictOrderedRing α] in
theorem flStep_at {out : Nat → SFac α → (Nat → Nat → α) → Nat → Nat → α} {factors : List (SFac α)} {f i : Nat} {F : SFac α} {v : Var}
    (hF : factors[f]? = some F) (hi : F.scope[i]? = some v) (ev : Var → Nat → α) (d : α) (m : Msgs α) (s : Nat) :
    flStep out factors ev d m f i s = flNorm (factors.map (·.scope)) v.n (fun s => d * m f i s + (1 - d) * out f F (tbIn factors ev m f F) i s) s := by
  unfold flStep; rw [hF]; simp only [hi]

omit [IsStrictOrderedRing α] in
theorem flInit_at {factors : List (SFac α)} {f i : Nat} {F : SFac α} {v : Var}
    (hF : factors[f]? = some F) (hi : F.scope[i]? = some v) (m : Msgs α) (s : Nat) :
    flInit factors m f i s = flNorm (factors.map (·.scope)) v.n (m f i) s := by
  unfold flInit; rw [hF]; simp only [hi]

theorem segM_fl {scopes : List (List Var)} {n maxLen : Nat} (hn : 0 < n) (hm : n ≤ maxLen) (hex : n < maxLen ↔ Exceeded scopes n) (x : Nat → α) :
    segM x n maxLen = maxOf 0 ((List.range n).map x ++ if Exceeded scopes n then [-100000] else []) := by
  obtain ⟨h1, h2, h3⟩ := segM_spec x n maxLen hn hm
  obtain ⟨g1, g2⟩ := maxOf_spec 0 ((List.range n).map x ++ if Exceeded scopes n then [(-100000 : α)] else []) (by
    intro h
    have := congrArg List.length h
    simp at this
    omega)
  have N := neg_inf_eq (α := α)
  apply le_antisymm
  · rcases h2 with ⟨j, hj, h2⟩ | ⟨h2, h4, -⟩
    · rw [h2]
      exact g2 _ (List.mem_append_left _ (List.mem_map.2 ⟨j, List.mem_range.2 hj, rfl⟩))
    · rw [h4, N]
      refine g2 _ (List.mem_append_right _ ?_)
      rw [if_pos (hex.1 h2)]
      simp
  · rcases List.mem_append.1 g1 with g1 | g1
    · obtain ⟨j, hj, he⟩ := List.mem_map.1 g1
      rw [← he]
      exact h1 j (List.mem_range.1 hj)
    · by_cases he : Exceeded scopes n
      · rw [if_pos he] at g1
        rw [if_pos he, List.mem_singleton.1 g1, ← N]
        exact h3 (hex.2 he)
      · rw [if_neg he] at g1
        simp at g1

theorem Compiled.exceeded_iff (h : Compiled vgs hist garbage st) {state : BPState α} {T : α} {bp : BPFun κ α}
    (hbp : BP.create st state T = .ok bp) {f i : Nat} {v : Var} (he : IsEdge (graphOf vgs hist).allScopes f i v) :
    v.n < bp.maxMsgSize ↔ Exceeded (graphOf vgs hist).allScopes v.n := by
  obtain ⟨h1, f', i', v', h2, h3⟩ := h.maxMsgSize hbp
  constructor
  · intro hlt
    obtain ⟨vs, e1, e2⟩ := h2
    exact ⟨vs, List.mem_of_getElem? e1, v', List.mem_of_getElem? e2, by omega⟩
  · rintro ⟨vs, e1, w, e2, hlt⟩
    obtain ⟨g, hg⟩ := List.mem_iff_getElem?.1 e1
    obtain ⟨j, hj⟩ := List.mem_iff_getElem?.1 e2
    have := h1 g j w ⟨vs, hg, hj⟩
    omega

theorem Compiled.normM_fl (h : Compiled vgs hist garbage st) {state : BPState α} {T : α} {bp : BPFun κ α}
    (hbp : BP.create st state T = .ok bp) {f i : Nat} {v : Var} (he : IsEdge (graphOf vgs hist).allScopes f i v) (m : Msgs α) (s : Nat) :
    normM (graphOf vgs hist).allScopes bp.maxMsgSize m f i s = flNorm (graphOf vgs hist).allScopes v.n (m f i) s := by
  rw [normM_at he, segM_fl (h.edge_pos he) ((h.maxMsgSize hbp).1 f i v he) (h.exceeded_iff hbp he)]
  rfl

omit [IsStrictOrderedRing α] in
theorem flNorm_congr {scopes : List (List Var)} {n : Nat} {x y : Nat → α} (hxy : ∀ s < n, x s = y s) {s : Nat} (hs : s < n) :
    flNorm scopes n x s = flNorm scopes n y s := by
  unfold flNorm
  rw [hxy s hs, List.map_congr_left (fun j hj => hxy j (List.mem_range.1 hj))]

/-- The rule depends on the incoming messages of the factor only. -/
def RuleCongr (factors : List (SFac α)) (out : Nat → SFac α → (Nat → Nat → α) → Nat → Nat → α) : Prop :=
  ∀ (f : Nat) (F : SFac α), factors[f]? = some F → ∀ q q' : Nat → Nat → α,
    (∀ (j : Nat) (w : Var) (t : Nat), F.scope[j]? = some w → t < w.n → q j t = q' j t) →
    ∀ (i s : Nat) (v : Var), F.scope[i]? = some v → s < v.n → out f F q i s = out f F q' i s

/-- The rule describes the messages that the factors send if they receive `vtof`. -/
def RuleAt (env : Env α) (bp : BPFun κ α) (fg : FactorGraph κ α) (lp vtof : List α) (out : Nat → SFac α → (Nat → Nat → α) → Nat → Nat → α) : Prop :=
  ∀ (f : Nat) (F : SFac α), (fg.factors lp)[f]? = some F → ∀ (i s : Nat) (v : Var), F.scope[i]? = some v → s < v.n →
    readMsgs fg.allScopes (bp.newMsgs env lp vtof) f i s = out f F (readMsgs fg.allScopes vtof f) i s

/-- An update is an iteration with any rule that describes the messages of the factors. -/
theorem Compiled.step_fl (h : Compiled vgs hist garbage st) {state : BPState α} {T : α} {bp : BPFun κ α}
    (hbp : BP.create st state T = .ok bp) (env : Env α) (hseg : SegFits env (graphOf vgs hist)) (lp ev msgs : List α) (d : α)
    (hlp : lp.length = st.logPotentials.length) (hev : ev.length = st.numVarStates) (hm : msgs.length = st.totalFactorNumStates)
    (out : Nat → SFac α → (Nat → Nat → α) → Nat → Nat → α) (hcongr : RuleCongr ((graphOf vgs hist).factors lp) out)
    (hout : RuleAt env bp (graphOf vgs hist) lp (passVarToFac env msgs ev bp.varStatesForEdges) out)
    {m : Msgs α} (hmm : AgreeOn (graphOf vgs hist).allScopes (readMsgs (graphOf vgs hist).allScopes msgs) m) :
    AgreeOn (graphOf vgs hist).allScopes (readMsgs (graphOf vgs hist).allScopes (bp.step env lp ev d msgs))
      (flStep out ((graphOf vgs hist).factors lp) (readEv st.varsToStarts ev) d m) := by
  have hfs := FactorGraph.factors_scopes (graphOf vgs hist) lp
  obtain ⟨hvl, hnl, hl', hr⟩ := h.step_norm hbp env hseg lp ev msgs d hlp hm
  refine hr.trans ?_
  intro f i v s he hs
  obtain ⟨F, hF, hi, hsc⟩ := (graphOf vgs hist).factors_edge lp he
  rw [h.normM_fl hbp he, flStep_at hF hi, hfs]
  refine flNorm_congr ?_ hs
  intro t ht
  rw [hout f F hF i t v hi ht, hmm f i v t he ht, hcongr f F hF _ (tbIn ((graphOf vgs hist).factors lp) (readEv st.varsToStarts ev) m f F) ?_ i t v hi ht]
  · ring
  · intro j w u hj hu
    rw [tbIn_at hj, hfs, read_of_at (C26_var_to_fac h hbp env msgs ev hm hev f j _ w u hsc hj hu)]
    exact varToFac_congr hmm rfl _ hu

/-- `run_bp` is an iteration with any rule that describes the messages of the factors. -/
theorem Compiled.run_fl (h : Compiled vgs hist garbage st) {state : BPState α} {T : α} {bp : BPFun κ α}
    (hbp : BP.create st state T = .ok bp) (env : Env α) (hseg : SegFits env (graphOf vgs hist)) (a : BPArrays α) (n : Nat) (d : α)
    (hlp : a.logPotentials.length = st.logPotentials.length) (hev : a.evidence.length = st.numVarStates) (hm : a.ftovMsgs.length = st.totalFactorNumStates)
    (out : Nat → SFac α → (Nat → Nat → α) → Nat → Nat → α)
    (hcongr : RuleCongr ((graphOf vgs hist).factors a.logPotentials) out)
    (hout : ∀ msgs : List α, msgs.length = st.totalFactorNumStates → Clipped (graphOf vgs hist).allScopes (readMsgs (graphOf vgs hist).allScopes msgs) →
      RuleAt env bp (graphOf vgs hist) a.logPotentials (passVarToFac env msgs a.evidence bp.varStatesForEdges) out) :
    AgreeOn (graphOf vgs hist).allScopes (readMsgs (graphOf vgs hist).allScopes (bp.runBP env a n d).ftovMsgs)
      (flRun out ((graphOf vgs hist).factors a.logPotentials) (readEv st.varsToStarts a.evidence) d n (readMsgs (graphOf vgs hist).allScopes a.ftovMsgs)) := by
  have hl := h.normalize_length hbp env _ hm
  have hfs := FactorGraph.factors_scopes (graphOf vgs hist) a.logPotentials
  unfold BPFun.runBP
  suffices hh : (BPFun.iterate (bp.step env a.logPotentials a.evidence d) n (normalizeAndClip env a.ftovMsgs bp.edgesNumStates bp.maxMsgSize)).length = st.totalFactorNumStates ∧
      Clipped (graphOf vgs hist).allScopes (readMsgs (graphOf vgs hist).allScopes
        (BPFun.iterate (bp.step env a.logPotentials a.evidence d) n (normalizeAndClip env a.ftovMsgs bp.edgesNumStates bp.maxMsgSize))) ∧
      AgreeOn (graphOf vgs hist).allScopes (readMsgs (graphOf vgs hist).allScopes
        (BPFun.iterate (bp.step env a.logPotentials a.evidence d) n (normalizeAndClip env a.ftovMsgs bp.edgesNumStates bp.maxMsgSize)))
      (flRun out ((graphOf vgs hist).factors a.logPotentials) (readEv st.varsToStarts a.evidence) d n (readMsgs (graphOf vgs hist).allScopes a.ftovMsgs)) from hh.2.2
  have hmax := (h.maxMsgSize hbp).1
  have hc : ∀ {x y : Msgs α}, AgreeOn (graphOf vgs hist).allScopes x y → Clipped (graphOf vgs hist).allScopes y → Clipped (graphOf vgs hist).allScopes x := by
    intro x y hxy hy f i v s he hs
    rw [hxy f i v s he hs]
    exact hy f i v s he hs
  induction n with
  | zero =>
    refine ⟨hl, hc (h.norm_read hbp env hseg a.ftovMsgs hm) (normM_clipped hmax _), (h.norm_read hbp env hseg a.ftovMsgs hm).trans ?_⟩
    intro f i v s he hs
    obtain ⟨F, hF, hi, hsc⟩ := (graphOf vgs hist).factors_edge a.logPotentials he
    rw [h.normM_fl hbp he]
    simp only [flRun]
    rw [flInit_at hF hi, hfs]
  | succ n ih =>
    obtain ⟨ih1, ih0, ih2⟩ := ih
    simp only [iterate_succ']
    generalize hmsgs : BPFun.iterate (bp.step env a.logPotentials a.evidence d) n (normalizeAndClip env a.ftovMsgs bp.edgesNumStates bp.maxMsgSize) = msgs at ih1 ih0 ih2
    obtain ⟨hvl, hnl, hl', hr⟩ := h.step_norm hbp env hseg a.logPotentials a.evidence msgs d hlp ih1
    exact ⟨hl', hc hr (normM_clipped hmax _), h.step_fl hbp env hseg _ _ _ d hlp hev ih1 out hcongr (hout _ ih1 ih0) ih2⟩

end

section
variable {hist : List (AddArg ℝ)} {st : FGState κ ℝ}

theorem enumOut_flSum {env : Env ℝ} (hexp : env.exp = Real.exp) (hlog : env.log = Real.log) {T : ℝ} (hT : 0 < T) (F : SFac ℝ) (q : Nat → Nat → ℝ) (i s : Nat) :
    enumOut env T F q i s = flEnumSum T F q i s := by
  unfold enumOut flEnumSum lse
  rw [if_neg hT.ne', hexp, hlog, neg_inf_eq]
  change maxFloor _ - q i s + T * Real.log (Real.exp (-100000) + (List.map (fun r => Real.exp ((scoreBut F.scope.length q i r + q i s - maxFloor _) / T)) _).sum) = _
  generalize maxFloor ((F.rowsAt i s).map (fun r => scoreBut F.scope.length q i r + q i s)) = M
  have e : ((F.rowsAt i s).map (fun r => Real.exp ((scoreBut F.scope.length q i r + q i s - M) / T))).sum
      = Real.exp (-M / T) * ((F.rowsAt i s).map (fun r => Real.exp ((scoreBut F.scope.length q i r + q i s) / T))).sum := by
    rw [← List.sum_map_mul_left]
    congr 1
    apply List.map_congr_left
    intro r _
    rw [← Real.exp_add]
    congr 1
    ring
  have e2 : Real.exp (-100000) = Real.exp (-M / T) * Real.exp ((M - T * 100000) / T) := by
    rw [← Real.exp_add]
    congr 1
    field_simp
    ring
  rw [e, e2, ← mul_add, List.map_cons, List.sum_cons, List.map_map]
  simp only [Function.comp_def]
  rw [Real.log_mul (Real.exp_pos _).ne' (by
    have h1 := Real.exp_pos ((M - T * 100000) / T)
    have h2 : 0 ≤ ((F.rowsAt i s).map (fun r => Real.exp ((scoreBut F.scope.length q i r + q i s) / T))).sum :=
      List.sum_nonneg (by intro x hx; obtain ⟨r, -, rfl⟩ := List.mem_map.1 hx; exact (Real.exp_pos _).le)
    linarith), Real.log_exp]
  field_simp
  ring

end

end PGMax
