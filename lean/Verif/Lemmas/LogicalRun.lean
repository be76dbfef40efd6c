import Verif.Lemmas.Damped
import Verif.Lemmas.Tame
import Verif.Lemmas.Attractive
import Verif.Props.C29_C30_C45

/-! Helper lemmas: graphs of OR and AND factors of any size, where what is known about the parents is a property of the messages. -/

namespace PGMax

section
variable {κ α : Type _} [DecidableEq κ] {vgs : List (VGroup κ)} {hist : List (AddArg α)} {garbage : Garbage} {st : FGState κ α}
variable [Field α] [LinearOrder α]

/-- No parent of a logical factor is told so firmly to be in the undetermining state that the literal `-1e5` of the code is in the way. -/
def ParentsOpen (fg : FactorGraph κ α) (ev : Var → Nat → α) (m : Msgs α) : Prop :=
  ∀ (g : Nat) (vs : List Var), fg.allScopes[g]? = some vs → ∀ (j : Nat) (w : Var), j < vs.length - 1 → vs[j]? = some w →
    -100000 < varToFac fg.allScopes ev m w (g, j) (1 - fg.restState g) - varToFac fg.allScopes ev m w (g, j) (fg.restState g)

theorem Compiled.parentsOpen_congr (h : Compiled vgs hist garbage st) (ht : (graphOf vgs hist).tables = []) {ev : Var → Nat → α} {m m' : Msgs α}
    (hm : AgreeOn (graphOf vgs hist).allScopes m m') (ho : ParentsOpen (graphOf vgs hist) ev m') : ParentsOpen (graphOf vgs hist) ev m := by
  intro g vs hg j w hj hw
  obtain ⟨F, hF, hi, hsc⟩ := (graphOf vgs hist).factors_edge ([] : List α) (f := g) (i := j) (v := w) ⟨vs, hg, hw⟩
  have hok := h.facOk ([] : List α) g F hF
  unfold FactorGraph.kind at hok
  rw [ht, List.length_nil, if_neg (Nat.not_lt_zero _)] at hok
  obtain ⟨hrel, -, h2⟩ := hok
  have hwn : w.n = 2 := h2 w (List.mem_of_getElem? hi)
  rw [varToFac_congr hm rfl _ (show 1 - (graphOf vgs hist).restState g < w.n by omega), varToFac_congr hm rfl _ (show (graphOf vgs hist).restState g < w.n by omega)]
  exact ho g vs hg j w hj hw

variable [IsStrictOrderedRing α]

/-- The message to the undetermining state is zero. -/
theorem Compiled.logical_rest (h : Compiled vgs hist garbage st) {bp : BPFun κ α} (hbp : bp.st = st) (hT : bp.temperature = 0) (env : Env α) (lp vtof : List α)
    (hlp : lp.length = st.logPotentials.length) (hv : vtof.length = st.totalFactorNumStates) (f i : Nat) (F : SFac α)
    (hF : ((graphOf vgs hist).factors lp)[f]? = some F) (hf : (graphOf vgs hist).tables.length ≤ f) (hi : i < F.scope.length) :
    (bp.newMsgs env lp vtof)[edgeStart (graphOf vgs hist).allScopes f i + (graphOf vgs hist).restState f]? = some 0 := by
  obtain ⟨rel, base, scopes, vt, hrel, hbf, hl, hvt, hsc, hrows, hcnt, hpart, hmsg, -⟩ := h.logical_part hbp env lp vtof hlp hv f F hF hf
  obtain ⟨g, rfl⟩ : ∃ g, f = base + g := ⟨f - base, by omega⟩
  rw [Nat.add_sub_cancel_left] at hsc
  rw [(hpart g _ hsc).2.1, (hmsg g _ i rel hsc hi hrel).1]
  obtain ⟨l1, l2⟩ := logicalMax_length (lLabels rel hl) env (pdiffs env vt rel scopes) (cdiffs env vt rel scopes) (pdiffs_length _ _ _ _)
    ((cdiffs_length _ _ _ _).trans (by simp [parentCounts]))
  exact (passLogical_at env bp.temperature vt hvt hl rel hrel
    (logicalMax env (pdiffs env vt rel scopes) (cdiffs env vt rel scopes) ((lParents rel 0 0 scopes).map (·.1)) (parentCounts scopes).length).1
    (logicalMax env (pdiffs env vt rel scopes) (cdiffs env vt rel scopes) ((lParents rel 0 0 scopes).map (·.1)) (parentCounts scopes).length).2
    (if_pos hT) l1 (l2.trans (by simp [parentCounts])) g i _ hsc hi).1

/-- An iteration of the code in a graph without tables is an iteration of the textbook, as long as parents are open. -/
theorem Compiled.step_logical (h : Compiled vgs hist garbage st) {state : BPState α} {bp : BPFun κ α}
    (hbp : BP.create st state 0 = .ok bp) (env : Env α) (hseg : SegFits env (graphOf vgs hist)) (ht : (graphOf vgs hist).tables = []) (lp ev msgs : List α) (d : α)
    (hd : 0 ≤ d ∧ d ≤ 1) (hlp : lp.length = st.logPotentials.length) (hev : ev.length = st.numVarStates) (hm : msgs.length = st.totalFactorNumStates)
    (hopen : ParentsOpen (graphOf vgs hist) (readEv st.varsToStarts ev) (readMsgs (graphOf vgs hist).allScopes msgs))
    (hclip : Clipped (graphOf vgs hist).allScopes (readMsgs (graphOf vgs hist).allScopes msgs)) :
    AgreeOn (graphOf vgs hist).allScopes (readMsgs (graphOf vgs hist).allScopes (bp.step env lp ev d msgs))
      (tbStep ((graphOf vgs hist).factors lp) (readEv st.varsToStarts ev) d (readMsgs (graphOf vgs hist).allScopes msgs)) := by
  have hmax := (h.maxMsgSize hbp).1
  obtain ⟨hvl, hnl, hl, hr⟩ := h.step_norm hbp env hseg lp ev msgs d hlp hm
  obtain ⟨e1, -, -, e4, -⟩ := BP_create_ok hbp
  have hf0 : ∀ f, ¬ f < (graphOf vgs hist).tables.length := by rw [ht]; exact fun f => Nat.not_lt_zero f
  have hlog : ∀ (g : Nat) (vs : List Var), (graphOf vgs hist).allScopes[g]? = some vs → (graphOf vgs hist).restState g < 2 ∧ 2 ≤ vs.length ∧ ∀ v ∈ vs, v.n = 2 := by
    intro g vs hg
    rw [← FactorGraph.factors_scopes _ lp, List.getElem?_map, Option.map_eq_some_iff] at hg
    obtain ⟨F, hF, rfl⟩ := hg
    have hok := h.facOk lp g F hF
    unfold FactorGraph.kind at hok
    rwa [if_neg (hf0 g)] at hok
  have hq : ∀ (g : Nat) (vs : List Var) (j : Nat) (w : Var) (t : Nat), (graphOf vgs hist).allScopes[g]? = some vs → vs[j]? = some w → t < w.n →
      readMsgs (graphOf vgs hist).allScopes (passVarToFac env msgs ev bp.varStatesForEdges) g j t
        = varToFac (graphOf vgs hist).allScopes (readEv st.varsToStarts ev) (readMsgs (graphOf vgs hist).allScopes msgs) w (g, j) t :=
    fun g vs j w t hg hj ht => read_of_at (C26_var_to_fac h hbp env msgs ev hm hev g j _ w t hg hj ht)
  have hp : ∀ (g : Nat) (vs : List Var), (graphOf vgs hist).allScopes[g]? = some vs → ∀ j < vs.length - 1,
      -100000 < (graphOf vgs hist).pull (readMsgs (graphOf vgs hist).allScopes (passVarToFac env msgs ev bp.varStatesForEdges)) g j := by
    intro g vs hg j hj
    have hw := List.getElem?_eq_getElem (show j < vs.length by omega)
    obtain ⟨h1, -, h2⟩ := hlog g vs hg
    have hwn := h2 _ (List.getElem_mem (show j < vs.length by omega))
    unfold FactorGraph.pull
    rw [hq g vs j _ _ hg hw (by omega), hq g vs j _ _ hg hw (by omega)]
    exact hopen g vs hg j _ hj hw
  intro f i v s he hs
  obtain ⟨F, hF, hi, hsc⟩ := (graphOf vgs hist).factors_edge lp he
  obtain ⟨hrel, hlen, h2⟩ := hlog f _ hsc
  have hvn : v.n = 2 := h2 v (List.mem_of_getElem? hi)
  rw [tbStep_at hF hi]
  obtain ⟨c, hc⟩ := C29_partial h hbp env lp _ hlp hvl f i F hF (not_lt.1 (hf0 f)) (List.getElem?_eq_some_iff.1 hi).1
    (.inr fun g vs hg _ => ⟨0, by have := (hlog g vs hg).2.1; omega, (hp g vs hg 0 (by have := (hlog g vs hg).2.1; omega)).le⟩)
    (by
      rcases Nat.lt_or_ge 2 F.scope.length with h3 | h3
      · exact .inr ⟨0, by omega, 1, by omega, by omega, hp f _ hsc 0 (by omega), hp f _ hsc 1 (by omega)⟩
      · exact .inl (by omega))
  rw [hr f i v s he hs, normM_at he]
  refine norm_eq_tb (x := fun s => readMsgs (graphOf vgs hist).allScopes msgs f i s + (1 - d) * (readMsgs (graphOf vgs hist).allScopes
    (BPFun.newMsgs env bp lp (passVarToFac env msgs ev bp.varStatesForEdges)) f i s - readMsgs (graphOf vgs hist).allScopes msgs f i s)) (hmax f i v he) ((1 - d) * c) ?_ ?_ s hs
  · intro s hs
    obtain ⟨z, hz, hg⟩ := hc s (by omega)
    rw [read_of_at hz]
    have hout : tbOut F (tbIn ((graphOf vgs hist).factors lp) (readEv st.varsToStarts ev) (readMsgs (graphOf vgs hist).allScopes msgs) f F) i s = WithBot.some (z + c) := by
      rw [tbOut_congr (h.rowsFit lp hF) (q' := readMsgs (graphOf vgs hist).allScopes (passVarToFac env msgs ev bp.varStatesForEdges) f)]
      · refine List.maximum_eq_coe_iff.2 ⟨?_, ?_⟩
        · obtain ⟨r, hr, he⟩ := hg.1
          rw [he]
          exact List.mem_map.2 ⟨r, hr, rfl⟩
        · intro a ha
          obtain ⟨r, hr, rfl⟩ := List.mem_map.1 ha
          exact hg.2 ⟨r, hr, rfl⟩
      · intro j w t hj ht
        rw [tbIn_at hj, FactorGraph.factors_scopes, hq f _ j w t hsc hj ht]
    rw [hout, WithBot.map_coe]
    congr 1
    ring
  · refine ⟨(graphOf vgs hist).restState f, by omega, ?_⟩
    have hnat := h.logical_rest e1 e4 env lp _ hlp hvl f i F hF (not_lt.1 (hf0 f)) (List.getElem?_eq_some_iff.1 hi).1
    rw [read_of_at hnat]
    have h0 := hclip f i v ((graphOf vgs hist).restState f) he (by omega)
    have h1 := mul_le_mul_of_nonneg_left h0.1 hd.1
    have h4 : (NEG_INF : α) = -100000 := by norm_num [NEG_INF]
    rw [h4]
    linarith [hd.2]

/-- The run of the code in a graph without tables is the run of the textbook, if parents are open throughout. -/
theorem Compiled.run_logical (h : Compiled vgs hist garbage st) {state : BPState α} {bp : BPFun κ α}
    (hbp : BP.create st state 0 = .ok bp) (env : Env α) (hseg : SegFits env (graphOf vgs hist)) (ht : (graphOf vgs hist).tables = []) (a : BPArrays α) (n : Nat) (d : α)
    (hd : 0 ≤ d ∧ d ≤ 1) (hlp : a.logPotentials.length = st.logPotentials.length) (hev : a.evidence.length = st.numVarStates)
    (hm : a.ftovMsgs.length = st.totalFactorNumStates)
    (hinit : ∀ f i v, IsEdge (graphOf vgs hist).allScopes f i v → ∃ s < v.n, -100000 ≤ readMsgs (graphOf vgs hist).allScopes a.ftovMsgs f i s)
    (hopen : ∀ t < n, ParentsOpen (graphOf vgs hist) (readEv st.varsToStarts a.evidence) (tbRun ((graphOf vgs hist).factors a.logPotentials)
      (readEv st.varsToStarts a.evidence) d t (readMsgs (graphOf vgs hist).allScopes a.ftovMsgs))) :
    (bp.runBP env a n d).ftovMsgs.length = st.totalFactorNumStates ∧
    AgreeOn (graphOf vgs hist).allScopes (readMsgs (graphOf vgs hist).allScopes (bp.runBP env a n d).ftovMsgs)
      (tbRun ((graphOf vgs hist).factors a.logPotentials) (readEv st.varsToStarts a.evidence) d n (readMsgs (graphOf vgs hist).allScopes a.ftovMsgs)) := by
  have hmax := (h.maxMsgSize hbp).1
  unfold BPFun.runBP
  induction n with
  | zero =>
    refine ⟨h.normalize_length hbp env _ hm, (h.norm_read hbp env hseg a.ftovMsgs hm).trans ?_⟩
    intro f i v s he hs
    obtain ⟨F, hF, hi, hsc⟩ := (graphOf vgs hist).factors_edge a.logPotentials he
    rw [normM_at he]
    refine (norm_eq_tb (hmax f i v he) 0 (fun s _ => rfl) ?_ s hs).trans ?_
    · obtain ⟨t, ht, hle⟩ := hinit f i v he
      exact ⟨t, ht, by norm_num [NEG_INF]; exact hle⟩
    · simp only [tbRun, add_zero]
      rw [tbInit_at hF hi]
  | succ n ih =>
    simp only [iterate_succ']
    obtain ⟨i1, i2⟩ := ih (fun t ht => hopen t (by omega))
    have hclip : Clipped (graphOf vgs hist).allScopes (readMsgs (graphOf vgs hist).allScopes
        (BPFun.iterate (bp.step env a.logPotentials a.evidence d) n (normalizeAndClip env a.ftovMsgs bp.edgesNumStates bp.maxMsgSize))) := by
      intro f i v s he hs
      obtain ⟨F, hF, hi, hsc⟩ := (graphOf vgs hist).factors_edge a.logPotentials he
      rw [i2 f i v s he hs]
      cases n with
      | zero => simp only [tbRun]; rw [tbInit_at hF hi]; exact tbNorm_mem _ hs
      | succ n => simp only [tbRun]; rw [tbStep_at hF hi]; exact tbNorm_mem _ hs
    refine ⟨(h.step_norm hbp env hseg a.logPotentials a.evidence _ d hlp i1).2.2.1, ?_⟩
    exact (h.step_logical hbp env hseg ht a.logPotentials a.evidence _ d hd hlp hev i1 (h.parentsOpen_congr ht i2 (hopen n (by omega))) hclip).trans
      (h.tbStep_congr a.logPotentials _ d i2)

end

end PGMax
