import Verif.Lemmas.Ties
import Verif.Props.C113

/-! # Helper lemmas: inference in the program that ties variables of a dictionary to variables of an array -/

namespace PGMax

theorem IsFirstMax.congr {α : Type _} [LinearOrder α] {f g : Nat → α} {n j : Nat} (h : IsFirstMax f n j) (hg : ∀ s < n, g s = f s) : IsFirstMax g n j := by
  obtain ⟨h1, h2, h3⟩ := h
  refine ⟨h1, fun s hs => ?_, fun s hs => ?_⟩
  · rw [hg s hs, hg j h1]; exact h2 s hs
  · rw [hg s (by omega), hg j h1]; exact h3 s hs

theorem fadedMsg_congr {α : Type _} [Field α] [LinearOrder α] {d : α} {n N : Nat} {f g : Nat → WithBot α} (h : ∀ t < N, f t = g t) {s : Nat} (hs : s < N) :
    fadedMsg d n N f s = fadedMsg d n N g s := by
  unfold fadedMsg
  rw [h s hs, Finset.sup_congr rfl (fun t ht => h t (Finset.mem_range.1 ht))]

theorem filter_range_eq {N s : Nat} (hs : s < N) : (List.range N).filter (fun t => decide (t = s)) = [s] := by
  have : (List.range N).filter (fun t => decide (t = s)) = List.replicate ((List.range N).count s) s := by
    rw [← List.filter_eq]
  rw [this, List.count_eq_one_of_mem List.nodup_range (List.mem_range.2 hs)]
  rfl

theorem le_foldr_max {l : List Nat} {a : Nat} (h : a ∈ l) : a ≤ l.foldr max 0 := by
  induction l with
  | nil => cases h
  | cons b l ih =>
    rw [List.foldr_cons]
    rw [List.mem_cons] at h
    rcases h with rfl | h
    · exact le_max_left _ _
    · exact (ih h).trans (le_max_right _ _)

theorem pair_getElem? {β : Type _} {a b v : β} {i : Nat} (h : [a, b][i]? = some v) : (i = 0 ∧ v = a) ∨ (i = 1 ∧ v = b) := by
  match i, h with
  | 0, h => exact .inl ⟨rfl, (Option.some.inj h).symm⟩
  | 1, h => exact .inr ⟨rfl, (Option.some.inj h).symm⟩
  | i + 2, h => simp at h

theorem forM_check {ι : Type _} (f : ι → Py Unit) (P : ι → Prop) [DecidablePred P] (e : PyErr) (l : List ι) (h : ∀ q ∈ l, f q = if P q then .ok () else .error e) :
    l.forM f = if ∀ q ∈ l, P q then .ok () else .error e := by
  induction l with
  | nil => simp [pure, Except.pure]
  | cons q l ih =>
    show (f q >>= fun _ => l.forM f) = _
    rw [h q (by simp)]
    by_cases hq : P q
    · rw [if_pos hq]
      refine (ih fun q hq => h q (by simp [hq])).trans ?_
      by_cases hl : ∀ q ∈ l, P q
      · rw [if_pos hl, if_pos (by simpa using ⟨hq, hl⟩)]
      · rw [if_neg hl, if_neg (fun hc => hl fun q hq => hc q (by simp [hq]))]
    · rw [if_neg hq, if_neg (fun hc => hq (hc q (by simp)))]
      rfl

/-- Evidence for variables, one after the other. -/
theorem var_updates {κ α : Type _} {vgs : List (VGroup κ)} {hist : List (AddArg α)} {garbage : Garbage} {st : FGState κ α} [Zero α] [DecidableEq κ] (h : Compiled vgs hist garbage st)
    (l : List (Var × NDArr α)) (hn : (l.map (·.1)).Nodup) (hl : ∀ p ∈ l, (∃ g ∈ vgs, p.1 ∈ g.variables) ∧ p.2.WF ∧ p.2.shape = [p.1.n]) (ev : List α) (hev : ev.length = st.numVarStates) :
    ∃ ev', updateEvidence st ev (l.map (fun p => .var p.1 p.2)) = .ok ev' ∧ ev'.length = st.numVarStates ∧ (∀ p ∈ l, Evidence.getitem st ev' p.1 = .ok p.2.data) ∧
      ∀ w, w ∉ l.map (·.1) → Evidence.getitem st ev' w = Evidence.getitem st ev w := by
  induction l generalizing ev with
  | nil => exact ⟨ev, rfl, hev, by simp, fun _ _ => rfl⟩
  | cons p l ih =>
    obtain ⟨h1, h2, h3⟩ := hl p (by simp)
    obtain ⟨ev1, a1, a2, a3, a4⟩ := (C22_var h ev hev p.1 p.2 h2 h3).1 h1
    rw [List.map_cons, List.nodup_cons] at hn
    obtain ⟨ev2, b1, b2, b3, b4⟩ := ih hn.2 (fun q hq => hl q (by simp [hq])) ev1 (a2.trans hev)
    refine ⟨ev2, ?_, b2, fun q hq => ?_, fun w hw => ?_⟩
    · unfold updateEvidence at b1 ⊢
      rw [List.map_cons, List.foldlM_cons, a1]
      exact b1
    · rw [List.mem_cons] at hq
      rcases hq with rfl | hq
      · rw [b4 _ hn.1, a3]
      · exact b3 q hq
    · rw [List.map_cons, List.mem_cons, not_or] at hw
      rw [b4 w hw.2, a4 w hw.1]

section
variable {κ α : Type} {idD idA : Nat} {idF : Nat → Nat} {names : List κ} {ns : List Nat} [Field α] [LinearOrder α] {x y : Nat → Nat → α}

/-- The arrays before the iterations. -/
structure TieReady (idD idA : Nat) (ns : List Nat) (x y : Nat → Nat → α) (st : FGState κ α) (bp : BPFun κ α) (arrs : BPArrays α) : Prop where
  bp : ∃ state, BP.create st state 0 = .ok bp
  pots : arrs.logPotentials = st.logPotentials
  msgs : arrs.ftovMsgs = List.replicate st.totalFactorNumStates 0
  len : arrs.evidence.length = st.numVarStates
  evD : ∀ i < ns.length, ∀ s < ns.getD i 0, readEv st.varsToStarts arrs.evidence (tVar idD ns i) s = x i s
  evA : ∀ i < ns.length, ∀ s < ns.getD i 0, readEv st.varsToStarts arrs.evidence (tVar idA ns i) s = y i s

theorem tGraph_vars {garbage : Garbage} {st : FGState κ α} {hist : List (AddArg α)} (h : Compiled (tVgs idD idA names ns) hist garbage st) (hl : names.length = ns.length) (v : Var) :
    (∃ s, st.varsToStarts v = some s) ↔ ∃ i < ns.length, v = tVar idD ns i ∨ v = tVar idA ns i := by
  rw [h.blocks.1 v, ← mem_tVgs (κ := κ) (names := names) hl]
  simp [graphVars]

theorem TieReady.zeros {garbage : Garbage} {st : FGState κ α} {hist : List (AddArg α)} {bp : BPFun κ α} {arrs : BPArrays α} (hr : TieReady idD idA ns x y st bp arrs)
    (h : Compiled (tVgs idD idA names ns) hist garbage st) (hl : names.length = ns.length) :
    arrs.evidence.any (fun e => decide (e = 0)) = true ↔ ∃ i < ns.length, ∃ s < ns.getD i 0, x i s = 0 ∨ y i s = 0 := by
  obtain ⟨-, b2, -, b4⟩ := h.blocks
  have hget : ∀ {v : Var} {t s : Nat}, st.varsToStarts v = some t → s < v.n → arrs.evidence[t + s]? = some (readEv st.varsToStarts arrs.evidence v s) := by
    intro v t s hv hs
    have hlt : t + s < arrs.evidence.length := by rw [hr.len]; have := b2 v t hv; omega
    unfold readEv
    rw [hv, Option.getD_some, List.getD_eq_getElem _ _ hlt, List.getElem?_eq_getElem hlt]
  rw [List.any_eq_true]
  constructor
  · rintro ⟨e, he, h0⟩
    rw [decide_eq_true_eq] at h0
    subst h0
    obtain ⟨p, hp, e⟩ := List.getElem_of_mem he
    obtain ⟨v, t, hv, h1, h2⟩ := b4 p (by rw [← hr.len]; exact hp)
    have h3 := hget hv (s := p - t) (by omega)
    rw [show t + (p - t) = p by omega, List.getElem?_eq_getElem hp, e] at h3
    have h3 := (Option.some.inj h3).symm
    obtain ⟨i, hi, rfl | rfl⟩ := (tGraph_vars h hl v).1 ⟨t, hv⟩
    · exact ⟨i, hi, p - t, by have : (tVar idD ns i).n = ns.getD i 0 := rfl; omega, .inl (by rw [← hr.evD i hi _ (by have : (tVar idD ns i).n = ns.getD i 0 := rfl; omega)]; exact h3)⟩
    · exact ⟨i, hi, p - t, by have : (tVar idA ns i).n = ns.getD i 0 := rfl; omega, .inr (by rw [← hr.evA i hi _ (by have : (tVar idA ns i).n = ns.getD i 0 := rfl; omega)]; exact h3)⟩
  · rintro ⟨i, hi, s, hs, h0 | h0⟩
    · obtain ⟨t, ht⟩ := (tGraph_vars h hl (tVar idD ns i)).2 ⟨i, hi, .inl rfl⟩
      exact ⟨_, List.mem_of_getElem? (hget ht hs), by rw [hr.evD i hi s hs, h0]; simp⟩
    · obtain ⟨t, ht⟩ := (tGraph_vars h hl (tVar idA ns i)).2 ⟨i, hi, .inr rfl⟩
      exact ⟨_, List.mem_of_getElem? (hget ht hs), by rw [hr.evA i hi s hs, h0]; simp⟩

/-- What the program runs, up to the assertions. -/
theorem tie_ready [DecidableEq κ] (h : TieInputs idD idA idF names ns x y) (env : Env α) (garbage : Garbage) (stateId n : Nat) :
    ∃ (fg : FactorGraph κ α) (st : FGState κ α) (bp : BPFun κ α) (arrs : BPArrays α), TieBuilt idD idA idF names ns fg garbage st ∧ TieReady idD idA ns x y st bp arrs ∧
      tiesTest env idD idA idF garbage stateId names ns x y n = (if arrs.evidence.any (fun e => decide (e = 0)) = true then .error .assertionError else do
        let bs ← bp.getBeliefs (bp.runBP env arrs n (1 / 2))
        let rs ← decodeMapStates bs
        let d ← dictStates rs (tDict idD names ns)
        let a ← arrStates rs (tArr idA ns)
        names.zipIdx.forM (checkTie d a)) := by
  obtain ⟨fg, st, e, hb⟩ := tie_build h garbage
  have hk : 0 < ns.length := by obtain ⟨n, hn, -⟩ := h.more; exact List.length_pos_of_mem hn
  have hsc : (graphOf (tVgs idD idA names ns) ((List.range ns.length).map (fun i => AddArg.one (tGroup idD idA idF ns i : FGroup α)))).allScopes ≠ [] := by
    rw [hb.graph, ← fg.factors_scopes st.logPotentials, hb.factors]
    intro hc
    have := congrArg List.length hc
    simp only [List.length_map, List.length_range, List.length_nil] at this
    omega
  obtain ⟨bp, hbp⟩ := (C51_partial hb.compiled (⟨⟨stateId, st.logPotentials⟩, ⟨stateId, List.replicate st.totalFactorNumStates 0⟩,
      ⟨stateId, List.replicate st.numVarStates 0⟩⟩ : BPState α) 0).1.2 hsc
  obtain ⟨b1, b2, -⟩ := BP_create_ok hbp
  have hvars := tDict_variables (idD := idD) h.lengths
  -- the evidence of the dictionary
  set l : List (Var × NDArr α) := (List.range ns.length).map (fun i => (tVar idD ns i, ⟨[ns.getD i 0], (List.range (ns.getD i 0)).map (x i)⟩)) with hl
  have hups : (tDict idD names ns).variables.zipIdx.map (fun p => (EvidenceUpdate.var p.1 ⟨[p.1.n], (List.range p.1.n).map (x p.2)⟩ : EvidenceUpdate κ α)) = l.map (fun p => .var p.1 p.2) := by
    rw [hvars, hl, List.map_map]
    apply List.ext_getElem?
    intro i
    rw [List.getElem?_map, List.getElem?_zipIdx, List.getElem?_map, List.getElem?_map]
    by_cases hi : i < ns.length
    · rw [List.getElem?_range hi]
      simp [tVar]
    · rw [List.getElem?_eq_none (by simpa using hi)]
      rfl
  have hl1 : l.map (·.1) = (List.range ns.length).map (tVar idD ns) := by rw [hl, List.map_map]; rfl
  have hmemD : ∀ i < ns.length, ∃ g ∈ tVgs idD idA names ns, tVar idD ns i ∈ g.variables := fun i hi =>
    ⟨.dict (tDict idD names ns), by simp [tVgs], by show _ ∈ (tDict idD names ns).variables; rw [hvars]; exact List.mem_map_of_mem (List.mem_range.2 hi)⟩
  obtain ⟨ev1, v1, v2, v3, -⟩ := var_updates hb.compiled l (by rw [hl1]; exact List.nodup_range.map_on fun i _ j _ => tVar_inj)
    (by
      intro p hp
      obtain ⟨i, hi, rfl⟩ := List.mem_map.1 hp
      exact ⟨hmemD i (List.mem_range.1 hi), by simp [NDArr.WF], rfl⟩) (List.replicate st.numVarStates (0 : α)) (by simp)
  -- the evidence of the array
  obtain ⟨m, hm⟩ : ∃ m, npMax ns = .ok m := by
    cases ns with
    | nil => simp at hk
    | cons a ns => exact ⟨_, rfl⟩
  obtain ⟨-, hle⟩ := npMax_ok hm
  set data : NDArr α := ⟨[ns.length, m], (List.range ns.length).flatMap (fun i => (List.range m).map (y i))⟩ with hdata
  have hwf : data.WF := by
    rw [hdata]
    simp [NDArr.WF, List.length_flatMap]
  obtain ⟨flat, f1, f2, f3⟩ := (tArr idA ns).flatten_states (by simp [tArr]) m hm data hwf rfl
  have havars := tArr_variables (idA := idA) (ns := ns)
  obtain ⟨ev2, w1, w2, w3, w4⟩ := C22_group hb.compiled ev1 v2 (.arr (tArr idA ns)) (by simp [tVgs])
    (by
      show (tArr idA ns).variables ≠ []
      rw [havars]
      intro hc
      have := congrArg List.length hc
      simp only [List.length_map, List.length_range, List.length_nil] at this
      omega) (.arr data) flat f1 f2
  have hready : TieReady idD idA ns x y st bp ⟨st.logPotentials, List.replicate st.totalFactorNumStates 0, ev2⟩ := by
    refine ⟨⟨_, hbp⟩, rfl, rfl, w2.trans v2, fun i hi s hs => ?_, fun i hi s hs => ?_⟩
    · have hnot : tVar idD ns i ∉ (VGroup.arr (tArr idA ns) : VGroup κ).variables := by
        show _ ∉ (tArr idA ns).variables
        rw [havars]
        intro hc
        obtain ⟨j, hj, e⟩ := List.mem_map.1 hc
        exact tVar_ne h.groups h.few hi (List.mem_range.1 hj) e.symm
      have h1 := v3 (tVar idD ns i, ⟨[ns.getD i 0], (List.range (ns.getD i 0)).map (x i)⟩) (List.mem_map_of_mem (List.mem_range.2 hi))
      rw [← w4 _ hnot] at h1
      have h2 := C26_evidence hb.compiled ev2 (w2.trans v2) _ _ h1 s hs
      dsimp only at h2 ⊢
      rw [List.getElem?_map, List.getElem?_range hs] at h2
      exact (Option.some.inj h2).symm
    · have hv : (VGroup.arr (tArr idA ns) : VGroup κ).variables[i]? = some (tVar idA ns i) := by
        show (tArr idA ns).variables[i]? = _
        rw [havars, List.getElem?_map, List.getElem?_range hi]
        rfl
      obtain ⟨z, z1, z2, z3⟩ := w3 i _ hv
      have h2 := C26_evidence hb.compiled ev2 (w2.trans v2) _ _ z1 s hs
      rw [z3 s hs] at h2
      have h3 := f3 i s hi hs
      have hsm : s < m := lt_of_lt_of_le hs (by
        rw [List.getD_eq_getElem _ _ hi]
        exact hle _ (List.getElem_mem hi))
      have h4 : data.data[i * m + s]? = some (y i s) := by
        rw [hdata]
        dsimp only
        have hb' := flatMap_getElem?_block (List.range ns.length) (fun i => (List.range m).map (y i)) i s i (List.getElem?_range hi) (by simpa using hsm)
        have htake : (((List.range ns.length).take i).map (fun i => ((List.range m).map (y i)).length)).sum = i * m := by
          simp [List.take_range, Nat.min_eq_left hi.le]
        rw [← List.map_take, htake] at hb'
        rw [hb']
        simp [hsm]
      rw [h4] at h3
      have h5 : some (readEv st.varsToStarts ev2 (tVar idA ns i) s) = some (y i s) := h2.symm.trans h3
      exact Option.some.inj h5
  refine ⟨fg, st, bp, _, hb, hready, ?_⟩
  have h4 := hb.compiled.compiled
  rw [hb.graph] at h4
  unfold tiesTest
  rw [e, py_ok_bind]
  dsimp only
  rw [h4, py_ok_bind, show bpStateOf stateId st = .ok _ by
      simp [bpStateOf, LogPotentials.create, FToVMessages.create, Evidence.create, BPState.create, bind, Except.bind]; rfl, py_ok_bind, hbp, py_ok_bind]
  have hu1 : bp.update none none none (some ((tDict idD names ns).variables.zipIdx.map (fun p => .var p.1 ⟨[p.1.n], (List.range p.1.n).map (x p.2)⟩))) =
      .ok ⟨st.logPotentials, List.replicate st.totalFactorNumStates 0, ev1⟩ := by
    rw [hups]
    unfold BPFun.update
    simp only [b1, b2]
    show (do
      let ev ← updateEvidence st (List.replicate st.numVarStates (0 : α)) (l.map (fun (p : Var × NDArr α) => EvidenceUpdate.var p.1 p.2))
      _) = _
    rw [v1, py_ok_bind]
    rfl
  have hu2 : bp.update (some ⟨st.logPotentials, List.replicate st.totalFactorNumStates 0, ev1⟩) none none (some [.group (.arr (tArr idA ns)) (.arr data)]) =
      .ok ⟨st.logPotentials, List.replicate st.totalFactorNumStates 0, ev2⟩ := by
    unfold BPFun.update
    simp only [b1]
    show (do
      let ev ← updateEvidence st ev1 [.group (.arr (tArr idA ns)) (.arr data)]
      _) = _
    have : updateEvidence st ev1 [.group (.arr (tArr idA ns)) (.arr data)] = .ok ev2 := by
      unfold updateEvidence
      rw [List.foldlM_cons, w1]
      rfl
    rw [this, py_ok_bind]
    rfl
  rw [hu1, py_ok_bind, hm, py_ok_bind, hu2, py_ok_bind]
  by_cases hz : ev2.any (fun e => decide (e = 0)) = true
  · rw [if_pos hz, if_pos hz]
    rfl
  · rw [if_neg hz, if_neg hz]

/-- The message of a tie to one variable is the evidence of the other. -/
theorem tFac_out (ev : Var → Nat → α) (i : Nat) {s : Nat} (hs : s < ns.getD i 0) :
    tbOut (tFac idD idA ns i) (evidenceIn (tFac idD idA ns i) ev) 0 s = WithBot.some (ev (tVar idA ns i) s) ∧
      tbOut (tFac idD idA ns i) (evidenceIn (tFac idD idA ns i) ev) 1 s = WithBot.some (ev (tVar idD ns i) s) := by
  have hf : ∀ j < 2, (tFac idD idA ns i : SFac α).rowsAt j s = [([s, s], 0)] := by
    intro j hj
    have e : (fun r : List Nat × α => decide (r.1[j]? = some s)) ∘ ((fun r => (r, (0 : α))) ∘ (fun t : Nat => [t, t])) = fun t => decide (t = s) := by
      funext t
      obtain rfl | rfl : j = 0 ∨ j = 1 := by omega
      · simp
      · simp
    unfold SFac.rowsAt tFac tRows
    dsimp only
    rw [List.map_map, List.filter_map, e, filter_range_eq hs]
    rfl
  unfold tbOut
  rw [hf 0 (by omega), hf 1 (by omega)]
  constructor
  · show ((([([s, s], (0 : α))] : List (List Nat × α)).map _).maximum) = _
    rw [List.map_singleton, List.maximum_singleton]
    congr 1
    simp [scoreBut, tFac, evidenceIn, List.range_succ]
  · rw [List.map_singleton, List.maximum_singleton]
    congr 1
    simp [scoreBut, tFac, evidenceIn, List.range_succ]

theorem tie_edge {fg : FactorGraph κ α} {garbage : Garbage} {st : FGState κ α} (hb : TieBuilt idD idA idF names ns fg garbage st) {f i : Nat} {v : Var} :
    IsEdge fg.allScopes f i v ↔ f < ns.length ∧ [tVar idD ns f, tVar idA ns f][i]? = some v := by
  unfold IsEdge
  rw [← fg.factors_scopes st.logPotentials, hb.factors, List.map_map, List.getElem?_map]
  by_cases hf : f < ns.length
  · rw [List.getElem?_range hf]
    simp [hf, tFac]
  · rw [List.getElem?_eq_none (by simpa using hf)]
    simp [hf]

theorem tie_separate {fg : FactorGraph κ α} {garbage : Garbage} {st : FGState κ α} (h : TieInputs idD idA idF names ns x y) (hb : TieBuilt idD idA idF names ns fg garbage st) :
    Separate fg.allScopes := by
  intro v
  have hnd := edgesOf_nodup fg.allScopes v
  by_contra hc
  push Not at hc
  have hsub : ∀ e ∈ edgesOf fg.allScopes v, ∀ e' ∈ edgesOf fg.allScopes v, e = e' := by
    rintro ⟨f, i⟩ he ⟨g, j⟩ he'
    obtain ⟨h1, h2⟩ := (tie_edge hb).1 ((mem_edgesOf _ v f i).1 he)
    obtain ⟨h3, h4⟩ := (tie_edge hb).1 ((mem_edgesOf _ v g j).1 he')
    rcases pair_getElem? h2 with ⟨rfl, k2⟩ | ⟨rfl, k2⟩ <;> rcases pair_getElem? h4 with ⟨rfl, k4⟩ | ⟨rfl, k4⟩
    · rw [tVar_inj (k2.symm.trans k4)]
    · exact absurd (k2.symm.trans k4) (tVar_ne h.groups h.few h1 h3)
    · exact absurd (k4.symm.trans k2) (tVar_ne h.groups h.few h3 h1)
    · rw [tVar_inj (k2.symm.trans k4)]
  rcases e : edgesOf fg.allScopes v with _ | ⟨a, _ | ⟨b, l⟩⟩
  · rw [e] at hc; simp at hc
  · rw [e] at hc; simp at hc
  · rw [e] at hnd hsub
    have := hsub a (by simp) b (by simp)
    subst this
    simp at hnd

/-- The beliefs. -/
theorem tie_beliefs [IsStrictOrderedRing α] {fg : FactorGraph κ α} {garbage : Garbage} {st : FGState κ α} {bp : BPFun κ α} {arrs : BPArrays α} (h : TieInputs idD idA idF names ns x y)
    (hb : TieBuilt idD idA idF names ns fg garbage st) (hr : TieReady idD idA ns x y st bp arrs) (env : Env α) (hw : env.wrapNeg = false ∨ 2 * ns.sum + ns.foldr max 0 ≤ 100000) (n : Nat)
    {i : Nat} (hi : i < ns.length) {s : Nat} (hs : s < ns.getD i 0) :
    beliefOf fg.allScopes (readEv st.varsToStarts arrs.evidence) (readMsgs fg.allScopes (bp.runBP env arrs n (1 / 2)).ftovMsgs) (tVar idD ns i) s =
        tiedBelief n (ns.getD i 0) (x i) (y i) s ∧
      beliefOf fg.allScopes (readEv st.varsToStarts arrs.evidence) (readMsgs fg.allScopes (bp.runBP env arrs n (1 / 2)).ftovMsgs) (tVar idA ns i) s =
        tiedBelief n (ns.getD i 0) (y i) (x i) s := by
  obtain ⟨state, hbp⟩ := hr.bp
  have hsep := tie_separate h hb
  have hev : ∀ f i v, IsEdge fg.allScopes f i v → ∀ s < v.n, |readEv st.varsToStarts arrs.evidence v s| ≤ 49000 := by
    intro f i v he s hs
    obtain ⟨h1, h2⟩ := (tie_edge hb).1 he
    rcases pair_getElem? h2 with ⟨-, rfl⟩ | ⟨-, rfl⟩
    · rw [hr.evD f h1 s hs]; exact (h.evidence f s).1
    · rw [hr.evA f h1 s hs]; exact (h.evidence f s).2
  have hmod : Moderate fg arrs.logPotentials (readEv st.varsToStarts arrs.evidence) (1 / 2) := by
    refine ⟨⟨by norm_num, by norm_num⟩, fun _ => 50000, fun f i v s he hs => ?_, fun F hF => ⟨100000, fun r hr' => ?_, le_rfl, .inl ?_⟩⟩
    · have h1 := hev f i v he s hs
      have h2 : ((edgesOf fg.allScopes v).length : α) ≤ 1 := by exact_mod_cast hsep v
      linarith
    all_goals
      rw [hr.pots, hb.tables] at hF
      obtain ⟨j, hj, rfl⟩ := List.mem_map.1 hF
    · obtain ⟨q, -, rfl⟩ := List.mem_map.1 hr'
      simp only [tFac, abs_zero, List.map_cons, List.map_nil, List.sum_cons, List.sum_nil]
      norm_num
    · intro k v s hv hs
      have hsn : s < ns.getD j 0 := by
        rcases pair_getElem? hv with ⟨-, rfl⟩ | ⟨-, rfl⟩ <;> exact hs
      refine List.ne_nil_of_mem (List.mem_filter.2 ⟨List.mem_map_of_mem (List.mem_map_of_mem (List.mem_range.2 hsn)), ?_⟩)
      rcases pair_getElem? hv with ⟨rfl, -⟩ | ⟨rfl, -⟩ <;> simp
  have hlog : LogicalModerate fg (readEv st.varsToStarts arrs.evidence) := by
    intro f vs hf hlt
    have h1 := (List.getElem?_eq_some_iff.1 hf).1
    have h2 := congrArg List.length (fg.factors_scopes st.logPotentials)
    have h3 := congrArg List.length hb.tables
    rw [hb.factors, List.length_map, List.length_map] at h2
    rw [tableFacs_length, List.length_map] at h3
    omega
  have hstates : (fg.allScopes.map (fun vs => (vs.map (·.n)).sum)).sum = 2 * ns.sum := by
    rw [← fg.factors_scopes st.logPotentials, hb.factors, List.map_map, List.map_map]
    have : (((fun vs : List Var => (vs.map (·.n)).sum) ∘ (fun F : SFac α => F.scope)) ∘ tFac idD idA ns) = fun i => 2 * ns.getD i 0 := by
      funext i
      simp [tFac, tVar, two_mul]
    rw [this, List.sum_map_mul_left]
    congr 2
    apply List.ext_getElem
    · simp
    · intro i h1 h2
      simp [List.getD, h2]
  have hfit : Fits env fg (0 : α) := by
    refine ⟨hw.imp_right fun hsz f i v he => ?_, fun _ => ?_⟩
    · obtain ⟨h1, h2⟩ := (tie_edge hb).1 he
      rw [hstates]
      have hvn : v.n = ns.getD f 0 := by
        rcases pair_getElem? h2 with ⟨-, rfl⟩ | ⟨-, rfl⟩ <;> rfl
      have hmax : ns.getD f 0 ≤ ns.foldr max 0 := by
        rw [List.getD_eq_getElem _ _ h1]
        exact le_foldr_max (List.getElem_mem h1)
      omega
    · unfold FactorGraph.numParents
      rw [hb.others .or (by decide), hb.others .and (by decide)]
      simp
  have hpos : ∀ f i v, IsEdge fg.allScopes f i v → 0 < v.n := by
    intro f i v he
    obtain ⟨h1, h2⟩ := (tie_edge hb).1 he
    have h3 : 1 ≤ ns.getD f 0 := by
      rw [List.getD_eq_getElem _ _ h1]
      exact h.pos _ (List.getElem_mem h1)
    rcases pair_getElem? h2 with ⟨-, rfl⟩ | ⟨-, rfl⟩ <;> exact h3
  have hF : (fg.factors arrs.logPotentials)[i]? = some (tFac idD idA ns i) := by
    rw [hr.pots, hb.factors, List.getElem?_map, List.getElem?_range hi]
    rfl
  have msg : ∀ {j : Nat} {v : Var}, (tFac idD idA ns i : SFac α).scope[j]? = some v → s < v.n →
      beliefOf fg.allScopes (readEv st.varsToStarts arrs.evidence) (readMsgs fg.allScopes (bp.runBP env arrs n (1 / 2)).ftovMsgs) v s =
        readEv st.varsToStarts arrs.evidence v s +
          fadedMsg (1 / 2) n v.n (tbOut (tFac idD idA ns i) (evidenceIn (tFac idD idA ns i) (readEv st.varsToStarts arrs.evidence)) j) s := by
    intro j v hv hsv
    rw [hsep.belief ((tie_edge hb).2 ⟨hi, hv⟩)]
    congr 1
    cases n with
    | succ n =>
      have := C113 hb.compiled hbp env (by rw [hb.graph]; exact hfit) arrs n (1 / 2) (by rw [hr.pots]) hr.len hr.msgs (by rw [hb.graph]; exact hmod) (by rw [hb.graph]; exact hlog)
        (by rw [hb.graph]; exact hsep) (by rw [hb.graph]; exact hpos) (by rw [hb.graph]; exact hF) hv hsv
      rwa [hb.graph] at this
    | zero =>
      have hz : ∀ f i s, readMsgs fg.allScopes arrs.ftovMsgs f i s = 0 := fun f i s => by rw [hr.msgs, readMsgs_none]
      have := C37_partial hb.compiled hbp env (by rw [hb.graph]; exact hfit) arrs 0 (1 / 2) (by rw [hr.pots]) hr.len (by rw [hr.msgs, List.length_replicate]) (by rw [hb.graph]; exact hmod)
        (by rw [hb.graph]; exact hlog) (by rw [hb.graph]; exact fun f i v he => ⟨0, hpos f i v he, by rw [hz]; norm_num⟩) i j v s (by rw [hb.graph]; exact (tie_edge hb).2 ⟨hi, hv⟩) hsv
      rw [hb.graph] at this
      refine this.trans ?_
      show tbInit (fg.factors arrs.logPotentials) _ i j s = _
      rw [tbInit_nothing hF hv (fun s _ => hz i j s) hsv]
      have hout : ∃ a, tbOut (tFac idD idA ns i) (evidenceIn (tFac idD idA ns i) (readEv st.varsToStarts arrs.evidence)) j s = WithBot.some a := by
        rcases pair_getElem? hv with ⟨rfl, rfl⟩ | ⟨rfl, rfl⟩
        · exact ⟨_, (tFac_out _ i hsv).1⟩
        · exact ⟨_, (tFac_out _ i hsv).2⟩
      obtain ⟨a, ha⟩ := hout
      obtain ⟨b, hb', -⟩ := exists_sup hsv ha
      rw [fadedMsg_coe hb' ha, pow_zero, sub_self, zero_mul]
      exact (max_eq_left (by norm_num)).symm
  constructor
  · rw [msg (j := 0) (v := tVar idD ns i) rfl hs, hr.evD i hi s hs]
    unfold tiedBelief
    congr 1
    refine fadedMsg_congr (fun t ht => ?_) hs
    rw [(tFac_out _ i ht).1, hr.evA i hi t ht]
  · rw [msg (j := 1) (v := tVar idA ns i) rfl hs, hr.evA i hi s hs]
    unfold tiedBelief
    congr 1
    refine fadedMsg_congr (fun t ht => ?_) hs
    rw [(tFac_out _ i ht).2, hr.evD i hi t ht]

end

theorem dictGet_nodup {κ β : Type _} [DecidableEq κ] {d : List (κ × β)} (hn : (d.map (·.1)).Nodup) {i : Nat} {k : κ} {z : β} (h : d[i]? = some (k, z)) : dictGet d k = .ok z := by
  apply dictGet_some
  induction d generalizing i with
  | nil => simp at h
  | cons a d ih =>
    rw [List.map_cons, List.nodup_cons] at hn
    cases i with
    | zero =>
      obtain rfl := Option.some.inj h
      simp
    | succ i =>
      rw [List.getElem?_cons_succ] at h
      have hne : k ≠ a.1 := by
        rintro rfl
        exact hn.1 (List.mem_map.2 ⟨_, List.mem_of_getElem? h, rfl⟩)
      rw [List.lookup_cons, beq_eq_false_iff_ne.2 hne]
      exact ih hn.2 h

open Classical in
/-- The assertions after decoding. -/
theorem tie_check {κ α : Type} [LinearOrder α] [DecidableEq κ] {B : Var → Nat → α} {D : VarDict κ} {A : NDVarArray} {rs : List (VGroup κ × GroupStates κ)}
    (hrs : rs.map (·.1) = [.dict D, .arr A]) (hdec : ∀ p ∈ rs, p.1.Decodes B p.2) (hn : D.names.Nodup) {k : Nat} (hk : D.names.length = k) {u w : Nat → Var}
    (hu : ∀ i < k, D.variables[i]? = some (u i)) (hw : ∀ i < k, A.variables[i]? = some (w i)) :
    (do
      let d ← dictStates rs D
      let a ← arrStates rs A
      D.names.zipIdx.forM (checkTie d a) : Py Unit) =
        if ∀ i < k, ∃ j, IsFirstMax (B (u i)) (u i).n j ∧ IsFirstMax (B (w i)) (w i).n j then .ok () else .error .assertionError := by
  match rs, hrs, hdec with
  | [], e3, _ => simp at e3
  | [_], e3, _ => simp at e3
  | _ :: _ :: _ :: _, e3, _ => simp at e3
  | [(g, r), (g', r')], e3, e4 =>
    obtain ⟨rfl, rfl⟩ : g = .dict D ∧ g' = .arr A := by simpa using e3
    have d1 := e4 (.dict D, r) (by simp)
    have d2 := e4 (.arr A, r') (by simp)
    match r, r', d1, d2 with
    | .arr _, _, d1, _ => exact d1.elim
    | .dict _, .dict _, _, d2 => exact d2.elim
    | .dict d, .arr a, d1, d2 =>
      obtain ⟨p1, p2⟩ := d1
      obtain ⟨-, -, q3⟩ := d2
      have hcheck : ∀ q ∈ D.names.zipIdx, checkTie d a q =
          if ∃ j, IsFirstMax (B (u q.2)) (u q.2).n j ∧ IsFirstMax (B (w q.2)) (w q.2).n j then .ok () else .error .assertionError := by
        rintro ⟨name, i⟩ hq
        rw [List.mem_zipIdx_iff_getElem?] at hq
        dsimp only at hq ⊢
        have hi : i < k := by have := (List.getElem?_eq_some_iff.1 hq).1; rwa [hk] at this
        obtain ⟨⟨nm, z⟩, j, z1, z2, z3⟩ := p2 i _ (hu i hi)
        obtain ⟨j', z4, z5⟩ := q3 i _ (hw i hi)
        dsimp only at z2
        subst z2
        have hnm : nm = name := by
          have : (d.map (·.1))[i]? = some nm := by rw [List.getElem?_map, z1]; rfl
          rw [p1] at this
          exact Option.some.inj (this.symm.trans hq)
        subst hnm
        have hlook : dictGet d nm = .ok ⟨[], [j]⟩ := dictGet_nodup (by rw [p1]; exact hn) z1
        have hiff : (∃ j, IsFirstMax (B (u i)) (u i).n j ∧ IsFirstMax (B (w i)) (w i).n j) ↔ j = j' :=
          ⟨fun ⟨k, k1, k2⟩ => (z3.unique k1).trans (k2.unique z5), fun hj => ⟨j, z3, hj ▸ z5⟩⟩
        unfold checkTie
        rw [hlook, py_ok_bind]
        dsimp only
        rw [z4]
        show (if [j] ≠ [j'] then _ else _) = _
        by_cases hj : j = j'
        · rw [if_pos (hiff.2 hj), if_neg (by simp [hj])]
          rfl
        · rw [if_neg (fun hc => hj (hiff.1 hc)), if_pos (by simpa using hj)]
          rfl
      have s1 : dictStates [(.dict D, .dict d), (.arr A, .arr a)] D = .ok d := by simp [dictStates]
      have s2 : arrStates [(.dict D, .dict d), (.arr A, .arr a)] A = .ok a := by simp [arrStates]
      rw [s1, py_ok_bind, s2, py_ok_bind, forM_check _ _ _ _ hcheck]
      have hall : (∀ q ∈ D.names.zipIdx, ∃ j, IsFirstMax (B (u q.2)) (u q.2).n j ∧ IsFirstMax (B (w q.2)) (w q.2).n j) ↔
          ∀ i < k, ∃ j, IsFirstMax (B (u i)) (u i).n j ∧ IsFirstMax (B (w i)) (w i).n j := by
        constructor
        · intro hq i hi
          rw [← hk] at hi
          exact hq (D.names[i], i) (by rw [List.mem_zipIdx_iff_getElem?]; exact List.getElem?_eq_getElem hi)
        · rintro hi ⟨name, i⟩ hq
          rw [List.mem_zipIdx_iff_getElem?] at hq
          exact hi i (by have := (List.getElem?_eq_some_iff.1 hq).1; rwa [hk] at this)
      by_cases hd : ∀ i < k, ∃ j, IsFirstMax (B (u i)) (u i).n j ∧ IsFirstMax (B (w i)) (w i).n j
      · rw [if_pos hd, if_pos (hall.2 hd)]
      · rw [if_neg hd, if_neg (fun hc => hd (hall.1 hc))]

theorem all_ones {l : List Nat} (hl : ∀ n ∈ l, 1 ≤ n) : l.length ≤ l.sum ∧ (l.sum = l.length → ∀ n ∈ l, n = 1) := by
  induction l with
  | nil => simp
  | cons a l ih =>
    obtain ⟨i1, i2⟩ := ih fun n hn => hl n (by simp [hn])
    have := hl a (by simp)
    rw [List.sum_cons, List.length_cons]
    refine ⟨by omega, fun hs n hn => ?_⟩
    rw [List.mem_cons] at hn
    rcases hn with rfl | hn
    · omega
    · exact i2 (by omega) n hn

end PGMax
