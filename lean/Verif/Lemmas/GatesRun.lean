import Verif.Lemmas.GatesBuild
import Verif.Props.C34_C36

/-! # Helper lemmas: inference in the programs that test OR and AND factors -/

namespace PGMax

theorem foldlM_same {ι σ : Type _} (f g : σ → ι → Py σ) (l : List ι) (h : ∀ s, ∀ k ∈ l, f s k = g s k) (s : σ) : l.foldlM f s = l.foldlM g s := by
  induction l generalizing s with
  | nil => rfl
  | cons k l ih =>
    rw [List.foldlM_cons, List.foldlM_cons, h s k (by simp)]
    cases g s k with
    | error e => rfl
    | ok s' => exact ih (fun s k hk => h s k (by simp [hk])) s'

theorem foldlM_split {ι σ τ : Type _} (P : ι → Bool) (f : σ → ι → Py σ) (g : τ → ι → Py τ) (l : List ι) {s x : σ} {t y : τ} (h1 : (l.filter P).foldlM f s = .ok x)
    (h2 : (l.filter (fun k => !P k)).foldlM g t = .ok y) :
    l.foldlM (fun (s : σ × τ) k => if P k = true then do let a ← f s.1 k; pure (a, s.2) else do let b ← g s.2 k; pure (s.1, b)) (s, t) = .ok (x, y) := by
  induction l generalizing s t with
  | nil =>
    simp only [List.filter_nil, List.foldlM_nil, pure, Except.pure, Except.ok.injEq] at h1 h2 ⊢
    rw [h1, h2]
  | cons k l ih =>
    rw [List.foldlM_cons]
    by_cases hk : P k = true
    · rw [List.filter_cons_of_pos hk, List.foldlM_cons] at h1
      rw [List.filter_cons_of_neg (by simp [hk])] at h2
      simp only [hk, if_true]
      cases hf : f s k with
      | error e => rw [hf] at h1; cases h1
      | ok s' =>
        rw [hf] at h1
        exact ih h1 h2
    · rw [List.filter_cons_of_neg hk] at h1
      rw [List.filter_cons_of_pos (by simpa using hk), List.foldlM_cons] at h2
      simp only [hk, if_false]
      cases hg : g t k with
      | error e => rw [hg] at h2; cases h2
      | ok t' =>
        rw [hg] at h2
        exact ih h1 h2

section
variable {κ α : Type} {isAnd first : Bool} {idP idC : Nat} {idF : Nat → Nat} {idG : Nat} {ps : List Nat}

/-- The gates that are listed in the first graph. -/
def gFirst (first : Bool) (F : Nat) : List Nat := (List.range F).filter (fun k => decide (k < F / 2 ∨ first = true))
/-- The other gates. -/
def gSecond (first : Bool) (F : Nat) : List Nat := (List.range F).filter (fun k => !decide (k < F / 2 ∨ first = true))

theorem mem_gFirst {F k : Nat} : k ∈ gFirst first F ↔ k < F ∧ (k < F / 2 ∨ first = true) := by simp [gFirst]
theorem mem_gSecond {F k : Nat} : k ∈ gSecond first F ↔ k < F ∧ ¬ (k < F / 2 ∨ first = true) := by
  simp only [gSecond, List.mem_filter, List.mem_range, Bool.not_eq_true', decide_eq_false_iff_not]

theorem gParts_nodup (first : Bool) (F : Nat) : (gFirst first F ++ gSecond first F).Nodup := by
  rw [List.nodup_append]
  refine ⟨List.nodup_range.filter _, List.nodup_range.filter _, fun a ha b hb e => ?_⟩
  subst e
  exact (mem_gSecond.1 hb).2 (mem_gFirst.1 ha).2

theorem gParts_lt {F k : Nat} (h : k ∈ gFirst first F ++ gSecond first F) : k < F := by
  rw [List.mem_append] at h
  rcases h with h | h
  · exact (mem_gFirst.1 h).1
  · exact (mem_gSecond.1 h).1

theorem gParts_all {F k : Nat} (h : k < F) : k ∈ gFirst first F ++ gSecond first F := by
  rw [List.mem_append, mem_gFirst, mem_gSecond]
  by_cases h' : k < F / 2 ∨ first = true
  · exact .inl ⟨h, h'⟩
  · exact .inr ⟨h, h'⟩

/-- Listed gates first, then the group of logical factors. -/
theorem lGroups_steps [Zero α] (hs : GateSizes idP idC idF idG ps) {E L : List Nat} (hn : (E ++ L).Nodup) (hlt : ∀ k ∈ E ++ L, k < ps.length) :
    ∃ fgE fg : FactorGraph κ α, E.foldlM (fun fg k => addGateTable isAnd idF fg k (gScope idP idC ps k) (ps.getD k 0)) (FactorGraph.create (rVgs κ idP idC ps.sum ps.length)) = .ok fgE ∧
      (FactorGraph.create (rVgs κ idP idC ps.sum ps.length) : FactorGraph κ α).addAll ((lGroups isAnd idP idC idF idG ps E L).map .one) = .ok fg ∧
      (L = [] → fgE = fg) ∧ (L ≠ [] → fgE.addAll [.one (lGroup isAnd idP idC idG ps L)] = .ok fg) := by
  have hE : ∀ k ∈ E, k < ps.length := fun k hk => hlt k (by simp [hk])
  obtain ⟨fg, h⟩ := lGroups_addAll (κ := κ) (α := α) (isAnd := isAnd) hs hn hlt
  obtain ⟨fgE, hE'⟩ := lGroups_addAll (κ := κ) (α := α) (isAnd := isAnd) (E := E) (L := []) hs (by simpa using (List.nodup_append.1 hn).1) (by simpa using hE)
  rw [lGroups, if_pos rfl, List.append_nil] at hE'
  refine ⟨fgE, fg, ?_, h, fun h0 => ?_, fun h0 => ?_⟩
  · rw [foldlM_addAll _ (gTable isAnd idP idC idF ps) _ (fun fg k hk => addGateTable_eq isAnd idP idC idF (hs.pos k (hE k hk)) fg), hE']
  · subst h0
    rw [lGroups, if_pos rfl, List.append_nil, hE'] at h
    exact Except.ok.inj h
  · rw [lGroups, if_neg h0, List.map_append, addAll_append, hE'] at h
    exact h

variable {idP1 idC1 idP2 idC2 idG1 idG2 : Nat}

/-- What the program builds. -/
theorem gates_eq [Zero α] (h1 : GateSizes idP1 idC1 idF idG1 ps) (h2 : GateSizes idP2 idC2 idF idG2 ps) (hF : 2 ≤ ps.length) :
    ∃ fg1 fg2 : FactorGraph κ α, gates isAnd first idP1 idC1 idP2 idC2 idF idG1 idG2 ps =
        .ok ⟨uniArr idP1 [ps.sum] 2, uniArr idC1 [ps.length] 2, uniArr idP2 [ps.sum] 2, uniArr idC2 [ps.length] 2, fg1, fg2⟩ ∧
      (FactorGraph.create (rVgs κ idP1 idC1 ps.sum ps.length) : FactorGraph κ α).addAll
        ((lGroups isAnd idP1 idC1 idF idG1 ps (gFirst first ps.length) (gSecond first ps.length)).map .one) = .ok fg1 ∧
      (FactorGraph.create (rVgs κ idP2 idC2 ps.sum ps.length) : FactorGraph κ α).addAll
        ((lGroups isAnd idP2 idC2 idF idG2 ps (gSecond first ps.length) (gFirst first ps.length)).map .one) = .ok fg2 := by
  set A := gFirst first ps.length with hA
  set B := gSecond first ps.length with hB
  have hn := gParts_nodup first ps.length
  have hn' : (B ++ A).Nodup := List.nodup_append_comm.1 hn
  have hlt : ∀ k ∈ A ++ B, k < ps.length := fun k hk => gParts_lt hk
  have hlt' : ∀ k ∈ B ++ A, k < ps.length := fun k hk => hlt k (by rw [List.mem_append] at hk ⊢; exact hk.symm)
  obtain ⟨e1, fg1, a1, a2, a3, a4⟩ := lGroups_steps (κ := κ) (α := α) (isAnd := isAnd) h1 hn hlt
  obtain ⟨e2, fg2, b1, b2, b3, b4⟩ := lGroups_steps (κ := κ) (α := α) (isAnd := isAnd) h2 hn' hlt'
  have hAne : A ≠ [] := List.ne_nil_of_mem (mem_gFirst.2 ⟨show 0 < ps.length by omega, .inl (by omega)⟩)
  have hvars : (List.range ps.length).mapM (fun k => do
      let vars1 ← gateVars (uniArr idP1 [ps.sum] 2) (uniArr idC1 [ps.length] 2) ps k
      let vars2 ← gateVars (uniArr idP2 [ps.sum] 2) (uniArr idC2 [ps.length] 2) ps k
      pure (vars1, vars2)) = .ok ((List.range ps.length).map (fun k => (gScope idP1 idC1 ps k, gScope idP2 idC2 ps k))) := by
    refine mapM_ok _ _ _ fun k hk => ?_
    rw [gateVars_eq idP1 idC1 (List.mem_range.1 hk), gateVars_eq idP2 idC2 (List.mem_range.1 hk)]
    rfl
  have hget : ∀ k < ps.length, ((List.range ps.length).map (fun k => (gScope idP1 idC1 ps k, gScope idP2 idC2 ps k))).getD k ([], []) = (gScope idP1 idC1 ps k, gScope idP2 idC2 ps k) := by
    intro k hk
    rw [List.getD_eq_getElem?_getD, List.getElem?_map, List.getElem?_range hk]
    rfl
  set vars := (List.range ps.length).map (fun k => (gScope idP1 idC1 ps k, gScope idP2 idC2 ps k)) with hv
  have hfold := foldlM_split (fun k => decide (k < ps.length / 2 ∨ first = true))
    (fun fg k => addGateTable isAnd idF fg k (vars.getD k ([], [])).1 (ps.getD k 0)) (fun fg k => addGateTable isAnd idF fg k (vars.getD k ([], [])).2 (ps.getD k 0))
    (List.range ps.length) (s := (FactorGraph.create (rVgs κ idP1 idC1 ps.sum ps.length) : FactorGraph κ α))
    (t := (FactorGraph.create (rVgs κ idP2 idC2 ps.sum ps.length) : FactorGraph κ α)) (x := e1) (y := e2)
    ((foldlM_same _ _ _ (fun s k hk => by rw [hget k (hlt k (List.mem_append_left _ hk))]) _).trans a1)
    ((foldlM_same _ _ _ (fun s k hk => by rw [hget k (hlt k (List.mem_append_right _ hk))]) _).trans b1)
  have hl1 : B.map (fun k => (vars.getD k ([], [])).1) = B.map (gScope idP1 idC1 ps) :=
    List.map_congr_left fun k hk => by rw [hget k (hlt k (by simp [hk]))]
  have hl2 : A.map (fun k => (vars.getD k ([], [])).2) = A.map (gScope idP2 idC2 ps) :=
    List.map_congr_left fun k hk => by rw [hget k (hlt k (by simp [hk]))]
  refine ⟨fg1, fg2, ?_, a2, b2⟩
  unfold gates
  rw [create_scalar idP1 _ 2 (by simpa using h1.parents), create_scalar idC1 _ 2 (by simpa using h1.children), create_scalar idP2 _ 2 (by simpa using h1.parents),
    create_scalar idC2 _ 2 (by simpa using h1.children)]
  simp only [py_ok_bind]
  rw [hvars, py_ok_bind]
  have hfold' : (List.range ps.length).foldlM (fun (s : FactorGraph κ α × FactorGraph κ α) k =>
      if k < ps.length / 2 ∨ first = true then do
        let fg1 ← addGateTable isAnd idF s.1 k (vars.getD k ([], [])).1 (ps.getD k 0)
        pure (fg1, s.2)
      else do
        let fg2 ← addGateTable isAnd idF s.2 k (vars.getD k ([], [])).2 (ps.getD k 0)
        pure (s.1, fg2)) (FactorGraph.create (rVgs κ idP1 idC1 ps.sum ps.length), FactorGraph.create (rVgs κ idP2 idC2 ps.sum ps.length)) = .ok (e1, e2) := by
    rw [← hfold]
    refine foldlM_same _ _ _ (fun s k _ => ?_) _
    simp only [decide_eq_true_eq]
  rw [hfold', py_ok_bind]
  dsimp only
  rw [show (List.range ps.length).filter (fun k => !decide (k < ps.length / 2 ∨ first = true)) = B from rfl,
    show (List.range ps.length).filter (fun k => decide (k < ps.length / 2 ∨ first = true)) = A from rfl, hl1, hl2]
  have hg2 : LogicalFactorGroup.create (α := α) idG2 (A.map (gScope idP2 idC2 ps)) isAnd = .ok (lGroup isAnd idP2 idC2 idG2 ps A) := by
    unfold LogicalFactorGroup.create
    rw [if_neg (by simpa using hAne)]
    rfl
  rw [hg2]
  by_cases hf : first = true
  · have hB0 : B = [] := by
      rw [List.eq_nil_iff_forall_not_mem]
      intro k hk
      exact (mem_gSecond.1 hk).2 (.inr hf)
    have e := a3 hB0
    subst e
    rw [if_pos hf]
    show (e2.addAll [.one (lGroup isAnd idP2 idC2 idG2 ps A)] >>= _) = _
    rw [b4 hAne]
    rfl
  · have hB0 : B ≠ [] := List.ne_nil_of_mem (mem_gSecond.2 ⟨show ps.length - 1 < ps.length by omega, fun h => h.elim (fun h => by omega) hf⟩)
    have hg1 : LogicalFactorGroup.create (α := α) idG1 (B.map (gScope idP1 idC1 ps)) isAnd = .ok (lGroup isAnd idP1 idC1 idG1 ps B) := by
      unfold LogicalFactorGroup.create
      rw [if_neg (by simpa using hB0)]
      rfl
    rw [if_neg hf, hg1, py_ok_bind, show e1.addAll [.one (lGroup isAnd idP1 idC1 idG1 ps B)] = .ok fg1 from a4 hB0]
    show (e2.addAll [.one (lGroup isAnd idP2 idC2 idG2 ps A)] >>= _) = _
    rw [b4 hAne]
    rfl

/-- The arrays of one graph before the iterations. -/
structure GateReady [Field α] [LinearOrder α] (idP idC : Nat) (ps : List Nat) (EP EC : List α) (T : α) (st : FGState κ α) (bp : BPFun κ α) (arrs : BPArrays α) : Prop where
  bp : ∃ state, BP.create st state T = .ok bp
  pots : arrs.logPotentials = st.logPotentials
  msgs : arrs.ftovMsgs = List.replicate st.totalFactorNumStates 0
  len : arrs.evidence.length = st.numVarStates
  evP : ∀ i < ps.sum, ∀ t < 2, readEv st.varsToStarts arrs.evidence (rHid idP ps.sum i) t = EP.getD (i * 2 + t) 0
  evC : ∀ j < ps.length, ∀ t < 2, readEv st.varsToStarts arrs.evidence (rHid idC ps.length j) t = EC.getD (j * 2 + t) 0

theorem gate_ready [Field α] [LinearOrder α] [DecidableEq κ] (hs : GateSizes idP idC idF idG ps) (hF : 1 ≤ ps.length) {E L : List Nat} (hE : E ++ L ≠ []) {hist : List (AddArg α)}
    {fg : FactorGraph κ α} {garbage : Garbage} {st : FGState κ α} (h : GateBuilt isAnd idP idC ps E L hist fg garbage st) (env : Env α) (stateId : Nat) (T : α) {EP EC : List α}
    (hP : EP.length = ps.sum * 2) (hC : EC.length = ps.length * 2) (n : Nat) :
    ∃ bp arrs, GateReady idP idC ps EP EC T st bp arrs ∧
      gateBeliefs env garbage stateId T fg (uniArr idP [ps.sum] 2) (uniArr idC [ps.length] 2) ⟨[ps.sum, 2], EP⟩ ⟨[ps.length, 2], EC⟩ n = bp.getBeliefs (bp.runBP env arrs n (1 / 2)) := by
  have hsum : 1 ≤ ps.sum := by
    have h0 := hs.pos 0 (by omega)
    have h1 := cumParents_le ps 1
    rw [cumParents_succ] at h1
    omega
  have hsc : (graphOf (rVgs κ idP idC ps.sum ps.length) hist).allScopes ≠ [] := by
    rw [h.graph, ← fg.factors_scopes st.logPotentials, h.factors]
    intro hc
    apply hE
    have := congrArg List.length hc
    simp only [List.length_map, List.length_append, List.length_nil] at this
    exact List.eq_nil_of_length_eq_zero (by rw [List.length_append]; exact this)
  obtain ⟨bp, hbp⟩ := (C51_partial h.compiled (⟨⟨stateId, st.logPotentials⟩, ⟨stateId, List.replicate st.totalFactorNumStates 0⟩,
      ⟨stateId, List.replicate st.numVarStates 0⟩⟩ : BPState α) T).1.2 hsc
  obtain ⟨b1, b2, -⟩ := BP_create_ok hbp
  have hdis : (uniArr idP [ps.sum] 2).variables.Disjoint (uniArr idC [ps.length] 2).variables := by
    intro v k1 k2
    obtain ⟨cs, c1, rfl⟩ := (mem_uniArr _ _ _ _).1 k1
    obtain ⟨ds, d1, e⟩ := (mem_uniArr _ _ _ _).1 k2
    exact uniCell_ne hs.distinct (by simpa using hs.parents) (by simpa using hs.children) c1 d1 e
  obtain ⟨ev, v1, v2, v3, -⟩ := uniArrs_evidence h.compiled 2 [(idP, [ps.sum], EP), (idC, [ps.length], EC)]
    (by intro q hq; simp only [List.mem_cons, List.not_mem_nil, or_false] at hq; rcases hq with rfl | rfl <;> simp)
    (by intro q hq; simp only [List.mem_cons, List.not_mem_nil, or_false] at hq; rcases hq with rfl | rfl <;> simp only [List.prod_cons, List.prod_nil, Nat.mul_one] <;> omega)
    (by intro q hq; simp only [List.mem_cons, List.not_mem_nil, or_false] at hq; rcases hq with rfl | rfl <;> simpa)
    (by simpa using hdis) (List.replicate st.numVarStates (0 : α)) (by simp)
  refine ⟨bp, ⟨st.logPotentials, List.replicate st.totalFactorNumStates 0, ev⟩, ⟨⟨_, hbp⟩, rfl, rfl, v2.trans (by simp), fun i hi t ht => ?_, fun j hj t ht => ?_⟩, ?_⟩
  · have := v3 (idP, [ps.sum], EP) (by simp) [i] (by simpa using hi) t ht
    simpa [rowMajor] using this
  · have := v3 (idC, [ps.length], EC) (by simp) [j] (by simpa using hj) t ht
    simpa [rowMajor] using this
  · unfold gateBeliefs
    have h4 := h.compiled.compiled
    rw [h.graph] at h4
    rw [h4, py_ok_bind, show bpStateOf stateId st = .ok _ by
      simp [bpStateOf, LogPotentials.create, FToVMessages.create, Evidence.create, BPState.create, bind, Except.bind]; rfl, py_ok_bind, hbp, py_ok_bind]
    have hup : bp.update none none none (some [.group (.arr (uniArr idP [ps.sum] 2)) (.arr ⟨[ps.sum, 2], EP⟩), .group (.arr (uniArr idC [ps.length] 2)) (.arr ⟨[ps.length, 2], EC⟩)]) =
        .ok ⟨st.logPotentials, List.replicate st.totalFactorNumStates 0, ev⟩ := by
      unfold BPFun.update
      simp only [b1, b2]
      show (do
        let ev ← updateEvidence st (List.replicate st.numVarStates (0 : α)) [.group (.arr (uniArr idP [ps.sum] 2)) (.arr ⟨[ps.sum, 2], EP⟩),
          .group (.arr (uniArr idC [ps.length] 2)) (.arr ⟨[ps.length, 2], EC⟩)]
        _) = _
      have v1' : updateEvidence st (List.replicate st.numVarStates (0 : α)) [.group (.arr (uniArr idP [ps.sum] 2)) (.arr ⟨[ps.sum, 2], EP⟩),
          .group (.arr (uniArr idC [ps.length] 2)) (.arr ⟨[ps.length, 2], EC⟩)] = .ok ev := v1
      rw [v1', py_ok_bind]
      rfl
    rw [hup, py_ok_bind]

/-- The beliefs of an array of binary variables. -/
theorem reports_bits {id n : Nat} (hn : 1 ≤ n) {B : Var → Nat → α} {r : GroupBeliefs κ α} (h : (VGroup.arr (uniArr id [n] 2) : VGroup κ).Reports B r) :
    r = .arr ⟨[n, 2], (List.range (n * 2)).map (fun q => (WithBot.some (B (rHid id n (q / 2)) (q % 2))))⟩ := by
  cases r with
  | dict => exact h.elim
  | arr a =>
    obtain ⟨w, w1, w2, w3, w4⟩ := h
    have hw : w = 2 := by
      have := w1.2 (by simp only [uniArr, ne_eq, List.replicate_eq_nil_iff, List.prod_cons, List.prod_nil, Nat.mul_one]; omega)
      exact (List.mem_replicate.1 this).2
    subst hw
    have w3 : a.shape = [n, 2] := by
      rcases w3 with w3 | ⟨-, w3⟩
      · exact w3
      · omega
    have hal : a.data.length = n * 2 := by
      have := w2
      unfold NDArr.WF at this
      rw [w3] at this
      simpa using this
    have hvar : ∀ c < n, (uniArr id [n] 2).variables[c]? = some (rHid id n c) := by
      intro c hc
      unfold NDVarArray.variables NDVarArray.variableHashes uniArr
      simp [hc, rHid, uniCell, rowMajor]
    congr 1
    obtain ⟨sh, dat⟩ := a
    dsimp only at w3 hal w4
    subst w3
    congr 1
    apply List.ext_getElem?
    intro q
    by_cases hq : q < n * 2
    · have := w4 (q / 2) (rHid id n (q / 2)) (q % 2) (hvar _ (by omega)) (by omega)
      rw [Nat.div_add_mod' q 2, if_pos (show q % 2 < (rHid id n (q / 2)).n from Nat.mod_lt _ (by decide))] at this
      rw [this]
      simp [hq]
    · rw [List.getElem?_eq_none (by omega), List.getElem?_eq_none (by simp; omega)]

/-- The beliefs of one graph, as the program reads them. -/
theorem gate_getBeliefs [Field α] [LinearOrder α] [DecidableEq κ] (hs : GateSizes idP idC idF idG ps) (hF : 1 ≤ ps.length) {hist : List (AddArg α)} {garbage : Garbage} {st : FGState κ α}
    (h : Compiled (rVgs κ idP idC ps.sum ps.length) hist garbage st) {T : α} {state : BPState α} {bp : BPFun κ α} (hbp : BP.create st state T = .ok bp) (a : BPArrays α)
    (hm : a.ftovMsgs.length = st.totalFactorNumStates) (hev : a.evidence.length = st.numVarStates) :
    ∃ B, B = beliefOf (graphOf (rVgs κ idP idC ps.sum ps.length) hist).allScopes (readEv st.varsToStarts a.evidence) (readMsgs (graphOf (rVgs κ idP idC ps.sum ps.length) hist).allScopes a.ftovMsgs) ∧
      bp.getBeliefs a = .ok [
        (.arr (uniArr idP [ps.sum] 2), .arr ⟨[ps.sum, 2], (List.range (ps.sum * 2)).map (fun q => (WithBot.some (B (rHid idP ps.sum (q / 2)) (q % 2))))⟩),
        (.arr (uniArr idC [ps.length] 2), .arr ⟨[ps.length, 2], (List.range (ps.length * 2)).map (fun q => (WithBot.some (B (rHid idC ps.length (q / 2)) (q % 2))))⟩)] := by
  have hsum : 1 ≤ ps.sum := by
    have h0 := hs.pos 0 (by omega)
    have h1 := cumParents_le ps 1
    rw [cumParents_succ] at h1
    omega
  have hreg : ∀ g ∈ rVgs κ idP idC ps.sum ps.length, g.Regular := by
    have key : ∀ id n, 1 ≤ n → (VGroup.arr (uniArr id [n] 2) : VGroup κ).Regular := by
      intro id n hn hsum
      simp only [uniArr, List.sum_replicate, List.length_replicate, List.prod_cons, List.prod_nil, Nat.mul_one, smul_eq_mul] at hsum
      omega
    simp only [rVgs, List.mem_cons, List.not_mem_nil, or_false, forall_eq_or_imp, forall_eq]
    exact ⟨key _ _ hsum, key _ _ hF⟩
  obtain ⟨bs, e1, e2, e3⟩ := C34_partial h hbp a hm hev hreg
  refine ⟨_, rfl, ?_⟩
  rw [e1]
  match bs, e2, e3 with
  | [], e2, _ => simp [rVgs] at e2
  | [_], e2, _ => simp [rVgs] at e2
  | _ :: _ :: _ :: _, e2, _ => simp [rVgs] at e2
  | [(g, r), (g', r')], e2, e3 =>
    obtain ⟨rfl, rfl⟩ : g = .arr (uniArr idP [ps.sum] 2) ∧ g' = .arr (uniArr idC [ps.length] 2) := by simpa [rVgs] using e2
    have r1 : r = _ := reports_bits hsum (e3 (.arr (uniArr idP [ps.sum] 2), r) (by simp))
    have r2 : r' = _ := reports_bits hF (e3 (.arr (uniArr idC [ps.length] 2), r') (by simp))
    rw [r1, r2]

end

end PGMax
