import Verif.Spec.Gates
import Verif.Lemmas.GatesSame
import Mathlib.Analysis.SpecialFunctions.Exp

/-!
# C112: the test programs for OR and AND factors pass

The programs in `tests/factor/test_or.py` and `tests/factor/test_and.py` build the same gates in two graphs, listed in one where they are logical factors in the
other, and compare the beliefs.
-/

namespace PGMax

section
variable {κ α : Type} [Field α] [LinearOrder α] {isAnd first : Bool} {idP1 idC1 idP2 idC2 : Nat} {idF : Nat → Nat} {idG1 idG2 : Nat} {ps : List Nat}
  {evParents evChildren : List α} {E : α} {K : Nat}

theorem GateInputs.pos (h : GateInputs idP1 idC1 idP2 idC2 idF idG1 idG2 ps evParents evChildren E K) {k : Nat} (hk : k < ps.length) : 1 ≤ ps.getD k 0 ∧ ps.getD k 0 < K := by
  rw [List.getD_eq_getElem?_getD, List.getElem?_eq_getElem hk]
  exact h.parents _ (List.getElem_mem hk)

theorem GateInputs.sizes (h : GateInputs idP1 idC1 idP2 idC2 idF idG1 idG2 ps evParents evChildren E K) :
    GateSizes idP1 idC1 idF idG1 ps ∧ GateSizes idP2 idC2 idF idG2 ps := by
  have hl : ps.length ≤ ps.sum := by
    have := List.card_nsmul_le_sum ps 1 (fun p hp => (h.parents p hp).1)
    simpa using this
  have := h.few
  exact ⟨⟨h.arrays1, by omega, by omega, fun k hk => (h.pos hk).1, h.ids, fun k hk => (h.groups k hk).1⟩,
    ⟨h.arrays2, by omega, by omega, fun k hk => (h.pos hk).1, h.ids, fun k hk => (h.groups k hk).2⟩⟩

theorem range_getD (ps : List Nat) : (List.range ps.length).map (fun k => ps.getD k 0) = ps := by
  apply List.ext_getElem?
  intro k
  by_cases hk : k < ps.length
  · rw [List.getElem?_map, List.getElem?_range hk, List.getElem?_eq_getElem hk]
    simp [hk]
  · rw [List.getElem?_eq_none (by simpa using hk), List.getElem?_eq_none (by omega)]

theorem gParts_perm (first : Bool) (F : Nat) : (gFirst first F ++ gSecond first F).Perm (List.range F) := List.filter_append_perm _ _

/-- The literal 100000 means "infinity" for these sizes. -/
theorem gates_fits {idP idC : Nat} {A B : List Nat} (hAB : (A ++ B).Perm (List.range ps.length)) {hist : List (AddArg α)} {fg : FactorGraph κ α} {garbage : Garbage} {st : FGState κ α}
    (h : GateBuilt isAnd idP idC ps A B hist fg garbage st) {env : Env α} (hw : env.wrapNeg = false ∨ 2 * (ps.sum + ps.length) + 2 ≤ 100000) (hf : ps.sum ≤ 100000) (T : α) :
    Fits env (graphOf (rVgs κ idP idC ps.sum ps.length) hist) T := by
  have hsc : fg.allScopes = (A ++ B).map (gScope idP idC ps) := by
    rw [← fg.factors_scopes st.logPotentials, h.factors, List.map_append, List.map_map, List.map_map, List.map_append]
    rfl
  rw [h.graph]
  constructor
  · refine hw.imp id fun hle f i v he => ?_
    have h1 : (fg.allScopes.map (fun vs => (vs.map (·.n)).sum)).sum = 2 * (ps.sum + ps.length) := by
      rw [hsc, List.map_map, (hAB.map _).sum_eq]
      have : (List.range ps.length).map ((fun vs : List Var => (vs.map (·.n)).sum) ∘ gScope idP idC ps) = (List.range ps.length).map (fun k => 2 * (ps.getD k 0 + 1)) := by
        refine List.map_congr_left fun k _ => ?_
        rw [Function.comp_apply, List.map_congr_left (g := fun _ => 2) (fun v hv => gScope_n hv), List.map_const', List.sum_replicate, gScope_length, smul_eq_mul, Nat.mul_comm]
      rw [this, List.sum_map_mul_left, List.sum_map_add, range_getD]
      simp
    rw [h1]
    obtain ⟨vs, e1, e2⟩ := he
    rw [hsc] at e1
    obtain ⟨k, -, rfl⟩ := List.mem_map.1 (List.mem_of_getElem? e1)
    rw [gScope_n (List.mem_of_getElem? e2)]
    exact hle
  · intro _
    rw [h.parents]
    refine le_trans ?_ hf
    calc (B.map (fun k => ps.getD k 0)).sum ≤ ((A ++ B).map (fun k => ps.getD k 0)).sum := by rw [List.map_append, List.sum_append]; omega
      _ = ps.sum := by rw [(hAB.map _).sum_eq, range_getD]

theorem GateReady.evidence_le [IsStrictOrderedRing α] {idP idC : Nat} {T : α} {st : FGState κ α} {bp : BPFun κ α} {a : BPArrays α} (h : GateReady idP idC ps evParents evChildren T st bp a) (hE0 : 0 ≤ E)
    (hE : ∀ x ∈ evParents ++ evChildren, |x| ≤ E) {k : Nat} (hk : k < ps.length) {v : Var} (hv : v ∈ gScope idP idC ps k) {s : Nat} (hs : s < 2) :
    |readEv st.varsToStarts a.evidence v s| ≤ E := by
  have key : ∀ (l : List α) (i : Nat), (∀ x ∈ l, |x| ≤ E) → |l.getD i 0| ≤ E := by
    intro l i hl
    rw [List.getD_eq_getElem?_getD]
    cases e : l[i]? with
    | none => simpa using hE0
    | some x => exact hl x (List.mem_of_getElem? e)
  unfold gScope at hv
  rw [List.mem_append, List.mem_map, List.mem_singleton] at hv
  rcases hv with ⟨i, hi, rfl⟩ | rfl
  · rw [h.evP i (gBlock_lt hi) s hs]
    exact key _ _ (fun x hx => hE x (by simp [hx]))
  · rw [h.evC k hk s hs]
    exact key _ _ (fun x hx => hE x (by simp [hx]))

/-- Everything that the comparison of the two graphs needs. -/
structure GatesAlike [DecidableEq κ] (isAnd first : Bool) (idP1 idC1 idP2 idC2 : Nat) (ps : List Nat) (evParents evChildren : List α) (E : α) (K : Nat) (T : α) (env : Env α) (hist1 hist2 : List (AddArg α))
    (garbage1 garbage2 : Garbage) (st1 st2 : FGState κ α) (bp1 bp2 : BPFun κ α) (a1 a2 : BPArrays α) : Prop where
  compiled1 : Compiled (rVgs κ idP1 idC1 ps.sum ps.length) hist1 garbage1 st1
  compiled2 : Compiled (rVgs κ idP2 idC2 ps.sum ps.length) hist2 garbage2 st2
  create1 : ∃ state, BP.create st1 state T = .ok bp1
  create2 : ∃ state, BP.create st2 state T = .ok bp2
  fits1 : Fits env (graphOf (rVgs κ idP1 idC1 ps.sum ps.length) hist1) T
  fits2 : Fits env (graphOf (rVgs κ idP2 idC2 ps.sum ps.length) hist2) T
  lp1 : a1.logPotentials.length = st1.logPotentials.length
  lp2 : a2.logPotentials.length = st2.logPotentials.length
  m1 : a1.ftovMsgs.length = st1.totalFactorNumStates
  m2 : a2.ftovMsgs.length = st2.totalFactorNumStates
  ev1 : a1.evidence.length = st1.numVarStates
  ev2 : a2.evidence.length = st2.numVarStates
  models : (gRen first idP1 idC1 idP2 idC2 ps).Models ((graphOf (rVgs κ idP1 idC1 ps.sum ps.length) hist1).factors a1.logPotentials)
    ((graphOf (rVgs κ idP2 idC2 ps.sum ps.length) hist2).factors a2.logPotentials) (fun _ => 0)
  evs : (gRen first idP1 idC1 idP2 idC2 ps).SameVals (graphVars (rVgs κ idP1 idC1 ps.sum ps.length)) (readEv st1.varsToStarts a1.evidence) (readEv st2.varsToStarts a2.evidence)
  msgs : (gRen first idP1 idC1 idP2 idC2 ps).SameMsgs (graphOf (rVgs κ idP1 idC1 ps.sum ps.length) hist1).allScopes
    (readMsgs (graphOf (rVgs κ idP1 idC1 ps.sum ps.length) hist1).allScopes a1.ftovMsgs) (readMsgs (graphOf (rVgs κ idP2 idC2 ps.sum ps.length) hist2).allScopes a2.ftovMsgs)
  small : SmallNumbers ((graphOf (rVgs κ idP1 idC1 ps.sum ps.length) hist1).factors a1.logPotentials) (readEv st1.varsToStarts a1.evidence) (1 / 2) E 0 1 K
  init : ∀ f i v, IsEdge (graphOf (rVgs κ idP1 idC1 ps.sum ps.length) hist1).allScopes f i v →
    ∃ s < v.n, -100000 ≤ readMsgs (graphOf (rVgs κ idP1 idC1 ps.sum ps.length) hist1).allScopes a1.ftovMsgs f i s
  degree : ∀ v, (edgesOf (graphOf (rVgs κ idP1 idC1 ps.sum ps.length) hist1).allScopes v).length ≤ 1
  ready1 : GateReady idP1 idC1 ps evParents evChildren T st1 bp1 a1
  factors1 : (graphOf (rVgs κ idP1 idC1 ps.sum ps.length) hist1).factors a1.logPotentials =
    (gFirst first ps.length).map (gFac isAnd idP1 idC1 ps) ++ (gSecond first ps.length).map (lFac isAnd idP1 idC1 ps)

theorem gates_alike [IsStrictOrderedRing α] [DecidableEq κ] (h : GateInputs idP1 idC1 idP2 idC2 idF idG1 idG2 ps evParents evChildren E K) (isAnd first : Bool) {env : Env α}
    (hw : env.wrapNeg = false ∨ 2 * (ps.sum + ps.length) + 2 ≤ 100000) (garbage1 garbage2 : Garbage) (stateId1 stateId2 : Nat) (T : α) (n : Nat) :
    ∃ (fg1 fg2 : FactorGraph κ α) (hist1 hist2 : List (AddArg α)) (st1 st2 : FGState κ α) (bp1 bp2 : BPFun κ α) (a1 a2 : BPArrays α),
      gates isAnd first idP1 idC1 idP2 idC2 idF idG1 idG2 ps =
        .ok ⟨uniArr idP1 [ps.sum] 2, uniArr idC1 [ps.length] 2, uniArr idP2 [ps.sum] 2, uniArr idC2 [ps.length] 2, fg1, fg2⟩ ∧
      gateBeliefs env garbage1 stateId1 T fg1 (uniArr idP1 [ps.sum] 2) (uniArr idC1 [ps.length] 2) ⟨[ps.sum, 2], evParents⟩ ⟨[ps.length, 2], evChildren⟩ n =
        bp1.getBeliefs (bp1.runBP env a1 n (1 / 2)) ∧
      gateBeliefs env garbage2 stateId2 T fg2 (uniArr idP2 [ps.sum] 2) (uniArr idC2 [ps.length] 2) ⟨[ps.sum, 2], evParents⟩ ⟨[ps.length, 2], evChildren⟩ n =
        bp2.getBeliefs (bp2.runBP env a2 n (1 / 2)) ∧
      GatesAlike isAnd first idP1 idC1 idP2 idC2 ps evParents evChildren E K T env hist1 hist2 garbage1 garbage2 st1 st2 bp1 bp2 a1 a2 := by
  obtain ⟨s1, s2⟩ := h.sizes
  obtain ⟨fg1, fg2, e0, e1, e2⟩ := gates_eq (κ := κ) (α := α) (isAnd := isAnd) (first := first) s1 s2 h.factors
  set A := gFirst first ps.length with hA
  set B := gSecond first ps.length with hB
  have hp := gParts_perm first ps.length
  have hp' : (B ++ A).Perm (List.range ps.length) := List.perm_append_comm.trans hp
  have hn : (A ++ B).Nodup := hp.nodup_iff.2 List.nodup_range
  have hn' : (B ++ A).Nodup := hp'.nodup_iff.2 List.nodup_range
  have hlt : ∀ k ∈ A ++ B, k < ps.length := fun k hk => List.mem_range.1 (hp.mem_iff.1 hk)
  have hlt' : ∀ k ∈ B ++ A, k < ps.length := fun k hk => List.mem_range.1 (hp'.mem_iff.1 hk)
  have hF := h.factors
  have hne : A ++ B ≠ [] := by
    intro hc
    have := hp.length_eq
    rw [hc, List.length_range, List.length_nil] at this
    omega
  have hne' : B ++ A ≠ [] := fun hc => hne (by rw [List.append_eq_nil_iff] at hc ⊢; exact hc.symm)
  obtain ⟨st1, b1⟩ := gate_build s1 hn hlt garbage1 e1
  obtain ⟨st2, b2⟩ := gate_build s2 hn' hlt' garbage2 e2
  obtain ⟨bp1, a1, r1, g1⟩ := gate_ready s1 (by omega) hne b1 env stateId1 T h.lenParents h.lenChildren n
  obtain ⟨bp2, a2, r2, g2⟩ := gate_ready s2 (by omega) hne' b2 env stateId2 T h.lenParents h.lenChildren n
  have hK : 2 ≤ K := by
    have := h.pos (k := 0) (by omega)
    omega
  have hKα : (2 : α) ≤ K := by exact_mod_cast hK
  have hE0 : 0 ≤ E := by
    have hne : evChildren ≠ [] := by
      intro hc
      have := h.lenChildren
      rw [hc, List.length_nil] at this
      omega
    obtain ⟨x, hx⟩ := List.exists_mem_of_ne_nil _ hne
    exact (abs_nonneg x).trans (h.evidence x (by simp [hx]))
  set hist1 : List (AddArg α) := (lGroups isAnd idP1 idC1 idF idG1 ps A B).map AddArg.one with hh1
  have hsc : ((graphOf (rVgs κ idP1 idC1 ps.sum ps.length) hist1).factors a1.logPotentials).map (·.scope) = (A ++ B).map (gScope idP1 idC1 ps) := by
    rw [b1.graph, r1.pots, b1.factors, List.map_append, List.map_map, List.map_map, List.map_append]
    rfl
  have hmem : ∀ F : SFac α, F ∈ (graphOf (rVgs κ idP1 idC1 ps.sum ps.length) hist1).factors a1.logPotentials → ∃ k < ps.length, F = gFac isAnd idP1 idC1 ps k ∨ F = lFac isAnd idP1 idC1 ps k := by
    intro F hF
    rw [b1.graph, r1.pots, b1.factors, List.mem_append, List.mem_map, List.mem_map] at hF
    rcases hF with ⟨k, hk, rfl⟩ | ⟨k, hk, rfl⟩
    · exact ⟨k, hlt k (by simp [hk]), .inl rfl⟩
    · exact ⟨k, hlt k (by simp [hk]), .inr rfl⟩
  refine ⟨fg1, fg2, hist1, _, st1, st2, bp1, bp2, a1, a2, e0, g1, g2, b1.compiled, b2.compiled, r1.bp, r2.bp, gates_fits hp b1 hw h.few T, gates_fits hp' b2 hw h.few T,
    by rw [r1.pots], by rw [r2.pots], by rw [r1.msgs]; simp, by rw [r2.msgs]; simp, r1.len, r2.len, ?_, gRen_evidence s1 r1 r2, ?_, ⟨⟨by norm_num, by norm_num⟩, ⟨hE0, le_rfl⟩, ?_, ?_, ?_, ?_, ?_⟩, ?_, ?_, r1,
    by rw [b1.graph, r1.pots, b1.factors]⟩
  · rw [b1.graph, b2.graph, r1.pots, r2.pots, b1.factors, b2.factors]
    exact gRen_models s1
  · intro f i v s _ _
    rw [r1.msgs, r2.msgs, readMsgs_none, readMsgs_none]
  · intro F hF v hv s hs
    obtain ⟨k, hk, rfl | rfl⟩ := hmem F hF
    · exact r1.evidence_le hE0 h.evidence hk hv (by rwa [gScope_n hv] at hs)
    · exact r1.evidence_le hE0 h.evidence hk hv (by rwa [gScope_n hv] at hs)
  · intro F hF r hr
    have h0 : r.2 = 0 := by
      obtain ⟨k, hk, rfl | rfl⟩ := hmem F hF
      · obtain ⟨q, -, rfl⟩ := List.mem_map.1 hr; rfl
      · obtain ⟨q, -, rfl⟩ := List.mem_map.1 hr; rfl
    rw [h0, abs_zero]
  · intro v
    rw [hsc]
    exact gates_degree s1 hn hlt v
  · intro F hF
    obtain ⟨k, hk, rfl | rfl⟩ := hmem F hF
    · show (gScope idP1 idC1 ps k).length ≤ K
      rw [gScope_length]; have := (h.pos hk).2; omega
    · show (gScope idP1 idC1 ps k).length ≤ K
      rw [gScope_length]; have := (h.pos hk).2; omega
  · have := h.room
    push_cast
    linarith
  · intro f i v he
    refine ⟨0, ?_, by rw [r1.msgs, readMsgs_none]; norm_num⟩
    rw [← (graphOf (rVgs κ idP1 idC1 ps.sum ps.length) hist1).factors_scopes a1.logPotentials, hsc] at he
    obtain ⟨vs, f1, f2⟩ := he
    obtain ⟨k, -, rfl⟩ := List.mem_map.1 (List.mem_of_getElem? f1)
    rw [gScope_n (List.mem_of_getElem? f2)]
    omega
  · intro v
    rw [← (graphOf (rVgs κ idP1 idC1 ps.sum ps.length) hist1).factors_scopes a1.logPotentials, hsc]
    exact gates_degree s1 hn hlt v

/-- What the program makes of beliefs that differ by at most `ε`. -/
theorem GatesAlike.beliefs [IsStrictOrderedRing α] [DecidableEq κ] {T : α} {env : Env α} {hist1 hist2 : List (AddArg α)} {garbage1 garbage2 : Garbage} {st1 st2 : FGState κ α}
    {bp1 bp2 : BPFun κ α} {a1 a2 : BPArrays α} (hin : GateInputs idP1 idC1 idP2 idC2 idF idG1 idG2 ps evParents evChildren E K)
    (h : GatesAlike isAnd first idP1 idC1 idP2 idC2 ps evParents evChildren E K T env hist1 hist2 garbage1 garbage2 st1 st2 bp1 bp2 a1 a2) (n : Nat) {ε : α}
    (hb : ∀ v ∈ graphVars (rVgs κ idP1 idC1 ps.sum ps.length), ∃ start start', st1.varsToStarts v = some start ∧
      st2.varsToStarts ((gRen first idP1 idC1 idP2 idC2 ps).var v) = some start' ∧ ∀ s < v.n,
      ∃ b b', (bp1.flatBeliefs (bp1.runBP env a1 n (1 / 2)))[start + s]? = some b ∧ (bp2.flatBeliefs (bp2.runBP env a2 n (1 / 2)))[start' + s]? = some b' ∧ |b' - b| ≤ ε) :
    ∃ x1 x2 y1 y2 : List α,
      bp1.getBeliefs (bp1.runBP env a1 n (1 / 2)) = .ok [(.arr (uniArr idP1 [ps.sum] 2), .arr ⟨[ps.sum, 2], x1.map WithBot.some⟩),
        (.arr (uniArr idC1 [ps.length] 2), .arr ⟨[ps.length, 2], y1.map WithBot.some⟩)] ∧
      bp2.getBeliefs (bp2.runBP env a2 n (1 / 2)) = .ok [(.arr (uniArr idP2 [ps.sum] 2), .arr ⟨[ps.sum, 2], x2.map WithBot.some⟩),
        (.arr (uniArr idC2 [ps.length] 2), .arr ⟨[ps.length, 2], y2.map WithBot.some⟩)] ∧
      List.Forall₂ (fun u w => |w - u| ≤ ε) x1 x2 ∧ List.Forall₂ (fun u w => |w - u| ≤ ε) y1 y2 := by
  obtain ⟨s1, s2⟩ := hin.sizes
  have hF := hin.factors
  obtain ⟨state1, hbp1⟩ := h.create1
  obtain ⟨state2, hbp2⟩ := h.create2
  have hm1 := h.compiled1.run_length hbp1 env a1 n (1 / 2) h.lp1 h.m1
  have hm2 := h.compiled2.run_length hbp2 env a2 n (1 / 2) h.lp2 h.m2
  have hv1 : (bp1.runBP env a1 n (1 / 2)).evidence.length = st1.numVarStates := by rw [runBP_evidence]; exact h.ev1
  have hv2 : (bp2.runBP env a2 n (1 / 2)).evidence.length = st2.numVarStates := by rw [runBP_evidence]; exact h.ev2
  obtain ⟨B1, hB1, g1⟩ := gate_getBeliefs s1 (by omega) h.compiled1 hbp1 _ hm1 hv1
  obtain ⟨B2, hB2, g2⟩ := gate_getBeliefs s2 (by omega) h.compiled2 hbp2 _ hm2 hv2
  have hvars := gRen_vars (κ := κ) (first := first) s1 s2
  have key : ∀ v ∈ graphVars (rVgs κ idP1 idC1 ps.sum ps.length), ∀ s < v.n, |B2 (gVar idP1 idC1 idP2 idC2 ps v) s - B1 v s| ≤ ε := by
    intro v hv s hs
    obtain ⟨start, start', k1, k2, k3⟩ := hb v hv
    obtain ⟨b, b', f1, f2, f3⟩ := k3 s hs
    rw [C34_flat h.compiled1 hbp1 _ hm1 hv1 v start k1 s hs, ← hB1] at f1
    rw [C34_flat h.compiled2 hbp2 _ hm2 hv2 _ start' k2 s (by rw [hvars.size v hv]; exact hs), ← hB2] at f2
    rw [← Option.some.inj f1, ← Option.some.inj f2] at f3
    exact f3
  refine ⟨(List.range (ps.sum * 2)).map (fun q => B1 (rHid idP1 ps.sum (q / 2)) (q % 2)), (List.range (ps.sum * 2)).map (fun q => B2 (rHid idP2 ps.sum (q / 2)) (q % 2)),
    (List.range (ps.length * 2)).map (fun q => B1 (rHid idC1 ps.length (q / 2)) (q % 2)), (List.range (ps.length * 2)).map (fun q => B2 (rHid idC2 ps.length (q / 2)) (q % 2)),
    ?_, ?_, ?_, ?_⟩
  · rw [g1, List.map_map, List.map_map]; rfl
  · rw [g2, List.map_map, List.map_map]; rfl
  · rw [List.forall₂_map_left_iff, List.forall₂_map_right_iff, List.forall₂_same]
    intro q hq
    have hq := List.mem_range.1 hq
    have hi : q / 2 < ps.sum := by omega
    have := key (rHid idP1 ps.sum (q / 2)) ((mem_rVgs _).2 (.inl ⟨_, hi, rfl⟩)) (q % 2) (Nat.mod_lt _ (show 0 < 2 by omega))
    rwa [gVar_parent hi] at this
  · rw [List.forall₂_map_left_iff, List.forall₂_map_right_iff, List.forall₂_same]
    intro q hq
    have hq := List.mem_range.1 hq
    have hi : q / 2 < ps.length := by omega
    have := key (rHid idC1 ps.length (q / 2)) ((mem_rVgs _).2 (.inr ⟨_, hi, rfl⟩)) (q % 2) (Nat.mod_lt _ (show 0 < 2 by omega))
    rwa [gVar_child s1 hi] at this

theorem allClose_of [IsStrictOrderedRing α] {sh : List Nat} {x y : List α} {ε atol : α} (h : List.Forall₂ (fun u w => |w - u| ≤ ε) x y) (hε : ε ≤ atol) :
    allClose atol ⟨sh, x.map WithBot.some⟩ ⟨sh, y.map WithBot.some⟩ = .ok true := by
  unfold allClose
  rw [if_pos rfl]
  congr 1
  rw [List.all_eq_true]
  dsimp only
  induction h with
  | nil => simp
  | @cons u w x y h1 _ ih =>
    intro q hq
    rw [List.map_cons, List.map_cons, List.zip_cons_cons, List.mem_cons] at hq
    rcases hq with rfl | hq
    · show decide (|u - w| ≤ atol + 1 / 100000 * |w|) = true
      rw [decide_eq_true_eq, abs_sub_comm]
      have := abs_nonneg w
      have : 0 ≤ 1 / 100000 * |w| := by positivity
      linarith
    · exact ih q hq

theorem arrBeliefs_pair [DecidableEq κ] {p c : NDVarArray} (h : p ≠ c) (x y : NDArr (WithBot α)) :
    arrBeliefs [((.arr p : VGroup κ), (.arr x : GroupBeliefs κ α)), (.arr c, .arr y)] p = .ok x ∧ arrBeliefs [((.arr p : VGroup κ), (.arr x : GroupBeliefs κ α)), (.arr c, .arr y)] c = .ok y := by
  have h' : (VGroup.arr p : VGroup κ) ≠ .arr c := fun hc => h (VGroup.arr.inj hc)
  constructor
  · unfold arrBeliefs; rw [List.find?_cons_of_pos (by simp)]
  · unfold arrBeliefs; rw [List.find?_cons_of_neg (by simpa using h), List.find?_cons_of_pos (by simp)]

theorem gateTest_of [IsStrictOrderedRing α] [DecidableEq κ] {env : Env α} {garbage1 garbage2 : Garbage} {stateId1 stateId2 : Nat} {T : α} {n : Nat} {ε : α} (hε : ε ≤ 1 / 10000)
    (hsizes : GateSizes idP1 idC1 idF idG1 ps ∧ GateSizes idP2 idC2 idF idG2 ps) {fg1 fg2 : FactorGraph κ α} {bs1 bs2 : List (VGroup κ × GroupBeliefs κ α)} {x1 x2 y1 y2 : List α}
    (e : gates isAnd first idP1 idC1 idP2 idC2 idF idG1 idG2 ps =
      .ok ⟨uniArr idP1 [ps.sum] 2, uniArr idC1 [ps.length] 2, uniArr idP2 [ps.sum] 2, uniArr idC2 [ps.length] 2, fg1, fg2⟩)
    (g1 : gateBeliefs env garbage1 stateId1 T fg1 (uniArr idP1 [ps.sum] 2) (uniArr idC1 [ps.length] 2) ⟨[ps.sum, 2], evParents⟩ ⟨[ps.length, 2], evChildren⟩ n = .ok bs1)
    (g2 : gateBeliefs env garbage2 stateId2 T fg2 (uniArr idP2 [ps.sum] 2) (uniArr idC2 [ps.length] 2) ⟨[ps.sum, 2], evParents⟩ ⟨[ps.length, 2], evChildren⟩ n = .ok bs2)
    (h1 : bs1 = [(.arr (uniArr idP1 [ps.sum] 2), .arr ⟨[ps.sum, 2], x1.map WithBot.some⟩), (.arr (uniArr idC1 [ps.length] 2), .arr ⟨[ps.length, 2], y1.map WithBot.some⟩)])
    (h2 : bs2 = [(.arr (uniArr idP2 [ps.sum] 2), .arr ⟨[ps.sum, 2], x2.map WithBot.some⟩), (.arr (uniArr idC2 [ps.length] 2), .arr ⟨[ps.length, 2], y2.map WithBot.some⟩)])
    (hx : List.Forall₂ (fun u w => |w - u| ≤ ε) x1 x2) (hy : List.Forall₂ (fun u w => |w - u| ≤ ε) y1 y2) :
    gateTest κ isAnd first idP1 idC1 idP2 idC2 idF idG1 idG2 env garbage1 garbage2 stateId1 stateId2 ps T evParents evChildren n = .ok () := by
  have key : ∀ {idP idC idG : Nat}, GateSizes idP idC idF idG ps → uniArr idP [ps.sum] 2 ≠ uniArr idC [ps.length] 2 := by
    intro idP idC idG hs hc
    have h3 : idP % 2 ^ 32 * 1000000000 = idC % 2 ^ 32 * 1000000000 := congrArg NDVarArray.hash hc
    exact hs.distinct (Nat.eq_of_mul_eq_mul_right (by norm_num) h3)
  have k1 := arrBeliefs_pair (κ := κ) (key hsizes.1) (⟨[ps.sum, 2], x1.map WithBot.some⟩ : NDArr (WithBot α)) ⟨[ps.length, 2], y1.map WithBot.some⟩
  have k2 := arrBeliefs_pair (κ := κ) (key hsizes.2) (⟨[ps.sum, 2], x2.map WithBot.some⟩ : NDArr (WithBot α)) ⟨[ps.length, 2], y2.map WithBot.some⟩
  rw [← h1] at k1
  rw [← h2] at k2
  obtain ⟨a3, a1⟩ := k1
  obtain ⟨a4, a2⟩ := k2
  unfold gateTest
  rw [e]
  simp only [bind, Except.bind, g1, g2, a1, a2, a3, a4, allClose_of hy hε, allClose_of hx hε]
  rfl

theorem allClose_eq {sh : List Nat} {x y : List α} (hl : x.length = y.length) (atol : α) :
    allClose atol ⟨sh, x.map WithBot.some⟩ ⟨sh, y.map WithBot.some⟩ = .ok true ∧ List.Forall₂ (fun u w => |u - w| ≤ atol + 1 / 100000 * |w|) x y ∨
    allClose atol ⟨sh, x.map WithBot.some⟩ ⟨sh, y.map WithBot.some⟩ = .ok false ∧ ¬ List.Forall₂ (fun u w => |u - w| ≤ atol + 1 / 100000 * |w|) x y := by
  have key : ((x.map WithBot.some).zip (y.map WithBot.some)).all (fun q => closeNums atol q.1 q.2) = true ↔ List.Forall₂ (fun u w => |u - w| ≤ atol + 1 / 100000 * |w|) x y := by
    induction x generalizing y with
    | nil =>
      cases y with
      | nil => simp
      | cons w y => simp at hl
    | cons u x ih =>
      cases y with
      | nil => simp at hl
      | cons w y =>
        rw [List.map_cons, List.map_cons, List.zip_cons_cons, List.all_cons, Bool.and_eq_true, ih (by simpa using hl), List.forall₂_cons]
        exact and_congr_left fun _ => decide_eq_true_iff
  unfold allClose
  rw [if_pos rfl]
  dsimp only
  by_cases h : List.Forall₂ (fun u w => |u - w| ≤ atol + 1 / 100000 * |w|) x y
  · exact .inl ⟨by rw [key.2 h], h⟩
  · refine .inr ⟨?_, h⟩
    rw [Bool.eq_false_iff.2 (fun hc => h (key.1 hc))]

/-- **C112 (the assertions).**  The programs pass if all beliefs of the two graphs are close, and raise AssertionError otherwise. -/
theorem C112_assert [DecidableEq κ] {env : Env α} {garbage1 garbage2 : Garbage} {stateId1 stateId2 : Nat} {T : α} {n : Nat} {g : Gates κ α} {bs1 bs2 : List (VGroup κ × GroupBeliefs κ α)}
    {x1 x2 y1 y2 : List α} (e : gates isAnd first idP1 idC1 idP2 idC2 idF idG1 idG2 ps = .ok g) (hne : g.parents1 ≠ g.children1 ∧ g.parents2 ≠ g.children2)
    (g1 : gateBeliefs env garbage1 stateId1 T g.fg1 g.parents1 g.children1 ⟨[ps.sum, 2], evParents⟩ ⟨[ps.length, 2], evChildren⟩ n = .ok bs1)
    (g2 : gateBeliefs env garbage2 stateId2 T g.fg2 g.parents2 g.children2 ⟨[ps.sum, 2], evParents⟩ ⟨[ps.length, 2], evChildren⟩ n = .ok bs2)
    (h1 : bs1 = [(.arr g.parents1, .arr ⟨[ps.sum, 2], x1.map WithBot.some⟩), (.arr g.children1, .arr ⟨[ps.length, 2], y1.map WithBot.some⟩)])
    (h2 : bs2 = [(.arr g.parents2, .arr ⟨[ps.sum, 2], x2.map WithBot.some⟩), (.arr g.children2, .arr ⟨[ps.length, 2], y2.map WithBot.some⟩)])
    (hx : x1.length = x2.length) (hy : y1.length = y2.length) :
    (List.Forall₂ (fun u w => |u - w| ≤ 1 / 10000 + 1 / 100000 * |w|) x1 x2 ∧ List.Forall₂ (fun u w => |u - w| ≤ 1 / 10000 + 1 / 100000 * |w|) y1 y2 →
      gateTest κ isAnd first idP1 idC1 idP2 idC2 idF idG1 idG2 env garbage1 garbage2 stateId1 stateId2 ps T evParents evChildren n = .ok ()) ∧
    (¬ (List.Forall₂ (fun u w => |u - w| ≤ 1 / 10000 + 1 / 100000 * |w|) x1 x2 ∧ List.Forall₂ (fun u w => |u - w| ≤ 1 / 10000 + 1 / 100000 * |w|) y1 y2) →
      gateTest κ isAnd first idP1 idC1 idP2 idC2 idF idG1 idG2 env garbage1 garbage2 stateId1 stateId2 ps T evParents evChildren n = .error .assertionError) := by
  have k1 := arrBeliefs_pair (κ := κ) hne.1 (⟨[ps.sum, 2], x1.map WithBot.some⟩ : NDArr (WithBot α)) ⟨[ps.length, 2], y1.map WithBot.some⟩
  have k2 := arrBeliefs_pair (κ := κ) hne.2 (⟨[ps.sum, 2], x2.map WithBot.some⟩ : NDArr (WithBot α)) ⟨[ps.length, 2], y2.map WithBot.some⟩
  rw [← h1] at k1
  rw [← h2] at k2
  obtain ⟨a3, a1⟩ := k1
  obtain ⟨a4, a2⟩ := k2
  unfold gateTest
  rw [e]
  simp only [bind, Except.bind, g1, g2, a1, a2, a3, a4]
  rcases allClose_eq (sh := [ps.sum, 2]) hx (1 / 10000) with ⟨p1, p2⟩ | ⟨p1, p2⟩ <;> rcases allClose_eq (sh := [ps.length, 2]) hy (1 / 10000) with ⟨q1, q2⟩ | ⟨q1, q2⟩
  · exact ⟨fun _ => by rw [p1, q1]; rfl, fun hc => absurd ⟨p2, q2⟩ hc⟩
  · exact ⟨fun hc => absurd hc.2 q2, fun _ => by rw [q1]; rfl⟩
  · exact ⟨fun hc => absurd hc.1 p2, fun _ => by rw [p1, q1]; rfl⟩
  · exact ⟨fun hc => absurd hc.1 p2, fun _ => by rw [q1]; rfl⟩

/-- **C112 (max-product).**  At temperature 0 the programs that test OR and AND factors compute, for any number of iterations, the same beliefs with the two graphs, and pass.
`isAnd` is which of the two programs it is, `first` whether all listed factors are in the first graph. -/
theorem C112 [IsStrictOrderedRing α] [DecidableEq κ] (isAnd first : Bool) (h : GateInputs idP1 idC1 idP2 idC2 idF idG1 idG2 ps evParents evChildren E K) (env : Env α)
    (hw : env.wrapNeg = false ∨ 2 * (ps.sum + ps.length) + 2 ≤ 100000) (garbage1 garbage2 : Garbage) (stateId1 stateId2 n : Nat) :
    (∃ (g : Gates κ α) (bs1 bs2 : List (VGroup κ × GroupBeliefs κ α)), gates isAnd first idP1 idC1 idP2 idC2 idF idG1 idG2 ps = .ok g ∧
      gateBeliefs env garbage1 stateId1 0 g.fg1 g.parents1 g.children1 ⟨[ps.sum, 2], evParents⟩ ⟨[ps.length, 2], evChildren⟩ n = .ok bs1 ∧
      gateBeliefs env garbage2 stateId2 0 g.fg2 g.parents2 g.children2 ⟨[ps.sum, 2], evParents⟩ ⟨[ps.length, 2], evChildren⟩ n = .ok bs2 ∧
      bs1.map (·.1) = [.arr g.parents1, .arr g.children1] ∧ bs2.map (·.1) = [.arr g.parents2, .arr g.children2] ∧ bs1.map (·.2) = bs2.map (·.2)) ∧
    gateTest κ isAnd first idP1 idC1 idP2 idC2 idF idG1 idG2 env garbage1 garbage2 stateId1 stateId2 ps 0 evParents evChildren n = .ok () := by
  obtain ⟨fg1, fg2, hist1, hist2, st1, st2, bp1, bp2, a1, a2, e, g1, g2, r⟩ := gates_alike (κ := κ) h isAnd first hw garbage1 garbage2 stateId1 stateId2 0 n
  obtain ⟨state1, hbp1⟩ := r.create1
  obtain ⟨state2, hbp2⟩ := r.create2
  have hc := (C98_small_partial r.compiled1 r.compiled2 hbp1 hbp2 env r.fits1 r.fits2 a1 a2 n r.lp1 r.lp2 r.m1 r.m2 r.ev1 r.ev2 _ r.models (gRen_vars h.sizes.1 h.sizes.2) r.evs r.msgs
    r.small r.init).2
  obtain ⟨x1, x2, y1, y2, k1, k2, k3, k4⟩ := r.beliefs h n (ε := 0) (fun v hv => by
    obtain ⟨start, start', c1, c2, c3⟩ := hc v hv
    refine ⟨start, start', c1, c2, fun s hs => ?_⟩
    obtain ⟨b, d1, d2⟩ := c3 s hs
    exact ⟨b, b, d1, d2, by simp⟩)
  have same : ∀ {x y : List α}, List.Forall₂ (fun u w => |w - u| ≤ 0) x y → x = y := by
    intro x y hxy
    refine List.forall₂_eq_eq_eq ▸ hxy.imp fun u w huw => ?_
    have := abs_nonpos_iff.1 huw
    linarith
  obtain rfl := same k3
  obtain rfl := same k4
  exact ⟨⟨_, _, _, e, g1.trans k1, g2.trans k2, by simp only [List.map_cons, List.map_nil], by simp only [List.map_cons, List.map_nil], by simp only [List.map_cons, List.map_nil]⟩,
    gateTest_of (by norm_num) h.sizes e (g1.trans k1) (g2.trans k2) rfl rfl k3 k4⟩

end

section
variable {κ : Type} {idP1 idC1 idP2 idC2 : Nat} {idF : Nat → Nat} {idG1 idG2 : Nat} {ps : List Nat} {evParents evChildren : List ℝ} {E : ℝ} {K : Nat}

/-- **C112 (sum-product).**  At a temperature `T > 0` the beliefs of the two graphs differ by at most `2 T e^-100000 Σ_{k < n} 2^k`: the listed factors have no configurations
that are not allowed, the logical ones reckon with minus infinity as `-1e5`. -/
theorem C112_sum [DecidableEq κ] (isAnd first : Bool) (h : GateInputs idP1 idC1 idP2 idC2 idF idG1 idG2 ps evParents evChildren E K) (env : Env ℝ)
    (hexp : env.exp = Real.exp) (hlog : env.log = Real.log) (hw : env.wrapNeg = false ∨ 2 * (ps.sum + ps.length) + 2 ≤ 100000) (garbage1 garbage2 : Garbage) (stateId1 stateId2 n : Nat)
    {T : ℝ} (hT : 0 < T) :
    ∃ (g : Gates κ ℝ) (bs1 bs2 : List (VGroup κ × GroupBeliefs κ ℝ)) (x1 x2 y1 y2 : List ℝ), gates isAnd first idP1 idC1 idP2 idC2 idF idG1 idG2 ps = .ok g ∧
      gateBeliefs env garbage1 stateId1 T g.fg1 g.parents1 g.children1 ⟨[ps.sum, 2], evParents⟩ ⟨[ps.length, 2], evChildren⟩ n = .ok bs1 ∧
      gateBeliefs env garbage2 stateId2 T g.fg2 g.parents2 g.children2 ⟨[ps.sum, 2], evParents⟩ ⟨[ps.length, 2], evChildren⟩ n = .ok bs2 ∧
      bs1 = [(.arr g.parents1, .arr ⟨[ps.sum, 2], x1.map WithBot.some⟩), (.arr g.children1, .arr ⟨[ps.length, 2], y1.map WithBot.some⟩)] ∧
      bs2 = [(.arr g.parents2, .arr ⟨[ps.sum, 2], x2.map WithBot.some⟩), (.arr g.children2, .arr ⟨[ps.length, 2], y2.map WithBot.some⟩)] ∧
      List.Forall₂ (fun u w => |w - u| ≤ 2 * T * Real.exp (-100000) * ∑ k ∈ Finset.range n, 2 ^ k) x1 x2 ∧
      List.Forall₂ (fun u w => |w - u| ≤ 2 * T * Real.exp (-100000) * ∑ k ∈ Finset.range n, 2 ^ k) y1 y2 ∧
      (2 * T * Real.exp (-100000) * ∑ k ∈ Finset.range n, 2 ^ k ≤ 1 / 10000 →
        gateTest κ isAnd first idP1 idC1 idP2 idC2 idF idG1 idG2 env garbage1 garbage2 stateId1 stateId2 ps T evParents evChildren n = .ok ()) := by
  obtain ⟨fg1, fg2, hist1, hist2, st1, st2, bp1, bp2, a1, a2, e, g1, g2, r⟩ := gates_alike (κ := κ) h isAnd first hw garbage1 garbage2 stateId1 stateId2 T n
  obtain ⟨state1, hbp1⟩ := r.create1
  obtain ⟨state2, hbp2⟩ := r.create2
  have hc := (C98_sum_partial r.compiled1 r.compiled2 hT hbp1 hbp2 env hexp hlog r.fits1 r.fits2 a1 a2 n r.lp1 r.lp2 r.m1 r.m2 r.ev1 r.ev2 _ r.models (gRen_vars h.sizes.1 h.sizes.2)
    r.evs r.msgs r.small r.init (L := 1) le_rfl (fun vs _ i _ => by
      have : inputsBut (graphOf (rVgs κ idP1 idC1 ps.sum ps.length) hist1).allScopes vs i = 0 := by
        unfold inputsBut
        rw [List.sum_eq_zero]
        intro x hx
        obtain ⟨j, -, rfl⟩ := List.mem_map.1 hx
        have := r.degree (vs.getD j ⟨0, 0⟩)
        omega
      rw [this]; norm_num)).2
  obtain ⟨x1, x2, y1, y2, k1, k2, k3, k4⟩ := r.beliefs h n (ε := 2 * T * Real.exp (-100000) * ∑ k ∈ Finset.range n, 2 ^ k) (fun v hv => by
    obtain ⟨start, start', c1, c2, c3⟩ := hc v hv
    refine ⟨start, start', c1, c2, fun s hs => ?_⟩
    obtain ⟨b, b', d1, d2, d3⟩ := c3 s hs
    refine ⟨b, b', d1, d2, d3.trans ?_⟩
    have hd : ((edgesOf (graphOf (rVgs κ idP1 idC1 ps.sum ps.length) hist1).allScopes v).length : ℝ) ≤ 1 := by exact_mod_cast r.degree v
    have h0 : 0 ≤ 2 * (T * Real.exp (-100000) * ∑ k ∈ Finset.range n, (2 * (1 : ℝ)) ^ k) := by
      have := hT.le
      have := Real.exp_pos (-100000)
      have := Finset.sum_nonneg (s := Finset.range n) (f := fun k => (2 * (1 : ℝ)) ^ k) (fun k _ => by norm_num)
      exact mul_nonneg (by norm_num) (mul_nonneg (mul_nonneg ‹_› (le_of_lt ‹_›)) this)
    refine (mul_le_mul_of_nonneg_right hd h0).trans (le_of_eq ?_)
    rw [mul_one]
    ring)
  exact ⟨_, _, _, x1, x2, y1, y2, e, g1.trans k1, g2.trans k2, rfl, rfl, k3, k4, fun hε => gateTest_of hε h.sizes e (g1.trans k1) (g2.trans k2) rfl rfl k3 k4⟩

/-- **C112 (the programs).**  With the numbers of the programs (at most 5 parents of a factor, 5 iterations, temperatures up to 1) and evidence of at most 15000 the tests pass. -/
theorem C112_tests [DecidableEq κ] (isAnd first : Bool) (h : GateInputs idP1 idC1 idP2 idC2 idF idG1 idG2 ps evParents evChildren 15000 6) (env : Env ℝ)
    (hexp : env.exp = Real.exp) (hlog : env.log = Real.log) (hF : ps.length ≤ 7) (garbage1 garbage2 : Garbage) (stateId1 stateId2 : Nat)
    {T : ℝ} (hT : 0 ≤ T) (hT1 : T ≤ 1) :
    gateTest κ isAnd first idP1 idC1 idP2 idC2 idF idG1 idG2 env garbage1 garbage2 stateId1 stateId2 ps T evParents evChildren 5 = .ok () := by
  have hw : env.wrapNeg = false ∨ 2 * (ps.sum + ps.length) + 2 ≤ 100000 := by
    have := List.sum_le_card_nsmul ps 5 (fun p hp => by have := (h.parents p hp).2; omega)
    rw [smul_eq_mul] at this
    omega
  rcases hT.eq_or_lt with rfl | hT
  · exact (C112 isAnd first h env hw garbage1 garbage2 stateId1 stateId2 5).2
  · obtain ⟨_, _, _, _, _, _, _, _, _, _, _, _, _, _, hok⟩ := C112_sum (κ := κ) isAnd first h env hexp hlog hw garbage1 garbage2 stateId1 stateId2 5 hT
    apply hok
    have h1 : (50001 : ℝ) * 50001 ≤ Real.exp 100000 := by
      have h2 := Real.add_one_le_exp (50000 : ℝ)
      have : Real.exp 100000 = Real.exp 50000 * Real.exp 50000 := by rw [← Real.exp_add]; norm_num
      rw [this]
      exact mul_le_mul (by linarith) (by linarith) (by norm_num) (Real.exp_pos _).le
    have h3 : Real.exp (-100000) ≤ 1 / 1000000 := by
      rw [Real.exp_neg, ← one_div]
      exact one_div_le_one_div_of_le (by norm_num) (by linarith)
    have h4 : ∑ k ∈ Finset.range 5, (2 : ℝ) ^ k = 31 := by norm_num [Finset.sum_range_succ]
    rw [h4]
    have := mul_le_mul hT1 h3 (Real.exp_pos _).le zero_le_one
    linarith

end

/-- The hypotheses can be met: three factors of 1, 2 and 3 parents. -/
example : GateInputs (α := ℝ) 1 2 3 4 (fun k => 10 + k) 20 21 [1, 2, 3] (List.replicate 12 (5 / 2)) (List.replicate 6 (-3)) 15000 6 where
  arrays1 := by norm_num
  arrays2 := by norm_num
  ids := fun k _ l _ h => by simpa using h
  groups := fun k hk => by simp only [List.length_cons, List.length_nil] at hk; omega
  factors := by simp
  parents := by decide
  few := by decide
  lenParents := by decide
  lenChildren := by decide
  evidence := by
    intro x hx
    rw [List.mem_append] at hx
    rcases hx with hx | hx
    · rw [List.eq_of_mem_replicate hx]; norm_num [abs_le]
    · rw [List.eq_of_mem_replicate hx]; norm_num [abs_le]
  room := by norm_num

end PGMax
