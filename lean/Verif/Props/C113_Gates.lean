import Verif.Props.C112
import Verif.Props.C113

/-!
# C113 for the programs that test OR and AND factors: the beliefs that they compare
-/

namespace PGMax

variable {κ α : Type} [Field α] [LinearOrder α] {isAnd first : Bool} {idP1 idC1 idP2 idC2 : Nat} {idF : Nat → Nat} {idG1 idG2 : Nat} {ps : List Nat}
  {evParents evChildren : List α} {E : α} {K : Nat}

theorem rows_out {A : List (List Nat)} (n : Nat) (q : Nat → Nat → α) (i s : Nat) :
    (((A.map (fun r => (r, (0 : α)))).filter (fun r => r.1[i]? = some s)).map (scoreBut n q i)).maximum =
      ((A.filter (fun r => r[i]? = some s)).map (fun r => (((List.range n).filter (fun j => j ≠ i)).map (fun j => q j (r.getD j 0))).sum)).maximum := by
  rw [List.filter_map, List.map_map]
  congr 2
  funext r
  simp only [Function.comp_apply, scoreBut, zero_add]

theorem gFac_out (hp : 1 ≤ ps.getD k 0) (q : Nat → Nat → α) (i s : Nat) : tbOut (gFac isAnd idP1 idC1 ps k) q i s = gateOut isAnd (ps.getD k 0) q i s := by
  unfold tbOut gFac SFac.rowsAt gateOut
  dsimp only
  rw [gScope_length, rows_out]
  exact List.Perm.maximum_eq (((gateConfigs_perm isAnd hp).filter _).map _)

theorem lFac_out (q : Nat → Nat → α) (i s : Nat) : tbOut (lFac isAnd idP1 idC1 ps k) q i s = gateOut isAnd (ps.getD k 0) q i s := by
  unfold tbOut lFac SFac.rowsAt gateOut
  dsimp only
  rw [gScope_length, ← rows_out, List.map_map]
  rfl

theorem gateOut_congr {p : Nat} {e e' : Nat → Nat → α} (h : ∀ j ≤ p, ∀ t < 2, e j t = e' j t) (i s : Nat) : gateOut isAnd p e i s = gateOut isAnd p e' i s := by
  unfold gateOut
  congr 1
  refine List.map_congr_left fun r hr => ?_
  obtain ⟨hr, -⟩ := List.mem_filter.1 hr
  obtain ⟨q, hq, rfl⟩ := List.mem_map.1 hr
  congr 1
  refine List.map_congr_left fun j hj => ?_
  have hj := List.mem_range.1 (List.mem_filter.1 hj).1
  refine h j (by omega) _ ?_
  obtain ⟨h1, h2⟩ := (mem_bits _ _).1 hq
  rw [List.getD_eq_getElem?_getD]
  cases e : (q ++ [if isAnd then (if 0 ∈ q then 0 else 1) else (if 1 ∈ q then 1 else 0)])[j]? with
  | none => simp
  | some b =>
    have hb := List.mem_of_getElem? e
    rw [List.mem_append, List.mem_singleton] at hb
    rcases hb with hb | rfl
    · exact h2 b hb
    · show (if isAnd then (if 0 ∈ q then 0 else 1) else (if 1 ∈ q then 1 else 0)) < 2
      split <;> split <;> omega

/-- The position of gate `k` in the list of factors. -/
theorem gates_place (f1 : List (SFac α)) (h : f1 = (gFirst first ps.length).map (gFac isAnd idP1 idC1 ps) ++ (gSecond first ps.length).map (lFac isAnd idP1 idC1 ps)) {k : Nat} (hk : k < ps.length) :
    ∃ (f : Nat) (F : SFac α), f1[f]? = some F ∧ (F = gFac isAnd idP1 idC1 ps k ∨ F = lFac isAnd idP1 idC1 ps k) := by
  have := gParts_all (first := first) hk
  rw [List.mem_append] at this
  rcases this with hm | hm
  · obtain ⟨f, hf⟩ := List.mem_iff_getElem?.1 (show gFac isAnd idP1 idC1 ps k ∈ f1 by rw [h]; exact List.mem_append_left _ (List.mem_map_of_mem hm))
    exact ⟨f, _, hf, .inl rfl⟩
  · obtain ⟨f, hf⟩ := List.mem_iff_getElem?.1 (show lFac isAnd idP1 idC1 ps k ∈ f1 by rw [h]; exact List.mem_append_right _ (List.mem_map_of_mem hm))
    exact ⟨f, _, hf, .inr rfl⟩

/-- The variable at a position of a gate, and its evidence. -/
theorem gScope_evidence {idP idC : Nat} {T : α} {st : FGState κ α} {bp : BPFun κ α} {a : BPArrays α} (h : GateReady idP idC ps evParents evChildren T st bp a) {k : Nat} (hk : k < ps.length) {j : Nat}
    (hj : j ≤ ps.getD k 0) : ∃ v, (gScope idP idC ps k)[j]? = some v ∧ v = (if j < ps.getD k 0 then rHid idP ps.sum ((ps.take k).sum + j) else rHid idC ps.length k) ∧
      ∀ t < 2, readEv st.varsToStarts a.evidence v t = gateEvidence ps evParents evChildren k j t := by
  unfold gScope gateEvidence
  by_cases hlt : j < ps.getD k 0
  · have hm : (ps.take k).sum + j ∈ List.range' (cumParents ps k) (ps.getD k 0) := by
      rw [List.mem_range'_1]
      unfold cumParents
      omega
    refine ⟨rHid idP ps.sum ((ps.take k).sum + j), ?_, by rw [if_pos hlt], fun t ht => ?_⟩
    · rw [List.getElem?_append_left (by simpa using hlt), List.getElem?_map, List.getElem?_range' hlt]
      simp [cumParents]
    · rw [h.evP _ (gBlock_lt hm) t ht, if_pos hlt]
  · obtain rfl : j = ps.getD k 0 := by omega
    refine ⟨rHid idC ps.length k, ?_, by rw [if_neg hlt], fun t ht => ?_⟩
    · rw [List.getElem?_append_right (by simp)]
      simp
    · rw [h.evC k hk t ht, if_neg hlt]

/-- **C113 for the test programs.**  After `n + 1` iterations at temperature 0, the belief of a variable of gate `k` is its evidence plus the part `1 - 2 ^ -(n + 1)` of the message that
it gets from the gate: the best total evidence of the other variables of the gate. -/
theorem C113_gates [IsStrictOrderedRing α] [DecidableEq κ] (isAnd first : Bool) (h : GateInputs idP1 idC1 idP2 idC2 idF idG1 idG2 ps evParents evChildren E K) (env : Env α)
    (hw : env.wrapNeg = false ∨ 2 * (ps.sum + ps.length) + 2 ≤ 100000) (garbage1 garbage2 : Garbage) (stateId1 stateId2 n : Nat) :
    ∃ (g : Gates κ α) (x y : List α), gates isAnd first idP1 idC1 idP2 idC2 idF idG1 idG2 ps = .ok g ∧
      gateBeliefs env garbage1 stateId1 0 g.fg1 g.parents1 g.children1 ⟨[ps.sum, 2], evParents⟩ ⟨[ps.length, 2], evChildren⟩ (n + 1) =
        .ok [(.arr g.parents1, .arr ⟨[ps.sum, 2], x.map WithBot.some⟩), (.arr g.children1, .arr ⟨[ps.length, 2], y.map WithBot.some⟩)] ∧
      gateBeliefs env garbage2 stateId2 0 g.fg2 g.parents2 g.children2 ⟨[ps.sum, 2], evParents⟩ ⟨[ps.length, 2], evChildren⟩ (n + 1) =
        .ok [(.arr g.parents2, .arr ⟨[ps.sum, 2], x.map WithBot.some⟩), (.arr g.children2, .arr ⟨[ps.length, 2], y.map WithBot.some⟩)] ∧
      ∀ k < ps.length, (∀ j < ps.getD k 0, ∀ s < 2, x[((ps.take k).sum + j) * 2 + s]? = some (gateEvidence ps evParents evChildren k j s +
          fadedMsg (1 / 2) (n + 1) 2 (gateOut isAnd (ps.getD k 0) (gateEvidence ps evParents evChildren k) j) s)) ∧
        ∀ s < 2, y[k * 2 + s]? = some (gateEvidence ps evParents evChildren k (ps.getD k 0) s +
          fadedMsg (1 / 2) (n + 1) 2 (gateOut isAnd (ps.getD k 0) (gateEvidence ps evParents evChildren k) (ps.getD k 0)) s) := by
  obtain ⟨fg1, fg2, hist1, hist2, st1, st2, bp1, bp2, a1, a2, e, g1, g2, r⟩ := gates_alike (κ := κ) h isAnd first hw garbage1 garbage2 stateId1 stateId2 0 (n + 1)
  obtain ⟨⟨g, bs1, bs2, c1, c2, c3, c4, c5, c6⟩, -⟩ := C112 (κ := κ) isAnd first h env hw garbage1 garbage2 stateId1 stateId2 (n + 1)
  obtain rfl := Except.ok.inj (e.symm.trans c1)
  obtain ⟨s1, s2⟩ := h.sizes
  have hF := h.factors
  obtain ⟨state1, hbp1⟩ := r.create1
  have hm1 := r.compiled1.run_length hbp1 env a1 (n + 1) (1 / 2) r.lp1 r.m1
  have hv1 : (bp1.runBP env a1 (n + 1) (1 / 2)).evidence.length = st1.numVarStates := by rw [runBP_evidence]; exact r.ev1
  obtain ⟨B, hB, gB⟩ := gate_getBeliefs s1 (by omega) r.compiled1 hbp1 _ hm1 hv1
  have hmod := r.small.tame r.compiled1
  have key : ∀ k < ps.length, ∀ j ≤ ps.getD k 0, ∀ s < 2, B (if j < ps.getD k 0 then rHid idP1 ps.sum ((ps.take k).sum + j) else rHid idC1 ps.length k) s =
      gateEvidence ps evParents evChildren k j s + fadedMsg (1 / 2) (n + 1) 2 (gateOut isAnd (ps.getD k 0) (gateEvidence ps evParents evChildren k) j) s := by
    intro k hk j hj s hs
    obtain ⟨f, F, hf, hFk⟩ := gates_place _ r.factors1 hk
    have hscope : F.scope = gScope idP1 idC1 ps k := by rcases hFk with rfl | rfl <;> rfl
    obtain ⟨v, k1, k2, k3⟩ := gScope_evidence r.ready1 hk hj
    rw [← k2]
    have hvn : v.n = 2 := gScope_n (List.mem_of_getElem? k1)
    have hv : F.scope[j]? = some v := by rw [hscope]; exact k1
    have he : IsEdge (graphOf (rVgs κ idP1 idC1 ps.sum ps.length) hist1).allScopes f j v :=
      ⟨F.scope, by rw [← (graphOf (rVgs κ idP1 idC1 ps.sum ps.length) hist1).factors_scopes a1.logPotentials, List.getElem?_map, hf]; rfl, hv⟩
    have hmsg := C113 r.compiled1 hbp1 env r.fits1 a1 n (1 / 2) r.lp1 r.ev1 r.ready1.msgs hmod.1 hmod.2 r.degree
      (fun f i v he => by obtain ⟨s, hs, -⟩ := r.init f i v he; omega) hf hv (s := s) (by rw [hvn]; exact hs)
    have hout : ∀ t, tbOut F (evidenceIn F (readEv st1.varsToStarts a1.evidence)) j t = gateOut isAnd (ps.getD k 0) (gateEvidence ps evParents evChildren k) j t := by
      intro t
      rw [← gateOut_congr (e := evidenceIn F (readEv st1.varsToStarts a1.evidence)) (fun i hi u hu => ?_)]
      · rcases hFk with rfl | rfl
        · exact gFac_out (h.pos hk).1 _ _ _
        · exact lFac_out _ _ _
      · obtain ⟨w, w1, -, w3⟩ := gScope_evidence r.ready1 hk hi
        rw [← w3 u hu]
        unfold evidenceIn
        rw [hscope, w1]
    rw [hB, runBP_evidence, Separate.belief r.degree he, k3 s hs, hmsg, hvn, funext hout]
  rw [g1, gB] at c2
  have hbs2 : bs2 = [(.arr (uniArr idP2 [ps.sum] 2), .arr ⟨[ps.sum, 2], ((List.range (ps.sum * 2)).map (fun q => B (rHid idP1 ps.sum (q / 2)) (q % 2))).map WithBot.some⟩),
      (.arr (uniArr idC2 [ps.length] 2), .arr ⟨[ps.length, 2], ((List.range (ps.length * 2)).map (fun q => B (rHid idC1 ps.length (q / 2)) (q % 2))).map WithBot.some⟩)] := by
    rw [← Except.ok.inj c2] at c6
    rw [List.map_map, List.map_map]
    match bs2, c5, c6 with
    | [], c5, _ => simp at c5
    | [_], c5, _ => simp at c5
    | [p, q], c5, c6 =>
      simp only [List.map_cons, List.map_nil, List.cons.injEq, and_true] at c5 c6
      obtain ⟨p1, p2⟩ := p
      obtain ⟨q1, q2⟩ := q
      dsimp only at c5 c6
      rw [c5.1, c5.2, ← c6.1, ← c6.2]
      rfl
    | _ :: _ :: _ :: _, c5, _ => simp at c5
  refine ⟨_, (List.range (ps.sum * 2)).map (fun q => B (rHid idP1 ps.sum (q / 2)) (q % 2)), (List.range (ps.length * 2)).map (fun q => B (rHid idC1 ps.length (q / 2)) (q % 2)),
    e, ?_, c3.trans (by rw [hbs2]), fun k hk => ⟨fun j hj s hs => ?_, fun s hs => ?_⟩⟩
  · rw [g1, gB, List.map_map, List.map_map]; rfl
  · have hb := key k hk j hj.le s hs
    rw [if_pos hj] at hb
    have hlt : (ps.take k).sum + j < ps.sum := by
      have hm : (ps.take k).sum + j ∈ List.range' (cumParents ps k) (ps.getD k 0) := by
        rw [List.mem_range'_1]
        unfold cumParents
        omega
      exact gBlock_lt hm
    rw [List.getElem?_map, List.getElem?_range (by omega), Option.map_some, show (((ps.take k).sum + j) * 2 + s) / 2 = (ps.take k).sum + j by omega,
      show (((ps.take k).sum + j) * 2 + s) % 2 = s by omega, hb]
  · have hb := key k hk _ le_rfl s hs
    rw [if_neg (lt_irrefl _)] at hb
    rw [List.getElem?_map, List.getElem?_range (by omega), Option.map_some, show (k * 2 + s) / 2 = k by omega, show (k * 2 + s) % 2 = s by omega, hb]

/-- An OR of two parents with evidence 3 and -1 for state 1, a child with evidence -1: the gate says that the child is 1, by 3; after one iteration by 3/2. -/
example : gateOut false 2 (gateEvidence [2, 1] [0, 3, 0, -1, 0, 0] [0, -1, 0, (0 : ℚ)] 0) 2 0 = WithBot.some 0 ∧
    gateOut false 2 (gateEvidence [2, 1] [0, 3, 0, -1, 0, 0] [0, -1, 0, (0 : ℚ)] 0) 2 1 = WithBot.some 3 ∧
    fadedMsg (1 / 2) 1 2 (gateOut false 2 (gateEvidence [2, 1] [0, 3, 0, -1, 0, 0] [0, -1, 0, (0 : ℚ)] 0) 2) 0 = -3 / 2 := by
  decide +kernel

/-- The inputs of this example meet the hypotheses of `C113_gates`. -/
example : GateInputs (α := ℚ) 1 2 3 4 (fun k => 10 + k) 20 21 [2, 1] [0, 3, 0, -1, 0, 0] [0, -1, 0, 0] 3 4 where
  arrays1 := by norm_num
  arrays2 := by norm_num
  ids := fun k _ l _ h => by simpa using h
  groups := fun k hk => by simp only [List.length_cons, List.length_nil] at hk; omega
  factors := by simp
  parents := by decide
  few := by decide
  lenParents := by decide
  lenChildren := by decide
  evidence := by decide +kernel
  room := by norm_num

end PGMax
