import Verif.Lemmas.Range
import Verif.Props.C56
import Verif.Lemmas.ZeroTemp
import Mathlib.Tactic.IntervalCases

/-! # C76: on trees, messages are bounded by the ranges of the evidence and potentials behind them -/

namespace PGMax

section
variable {κ α : Type _} {vgs : List (VGroup κ)} {hist : List (AddArg α)} {garbage : Garbage} {st : FGState κ α}

/-- Every state of every variable of an OR or AND factor occurs in some configuration. -/
theorem lRows_full [Zero α] {rel n : Nat} (hrel : rel < 2) (hn : 0 < n) {F : SFac α} (hF : F.rows = lRows rel n) {i s : Nat} (hi : i ≤ n) (hs : s < 2) :
    F.rowsAt i s ≠ [] := by
  have hrep : ∀ b < 2, List.replicate n b ∈ bits n := fun b hb =>
    (mem_bits n _).2 ⟨List.length_replicate, fun c hc => by rw [List.eq_of_mem_replicate hc]; exact hb⟩
  rcases Nat.lt_or_ge i n with h | h
  · exact List.ne_nil_of_mem ((mem_rowsAt_parent rel n i s h F hF _).2 ⟨_, hrep s hs, by rw [List.getElem?_replicate, if_pos h], rfl⟩)
  · obtain rfl : i = n := by omega
    refine List.ne_nil_of_mem ((mem_rowsAt_child rel i s F hF _).2 ⟨_, hrep s hs, ?_, rfl⟩)
    by_cases hc : 1 - rel ∈ List.replicate i s
    · rw [if_pos hc, List.eq_of_mem_replicate hc]
    · rw [if_neg hc]
      rw [List.mem_replicate] at hc
      omega

section
variable [Field α] [LinearOrder α] [IsStrictOrderedRing α]

omit [LinearOrder α] [IsStrictOrderedRing α] in
theorem Compiled.logical_full (h : Compiled vgs hist garbage st) (lp : List α) {f : Nat} {F : SFac α} (hF : ((graphOf vgs hist).factors lp)[f]? = some F)
    (hf : (graphOf vgs hist).tables.length ≤ f) : F.Full := by
  unfold FactorGraph.factors at hF
  rw [List.append_assoc, List.getElem?_append_right (by simpa using hf)] at hF
  have key : ∃ rel < 2, F.rows = lRows rel (F.scope.length - 1) ∧ LogicalScope F.scope := by
    rcases List.mem_append.1 (List.mem_of_getElem? hF) with hm | hm
    · obtain ⟨vs, hvs, rfl⟩ := List.mem_map.1 hm
      exact ⟨0, by omega, orRows_eq _, h.logicalScopes .or (by decide) vs hvs⟩
    · obtain ⟨vs, hvs, rfl⟩ := List.mem_map.1 hm
      exact ⟨1, by omega, andRows_eq _, h.logicalScopes .and (by decide) vs hvs⟩
  obtain ⟨rel, hrel, hrows, h2, hn2⟩ := key
  intro i v s hi hs
  have hil := (List.getElem?_eq_some_iff.1 hi).1
  rw [hn2 v (List.mem_of_getElem? hi)] at hs
  exact lRows_full hrel (by omega) hrows (by omega) hs

/-- Max-product is the iteration with maxima as summaries. -/
theorem tbRun_sumRun (factors : List (SFac α)) (ev : Var → Nat → α) (d : α) (n : Nat) (m0 : Msgs α) :
    tbRun factors ev d n m0 = sumRun (fun _ => maxOf 0) factors ev d n m0 := by
  induction n with
  | zero => rfl
  | succ n ih =>
    simp only [tbRun, sumRun, ih]
    funext f i
    unfold tbStep sumStep
    cases factors[f]? with
    | none => rfl
    | some F =>
      simp only
      cases F.scope[i]? with
      | none => rfl
      | some v => simp only [tbOut_eq, sumOut]

omit [Field α] [LinearOrder α] [IsStrictOrderedRing α] in
theorem Compiled.states_pos (h : Compiled vgs hist garbage st) (hst : ∀ g ∈ vgs, g.Stated) : ∀ v ∈ graphVars vgs, 0 < v.n := by
  intro v hv
  obtain ⟨g, hg, hv⟩ := mem_graphVars.1 hv
  obtain ⟨objId, hb⟩ := h.vgroups.built g hg
  obtain ⟨hlen, hvn⟩ := hb.vars
  have h1 : ∀ k ∈ g.numStates, 1 ≤ k := by
    have := hst g hg
    cases g with
    | arr g => exact this.1
    | dict g => exact this
  obtain ⟨i, hi⟩ := List.mem_iff_getElem?.1 hv
  exact h1 _ (List.mem_of_getElem? (hvn i v hi))

omit [Field α] [LinearOrder α] [IsStrictOrderedRing α] in
theorem Compiled.scopes_vars (h : Compiled vgs hist garbage st) : ∀ vs ∈ (graphOf vgs hist).allScopes, ∀ v ∈ vs, v ∈ graphVars vgs := by
  intro vs hvs v hv
  obtain ⟨s, hs⟩ := h.scopeVars _ hvs v hv
  obtain ⟨i, hi, -⟩ := (h.starts_iff v s).1 hs
  exact List.mem_toFinset.2 (List.mem_of_getElem? hi)

theorem EvWithin.nonneg {vars : Finset Var} {ev : Var → Nat → α} {E : Var → α} (hE : EvWithin vars ev E) (hpos : ∀ v ∈ vars, 0 < v.n) : ∀ v ∈ vars, 0 ≤ E v := by
  intro v hv
  have := hE v hv 0 (hpos v hv) 0 (hpos v hv)
  rwa [sub_self] at this

/-- Every state of every variable occurs in some configuration of every factor if this holds for the enumeration factors. -/
theorem Compiled.all_full (h : Compiled vgs hist garbage st) {lp : List α}
    (hfull : ∀ f (F : SFac α), ((graphOf vgs hist).factors lp)[f]? = some F → f < (graphOf vgs hist).tables.length → F.Full) {f : Nat} {F : SFac α}
    (hF : ((graphOf vgs hist).factors lp)[f]? = some F) : F.Full := by
  rcases Nat.lt_or_ge f (graphOf vgs hist).tables.length with hf | hf
  · exact hfull f F hF hf
  · exact h.logical_full lp hF hf

theorem Compiled.within_nonneg (h : Compiled vgs hist garbage st) {lp : List α} (hpos : ∀ v ∈ graphVars vgs, 0 < v.n)
    (hfull : ∀ f (F : SFac α), ((graphOf vgs hist).factors lp)[f]? = some F → f < (graphOf vgs hist).tables.length → F.Full) {P : Nat → α}
    (hP : ∀ f (F : SFac α), ((graphOf vgs hist).factors lp)[f]? = some F → F.Within (P f)) : ∀ f < (graphOf vgs hist).allScopes.length, 0 ≤ P f := by
  have hsc := (graphOf vgs hist).factors_scopes lp
  intro f hf
  have hlen : f < ((graphOf vgs hist).factors lp).length := by
    rw [← hsc, List.length_map] at hf
    exact hf
  have hF := List.getElem?_eq_getElem hlen
  have hmem : (((graphOf vgs hist).factors lp)[f]).scope ∈ (graphOf vgs hist).allScopes := by
    rw [← hsc]
    exact List.mem_map.2 ⟨_, List.getElem_mem hlen, rfl⟩
  have hne := List.length_pos_of_ne_nil (h.scopes_ne _ hmem)
  have hrow := h.all_full hfull hF 0 _ 0 (List.getElem?_eq_getElem hne) (hpos _ (h.scopes_vars _ hmem _ (List.getElem_mem hne)))
  obtain ⟨r, hr⟩ := List.exists_mem_of_ne_nil _ hrow
  have hr := (List.mem_filter.1 hr).1
  have := hP f _ hF r hr r hr
  rwa [sub_self] at this

open Classical in
theorem totalBehind_nonneg {vars : Finset Var} {scopes : List (List Var)} {E : Var → α} {P : Nat → α} (hE : ∀ v ∈ vars, 0 ≤ E v)
    (hP : ∀ f < scopes.length, 0 ≤ P f) (f : Nat) (v : Var) : 0 ≤ totalBehind vars scopes E P f v :=
  add_nonneg (Finset.sum_nonneg fun u hu => hE u (Finset.mem_filter.1 hu).1)
    (Finset.sum_nonneg fun g hg => hP g (Finset.mem_range.1 (Finset.mem_filter.1 hg).1))

open Classical in
/-- The totals behind messages are at most the total of all. -/
theorem totalBehind_le {vars : Finset Var} {scopes : List (List Var)} {E : Var → α} {P : Nat → α} (hE : ∀ v ∈ vars, 0 ≤ E v)
    (hP : ∀ f < scopes.length, 0 ≤ P f) (f : Nat) (v : Var) : totalBehind vars scopes E P f v ≤ ∑ u ∈ vars, E u + ∑ g ∈ Finset.range scopes.length, P g :=
  add_le_add (Finset.sum_le_sum_of_subset_of_nonneg (Finset.filter_subset _ _) fun u hu _ => hE u hu)
    (Finset.sum_le_sum_of_subset_of_nonneg (Finset.filter_subset _ _) fun g hg _ => hP g (Finset.mem_range.1 hg))

/-- The bound for any summaries. -/
theorem Compiled.sum_range (h : Compiled vgs hist garbage st) {lp : List α} {ev : Var → Nat → α} {m0 : Msgs α} (n : Nat) {d : α} (hd : 0 ≤ d ∧ d ≤ 1)
    (htree : (bipartite (graphOf vgs hist).allScopes).IsAcyclic) (hnd : ∀ vs ∈ (graphOf vgs hist).allScopes, vs.Nodup)
    (hpos : ∀ v ∈ graphVars vgs, 0 < v.n)
    (hfull : ∀ f (F : SFac α), ((graphOf vgs hist).factors lp)[f]? = some F → f < (graphOf vgs hist).tables.length → F.Full) {Φ : Nat → List α → α} {Q P : Nat → α} {E : Var → α}
    (hE : EvWithin (graphVars vgs) ev E) (hP : ∀ f (F : SFac α), ((graphOf vgs hist).factors lp)[f]? = some F → F.Within (P f) ∧ 0 ≤ Q f ∧ SpreadWithin (Φ f) F.rows.length (Q f))
    (h0 : ∀ f i v, IsEdge (graphOf vgs hist).allScopes f i v → ∀ s < v.n, ∀ t < v.n, m0 f i s - m0 f i t
      ≤ totalBehind (graphVars vgs) (graphOf vgs hist).allScopes E (fun f => P f + Q f) f v)
    {f i : Nat} {v : Var} (he : IsEdge (graphOf vgs hist).allScopes f i v) :
    ∀ s < v.n, -(totalBehind (graphVars vgs) (graphOf vgs hist).allScopes E (fun f => P f + Q f) f v) ≤ sumRun Φ ((graphOf vgs hist).factors lp) ev d n m0 f i s ∧
      ∀ t < v.n, sumRun Φ ((graphOf vgs hist).factors lp) ev d n m0 f i s - sumRun Φ ((graphOf vgs hist).factors lp) ev d n m0 f i t
        ≤ totalBehind (graphVars vgs) (graphOf vgs hist).allScopes E (fun f => P f + Q f) f v := by
  have hsc := (graphOf vgs hist).factors_scopes lp
  have hmemF : ∀ F ∈ (graphOf vgs hist).factors lp, F.scope ∈ (graphOf vgs hist).allScopes := by
    intro F hF
    rw [← hsc]
    exact List.mem_map.2 ⟨F, hF, rfl⟩
  have hvars := h.scopes_vars
  have hfull' := fun f F (hF : ((graphOf vgs hist).factors lp)[f]? = some F) => h.all_full hfull hF
  rw [← hsc] at he
  refine sumRun_range (fun F hF => ?_) (fun F hF => ?_) (vars := graphVars vgs) (fun F hF => hvars _ (hmemF F hF)) hE (fun f F hF => ⟨(hP f F hF).1, (hP f F hF).2.2⟩) hd ?_ ?_ n he
  · obtain ⟨f, hf⟩ := List.mem_iff_getElem?.1 hF
    exact h.rowsFit lp hf
  · obtain ⟨f, hf⟩ := List.mem_iff_getElem?.1 hF
    exact hfull' f F hf
  · intro f F i v hF hi
    rw [hsc]
    refine totalBehind_inflow htree hnd hvars (hE.nonneg hpos) (fun f hf => ?_) ?_ hi
    · have h1 := h.within_nonneg hpos hfull (fun f F hF => (hP f F hF).1) f hf
      rw [← hsc, List.length_map] at hf
      have h2 := (hP f _ (List.getElem?_eq_getElem hf)).2.1
      linarith
    · rw [← hsc, List.getElem?_map, hF]
      rfl
  · rw [hsc]
    exact h0

/-- **C76, partial, temperature 0.** On an acyclic factor graph, let any two evidence values of variable `v` differ by at most `E v`, and any two log
potentials of factor `f` by at most `P f`, and let every state of every variable of an enumeration factor occur in one of its configurations. Then after any number
of iterations with any damping, the entries of the message of `f` to `v` differ by at most the total `B` of these numbers over the variables and factors behind the
message, and they are at least `-B`, if the initial messages (say zeros) also keep to these bounds.
Missing: numbers that are not moderate (`C76_refuted`); the size limits `Fits`. -/
theorem C76_partial (h : Compiled vgs hist garbage st) {state : BPState α} {bp : BPFun κ α}
    (hbp : BP.create st state 0 = .ok bp) (env : Env α) (hfit : Fits env (graphOf vgs hist) (0 : α)) (a : BPArrays α) (n : Nat) (d : α)
    (hlp : a.logPotentials.length = st.logPotentials.length) (hev : a.evidence.length = st.numVarStates) (hm : a.ftovMsgs.length = st.totalFactorNumStates)
    (hmod : Moderate (graphOf vgs hist) a.logPotentials (readEv st.varsToStarts a.evidence) d)
    (hlmod : LogicalModerate (graphOf vgs hist) (readEv st.varsToStarts a.evidence))
    (hinit : ∀ f i v, IsEdge (graphOf vgs hist).allScopes f i v → ∃ s < v.n, -100000 ≤ readMsgs (graphOf vgs hist).allScopes a.ftovMsgs f i s)
    (htree : (bipartite (graphOf vgs hist).allScopes).IsAcyclic) (hnd : ∀ vs ∈ (graphOf vgs hist).allScopes, vs.Nodup)
    (hpos : ∀ v ∈ graphVars vgs, 0 < v.n)
    (hfull : ∀ f (F : SFac α), ((graphOf vgs hist).factors a.logPotentials)[f]? = some F → f < (graphOf vgs hist).tables.length → F.Full)
    (E : Var → α) (P : Nat → α) (hE : EvWithin (graphVars vgs) (readEv st.varsToStarts a.evidence) E)
    (hP : ∀ f (F : SFac α), ((graphOf vgs hist).factors a.logPotentials)[f]? = some F → F.Within (P f))
    (B : Nat → Var → α) (hB : B = totalBehind (graphVars vgs) (graphOf vgs hist).allScopes E P)
    (h0 : ∀ f i v, IsEdge (graphOf vgs hist).allScopes f i v → ∀ s < v.n, ∀ t < v.n,
      readMsgs (graphOf vgs hist).allScopes a.ftovMsgs f i s - readMsgs (graphOf vgs hist).allScopes a.ftovMsgs f i t ≤ B f v)
    (f i : Nat) (v : Var) (he : IsEdge (graphOf vgs hist).allScopes f i v) (s : Nat) (hs : s < v.n) :
    -(B f v) ≤ readMsgs (graphOf vgs hist).allScopes (bp.runBP env a n d).ftovMsgs f i s ∧
    ∀ t < v.n, readMsgs (graphOf vgs hist).allScopes (bp.runBP env a n d).ftovMsgs f i s
      - readMsgs (graphOf vgs hist).allScopes (bp.runBP env a n d).ftovMsgs f i t ≤ B f v := by
  have htb := C37_partial h hbp env hfit a n d hlp hev hm hmod hlmod hinit
  rw [tbRun_sumRun] at htb
  have e : (fun f => P f + (fun _ => 0) f) = P := by funext f; simp
  have key := h.sum_range (lp := a.logPotentials) (m0 := readMsgs (graphOf vgs hist).allScopes a.ftovMsgs) (Φ := fun _ => maxOf 0) (Q := fun _ => 0) (P := P)
    n hmod.damping htree hnd hpos hfull hE
    (fun f F hF => ⟨hP f F hF, le_rfl, spread_max _⟩) (by rw [e, ← hB]; exact h0) he s hs
  rw [e, ← hB] at key
  rw [htb f i v s he hs]
  refine ⟨key.1, fun t ht => ?_⟩
  rw [htb f i v t he ht]
  exact key.2 t ht

/-- Zero messages. -/
theorem Compiled.zero_msgs (h : Compiled vgs hist garbage st) {ms : List α} (hm : ms = List.replicate st.totalFactorNumStates 0) (hpos : ∀ v ∈ graphVars vgs, 0 < v.n) :
    (∀ f i s, readMsgs (graphOf vgs hist).allScopes ms f i s = 0) ∧ ms.length = st.totalFactorNumStates ∧
    ∀ f i v, IsEdge (graphOf vgs hist).allScopes f i v → ∃ s < v.n, -100000 ≤ readMsgs (graphOf vgs hist).allScopes ms f i s := by
  have hz : ∀ f i s, readMsgs (graphOf vgs hist).allScopes ms f i s = 0 := by
    intro f i s
    unfold readMsgs
    rw [hm, List.getD_eq_getElem?_getD, List.getElem?_replicate]
    split <;> rfl
  refine ⟨hz, by rw [hm, List.length_replicate], ?_⟩
  rintro f i v ⟨vs, h1, h2⟩
  exact ⟨0, hpos v (h.scopes_vars vs (List.mem_of_getElem? h1) v (List.mem_of_getElem? h2)), by rw [hz]; norm_num⟩

/-- **C76, partial, exact MAP decoding.** Hence if these totals are less than 1000 then no message is clipped, and at temperature 0 and with damping 0,
after `n` iterations, where no path from a variable to a factor has more than `n` factors, the beliefs are exact max-marginals up to a constant and
`decode_map_states` returns the state of every variable that has the same state in all MAP assignments. Missing: as in C38. -/
theorem C76_decode_partial [DecidableEq κ] (h : Compiled vgs hist garbage st) {state : BPState α} {bp : BPFun κ α}
    (hbp : BP.create st state 0 = .ok bp) (env : Env α) (hfit : Fits env (graphOf vgs hist) (0 : α)) (a : BPArrays α) (n : Nat)
    (hlp : a.logPotentials.length = st.logPotentials.length) (hev : a.evidence.length = st.numVarStates) (hm : a.ftovMsgs = List.replicate st.totalFactorNumStates 0)
    (hmod : Moderate (graphOf vgs hist) a.logPotentials (readEv st.varsToStarts a.evidence) 0)
    (hlmod : LogicalModerate (graphOf vgs hist) (readEv st.varsToStarts a.evidence))
    (htree : (bipartite (graphOf vgs hist).allScopes).IsAcyclic) (hnd : ∀ vs ∈ (graphOf vgs hist).allScopes, vs.Nodup)
    (hfull : ∀ f (F : SFac α), ((graphOf vgs hist).factors a.logPotentials)[f]? = some F → f < (graphOf vgs hist).tables.length → F.Full)
    (E : Var → α) (P : Nat → α) (hE : EvWithin (graphVars vgs) (readEv st.varsToStarts a.evidence) E)
    (hP : ∀ f (F : SFac α), ((graphOf vgs hist).factors a.logPotentials)[f]? = some F → F.Within (P f))
    (hB : ∀ f i v, IsEdge (graphOf vgs hist).allScopes f i v →
      totalBehind (graphVars vgs) (graphOf vgs hist).allScopes E P f v < 1000)
    (hdist : ∀ v f, (bipartite (graphOf vgs hist).allScopes).dist (.inl v) (.inr f) < 2 * n) (hreg : ∀ g ∈ vgs, g.Regular) (hst : ∀ g ∈ vgs, g.Stated) :
    (∀ v ∈ graphVars vgs, ∃ c start, st.varsToStarts v = some start ∧
      IsMaxMarginal (graphVars vgs) ((graphOf vgs hist).factors a.logPotentials) (readEv st.varsToStarts a.evidence) v
        (fun s => (bp.flatBeliefs (bp.runBP env a n 0)).getD (start + s) 0 + c)) ∧
    ∃ bs rs, bp.getBeliefs (bp.runBP env a n 0) = .ok bs ∧ decodeMapStates bs = .ok rs ∧ rs.map (·.1) = vgs ∧
      ∀ x ρ, IsMAP (graphVars vgs) ((graphOf vgs hist).factors a.logPotentials) (readEv st.varsToStarts a.evidence) x ρ → ∀ p ∈ rs, ∀ v ∈ p.1.variables,
        (∀ x' ρ', IsMAP (graphVars vgs) ((graphOf vgs hist).factors a.logPotentials) (readEv st.varsToStarts a.evidence) x' ρ' → x' v = x v) →
        p.1.StateIn v (x v) p.2 := by
  have hpos := h.states_pos hst
  obtain ⟨hz, hlen, hinit⟩ := h.zero_msgs hm hpos
  refine C38_decode_dist_partial h hbp env hfit a n hlp hev hlen hmod hlmod hinit htree hnd ?_ hdist hreg hst
  intro f i v s he hs
  have := (C76_partial h hbp env hfit a n 0 hlp hev hlen hmod hlmod hinit htree hnd hpos hfull E P hE hP _ rfl (fun f i v _ s _ t _ => by
    rw [hz, hz, sub_zero]
    exact totalBehind_nonneg (hE.nonneg hpos) (h.within_nonneg hpos hfull hP) f v) f i v he s hs).1
  have := hB f i v he
  linarith

end
end

section
variable {κ : Type _} {vgs : List (VGroup κ)} {hist : List (AddArg ℝ)} {garbage : Garbage} {st : FGState κ ℝ}

/-- Log-sums are between the largest summand and that plus the logarithm of their number. -/
theorem lse_range {T : ℝ} (hT : 0 < T) {l : List ℝ} (hl : l ≠ []) : maxOf 0 l ≤ lse T l ∧ lse T l ≤ maxOf 0 l + T * Real.log l.length := by
  refine ⟨(lse_max hT hl).1, ?_⟩
  obtain ⟨h1, h2⟩ := maxOf_spec 0 l hl
  have hlen : (0 : ℝ) < l.length := by exact_mod_cast List.length_pos_of_ne_nil hl
  have hle : (l.map (fun x => Real.exp (x / T))).sum ≤ l.length * Real.exp (maxOf 0 l / T) := by
    have := List.sum_le_card_nsmul (l.map (fun x => Real.exp (x / T))) (Real.exp (maxOf 0 l / T)) (by
      intro y hy
      obtain ⟨x, hx, rfl⟩ := List.mem_map.1 hy
      exact Real.exp_le_exp.2 (div_le_div_of_nonneg_right (h2 x hx) hT.le))
    rwa [List.length_map, nsmul_eq_mul] at this
  have hpos : 0 < (l.map (fun x => Real.exp (x / T))).sum :=
    lt_of_lt_of_le (Real.exp_pos _) (List.single_le_sum (by
      intro y hy
      obtain ⟨x, -, rfl⟩ := List.mem_map.1 hy
      exact (Real.exp_pos _).le) _ (List.mem_map.2 ⟨_, h1, rfl⟩))
  have := mul_le_mul_of_nonneg_left (Real.log_le_log hpos hle) hT.le
  rw [Real.log_mul hlen.ne' (Real.exp_pos _).ne', Real.log_exp, mul_add, mul_div_cancel₀ _ hT.ne'] at this
  unfold lse
  linarith

theorem spread_code (tables : Nat) {T : ℝ} (hT : 0 < T) (f N : Nat) {Q : ℝ} (hQ : T * (Real.log N + Real.exp (-100000)) ≤ Q) :
    SpreadWithin (codeSummary tables T f) N Q := by
  intro l l' hl hl' hN _ c h
  have h1 := (codeSummary_bounds tables hT f hl).2
  have h2 := (codeSummary_bounds tables hT f hl').1
  have h3 := (lse_range hT hl).2
  have h4 := (lse_range hT hl').1
  have h5 := h _ (maxOf_spec 0 l hl).1 _ (maxOf_spec 0 l' hl').1
  have hlen : (0 : ℝ) < l.length := by exact_mod_cast List.length_pos_of_ne_nil hl
  have h6 := mul_le_mul_of_nonneg_left (Real.log_le_log hlen (show (l.length : ℝ) ≤ N by exact_mod_cast hN)) hT.le
  have h7 : (if f < tables then T * Real.exp (-100000) else 0) ≤ T * Real.exp (-100000) := by
    split
    · exact le_rfl
    · positivity
  linarith

/-- **C76, partial, positive temperatures.** The same holds at any temperature `T > 0` if `T (log N + exp (-1e5))` is added for every factor with `N` configurations. -/
theorem C76_sum_partial (h : Compiled vgs hist garbage st) {state : BPState ℝ} {bp : BPFun κ ℝ} {T : ℝ} (hT : 0 < T) (hbp : BP.create st state T = .ok bp)
    (env : Env ℝ) (hexp : env.exp = Real.exp) (hlog : env.log = Real.log) (hfit : Fits env (graphOf vgs hist) T) (a : BPArrays ℝ) (n : Nat) (d : ℝ)
    (hlp : a.logPotentials.length = st.logPotentials.length) (hev : a.evidence.length = st.numVarStates) (hm : a.ftovMsgs.length = st.totalFactorNumStates)
    (hmod : Moderate (graphOf vgs hist) a.logPotentials (readEv st.varsToStarts a.evidence) d)
    (hinit : ∀ f i v, IsEdge (graphOf vgs hist).allScopes f i v → ∃ s < v.n, -100000 ≤ readMsgs (graphOf vgs hist).allScopes a.ftovMsgs f i s)
    (htree : (bipartite (graphOf vgs hist).allScopes).IsAcyclic) (hnd : ∀ vs ∈ (graphOf vgs hist).allScopes, vs.Nodup)
    (hpos : ∀ v ∈ graphVars vgs, 0 < v.n)
    (hfull : ∀ f (F : SFac ℝ), ((graphOf vgs hist).factors a.logPotentials)[f]? = some F → f < (graphOf vgs hist).tables.length → F.Full)
    (E : Var → ℝ) (P Q : Nat → ℝ) (hE : EvWithin (graphVars vgs) (readEv st.varsToStarts a.evidence) E)
    (hP : ∀ f (F : SFac ℝ), ((graphOf vgs hist).factors a.logPotentials)[f]? = some F → F.Within (P f) ∧ Q f = T * (Real.log F.rows.length + Real.exp (-100000)))
    (B : Nat → Var → ℝ) (hB : B = totalBehind (graphVars vgs) (graphOf vgs hist).allScopes E (fun f => P f + Q f))
    (h0 : ∀ f i v, IsEdge (graphOf vgs hist).allScopes f i v → ∀ s < v.n, ∀ t < v.n,
      readMsgs (graphOf vgs hist).allScopes a.ftovMsgs f i s - readMsgs (graphOf vgs hist).allScopes a.ftovMsgs f i t ≤ B f v)
    (f i : Nat) (v : Var) (he : IsEdge (graphOf vgs hist).allScopes f i v) (s : Nat) (hs : s < v.n) :
    -(B f v) ≤ readMsgs (graphOf vgs hist).allScopes (bp.runBP env a n d).ftovMsgs f i s ∧
    ∀ t < v.n, readMsgs (graphOf vgs hist).allScopes (bp.runBP env a n d).ftovMsgs f i s
      - readMsgs (graphOf vgs hist).allScopes (bp.runBP env a n d).ftovMsgs f i t ≤ B f v := by
  have htb := h.run_sum hT hbp env hexp hlog hfit a n d hlp hev hm hmod hinit
  have key := h.sum_range (lp := a.logPotentials) (m0 := readMsgs (graphOf vgs hist).allScopes a.ftovMsgs)
    (Φ := codeSummary (graphOf vgs hist).tables.length T) (Q := Q) (P := P) n hmod.damping htree hnd hpos hfull hE
    (fun f F hF => ⟨(hP f F hF).1, by
      rw [(hP f F hF).2]
      exact mul_nonneg hT.le (add_nonneg (Real.log_natCast_nonneg _) (Real.exp_pos _).le), spread_code _ hT f _ (hP f F hF).2.ge⟩) (by rw [← hB]; exact h0) he s hs
  rw [← hB] at key
  rw [htb f i v s he hs]
  refine ⟨key.1, fun t ht => ?_⟩
  rw [htb f i v t he ht]
  exact key.2 t ht

/-- **C76, partial, exact marginals.** Hence if these totals are less than 1000 then no message is clipped, and `get_marginals` at temperature 1 and with damping 0
after as many iterations as there are factors reports the probabilities of all states of all variables as in C55. Missing: as in C55. -/
theorem C76_marginals_partial [DecidableEq κ] (h : Compiled vgs hist garbage st) {state : BPState ℝ} {bp : BPFun κ ℝ}
    (hbp : BP.create st state 1 = .ok bp) (env : Env ℝ) (hexp : env.exp = Real.exp) (hlog : env.log = Real.log)
    (hfit : Fits env (graphOf vgs hist) (1 : ℝ)) (a : BPArrays ℝ) (n : Nat)
    (hlp : a.logPotentials.length = st.logPotentials.length) (hev : a.evidence.length = st.numVarStates) (hm : a.ftovMsgs = List.replicate st.totalFactorNumStates 0)
    (hmod : Moderate (graphOf vgs hist) a.logPotentials (readEv st.varsToStarts a.evidence) 0)
    (htree : (bipartite (graphOf vgs hist).allScopes).IsAcyclic) (hnd : ∀ vs ∈ (graphOf vgs hist).allScopes, vs.Nodup)
    (hfull : ∀ f (F : SFac ℝ), ((graphOf vgs hist).factors a.logPotentials)[f]? = some F → f < (graphOf vgs hist).tables.length → F.Full)
    (E : Var → ℝ) (R Q : Nat → ℝ) (hE : EvWithin (graphVars vgs) (readEv st.varsToStarts a.evidence) E)
    (hR : ∀ f (F : SFac ℝ), ((graphOf vgs hist).factors a.logPotentials)[f]? = some F → F.Within (R f) ∧ Q f = Real.log F.rows.length + Real.exp (-100000))
    (hB : ∀ f i v, IsEdge (graphOf vgs hist).allScopes f i v →
      totalBehind (graphVars vgs) (graphOf vgs hist).allScopes E (fun f => R f + Q f) f v < 1000)
    (hn : 0 < n ∧ (graphOf vgs hist).allScopes.length ≤ n) (hreg : ∀ g ∈ vgs, g.Regular) (hst : ∀ g ∈ vgs, g.Stated)
    (P : Var → Nat → ℝ) (hP : ∀ v s, P v s = stateWeight 1 (graphVars vgs) ((graphOf vgs hist).factors a.logPotentials) (readEv st.varsToStarts a.evidence) v s
      / totalWeight 1 (graphVars vgs) ((graphOf vgs hist).factors a.logPotentials) (readEv st.varsToStarts a.evidence))
    (ε : ℝ) (hε : ε = (graphOf vgs hist).tables.length * Real.exp (-100000)) :
    ∃ bs rs B, bp.getBeliefs (bp.runBP env a n 0) = .ok bs ∧ getMarginals env bs = .ok rs ∧ rs.map (·.1) = vgs ∧
      (∀ p ∈ rs, p.1.HasMarginals B p.2) ∧ ∀ v ∈ graphVars vgs, ∀ s < v.n,
        0 < P v s ∧ Real.exp (-ε) * P v s ≤ gibbs (B v) v.n s ∧ gibbs (B v) v.n s ≤ Real.exp ε * P v s := by
  have hpos := h.states_pos hst
  obtain ⟨hz, hlen, hinit⟩ := h.zero_msgs hm hpos
  refine C55_marginals_partial h hbp env hexp hlog hfit a n hlp hev hlen hmod hinit htree hnd ?_ hn hreg hst P hP ε hε
  intro f i v s he hs
  have hR' : ∀ f (F : SFac ℝ), ((graphOf vgs hist).factors a.logPotentials)[f]? = some F →
      F.Within (R f) ∧ Q f = 1 * (Real.log F.rows.length + Real.exp (-100000)) := by
    intro f F hF
    rw [one_mul]
    exact hR f F hF
  have := (C76_sum_partial h one_pos hbp env hexp hlog hfit a n 0 hlp hev hlen hmod hinit htree hnd hpos hfull E R Q hE hR' _ rfl (fun f i v _ s _ t _ => by
    rw [hz, hz, sub_zero]
    refine totalBehind_nonneg (hE.nonneg hpos) (fun f hf => ?_) f v
    have h1 := h.within_nonneg hpos hfull (fun f F hF => (hR f F hF).1) f hf
    rw [← (graphOf vgs hist).factors_scopes a.logPotentials, List.length_map] at hf
    have h2 := (hR f _ (List.getElem?_eq_getElem hf)).2
    have h3 := Real.log_natCast_nonneg (((graphOf vgs hist).factors a.logPotentials)[f].rows.length)
    have h4 := Real.exp_pos (-100000)
    linarith) f i v he s hs).1
  have := hB f i v he
  linarith

end

/-! ## Refutation and non-vacuity -/

open Classical in
/-- **C76 does not hold in general.** In the graph `exHist3` (two variables and a factor with log potentials 0), with evidence -2e5 for all states of the second
variable and `0, 5` for the first, the message to the first variable is `[0, -5]`, although all behind it has range 0. -/
theorem C76_refuted : (bipartite (graphOf exVars3 exHist3).allScopes).IsAcyclic ∧
    EvWithin (graphVars exVars3) (readEv exState3.varsToStarts [0, 5, -200000, -200000, -200000]) (fun v => if v.n = 2 then (5 : ℚ) else 0) ∧
    (∀ (f : Nat) (F : SFac ℚ), ((graphOf exVars3 exHist3).factors [0, 0, 0])[f]? = some F → F.Full ∧ F.Within 0) ∧
    totalBehind (graphVars exVars3) (graphOf exVars3 exHist3).allScopes (fun v => if v.n = 2 then (5 : ℚ) else 0) (fun _ => 0) 0 ⟨1000000000, 2⟩ = 0 ∧
    (exBP3.runBP exEnv ⟨[0, 0, 0], [0, 0, 0, 0, 0], [0, 5, -200000, -200000, -200000]⟩ 1 0).ftovMsgs.take 2 = [0, -5] := by
  have hF : (graphOf exVars3 exHist3).factors ([0, 0, 0] : List ℚ) = [⟨[⟨1000000000, 2⟩, ⟨1000000001, 3⟩], [([0, 0], 0), ([0, 2], 0), ([1, 1], 0)]⟩] := rfl
  have hV : graphVars exVars3 = {⟨1000000000, 2⟩, ⟨1000000001, 3⟩} := rfl
  refine ⟨exTree3, ?_, ?_, ?_, by decide +kernel⟩
  · unfold EvWithin
    rw [hV]
    decide +kernel
  · intro f F hf
    rw [hF] at hf
    match f, hf with
    | 0, hf =>
      cases hf
      constructor
      · intro i v s hi hs
        match i, hi with
        | 0, hi =>
          cases hi
          interval_cases s <;> decide +kernel
        | 1, hi =>
          cases hi
          interval_cases s <;> decide +kernel
      · unfold SFac.Within
        decide +kernel
  · unfold totalBehind
    rw [Finset.sum_const_zero, add_zero]
    refine Finset.sum_eq_zero fun u hu => ?_
    obtain ⟨h1, h2, h3⟩ := Finset.mem_filter.1 hu
    rw [hV, Finset.mem_insert, Finset.mem_singleton] at h1
    rcases h1 with rfl | rfl
    · rw [SimpleGraph.dist_self] at h3
      omega
    · rfl

/-- Non-vacuity: on the tree `exHist5` of C38, the totals are at most 8 (three for the evidence of the first variable, one for the second and third,
two for the fourth, two for the enumeration factor and none for the OR), so `C76_decode_partial` applies to it. -/
theorem exRange5 : EvWithin (graphVars exVars5) (readEv exState5.varsToStarts [3, 0, 0, 1, 1, 0, 0, 2])
      (fun v => if v = exVar5 0 then (3 : ℚ) else if v = exVar5 3 then 2 else 1) ∧
    (∀ f (F : SFac ℚ), ((graphOf exVars5 exHist5).factors [0, 1, 2])[f]? = some F → F.Within (if f = 0 then 2 else 0)) ∧
    (∀ f (F : SFac ℚ), ((graphOf exVars5 exHist5).factors [0, 1, 2])[f]? = some F → f < (graphOf exVars5 exHist5).tables.length → F.Full) ∧
    ∀ f v, totalBehind (graphVars exVars5) (graphOf exVars5 exHist5).allScopes (fun v => if v = exVar5 0 then (3 : ℚ) else if v = exVar5 3 then 2 else 1)
      (fun f => if f = 0 then 2 else 0) f v < 1000 := by
  have hF : (graphOf exVars5 exHist5).factors ([0, 1, 2] : List ℚ) = [⟨[exVar5 0, exVar5 1], [([0, 0], 0), ([0, 1], 1), ([1, 1], 2)]⟩,
    ⟨[exVar5 1, exVar5 2, exVar5 3], [([0, 0, 0], 0), ([1, 0, 1], 0), ([0, 1, 1], 0), ([1, 1, 1], 0)]⟩] := rfl
  have hV : graphVars exVars5 = {exVar5 0, exVar5 1, exVar5 2, exVar5 3} := rfl
  have hE : EvWithin (graphVars exVars5) (readEv exState5.varsToStarts [3, 0, 0, 1, 1, 0, 0, 2])
      (fun v => if v = exVar5 0 then (3 : ℚ) else if v = exVar5 3 then 2 else 1) := by
    unfold EvWithin
    rw [hV]
    decide +kernel
  refine ⟨hE, ?_, ?_, ?_⟩
  · intro f F hf
    rw [hF] at hf
    match f, hf with
    | 0, hf => cases hf; unfold SFac.Within; decide +kernel
    | 1, hf => cases hf; unfold SFac.Within; decide +kernel
  · intro f F hf hlt
    rw [hF] at hf
    have e : (graphOf exVars5 exHist5).tables.length = 1 := rfl
    obtain rfl : f = 0 := by omega
    cases hf
    intro i v s hi hs
    match i, hi with
    | 0, hi =>
      cases hi
      simp only [exVar5] at hs
      interval_cases s <;> decide +kernel
    | 1, hi =>
      cases hi
      simp only [exVar5] at hs
      interval_cases s <;> decide +kernel
  · intro f v
    refine lt_of_le_of_lt (totalBehind_le (hE.nonneg (by rw [hV]; decide)) ?_ f v) ?_
    · intro f _
      split <;> norm_num
    · rw [hV]
      decide +kernel

example : exBP5.st = exState5 ∧ ∃ bs rs, exBP5.getBeliefs (exBP5.runBP exEnv ⟨[0, 1, 2], List.replicate 10 0, [3, 0, 0, 1, 1, 0, 0, 2]⟩ 2 0) = .ok bs ∧
    decodeMapStates bs = .ok rs ∧ rs.map (·.1) = exVars5 := by
  refine ⟨rfl, ?_⟩
  obtain ⟨h1, h2, h3, h4, h5, h6, -, h8, h9, h10, -⟩ := exTree5_ok
  obtain ⟨e1, e2, e3, e4⟩ := exRange5
  obtain ⟨-, bs, rs, r1, r2, r3, -⟩ := C76_decode_partial exState5_compiled exBP5_create exEnv h1 ⟨[0, 1, 2], List.replicate 10 0, [3, 0, 0, 1, 1, 0, 0, 2]⟩ 2
    rfl rfl rfl h2 h3 h5 h6 e3 _ _ e1 e2 (fun f _ v _ => e4 f v)
    (fun v f => lt_of_lt_of_le (dist_lt_factors v f (by decide +kernel)) (by have := h8; omega)) h9 h10
  exact ⟨bs, rs, r1, r2, r3⟩

/-- Non-vacuity at positive temperatures: the chain `exHistT` of C55, with evidence and log potentials that differ by at most 3. -/
example {env : Env ℝ} (hexp : env.exp = Real.exp) (hlog : env.log = Real.log) (hw : env.wrapNeg = false) :
    ∃ bs rs, (exBPT 1).getBeliefs ((exBPT 1).runBP env ⟨exLpT, List.replicate 8 0, exEvT⟩ 2 0) = .ok bs ∧ getMarginals env bs = .ok rs := by
  have hF : (graphOf exVars exHistT).factors exLpT = [⟨[exVar 0, exVar 1], [([0, 0], 0), ([0, 1], 1), ([1, 0], 2), ([1, 1], 0)]⟩,
    ⟨[exVar 1, exVar 2], [([0, 0], 3), ([0, 1], 0), ([1, 0], 1), ([1, 1], 1)]⟩] := rfl
  have hV : graphVars exVars = {exVar 0, exVar 1, exVar 2} := rfl
  have hE : EvWithin (graphVars exVars) (readEv exStateT.varsToStarts exEvT) (fun _ => 3) := by
    have hb : ∀ v s, 0 ≤ readEv exStateT.varsToStarts exEvT v s ∧ readEv exStateT.varsToStarts exEvT v s ≤ 3 := by
      intro v s
      unfold readEv List.getD
      cases e : exEvT[(exStateT.varsToStarts v).getD 0 + s]? with
      | none => norm_num
      | some x =>
        have hl : ∀ x ∈ exEvT, 0 ≤ x ∧ x ≤ 3 := by
          simp only [exEvT, List.forall_mem_cons]
          norm_num
        exact hl x (List.mem_of_getElem? e)
    intro v _ s _ t _
    linarith [(hb v s).2, (hb v t).1]
  have hR : ∀ (f : Nat) (F : SFac ℝ), ((graphOf exVars exHistT).factors exLpT)[f]? = some F →
      F.Within ((fun _ => 3) f) ∧ (fun _ => Real.log (4 : Nat) + Real.exp (-100000)) f = Real.log F.rows.length + Real.exp (-100000) := by
    intro f F hf
    rw [hF] at hf
    match f, hf with
    | 0, hf =>
      cases hf
      refine ⟨?_, rfl⟩
      unfold SFac.Within
      simp only [List.forall_mem_cons]
      norm_num
    | 1, hf =>
      cases hf
      refine ⟨?_, rfl⟩
      unfold SFac.Within
      simp only [List.forall_mem_cons]
      norm_num
  obtain ⟨bs, rs, -, h1, h2, -⟩ := C76_marginals_partial exStateT_compiled (exBPT_create 1) env hexp hlog (exFitsT hw one_ne_zero) ⟨exLpT, List.replicate 8 0, exEvT⟩ 2 rfl rfl rfl
    (exModerateT (by norm_num)) exTreeT (by rw [exScopesT]; decide +kernel) (by
      intro f F hf _
      rw [show ((⟨exLpT, List.replicate 8 0, exEvT⟩ : BPArrays ℝ)).logPotentials = exLpT from rfl, hF] at hf
      have key : ∀ (v w : Var) (a b c d : ℝ), v.n = 2 → w.n = 2 → SFac.Full ⟨[v, w], [([0, 0], a), ([0, 1], b), ([1, 0], c), ([1, 1], d)]⟩ := by
        intro v w a b c d hv hw i u s hi hs
        unfold SFac.rowsAt
        match i, hi with
        | 0, hi =>
          cases hi
          rw [hv] at hs
          interval_cases s <;> simp
        | 1, hi =>
          cases hi
          rw [hw] at hs
          interval_cases s <;> simp
      match f, hf with
      | 0, hf => cases hf; exact key _ _ _ _ _ _ rfl rfl
      | 1, hf => cases hf; exact key _ _ _ _ _ _ rfl rfl) (fun _ => 3) (fun _ => 3) (fun _ => Real.log (4 : Nat) + Real.exp (-100000)) hE hR (by
      intro f i v _
      have h3 := Real.log_natCast_nonneg 4
      have h4 := Real.exp_pos (-100000)
      have h5 : Real.log (4 : Nat) ≤ 4 := by
        have := Real.log_le_sub_one_of_pos (show (0 : ℝ) < (4 : Nat) by norm_num)
        norm_num at this ⊢
        linarith
      have h6 : Real.exp (-100000) ≤ 1 := Real.exp_le_one_iff.2 (by norm_num)
      refine lt_of_le_of_lt (totalBehind_le (fun _ _ => by norm_num) (fun _ _ => by linarith) f v) ?_
      rw [hV, exScopesT]
      simp only [Finset.sum_const, nsmul_eq_mul]
      rw [show ({exVar 0, exVar 1, exVar 2} : Finset Var).card = 3 from rfl]
      simp only [List.length_cons, List.length_nil, Finset.card_range]
      norm_num at h5 ⊢
      linarith) ⟨by omega, by rw [exScopesT]; decide⟩ exStatedT.1 exStatedT.2 _ (fun _ _ => rfl) _ rfl
  exact ⟨bs, rs, h1, h2⟩

end PGMax
