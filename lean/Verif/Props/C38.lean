import Verif.Lemmas.Forest
import Verif.Lemmas.Example5
import Verif.Props.C37

/-! # C38: belief propagation is exact on trees -/

namespace PGMax

variable {κ α : Type _} {vgs : List (VGroup κ)} {hist : List (AddArg α)} {garbage : Garbage} {st : FGState κ α}

theorem Compiled.scopes_ne (h : Compiled vgs hist garbage st) : ∀ vs ∈ (graphOf vgs hist).allScopes, vs ≠ [] := by
  intro vs hvs
  obtain ⟨t, -, hvs⟩ := List.mem_flatMap.1 hvs
  obtain ⟨g, hg, hvs⟩ := List.mem_flatMap.1 hvs
  obtain ⟨e, hv⟩ := h.fgValid t g hg
  by_cases ht : g.ftype = .enum
  · have h1 := (hv.enumOk ht).width vs hvs
    have h2 := (hv.enumOk ht).cols
    intro h0
    rw [h0] at h1
    simp at h1
    omega
  · have := ((hv.logicalOk ht).2 vs hvs).1
    intro h0
    rw [h0] at this
    simp at this

theorem mem_graphVars {v : Var} : v ∈ graphVars vgs ↔ ∃ g ∈ vgs, v ∈ g.variables := by
  unfold graphVars
  rw [List.mem_toFinset, List.mem_flatMap]

section
variable [Field α] [LinearOrder α] [IsStrictOrderedRing α]

/-- Textbook belief propagation is exact on forests. -/
theorem tbRun_exact {factors : List (SFac α)} (hG : (bipartite (factors.map (·.scope))).IsAcyclic) (hnd : ∀ F ∈ factors, F.scope.Nodup)
    (hne : ∀ F ∈ factors, F.scope ≠ []) (hrow : ∀ F ∈ factors, ∀ r ∈ F.rows, List.Forall₂ (fun s (v : Var) => s < v.n) r.1 F.scope)
    {vars : Finset Var} (hvars : ∀ F ∈ factors, ∀ v ∈ F.scope, v ∈ vars) (hpos : ∀ v ∈ vars, 0 < v.n) (ev : Var → Nat → α) (m0 : Msgs α) (n : Nat)
    (hclip : ∀ f i v s, IsEdge (factors.map (·.scope)) f i v → s < v.n → -1000 < tbRun factors ev 0 n m0 f i s) {r : Var} (hr : r ∈ vars)
    (hn : ∀ f, (bipartite (factors.map (·.scope))).dist (.inl r) (.inr f) < 2 * n)
    (hother : ∀ v f, ¬(bipartite (factors.map (·.scope))).Reachable (.inl r) (.inl v) → (bipartite (factors.map (·.scope))).dist (.inl v) (.inr f) < 2 * n) :
    ∃ c, IsMaxMarginal vars factors ev r (fun s => beliefOf (factors.map (·.scope)) ev (tbRun factors ev 0 n m0) r s + c) := by
  obtain ⟨hR, hroot, hht⟩ := rootedForest hG (by simpa using hnd) (by simpa using hne) r n hn hother
  have hrow' : ∀ (f : Nat) (F : SFac α), factors[f]? = some F → ∀ r ∈ F.rows, List.Forall₂ (fun s (v : Var) => s < v.n) r.1 F.scope :=
    fun f F hF => hrow F (List.mem_of_getElem? hF)
  obtain ⟨K, hK⟩ := hR.fixedUp hrow' ev m0 n (by simpa using hht) (fun f v s he hs => hclip f _ v s he hs)
  refine hR.exact ?_ hpos hrow' hK hr hroot
  rintro f j v ⟨vs, h1, h2⟩
  rw [List.getElem?_map] at h1
  obtain ⟨F, hF, rfl⟩ := Option.map_eq_some_iff.1 h1
  exact hvars F (List.mem_of_getElem? hF) v (List.mem_of_getElem? h2)

/-- **C38 (1), partial.** On an acyclic factor graph (a tree, or several), at temperature 0 and with damping 0, if no message is
clipped, the beliefs of variable `r` after `n` iterations are its exact max-marginals up to a constant, provided no path from `r` to a factor
(or from a variable to a factor in another tree) has more than `n` factors.
Missing: numbers that are not moderate, where the code's constant -1e5 does not act as minus infinity (`C38_refuted`); the size limits `Fits`. -/
theorem C38_partial (h : Compiled vgs hist garbage st) {state : BPState α} {bp : BPFun κ α}
    (hbp : BP.create st state 0 = .ok bp) (env : Env α) (hfit : Fits env (graphOf vgs hist) (0 : α)) (a : BPArrays α) (n : Nat)
    (hlp : a.logPotentials.length = st.logPotentials.length) (hev : a.evidence.length = st.numVarStates) (hm : a.ftovMsgs.length = st.totalFactorNumStates)
    (hmod : Moderate (graphOf vgs hist) a.logPotentials (readEv st.varsToStarts a.evidence) 0)
    (hlmod : LogicalModerate (graphOf vgs hist) (readEv st.varsToStarts a.evidence))
    (hinit : ∀ f i v, IsEdge (graphOf vgs hist).allScopes f i v → ∃ s < v.n, -100000 ≤ readMsgs (graphOf vgs hist).allScopes a.ftovMsgs f i s)
    (htree : (bipartite (graphOf vgs hist).allScopes).IsAcyclic) (hnd : ∀ vs ∈ (graphOf vgs hist).allScopes, vs.Nodup)
    (hpos : ∀ v ∈ graphVars vgs, 0 < v.n)
    (hclip : ∀ f i v s, IsEdge (graphOf vgs hist).allScopes f i v → s < v.n → -1000 < readMsgs (graphOf vgs hist).allScopes (bp.runBP env a n 0).ftovMsgs f i s)
    (r : Var) (hr : r ∈ graphVars vgs) (hn : ∀ f, (bipartite (graphOf vgs hist).allScopes).dist (.inl r) (.inr f) < 2 * n)
    (hother : ∀ v f, ¬(bipartite (graphOf vgs hist).allScopes).Reachable (.inl r) (.inl v) → (bipartite (graphOf vgs hist).allScopes).dist (.inl v) (.inr f) < 2 * n) :
    ∃ c start, st.varsToStarts r = some start ∧
      IsMaxMarginal (graphVars vgs) ((graphOf vgs hist).factors a.logPotentials) (readEv st.varsToStarts a.evidence) r
        (fun s => (bp.flatBeliefs (bp.runBP env a n 0)).getD (start + s) 0 + c) := by
  have htb := C37_partial h hbp env hfit a n 0 hlp hev hm hmod hlmod hinit
  have hsc := (graphOf vgs hist).factors_scopes a.logPotentials
  have hmemF : ∀ F ∈ (graphOf vgs hist).factors a.logPotentials, F.scope ∈ (graphOf vgs hist).allScopes := by
    intro F hF
    rw [← hsc]
    exact List.mem_map.2 ⟨F, hF, rfl⟩
  obtain ⟨c, hc⟩ := tbRun_exact (factors := (graphOf vgs hist).factors a.logPotentials) (by rw [hsc]; exact htree) (fun F hF => hnd _ (hmemF F hF))
    (fun F hF => h.scopes_ne _ (hmemF F hF))
    (fun F hF => by
      obtain ⟨f, hf⟩ := List.mem_iff_getElem?.1 hF
      exact h.rowsFit a.logPotentials hf)
    (vars := graphVars vgs)
    (fun F hF v hv => by
      obtain ⟨s, hs⟩ := h.scopeVars _ (hmemF F hF) v hv
      obtain ⟨i, hi, -⟩ := (h.starts_iff v s).1 hs
      exact List.mem_toFinset.2 (List.mem_of_getElem? hi))
    hpos (readEv st.varsToStarts a.evidence) (readMsgs (graphOf vgs hist).allScopes a.ftovMsgs) n
    (fun f i v s he hs => by
      rw [hsc] at he
      rw [← htb f i v s he hs]
      exact hclip f i v s he hs) hr (by rw [hsc]; exact hn) (by rw [hsc]; exact hother)
  obtain ⟨g, hg, hv⟩ := mem_graphVars.1 hr
  obtain ⟨start, hstart⟩ := h.mem_starts hg hv
  refine ⟨c, start, hstart, ?_⟩
  intro s hs
  have hl := (h.run_read hbp env hfit a 0 hlp hev n hm).1
  have hb : (bp.flatBeliefs (bp.runBP env a n 0)).getD (start + s) 0 = beliefOf (graphOf vgs hist).allScopes (readEv st.varsToStarts a.evidence)
      (tbRun ((graphOf vgs hist).factors a.logPotentials) (readEv st.varsToStarts a.evidence) 0 n (readMsgs (graphOf vgs hist).allScopes a.ftovMsgs)) r s := by
    rw [getD_of_some (C34_flat h hbp _ hl hev r start hstart s hs)]
    unfold beliefOf
    congr 2
    apply List.map_congr_left
    intro e he
    exact htb e.1 e.2 r s ((mem_edgesOf _ _ _ _).1 he) hs
  have := hc s hs
  rw [hsc] at this
  show IsGreatest _ ((bp.flatBeliefs (bp.runBP env a n 0)).getD (start + s) 0 + c)
  rw [hb]
  exact this

omit [IsStrictOrderedRing α] in
/-- In an unclipped max-marginal, the state of a variable in the MAP assignments, if unique, is the only maximiser. -/
theorem IsMaxMarginal.firstMax [IsOrderedAddMonoid α] {vars : Finset Var} {factors : List (SFac α)} {ev : Var → Nat → α} {v : Var} {M : Nat → α} (c : α)
    (hM : IsMaxMarginal vars factors ev v (fun s => M s + c)) (hv : v ∈ vars) {x : Var → Nat} {ρ : Nat → List Nat × α} (hx : IsMAP vars factors ev x ρ)
    (huniq : ∀ x' ρ', IsMAP vars factors ev x' ρ' → x' v = x v) : IsFirstMax M v.n (x v) := by
  have hlt := hx.1.states v hv
  have h0 : jointScore vars factors ev x ρ ≤ M (x v) + c := (hM _ hlt).2 ⟨x, ρ, hx.1, rfl, rfl⟩
  have key : ∀ s < v.n, s ≠ x v → M s < M (x v) := by
    intro s hs hne
    obtain ⟨x', ρ', hJ, hs', he⟩ := (hM s hs).1
    simp only at he
    by_contra hle
    have h1 := hx.2 x' ρ' hJ
    have h2 : M (x v) + c ≤ M s + c := by gcongr; exact not_lt.1 hle
    refine hne (hs' ▸ huniq x' ρ' ⟨hJ, fun x'' ρ'' h'' => ?_⟩)
    exact (hx.2 x'' ρ'' h'').trans (h0.trans (h2.trans he.le))
  refine ⟨hlt, ?_, fun s hs => key s (by omega) (by omega)⟩
  intro s hs
  by_cases hne : s = x v
  · rw [hne]
  · exact (key s hs hne).le

/-- **C38 (2), partial.** On an acyclic factor graph, at temperature 0 and with damping 0, after `n` iterations, where no path from a variable
to a factor has more than `n` factors, and if no message is clipped, the beliefs of all variables are their exact max-marginals up to a
constant, and for every MAP assignment, `decode_map_states` returns the state of every variable that has the same state in all MAP
assignments. Missing: as in (1), and the variable groups for which `decode_map_states` fails (C35). -/
theorem C38_decode_dist_partial [DecidableEq κ] (h : Compiled vgs hist garbage st) {state : BPState α} {bp : BPFun κ α}
    (hbp : BP.create st state 0 = .ok bp) (env : Env α) (hfit : Fits env (graphOf vgs hist) (0 : α)) (a : BPArrays α) (n : Nat)
    (hlp : a.logPotentials.length = st.logPotentials.length) (hev : a.evidence.length = st.numVarStates) (hm : a.ftovMsgs.length = st.totalFactorNumStates)
    (hmod : Moderate (graphOf vgs hist) a.logPotentials (readEv st.varsToStarts a.evidence) 0)
    (hlmod : LogicalModerate (graphOf vgs hist) (readEv st.varsToStarts a.evidence))
    (hinit : ∀ f i v, IsEdge (graphOf vgs hist).allScopes f i v → ∃ s < v.n, -100000 ≤ readMsgs (graphOf vgs hist).allScopes a.ftovMsgs f i s)
    (htree : (bipartite (graphOf vgs hist).allScopes).IsAcyclic) (hnd : ∀ vs ∈ (graphOf vgs hist).allScopes, vs.Nodup)
    (hclip : ∀ f i v s, IsEdge (graphOf vgs hist).allScopes f i v → s < v.n → -1000 < readMsgs (graphOf vgs hist).allScopes (bp.runBP env a n 0).ftovMsgs f i s)
    (hdist : ∀ v f, (bipartite (graphOf vgs hist).allScopes).dist (.inl v) (.inr f) < 2 * n) (hreg : ∀ g ∈ vgs, g.Regular) (hst : ∀ g ∈ vgs, g.Stated) :
    (∀ v ∈ graphVars vgs, ∃ c start, st.varsToStarts v = some start ∧
      IsMaxMarginal (graphVars vgs) ((graphOf vgs hist).factors a.logPotentials) (readEv st.varsToStarts a.evidence) v
        (fun s => (bp.flatBeliefs (bp.runBP env a n 0)).getD (start + s) 0 + c)) ∧
    ∃ bs rs, bp.getBeliefs (bp.runBP env a n 0) = .ok bs ∧ decodeMapStates bs = .ok rs ∧ rs.map (·.1) = vgs ∧
      ∀ x ρ, IsMAP (graphVars vgs) ((graphOf vgs hist).factors a.logPotentials) (readEv st.varsToStarts a.evidence) x ρ → ∀ p ∈ rs, ∀ v ∈ p.1.variables,
        (∀ x' ρ', IsMAP (graphVars vgs) ((graphOf vgs hist).factors a.logPotentials) (readEv st.varsToStarts a.evidence) x' ρ' → x' v = x v) →
        p.1.StateIn v (x v) p.2 := by
  have hpos : ∀ v ∈ graphVars vgs, 0 < v.n := by
    intro v hv
    obtain ⟨g, hg, hv⟩ := mem_graphVars.1 hv
    obtain ⟨objId, hb⟩ := h.vgroups.built g hg
    obtain ⟨hlen, hvn⟩ := hb.vars
    have h1 : ∀ k ∈ g.numStates, 1 ≤ k := by
      have := hst g hg
      cases g with
      | arr g => exact this.1
      | dict g => exact this
    obtain ⟨i, hi⟩ := List.mem_iff_getElem?.1 hv
    exact h1 _ (List.mem_of_getElem? (hvn i v hi))
  have hall : ∀ v ∈ graphVars vgs, ∃ c start, st.varsToStarts v = some start ∧
      IsMaxMarginal (graphVars vgs) ((graphOf vgs hist).factors a.logPotentials) (readEv st.varsToStarts a.evidence) v
        (fun s => (bp.flatBeliefs (bp.runBP env a n 0)).getD (start + s) 0 + c) :=
    fun v hv => C38_partial h hbp env hfit a n hlp hev hm hmod hlmod hinit htree hnd hpos hclip v hv (hdist v) (fun v f _ => hdist v f)
  refine ⟨hall, ?_⟩
  have hl := (h.run_read hbp env hfit a 0 hlp hev n hm).1
  obtain ⟨bs, rs, e1, e2, e3, e4⟩ := C35_partial h hbp _ hl hev hreg hst
  refine ⟨bs, rs, e1, e2, e3, ?_⟩
  intro x ρ hx p hp v hv huniq
  have hpv : p.1 ∈ vgs := by rw [← e3]; exact List.mem_map_of_mem (f := Prod.fst) hp
  have hvv : v ∈ graphVars vgs := mem_graphVars.2 ⟨p.1, hpv, hv⟩
  obtain ⟨c, start, hstart, hc⟩ := hall v hvv
  have hfm := hc.firstMax c hvv hx huniq
  have hfm' : IsFirstMax (beliefOf (graphOf vgs hist).allScopes (readEv st.varsToStarts (bp.runBP env a n 0).evidence)
      (readMsgs (graphOf vgs hist).allScopes (bp.runBP env a n 0).ftovMsgs) v) v.n (x v) := by
    have := hfm.shift 0 (g := beliefOf (graphOf vgs hist).allScopes (readEv st.varsToStarts (bp.runBP env a n 0).evidence)
      (readMsgs (graphOf vgs hist).allScopes (bp.runBP env a n 0).ftovMsgs) v) (by
        intro s hs
        rw [getD_of_some (C34_flat h hbp _ hl hev v start hstart s hs), add_zero])
    exact this
  have hdec := e4 p hp
  obtain ⟨g, r⟩ := p
  obtain ⟨k, hk⟩ := List.mem_iff_getElem?.1 hv
  cases g with
  | arr g =>
    cases r with
    | dict d => exact hdec.elim
    | arr r =>
      obtain ⟨-, -, hd⟩ := hdec
      obtain ⟨j, hj, hjm⟩ := hd k v hk
      rw [IsFirstMax.unique hfm' hjm]
      exact ⟨k, hk, hj⟩
  | dict g =>
    cases r with
    | arr r => exact hdec.elim
    | dict d =>
      obtain ⟨-, hd⟩ := hdec
      obtain ⟨y, j, hy, hyj, hjm⟩ := hd k v hk
      rw [IsFirstMax.unique hfm' hjm]
      exact ⟨k, y, hk, hy, hyj⟩

/-- **C38 (3), partial.** Hence on an acyclic factor graph, at temperature 0 and with damping 0, after as many iterations as there are factors and
if no message is clipped, the beliefs of all variables are their exact max-marginals up to a constant, and for every MAP assignment,
`decode_map_states` returns the state of every variable that has the same state in all MAP assignments. Missing: as in (2). -/
theorem C38_decode_partial [DecidableEq κ] (h : Compiled vgs hist garbage st) {state : BPState α} {bp : BPFun κ α}
    (hbp : BP.create st state 0 = .ok bp) (env : Env α) (hfit : Fits env (graphOf vgs hist) (0 : α)) (a : BPArrays α) (n : Nat)
    (hlp : a.logPotentials.length = st.logPotentials.length) (hev : a.evidence.length = st.numVarStates) (hm : a.ftovMsgs.length = st.totalFactorNumStates)
    (hmod : Moderate (graphOf vgs hist) a.logPotentials (readEv st.varsToStarts a.evidence) 0)
    (hlmod : LogicalModerate (graphOf vgs hist) (readEv st.varsToStarts a.evidence))
    (hinit : ∀ f i v, IsEdge (graphOf vgs hist).allScopes f i v → ∃ s < v.n, -100000 ≤ readMsgs (graphOf vgs hist).allScopes a.ftovMsgs f i s)
    (htree : (bipartite (graphOf vgs hist).allScopes).IsAcyclic) (hnd : ∀ vs ∈ (graphOf vgs hist).allScopes, vs.Nodup)
    (hclip : ∀ f i v s, IsEdge (graphOf vgs hist).allScopes f i v → s < v.n → -1000 < readMsgs (graphOf vgs hist).allScopes (bp.runBP env a n 0).ftovMsgs f i s)
    (hn : 0 < n ∧ (graphOf vgs hist).allScopes.length ≤ n) (hreg : ∀ g ∈ vgs, g.Regular) (hst : ∀ g ∈ vgs, g.Stated) :
    (∀ v ∈ graphVars vgs, ∃ c start, st.varsToStarts v = some start ∧
      IsMaxMarginal (graphVars vgs) ((graphOf vgs hist).factors a.logPotentials) (readEv st.varsToStarts a.evidence) v
        (fun s => (bp.flatBeliefs (bp.runBP env a n 0)).getD (start + s) 0 + c)) ∧
    ∃ bs rs, bp.getBeliefs (bp.runBP env a n 0) = .ok bs ∧ decodeMapStates bs = .ok rs ∧ rs.map (·.1) = vgs ∧
      ∀ x ρ, IsMAP (graphVars vgs) ((graphOf vgs hist).factors a.logPotentials) (readEv st.varsToStarts a.evidence) x ρ → ∀ p ∈ rs, ∀ v ∈ p.1.variables,
        (∀ x' ρ', IsMAP (graphVars vgs) ((graphOf vgs hist).factors a.logPotentials) (readEv st.varsToStarts a.evidence) x' ρ' → x' v = x v) →
        p.1.StateIn v (x v) p.2 := by
  have hdist : ∀ v f, (bipartite (graphOf vgs hist).allScopes).dist (.inl v) (.inr f) < 2 * n := by
    intro v f
    rcases Nat.eq_zero_or_pos (graphOf vgs hist).allScopes.length with h0 | h0
    · rw [SimpleGraph.dist_eq_zero_of_not_reachable]
      · omega
      · intro hreach
        obtain ⟨y, hy, -⟩ := exists_closer hreach (by simp)
        match y, hy with
        | .inl w, ⟨i, vs, h1, _⟩ =>
          have := (List.getElem?_eq_some_iff.1 h1).1
          omega
    · exact lt_of_lt_of_le (dist_lt_factors v f h0) (by omega)
  exact C38_decode_dist_partial h hbp env hfit a n hlp hev hm hmod hlmod hinit htree hnd hclip hdist hreg hst

end

/-- A criterion for explicit graphs: a list of the edges (variable, factor), and levels. -/
theorem acyclic_of_edges {scopes : List (List Var)} (es : List (Var × Nat)) (hes : ∀ f i v, IsEdge scopes f i v → (v, f) ∈ es) (dv : Var → Nat) (df : Nat → Nat)
    (h1 : ∀ e ∈ es, ∀ e' ∈ es, e.1 = e'.1 → df e.2 ≤ dv e.1 → df e'.2 ≤ dv e.1 → e.2 = e'.2)
    (h2 : ∀ e ∈ es, ∀ e' ∈ es, e.2 = e'.2 → dv e.1 ≤ df e.2 → dv e'.1 ≤ df e.2 → e.1 = e'.1) : (bipartite scopes).IsAcyclic := by
  refine acyclic_of_level (Sum.elim dv df) ?_
  rintro (x | x) (y | y) (z | z) hy hz hdy hdz
  · exact absurd hy bipartite_not_inl
  · exact absurd hy bipartite_not_inl
  · exact absurd hz bipartite_not_inl
  · obtain ⟨i, hi⟩ := bipartite_adj.1 hy
    obtain ⟨j, hj⟩ := bipartite_adj.1 hz
    rw [show y = z from h1 (x, y) (hes _ _ _ hi) (x, z) (hes _ _ _ hj) rfl hdy hdz]
  · obtain ⟨i, hi⟩ := bipartite_adj'.1 hy
    obtain ⟨j, hj⟩ := bipartite_adj'.1 hz
    rw [show y = z from h2 (y, x) (hes _ _ _ hi) (z, x) (hes _ _ _ hj) rfl hdy hdz]
  · exact absurd hz bipartite_not_inr
  · exact absurd hy bipartite_not_inr
  · exact absurd hy bipartite_not_inr

theorem exTree3 : (bipartite (graphOf exVars3 exHist3).allScopes).IsAcyclic := by
  refine acyclic_of_edges [(⟨1000000000, 2⟩, 0), (⟨1000000001, 3⟩, 0)] ?_ (fun v => if v.n = 2 then 0 else 2) (fun _ => 1) (by decide +kernel) (by decide +kernel)
  intro f i v he
  rcases exEdge3 f i v he with ⟨rfl, -, rfl⟩ | ⟨rfl, -, rfl⟩ <;> simp

/-- **C38 does not hold in general.** In the graph `exHist3` (two variables and a factor), with evidence around -2e5, no message is clipped, but the
beliefs `[0, 0]` of the first variable are not its max-marginals up to a constant: they are -199999 and -199997. -/
theorem C38_refuted : (bipartite (graphOf exVars3 exHist3).allScopes).IsAcyclic ∧
    (∀ n, n = 1 ∨ n = 2 → (exBP3.runBP exEnv ⟨[0, 0, 0], [0, 0, 0, 0, 0], [0, 0, -200000, -199997, -199999]⟩ n 0).ftovMsgs = [0, 0, 0, -3, -1] ∧
    exBP3.flatBeliefs (exBP3.runBP exEnv ⟨[0, 0, 0], [0, 0, 0, 0, 0], [0, 0, -200000, -199997, -199999]⟩ n 0) = [0, 0, -200000, -200000, -200000]) ∧
    ∀ c, ¬IsMaxMarginal (graphVars exVars3) ((graphOf exVars3 exHist3).factors [0, 0, 0]) (readEv exState3.varsToStarts [0, 0, -200000, -199997, -199999])
      ⟨1000000000, 2⟩ (fun s => [0, 0, -200000, -200000, -200000].getD s 0 + c) := by
  refine ⟨exTree3, ?_, ?_⟩
  · rintro n (rfl | rfl) <;> decide +kernel
  · intro c hc
    have hF : (graphOf exVars3 exHist3).factors ([0, 0, 0] : List ℚ) = [⟨[⟨1000000000, 2⟩, ⟨1000000001, 3⟩], [([0, 0], 0), ([0, 2], 0), ([1, 1], 0)]⟩] := rfl
    have hV : graphVars exVars3 = {⟨1000000000, 2⟩, ⟨1000000001, 3⟩} := rfl
    have hsc : ∀ x ρ, jointScore (graphVars exVars3) ((graphOf exVars3 exHist3).factors ([0, 0, 0] : List ℚ)) (readEv exState3.varsToStarts [0, 0, -200000, -199997, -199999]) x ρ
        = readEv exState3.varsToStarts [0, 0, -200000, -199997, -199999] ⟨1000000000, 2⟩ (x ⟨1000000000, 2⟩)
          + readEv exState3.varsToStarts [0, 0, -200000, -199997, -199999] ⟨1000000001, 3⟩ (x ⟨1000000001, 3⟩) + (ρ 0).2 := by
      intro x ρ
      rw [hF, hV]
      unfold jointScore
      rw [Finset.sum_insert (by decide), Finset.sum_singleton]
      simp
    have hup := (hc 1 (by decide)).2
    have h1 : (-199997 : ℚ) ≤ _ := hup ⟨fun _ => 1, fun _ => ([1, 1], 0), ⟨?_, ?_⟩, rfl, ?_⟩
    · obtain ⟨x, ρ, hJ, hx, hz⟩ := (hc 0 (by decide)).1
      rw [hsc, hx] at hz
      obtain ⟨h2, h3⟩ := hJ.rows 0 _ (by rw [hF]; rfl)
      simp only [List.map_cons, List.map_nil, hx] at h3
      have h4 : (ρ 0).2 = 0 ∧ (x ⟨1000000001, 3⟩ = 0 ∨ x ⟨1000000001, 3⟩ = 2) := by
        simp only [List.mem_cons, List.not_mem_nil, or_false] at h2
        rcases h2 with h2 | h2 | h2 <;> rw [h2] at h3 ⊢ <;> simp at h3 <;> simp [← h3]
      rw [h4.1] at hz
      have e0 : readEv exState3.varsToStarts [0, 0, -200000, -199997, -199999] ⟨1000000000, 2⟩ 0 = (0 : ℚ) := by decide +kernel
      have e1 : readEv exState3.varsToStarts [0, 0, -200000, -199997, -199999] ⟨1000000001, 3⟩ 0 = (-200000 : ℚ) := by decide +kernel
      have e2 : readEv exState3.varsToStarts [0, 0, -200000, -199997, -199999] ⟨1000000001, 3⟩ 2 = (-199999 : ℚ) := by decide +kernel
      simp at h1
      rcases h4.2 with h5 | h5 <;> rw [h5, e0] at hz <;> simp [e1, e2] at hz <;> linarith
    · rw [hV]; decide
    · intro f F hf
      rw [hF] at hf
      match f, hf with
      | 0, hf => cases hf; simp
    · rw [hsc]; decide +kernel

theorem exEdge5 : ∀ f i v, IsEdge (graphOf exVars5 exHist5).allScopes f i v → (v, f) ∈ [(exVar5 0, 0), (exVar5 1, 0), (exVar5 1, 1), (exVar5 2, 1), (exVar5 3, 1)] := by
  have e : (graphOf exVars5 exHist5).allScopes = [[exVar5 0, exVar5 1], [exVar5 1, exVar5 2, exVar5 3]] := rfl
  rintro f i v ⟨vs, h1, h2⟩
  rw [e] at h1
  match f, h1 with
  | 0, h1 =>
    cases h1
    match i, h2 with
    | 0, h2 => cases h2; simp
    | 1, h2 => cases h2; simp
  | 1, h1 =>
    cases h1
    match i, h2 with
    | 0, h2 => cases h2; simp
    | 1, h2 => cases h2; simp
    | 2, h2 => cases h2; simp

/-- Non-vacuity of C38: two iterations on the tree `exHist5` (an enumeration factor and an OR). -/
theorem exTree5_ok : Fits exEnv (graphOf exVars5 exHist5) (0 : ℚ) ∧
    Moderate (graphOf exVars5 exHist5) [0, 1, 2] (readEv exState5.varsToStarts [3, 0, 0, 1, 1, 0, 0, 2]) (0 : ℚ) ∧
    LogicalModerate (graphOf exVars5 exHist5) (readEv exState5.varsToStarts [3, 0, 0, 1, 1, 0, 0, (2 : ℚ)]) ∧
    (∀ f i v, IsEdge (graphOf exVars5 exHist5).allScopes f i v → ∃ s < v.n, -100000 ≤ readMsgs (graphOf exVars5 exHist5).allScopes (List.replicate 10 (0 : ℚ)) f i s) ∧
    (bipartite (graphOf exVars5 exHist5).allScopes).IsAcyclic ∧ (∀ vs ∈ (graphOf exVars5 exHist5).allScopes, vs.Nodup) ∧
    (∀ f i v s, IsEdge (graphOf exVars5 exHist5).allScopes f i v → s < v.n →
      -1000 < readMsgs (graphOf exVars5 exHist5).allScopes (exBP5.runBP exEnv ⟨[0, 1, 2], List.replicate 10 0, [3, 0, 0, 1, 1, 0, 0, 2]⟩ 2 0).ftovMsgs f i s) ∧
    (graphOf exVars5 exHist5).allScopes.length ≤ 2 ∧ (∀ g ∈ exVars5, g.Regular) ∧ (∀ g ∈ exVars5, g.Stated) ∧
    exBP5.flatBeliefs (exBP5.runBP exEnv ⟨[0, 1, 2], List.replicate 10 0, [3, 0, 0, 1, 1, 0, 0, 2]⟩ 2 0) = [2, 0, -2, 1, 1, 0, -2, 2] := by
  have hn2 : ∀ f i v, IsEdge (graphOf exVars5 exHist5).allScopes f i v → v.n = 2 := by
    intro f i v he
    have := exEdge5 f i v he
    simp only [List.mem_cons, List.not_mem_nil, or_false, Prod.mk.injEq] at this
    rcases this with h | h | h | h | h <;> rw [h.1] <;> rfl
  have hdeg : ∀ f i v, IsEdge (graphOf exVars5 exHist5).allScopes f i v → (edgesOf (graphOf exVars5 exHist5).allScopes v).length ≤ 2 := by
    intro f i v he
    have := exEdge5 f i v he
    have e : (graphOf exVars5 exHist5).allScopes = [[exVar5 0, exVar5 1], [exVar5 1, exVar5 2, exVar5 3]] := rfl
    simp only [List.mem_cons, List.not_mem_nil, or_false, Prod.mk.injEq] at this
    rcases this with h | h | h | h | h <;> rw [h.1, e] <;> decide +kernel
  have hev : ∀ v s, |readEv exState5.varsToStarts [3, 0, 0, 1, 1, 0, 0, (2 : ℚ)] v s| ≤ 3 := by
    intro v s
    unfold readEv List.getD
    cases e : [3, 0, 0, 1, 1, 0, 0, (2 : ℚ)][(exState5.varsToStarts v).getD 0 + s]? with
    | none => norm_num
    | some x =>
      have hl : ∀ x ∈ [3, 0, 0, 1, 1, 0, 0, (2 : ℚ)], |x| ≤ 3 := by decide +kernel
      exact hl x (List.mem_of_getElem? e)
  refine ⟨⟨.inl rfl, fun _ => by decide +kernel⟩, ?_, ?_, ?_, ?_, by decide +kernel, ?_, by decide +kernel, ?_, ?_, by decide +kernel⟩
  · refine moderate_of_bounds (E := 3) (P := 2) (D := 2) (K := 2) (by norm_num) (fun _ _ v s _ _ => hev v s) ?_ (by norm_num) ?_ (by norm_num)
    · intro f i v he
      exact_mod_cast hdeg f i v he
    · have e : (graphOf exVars5 exHist5).tables = [([exVar5 0, exVar5 1], ⟨2, [[0, 0], [0, 1], [1, 1]]⟩)] := rfl
      rw [e]
      decide +kernel
  · intro f vs hvs _
    by_cases h2 : vs.length = 2
    · exact .inl h2
    · have hlen : ∀ vs ∈ (graphOf exVars5 exHist5).allScopes, vs.length = 2 ∨ vs.length = 3 := by decide +kernel
      have h3 : vs.length = 3 := (hlen vs (List.mem_of_getElem? hvs)).resolve_left h2
      refine .inr ⟨0, by omega, 1, by omega, by omega, ?_⟩
      intro i _ v hv
      have h4 := hdeg f i v ⟨vs, hvs, hv⟩
      have h5 : (((edgesOf (graphOf exVars5 exHist5).allScopes v).length : Nat) : ℚ) ≤ 2 := by exact_mod_cast h4
      have h6 := abs_le.1 (hev v (1 - (graphOf exVars5 exHist5).restState f))
      have h7 := abs_le.1 (hev v ((graphOf exVars5 exHist5).restState f))
      linarith [h6.1, h7.2]
  · intro f i v he
    refine ⟨0, by rw [hn2 f i v he]; omega, ?_⟩
    unfold readMsgs
    rw [List.getD_eq_getElem?_getD, List.getElem?_replicate]
    split <;> norm_num
  · exact acyclic_of_edges _ exEdge5 (fun v => if v = exVar5 0 then 0 else if v = exVar5 1 then 2 else 4) (fun f => if f = 0 then 1 else 3) (by decide +kernel) (by decide +kernel)
  · intro f i v s _ _
    have e : (exBP5.runBP exEnv ⟨[0, 1, 2], List.replicate 10 0, [3, 0, 0, 1, 1, 0, 0, 2]⟩ 2 0).ftovMsgs = [-1, 0, -1, 0, -1, 0, 0, 0, -2, 0] := by decide +kernel
    rw [e]
    unfold readMsgs List.getD
    cases e : [-1, 0, -1, 0, -1, 0, 0, 0, -2, (0 : ℚ)][edgeStart (graphOf exVars5 exHist5).allScopes f i + s]? with
    | none => norm_num
    | some x =>
      have hl : ∀ x ∈ [-1, 0, -1, 0, -1, 0, 0, 0, -2, (0 : ℚ)], -1000 < x := by decide +kernel
      exact hl x (List.mem_of_getElem? e)
  · simp [exVars5, VGroup.Regular]
  · simp [exVars5, VGroup.Stated]

end PGMax
