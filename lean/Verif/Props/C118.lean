import Verif.Lemmas.Cutset
import Verif.Props.C117

/-!
# C118: variables that are decided by their evidence cut loops

If some variables have evidence that is stronger than all their factors, and the graph without them has no loops, then belief propagation is exact
for the graph with its loops.
-/

namespace PGMax

section
variable {κ α : Type _} {vgs : List (VGroup κ)} {hist : List (AddArg α)} {garbage : Garbage} {st : FGState κ α}
variable [Field α] [LinearOrder α] [IsStrictOrderedRing α]

/-- Textbook max-product belief propagation computes the max-marginals of the undecided variables. -/
theorem tbRun_cutset {factors : List (SFac α)} (hrow : ∀ F ∈ factors, ∀ r ∈ F.rows, List.Forall₂ (fun s (v : Var) => s < v.n) r.1 F.scope)
    {vars : Finset Var} (hvars : ∀ F ∈ factors, ∀ v ∈ F.scope, v ∈ vars) (hpos : ∀ v ∈ vars, 0 < v.n) (hnd : ∀ F ∈ factors, F.scope.Nodup) (hne : ∀ F ∈ factors, F.scope ≠ [])
    {R : Nat → α} (hR : ∀ f, 0 ≤ R f ∧ R f < 1000) (hc : ∀ (f : Nat) (F : SFac α), factors[f]? = some F → F.Complete ∧ F.Within (R f)) {ev : Var → Nat → α} {x : Var → Nat}
    {D : Finset Var} (hdom : ∀ v ∈ vars, v ∈ D → Dominant (factors.map (·.scope)) ev R x v) (hG : (bipartite (without D (factors.map (·.scope)))).IsAcyclic)
    {n : Nat} (hn : 0 < n ∧ factors.length ≤ n) {u : Var} (hu : u ∈ vars) (huD : u ∉ D) :
    ∃ c, IsMaxMarginal vars factors ev u (fun s => beliefOf (factors.map (·.scope)) ev (tbRun factors ev 0 n (fun _ _ _ => 0)) u s + c) := by
  -- hashes for the new variables
  obtain ⟨B, hBv⟩ : ∃ B, ∀ v ∈ vars, v.hash < B := ⟨vars.sup (·.hash) + 1, fun v hv => Nat.lt_succ_of_le (Finset.le_sup (f := (·.hash)) hv)⟩
  have hB := cut_hB hvars hBv
  have hedge : ∀ f i v, IsEdge (factors.map (·.scope)) f i v → v ∈ vars := by
    rintro f i v ⟨vs, h1, h2⟩
    rw [List.getElem?_map] at h1
    obtain ⟨F, hF, rfl⟩ := Option.map_eq_some_iff.1 h1
    exact hvars F (List.mem_of_getElem? hF) v (List.mem_of_getElem? h2)
  have hpos' : ∀ F ∈ factors, ∀ v ∈ F.scope, 0 < v.n := fun F hF v hv => hpos v (hvars F hF v hv)
  have hR0 : ∀ f, 0 ≤ R f := fun f => (hR f).1
  have hub := hBv u hu
  have hou : cutOrig (factors.map (·.scope)) B u = u := by unfold cutOrig; rw [if_neg (by omega)]
  have hdist : ∀ v f, (bipartite ((cut D B factors).map (·.scope))).dist (.inl v) (.inr f) < 2 * n := by
    intro v f
    rcases Nat.eq_zero_or_pos factors.length with h0 | h0
    · have hemp : (cut D B factors).map (·.scope) = [] := by
        rw [List.map_eq_nil_iff, ← List.length_eq_zero_iff, cut_length]; exact h0
      rw [hemp]
      rw [SimpleGraph.dist_eq_zero_of_not_reachable]
      · omega
      · rintro ⟨p⟩
        cases p with
        | @cons _ w _ hadj _ =>
          rcases w with w | g
          · exact absurd hadj bipartite_not_inl
          · obtain ⟨i, vs, h1, -⟩ := bipartite_adj.1 hadj
            simp at h1
    · have := dist_lt_factors (scopes := (cut D B factors).map (·.scope)) v f (by rw [List.length_map, cut_length]; exact h0)
      rw [List.length_map, cut_length] at this
      omega
  obtain ⟨c, hM⟩ := tbRun_exact (factors := cut D B factors) (cut_acyclic hB hG) (fun F hF => cut_nodup hB hnd _ (List.mem_map.2 ⟨F, hF, rfl⟩))
    (fun F' hF' => by
      obtain ⟨f, hf⟩ := List.mem_iff_getElem?.1 hF'
      obtain ⟨F, hF, rfl⟩ := cut_get_inv hf
      have := hne F (List.mem_of_getElem? hF)
      simpa using this)
    (cut_rows hrow) (vars := cutVars D B factors vars) (cut_vars hvars hBv)
    (fun w hw => by
      rcases mem_cutVars.1 hw with ⟨h1, -⟩ | ⟨h1, f, i, h2⟩
      · exact hpos w h1
      · obtain ⟨v, h3, rfl⟩ := cut_edge_inv h2
        rw [edgeVar_n]
        exact hpos v (hedge f i v h3))
    (fun w => ev (cutOrig (factors.map (·.scope)) B w)) (fun _ _ _ => 0) n
    (fun f i v s he hs => by
      have := (tbRun_complete (cut_rows (D := D) (B := B) hrow) (cut_pos (D := D) (B := B) hpos') hR0 (cut_complete (D := D) (B := B) hc)
        (fun w => ev (cutOrig (factors.map (·.scope)) B w)) n f i v he s hs).1
      have := (hR f).2
      linarith)
    (r := u) (mem_cutVars.2 (.inl ⟨hu, huD⟩)) (hdist u) (fun v f _ => hdist v f)
  have hM' := cut_marginal hR0 hc hvars hBv hdom hu huD hM
  refine ⟨c - cutScore D B factors vars ev x, fun s hs => ?_⟩
  have := hM' s hs
  simp only at this ⊢
  have hbel : beliefOf ((cut D B factors).map (·.scope)) (fun w => ev (cutOrig (factors.map (·.scope)) B w))
      (tbRun (cut D B factors) (fun w => ev (cutOrig (factors.map (·.scope)) B w)) 0 n (fun _ _ _ => 0)) u s =
      beliefOf (factors.map (·.scope)) ev (tbRun factors ev 0 n (fun _ _ _ => 0)) u s := by
    unfold beliefOf
    simp only [hou]
    rw [cut_edgesOf hB hub huD]
    congr 2
    apply List.map_congr_left
    intro e he
    exact cut_run hB hrow hpos' hR0 hc (fun f i v he hv => hdom v (hedge f i v he) hv) n e.1 e.2 u s ((mem_edgesOf _ _ _ _).1 he) huD hs
  rw [hbel] at this
  rw [← add_sub_assoc]
  exact this

/-- What the code computes from zero messages, in terms of textbook belief propagation. -/
theorem Compiled.zero_run (h : Compiled vgs hist garbage st) {state : BPState α} {bp : BPFun κ α}
    (hbp : BP.create st state 0 = .ok bp) (env : Env α) (hfit : Fits env (graphOf vgs hist) (0 : α)) (lp ev : List α) (n : Nat)
    (hlp : lp.length = st.logPotentials.length) (hev : ev.length = st.numVarStates) {b : Nat → α} (hb : ∀ f, 0 ≤ b f)
    (hmod : Tame (graphOf vgs hist) lp (readEv st.varsToStarts ev) 0 b) (hlmod : LogicalTame (graphOf vgs hist) (readEv st.varsToStarts ev) b)
    (hpos : ∀ v ∈ graphVars vgs, 0 < v.n) : AgreeOn (graphOf vgs hist).allScopes
      (readMsgs (graphOf vgs hist).allScopes (bp.runBP env ⟨lp, List.replicate st.totalFactorNumStates 0, ev⟩ n 0).ftovMsgs)
      (tbRun ((graphOf vgs hist).factors lp) (readEv st.varsToStarts ev) 0 n (fun _ _ _ => 0)) := by
  have hz : readMsgs (graphOf vgs hist).allScopes (List.replicate st.totalFactorNumStates (0 : α)) = fun _ _ _ => 0 := by
    funext f i s; exact readMsgs_zeros _ _ _ _ _
  have := h.run_textbook_tame hbp env hfit ⟨lp, List.replicate st.totalFactorNumStates 0, ev⟩ n 0 hlp hev (by simp) hmod hlmod
    (fun f i v he => ⟨0, hpos v (h.edge_vars f i v he), by rw [hz]; norm_num⟩)
    (fun f i v he => .inr (fun s _ t _ => by rw [hz]; simpa using hb f))
  rw [hz] at this
  exact this

theorem Compiled.cut_inputs (h : Compiled vgs hist garbage st) (lp : List α) :
    (∀ F ∈ (graphOf vgs hist).factors lp, F.scope ∈ (graphOf vgs hist).allScopes) ∧
    (∀ F ∈ (graphOf vgs hist).factors lp, ∀ r ∈ F.rows, List.Forall₂ (fun s (v : Var) => s < v.n) r.1 F.scope) ∧
    ∀ F ∈ (graphOf vgs hist).factors lp, ∀ v ∈ F.scope, v ∈ graphVars vgs := by
  have hsc := (graphOf vgs hist).factors_scopes lp
  have hmemF : ∀ F ∈ (graphOf vgs hist).factors lp, F.scope ∈ (graphOf vgs hist).allScopes := by
    intro F hF
    rw [← hsc]
    exact List.mem_map.2 ⟨F, hF, rfl⟩
  refine ⟨hmemF, fun F hF => ?_, fun F hF v hv => ?_⟩
  · obtain ⟨f, hf⟩ := List.mem_iff_getElem?.1 hF
    exact h.rowsFit lp hf
  · obtain ⟨s, hs⟩ := h.scopeVars _ (hmemF F hF) v hv
    obtain ⟨i, hi, -⟩ := (h.starts_iff v s).1 hs
    exact List.mem_toFinset.2 (List.mem_of_getElem? hi)

omit [Field α] [LinearOrder α] [IsStrictOrderedRing α] in
theorem Compiled.stated_pos' (h : Compiled vgs hist garbage st) (hst : ∀ g ∈ vgs, g.Stated) : ∀ v ∈ graphVars vgs, 0 < v.n := by
  intro v hv
  obtain ⟨g, hg, hv⟩ := mem_graphVars.1 hv
  obtain ⟨objId, hb⟩ := h.vgroups.built g hg
  obtain ⟨hlen, hvn⟩ := hb.vars
  have h1 : ∀ k ∈ g.numStates, 1 ≤ k := by
    have := hst g hg
    cases g with
    | arr g => exact this.1
    | dict g => exact this
  obtain ⟨i, hi⟩ := List.mem_iff_getElem?.1 hv
  exact h1 _ (List.mem_of_getElem? (hvn i v hi))

/-- **C118 (1), partial.** At temperature 0, with damping 0 and from zero messages: let all factors be complete tables, in which any two log potentials of
factor `f` differ by at most `R f < 1000`, and let `D` be a set of variables whose evidence for one state `x v` exceeds that for every other state by more than
the sum of `R f` over their factors. If the graph without the variables in `D` has no cycles, then after as many iterations as there are factors the beliefs
of all other variables are, up to a constant, their exact max-marginals in the whole model, whatever loops go through `D`.
Missing: numbers for which the code's constant -1e5 does not act as minus infinity; the size limits `Fits`. Without the bound on the evidence it is false
(`C118_refuted`). -/
theorem C118_partial (h : Compiled vgs hist garbage st) {state : BPState α} {bp : BPFun κ α}
    (hbp : BP.create st state 0 = .ok bp) (env : Env α) (hfit : Fits env (graphOf vgs hist) (0 : α)) (lp ev : List α) (n : Nat)
    (hlp : lp.length = st.logPotentials.length) (hev : ev.length = st.numVarStates) {b : Nat → α} (hb : ∀ f, 0 ≤ b f)
    (hmod : Tame (graphOf vgs hist) lp (readEv st.varsToStarts ev) 0 b) (hlmod : LogicalTame (graphOf vgs hist) (readEv st.varsToStarts ev) b)
    (hpos : ∀ v ∈ graphVars vgs, 0 < v.n) (hnd : ∀ vs ∈ (graphOf vgs hist).allScopes, vs.Nodup)
    (R : Nat → α) (hR : ∀ f, 0 ≤ R f ∧ R f < 1000)
    (hc : ∀ (f : Nat) (F : SFac α), ((graphOf vgs hist).factors lp)[f]? = some F → F.Complete ∧ F.Within (R f))
    (x : Var → Nat) (D : Finset Var) (hdom : ∀ v ∈ graphVars vgs, v ∈ D → Dominant (graphOf vgs hist).allScopes (readEv st.varsToStarts ev) R x v)
    (hG : (bipartite (without D (graphOf vgs hist).allScopes)).IsAcyclic) (hn : 0 < n ∧ (graphOf vgs hist).allScopes.length ≤ n)
    (u : Var) (hu : u ∈ graphVars vgs) (huD : u ∉ D) :
    ∃ c start, st.varsToStarts u = some start ∧
      IsMaxMarginal (graphVars vgs) ((graphOf vgs hist).factors lp) (readEv st.varsToStarts ev) u
        (fun s => (bp.flatBeliefs (bp.runBP env ⟨lp, List.replicate st.totalFactorNumStates 0, ev⟩ n 0)).getD (start + s) 0 + c) := by
  have htb := h.zero_run hbp env hfit lp ev n hlp hev hb hmod hlmod hpos
  have hsc := (graphOf vgs hist).factors_scopes lp
  have hlen : ((graphOf vgs hist).factors lp).length = (graphOf vgs hist).allScopes.length := by rw [← hsc, List.length_map]
  obtain ⟨hmemF, hrow, hvars⟩ := h.cut_inputs lp
  obtain ⟨c, hM⟩ := tbRun_cutset hrow hvars hpos (fun F hF => hnd _ (hmemF F hF)) (fun F hF => h.scopes_ne _ (hmemF F hF)) hR hc (ev := readEv st.varsToStarts ev) (x := x) (D := D)
    (by rw [hsc]; exact hdom) (by rw [hsc]; exact hG) (by rw [hlen]; exact hn) hu huD
  obtain ⟨g, hg, hv⟩ := mem_graphVars.1 hu
  obtain ⟨start, hstart⟩ := h.mem_starts hg hv
  refine ⟨c, start, hstart, fun s hs => ?_⟩
  have hl := (h.run_read hbp env hfit ⟨lp, List.replicate st.totalFactorNumStates 0, ev⟩ 0 hlp hev n (by simp)).1
  have hbel : (bp.flatBeliefs (bp.runBP env ⟨lp, List.replicate st.totalFactorNumStates 0, ev⟩ n 0)).getD (start + s) 0 =
      beliefOf (graphOf vgs hist).allScopes (readEv st.varsToStarts ev)
        (tbRun ((graphOf vgs hist).factors lp) (readEv st.varsToStarts ev) 0 n (fun _ _ _ => 0)) u s := by
    rw [getD_of_some (C34_flat h hbp _ hl hev u start hstart s hs)]
    unfold beliefOf
    congr 2
    apply List.map_congr_left
    intro e he
    exact htb e.1 e.2 u s ((mem_edgesOf _ _ _ _).1 he) hs
  have := hM s hs
  rw [hsc] at this
  simp only
  rw [hbel]
  exact this

/-- **C118 (2): best assignments.** All best assignments give the variables in `D` the states that their evidence favours. -/
theorem C118_map (h : Compiled vgs hist garbage st) (lp : List α) (ev : Var → Nat → α) (R : Nat → α) (hR : ∀ f, 0 ≤ R f)
    (hc : ∀ (f : Nat) (F : SFac α), ((graphOf vgs hist).factors lp)[f]? = some F → F.Complete ∧ F.Within (R f)) (x : Var → Nat) (D : Finset Var)
    (hdom : ∀ v ∈ graphVars vgs, v ∈ D → Dominant (graphOf vgs hist).allScopes ev R x v) {y : Var → Nat} {ρ : Nat → List Nat × α}
    (hy : IsMAP (graphVars vgs) ((graphOf vgs hist).factors lp) ev y ρ) : ∀ v ∈ graphVars vgs, v ∈ D → y v = x v := by
  have hsc := (graphOf vgs hist).factors_scopes lp
  intro v hv hvD
  by_contra hne
  obtain ⟨ρ', h1, -, h2⟩ := hy.1.fix (P := fun v => v ∈ D) (x := x) (h.cut_inputs lp).2.2 hR hc (ev := ev) (by rw [hsc]; exact hdom)
  exact absurd (hy.2 _ _ h1) (not_le.2 (h2 ⟨v, hv, hvD, hne⟩))

/-- **C118 (3), partial: decoding.** Under the same hypotheses, if the best assignment is unique then `decode_map_states` returns it.
Missing: as in (1). -/
theorem C118_decode_partial [DecidableEq κ] (h : Compiled vgs hist garbage st) {state : BPState α} {bp : BPFun κ α}
    (hbp : BP.create st state 0 = .ok bp) (env : Env α) (hfit : Fits env (graphOf vgs hist) (0 : α)) (lp ev : List α) (n : Nat)
    (hlp : lp.length = st.logPotentials.length) (hev : ev.length = st.numVarStates) {b : Nat → α} (hb : ∀ f, 0 ≤ b f)
    (hmod : Tame (graphOf vgs hist) lp (readEv st.varsToStarts ev) 0 b) (hlmod : LogicalTame (graphOf vgs hist) (readEv st.varsToStarts ev) b)
    (hnd : ∀ vs ∈ (graphOf vgs hist).allScopes, vs.Nodup) (hreg : ∀ g ∈ vgs, g.Regular) (hst : ∀ g ∈ vgs, g.Stated)
    (R : Nat → α) (hR : ∀ f, 0 ≤ R f ∧ R f < 1000)
    (hc : ∀ (f : Nat) (F : SFac α), ((graphOf vgs hist).factors lp)[f]? = some F → F.Complete ∧ F.Within (R f))
    (x : Var → Nat) (D : Finset Var) (hdom : ∀ v ∈ graphVars vgs, v ∈ D → Dominant (graphOf vgs hist).allScopes (readEv st.varsToStarts ev) R x v)
    (hG : (bipartite (without D (graphOf vgs hist).allScopes)).IsAcyclic) (hn : 0 < n ∧ (graphOf vgs hist).allScopes.length ≤ n)
    {y : Var → Nat} {ρ : Nat → List Nat × α} (hy : IsUniqueMAP (graphVars vgs) ((graphOf vgs hist).factors lp) (readEv st.varsToStarts ev) y ρ) :
    ∃ bs rs, bp.getBeliefs (bp.runBP env ⟨lp, List.replicate st.totalFactorNumStates 0, ev⟩ n 0) = .ok bs ∧ decodeMapStates bs = .ok rs ∧ rs.map (·.1) = vgs ∧
      ∀ p ∈ rs, ∀ v ∈ p.1.variables, p.1.StateIn v (y v) p.2 := by
  have hpos := h.stated_pos' hst
  have hsc := (graphOf vgs hist).factors_scopes lp
  have hR0 : ∀ f, 0 ≤ R f := fun f => (hR f).1
  have hl := (h.run_read hbp env hfit ⟨lp, List.replicate st.totalFactorNumStates 0, ev⟩ 0 hlp hev n (by simp)).1
  have hmap : IsMAP (graphVars vgs) ((graphOf vgs hist).factors lp) (readEv st.varsToStarts ev) y ρ := by
    refine ⟨hy.1, fun y' ρ' hJ => ?_⟩
    by_cases hex : ∃ v ∈ graphVars vgs, y' v ≠ y v
    · exact (hy.2 y' ρ' hJ hex).le
    · push Not at hex
      -- the same states, so the same rows
      refine le_of_eq ?_
      unfold jointScore
      congr 1
      · exact Finset.sum_congr rfl fun v hv => by rw [hex v hv]
      · refine Finset.sum_congr rfl fun f hf => ?_
        obtain ⟨F, hF⟩ : ∃ F, ((graphOf vgs hist).factors lp)[f]? = some F := ⟨_, List.getElem?_eq_getElem (Finset.mem_range.1 hf)⟩
        obtain ⟨a1, a2⟩ := hJ.rows f F hF
        obtain ⟨b1, b2⟩ := hy.1.rows f F hF
        have : ρ' f = ρ f := List.inj_on_of_nodup_map (hc f F hF).1.1 a1 b1 (by
          rw [a2, b2]
          exact List.map_congr_left fun v hv => hex v ((h.cut_inputs lp).2.2 F (List.mem_of_getElem? hF) v hv))
        rw [this]
  have huniq : ∀ v ∈ graphVars vgs, ∀ y' ρ', IsMAP (graphVars vgs) ((graphOf vgs hist).factors lp) (readEv st.varsToStarts ev) y' ρ' → y' v = y v := by
    intro v hv y' ρ' h'
    by_contra hne
    exact absurd (h'.2 _ _ hy.1) (not_le.2 (hy.2 y' ρ' h'.1 ⟨v, hv, hne⟩))
  refine h.decode_states hbp _ hl hev hreg hst (x := y) fun v hv => ?_
  by_cases hvD : v ∈ D
  · rw [C118_map h lp (readEv st.varsToStarts ev) R hR0 hc x D hdom hmap v hv hvD]
    refine (hdom v hv hvD).firstMax fun f i he s hs => ?_
    rw [h.zero_run hbp env hfit lp ev n hlp hev hb hmod hlmod hpos f i v s he hs]
    exact tbRun_complete (h.cut_inputs lp).2.1 (fun F hF v hv => hpos v ((h.cut_inputs lp).2.2 F hF v hv)) hR0 hc (readEv st.varsToStarts ev) n f i v
      (by rw [hsc]; exact he) s hs
  · obtain ⟨c, start, hstart, hM⟩ := C118_partial h hbp env hfit lp ev n hlp hev hb hmod hlmod hpos hnd R hR hc x D hdom hG hn v hv hvD
    have hfm := hM.firstMax c hv hmap (huniq v hv)
    have e : ∀ s < v.n, (bp.flatBeliefs (bp.runBP env ⟨lp, List.replicate st.totalFactorNumStates 0, ev⟩ n 0)).getD (start + s) 0 =
        beliefOf (graphOf vgs hist).allScopes (readEv st.varsToStarts ev)
          (readMsgs (graphOf vgs hist).allScopes (bp.runBP env ⟨lp, List.replicate st.totalFactorNumStates 0, ev⟩ n 0).ftovMsgs) v s := fun s hs =>
      getD_of_some (C34_flat h hbp _ hl hev v start hstart s hs)
    obtain ⟨f1, f2, f3⟩ := hfm
    refine ⟨f1, fun s hs => ?_, fun s hs => ?_⟩
    · have := f2 s hs
      simp only [e s hs, e _ f1] at this
      exact this
    · have := f3 s hs
      simp only [e s (hs.trans f1), e _ f1] at this
      exact this

end

/-! ## Example and refutation: the cycle of three variables, whose factors favour equal states -/

/-- Without its third variable, the cycle of three variables has no cycles. -/
theorem exCyc3_without : (bipartite (without {exCycVar 3 2} (graphOf (exCycVars 3) (exCycHist 3)).allScopes)).IsAcyclic := by
  have e : without {exCycVar 3 2} (graphOf (exCycVars 3) (exCycHist 3)).allScopes = [[exCycVar 3 0, exCycVar 3 1], [exCycVar 3 1], [exCycVar 3 0]] := by decide +kernel
  have h01 : exCycVar 3 0 ≠ exCycVar 3 1 := by decide +kernel
  rw [e]
  generalize exCycVar 3 0 = a at h01 ⊢
  generalize exCycVar 3 1 = b at h01 ⊢
  refine acyclic_of_edges [(a, 0), (b, 0), (b, 1), (a, 2)] ?_ (fun v => if v = a then 1 else 3) (fun f => if f = 0 then 2 else if f = 1 then 4 else 0) ?_ ?_
  · rintro f i v ⟨vs, h1, h2⟩
    match f, h1 with
    | 0, h1 =>
      cases h1
      have := List.mem_of_getElem? h2
      simp only [List.mem_cons, List.not_mem_nil, or_false] at this ⊢
      rcases this with rfl | rfl <;> simp
    | 1, h1 =>
      cases h1
      have := List.mem_of_getElem? h2
      simp only [List.mem_cons, List.not_mem_nil, or_false] at this ⊢
      subst this; simp
    | 2, h1 =>
      cases h1
      have := List.mem_of_getElem? h2
      simp only [List.mem_cons, List.not_mem_nil, or_false] at this ⊢
      subst this; simp
  · simp only [List.mem_cons, List.not_mem_nil, or_false]
    rintro e (rfl | rfl | rfl | rfl) e' (rfl | rfl | rfl | rfl) <;> simp_all [eq_comm]
  · simp only [List.mem_cons, List.not_mem_nil, or_false]
    rintro e (rfl | rfl | rfl | rfl) e' (rfl | rfl | rfl | rfl) <;> simp_all [eq_comm]

/-- Log potentials that favour equal states. -/
def exEqual : List ℚ := [10, 0, 0, 10, 10, 0, 0, 10, 10, 0, 0, 10]

set_option maxRecDepth 4000 in
theorem exEqual_factors : (graphOf (exCycVars 3) (exCycHist 3)).factors exEqual =
    [⟨[exCycVar 3 0, exCycVar 3 1], [([0, 0], 10), ([0, 1], 0), ([1, 0], 0), ([1, 1], 10)]⟩,
     ⟨[exCycVar 3 1, exCycVar 3 2], [([0, 0], 10), ([0, 1], 0), ([1, 0], 0), ([1, 1], 10)]⟩,
     ⟨[exCycVar 3 2, exCycVar 3 0], [([0, 0], 10), ([0, 1], 0), ([1, 0], 0), ([1, 1], 10)]⟩] := rfl

theorem exEqual_complete (f : Nat) (F : SFac ℚ) (hF : ((graphOf (exCycVars 3) (exCycHist 3)).factors exEqual)[f]? = some F) : F.Complete ∧ F.Within 10 := by
  have : ∀ F ∈ (graphOf (exCycVars 3) (exCycHist 3)).factors exEqual, F.Complete ∧ F.Within 10 := by
    rw [exEqual_factors]
    simp only [List.forall_mem_cons]
    refine ⟨⟨complete_two _ _ _ _ _ _ rfl rfl, ?_⟩, ⟨complete_two _ _ _ _ _ _ rfl rfl, ?_⟩, ⟨complete_two _ _ _ _ _ _ rfl rfl, ?_⟩, by simp⟩ <;>
    · simp only [SFac.Within, List.forall_mem_cons]
      norm_num
  exact this F (List.mem_of_getElem? hF)

/-- Evidence 25 for state 0 of the third variable, and 1 for state 1 of the second. -/
def exCutEv : List ℚ := [0, 0, 0, 1, 25, 0]

theorem exCut_dominant : ∀ v ∈ graphVars (exCycVars 3), v ∈ ({exCycVar 3 2} : Finset Var) →
    Dominant (graphOf (exCycVars 3) (exCycHist 3)).allScopes (readEv (exCycSt 3).varsToStarts exCutEv) (fun _ => 10) (fun _ => 0) v := by
  intro v _ hv
  rw [Finset.mem_singleton] at hv
  subst hv
  refine ⟨by decide, ?_⟩
  decide +kernel

theorem exEqual_moderate (ev : List ℚ) (hev : ∀ x ∈ ev, |x| ≤ 25) : Moderate (graphOf (exCycVars 3) (exCycHist 3)) exEqual (readEv (exCycSt 3).varsToStarts ev) 0 := by
  refine moderate_of_bounds (E := 25) (P := 10) (D := 2) (K := 2) (by norm_num) ?_ ?_ (by norm_num) ?_ (by norm_num)
  · intro _ _ v s _ _
    unfold readEv List.getD
    cases e : ev[((exCycSt 3).varsToStarts v).getD 0 + s]? with
    | none => norm_num
    | some x => exact hev x (List.mem_of_getElem? e)
  · intro f i v he
    have hd : ∀ vs ∈ (graphOf (exCycVars 3) (exCycHist 3)).allScopes, ∀ v ∈ vs, (edgesOf (graphOf (exCycVars 3) (exCycHist 3)).allScopes v).length ≤ 2 := by decide +kernel
    obtain ⟨vs, h1, h2⟩ := he
    exact Nat.cast_le_ofNat.2 (hd vs (List.mem_of_getElem? h1) v (List.mem_of_getElem? h2))
  · have e : tableFacs (graphOf (exCycVars 3) (exCycHist 3)).tables exEqual = (graphOf (exCycVars 3) (exCycHist 3)).factors exEqual := rfl
    rw [e, exEqual_factors]
    simp only [List.forall_mem_cons]
    norm_num

/-- Non-vacuity of C118 (1): the strong evidence of the third variable cuts the cycle. -/
example (u : Var) (hu : u ∈ graphVars (exCycVars 3)) (hu2 : u ∉ ({exCycVar 3 2} : Finset Var)) : ∃ c start, (exCycSt 3).varsToStarts u = some start ∧
    IsMaxMarginal (graphVars (exCycVars 3)) ((graphOf (exCycVars 3) (exCycHist 3)).factors exEqual) (readEv (exCycSt 3).varsToStarts exCutEv) u
      (fun s => ((exCycBP 3).flatBeliefs ((exCycBP 3).runBP exEnv ⟨exEqual, List.replicate (exCycSt 3).totalFactorNumStates 0, exCutEv⟩ 3 0)).getD (start + s) 0 + c) :=
  C118_partial exCyc3_compiled (state := exCycBPState 3) rfl exEnv ⟨.inl rfl, by decide +kernel⟩ exEqual exCutEv 3 (by decide +kernel) (by decide +kernel) (b := fun _ => 1000)
    (fun _ => by norm_num) (exEqual_moderate _ (by decide +kernel)).tame
    (fun f vs hf hge => by
      have h1 := (List.getElem?_eq_some_iff.1 hf).1
      have h2 : (graphOf (exCycVars 3) (exCycHist 3)).allScopes.length = (graphOf (exCycVars 3) (exCycHist 3)).tables.length := by decide +kernel
      omega)
    (by decide +kernel) (by decide +kernel) (fun _ => 10) (fun _ => by norm_num) exEqual_complete (fun _ => 0) {exCycVar 3 2} exCut_dominant exCyc3_without
    (by decide +kernel) u hu hu2

theorem exCyc3_stated : (∀ g ∈ exCycVars 3, g.Regular) ∧ ∀ g ∈ exCycVars 3, g.Stated := by
  have : ∀ g ∈ exCycVars 3, g.Regular ∧ g.Stated := by
    simp only [exCycVars, List.mem_cons, List.not_mem_nil, or_false, forall_eq]
    simp [VGroup.Regular, VGroup.Stated]
  exact ⟨fun g hg => (this g hg).1, fun g hg => (this g hg).2⟩

/-- The scores of the cycle. -/
theorem exEqual_score {x : Var → Nat} {ρ : Nat → List Nat × ℚ} (hJ : Joint (graphVars (exCycVars 3)) ((graphOf (exCycVars 3) (exCycHist 3)).factors exEqual) x ρ) :
    jointScore (graphVars (exCycVars 3)) ((graphOf (exCycVars 3) (exCycHist 3)).factors exEqual) (readEv (exCycSt 3).varsToStarts exCutEv) x ρ =
      (if x (exCycVar 3 1) = 1 then 1 else 0) + (if x (exCycVar 3 2) = 0 then 25 else 0) +
        ((if x (exCycVar 3 0) = x (exCycVar 3 1) then 10 else 0) + (if x (exCycVar 3 1) = x (exCycVar 3 2) then 10 else 0) +
          (if x (exCycVar 3 2) = x (exCycVar 3 0) then 10 else 0)) := by
  have hgv : graphVars (exCycVars 3) = {exCycVar 3 0, exCycVar 3 1, exCycVar 3 2} := by decide +kernel
  have hev : ∀ v ∈ graphVars (exCycVars 3), ∀ s < 2, readEv (exCycSt 3).varsToStarts exCutEv v s =
      if v = exCycVar 3 1 then (if s = 1 then 1 else 0) else if v = exCycVar 3 2 then (if s = 0 then 25 else 0) else 0 := by decide +kernel
  have h01 : exCycVar 3 0 ≠ exCycVar 3 1 ∧ exCycVar 3 2 ≠ exCycVar 3 1 ∧ exCycVar 3 0 ≠ exCycVar 3 2 := by decide +kernel
  have hn : ∀ v ∈ graphVars (exCycVars 3), v.n = 2 := by decide +kernel
  have key : ∀ (r : List Nat × ℚ) (p q : Nat), r ∈ [([0, 0], (10 : ℚ)), ([0, 1], 0), ([1, 0], 0), ([1, 1], 10)] → r.1 = [p, q] → r.2 = if p = q then 10 else 0 := by
    intro r p q hr h
    simp only [List.mem_cons, List.not_mem_nil, or_false] at hr
    rcases hr with rfl | rfl | rfl | rfl <;> simp only [List.cons.injEq, and_true] at h <;> obtain ⟨rfl, rfl⟩ := h <;> norm_num
  have e3 : ((graphOf (exCycVars 3) (exCycHist 3)).factors exEqual).length = 3 := by rw [exEqual_factors]; rfl
  have hst := hJ.states
  have hrows := hJ.rows
  rw [exEqual_factors] at hrows
  obtain ⟨a1, a2⟩ := hrows 0 _ rfl
  obtain ⟨b1, b2⟩ := hrows 1 _ rfl
  obtain ⟨c1, c2⟩ := hrows 2 _ rfl
  have ka := key _ _ _ a1 a2
  have kb := key _ _ _ b1 b2
  have kc := key _ _ _ c1 c2
  have hsum : ∑ v ∈ graphVars (exCycVars 3), readEv (exCycSt 3).varsToStarts exCutEv v (x v) =
      (if x (exCycVar 3 1) = 1 then 1 else 0) + (if x (exCycVar 3 2) = 0 then 25 else 0) := by
    rw [Finset.sum_congr rfl fun v hv => hev v hv _ (by rw [← hn v hv]; exact hst v hv), hgv]
    generalize exCycVar 3 0 = a at h01 ⊢
    generalize exCycVar 3 1 = b at h01 ⊢
    generalize exCycVar 3 2 = c at h01 ⊢
    rw [Finset.sum_insert (by simp [h01]), Finset.sum_insert (by simp [h01.2.1.symm]), Finset.sum_singleton]
    rw [if_neg h01.1, if_neg h01.2.2, if_pos rfl, if_neg h01.2.1, if_pos rfl, zero_add]
  unfold jointScore
  rw [e3, hsum]
  simp only [Finset.sum_range_succ, Finset.range_zero, Finset.sum_empty, zero_add]
  rw [ka, kb, kc]

/-- All states 0 are the unique best assignment. -/
theorem exCut_map : IsUniqueMAP (graphVars (exCycVars 3)) ((graphOf (exCycVars 3) (exCycHist 3)).factors exEqual) (readEv (exCycSt 3).varsToStarts exCutEv)
    (fun _ => 0) (fun _ => ([0, 0], (10 : ℚ))) := by
  have hn : ∀ v ∈ graphVars (exCycVars 3), v.n = 2 := by decide +kernel
  have hgv : graphVars (exCycVars 3) = {exCycVar 3 0, exCycVar 3 1, exCycVar 3 2} := by decide +kernel
  have hJ : Joint (graphVars (exCycVars 3)) ((graphOf (exCycVars 3) (exCycHist 3)).factors exEqual) (fun _ => 0) (fun _ => ([0, 0], (10 : ℚ))) := by
    refine ⟨fun v hv => by rw [hn v hv]; norm_num, fun f F hF => ?_⟩
    rw [exEqual_factors] at hF
    match f, hF with
    | 0, hF => cases hF; simp
    | 1, hF => cases hF; simp
    | 2, hF => cases hF; simp
  refine ⟨hJ, ?_⟩
  rintro x ρ hJ' ⟨v, hv, hne⟩
  rw [exEqual_score hJ, exEqual_score hJ']
  have hst : ∀ v ∈ graphVars (exCycVars 3), x v < 2 := fun v hv => by rw [← hn v hv]; exact hJ'.states v hv
  rw [hgv] at hst hv
  generalize exCycVar 3 0 = a at hst hv ⊢
  generalize exCycVar 3 1 = b at hst hv ⊢
  generalize exCycVar 3 2 = c at hst hv ⊢
  have ha := hst a (by simp)
  have hb := hst b (by simp)
  have hc := hst c (by simp)
  have hor : x a ≠ 0 ∨ x b ≠ 0 ∨ x c ≠ 0 := by
    simp only [Finset.mem_insert, Finset.mem_singleton] at hv
    rcases hv with rfl | rfl | rfl
    · exact .inl hne
    · exact .inr (.inl hne)
    · exact .inr (.inr hne)
  generalize x a = p at ha hor ⊢
  generalize x b = q at hb hor ⊢
  generalize x c = r at hc hor ⊢
  interval_cases p <;> interval_cases q <;> interval_cases r <;> simp_all <;> norm_num

/-- Non-vacuity of C118 (3): the strong evidence for state 0 of the third variable outweighs that for state 1 of the second one. -/
example : ∃ bs rs, (exCycBP 3).getBeliefs ((exCycBP 3).runBP exEnv ⟨exEqual, List.replicate (exCycSt 3).totalFactorNumStates 0, exCutEv⟩ 3 0) = .ok bs ∧
    decodeMapStates bs = .ok rs ∧ rs.map (·.1) = exCycVars 3 ∧ ∀ p ∈ rs, ∀ v ∈ p.1.variables, p.1.StateIn v 0 p.2 :=
  C118_decode_partial exCyc3_compiled (state := exCycBPState 3) rfl exEnv ⟨.inl rfl, by decide +kernel⟩ exEqual exCutEv 3 (by decide +kernel) (by decide +kernel) (b := fun _ => 1000)
    (fun _ => by norm_num) (exEqual_moderate _ (by decide +kernel)).tame
    (fun f vs hf hge => by
      have h1 := (List.getElem?_eq_some_iff.1 hf).1
      have h2 : (graphOf (exCycVars 3) (exCycHist 3)).allScopes.length = (graphOf (exCycVars 3) (exCycHist 3)).tables.length := by decide +kernel
      omega)
    (by decide +kernel) exCyc3_stated.1 exCyc3_stated.2 (fun _ => 10) (fun _ => by norm_num) exEqual_complete (fun _ => 0) {exCycVar 3 2} exCut_dominant exCyc3_without
    (by decide +kernel) exCut_map

/-- **C118 does not hold for weak evidence.** On the same cycle without the evidence of the third variable, three iterations count the evidence of the second
variable twice: the beliefs of the first variable differ by 2, its max-marginals by 1. -/
theorem C118_refuted : let ev : List ℚ := [0, 0, 0, 1, 0, 0]
    Compiled (exCycVars 3) (exCycHist 3) 0 (exCycSt 3) ∧ BP.create (exCycSt 3) (exCycBPState 3) 0 = .ok (exCycBP 3) ∧
    Moderate (graphOf (exCycVars 3) (exCycHist 3)) exEqual (readEv (exCycSt 3).varsToStarts ev) 0 ∧
    (∀ (f : Nat) (F : SFac ℚ), ((graphOf (exCycVars 3) (exCycHist 3)).factors exEqual)[f]? = some F → F.Complete ∧ F.Within 10) ∧
    (bipartite (without {exCycVar 3 2} (graphOf (exCycVars 3) (exCycHist 3)).allScopes)).IsAcyclic ∧
    (graphOf (exCycVars 3) (exCycHist 3)).allScopes.length = 3 ∧
    ((exCycBP 3).flatBeliefs ((exCycBP 3).runBP exEnv ⟨exEqual, List.replicate 12 0, ev⟩ 3 0)).take 2 = [-2, 0] ∧
    (exCycSt 3).varsToStarts (exCycVar 3 0) = some 0 ∧
    ∀ c, ¬IsMaxMarginal (graphVars (exCycVars 3)) ((graphOf (exCycVars 3) (exCycHist 3)).factors exEqual)
        (readEv (exCycSt 3).varsToStarts ev) (exCycVar 3 0) (fun s => [-2, 0].getD s 0 + c) := by
  intro ev
  refine ⟨exCyc3_compiled, rfl, exEqual_moderate _ (by decide +kernel), exEqual_complete, exCyc3_without, by decide +kernel, by decide +kernel, by decide +kernel, ?_⟩
  have h := C117_loop_refuted.2.2.2.2.2.2.2
  have hU : subgraph ((graphOf (exCycVars 3) (exCycHist 3)).factors exEqual) [0, 1, 2] = (graphOf (exCycVars 3) (exCycHist 3)).factors exEqual := by
    rw [exEqual_factors]; rfl
  intro c hc
  refine h c ?_
  show IsMaxMarginal _ (subgraph ((graphOf (exCycVars 3) (exCycHist 3)).factors exEqual) [0, 1, 2]) _ _ _
  rw [hU]
  exact hc

end PGMax

