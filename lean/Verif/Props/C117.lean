import Verif.Lemmas.Girth
import Verif.Props.C63
import Verif.Props.C100

/-!
# C117: on graphs with loops, belief propagation is exact for as long as it has not gone around a loop

Without damping and from zero messages, the beliefs of a variable after `n + 1` iterations are its exact (max- or sum-) marginals in the part of the
graph that has the factors with a variable within `n` steps, if this part has no loops and no message is clipped.
-/

namespace PGMax

section
variable {κ α : Type _} {vgs : List (VGroup κ)} {hist : List (AddArg α)} {garbage : Garbage} {st : FGState κ α}
variable [Field α] [LinearOrder α] [IsStrictOrderedRing α]

omit [Field α] [LinearOrder α] [IsStrictOrderedRing α] in
/-- The ball as a tree with its centre as root. -/
theorem IsBall.forest {factors : List (SFac α)} {r : Var} {n : Nat} {idx : List Nat} {vars : Finset Var} (hB : IsBall (factors.map (·.scope)) r n idx vars)
    (hG : (bipartite ((subgraph factors idx).map (·.scope))).IsAcyclic) (hnd : ∀ f ∈ idx, ∀ vs, (factors.map (·.scope))[f]? = some vs → vs.Nodup) :
    RootedForest ((subgraph factors idx).map (·.scope)) (upOf ((subgraph factors idx).map (·.scope)) r) (parOf ((subgraph factors idx).map (·.scope)) r)
      (fun f => (2 * (n + 1) - 1 - depth ((subgraph factors idx).map (·.scope)) r (.inr f)) / 2) ∧ parOf ((subgraph factors idx).map (·.scope)) r r = none ∧
      ∀ f < ((subgraph factors idx).map (·.scope)).length, (2 * (n + 1) - 1 - depth ((subgraph factors idx).map (·.scope)) r (.inr f)) / 2 < n + 1 := by
  refine rootedForest hG ?_ hB.ne r (n + 1) hB.dist hB.other
  intro vs hvs
  obtain ⟨F, hF, rfl⟩ := List.mem_map.1 hvs
  obtain ⟨g, hg⟩ := List.mem_iff_getElem?.1 hF
  obtain ⟨f, k1, k2⟩ := (subgraph_getElem? hB.lt).1 hg
  exact hnd f (List.mem_of_getElem? k1) _ (getElem?_scopes k2)

omit [Field α] [LinearOrder α] [IsStrictOrderedRing α] in
/-- The variables of the ball have states. -/
theorem IsBall.pos {factors : List (SFac α)} {r : Var} {n : Nat} {idx : List Nat} {vars : Finset Var} (hB : IsBall (factors.map (·.scope)) r n idx vars)
    (hr : 0 < r.n) (hpos : ∀ f i v, IsEdge (factors.map (·.scope)) f i v → 0 < v.n) : ∀ v ∈ vars, 0 < v.n := by
  intro v hv
  have key : ∀ (k : Nat) (w : Var), 0 < w.n → Within (factors.map (·.scope)) k w v → 0 < v.n := by
    intro k
    induction k with
    | zero => intro w hw h; cases h; exact hw
    | succ k ih =>
      intro w hw h
      rcases h with rfl | ⟨vs, h1, h2, y, h3, h4⟩
      · exact hw
      · obtain ⟨f, hf⟩ := List.mem_iff_getElem?.1 h1
        obtain ⟨i, hi⟩ := List.mem_iff_getElem?.1 h3
        exact ih y (hpos f i y ⟨vs, hf, hi⟩) h4
  exact key _ r hr ((hB.vars v).1 hv)

/-- Textbook max-product belief propagation computes the max-marginals of the ball. -/
theorem tbRun_ball {factors : List (SFac α)} (hrow : ∀ F ∈ factors, ∀ r ∈ F.rows, List.Forall₂ (fun s (v : Var) => s < v.n) r.1 F.scope)
    (hpos : ∀ f i v, IsEdge (factors.map (·.scope)) f i v → 0 < v.n) (ev : Var → Nat → α) {r : Var} (hr : 0 < r.n) {n : Nat} {idx : List Nat} {vars : Finset Var}
    (hB : IsBall (factors.map (·.scope)) r n idx vars) (hG : (bipartite ((subgraph factors idx).map (·.scope))).IsAcyclic)
    (hnd : ∀ f ∈ idx, ∀ vs, (factors.map (·.scope))[f]? = some vs → vs.Nodup)
    (hclip : ∀ k < n + 1, ∀ f ∈ idx, ∀ i v s, IsEdge (factors.map (·.scope)) f i v → s < v.n → -1000 < tbRun factors ev 0 (k + 1) (fun _ _ _ => 0) f i s) :
    ∃ c, IsMaxMarginal vars (subgraph factors idx) ev r (fun s => beliefOf (factors.map (·.scope)) ev (tbRun factors ev 0 (n + 1) (fun _ _ _ => 0)) r s + c) := by
  have hrow' : ∀ (f : Nat) (F : SFac α), (subgraph factors idx)[f]? = some F → ∀ r ∈ F.rows, List.Forall₂ (fun s (v : Var) => s < v.n) r.1 F.scope :=
    fun f F hF => hB.rows hrow F (List.mem_of_getElem? hF)
  obtain ⟨hR, hroot, hht⟩ := hB.forest hG hnd
  simp only [tbRun_sumRun] at hclip ⊢
  obtain ⟨K, hK⟩ := hR.fixedUp hrow' ev (fun _ _ _ => 0) (n + 1) (fun g hg => hht g (by simpa using hg))
    (fun g v s he hs => by
      rw [tbRun_sumRun]
      exact hB.clip hrow hR (fun _ => maxOf 0) ev hclip he hs)
  obtain ⟨c, hc⟩ := hR.exact (fun f j v he => hB.edge_vars he) (hB.pos hr hpos) hrow' hK hB.root hroot
  refine ⟨c, fun s hs => ?_⟩
  have := hc s hs
  simp only [tbRun_sumRun] at this
  simp only
  rw [hB.belief hrow (fun _ => maxOf 0) ev 0 hs]
  exact this

/-- **C117 (1), partial.** At temperature 0, with damping 0 and from zero messages: let `idx` be the factors that have a variable within `n` steps of
variable `r`, and `vars` all variables within `n + 1` steps. If these factors form a graph without cycles, and none of their messages is clipped in the
first `n + 1` iterations, then the beliefs of `r` after `n + 1` iterations are, up to a constant, its exact max-marginals in the model that has only these
factors and these variables. The rest of the graph may have any loops.
Missing: numbers for which the code's constant -1e5 does not act as minus infinity; clipped messages, for which it is false (`C117_refuted`);
the size limits `Fits`. With a cycle among these factors it is false (`C117_loop_refuted`). -/
theorem C117_partial (h : Compiled vgs hist garbage st) {state : BPState α} {bp : BPFun κ α}
    (hbp : BP.create st state 0 = .ok bp) (env : Env α) (hfit : Fits env (graphOf vgs hist) (0 : α)) (lp ev : List α) (n : Nat)
    (hlp : lp.length = st.logPotentials.length) (hev : ev.length = st.numVarStates) {b : Nat → α} (hb : ∀ f, 0 ≤ b f)
    (hmod : Tame (graphOf vgs hist) lp (readEv st.varsToStarts ev) 0 b) (hlmod : LogicalTame (graphOf vgs hist) (readEv st.varsToStarts ev) b)
    (hpos : ∀ v ∈ graphVars vgs, 0 < v.n)
    (r : Var) (hr : r ∈ graphVars vgs) {idx : List Nat} {vars : Finset Var} (hB : IsBall (graphOf vgs hist).allScopes r n idx vars)
    (hclip : ∀ k, 0 < k → k ≤ n + 1 → ∀ f ∈ idx, ∀ i v s, IsEdge (graphOf vgs hist).allScopes f i v → s < v.n →
      -1000 < readMsgs (graphOf vgs hist).allScopes (bp.runBP env ⟨lp, List.replicate st.totalFactorNumStates 0, ev⟩ k 0).ftovMsgs f i s)
    (hG : (bipartite ((subgraph ((graphOf vgs hist).factors lp) idx).map (·.scope))).IsAcyclic)
    (hnd : ∀ f ∈ idx, ∀ vs, (graphOf vgs hist).allScopes[f]? = some vs → vs.Nodup) :
    ∃ c start, st.varsToStarts r = some start ∧
      IsMaxMarginal vars (subgraph ((graphOf vgs hist).factors lp) idx) (readEv st.varsToStarts ev) r
        (fun s => (bp.flatBeliefs (bp.runBP env ⟨lp, List.replicate st.totalFactorNumStates 0, ev⟩ (n + 1) 0)).getD (start + s) 0 + c) := by
  have hz : readMsgs (graphOf vgs hist).allScopes (List.replicate st.totalFactorNumStates (0 : α)) = fun _ _ _ => 0 := by
    funext f i s; exact readMsgs_zeros _ _ _ _ _
  have htb : ∀ k, AgreeOn (graphOf vgs hist).allScopes
      (readMsgs (graphOf vgs hist).allScopes (bp.runBP env ⟨lp, List.replicate st.totalFactorNumStates 0, ev⟩ k 0).ftovMsgs)
      (tbRun ((graphOf vgs hist).factors lp) (readEv st.varsToStarts ev) 0 k (fun _ _ _ => 0)) := by
    intro k
    have := h.run_textbook_tame hbp env hfit ⟨lp, List.replicate st.totalFactorNumStates 0, ev⟩ k 0 hlp hev (by simp) hmod hlmod
      (fun f i v he => ⟨0, hpos v (h.edge_vars f i v he), by rw [hz]; norm_num⟩)
      (fun f i v he => .inr (fun s _ t _ => by rw [hz]; simpa using hb f))
    rw [hz] at this
    exact this
  have hsc := (graphOf vgs hist).factors_scopes lp
  obtain ⟨c, hc⟩ := tbRun_ball (factors := (graphOf vgs hist).factors lp)
    (fun F hF => by
      obtain ⟨f, hf⟩ := List.mem_iff_getElem?.1 hF
      exact h.rowsFit lp hf)
    (fun f i v he => by rw [hsc] at he; exact hpos v (h.edge_vars f i v he)) (readEv st.varsToStarts ev) (hpos r hr) (by rw [hsc]; exact hB) hG
    (by rw [hsc]; exact hnd)
    (fun k hk f hf i v s he hs => by
      rw [hsc] at he
      rw [← htb (k + 1) f i v s he hs]
      exact hclip (k + 1) (by omega) (by omega) f hf i v s he hs)
  obtain ⟨g, hg, hv⟩ := mem_graphVars.1 hr
  obtain ⟨start, hstart⟩ := h.mem_starts hg hv
  refine ⟨c, start, hstart, fun s hs => ?_⟩
  have hl := (h.run_read hbp env hfit ⟨lp, List.replicate st.totalFactorNumStates 0, ev⟩ 0 hlp hev (n + 1) (by simp)).1
  have hbel : (bp.flatBeliefs (bp.runBP env ⟨lp, List.replicate st.totalFactorNumStates 0, ev⟩ (n + 1) 0)).getD (start + s) 0 =
      beliefOf (graphOf vgs hist).allScopes (readEv st.varsToStarts ev)
        (tbRun ((graphOf vgs hist).factors lp) (readEv st.varsToStarts ev) 0 (n + 1) (fun _ _ _ => 0)) r s := by
    rw [getD_of_some (C34_flat h hbp _ hl hev r start hstart s hs)]
    unfold beliefOf
    congr 2
    apply List.map_congr_left
    intro e he
    exact htb (n + 1) e.1 e.2 r s ((mem_edgesOf _ _ _ _).1 he) hs
  have := hc s hs
  rw [hsc] at this
  simp only
  rw [hbel]
  exact this

/-- **C117 (2), partial: decoding.** Under the same hypotheses, if `r` has the same state in all best assignments of the part of the graph, then that
state is the only maximiser of the beliefs of `r`, so it is the one that `decode_map_states` picks.
Missing: as in (1). -/
theorem C117_decode_partial (h : Compiled vgs hist garbage st) {state : BPState α} {bp : BPFun κ α}
    (hbp : BP.create st state 0 = .ok bp) (env : Env α) (hfit : Fits env (graphOf vgs hist) (0 : α)) (lp ev : List α) (n : Nat)
    (hlp : lp.length = st.logPotentials.length) (hev : ev.length = st.numVarStates) {b : Nat → α} (hb : ∀ f, 0 ≤ b f)
    (hmod : Tame (graphOf vgs hist) lp (readEv st.varsToStarts ev) 0 b) (hlmod : LogicalTame (graphOf vgs hist) (readEv st.varsToStarts ev) b)
    (hpos : ∀ v ∈ graphVars vgs, 0 < v.n)
    (r : Var) (hr : r ∈ graphVars vgs) {idx : List Nat} {vars : Finset Var} (hB : IsBall (graphOf vgs hist).allScopes r n idx vars)
    (hclip : ∀ k, 0 < k → k ≤ n + 1 → ∀ f ∈ idx, ∀ i v s, IsEdge (graphOf vgs hist).allScopes f i v → s < v.n →
      -1000 < readMsgs (graphOf vgs hist).allScopes (bp.runBP env ⟨lp, List.replicate st.totalFactorNumStates 0, ev⟩ k 0).ftovMsgs f i s)
    (hG : (bipartite ((subgraph ((graphOf vgs hist).factors lp) idx).map (·.scope))).IsAcyclic)
    (hnd : ∀ f ∈ idx, ∀ vs, (graphOf vgs hist).allScopes[f]? = some vs → vs.Nodup) {x : Var → Nat} {ρ : Nat → List Nat × α}
    (hx : IsMAP vars (subgraph ((graphOf vgs hist).factors lp) idx) (readEv st.varsToStarts ev) x ρ)
    (huniq : ∀ x' ρ', IsMAP vars (subgraph ((graphOf vgs hist).factors lp) idx) (readEv st.varsToStarts ev) x' ρ' → x' r = x r) :
    ∃ start, st.varsToStarts r = some start ∧
      IsFirstMax (fun s => (bp.flatBeliefs (bp.runBP env ⟨lp, List.replicate st.totalFactorNumStates 0, ev⟩ (n + 1) 0)).getD (start + s) 0) r.n (x r) := by
  obtain ⟨c, start, h1, h2⟩ := C117_partial h hbp env hfit lp ev n hlp hev hb hmod hlmod hpos r hr hB hclip hG hnd
  exact ⟨start, h1, h2.firstMax c ((hB.vars r).2 (Within.refl _ _ _)) hx huniq⟩

/-- **C117 (3), partial: complete tables.** For enumeration factors with all configurations, whose log potentials differ by less than 1000 in each
table, no message is clipped.
Missing: as in (1). -/
theorem C117_complete_partial (h : Compiled vgs hist garbage st) {state : BPState α} {bp : BPFun κ α}
    (hbp : BP.create st state 0 = .ok bp) (env : Env α) (hfit : Fits env (graphOf vgs hist) (0 : α)) (lp ev : List α) (n : Nat)
    (hlp : lp.length = st.logPotentials.length) (hev : ev.length = st.numVarStates)
    (hmod : Moderate (graphOf vgs hist) lp (readEv st.varsToStarts ev) 0) (htab : (graphOf vgs hist).allScopes.length = (graphOf vgs hist).tables.length)
    (hc : ∀ F ∈ (graphOf vgs hist).factors lp, F.Complete ∧ ∃ R < 1000, F.Within R)
    (hpos : ∀ v ∈ graphVars vgs, 0 < v.n) (r : Var) (hr : r ∈ graphVars vgs) {idx : List Nat} {vars : Finset Var} (hB : IsBall (graphOf vgs hist).allScopes r n idx vars)
    (hG : (bipartite ((subgraph ((graphOf vgs hist).factors lp) idx).map (·.scope))).IsAcyclic)
    (hnd : ∀ f ∈ idx, ∀ vs, (graphOf vgs hist).allScopes[f]? = some vs → vs.Nodup) :
    ∃ c start, st.varsToStarts r = some start ∧
      IsMaxMarginal vars (subgraph ((graphOf vgs hist).factors lp) idx) (readEv st.varsToStarts ev) r
        (fun s => (bp.flatBeliefs (bp.runBP env ⟨lp, List.replicate st.totalFactorNumStates 0, ev⟩ (n + 1) 0)).getD (start + s) 0 + c) := by
  refine C117_partial h hbp env hfit lp ev n hlp hev (b := fun _ => 1000) (fun _ => by norm_num) hmod.tame ?_ hpos r hr hB ?_ hG hnd
  · intro f vs hf hge
    have := (List.getElem?_eq_some_iff.1 hf).1
    omega
  · intro k hk _ f _ i v s he hs
    obtain ⟨F, hF, -, -⟩ := (graphOf vgs hist).factors_edge lp he
    obtain ⟨hcF, R, hR, hW⟩ := hc F (List.mem_of_getElem? hF)
    have hlt : f < (graphOf vgs hist).tables.length := by
      obtain ⟨vs, h1, -⟩ := he
      have := (List.getElem?_eq_some_iff.1 h1).1
      omega
    have := C56_partial h hbp env hfit ⟨lp, List.replicate st.totalFactorNumStates 0, ev⟩ k 0 hlp hev (by simp) hmod f F hF hlt hcF R hW i v he s hs
    rw [zero_pow hk.ne', zero_mul, add_zero] at this
    linarith

/-- **C117 (5), partial: no short cycles.** If all cycles of the factor graph have more than `4 (n + 1)` edges, the beliefs of every variable after `n + 1`
iterations are its exact max-marginals in the model of the factors within `n` steps. (A cycle through `m` factors has `2 m` edges.)
Missing: as in (1). -/
theorem C117_girth_partial (h : Compiled vgs hist garbage st) {state : BPState α} {bp : BPFun κ α}
    (hbp : BP.create st state 0 = .ok bp) (env : Env α) (hfit : Fits env (graphOf vgs hist) (0 : α)) (lp ev : List α) (n : Nat)
    (hlp : lp.length = st.logPotentials.length) (hev : ev.length = st.numVarStates)
    (hmod : Moderate (graphOf vgs hist) lp (readEv st.varsToStarts ev) 0) (htab : (graphOf vgs hist).allScopes.length = (graphOf vgs hist).tables.length)
    (hc : ∀ F ∈ (graphOf vgs hist).factors lp, F.Complete ∧ ∃ R < 1000, F.Within R)
    (hpos : ∀ v ∈ graphVars vgs, 0 < v.n)
    (hgirth : ∀ (x : Var ⊕ Nat) (c : (bipartite (graphOf vgs hist).allScopes).Walk x x), c.IsCycle → 4 * (n + 1) < c.length)
    (hnd : ∀ vs ∈ (graphOf vgs hist).allScopes, vs.Nodup) (r : Var) (hr : r ∈ graphVars vgs) :
    ∃ idx vars c start, IsBall (graphOf vgs hist).allScopes r n idx vars ∧ st.varsToStarts r = some start ∧
      IsMaxMarginal vars (subgraph ((graphOf vgs hist).factors lp) idx) (readEv st.varsToStarts ev) r
        (fun s => (bp.flatBeliefs (bp.runBP env ⟨lp, List.replicate st.totalFactorNumStates 0, ev⟩ (n + 1) 0)).getD (start + s) 0 + c) := by
  have hB := isBall_ball (graphOf vgs hist).allScopes r n
  have hsc := (graphOf vgs hist).factors_scopes lp
  obtain ⟨c, start, h1, h2⟩ := C117_complete_partial h hbp env hfit lp ev n hlp hev hmod htab hc hpos r hr hB
    (IsBall.acyclic (factors := (graphOf vgs hist).factors lp) (by rw [hsc]; exact hB) (by rw [hsc]; exact hgirth))
    (fun f _ vs hf => hnd vs (List.mem_of_getElem? hf))
  exact ⟨_, _, c, start, hB, h1, h2⟩

end

/-- **C117 (0).** Every variable has such a part of the graph around it, which is unique up to the order of its factors. -/
theorem C117_ball (scopes : List (List Var)) (r : Var) (n : Nat) : (∃ idx vars, IsBall scopes r n idx vars) ∧
    ∀ idx vars idx' vars', IsBall scopes r n idx vars → IsBall scopes r n idx' vars' → idx.Perm idx' ∧ vars = vars' := by
  refine ⟨⟨_, _, isBall_ball scopes r n⟩, fun idx vars idx' vars' h h' => ⟨?_, ?_⟩⟩
  · exact (List.perm_ext_iff_of_nodup h.nodup h'.nodup).2 fun f => (h.facs f).trans (h'.facs f).symm
  · exact Finset.ext fun u => (h.vars u).trans (h'.vars u).symm

section
variable {κ : Type _} {vgs : List (VGroup κ)} {hist : List (AddArg ℝ)} {garbage : Garbage} {st : FGState κ ℝ}

/-- Iterations whose summaries are log-sums up to an error compute the sum-marginals of the ball up to the total error. -/
theorem sumRun_ball {factors : List (SFac ℝ)} (hrow : ∀ F ∈ factors, ∀ r ∈ F.rows, List.Forall₂ (fun s (v : Var) => s < v.n) r.1 F.scope)
    (hpos : ∀ f i v, IsEdge (factors.map (·.scope)) f i v → 0 < v.n) {T : ℝ} (hT : 0 < T)
    (Φ : Nat → List ℝ → ℝ) (ε : ℝ) (hΦ : ∀ f l, l ≠ [] → lse T l ≤ Φ f l ∧ Φ f l ≤ lse T l + ε) (ev : Var → Nat → ℝ) {r : Var} (hr : 0 < r.n)
    {n : Nat} {idx : List Nat} {vars : Finset Var}
    (hB : IsBall (factors.map (·.scope)) r n idx vars) (hG : (bipartite ((subgraph factors idx).map (·.scope))).IsAcyclic)
    (hnd : ∀ f ∈ idx, ∀ vs, (factors.map (·.scope))[f]? = some vs → vs.Nodup)
    (hclip : ∀ k < n + 1, ∀ f ∈ idx, ∀ i v s, IsEdge (factors.map (·.scope)) f i v → s < v.n → -1000 < sumRun Φ factors ev 0 (k + 1) (fun _ _ _ => 0) f i s) :
    ∃ c, ∀ s < r.n, 0 < stateWeight T vars (subgraph factors idx) ev r s ∧
      T * Real.log (stateWeight T vars (subgraph factors idx) ev r s)
        ≤ beliefOf (factors.map (·.scope)) ev (sumRun Φ factors ev 0 (n + 1) (fun _ _ _ => 0)) r s + c ∧
      beliefOf (factors.map (·.scope)) ev (sumRun Φ factors ev 0 (n + 1) (fun _ _ _ => 0)) r s + c
        ≤ T * Real.log (stateWeight T vars (subgraph factors idx) ev r s) + idx.length * ε := by
  have hrow' : ∀ (f : Nat) (F : SFac ℝ), (subgraph factors idx)[f]? = some F → ∀ r ∈ F.rows, List.Forall₂ (fun s (v : Var) => s < v.n) r.1 F.scope :=
    fun f F hF => hB.rows hrow F (List.mem_of_getElem? hF)
  obtain ⟨hR, hroot, hht⟩ := hB.forest hG hnd
  obtain ⟨K, hK⟩ := hR.sum_fixed hrow' (fun g => Φ (idx.getD g 0)) ev (fun _ _ _ => 0) (n + 1) (fun g hg => hht g (by simpa using hg))
    (fun g v s he hs => hB.clip hrow hR Φ ev hclip he hs)
  obtain ⟨c, hc⟩ := hR.sum_exact hT (fun f j v he => hB.edge_vars he) (hB.pos hr hpos)
    (fun F hF => by
      obtain ⟨g, hg⟩ := List.mem_iff_getElem?.1 hF
      obtain ⟨f, k1, k2⟩ := (subgraph_getElem? hB.lt).1 hg
      exact hnd f (List.mem_of_getElem? k1) _ (getElem?_scopes k2)) hrow'
    (ε := fun _ => ε) (K := K) (by
      intro f F v hF hv s hs
      obtain ⟨h1, h2⟩ := hK f F v hF hv s hs
      refine ⟨h1, ?_⟩
      rw [h2]
      exact hΦ _ _ (by simpa using h1)) hB.root hroot
  refine ⟨c, fun s hs => ?_⟩
  obtain ⟨h1, h2, h3⟩ := hc s hs
  rw [← hB.belief hrow Φ ev 0 hs] at h2 h3
  refine ⟨h1, h2, h3.trans ?_⟩
  simp [subgraph]

/-- **C117 (4), partial: positive temperatures.** At any temperature `T > 0`, with damping 0 and from zero messages, under the same hypotheses, the
beliefs of variable `r` after `n + 1` iterations are, up to a constant, `T` times the logarithms of its exact sum-marginals in the model that has only
the factors with a variable within `n` steps of `r`, up to an error of at most `T exp (-1e5)` for every such factor.
Missing: as in (1). -/
theorem C117_sum_partial (h : Compiled vgs hist garbage st) {state : BPState ℝ} {bp : BPFun κ ℝ} {T : ℝ} (hT : 0 < T)
    (hbp : BP.create st state T = .ok bp) (env : Env ℝ) (hexp : env.exp = Real.exp) (hlog : env.log = Real.log)
    (hfit : Fits env (graphOf vgs hist) T) (lp ev : List ℝ) (n : Nat)
    (hlp : lp.length = st.logPotentials.length) (hev : ev.length = st.numVarStates) {b : Nat → ℝ} (hb : ∀ f, 0 ≤ b f)
    (hmod : Tame (graphOf vgs hist) lp (readEv st.varsToStarts ev) 0 b) (hpos : ∀ v ∈ graphVars vgs, 0 < v.n)
    (r : Var) (hr : r ∈ graphVars vgs) {idx : List Nat} {vars : Finset Var} (hB : IsBall (graphOf vgs hist).allScopes r n idx vars)
    (hclip : ∀ k, 0 < k → k ≤ n + 1 → ∀ f ∈ idx, ∀ i v s, IsEdge (graphOf vgs hist).allScopes f i v → s < v.n →
      -1000 < readMsgs (graphOf vgs hist).allScopes (bp.runBP env ⟨lp, List.replicate st.totalFactorNumStates 0, ev⟩ k 0).ftovMsgs f i s)
    (hG : (bipartite ((subgraph ((graphOf vgs hist).factors lp) idx).map (·.scope))).IsAcyclic)
    (hnd : ∀ f ∈ idx, ∀ vs, (graphOf vgs hist).allScopes[f]? = some vs → vs.Nodup) (W : Nat → ℝ)
    (hW : W = stateWeight T vars (subgraph ((graphOf vgs hist).factors lp) idx) (readEv st.varsToStarts ev) r) :
    ∃ c start, st.varsToStarts r = some start ∧ ∀ s < r.n, 0 < W s ∧
      T * Real.log (W s) ≤ (bp.flatBeliefs (bp.runBP env ⟨lp, List.replicate st.totalFactorNumStates 0, ev⟩ (n + 1) 0)).getD (start + s) 0 + c ∧
      (bp.flatBeliefs (bp.runBP env ⟨lp, List.replicate st.totalFactorNumStates 0, ev⟩ (n + 1) 0)).getD (start + s) 0 + c
        ≤ T * Real.log (W s) + idx.length * (T * Real.exp (-100000)) := by
  subst hW
  have hz : readMsgs (graphOf vgs hist).allScopes (List.replicate st.totalFactorNumStates (0 : ℝ)) = fun _ _ _ => 0 := by
    funext f i s; exact readMsgs_zeros _ _ _ _ _
  have htb : ∀ k, AgreeOn (graphOf vgs hist).allScopes
      (readMsgs (graphOf vgs hist).allScopes (bp.runBP env ⟨lp, List.replicate st.totalFactorNumStates 0, ev⟩ k 0).ftovMsgs)
      (sumRun (codeSummary (graphOf vgs hist).tables.length T) ((graphOf vgs hist).factors lp) (readEv st.varsToStarts ev) 0 k (fun _ _ _ => 0)) := by
    intro k
    have := h.run_sum_tame hT hbp env hexp hlog hfit ⟨lp, List.replicate st.totalFactorNumStates 0, ev⟩ k 0 hlp hev (by simp) hmod
      (fun f i v he => ⟨0, hpos v (h.edge_vars f i v he), by rw [hz]; norm_num⟩)
      (fun f i v he => .inr (fun s _ t _ => by rw [hz]; simpa using hb f))
    rw [hz] at this
    exact this
  have hsc := (graphOf vgs hist).factors_scopes lp
  have hδ : 0 ≤ T * Real.exp (-100000) := by positivity
  obtain ⟨c, hc⟩ := sumRun_ball (factors := (graphOf vgs hist).factors lp)
    (fun F hF => by
      obtain ⟨f, hf⟩ := List.mem_iff_getElem?.1 hF
      exact h.rowsFit lp hf)
    (fun f i v he => by rw [hsc] at he; exact hpos v (h.edge_vars f i v he)) hT (codeSummary (graphOf vgs hist).tables.length T) (T * Real.exp (-100000))
    (fun f l hl => ⟨(codeSummary_bounds _ hT f hl).1, (codeSummary_bounds _ hT f hl).2.trans (by split <;> linarith)⟩)
    (readEv st.varsToStarts ev) (hpos r hr) (by rw [hsc]; exact hB) hG (by rw [hsc]; exact hnd)
    (fun k hk f hf i v s he hs => by
      rw [hsc] at he
      rw [← htb (k + 1) f i v s he hs]
      exact hclip (k + 1) (by omega) (by omega) f hf i v s he hs)
  obtain ⟨g, hg, hv⟩ := mem_graphVars.1 hr
  obtain ⟨start, hstart⟩ := h.mem_starts hg hv
  refine ⟨c, start, hstart, fun s hs => ?_⟩
  have hl := (h.run_read hbp env hfit ⟨lp, List.replicate st.totalFactorNumStates 0, ev⟩ 0 hlp hev (n + 1) (by simp)).1
  have hbel : (bp.flatBeliefs (bp.runBP env ⟨lp, List.replicate st.totalFactorNumStates 0, ev⟩ (n + 1) 0)).getD (start + s) 0 =
      beliefOf (graphOf vgs hist).allScopes (readEv st.varsToStarts ev)
        (sumRun (codeSummary (graphOf vgs hist).tables.length T) ((graphOf vgs hist).factors lp) (readEv st.varsToStarts ev) 0 (n + 1) (fun _ _ _ => 0)) r s := by
    rw [getD_of_some (C34_flat h hbp _ hl hev r start hstart s hs)]
    unfold beliefOf
    congr 2
    apply List.map_congr_left
    intro e he
    exact htb (n + 1) e.1 e.2 r s ((mem_edgesOf _ _ _ _).1 he) hs
  have := hc s hs
  rw [hsc] at this
  rw [hbel]
  exact this

/-- **C117 (6), partial: marginals.** At temperature 1, for enumeration factors with all configurations whose log potentials differ by less than 1000
in each table, after `n + 1` undamped iterations from zero messages `get_marginals` reports for every variable, if the factors with a variable within
`n` steps of each variable form a graph without cycles, the probabilities of the variable in the model that has only these factors, up to a factor
between `exp (-ε)` and `exp ε`, where `ε` is `exp (-1e5)` times their number.
Missing: as in (1), and the variable groups for which `get_marginals` fails (C36). -/
theorem C117_marginals_partial [DecidableEq κ] (h : Compiled vgs hist garbage st) {state : BPState ℝ} {bp : BPFun κ ℝ}
    (hbp : BP.create st state 1 = .ok bp) (env : Env ℝ) (hexp : env.exp = Real.exp) (hlog : env.log = Real.log)
    (hfit : Fits env (graphOf vgs hist) (1 : ℝ)) (lp ev : List ℝ) (n : Nat)
    (hlp : lp.length = st.logPotentials.length) (hev : ev.length = st.numVarStates)
    (hmod : Moderate (graphOf vgs hist) lp (readEv st.varsToStarts ev) 0) (htab : (graphOf vgs hist).allScopes.length = (graphOf vgs hist).tables.length)
    (hc : ∀ F ∈ (graphOf vgs hist).factors lp, F.Complete ∧ ∃ R < 1000, F.Within R) (hreg : ∀ g ∈ vgs, g.Regular) (hst : ∀ g ∈ vgs, g.Stated)
    (idx : Var → List Nat) (vars : Var → Finset Var) (hB : ∀ v ∈ graphVars vgs, IsBall (graphOf vgs hist).allScopes v n (idx v) (vars v))
    (hG : ∀ v ∈ graphVars vgs, (bipartite ((subgraph ((graphOf vgs hist).factors lp) (idx v)).map (·.scope))).IsAcyclic)
    (hnd : ∀ vs ∈ (graphOf vgs hist).allScopes, vs.Nodup)
    (P : Var → Nat → ℝ) (hP : ∀ v s, P v s =
      stateWeight 1 (vars v) (subgraph ((graphOf vgs hist).factors lp) (idx v)) (readEv st.varsToStarts ev) v s
      / totalWeight 1 (vars v) (subgraph ((graphOf vgs hist).factors lp) (idx v)) (readEv st.varsToStarts ev))
    (ε : Var → ℝ) (hε : ∀ v, ε v = (idx v).length * Real.exp (-100000)) :
    ∃ bs rs B, bp.getBeliefs (bp.runBP env ⟨lp, List.replicate st.totalFactorNumStates 0, ev⟩ (n + 1) 0) = .ok bs ∧ getMarginals env bs = .ok rs ∧
      rs.map (·.1) = vgs ∧ (∀ p ∈ rs, p.1.HasMarginals B p.2) ∧ ∀ v ∈ graphVars vgs, ∀ s < v.n,
        0 < P v s ∧ Real.exp (-ε v) * P v s ≤ gibbs (B v) v.n s ∧ gibbs (B v) v.n s ≤ Real.exp (ε v) * P v s := by
  have hl := (h.run_read hbp env hfit ⟨lp, List.replicate st.totalFactorNumStates 0, ev⟩ 0 hlp hev (n + 1) (by simp)).1
  have hpos := h.stated_pos hst
  obtain ⟨bs, rs, h1, h2, h3, h4⟩ := C36_partial h hbp env hexp hlog (bp.runBP env ⟨lp, List.replicate st.totalFactorNumStates 0, ev⟩ (n + 1) 0) hl hev hreg hst
  refine ⟨bs, rs, _, h1, h2, h3, h4, ?_⟩
  intro v hv s hs
  obtain ⟨c, start, hstart, hW⟩ := C117_sum_partial h one_pos hbp env hexp hlog hfit lp ev n hlp hev (b := fun _ => 1000) (fun _ => by norm_num) hmod.tame hpos v hv (hB v hv)
    (by
      intro k hk _ f _ i v s he hs
      obtain ⟨F, hF, -, -⟩ := (graphOf vgs hist).factors_edge lp he
      obtain ⟨hcF, R, hR, hWR⟩ := hc F (List.mem_of_getElem? hF)
      have hlt : f < (graphOf vgs hist).tables.length := by
        obtain ⟨vs, h1, -⟩ := he
        have := (List.getElem?_eq_some_iff.1 h1).1
        omega
      have := C56_sum_partial h one_pos hbp env hexp hlog hfit ⟨lp, List.replicate st.totalFactorNumStates 0, ev⟩ k 0 hlp hev (by simp) hmod f F hF hlt hcF R hWR i v he s hs
      rw [zero_pow hk.ne', zero_mul, add_zero] at this
      linarith) (hG v hv) (fun f _ vs hf => hnd vs (List.mem_of_getElem? hf)) _ rfl
  have hroot : v ∈ vars v := ((hB v hv).vars v).2 (Within.refl _ _ _)
  have hsum := sum_stateWeight 1 (subgraph ((graphOf vgs hist).factors lp) (idx v)) (readEv st.varsToStarts ev) hroot
  have hPg : P v s = gibbs (fun t => 1 * Real.log (stateWeight 1 (vars v) (subgraph ((graphOf vgs hist).factors lp) (idx v)) (readEv st.varsToStarts ev) v t)) v.n s := by
    rw [gibbs_log (fun t ht => (hW t ht).1) 1 hs, hP, ← hsum]
    simp only [Real.rpow_one]
  constructor
  · rw [hP]
    refine div_pos (hW s hs).1 ?_
    rw [← hsum]
    exact Finset.sum_pos (fun t ht => (hW t (Finset.mem_range.1 ht)).1) ⟨s, Finset.mem_range.2 hs⟩
  · rw [hPg]
    refine gibbs_close (c := c) (fun t ht => ?_) hs
    have := (hW t ht).2
    rw [getD_of_some (C34_flat h hbp _ hl hev v start hstart t ht), one_mul] at this
    rw [one_mul, hε]
    rw [one_mul] at this
    exact this

end

/-! ## Examples and refutations: cycles of six and three variables -/

set_option maxRecDepth 4000 in
theorem exCyc6_factors : (graphOf (exCycVars 6) (exCycHist 6)).factors (exCycSt 6).logPotentials =
    (List.range 6).map (fun i => ⟨[exCycVar 6 i, exCycVar 6 (i + 1)], [([0, 0], 1), ([0, 1], 0), ([1, 0], 2), ([1, 1], 5)]⟩) := rfl

set_option maxRecDepth 4000 in
theorem exCyc6_moderate : Moderate (graphOf (exCycVars 6) (exCycHist 6)) (exCycSt 6).logPotentials (readEv (exCycSt 6).varsToStarts (exCycEv ++ exCycEv)) 0 := by
  refine moderate_of_bounds (E := 3) (P := 5000) (D := 2) (K := 2) (by norm_num) ?_ ?_ (by norm_num) ?_ (by norm_num)
  · intro _ _ v s _ _
    unfold readEv List.getD
    cases e : (exCycEv ++ exCycEv)[((exCycSt 6).varsToStarts v).getD 0 + s]? with
    | none => norm_num
    | some x =>
      have : ∀ x ∈ exCycEv ++ exCycEv, |x| ≤ 3 := by decide +kernel
      exact this x (List.mem_of_getElem? e)
  · intro f i v he
    have hd : ∀ vs ∈ (graphOf (exCycVars 6) (exCycHist 6)).allScopes, ∀ v ∈ vs, (edgesOf (graphOf (exCycVars 6) (exCycHist 6)).allScopes v).length ≤ 2 := by decide +kernel
    obtain ⟨vs, h1, h2⟩ := he
    exact Nat.cast_le_ofNat.2 (hd vs (List.mem_of_getElem? h1) v (List.mem_of_getElem? h2))
  · have e : tableFacs (graphOf (exCycVars 6) (exCycHist 6)).tables (exCycSt 6).logPotentials = (graphOf (exCycVars 6) (exCycHist 6)).factors (exCycSt 6).logPotentials := rfl
    rw [e, exCyc6_factors]
    intro F hF
    obtain ⟨i, -, rfl⟩ := List.mem_map.1 hF
    refine ⟨by norm_num, ?_⟩
    simp only [List.forall_mem_cons]
    norm_num

theorem exCyc6_complete : ∀ F ∈ (graphOf (exCycVars 6) (exCycHist 6)).factors (exCycSt 6).logPotentials, F.Complete ∧ ∃ R < 1000, F.Within R := by
  rw [exCyc6_factors]
  intro F hF
  obtain ⟨i, -, rfl⟩ := List.mem_map.1 hF
  refine ⟨complete_two _ _ _ _ _ _ rfl rfl, 5, by norm_num, ?_⟩
  simp only [SFac.Within, List.forall_mem_cons]
  norm_num

theorem exCyc6_edge {f i : Nat} {v : Var} (h : IsEdge (graphOf (exCycVars 6) (exCycHist 6)).allScopes f i v) :
    f < 6 ∧ (v = exCycVar 6 f ∨ v = exCycVar 6 ((f + 1) % 6)) := by
  have e : (graphOf (exCycVars 6) (exCycHist 6)).allScopes = (List.range 6).map (fun i => [exCycVar 6 i, exCycVar 6 ((i + 1) % 6)]) := by decide +kernel
  rw [e] at h
  generalize exCycVar 6 = cv at h ⊢
  obtain ⟨vs, h1, h2⟩ := h
  rw [List.getElem?_map, Option.map_eq_some_iff] at h1
  obtain ⟨a, h3, rfl⟩ := h1
  obtain ⟨h4, h5⟩ := List.getElem?_eq_some_iff.1 h3
  simp only [List.length_range] at h4
  simp only [List.getElem_range] at h5
  subst h5
  refine ⟨h4, ?_⟩
  simpa using List.mem_of_getElem? h2

open Classical in
/-- A node of a cycle of six variables, counted along the cycle. -/
noncomputable def ringCode (cv : Nat → Var) : Var ⊕ Nat → Nat
  | .inl v => if h : ∃ k, k < 6 ∧ v = cv k then 2 * h.choose else 100
  | .inr f => 2 * f + 1

/-- All cycles of a cycle of six variables have at least 12 edges: without one of its edges it has no cycles. -/
theorem ring_girth {scopes : List (List Var)} {cv : Nat → Var} (hcv : ∀ i < 6, ∀ j < 6, cv i = cv j → i = j)
    (hE : ∀ f i v, IsEdge scopes f i v → f < 6 ∧ (v = cv f ∨ v = cv ((f + 1) % 6))) (x : Var ⊕ Nat) (c : (bipartite scopes).Walk x x) (hc : c.IsCycle) : 12 ≤ c.length := by
  by_contra hlt
  have hcode : ∀ k < 6, ringCode cv (.inl (cv k)) = 2 * k := by
    intro k hk
    have h : ∃ k', k' < 6 ∧ cv k = cv k' := ⟨k, hk, rfl⟩
    simp only [ringCode]
    rw [dif_pos h]
    rw [← hcv k hk _ h.choose_spec.1 h.choose_spec.2]
  have hV : ∀ (v : Var) (f : Nat), (bipartite scopes).Adj (.inl v) (.inr f) → f < 6 ∧ ∃ k < 6, v = cv k ∧ (k = f ∨ k = (f + 1) % 6) := by
    rintro v f ⟨i, hi⟩
    obtain ⟨h1, h2⟩ := hE f i v hi
    refine ⟨h1, ?_⟩
    rcases h2 with rfl | rfl
    · exact ⟨f, h1, rfl, .inl rfl⟩
    · exact ⟨(f + 1) % 6, Nat.mod_lt _ (by norm_num), rfl, .inr rfl⟩
  have hinj : ∀ a a', ringCode cv a' = ringCode cv a → (∃ b', (bipartite scopes).Adj a' b') → (∃ b', (bipartite scopes).Adj a b') → a' = a := by
    rintro (v | f) (v' | f') he ⟨b', hb'⟩ ⟨b, hb⟩
    · rcases b with b | b
      · exact absurd hb bipartite_not_inl
      rcases b' with b' | b'
      · exact absurd hb' bipartite_not_inl
      obtain ⟨-, k, hk, rfl, -⟩ := hV _ _ hb
      obtain ⟨-, k', hk', rfl, -⟩ := hV _ _ hb'
      rw [hcode k hk, hcode k' hk'] at he
      rw [show k' = k by omega]
    · rcases b with b | b
      · exact absurd hb bipartite_not_inl
      obtain ⟨-, k, hk, rfl, -⟩ := hV _ _ hb
      rw [hcode k hk] at he
      simp only [ringCode] at he
      omega
    · rcases b' with b' | b'
      · exact absurd hb' bipartite_not_inl
      obtain ⟨-, k, hk, rfl, -⟩ := hV _ _ hb'
      rw [hcode k hk] at he
      simp only [ringCode] at he
      omega
    · simp only [ringCode] at he
      rw [show f' = f by omega]
  -- neighbours
  have hadj : ∀ a b, (bipartite scopes).Adj a b → ringCode cv a < 12 ∧ ringCode cv b < 12 ∧
      (ringCode cv b = (ringCode cv a + 1) % 12 ∨ ringCode cv a = (ringCode cv b + 1) % 12) ∧
      (∀ a', ringCode cv a' = ringCode cv a → (∃ b', (bipartite scopes).Adj a' b') → a' = a) := by
    have key : ∀ (v : Var) (f : Nat), (bipartite scopes).Adj (.inl v) (.inr f) → ringCode cv (.inl v) < 12 ∧ ringCode cv (.inr f) < 12 ∧
        (ringCode cv (.inr f) = (ringCode cv (.inl v) + 1) % 12 ∨ ringCode cv (.inl v) = (ringCode cv (.inr f) + 1) % 12) := by
      intro v f h
      obtain ⟨h1, k, hk, rfl, h2⟩ := hV _ _ h
      rw [hcode k hk, show ringCode cv (.inr f) = 2 * f + 1 from rfl]
      omega
    rintro (v | f) (w | g) h
    · exact absurd h bipartite_not_inl
    · obtain ⟨h1, h2, h3⟩ := key v g h
      exact ⟨h1, h2, h3, fun a' e1 e2 => hinj _ a' e1 e2 ⟨_, h⟩⟩
    · obtain ⟨h1, h2, h3⟩ := key w f h.symm
      exact ⟨h2, h1, h3.symm, fun a' e1 e2 => hinj _ a' e1 e2 ⟨_, h⟩⟩
    · exact absurd h bipartite_not_inr
  -- an edge that is not in the walk
  have hmiss : ∃ k < 12, ∀ a b, s(a, b) ∈ c.edges → ¬(ringCode cv a = k ∧ ringCode cv b = (k + 1) % 12) := by
    by_contra hall
    push Not at hall
    choose! a b h1 h2 h3 using hall
    have hcard : (Finset.range 12).card ≤ c.edges.toFinset.card := by
      refine Finset.card_le_card_of_injOn (fun k => s(a k, b k)) ?_ ?_
      · intro k hk
        simp only [Finset.coe_range, Set.mem_Iio] at hk
        simpa using h1 k hk
      · intro k hk k' hk' he
        simp only [Finset.coe_range, Set.mem_Iio] at hk hk'
        have e1 := h2 k hk
        have e2 := h3 k hk
        have e3 := h2 k' hk'
        have e4 := h3 k' hk'
        simp only [Sym2.eq_iff] at he
        rcases he with ⟨e, e'⟩ | ⟨e, e'⟩
        · rw [← e1, ← e3, e]
        · rw [e, e4] at e1
          rw [e', e3] at e2
          omega
    have := List.toFinset_card_le c.edges
    rw [SimpleGraph.Walk.length_edges] at this
    rw [Finset.card_range] at hcard
    omega
  obtain ⟨k, hk, hmiss⟩ := hmiss
  let H : SimpleGraph (Var ⊕ Nat) :=
    { Adj := fun a b => (bipartite scopes).Adj a b ∧ ¬(ringCode cv a = k ∧ ringCode cv b = (k + 1) % 12) ∧
        ¬(ringCode cv b = k ∧ ringCode cv a = (k + 1) % 12)
      symm := ⟨fun a b h => ⟨h.1.symm, h.2.2, h.2.1⟩⟩
      loopless := ⟨fun a h => (bipartite scopes).loopless.irrefl a h.1⟩ }
  have hH : H.IsAcyclic := by
    refine acyclic_of_level (fun x => (ringCode cv x + 11 - k) % 12) ?_
    intro x y z hy hz h1 h2
    obtain ⟨a1, a2, a3, -⟩ := hadj x y hy.1
    obtain ⟨b1, b2, b3, -⟩ := hadj x z hz.1
    obtain ⟨-, -, -, hy4⟩ := hadj z x hz.1.symm
    have hy5 := hy.2
    have hz5 := hz.2
    refine hy4 y ?_ ⟨x, hy.1.symm⟩
    have key : ∀ k < 12, ∀ p < 12, ∀ q < 12, (q = (p + 1) % 12 ∨ p = (q + 1) % 12) → ¬(p = k ∧ q = (k + 1) % 12) → (q + 11 - k) % 12 ≤ (p + 11 - k) % 12 →
        p = (q + 1) % 12 := by
      intro k hk p hp q hq h1 h2 h3
      interval_cases k <;> omega
    have e1 := key k hk _ a1 _ a2 a3 hy5.1 h1
    have e2 := key k hk _ b1 _ b2 b3 hz5.1 h2
    omega
  have hin : ∀ e ∈ c.edges, e ∈ H.edgeSet := by
    intro e he
    induction e using Sym2.ind with
    | _ a b =>
      refine ⟨SimpleGraph.Walk.adj_of_mem_edges c he, hmiss a b he, hmiss b a ?_⟩
      rw [Sym2.eq_swap]
      exact he
  exact hH (c.transfer H hin) (hc.transfer hin)

theorem exCyc6_girth (x : Var ⊕ Nat) (c : (bipartite (graphOf (exCycVars 6) (exCycHist 6)).allScopes).Walk x x) (hc : c.IsCycle) : 12 ≤ c.length :=
  ring_girth (cv := exCycVar 6) (by decide +kernel) (fun _ _ _ => exCyc6_edge) x c hc

theorem exCyc6_pos : ∀ v ∈ graphVars (exCycVars 6), 0 < v.n := by decide +kernel

set_option maxRecDepth 4000 in
/-- Non-vacuity of C117 (1) to (3) and (5): after two iterations on the cycle of six variables, the beliefs of the first variable are its exact
max-marginals in the path of five variables around it. -/
example : IsBall (graphOf (exCycVars 6) (exCycHist 6)).allScopes (exCycVar 6 0) 1 [0, 1, 4, 5] (({0, 1, 2, 4, 5} : Finset Nat).image (exCycVar 6)) ∧
    ∃ c start, (exCycSt 6).varsToStarts (exCycVar 6 0) = some start ∧
      IsMaxMarginal (({0, 1, 2, 4, 5} : Finset Nat).image (exCycVar 6)) (subgraph ((graphOf (exCycVars 6) (exCycHist 6)).factors (exCycSt 6).logPotentials) [0, 1, 4, 5])
        (readEv (exCycSt 6).varsToStarts (exCycEv ++ exCycEv)) (exCycVar 6 0)
        (fun s => ((exCycBP 6).flatBeliefs ((exCycBP 6).runBP exEnv
          ⟨(exCycSt 6).logPotentials, List.replicate (exCycSt 6).totalFactorNumStates 0, exCycEv ++ exCycEv⟩ 2 0)).getD (start + s) 0 + c) := by
  have hB : IsBall (graphOf (exCycVars 6) (exCycHist 6)).allScopes (exCycVar 6 0) 1 [0, 1, 4, 5] (({0, 1, 2, 4, 5} : Finset Nat).image (exCycVar 6)) := by
    have := isBall_ball (graphOf (exCycVars 6) (exCycHist 6)).allScopes (exCycVar 6 0) 1
    rwa [show ballFacs (graphOf (exCycVars 6) (exCycHist 6)).allScopes (exCycVar 6 0) 1 = [0, 1, 4, 5] by decide +kernel,
      show ballVars (graphOf (exCycVars 6) (exCycHist 6)).allScopes (exCycVar 6 0) 1 = ({0, 1, 2, 4, 5} : Finset Nat).image (exCycVar 6) by decide +kernel] at this
  refine ⟨hB, ?_⟩
  have hsc := (graphOf (exCycVars 6) (exCycHist 6)).factors_scopes (exCycSt 6).logPotentials
  refine C117_complete_partial exCyc6_compiled (state := exCycBPState 6) rfl exEnv ⟨.inl rfl, by decide +kernel⟩ _ _ 1 (by decide +kernel) (by decide +kernel)
    exCyc6_moderate (by decide +kernel) exCyc6_complete exCyc6_pos (exCycVar 6 0) (by decide +kernel) hB
    (IsBall.acyclic (factors := (graphOf (exCycVars 6) (exCycHist 6)).factors (exCycSt 6).logPotentials) (by rw [hsc]; exact hB) ?_) ?_
  · rw [hsc]
    intro x c hc
    have := exCyc6_girth x c hc
    omega
  · have : ∀ vs ∈ (graphOf (exCycVars 6) (exCycHist 6)).allScopes, vs.Nodup := by decide +kernel
    exact fun f _ vs hf => this vs (List.mem_of_getElem? hf)

set_option maxRecDepth 4000 in
/-- Non-vacuity of C117 (5): all variables of the cycle of six variables after two iterations. -/
example (r : Var) (hr : r ∈ graphVars (exCycVars 6)) : ∃ idx vars c start, IsBall (graphOf (exCycVars 6) (exCycHist 6)).allScopes r 1 idx vars ∧
    (exCycSt 6).varsToStarts r = some start ∧
      IsMaxMarginal vars (subgraph ((graphOf (exCycVars 6) (exCycHist 6)).factors (exCycSt 6).logPotentials) idx)
        (readEv (exCycSt 6).varsToStarts (exCycEv ++ exCycEv)) r
        (fun s => ((exCycBP 6).flatBeliefs ((exCycBP 6).runBP exEnv
          ⟨(exCycSt 6).logPotentials, List.replicate (exCycSt 6).totalFactorNumStates 0, exCycEv ++ exCycEv⟩ 2 0)).getD (start + s) 0 + c) := by
  refine C117_girth_partial exCyc6_compiled (state := exCycBPState 6) rfl exEnv ⟨.inl rfl, by decide +kernel⟩ _ _ 1 (by decide +kernel) (by decide +kernel)
    exCyc6_moderate (by decide +kernel) exCyc6_complete exCyc6_pos ?_ (by decide +kernel) r hr
  intro x c hc
  have := exCyc6_girth x c hc
  omega

/-- The paths of three variables in a cycle of three variables. -/
theorem exPath_acyclic (a b c : Var) (hab : a ≠ b) (hbc : b ≠ c) (hac : a ≠ c) : (bipartite [[a, b], [b, c]]).IsAcyclic ∧ (bipartite [[a, b], [c, a]]).IsAcyclic := by
  have key : ∀ (scopes : List (List Var)) (x y z : Var), x ≠ y → y ≠ z → x ≠ z → (∀ f i v, IsEdge scopes f i v → (v, f) ∈ [(x, 0), (y, 0), (y, 1), (z, 1)]) →
      (bipartite scopes).IsAcyclic := by
    intro scopes x y z hxy hyz hxz hes
    refine acyclic_of_edges _ hes (fun v => if v = x then 0 else if v = y then 2 else 4) (fun f => if f = 0 then 1 else 3) ?_ ?_
    · simp only [List.mem_cons, List.not_mem_nil, or_false]
      rintro e (rfl | rfl | rfl | rfl) e' (rfl | rfl | rfl | rfl) <;> simp_all [eq_comm]
    · simp only [List.mem_cons, List.not_mem_nil, or_false]
      rintro e (rfl | rfl | rfl | rfl) e' (rfl | rfl | rfl | rfl) <;> simp_all [eq_comm]
  have hedge : ∀ (x y z w : Var) (f i : Nat) (v : Var), IsEdge [[x, y], [z, w]] f i v → (v, f) ∈ [(x, 0), (y, 0), (z, 1), (w, 1)] := by
    rintro x y z w f i v ⟨vs, h1, h2⟩
    match f, h1 with
    | 0, h1 =>
      cases h1
      have := List.mem_of_getElem? h2
      simp only [List.mem_cons, List.not_mem_nil, or_false] at this ⊢
      rcases this with rfl | rfl <;> simp
    | 1, h1 =>
      cases h1
      have := List.mem_of_getElem? h2
      simp only [List.mem_cons, List.not_mem_nil, or_false] at this ⊢
      rcases this with rfl | rfl <;> simp
  refine ⟨key _ a b c hab hbc hac (hedge a b b c), key _ b a c hab.symm hac hbc ?_⟩
  intro f i v he
  have := hedge a b c a f i v he
  simp only [List.mem_cons, List.not_mem_nil, or_false] at this ⊢
  tauto

/-- Non-vacuity of C117 (4) and (6): one iteration on the loop `exHistL`. -/
example {env : Env ℝ} (hexp : env.exp = Real.exp) (hlog : env.log = Real.log) (hw : env.wrapNeg = false)
    (P : Var → Nat → ℝ) (hP : ∀ v s, P v s =
      stateWeight 1 (ballVars (graphOf exVars exHistL).allScopes v 0) (subgraph ((graphOf exVars exHistL).factors exLpL) (ballFacs (graphOf exVars exHistL).allScopes v 0))
        (readEv exStateL.varsToStarts exEvT) v s
      / totalWeight 1 (ballVars (graphOf exVars exHistL).allScopes v 0) (subgraph ((graphOf exVars exHistL).factors exLpL) (ballFacs (graphOf exVars exHistL).allScopes v 0))
        (readEv exStateL.varsToStarts exEvT))
    (ε : Var → ℝ) (hε : ∀ v, ε v = (ballFacs (graphOf exVars exHistL).allScopes v 0).length * Real.exp (-100000)) :
    ∃ bs rs B, (exBPL 1).getBeliefs ((exBPL 1).runBP env ⟨exLpL, List.replicate exStateL.totalFactorNumStates 0, exEvT⟩ 1 0) = .ok bs ∧ getMarginals env bs = .ok rs ∧
      rs.map (·.1) = exVars ∧ (∀ p ∈ rs, p.1.HasMarginals B p.2) ∧ ∀ v ∈ graphVars exVars, ∀ s < v.n,
        0 < P v s ∧ Real.exp (-ε v) * P v s ≤ gibbs (B v) v.n s ∧ gibbs (B v) v.n s ≤ Real.exp (ε v) * P v s := by
  refine C117_marginals_partial exStateL_compiled (exBPL_create 1) env hexp hlog ⟨.inl hw, fun h => absurd h one_ne_zero⟩ exLpL exEvT 0 rfl rfl exModerateL rfl
    (fun F hF => ⟨exCompleteL F hF, 1, by norm_num, exWithinL F hF⟩) exStatedT.1 exStatedT.2 _ _ (fun v _ => isBall_ball _ v 0) ?_ (by decide +kernel) P hP ε hε
  have hv : ∀ v ∈ graphVars exVars, v = exVar 0 ∨ v = exVar 1 ∨ v = exVar 2 := by decide +kernel
  have hne : exVar 0 ≠ exVar 1 ∧ exVar 1 ≠ exVar 2 ∧ exVar 0 ≠ exVar 2 := by decide +kernel
  have hsc : (graphOf exVars exHistL).allScopes = [[exVar 0, exVar 1], [exVar 1, exVar 2], [exVar 2, exVar 0]] := rfl
  have h0 : ballFacs [[exVar 0, exVar 1], [exVar 1, exVar 2], [exVar 2, exVar 0]] (exVar 0) 0 = [0, 2] := by decide +kernel
  have h1 : ballFacs [[exVar 0, exVar 1], [exVar 1, exVar 2], [exVar 2, exVar 0]] (exVar 1) 0 = [0, 1] := by decide +kernel
  have h2 : ballFacs [[exVar 0, exVar 1], [exVar 1, exVar 2], [exVar 2, exVar 0]] (exVar 2) 0 = [1, 2] := by decide +kernel
  intro v hv'
  rw [hsc, exFactorsL]
  rcases hv v hv' with rfl | rfl | rfl
  · rw [h0]
    exact (exPath_acyclic _ _ _ hne.1 hne.2.1 hne.2.2).2
  · rw [h1]
    exact (exPath_acyclic _ _ _ hne.1 hne.2.1 hne.2.2).1
  · rw [h2]
    exact (exPath_acyclic _ _ _ hne.2.1 hne.2.2.symm hne.1.symm).1

theorem exCyc3_ball (n : Nat) (hn : n = 0 ∨ n = 1) : IsBall (graphOf (exCycVars 3) (exCycHist 3)).allScopes (exCycVar 3 0) n (if n = 0 then [0, 2] else [0, 1, 2]) (graphVars (exCycVars 3)) := by
  rcases hn with rfl | rfl
  · have := isBall_ball (graphOf (exCycVars 3) (exCycHist 3)).allScopes (exCycVar 3 0) 0
    rwa [show ballFacs (graphOf (exCycVars 3) (exCycHist 3)).allScopes (exCycVar 3 0) 0 = [0, 2] by decide +kernel,
      show ballVars (graphOf (exCycVars 3) (exCycHist 3)).allScopes (exCycVar 3 0) 0 = graphVars (exCycVars 3) by decide +kernel] at this
  · have := isBall_ball (graphOf (exCycVars 3) (exCycHist 3)).allScopes (exCycVar 3 0) 1
    rwa [show ballFacs (graphOf (exCycVars 3) (exCycHist 3)).allScopes (exCycVar 3 0) 1 = [0, 1, 2] by decide +kernel,
      show ballVars (graphOf (exCycVars 3) (exCycHist 3)).allScopes (exCycVar 3 0) 1 = graphVars (exCycVars 3) by decide +kernel] at this

/-- **C117 does not hold if messages are clipped.** On the cycle of three variables, with log potentials -5000 for state 1 of the first variable in one
factor, the beliefs of that variable after one iteration differ by 1000; its max-marginals in the path of its two factors differ by 5000. -/
theorem C117_refuted : let lp : List ℚ := [0, 0, -5000, -5000, 0, 0, 0, 0, 0, 0, 0, 0]
    let ev : List ℚ := [0, 0, 0, 0, 0, 0]
    Compiled (exCycVars 3) (exCycHist 3) 0 (exCycSt 3) ∧ BP.create (exCycSt 3) (exCycBPState 3) 0 = .ok (exCycBP 3) ∧
    Moderate (graphOf (exCycVars 3) (exCycHist 3)) lp (readEv (exCycSt 3).varsToStarts ev) 0 ∧
    (exCycBP 3).flatBeliefs ((exCycBP 3).runBP exEnv ⟨lp, List.replicate 12 0, ev⟩ 1 0) = [0, -1000, 0, 0, 0, 0] ∧
    (exCycSt 3).varsToStarts (exCycVar 3 0) = some 0 ∧
    IsBall (graphOf (exCycVars 3) (exCycHist 3)).allScopes (exCycVar 3 0) 0 [0, 2] (graphVars (exCycVars 3)) ∧
    (bipartite ((subgraph ((graphOf (exCycVars 3) (exCycHist 3)).factors lp) [0, 2]).map (·.scope))).IsAcyclic ∧
    ∀ c, ¬IsMaxMarginal (graphVars (exCycVars 3)) (subgraph ((graphOf (exCycVars 3) (exCycHist 3)).factors lp) [0, 2])
        (readEv (exCycSt 3).varsToStarts ev) (exCycVar 3 0) (fun s => [0, -1000, 0, 0, 0, 0].getD (0 + s) 0 + c) := by
  intro lp ev
  have e : (graphOf (exCycVars 3) (exCycHist 3)).factors lp =
    [⟨[exCycVar 3 0, exCycVar 3 1], [([0, 0], 0), ([0, 1], 0), ([1, 0], -5000), ([1, 1], -5000)]⟩,
     ⟨[exCycVar 3 1, exCycVar 3 2], [([0, 0], 0), ([0, 1], 0), ([1, 0], 0), ([1, 1], 0)]⟩,
     ⟨[exCycVar 3 2, exCycVar 3 0], [([0, 0], 0), ([0, 1], 0), ([1, 0], 0), ([1, 1], 0)]⟩] := rfl
  refine ⟨exCyc3_compiled, rfl, exCyc3_moderate _ _ ?_ (by decide +kernel), by decide +kernel, by decide +kernel, exCyc3_ball 0 (.inl rfl), ?_, ?_⟩
  · rw [e]
    simp only [List.forall_mem_cons]
    norm_num
  · rw [e]
    exact (exPath_acyclic (exCycVar 3 0) (exCycVar 3 1) (exCycVar 3 2) (by decide +kernel) (by decide +kernel) (by decide +kernel)).2
  · intro c hc
    have hz : ∀ v s, readEv (exCycSt 3).varsToStarts ev v s = 0 := by
      intro v s
      unfold readEv
      have : ev = List.replicate 6 0 := rfl
      rw [this, List.getD_eq_getElem?_getD, List.getElem?_replicate]
      split <;> rfl
    have hU : subgraph ((graphOf (exCycVars 3) (exCycHist 3)).factors lp) [0, 2] =
      [⟨[exCycVar 3 0, exCycVar 3 1], [([0, 0], 0), ([0, 1], 0), ([1, 0], -5000), ([1, 1], -5000)]⟩,
       ⟨[exCycVar 3 2, exCycVar 3 0], [([0, 0], 0), ([0, 1], 0), ([1, 0], 0), ([1, 1], 0)]⟩] := by rw [e]; rfl
    rw [hU] at hc
    have key : ∀ x ρ, Joint (graphVars (exCycVars 3))
        [⟨[exCycVar 3 0, exCycVar 3 1], [([0, 0], 0), ([0, 1], 0), ([1, 0], -5000), ([1, 1], -5000)]⟩,
         ⟨[exCycVar 3 2, exCycVar 3 0], [([0, 0], 0), ([0, 1], 0), ([1, 0], 0), ([1, 1], 0)]⟩] x ρ →
        jointScore (graphVars (exCycVars 3))
        [⟨[exCycVar 3 0, exCycVar 3 1], [([0, 0], 0), ([0, 1], 0), ([1, 0], -5000), ([1, 1], -5000)]⟩,
         ⟨[exCycVar 3 2, exCycVar 3 0], [([0, 0], 0), ([0, 1], 0), ([1, 0], 0), ([1, 1], 0)]⟩]
          (readEv (exCycSt 3).varsToStarts ev) x ρ = if x (exCycVar 3 0) = 0 then 0 else -5000 := by
      intro x ρ hJ
      obtain ⟨a1, a2⟩ := hJ.rows 0 _ rfl
      obtain ⟨b1, b2⟩ := hJ.rows 1 _ rfl
      unfold jointScore
      simp only [hz, Finset.sum_const_zero, List.length_cons, List.length_nil, Finset.sum_range_succ, Finset.range_zero, Finset.sum_empty, zero_add]
      simp only [List.mem_cons, List.not_mem_nil, or_false] at a1 b1
      have hb : (ρ 1).2 = 0 := by rcases b1 with b1 | b1 | b1 | b1 <;> rw [b1]
      rw [hb, add_zero]
      simp only [List.map_cons, List.map_nil] at a2
      rcases a1 with a1 | a1 | a1 | a1 <;> rw [a1] at a2 ⊢ <;> simp only [List.cons.injEq, and_true] at a2 <;> simp [a2.1.symm, ← a2.1]
    obtain ⟨x, ρ, hJ, hx, hz0⟩ := (hc 0 (by decide)).1
    obtain ⟨x', ρ', hJ', hx', hz1⟩ := (hc 1 (by decide)).1
    rw [key x ρ hJ, hx] at hz0
    rw [key x' ρ' hJ', hx'] at hz1
    norm_num at hz0 hz1
    rw [hz0] at hz1
    norm_num at hz1

/-- **C117 does not hold if the factors near the variable have a cycle.** On the cycle of three variables, whose factors favour equal states, two iterations
go around the cycle. They count the evidence for state 1 of the second variable twice: the beliefs of the first variable differ by 2, its
max-marginals by 1. No message is clipped. -/
theorem C117_loop_refuted : let lp : List ℚ := [10, 0, 0, 10, 10, 0, 0, 10, 10, 0, 0, 10]
    let ev : List ℚ := [0, 0, 0, 1, 0, 0]
    Compiled (exCycVars 3) (exCycHist 3) 0 (exCycSt 3) ∧ BP.create (exCycSt 3) (exCycBPState 3) 0 = .ok (exCycBP 3) ∧
    Moderate (graphOf (exCycVars 3) (exCycHist 3)) lp (readEv (exCycSt 3).varsToStarts ev) 0 ∧
    (∀ F ∈ (graphOf (exCycVars 3) (exCycHist 3)).factors lp, F.Complete ∧ ∃ R < 1000, F.Within R) ∧
    ((exCycBP 3).flatBeliefs ((exCycBP 3).runBP exEnv ⟨lp, List.replicate 12 0, ev⟩ 2 0)).take 2 = [-2, 0] ∧
    (exCycSt 3).varsToStarts (exCycVar 3 0) = some 0 ∧
    IsBall (graphOf (exCycVars 3) (exCycHist 3)).allScopes (exCycVar 3 0) 1 [0, 1, 2] (graphVars (exCycVars 3)) ∧
    ∀ c, ¬IsMaxMarginal (graphVars (exCycVars 3)) (subgraph ((graphOf (exCycVars 3) (exCycHist 3)).factors lp) [0, 1, 2])
        (readEv (exCycSt 3).varsToStarts ev) (exCycVar 3 0) (fun s => [-2, 0].getD s 0 + c) := by
  intro lp ev
  have e : (graphOf (exCycVars 3) (exCycHist 3)).factors lp =
    [⟨[exCycVar 3 0, exCycVar 3 1], [([0, 0], 10), ([0, 1], 0), ([1, 0], 0), ([1, 1], 10)]⟩,
     ⟨[exCycVar 3 1, exCycVar 3 2], [([0, 0], 10), ([0, 1], 0), ([1, 0], 0), ([1, 1], 10)]⟩,
     ⟨[exCycVar 3 2, exCycVar 3 0], [([0, 0], 10), ([0, 1], 0), ([1, 0], 0), ([1, 1], 10)]⟩] := rfl
  refine ⟨exCyc3_compiled, rfl, exCyc3_moderate _ _ ?_ (by decide +kernel), ?_, by decide +kernel, by decide +kernel, exCyc3_ball 1 (.inr rfl), ?_⟩
  · rw [e]
    simp only [List.forall_mem_cons]
    norm_num
  · rw [e]
    simp only [List.forall_mem_cons]
    refine ⟨⟨complete_two _ _ _ _ _ _ rfl rfl, 10, by norm_num, ?_⟩, ⟨complete_two _ _ _ _ _ _ rfl rfl, 10, by norm_num, ?_⟩,
      ⟨complete_two _ _ _ _ _ _ rfl rfl, 10, by norm_num, ?_⟩, by simp⟩ <;>
    · simp only [SFac.Within, List.forall_mem_cons]
      norm_num
  · intro c hc
    have hU : subgraph ((graphOf (exCycVars 3) (exCycHist 3)).factors lp) [0, 1, 2] = (graphOf (exCycVars 3) (exCycHist 3)).factors lp := by rw [e]; rfl
    rw [hU, e] at hc
    have hgv : graphVars (exCycVars 3) = {exCycVar 3 0, exCycVar 3 1, exCycVar 3 2} := by decide +kernel
    have hev : ∀ v ∈ graphVars (exCycVars 3), ∀ s < 2, readEv (exCycSt 3).varsToStarts ev v s = if v = exCycVar 3 1 ∧ s = 1 then 1 else 0 := by decide +kernel
    have h01 : exCycVar 3 0 ≠ exCycVar 3 1 ∧ exCycVar 3 2 ≠ exCycVar 3 1 ∧ exCycVar 3 0 ≠ exCycVar 3 2 := by decide +kernel
    have hn : ∀ v ∈ graphVars (exCycVars 3), v.n = 2 := by decide +kernel
    -- all scores
    have hscore : ∀ x ρ, (∀ v ∈ graphVars (exCycVars 3), x v < v.n) → jointScore (graphVars (exCycVars 3)) ((graphOf (exCycVars 3) (exCycHist 3)).factors lp) (readEv (exCycSt 3).varsToStarts ev) x ρ =
        (if x (exCycVar 3 1) = 1 then 1 else 0) + ((ρ 0).2 + (ρ 1).2 + (ρ 2).2) := by
      intro x ρ hx
      have e3 : ((graphOf (exCycVars 3) (exCycHist 3)).factors lp).length = 3 := by rw [e]; rfl
      unfold jointScore
      rw [e3]
      simp only [Finset.sum_range_succ, Finset.range_zero, Finset.sum_empty, zero_add]
      congr 1
      have : ∀ v ∈ graphVars (exCycVars 3), readEv (exCycSt 3).varsToStarts ev v (x v) = if v = exCycVar 3 1 then (if x (exCycVar 3 1) = 1 then 1 else 0) else 0 := by
        intro v hv
        rw [hev v hv _ (by rw [← hn v hv]; exact hx v hv)]
        by_cases h : v = exCycVar 3 1
        · subst h; simp
        · simp [h]
      rw [Finset.sum_congr rfl this, Finset.sum_ite_eq' , if_pos (by rw [hgv]; simp)]
    rw [← e] at hc
    -- all states 0
    have hJ : Joint (graphVars (exCycVars 3)) ((graphOf (exCycVars 3) (exCycHist 3)).factors lp) (fun _ => 0) (fun _ => ([0, 0], (10 : ℚ))) := by
      refine ⟨fun v hv => by rw [hn v hv]; norm_num, fun f F hF => ?_⟩
      rw [e] at hF
      match f, hF with
      | 0, hF => cases hF; simp
      | 1, hF => cases hF; simp
      | 2, hF => cases hF; simp
    have h0 := (hc 0 (by decide)).2 ⟨_, _, hJ, rfl, rfl⟩
    rw [hscore _ _ hJ.states] at h0
    obtain ⟨x, ρ, hJ', -, h1⟩ := (hc 1 (by decide)).1
    rw [hscore _ _ hJ'.states] at h1
    have hr : ∀ f < 3, (ρ f).2 ≤ 10 := by
      intro f hf
      have hF : ∃ F, ((graphOf (exCycVars 3) (exCycHist 3)).factors lp)[f]? = some F ∧ ∀ r ∈ F.rows, r.2 ≤ 10 := by
        rw [e]
        interval_cases f
        all_goals
          refine ⟨_, rfl, ?_⟩
          simp only [List.forall_mem_cons]
          norm_num
      obtain ⟨F, hF, hF'⟩ := hF
      exact hF' _ (hJ'.rows f F hF).1
    have r0 := hr 0 (by norm_num)
    have r1 := hr 1 (by norm_num)
    have r2 := hr 2 (by norm_num)
    have hi : (if x (exCycVar 3 1) = 1 then (1 : ℚ) else 0) ≤ 1 := by split <;> norm_num
    norm_num at h0 h1
    linarith

end PGMax
