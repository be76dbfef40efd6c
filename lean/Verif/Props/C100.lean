import Verif.Lemmas.Unwrap
import Verif.Lemmas.Tame
import Verif.Props.C56
import Verif.Props.C60
import Verif.Props.C76
import Verif.Props.C84
import Verif.Props.C99

/-!
# C100: on graphs with loops, belief propagation computes the marginals of the unwrapped tree

Without damping and from zero messages, the beliefs of a variable after `n` iterations are its exact (max- or sum-) marginals in the tree that
has the walks of at most `n` steps from the variable as variables, if no message is clipped.
-/

namespace PGMax

section
variable {α : Type _} {factors : List (SFac α)} {r : Var} {n : Nat}

/-- The number of steps of the walk of a variable of the tree, and of the walk that enters a factor. -/
def treeLevel (scopes : List (List Var)) (r : Var) (n : Nat) : Var ⊕ Nat → Nat
  | .inl v => 2 * (((Encodable.decode v.hash : Option Steps).getD []).length)
  | .inr g => 2 * ((treePlaces scopes r n).getD g ([], 0, 0)).1.length + 1

theorem treeLevel_var (scopes : List (List Var)) (q : Steps) : treeLevel scopes r n (.inl (treeVar scopes r q)) = 2 * q.length := by
  unfold treeLevel treeVar
  simp only [Encodable.encodek, Option.getD_some]

/-- **C100 (0).** What a graph unwraps into is a tree: it has no cycles, and all its variables are connected to the root. -/
theorem C100_tree : (bipartite ((unwrap factors r n).map (·.scope))).IsAcyclic ∧
    ∀ v ∈ unwrapVars (factors.map (·.scope)) r n,
      (bipartite ((unwrap factors r n).map (·.scope))).Reachable (.inl (treeVar (factors.map (·.scope)) r [])) (.inl v) := by
  constructor
  · apply acyclic_of_level (treeLevel (factors.map (·.scope)) r n)
    -- a factor and a position of it that is not above
    have hfac : ∀ g j v, IsEdge ((unwrap factors r n).map (·.scope)) g j v →
        treeLevel (factors.map (·.scope)) r n (.inl v) ≤ treeLevel (factors.map (·.scope)) r n (.inr g) →
        ∃ p f i, (treePlaces (factors.map (·.scope)) r n)[g]? = some (p, f, i) ∧ v = treeVar (factors.map (·.scope)) r p := by
      intro g j v he hle
      obtain ⟨p, f, i, a1, a2, rfl⟩ := unwrap_edge.1 he
      refine ⟨p, f, i, a1, ?_⟩
      rw [treeLevel_var] at hle
      simp only [treeLevel] at hle
      rw [getD_of_some a1] at hle
      unfold walkOn at hle ⊢
      split at hle
      · next h => rw [if_pos h]
      · simp only [List.length_cons] at hle; omega
    have hvar : ∀ g j v, IsEdge ((unwrap factors r n).map (·.scope)) g j v →
        treeLevel (factors.map (·.scope)) r n (.inr g) ≤ treeLevel (factors.map (·.scope)) r n (.inl v) →
        ∃ p f i, (treePlaces (factors.map (·.scope)) r n)[g]? = some (p, f, i) ∧ v = treeVar (factors.map (·.scope)) r ((f, i, j) :: p) := by
      intro g j v he hle
      obtain ⟨p, f, i, a1, a2, rfl⟩ := unwrap_edge.1 he
      refine ⟨p, f, i, a1, ?_⟩
      rw [treeLevel_var] at hle
      simp only [treeLevel] at hle
      rw [getD_of_some a1] at hle
      unfold walkOn at hle ⊢
      split at hle
      · simp only at hle; omega
      · next h => rw [if_neg h]
    rintro (v | g) (y | y) (z | z) h1 h2 hy hz
    · exact h1.elim
    · exact h1.elim
    · exact h2.elim
    · obtain ⟨j, h1⟩ := h1
      obtain ⟨k, h2⟩ := h2
      obtain ⟨p, f, i, a1, a2⟩ := hvar y j v h1 hy
      obtain ⟨p', f', i', b1, b2⟩ := hvar z k v h2 hz
      have e := treeVar_inj (a2.symm.trans b2)
      simp only [List.cons.injEq, Prod.mk.injEq] at e
      obtain ⟨⟨rfl, rfl, -⟩, rfl⟩ := e
      rw [(List.getElem?_inj (List.getElem?_eq_some_iff.1 a1).1 (treePlaces_nodup n)).1 (a1.trans b1.symm)]
    · obtain ⟨j, h1⟩ := h1
      obtain ⟨k, h2⟩ := h2
      obtain ⟨p, f, i, a1, rfl⟩ := hfac g j y h1 hy
      obtain ⟨p', f', i', b1, rfl⟩ := hfac g k z h2 hz
      rw [a1] at b1
      cases b1
      rfl
    · exact h2.elim
    · exact h1.elim
    · exact h1.elim
  · intro v hv
    obtain ⟨q, hq, hl, rfl⟩ := mem_unwrapVars.1 hv
    clear hv
    induction q with
    | nil => exact SimpleGraph.Reachable.refl _
    | cons e p ih =>
      obtain ⟨f, i, j⟩ := e
      obtain ⟨h1, h2, h3, h4⟩ := hq
      simp only [List.length_cons] at hl
      obtain ⟨g, hg⟩ := List.mem_iff_getElem?.1 (mem_treePlaces.2 ⟨(by omega : p.length < n), h1, h2⟩)
      obtain ⟨-, -, -, F, b1, b2, b3⟩ := place_facts hg
      have e1 : (bipartite ((unwrap factors r n).map (·.scope))).Adj (.inl (treeVar (factors.map (·.scope)) r p)) (.inr g) :=
        ⟨i, unwrap_edge.2 ⟨p, f, i, hg, by rw [b2]; exact (List.getElem?_eq_some_iff.1 b3).1, by simp [walkOn]⟩⟩
      have e2 : (bipartite ((unwrap factors r n).map (·.scope))).Adj (.inr g) (.inl (treeVar (factors.map (·.scope)) r ((f, i, j) :: p))) :=
        ⟨j, unwrap_edge.2 ⟨p, f, i, hg, h3, by simp [walkOn, h4]⟩⟩
      exact ((ih h1 (by omega)).trans e1.reachable).trans e2.reachable

end

section
variable {κ α : Type _} {vgs : List (VGroup κ)} {hist : List (AddArg α)} {garbage : Garbage} {st : FGState κ α}
variable [Field α] [LinearOrder α] [IsStrictOrderedRing α]

/-- The variables of the tree have states. -/
theorem unwrapVars_pos {scopes : List (List Var)} {r : Var} (hr : 0 < r.n) (hpos : ∀ f i v, IsEdge scopes f i v → 0 < v.n) (n : Nat) :
    ∀ v ∈ unwrapVars scopes r n, 0 < v.n := by
  intro v hv
  obtain ⟨q, hq, -, rfl⟩ := mem_unwrapVars.1 hv
  rw [treeVar_n]
  rcases walkEnd_mem hq with e | ⟨f, i, he⟩
  · rw [e]; exact hr
  · exact hpos f i _ he

theorem root_mem_unwrapVars (scopes : List (List Var)) (r : Var) (n : Nat) : treeVar scopes r [] ∈ unwrapVars scopes r n :=
  mem_unwrapVars.2 ⟨[], trivial, by simp, rfl⟩

/-- Textbook max-product belief propagation computes the max-marginals of the unwrapped tree. -/
theorem tbRun_unwrap {factors : List (SFac α)} (hrow : ∀ F ∈ factors, ∀ r ∈ F.rows, List.Forall₂ (fun s (v : Var) => s < v.n) r.1 F.scope)
    (hpos : ∀ f i v, IsEdge (factors.map (·.scope)) f i v → 0 < v.n) (ev : Var → Nat → α) {r : Var} (hr : 0 < r.n) (n : Nat)
    (hclip : ∀ k < n, ∀ f i v s, IsEdge (factors.map (·.scope)) f i v → s < v.n → -1000 < tbRun factors ev 0 (k + 1) (fun _ _ _ => 0) f i s) :
    ∃ c, IsMaxMarginal (unwrapVars (factors.map (·.scope)) r n) (unwrap factors r n) (unwrapEv (factors.map (·.scope)) r ev) (treeVar (factors.map (·.scope)) r [])
      (fun s => beliefOf (factors.map (·.scope)) ev (tbRun factors ev 0 n (fun _ _ _ => 0)) r s + c) := by
  have hrow' : ∀ (f : Nat) (F : SFac α), (unwrap factors r n)[f]? = some F → ∀ r ∈ F.rows, List.Forall₂ (fun s (v : Var) => s < v.n) r.1 F.scope :=
    fun f F hF => unwrap_rows hrow F (List.mem_of_getElem? hF)
  simp only [tbRun_sumRun] at hclip ⊢
  obtain ⟨K, hK⟩ := (unwrap_forest (Fs := factors) (r := r) (n := n)).fixedUp hrow' (unwrapEv (factors.map (·.scope)) r ev) (fun _ _ _ => 0) n
    (fun g hg => by
      obtain ⟨p, f, i, h1, -⟩ := unwrap_getElem?.1 (List.getElem?_eq_getElem hg)
      have h2 := (place_facts h1).1
      unfold treeHt
      omega)
    (fun g v s he hs => by
      rw [tbRun_sumRun]
      exact unwrap_clip hrow (fun _ => maxOf 0) ev hclip he hs)
  obtain ⟨c, hc⟩ := unwrap_forest.exact (fun f j v he => unwrap_edge_vars he) (unwrapVars_pos hr hpos n) hrow' hK (root_mem_unwrapVars _ r n) unwrap_root
  refine ⟨c, fun s hs => ?_⟩
  have := hc s hs
  simp only [tbRun_sumRun] at this
  rw [unwrap_belief hrow (fun _ => maxOf 0) ev 0 (by rw [← treeVar_root_n]; exact hs)] at this
  exact this

/-- **C100 (1), partial.** At temperature 0, with damping 0 and from zero messages: if no message is clipped in the first `n` iterations, the beliefs
of variable `r` after `n` iterations are, up to a constant, its exact max-marginals in the tree of walks of at most `n` steps from `r`. The graph
may have any loops, and factors that have a variable twice.
Missing: numbers for which the code's constant -1e5 does not act as minus infinity; clipped messages, for which it is false (`C100_refuted`);
the size limits `Fits`. -/
theorem C100_partial (h : Compiled vgs hist garbage st) {state : BPState α} {bp : BPFun κ α}
    (hbp : BP.create st state 0 = .ok bp) (env : Env α) (hfit : Fits env (graphOf vgs hist) (0 : α)) (lp ev : List α) (n : Nat)
    (hlp : lp.length = st.logPotentials.length) (hev : ev.length = st.numVarStates) {b : Nat → α} (hb : ∀ f, 0 ≤ b f)
    (hmod : Tame (graphOf vgs hist) lp (readEv st.varsToStarts ev) 0 b) (hlmod : LogicalTame (graphOf vgs hist) (readEv st.varsToStarts ev) b)
    (hpos : ∀ v ∈ graphVars vgs, 0 < v.n)
    (hclip : ∀ k, 0 < k → k ≤ n → ∀ f i v s, IsEdge (graphOf vgs hist).allScopes f i v → s < v.n →
      -1000 < readMsgs (graphOf vgs hist).allScopes (bp.runBP env ⟨lp, List.replicate st.totalFactorNumStates 0, ev⟩ k 0).ftovMsgs f i s)
    (r : Var) (hr : r ∈ graphVars vgs) :
    ∃ c start, st.varsToStarts r = some start ∧
      IsMaxMarginal (unwrapVars (graphOf vgs hist).allScopes r n) (unwrap ((graphOf vgs hist).factors lp) r n)
        (unwrapEv (graphOf vgs hist).allScopes r (readEv st.varsToStarts ev)) (treeVar (graphOf vgs hist).allScopes r [])
        (fun s => (bp.flatBeliefs (bp.runBP env ⟨lp, List.replicate st.totalFactorNumStates 0, ev⟩ n 0)).getD (start + s) 0 + c) := by
  have hz : readMsgs (graphOf vgs hist).allScopes (List.replicate st.totalFactorNumStates (0 : α)) = fun _ _ _ => 0 := by
    funext f i s; exact readMsgs_zeros _ _ _ _ _
  have htb : ∀ k, AgreeOn (graphOf vgs hist).allScopes
      (readMsgs (graphOf vgs hist).allScopes (bp.runBP env ⟨lp, List.replicate st.totalFactorNumStates 0, ev⟩ k 0).ftovMsgs)
      (tbRun ((graphOf vgs hist).factors lp) (readEv st.varsToStarts ev) 0 k (fun _ _ _ => 0)) := by
    intro k
    have := h.run_textbook_tame hbp env hfit ⟨lp, List.replicate st.totalFactorNumStates 0, ev⟩ k 0 hlp hev (by simp) hmod hlmod
      (fun f i v he => ⟨0, hpos v (h.edge_vars f i v he), by rw [hz]; norm_num⟩)
      (fun f i v he => .inr (fun s _ t _ => by rw [hz]; simpa using hb f))
    rw [hz] at this
    exact this
  have hsc := (graphOf vgs hist).factors_scopes lp
  obtain ⟨c, hc⟩ := tbRun_unwrap (factors := (graphOf vgs hist).factors lp)
    (fun F hF => by
      obtain ⟨f, hf⟩ := List.mem_iff_getElem?.1 hF
      exact h.rowsFit lp hf)
    (fun f i v he => by rw [hsc] at he; exact hpos v (h.edge_vars f i v he)) (readEv st.varsToStarts ev) (hpos r hr) n
    (fun k hk f i v s he hs => by
      rw [hsc] at he
      rw [← htb (k + 1) f i v s he hs]
      exact hclip (k + 1) (by omega) (by omega) f i v s he hs)
  obtain ⟨g, hg, hv⟩ := mem_graphVars.1 hr
  obtain ⟨start, hstart⟩ := h.mem_starts hg hv
  refine ⟨c, start, hstart, fun s hs => ?_⟩
  have hs' : s < r.n := by rw [treeVar_root_n] at hs; exact hs
  have hl := (h.run_read hbp env hfit ⟨lp, List.replicate st.totalFactorNumStates 0, ev⟩ 0 hlp hev n (by simp)).1
  have hbel : (bp.flatBeliefs (bp.runBP env ⟨lp, List.replicate st.totalFactorNumStates 0, ev⟩ n 0)).getD (start + s) 0 =
      beliefOf (graphOf vgs hist).allScopes (readEv st.varsToStarts ev)
        (tbRun ((graphOf vgs hist).factors lp) (readEv st.varsToStarts ev) 0 n (fun _ _ _ => 0)) r s := by
    rw [getD_of_some (C34_flat h hbp _ hl hev r start hstart s hs')]
    unfold beliefOf
    congr 2
    apply List.map_congr_left
    intro e he
    exact htb n e.1 e.2 r s ((mem_edgesOf _ _ _ _).1 he) hs'
  have := hc s hs
  rw [hsc] at this
  simp only
  rw [hbel]
  exact this

/-- **C100 (2), partial: decoding.** Under the same hypotheses, if the root has the same state in all best assignments of the tree, then that
state is the only maximiser of the beliefs of `r`, so it is the one that `decode_map_states` picks.
Missing: as in (1). -/
theorem C100_decode_partial (h : Compiled vgs hist garbage st) {state : BPState α} {bp : BPFun κ α}
    (hbp : BP.create st state 0 = .ok bp) (env : Env α) (hfit : Fits env (graphOf vgs hist) (0 : α)) (lp ev : List α) (n : Nat)
    (hlp : lp.length = st.logPotentials.length) (hev : ev.length = st.numVarStates) {b : Nat → α} (hb : ∀ f, 0 ≤ b f)
    (hmod : Tame (graphOf vgs hist) lp (readEv st.varsToStarts ev) 0 b) (hlmod : LogicalTame (graphOf vgs hist) (readEv st.varsToStarts ev) b)
    (hpos : ∀ v ∈ graphVars vgs, 0 < v.n)
    (hclip : ∀ k, 0 < k → k ≤ n → ∀ f i v s, IsEdge (graphOf vgs hist).allScopes f i v → s < v.n →
      -1000 < readMsgs (graphOf vgs hist).allScopes (bp.runBP env ⟨lp, List.replicate st.totalFactorNumStates 0, ev⟩ k 0).ftovMsgs f i s)
    (r : Var) (hr : r ∈ graphVars vgs) {x : Var → Nat} {ρ : Nat → List Nat × α}
    (hx : IsMAP (unwrapVars (graphOf vgs hist).allScopes r n) (unwrap ((graphOf vgs hist).factors lp) r n)
      (unwrapEv (graphOf vgs hist).allScopes r (readEv st.varsToStarts ev)) x ρ)
    (huniq : ∀ x' ρ', IsMAP (unwrapVars (graphOf vgs hist).allScopes r n) (unwrap ((graphOf vgs hist).factors lp) r n)
      (unwrapEv (graphOf vgs hist).allScopes r (readEv st.varsToStarts ev)) x' ρ' →
      x' (treeVar (graphOf vgs hist).allScopes r []) = x (treeVar (graphOf vgs hist).allScopes r [])) :
    ∃ start, st.varsToStarts r = some start ∧
      IsFirstMax (fun s => (bp.flatBeliefs (bp.runBP env ⟨lp, List.replicate st.totalFactorNumStates 0, ev⟩ n 0)).getD (start + s) 0) r.n
        (x (treeVar (graphOf vgs hist).allScopes r [])) := by
  obtain ⟨c, start, h1, h2⟩ := C100_partial h hbp env hfit lp ev n hlp hev hb hmod hlmod hpos hclip r hr
  exact ⟨start, h1, h2.firstMax c (root_mem_unwrapVars _ r n) hx huniq⟩

/-- **C100 (3), partial: complete tables.** For enumeration factors with all configurations, whose log potentials differ by less than 1000 in each
table, no message is clipped.
Missing: as in (1). -/
theorem C100_complete_partial (h : Compiled vgs hist garbage st) {state : BPState α} {bp : BPFun κ α}
    (hbp : BP.create st state 0 = .ok bp) (env : Env α) (hfit : Fits env (graphOf vgs hist) (0 : α)) (lp ev : List α) (n : Nat)
    (hlp : lp.length = st.logPotentials.length) (hev : ev.length = st.numVarStates)
    (hmod : Moderate (graphOf vgs hist) lp (readEv st.varsToStarts ev) 0) (htab : (graphOf vgs hist).allScopes.length = (graphOf vgs hist).tables.length)
    (hc : ∀ F ∈ (graphOf vgs hist).factors lp, F.Complete ∧ ∃ R < 1000, F.Within R)
    (hpos : ∀ v ∈ graphVars vgs, 0 < v.n) (r : Var) (hr : r ∈ graphVars vgs) :
    ∃ c start, st.varsToStarts r = some start ∧
      IsMaxMarginal (unwrapVars (graphOf vgs hist).allScopes r n) (unwrap ((graphOf vgs hist).factors lp) r n)
        (unwrapEv (graphOf vgs hist).allScopes r (readEv st.varsToStarts ev)) (treeVar (graphOf vgs hist).allScopes r [])
        (fun s => (bp.flatBeliefs (bp.runBP env ⟨lp, List.replicate st.totalFactorNumStates 0, ev⟩ n 0)).getD (start + s) 0 + c) := by
  refine C100_partial h hbp env hfit lp ev n hlp hev (b := fun _ => 1000) (fun _ => by norm_num) hmod.tame ?_ hpos ?_ r hr
  · intro f vs hf hge
    have := (List.getElem?_eq_some_iff.1 hf).1
    omega
  · intro k hk _ f i v s he hs
    obtain ⟨F, hF, -, -⟩ := (graphOf vgs hist).factors_edge lp he
    obtain ⟨hcF, R, hR, hW⟩ := hc F (List.mem_of_getElem? hF)
    have hlt : f < (graphOf vgs hist).tables.length := by
      obtain ⟨vs, h1, -⟩ := he
      have := (List.getElem?_eq_some_iff.1 h1).1
      omega
    have := C56_partial h hbp env hfit ⟨lp, List.replicate st.totalFactorNumStates 0, ev⟩ k 0 hlp hev (by simp) hmod f F hF hlt hcF R hW i v he s hs
    rw [zero_pow hk.ne', zero_mul, add_zero] at this
    linarith

end

section
variable {κ : Type _} {vgs : List (VGroup κ)} {hist : List (AddArg ℝ)} {garbage : Garbage} {st : FGState κ ℝ}

/-- Iterations whose summaries are log-sums up to an error compute the sum-marginals of the unwrapped tree up to the total error. -/
theorem sumRun_unwrap {factors : List (SFac ℝ)} (hrow : ∀ F ∈ factors, ∀ r ∈ F.rows, List.Forall₂ (fun s (v : Var) => s < v.n) r.1 F.scope)
    (hpos : ∀ f i v, IsEdge (factors.map (·.scope)) f i v → 0 < v.n) {T : ℝ} (hT : 0 < T)
    (Φ : Nat → List ℝ → ℝ) (ε : ℝ) (hΦ : ∀ f l, l ≠ [] → lse T l ≤ Φ f l ∧ Φ f l ≤ lse T l + ε) (ev : Var → Nat → ℝ) {r : Var} (hr : 0 < r.n) (n : Nat)
    (hclip : ∀ k < n, ∀ f i v s, IsEdge (factors.map (·.scope)) f i v → s < v.n → -1000 < sumRun Φ factors ev 0 (k + 1) (fun _ _ _ => 0) f i s) :
    ∃ c, ∀ s < r.n, 0 < stateWeight T (unwrapVars (factors.map (·.scope)) r n) (unwrap factors r n) (unwrapEv (factors.map (·.scope)) r ev) (treeVar (factors.map (·.scope)) r []) s ∧
      T * Real.log (stateWeight T (unwrapVars (factors.map (·.scope)) r n) (unwrap factors r n) (unwrapEv (factors.map (·.scope)) r ev) (treeVar (factors.map (·.scope)) r []) s)
        ≤ beliefOf (factors.map (·.scope)) ev (sumRun Φ factors ev 0 n (fun _ _ _ => 0)) r s + c ∧
      beliefOf (factors.map (·.scope)) ev (sumRun Φ factors ev 0 n (fun _ _ _ => 0)) r s + c
        ≤ T * Real.log (stateWeight T (unwrapVars (factors.map (·.scope)) r n) (unwrap factors r n) (unwrapEv (factors.map (·.scope)) r ev) (treeVar (factors.map (·.scope)) r []) s)
          + (unwrap factors r n).length * ε := by
  have hrow' : ∀ (f : Nat) (F : SFac ℝ), (unwrap factors r n)[f]? = some F → ∀ r ∈ F.rows, List.Forall₂ (fun s (v : Var) => s < v.n) r.1 F.scope :=
    fun f F hF => unwrap_rows hrow F (List.mem_of_getElem? hF)
  obtain ⟨K, m, hK, hbel⟩ := unwrap_fixed (r := r) (n := n) hrow Φ ev hclip
  obtain ⟨c, hc⟩ := unwrap_forest.sum_exact hT (fun f j v he => unwrap_edge_vars he) (unwrapVars_pos hr hpos n) unwrap_nodup hrow'
    (ε := fun _ => ε) (K := K) (m := m) (by
      intro f F v hF hv s hs
      obtain ⟨h1, h2⟩ := hK f F v hF hv s hs
      refine ⟨h1, ?_⟩
      rw [h2]
      exact hΦ _ _ (by simpa using h1)) (root_mem_unwrapVars _ r n) unwrap_root
  refine ⟨c, fun s hs => ?_⟩
  obtain ⟨h1, h2, h3⟩ := hc s (by rw [treeVar_root_n]; exact hs)
  rw [hbel s hs] at h2 h3
  refine ⟨h1, h2, h3.trans ?_⟩
  simp

/-- **C100 (4), partial: positive temperatures.** At any temperature `T > 0`, with damping 0 and from zero messages: if no message is clipped in the
first `n` iterations, the beliefs of variable `r` after `n` iterations are, up to a constant, `T` times the logarithms of its exact sum-marginals in
the tree of walks of at most `n` steps from `r`, up to an error of at most `T exp (-1e5)` for every factor of the tree.
Missing: as in (1). -/
theorem C100_sum_partial (h : Compiled vgs hist garbage st) {state : BPState ℝ} {bp : BPFun κ ℝ} {T : ℝ} (hT : 0 < T)
    (hbp : BP.create st state T = .ok bp) (env : Env ℝ) (hexp : env.exp = Real.exp) (hlog : env.log = Real.log)
    (hfit : Fits env (graphOf vgs hist) T) (lp ev : List ℝ) (n : Nat)
    (hlp : lp.length = st.logPotentials.length) (hev : ev.length = st.numVarStates) {b : Nat → ℝ} (hb : ∀ f, 0 ≤ b f)
    (hmod : Tame (graphOf vgs hist) lp (readEv st.varsToStarts ev) 0 b) (hpos : ∀ v ∈ graphVars vgs, 0 < v.n)
    (hclip : ∀ k, 0 < k → k ≤ n → ∀ f i v s, IsEdge (graphOf vgs hist).allScopes f i v → s < v.n →
      -1000 < readMsgs (graphOf vgs hist).allScopes (bp.runBP env ⟨lp, List.replicate st.totalFactorNumStates 0, ev⟩ k 0).ftovMsgs f i s)
    (r : Var) (hr : r ∈ graphVars vgs) (W : Nat → ℝ)
    (hW : W = stateWeight T (unwrapVars (graphOf vgs hist).allScopes r n) (unwrap ((graphOf vgs hist).factors lp) r n)
      (unwrapEv (graphOf vgs hist).allScopes r (readEv st.varsToStarts ev)) (treeVar (graphOf vgs hist).allScopes r [])) :
    ∃ c start, st.varsToStarts r = some start ∧ ∀ s < r.n, 0 < W s ∧
      T * Real.log (W s) ≤ (bp.flatBeliefs (bp.runBP env ⟨lp, List.replicate st.totalFactorNumStates 0, ev⟩ n 0)).getD (start + s) 0 + c ∧
      (bp.flatBeliefs (bp.runBP env ⟨lp, List.replicate st.totalFactorNumStates 0, ev⟩ n 0)).getD (start + s) 0 + c
        ≤ T * Real.log (W s) + (unwrap ((graphOf vgs hist).factors lp) r n).length * (T * Real.exp (-100000)) := by
  subst hW
  have hz : readMsgs (graphOf vgs hist).allScopes (List.replicate st.totalFactorNumStates (0 : ℝ)) = fun _ _ _ => 0 := by
    funext f i s; exact readMsgs_zeros _ _ _ _ _
  have htb : ∀ k, AgreeOn (graphOf vgs hist).allScopes
      (readMsgs (graphOf vgs hist).allScopes (bp.runBP env ⟨lp, List.replicate st.totalFactorNumStates 0, ev⟩ k 0).ftovMsgs)
      (sumRun (codeSummary (graphOf vgs hist).tables.length T) ((graphOf vgs hist).factors lp) (readEv st.varsToStarts ev) 0 k (fun _ _ _ => 0)) := by
    intro k
    have := h.run_sum_tame hT hbp env hexp hlog hfit ⟨lp, List.replicate st.totalFactorNumStates 0, ev⟩ k 0 hlp hev (by simp) hmod
      (fun f i v he => ⟨0, hpos v (h.edge_vars f i v he), by rw [hz]; norm_num⟩)
      (fun f i v he => .inr (fun s _ t _ => by rw [hz]; simpa using hb f))
    rw [hz] at this
    exact this
  have hsc := (graphOf vgs hist).factors_scopes lp
  have hδ : 0 ≤ T * Real.exp (-100000) := by positivity
  obtain ⟨c, hc⟩ := sumRun_unwrap (factors := (graphOf vgs hist).factors lp)
    (fun F hF => by
      obtain ⟨f, hf⟩ := List.mem_iff_getElem?.1 hF
      exact h.rowsFit lp hf)
    (fun f i v he => by rw [hsc] at he; exact hpos v (h.edge_vars f i v he)) hT (codeSummary (graphOf vgs hist).tables.length T) (T * Real.exp (-100000))
    (fun f l hl => ⟨(codeSummary_bounds _ hT f hl).1, (codeSummary_bounds _ hT f hl).2.trans (by split <;> linarith)⟩)
    (readEv st.varsToStarts ev) (hpos r hr) n
    (fun k hk f i v s he hs => by
      rw [hsc] at he
      rw [← htb (k + 1) f i v s he hs]
      exact hclip (k + 1) (by omega) (by omega) f i v s he hs)
  obtain ⟨g, hg, hv⟩ := mem_graphVars.1 hr
  obtain ⟨start, hstart⟩ := h.mem_starts hg hv
  refine ⟨c, start, hstart, fun s hs => ?_⟩
  have hl := (h.run_read hbp env hfit ⟨lp, List.replicate st.totalFactorNumStates 0, ev⟩ 0 hlp hev n (by simp)).1
  have hbel : (bp.flatBeliefs (bp.runBP env ⟨lp, List.replicate st.totalFactorNumStates 0, ev⟩ n 0)).getD (start + s) 0 =
      beliefOf (graphOf vgs hist).allScopes (readEv st.varsToStarts ev)
        (sumRun (codeSummary (graphOf vgs hist).tables.length T) ((graphOf vgs hist).factors lp) (readEv st.varsToStarts ev) 0 n (fun _ _ _ => 0)) r s := by
    rw [getD_of_some (C34_flat h hbp _ hl hev r start hstart s hs)]
    unfold beliefOf
    congr 2
    apply List.map_congr_left
    intro e he
    exact htb n e.1 e.2 r s ((mem_edgesOf _ _ _ _).1 he) hs
  have := hc s hs
  rw [hsc] at this
  rw [hbel]
  exact this

/-- **C100 (5), partial: marginals.** At temperature 1, for enumeration factors with all configurations whose log potentials differ by less than 1000
in each table, after `n` undamped iterations from zero messages `get_marginals` reports for every variable the probabilities of the root of its tree
of walks of at most `n` steps, up to a factor between `exp (-ε)` and `exp ε`, where `ε` is `exp (-1e5)` times the number of factors of the tree.
Missing: as in (1), and the variable groups for which `get_marginals` fails (C36). -/
theorem C100_marginals_partial [DecidableEq κ] (h : Compiled vgs hist garbage st) {state : BPState ℝ} {bp : BPFun κ ℝ}
    (hbp : BP.create st state 1 = .ok bp) (env : Env ℝ) (hexp : env.exp = Real.exp) (hlog : env.log = Real.log)
    (hfit : Fits env (graphOf vgs hist) (1 : ℝ)) (lp ev : List ℝ) (n : Nat)
    (hlp : lp.length = st.logPotentials.length) (hev : ev.length = st.numVarStates)
    (hmod : Moderate (graphOf vgs hist) lp (readEv st.varsToStarts ev) 0) (htab : (graphOf vgs hist).allScopes.length = (graphOf vgs hist).tables.length)
    (hc : ∀ F ∈ (graphOf vgs hist).factors lp, F.Complete ∧ ∃ R < 1000, F.Within R) (hreg : ∀ g ∈ vgs, g.Regular) (hst : ∀ g ∈ vgs, g.Stated)
    (P : Var → Nat → ℝ) (hP : ∀ v s, P v s =
      stateWeight 1 (unwrapVars (graphOf vgs hist).allScopes v n) (unwrap ((graphOf vgs hist).factors lp) v n)
        (unwrapEv (graphOf vgs hist).allScopes v (readEv st.varsToStarts ev)) (treeVar (graphOf vgs hist).allScopes v []) s
      / totalWeight 1 (unwrapVars (graphOf vgs hist).allScopes v n) (unwrap ((graphOf vgs hist).factors lp) v n)
        (unwrapEv (graphOf vgs hist).allScopes v (readEv st.varsToStarts ev)))
    (ε : Var → ℝ) (hε : ∀ v, ε v = (unwrap ((graphOf vgs hist).factors lp) v n).length * Real.exp (-100000)) :
    ∃ bs rs B, bp.getBeliefs (bp.runBP env ⟨lp, List.replicate st.totalFactorNumStates 0, ev⟩ n 0) = .ok bs ∧ getMarginals env bs = .ok rs ∧
      rs.map (·.1) = vgs ∧ (∀ p ∈ rs, p.1.HasMarginals B p.2) ∧ ∀ v ∈ graphVars vgs, ∀ s < v.n,
        0 < P v s ∧ Real.exp (-ε v) * P v s ≤ gibbs (B v) v.n s ∧ gibbs (B v) v.n s ≤ Real.exp (ε v) * P v s := by
  have hl := (h.run_read hbp env hfit ⟨lp, List.replicate st.totalFactorNumStates 0, ev⟩ 0 hlp hev n (by simp)).1
  have hpos := h.stated_pos hst
  obtain ⟨bs, rs, h1, h2, h3, h4⟩ := C36_partial h hbp env hexp hlog (bp.runBP env ⟨lp, List.replicate st.totalFactorNumStates 0, ev⟩ n 0) hl hev hreg hst
  refine ⟨bs, rs, _, h1, h2, h3, h4, ?_⟩
  intro v hv s hs
  obtain ⟨c, start, hstart, hW⟩ := C100_sum_partial h one_pos hbp env hexp hlog hfit lp ev n hlp hev (b := fun _ => 1000) (fun _ => by norm_num) hmod.tame hpos
    (by
      intro k hk _ f i v s he hs
      obtain ⟨F, hF, -, -⟩ := (graphOf vgs hist).factors_edge lp he
      obtain ⟨hcF, R, hR, hWR⟩ := hc F (List.mem_of_getElem? hF)
      have hlt : f < (graphOf vgs hist).tables.length := by
        obtain ⟨vs, h1, -⟩ := he
        have := (List.getElem?_eq_some_iff.1 h1).1
        omega
      have := C56_sum_partial h one_pos hbp env hexp hlog hfit ⟨lp, List.replicate st.totalFactorNumStates 0, ev⟩ k 0 hlp hev (by simp) hmod f F hF hlt hcF R hWR i v he s hs
      rw [zero_pow hk.ne', zero_mul, add_zero] at this
      linarith) v hv _ rfl
  have hroot := root_mem_unwrapVars (graphOf vgs hist).allScopes v n
  have hn : (treeVar (graphOf vgs hist).allScopes v []).n = v.n := treeVar_root_n
  have hsum := sum_stateWeight 1 (unwrap ((graphOf vgs hist).factors lp) v n) (unwrapEv (graphOf vgs hist).allScopes v (readEv st.varsToStarts ev)) hroot
  rw [hn] at hsum
  have hPg : P v s = gibbs (fun t => 1 * Real.log (stateWeight 1 (unwrapVars (graphOf vgs hist).allScopes v n) (unwrap ((graphOf vgs hist).factors lp) v n)
      (unwrapEv (graphOf vgs hist).allScopes v (readEv st.varsToStarts ev)) (treeVar (graphOf vgs hist).allScopes v []) t)) v.n s := by
    rw [gibbs_log (fun t ht => (hW t ht).1) 1 hs, hP, ← hsum]
    simp only [Real.rpow_one]
  constructor
  · rw [hP]
    refine div_pos (hW s hs).1 ?_
    rw [← hsum]
    exact Finset.sum_pos (fun t ht => (hW t (Finset.mem_range.1 ht)).1) ⟨s, Finset.mem_range.2 hs⟩
  · rw [hPg]
    refine gibbs_close (c := c) (fun t ht => ?_) hs
    have := (hW t ht).2
    rw [getD_of_some (C34_flat h hbp _ hl hev v start hstart t ht), one_mul] at this
    rw [one_mul, hε]
    rw [one_mul] at this
    exact this

end

/-! ## Refutation and examples: a cycle of three variables -/

/-- Log potentials and evidence of moderate size on the cycle. -/
theorem exCyc3_moderate (lp ev : List ℚ) (hlp : ∀ F ∈ (graphOf (exCycVars 3) (exCycHist 3)).factors lp, F.scope.length = 2 ∧ ∀ r ∈ F.rows, |r.2| ≤ 5000)
    (hev : ∀ x ∈ ev, |x| ≤ 3) : Moderate (graphOf (exCycVars 3) (exCycHist 3)) lp (readEv (exCycSt 3).varsToStarts ev) 0 := by
  refine moderate_of_bounds (E := 3) (P := 5000) (D := 2) (K := 2) (by norm_num) ?_ ?_ (by norm_num) ?_ (by norm_num)
  · intro _ _ v s _ _
    unfold readEv List.getD
    cases e : ev[((exCycSt 3).varsToStarts v).getD 0 + s]? with
    | none => norm_num
    | some x => exact hev x (List.mem_of_getElem? e)
  · intro f i v he
    have hd : ∀ vs ∈ (graphOf (exCycVars 3) (exCycHist 3)).allScopes, ∀ v ∈ vs, (edgesOf (graphOf (exCycVars 3) (exCycHist 3)).allScopes v).length ≤ 2 := by decide +kernel
    obtain ⟨vs, h1, h2⟩ := he
    exact Nat.cast_le_ofNat.2 (hd vs (List.mem_of_getElem? h1) v (List.mem_of_getElem? h2))
  · have e : tableFacs (graphOf (exCycVars 3) (exCycHist 3)).tables lp = (graphOf (exCycVars 3) (exCycHist 3)).factors lp := rfl
    rw [e]
    intro F hF
    exact ⟨by rw [(hlp F hF).1]; norm_num, (hlp F hF).2⟩

theorem exCyc3_complete (lp : List ℚ) (hlp : lp = [1, 0, 2, 5, 1, 0, 2, 5, 1, 0, 2, 5]) :
    ∀ F ∈ (graphOf (exCycVars 3) (exCycHist 3)).factors lp, F.Complete ∧ ∃ R < 1000, F.Within R := by
  subst hlp
  have e : (graphOf (exCycVars 3) (exCycHist 3)).factors ([1, 0, 2, 5, 1, 0, 2, 5, 1, 0, 2, 5] : List ℚ) =
    [⟨[exCycVar 3 0, exCycVar 3 1], [([0, 0], 1), ([0, 1], 0), ([1, 0], 2), ([1, 1], 5)]⟩,
     ⟨[exCycVar 3 1, exCycVar 3 2], [([0, 0], 1), ([0, 1], 0), ([1, 0], 2), ([1, 1], 5)]⟩,
     ⟨[exCycVar 3 2, exCycVar 3 0], [([0, 0], 1), ([0, 1], 0), ([1, 0], 2), ([1, 1], 5)]⟩] := rfl
  rw [e]
  simp only [List.forall_mem_cons]
  refine ⟨⟨complete_two _ _ _ _ _ _ rfl rfl, 5, by norm_num, ?_⟩, ⟨complete_two _ _ _ _ _ _ rfl rfl, 5, by norm_num, ?_⟩,
    ⟨complete_two _ _ _ _ _ _ rfl rfl, 5, by norm_num, ?_⟩, by simp⟩ <;>
  · simp only [SFac.Within, List.forall_mem_cons]
    norm_num

/-- Non-vacuity of C100 (1), (2) and (3): the cycle of three variables. Its tree of walks of at most three steps from the first variable is a path of seven
variables. After three iterations the beliefs -8, 3 of the variable are the max-marginals of the middle of that path, up to a constant. -/
example : (unwrap ((graphOf (exCycVars 3) (exCycHist 3)).factors (exCycSt 3).logPotentials) (exCycVar 3 0) 3).length = 6 ∧
    (unwrapVars (graphOf (exCycVars 3) (exCycHist 3)).allScopes (exCycVar 3 0) 3).card = 7 ∧
    ((exCycBP 3).flatBeliefs ((exCycBP 3).runBP exEnv ⟨(exCycSt 3).logPotentials, List.replicate 12 0, exCycEv⟩ 3 0)).take 2 = [-8, 3] ∧
    ∃ c start, (exCycSt 3).varsToStarts (exCycVar 3 0) = some start ∧
      IsMaxMarginal (unwrapVars (graphOf (exCycVars 3) (exCycHist 3)).allScopes (exCycVar 3 0) 3)
        (unwrap ((graphOf (exCycVars 3) (exCycHist 3)).factors (exCycSt 3).logPotentials) (exCycVar 3 0) 3)
        (unwrapEv (graphOf (exCycVars 3) (exCycHist 3)).allScopes (exCycVar 3 0) (readEv (exCycSt 3).varsToStarts exCycEv))
        (treeVar (graphOf (exCycVars 3) (exCycHist 3)).allScopes (exCycVar 3 0) [])
        (fun s => ((exCycBP 3).flatBeliefs ((exCycBP 3).runBP exEnv ⟨(exCycSt 3).logPotentials, List.replicate (exCycSt 3).totalFactorNumStates 0, exCycEv⟩ 3 0)).getD
          (start + s) 0 + c) := by
  refine ⟨by decide +kernel, by decide +kernel, by decide +kernel, ?_⟩
  refine C100_complete_partial exCyc3_compiled (state := exCycBPState 3) rfl exEnv ⟨.inl rfl, by decide⟩ _ _ 3 rfl rfl ?_ rfl (exCyc3_complete _ rfl) (by decide) _ (by decide)
  refine exCyc3_moderate _ _ ?_ (by decide +kernel)
  have e : (graphOf (exCycVars 3) (exCycHist 3)).factors (exCycSt 3).logPotentials =
    [⟨[exCycVar 3 0, exCycVar 3 1], [([0, 0], 1), ([0, 1], 0), ([1, 0], 2), ([1, 1], 5)]⟩,
     ⟨[exCycVar 3 1, exCycVar 3 2], [([0, 0], 1), ([0, 1], 0), ([1, 0], 2), ([1, 1], 5)]⟩,
     ⟨[exCycVar 3 2, exCycVar 3 0], [([0, 0], 1), ([0, 1], 0), ([1, 0], 2), ([1, 1], 5)]⟩] := rfl
  rw [e]
  simp only [List.forall_mem_cons]
  norm_num

/-- Non-vacuity of C100 (4) and (5): the loop `exHistL`, whose factors disfavour equal states, after any number of iterations. -/
example {env : Env ℝ} (hexp : env.exp = Real.exp) (hlog : env.log = Real.log) (hw : env.wrapNeg = false) (n : Nat)
    (P : Var → Nat → ℝ) (hP : ∀ v s, P v s =
      stateWeight 1 (unwrapVars (graphOf exVars exHistL).allScopes v n) (unwrap ((graphOf exVars exHistL).factors exLpL) v n)
        (unwrapEv (graphOf exVars exHistL).allScopes v (readEv exStateL.varsToStarts exEvT)) (treeVar (graphOf exVars exHistL).allScopes v []) s
      / totalWeight 1 (unwrapVars (graphOf exVars exHistL).allScopes v n) (unwrap ((graphOf exVars exHistL).factors exLpL) v n)
        (unwrapEv (graphOf exVars exHistL).allScopes v (readEv exStateL.varsToStarts exEvT)))
    (ε : Var → ℝ) (hε : ∀ v, ε v = (unwrap ((graphOf exVars exHistL).factors exLpL) v n).length * Real.exp (-100000)) :
    ∃ bs rs B, (exBPL 1).getBeliefs ((exBPL 1).runBP env ⟨exLpL, List.replicate exStateL.totalFactorNumStates 0, exEvT⟩ n 0) = .ok bs ∧ getMarginals env bs = .ok rs ∧
      rs.map (·.1) = exVars ∧ (∀ p ∈ rs, p.1.HasMarginals B p.2) ∧ ∀ v ∈ graphVars exVars, ∀ s < v.n,
        0 < P v s ∧ Real.exp (-ε v) * P v s ≤ gibbs (B v) v.n s ∧ gibbs (B v) v.n s ≤ Real.exp (ε v) * P v s := by
  refine C100_marginals_partial exStateL_compiled (exBPL_create 1) env hexp hlog ⟨.inl hw, fun h => absurd h one_ne_zero⟩ exLpL exEvT n rfl rfl exModerateL rfl
    (fun F hF => ⟨exCompleteL F hF, 1, by norm_num, ?_⟩) exStatedT.1 exStatedT.2 P hP ε hε
  have : ∀ F ∈ (graphOf exVars exHistL).factors exLpL, F.Within 1 := by
    rw [exFactorsL]
    simp only [SFac.Within, List.forall_mem_cons]
    norm_num
  exact this F hF

/-- **C100 does not hold if messages are clipped.** On the cycle of three variables, with log potentials -5000 for state 1 of the first variable in one
factor, the beliefs of that variable after one iteration differ by 1000; its max-marginals in the tree of walks of one step differ by 5000. -/
theorem C100_refuted : let lp : List ℚ := [0, 0, -5000, -5000, 0, 0, 0, 0, 0, 0, 0, 0]
    let ev : List ℚ := [0, 0, 0, 0, 0, 0]
    Compiled (exCycVars 3) (exCycHist 3) 0 (exCycSt 3) ∧ BP.create (exCycSt 3) (exCycBPState 3) 0 = .ok (exCycBP 3) ∧
    Moderate (graphOf (exCycVars 3) (exCycHist 3)) lp (readEv (exCycSt 3).varsToStarts ev) 0 ∧
    (exCycBP 3).flatBeliefs ((exCycBP 3).runBP exEnv ⟨lp, List.replicate 12 0, ev⟩ 1 0) = [0, -1000, 0, 0, 0, 0] ∧
    (exCycSt 3).varsToStarts (exCycVar 3 0) = some 0 ∧
    ∀ c, ¬IsMaxMarginal (unwrapVars (graphOf (exCycVars 3) (exCycHist 3)).allScopes (exCycVar 3 0) 1)
        (unwrap ((graphOf (exCycVars 3) (exCycHist 3)).factors lp) (exCycVar 3 0) 1)
        (unwrapEv (graphOf (exCycVars 3) (exCycHist 3)).allScopes (exCycVar 3 0) (readEv (exCycSt 3).varsToStarts ev))
        (treeVar (graphOf (exCycVars 3) (exCycHist 3)).allScopes (exCycVar 3 0) [])
        (fun s => [0, -1000, 0, 0, 0, 0].getD (0 + s) 0 + c) := by
  intro lp ev
  have e : (graphOf (exCycVars 3) (exCycHist 3)).factors lp =
    [⟨[exCycVar 3 0, exCycVar 3 1], [([0, 0], 0), ([0, 1], 0), ([1, 0], -5000), ([1, 1], -5000)]⟩,
     ⟨[exCycVar 3 1, exCycVar 3 2], [([0, 0], 0), ([0, 1], 0), ([1, 0], 0), ([1, 1], 0)]⟩,
     ⟨[exCycVar 3 2, exCycVar 3 0], [([0, 0], 0), ([0, 1], 0), ([1, 0], 0), ([1, 1], 0)]⟩] := rfl
  refine ⟨exCyc3_compiled, rfl, exCyc3_moderate _ _ ?_ (by decide +kernel), by decide +kernel, by decide +kernel, ?_⟩
  · rw [e]
    simp only [List.forall_mem_cons]
    norm_num
  · intro c hc
    set sc := (graphOf (exCycVars 3) (exCycHist 3)).allScopes with hsc
    have hU : unwrap ((graphOf (exCycVars 3) (exCycHist 3)).factors lp) (exCycVar 3 0) 1 =
      [⟨[treeVar sc (exCycVar 3 0) [], treeVar sc (exCycVar 3 0) [(0, 0, 1)]], [([0, 0], 0), ([0, 1], 0), ([1, 0], -5000), ([1, 1], -5000)]⟩,
       ⟨[treeVar sc (exCycVar 3 0) [(2, 1, 0)], treeVar sc (exCycVar 3 0) []], [([0, 0], 0), ([0, 1], 0), ([1, 0], 0), ([1, 1], 0)]⟩] := by rfl
    have hz : ∀ v s, readEv (exCycSt 3).varsToStarts ev v s = 0 := by
      intro v s
      unfold readEv
      have : ev = List.replicate 6 0 := rfl
      rw [this, List.getD_eq_getElem?_getD, List.getElem?_replicate]
      split <;> rfl
    have hE : ∀ v s, unwrapEv sc (exCycVar 3 0) (readEv (exCycSt 3).varsToStarts ev) v s = 0 := by
      intro v s
      unfold unwrapEv
      split
      · exact hz _ _
      · rfl
    rw [hU] at hc
    have key : ∀ x ρ, Joint (unwrapVars sc (exCycVar 3 0) 1)
        [⟨[treeVar sc (exCycVar 3 0) [], treeVar sc (exCycVar 3 0) [(0, 0, 1)]], [([0, 0], 0), ([0, 1], 0), ([1, 0], -5000), ([1, 1], -5000)]⟩,
         ⟨[treeVar sc (exCycVar 3 0) [(2, 1, 0)], treeVar sc (exCycVar 3 0) []], [([0, 0], 0), ([0, 1], 0), ([1, 0], 0), ([1, 1], 0)]⟩] x ρ →
        jointScore (unwrapVars sc (exCycVar 3 0) 1)
        [⟨[treeVar sc (exCycVar 3 0) [], treeVar sc (exCycVar 3 0) [(0, 0, 1)]], [([0, 0], 0), ([0, 1], 0), ([1, 0], -5000), ([1, 1], -5000)]⟩,
         ⟨[treeVar sc (exCycVar 3 0) [(2, 1, 0)], treeVar sc (exCycVar 3 0) []], [([0, 0], 0), ([0, 1], 0), ([1, 0], 0), ([1, 1], 0)]⟩]
          (unwrapEv sc (exCycVar 3 0) (readEv (exCycSt 3).varsToStarts ev)) x ρ = if x (treeVar sc (exCycVar 3 0) []) = 0 then 0 else -5000 := by
      intro x ρ hJ
      obtain ⟨a1, a2⟩ := hJ.rows 0 _ rfl
      obtain ⟨b1, b2⟩ := hJ.rows 1 _ rfl
      unfold jointScore
      simp only [hE, Finset.sum_const_zero, List.length_cons, List.length_nil, Finset.sum_range_succ, Finset.range_zero, Finset.sum_empty, zero_add]
      simp only [List.mem_cons, List.not_mem_nil, or_false] at a1 b1
      have hb : (ρ 1).2 = 0 := by rcases b1 with b1 | b1 | b1 | b1 <;> rw [b1]
      rw [hb, add_zero]
      simp only [List.map_cons, List.map_nil] at a2
      rcases a1 with a1 | a1 | a1 | a1 <;> rw [a1] at a2 ⊢ <;> simp only [List.cons.injEq, and_true] at a2 <;> simp [a2.1.symm, ← a2.1]
    obtain ⟨x, ρ, hJ, hx, hz0⟩ := (hc 0 (by rw [treeVar_root_n]; decide)).1
    obtain ⟨x', ρ', hJ', hx', hz1⟩ := (hc 1 (by rw [treeVar_root_n]; decide)).1
    rw [key x ρ hJ, hx] at hz0
    rw [key x' ρ' hJ', hx'] at hz1
    norm_num at hz0 hz1
    rw [hz0] at hz1
    norm_num at hz1

end PGMax
