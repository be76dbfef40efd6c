import Verif.Lemmas.Damped
import Verif.Props.C56
import Verif.Props.C58

/-! # C59: damped belief propagation converges on trees, to the same limit -/

namespace PGMax

open Filter Topology

variable {κ : Type _} {vgs : List (VGroup κ)} {hist : List (AddArg ℝ)} {garbage : Garbage} {st : FGState κ ℝ}

theorem tbRun_eq_sumRun {α : Type _} [Field α] [LinearOrder α] (factors : List (SFac α)) (ev : Var → Nat → α) (d : α) (n : Nat) (m : Msgs α) :
    tbRun factors ev d n m = sumRun (fun _ => maxOf 0) factors ev d n m := by
  induction n with
  | zero => rfl
  | succ n ih =>
    show tbStep factors ev d (tbRun factors ev d n m) = sumStep _ factors ev d (sumRun _ factors ev d n m)
    rw [ih]
    funext f i
    unfold tbStep sumStep
    cases factors[f]? with
    | none => rfl
    | some F =>
      simp only
      cases F.scope[i]? with
      | none => rfl
      | some v =>
        simp only
        congr 1
        funext s
        rw [tbOut_eq]
        rfl

theorem Moderate.undamped {α : Type _} [Field α] [LinearOrder α] [IsStrictOrderedRing α] {fg : FactorGraph κ α} {lp : List α} {ev : Var → Nat → α} {d : α} (h : Moderate fg lp ev d) : Moderate fg lp ev 0 where
  damping := by norm_num
  bounds := by
    obtain ⟨R, h1, h2⟩ := h.bounds
    refine ⟨R, h1, fun F hF => ?_⟩
    obtain ⟨W, h3, h4, h5⟩ := h2 F hF
    refine ⟨W, h3, h4, h5.imp id (fun h6 => ?_)⟩
    nlinarith [mul_nonneg h.damping.1 (sub_nonneg.2 h4), h.damping.1]

theorem codeSummary_summary (tables : Nat) {T : ℝ} (hT : 0 < T) (f : Nat) : Summary (codeSummary tables T f) := by
  unfold codeSummary
  split
  · exact summary_regLse hT
  · exact summary_lse hT

/-- From runs of the code that are iterations with summaries. -/
theorem Compiled.damped (h : Compiled vgs hist garbage st) {state : BPState ℝ} {bp : BPFun κ ℝ} {T : ℝ} (hbp : BP.create st state T = .ok bp)
    (env : Env ℝ) (hfit : Fits env (graphOf vgs hist) T) (lp ev ms ms' : List ℝ) {d : ℝ} (hd : 0 ≤ d ∧ d < 1) {Φ : Nat → List ℝ → ℝ} (hΦ : ∀ f, Summary (Φ f))
    (hlp : lp.length = st.logPotentials.length) (hev : ev.length = st.numVarStates) (hm : ms.length = st.totalFactorNumStates)
    (hm' : ms'.length = st.totalFactorNumStates) (n' : Nat)
    (hrun : ∀ n, AgreeOn (graphOf vgs hist).allScopes (readMsgs (graphOf vgs hist).allScopes (bp.runBP env ⟨lp, ms, ev⟩ n d).ftovMsgs)
      (sumRun Φ ((graphOf vgs hist).factors lp) (readEv st.varsToStarts ev) d n (readMsgs (graphOf vgs hist).allScopes ms)))
    (hrun' : AgreeOn (graphOf vgs hist).allScopes (readMsgs (graphOf vgs hist).allScopes (bp.runBP env ⟨lp, ms', ev⟩ n' 0).ftovMsgs)
      (sumRun Φ ((graphOf vgs hist).factors lp) (readEv st.varsToStarts ev) 0 n' (readMsgs (graphOf vgs hist).allScopes ms')))
    (htree : (bipartite (graphOf vgs hist).allScopes).IsAcyclic) (hnd : ∀ vs ∈ (graphOf vgs hist).allScopes, vs.Nodup)
    (hn' : (graphOf vgs hist).allScopes.length ≤ n') :
    (∀ f i v s, IsEdge (graphOf vgs hist).allScopes f i v → s < v.n →
      Tendsto (fun n => readMsgs (graphOf vgs hist).allScopes (bp.runBP env ⟨lp, ms, ev⟩ n d).ftovMsgs f i s) atTop
        (𝓝 (readMsgs (graphOf vgs hist).allScopes (bp.runBP env ⟨lp, ms', ev⟩ n' 0).ftovMsgs f i s))) ∧
    ∀ v start, st.varsToStarts v = some start → ∀ s < v.n,
      Tendsto (fun n => (bp.flatBeliefs (bp.runBP env ⟨lp, ms, ev⟩ n d)).getD (start + s) 0) atTop
        (𝓝 ((bp.flatBeliefs (bp.runBP env ⟨lp, ms', ev⟩ n' 0)).getD (start + s) 0)) := by
  have hsc := (graphOf vgs hist).factors_scopes lp
  have hlen : ((graphOf vgs hist).factors lp).length = (graphOf vgs hist).allScopes.length := by rw [← hsc]; simp
  have hmemF : ∀ F ∈ (graphOf vgs hist).factors lp, F.scope ∈ (graphOf vgs hist).allScopes := by
    intro F hF
    rw [← hsc]
    exact List.mem_map.2 ⟨F, hF, rfl⟩
  have hmsg : ∀ f i v s, IsEdge (graphOf vgs hist).allScopes f i v → s < v.n →
      Tendsto (fun n => readMsgs (graphOf vgs hist).allScopes (bp.runBP env ⟨lp, ms, ev⟩ n d).ftovMsgs f i s) atTop
        (𝓝 (readMsgs (graphOf vgs hist).allScopes (bp.runBP env ⟨lp, ms', ev⟩ n' 0).ftovMsgs f i s)) := by
    intro f i v s he hs
    rw [hrun' f i v s he hs]
    simp only [fun n => hrun n f i v s he hs]
    exact sumRun_damped hΦ (by rw [hsc]; exact htree) (fun F hF => hnd _ (hmemF F hF)) (fun F hF => h.scopes_ne _ (hmemF F hF))
      (fun F hF => by
        obtain ⟨f, hf⟩ := List.mem_iff_getElem?.1 hF
        exact h.rowsFit lp hf) _ _ _ hd n' (by omega) (by rw [hsc]; exact he) hs
  refine ⟨hmsg, ?_⟩
  intro v start hstart s hs
  have hb : ∀ ms : List ℝ, ms.length = st.totalFactorNumStates → ∀ n d, (bp.flatBeliefs (bp.runBP env ⟨lp, ms, ev⟩ n d)).getD (start + s) 0
      = beliefOf (graphOf vgs hist).allScopes (readEv st.varsToStarts ev) (readMsgs (graphOf vgs hist).allScopes (bp.runBP env ⟨lp, ms, ev⟩ n d).ftovMsgs) v s := by
    intro ms hm n d
    exact getD_of_some (C34_flat h hbp _ (h.run_read hbp env hfit ⟨lp, ms, ev⟩ d hlp hev n hm).1 hev v start hstart s hs)
  simp only [hb ms hm, hb ms' hm']
  unfold beliefOf
  refine tendsto_const_nhds.add (tendsto_list_sum _ (fun e he => ?_))
  exact hmsg e.1 e.2 v s ((mem_edgesOf _ _ _ _).1 he) hs

/-- **C59 (1), partial.** On an acyclic factor graph, at temperature 0 and with any damping `0 ≤ d < 1`, all messages and beliefs converge as the number of
iterations grows, from any initial messages, to those of undamped belief propagation after as many iterations as there are factors (from any, possibly other,
initial messages).
Missing: numbers that are not moderate (`C59_refuted`). -/
theorem C59_partial (h : Compiled vgs hist garbage st) {state : BPState ℝ} {bp : BPFun κ ℝ} (hbp : BP.create st state 0 = .ok bp)
    (env : Env ℝ) (hfit : Fits env (graphOf vgs hist) (0 : ℝ)) (lp ev ms ms' : List ℝ) {d : ℝ} (hd : d < 1) (n' : Nat)
    (hlp : lp.length = st.logPotentials.length) (hev : ev.length = st.numVarStates) (hm : ms.length = st.totalFactorNumStates)
    (hm' : ms'.length = st.totalFactorNumStates) (hmod : Moderate (graphOf vgs hist) lp (readEv st.varsToStarts ev) d)
    (hlmod : LogicalModerate (graphOf vgs hist) (readEv st.varsToStarts ev))
    (hinit : ∀ f i v, IsEdge (graphOf vgs hist).allScopes f i v → ∃ s < v.n, -100000 ≤ readMsgs (graphOf vgs hist).allScopes ms f i s)
    (hinit' : ∀ f i v, IsEdge (graphOf vgs hist).allScopes f i v → ∃ s < v.n, -100000 ≤ readMsgs (graphOf vgs hist).allScopes ms' f i s)
    (htree : (bipartite (graphOf vgs hist).allScopes).IsAcyclic) (hnd : ∀ vs ∈ (graphOf vgs hist).allScopes, vs.Nodup)
    (hn' : (graphOf vgs hist).allScopes.length ≤ n') :
    (∀ f i v s, IsEdge (graphOf vgs hist).allScopes f i v → s < v.n →
      Tendsto (fun n => readMsgs (graphOf vgs hist).allScopes (bp.runBP env ⟨lp, ms, ev⟩ n d).ftovMsgs f i s) atTop
        (𝓝 (readMsgs (graphOf vgs hist).allScopes (bp.runBP env ⟨lp, ms', ev⟩ n' 0).ftovMsgs f i s))) ∧
    ∀ v start, st.varsToStarts v = some start → ∀ s < v.n,
      Tendsto (fun n => (bp.flatBeliefs (bp.runBP env ⟨lp, ms, ev⟩ n d)).getD (start + s) 0) atTop
        (𝓝 ((bp.flatBeliefs (bp.runBP env ⟨lp, ms', ev⟩ n' 0)).getD (start + s) 0)) := by
  refine h.damped hbp env hfit lp ev ms ms' ⟨hmod.damping.1, hd⟩ (Φ := fun _ => maxOf 0) (fun _ => summary_max) hlp hev hm hm' n' ?_ ?_ htree hnd hn'
  · intro n
    rw [← tbRun_eq_sumRun]
    exact C37_partial h hbp env hfit ⟨lp, ms, ev⟩ n d hlp hev hm hmod hlmod hinit
  · rw [← tbRun_eq_sumRun]
    exact C37_partial h hbp env hfit ⟨lp, ms', ev⟩ n' 0 hlp hev hm' hmod.undamped hlmod hinit'

/-- **C59 (2), partial.** The same at every temperature `T > 0`. -/
theorem C59_sum_partial (h : Compiled vgs hist garbage st) {state : BPState ℝ} {bp : BPFun κ ℝ} {T : ℝ} (hT : 0 < T) (hbp : BP.create st state T = .ok bp)
    (env : Env ℝ) (hexp : env.exp = Real.exp) (hlog : env.log = Real.log) (hfit : Fits env (graphOf vgs hist) T) (lp ev ms ms' : List ℝ) {d : ℝ} (hd : d < 1) (n' : Nat)
    (hlp : lp.length = st.logPotentials.length) (hev : ev.length = st.numVarStates) (hm : ms.length = st.totalFactorNumStates)
    (hm' : ms'.length = st.totalFactorNumStates) (hmod : Moderate (graphOf vgs hist) lp (readEv st.varsToStarts ev) d)
    (hinit : ∀ f i v, IsEdge (graphOf vgs hist).allScopes f i v → ∃ s < v.n, -100000 ≤ readMsgs (graphOf vgs hist).allScopes ms f i s)
    (hinit' : ∀ f i v, IsEdge (graphOf vgs hist).allScopes f i v → ∃ s < v.n, -100000 ≤ readMsgs (graphOf vgs hist).allScopes ms' f i s)
    (htree : (bipartite (graphOf vgs hist).allScopes).IsAcyclic) (hnd : ∀ vs ∈ (graphOf vgs hist).allScopes, vs.Nodup)
    (hn' : (graphOf vgs hist).allScopes.length ≤ n') :
    (∀ f i v s, IsEdge (graphOf vgs hist).allScopes f i v → s < v.n →
      Tendsto (fun n => readMsgs (graphOf vgs hist).allScopes (bp.runBP env ⟨lp, ms, ev⟩ n d).ftovMsgs f i s) atTop
        (𝓝 (readMsgs (graphOf vgs hist).allScopes (bp.runBP env ⟨lp, ms', ev⟩ n' 0).ftovMsgs f i s))) ∧
    ∀ v start, st.varsToStarts v = some start → ∀ s < v.n,
      Tendsto (fun n => (bp.flatBeliefs (bp.runBP env ⟨lp, ms, ev⟩ n d)).getD (start + s) 0) atTop
        (𝓝 ((bp.flatBeliefs (bp.runBP env ⟨lp, ms', ev⟩ n' 0)).getD (start + s) 0)) :=
  h.damped hbp env hfit lp ev ms ms' ⟨hmod.damping.1, hd⟩ (codeSummary_summary _ hT) hlp hev hm hm' n'
    (fun n => h.run_sum hT hbp env hexp hlog hfit ⟨lp, ms, ev⟩ n d hlp hev hm hmod hinit)
    (h.run_sum hT hbp env hexp hlog hfit ⟨lp, ms', ev⟩ n' 0 hlp hev hm' hmod.undamped hinit') htree hnd hn'

/-- In a max-marginal, the state of a variable in the MAP assignments, if unique, is better than all others. -/
theorem IsMaxMarginal.strict {vars : Finset Var} {factors : List (SFac ℝ)} {ev : Var → Nat → ℝ} {v : Var} {M : Nat → ℝ} (c : ℝ)
    (hM : IsMaxMarginal vars factors ev v (fun s => M s + c)) (hv : v ∈ vars) {x : Var → Nat} {ρ : Nat → List Nat × ℝ} (hx : IsMAP vars factors ev x ρ)
    (huniq : ∀ x' ρ', IsMAP vars factors ev x' ρ' → x' v = x v) : ∀ s < v.n, s ≠ x v → M s < M (x v) := by
  intro s hs hne
  have h0 : jointScore vars factors ev x ρ ≤ M (x v) + c := (hM _ (hx.1.states v hv)).2 ⟨x, ρ, hx.1, rfl, rfl⟩
  obtain ⟨x', ρ', hJ, hs', he⟩ := (hM s hs).1
  simp only at he
  by_contra hle
  refine hne (hs' ▸ huniq x' ρ' ⟨hJ, fun x'' ρ'' h'' => ?_⟩)
  have := hx.2 x'' ρ'' h''
  linarith [not_lt.1 hle]

/-- **C59 (3), partial.** Hence with any damping `d < 1`, at temperature 0, if no message of undamped belief propagation is clipped in the end,
`decode_map_states` returns after sufficiently many iterations, for every MAP assignment, the state of every variable that has the same
state in all MAP assignments. Missing: as in (1). -/
theorem C59_decode_partial [DecidableEq κ] (h : Compiled vgs hist garbage st) {state : BPState ℝ} {bp : BPFun κ ℝ} (hbp : BP.create st state 0 = .ok bp)
    (env : Env ℝ) (hfit : Fits env (graphOf vgs hist) (0 : ℝ)) (lp ev ms : List ℝ) {d : ℝ} (hd : d < 1) (n' : Nat)
    (hlp : lp.length = st.logPotentials.length) (hev : ev.length = st.numVarStates) (hm : ms.length = st.totalFactorNumStates)
    (hmod : Moderate (graphOf vgs hist) lp (readEv st.varsToStarts ev) d)
    (hlmod : LogicalModerate (graphOf vgs hist) (readEv st.varsToStarts ev))
    (hinit : ∀ f i v, IsEdge (graphOf vgs hist).allScopes f i v → ∃ s < v.n, -100000 ≤ readMsgs (graphOf vgs hist).allScopes ms f i s)
    (htree : (bipartite (graphOf vgs hist).allScopes).IsAcyclic) (hnd : ∀ vs ∈ (graphOf vgs hist).allScopes, vs.Nodup)
    (hclip : ∀ f i v s, IsEdge (graphOf vgs hist).allScopes f i v → s < v.n → -1000 < readMsgs (graphOf vgs hist).allScopes (bp.runBP env ⟨lp, ms, ev⟩ n' 0).ftovMsgs f i s)
    (hn' : 0 < n' ∧ (graphOf vgs hist).allScopes.length ≤ n') (hreg : ∀ g ∈ vgs, g.Regular) (hst : ∀ g ∈ vgs, g.Stated) :
    ∃ N, ∀ n ≥ N, ∃ bs rs, bp.getBeliefs (bp.runBP env ⟨lp, ms, ev⟩ n d) = .ok bs ∧ decodeMapStates bs = .ok rs ∧ rs.map (·.1) = vgs ∧
      ∀ x ρ, IsMAP (graphVars vgs) ((graphOf vgs hist).factors lp) (readEv st.varsToStarts ev) x ρ → ∀ p ∈ rs, ∀ v ∈ p.1.variables,
        (∀ x' ρ', IsMAP (graphVars vgs) ((graphOf vgs hist).factors lp) (readEv st.varsToStarts ev) x' ρ' → x' v = x v) →
        p.1.StateIn v (x v) p.2 := by
  have htend := (C59_partial h hbp env hfit lp ev ms ms hd n' hlp hev hm hm hmod hlmod hinit hinit htree hnd hn'.2).2
  have hall := (C38_decode_partial h hbp env hfit ⟨lp, ms, ev⟩ n' hlp hev hm hmod.undamped hlmod hinit htree hnd hclip hn' hreg hst).1
  have hlen : ∀ n, (bp.runBP env ⟨lp, ms, ev⟩ n d).ftovMsgs.length = st.totalFactorNumStates :=
    fun n => (h.run_read hbp env hfit ⟨lp, ms, ev⟩ d hlp hev n hm).1
  have hevent : ∀ᶠ n in atTop, ∀ v ∈ graphVars vgs, ∀ j ∈ Finset.range v.n, ∀ s ∈ Finset.range v.n, ∀ start, st.varsToStarts v = some start →
      (bp.flatBeliefs (bp.runBP env ⟨lp, ms, ev⟩ n' 0)).getD (start + s) 0 < (bp.flatBeliefs (bp.runBP env ⟨lp, ms, ev⟩ n' 0)).getD (start + j) 0 →
      (bp.flatBeliefs (bp.runBP env ⟨lp, ms, ev⟩ n d)).getD (start + s) 0 < (bp.flatBeliefs (bp.runBP env ⟨lp, ms, ev⟩ n d)).getD (start + j) 0 := by
    rw [Filter.eventually_all_finset]
    intro v _
    rw [Filter.eventually_all_finset]
    intro j hj
    rw [Filter.eventually_all_finset]
    intro s hs
    cases hstart : st.varsToStarts v with
    | none => exact Eventually.of_forall (fun _ start h' => by cases h')
    | some start =>
      by_cases hlt : (bp.flatBeliefs (bp.runBP env ⟨lp, ms, ev⟩ n' 0)).getD (start + s) 0 < (bp.flatBeliefs (bp.runBP env ⟨lp, ms, ev⟩ n' 0)).getD (start + j) 0
      · have := (htend v start hstart s (Finset.mem_range.1 hs)).eventually_lt (htend v start hstart j (Finset.mem_range.1 hj)) hlt
        filter_upwards [this] with n hn start' h' _
        cases h'
        exact hn
      · refine Eventually.of_forall (fun _ start' h' h'' => ?_)
        cases h'
        exact absurd h'' hlt
  obtain ⟨N, hN⟩ := eventually_atTop.1 hevent
  refine ⟨N, ?_⟩
  intro n hn
  have hev' := hN n hn
  obtain ⟨bs, rs, e1, e2, e3, e4⟩ := C35_partial h hbp _ (hlen n) hev hreg hst
  refine ⟨bs, rs, e1, e2, e3, ?_⟩
  intro x ρ hx p hp v hv huniq
  have hpv : p.1 ∈ vgs := by rw [← e3]; exact List.mem_map_of_mem (f := Prod.fst) hp
  have hvv : v ∈ graphVars vgs := mem_graphVars.2 ⟨p.1, hpv, hv⟩
  have hj := hx.1.states v hvv
  obtain ⟨c, start, hstart, hc⟩ := hall v hvv
  have hstrict := hc.strict c hvv hx huniq
  refine (e4 p hp).stateIn hv ?_
  have hbelief : ∀ s < v.n, s ≠ x v → beliefOf (graphOf vgs hist).allScopes (readEv st.varsToStarts (bp.runBP env ⟨lp, ms, ev⟩ n d).evidence)
        (readMsgs (graphOf vgs hist).allScopes (bp.runBP env ⟨lp, ms, ev⟩ n d).ftovMsgs) v s
      < beliefOf (graphOf vgs hist).allScopes (readEv st.varsToStarts (bp.runBP env ⟨lp, ms, ev⟩ n d).evidence)
        (readMsgs (graphOf vgs hist).allScopes (bp.runBP env ⟨lp, ms, ev⟩ n d).ftovMsgs) v (x v) := by
    intro s hs hne
    have := hev' v hvv (x v) (Finset.mem_range.2 hj) s (Finset.mem_range.2 hs) start hstart (hstrict s hs hne)
    rwa [getD_of_some (C34_flat h hbp _ (hlen n) hev v start hstart s hs),
      getD_of_some (C34_flat h hbp _ (hlen n) hev v start hstart (x v) hj)] at this
  refine ⟨hj, fun s hs => ?_, fun s hs => hbelief s (hs.trans hj) hs.ne⟩
  by_cases hne : s = x v
  · rw [hne]
  · exact (hbelief s hs hne).le

/-- Distributions depend continuously on the function. -/
theorem tendsto_gibbs {f : Nat → Nat → ℝ} {g : Nat → ℝ} {n : Nat} (h : ∀ s < n, Tendsto (fun k => f k s) atTop (𝓝 (g s))) {s : Nat} (hs : s < n) :
    Tendsto (fun k => gibbs (f k) n s) atTop (𝓝 (gibbs g n s)) := by
  unfold gibbs
  refine Tendsto.div ((Real.continuous_exp.tendsto _).comp (h s hs)) (tendsto_list_sum _ (fun t ht => ?_)) (sum_exp_pos g n (by omega)).ne'
  exact (Real.continuous_exp.tendsto _).comp (h t (List.mem_range.1 ht))

/-- **C59 (4), partial.** With any damping `d < 1`, at temperature 1, if no message of undamped belief propagation is clipped in the end, the marginals reported
by `get_marginals` converge to the probabilities of the states, up to a factor between `exp (-ε)` and `exp ε`. Missing: as in (1). -/
theorem C59_marginals_partial [DecidableEq κ] (h : Compiled vgs hist garbage st) {state : BPState ℝ} {bp : BPFun κ ℝ}
    (hbp : BP.create st state 1 = .ok bp) (env : Env ℝ) (hexp : env.exp = Real.exp) (hlog : env.log = Real.log)
    (hfit : Fits env (graphOf vgs hist) (1 : ℝ)) (lp ev ms : List ℝ) {d : ℝ} (hd : d < 1) (n' : Nat)
    (hlp : lp.length = st.logPotentials.length) (hev : ev.length = st.numVarStates) (hm : ms.length = st.totalFactorNumStates)
    (hmod : Moderate (graphOf vgs hist) lp (readEv st.varsToStarts ev) d)
    (hinit : ∀ f i v, IsEdge (graphOf vgs hist).allScopes f i v → ∃ s < v.n, -100000 ≤ readMsgs (graphOf vgs hist).allScopes ms f i s)
    (htree : (bipartite (graphOf vgs hist).allScopes).IsAcyclic) (hnd : ∀ vs ∈ (graphOf vgs hist).allScopes, vs.Nodup)
    (hclip : ∀ f i v s, IsEdge (graphOf vgs hist).allScopes f i v → s < v.n → -1000 < readMsgs (graphOf vgs hist).allScopes (bp.runBP env ⟨lp, ms, ev⟩ n' 0).ftovMsgs f i s)
    (hn' : 0 < n' ∧ (graphOf vgs hist).allScopes.length ≤ n') (hreg : ∀ g ∈ vgs, g.Regular) (hst : ∀ g ∈ vgs, g.Stated)
    (P : Var → Nat → ℝ) (hP : ∀ v s, P v s = stateWeight 1 (graphVars vgs) ((graphOf vgs hist).factors lp) (readEv st.varsToStarts ev) v s
      / totalWeight 1 (graphVars vgs) ((graphOf vgs hist).factors lp) (readEv st.varsToStarts ev))
    (ε : ℝ) (hε : ε = (graphOf vgs hist).tables.length * Real.exp (-100000)) :
    ∃ B : Nat → Var → Nat → ℝ, (∀ n, ∃ bs rs, bp.getBeliefs (bp.runBP env ⟨lp, ms, ev⟩ n d) = .ok bs ∧ getMarginals env bs = .ok rs ∧ rs.map (·.1) = vgs ∧
      ∀ p ∈ rs, p.1.HasMarginals (B n) p.2) ∧ ∀ v ∈ graphVars vgs, ∀ s < v.n,
        ∃ L, Tendsto (fun n => gibbs (B n v) v.n s) atTop (𝓝 L) ∧ 0 < P v s ∧ Real.exp (-ε) * P v s ≤ L ∧ L ≤ Real.exp ε * P v s := by
  have htend := (C59_sum_partial h one_pos hbp env hexp hlog hfit lp ev ms ms hd n' hlp hev hm hm hmod hinit hinit htree hnd hn'.2).2
  have hlen : ∀ n d, (bp.runBP env ⟨lp, ms, ev⟩ n d).ftovMsgs.length = st.totalFactorNumStates :=
    fun n d => (h.run_read hbp env hfit ⟨lp, ms, ev⟩ d hlp hev n hm).1
  refine ⟨fun n => beliefOf (graphOf vgs hist).allScopes (readEv st.varsToStarts ev) (readMsgs (graphOf vgs hist).allScopes (bp.runBP env ⟨lp, ms, ev⟩ n d).ftovMsgs),
    fun n => C36_partial h hbp env hexp hlog (bp.runBP env ⟨lp, ms, ev⟩ n d) (hlen n d) hev hreg hst, ?_⟩
  have hd' := Compiled.dist_lt (vgs := vgs) (hist := hist) n' hn'
  have hpos := h.stated_pos hst
  intro v hv s hs
  obtain ⟨c, start, hstart, hc⟩ := C55_partial h one_pos hbp env hexp hlog hfit ⟨lp, ms, ev⟩ n' hlp hev hm hmod.undamped hinit htree hnd hpos hclip v hv (hd' v) (fun v f _ => hd' v f)
  have hW : ∀ t < v.n, 0 < stateWeight 1 (graphVars vgs) ((graphOf vgs hist).factors lp) (readEv st.varsToStarts ev) v t := fun t ht => (hc t ht).1
  refine ⟨gibbs (fun s => (bp.flatBeliefs (bp.runBP env ⟨lp, ms, ev⟩ n' 0)).getD (start + s) 0) v.n s, ?_, ?_, ?_⟩
  · refine tendsto_gibbs (fun t ht => ?_) hs
    refine (htend v start hstart t ht).congr (fun n => ?_)
    exact getD_of_some (C34_flat h hbp _ (hlen n d) hev v start hstart t ht)
  · rw [hP, ← sum_stateWeight 1 _ _ hv]
    exact div_pos (hW s hs) (Finset.sum_pos (fun t ht => hW t (Finset.mem_range.1 ht)) ⟨s, Finset.mem_range.2 hs⟩)
  · have := gibbs_close (f := fun s => (bp.flatBeliefs (bp.runBP env ⟨lp, ms, ev⟩ n' 0)).getD (start + s) 0)
      (g := fun s => 1 * Real.log (stateWeight 1 (graphVars vgs) ((graphOf vgs hist).factors lp) (readEv st.varsToStarts ev) v s)) (n := v.n) (c := c) (ε := ε)
      (fun t ht => by
        have := (hc t ht).2
        rw [one_mul (Real.exp _), ← hε] at this
        exact this) hs
    rw [gibbs_log hW 1 hs] at this
    simp only [Real.rpow_one] at this
    rw [sum_stateWeight 1 _ _ hv, ← hP] at this
    exact this

/-! ## Refutation and non-vacuity -/

/-- The graph `exHist7` and a third factor, over the first variable alone; in all three, only state 0 of the first variable occurs. -/
def exHistU : List (AddArg ℚ) := [.one ⟨5, .enum, .enumGroup, [[exVar 0, exVar 1], [exVar 0, exVar 2]], ⟨2, [[0, 0], [0, 1]]⟩, [0, 0, 0, 0]⟩,
  .one ⟨6, .enum, .enumGroup, [[exVar 0]], ⟨1, [[0]]⟩, [0]⟩]

/-- Its compiled state. -/
def exStateU : FGState Nat ℚ :=
  match (graphOf exVars exHistU).fgState 0 with
  | .ok st => st
  | .error _ => ⟨[], fun _ => none, 0, 0, fun _ => (0, 0), fun _ => (0, 0), fun _ => none, [],
      ⟨⟨[], [], []⟩, ⟨[], [], [], [], 1⟩, ⟨[], [], [], [], 1⟩⟩⟩

theorem exStateU_compiled : Compiled exVars exHistU 0 exStateU where
  vgroups := exVars_ok
  valid := by
    simp only [exHistU, List.mem_cons, List.not_mem_nil, or_false, forall_eq, forall_eq_or_imp, AddArg.flat]
    refine ⟨⟨by decide, by decide, fun _ => ⟨by decide, by decide, by decide, ?_, by rfl⟩, fun h => absurd rfl h⟩,
      ⟨by decide, by decide, fun _ => ⟨by decide, by decide, by decide, ?_, by rfl⟩, fun h => absurd rfl h⟩⟩
    · intro vs hvs r hr
      simp only [List.mem_cons, List.not_mem_nil, or_false] at hvs hr
      rcases hvs with rfl | rfl <;> rcases hr with rfl | rfl <;> simp [exVar]
    · intro vs hvs r hr
      simp only [List.mem_cons, List.not_mem_nil, or_false] at hvs hr
      subst hvs hr
      simp [exVar]
  ids := by
    have e : FType.all.flatMap (graphOf exVars exHistU).groups = [
      ⟨5, .enum, .enumGroup, [[exVar 0, exVar 1], [exVar 0, exVar 2]], ⟨2, [[0, 0], [0, 1]]⟩, [0, 0, 0, 0]⟩,
      ⟨6, .enum, .enumGroup, [[exVar 0]], ⟨1, [[0]]⟩, [0]⟩] := by rfl
    rw [e]
    intro g hg k hk hne
    simp only [List.mem_cons, List.not_mem_nil, or_false] at hg hk
    rcases hg with rfl | rfl <;> rcases hk with rfl | rfl
    · rfl
    · exact absurd hne (by decide)
    · exact absurd hne (by decide)
    · rfl
  compiled := rfl

/-- Max-product belief propagation on it. -/
def exBPU : BPFun Nat ℚ :=
  match BP.create exStateU exBPState 0 with
  | .ok bp => bp
  | .error _ => ⟨exStateU, exBPState, [], 0, [], 0⟩

theorem exBPU_create : BP.create exStateU exBPState 0 = .ok exBPU := rfl

theorem exTreeU : (bipartite (graphOf exVars exHistU).allScopes).IsAcyclic := by
  refine acyclic_of_edges [(exVar 0, 0), (exVar 1, 0), (exVar 0, 1), (exVar 2, 1), (exVar 0, 2)] ?_ (fun v => if v = exVar 0 then 0 else 2) (fun _ => 1)
    (by decide +kernel) (by decide +kernel)
  have e : (graphOf exVars exHistU).allScopes = [[exVar 0, exVar 1], [exVar 0, exVar 2], [exVar 0]] := rfl
  rintro f i v ⟨vs, h1, h2⟩
  rw [e] at h1
  match f, h1 with
  | 0, h1 =>
    cases h1
    match i, h2 with
    | 0, h2 => cases h2; simp
    | 1, h2 => cases h2; simp
  | 1, h1 =>
    cases h1
    match i, h2 with
    | 0, h2 => cases h2; simp
    | 1, h2 => cases h2; simp
  | 2, h1 =>
    cases h1
    match i, h2 with
    | 0, h2 => cases h2; simp

/-- **C59 does not hold in general.** On the tree `exHistU`, with evidence -99000 for one state and damping 1/4, the messages change in every
iteration for ever: they are one array after every even number of iterations and another after every odd number. -/
theorem C59_refuted : (bipartite (graphOf exVars exHistU).allScopes).IsAcyclic ∧ ∀ k,
    (exBPU.runBP exEnv ⟨[0, 0, 0, 0, 0], [-1000 / 7, 0, 0, 0, -1000 / 7, 0, 0, 0, -1000 / 7, 0], [0, -99000, 0, 0, 0, 0]⟩ (2 * k) (1 / 4)).ftovMsgs
      = [-1000 / 7, 0, 0, 0, -1000 / 7, 0, 0, 0, -1000 / 7, 0] ∧
    (exBPU.runBP exEnv ⟨[0, 0, 0, 0, 0], [-1000 / 7, 0, 0, 0, -1000 / 7, 0, 0, 0, -1000 / 7, 0], [0, -99000, 0, 0, 0, 0]⟩ (2 * k + 1) (1 / 4)).ftovMsgs
      = [0, -5000 / 7, 0, 0, 0, -5000 / 7, 0, 0, 0, -5000 / 7] := by
  refine ⟨exTreeU, ?_⟩
  have h1 : exBPU.step exEnv [0, 0, 0, 0, 0] [0, -99000, 0, 0, 0, 0] (1 / 4) [-1000 / 7, 0, 0, 0, -1000 / 7, 0, 0, 0, -1000 / 7, 0]
    = [0, -5000 / 7, 0, 0, 0, -5000 / 7, 0, 0, 0, -5000 / 7] := by decide +kernel
  have h2 : exBPU.step exEnv [0, 0, 0, 0, 0] [0, -99000, 0, 0, 0, 0] (1 / 4) [0, -5000 / 7, 0, 0, 0, -5000 / 7, 0, 0, 0, -5000 / 7]
    = [-1000 / 7, 0, 0, 0, -1000 / 7, 0, 0, 0, -1000 / 7, 0] := by decide +kernel
  have h0 : (exBPU.runBP exEnv ⟨[0, 0, 0, 0, 0], [-1000 / 7, 0, 0, 0, -1000 / 7, 0, 0, 0, -1000 / 7, 0], [0, -99000, 0, 0, 0, 0]⟩ 0 (1 / 4)).ftovMsgs
    = [-1000 / 7, 0, 0, 0, -1000 / 7, 0, 0, 0, -1000 / 7, 0] := by decide +kernel
  have hs : ∀ n, (exBPU.runBP exEnv ⟨[0, 0, 0, 0, 0], [-1000 / 7, 0, 0, 0, -1000 / 7, 0, 0, 0, -1000 / 7, 0], [0, -99000, 0, 0, 0, 0]⟩ (n + 1) (1 / 4)).ftovMsgs
      = exBPU.step exEnv [0, 0, 0, 0, 0] [0, -99000, 0, 0, 0, 0] (1 / 4)
        (exBPU.runBP exEnv ⟨[0, 0, 0, 0, 0], [-1000 / 7, 0, 0, 0, -1000 / 7, 0, 0, 0, -1000 / 7, 0], [0, -99000, 0, 0, 0, 0]⟩ n (1 / 4)).ftovMsgs :=
    fun n => iterate_succ' _ n _
  intro k
  induction k with
  | zero => exact ⟨h0, by rw [hs 0, h0, h1]⟩
  | succ k ih =>
    have e1 : (exBPU.runBP exEnv ⟨[0, 0, 0, 0, 0], [-1000 / 7, 0, 0, 0, -1000 / 7, 0, 0, 0, -1000 / 7, 0], [0, -99000, 0, 0, 0, 0]⟩ (2 * (k + 1)) (1 / 4)).ftovMsgs
        = [-1000 / 7, 0, 0, 0, -1000 / 7, 0, 0, 0, -1000 / 7, 0] := by
      rw [show 2 * (k + 1) = 2 * k + 1 + 1 by omega, hs, ih.2, h2]
    exact ⟨e1, by rw [hs, e1, h1]⟩

theorem exLogicalT : LogicalModerate (graphOf exVars exHistT) (readEv exStateT.varsToStarts exEvT) := by
  intro f vs hvs hf
  have h1 := (List.getElem?_eq_some_iff.1 hvs).1
  have h2 : (graphOf exVars exHistT).allScopes.length = (graphOf exVars exHistT).tables.length := rfl
  omega

theorem exFitsT0 {env : Env ℝ} (hw : env.wrapNeg = false) : Fits env (graphOf exVars exHistT) (0 : ℝ) :=
  ⟨.inl hw, fun _ => by rw [show (graphOf exVars exHistT).numParents = 0 from rfl]; norm_num⟩

/-- Non-vacuity of C59 (1): the chain `exHistT`, with damping 1/2 at temperature 0. -/
example {env : Env ℝ} (hw : env.wrapNeg = false) (f i : Nat) (v : Var) (s : Nat) (he : IsEdge (graphOf exVars exHistT).allScopes f i v) (hs : s < v.n) :
    Tendsto (fun n => readMsgs (graphOf exVars exHistT).allScopes ((exBPT 0).runBP env ⟨exLpT, List.replicate 8 0, exEvT⟩ n (1 / 2)).ftovMsgs f i s) atTop
      (𝓝 (readMsgs (graphOf exVars exHistT).allScopes ((exBPT 0).runBP env ⟨exLpT, List.replicate 8 0, exEvT⟩ 2 0).ftovMsgs f i s)) :=
  (C59_partial exStateT_compiled (exBPT_create 0) env (exFitsT0 hw) exLpT exEvT (List.replicate 8 0) (List.replicate 8 0) (d := 1 / 2) (by norm_num) 2 rfl rfl
    (by simp; rfl) (by simp; rfl) (exModerateT (by norm_num)) exLogicalT exInitT exInitT exTreeT (by rw [exScopesT]; decide +kernel) (by rw [exScopesT]; decide)).1 f i v s he hs

theorem exUnclippedT {f i : Nat} {v : Var} {s : Nat} (m : Msgs ℝ) (he : IsEdge (graphOf exVars exHistT).allScopes f i v)
    (hb : ∀ F, ((graphOf exVars exHistT).factors exLpT)[f]? = some F → f < (graphOf exVars exHistT).tables.length → F.Complete → ∀ R, F.Within R →
      -(R + 0 ^ 2 * (1000 - R)) ≤ m f i s) : -1000 < m f i s := by
  obtain ⟨F, hF, -⟩ := (graphOf exVars exHistT).factors_edge exLpT he
  obtain ⟨h1, R, hR, h2⟩ := exCompleteT F (List.mem_of_getElem? hF)
  have hf : f < (graphOf exVars exHistT).tables.length := by
    obtain ⟨vs, h1, -⟩ := he
    exact (List.getElem?_eq_some_iff.1 h1).1
  have := hb F hF hf h1 R h2
  rw [zero_pow (by omega), zero_mul, add_zero] at this
  linarith

/-- Non-vacuity of C59 (3): the chain `exHistT`, with damping 1/2 at temperature 0. -/
example {env : Env ℝ} (hw : env.wrapNeg = false) :
    ∃ N, ∀ n ≥ N, ∃ bs rs, (exBPT 0).getBeliefs ((exBPT 0).runBP env ⟨exLpT, List.replicate 8 0, exEvT⟩ n (1 / 2)) = .ok bs ∧ decodeMapStates bs = .ok rs ∧ rs.map (·.1) = exVars ∧
      ∀ x ρ, IsMAP (graphVars exVars) ((graphOf exVars exHistT).factors exLpT) (readEv exStateT.varsToStarts exEvT) x ρ → ∀ p ∈ rs, ∀ v ∈ p.1.variables,
        (∀ x' ρ', IsMAP (graphVars exVars) ((graphOf exVars exHistT).factors exLpT) (readEv exStateT.varsToStarts exEvT) x' ρ' → x' v = x v) →
        p.1.StateIn v (x v) p.2 :=
  C59_decode_partial exStateT_compiled (exBPT_create 0) env (exFitsT0 hw) exLpT exEvT (List.replicate 8 0) (d := 1 / 2) (by norm_num) 2 rfl rfl (by simp; rfl)
    (exModerateT (by norm_num)) exLogicalT exInitT exTreeT (by rw [exScopesT]; decide +kernel)
    (fun f i v s he hs => exUnclippedT (readMsgs _ _) he (fun F hF hf hc R hR =>
      C56_partial exStateT_compiled (exBPT_create 0) env (exFitsT0 hw) ⟨exLpT, List.replicate 8 0, exEvT⟩ 2 0 rfl rfl (by simp; rfl) (exModerateT (by norm_num)) f F hF hf hc R hR i v he s hs))
    ⟨by omega, by rw [exScopesT]; decide⟩ exStatedT.1 exStatedT.2

/-- Non-vacuity of C59 (2) and (4): the chain `exHistT`, with damping 1/2 at temperature 1. -/
example {env : Env ℝ} (hexp : env.exp = Real.exp) (hlog : env.log = Real.log) (hw : env.wrapNeg = false)
    (P : Var → Nat → ℝ) (hP : ∀ v s, P v s = stateWeight 1 (graphVars exVars) ((graphOf exVars exHistT).factors exLpT) (readEv exStateT.varsToStarts exEvT) v s
      / totalWeight 1 (graphVars exVars) ((graphOf exVars exHistT).factors exLpT) (readEv exStateT.varsToStarts exEvT)) :
    ∃ B : Nat → Var → Nat → ℝ, (∀ n, ∃ bs rs, (exBPT 1).getBeliefs ((exBPT 1).runBP env ⟨exLpT, List.replicate 8 0, exEvT⟩ n (1 / 2)) = .ok bs ∧
      getMarginals env bs = .ok rs ∧ rs.map (·.1) = exVars ∧ ∀ p ∈ rs, p.1.HasMarginals (B n) p.2) ∧ ∀ v ∈ graphVars exVars, ∀ s < v.n,
        ∃ L, Tendsto (fun n => gibbs (B n v) v.n s) atTop (𝓝 L) ∧ 0 < P v s ∧ Real.exp (-(2 * Real.exp (-100000))) * P v s ≤ L ∧ L ≤ Real.exp (2 * Real.exp (-100000)) * P v s :=
  C59_marginals_partial exStateT_compiled (exBPT_create 1) env hexp hlog (exFitsT hw one_ne_zero) exLpT exEvT (List.replicate 8 0) (d := 1 / 2) (by norm_num) 2 rfl rfl (by simp; rfl)
    (exModerateT (by norm_num)) exInitT exTreeT (by rw [exScopesT]; decide +kernel)
    (fun f i v s he hs => exUnclippedT (readMsgs _ _) he (fun F hF hf hc R hR =>
      C56_sum_partial exStateT_compiled one_pos (exBPT_create 1) env hexp hlog (exFitsT hw one_ne_zero) ⟨exLpT, List.replicate 8 0, exEvT⟩ 2 0 rfl rfl (by simp; rfl)
        (exModerateT (by norm_num)) f F hF hf hc R hR i v he s hs))
    ⟨by omega, by rw [exScopesT]; decide⟩ exStatedT.1 exStatedT.2 P hP _ (by rw [show (graphOf exVars exHistT).tables.length = 2 from rfl]; norm_num)

end PGMax
