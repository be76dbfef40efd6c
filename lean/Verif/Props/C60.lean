import Verif.Lemmas.Contract
import Verif.Props.C59

/-! # C60: sum-product belief propagation converges on graphs with weak factors, loops or not -/

namespace PGMax

open Filter Topology

variable {κ : Type _} {vgs : List (VGroup κ)} {hist : List (AddArg ℝ)} {garbage : Garbage} {st : FGState κ ℝ}

theorem bits_ne_nil (n : Nat) : bits n ≠ [] := by
  induction n with
  | zero => simp [bits]
  | succ n ih =>
    obtain ⟨x, hx⟩ := List.exists_mem_of_ne_nil _ ih
    exact List.ne_nil_of_mem (a := 0 :: x) (List.mem_flatMap.2 ⟨x, hx, by simp⟩)

theorem Compiled.factors_rows_ne (h : Compiled vgs hist garbage st) (lp : List ℝ) (hlp : lp.length = st.logPotentials.length) :
    ∀ F ∈ (graphOf vgs hist).factors lp, F.rows ≠ [] := by
  intro F hF
  simp only [FactorGraph.factors, List.mem_append, List.mem_map] at hF
  rcases hF with (hF | ⟨vs, -, rfl⟩) | ⟨vs, -, rfl⟩
  · obtain ⟨f, hf⟩ := List.mem_iff_getElem?.1 hF
    exact h.rows_ne lp hlp hf
  · simpa [orRows] using bits_ne_nil _
  · simpa [andRows] using bits_ne_nil _

/-- For complete tables, moderate numbers are moderate with any damping. -/
theorem Moderate.damped {fg : FactorGraph κ ℝ} {lp : List ℝ} {ev : Var → Nat → ℝ} (h : Moderate fg lp ev 0) (hfull : ∀ F ∈ tableFacs fg.tables lp, F.Full) {d : ℝ}
    (hd : 0 ≤ d ∧ d ≤ 1) : Moderate fg lp ev d where
  damping := hd
  bounds := by
    obtain ⟨R, h1, h2⟩ := h.bounds
    refine ⟨R, h1, fun F hF => ?_⟩
    obtain ⟨W, h3, h4, -⟩ := h2 F hF
    exact ⟨W, h3, h4, .inl (hfull F hF)⟩

/-- **C60.** At temperature `T > 0`, on any graph (with or without loops) of complete tables, let any two log potentials of factor `f` differ by at most `R f`. If for
every edge the number of messages that go into the factor's message, times `1 - exp (-2 R f / T) / (1 + exp (-1e5))`, is at most `k < 1`, then there is an
array `L` of messages such that, for moderate numbers, with any damping `0 ≤ d < 1` and from any initial messages (that have a value of at least -1e5 on every edge), all messages
after `n` iterations are within `2000 (d + (1 - d) k)^n` of `L`; and runs from `L` return `L`. -/
theorem C60 (h : Compiled vgs hist garbage st) {state : BPState ℝ} {bp : BPFun κ ℝ} {T : ℝ} (hT : 0 < T) (hbp : BP.create st state T = .ok bp)
    (env : Env ℝ) (hexp : env.exp = Real.exp) (hlog : env.log = Real.log) (hfit : Fits env (graphOf vgs hist) T) (lp ev : List ℝ)
    (hlp : lp.length = st.logPotentials.length) (hev : ev.length = st.numVarStates) (hmod : Moderate (graphOf vgs hist) lp (readEv st.varsToStarts ev) 0)
    (R : Nat → ℝ) (hR : ∀ f, 0 ≤ R f) (k : ℝ) (hk : 0 ≤ k ∧ k < 1)
    (hc : ∀ (f : Nat) (F : SFac ℝ), ((graphOf vgs hist).factors lp)[f]? = some F → F.Complete ∧ F.Within (R f) ∧ ∀ i < F.scope.length,
      (1 - Real.exp (-2 * R f / T) / (1 + Real.exp (-100000))) * (inputsBut (graphOf vgs hist).allScopes F.scope i : ℝ) ≤ k) :
    ∃ L : List ℝ, L.length = st.totalFactorNumStates ∧ ∀ d, 0 ≤ d → d < 1 →
      (∀ ms : List ℝ, ms.length = st.totalFactorNumStates →
        (∀ f i v, IsEdge (graphOf vgs hist).allScopes f i v → ∃ s < v.n, -100000 ≤ readMsgs (graphOf vgs hist).allScopes ms f i s) →
        ∀ n p, p < st.totalFactorNumStates → |(bp.runBP env ⟨lp, ms, ev⟩ n d).ftovMsgs.getD p 0 - L.getD p 0| ≤ 2000 * (d + (1 - d) * k) ^ n) ∧
      ∀ n, (bp.runBP env ⟨lp, L, ev⟩ n d).ftovMsgs = L := by
  have hsc := (graphOf vgs hist).factors_scopes lp
  have hrow : ∀ F ∈ (graphOf vgs hist).factors lp, ∀ r ∈ F.rows, List.Forall₂ (fun s (v : Var) => s < v.n) r.1 F.scope := by
    intro F hF
    obtain ⟨f, hf⟩ := List.mem_iff_getElem?.1 hF
    exact h.rowsFit lp hf
  have hrne := h.factors_rows_ne lp hlp
  have hcF : ∀ F ∈ (graphOf vgs hist).factors lp, F.Complete := by
    intro F hF
    obtain ⟨f, hf⟩ := List.mem_iff_getElem?.1 hF
    exact (hc f F hf).1
  have hne : ∀ F ∈ (graphOf vgs hist).factors lp, ∀ i v, F.scope[i]? = some v → ∀ s < v.n, F.rowsAt i s ≠ [] :=
    fun F hF i v hi s hs => (hcF F hF).rowsAt_ne (hrow F hF) (hrne F hF) hi hs
  have hfull : ∀ F ∈ tableFacs (graphOf vgs hist).tables lp, F.Full :=
    fun F hF i v s hi hs => hne F (List.mem_append_left _ (List.mem_append_left _ hF)) i v hi s hs
  have hpos : ∀ f i v, IsEdge (graphOf vgs hist).allScopes f i v → 0 < v.n := by
    intro f i v he
    obtain ⟨F, hF, hi, -⟩ := (graphOf vgs hist).factors_edge lp he
    obtain ⟨r, hr⟩ := List.exists_mem_of_ne_nil _ (hrne F (List.mem_of_getElem? hF))
    have hr' := hrow F (List.mem_of_getElem? hF) r hr
    have hlt : i < r.1.length := by
      rw [hr'.length_eq]
      exact (List.getElem?_eq_some_iff.1 hi).1
    obtain ⟨w, hw, hlt'⟩ := forall₂_getElem? hr' (List.getElem?_eq_getElem hlt)
    rw [hi] at hw
    cases hw
    omega
  generalize hΦe : codeSummary (graphOf vgs hist).tables.length T = Φ
  have hstep : ∀ d, 0 ≤ d → d < 1 → ∀ m m' D, 0 ≤ D → Close (((graphOf vgs hist).factors lp).map (·.scope)) D m m' →
      Close (((graphOf vgs hist).factors lp).map (·.scope)) ((d + (1 - d) * k) * D) (sumStep Φ ((graphOf vgs hist).factors lp) (readEv st.varsToStarts ev) d m)
        (sumStep Φ ((graphOf vgs hist).factors lp) (readEv st.varsToStarts ev) d m') := by
    intro d hd0 hd1 m m' D hD hcl
    subst hΦe
    refine hcl.step (codeSummary_summary _ hT) hrow hrne (R := R) (c := fun f => contraction T (R f)) (fun f => contracts_codeSummary _ hT (hR f) f)
      (fun f => (contraction_mem hT (hR f)).1) (fun f F hF => ⟨(hc f F hF).1, (hc f F hF).2.1⟩) ?_ _ ⟨hd0, hd1.le⟩ hD
    intro f F i v hF hi
    rw [hsc]
    exact (hc f F hF).2.2 i (List.getElem?_eq_some_iff.1 hi).1
  have hρ : ∀ d, 0 ≤ d → d < 1 → 0 ≤ d + (1 - d) * k ∧ d + (1 - d) * k < 1 := by
    intro d hd0 hd1
    refine ⟨add_nonneg hd0 (mul_nonneg (by linarith) hk.1), ?_⟩
    have := mul_lt_mul_of_pos_left hk.2 (show 0 < 1 - d by linarith)
    linarith
  have hpow : ∀ d, 0 ≤ d → d < 1 → Tendsto (fun n => 2000 * (d + (1 - d) * k) ^ n) atTop (𝓝 0) := by
    intro d hd0 hd1
    have := (tendsto_pow_atTop_nhds_zero_of_lt_one (hρ d hd0 hd1).1 (hρ d hd0 hd1).2).const_mul 2000
    simpa using this
  have hrun : ∀ d, 0 ≤ d → d < 1 → ∀ ms : List ℝ, ms.length = st.totalFactorNumStates →
      (∀ f i v, IsEdge (graphOf vgs hist).allScopes f i v → ∃ s < v.n, -100000 ≤ readMsgs (graphOf vgs hist).allScopes ms f i s) → ∀ n,
      AgreeOn (graphOf vgs hist).allScopes (readMsgs (graphOf vgs hist).allScopes (bp.runBP env ⟨lp, ms, ev⟩ n d).ftovMsgs)
        (sumRun Φ ((graphOf vgs hist).factors lp) (readEv st.varsToStarts ev) d n (readMsgs (graphOf vgs hist).allScopes ms)) := by
    intro d hd0 hd1 ms hms hinit n
    rw [← hΦe]
    exact h.run_sum hT hbp env hexp hlog hfit ⟨lp, ms, ev⟩ n d hlp hev hms (hmod.damped hfull ⟨hd0, hd1.le⟩) hinit
  -- the limit without damping
  obtain ⟨L, hL1, hL2, hL3⟩ := sumRun_limit hne (hstep 0 le_rfl one_pos) (hρ 0 le_rfl one_pos)
  rw [hsc] at hL1 hL2 hL3
  -- it is not changed with damping either
  have hfix : ∀ d, 0 ≤ d → d < 1 → AgreeOn (graphOf vgs hist).allScopes (sumStep Φ ((graphOf vgs hist).factors lp) (readEv st.varsToStarts ev) d L) L := by
    intro d hd0 hd1 f i v s he hs
    obtain ⟨F, hF, hi, -⟩ := (graphOf vgs hist).factors_edge lp he
    rw [sumStep_at Φ hF hi]
    refine tbNorm_damped (fun t ht => ?_) ⟨hd0, hd1.le⟩ hs
    rw [← hL3 f i v t he ht, sumStep_undamped Φ hF hi]
  have hiter : ∀ d, 0 ≤ d → d < 1 → ∀ m, AgreeOn (graphOf vgs hist).allScopes m L → ∀ n,
      AgreeOn (graphOf vgs hist).allScopes (sumRun Φ ((graphOf vgs hist).factors lp) (readEv st.varsToStarts ev) d n m) L := by
    intro d hd0 hd1 m hm n
    induction n with
    | zero =>
      refine AgreeOn.trans ?_ hL2
      intro f i v s he hs
      obtain ⟨F, hF, hi, -⟩ := (graphOf vgs hist).factors_edge lp he
      show tbInit _ m f i s = _
      rw [tbInit_at hF hi, tbInit_at hF hi]
      have := tbNorm_abs (n := v.n) (x := m f i) (y := L f i) (D := 0) (fun t ht => by rw [hm f i v t he ht]; simp) hs
      exact sub_eq_zero.1 (abs_eq_zero.1 (le_antisymm (by simpa using this) (abs_nonneg _)))
    | succ n ih =>
      refine AgreeOn.trans ?_ (hfix d hd0 hd1)
      intro f i v s he hs
      have h1 : Close (((graphOf vgs hist).factors lp).map (·.scope)) (2 * 0) (sumRun Φ ((graphOf vgs hist).factors lp) (readEv st.varsToStarts ev) d n m) L := by
        refine Close.of_abs (fun f i v s he hs => ?_) le_rfl
        rw [hsc] at he
        rw [ih f i v s he hs]
        simp
      have h2 := (hstep d hd0 hd1 _ _ _ (by norm_num) h1).abs_le (by rw [hsc]; exact he) hs
      rw [mul_zero, mul_zero] at h2
      exact sub_eq_zero.1 (abs_eq_zero.1 (le_antisymm h2 (abs_nonneg _)))
  have hbound : ∀ d, 0 ≤ d → d < 1 → ∀ m n f i v s, IsEdge (graphOf vgs hist).allScopes f i v → s < v.n →
      |sumRun Φ ((graphOf vgs hist).factors lp) (readEv st.varsToStarts ev) d n m f i s - L f i s| ≤ 2000 * (d + (1 - d) * k) ^ n := by
    intro d hd0 hd1 m n f i v s he hs
    have := (sumRun_approach (hstep d hd0 hd1) (hρ d hd0 hd1).1 m L n 0).abs_le (by rw [hsc]; exact he) hs
    rwa [add_zero, hiter d hd0 hd1 L (fun _ _ _ _ _ _ => rfl) n f i v s he hs] at this
  -- the array of the limits
  have hzero : ∀ f i v, IsEdge (graphOf vgs hist).allScopes f i v →
      ∃ s < v.n, -100000 ≤ readMsgs (graphOf vgs hist).allScopes (List.replicate st.totalFactorNumStates (0 : ℝ)) f i s := by
    intro f i v he
    refine ⟨0, hpos f i v he, ?_⟩
    rw [readMsgs, List.getD, List.getElem?_replicate]
    split <;> norm_num
  obtain ⟨A, hA1, hA2⟩ : ∃ A : List ℝ, A.length = st.totalFactorNumStates ∧ AgreeOn (graphOf vgs hist).allScopes (readMsgs (graphOf vgs hist).allScopes A) L := by
    refine ⟨(List.range st.totalFactorNumStates).map (fun p => limUnder atTop
      (fun n => (bp.runBP env ⟨lp, List.replicate st.totalFactorNumStates 0, ev⟩ n 0).ftovMsgs.getD p 0)), by simp, ?_⟩
    intro f i v s he hs
    have hlt : edgeStart (graphOf vgs hist).allScopes f i + s < st.totalFactorNumStates := by
      obtain ⟨vs, h1, h2⟩ := he
      exact h.edgeStart_lt h1 h2 hs
    rw [readMsgs, getD_of_some (x := limUnder atTop (fun n => (bp.runBP env ⟨lp, List.replicate st.totalFactorNumStates 0, ev⟩ n 0).ftovMsgs.getD
      (edgeStart (graphOf vgs hist).allScopes f i + s) 0)) (by rw [List.getElem?_map, List.getElem?_range hlt]; rfl)]
    refine Tendsto.limUnder_eq ?_
    rw [tendsto_iff_dist_tendsto_zero]
    refine squeeze_zero (fun _ => dist_nonneg) (fun n => ?_) (hpow 0 le_rfl one_pos)
    rw [Real.dist_eq]
    have h1 := hrun 0 le_rfl one_pos (List.replicate st.totalFactorNumStates 0) (by simp) hzero n f i v s he hs
    rw [readMsgs] at h1
    rw [h1]
    exact hbound 0 le_rfl one_pos _ n f i v s he hs
  have hAinit : ∀ f i v, IsEdge (graphOf vgs hist).allScopes f i v → ∃ s < v.n, -100000 ≤ readMsgs (graphOf vgs hist).allScopes A f i s := by
    intro f i v he
    refine ⟨0, hpos f i v he, ?_⟩
    obtain ⟨F, hF, hi, -⟩ := (graphOf vgs hist).factors_edge lp he
    rw [hA2 f i v 0 he (hpos f i v he), ← hL2 f i v 0 he (hpos f i v he), tbInit_at hF hi]
    have := (tbNorm_mem (fun s => WithBot.some (L f i s)) (hpos f i v he)).1
    linarith
  have hlen : ∀ d (ms : List ℝ) n, ms.length = st.totalFactorNumStates → (bp.runBP env ⟨lp, ms, ev⟩ n d).ftovMsgs.length = st.totalFactorNumStates :=
    fun d ms n hms => (h.run_read hbp env hfit ⟨lp, ms, ev⟩ d hlp hev n hms).1
  refine ⟨A, hA1, fun d hd0 hd1 => ⟨?_, ?_⟩⟩
  · intro ms hms hinit n p hp
    rw [h.totalStates] at hp
    obtain ⟨f, i, vs, v, s, h1, h2, h3, rfl⟩ := exists_edgeStart _ p hp
    have he : IsEdge (graphOf vgs hist).allScopes f i v := ⟨vs, h1, h2⟩
    have e1 := hrun d hd0 hd1 ms hms hinit n f i v s he h3
    have e2 := hA2 f i v s he h3
    rw [readMsgs] at e1 e2
    rw [e1, e2]
    exact hbound d hd0 hd1 _ n f i v s he h3
  · intro n
    refine eq_of_read ((hlen d A n hA1).trans h.totalStates) (hA1.trans h.totalStates) ?_
    refine (hrun d hd0 hd1 A hA1 hAinit n).trans (AgreeOn.trans (hiter d hd0 hd1 _ hA2 n) ?_)
    intro f i v s he hs
    exact (hA2 f i v s he hs).symm

/-- Beliefs of messages that are close to each other are close. -/
theorem beliefOf_close {scopes : List (List Var)} (ev : Var → Nat → ℝ) {m m' : Msgs ℝ} {D : ℝ} {v : Var} {s : Nat}
    (h : ∀ f i, IsEdge scopes f i v → |m f i s - m' f i s| ≤ D) : |beliefOf scopes ev m v s - beliefOf scopes ev m' v s| ≤ (edgesOf scopes v).length * D := by
  have key : ∀ l : List (Nat × Nat), (∀ e ∈ l, |m e.1 e.2 s - m' e.1 e.2 s| ≤ D) →
      |(l.map (fun e => m e.1 e.2 s)).sum - (l.map (fun e => m' e.1 e.2 s)).sum| ≤ l.length * D := by
    intro l hl
    induction l with
    | nil => simp
    | cons a l ih =>
      rw [List.forall_mem_cons] at hl
      have h1 := ih hl.2
      have h2 := hl.1
      rw [List.map_cons, List.map_cons, List.sum_cons, List.sum_cons, List.length_cons, Nat.cast_add, Nat.cast_one]
      rw [abs_le] at *
      constructor <;> linarith [h1.1, h1.2, h2.1, h2.2]
  unfold beliefOf
  rw [add_sub_add_left_eq_sub]
  exact key _ (fun e he => h e.1 e.2 ((mem_edgesOf _ _ _ _).1 he))

/-- **C60, beliefs and marginals.** Under the conditions of C60 there are beliefs `B` of all states of all variables, the same for all initial messages and all damping
`0 ≤ d < 1`, such that the beliefs after `n` iterations are within `2000 (d + (1 - d) k)^n` times the number of factors of the variable of `B`, and the marginals
reported by `get_marginals` converge to those given by `B`. -/
theorem C60_marginals [DecidableEq κ] (h : Compiled vgs hist garbage st) {state : BPState ℝ} {bp : BPFun κ ℝ} {T : ℝ} (hT : 0 < T) (hbp : BP.create st state T = .ok bp)
    (env : Env ℝ) (hexp : env.exp = Real.exp) (hlog : env.log = Real.log) (hfit : Fits env (graphOf vgs hist) T) (lp ev : List ℝ)
    (hlp : lp.length = st.logPotentials.length) (hev : ev.length = st.numVarStates) (hmod : Moderate (graphOf vgs hist) lp (readEv st.varsToStarts ev) 0)
    (R : Nat → ℝ) (hR : ∀ f, 0 ≤ R f) (k : ℝ) (hk : 0 ≤ k ∧ k < 1)
    (hc : ∀ (f : Nat) (F : SFac ℝ), ((graphOf vgs hist).factors lp)[f]? = some F → F.Complete ∧ F.Within (R f) ∧ ∀ i < F.scope.length,
      (1 - Real.exp (-2 * R f / T) / (1 + Real.exp (-100000))) * (inputsBut (graphOf vgs hist).allScopes F.scope i : ℝ) ≤ k)
    (hreg : ∀ g ∈ vgs, g.Regular) (hst : ∀ g ∈ vgs, g.Stated) :
    ∃ B : Var → Nat → ℝ, ∀ d, 0 ≤ d → d < 1 → ∀ ms : List ℝ, ms.length = st.totalFactorNumStates →
      (∀ f i v, IsEdge (graphOf vgs hist).allScopes f i v → ∃ s < v.n, -100000 ≤ readMsgs (graphOf vgs hist).allScopes ms f i s) →
      ∃ b : Nat → Var → Nat → ℝ,
        (∀ n v start, st.varsToStarts v = some start → ∀ s < v.n, (bp.flatBeliefs (bp.runBP env ⟨lp, ms, ev⟩ n d))[start + s]? = some (b n v s)) ∧
        (∀ n, ∃ bs rs, bp.getBeliefs (bp.runBP env ⟨lp, ms, ev⟩ n d) = .ok bs ∧ getMarginals env bs = .ok rs ∧ rs.map (·.1) = vgs ∧
          ∀ p ∈ rs, p.1.HasMarginals (b n) p.2) ∧
        (∀ n v, ∀ s < v.n, |b n v s - B v s| ≤ (edgesOf (graphOf vgs hist).allScopes v).length * (2000 * (d + (1 - d) * k) ^ n)) ∧
        ∀ v, ∀ s < v.n, Tendsto (fun n => gibbs (b n v) v.n s) atTop (𝓝 (gibbs (B v) v.n s)) := by
  obtain ⟨L, hL, hrun⟩ := C60 h hT hbp env hexp hlog hfit lp ev hlp hev hmod R hR k hk hc
  refine ⟨beliefOf (graphOf vgs hist).allScopes (readEv st.varsToStarts ev) (readMsgs (graphOf vgs hist).allScopes L), fun d hd0 hd1 ms hms hinit => ?_⟩
  have hlen : ∀ n, (bp.runBP env ⟨lp, ms, ev⟩ n d).ftovMsgs.length = st.totalFactorNumStates := fun n => (h.run_read hbp env hfit ⟨lp, ms, ev⟩ d hlp hev n hms).1
  have hclose : ∀ n v, ∀ s < v.n, |beliefOf (graphOf vgs hist).allScopes (readEv st.varsToStarts ev)
      (readMsgs (graphOf vgs hist).allScopes (bp.runBP env ⟨lp, ms, ev⟩ n d).ftovMsgs) v s
      - beliefOf (graphOf vgs hist).allScopes (readEv st.varsToStarts ev) (readMsgs (graphOf vgs hist).allScopes L) v s|
      ≤ (edgesOf (graphOf vgs hist).allScopes v).length * (2000 * (d + (1 - d) * k) ^ n) := by
    intro n v s hs
    refine beliefOf_close _ (fun f i he => ?_)
    obtain ⟨vs, h1, h2⟩ := he
    exact (hrun d hd0 hd1).1 ms hms hinit n _ (h.edgeStart_lt h1 h2 hs)
  refine ⟨fun n => beliefOf (graphOf vgs hist).allScopes (readEv st.varsToStarts ev) (readMsgs (graphOf vgs hist).allScopes (bp.runBP env ⟨lp, ms, ev⟩ n d).ftovMsgs),
    fun n v start hv s hs => C34_flat h hbp _ (hlen n) hev v start hv s hs,
    fun n => C36_partial h hbp env hexp hlog (bp.runBP env ⟨lp, ms, ev⟩ n d) (hlen n) hev hreg hst, hclose, fun v s hs => tendsto_gibbs (fun t ht => ?_) hs⟩
  rw [tendsto_iff_dist_tendsto_zero]
  refine squeeze_zero (fun _ => dist_nonneg) (fun n => ?_) (g := fun n => (edgesOf (graphOf vgs hist).allScopes v).length * (2000 * (d + (1 - d) * k) ^ n)) ?_
  · rw [Real.dist_eq]
    exact hclose n v t ht
  · have h1 : 0 ≤ d + (1 - d) * k := add_nonneg hd0 (mul_nonneg (by linarith) hk.1)
    have h2 : d + (1 - d) * k < 1 := by
      have := mul_lt_mul_of_pos_left hk.2 (show 0 < 1 - d by linarith)
      linarith
    have := ((tendsto_pow_atTop_nhds_zero_of_lt_one h1 h2).const_mul 2000).const_mul ((edgesOf (graphOf vgs hist).allScopes v).length : ℝ)
    simpa using this

/-- **C60, loops.** If every message depends on at most one other message, as on a single loop of tables over two variables each, no condition on the size of
the log potentials is needed. -/
theorem C60_loop (h : Compiled vgs hist garbage st) {state : BPState ℝ} {bp : BPFun κ ℝ} {T : ℝ} (hT : 0 < T) (hbp : BP.create st state T = .ok bp)
    (env : Env ℝ) (hexp : env.exp = Real.exp) (hlog : env.log = Real.log) (hfit : Fits env (graphOf vgs hist) T) (lp ev : List ℝ)
    (hlp : lp.length = st.logPotentials.length) (hev : ev.length = st.numVarStates) (hmod : Moderate (graphOf vgs hist) lp (readEv st.varsToStarts ev) 0)
    (hc : ∀ F ∈ (graphOf vgs hist).factors lp, F.Complete)
    (hloop : ∀ vs ∈ (graphOf vgs hist).allScopes, ∀ i < vs.length, inputsBut (graphOf vgs hist).allScopes vs i ≤ 1) :
    ∃ k : ℝ, 0 ≤ k ∧ k < 1 ∧ ∃ L : List ℝ, L.length = st.totalFactorNumStates ∧ ∀ d, 0 ≤ d → d < 1 →
      (∀ ms : List ℝ, ms.length = st.totalFactorNumStates →
        (∀ f i v, IsEdge (graphOf vgs hist).allScopes f i v → ∃ s < v.n, -100000 ≤ readMsgs (graphOf vgs hist).allScopes ms f i s) →
        ∀ n p, p < st.totalFactorNumStates → |(bp.runBP env ⟨lp, ms, ev⟩ n d).ftovMsgs.getD p 0 - L.getD p 0| ≤ 2000 * (d + (1 - d) * k) ^ n) ∧
      ∀ n, (bp.runBP env ⟨lp, L, ev⟩ n d).ftovMsgs = L := by
  obtain ⟨R, hR⟩ : ∃ R : ℝ, 0 ≤ R ∧ ∀ F ∈ (graphOf vgs hist).factors lp, F.Within R := by
    have key : ∀ l : List (SFac ℝ), ∃ R : ℝ, 0 ≤ R ∧ ∀ F ∈ l, ∀ r ∈ F.rows, |r.2| ≤ R := by
      have rows : ∀ l : List (List Nat × ℝ), ∃ R : ℝ, 0 ≤ R ∧ ∀ r ∈ l, |r.2| ≤ R := by
        intro l
        induction l with
        | nil => exact ⟨0, le_rfl, by simp⟩
        | cons r l ih =>
          obtain ⟨R, h1, h2⟩ := ih
          exact ⟨max R |r.2|, le_max_of_le_left h1, List.forall_mem_cons.2 ⟨le_max_right _ _, fun r' hr' => le_max_of_le_left (h2 r' hr')⟩⟩
      intro l
      induction l with
      | nil => exact ⟨0, le_rfl, by simp⟩
      | cons F l ih =>
        obtain ⟨R, h1, h2⟩ := ih
        obtain ⟨R', -, h3⟩ := rows F.rows
        exact ⟨max R R', le_max_of_le_left h1, List.forall_mem_cons.2 ⟨fun r hr => le_max_of_le_right (h3 r hr), fun F' hF' r hr => le_max_of_le_left (h2 F' hF' r hr)⟩⟩
    obtain ⟨R, h1, h2⟩ := key ((graphOf vgs hist).factors lp)
    refine ⟨R + R, by linarith, fun F hF r hr r' hr' => ?_⟩
    have := abs_le.1 (h2 F hF r hr)
    have := abs_le.1 (h2 F hF r' hr')
    linarith
  have hcon := contraction_mem hT hR.1
  refine ⟨contraction T R, hcon.1, hcon.2, ?_⟩
  refine C60 h hT hbp env hexp hlog hfit lp ev hlp hev hmod (fun _ => R) (fun _ => hR.1) _ hcon (fun f F hF => ?_)
  have hF' := List.mem_of_getElem? hF
  refine ⟨hc F hF', hR.2 F hF', fun i hi => ?_⟩
  have h1 : (inputsBut (graphOf vgs hist).allScopes F.scope i : ℝ) ≤ 1 := by
    exact_mod_cast hloop F.scope (by rw [← (graphOf vgs hist).factors_scopes lp]; exact List.mem_map.2 ⟨F, hF', rfl⟩) i hi
  exact (mul_le_mul_of_nonneg_left h1 hcon.1).trans (by rw [mul_one])

/-! ## Refutation and non-vacuity -/

/-- A loop of three complete tables. -/
def exHistL : List (AddArg ℝ) := [.one ⟨5, .enum, .enumGroup, [[exVar 0, exVar 1], [exVar 1, exVar 2], [exVar 2, exVar 0]], ⟨2, exAll⟩, [0, 0, 0, 0, 0, 0, 0, 0, 0, 0, 0, 0]⟩]

/-- Its compiled state. -/
noncomputable def exStateL : FGState Nat ℝ :=
  match (graphOf exVars exHistL).fgState 0 with
  | .ok st => st
  | .error _ => ⟨[], fun _ => none, 0, 0, fun _ => (0, 0), fun _ => (0, 0), fun _ => none, [],
      ⟨⟨[], [], []⟩, ⟨[], [], [], [], 1⟩, ⟨[], [], [], [], 1⟩⟩⟩

theorem exStateL_compiled : Compiled exVars exHistL 0 exStateL where
  vgroups := exVars_ok
  valid := by
    simp only [exHistL, List.mem_cons, List.not_mem_nil, or_false, forall_eq, AddArg.flat]
    refine ⟨by decide, by decide, fun _ => ⟨by decide, by decide, by decide, ?_, by rfl⟩, fun h => absurd rfl h⟩
    intro vs hvs r hr
    simp only [exAll, List.mem_cons, List.not_mem_nil, or_false] at hvs hr
    rcases hvs with rfl | rfl | rfl <;> rcases hr with rfl | rfl | rfl | rfl <;> simp [exVar]
  ids := by
    have e : FType.all.flatMap (graphOf exVars exHistL).groups = [
      ⟨5, .enum, .enumGroup, [[exVar 0, exVar 1], [exVar 1, exVar 2], [exVar 2, exVar 0]], ⟨2, exAll⟩, [0, 0, 0, 0, 0, 0, 0, 0, 0, 0, 0, 0]⟩] := by rfl
    rw [e]
    intro g hg k hk _
    simp only [List.mem_cons, List.not_mem_nil, or_false] at hg hk
    rw [hg, hk]
  compiled := rfl

/-- The default BP state of the graph. -/
noncomputable def exBPStateL : BPState ℝ :=
  match bpStateOf 1 exStateL with
  | .ok s => s
  | .error _ => ⟨⟨0, []⟩, ⟨0, []⟩, ⟨0, []⟩⟩

/-- Belief propagation at temperature `T` on it. -/
noncomputable def exBPL (T : ℝ) : BPFun Nat ℝ :=
  match BP.create exStateL exBPStateL T with
  | .ok bp => bp
  | .error _ => ⟨exStateL, exBPStateL, [], 0, [], 0⟩

set_option maxRecDepth 4000 in
theorem exBPL_create (T : ℝ) : BP.create exStateL exBPStateL T = .ok (exBPL T) := rfl

theorem exScopesL : (graphOf exVars exHistL).allScopes = [[exVar 0, exVar 1], [exVar 1, exVar 2], [exVar 2, exVar 0]] := rfl

/-- Log potentials: equal states cost 1. -/
def exLpL : List ℝ := [-1, 0, 0, -1, -1, 0, 0, -1, -1, 0, 0, -1]

theorem exFactorsL : (graphOf exVars exHistL).factors exLpL = [⟨[exVar 0, exVar 1], [([0, 0], -1), ([0, 1], 0), ([1, 0], 0), ([1, 1], -1)]⟩,
    ⟨[exVar 1, exVar 2], [([0, 0], -1), ([0, 1], 0), ([1, 0], 0), ([1, 1], -1)]⟩, ⟨[exVar 2, exVar 0], [([0, 0], -1), ([0, 1], 0), ([1, 0], 0), ([1, 1], -1)]⟩] := rfl

theorem exModerateL : Moderate (graphOf exVars exHistL) exLpL (readEv exStateL.varsToStarts exEvT) 0 := by
  refine moderate_of_bounds (E := 3) (P := 3) (D := 2) (K := 2) (by norm_num) ?_ ?_ (by norm_num) ?_ (by norm_num)
  · intro _ _ v s _ _
    unfold readEv List.getD
    cases e : exEvT[(exStateL.varsToStarts v).getD 0 + s]? with
    | none => norm_num
    | some x =>
      have hl : ∀ x ∈ exEvT, |x| ≤ 3 := by simp only [exEvT, List.forall_mem_cons]; norm_num
      exact hl x (List.mem_of_getElem? e)
  · intro f i v he
    have hd : ∀ vs ∈ [[exVar 0, exVar 1], [exVar 1, exVar 2], [exVar 2, exVar 0]], ∀ v ∈ vs,
      (edgesOf [[exVar 0, exVar 1], [exVar 1, exVar 2], [exVar 2, exVar 0]] v).length ≤ 2 := by decide +kernel
    obtain ⟨vs, h1, h2⟩ := he
    rw [exScopesL] at h1 ⊢
    exact Nat.cast_le_ofNat.2 (hd vs (List.mem_of_getElem? h1) v (List.mem_of_getElem? h2))
  · have e : tableFacs (graphOf exVars exHistL).tables exLpL = (graphOf exVars exHistL).factors exLpL := rfl
    rw [e, exFactorsL]
    simp only [List.forall_mem_cons]
    norm_num

theorem exCompleteL : ∀ F ∈ (graphOf exVars exHistL).factors exLpL, F.Complete := by
  have key : ∀ (v w : Var) (a b c d : ℝ), v.n = 2 → w.n = 2 → SFac.Complete (⟨[v, w], [([0, 0], a), ([0, 1], b), ([1, 0], c), ([1, 1], d)]⟩ : SFac ℝ) := by
    intro v w a b c d hv hw
    refine ⟨by simp, ?_⟩
    intro x hx
    cases hx with
    | cons h1 hx =>
      cases hx with
      | cons h2 hx =>
        cases hx
        rename_i p q
        have hp : p = 0 ∨ p = 1 := by omega
        have hq : q = 0 ∨ q = 1 := by omega
        rcases hp with rfl | rfl <;> rcases hq with rfl | rfl <;> simp
  rw [exFactorsL]
  simp only [List.forall_mem_cons]
  exact ⟨key _ _ _ _ _ _ rfl rfl, key _ _ _ _ _ _ rfl rfl, key _ _ _ _ _ _ rfl rfl, by simp⟩

theorem exInputsL : ∀ vs ∈ (graphOf exVars exHistL).allScopes, ∀ i < vs.length, inputsBut (graphOf exVars exHistL).allScopes vs i ≤ 1 := by
  rw [exScopesL]
  decide +kernel

/-- Non-vacuity of C60: on the loop `exHistL`, with equal states costing 1, at temperature 1. -/
example {env : Env ℝ} (hexp : env.exp = Real.exp) (hlog : env.log = Real.log) (hw : env.wrapNeg = false) :
    ∃ B : Var → Nat → ℝ, ∀ d, 0 ≤ d → d < 1 → ∀ ms : List ℝ, ms.length = exStateL.totalFactorNumStates →
      (∀ f i v, IsEdge (graphOf exVars exHistL).allScopes f i v → ∃ s < v.n, -100000 ≤ readMsgs (graphOf exVars exHistL).allScopes ms f i s) →
      ∃ b : Nat → Var → Nat → ℝ,
        (∀ n v start, exStateL.varsToStarts v = some start → ∀ s < v.n, ((exBPL 1).flatBeliefs ((exBPL 1).runBP env ⟨exLpL, ms, exEvT⟩ n d))[start + s]? = some (b n v s)) ∧
        (∀ n, ∃ bs rs, (exBPL 1).getBeliefs ((exBPL 1).runBP env ⟨exLpL, ms, exEvT⟩ n d) = .ok bs ∧ getMarginals env bs = .ok rs ∧ rs.map (·.1) = exVars ∧
          ∀ p ∈ rs, p.1.HasMarginals (b n) p.2) ∧
        (∀ n v, ∀ s < v.n, |b n v s - B v s| ≤ (edgesOf (graphOf exVars exHistL).allScopes v).length * (2000 * (d + (1 - d) * contraction 1 1) ^ n)) ∧
        ∀ v, ∀ s < v.n, Tendsto (fun n => gibbs (b n v) v.n s) atTop (𝓝 (gibbs (B v) v.n s)) := by
  refine C60_marginals exStateL_compiled one_pos (exBPL_create 1) env hexp hlog ⟨.inl hw, fun h => absurd h one_ne_zero⟩ exLpL exEvT rfl rfl exModerateL (fun _ => 1)
    (fun _ => zero_le_one) _ (contraction_mem one_pos zero_le_one) (fun f F hF => ?_) exStatedT.1 exStatedT.2
  have hF' := List.mem_of_getElem? hF
  refine ⟨exCompleteL F hF', ?_, fun i hi => ?_⟩
  · have : ∀ F ∈ (graphOf exVars exHistL).factors exLpL, F.Within 1 := by
      rw [exFactorsL]
      simp only [SFac.Within, List.forall_mem_cons]
      norm_num
    exact this F hF'
  · have h1 : (inputsBut (graphOf exVars exHistL).allScopes F.scope i : ℝ) ≤ 1 := by
      exact_mod_cast exInputsL F.scope (by rw [← (graphOf exVars exHistL).factors_scopes exLpL]; exact List.mem_map.2 ⟨F, hF', rfl⟩) i hi
    exact (mul_le_mul_of_nonneg_left h1 (contraction_mem one_pos zero_le_one).1).trans (by rw [mul_one])

/-- Non-vacuity of C60 for loops: the same, at every temperature `T > 0`. -/
example {env : Env ℝ} (hexp : env.exp = Real.exp) (hlog : env.log = Real.log) (hw : env.wrapNeg = false) {T : ℝ} (hT : 0 < T) :
    ∃ k : ℝ, 0 ≤ k ∧ k < 1 ∧ ∃ L : List ℝ, L.length = exStateL.totalFactorNumStates ∧ ∀ d, 0 ≤ d → d < 1 →
      (∀ ms : List ℝ, ms.length = exStateL.totalFactorNumStates →
        (∀ f i v, IsEdge (graphOf exVars exHistL).allScopes f i v → ∃ s < v.n, -100000 ≤ readMsgs (graphOf exVars exHistL).allScopes ms f i s) →
        ∀ n p, p < exStateL.totalFactorNumStates → |((exBPL T).runBP env ⟨exLpL, ms, exEvT⟩ n d).ftovMsgs.getD p 0 - L.getD p 0| ≤ 2000 * (d + (1 - d) * k) ^ n) ∧
      ∀ n, ((exBPL T).runBP env ⟨exLpL, L, exEvT⟩ n d).ftovMsgs = L :=
  C60_loop exStateL_compiled hT (exBPL_create T) env hexp hlog ⟨.inl hw, fun h => absurd h hT.ne'⟩ exLpL exEvT rfl rfl exModerateL exCompleteL exInputsL

/-- The loop with rational log potentials. -/
def exHistLQ : List (AddArg ℚ) := [.one ⟨5, .enum, .enumGroup, [[exVar 0, exVar 1], [exVar 1, exVar 2], [exVar 2, exVar 0]], ⟨2, exAll⟩, [-1, 0, 0, -1, -1, 0, 0, -1, -1, 0, 0, -1]⟩]

/-- Its compiled state. -/
def exStateLQ : FGState Nat ℚ :=
  match (graphOf exVars exHistLQ).fgState 0 with
  | .ok st => st
  | .error _ => ⟨[], fun _ => none, 0, 0, fun _ => (0, 0), fun _ => (0, 0), fun _ => none, [],
      ⟨⟨[], [], []⟩, ⟨[], [], [], [], 1⟩, ⟨[], [], [], [], 1⟩⟩⟩

/-- Max-product belief propagation on it. -/
def exBPLQ : BPFun Nat ℚ :=
  match BP.create exStateLQ exBPState 0 with
  | .ok bp => bp
  | .error _ => ⟨exStateLQ, exBPState, [], 0, [], 0⟩

set_option maxRecDepth 4000 in
theorem exBPLQ_create : BP.create exStateLQ exBPState 0 = .ok exBPLQ := rfl

/-- **C60 does not hold at temperature 0.** On the loop of three tables with equal states costing 1, the messages of max-product (no evidence, no damping) from one array
change for ever between two arrays. -/
theorem C60_refuted (k : Nat) :
    (exBPLQ.runBP exEnv ⟨[-1, 0, 0, -1, -1, 0, 0, -1, -1, 0, 0, -1], [0, -1, 0, -1, 0, -1, 0, -1, 0, -1, 0, -1], [0, 0, 0, 0, 0, 0]⟩ (2 * k) 0).ftovMsgs
      = [0, -1, 0, -1, 0, -1, 0, -1, 0, -1, 0, -1] ∧
    (exBPLQ.runBP exEnv ⟨[-1, 0, 0, -1, -1, 0, 0, -1, -1, 0, 0, -1], [0, -1, 0, -1, 0, -1, 0, -1, 0, -1, 0, -1], [0, 0, 0, 0, 0, 0]⟩ (2 * k + 1) 0).ftovMsgs
      = [-1, 0, -1, 0, -1, 0, -1, 0, -1, 0, -1, 0] := by
  have h1 : exBPLQ.step exEnv [-1, 0, 0, -1, -1, 0, 0, -1, -1, 0, 0, -1] [0, 0, 0, 0, 0, 0] 0 [0, -1, 0, -1, 0, -1, 0, -1, 0, -1, 0, -1]
    = [-1, 0, -1, 0, -1, 0, -1, 0, -1, 0, -1, 0] := by decide +kernel
  have h2 : exBPLQ.step exEnv [-1, 0, 0, -1, -1, 0, 0, -1, -1, 0, 0, -1] [0, 0, 0, 0, 0, 0] 0 [-1, 0, -1, 0, -1, 0, -1, 0, -1, 0, -1, 0]
    = [0, -1, 0, -1, 0, -1, 0, -1, 0, -1, 0, -1] := by decide +kernel
  have h0 : (exBPLQ.runBP exEnv ⟨[-1, 0, 0, -1, -1, 0, 0, -1, -1, 0, 0, -1], [0, -1, 0, -1, 0, -1, 0, -1, 0, -1, 0, -1], [0, 0, 0, 0, 0, 0]⟩ 0 0).ftovMsgs
    = [0, -1, 0, -1, 0, -1, 0, -1, 0, -1, 0, -1] := by decide +kernel
  have hs : ∀ n, (exBPLQ.runBP exEnv ⟨[-1, 0, 0, -1, -1, 0, 0, -1, -1, 0, 0, -1], [0, -1, 0, -1, 0, -1, 0, -1, 0, -1, 0, -1], [0, 0, 0, 0, 0, 0]⟩ (n + 1) 0).ftovMsgs
      = exBPLQ.step exEnv [-1, 0, 0, -1, -1, 0, 0, -1, -1, 0, 0, -1] [0, 0, 0, 0, 0, 0] 0
        (exBPLQ.runBP exEnv ⟨[-1, 0, 0, -1, -1, 0, 0, -1, -1, 0, 0, -1], [0, -1, 0, -1, 0, -1, 0, -1, 0, -1, 0, -1], [0, 0, 0, 0, 0, 0]⟩ n 0).ftovMsgs :=
    fun n => iterate_succ' _ n _
  induction k with
  | zero => exact ⟨h0, by rw [hs 0, h0, h1]⟩
  | succ k ih =>
    have e1 : (exBPLQ.runBP exEnv ⟨[-1, 0, 0, -1, -1, 0, 0, -1, -1, 0, 0, -1], [0, -1, 0, -1, 0, -1, 0, -1, 0, -1, 0, -1], [0, 0, 0, 0, 0, 0]⟩ (2 * (k + 1)) 0).ftovMsgs
        = [0, -1, 0, -1, 0, -1, 0, -1, 0, -1, 0, -1] := by
      rw [show 2 * (k + 1) = 2 * k + 1 + 1 by omega, hs, ih.2, h2]
    exact ⟨e1, by rw [hs, e1, h1]⟩

end PGMax
