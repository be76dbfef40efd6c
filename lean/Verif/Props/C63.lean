import Verif.Lemmas.Dominant
import Verif.Props.C31_C33
import Verif.Props.C60

/-! # C63: evidence that is stronger than all factors decides -/

namespace PGMax

section
variable {κ α : Type _} [Field α] [LinearOrder α] [IsStrictOrderedRing α] {vgs : List (VGroup κ)} {hist : List (AddArg α)} {garbage : Garbage} {st : FGState κ α}

omit [IsStrictOrderedRing α] in
/-- Decoding returns the states with the largest beliefs. -/
theorem Compiled.decode_states [DecidableEq κ] (h : Compiled vgs hist garbage st) {state : BPState α} {T : α} {bp : BPFun κ α} (hbp : BP.create st state T = .ok bp)
    (a : BPArrays α) (hm : a.ftovMsgs.length = st.totalFactorNumStates) (hev : a.evidence.length = st.numVarStates)
    (hreg : ∀ g ∈ vgs, g.Regular) (hst : ∀ g ∈ vgs, g.Stated) {x : Var → Nat}
    (hx : ∀ v ∈ graphVars vgs, IsFirstMax (beliefOf (graphOf vgs hist).allScopes (readEv st.varsToStarts a.evidence) (readMsgs (graphOf vgs hist).allScopes a.ftovMsgs) v) v.n (x v)) :
    ∃ bs rs, bp.getBeliefs a = .ok bs ∧ decodeMapStates bs = .ok rs ∧ rs.map (·.1) = vgs ∧ ∀ p ∈ rs, ∀ v ∈ p.1.variables, p.1.StateIn v (x v) p.2 := by
  obtain ⟨bs, rs, e1, e2, e3, e4⟩ := C35_partial h hbp a hm hev hreg hst
  refine ⟨bs, rs, e1, e2, e3, ?_⟩
  intro p hp v hv
  have hpv : p.1 ∈ vgs := by rw [← e3]; exact List.mem_map_of_mem (f := Prod.fst) hp
  have hfm := hx v (mem_graphVars.2 ⟨p.1, hpv, hv⟩)
  have hdec := e4 p hp
  obtain ⟨g, r⟩ := p
  obtain ⟨k, hk⟩ := List.mem_iff_getElem?.1 hv
  cases g with
  | arr g =>
    cases r with
    | dict d => exact hdec.elim
    | arr r =>
      obtain ⟨-, -, hd⟩ := hdec
      obtain ⟨j, hj, hjm⟩ := hd k v hk
      rw [IsFirstMax.unique hfm hjm]
      exact ⟨k, hk, hj⟩
  | dict g =>
    cases r with
    | arr r => exact hdec.elim
    | dict d =>
      obtain ⟨-, hd⟩ := hdec
      obtain ⟨y, j, hy, hyj, hjm⟩ := hd k v hk
      rw [IsFirstMax.unique hfm hjm]
      exact ⟨k, y, hk, hy, hyj⟩

theorem bound_mono {R d : α} {n N : Nat} (hR : 0 ≤ R) (hd : 0 ≤ d ∧ d ≤ 1) (hn : N ≤ n) : R + d ^ n * (1000 - R) ≤ R + 1000 * d ^ N := by
  have h1 : d ^ n ≤ d ^ N := pow_le_pow_of_le_one hd.1 hd.2 hn
  have h2 : 0 ≤ d ^ n := pow_nonneg hd.1 n
  nlinarith [mul_nonneg h2 hR]

/-- **C63.** Let `x` give every variable a state whose evidence exceeds that of its other states by more than the sum of `R f + 1000 d^N` over its factors `f`, where
any two log potentials of `f` differ by at most `R f` and `f` is a complete table, or `R f ≥ 1000` (and `f` is any factor, also OR and AND). Then, at temperature 0, for moderate
numbers and with damping `d`, `decode_map_states` returns `x` after any number `n ≥ N` of iterations from any initial messages, on every graph, loops or not.
(Without damping, `R f + 1000 d^N` is `R f` for `N = 1`.) -/
theorem C63 [DecidableEq κ] (h : Compiled vgs hist garbage st) {state : BPState α} {bp : BPFun κ α} (hbp : BP.create st state 0 = .ok bp)
    (env : Env α) (hfit : Fits env (graphOf vgs hist) (0 : α)) (a : BPArrays α) (d : α)
    (hlp : a.logPotentials.length = st.logPotentials.length) (hev : a.evidence.length = st.numVarStates) (hm : a.ftovMsgs.length = st.totalFactorNumStates)
    (hmod : Moderate (graphOf vgs hist) a.logPotentials (readEv st.varsToStarts a.evidence) d) (hreg : ∀ g ∈ vgs, g.Regular) (hst : ∀ g ∈ vgs, g.Stated)
    (R : Nat → α) (hR : ∀ (f : Nat) (F : SFac α), ((graphOf vgs hist).factors a.logPotentials)[f]? = some F → 0 ≤ R f ∧
      (1000 ≤ R f ∨ (f < (graphOf vgs hist).tables.length ∧ F.Complete ∧ F.Within (R f))))
    (x : Var → Nat) (N : Nat) (hdom : ∀ v ∈ graphVars vgs, Dominant (graphOf vgs hist).allScopes (readEv st.varsToStarts a.evidence) (fun f => R f + 1000 * d ^ N) x v)
    (n : Nat) (hn : N ≤ n) :
    ∃ bs rs, bp.getBeliefs (bp.runBP env a n d) = .ok bs ∧ decodeMapStates bs = .ok rs ∧ rs.map (·.1) = vgs ∧ ∀ p ∈ rs, ∀ v ∈ p.1.variables, p.1.StateIn v (x v) p.2 := by
  refine h.decode_states hbp _ (h.run_read hbp env hfit a d hlp hev n hm).1 hev hreg hst (fun v hv => (hdom v hv).firstMax fun f i he s hs => ?_)
  obtain ⟨r1, r2⟩ := (C31_run_partial h hbp env hfit.seg a d n hlp hm f i v he).1 s hs
  refine ⟨?_, r2⟩
  obtain ⟨F, hF, -⟩ := (graphOf vgs hist).factors_edge a.logPotentials he
  obtain ⟨h0, h1 | ⟨h1, h2, h3⟩⟩ := hR f F hF
  · have := pow_nonneg hmod.damping.1 N
    linarith
  · have h4 := C56_partial h hbp env hfit a n d hlp hev hm hmod f F hF h1 h2 (R f) h3 i v he s hs
    have h5 := bound_mono h0 hmod.damping hn
    linarith

/-- **C63, MAP.** If all factors are complete tables, the states favoured by dominant evidence are the unique MAP assignment. -/
theorem C63_map (h : Compiled vgs hist garbage st) (lp : List α) (ev : Var → Nat → α) (R : Nat → α) (hR : ∀ f, 0 ≤ R f)
    (hc : ∀ (f : Nat) (F : SFac α), ((graphOf vgs hist).factors lp)[f]? = some F → F.Complete ∧ F.Within (R f)) (x : Var → Nat)
    (hdom : ∀ v ∈ graphVars vgs, Dominant (graphOf vgs hist).allScopes ev R x v) : ∃ ρ, IsUniqueMAP (graphVars vgs) ((graphOf vgs hist).factors lp) ev x ρ := by
  have hsc := (graphOf vgs hist).factors_scopes lp
  refine unique_map_of_dominant (fun F hF v hv => ?_) hR hc (by rw [hsc]; exact hdom)
  obtain ⟨s, hs⟩ := h.scopeVars F.scope (by rw [← hsc]; exact List.mem_map.2 ⟨F, hF, rfl⟩) v hv
  obtain ⟨i, hi, -⟩ := (h.starts_iff v s).1 hs
  exact List.mem_toFinset.2 (List.mem_of_getElem? hi)

end

section
variable {κ : Type _} {vgs : List (VGroup κ)} {hist : List (AddArg ℝ)} {garbage : Garbage} {st : FGState κ ℝ}

/-- **C63, positive temperatures.** -/
theorem C63_sum [DecidableEq κ] (h : Compiled vgs hist garbage st) {state : BPState ℝ} {bp : BPFun κ ℝ} {T : ℝ} (hT : 0 < T) (hbp : BP.create st state T = .ok bp)
    (env : Env ℝ) (hexp : env.exp = Real.exp) (hlog : env.log = Real.log) (hfit : Fits env (graphOf vgs hist) T) (a : BPArrays ℝ) (d : ℝ)
    (hlp : a.logPotentials.length = st.logPotentials.length) (hev : a.evidence.length = st.numVarStates) (hm : a.ftovMsgs.length = st.totalFactorNumStates)
    (hmod : Moderate (graphOf vgs hist) a.logPotentials (readEv st.varsToStarts a.evidence) d) (hreg : ∀ g ∈ vgs, g.Regular) (hst : ∀ g ∈ vgs, g.Stated)
    (R : Nat → ℝ) (hR : ∀ (f : Nat) (F : SFac ℝ), ((graphOf vgs hist).factors a.logPotentials)[f]? = some F → 0 ≤ R f ∧
      (1000 ≤ R f ∨ (f < (graphOf vgs hist).tables.length ∧ F.Complete ∧ F.Within (R f))))
    (x : Var → Nat) (N : Nat) (hdom : ∀ v ∈ graphVars vgs, Dominant (graphOf vgs hist).allScopes (readEv st.varsToStarts a.evidence) (fun f => R f + 1000 * d ^ N) x v)
    (n : Nat) (hn : N ≤ n) :
    ∃ bs rs, bp.getBeliefs (bp.runBP env a n d) = .ok bs ∧ decodeMapStates bs = .ok rs ∧ rs.map (·.1) = vgs ∧ ∀ p ∈ rs, ∀ v ∈ p.1.variables, p.1.StateIn v (x v) p.2 := by
  refine h.decode_states hbp _ (h.run_read hbp env hfit a d hlp hev n hm).1 hev hreg hst (fun v hv => (hdom v hv).firstMax fun f i he s hs => ?_)
  obtain ⟨r1, r2⟩ := (C31_run_partial h hbp env hfit.seg a d n hlp hm f i v he).1 s hs
  refine ⟨?_, r2⟩
  obtain ⟨F, hF, -⟩ := (graphOf vgs hist).factors_edge a.logPotentials he
  obtain ⟨h0, h1 | ⟨h1, h2, h3⟩⟩ := hR f F hF
  · have := pow_nonneg hmod.damping.1 N
    linarith
  · have h4 := C56_sum_partial h hT hbp env hexp hlog hfit a n d hlp hev hm hmod f F hF h1 h2 (R f) h3 i v he s hs
    have h5 := bound_mono h0 hmod.damping hn
    linarith

/-- **C63, messages.** On a graph of complete tables, loops or not, with evidence that is dominant as in C63 for the states `x`, at temperature 0 and with damping `d < 1`,
the messages `k` iterations after the `N`-th are within `2000 d^k` of the limit `L` (so equal to it from the second iteration on, without damping): the message of factor `f` to
its `i`-th variable in state `s` is the log potential `θ f i s` of its configuration in which that variable has state `s` and all others are as in `x`, normalised. -/
theorem C63_messages (h : Compiled vgs hist garbage st) {state : BPState ℝ} {bp : BPFun κ ℝ} (hbp : BP.create st state 0 = .ok bp)
    (env : Env ℝ) (hfit : Fits env (graphOf vgs hist) (0 : ℝ)) (a : BPArrays ℝ) (d : ℝ)
    (hlp : a.logPotentials.length = st.logPotentials.length) (hev : a.evidence.length = st.numVarStates) (hm : a.ftovMsgs.length = st.totalFactorNumStates)
    (hmod : Moderate (graphOf vgs hist) a.logPotentials (readEv st.varsToStarts a.evidence) d)
    (hinit : ∀ f i v, IsEdge (graphOf vgs hist).allScopes f i v → ∃ s < v.n, -100000 ≤ readMsgs (graphOf vgs hist).allScopes a.ftovMsgs f i s)
    (htab : (graphOf vgs hist).allScopes.length = (graphOf vgs hist).tables.length)
    (R : Nat → ℝ) (hR : ∀ f, 0 ≤ R f) (hc : ∀ (f : Nat) (F : SFac ℝ), ((graphOf vgs hist).factors a.logPotentials)[f]? = some F → F.Complete ∧ F.Within (R f))
    (x : Var → Nat) (N : Nat) (hdom : ∀ v ∈ graphVars vgs, Dominant (graphOf vgs hist).allScopes (readEv st.varsToStarts a.evidence) (fun f => R f + 1000 * d ^ N) x v) :
    ∃ (θ L : Nat → Nat → Nat → ℝ), ∀ (f i : Nat) (v : Var) (F : SFac ℝ), IsEdge (graphOf vgs hist).allScopes f i v →
      ((graphOf vgs hist).factors a.logPotentials)[f]? = some F → ∀ s < v.n,
        ((F.scope.map x).set i s, θ f i s) ∈ F.rows ∧
        (∃ M, IsGreatest {z | ∃ t < v.n, z = θ f i t} M ∧ L f i s = max (θ f i s - M) (-1000)) ∧
        ∀ k, |readMsgs (graphOf vgs hist).allScopes (bp.runBP env a (N + k) d).ftovMsgs f i s - L f i s| ≤ 2000 * d ^ k := by
  have hsc := (graphOf vgs hist).factors_scopes a.logPotentials
  have hmem : ∀ f i v, IsEdge (graphOf vgs hist).allScopes f i v → v ∈ graphVars vgs := by
    rintro f i v ⟨vs, h1, h2⟩
    obtain ⟨s, hs⟩ := h.scopeVars vs (List.mem_of_getElem? h1) v (List.mem_of_getElem? h2)
    obtain ⟨i, hi, -⟩ := (h.starts_iff v s).1 hs
    exact List.mem_toFinset.2 (List.mem_of_getElem? hi)
  have hlt : ∀ {f i v}, IsEdge (graphOf vgs hist).allScopes f i v → f < (graphOf vgs hist).tables.length := by
    rintro f i v ⟨vs, h1, -⟩
    rw [← htab]
    exact (List.getElem?_eq_some_iff.1 h1).1
  have hlmod : LogicalModerate (graphOf vgs hist) (readEv st.varsToStarts a.evidence) := by
    intro f vs hvs hf
    have := (List.getElem?_eq_some_iff.1 hvs).1
    omega
  -- the rows
  have hex : ∀ f i s : Nat, ∃ θ : ℝ, ∀ F v, ((graphOf vgs hist).factors a.logPotentials)[f]? = some F → F.scope[i]? = some v → s < v.n → ((F.scope.map x).set i s, θ) ∈ F.rows := by
    intro f i s
    by_cases hE : ∃ F v, ((graphOf vgs hist).factors a.logPotentials)[f]? = some F ∧ F.scope[i]? = some v ∧ s < v.n
    · obtain ⟨F, v, hF, hi, hs⟩ := hE
      have hfit : List.Forall₂ (fun s (v : Var) => s < v.n) ((F.scope.map x).set i s) F.scope := by
        rw [List.forall₂_iff_get]
        refine ⟨by simp, fun j hj hj' => ?_⟩
        simp only [List.get_eq_getElem, List.getElem_set]
        split
        · next e =>
          subst e
          rw [(List.getElem?_eq_some_iff.1 hi).2]
          exact hs
        · rw [List.getElem_map]
          refine (hdom _ (hmem f j _ ⟨F.scope, ?_, List.getElem?_eq_getElem hj'⟩)).1
          rw [← hsc, List.getElem?_map, hF]; rfl
      obtain ⟨θ, hθ⟩ := (hc f F hF).1.2 _ hfit
      refine ⟨θ, fun F' v' hF' _ _ => ?_⟩
      rw [hF] at hF'
      cases hF'
      exact hθ
    · exact ⟨0, fun F v hF hi hs => absurd ⟨F, v, hF, hi, hs⟩ hE⟩
  choose θ hθ using hex
  refine ⟨θ, fun f i s => match ((graphOf vgs hist).factors a.logPotentials)[f]? with
    | none => 0
    | some F => match F.scope[i]? with
      | none => 0
      | some v => tbNorm v.n (fun t => WithBot.some (θ f i t)) s, ?_⟩
  intro f0 i0 v0 F0 he0 hF0 s0 hs0
  have hi0 : F0.scope[i0]? = some v0 := by
    obtain ⟨F', hF', hi, -⟩ := (graphOf vgs hist).factors_edge a.logPotentials he0
    rw [hF0] at hF'
    cases hF'
    exact hi
  refine ⟨hθ f0 i0 s0 F0 v0 hF0 hi0 hs0, ?_, ?_⟩
  · obtain ⟨t, ht, he⟩ := Finset.exists_mem_eq_sup (Finset.range v0.n) ⟨s0, Finset.mem_range.2 hs0⟩ (fun t => (WithBot.some (θ f0 i0 t) : WithBot ℝ))
    refine ⟨θ f0 i0 t, ⟨⟨t, Finset.mem_range.1 ht, rfl⟩, ?_⟩, ?_⟩
    · rintro z ⟨u, hu, rfl⟩
      have : (WithBot.some (θ f0 i0 u) : WithBot ℝ) ≤ WithBot.some (θ f0 i0 t) := by
        rw [← he]
        exact Finset.le_sup (f := fun t => (WithBot.some (θ f0 i0 t) : WithBot ℝ)) (Finset.mem_range.2 hu)
      exact WithBot.coe_le_coe.1 this
    · simp only [hF0, hi0]
      exact tbNorm_coe he rfl
  · intro k
    generalize hL : (fun f i s => match ((graphOf vgs hist).factors a.logPotentials)[f]? with
      | none => 0
      | some F => match F.scope[i]? with
        | none => 0
        | some v => tbNorm v.n (fun t => WithBot.some (θ f i t)) s : Msgs ℝ) = L
    have hLat : ∀ {f i : Nat} {F : SFac ℝ} {v : Var}, ((graphOf vgs hist).factors a.logPotentials)[f]? = some F → F.scope[i]? = some v →
        ∀ s, L f i s = tbNorm v.n (fun t => WithBot.some (θ f i t)) s := by
      intro f i F v hF hi s
      rw [← hL]
      simp only [hF, hi]
    have hrun := fun n => C37_partial h hbp env hfit a n d hlp hev hm hmod hlmod hinit
    -- all messages are close
    have key : Close (((graphOf vgs hist).factors a.logPotentials).map (·.scope)) (2000 * d ^ k)
        (tbRun ((graphOf vgs hist).factors a.logPotentials) (readEv st.varsToStarts a.evidence) d (N + k) (readMsgs (graphOf vgs hist).allScopes a.ftovMsgs)) L := by
      induction k with
      | zero =>
        refine ⟨fun _ _ => -1000, fun _ _ => 1000, fun f i v he => ⟨by norm_num, by norm_num, by norm_num, fun s hs => ?_⟩⟩
        obtain ⟨F, hF, hi⟩ := isEdge_factors he
        rw [tbRun_eq_sumRun, hLat hF hi]
        have h1 := sumRun_mem (Φ := fun _ => maxOf 0) (ev := readEv st.varsToStarts a.evidence) (d := d) (readMsgs (graphOf vgs hist).allScopes a.ftovMsgs) (N + 0) he hs
        have h2 := tbNorm_mem (fun t => WithBot.some (θ f i t)) hs
        constructor <;> linarith [h1.1, h1.2, h2.1, h2.2]
      | succ k ih =>
        have hlow : ∀ f i v, IsEdge (graphOf vgs hist).allScopes f i v → ∀ s < v.n, -(R f + 1000 * d ^ N) ≤
            tbRun ((graphOf vgs hist).factors a.logPotentials) (readEv st.varsToStarts a.evidence) d (N + k) (readMsgs (graphOf vgs hist).allScopes a.ftovMsgs) f i s ∧
            tbRun ((graphOf vgs hist).factors a.logPotentials) (readEv st.varsToStarts a.evidence) d (N + k) (readMsgs (graphOf vgs hist).allScopes a.ftovMsgs) f i s ≤ 0 := by
          intro f i v he s hs
          rw [← hrun (N + k) f i v s he hs]
          refine ⟨?_, ((C31_run_partial h hbp env hfit.seg a d (N + k) hlp hm f i v he).1 s hs).2⟩
          obtain ⟨F, hF, -⟩ := (graphOf vgs hist).factors_edge a.logPotentials he
          have h4 := C56_partial h hbp env hfit a (N + k) d hlp hev hm hmod f F hF (hlt he) (hc f F hF).1 (R f) (hc f F hF).2 i v he s hs
          have h5 := bound_mono (hR f) hmod.damping (Nat.le_add_right N k)
          linarith
        rw [show N + (k + 1) = N + k + 1 from rfl, tbRun]
        generalize tbRun ((graphOf vgs hist).factors a.logPotentials) (readEv st.varsToStarts a.evidence) d (N + k) (readMsgs (graphOf vgs hist).allScopes a.ftovMsgs) = m at ih hlow
        obtain ⟨lo, hi, hlh⟩ := ih
        have step : ∀ f i, ∃ lo hi : ℝ, ∀ v, IsEdge (((graphOf vgs hist).factors a.logPotentials).map (·.scope)) f i v → lo ≤ 0 ∧ 0 ≤ hi ∧ hi - lo ≤ 2000 * d ^ (k + 1) ∧
            ∀ s < v.n, lo ≤ tbStep ((graphOf vgs hist).factors a.logPotentials) (readEv st.varsToStarts a.evidence) d m f i s - L f i s ∧
              tbStep ((graphOf vgs hist).factors a.logPotentials) (readEv st.varsToStarts a.evidence) d m f i s - L f i s ≤ hi := by
          intro f i
          by_cases hex : ∃ v, IsEdge (((graphOf vgs hist).factors a.logPotentials).map (·.scope)) f i v
          · obtain ⟨v, hv⟩ := hex
            obtain ⟨F, hF, hiF⟩ := isEdge_factors hv
            obtain ⟨a1, a2, a3, a4⟩ := hlh f i v hv
            have hout : ∀ s < v.n, tbOut F (tbIn ((graphOf vgs hist).factors a.logPotentials) (readEv st.varsToStarts a.evidence) m f F) i s =
                WithBot.some (θ f i s + (((List.range F.scope.length).filter (fun j => j ≠ i)).map (fun j =>
                  tbIn ((graphOf vgs hist).factors a.logPotentials) (readEv st.varsToStarts a.evidence) m f F j ((F.scope.map x).getD j 0))).sum) := by
              intro s hs
              refine (hc f F hF).1.out_dominated (h.rowsFit a.logPotentials hF) (hc f F hF).2 (hR f) ?_ (List.getElem?_eq_some_iff.1 hiF).1 (hθ f i s F v hF hiF hs)
              intro j w hj t ht hne
              rw [tbIn_at hj, tbIn_at hj, hsc]
              have hew : IsEdge (graphOf vgs hist).allScopes f j w := ⟨F.scope, by rw [← hsc, List.getElem?_map, hF]; rfl, hj⟩
              have h1 := (hdom w (hmem f j w hew)).message (m := m) (fun f i he s hs => hlow f i w he s hs) hew t ht hne
              have h2 := pow_nonneg hmod.damping.1 N
              linarith
            generalize (((List.range F.scope.length).filter (fun j => j ≠ i)).map (fun j =>
                  tbIn ((graphOf vgs hist).factors a.logPotentials) (readEv st.varsToStarts a.evidence) m f F j ((F.scope.map x).getD j 0))).sum = K at hout
            obtain ⟨lo', hi', k1, k2, k3, k4⟩ := tbNorm_osc (n := v.n) (lo := d * lo f i + (1 - d) * K) (hi := d * hi f i + (1 - d) * K)
              (x := fun s => (tbOut F (tbIn ((graphOf vgs hist).factors a.logPotentials) (readEv st.varsToStarts a.evidence) m f F) i s).map (fun x => d * m f i s + (1 - d) * x))
              (y := fun s => (WithBot.some (θ f i s)).map (fun x => d * L f i s + (1 - d) * x)) (by
                intro s hs
                right
                rw [hout s hs]
                refine ⟨_, _, rfl, rfl, ?_⟩
                obtain ⟨b3, b4⟩ := a4 s hs
                have q1 := mul_le_mul_of_nonneg_left b3 hmod.damping.1
                have q2 := mul_le_mul_of_nonneg_left b4 hmod.damping.1
                constructor <;> linarith) (by
                have q1 := mul_le_mul_of_nonneg_left (a1.trans a2) hmod.damping.1
                linarith)
            refine ⟨lo', hi', fun w hw => ?_⟩
            obtain ⟨F', hF', hiF'⟩ := isEdge_factors hw
            rw [hF] at hF'
            cases hF'
            rw [hiF] at hiF'
            cases hiF'
            refine ⟨k1, k2, k3.trans ?_, fun s hs => ?_⟩
            · have q1 := mul_le_mul_of_nonneg_left a3 hmod.damping.1
              rw [pow_succ]
              linarith
            · have := k4 s hs
              rw [tbNorm_damped (o := fun s => WithBot.some (θ f i s)) (m := L f i) (fun s _ => hLat hF hiF s) hmod.damping hs] at this
              rw [tbStep_at hF hiF]
              exact this
          · exact ⟨0, 0, fun v hv => absurd ⟨v, hv⟩ hex⟩
        choose lo' hi' hlh' using step
        exact ⟨lo', hi', fun f i v he => hlh' f i v he⟩
    rw [hrun (N + k) f0 i0 v0 s0 he0 hs0]
    have := key.abs_le (by rw [hsc]; exact he0) hs0
    exact this

end

/-! ## Non-vacuity: the loop `exHistL`, on which equal states cost 1, with evidence 3 for the states 0, 1, 0 -/

/-- The evidence. -/
def exEvD : List ℝ := [3, 0, 0, 3, 3, 0]

/-- The states it favours. -/
def exDom (v : Var) : Nat := if v = exVar 1 then 1 else 0

theorem exModerateD : Moderate (graphOf exVars exHistL) exLpL (readEv exStateL.varsToStarts exEvD) 0 := by
  refine moderate_of_bounds (E := 3) (P := 3) (D := 2) (K := 2) (by norm_num) ?_ ?_ (by norm_num) ?_ (by norm_num)
  · intro _ _ v s _ _
    unfold readEv List.getD
    cases e : exEvD[(exStateL.varsToStarts v).getD 0 + s]? with
    | none => norm_num
    | some x =>
      have hl : ∀ x ∈ exEvD, |x| ≤ 3 := by simp only [exEvD, List.forall_mem_cons]; norm_num
      exact hl x (List.mem_of_getElem? e)
  · intro f i v he
    have hd : ∀ vs ∈ [[exVar 0, exVar 1], [exVar 1, exVar 2], [exVar 2, exVar 0]], ∀ v ∈ vs,
      (edgesOf [[exVar 0, exVar 1], [exVar 1, exVar 2], [exVar 2, exVar 0]] v).length ≤ 2 := by decide +kernel
    obtain ⟨vs, h1, h2⟩ := he
    rw [exScopesL] at h1 ⊢
    exact Nat.cast_le_ofNat.2 (hd vs (List.mem_of_getElem? h1) v (List.mem_of_getElem? h2))
  · have e : tableFacs (graphOf exVars exHistL).tables exLpL = (graphOf exVars exHistL).factors exLpL := rfl
    rw [e, exFactorsL]
    simp only [List.forall_mem_cons]
    norm_num

theorem exWithinL : ∀ F ∈ (graphOf exVars exHistL).factors exLpL, F.Within 1 := by
  rw [exFactorsL]
  simp only [SFac.Within, List.forall_mem_cons]
  norm_num

theorem exDominant (b : Nat → ℝ) (hb : ∀ f, b f ≤ 1) : ∀ v ∈ graphVars exVars, Dominant (graphOf exVars exHistL).allScopes (readEv exStateL.varsToStarts exEvD) b exDom v := by
  intro v hv
  have hv' : v = exVar 0 ∨ v = exVar 1 ∨ v = exVar 2 := by
    have : ∀ v ∈ graphVars exVars, v = exVar 0 ∨ v = exVar 1 ∨ v = exVar 2 := by decide +kernel
    exact this v hv
  have e0 : (edgesOf [[exVar 0, exVar 1], [exVar 1, exVar 2], [exVar 2, exVar 0]] (exVar 0)).map (·.1) = [0, 2] := by decide +kernel
  have e1 : (edgesOf [[exVar 0, exVar 1], [exVar 1, exVar 2], [exVar 2, exVar 0]] (exVar 1)).map (·.1) = [0, 1] := by decide +kernel
  have e2 : (edgesOf [[exVar 0, exVar 1], [exVar 1, exVar 2], [exVar 2, exVar 0]] (exVar 2)).map (·.1) = [1, 2] := by decide +kernel
  have s0 : exStateL.varsToStarts (exVar 0) = some 0 := rfl
  have s1 : exStateL.varsToStarts (exVar 1) = some 2 := rfl
  have s2 : exStateL.varsToStarts (exVar 2) = some 4 := rfl
  have hs : ∀ v, ((edgesOf [[exVar 0, exVar 1], [exVar 1, exVar 2], [exVar 2, exVar 0]] v).map (fun e => b e.1)).sum =
      (((edgesOf [[exVar 0, exVar 1], [exVar 1, exVar 2], [exVar 2, exVar 0]] v).map (·.1)).map b).sum := fun v => by rw [List.map_map]; rfl
  have b0 := hb 0
  have b1 := hb 1
  have b2 := hb 2
  rcases hv' with rfl | rfl | rfl
  · refine ⟨by decide, fun s hs' hne => ?_⟩
    have hne' : s ≠ 0 := hne
    have : s = 1 := by simp only [exVar] at hs'; omega
    subst this
    rw [exScopesL, hs, e0]
    unfold readEv
    rw [s0]
    simp [exEvD, exDom, exVar]
    linarith
  · refine ⟨by decide, fun s hs' hne => ?_⟩
    have hne' : s ≠ 1 := hne
    have : s = 0 := by simp only [exVar] at hs'; omega
    subst this
    rw [exScopesL, hs, e1]
    unfold readEv
    rw [s1]
    simp [exEvD, exDom, exVar]
    linarith
  · refine ⟨by decide, fun s hs' hne => ?_⟩
    have hne' : s ≠ 0 := hne
    have : s = 1 := by simp only [exVar] at hs'; omega
    subst this
    rw [exScopesL, hs, e2]
    unfold readEv
    rw [s2]
    simp [exEvD, exDom, exVar]
    linarith

/-- Non-vacuity of C63: the states 0, 1, 0 are decoded after every number of iterations but zero, at temperature 0. -/
example {env : Env ℝ} (hfit : Fits env (graphOf exVars exHistL) (0 : ℝ)) (n : Nat) (hn : 1 ≤ n) :
    ∃ bs rs, (exBPL 0).getBeliefs ((exBPL 0).runBP env ⟨exLpL, List.replicate 12 0, exEvD⟩ n 0) = .ok bs ∧ decodeMapStates bs = .ok rs ∧ rs.map (·.1) = exVars ∧
      ∀ p ∈ rs, ∀ v ∈ p.1.variables, p.1.StateIn v (exDom v) p.2 :=
  C63 exStateL_compiled (exBPL_create 0) env hfit ⟨exLpL, List.replicate 12 0, exEvD⟩ 0 rfl rfl rfl exModerateD exStatedT.1 exStatedT.2 (fun _ => 1)
    (fun f F hF => ⟨zero_le_one, .inr ⟨(List.getElem?_eq_some_iff.1 hF).1, exCompleteL F (List.mem_of_getElem? hF), exWithinL F (List.mem_of_getElem? hF)⟩⟩)
    exDom 1 (exDominant _ (fun _ => by norm_num)) n hn

/-- Non-vacuity of C63 for positive temperatures. -/
example {env : Env ℝ} (hexp : env.exp = Real.exp) (hlog : env.log = Real.log) (hw : env.wrapNeg = false) {T : ℝ} (hT : 0 < T) (n : Nat) (hn : 1 ≤ n) :
    ∃ bs rs, (exBPL T).getBeliefs ((exBPL T).runBP env ⟨exLpL, List.replicate 12 0, exEvD⟩ n 0) = .ok bs ∧ decodeMapStates bs = .ok rs ∧ rs.map (·.1) = exVars ∧
      ∀ p ∈ rs, ∀ v ∈ p.1.variables, p.1.StateIn v (exDom v) p.2 :=
  C63_sum exStateL_compiled hT (exBPL_create T) env hexp hlog ⟨.inl hw, fun h => absurd h hT.ne'⟩ ⟨exLpL, List.replicate 12 0, exEvD⟩ 0 rfl rfl rfl exModerateD exStatedT.1 exStatedT.2 (fun _ => 1)
    (fun f F hF => ⟨zero_le_one, .inr ⟨(List.getElem?_eq_some_iff.1 hF).1, exCompleteL F (List.mem_of_getElem? hF), exWithinL F (List.mem_of_getElem? hF)⟩⟩)
    exDom 1 (exDominant _ (fun _ => by norm_num)) n hn

/-- Non-vacuity of C63, MAP: the states 0, 1, 0 are the unique MAP assignment. -/
example : ∃ ρ, IsUniqueMAP (graphVars exVars) ((graphOf exVars exHistL).factors exLpL) (readEv exStateL.varsToStarts exEvD) exDom ρ :=
  C63_map exStateL_compiled exLpL _ (fun _ => 1) (fun _ => zero_le_one) (fun _ F hF => ⟨exCompleteL F (List.mem_of_getElem? hF), exWithinL F (List.mem_of_getElem? hF)⟩)
    exDom (exDominant _ (fun _ => le_rfl))

/-- Non-vacuity of C63, messages: the messages do not change after the second iteration. -/
example {env : Env ℝ} (hfit : Fits env (graphOf exVars exHistL) (0 : ℝ)) :
    ∃ (θ L : Nat → Nat → Nat → ℝ), ∀ (f i : Nat) (v : Var) (F : SFac ℝ), IsEdge (graphOf exVars exHistL).allScopes f i v →
      ((graphOf exVars exHistL).factors exLpL)[f]? = some F → ∀ s < v.n,
        ((F.scope.map exDom).set i s, θ f i s) ∈ F.rows ∧
        (∃ M, IsGreatest {z | ∃ t < v.n, z = θ f i t} M ∧ L f i s = max (θ f i s - M) (-1000)) ∧
        ∀ k, |readMsgs (graphOf exVars exHistL).allScopes ((exBPL 0).runBP env ⟨exLpL, List.replicate 12 0, exEvD⟩ (1 + k) 0).ftovMsgs f i s - L f i s| ≤ 2000 * 0 ^ k :=
  C63_messages exStateL_compiled (exBPL_create 0) env hfit ⟨exLpL, List.replicate 12 0, exEvD⟩ 0 rfl rfl rfl exModerateD
    (fun f i v he => ⟨0, by
      obtain ⟨vs, h1, h2⟩ := he
      rw [exScopesL] at h1
      have hp : ∀ vs ∈ [[exVar 0, exVar 1], [exVar 1, exVar 2], [exVar 2, exVar 0]], ∀ v ∈ vs, 0 < v.n := by decide
      exact hp vs (List.mem_of_getElem? h1) v (List.mem_of_getElem? h2), by
      unfold readMsgs List.getD
      cases e : (List.replicate 12 (0 : ℝ))[edgeStart (graphOf exVars exHistL).allScopes f i + 0]? with
      | none => norm_num
      | some y =>
        rw [List.eq_of_mem_replicate (List.mem_of_getElem? e)]
        norm_num⟩)
    rfl (fun _ => 1) (fun _ => zero_le_one) (fun _ F hF => ⟨exCompleteL F (List.mem_of_getElem? hF), exWithinL F (List.mem_of_getElem? hF)⟩)
    exDom 1 (exDominant _ (fun _ => by norm_num))

end PGMax
