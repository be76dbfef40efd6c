import Verif.Lemmas.Rate
import Verif.Props.C59
import Verif.Props.C76

/-! # C78: how fast damped belief propagation converges on trees -/

namespace PGMax

section
variable {κ α : Type _} {vgs : List (VGroup κ)} {hist : List (AddArg α)} {garbage : Garbage} {st : FGState κ α}
variable [Field α] [LinearOrder α] [IsStrictOrderedRing α]

theorem CloseWithin.mono {n : Nat} {x y : Nat → α} {δ δ' : α} (h : CloseWithin n x y δ) (hδ : δ ≤ δ') : CloseWithin n x y δ' := by
  obtain ⟨lo, hi, h1, h2, h3, h4⟩ := h
  exact ⟨lo, hi, h1, h2, h3.trans hδ, h4⟩

theorem CloseWithin.congr {n : Nat} {x y x' y' : Nat → α} {δ : α} (h : CloseWithin n x y δ) (hx : ∀ s < n, x' s = x s) (hy : ∀ s < n, y' s = y s) :
    CloseWithin n x' y' δ := by
  obtain ⟨lo, hi, h1, h2, h3, h4⟩ := h
  exact ⟨lo, hi, h1, h2, h3, fun s hs => by rw [hx s hs, hy s hs]; exact h4 s hs⟩

theorem CloseWithin.sum {β : Type _} {n : Nat} {x y : β → Nat → α} {δ : β → α} (l : List β) (h : ∀ b ∈ l, CloseWithin n (x b) (y b) (δ b)) (z : Nat → α) :
    CloseWithin n (fun s => z s + (l.map (fun b => x b s)).sum) (fun s => z s + (l.map (fun b => y b s)).sum) (l.map δ).sum := by
  induction l with
  | nil => exact ⟨0, 0, le_rfl, le_rfl, by simp, by simp⟩
  | cons b l ih =>
    obtain ⟨lo, hi, h1, h2, h3, h4⟩ := h b (by simp)
    obtain ⟨lo', hi', k1, k2, k3, k4⟩ := ih (fun b hb => h b (by simp [hb]))
    refine ⟨lo + lo', hi + hi', by linarith, by linarith, ?_, fun s hs => ?_⟩
    · rw [List.map_cons, List.sum_cons]
      linarith
    · have q1 := h4 s hs
      have q2 := k4 s hs
      simp only [List.map_cons, List.sum_cons] at q2 ⊢
      constructor <;> linarith

/-- The rate for any summaries. -/
theorem Compiled.sum_rate (h : Compiled vgs hist garbage st) {lp : List α} {ev : Var → Nat → α} {m0 : Msgs α} (hz : ∀ f i s, m0 f i s = 0) (n n' : Nat) {d : α} (hd : 0 ≤ d ∧ d ≤ 1)
    (htree : (bipartite (graphOf vgs hist).allScopes).IsAcyclic) (hnd : ∀ vs ∈ (graphOf vgs hist).allScopes, vs.Nodup)
    (hpos : ∀ v ∈ graphVars vgs, 0 < v.n) (hn' : (graphOf vgs hist).allScopes.length ≤ n')
    (hfull : ∀ f (F : SFac α), ((graphOf vgs hist).factors lp)[f]? = some F → f < (graphOf vgs hist).tables.length → F.Full) {Φ : Nat → List α → α} (hΦ : ∀ f, Summary (Φ f))
    {Q P : Nat → α} {E : Var → α}
    (hE : EvWithin (graphVars vgs) ev E) (hP : ∀ f (F : SFac α), ((graphOf vgs hist).factors lp)[f]? = some F → F.Within (P f) ∧ 0 ≤ Q f ∧ SpreadWithin (Φ f) F.rows.length (Q f)) :
    (∀ f i v, IsEdge (graphOf vgs hist).allScopes f i v → CloseWithin v.n (sumRun Φ ((graphOf vgs hist).factors lp) ev d n m0 f i)
      (sumRun Φ ((graphOf vgs hist).factors lp) ev 0 n' m0 f i)
      (totalBehind (graphVars vgs) (graphOf vgs hist).allScopes E (fun f => P f + Q f) f v * lag d n (factorsBehind (graphOf vgs hist).allScopes f v))) ∧
    ∀ v K, (∀ g, (bipartite (graphOf vgs hist).allScopes).dist (.inl v) (.inr g) < 2 * K) →
      CloseWithin v.n (beliefOf (graphOf vgs hist).allScopes ev (sumRun Φ ((graphOf vgs hist).factors lp) ev d n m0) v)
        (beliefOf (graphOf vgs hist).allScopes ev (sumRun Φ ((graphOf vgs hist).factors lp) ev 0 n' m0) v)
        (totalAround (graphVars vgs) (graphOf vgs hist).allScopes E (fun f => P f + Q f) v * lag d n K) := by
  have hsc := (graphOf vgs hist).factors_scopes lp
  have hlen : ((graphOf vgs hist).factors lp).length = (graphOf vgs hist).allScopes.length := by rw [← hsc]; simp
  have hmemF : ∀ F ∈ (graphOf vgs hist).factors lp, F.scope ∈ (graphOf vgs hist).allScopes := by
    intro F hF
    rw [← hsc]
    exact List.mem_map.2 ⟨F, hF, rfl⟩
  have hscF : ∀ {f : Nat} {F : SFac α}, ((graphOf vgs hist).factors lp)[f]? = some F → (graphOf vgs hist).allScopes[f]? = some F.scope := by
    intro f F hF
    rw [← hsc, List.getElem?_map, hF]
    rfl
  have hrow : ∀ F ∈ (graphOf vgs hist).factors lp, ∀ r ∈ F.rows, List.Forall₂ (fun s (v : Var) => s < v.n) r.1 F.scope := by
    intro F hF
    obtain ⟨f, hf⟩ := List.mem_iff_getElem?.1 hF
    exact h.rowsFit lp hf
  have hE0 := hE.nonneg hpos
  have hP0 : ∀ f < (graphOf vgs hist).allScopes.length, 0 ≤ P f + Q f := by
    intro f hf
    have h1 := h.within_nonneg hpos hfull (fun f F hF => (hP f F hF).1) f hf
    rw [← hlen] at hf
    have h2 := (hP f _ (List.getElem?_eq_getElem hf)).2.1
    linarith
  have htot0 := totalBehind_nonneg (scopes := (graphOf vgs hist).allScopes) hE0 hP0
  have hmsg : ∀ f i v, IsEdge (graphOf vgs hist).allScopes f i v → CloseWithin v.n (sumRun Φ ((graphOf vgs hist).factors lp) ev d n m0 f i)
      (sumRun Φ ((graphOf vgs hist).factors lp) ev 0 n' m0 f i)
      (totalBehind (graphVars vgs) (graphOf vgs hist).allScopes E (fun f => P f + Q f) f v * lag d n (factorsBehind (graphOf vgs hist).allScopes f v)) := by
    intro f i v he
    have hfix : ∀ f F i v, ((graphOf vgs hist).factors lp)[f]? = some F → F.scope[i]? = some v → ∀ s < v.n, sumRun Φ ((graphOf vgs hist).factors lp) ev 0 n' m0 f i s
        = tbNorm v.n (sumOut (Φ f) F (tbIn ((graphOf vgs hist).factors lp) ev (sumRun Φ ((graphOf vgs hist).factors lp) ev 0 n' m0) f F) i) s := by
      intro f F i v hF hi s hs
      rw [sumRun_stable Φ (by rw [hsc]; exact htree) (fun F hF => hnd _ (hmemF F hF)) (fun F hF => h.scopes_ne _ (hmemF F hF)) hrow ev m0 m0 n' (n' + 1) (by omega) (by omega)
        (by rw [hsc]; exact ⟨_, hscF hF, hi⟩) hs]
      exact sumStep_undamped Φ hF hi ev _ s
    refine sumRun_rate hΦ hrow ev hd (W := totalBehind (graphVars vgs) (graphOf vgs hist).allScopes E (fun f => P f + Q f))
      (H := factorsBehind (graphOf vgs hist).allScopes) ?_ ?_ hfix ?_ n f i v (by rw [hsc]; exact he)
    · intro f F i v hF hi
      refine ⟨htot0 f v, ?_⟩
      rw [hsc]
      refine le_trans ?_ (totalBehind_inflow htree hnd h.scopes_vars hE0 hP0 (hscF hF) hi)
      unfold inflow
      refine add_le_add (hP0 f (List.getElem?_eq_some_iff.1 (hscF hF)).1) (List.sum_le_sum fun j hj => ?_)
      have hjl := List.mem_range.1 (List.mem_filter.1 hj).1
      refine add_le_add (hE0 _ (h.scopes_vars _ (hmemF F (List.mem_of_getElem? hF)) _ ?_)) le_rfl
      rw [List.getD, List.getElem?_eq_getElem hjl, Option.getD_some]
      exact List.getElem_mem hjl
    · intro f F i v hF hi
      rw [hsc]
      exact factorsBehind_lt htree hnd (hscF hF) hi
    · intro f i v he
      rw [hsc] at he
      obtain ⟨vs, e1, e2⟩ := id he
      have hfl : f < ((graphOf vgs hist).factors lp).length := by
        rw [hlen]
        exact (List.getElem?_eq_some_iff.1 e1).1
      have hF := List.getElem?_eq_getElem hfl
      have hvs := hscF hF
      rw [e1] at hvs
      cases hvs
      refine ⟨0, totalBehind (graphVars vgs) (graphOf vgs hist).allScopes E (fun f => P f + Q f) f v, le_rfl, htot0 f v, by rw [sub_zero], fun s hs => ?_⟩
      have h1 : tbInit ((graphOf vgs hist).factors lp) m0 f i s = 0 := by
        rw [tbInit_at hF e2]
        have q1 := (tbNorm_range (n := v.n) (x := m0 f i) (R := 0) (fun s _ t _ => by rw [hz, hz, sub_zero]) hs).1
        have q2 := (tbNorm_mem (fun s => WithBot.some (m0 f i s)) hs).2
        rw [neg_zero] at q1
        exact le_antisymm q2 q1
      have h2 := (h.sum_range (m0 := m0) n' (d := 0) ⟨le_rfl, zero_le_one⟩ htree hnd hpos hfull hE hP (fun f i v _ s _ t _ => by rw [hz, hz, sub_zero]; exact htot0 f v) he s hs).1
      have h3 := hfix f _ i v hF e2 s hs
      have h4 := (tbNorm_mem (n := v.n) (sumOut (Φ f) ((graphOf vgs hist).factors lp)[f]
        (tbIn ((graphOf vgs hist).factors lp) ev (sumRun Φ ((graphOf vgs hist).factors lp) ev 0 n' m0) f ((graphOf vgs hist).factors lp)[f]) i) hs).2
      rw [← h3] at h4
      rw [h1]
      constructor <;> linarith
  refine ⟨hmsg, ?_⟩
  intro v K hK
  have h1 := CloseWithin.sum (n := v.n) (edgesOf (graphOf vgs hist).allScopes v) (fun e he => hmsg e.1 e.2 v ((mem_edgesOf _ _ _ _).1 he)) (ev v)
  refine h1.mono ?_
  refine le_trans (List.sum_le_sum (g := fun e : Nat × Nat => totalBehind (graphVars vgs) (graphOf vgs hist).allScopes E (fun f => P f + Q f) e.1 v * lag d n K)
    fun e _ => mul_le_mul_of_nonneg_left (lag_mono hd n (factorsBehind_le hK)) (htot0 e.1 v)) ?_
  rw [List.sum_map_mul_right]
  exact mul_le_mul_of_nonneg_right (totalBehind_sum htree hnd hE0 hP0 v) (lag_nonneg hd _ _)

/-- **C78, partial, temperature 0.** On an acyclic factor graph as in C76, with zero initial messages, the message of `f` to `v` after `n` iterations with damping `d` differs
from that which undamped belief propagation reaches by values from an interval of length at most the total `B f v` of the ranges behind it (C76) times the
probability that fewer than `k` of `n` trials succeed, if one fails with probability `d`; here `k` is the largest number of factors on a path behind the message.
The beliefs of a variable likewise, with the total over all factors and all other variables that are connected with it.
Missing: numbers that are not moderate, as in C76; the size limits `Fits`. -/
theorem C78_partial (h : Compiled vgs hist garbage st) {state : BPState α} {bp : BPFun κ α}
    (hbp : BP.create st state 0 = .ok bp) (env : Env α) (hfit : Fits env (graphOf vgs hist) (0 : α)) (a : BPArrays α) (n n' : Nat) (d : α)
    (hlp : a.logPotentials.length = st.logPotentials.length) (hev : a.evidence.length = st.numVarStates) (hm : a.ftovMsgs = List.replicate st.totalFactorNumStates 0)
    (hmod : Moderate (graphOf vgs hist) a.logPotentials (readEv st.varsToStarts a.evidence) d)
    (hlmod : LogicalModerate (graphOf vgs hist) (readEv st.varsToStarts a.evidence))
    (htree : (bipartite (graphOf vgs hist).allScopes).IsAcyclic) (hnd : ∀ vs ∈ (graphOf vgs hist).allScopes, vs.Nodup)
    (hpos : ∀ v ∈ graphVars vgs, 0 < v.n) (hn' : (graphOf vgs hist).allScopes.length ≤ n')
    (hfull : ∀ f (F : SFac α), ((graphOf vgs hist).factors a.logPotentials)[f]? = some F → f < (graphOf vgs hist).tables.length → F.Full)
    (E : Var → α) (P : Nat → α) (hE : EvWithin (graphVars vgs) (readEv st.varsToStarts a.evidence) E)
    (hP : ∀ f (F : SFac α), ((graphOf vgs hist).factors a.logPotentials)[f]? = some F → F.Within (P f)) :
    (∀ f i v, IsEdge (graphOf vgs hist).allScopes f i v → CloseWithin v.n (readMsgs (graphOf vgs hist).allScopes (bp.runBP env a n d).ftovMsgs f i)
      (readMsgs (graphOf vgs hist).allScopes (bp.runBP env a n' 0).ftovMsgs f i)
      (totalBehind (graphVars vgs) (graphOf vgs hist).allScopes E P f v * lag d n (factorsBehind (graphOf vgs hist).allScopes f v))) ∧
    ∀ v start K, st.varsToStarts v = some start → (∀ g, (bipartite (graphOf vgs hist).allScopes).dist (.inl v) (.inr g) < 2 * K) →
      CloseWithin v.n (fun s => (bp.flatBeliefs (bp.runBP env a n d)).getD (start + s) 0) (fun s => (bp.flatBeliefs (bp.runBP env a n' 0)).getD (start + s) 0)
        (totalAround (graphVars vgs) (graphOf vgs hist).allScopes E P v * lag d n K) := by
  obtain ⟨hz, hlen, hinit⟩ := h.zero_msgs hm hpos
  have htb := C37_partial h hbp env hfit a n d hlp hev hlen hmod hlmod hinit
  have htb' := C37_partial h hbp env hfit a n' 0 hlp hev hlen hmod.undamped hlmod hinit
  rw [tbRun_sumRun] at htb htb'
  have e : (fun f => P f + (fun _ => 0) f) = P := by funext f; simp
  obtain ⟨h1, h2⟩ := h.sum_rate (lp := a.logPotentials) (Φ := fun _ => maxOf 0) (Q := fun _ => 0) hz n n' hmod.damping htree hnd hpos hn' hfull (fun _ => summary_max) hE
    (fun f F hF => ⟨hP f F hF, le_rfl, spread_max _⟩)
  rw [e] at h1
  refine ⟨fun f i v he => (h1 f i v he).congr (fun s hs => htb f i v s he hs) (fun s hs => htb' f i v s he hs), ?_⟩
  intro v start K hstart hK
  have h2 := h2 v K hK
  rw [e] at h2
  refine h2.congr (fun s hs => ?_) (fun s hs => ?_)
  · rw [getD_of_some (C34_flat h hbp _ (h.run_read hbp env hfit a d hlp hev n hlen).1 hev v start hstart s hs)]
    unfold beliefOf
    congr 2
    exact List.map_congr_left fun e he => htb e.1 e.2 v s ((mem_edgesOf _ _ _ _).1 he) hs
  · rw [getD_of_some (C34_flat h hbp _ (h.run_read hbp env hfit a 0 hlp hev n' hlen).1 hev v start hstart s hs)]
    unfold beliefOf
    congr 2
    exact List.map_congr_left fun e he => htb' e.1 e.2 v s ((mem_edgesOf _ _ _ _).1 he) hs

/-- **C78, partial, decoding.** Hence if also all totals are less than 1000, so that no message of undamped belief propagation is clipped, then `decode_map_states`
returns after `n` damped iterations the state of `v` in a MAP assignment if all assignments with another state of `v` are worse by more than
`δ`, the bound on the beliefs of `v`. Missing: as in `C78_partial`. -/
theorem C78_decode_partial [DecidableEq κ] (h : Compiled vgs hist garbage st) {state : BPState α} {bp : BPFun κ α}
    (hbp : BP.create st state 0 = .ok bp) (env : Env α) (hfit : Fits env (graphOf vgs hist) (0 : α)) (a : BPArrays α) (n : Nat) (d : α)
    (hlp : a.logPotentials.length = st.logPotentials.length) (hev : a.evidence.length = st.numVarStates) (hm : a.ftovMsgs = List.replicate st.totalFactorNumStates 0)
    (hmod : Moderate (graphOf vgs hist) a.logPotentials (readEv st.varsToStarts a.evidence) d)
    (hlmod : LogicalModerate (graphOf vgs hist) (readEv st.varsToStarts a.evidence))
    (htree : (bipartite (graphOf vgs hist).allScopes).IsAcyclic) (hnd : ∀ vs ∈ (graphOf vgs hist).allScopes, vs.Nodup)
    (hfull : ∀ f (F : SFac α), ((graphOf vgs hist).factors a.logPotentials)[f]? = some F → f < (graphOf vgs hist).tables.length → F.Full)
    (E : Var → α) (P : Nat → α) (hE : EvWithin (graphVars vgs) (readEv st.varsToStarts a.evidence) E)
    (hP : ∀ f (F : SFac α), ((graphOf vgs hist).factors a.logPotentials)[f]? = some F → F.Within (P f))
    (hB : ∀ f i v, IsEdge (graphOf vgs hist).allScopes f i v →
      totalBehind (graphVars vgs) (graphOf vgs hist).allScopes E P f v < 1000)
    (K : Nat) (hreg : ∀ g ∈ vgs, g.Regular) (hst : ∀ g ∈ vgs, g.Stated) (δ : Var → α)
    (hδ : ∀ v, δ v = totalAround (graphVars vgs) (graphOf vgs hist).allScopes E P v * lag d n K) :
    ∃ bs rs, bp.getBeliefs (bp.runBP env a n d) = .ok bs ∧ decodeMapStates bs = .ok rs ∧ rs.map (·.1) = vgs ∧
      ∀ x ρ, IsMAP (graphVars vgs) ((graphOf vgs hist).factors a.logPotentials) (readEv st.varsToStarts a.evidence) x ρ → ∀ p ∈ rs, ∀ v ∈ p.1.variables,
        (∀ g, (bipartite (graphOf vgs hist).allScopes).dist (.inl v) (.inr g) < 2 * K) →
        (∀ x' ρ', Joint (graphVars vgs) ((graphOf vgs hist).factors a.logPotentials) x' ρ' → x' v ≠ x v →
          jointScore (graphVars vgs) ((graphOf vgs hist).factors a.logPotentials) (readEv st.varsToStarts a.evidence) x' ρ' + δ v
            < jointScore (graphVars vgs) ((graphOf vgs hist).factors a.logPotentials) (readEv st.varsToStarts a.evidence) x ρ) →
        p.1.StateIn v (x v) p.2 := by
  have hpos := h.states_pos hst
  obtain ⟨hz, hlen, hinit⟩ := h.zero_msgs hm hpos
  let n' := (graphOf vgs hist).allScopes.length + 1
  have hmarg := (C76_decode_partial h hbp env hfit a n' hlp hev hm hmod.undamped hlmod htree hnd hfull E P hE hP hB
    (Compiled.dist_lt (vgs := vgs) (hist := hist) n' ⟨Nat.succ_pos _, Nat.le_succ _⟩) hreg hst).1
  have hclose := (C78_partial h hbp env hfit a n n' d hlp hev hm hmod hlmod htree hnd hpos (Nat.le_succ _) hfull E P hE hP).2
  have hrun := (h.run_read hbp env hfit a d hlp hev n hlen).1
  obtain ⟨bs, rs, e1, e2, e3, e4⟩ := C35_partial h hbp _ hrun hev hreg hst
  refine ⟨bs, rs, e1, e2, e3, ?_⟩
  intro x ρ hx p hp v hv hK hgap
  have hpv : p.1 ∈ vgs := by rw [← e3]; exact List.mem_map_of_mem (f := Prod.fst) hp
  have hvv : v ∈ graphVars vgs := mem_graphVars.2 ⟨p.1, hpv, hv⟩
  have hj := hx.1.states v hvv
  obtain ⟨c, start, hstart, hc⟩ := hmarg v hvv
  obtain ⟨lo, hi, k1, k2, k3, k4⟩ := hclose v start K hstart hK
  rw [← hδ v] at k3
  refine (e4 p hp).stateIn hv ?_
  have hbelief : ∀ s < v.n, s ≠ x v → beliefOf (graphOf vgs hist).allScopes (readEv st.varsToStarts (bp.runBP env a n d).evidence)
        (readMsgs (graphOf vgs hist).allScopes (bp.runBP env a n d).ftovMsgs) v s
      < beliefOf (graphOf vgs hist).allScopes (readEv st.varsToStarts (bp.runBP env a n d).evidence)
        (readMsgs (graphOf vgs hist).allScopes (bp.runBP env a n d).ftovMsgs) v (x v) := by
    intro s hs hne
    rw [← getD_of_some (C34_flat h hbp _ hrun hev v start hstart s hs), ← getD_of_some (C34_flat h hbp _ hrun hev v start hstart (x v) hj)]
    have h0 := (hc _ hj).2 ⟨x, ρ, hx.1, rfl, rfl⟩
    obtain ⟨x', ρ', hJ, hs', he⟩ := (hc s hs).1
    have h1 := hgap x' ρ' hJ (by rw [hs']; exact hne)
    have h2 := (k4 s hs).2
    have h3 := (k4 _ hj).1
    simp only at he h0
    linarith
  refine ⟨hj, fun s hs => ?_, fun s hs => hbelief s (hs.trans hj) hs.ne⟩
  by_cases hne : s = x v
  · rw [hne]
  · exact (hbelief s hs hne).le

end

section
variable {κ : Type _} {vgs : List (VGroup κ)} {hist : List (AddArg ℝ)} {garbage : Garbage} {st : FGState κ ℝ}

/-- **C78, partial, positive temperatures.** The same at any temperature `T > 0` if `T (log N + exp (-1e5))` is added for every factor with `N` configurations. -/
theorem C78_sum_partial (h : Compiled vgs hist garbage st) {state : BPState ℝ} {bp : BPFun κ ℝ} {T : ℝ} (hT : 0 < T) (hbp : BP.create st state T = .ok bp)
    (env : Env ℝ) (hexp : env.exp = Real.exp) (hlog : env.log = Real.log) (hfit : Fits env (graphOf vgs hist) T) (a : BPArrays ℝ) (n n' : Nat) (d : ℝ)
    (hlp : a.logPotentials.length = st.logPotentials.length) (hev : a.evidence.length = st.numVarStates) (hm : a.ftovMsgs = List.replicate st.totalFactorNumStates 0)
    (hmod : Moderate (graphOf vgs hist) a.logPotentials (readEv st.varsToStarts a.evidence) d)
    (htree : (bipartite (graphOf vgs hist).allScopes).IsAcyclic) (hnd : ∀ vs ∈ (graphOf vgs hist).allScopes, vs.Nodup)
    (hpos : ∀ v ∈ graphVars vgs, 0 < v.n) (hn' : (graphOf vgs hist).allScopes.length ≤ n')
    (hfull : ∀ f (F : SFac ℝ), ((graphOf vgs hist).factors a.logPotentials)[f]? = some F → f < (graphOf vgs hist).tables.length → F.Full)
    (E : Var → ℝ) (P Q : Nat → ℝ) (hE : EvWithin (graphVars vgs) (readEv st.varsToStarts a.evidence) E)
    (hP : ∀ f (F : SFac ℝ), ((graphOf vgs hist).factors a.logPotentials)[f]? = some F → F.Within (P f) ∧ Q f = T * (Real.log F.rows.length + Real.exp (-100000))) :
    (∀ f i v, IsEdge (graphOf vgs hist).allScopes f i v → CloseWithin v.n (readMsgs (graphOf vgs hist).allScopes (bp.runBP env a n d).ftovMsgs f i)
      (readMsgs (graphOf vgs hist).allScopes (bp.runBP env a n' 0).ftovMsgs f i)
      (totalBehind (graphVars vgs) (graphOf vgs hist).allScopes E (fun f => P f + Q f) f v * lag d n (factorsBehind (graphOf vgs hist).allScopes f v))) ∧
    ∀ v start K, st.varsToStarts v = some start → (∀ g, (bipartite (graphOf vgs hist).allScopes).dist (.inl v) (.inr g) < 2 * K) →
      CloseWithin v.n (fun s => (bp.flatBeliefs (bp.runBP env a n d)).getD (start + s) 0) (fun s => (bp.flatBeliefs (bp.runBP env a n' 0)).getD (start + s) 0)
        (totalAround (graphVars vgs) (graphOf vgs hist).allScopes E (fun f => P f + Q f) v * lag d n K) := by
  obtain ⟨hz, hlen, hinit⟩ := h.zero_msgs hm hpos
  have htb := h.run_sum hT hbp env hexp hlog hfit a n d hlp hev hlen hmod hinit
  have htb' := h.run_sum hT hbp env hexp hlog hfit a n' 0 hlp hev hlen hmod.undamped hinit
  obtain ⟨h1, h2⟩ := h.sum_rate (lp := a.logPotentials) (Φ := codeSummary (graphOf vgs hist).tables.length T) (Q := Q) hz n n' hmod.damping htree hnd hpos hn' hfull
    (codeSummary_summary _ hT) hE
    (fun f F hF => ⟨(hP f F hF).1, by
      rw [(hP f F hF).2]
      exact mul_nonneg hT.le (add_nonneg (Real.log_natCast_nonneg _) (Real.exp_pos _).le), spread_code _ hT f _ (hP f F hF).2.ge⟩)
  refine ⟨fun f i v he => (h1 f i v he).congr (fun s hs => htb f i v s he hs) (fun s hs => htb' f i v s he hs), ?_⟩
  intro v start K hstart hK
  refine (h2 v K hK).congr (fun s hs => ?_) (fun s hs => ?_)
  · rw [getD_of_some (C34_flat h hbp _ (h.run_read hbp env hfit a d hlp hev n hlen).1 hev v start hstart s hs)]
    unfold beliefOf
    congr 2
    exact List.map_congr_left fun e he => htb e.1 e.2 v s ((mem_edgesOf _ _ _ _).1 he) hs
  · rw [getD_of_some (C34_flat h hbp _ (h.run_read hbp env hfit a 0 hlp hev n' hlen).1 hev v start hstart s hs)]
    unfold beliefOf
    congr 2
    exact List.map_congr_left fun e he => htb' e.1 e.2 v s ((mem_edgesOf _ _ _ _).1 he) hs

/-- **C78, partial, marginals.** Hence at temperature 1, if all totals are less than 1000, `get_marginals` reports after `n` damped iterations the probabilities of
all states of `v` up to a factor between `exp (-δ v)` and `exp (δ v)`, where `δ v` is the bound on its beliefs plus that of C55. Missing: as in `C78_partial`. -/
theorem C78_marginals_partial [DecidableEq κ] (h : Compiled vgs hist garbage st) {state : BPState ℝ} {bp : BPFun κ ℝ}
    (hbp : BP.create st state 1 = .ok bp) (env : Env ℝ) (hexp : env.exp = Real.exp) (hlog : env.log = Real.log)
    (hfit : Fits env (graphOf vgs hist) (1 : ℝ)) (a : BPArrays ℝ) (n : Nat) (d : ℝ)
    (hlp : a.logPotentials.length = st.logPotentials.length) (hev : a.evidence.length = st.numVarStates) (hm : a.ftovMsgs = List.replicate st.totalFactorNumStates 0)
    (hmod : Moderate (graphOf vgs hist) a.logPotentials (readEv st.varsToStarts a.evidence) d)
    (htree : (bipartite (graphOf vgs hist).allScopes).IsAcyclic) (hnd : ∀ vs ∈ (graphOf vgs hist).allScopes, vs.Nodup)
    (hfull : ∀ f (F : SFac ℝ), ((graphOf vgs hist).factors a.logPotentials)[f]? = some F → f < (graphOf vgs hist).tables.length → F.Full)
    (E : Var → ℝ) (R Q : Nat → ℝ) (hE : EvWithin (graphVars vgs) (readEv st.varsToStarts a.evidence) E)
    (hR : ∀ f (F : SFac ℝ), ((graphOf vgs hist).factors a.logPotentials)[f]? = some F → F.Within (R f) ∧ Q f = Real.log F.rows.length + Real.exp (-100000))
    (hB : ∀ f i v, IsEdge (graphOf vgs hist).allScopes f i v →
      totalBehind (graphVars vgs) (graphOf vgs hist).allScopes E (fun f => R f + Q f) f v < 1000)
    (hreg : ∀ g ∈ vgs, g.Regular) (hst : ∀ g ∈ vgs, g.Stated)
    (P : Var → Nat → ℝ) (hP : ∀ v s, P v s = stateWeight 1 (graphVars vgs) ((graphOf vgs hist).factors a.logPotentials) (readEv st.varsToStarts a.evidence) v s
      / totalWeight 1 (graphVars vgs) ((graphOf vgs hist).factors a.logPotentials) (readEv st.varsToStarts a.evidence))
    (K : Nat) (δ : Var → ℝ) (hδ : ∀ v, δ v = totalAround (graphVars vgs) (graphOf vgs hist).allScopes E (fun f => R f + Q f) v * lag d n K
      + (graphOf vgs hist).tables.length * Real.exp (-100000)) :
    ∃ bs rs B, bp.getBeliefs (bp.runBP env a n d) = .ok bs ∧ getMarginals env bs = .ok rs ∧ rs.map (·.1) = vgs ∧
      (∀ p ∈ rs, p.1.HasMarginals B p.2) ∧ ∀ v ∈ graphVars vgs, (∀ g, (bipartite (graphOf vgs hist).allScopes).dist (.inl v) (.inr g) < 2 * K) → ∀ s < v.n,
        0 < P v s ∧ Real.exp (-δ v) * P v s ≤ gibbs (B v) v.n s ∧ gibbs (B v) v.n s ≤ Real.exp (δ v) * P v s := by
  have hpos := h.states_pos hst
  obtain ⟨hz, hlen, hinit⟩ := h.zero_msgs hm hpos
  let n' := (graphOf vgs hist).allScopes.length + 1
  have hR' : ∀ f (F : SFac ℝ), ((graphOf vgs hist).factors a.logPotentials)[f]? = some F →
      F.Within (R f) ∧ Q f = 1 * (Real.log F.rows.length + Real.exp (-100000)) := by
    intro f F hF
    rw [one_mul]
    exact hR f F hF
  have hclose := (C78_sum_partial h one_pos hbp env hexp hlog hfit a n n' d hlp hev hm hmod htree hnd hpos (Nat.le_succ _) hfull E R Q hE hR').2
  have hclip : ∀ f i v s, IsEdge (graphOf vgs hist).allScopes f i v → s < v.n → -1000 < readMsgs (graphOf vgs hist).allScopes (bp.runBP env a n' 0).ftovMsgs f i s := by
    intro f i v s he hs
    have := (C76_sum_partial h one_pos hbp env hexp hlog hfit a n' 0 hlp hev hlen hmod.undamped hinit htree hnd hpos hfull E R Q hE hR' _ rfl (fun f i v _ s _ t _ => by
      rw [hz, hz, sub_zero]
      refine totalBehind_nonneg (hE.nonneg hpos) (fun f hf => ?_) f v
      have h1 := h.within_nonneg hpos hfull (fun f F hF => (hR f F hF).1) f hf
      rw [← (graphOf vgs hist).factors_scopes a.logPotentials, List.length_map] at hf
      have h2 := (hR f _ (List.getElem?_eq_getElem hf)).2
      have h3 := Real.log_natCast_nonneg (((graphOf vgs hist).factors a.logPotentials)[f].rows.length)
      have h4 := Real.exp_pos (-100000)
      linarith) f i v he s hs).1
    have := hB f i v he
    linarith
  have hrun := (h.run_read hbp env hfit a d hlp hev n hlen).1
  obtain ⟨bs, rs, e1, e2, e3, e4⟩ := C36_partial h hbp env hexp hlog (bp.runBP env a n d) hrun hev hreg hst
  refine ⟨bs, rs, _, e1, e2, e3, e4, ?_⟩
  have hd' := Compiled.dist_lt (vgs := vgs) (hist := hist) n' ⟨Nat.succ_pos _, Nat.le_succ _⟩
  intro v hv hK s hs
  obtain ⟨c, start, hstart, hc⟩ := C55_partial h one_pos hbp env hexp hlog hfit a n' hlp hev hlen hmod.undamped hinit htree hnd hpos hclip v hv (hd' v) (fun v f _ => hd' v f)
  obtain ⟨lo, hi, k1, k2, k3, k4⟩ := hclose v start K hstart hK
  have hW : ∀ t < v.n, 0 < stateWeight 1 (graphVars vgs) ((graphOf vgs hist).factors a.logPotentials) (readEv st.varsToStarts a.evidence) v t := fun t ht => (hc t ht).1
  constructor
  · rw [hP, ← sum_stateWeight 1 _ _ hv]
    exact div_pos (hW s hs) (Finset.sum_pos (fun t ht => hW t (Finset.mem_range.1 ht)) ⟨s, Finset.mem_range.2 hs⟩)
  · have := gibbs_close
      (f := beliefOf (graphOf vgs hist).allScopes (readEv st.varsToStarts a.evidence) (readMsgs (graphOf vgs hist).allScopes (bp.runBP env a n d).ftovMsgs) v)
      (g := fun s => 1 * Real.log (stateWeight 1 (graphVars vgs) ((graphOf vgs hist).factors a.logPotentials) (readEv st.varsToStarts a.evidence) v s)) (n := v.n) (c := c - lo)
      (ε := δ v)
      (fun t ht => by
        have q1 := (hc t ht).2
        have q2 := k4 t ht
        simp only at q2
        rw [getD_of_some (C34_flat h hbp _ hrun hev v start hstart t ht)] at q2
        rw [one_mul (Real.exp _)] at q1
        have q3 : beliefOf (graphOf vgs hist).allScopes (readEv st.varsToStarts (bp.runBP env a n d).evidence)
            (readMsgs (graphOf vgs hist).allScopes (bp.runBP env a n d).ftovMsgs) v t
          = beliefOf (graphOf vgs hist).allScopes (readEv st.varsToStarts a.evidence) (readMsgs (graphOf vgs hist).allScopes (bp.runBP env a n d).ftovMsgs) v t := rfl
        rw [q3] at q2
        have q4 := hδ v
        constructor <;> linarith) hs
    rw [gibbs_log hW 1 hs] at this
    simp only [Real.rpow_one] at this
    rw [sum_stateWeight 1 _ _ hv, ← hP] at this
    exact this

end

/-! ## Refutation, tightness and non-vacuity -/

/-- With numbers that are moderate without damping, and factors in which all states occur, numbers are moderate with any damping. -/
theorem Moderate.withDamping {κ α : Type _} [Field α] [LinearOrder α] {fg : FactorGraph κ α} {lp : List α} {ev : Var → Nat → α} {d d' : α} (h : Moderate fg lp ev d)
    (hd : 0 ≤ d' ∧ d' ≤ 1) (hfull : ∀ F ∈ tableFacs fg.tables lp, F.Full) : Moderate fg lp ev d' where
  damping := hd
  bounds := by
    obtain ⟨R, h1, h2⟩ := h.bounds
    refine ⟨R, h1, fun F hF => ?_⟩
    obtain ⟨W, h3, h4, -⟩ := h2 F hF
    exact ⟨W, h3, h4, .inl (hfull F hF)⟩

/-- **C78 does not hold in general.** In the graph of `C76_refuted`, the message to the first variable has nothing behind it that prefers some state, but
differs after one iteration with damping 1/2 from that after one without damping by 0 for state 0 and by 5/2 for state 1. -/
theorem C78_refuted : (bipartite (graphOf exVars3 exHist3).allScopes).IsAcyclic ∧ (graphOf exVars3 exHist3).allScopes.length = 1 ∧
    totalBehind (graphVars exVars3) (graphOf exVars3 exHist3).allScopes (fun v => if v.n = 2 then (5 : ℚ) else 0) (fun _ => 0) 0 ⟨1000000000, 2⟩ = 0 ∧
    (exBP3.runBP exEnv ⟨[0, 0, 0], [0, 0, 0, 0, 0], [0, 5, -200000, -200000, -200000]⟩ 1 0).ftovMsgs.take 2 = [0, -5] ∧
    (exBP3.runBP exEnv ⟨[0, 0, 0], [0, 0, 0, 0, 0], [0, 5, -200000, -200000, -200000]⟩ 1 (1 / 2)).ftovMsgs.take 2 = [0, -5 / 2] :=
  ⟨exTree3, rfl, C76_refuted.2.2.2.1, C76_refuted.2.2.2.2, by decide +kernel⟩

/-- **The bound is attained.** In the same graph, with evidence 5 for one state of the second variable, the message to the first variable after three iterations with damping
1/2 differs from its limit by 5/8 for state 0 and by 0 for state 1; 5 is the range of the evidence behind it, and 1/8 the probability that none of three trials succeeds. -/
theorem C78_tight : (5 : ℚ) * lag (1 / 2) 3 1 = 5 / 8 ∧
    (exBP3.runBP exEnv ⟨[0, 0, 0], [0, 0, 0, 0, 0], [0, 0, 0, 5, 0]⟩ 1 0).ftovMsgs.take 2 = [-5, 0] ∧
    (exBP3.runBP exEnv ⟨[0, 0, 0], [0, 0, 0, 0, 0], [0, 0, 0, 5, 0]⟩ 3 (1 / 2)).ftovMsgs.take 2 = [-5 + 5 / 8, 0] := by
  refine ⟨?_, by decide +kernel, by decide +kernel⟩
  norm_num [lag]

/-- Non-vacuity: on the tree `exHist5` of C38, 20 iterations with damping 1/2 suffice to decode the MAP assignment. -/
example : ∃ bs rs, exBP5.getBeliefs (exBP5.runBP exEnv ⟨[0, 1, 2], List.replicate 10 0, [3, 0, 0, 1, 1, 0, 0, 2]⟩ 20 (1 / 2)) = .ok bs ∧
    decodeMapStates bs = .ok rs ∧ rs.map (·.1) = exVars5 ∧
    ∀ x ρ, IsMAP (graphVars exVars5) ((graphOf exVars5 exHist5).factors [0, 1, 2]) (readEv exState5.varsToStarts [3, 0, 0, 1, 1, 0, 0, 2]) x ρ →
      ∀ p ∈ rs, ∀ v ∈ p.1.variables, p.1.StateIn v (x v) p.2 := by
  obtain ⟨h1, h2, h3, h4, h5, h6, -, h8, h9, h10, h11⟩ := exTree5_ok
  obtain ⟨e1, e2, e3, e4⟩ := exRange5
  have hV : graphVars exVars5 = {exVar5 0, exVar5 1, exVar5 2, exVar5 3} := rfl
  have hmod : Moderate (graphOf exVars5 exHist5) [0, 1, 2] (readEv exState5.varsToStarts [3, 0, 0, 1, 1, 0, 0, 2]) (1 / 2 : ℚ) := by
    refine h2.withDamping (by norm_num) (fun F hF => ?_)
    have e : tableFacs (graphOf exVars5 exHist5).tables ([0, 1, 2] : List ℚ) = [⟨[exVar5 0, exVar5 1], [([0, 0], 0), ([0, 1], 1), ([1, 1], 2)]⟩] := rfl
    rw [e, List.mem_singleton] at hF
    exact e3 0 F (by rw [hF]; rfl) (by decide +kernel)
  have hdist : ∀ v f, (bipartite (graphOf exVars5 exHist5).allScopes).dist (.inl v) (.inr f) < 2 * 2 :=
    fun v f => lt_of_lt_of_le (dist_lt_factors v f (by decide +kernel)) (by have := h8; omega)
  obtain ⟨bs, rs, r1, r2, r3, r4⟩ := C78_decode_partial exState5_compiled exBP5_create exEnv h1 ⟨[0, 1, 2], List.replicate 10 0, [3, 0, 0, 1, 1, 0, 0, 2]⟩ 20 (1 / 2)
    rfl rfl rfl hmod h3 h5 h6 e3 _ _ e1 e2 (fun f _ v _ => e4 f v) 2 h9 h10 _ (fun _ => rfl)
  refine ⟨bs, rs, r1, r2, r3, ?_⟩
  intro x ρ hx p hp v hv
  refine r4 x ρ hx p hp v hv (hdist v) ?_
  have hmarg := (C76_decode_partial exState5_compiled exBP5_create exEnv h1 ⟨[0, 1, 2], List.replicate 10 0, [3, 0, 0, 1, 1, 0, 0, 2]⟩ 2
    rfl rfl rfl h2 h3 h5 h6 e3 _ _ e1 e2 (fun f _ v _ => e4 f v) hdist h9 h10).1
  have hpv : p.1 ∈ exVars5 := by rw [← r3]; exact List.mem_map_of_mem (f := Prod.fst) hp
  have hvv : v ∈ graphVars exVars5 := mem_graphVars.2 ⟨p.1, hpv, hv⟩
  obtain ⟨c, start, hstart, hc⟩ := hmarg v hvv
  rw [h11] at hc
  have hδ : ∀ v ∈ graphVars exVars5, (∑ u ∈ (graphVars exVars5).erase v, (fun v => if v = exVar5 0 then (3 : ℚ) else if v = exVar5 3 then 2 else 1) u
      + ∑ f ∈ Finset.range (graphOf exVars5 exHist5).allScopes.length, (if f = 0 then (2 : ℚ) else 0)) * lag (1 / 2) 20 2 < 1 := by
    have hl : lag (1 / 2 : ℚ) 20 2 = 21 / 1048576 := by
      norm_num [lag, Finset.sum_range_succ]
    rw [hl, hV]
    decide +kernel
  have hgap : ∃ t, ∀ s < v.n, s ≠ t → ([2, 0, -2, 1, 1, 0, -2, 2] : List ℚ).getD (start + s) 0 + 1 ≤ ([2, 0, -2, 1, 1, 0, -2, 2] : List ℚ).getD (start + t) 0 ∧ t < v.n := by
    rw [hV] at hvv
    simp only [Finset.mem_insert, Finset.mem_singleton] at hvv
    rcases hvv with rfl | rfl | rfl | rfl
    · cases hstart.symm.trans (show exState5.varsToStarts (exVar5 0) = some 0 by rfl)
      exact ⟨0, by decide +kernel⟩
    · cases hstart.symm.trans (show exState5.varsToStarts (exVar5 1) = some 2 by rfl)
      exact ⟨1, by decide +kernel⟩
    · cases hstart.symm.trans (show exState5.varsToStarts (exVar5 2) = some 4 by rfl)
      exact ⟨0, by decide +kernel⟩
    · cases hstart.symm.trans (show exState5.varsToStarts (exVar5 3) = some 6 by rfl)
      exact ⟨1, by decide +kernel⟩
  obtain ⟨t, ht⟩ := hgap
  have hj := hx.1.states v hvv
  have h0 := (hc _ hj).2 ⟨x, ρ, hx.1, rfl, rfl⟩
  have hxt : x v = t := by
    by_contra hne
    obtain ⟨q1, q2⟩ := ht _ hj hne
    obtain ⟨x', ρ', hJ, -, he⟩ := (hc t q2).1
    have := hx.2 x' ρ' hJ
    simp only at he h0
    linarith
  intro x' ρ' hJ hne
  have k1 := hJ.states v hvv
  have k2 := (hc _ k1).2 ⟨x', ρ', hJ, rfl, rfl⟩
  obtain ⟨k3, k4⟩ := ht _ k1 (by rw [← hxt]; exact hne)
  obtain ⟨x'', ρ'', hJ'', -, he⟩ := (hc t k4).1
  have k5 := hx.2 x'' ρ'' hJ''
  have k6 := hδ v hvv
  have k7 := mul_le_mul_of_nonneg_right (totalAround_le (scopes := (graphOf exVars5 exHist5).allScopes) (P := fun f => if f = 0 then (2 : ℚ) else 0)
    (e1.nonneg (by rw [hV]; decide)) (fun f _ => by split <;> norm_num) v) (lag_nonneg (d := (1 / 2 : ℚ)) (by norm_num) 20 2)
  simp only at he k2 k6 k7 ⊢
  linarith

end PGMax
