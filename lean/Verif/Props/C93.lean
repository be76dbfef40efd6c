import Verif.Lemmas.Attractive
import Verif.Lemmas.Enums
import Verif.Lemmas.Tame
import Verif.Props.C54
import Verif.Props.C84

/-! # C93: models that favour higher states more get higher states -/

namespace PGMax

section
variable {κ α : Type _} [Field α] [LinearOrder α] [IsStrictOrderedRing α] {vgs : List (VGroup κ)} {hist : List (AddArg α)} {garbage : Garbage} {st : FGState κ α}

theorem Compiled.rowsFit_mem (h : Compiled vgs hist garbage st) (lp : List α) : ∀ F ∈ (graphOf vgs hist).factors lp, ∀ r ∈ F.rows, List.Forall₂ (fun s (v : Var) => s < v.n) r.1 F.scope := by
  intro F hF
  obtain ⟨f, hf⟩ := List.mem_iff_getElem?.1 hF
  exact h.rowsFit lp hf

/-- **C93, textbook max-product.** If the evidence, the factors and the initial messages of a model favour higher states more than those of another, so do the messages after any number of iterations. -/
theorem C93_textbook {factors factors' : List (SFac α)} (h : RisingFactors factors factors') {ev ev' : Var → Nat → α} (hev : ∀ F ∈ factors, ∀ v ∈ F.scope, Rises v.n (ev v) (ev' v))
    (hrow : ∀ F ∈ factors, ∀ r ∈ F.rows, List.Forall₂ (fun s (v : Var) => s < v.n) r.1 F.scope) (hrow' : ∀ F ∈ factors', ∀ r ∈ F.rows, List.Forall₂ (fun s (v : Var) => s < v.n) r.1 F.scope)
    (hfull : ∀ F ∈ factors, F.Full) (hfull' : ∀ F ∈ factors', F.Full) (hgen : ∀ F ∈ factors, F.Gentle) (hgen' : ∀ F ∈ factors', F.Gentle) {d : α} (hd : 0 ≤ d ∧ d ≤ 1) {m m' : Msgs α}
    (hm : RisingMsgs (factors.map (·.scope)) m m')
    (hrange : ∀ f i v, IsEdge (factors.map (·.scope)) f i v → v.n ≤ 2 ∨ (∀ s < v.n, ∀ t < v.n, m f i s - m f i t ≤ 1000) ∧ ∀ s < v.n, ∀ t < v.n, m' f i s - m' f i t ≤ 1000) (n : Nat) :
    RisingMsgs (factors.map (·.scope)) (tbRun factors ev d n m) (tbRun factors' ev' d n m') := by
  rw [tbRun_sumRun, tbRun_sumRun]
  refine h.run hev (fun _ => summary_max) hrow hrow' hfull hfull' hgen hgen' (fun f F F' hF hF' => ?_) hd hm hrange n
  obtain ⟨G, hG, hr⟩ := forall₂_getElem? h hF
  rw [hF'] at hG
  cases hG
  exact hr.through_max (hrow F (List.mem_of_getElem? hF)) (hrow' F' (List.mem_of_getElem? hF')) (hfull F (List.mem_of_getElem? hF)) (hfull' F' (List.mem_of_getElem? hF'))

theorem rises_congr {n : Nat} {x x' y y' : Nat → α} (h : Rises n x y) (hx : ∀ s < n, x' s = x s) (hy : ∀ s < n, y' s = y s) : Rises n x' y' := by
  intro s s' hle hs
  rw [hx s (by omega), hx s' hs, hy s (by omega), hy s' hs]
  exact h s s' hle hs

/-- **C93, partial.** Run `run_bp` at temperature 0 for two sets of log potentials, evidence and initial messages of a graph. If the second favours higher states more (every two configurations of a
factor's two tables: those of the larger states in the second table and of the smaller in the first have at least the same log potentials in total), then after any number of iterations so do all messages
and beliefs, and no variable gets a lower state when the beliefs are decoded.
Missing: tables in which a state does not occur; factors with variables of more than two states whose tables are not complete or have log potentials in a range of more than 1000 (`C93_refuted`);
numbers that are not `Tame`; the size limits `Fits`. -/
theorem C93_partial [DecidableEq κ] (h : Compiled vgs hist garbage st) {state : BPState α} {bp : BPFun κ α} (hbp : BP.create st state 0 = .ok bp) (env : Env α)
    (hfit : Fits env (graphOf vgs hist) (0 : α)) (a a' : BPArrays α) (n : Nat) (d : α)
    (hlp : a.logPotentials.length = st.logPotentials.length) (hev : a.evidence.length = st.numVarStates) (hm : a.ftovMsgs.length = st.totalFactorNumStates)
    (hlp' : a'.logPotentials.length = st.logPotentials.length) (hev' : a'.evidence.length = st.numVarStates) (hm' : a'.ftovMsgs.length = st.totalFactorNumStates) {b b' : Nat → α}
    (hmod : Tame (graphOf vgs hist) a.logPotentials (readEv st.varsToStarts a.evidence) d b) (hmod' : Tame (graphOf vgs hist) a'.logPotentials (readEv st.varsToStarts a'.evidence) d b')
    (hlmod : LogicalTame (graphOf vgs hist) (readEv st.varsToStarts a.evidence) b) (hlmod' : LogicalTame (graphOf vgs hist) (readEv st.varsToStarts a'.evidence) b')
    (hinit : ∀ f i v, IsEdge (graphOf vgs hist).allScopes f i v → ∃ s < v.n, -100000 ≤ readMsgs (graphOf vgs hist).allScopes a.ftovMsgs f i s)
    (hinit' : ∀ f i v, IsEdge (graphOf vgs hist).allScopes f i v → ∃ s < v.n, -100000 ≤ readMsgs (graphOf vgs hist).allScopes a'.ftovMsgs f i s)
    (hmild : Mild (graphOf vgs hist).allScopes b (readMsgs (graphOf vgs hist).allScopes a.ftovMsgs)) (hmild' : Mild (graphOf vgs hist).allScopes b' (readMsgs (graphOf vgs hist).allScopes a'.ftovMsgs))
    (hF : RisingFactors ((graphOf vgs hist).factors a.logPotentials) ((graphOf vgs hist).factors a'.logPotentials))
    (hE : ∀ v ∈ graphVars vgs, Rises v.n (readEv st.varsToStarts a.evidence v) (readEv st.varsToStarts a'.evidence v))
    (hM : RisingMsgs (graphOf vgs hist).allScopes (readMsgs (graphOf vgs hist).allScopes a.ftovMsgs) (readMsgs (graphOf vgs hist).allScopes a'.ftovMsgs))
    (hrange : ∀ f i v, IsEdge (graphOf vgs hist).allScopes f i v → v.n ≤ 2 ∨
      (∀ s < v.n, ∀ t < v.n, readMsgs (graphOf vgs hist).allScopes a.ftovMsgs f i s - readMsgs (graphOf vgs hist).allScopes a.ftovMsgs f i t ≤ 1000) ∧
      ∀ s < v.n, ∀ t < v.n, readMsgs (graphOf vgs hist).allScopes a'.ftovMsgs f i s - readMsgs (graphOf vgs hist).allScopes a'.ftovMsgs f i t ≤ 1000)
    (hfull : ∀ F ∈ (graphOf vgs hist).factors a.logPotentials, F.Full ∧ F.Gentle) (hfull' : ∀ F ∈ (graphOf vgs hist).factors a'.logPotentials, F.Full ∧ F.Gentle) :
    RisingMsgs (graphOf vgs hist).allScopes (readMsgs (graphOf vgs hist).allScopes (bp.runBP env a n d).ftovMsgs) (readMsgs (graphOf vgs hist).allScopes (bp.runBP env a' n d).ftovMsgs) ∧
    (∀ v start, st.varsToStarts v = some start →
      Rises v.n (fun s => (bp.flatBeliefs (bp.runBP env a n d)).getD (start + s) 0) (fun s => (bp.flatBeliefs (bp.runBP env a' n d)).getD (start + s) 0)) ∧
    ((∀ g ∈ vgs, g.Regular) → (∀ g ∈ vgs, g.Stated) → ∃ bs bs' rs rs', ∃ x x' : Var → Nat, bp.getBeliefs (bp.runBP env a n d) = .ok bs ∧ bp.getBeliefs (bp.runBP env a' n d) = .ok bs' ∧
      decodeMapStates bs = .ok rs ∧ decodeMapStates bs' = .ok rs' ∧ rs.map (·.1) = vgs ∧ rs'.map (·.1) = vgs ∧ (∀ p ∈ rs, ∀ v ∈ p.1.variables, p.1.StateIn v (x v) p.2) ∧
      (∀ p ∈ rs', ∀ v ∈ p.1.variables, p.1.StateIn v (x' v) p.2) ∧ ∀ v ∈ graphVars vgs, x v ≤ x' v) := by
  have hsc := (graphOf vgs hist).factors_scopes a.logPotentials
  have hvars := h.factors_vars a.logPotentials
  have key : RisingMsgs (graphOf vgs hist).allScopes (readMsgs (graphOf vgs hist).allScopes (bp.runBP env a n d).ftovMsgs) (readMsgs (graphOf vgs hist).allScopes (bp.runBP env a' n d).ftovMsgs) := by
    have h1 := h.run_textbook_tame hbp env hfit a n d hlp hev hm hmod hlmod hinit hmild
    have h2 := h.run_textbook_tame hbp env hfit a' n d hlp' hev' hm' hmod' hlmod' hinit' hmild'
    have h3 := C93_textbook hF (fun F hFm v hv => hE v (hvars F hFm v hv)) (h.rowsFit_mem a.logPotentials) (h.rowsFit_mem a'.logPotentials) (fun F hF => (hfull F hF).1) (fun F hF => (hfull' F hF).1)
      (fun F hF => (hfull F hF).2) (fun F hF => (hfull' F hF).2) hmod.damping (by rw [hsc]; exact hM) (by rw [hsc]; exact hrange) n
    rw [hsc] at h3
    intro f i v he
    exact rises_congr (h3 f i v he) (fun s hs => h1 f i v s he hs) (fun s hs => h2 f i v s he hs)
  have l1 := (h.run_read hbp env hfit a d hlp hev n hm).1
  have l2 := (h.run_read hbp env hfit a' d hlp' hev' n hm').1
  refine ⟨key, fun v start hv => ?_, fun hreg hst => ?_⟩
  · refine rises_congr (rises_belief key (hE v ?_)) (fun s hs => getD_of_some (C34_flat h hbp _ l1 hev v start hv s hs)) (fun s hs => getD_of_some (C34_flat h hbp _ l2 hev' v start hv s hs))
    obtain ⟨i, hi, -⟩ := (h.starts_iff v start).1 hv
    exact List.mem_toFinset.2 (List.mem_of_getElem? hi)
  · obtain ⟨bs, rs, e1, e2, e3, e4⟩ := C35_partial h hbp _ l1 hev hreg hst
    obtain ⟨bs', rs', f1, f2, f3, f4⟩ := C35_partial h hbp _ l2 hev' hreg hst
    have hpos : ∀ v ∈ graphVars vgs, 0 < v.n := by
      intro v hv
      obtain ⟨g, hg, hv⟩ := mem_graphVars.1 hv
      obtain ⟨objId, hb⟩ := h.vgroups.built g hg
      obtain ⟨k, hk⟩ := List.mem_iff_getElem?.1 hv
      have hn := List.mem_of_getElem? (hb.vars.2 k v hk)
      have hs := hst g hg
      cases g with
      | arr g => exact hs.1 _ hn
      | dict g => exact hs _ hn
    let B := beliefOf (graphOf vgs hist).allScopes (readEv st.varsToStarts a.evidence) (readMsgs (graphOf vgs hist).allScopes (bp.runBP env a n d).ftovMsgs)
    let B' := beliefOf (graphOf vgs hist).allScopes (readEv st.varsToStarts a'.evidence) (readMsgs (graphOf vgs hist).allScopes (bp.runBP env a' n d).ftovMsgs)
    have hx : ∀ v ∈ graphVars vgs, IsFirstMax (B v) v.n (argmax ((List.range v.n).map (B v))) := fun v hv => argmax_range _ _ (hpos v hv)
    have hx' : ∀ v ∈ graphVars vgs, IsFirstMax (B' v) v.n (argmax ((List.range v.n).map (B' v))) := fun v hv => argmax_range _ _ (hpos v hv)
    refine ⟨bs, bs', rs, rs', fun v => argmax ((List.range v.n).map (B v)), fun v => argmax ((List.range v.n).map (B' v)), e1, f1, e2, f2, e3, f3, fun p hp v hv => ?_, fun p hp v hv => ?_, fun v hv => ?_⟩
    · have hpv : p.1 ∈ vgs := by rw [← e3]; exact List.mem_map_of_mem (f := Prod.fst) hp
      exact (e4 p hp).stateIn hv (hx v (mem_graphVars.2 ⟨p.1, hpv, hv⟩))
    · have hpv : p.1 ∈ vgs := by rw [← f3]; exact List.mem_map_of_mem (f := Prod.fst) hp
      exact (f4 p hp).stateIn hv (hx' v (mem_graphVars.2 ⟨p.1, hpv, hv⟩))
    · exact (rises_belief key (hE v hv)).firstMax (hx v hv) (hx' v hv)

end

/-- **C93, textbook sum-product.** The same for sums over the configurations of factors, in which every configuration occurs once. -/
theorem C93_sum_textbook {factors factors' : List (SFac ℝ)} (h : RisingFactors factors factors') {ev ev' : Var → Nat → ℝ} (hev : ∀ F ∈ factors, ∀ v ∈ F.scope, Rises v.n (ev v) (ev' v))
    (hrow : ∀ F ∈ factors, ∀ r ∈ F.rows, List.Forall₂ (fun s (v : Var) => s < v.n) r.1 F.scope) (hrow' : ∀ F ∈ factors', ∀ r ∈ F.rows, List.Forall₂ (fun s (v : Var) => s < v.n) r.1 F.scope)
    (hnd : ∀ F ∈ factors, (F.rows.map (·.1)).Nodup) (hnd' : ∀ F ∈ factors', (F.rows.map (·.1)).Nodup)
    (hfull : ∀ F ∈ factors, F.Full) (hfull' : ∀ F ∈ factors', F.Full) (hgen : ∀ F ∈ factors, F.Gentle) (hgen' : ∀ F ∈ factors', F.Gentle) {T : ℝ} (hT : 0 < T) {d : ℝ} (hd : 0 ≤ d ∧ d ≤ 1)
    {m m' : Msgs ℝ} (hm : RisingMsgs (factors.map (·.scope)) m m')
    (hrange : ∀ f i v, IsEdge (factors.map (·.scope)) f i v → v.n ≤ 2 ∨ (∀ s < v.n, ∀ t < v.n, m f i s - m f i t ≤ 1000) ∧ ∀ s < v.n, ∀ t < v.n, m' f i s - m' f i t ≤ 1000) (n : Nat) :
    RisingMsgs (factors.map (·.scope)) (sumRun (fun _ => lse T) factors ev d n m) (sumRun (fun _ => lse T) factors' ev' d n m') := by
  refine h.run hev (fun _ => summary_lse hT) hrow hrow' hfull hfull' hgen hgen' (fun f F F' hF hF' => ?_) hd hm hrange n
  obtain ⟨G, hG, hr⟩ := forall₂_getElem? h hF
  rw [hF'] at hG
  cases hG
  have h1 := List.mem_of_getElem? hF
  have h2 := List.mem_of_getElem? hF'
  exact hr.through_lse (hrow F h1) (hrow' F' h2) (hfull F h1) (hfull' F' h2) (hnd F h1) (hnd' F' h2) hT

/-- Distributions proportional to `exp x` and `exp y`: the second gives the states from `k` on at least the probability that the first does. -/
theorem Rises.tail {n : Nat} {x y : Nat → ℝ} (h : Rises n x y) (k : Nat) :
    ∑ s ∈ Finset.range n with k ≤ s, gibbs x n s ≤ ∑ s ∈ Finset.range n with k ≤ s, gibbs y n s := by
  by_cases hk : k < n
  · have e : ∀ z : Nat → ℝ, ∑ s ∈ Finset.range n with k ≤ s, gibbs z n s = (∑ s ∈ Finset.range n with k ≤ s, Real.exp (z s)) /
        (∑ s ∈ Finset.range n with k ≤ s, Real.exp (z s) + ∑ s ∈ Finset.range n with ¬ k ≤ s, Real.exp (z s)) := by
      intro z
      unfold gibbs
      rw [Finset.sum_div, Finset.sum_filter_add_sum_filter_not, range_sum]
    have p1 : ∀ z : Nat → ℝ, 0 < ∑ s ∈ Finset.range n with k ≤ s, Real.exp (z s) := fun z =>
      Finset.sum_pos (fun s _ => Real.exp_pos _) ⟨k, Finset.mem_filter.2 ⟨Finset.mem_range.2 hk, le_rfl⟩⟩
    have p2 : ∀ z : Nat → ℝ, 0 ≤ ∑ s ∈ Finset.range n with ¬ k ≤ s, Real.exp (z s) := fun z => Finset.sum_nonneg fun s _ => (Real.exp_pos _).le
    have h1 : Real.exp (y k - x k) * ∑ s ∈ Finset.range n with k ≤ s, Real.exp (x s) ≤ ∑ s ∈ Finset.range n with k ≤ s, Real.exp (y s) := by
      rw [Finset.mul_sum]
      refine Finset.sum_le_sum fun s hs => ?_
      obtain ⟨hs1, hs2⟩ := Finset.mem_filter.1 hs
      rw [← Real.exp_add]
      exact Real.exp_le_exp.2 (by have := h k s hs2 (Finset.mem_range.1 hs1); linarith)
    have h2 : ∑ s ∈ Finset.range n with ¬ k ≤ s, Real.exp (y s) ≤ Real.exp (y k - x k) * ∑ s ∈ Finset.range n with ¬ k ≤ s, Real.exp (x s) := by
      rw [Finset.mul_sum]
      refine Finset.sum_le_sum fun s hs => ?_
      obtain ⟨hs1, hs2⟩ := Finset.mem_filter.1 hs
      rw [← Real.exp_add]
      exact Real.exp_le_exp.2 (by have := h s k (by omega) hk; linarith)
    rw [e, e, div_le_div_iff₀ (add_pos_of_pos_of_nonneg (p1 x) (p2 x)) (add_pos_of_pos_of_nonneg (p1 y) (p2 y))]
    have q1 := p1 x
    have q2 := p2 x
    have q3 := mul_le_mul_of_nonneg_left h2 q1.le
    have q4 := mul_le_mul_of_nonneg_right h1 q2
    linarith
  · rw [Finset.sum_congr (s₂ := ∅) (Finset.filter_false_of_mem fun s hs => by have := Finset.mem_range.1 hs; omega) (fun _ _ => rfl),
      Finset.sum_congr (s₁ := (Finset.range n).filter (k ≤ ·)) (s₂ := ∅) (Finset.filter_false_of_mem fun s hs => by have := Finset.mem_range.1 hs; omega) (fun _ _ => rfl)]
    rfl

section
variable {κ : Type _} {vgs : List (VGroup κ)} {hist : List (AddArg ℝ)} {garbage : Garbage} {st : FGState κ ℝ}

/-- **C93, partial, temperature above 0.** The messages of `run_bp` favour higher states more in the second model, but for four times the error of C54, and the beliefs but for that of all messages to the variable.
Missing: as above, with `Moderate` for `Tame`; tables with a configuration that occurs twice. -/
theorem C93_sum_partial (h : Compiled vgs hist garbage st) {state : BPState ℝ} {bp : BPFun κ ℝ} {T : ℝ} (hT : 0 < T) (hbp : BP.create st state T = .ok bp) (env : Env ℝ)
    (hexp : env.exp = Real.exp) (hlog : env.log = Real.log) (hfit : Fits env (graphOf vgs hist) T) (a a' : BPArrays ℝ) (n : Nat) (d : ℝ)
    (hlp : a.logPotentials.length = st.logPotentials.length) (hev : a.evidence.length = st.numVarStates) (hm : a.ftovMsgs.length = st.totalFactorNumStates)
    (hlp' : a'.logPotentials.length = st.logPotentials.length) (hev' : a'.evidence.length = st.numVarStates) (hm' : a'.ftovMsgs.length = st.totalFactorNumStates)
    (hmod : Moderate (graphOf vgs hist) a.logPotentials (readEv st.varsToStarts a.evidence) d) (hmod' : Moderate (graphOf vgs hist) a'.logPotentials (readEv st.varsToStarts a'.evidence) d)
    (hinit : ∀ f i v, IsEdge (graphOf vgs hist).allScopes f i v → ∃ s < v.n, -100000 ≤ readMsgs (graphOf vgs hist).allScopes a.ftovMsgs f i s)
    (hinit' : ∀ f i v, IsEdge (graphOf vgs hist).allScopes f i v → ∃ s < v.n, -100000 ≤ readMsgs (graphOf vgs hist).allScopes a'.ftovMsgs f i s)
    (hF : RisingFactors ((graphOf vgs hist).factors a.logPotentials) ((graphOf vgs hist).factors a'.logPotentials))
    (hE : ∀ v ∈ graphVars vgs, Rises v.n (readEv st.varsToStarts a.evidence v) (readEv st.varsToStarts a'.evidence v))
    (hM : RisingMsgs (graphOf vgs hist).allScopes (readMsgs (graphOf vgs hist).allScopes a.ftovMsgs) (readMsgs (graphOf vgs hist).allScopes a'.ftovMsgs))
    (hrange : ∀ f i v, IsEdge (graphOf vgs hist).allScopes f i v → v.n ≤ 2 ∨
      (∀ s < v.n, ∀ t < v.n, readMsgs (graphOf vgs hist).allScopes a.ftovMsgs f i s - readMsgs (graphOf vgs hist).allScopes a.ftovMsgs f i t ≤ 1000) ∧
      ∀ s < v.n, ∀ t < v.n, readMsgs (graphOf vgs hist).allScopes a'.ftovMsgs f i s - readMsgs (graphOf vgs hist).allScopes a'.ftovMsgs f i t ≤ 1000)
    (hfull : ∀ F ∈ (graphOf vgs hist).factors a.logPotentials, F.Full ∧ F.Gentle ∧ (F.rows.map (·.1)).Nodup)
    (hfull' : ∀ F ∈ (graphOf vgs hist).factors a'.logPotentials, F.Full ∧ F.Gentle ∧ (F.rows.map (·.1)).Nodup)
    {L : ℝ} (hL1 : 1 ≤ L) (hL : ∀ vs ∈ (graphOf vgs hist).allScopes, ∀ i < vs.length, (inputsBut (graphOf vgs hist).allScopes vs i : ℝ) ≤ L) {ε : ℝ}
    (hε : ε = 4 * (T * Real.exp (-100000) * ∑ k ∈ Finset.range n, (2 * L) ^ k)) :
    (∀ f i v, IsEdge (graphOf vgs hist).allScopes f i v → ∀ s s', s ≤ s' → s' < v.n →
      readMsgs (graphOf vgs hist).allScopes (bp.runBP env a' n d).ftovMsgs f i s - readMsgs (graphOf vgs hist).allScopes (bp.runBP env a n d).ftovMsgs f i s ≤
      readMsgs (graphOf vgs hist).allScopes (bp.runBP env a' n d).ftovMsgs f i s' - readMsgs (graphOf vgs hist).allScopes (bp.runBP env a n d).ftovMsgs f i s' + ε) ∧
    ∀ v start, st.varsToStarts v = some start → ∀ s s', s ≤ s' → s' < v.n →
      (bp.flatBeliefs (bp.runBP env a' n d)).getD (start + s) 0 - (bp.flatBeliefs (bp.runBP env a n d)).getD (start + s) 0 ≤
      (bp.flatBeliefs (bp.runBP env a' n d)).getD (start + s') 0 - (bp.flatBeliefs (bp.runBP env a n d)).getD (start + s') 0 + (edgesOf (graphOf vgs hist).allScopes v).length * ε := by
  have hsc := (graphOf vgs hist).factors_scopes a.logPotentials
  have hvars := h.factors_vars a.logPotentials
  have key : ∀ f i v, IsEdge (graphOf vgs hist).allScopes f i v → ∀ s s', s ≤ s' → s' < v.n →
      readMsgs (graphOf vgs hist).allScopes (bp.runBP env a' n d).ftovMsgs f i s - readMsgs (graphOf vgs hist).allScopes (bp.runBP env a n d).ftovMsgs f i s ≤
      readMsgs (graphOf vgs hist).allScopes (bp.runBP env a' n d).ftovMsgs f i s' - readMsgs (graphOf vgs hist).allScopes (bp.runBP env a n d).ftovMsgs f i s' + ε := by
    intro f i v he s s' hle hs
    have h3 := C93_sum_textbook hF (fun F hFm v hv => hE v (hvars F hFm v hv)) (h.rowsFit_mem a.logPotentials) (h.rowsFit_mem a'.logPotentials) (fun F hF => (hfull F hF).2.2) (fun F hF => (hfull' F hF).2.2)
      (fun F hF => (hfull F hF).1) (fun F hF => (hfull' F hF).1) (fun F hF => (hfull F hF).2.1) (fun F hF => (hfull' F hF).2.1) hT hmod.damping (by rw [hsc]; exact hM) (by rw [hsc]; exact hrange) n
      f i v (by rw [hsc]; exact he) s s' hle hs
    have c1 := abs_le.1 (C54_partial h hT hbp env hexp hlog hfit a n d hlp hev hm hmod hinit hL1 hL f i v s he (by omega))
    have c2 := abs_le.1 (C54_partial h hT hbp env hexp hlog hfit a n d hlp hev hm hmod hinit hL1 hL f i v s' he hs)
    have c3 := abs_le.1 (C54_partial h hT hbp env hexp hlog hfit a' n d hlp' hev' hm' hmod' hinit' hL1 hL f i v s he (by omega))
    have c4 := abs_le.1 (C54_partial h hT hbp env hexp hlog hfit a' n d hlp' hev' hm' hmod' hinit' hL1 hL f i v s' he hs)
    rw [hε]
    linarith [c1.1, c1.2, c2.1, c2.2, c3.1, c3.2, c4.1, c4.2]
  refine ⟨key, fun v start hv s s' hle hs => ?_⟩
  have l1 := (h.run_read hbp env hfit a d hlp hev n hm).1
  have l2 := (h.run_read hbp env hfit a' d hlp' hev' n hm').1
  have hvv : v ∈ graphVars vgs := by
    obtain ⟨i, hi, -⟩ := (h.starts_iff v start).1 hv
    exact List.mem_toFinset.2 (List.mem_of_getElem? hi)
  rw [getD_of_some (C34_flat h hbp _ l1 hev v start hv s (by omega)), getD_of_some (C34_flat h hbp _ l1 hev v start hv s' hs),
    getD_of_some (C34_flat h hbp _ l2 hev' v start hv s (by omega)), getD_of_some (C34_flat h hbp _ l2 hev' v start hv s' hs)]
  unfold beliefOf
  have k1 := hE v hvv s s' hle hs
  have k2 : ∀ e ∈ edgesOf (graphOf vgs hist).allScopes v, _ := fun e he => key e.1 e.2 v ((mem_edgesOf _ _ _ _).1 he) s s' hle hs
  have e1 : (bp.runBP env a n d).evidence = a.evidence := rfl
  have e2 : (bp.runBP env a' n d).evidence = a'.evidence := rfl
  rw [e1, e2]
  generalize readMsgs (graphOf vgs hist).allScopes (bp.runBP env a n d).ftovMsgs = M at *
  generalize readMsgs (graphOf vgs hist).allScopes (bp.runBP env a' n d).ftovMsgs = M' at *
  have k3 : ((edgesOf (graphOf vgs hist).allScopes v).map (fun e => M' e.1 e.2 s)).sum - ((edgesOf (graphOf vgs hist).allScopes v).map (fun e => M e.1 e.2 s)).sum ≤
      ((edgesOf (graphOf vgs hist).allScopes v).map (fun e => M' e.1 e.2 s')).sum - ((edgesOf (graphOf vgs hist).allScopes v).map (fun e => M e.1 e.2 s')).sum
        + (edgesOf (graphOf vgs hist).allScopes v).length * ε := by
    generalize edgesOf (graphOf vgs hist).allScopes v = l at k2
    induction l with
    | nil => simp
    | cons e l ih =>
      have q1 := k2 e (by simp)
      have q2 := ih (fun e he => k2 e (by simp [he]))
      simp only [List.map_cons, List.sum_cons, List.length_cons, Nat.cast_add, Nat.cast_one]
      linarith
  linarith

end

/-! ## Refutation and non-vacuity -/

/-- Two variables with three states. -/
def exVarsTr : List (VGroup Nat) := [.arr ⟨1000000000, [2], [3, 3]⟩]

/-- One of them. -/
def exVarTr (i : Nat) : Var := ⟨1000000000 + i, 3⟩

/-- All pairs of states. -/
def exAllTr : List (List Nat) := [[0, 0], [0, 1], [0, 2], [1, 0], [1, 1], [1, 2], [2, 0], [2, 1], [2, 2]]

/-- A table for both variables and one for the first. -/
def exHistTr : List (AddArg ℚ) := [.one ⟨5, .enum, .enumGroup, [[exVarTr 0, exVarTr 1]], ⟨2, exAllTr⟩, List.replicate 9 0⟩, .one ⟨6, .enum, .enumGroup, [[exVarTr 0]], ⟨1, [[0], [1], [2]]⟩, [0, 0, 0]⟩]

/-- The compiled graph. -/
def exStateTr : FGState Nat ℚ :=
  match (graphOf exVarsTr exHistTr).fgState 0 with
  | .ok st => st
  | .error _ => ⟨[], fun _ => none, 0, 0, fun _ => (0, 0), fun _ => (0, 0), fun _ => none, [],
      ⟨⟨[], [], []⟩, ⟨[], [], [], [], 1⟩, ⟨[], [], [], [], 1⟩⟩⟩

/-- Max-product belief propagation on it. -/
def exBPTr : BPFun Nat ℚ :=
  match BP.create exStateTr exBPState 0 with
  | .ok bp => bp
  | .error _ => ⟨exStateTr, exBPState, [], 0, [], 0⟩

set_option maxRecDepth 4000 in
theorem exBPTr_create : BP.create exStateTr exBPState 0 = .ok exBPTr := rfl

/-- The two tables. -/
def exFacsTr (x : Nat → ℚ) : List (SFac ℚ) := [⟨[exVarTr 0, exVarTr 1], [([0, 0], x 0), ([0, 1], x 1), ([0, 2], x 2), ([1, 0], x 3), ([1, 1], x 4),
    ([1, 2], x 5), ([2, 0], x 6), ([2, 1], x 7), ([2, 2], x 8)]⟩, ⟨[exVarTr 0], [([0], x 9), ([1], x 10), ([2], x 11)]⟩]

theorem exFactorsTr (x : Nat → ℚ) : (graphOf exVarsTr exHistTr).factors ((List.range 12).map x) = exFacsTr x := rfl

theorem exScopesTr : (graphOf exVarsTr exHistTr).allScopes = [[exVarTr 0, exVarTr 1], [exVarTr 0]] := rfl

theorem exStateTr_compiled : Compiled exVarsTr exHistTr 0 exStateTr where
  vgroups := ⟨by
    simp only [exVarsTr, List.mem_cons, List.not_mem_nil, or_false, forall_eq]
    exact ⟨1, .arr (ns := .scalar 3) (shape := [2]) (by simp) (by decide)⟩, by simp [exVarsTr]⟩
  valid := by
    simp only [exHistTr, List.mem_cons, List.not_mem_nil, or_false, forall_eq, forall_eq_or_imp, AddArg.flat]
    refine ⟨⟨by decide, by decide, fun _ => ⟨by decide, by decide, by decide, by decide, by rfl⟩, fun h => absurd rfl h⟩, ⟨by decide, by decide, fun _ => ⟨by decide, by decide, by decide, by decide, by rfl⟩, fun h => absurd rfl h⟩⟩
  ids := by
    have e : FType.all.flatMap (graphOf exVarsTr exHistTr).groups = [
      ⟨5, .enum, .enumGroup, [[exVarTr 0, exVarTr 1]], ⟨2, exAllTr⟩, List.replicate 9 0⟩, ⟨6, .enum, .enumGroup, [[exVarTr 0]], ⟨1, [[0], [1], [2]]⟩, [0, 0, 0]⟩] := by rfl
    rw [e]
    intro g hg k hk hid
    simp only [List.mem_cons, List.not_mem_nil, or_false] at hg hk
    rcases hg with rfl | rfl <;> rcases hk with rfl | rfl <;> first | rfl | exact absurd hid (by decide)
  compiled := rfl

theorem exModerateTr {lp ev : List ℚ} (x : Nat → ℚ) (hlp : lp = (List.range 12).map x) (hx : ∀ x ∈ lp, |x| ≤ 2000) (hev : ∀ x ∈ ev, |x| ≤ 2000) :
    Moderate (graphOf exVarsTr exHistTr) lp (readEv exStateTr.varsToStarts ev) 0 := by
  refine moderate_of_bounds (E := 2000) (P := 2000) (D := 2) (K := 2) (by norm_num) ?_ ?_ (by norm_num) ?_ (by norm_num)
  · intro _ _ v s _ _
    unfold readEv List.getD
    cases e : ev[(exStateTr.varsToStarts v).getD 0 + s]? with
    | none => norm_num
    | some x => exact hev x (List.mem_of_getElem? e)
  · intro f i v he
    have hd : ∀ vs ∈ [[exVarTr 0, exVarTr 1], [exVarTr 0]], ∀ v ∈ vs, (edgesOf [[exVarTr 0, exVarTr 1], [exVarTr 0]] v).length ≤ 2 := by decide +kernel
    obtain ⟨vs, h1, h2⟩ := he
    rw [exScopesTr] at h1 ⊢
    exact Nat.cast_le_ofNat.2 (hd vs (List.mem_of_getElem? h1) v (List.mem_of_getElem? h2))
  · have e : tableFacs (graphOf exVarsTr exHistTr).tables lp = exFacsTr x := by rw [hlp]; rfl
    have hx' : ∀ i < 12, |x i| ≤ 2000 := by
      intro i hi
      refine hx _ ?_
      rw [hlp]
      exact List.mem_map.2 ⟨i, List.mem_range.2 hi, rfl⟩
    rw [e]
    unfold exFacsTr
    simp only [List.forall_mem_cons, List.not_mem_nil, false_imp_iff, implies_true, and_true, List.length_cons, List.length_nil]
    exact ⟨⟨by norm_num, hx' 0 (by omega), hx' 1 (by omega), hx' 2 (by omega), hx' 3 (by omega), hx' 4 (by omega), hx' 5 (by omega), hx' 6 (by omega), hx' 7 (by omega), hx' 8 (by omega)⟩, by norm_num,
      hx' 9 (by omega), hx' 10 (by omega), hx' 11 (by omega)⟩

/-- The log potentials, messages and evidence of a model, and of one that favours higher states more. -/
def exLowTr : BPArrays ℚ := ⟨[0, -1, -2, -1, 0, -1, -2, -1, 0, 0, 0, 0], List.replicate 9 0, [3, 0, 0, 1, 0, 2]⟩

/-- See above. -/
def exHighTr : BPArrays ℚ := ⟨[0, -1, -2, -1, 0, -1, -2, -1, 1, 0, 1, 2], List.replicate 9 0, [3, 0, 0, 1, 1, 4]⟩

theorem exFullTr (x : Nat → ℚ) : ∀ F ∈ exFacsTr x, F.Full ∧ F.Complete := by
  have hc : ∀ F ∈ exFacsTr x, F.Complete := by
    unfold exFacsTr
    simp only [List.forall_mem_cons, List.not_mem_nil, false_imp_iff, implies_true, and_true]
    refine ⟨⟨by simp, fun c hc => ?_⟩, by simp, fun c hc => ?_⟩
    · cases hc with
      | cons h1 hc =>
        cases hc with
        | cons h2 hc =>
          cases hc
          rename_i p q
          have hp : p = 0 ∨ p = 1 ∨ p = 2 := by simp only [exVarTr] at h1; omega
          have hq : q = 0 ∨ q = 1 ∨ q = 2 := by simp only [exVarTr] at h2; omega
          rcases hp with rfl | rfl | rfl <;> rcases hq with rfl | rfl | rfl <;> simp
    · cases hc with
      | cons h1 hc =>
        cases hc
        rename_i p
        have hp : p = 0 ∨ p = 1 ∨ p = 2 := by simp only [exVarTr] at h1; omega
        rcases hp with rfl | rfl | rfl <;> simp
  have hr := exStateTr_compiled.rowsFit_mem ((List.range 12).map x)
  rw [exFactorsTr] at hr
  refine fun F hF => ⟨(hc F hF).full (hr F hF) ?_, hc F hF⟩
  have hne : ∀ F ∈ exFacsTr x, F.rows ≠ [] := by simp [exFacsTr]
  exact hne F hF

theorem exEdgesTr {f i : Nat} {v : Var} (he : IsEdge (graphOf exVarsTr exHistTr).allScopes f i v) : f < 2 ∧ i < 2 ∧ v.n = 3 := by
  obtain ⟨vs, h1, h2⟩ := he
  rw [exScopesTr] at h1
  have hf := (List.getElem?_eq_some_iff.1 h1).1
  have hi := (List.getElem?_eq_some_iff.1 h2).1
  have hl : ∀ vs ∈ [[exVarTr 0, exVarTr 1], [exVarTr 0]], vs.length ≤ 2 ∧ ∀ v ∈ vs, v.n = 3 := by decide +kernel
  have := hl vs (List.mem_of_getElem? h1)
  exact ⟨hf, by omega, this.2 v (List.mem_of_getElem? h2)⟩

theorem exZeroTr (f i s : Nat) : readMsgs (graphOf exVarsTr exHistTr).allScopes (List.replicate 9 (0 : ℚ)) f i s = 0 := by
  unfold readMsgs
  rw [List.getD, List.getElem?_replicate]
  split <;> rfl

theorem exLogicalTr (ev : Var → Nat → ℚ) : LogicalModerate (graphOf exVarsTr exHistTr) ev := by
  intro f vs hvs hf
  have h1 := (List.getElem?_eq_some_iff.1 hvs).1
  have h2 : (graphOf exVarsTr exHistTr).allScopes.length = (graphOf exVarsTr exHistTr).tables.length := rfl
  omega

theorem exStatedTr : (∀ g ∈ exVarsTr, g.Regular) ∧ ∀ g ∈ exVarsTr, g.Stated := by
  have : ∀ g ∈ exVarsTr, g.Regular ∧ g.Stated := by
    simp only [exVarsTr, List.mem_cons, List.not_mem_nil, or_false, forall_eq]
    simp [VGroup.Regular, VGroup.Stated]
  exact ⟨fun g hg => (this g hg).1, fun g hg => (this g hg).2⟩

/-- Non-vacuity of C93: in the second model, state 2 of both variables gets 1 more, the states of the first variable 0, 1 and 2, and those of the second 0, 1 and 2. -/
example (n : Nat) : ∃ bs bs' rs rs', ∃ x x' : Var → Nat, exBPTr.getBeliefs (exBPTr.runBP exEnv exLowTr n 0) = .ok bs ∧ exBPTr.getBeliefs (exBPTr.runBP exEnv exHighTr n 0) = .ok bs' ∧
    decodeMapStates bs = .ok rs ∧ decodeMapStates bs' = .ok rs' ∧ rs.map (·.1) = exVarsTr ∧ rs'.map (·.1) = exVarsTr ∧ (∀ p ∈ rs, ∀ v ∈ p.1.variables, p.1.StateIn v (x v) p.2) ∧
    (∀ p ∈ rs', ∀ v ∈ p.1.variables, p.1.StateIn v (x' v) p.2) ∧ ∀ v ∈ graphVars exVarsTr, x v ≤ x' v := by
  have hlow : exLowTr.logPotentials = (List.range 12).map (fun i => exLowTr.logPotentials.getD i 0) := rfl
  have hhigh : exHighTr.logPotentials = (List.range 12).map (fun i => exHighTr.logPotentials.getD i 0) := rfl
  have gentle : ∀ lp : List ℚ, lp = (List.range 12).map (fun i => lp.getD i 0) → (∀ F ∈ exFacsTr (fun i => lp.getD i 0), F.Within 1000) → ∀ F ∈ (graphOf exVarsTr exHistTr).factors lp, F.Full ∧ F.Gentle := by
    intro lp h1 h2
    rw [h1, exFactorsTr]
    exact fun F hF => ⟨(exFullTr _ F hF).1, .inr ⟨(exFullTr _ F hF).2, h2 F hF⟩⟩
  have hz : ∀ f i v, IsEdge (graphOf exVarsTr exHistTr).allScopes f i v → ∃ s < v.n, (-100000 : ℚ) ≤ readMsgs (graphOf exVarsTr exHistTr).allScopes (List.replicate 9 0) f i s := by
    intro f i v he
    refine ⟨0, by have := exEdgesTr he; omega, ?_⟩
    rw [exZeroTr]
    norm_num
  refine (C93_partial exStateTr_compiled exBPTr_create exEnv ⟨.inl rfl, fun _ => by decide +kernel⟩ exLowTr exHighTr n 0 rfl rfl rfl rfl rfl rfl
    (exModerateTr _ hlow (by decide +kernel) (by decide +kernel)).tame (exModerateTr _ hhigh (by decide +kernel) (by decide +kernel)).tame (exLogicalTr _).tame (exLogicalTr _).tame hz hz
    (fun _ _ _ _ => .inl rfl) (fun _ _ _ _ => .inl rfl) ?_ ?_ ?_ ?_ (gentle _ hlow ?_) (gentle _ hhigh ?_)).2.2 exStatedTr.1 exStatedTr.2
  · rw [hlow, hhigh, exFactorsTr, exFactorsTr]
    refine .cons ?_ (.cons ?_ .nil)
    · unfold SFac.Rises
      decide +kernel
    · unfold SFac.Rises
      decide +kernel
  · have hV : graphVars exVarsTr = {exVarTr 0, exVarTr 1} := rfl
    have hd : ∀ v ∈ graphVars exVarsTr, v.n = 3 ∧ ∀ s' < 3, ∀ s ≤ s', readEv exStateTr.varsToStarts exHighTr.evidence v s - readEv exStateTr.varsToStarts exLowTr.evidence v s ≤
        readEv exStateTr.varsToStarts exHighTr.evidence v s' - readEv exStateTr.varsToStarts exLowTr.evidence v s' := by
      rw [hV]
      decide +kernel
    exact fun v hv s s' hle hs => (hd v hv).2 s' (by rw [(hd v hv).1] at hs; exact hs) s hle
  · intro f i v he s s' hle hs
    show readMsgs _ (List.replicate 9 0) f i s - readMsgs _ (List.replicate 9 0) f i s ≤ readMsgs _ (List.replicate 9 0) f i s' - readMsgs _ (List.replicate 9 0) f i s'
    simp
  · intro f i v he
    right
    constructor <;> intro s hs t ht <;> (show readMsgs _ (List.replicate 9 0) f i s - readMsgs _ (List.replicate 9 0) f i t ≤ 1000) <;> rw [exZeroTr, exZeroTr] <;> norm_num
  · unfold SFac.Within
    decide +kernel
  · unfold SFac.Within
    decide +kernel

/-- **C93 does not hold for tables with log potentials in a range of more than 1000.** The first variable has the log potentials -500, -100, 0 in the first model and -1100, -650, 0 in the second, which
favours higher states more, and the same evidence. Clipping at -1000 leaves a smaller difference between the states 0 and 1 in the second model than in the first: the decoded state drops from 1 to 0. -/
theorem C93_refuted : ∃ a a' : BPArrays ℚ, a.ftovMsgs = List.replicate 9 0 ∧ a'.ftovMsgs = List.replicate 9 0 ∧ a.evidence = a'.evidence ∧
    RisingFactors ((graphOf exVarsTr exHistTr).factors a.logPotentials) ((graphOf exVarsTr exHistTr).factors a'.logPotentials) ∧
    (∀ F ∈ (graphOf exVarsTr exHistTr).factors a.logPotentials, F.Full ∧ F.Complete ∧ F.Within 500) ∧ (∀ F ∈ (graphOf exVarsTr exHistTr).factors a'.logPotentials, F.Full ∧ F.Complete ∧ F.Within 1100) ∧
    Moderate (graphOf exVarsTr exHistTr) a.logPotentials (readEv exStateTr.varsToStarts a.evidence) 0 ∧ Moderate (graphOf exVarsTr exHistTr) a'.logPotentials (readEv exStateTr.varsToStarts a'.evidence) 0 ∧
    ((exBPTr.getBeliefs (exBPTr.runBP exEnv a 2 0)).bind decodeMapStates).toOption.map (·.map (·.2)) = some [.arr ⟨[2], [1, 0]⟩] ∧
    ((exBPTr.getBeliefs (exBPTr.runBP exEnv a' 2 0)).bind decodeMapStates).toOption.map (·.map (·.2)) = some [.arr ⟨[2], [0, 0]⟩] := by
  have hlow : ([0, 0, 0, 0, 0, 0, 0, 0, 0, -500, -100, 0] : List ℚ) = (List.range 12).map (fun i => [0, 0, 0, 0, 0, 0, 0, 0, 0, -500, -100, 0].getD i 0) := rfl
  have hhigh : ([0, 0, 0, 0, 0, 0, 0, 0, 0, -1100, -650, 0] : List ℚ) = (List.range 12).map (fun i => [0, 0, 0, 0, 0, 0, 0, 0, 0, -1100, -650, 0].getD i 0) := rfl
  refine ⟨⟨[0, 0, 0, 0, 0, 0, 0, 0, 0, -500, -100, 0], List.replicate 9 0, [1375, 1000, 0, 0, 0, 0]⟩, ⟨[0, 0, 0, 0, 0, 0, 0, 0, 0, -1100, -650, 0], List.replicate 9 0, [1375, 1000, 0, 0, 0, 0]⟩, rfl, rfl, rfl, ?_, ?_, ?_,
    exModerateTr _ hlow (by decide +kernel) (by decide +kernel), exModerateTr _ hhigh (by decide +kernel) (by decide +kernel), by decide +kernel, by decide +kernel⟩
  · show RisingFactors ((graphOf exVarsTr exHistTr).factors [0, 0, 0, 0, 0, 0, 0, 0, 0, -500, -100, 0]) ((graphOf exVarsTr exHistTr).factors [0, 0, 0, 0, 0, 0, 0, 0, 0, -1100, -650, 0])
    rw [hlow, hhigh, exFactorsTr, exFactorsTr]
    refine .cons ?_ (.cons ?_ .nil)
    · unfold SFac.Rises
      decide +kernel
    · unfold SFac.Rises
      decide +kernel
  · show ∀ F ∈ (graphOf exVarsTr exHistTr).factors [0, 0, 0, 0, 0, 0, 0, 0, 0, -500, -100, 0], _
    rw [hlow, exFactorsTr]
    have hw : ∀ F ∈ exFacsTr (fun i => [0, 0, 0, 0, 0, 0, 0, 0, 0, -500, -100, 0].getD i 0), F.Within 500 := by
      unfold SFac.Within
      decide +kernel
    exact fun F hF => ⟨(exFullTr _ F hF).1, (exFullTr _ F hF).2, hw F hF⟩
  · show ∀ F ∈ (graphOf exVarsTr exHistTr).factors [0, 0, 0, 0, 0, 0, 0, 0, 0, -1100, -650, 0], _
    rw [hhigh, exFactorsTr]
    have hw : ∀ F ∈ exFacsTr (fun i => [0, 0, 0, 0, 0, 0, 0, 0, 0, -1100, -650, 0].getD i 0), F.Within 1100 := by
      unfold SFac.Within
      decide +kernel
    exact fun F hF => ⟨(exFullTr _ F hF).1, (exFullTr _ F hF).2, hw F hF⟩

theorem exModerateUp {ev : List ℝ} (hev : ∀ x ∈ ev, |x| ≤ 3) : Moderate (graphOf exVars exHistT) [1, 0, 0, 1, 3, 0, 1, 1] (readEv exStateT.varsToStarts ev) (1 / 4) := by
  refine moderate_of_bounds (E := 3) (P := 3) (D := 2) (K := 2) (by norm_num) ?_ ?_ (by norm_num) ?_ (by norm_num)
  · intro _ _ v s _ _
    unfold readEv List.getD
    cases e : ev[(exStateT.varsToStarts v).getD 0 + s]? with
    | none => norm_num
    | some x => exact hev x (List.mem_of_getElem? e)
  · intro f i v he
    have hd : ∀ v ∈ [exVar 0, exVar 1, exVar 2], (edgesOf [[exVar 0, exVar 1], [exVar 1, exVar 2]] v).length ≤ 2 := by decide +kernel
    have := (exEdgeT he).1
    rw [exScopesT]
    refine Nat.cast_le_ofNat.2 (hd v ?_)
    simp only [List.mem_cons, List.not_mem_nil, or_false, Prod.mk.injEq] at this ⊢
    tauto
  · have e : tableFacs (graphOf exVars exHistT).tables ([1, 0, 0, 1, 3, 0, 1, 1] : List ℝ) = [⟨[exVar 0, exVar 1], [([0, 0], 1), ([0, 1], 0), ([1, 0], 0), ([1, 1], 1)]⟩,
        ⟨[exVar 1, exVar 2], [([0, 0], 3), ([0, 1], 0), ([1, 0], 1), ([1, 1], 1)]⟩] := rfl
    rw [e]
    simp only [List.forall_mem_cons]
    norm_num

/-- Non-vacuity of C93 at temperature 1/2: two attractive tables, and more evidence for state 1 of two variables. -/
example {env : Env ℝ} (hexp : env.exp = Real.exp) (hlog : env.log = Real.log) (hw : env.wrapNeg = false) (n : Nat) (v : Var) (start : Nat) (hv : exStateT.varsToStarts v = some start) (s s' : Nat) (hle : s ≤ s')
    (hs : s' < v.n) :
    ((exBPT (1 / 2)).flatBeliefs ((exBPT (1 / 2)).runBP env ⟨[1, 0, 0, 1, 3, 0, 1, 1], List.replicate 8 0, [1, 1, 0, 3, 0, 3]⟩ n (1 / 4))).getD (start + s) 0
      - ((exBPT (1 / 2)).flatBeliefs ((exBPT (1 / 2)).runBP env ⟨[1, 0, 0, 1, 3, 0, 1, 1], List.replicate 8 0, [1, 0, 0, 2, 0, 3]⟩ n (1 / 4))).getD (start + s) 0 ≤
    ((exBPT (1 / 2)).flatBeliefs ((exBPT (1 / 2)).runBP env ⟨[1, 0, 0, 1, 3, 0, 1, 1], List.replicate 8 0, [1, 1, 0, 3, 0, 3]⟩ n (1 / 4))).getD (start + s') 0
      - ((exBPT (1 / 2)).flatBeliefs ((exBPT (1 / 2)).runBP env ⟨[1, 0, 0, 1, 3, 0, 1, 1], List.replicate 8 0, [1, 0, 0, 2, 0, 3]⟩ n (1 / 4))).getD (start + s') 0
      + (edgesOf (graphOf exVars exHistT).allScopes v).length * (4 * (1 / 2 * Real.exp (-100000) * ∑ k ∈ Finset.range n, (2 * 1) ^ k)) := by
  have hfac : (graphOf exVars exHistT).factors ([1, 0, 0, 1, 3, 0, 1, 1] : List ℝ) = [⟨[exVar 0, exVar 1], [([0, 0], 1), ([0, 1], 0), ([1, 0], 0), ([1, 1], 1)]⟩,
        ⟨[exVar 1, exVar 2], [([0, 0], 3), ([0, 1], 0), ([1, 0], 1), ([1, 1], 1)]⟩] := rfl
  have hrows := exStateT_compiled.rowsFit_mem [1, 0, 0, 1, 3, 0, 1, 1]
  have hg : ∀ F ∈ (graphOf exVars exHistT).factors ([1, 0, 0, 1, 3, 0, 1, 1] : List ℝ), F.Full ∧ F.Gentle ∧ (F.rows.map (·.1)).Nodup := by
    have hc : ∀ F ∈ (graphOf exVars exHistT).factors ([1, 0, 0, 1, 3, 0, 1, 1] : List ℝ), F.Complete ∧ F.rows ≠ [] ∧ F.Gentle ∧ (F.rows.map (·.1)).Nodup := by
      rw [hfac]
      simp only [List.forall_mem_cons, List.not_mem_nil, false_imp_iff, implies_true, and_true]
      exact ⟨⟨complete_two _ _ _ _ _ _ rfl rfl, by simp, .inl (by simp [exVar]), by simp⟩, complete_two _ _ _ _ _ _ rfl rfl, by simp, .inl (by simp [exVar]), by simp⟩
    exact fun F hF => ⟨(hc F hF).1.full (hrows F hF) (hc F hF).2.1, (hc F hF).2.2⟩
  refine (C93_sum_partial exStateT_compiled (by norm_num) (exBPT_create _) env hexp hlog (exFitsT hw (by norm_num)) ⟨[1, 0, 0, 1, 3, 0, 1, 1], List.replicate 8 0, [1, 0, 0, 2, 0, 3]⟩
    ⟨[1, 0, 0, 1, 3, 0, 1, 1], List.replicate 8 0, [1, 1, 0, 3, 0, 3]⟩ n (1 / 4) rfl rfl (by simp; rfl) rfl rfl (by simp; rfl) (exModerateUp (by simp only [List.forall_mem_cons]; norm_num))
    (exModerateUp (by simp only [List.forall_mem_cons]; norm_num)) exInitT exInitT ?_ ?_ (fun f i v _ s s' _ _ => by simp) (fun f i v he => .inl (by have := (exEdgeT he).2; omega)) hg hg le_rfl ?_ rfl).2 v start hv s s' hle hs
  · show RisingFactors ((graphOf exVars exHistT).factors ([1, 0, 0, 1, 3, 0, 1, 1] : List ℝ)) ((graphOf exVars exHistT).factors ([1, 0, 0, 1, 3, 0, 1, 1] : List ℝ))
    rw [hfac]
    refine .cons ⟨rfl, ?_⟩ (.cons ⟨rfl, ?_⟩ .nil)
    · simp only [List.forall_mem_cons, List.exists_mem_cons]
      norm_num
    · simp only [List.forall_mem_cons, List.exists_mem_cons]
      norm_num
  · have hV : graphVars exVars = {exVar 0, exVar 1, exVar 2} := rfl
    rw [hV]
    intro v hv s s' hle hs
    simp only [Finset.mem_insert, Finset.mem_singleton] at hv
    have e0 : exStateT.varsToStarts (exVar 0) = some 0 := by decide +kernel
    have e1 : exStateT.varsToStarts (exVar 1) = some 2 := by decide +kernel
    have e2 : exStateT.varsToStarts (exVar 2) = some 4 := by decide +kernel
    rcases hv with rfl | rfl | rfl <;> simp only [exVar] at hs <;> (have : s' = 0 ∨ s' = 1 := by omega) <;> rcases this with rfl | rfl <;> (have : s = 0 ∨ s = 1 := by omega) <;> rcases this with rfl | rfl <;>
      simp [readEv, e0, e1, e2] at hle ⊢ <;> norm_num
  · have hd : ∀ vs ∈ [[exVar 0, exVar 1], [exVar 1, exVar 2]], ∀ i < vs.length, inputsBut [[exVar 0, exVar 1], [exVar 1, exVar 2]] vs i ≤ 1 := by decide +kernel
    rw [exScopesT]
    intro vs hvs i hi
    exact_mod_cast hd vs hvs i hi

end PGMax
