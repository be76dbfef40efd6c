import Verif.Lemmas.AttractiveReg
import Verif.Props.C109

/-! # C93 and C109 above temperature 0, for tables of two variables

C93 and C109 compare messages of textbook sum-product above temperature 0. The code's sums over the configurations of a table have an offset, `exp (-1e5)` times the largest term. For tables of at most
two variables (those of all pairwise models) the offset does not change the order, and the statements hold for the code itself. -/

namespace PGMax

open Filter Topology

section
variable {κ : Type _} {vgs : List (VGroup κ)} {hist : List (AddArg ℝ)} {garbage : Garbage} {st : FGState κ ℝ}

theorem summary_code {T : ℝ} (hT : 0 < T) (k f : Nat) : Summary (codeSummary k T f) := by
  unfold codeSummary
  split
  · exact summary_regLse hT
  · exact summary_lse hT

theorem SFac.Rises.through_code {F F' : SFac ℝ} (h : F.Rises F') (hrow : ∀ r ∈ F.rows, List.Forall₂ (fun s (v : Var) => s < v.n) r.1 F.scope)
    (hrow' : ∀ r ∈ F'.rows, List.Forall₂ (fun s (v : Var) => s < v.n) r.1 F'.scope) (hfull : F.Full) (hfull' : F'.Full)
    (hnd : (F.rows.map (·.1)).Nodup) (hnd' : (F'.rows.map (·.1)).Nodup) {T : ℝ} (hT : 0 < T) {k f : Nat} (htwo : f < k → F.scope.length ≤ 2) : RisesThrough (codeSummary k T f) F F' := by
  unfold codeSummary
  split
  · exact h.through_reg hrow hrow' hfull hfull' hnd hnd' (htwo ‹_›) hT
  · exact h.through_lse hrow hrow' hfull hfull' hnd hnd' hT

theorem attracts_code {factors : List (SFac ℝ)} (hatt : ∀ F ∈ factors, F.Rises F ∧ F.Full) (hrow : ∀ F ∈ factors, ∀ r ∈ F.rows, List.Forall₂ (fun s (v : Var) => s < v.n) r.1 F.scope)
    (hnd : ∀ F ∈ factors, (F.rows.map (·.1)).Nodup) (hbin : ∀ F ∈ factors, ∀ v ∈ F.scope, v.n ≤ 2) {T : ℝ} (hT : 0 < T) {k : Nat}
    (htwo : ∀ f F, factors[f]? = some F → f < k → F.scope.length ≤ 2) : Attracts (codeSummary k T) factors where
  rises := List.forall₂_same.2 fun F hF => (hatt F hF).1
  summary := summary_code hT k
  rows := hrow
  full := fun F hF => (hatt F hF).2
  gentle := fun F hF => .inl (hbin F hF)
  through := fun f F hF => by
    have hm := List.mem_of_getElem? hF
    exact (hatt F hm).1.through_code (hrow F hm) (hrow F hm) (hatt F hm).2 (hatt F hm).2 (hnd F hm) (hnd F hm) hT (htwo f F hF)

/-- The two states of a binary variable: a higher probability of state 1. -/
theorem Rises.one {x y : Nat → ℝ} (h : Rises 2 x y) : gibbs x 2 1 ≤ gibbs y 2 1 := by
  have := h.tail 1
  have e : (Finset.range 2).filter (1 ≤ ·) = {1} := by decide
  simpa only [e, Finset.sum_singleton] using this

/-- **C93, partial, temperature above 0, tables of at most two variables.** Run `run_bp` for two sets of log potentials, evidence and initial messages of a graph. If the second favours higher states more,
then after any number of iterations so do all messages and beliefs; `get_marginals` gives the states from `k` on at least the probability that it gives them in the first, for every `k`; and no variable
gets a lower state when the beliefs are decoded. Missing: tables of three or more variables (for which `C93_sum_partial` bounds the error); the rest as in `C93_partial`. -/
theorem C93_pairs_partial [DecidableEq κ] (h : Compiled vgs hist garbage st) {state : BPState ℝ} {bp : BPFun κ ℝ} {T : ℝ} (hT : 0 < T) (hbp : BP.create st state T = .ok bp) (env : Env ℝ)
    (hexp : env.exp = Real.exp) (hlog : env.log = Real.log) (hfit : Fits env (graphOf vgs hist) T) (a a' : BPArrays ℝ) (n : Nat) (d : ℝ)
    (hlp : a.logPotentials.length = st.logPotentials.length) (hev : a.evidence.length = st.numVarStates) (hm : a.ftovMsgs.length = st.totalFactorNumStates)
    (hlp' : a'.logPotentials.length = st.logPotentials.length) (hev' : a'.evidence.length = st.numVarStates) (hm' : a'.ftovMsgs.length = st.totalFactorNumStates) {b b' : Nat → ℝ}
    (hmod : Tame (graphOf vgs hist) a.logPotentials (readEv st.varsToStarts a.evidence) d b) (hmod' : Tame (graphOf vgs hist) a'.logPotentials (readEv st.varsToStarts a'.evidence) d b')
    (hinit : ∀ f i v, IsEdge (graphOf vgs hist).allScopes f i v → ∃ s < v.n, -100000 ≤ readMsgs (graphOf vgs hist).allScopes a.ftovMsgs f i s)
    (hinit' : ∀ f i v, IsEdge (graphOf vgs hist).allScopes f i v → ∃ s < v.n, -100000 ≤ readMsgs (graphOf vgs hist).allScopes a'.ftovMsgs f i s)
    (hmild : Mild (graphOf vgs hist).allScopes b (readMsgs (graphOf vgs hist).allScopes a.ftovMsgs)) (hmild' : Mild (graphOf vgs hist).allScopes b' (readMsgs (graphOf vgs hist).allScopes a'.ftovMsgs))
    (hF : RisingFactors ((graphOf vgs hist).factors a.logPotentials) ((graphOf vgs hist).factors a'.logPotentials))
    (hE : ∀ v ∈ graphVars vgs, Rises v.n (readEv st.varsToStarts a.evidence v) (readEv st.varsToStarts a'.evidence v))
    (hM : RisingMsgs (graphOf vgs hist).allScopes (readMsgs (graphOf vgs hist).allScopes a.ftovMsgs) (readMsgs (graphOf vgs hist).allScopes a'.ftovMsgs))
    (hrange : ∀ f i v, IsEdge (graphOf vgs hist).allScopes f i v → v.n ≤ 2 ∨
      (∀ s < v.n, ∀ t < v.n, readMsgs (graphOf vgs hist).allScopes a.ftovMsgs f i s - readMsgs (graphOf vgs hist).allScopes a.ftovMsgs f i t ≤ 1000) ∧
      ∀ s < v.n, ∀ t < v.n, readMsgs (graphOf vgs hist).allScopes a'.ftovMsgs f i s - readMsgs (graphOf vgs hist).allScopes a'.ftovMsgs f i t ≤ 1000)
    (hfull : ∀ F ∈ (graphOf vgs hist).factors a.logPotentials, F.Full ∧ F.Gentle ∧ (F.rows.map (·.1)).Nodup)
    (hfull' : ∀ F ∈ (graphOf vgs hist).factors a'.logPotentials, F.Full ∧ F.Gentle ∧ (F.rows.map (·.1)).Nodup)
    (htwo : ∀ f vs, (graphOf vgs hist).allScopes[f]? = some vs → f < (graphOf vgs hist).tables.length → vs.length ≤ 2) :
    RisingMsgs (graphOf vgs hist).allScopes (readMsgs (graphOf vgs hist).allScopes (bp.runBP env a n d).ftovMsgs) (readMsgs (graphOf vgs hist).allScopes (bp.runBP env a' n d).ftovMsgs) ∧
    ((∀ g ∈ vgs, g.Regular) → (∀ g ∈ vgs, g.Stated) → ∃ bs bs' ms ms' rs rs', ∃ (B B' : Var → Nat → ℝ) (x x' : Var → Nat),
      bp.getBeliefs (bp.runBP env a n d) = .ok bs ∧ bp.getBeliefs (bp.runBP env a' n d) = .ok bs' ∧
      getMarginals env bs = .ok ms ∧ getMarginals env bs' = .ok ms' ∧ ms.map (·.1) = vgs ∧ ms'.map (·.1) = vgs ∧ (∀ p ∈ ms, p.1.HasMarginals B p.2) ∧ (∀ p ∈ ms', p.1.HasMarginals B' p.2) ∧
      decodeMapStates bs = .ok rs ∧ decodeMapStates bs' = .ok rs' ∧ rs.map (·.1) = vgs ∧ rs'.map (·.1) = vgs ∧ (∀ p ∈ rs, ∀ v ∈ p.1.variables, p.1.StateIn v (x v) p.2) ∧
      (∀ p ∈ rs', ∀ v ∈ p.1.variables, p.1.StateIn v (x' v) p.2) ∧
      ∀ v ∈ graphVars vgs, x v ≤ x' v ∧ ∀ k, ∑ s ∈ Finset.range v.n with k ≤ s, gibbs (B v) v.n s ≤ ∑ s ∈ Finset.range v.n with k ≤ s, gibbs (B' v) v.n s) := by
  have hsc := (graphOf vgs hist).factors_scopes a.logPotentials
  have hvars := h.factors_vars a.logPotentials
  have key : RisingMsgs (graphOf vgs hist).allScopes (readMsgs (graphOf vgs hist).allScopes (bp.runBP env a n d).ftovMsgs) (readMsgs (graphOf vgs hist).allScopes (bp.runBP env a' n d).ftovMsgs) := by
    have h1 := h.run_sum_tame hT hbp env hexp hlog hfit a n d hlp hev hm hmod hinit hmild
    have h2 := h.run_sum_tame hT hbp env hexp hlog hfit a' n d hlp' hev' hm' hmod' hinit' hmild'
    have h3 := hF.run (fun F hFm v hv => hE v (hvars F hFm v hv)) (summary_code hT (graphOf vgs hist).tables.length) (h.rowsFit_mem a.logPotentials) (h.rowsFit_mem a'.logPotentials)
      (fun F hF => (hfull F hF).1) (fun F hF => (hfull' F hF).1) (fun F hF => (hfull F hF).2.1) (fun F hF => (hfull' F hF).2.1) (fun f F F' hf hf' => by
        obtain ⟨G, hG, hr⟩ := forall₂_getElem? hF hf
        rw [hf'] at hG
        cases hG
        have m1 := List.mem_of_getElem? hf
        have m2 := List.mem_of_getElem? hf'
        refine hr.through_code (h.rowsFit_mem _ F m1) (h.rowsFit_mem _ F' m2) (hfull F m1).1 (hfull' F' m2).1 (hfull F m1).2.2 (hfull' F' m2).2.2 hT (fun hk => htwo f F.scope ?_ hk)
        rw [← hsc, List.getElem?_map, hf]
        rfl) hmod.damping (by rw [hsc]; exact hM) (by rw [hsc]; exact hrange) n
    rw [hsc] at h3
    intro f i v he
    exact rises_congr (h3 f i v he) (fun s hs => h1 f i v s he hs) (fun s hs => h2 f i v s he hs)
  have l1 := (h.run_read hbp env hfit a d hlp hev n hm).1
  have l2 := (h.run_read hbp env hfit a' d hlp' hev' n hm').1
  refine ⟨key, fun hreg hst => ?_⟩
  obtain ⟨bs, rs, e1, e2, e3, e4⟩ := C35_partial h hbp _ l1 hev hreg hst
  obtain ⟨bs', rs', f1, f2, f3, f4⟩ := C35_partial h hbp _ l2 hev' hreg hst
  obtain ⟨cs, ms, g1, g2, g3, g4⟩ := C36_partial h hbp env hexp hlog _ l1 hev hreg hst
  obtain ⟨cs', ms', k1, k2, k3, k4⟩ := C36_partial h hbp env hexp hlog _ l2 hev' hreg hst
  obtain rfl : cs = bs := by rw [e1] at g1; cases g1; rfl
  obtain rfl : cs' = bs' := by rw [f1] at k1; cases k1; rfl
  have hpos := h.states_pos hst
  let B := beliefOf (graphOf vgs hist).allScopes (readEv st.varsToStarts a.evidence) (readMsgs (graphOf vgs hist).allScopes (bp.runBP env a n d).ftovMsgs)
  let B' := beliefOf (graphOf vgs hist).allScopes (readEv st.varsToStarts a'.evidence) (readMsgs (graphOf vgs hist).allScopes (bp.runBP env a' n d).ftovMsgs)
  have hx : ∀ v ∈ graphVars vgs, IsFirstMax (B v) v.n (argmax ((List.range v.n).map (B v))) := fun v hv => argmax_range _ _ (hpos v hv)
  have hx' : ∀ v ∈ graphVars vgs, IsFirstMax (B' v) v.n (argmax ((List.range v.n).map (B' v))) := fun v hv => argmax_range _ _ (hpos v hv)
  refine ⟨cs, cs', ms, ms', rs, rs', B, B', fun v => argmax ((List.range v.n).map (B v)), fun v => argmax ((List.range v.n).map (B' v)), g1, k1, g2, k2, g3, k3, g4, k4, e2, f2, e3, f3,
    fun p hp v hv => ?_, fun p hp v hv => ?_, fun v hv => ⟨?_, ?_⟩⟩
  · have hpv : p.1 ∈ vgs := by rw [← e3]; exact List.mem_map_of_mem (f := Prod.fst) hp
    exact (e4 p hp).stateIn hv (hx v (mem_graphVars.2 ⟨p.1, hpv, hv⟩))
  · have hpv : p.1 ∈ vgs := by rw [← f3]; exact List.mem_map_of_mem (f := Prod.fst) hp
    exact (f4 p hp).stateIn hv (hx' v (mem_graphVars.2 ⟨p.1, hpv, hv⟩))
  · exact (rises_belief key (hE v hv)).firstMax (hx v hv) (hx' v hv)
  · exact fun k => (rises_belief key (hE v hv)).tail k

/-- **C109, partial, temperature above 0, tables of at most two variables.** The runs of `run_bp` from the lowest and the highest messages converge and bracket those from all others; the probability of
state 1 that `get_marginals` reports for a binary variable rises with every iteration of the lowest run, falls with every iteration of the highest, and is between the two for every other run. If the
limits are the same, the messages of every run converge to them. Missing: tables of three or more variables; the rest as in `C109_partial`. -/
theorem C109_pairs_partial [DecidableEq κ] (h : Compiled vgs hist garbage st) {state : BPState ℝ} {bp : BPFun κ ℝ} {T : ℝ} (hT : 0 < T) (hbp : BP.create st state T = .ok bp) (env : Env ℝ)
    (hexp : env.exp = Real.exp) (hlog : env.log = Real.log) (hfit : Fits env (graphOf vgs hist) T) (lp ev : List ℝ) (d : ℝ) (hlp : lp.length = st.logPotentials.length) (hev : ev.length = st.numVarStates)
    (hmod : Moderate (graphOf vgs hist) lp (readEv st.varsToStarts ev) d)
    (hatt : ∀ F ∈ (graphOf vgs hist).factors lp, F.Rises F ∧ F.Full ∧ (F.rows.map (·.1)).Nodup) (hbin : ∀ f i v, IsEdge (graphOf vgs hist).allScopes f i v → v.n ≤ 2)
    (htwo : ∀ f vs, (graphOf vgs hist).allScopes[f]? = some vs → f < (graphOf vgs hist).tables.length → vs.length ≤ 2) {lo hi : List ℝ}
    (hlol : lo.length = st.totalFactorNumStates) (hlo : IsLowest (graphOf vgs hist).allScopes (readMsgs (graphOf vgs hist).allScopes lo))
    (hhil : hi.length = st.totalFactorNumStates) (hhi : IsHighest (graphOf vgs hist).allScopes (readMsgs (graphOf vgs hist).allScopes hi)) :
    ∃ R : List ℝ → Nat → Msgs ℝ, (∀ m n, R m n = readMsgs (graphOf vgs hist).allScopes (bp.runBP env ⟨lp, m, ev⟩ n d).ftovMsgs) ∧
    ∃ Ok : List ℝ → Prop, (∀ m, Ok m ↔ m.length = st.totalFactorNumStates ∧
      ∀ f i v, IsEdge (graphOf vgs hist).allScopes f i v → ∃ s < v.n, -100000 ≤ readMsgs (graphOf vgs hist).allScopes m f i s) ∧ Ok lo ∧ Ok hi ∧
    (∀ n, RisingMsgs (graphOf vgs hist).allScopes (R lo n) (R lo (n + 1)) ∧ RisingMsgs (graphOf vgs hist).allScopes (R hi (n + 1)) (R hi n)) ∧
    (∀ m, Ok m → ∀ n, RisingMsgs (graphOf vgs hist).allScopes (R lo n) (R m n) ∧ RisingMsgs (graphOf vgs hist).allScopes (R m n) (R hi n)) ∧
    (∃ L H : Msgs ℝ, (∀ f i v s, IsEdge (graphOf vgs hist).allScopes f i v → s < v.n → Tendsto (fun n => R lo n f i s) atTop (𝓝 (L f i s)) ∧ Tendsto (fun n => R hi n f i s) atTop (𝓝 (H f i s))) ∧
      RisingMsgs (graphOf vgs hist).allScopes L H ∧
      (AgreeOn (graphOf vgs hist).allScopes L H → ∀ m, Ok m → ∀ f i v s, IsEdge (graphOf vgs hist).allScopes f i v → s < v.n → Tendsto (fun n => R m n f i s) atTop (𝓝 (L f i s)))) ∧
    ((∀ g ∈ vgs, g.Regular) → (∀ g ∈ vgs, g.Stated) → ∃ B : List ℝ → Nat → Var → Nat → ℝ,
      (∀ m, Ok m → ∀ n, ∃ bs ms, bp.getBeliefs (bp.runBP env ⟨lp, m, ev⟩ n d) = .ok bs ∧ getMarginals env bs = .ok ms ∧ ms.map (·.1) = vgs ∧ ∀ p ∈ ms, p.1.HasMarginals (B m n) p.2) ∧
      ∀ v ∈ graphVars vgs, v.n = 2 → (∀ n, gibbs (B lo n v) 2 1 ≤ gibbs (B lo (n + 1) v) 2 1 ∧ gibbs (B hi (n + 1) v) 2 1 ≤ gibbs (B hi n v) 2 1) ∧
        ∀ m, Ok m → ∀ n, gibbs (B lo n v) 2 1 ≤ gibbs (B m n v) 2 1 ∧ gibbs (B m n v) 2 1 ≤ gibbs (B hi n v) 2 1) := by
  have hsc := (graphOf vgs hist).factors_scopes lp
  have hbin' : ∀ F ∈ (graphOf vgs hist).factors lp, ∀ v ∈ F.scope, v.n ≤ 2 := by
    intro F hF v hv
    obtain ⟨f, hf⟩ := List.mem_iff_getElem?.1 hF
    obtain ⟨i, hi⟩ := List.mem_iff_getElem?.1 hv
    refine hbin f i v ⟨F.scope, ?_, hi⟩
    rw [← hsc, List.getElem?_map, hf]
    rfl
  have hA := attracts_code (fun F hF => ⟨(hatt F hF).1, (hatt F hF).2.1⟩) (h.rowsFit_mem lp) (fun F hF => (hatt F hF).2.2) hbin' hT (k := (graphOf vgs hist).tables.length) (fun f F hf hk =>
    htwo f F.scope (by rw [← hsc, List.getElem?_map, hf]; rfl) hk)
  obtain ⟨k1, k2, k3, L, H, k4, k5, k6, k7, k8, k9⟩ := hA.bracket (ev := readEv st.varsToStarts ev) hmod.damping (edges_two hbin') (by rw [hsc]; exact hlo) (by rw [hsc]; exact hhi)
  simp only [hsc] at k1 k2 k3 k4 k5 k6 k7 k8 k9
  let Ok : List ℝ → Prop := fun m => m.length = st.totalFactorNumStates ∧
      ∀ f i v, IsEdge (graphOf vgs hist).allScopes f i v → ∃ s < v.n, -100000 ≤ readMsgs (graphOf vgs hist).allScopes m f i s
  have hOlo : Ok lo := ⟨hlol, fun f i v he => ⟨0, h.edge_pos he, by rw [hlo f i v 0 he (h.edge_pos he), if_pos rfl]; norm_num⟩⟩
  have hOhi : Ok hi := ⟨hhil, fun f i v he => by
    have hp := h.edge_pos he
    refine ⟨v.n - 1, by omega, ?_⟩
    rw [hhi f i v _ he (by omega), if_pos (by omega)]
    norm_num⟩
  have hread : ∀ m, Ok m → ∀ n, AgreeOn (graphOf vgs hist).allScopes (readMsgs (graphOf vgs hist).allScopes (bp.runBP env ⟨lp, m, ev⟩ n d).ftovMsgs)
      (sumRun (codeSummary (graphOf vgs hist).tables.length T) ((graphOf vgs hist).factors lp) (readEv st.varsToStarts ev) d n (readMsgs (graphOf vgs hist).allScopes m)) := fun m hm n =>
    h.run_sum hT hbp env hexp hlog hfit ⟨lp, m, ev⟩ n d hlp hev hm.1 hmod hm.2
  have r1 : ∀ n, RisingMsgs (graphOf vgs hist).allScopes (readMsgs (graphOf vgs hist).allScopes (bp.runBP env ⟨lp, lo, ev⟩ n d).ftovMsgs)
      (readMsgs (graphOf vgs hist).allScopes (bp.runBP env ⟨lp, lo, ev⟩ (n + 1) d).ftovMsgs) := fun n => (k1 n).congr (hread lo hOlo n) (hread lo hOlo (n + 1))
  have r2 : ∀ n, RisingMsgs (graphOf vgs hist).allScopes (readMsgs (graphOf vgs hist).allScopes (bp.runBP env ⟨lp, hi, ev⟩ (n + 1) d).ftovMsgs)
      (readMsgs (graphOf vgs hist).allScopes (bp.runBP env ⟨lp, hi, ev⟩ n d).ftovMsgs) := fun n => (k2 n).congr (hread hi hOhi (n + 1)) (hread hi hOhi n)
  have r3 : ∀ m, Ok m → ∀ n, RisingMsgs (graphOf vgs hist).allScopes (readMsgs (graphOf vgs hist).allScopes (bp.runBP env ⟨lp, lo, ev⟩ n d).ftovMsgs)
        (readMsgs (graphOf vgs hist).allScopes (bp.runBP env ⟨lp, m, ev⟩ n d).ftovMsgs) ∧
      RisingMsgs (graphOf vgs hist).allScopes (readMsgs (graphOf vgs hist).allScopes (bp.runBP env ⟨lp, m, ev⟩ n d).ftovMsgs)
        (readMsgs (graphOf vgs hist).allScopes (bp.runBP env ⟨lp, hi, ev⟩ n d).ftovMsgs) :=
    fun m hm n => ⟨(k3 _ n).1.congr (hread lo hOlo n) (hread m hm n), (k3 _ n).2.congr (hread m hm n) (hread hi hOhi n)⟩
  refine ⟨_, fun _ _ => rfl, Ok, fun _ => Iff.rfl, hOlo, hOhi, fun n => ⟨r1 n, r2 n⟩, r3, ⟨L, H, fun f i v s he hs => ⟨?_, ?_⟩, (k8 H k7).1, fun heq m hm f i v s he hs => ?_⟩, fun hreg hst => ?_⟩
  · exact (k4 f i v s he hs).congr fun n => (hread lo hOlo n f i v s he hs).symm
  · exact (k5 f i v s he hs).congr fun n => (hread hi hOhi n f i v s he hs).symm
  · exact (k9 heq _ f i v s he hs).congr fun n => (hread m hm n f i v s he hs).symm
  · refine ⟨fun m n => beliefOf (graphOf vgs hist).allScopes (readEv st.varsToStarts ev) (readMsgs (graphOf vgs hist).allScopes (bp.runBP env ⟨lp, m, ev⟩ n d).ftovMsgs), fun m hm n => ?_, fun v hv h2 => ?_⟩
    · exact C36_partial h hbp env hexp hlog _ (h.run_read hbp env hfit ⟨lp, m, ev⟩ d hlp hev n hm.1).1 hev hreg hst
    · have hle : ∀ {m m' : Msgs ℝ}, RisingMsgs (graphOf vgs hist).allScopes m m' →
          gibbs (beliefOf (graphOf vgs hist).allScopes (readEv st.varsToStarts ev) m v) 2 1 ≤ gibbs (beliefOf (graphOf vgs hist).allScopes (readEv st.varsToStarts ev) m' v) 2 1 := fun hr => by
        have := rises_belief hr (ev := readEv st.varsToStarts ev) (ev' := readEv st.varsToStarts ev) (v := v) (fun _ _ _ _ => by simp)
        rw [h2] at this
        exact this.one
      exact ⟨fun n => ⟨hle (r1 n), hle (r2 n)⟩, fun m hm n => ⟨hle (r3 m hm n).1, hle (r3 m hm n).2⟩⟩

end

/-! ## Non-vacuity -/

/-- Non-vacuity of the statement of C109: on the loop `exHistL` with equal states getting 1, damped, at every temperature above 0. -/
example {T : ℝ} (hT : 0 < T) {env : Env ℝ} (hexp : env.exp = Real.exp) (hlog : env.log = Real.log) (hw : env.wrapNeg = false) : ∃ L H : Msgs ℝ,
    ∀ f i v s, IsEdge (graphOf exVars exHistL).allScopes f i v → s < v.n →
    Tendsto (fun n => readMsgs (graphOf exVars exHistL).allScopes ((exBPL T).runBP env ⟨exLpUpL, exLowL, exEvT⟩ n (1 / 4)).ftovMsgs f i s) atTop (𝓝 (L f i s)) ∧
    Tendsto (fun n => readMsgs (graphOf exVars exHistL).allScopes ((exBPL T).runBP env ⟨exLpUpL, exHighL, exEvT⟩ n (1 / 4)).ftovMsgs f i s) atTop (𝓝 (H f i s)) := by
  obtain ⟨R, hR, -, -, -, -, -, -, ⟨L, H, hl, -⟩, -⟩ := C109_pairs_partial exStateL_compiled hT (exBPL_create T) env hexp hlog ⟨.inl hw, fun h => absurd h hT.ne'⟩ exLpUpL exEvT (1 / 4) rfl rfl
    exModerateUpL (fun F hF => ⟨(exAttractsL F hF).1, (exAttractsL F hF).2, by
      have : ∀ F ∈ (graphOf exVars exHistL).factors exLpUpL, (F.rows.map (·.1)).Nodup := by
        rw [exFactorsUpL]
        simp
      exact this F hF⟩) (fun f i v he => (exEdgeL he).2.2.1.le) (by
    intro f vs hf _
    rw [exScopesL] at hf
    have : ∀ vs ∈ [[exVar 0, exVar 1], [exVar 1, exVar 2], [exVar 2, exVar 0]], vs.length ≤ 2 := by simp
    exact this vs (List.mem_of_getElem? hf)) (lo := exLowL) (hi := exHighL) rfl exLowestL rfl exHighestL
  refine ⟨L, H, fun f i v s he hs => ?_⟩
  have := hl f i v s he hs
  simp only [hR] at this
  exact this

/-- Evidence that favours state 1 of the first variable more than `exEvT` does. -/
def exEvUpT : List ℝ := [1, 3, 0, 2, 0, 3]

theorem exModerateUp2 : Moderate (graphOf exVars exHistL) exLpUpL (readEv exStateL.varsToStarts exEvUpT) (1 / 4) := by
  refine moderate_of_bounds (E := 3) (P := 3) (D := 2) (K := 2) (by norm_num) ?_ ?_ (by norm_num) ?_ (by norm_num)
  · intro _ _ v s _ _
    unfold readEv List.getD
    cases e : exEvUpT[(exStateL.varsToStarts v).getD 0 + s]? with
    | none => norm_num
    | some x =>
      have hl : ∀ x ∈ exEvUpT, |x| ≤ 3 := by simp only [exEvUpT, List.forall_mem_cons]; norm_num
      exact hl x (List.mem_of_getElem? e)
  · intro f i v he
    have hd : ∀ vs ∈ [[exVar 0, exVar 1], [exVar 1, exVar 2], [exVar 2, exVar 0]], ∀ v ∈ vs,
      (edgesOf [[exVar 0, exVar 1], [exVar 1, exVar 2], [exVar 2, exVar 0]] v).length ≤ 2 := by decide +kernel
    obtain ⟨vs, h1, h2⟩ := he
    rw [exScopesL] at h1 ⊢
    exact Nat.cast_le_ofNat.2 (hd vs (List.mem_of_getElem? h1) v (List.mem_of_getElem? h2))
  · have e : tableFacs (graphOf exVars exHistL).tables exLpUpL = (graphOf exVars exHistL).factors exLpUpL := rfl
    rw [e, exFactorsUpL]
    simp only [List.forall_mem_cons]
    norm_num

/-- Non-vacuity of the statement of C93: on the same loop, with more evidence for state 1 of the first variable. -/
example {T : ℝ} (hT : 0 < T) {env : Env ℝ} (hexp : env.exp = Real.exp) (hlog : env.log = Real.log) (hw : env.wrapNeg = false) (n : Nat) :
    ∃ bs bs' ms ms', ∃ B B' : Var → Nat → ℝ, (exBPL T).getBeliefs ((exBPL T).runBP env ⟨exLpUpL, List.replicate 12 0, exEvT⟩ n (1 / 4)) = .ok bs ∧
      (exBPL T).getBeliefs ((exBPL T).runBP env ⟨exLpUpL, List.replicate 12 0, exEvUpT⟩ n (1 / 4)) = .ok bs' ∧ getMarginals env bs = .ok ms ∧ getMarginals env bs' = .ok ms' ∧
      (∀ p ∈ ms, p.1.HasMarginals B p.2) ∧ (∀ p ∈ ms', p.1.HasMarginals B' p.2) ∧
      ∀ v ∈ graphVars exVars, ∀ k, ∑ s ∈ Finset.range v.n with k ≤ s, gibbs (B v) v.n s ≤ ∑ s ∈ Finset.range v.n with k ≤ s, gibbs (B' v) v.n s := by
  have hz : ∀ f i s, readMsgs (graphOf exVars exHistL).allScopes (List.replicate 12 (0 : ℝ)) f i s = 0 := fun f i s => by
    unfold readMsgs
    rw [List.getD, List.getElem?_replicate]
    split <;> rfl
  have hin : ∀ f i v, IsEdge (graphOf exVars exHistL).allScopes f i v → ∃ s < v.n, (-100000 : ℝ) ≤ readMsgs (graphOf exVars exHistL).allScopes (List.replicate 12 0) f i s := fun f i v he =>
    ⟨0, by have := (exEdgeL he).2.2.1; omega, by rw [hz]; norm_num⟩
  have hnd : ∀ F ∈ (graphOf exVars exHistL).factors exLpUpL, F.Full ∧ F.Gentle ∧ (F.rows.map (·.1)).Nodup := fun F hF => ⟨(exAttractsL F hF).2, .inl (by
      have : ∀ F ∈ (graphOf exVars exHistL).factors exLpUpL, ∀ v ∈ F.scope, v.n ≤ 2 := by
        rw [exFactorsUpL]
        simp only [List.forall_mem_cons, List.not_mem_nil, false_imp_iff, implies_true, and_true]
        exact ⟨⟨le_rfl, le_rfl⟩, ⟨le_rfl, le_rfl⟩, ⟨le_rfl, le_rfl⟩⟩
      exact this F hF), by
      have : ∀ F ∈ (graphOf exVars exHistL).factors exLpUpL, (F.rows.map (·.1)).Nodup := by
        rw [exFactorsUpL]
        simp
      exact this F hF⟩
  obtain ⟨bs, bs', ms, ms', rs, rs', B, B', x, x', h1, h2, h3, h4, -, -, h5, h6, -, -, -, -, -, -, h7⟩ := (C93_pairs_partial exStateL_compiled hT (exBPL_create T) env hexp hlog
    ⟨.inl hw, fun h => absurd h hT.ne'⟩ ⟨exLpUpL, List.replicate 12 0, exEvT⟩ ⟨exLpUpL, List.replicate 12 0, exEvUpT⟩ n (1 / 4) rfl rfl rfl rfl rfl rfl exModerateUpL.tame exModerateUp2.tame hin hin
    (fun _ _ _ _ => .inl rfl) (fun _ _ _ _ => .inl rfl) (List.forall₂_same.2 fun F hF => (exAttractsL F hF).1) (by
      have hV : graphVars exVars = {exVar 0, exVar 1, exVar 2} := rfl
      rw [hV]
      intro v hv s s' hle hs
      have hn : v.n = 2 := by
        simp only [Finset.mem_insert, Finset.mem_singleton] at hv
        rcases hv with rfl | rfl | rfl <;> rfl
      have hss : s = s' ∨ s = 0 ∧ s' = 1 := by omega
      rcases hss with rfl | ⟨rfl, rfl⟩
      · exact le_rfl
      simp only [Finset.mem_insert, Finset.mem_singleton] at hv
      rcases hv with rfl | rfl | rfl
      · show (1 : ℝ) - 1 ≤ 3 - 0
        norm_num
      · show (0 : ℝ) - 0 ≤ 2 - 2
        norm_num
      · show (0 : ℝ) - 0 ≤ 3 - 3
        norm_num) (fun f i v he s s' hle hs => by simp) (fun f i v he => .inl (exEdgeL he).2.2.1.le) hnd hnd (by
    intro f vs hf _
    rw [exScopesL] at hf
    have : ∀ vs ∈ [[exVar 0, exVar 1], [exVar 1, exVar 2], [exVar 2, exVar 0]], vs.length ≤ 2 := by simp
    exact this vs (List.mem_of_getElem? hf))).2 exStatedT.1 exStatedT.2
  exact ⟨bs, bs', ms, ms', B, B', h1, h2, h3, h4, h5, h6, fun v hv => (h7 v hv).2⟩

end PGMax
