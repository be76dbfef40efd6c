import Verif.Lemmas.Rising
import Verif.Props.C60
import Verif.Props.C93

/-! # C109: in attractive models of binary variables the runs from the extreme messages converge and bracket every run -/

namespace PGMax

open Filter Topology

theorem attracts_max {factors : List (SFac ℝ)} (hatt : ∀ F ∈ factors, F.Rises F ∧ F.Full) (hrow : ∀ F ∈ factors, ∀ r ∈ F.rows, List.Forall₂ (fun s (v : Var) => s < v.n) r.1 F.scope)
    (hbin : ∀ F ∈ factors, ∀ v ∈ F.scope, v.n ≤ 2) : Attracts (fun _ => maxOf 0) factors where
  rises := List.forall₂_same.2 fun F hF => (hatt F hF).1
  summary := fun _ => summary_max
  rows := hrow
  full := fun F hF => (hatt F hF).2
  gentle := fun F hF => .inl (hbin F hF)
  through := fun f F hF => by
    have hm := List.mem_of_getElem? hF
    exact (hatt F hm).1.through_max (hrow F hm) (hrow F hm) (hatt F hm).2 (hatt F hm).2

theorem attracts_lse {factors : List (SFac ℝ)} (hatt : ∀ F ∈ factors, F.Rises F ∧ F.Full) (hrow : ∀ F ∈ factors, ∀ r ∈ F.rows, List.Forall₂ (fun s (v : Var) => s < v.n) r.1 F.scope)
    (hnd : ∀ F ∈ factors, (F.rows.map (·.1)).Nodup) (hbin : ∀ F ∈ factors, ∀ v ∈ F.scope, v.n ≤ 2) {T : ℝ} (hT : 0 < T) : Attracts (fun _ => lse T) factors where
  rises := List.forall₂_same.2 fun F hF => (hatt F hF).1
  summary := fun _ => summary_lse hT
  rows := hrow
  full := fun F hF => (hatt F hF).2
  gentle := fun F hF => .inl (hbin F hF)
  through := fun f F hF => by
    have hm := List.mem_of_getElem? hF
    exact (hatt F hm).1.through_lse (hrow F hm) (hrow F hm) (hatt F hm).2 (hatt F hm).2 (hnd F hm) (hnd F hm) hT

theorem tbStep_sumStep (factors : List (SFac ℝ)) (ev : Var → Nat → ℝ) (d : ℝ) (m : Msgs ℝ) : tbStep factors ev d m = sumStep (fun _ => maxOf 0) factors ev d m := by
  funext f i
  unfold tbStep sumStep
  cases factors[f]? with
  | none => rfl
  | some F =>
    simp only
    cases F.scope[i]? with
    | none => rfl
    | some v => simp only [tbOut_eq, sumOut]

theorem edges_two {factors : List (SFac ℝ)} (hbin : ∀ F ∈ factors, ∀ v ∈ F.scope, v.n ≤ 2) : ∀ f i v, IsEdge (factors.map (·.scope)) f i v → v.n ≤ 2 := by
  intro f i v he
  obtain ⟨F, hF, hi⟩ := isEdge_factors he
  exact hbin F (List.mem_of_getElem? hF) v (List.mem_of_getElem? hi)

/-- **C109, textbook sum-product.** Attractive tables on binary variables, in which every state occurs and no configuration twice; loops are allowed. From the lowest messages every iteration raises
the messages, from the highest it lowers them, and the messages from any others stay between. Both runs converge, to messages at rest between which all messages at rest lie; if the two limits are the
same, every run converges to them. -/
theorem C109_sum_textbook {factors : List (SFac ℝ)} (hatt : ∀ F ∈ factors, F.Rises F ∧ F.Full) (hrow : ∀ F ∈ factors, ∀ r ∈ F.rows, List.Forall₂ (fun s (v : Var) => s < v.n) r.1 F.scope)
    (hnd : ∀ F ∈ factors, (F.rows.map (·.1)).Nodup) (hbin : ∀ F ∈ factors, ∀ v ∈ F.scope, v.n ≤ 2) {T : ℝ} (hT : 0 < T) {ev : Var → Nat → ℝ} {d : ℝ} (hd : 0 ≤ d ∧ d ≤ 1) {lo hi : Msgs ℝ}
    (hlo : IsLowest (factors.map (·.scope)) lo) (hhi : IsHighest (factors.map (·.scope)) hi) :
    (∀ n, RisingMsgs (factors.map (·.scope)) (sumRun (fun _ => lse T) factors ev d n lo) (sumRun (fun _ => lse T) factors ev d (n + 1) lo)) ∧
    (∀ n, RisingMsgs (factors.map (·.scope)) (sumRun (fun _ => lse T) factors ev d (n + 1) hi) (sumRun (fun _ => lse T) factors ev d n hi)) ∧
    (∀ m n, RisingMsgs (factors.map (·.scope)) (sumRun (fun _ => lse T) factors ev d n lo) (sumRun (fun _ => lse T) factors ev d n m) ∧
      RisingMsgs (factors.map (·.scope)) (sumRun (fun _ => lse T) factors ev d n m) (sumRun (fun _ => lse T) factors ev d n hi)) ∧
    ∃ L H : Msgs ℝ, (∀ f i v s, IsEdge (factors.map (·.scope)) f i v → s < v.n → Tendsto (fun n => sumRun (fun _ => lse T) factors ev d n lo f i s) atTop (𝓝 (L f i s))) ∧
      (∀ f i v s, IsEdge (factors.map (·.scope)) f i v → s < v.n → Tendsto (fun n => sumRun (fun _ => lse T) factors ev d n hi f i s) atTop (𝓝 (H f i s))) ∧
      AgreeOn (factors.map (·.scope)) (sumStep (fun _ => lse T) factors ev d L) L ∧ AgreeOn (factors.map (·.scope)) (sumStep (fun _ => lse T) factors ev d H) H ∧
      (∀ m, AgreeOn (factors.map (·.scope)) (sumStep (fun _ => lse T) factors ev d m) m → RisingMsgs (factors.map (·.scope)) L m ∧ RisingMsgs (factors.map (·.scope)) m H) ∧
      (AgreeOn (factors.map (·.scope)) L H → ∀ m f i v s, IsEdge (factors.map (·.scope)) f i v → s < v.n → Tendsto (fun n => sumRun (fun _ => lse T) factors ev d n m f i s) atTop (𝓝 (L f i s))) :=
  (attracts_lse hatt hrow hnd hbin hT).bracket hd (edges_two hbin) hlo hhi

section
variable {κ : Type _} {vgs : List (VGroup κ)} {hist : List (AddArg ℝ)} {garbage : Garbage} {st : FGState κ ℝ}

/-- **C109, partial.** A graph of attractive tables on binary variables, in which every state occurs; loops are allowed. Run `run_bp` at temperature 0 from the lowest messages (0 for state 0, -1000 for
state 1), from the highest, and from any others.
* From the lowest messages every iteration raises the messages, from the highest it lowers them, and the messages of every run stay between.
* Both runs converge, to messages at rest between which all messages at rest lie; if the two limits are the same, every run converges to them.
* The decoded states of the lowest run never fall, those of the highest never rise, and those of every run are between: once the lowest and the highest run decode the same state for a variable,
  every run decodes this state for it, from this iteration on.
Missing: tables in which a state does not occur; variables of more than two states; numbers that are not `Moderate`; the size limits `Fits`; for temperatures above 0 see `C109_sum_textbook` and `C109_pairs_partial`. -/
theorem C109_partial [DecidableEq κ] (h : Compiled vgs hist garbage st) {state : BPState ℝ} {bp : BPFun κ ℝ} (hbp : BP.create st state 0 = .ok bp) (env : Env ℝ)
    (hfit : Fits env (graphOf vgs hist) (0 : ℝ)) (lp ev : List ℝ) (d : ℝ) (hlp : lp.length = st.logPotentials.length) (hev : ev.length = st.numVarStates)
    (hmod : Moderate (graphOf vgs hist) lp (readEv st.varsToStarts ev) d) (hlmod : LogicalModerate (graphOf vgs hist) (readEv st.varsToStarts ev))
    (hatt : ∀ F ∈ (graphOf vgs hist).factors lp, F.Rises F ∧ F.Full) (hbin : ∀ f i v, IsEdge (graphOf vgs hist).allScopes f i v → v.n ≤ 2) {lo hi : List ℝ}
    (hlol : lo.length = st.totalFactorNumStates) (hlo : IsLowest (graphOf vgs hist).allScopes (readMsgs (graphOf vgs hist).allScopes lo))
    (hhil : hi.length = st.totalFactorNumStates) (hhi : IsHighest (graphOf vgs hist).allScopes (readMsgs (graphOf vgs hist).allScopes hi)) :
    ∃ R : List ℝ → Nat → Msgs ℝ, (∀ m n, R m n = readMsgs (graphOf vgs hist).allScopes (bp.runBP env ⟨lp, m, ev⟩ n d).ftovMsgs) ∧
    ∃ Ok : List ℝ → Prop, (∀ m, Ok m ↔ m.length = st.totalFactorNumStates ∧
      ∀ f i v, IsEdge (graphOf vgs hist).allScopes f i v → ∃ s < v.n, -100000 ≤ readMsgs (graphOf vgs hist).allScopes m f i s) ∧ Ok lo ∧ Ok hi ∧
    (∀ n, RisingMsgs (graphOf vgs hist).allScopes (R lo n) (R lo (n + 1)) ∧ RisingMsgs (graphOf vgs hist).allScopes (R hi (n + 1)) (R hi n)) ∧
    (∀ m, Ok m → ∀ n, RisingMsgs (graphOf vgs hist).allScopes (R lo n) (R m n) ∧ RisingMsgs (graphOf vgs hist).allScopes (R m n) (R hi n)) ∧
    (∃ L H : Msgs ℝ, (∀ f i v s, IsEdge (graphOf vgs hist).allScopes f i v → s < v.n → Tendsto (fun n => R lo n f i s) atTop (𝓝 (L f i s)) ∧ Tendsto (fun n => R hi n f i s) atTop (𝓝 (H f i s))) ∧
      AgreeOn (graphOf vgs hist).allScopes (tbStep ((graphOf vgs hist).factors lp) (readEv st.varsToStarts ev) d L) L ∧
      AgreeOn (graphOf vgs hist).allScopes (tbStep ((graphOf vgs hist).factors lp) (readEv st.varsToStarts ev) d H) H ∧
      (∀ m, AgreeOn (graphOf vgs hist).allScopes (tbStep ((graphOf vgs hist).factors lp) (readEv st.varsToStarts ev) d m) m →
        RisingMsgs (graphOf vgs hist).allScopes L m ∧ RisingMsgs (graphOf vgs hist).allScopes m H) ∧
      (AgreeOn (graphOf vgs hist).allScopes L H → ∀ m, Ok m → ∀ f i v s, IsEdge (graphOf vgs hist).allScopes f i v → s < v.n → Tendsto (fun n => R m n f i s) atTop (𝓝 (L f i s)))) ∧
    ((∀ g ∈ vgs, g.Regular) → (∀ g ∈ vgs, g.Stated) → ∃ x : List ℝ → Nat → Var → Nat,
      (∀ m, Ok m → ∀ n, ∃ bs rs, bp.getBeliefs (bp.runBP env ⟨lp, m, ev⟩ n d) = .ok bs ∧ decodeMapStates bs = .ok rs ∧ rs.map (·.1) = vgs ∧ ∀ p ∈ rs, ∀ v ∈ p.1.variables, p.1.StateIn v (x m n v) p.2) ∧
      ∀ v ∈ graphVars vgs, (∀ n, x lo n v ≤ x lo (n + 1) v ∧ x hi (n + 1) v ≤ x hi n v) ∧ (∀ m, Ok m → ∀ n, x lo n v ≤ x m n v ∧ x m n v ≤ x hi n v) ∧
        ∀ n, x lo n v = x hi n v → ∀ m, Ok m → ∀ n' ≥ n, x m n' v = x lo n v) := by
  have hsc := (graphOf vgs hist).factors_scopes lp
  have hbin' : ∀ F ∈ (graphOf vgs hist).factors lp, ∀ v ∈ F.scope, v.n ≤ 2 := by
    intro F hF v hv
    obtain ⟨f, hf⟩ := List.mem_iff_getElem?.1 hF
    obtain ⟨i, hi⟩ := List.mem_iff_getElem?.1 hv
    refine hbin f i v ⟨F.scope, ?_, hi⟩
    rw [← hsc, List.getElem?_map, hf]
    rfl
  have hA := attracts_max hatt (h.rowsFit_mem lp) hbin'
  obtain ⟨k1, k2, k3, L, H, k4, k5, k6, k7, k8, k9⟩ := hA.bracket (ev := readEv st.varsToStarts ev) hmod.damping (edges_two hbin') (by rw [hsc]; exact hlo) (by rw [hsc]; exact hhi)
  have hstep : ∀ m, sumStep (fun _ => maxOf 0) ((graphOf vgs hist).factors lp) (readEv st.varsToStarts ev) d m = tbStep ((graphOf vgs hist).factors lp) (readEv st.varsToStarts ev) d m :=
    fun m => (tbStep_sumStep _ _ _ _).symm
  simp only [hsc, hstep] at k1 k2 k3 k4 k5 k6 k7 k8 k9
  let Ok : List ℝ → Prop := fun m => m.length = st.totalFactorNumStates ∧
      ∀ f i v, IsEdge (graphOf vgs hist).allScopes f i v → ∃ s < v.n, -100000 ≤ readMsgs (graphOf vgs hist).allScopes m f i s
  have hOlo : Ok lo := ⟨hlol, fun f i v he => ⟨0, h.edge_pos he, by rw [hlo f i v 0 he (h.edge_pos he), if_pos rfl]; norm_num⟩⟩
  have hOhi : Ok hi := ⟨hhil, fun f i v he => by
    have hp := h.edge_pos he
    refine ⟨v.n - 1, by omega, ?_⟩
    rw [hhi f i v _ he (by omega), if_pos (by omega)]
    norm_num⟩
  have hread : ∀ m, Ok m → ∀ n, AgreeOn (graphOf vgs hist).allScopes (readMsgs (graphOf vgs hist).allScopes (bp.runBP env ⟨lp, m, ev⟩ n d).ftovMsgs)
      (sumRun (fun _ => maxOf 0) ((graphOf vgs hist).factors lp) (readEv st.varsToStarts ev) d n (readMsgs (graphOf vgs hist).allScopes m)) := by
    intro m hm n
    rw [← tbRun_sumRun]
    exact C37_partial h hbp env hfit ⟨lp, m, ev⟩ n d hlp hev hm.1 hmod hlmod hm.2
  have r1 : ∀ n, RisingMsgs (graphOf vgs hist).allScopes (readMsgs (graphOf vgs hist).allScopes (bp.runBP env ⟨lp, lo, ev⟩ n d).ftovMsgs)
      (readMsgs (graphOf vgs hist).allScopes (bp.runBP env ⟨lp, lo, ev⟩ (n + 1) d).ftovMsgs) := fun n => (k1 n).congr (hread lo hOlo n) (hread lo hOlo (n + 1))
  have r2 : ∀ n, RisingMsgs (graphOf vgs hist).allScopes (readMsgs (graphOf vgs hist).allScopes (bp.runBP env ⟨lp, hi, ev⟩ (n + 1) d).ftovMsgs)
      (readMsgs (graphOf vgs hist).allScopes (bp.runBP env ⟨lp, hi, ev⟩ n d).ftovMsgs) := fun n => (k2 n).congr (hread hi hOhi (n + 1)) (hread hi hOhi n)
  have r3 : ∀ m, Ok m → ∀ n, RisingMsgs (graphOf vgs hist).allScopes (readMsgs (graphOf vgs hist).allScopes (bp.runBP env ⟨lp, lo, ev⟩ n d).ftovMsgs)
        (readMsgs (graphOf vgs hist).allScopes (bp.runBP env ⟨lp, m, ev⟩ n d).ftovMsgs) ∧
      RisingMsgs (graphOf vgs hist).allScopes (readMsgs (graphOf vgs hist).allScopes (bp.runBP env ⟨lp, m, ev⟩ n d).ftovMsgs)
        (readMsgs (graphOf vgs hist).allScopes (bp.runBP env ⟨lp, hi, ev⟩ n d).ftovMsgs) :=
    fun m hm n => ⟨(k3 _ n).1.congr (hread lo hOlo n) (hread m hm n), (k3 _ n).2.congr (hread m hm n) (hread hi hOhi n)⟩
  refine ⟨_, fun _ _ => rfl, Ok, fun _ => Iff.rfl, hOlo, hOhi, fun n => ⟨r1 n, r2 n⟩, r3, ⟨L, H, fun f i v s he hs => ⟨?_, ?_⟩, k6, k7, k8, fun heq m hm f i v s he hs => ?_⟩, fun hreg hst => ?_⟩
  · exact (k4 f i v s he hs).congr fun n => (hread lo hOlo n f i v s he hs).symm
  · exact (k5 f i v s he hs).congr fun n => (hread hi hOhi n f i v s he hs).symm
  · exact (k9 heq _ f i v s he hs).congr fun n => (hread m hm n f i v s he hs).symm
  · have hpos := h.states_pos hst
    let B : List ℝ → Nat → Var → Nat → ℝ := fun m n => beliefOf (graphOf vgs hist).allScopes (readEv st.varsToStarts ev) (readMsgs (graphOf vgs hist).allScopes (bp.runBP env ⟨lp, m, ev⟩ n d).ftovMsgs)
    let x : List ℝ → Nat → Var → Nat := fun m n v => argmax ((List.range v.n).map (B m n v))
    have hx : ∀ m n, ∀ v ∈ graphVars vgs, IsFirstMax (B m n v) v.n (x m n v) := fun m n v hv => argmax_range _ _ (hpos v hv)
    have hle : ∀ m n m' n', RisingMsgs (graphOf vgs hist).allScopes (readMsgs (graphOf vgs hist).allScopes (bp.runBP env ⟨lp, m, ev⟩ n d).ftovMsgs)
        (readMsgs (graphOf vgs hist).allScopes (bp.runBP env ⟨lp, m', ev⟩ n' d).ftovMsgs) → ∀ v ∈ graphVars vgs, x m n v ≤ x m' n' v := fun m n m' n' hr v hv =>
      (rises_belief hr (fun _ _ _ _ => by simp)).firstMax (hx m n v hv) (hx m' n' v hv)
    refine ⟨x, fun m hm n => ?_, fun v hv => ?_⟩
    · have l1 := (h.run_read hbp env hfit ⟨lp, m, ev⟩ d hlp hev n hm.1).1
      obtain ⟨bs, rs, e1, e2, e3, e4⟩ := C35_partial h hbp _ l1 hev hreg hst
      refine ⟨bs, rs, e1, e2, e3, fun p hp v hv => ?_⟩
      have hpv : p.1 ∈ vgs := by rw [← e3]; exact List.mem_map_of_mem (f := Prod.fst) hp
      exact (e4 p hp).stateIn hv (hx m n v (mem_graphVars.2 ⟨p.1, hpv, hv⟩))
    · have s1 : ∀ n, x lo n v ≤ x lo (n + 1) v ∧ x hi (n + 1) v ≤ x hi n v := fun n => ⟨hle _ _ _ _ (r1 n) v hv, hle _ _ _ _ (r2 n) v hv⟩
      have s2 : ∀ m, Ok m → ∀ n, x lo n v ≤ x m n v ∧ x m n v ≤ x hi n v := fun m hm n => ⟨hle _ _ _ _ (r3 m hm n).1 v hv, hle _ _ _ _ (r3 m hm n).2 v hv⟩
      refine ⟨s1, s2, fun n hn m hm n' hn' => ?_⟩
      have m1 : Monotone (fun n => x lo n v) := monotone_nat_of_le_succ fun n => (s1 n).1
      have m2 : Antitone (fun n => x hi n v) := antitone_nat_of_succ_le fun n => (s1 n).2
      have t1 : x lo n v ≤ x lo n' v := m1 hn'
      have t2 : x hi n' v ≤ x hi n v := m2 hn'
      have t3 := s2 m hm n'
      omega

end

/-! ## Non-vacuity -/

/-- Equal states get 1: log potentials of the loop `exHistL`. -/
def exLpUpL : List ℝ := [1, 0, 0, 1, 1, 0, 0, 1, 1, 0, 0, 1]

theorem exFactorsUpL : (graphOf exVars exHistL).factors exLpUpL = [⟨[exVar 0, exVar 1], [([0, 0], 1), ([0, 1], 0), ([1, 0], 0), ([1, 1], 1)]⟩,
    ⟨[exVar 1, exVar 2], [([0, 0], 1), ([0, 1], 0), ([1, 0], 0), ([1, 1], 1)]⟩, ⟨[exVar 2, exVar 0], [([0, 0], 1), ([0, 1], 0), ([1, 0], 0), ([1, 1], 1)]⟩] := rfl

theorem exModerateUpL : Moderate (graphOf exVars exHistL) exLpUpL (readEv exStateL.varsToStarts exEvT) (1 / 4) := by
  refine moderate_of_bounds (E := 3) (P := 3) (D := 2) (K := 2) (by norm_num) ?_ ?_ (by norm_num) ?_ (by norm_num)
  · intro _ _ v s _ _
    unfold readEv List.getD
    cases e : exEvT[(exStateL.varsToStarts v).getD 0 + s]? with
    | none => norm_num
    | some x =>
      have hl : ∀ x ∈ exEvT, |x| ≤ 3 := by simp only [exEvT, List.forall_mem_cons]; norm_num
      exact hl x (List.mem_of_getElem? e)
  · intro f i v he
    have hd : ∀ vs ∈ [[exVar 0, exVar 1], [exVar 1, exVar 2], [exVar 2, exVar 0]], ∀ v ∈ vs,
      (edgesOf [[exVar 0, exVar 1], [exVar 1, exVar 2], [exVar 2, exVar 0]] v).length ≤ 2 := by decide +kernel
    obtain ⟨vs, h1, h2⟩ := he
    rw [exScopesL] at h1 ⊢
    exact Nat.cast_le_ofNat.2 (hd vs (List.mem_of_getElem? h1) v (List.mem_of_getElem? h2))
  · have e : tableFacs (graphOf exVars exHistL).tables exLpUpL = (graphOf exVars exHistL).factors exLpUpL := rfl
    rw [e, exFactorsUpL]
    simp only [List.forall_mem_cons]
    norm_num

/-- A table of two binary variables in which equal states get 1 is attractive. -/
theorem exRisesUp {v w : Var} (hv : v.n = 2) (hw : w.n = 2) :
    SFac.Rises (⟨[v, w], [([0, 0], 1), ([0, 1], 0), ([1, 0], 0), ([1, 1], 1)]⟩ : SFac ℝ) ⟨[v, w], [([0, 0], 1), ([0, 1], 0), ([1, 0], 0), ([1, 1], 1)]⟩ ∧
    (⟨[v, w], [([0, 0], 1), ([0, 1], 0), ([1, 0], 0), ([1, 1], 1)]⟩ : SFac ℝ).Full := by
  constructor
  · refine ⟨rfl, ?_⟩
    simp only [List.forall_mem_cons, List.not_mem_nil, false_imp_iff, implies_true, and_true, List.exists_mem_cons_iff, false_and, exists_false, or_false]
    simp
  · intro i u s hi hs
    match i, hi with
    | 0, hi =>
      cases hi
      have : s = 0 ∨ s = 1 := by omega
      rcases this with rfl | rfl <;> simp [SFac.rowsAt]
    | 1, hi =>
      cases hi
      have : s = 0 ∨ s = 1 := by omega
      rcases this with rfl | rfl <;> simp [SFac.rowsAt]

theorem exAttractsL : ∀ F ∈ (graphOf exVars exHistL).factors exLpUpL, F.Rises F ∧ F.Full := by
  rw [exFactorsUpL]
  simp only [List.forall_mem_cons, List.not_mem_nil, false_imp_iff, implies_true, and_true]
  exact ⟨exRisesUp rfl rfl, exRisesUp rfl rfl, exRisesUp rfl rfl⟩

/-- The lowest and the highest messages. -/
def exLowL : List ℝ := [0, -1000, 0, -1000, 0, -1000, 0, -1000, 0, -1000, 0, -1000]
/-- See above. -/
def exHighL : List ℝ := [-1000, 0, -1000, 0, -1000, 0, -1000, 0, -1000, 0, -1000, 0]

theorem exEdgeL {f i : Nat} {v : Var} (he : IsEdge (graphOf exVars exHistL).allScopes f i v) : f < 3 ∧ i < 2 ∧ v.n = 2 ∧ edgeStart (graphOf exVars exHistL).allScopes f i = 4 * f + 2 * i := by
  rw [exScopesL] at he ⊢
  obtain ⟨vs, h1, h2⟩ := he
  match f, h1 with
  | 0, h1 =>
    cases h1
    match i, h2 with
    | 0, h2 => cases h2; decide +kernel
    | 1, h2 => cases h2; decide +kernel
  | 1, h1 =>
    cases h1
    match i, h2 with
    | 0, h2 => cases h2; decide +kernel
    | 1, h2 => cases h2; decide +kernel
  | 2, h1 =>
    cases h1
    match i, h2 with
    | 0, h2 => cases h2; decide +kernel
    | 1, h2 => cases h2; decide +kernel

theorem exLowestL : IsLowest (graphOf exVars exHistL).allScopes (readMsgs (graphOf exVars exHistL).allScopes exLowL) := by
  intro f i v s he hs
  obtain ⟨h1, h2, h3, h4⟩ := exEdgeL he
  rw [h3] at hs
  unfold readMsgs
  rw [h4]
  interval_cases f <;> interval_cases i <;> interval_cases s <;> rfl

theorem exHighestL : IsHighest (graphOf exVars exHistL).allScopes (readMsgs (graphOf exVars exHistL).allScopes exHighL) := by
  intro f i v s he hs
  obtain ⟨h1, h2, h3, h4⟩ := exEdgeL he
  rw [h3] at hs ⊢
  unfold readMsgs
  rw [h4]
  interval_cases f <;> interval_cases i <;> interval_cases s <;> rfl

/-- Non-vacuity of C109: on the loop `exHistL` with equal states getting 1, damped. -/
example {env : Env ℝ} (hw : env.wrapNeg = false) : ∃ L H : Msgs ℝ, ∀ f i v s, IsEdge (graphOf exVars exHistL).allScopes f i v → s < v.n →
    Tendsto (fun n => readMsgs (graphOf exVars exHistL).allScopes ((exBPL 0).runBP env ⟨exLpUpL, exLowL, exEvT⟩ n (1 / 4)).ftovMsgs f i s) atTop (𝓝 (L f i s)) ∧
    Tendsto (fun n => readMsgs (graphOf exVars exHistL).allScopes ((exBPL 0).runBP env ⟨exLpUpL, exHighL, exEvT⟩ n (1 / 4)).ftovMsgs f i s) atTop (𝓝 (H f i s)) := by
  obtain ⟨R, hR, -, -, -, -, -, -, ⟨L, H, hl, -⟩, -⟩ := C109_partial exStateL_compiled (exBPL_create 0) env ⟨.inl hw, fun _ => by decide +kernel⟩ exLpUpL exEvT (1 / 4) rfl rfl exModerateUpL (by
    intro f vs hvs hf
    have h1 := (List.getElem?_eq_some_iff.1 hvs).1
    have h2 : (graphOf exVars exHistL).allScopes.length = (graphOf exVars exHistL).tables.length := rfl
    omega) exAttractsL (fun f i v he => (exEdgeL he).2.2.1.le) (lo := exLowL) (hi := exHighL) rfl exLowestL rfl exHighestL
  refine ⟨L, H, fun f i v s he hs => ?_⟩
  have := hl f i v s he hs
  simp only [hR] at this
  exact this

/-- Non-vacuity of the textbook statement: the same loop. -/
example {T : ℝ} (hT : 0 < T) {ev : Var → Nat → ℝ} {lo hi : Msgs ℝ} (hlo : IsLowest (graphOf exVars exHistL).allScopes lo) (hhi : IsHighest (graphOf exVars exHistL).allScopes hi) (n : Nat) :
    RisingMsgs (graphOf exVars exHistL).allScopes (sumRun (fun _ => lse T) ((graphOf exVars exHistL).factors exLpUpL) ev 0 n lo) (sumRun (fun _ => lse T) ((graphOf exVars exHistL).factors exLpUpL) ev 0 n hi) := by
  have hsc := (graphOf exVars exHistL).factors_scopes exLpUpL
  have := ((C109_sum_textbook exAttractsL (exStateL_compiled.rowsFit_mem _) (by
    rw [exFactorsUpL]
    simp) (by
    rw [exFactorsUpL]
    simp only [List.forall_mem_cons, List.not_mem_nil, false_imp_iff, implies_true, and_true]
    exact ⟨⟨le_rfl, le_rfl⟩, ⟨le_rfl, le_rfl⟩, ⟨le_rfl, le_rfl⟩⟩) hT (ev := ev) (d := 0) (by norm_num) (by rw [hsc]; exact hlo) (by rw [hsc]; exact hhi)).2.2.1 hi n).1
  rwa [hsc] at this

end PGMax
