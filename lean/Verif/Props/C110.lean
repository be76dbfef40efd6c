import Verif.Lemmas.Persist
import Verif.Lemmas.RbmRun
import Verif.Props.C82
import Verif.Props.C84
import Verif.Props.C109

/-! # C110: in attractive models of binary variables the lowest and the highest run bracket a best joint assignment -/

namespace PGMax

/-- **C110, textbook.** Complete attractive tables with a range of at most 1000 on binary variables; loops are allowed. After any number of iterations of max-product from the lowest messages, a
variable that is in state 0 in some best joint assignment prefers state 0, or neither. From the highest messages there is a best joint assignment, the same for all variables and all numbers of
iterations, such that every variable that has state 1 in it prefers state 1. -/
theorem C110_textbook {α : Type _} [Field α] [LinearOrder α] [IsStrictOrderedRing α] {vars : Finset Var} {factors : List (SFac α)} (hatt : ∀ F ∈ factors, F.Rises F ∧ F.Complete ∧ F.Within 1000)
    (hrow : ∀ F ∈ factors, ∀ r ∈ F.rows, List.Forall₂ (fun s (v : Var) => s < v.n) r.1 F.scope) (hin : ∀ F ∈ factors, ∀ v ∈ F.scope, v ∈ vars) (hbin : ∀ v ∈ vars, 0 < v.n ∧ v.n ≤ 2)
    {ev : Var → Nat → α} {d : α} (hd : 0 ≤ d ∧ d ≤ 1) {lo hi : Msgs α} (hlo : IsLowest (factors.map (·.scope)) lo) (hhi : IsHighest (factors.map (·.scope)) hi) :
    (∀ x ρ, IsMAP vars factors ev x ρ → ∀ v ∈ vars, x v = 0 → v.n = 2 → ∀ n,
      beliefOf (factors.map (·.scope)) ev (tbRun factors ev d n lo) v 1 ≤ beliefOf (factors.map (·.scope)) ev (tbRun factors ev d n lo) v 0) ∧
    ∃ x ρ, IsMAP vars factors ev x ρ ∧ ∀ v ∈ vars, x v = 1 → ∀ n,
      beliefOf (factors.map (·.scope)) ev (tbRun factors ev d n hi) v 0 < beliefOf (factors.map (·.scope)) ev (tbRun factors ev d n hi) v 1 := by
  have hP : ∀ x ρ, Joint vars factors x ρ → ∀ β < 2, Persists vars factors x β := fun x ρ hJ β hβ =>
    ⟨fun F hF => (hatt F hF).1, fun F hF => (hatt F hF).2.1, fun F hF => (hatt F hF).2.2, hrow, hin, fun v hv => (hbin v hv).2, hJ.states, hβ⟩
  constructor
  · intro x ρ hx v hv hv0 hn n
    have hC : CanRaise x 1 v := ⟨by rw [hv0]; exact zero_ne_one, by rw [hn]; exact one_lt_two⟩
    have := persist (hP x ρ hx.1 1 one_lt_two) hx hd (m := lo) (fun f i w he hC => ?_) n hv hC
    · rwa [hv0] at this
    · obtain ⟨F, hF, hi⟩ := edge_fac he
      have hw := hin F (List.mem_of_getElem? hF) w (List.mem_of_getElem? hi)
      have h1 := (hbin w hw).2
      have h2 := hx.1.states w hw
      have h3 := hC.1
      have h4 : x w = 0 := by omega
      rw [h4, hlo f i w 1 he hC.2, hlo f i w 0 he (by omega), if_neg one_ne_zero, if_pos rfl, sub_zero]
  · obtain ⟨x, ρ, hx, hmin⟩ := exists_least_map (ev := ev) (fun F hF => (hatt F hF).2.1) hin fun v hv => (hbin v hv).1
    refine ⟨x, ρ, hx, fun v hv hv1 n => ?_⟩
    have hC : CanRaise x 0 v := ⟨by rw [hv1]; exact one_ne_zero, (hbin v hv).1⟩
    have := persist_strict (hP x ρ hx.1 0 two_pos) hx (fun x' ρ' hJ h1 h2 => ?_) hd (m := hi) (fun f i w he hC => ?_) n hv hC
    · rwa [hv1] at this
    · refine lt_of_le_of_ne (hx.2 x' ρ' hJ) fun e => ?_
      have h3 := hmin x' ρ' ⟨hJ, fun x'' ρ'' hJ' => by rw [e]; exact hx.2 x'' ρ'' hJ'⟩
      obtain ⟨w, hw, hne⟩ := h2
      have h4 : ∑ v ∈ vars, x' v < ∑ v ∈ vars, x v := Finset.sum_lt_sum (fun v hv => by
        rcases h1 v hv with h | h <;> omega) ⟨w, hw, by
        rcases h1 w hw with h | h <;> omega⟩
      omega
    · obtain ⟨F, hF, hi'⟩ := edge_fac he
      have hw := hin F (List.mem_of_getElem? hF) w (List.mem_of_getElem? hi')
      have h1 := (hbin w hw).2
      have h2 := hx.1.states w hw
      have h3 := hC.1
      have h4 : x w = 1 := by omega
      rw [h4, hhi f i w 0 he hC.2, hhi f i w 1 he (by omega), if_neg (by omega), if_pos (by omega), sub_zero]

section
variable {κ α : Type _} {vgs : List (VGroup κ)} {hist : List (AddArg α)} {garbage : Garbage} {st : FGState κ α}

/-- **C110, partial.** A graph of attractive complete tables with ranges of at most 1000 on binary variables; loops are allowed. Run `run_bp` at temperature 0 from the lowest messages (0 for state 0,
-1000 for state 1) and from the highest, for any numbers of iterations and with any damping, and decode.
* No decoded state of the lowest run is higher than the state of the variable in any best joint assignment.
* There is a best joint assignment of which no state is higher than the decoded state of the highest run; so it is between the two runs.
* If the two runs decode the same states, these are a best joint assignment.
Missing: tables with impossible configurations or ranges over 1000; variables of more than two states; numbers that are not `Moderate`; the size limits `Fits`. -/
theorem C110_partial [DecidableEq κ] [Field α] [LinearOrder α] [IsStrictOrderedRing α] (h : Compiled vgs hist garbage st) {state : BPState α} {bp : BPFun κ α} (hbp : BP.create st state 0 = .ok bp)
    (env : Env α) (hfit : Fits env (graphOf vgs hist) (0 : α)) (lp ev : List α) (d : α) (hlp : lp.length = st.logPotentials.length) (hev : ev.length = st.numVarStates)
    (hmod : Moderate (graphOf vgs hist) lp (readEv st.varsToStarts ev) d) (hlmod : LogicalModerate (graphOf vgs hist) (readEv st.varsToStarts ev))
    (hatt : ∀ F ∈ (graphOf vgs hist).factors lp, F.Rises F ∧ F.Complete ∧ F.Within 1000) (hbin : ∀ v ∈ graphVars vgs, v.n ≤ 2) (hreg : ∀ g ∈ vgs, g.Regular) (hst : ∀ g ∈ vgs, g.Stated)
    {lo hi : List α} (hlol : lo.length = st.totalFactorNumStates) (hlo : IsLowest (graphOf vgs hist).allScopes (readMsgs (graphOf vgs hist).allScopes lo))
    (hhil : hi.length = st.totalFactorNumStates) (hhi : IsHighest (graphOf vgs hist).allScopes (readMsgs (graphOf vgs hist).allScopes hi)) (n n' : Nat) :
    ∃ low high : Var → Nat,
      (∃ bs rs, bp.getBeliefs (bp.runBP env ⟨lp, lo, ev⟩ n d) = .ok bs ∧ decodeMapStates bs = .ok rs ∧ rs.map (·.1) = vgs ∧ ∀ p ∈ rs, ∀ v ∈ p.1.variables, p.1.StateIn v (low v) p.2) ∧
      (∃ bs rs, bp.getBeliefs (bp.runBP env ⟨lp, hi, ev⟩ n' d) = .ok bs ∧ decodeMapStates bs = .ok rs ∧ rs.map (·.1) = vgs ∧ ∀ p ∈ rs, ∀ v ∈ p.1.variables, p.1.StateIn v (high v) p.2) ∧
      (∀ x ρ, IsMAP (graphVars vgs) ((graphOf vgs hist).factors lp) (readEv st.varsToStarts ev) x ρ → ∀ v ∈ graphVars vgs, low v ≤ x v) ∧
      (∃ x ρ, IsMAP (graphVars vgs) ((graphOf vgs hist).factors lp) (readEv st.varsToStarts ev) x ρ ∧ ∀ v ∈ graphVars vgs, low v ≤ x v ∧ x v ≤ high v) ∧
      ((∀ v ∈ graphVars vgs, low v = high v) → ∃ ρ, IsMAP (graphVars vgs) ((graphOf vgs hist).factors lp) (readEv st.varsToStarts ev) low ρ) := by
  have hsc := (graphOf vgs hist).factors_scopes lp
  have hpos := h.states_pos hst
  have hlo0 : ∀ f i v, IsEdge (graphOf vgs hist).allScopes f i v → ∃ s < v.n, -100000 ≤ readMsgs (graphOf vgs hist).allScopes lo f i s := fun f i v he =>
    ⟨0, h.edge_pos he, by rw [hlo f i v 0 he (h.edge_pos he), if_pos rfl]; norm_num⟩
  have hhi0 : ∀ f i v, IsEdge (graphOf vgs hist).allScopes f i v → ∃ s < v.n, -100000 ≤ readMsgs (graphOf vgs hist).allScopes hi f i s := fun f i v he => by
    have hp := h.edge_pos he
    refine ⟨v.n - 1, by omega, ?_⟩
    rw [hhi f i v _ he (by omega), if_pos (by omega)]
    norm_num
  have r1 := C37_partial h hbp env hfit ⟨lp, lo, ev⟩ n d hlp hev hlol hmod hlmod hlo0
  have r2 := C37_partial h hbp env hfit ⟨lp, hi, ev⟩ n' d hlp hev hhil hmod hlmod hhi0
  obtain ⟨k1, x0, ρ0, k2, k3⟩ := C110_textbook hatt (h.rowsFit_mem lp) (h.factors_vars lp) (fun v hv => ⟨hpos v hv, hbin v hv⟩) (ev := readEv st.varsToStarts ev) hmod.damping
    (lo := readMsgs (graphOf vgs hist).allScopes lo) (hi := readMsgs (graphOf vgs hist).allScopes hi) (by rw [hsc]; exact hlo) (by rw [hsc]; exact hhi)
  simp only [hsc] at k1 k3
  let B : List α → Nat → Var → Nat → α := fun m n => beliefOf (graphOf vgs hist).allScopes (readEv st.varsToStarts ev) (readMsgs (graphOf vgs hist).allScopes (bp.runBP env ⟨lp, m, ev⟩ n d).ftovMsgs)
  let y : List α → Nat → Var → Nat := fun m n v => argmax ((List.range v.n).map (B m n v))
  have hy : ∀ m n, ∀ v ∈ graphVars vgs, IsFirstMax (B m n v) v.n (y m n v) := fun m n v hv => argmax_range _ _ (hpos v hv)
  have hdec : ∀ m n, m.length = st.totalFactorNumStates → ∃ bs rs, bp.getBeliefs (bp.runBP env ⟨lp, m, ev⟩ n d) = .ok bs ∧ decodeMapStates bs = .ok rs ∧ rs.map (·.1) = vgs ∧
      ∀ p ∈ rs, ∀ v ∈ p.1.variables, p.1.StateIn v (y m n v) p.2 := fun m n hm => by
    have l1 := (h.run_read hbp env hfit ⟨lp, m, ev⟩ d hlp hev n hm).1
    obtain ⟨bs, rs, e1, e2, e3, e4⟩ := C35_partial h hbp _ l1 hev hreg hst
    refine ⟨bs, rs, e1, e2, e3, fun p hp v hv => ?_⟩
    have hpv : p.1 ∈ vgs := by rw [← e3]; exact List.mem_map_of_mem (f := Prod.fst) hp
    exact (e4 p hp).stateIn hv (hy m n v (mem_graphVars.2 ⟨p.1, hpv, hv⟩))
  have low : ∀ x ρ, IsMAP (graphVars vgs) ((graphOf vgs hist).factors lp) (readEv st.varsToStarts ev) x ρ → ∀ v ∈ graphVars vgs, y lo n v ≤ x v := by
    intro x ρ hx v hv
    obtain ⟨y1, -, y3⟩ := hy lo n v hv
    have hn := hbin v hv
    by_contra hlt
    have h1 : y lo n v = 1 := by omega
    have h2 : v.n = 2 := by omega
    have h3 : x v = 0 := by omega
    have h4 := k1 x ρ hx v hv h3 h2 n
    have h5 := y3 0 (by omega)
    rw [h1] at h5
    simp only [B] at h5
    rw [beliefOf_agree r1 _ (by omega : 0 < v.n), beliefOf_agree r1 _ (by omega : 1 < v.n)] at h5
    exact absurd h5 (not_lt.2 h4)
  have high : ∀ v ∈ graphVars vgs, x0 v ≤ y hi n' v := by
    intro v hv
    obtain ⟨y1, y2, -⟩ := hy hi n' v hv
    have hn := hbin v hv
    have hx := k2.1.states v hv
    by_contra hlt
    have h1 : y hi n' v = 0 := by omega
    have h3 : x0 v = 1 := by omega
    have h4 := k3 v hv h3 n'
    have h5 := y2 1 (by omega)
    rw [h1] at h5
    simp only [B] at h5
    rw [beliefOf_agree r2 _ (by omega : 0 < v.n), beliefOf_agree r2 _ (by omega : 1 < v.n)] at h5
    exact absurd h4 (not_lt.2 h5)
  refine ⟨y lo n, y hi n', hdec lo n hlol, hdec hi n' hhil, low, ⟨x0, ρ0, k2, fun v hv => ⟨low x0 ρ0 k2 v hv, high v hv⟩⟩, fun heq => ⟨ρ0, ?_⟩⟩
  have e : ∀ v ∈ graphVars vgs, y lo n v = x0 v := fun v hv => by
    have h1 := low x0 ρ0 k2 v hv
    have h2 := high v hv
    have h3 := heq v hv
    omega
  refine ⟨⟨fun v hv => (e v hv) ▸ k2.1.states v hv, fun f F hF => ?_⟩, fun x' ρ' hJ => ?_⟩
  · obtain ⟨q1, q2⟩ := k2.1.rows f F hF
    refine ⟨q1, q2.trans (List.map_congr_left fun v hv => (e v (h.factors_vars lp F (List.mem_of_getElem? hF) v hv)).symm)⟩
  · have e' : jointScore (graphVars vgs) ((graphOf vgs hist).factors lp) (readEv st.varsToStarts ev) (y lo n) ρ0 = jointScore (graphVars vgs) ((graphOf vgs hist).factors lp) (readEv st.varsToStarts ev) x0 ρ0 := by
      unfold jointScore
      congr 1
      exact Finset.sum_congr rfl fun v hv => by rw [e v hv]
    rw [e']
    exact k2.2 x' ρ' hJ

end

/-! ## Non-vacuity -/

/-- Equal states get 1: log potentials of the loop `exHistLQ`. -/
def exLpUpLQ : List ℚ := [1, 0, 0, 1, 1, 0, 0, 1, 1, 0, 0, 1]
/-- Variable 0 prefers state 0 by 3, variables 1 and 2 prefer state 1 by less. -/
def exEvUpLQ : List ℚ := [3, 0, 0, 1, 0, 1 / 2]
/-- The lowest messages. -/
def exLowLQ : List ℚ := [0, -1000, 0, -1000, 0, -1000, 0, -1000, 0, -1000, 0, -1000]
/-- The highest messages. -/
def exHighLQ : List ℚ := [-1000, 0, -1000, 0, -1000, 0, -1000, 0, -1000, 0, -1000, 0]

theorem exFactorsUpLQ : (graphOf exVars exHistLQ).factors exLpUpLQ = [⟨[exVar 0, exVar 1], [([0, 0], 1), ([0, 1], 0), ([1, 0], 0), ([1, 1], 1)]⟩,
    ⟨[exVar 1, exVar 2], [([0, 0], 1), ([0, 1], 0), ([1, 0], 0), ([1, 1], 1)]⟩, ⟨[exVar 2, exVar 0], [([0, 0], 1), ([0, 1], 0), ([1, 0], 0), ([1, 1], 1)]⟩] := rfl

theorem exModerateUpLQ : Moderate (graphOf exVars exHistLQ) exLpUpLQ (readEv exStateLQ.varsToStarts exEvUpLQ) (1 / 4) := by
  refine moderate_of_bounds (E := 3) (P := 3) (D := 2) (K := 2) (by norm_num) ?_ ?_ (by norm_num) ?_ (by norm_num)
  · intro _ _ v s _ _
    unfold readEv List.getD
    cases e : exEvUpLQ[(exStateLQ.varsToStarts v).getD 0 + s]? with
    | none => norm_num
    | some x =>
      have hl : ∀ x ∈ exEvUpLQ, |x| ≤ 3 := by decide +kernel
      exact hl x (List.mem_of_getElem? e)
  · intro f i v he
    have hd : ∀ vs ∈ [[exVar 0, exVar 1], [exVar 1, exVar 2], [exVar 2, exVar 0]], ∀ v ∈ vs,
      (edgesOf [[exVar 0, exVar 1], [exVar 1, exVar 2], [exVar 2, exVar 0]] v).length ≤ 2 := by decide +kernel
    obtain ⟨vs, h1, h2⟩ := he
    have e : (graphOf exVars exHistLQ).allScopes = [[exVar 0, exVar 1], [exVar 1, exVar 2], [exVar 2, exVar 0]] := rfl
    rw [e] at h1 ⊢
    exact Nat.cast_le_ofNat.2 (hd vs (List.mem_of_getElem? h1) v (List.mem_of_getElem? h2))
  · have e : tableFacs (graphOf exVars exHistLQ).tables exLpUpLQ = (graphOf exVars exHistLQ).factors exLpUpLQ := rfl
    rw [e, exFactorsUpLQ]
    simp only [List.forall_mem_cons]
    norm_num

theorem exRisesUpQ {v w : Var} (hv : v.n = 2) (hw : w.n = 2) :
    SFac.Rises (⟨[v, w], [([0, 0], 1), ([0, 1], 0), ([1, 0], 0), ([1, 1], 1)]⟩ : SFac ℚ) ⟨[v, w], [([0, 0], 1), ([0, 1], 0), ([1, 0], 0), ([1, 1], 1)]⟩ ∧
    (⟨[v, w], [([0, 0], 1), ([0, 1], 0), ([1, 0], 0), ([1, 1], 1)]⟩ : SFac ℚ).Complete ∧ (⟨[v, w], [([0, 0], 1), ([0, 1], 0), ([1, 0], 0), ([1, 1], 1)]⟩ : SFac ℚ).Within 1000 := by
  refine ⟨⟨rfl, ?_⟩, ⟨by simp, fun x hx => ?_⟩, ?_⟩
  · simp only [List.forall_mem_cons, List.not_mem_nil, false_imp_iff, implies_true, and_true, List.exists_mem_cons_iff, false_and, exists_false, or_false]
    simp
  · cases hx with
    | cons h1 hx =>
      cases hx with
      | cons h2 hx =>
        cases hx
        rename_i p q
        have hp : p = 0 ∨ p = 1 := by omega
        have hq : q = 0 ∨ q = 1 := by omega
        rcases hp with rfl | rfl <;> rcases hq with rfl | rfl <;> simp
  · simp only [SFac.Within, List.forall_mem_cons]
    norm_num

theorem exAttractsUpLQ : ∀ F ∈ (graphOf exVars exHistLQ).factors exLpUpLQ, F.Rises F ∧ F.Complete ∧ F.Within 1000 := by
  rw [exFactorsUpLQ]
  simp only [List.forall_mem_cons, List.not_mem_nil, false_imp_iff, implies_true, and_true]
  exact ⟨exRisesUpQ rfl rfl, exRisesUpQ rfl rfl, exRisesUpQ rfl rfl⟩

theorem exLowestLQ : IsLowest (graphOf exVars exHistLQ).allScopes (readMsgs (graphOf exVars exHistLQ).allScopes exLowLQ) := by
  intro f i v s he hs
  obtain ⟨h1, h2, h3⟩ := exEdgesLQ he
  rw [h3] at hs
  have : ∀ f < 3, ∀ i < 2, ∀ s < 2, readMsgs (graphOf exVars exHistLQ).allScopes exLowLQ f i s = if s = 0 then 0 else -1000 := by decide +kernel
  exact this f h1 i h2 s hs

theorem exHighestLQ : IsHighest (graphOf exVars exHistLQ).allScopes (readMsgs (graphOf exVars exHistLQ).allScopes exHighLQ) := by
  intro f i v s he hs
  obtain ⟨h1, h2, h3⟩ := exEdgesLQ he
  rw [h3] at hs ⊢
  have : ∀ f < 3, ∀ i < 2, ∀ s < 2, readMsgs (graphOf exVars exHistLQ).allScopes exHighLQ f i s = if s + 1 = 2 then 0 else -1000 := by decide +kernel
  exact this f h1 i h2 s hs

/-- The states that a run of 9 iterations with damping 1/4 decodes. -/
def exDecUp (m : List ℚ) : List Nat :=
  match exBPLQ.getBeliefs (exBPLQ.runBP exEnv ⟨exLpUpLQ, m, exEvUpLQ⟩ 9 (1 / 4)) with
  | .ok bs => match decodeMapStates bs with
    | .ok [(_, .arr a)] => a.data
    | _ => []
  | _ => []

theorem exDecUp_state {m : List ℚ} {x : Var → Nat} (hm : exDecUp m = [0, 0, 0]) (h : ∃ bs rs, exBPLQ.getBeliefs (exBPLQ.runBP exEnv ⟨exLpUpLQ, m, exEvUpLQ⟩ 9 (1 / 4)) = .ok bs ∧
    decodeMapStates bs = .ok rs ∧ rs.map (·.1) = exVars ∧ ∀ p ∈ rs, ∀ v ∈ p.1.variables, p.1.StateIn v (x v) p.2) : ∀ v ∈ graphVars exVars, x v = 0 := by
  obtain ⟨bs, rs, e1, e2, e3, e4⟩ := h
  intro v hv
  obtain ⟨g, hg, hv⟩ := mem_graphVars.1 hv
  rw [← e3] at hg
  obtain ⟨p, hp, rfl⟩ := List.mem_map.1 hg
  have hs := e4 p hp v hv
  unfold exDecUp at hm
  rw [e1] at hm
  simp only [e2] at hm
  split at hm
  · next _ g' a heq =>
    cases heq
    rw [List.mem_singleton.1 hp] at hs
    revert hs
    cases g' with
    | arr g' =>
      rintro ⟨k, -, hk⟩
      rw [hm] at hk
      have := List.mem_of_getElem? hk
      simpa using this
    | dict g' => exact False.elim
  · cases hm

/-- Non-vacuity of C110: on the loop `exHistLQ` with equal states getting 1, both runs decode state 0 for all variables, though two of them prefer state 1; so this is a best joint assignment. -/
example : ∃ low : Var → Nat, (∀ v ∈ graphVars exVars, low v = 0) ∧ ∃ ρ, IsMAP (graphVars exVars) ((graphOf exVars exHistLQ).factors exLpUpLQ) (readEv exStateLQ.varsToStarts exEvUpLQ) low ρ := by
  obtain ⟨low, high, d1, d2, -, -, hmap⟩ := C110_partial exStateLQ_compiled exBPLQ_create exEnv ⟨.inl rfl, fun _ => by decide +kernel⟩ exLpUpLQ exEvUpLQ (1 / 4) rfl rfl exModerateUpLQ (by
    intro f vs hvs hf
    have h1 := (List.getElem?_eq_some_iff.1 hvs).1
    have h2 : (graphOf exVars exHistLQ).allScopes.length = (graphOf exVars exHistLQ).tables.length := rfl
    omega) exAttractsUpLQ (by
    have hV : graphVars exVars = {exVar 0, exVar 1, exVar 2} := rfl
    rw [hV]
    decide +kernel) exStatedT.1 exStatedT.2 (lo := exLowLQ) (hi := exHighLQ) rfl exLowestLQ rfl exHighestLQ 9 9
  have h1 := exDecUp_state (by decide +kernel) d1
  have h2 := exDecUp_state (by decide +kernel) d2
  exact ⟨low, h1, hmap fun v hv => by rw [h1 v hv, h2 v hv]⟩

/-- Non-vacuity of the textbook statement: the same loop. -/
example {x : Var → Nat} {ρ : Nat → List Nat × ℚ} {ev : Var → Nat → ℚ} (hx : IsMAP (graphVars exVars) ((graphOf exVars exHistLQ).factors exLpUpLQ) ev x ρ) (h0 : x (exVar 1) = 0) (n : Nat) {lo hi : Msgs ℚ}
    (hlo : IsLowest (graphOf exVars exHistLQ).allScopes lo) (hhi : IsHighest (graphOf exVars exHistLQ).allScopes hi) :
    beliefOf (graphOf exVars exHistLQ).allScopes ev (tbRun ((graphOf exVars exHistLQ).factors exLpUpLQ) ev 0 n lo) (exVar 1) 1 ≤
      beliefOf (graphOf exVars exHistLQ).allScopes ev (tbRun ((graphOf exVars exHistLQ).factors exLpUpLQ) ev 0 n lo) (exVar 1) 0 := by
  have hsc := (graphOf exVars exHistLQ).factors_scopes exLpUpLQ
  have hV : graphVars exVars = {exVar 0, exVar 1, exVar 2} := rfl
  have := (C110_textbook exAttractsUpLQ (exStateLQ_compiled.rowsFit_mem _) (exStateLQ_compiled.factors_vars _) (by rw [hV]; decide +kernel) (ev := ev) (d := 0) (by norm_num)
    (by rw [hsc]; exact hlo) (by rw [hsc]; exact hhi)).1 x ρ hx (exVar 1) (by rw [hV]; decide +kernel) h0 rfl n
  rwa [hsc] at this

end PGMax
