import Verif.Lemmas.RingBP
import Verif.Props.C105
import Verif.Props.C56
import Verif.Props.C58
import Verif.Props.C60
import Verif.Spec.Attractive

/-! # C111: on rings of variables with two states, sum-product decodes the more probable state of every variable -/

namespace PGMax

open Filter Topology

variable {κ : Type _} {vgs : List (VGroup κ)} {hist : List (AddArg ℝ)} {garbage : Garbage} {st : FGState κ ℝ}

/-- A complete table has a positive weight at all pairs of states. -/
theorem SFac.Complete.pair_pos {F : SFac ℝ} (hF : F.Complete) {v w : Var} (hs : F.scope = [v, w]) (T : ℝ) (q : Nat → Nat → ℝ) {a b : Nat} (ha : a < v.n) (hb : b < w.n) : 0 < F.pairProb T q a b := by
  obtain ⟨x, hx⟩ := hF.2 [a, b] (by rw [hs]; exact .cons ha (.cons hb .nil))
  refine div_pos ?_ (rowTotal_pos (List.ne_nil_of_mem hx) T q)
  refine lt_of_lt_of_le (Real.exp_pos _) (List.single_le_sum ?_ (rowWeight T F.scope.length q ([a, b], x)) (List.mem_map_of_mem (List.mem_filter.2 ⟨hx, decide_eq_true rfl⟩)))
  intro z hz
  obtain ⟨r, -, rfl⟩ := List.mem_map.1 hz
  exact (Real.exp_pos _).le

/-- In a complete table, only one row has the states. -/
theorem SFac.Complete.pair_eq {F : SFac ℝ} (hF : F.Complete) (T : ℝ) (q : Nat → Nat → ℝ) {a b : Nat} {x : ℝ} (hx : ([a, b], x) ∈ F.rows) :
    F.pairProb T q a b = rowWeight T F.scope.length q ([a, b], x) / (F.rows.map (rowWeight T F.scope.length q)).sum := by
  unfold SFac.pairProb
  congr 1
  have hnd := hF.1
  have : ∀ l : List (List Nat × ℝ), (l.map (·.1)).Nodup → ([a, b], x) ∈ l → l.filter (fun r => r.1 = [a, b]) = [([a, b], x)] := by
    intro l
    induction l with
    | nil => intro _ h; cases h
    | cons r l ih =>
      intro h1 h2
      rw [List.map_cons, List.nodup_cons] at h1
      rw [List.filter_cons]
      rcases List.mem_cons.1 h2 with rfl | h2
      · rw [if_pos (decide_eq_true rfl)]
        congr 1
        refine List.filter_eq_nil_iff.2 fun r hr h => h1.1 ?_
        exact List.mem_map.2 ⟨r, hr, of_decide_eq_true h⟩
      · rw [if_neg, ih h1.2 h2]
        intro h
        exact h1.1 (List.mem_map.2 ⟨_, h2, (of_decide_eq_true h).symm⟩)
  rw [this _ hnd hx]
  simp

/-- The distribution of an attractive table is attractive. -/
theorem pair_attractive {F : SFac ℝ} (hF : F.Complete) {v w : Var} (hs : F.scope = [v, w]) (hr : F.Rises F) {T : ℝ} (hT : 0 < T) (q : Nat → Nat → ℝ) (hv : v.n = 2) (hw : w.n = 2) :
    F.pairProb T q 0 1 * F.pairProb T q 1 0 ≤ F.pairProb T q 0 0 * F.pairProb T q 1 1 := by
  have row : ∀ a b, a < 2 → b < 2 → ∃ x, ([a, b], x) ∈ F.rows := fun a b ha hb => hF.2 [a, b] (by rw [hs]; exact .cons (by rw [hv]; exact ha) (.cons (by rw [hw]; exact hb) .nil))
  obtain ⟨x01, h01⟩ := row 0 1 (by decide) (by decide)
  obtain ⟨x10, h10⟩ := row 1 0 (by decide) (by decide)
  obtain ⟨⟨p1, p2⟩, hp, ⟨q1, q2⟩, hq, e1, e2, hle⟩ := hr.2 _ h01 _ h10
  obtain rfl : p1 = [1, 1] := e1
  obtain rfl : q1 = [0, 0] := e2
  rw [hF.pair_eq T q h01, hF.pair_eq T q h10, hF.pair_eq T q hp, hF.pair_eq T q hq, div_mul_div_comm, div_mul_div_comm]
  have hZ := rowTotal_pos (List.ne_nil_of_mem hp) T q
  refine div_le_div_of_nonneg_right ?_ (mul_nonneg hZ.le hZ.le)
  unfold rowWeight
  rw [← Real.exp_add, ← Real.exp_add, ← add_div, ← add_div, hs]
  refine Real.exp_le_exp.2 (div_le_div_of_nonneg_right ?_ hT.le)
  have hle : x01 + x10 ≤ p2 + q2 := hle
  simp only [List.length_cons, List.length_nil, Finset.sum_range_succ, Finset.range_zero, Finset.sum_empty, List.getD_cons_zero, List.getD_cons_succ]
  linarith

/-- **C111, exact.** On a ring of variables with two states, with any tables and any messages whose distributions of factors and variables are consistent (as those of messages at rest are, `C105`): there is a number `c`,
the same for all variables, such that the partition function is `1 + c` times what the messages say, and the true weight of a state is the weight by its belief plus `c` times that of the other state.
With complete tables `-1 < c < 1`, so that of the two states of a variable, the one with the larger belief is the more probable one. -/
theorem C111_exact {vars : Finset Var} {factors : List (SFac ℝ)} {N : Nat} {v : Nat → Var} (hr : IsRing vars (factors.map (·.scope)) N v) {T : ℝ} (hT : 0 < T)
    (hrow : ∀ F ∈ factors, ∀ r ∈ F.rows, List.Forall₂ (fun s (v : Var) => s < v.n) r.1 F.scope) (ev : Var → Nat → ℝ) (m : Msgs ℝ)
    (hC : LocallyConsistent vars factors 1 (rowDist T factors ev m) (stateDist T factors ev m)) :
    ∃ c, totalWeight T vars factors ev = Real.exp (betheLogTotal T vars factors ev m) * (1 + c) ∧
      (∀ w ∈ vars, ∀ s < 2, stateWeight T vars factors ev w s = Real.exp (betheLogTotal T vars factors ev m) * (stateDist T factors ev m w s + c * (1 - stateDist T factors ev m w s))) ∧
      ((∀ F ∈ factors, F.Complete) → -1 < c ∧ c < 1 ∧
        ∀ w ∈ vars, ∀ s < 2, ∀ t < 2, (stateDist T factors ev m w s < stateDist T factors ev m w t ↔ stateWeight T vars factors ev w s < stateWeight T vars factors ev w t)) ∧
      ((∀ F ∈ factors, F.Complete ∧ F.Rises F) → 0 ≤ c) := by
  have hget : ∀ {f F}, factors[f]? = some F → factors.getD f ⟨[], []⟩ = F := fun {f F} hF => by rw [List.getD, hF]; rfl
  have hnear : ∀ (f : Nat) (F : SFac ℝ) (i : Nat) (w : Var), factors[f]? = some F → F.scope[i]? = some w → ∀ s < w.n, stateDist T factors ev m w s * Real.exp (-0) ≤ F.prob T (tbIn factors ev m f F) i s ∧
      F.prob T (tbIn factors ev m f F) i s ≤ stateDist T factors ev m w s * Real.exp 0 := by
    intro f F i w hF hi s hs
    have := hC.edges f F i w hF hi s hs
    unfold rowDist at this
    rw [hget hF, sum_placesAt] at this
    rw [this, neg_zero, Real.exp_zero, mul_one]
    exact ⟨le_rfl, le_rfl⟩
  have hC0 := Real.exp_pos (betheLogTotal T vars factors ev m)
  have hc : totalWeight T vars factors ev = Real.exp (betheLogTotal T vars factors ev m) * (1 + (totalWeight T vars factors ev / Real.exp (betheLogTotal T vars factors ev m) - 1)) := by
    rw [add_sub_cancel, mul_div_cancel₀ _ hC0.ne']
  have key := fun (w : Var) (hw : w ∈ vars) (s : Nat) (hs : s < 2) => hr.state_near hT hrow le_rfl hnear hw hs rfl hc
  generalize totalWeight T vars factors ev / Real.exp (betheLogTotal T vars factors ev m) - 1 = c at hc key
  simp only [mul_zero, Real.exp_zero, sub_self, mul_one] at key
  have heq : ∀ w ∈ vars, ∀ s < 2, stateWeight T vars factors ev w s = Real.exp (betheLogTotal T vars factors ev m) * (stateDist T factors ev m w s + c * (1 - stateDist T factors ev m w s)) :=
    fun w hw s hs => sub_eq_zero.1 (abs_nonpos_iff.1 (key w hw s hs).1)
  have hv0 : v 0 ∈ vars := (hr.mem _).2 ⟨0, hr.pos, rfl⟩
  refine ⟨c, hc, heq, fun hcomp => ?_, fun hcomp => ?_⟩
  · have hpp : ∀ k < N, ∀ a < 2, ∀ b < 2, 0 < (factors.getD k ⟨[], []⟩).pairProb T (tbIn factors ev m k (factors.getD k ⟨[], []⟩)) a b := by
      intro k hk a ha b hb
      obtain ⟨F, h1, h2⟩ := hr.scope_at hk
      rw [hget h1]
      exact (hcomp F (List.mem_of_getElem? h1)).pair_pos h2 T _ (by rw [hr.binary k hk]; exact ha) (by rw [hr.binary _ (Nat.mod_lt _ hr.pos)]; exact hb)
    have hlt := fun w hw s hs => (key w hw s hs).2.2.1 hpp
    have hpos : 0 < totalWeight T vars factors ev := by
      refine Finset.sum_pos (fun x hx => ?_) ⟨fun _ => 0, ?_⟩
      · rw [hr.weight_eq (m := m) hT (mem_assignments.1 hx).1]
        refine mul_pos hC0 (Finset.prod_pos fun k hk => div_pos (hpp k (Finset.mem_range.1 hk) _ ?_ _ ?_) (gibbs_pos _ ?_))
        · have := (mem_assignments.1 hx).1 _ ((hr.mem _).2 ⟨k, Finset.mem_range.1 hk, rfl⟩)
          rwa [hr.binary k (Finset.mem_range.1 hk)] at this
        · have := (mem_assignments.1 hx).1 _ ((hr.mem _).2 ⟨_, Nat.mod_lt (k + 1) hr.pos, rfl⟩)
          rwa [hr.binary _ (Nat.mod_lt _ hr.pos)] at this
        · exact (mem_assignments.1 hx).1 _ ((hr.mem _).2 ⟨k, Finset.mem_range.1 hk, rfl⟩)
      · refine mem_assignments.2 ⟨fun w hw => ?_, fun _ _ => rfl⟩
        obtain ⟨k, hk, rfl⟩ := (hr.mem w).1 hw
        rw [hr.binary k hk]
        decide
    have h1 : -1 < c := by
      rw [hc] at hpos
      have := (mul_pos_iff_of_pos_left hC0).1 hpos
      linarith
    have h2 : c < 1 := by
      have e0 := hlt _ hv0 0 (by decide)
      have e1 := hlt _ hv0 1 (by decide)
      rw [hr.total_eq hr.pos] at hc
      have : Real.exp (betheLogTotal T vars factors ev m) * (1 + c) < Real.exp (betheLogTotal T vars factors ev m) * 2 := by linarith
      have := lt_of_mul_lt_mul_left this hC0.le
      linarith
    refine ⟨h1, h2, fun w hw s hs t ht => ?_⟩
    rw [heq w hw s hs, heq w hw t ht, mul_lt_mul_iff_right₀ hC0]
    constructor
    · intro h
      nlinarith
    · intro h
      nlinarith
  · refine (key _ hv0 0 (by decide)).2.2.2 trivial fun k hk => ⟨_, rfl, ?_⟩
    obtain ⟨F, h1, h2⟩ := hr.scope_at hk
    rw [hget h1]
    obtain ⟨hF, hF'⟩ := hcomp F (List.mem_of_getElem? h1)
    exact pair_attractive hF h2 hF' hT _ (hr.binary k hk) (hr.binary _ (Nat.mod_lt _ hr.pos))

/-- How far weights may be off on a ring of `N` variables if messages change by at most `η`. -/
noncomputable def ringGap (N : Nat) (T d η : ℝ) : ℝ := Real.exp (N * ((2 * η / (1 - d) + T * Real.exp (-100000)) / T)) - 1

theorem restGap_le {tables : Nat} {T d η : ℝ} (hT : 0 < T) (f : Nat) : restGap tables T d η f ≤ (2 * η / (1 - d) + T * Real.exp (-100000)) / T := by
  unfold restGap
  refine div_le_div_of_nonneg_right ?_ hT.le
  split
  · exact le_rfl
  · have := mul_pos hT (Real.exp_pos (-100000))
    linarith

theorem ring_mix {vars : Finset Var} {factors : List (SFac ℝ)} {N : Nat} {v : Nat → Var} (hr : IsRing vars (factors.map (·.scope)) N v) {T : ℝ} (hT : 0 < T)
    (hrow : ∀ F ∈ factors, ∀ r ∈ F.rows, List.Forall₂ (fun s (v : Var) => s < v.n) r.1 F.scope) (hcomp : ∀ F ∈ factors, F.Complete) {ev : Var → Nat → ℝ} {m : Msgs ℝ} {ε : ℝ} (hε : 0 ≤ ε)
    (hnear : ∀ (f : Nat) (F : SFac ℝ) (i : Nat) (w : Var), factors[f]? = some F → F.scope[i]? = some w → ∀ s < w.n, stateDist T factors ev m w s * Real.exp (-ε) ≤ F.prob T (tbIn factors ev m f F) i s ∧
      F.prob T (tbIn factors ev m f F) i s ≤ stateDist T factors ev m w s * Real.exp ε) :
    ∃ c, RingMix vars (stateWeight T vars factors ev) (stateDist T factors ev m) (totalWeight T vars factors ev) (Real.exp (betheLogTotal T vars factors ev m)) c (Real.exp (N * ε) - 1) := by
  have hget : ∀ {f F}, factors[f]? = some F → factors.getD f ⟨[], []⟩ = F := fun {f F} hF => by rw [List.getD, hF]; rfl
  have hC0 := Real.exp_pos (betheLogTotal T vars factors ev m)
  have hc : totalWeight T vars factors ev = Real.exp (betheLogTotal T vars factors ev m) * (1 + (totalWeight T vars factors ev / Real.exp (betheLogTotal T vars factors ev m) - 1)) := by
    rw [add_sub_cancel, mul_div_cancel₀ _ hC0.ne']
  have key := fun (w : Var) (hw : w ∈ vars) (s : Nat) (hs : s < 2) => hr.state_near hT hrow hε hnear hw hs rfl hc
  generalize totalWeight T vars factors ev / Real.exp (betheLogTotal T vars factors ev m) - 1 = c at hc key
  have hv0 : v 0 ∈ vars := (hr.mem _).2 ⟨0, hr.pos, rfl⟩
  have hpp : ∀ k < N, ∀ a < 2, ∀ b < 2, 0 < (factors.getD k ⟨[], []⟩).pairProb T (tbIn factors ev m k (factors.getD k ⟨[], []⟩)) a b := by
    intro k hk a ha b hb
    obtain ⟨F, h1, h2⟩ := hr.scope_at hk
    rw [hget h1]
    exact (hcomp F (List.mem_of_getElem? h1)).pair_pos h2 T _ (by rw [hr.binary k hk]; exact ha) (by rw [hr.binary _ (Nat.mod_lt _ hr.pos)]; exact hb)
  have hlt := fun w hw s hs => (key w hw s hs).2.2.1 hpp
  have hpos : 0 < totalWeight T vars factors ev := by
    refine Finset.sum_pos (fun x hx => ?_) ⟨fun _ => 0, ?_⟩
    · rw [hr.weight_eq (m := m) hT (mem_assignments.1 hx).1]
      refine mul_pos hC0 (Finset.prod_pos fun k hk => div_pos (hpp k (Finset.mem_range.1 hk) _ ?_ _ ?_) (gibbs_pos _ ?_))
      · have := (mem_assignments.1 hx).1 _ ((hr.mem _).2 ⟨k, Finset.mem_range.1 hk, rfl⟩)
        rwa [hr.binary k (Finset.mem_range.1 hk)] at this
      · have := (mem_assignments.1 hx).1 _ ((hr.mem _).2 ⟨_, Nat.mod_lt (k + 1) hr.pos, rfl⟩)
        rwa [hr.binary _ (Nat.mod_lt _ hr.pos)] at this
      · exact (mem_assignments.1 hx).1 _ ((hr.mem _).2 ⟨k, Finset.mem_range.1 hk, rfl⟩)
    · refine mem_assignments.2 ⟨fun w hw => ?_, fun _ _ => rfl⟩
      obtain ⟨k, hk, rfl⟩ := (hr.mem w).1 hw
      rw [hr.binary k hk]
      decide
  have h1 : -1 < c := by
    rw [hc] at hpos
    have := (mul_pos_iff_of_pos_left hC0).1 hpos
    linarith
  have h2 : c < 1 + 2 * (Real.exp (N * ε) - 1) := by
    have e0 := hlt _ hv0 0 (by decide)
    have e1 := hlt _ hv0 1 (by decide)
    rw [hr.total_eq hr.pos] at hc
    have : Real.exp (betheLogTotal T vars factors ev m) * (1 + c) < Real.exp (betheLogTotal T vars factors ev m) * (2 * Real.exp (N * ε)) := by linarith
    have := lt_of_mul_lt_mul_left this hC0.le
    linarith
  have hδ : 0 ≤ Real.exp (N * ε) - 1 := by
    have := Real.one_le_exp (mul_nonneg (Nat.cast_nonneg N) hε)
    linarith
  refine ⟨c, hc, hC0, h1, h2, fun w hw s hs => (key w hw s hs).1, fun w hw s hs t ht hlt => ?_⟩
  have ks := abs_le.1 (key w hw s hs).1
  have kt := abs_le.1 (key w hw t ht).1
  have hb : ∀ s < 2, 0 < stateDist T factors ev m w s ∧ stateDist T factors ev m w s < 1 := by
    obtain ⟨k, hk, rfl⟩ := (hr.mem w).1 hw
    have e := gibbs_total' (fun s => beliefOf (factors.map (·.scope)) ev m (v k) s / T) (n := (v k).n) (by rw [hr.binary k hk]; decide)
    have p0 : 0 < stateDist T factors ev m (v k) 0 := gibbs_pos _ (by rw [hr.binary k hk]; decide)
    have p1 : 0 < stateDist T factors ev m (v k) 1 := gibbs_pos _ (by rw [hr.binary k hk]; decide)
    have e : stateDist T factors ev m (v k) 0 + stateDist T factors ev m (v k) 1 = 1 := by
      unfold stateDist
      rw [hr.binary k hk, Finset.sum_range_succ, Finset.sum_range_one] at e
      rw [hr.binary k hk]
      exact e
    intro s hs
    interval_cases s
    · exact ⟨p0, by linarith⟩
    · exact ⟨p1, by linarith⟩
  obtain ⟨s0, s1⟩ := hb s hs
  obtain ⟨t0, t1⟩ := hb t ht
  generalize stateDist T factors ev m w s = x at *
  generalize stateDist T factors ev m w t = y at *
  generalize Real.exp (N * ε) - 1 = δ at *
  by_contra hxy
  rw [not_lt] at hxy
  have h3 : (1 - c) * (x - y) ≤ 2 * δ := by
    rcases le_or_gt c 1 with h | h
    · nlinarith
    · nlinarith
  have h4 := mul_le_mul_of_nonneg_left h3 hC0.le
  nlinarith

theorem Compiled.ring_at_rest (h : Compiled vgs hist garbage st) {state : BPState ℝ} {bp : BPFun κ ℝ} {T : ℝ} (hT : 0 < T) (hbp : BP.create st state T = .ok bp)
    (env : Env ℝ) (hexp : env.exp = Real.exp) (hlog : env.log = Real.log) (hfit : Fits env (graphOf vgs hist) T) (a : BPArrays ℝ) (n : Nat) {d : ℝ} (hd : d < 1)
    (hlp : a.logPotentials.length = st.logPotentials.length) (hev : a.evidence.length = st.numVarStates) (hm : a.ftovMsgs.length = st.totalFactorNumStates)
    (hmod : Moderate (graphOf vgs hist) a.logPotentials (readEv st.varsToStarts a.evidence) d)
    (hinit : ∀ f i v, IsEdge (graphOf vgs hist).allScopes f i v → ∃ s < v.n, -100000 ≤ readMsgs (graphOf vgs hist).allScopes a.ftovMsgs f i s) {η : ℝ}
    (hη : ∀ f i v s, IsEdge (graphOf vgs hist).allScopes f i v → s < v.n →
      |(readMsgs (graphOf vgs hist).allScopes (bp.runBP env a (n + 1) d).ftovMsgs) f i s - (readMsgs (graphOf vgs hist).allScopes (bp.runBP env a n d).ftovMsgs) f i s| ≤ η)
    (hclip : ∀ f i v s, IsEdge (graphOf vgs hist).allScopes f i v → s < v.n → -1000 < (readMsgs (graphOf vgs hist).allScopes (bp.runBP env a (n + 1) d).ftovMsgs) f i s)
    {N : Nat} {v : Nat → Var} (hr : IsRing (graphVars vgs) (graphOf vgs hist).allScopes N v) (hcomp : ∀ F ∈ (graphOf vgs hist).factors a.logPotentials, F.Complete) :
    ∃ c, RingMix (graphVars vgs) (stateWeight T (graphVars vgs) ((graphOf vgs hist).factors a.logPotentials) (readEv st.varsToStarts a.evidence))
        (fun w => gibbs (fun s => beliefOf (graphOf vgs hist).allScopes (readEv st.varsToStarts a.evidence) (readMsgs (graphOf vgs hist).allScopes (bp.runBP env a n d).ftovMsgs) w s / T) w.n)
        (totalWeight T (graphVars vgs) ((graphOf vgs hist).factors a.logPotentials) (readEv st.varsToStarts a.evidence))
        (Real.exp (betheLogTotal T (graphVars vgs) ((graphOf vgs hist).factors a.logPotentials) (readEv st.varsToStarts a.evidence) (readMsgs (graphOf vgs hist).allScopes (bp.runBP env a n d).ftovMsgs))) c
        (ringGap N T d η) := by
  have hsc := (graphOf vgs hist).factors_scopes a.logPotentials
  have hr' := hr
  rw [← hsc] at hr
  have hη0 : 0 ≤ η := by
    have hb := hr'.binary 0 hr'.pos
    refine (abs_nonneg _).trans (hη 0 0 (v 0) 0 ⟨[v 0, v ((0 + 1) % N)], ?_, rfl⟩ (by rw [hb]; decide))
    rw [hr'.scopes, List.getElem?_map, List.getElem?_range hr'.pos]
    rfl
  have hε : 0 ≤ (2 * η / (1 - d) + T * Real.exp (-100000)) / T := by
    have : 0 < 1 - d := by linarith
    positivity
  have he : ∀ {f : Nat} {F : SFac ℝ} {i : Nat} {v : Var}, ((graphOf vgs hist).factors a.logPotentials)[f]? = some F → F.scope[i]? = some v → IsEdge (graphOf vgs hist).allScopes f i v :=
    fun {f F i v} hF hi => ⟨F.scope, by rw [← hsc, List.getElem?_map, hF]; rfl, hi⟩
  obtain ⟨c, hmix⟩ := ring_mix (ev := readEv st.varsToStarts a.evidence) (m := readMsgs (graphOf vgs hist).allScopes (bp.runBP env a n d).ftovMsgs) hr hT (h.rowsFit_mem _) hcomp hε
    (fun f F i w hF hi s hs => by
      have := C83 h hT hbp env hexp hlog hfit a n hd hlp hev hm hmod hinit f F i w hF hi (fun s hs => hη f i w s (he hF hi) hs) (fun s hs => hclip f i w s (he hF hi) hs) hs
      unfold stateDist
      rw [hsc]
      have hg : 0 ≤ gibbs (fun s => beliefOf (graphOf vgs hist).allScopes (readEv st.varsToStarts a.evidence) (readMsgs (graphOf vgs hist).allScopes (bp.runBP env a n d).ftovMsgs) w s / T) w.n s := (gibbs_pos _ hs).le
      have hgap := restGap_le (tables := (graphOf vgs hist).tables.length) (d := d) (η := η) hT f
      exact ⟨(mul_le_mul_of_nonneg_left (Real.exp_le_exp.2 (neg_le_neg hgap)) hg).trans this.1, this.2.trans (mul_le_mul_of_nonneg_left (Real.exp_le_exp.2 hgap) hg)⟩)
  have hdef : stateDist T ((graphOf vgs hist).factors a.logPotentials) (readEv st.varsToStarts a.evidence) (readMsgs (graphOf vgs hist).allScopes (bp.runBP env a n d).ftovMsgs) = fun w => gibbs (fun s =>
      beliefOf (graphOf vgs hist).allScopes (readEv st.varsToStarts a.evidence) (readMsgs (graphOf vgs hist).allScopes (bp.runBP env a n d).ftovMsgs) w s / T) w.n := by
    funext w s
    unfold stateDist
    rw [hsc]
  rw [hdef] at hmix
  exact ⟨c, hmix⟩

/-- If one of two states has the larger probability, it has the larger belief. -/
theorem belief_lt {T : ℝ} (hT : 0 < T) {B : Nat → ℝ} {n s t : Nat} (hs : s < n) (h : gibbs (fun s => B s / T) n t < gibbs (fun s => B s / T) n s) : B t < B s := by
  simp only [gibbs_eq] at h
  have hZ : 0 < ∑ t ∈ Finset.range n, Real.exp (B t / T) := Finset.sum_pos (fun _ _ => Real.exp_pos _) ⟨s, Finset.mem_range.2 hs⟩
  rw [div_lt_div_iff_of_pos_right hZ, Real.exp_lt_exp, div_lt_div_iff_of_pos_right hT] at h
  exact h

/-- **C111.** A ring of variables with two states and complete tables, at temperature `T > 0` and for moderate numbers: if no message is clipped and messages change by at most `η` in the `n + 1`-st iteration, then after
`n` iterations the true weights of the states of all variables are those by the beliefs mixed with those of the other states, up to `ringGap` (0 in exact arithmetic at rest, but for a term of `e^-100000` of the
enumeration factors); and if the true weights of the two states of a variable differ by more than this inexactness, `decode_map_states` returns the more probable state of the variable. -/
theorem C111 [DecidableEq κ] (h : Compiled vgs hist garbage st) {state : BPState ℝ} {bp : BPFun κ ℝ} {T : ℝ} (hT : 0 < T) (hbp : BP.create st state T = .ok bp)
    (env : Env ℝ) (hexp : env.exp = Real.exp) (hlog : env.log = Real.log) (hfit : Fits env (graphOf vgs hist) T) (a : BPArrays ℝ) (n : Nat) {d : ℝ} (hd : d < 1)
    (hlp : a.logPotentials.length = st.logPotentials.length) (hev : a.evidence.length = st.numVarStates) (hm : a.ftovMsgs.length = st.totalFactorNumStates)
    (hmod : Moderate (graphOf vgs hist) a.logPotentials (readEv st.varsToStarts a.evidence) d)
    (hinit : ∀ f i v, IsEdge (graphOf vgs hist).allScopes f i v → ∃ s < v.n, -100000 ≤ readMsgs (graphOf vgs hist).allScopes a.ftovMsgs f i s) {η : ℝ}
    (hη : ∀ f i v s, IsEdge (graphOf vgs hist).allScopes f i v → s < v.n →
      |(readMsgs (graphOf vgs hist).allScopes (bp.runBP env a (n + 1) d).ftovMsgs) f i s - (readMsgs (graphOf vgs hist).allScopes (bp.runBP env a n d).ftovMsgs) f i s| ≤ η)
    (hclip : ∀ f i v s, IsEdge (graphOf vgs hist).allScopes f i v → s < v.n → -1000 < (readMsgs (graphOf vgs hist).allScopes (bp.runBP env a (n + 1) d).ftovMsgs) f i s)
    (hreg : ∀ g ∈ vgs, g.Regular) (hst : ∀ g ∈ vgs, g.Stated)
    {N : Nat} {v : Nat → Var} (hr : IsRing (graphVars vgs) (graphOf vgs hist).allScopes N v) (hcomp : ∀ F ∈ (graphOf vgs hist).factors a.logPotentials, F.Complete) :
    ∃ (B : Var → Nat → ℝ) (C c : ℝ) (bs : List (VGroup κ × GroupBeliefs κ ℝ)) (rs : List (VGroup κ × GroupStates κ)),
      (∀ w start, st.varsToStarts w = some start → ∀ s < w.n, (bp.flatBeliefs (bp.runBP env a n d))[start + s]? = some (B w s)) ∧
      C = Real.exp (betheLogTotal T (graphVars vgs) ((graphOf vgs hist).factors a.logPotentials) (readEv st.varsToStarts a.evidence) (readMsgs (graphOf vgs hist).allScopes (bp.runBP env a n d).ftovMsgs)) ∧
      RingMix (graphVars vgs) (stateWeight T (graphVars vgs) ((graphOf vgs hist).factors a.logPotentials) (readEv st.varsToStarts a.evidence)) (fun w => gibbs (fun s => B w s / T) w.n)
        (totalWeight T (graphVars vgs) ((graphOf vgs hist).factors a.logPotentials) (readEv st.varsToStarts a.evidence)) C c (ringGap N T d η) ∧
      bp.getBeliefs (bp.runBP env a n d) = .ok bs ∧ decodeMapStates bs = .ok rs ∧ rs.map (·.1) = vgs ∧
      ∀ p ∈ rs, ∀ w ∈ p.1.variables, ∀ s < 2, (∀ t < 2, t ≠ s →
        stateWeight T (graphVars vgs) ((graphOf vgs hist).factors a.logPotentials) (readEv st.varsToStarts a.evidence) w t + 4 * C * ringGap N T d η <
          stateWeight T (graphVars vgs) ((graphOf vgs hist).factors a.logPotentials) (readEv st.varsToStarts a.evidence) w s) → p.1.StateIn w s p.2 := by
  obtain ⟨c, hmix⟩ := h.ring_at_rest hT hbp env hexp hlog hfit a n hd hlp hev hm hmod hinit hη hclip hr hcomp
  have hrun := (h.run_read hbp env hfit a d hlp hev n hm).1
  obtain ⟨bs, rs, e1, e2, e3, e4⟩ := C35_partial h hbp (bp.runBP env a n d) hrun hev hreg hst
  refine ⟨_, _, c, bs, rs, fun w start hw s hs => C34_flat h hbp _ hrun hev w start hw s hs, rfl, hmix, e1, e2, e3, fun p hp w hw s hs hlt => ?_⟩
  have hpv : p.1 ∈ vgs := by rw [← e3]; exact List.mem_map_of_mem hp
  have hwv : w ∈ graphVars vgs := mem_graphVars.2 ⟨p.1, hpv, hw⟩
  have hn : w.n = 2 := by
    obtain ⟨k, hk, rfl⟩ := (hr.mem w).1 hwv
    exact hr.binary k hk
  have hbel : ∀ t < 2, t ≠ s → beliefOf (graphOf vgs hist).allScopes (readEv st.varsToStarts a.evidence) (readMsgs (graphOf vgs hist).allScopes (bp.runBP env a n d).ftovMsgs) w t <
      beliefOf (graphOf vgs hist).allScopes (readEv st.varsToStarts a.evidence) (readMsgs (graphOf vgs hist).allScopes (bp.runBP env a n d).ftovMsgs) w s := fun t ht hts =>
    belief_lt hT (by rw [hn]; exact hs) (hmix.order w hwv s hs t ht (hlt t ht hts))
  refine (e4 p hp).stateIn hw ⟨by rw [hn]; exact hs, fun t ht => ?_, fun t ht => hbel t (by omega) (by omega)⟩
  rw [hn] at ht
  by_cases hts : t = s
  · rw [hts]
  · exact (hbel t ht hts).le

theorem IsRing.inputs {vars : Finset Var} {factors : List (SFac ℝ)} {N : Nat} {v : Nat → Var} (hr : IsRing vars (factors.map (·.scope)) N v) :
    ∀ vs ∈ factors.map (·.scope), ∀ i < vs.length, inputsBut (factors.map (·.scope)) vs i ≤ 1 := by
  intro vs hvs i hi
  rw [hr.scopes] at hvs
  obtain ⟨k, hk, rfl⟩ := List.mem_map.1 hvs
  have hk := List.mem_range.1 hk
  have h1 := hr.degree_two hk
  have h2 := hr.degree_two (Nat.mod_lt (k + 1) hr.pos)
  unfold degree at h1 h2
  have hi : i < 2 := hi
  unfold inputsBut
  interval_cases i
  · simp [List.range_succ, h2]
  · simp [List.range_succ, h1]

/-- **C111, limit.** Under the same conditions, with tables whose log potentials differ by less than 1000, the beliefs of all runs converge at a geometric rate to the same beliefs `B`, the true weights of the states are
those by `B` mixed with those of the other states, up to `ringGap N T 0 0`, and if the true weights of the two states of a variable differ by more than this, all runs decode the more probable state after
finitely many iterations. -/
theorem C111_limit [DecidableEq κ] (h : Compiled vgs hist garbage st) {state : BPState ℝ} {bp : BPFun κ ℝ} {T : ℝ} (hT : 0 < T) (hbp : BP.create st state T = .ok bp)
    (env : Env ℝ) (hexp : env.exp = Real.exp) (hlog : env.log = Real.log) (hfit : Fits env (graphOf vgs hist) T) (lp ev : List ℝ)
    (hlp : lp.length = st.logPotentials.length) (hev : ev.length = st.numVarStates) (hmod : Moderate (graphOf vgs hist) lp (readEv st.varsToStarts ev) 0)
    (hreg : ∀ g ∈ vgs, g.Regular) (hst : ∀ g ∈ vgs, g.Stated) {N : Nat} {v : Nat → Var} (hr : IsRing (graphVars vgs) (graphOf vgs hist).allScopes N v)
    (htab : (graphOf vgs hist).tables.length = N) {R : ℝ} (hR : R < 1000) (hcomp : ∀ F ∈ (graphOf vgs hist).factors lp, F.Complete ∧ F.Within R) :
    ∃ (B : Var → Nat → ℝ) (C c k : ℝ), 0 ≤ k ∧ k < 1 ∧
      RingMix (graphVars vgs) (stateWeight T (graphVars vgs) ((graphOf vgs hist).factors lp) (readEv st.varsToStarts ev)) (fun w => gibbs (fun s => B w s / T) w.n)
        (totalWeight T (graphVars vgs) ((graphOf vgs hist).factors lp) (readEv st.varsToStarts ev)) C c (ringGap N T 0 0) ∧
      ∀ d, 0 ≤ d → d < 1 → ∀ ms : List ℝ, ms.length = st.totalFactorNumStates →
        (∀ f i v, IsEdge (graphOf vgs hist).allScopes f i v → ∃ s < v.n, -100000 ≤ readMsgs (graphOf vgs hist).allScopes ms f i s) →
        ∃ b : Nat → Var → Nat → ℝ,
          (∀ n w start, st.varsToStarts w = some start → ∀ s < w.n, (bp.flatBeliefs (bp.runBP env ⟨lp, ms, ev⟩ n d))[start + s]? = some (b n w s)) ∧
          (∀ n, ∀ w ∈ graphVars vgs, ∀ s < w.n, |b n w s - B w s| ≤ 2 * (2000 * (d + (1 - d) * k) ^ n)) ∧
          ∃ n0, ∀ n ≥ n0, ∃ bs rs, bp.getBeliefs (bp.runBP env ⟨lp, ms, ev⟩ n d) = .ok bs ∧ decodeMapStates bs = .ok rs ∧ rs.map (·.1) = vgs ∧
            ∀ p ∈ rs, ∀ w ∈ p.1.variables, ∀ s < 2, (∀ t < 2, t ≠ s →
              stateWeight T (graphVars vgs) ((graphOf vgs hist).factors lp) (readEv st.varsToStarts ev) w t + 4 * C * ringGap N T 0 0 <
                stateWeight T (graphVars vgs) ((graphOf vgs hist).factors lp) (readEv st.varsToStarts ev) w s) → p.1.StateIn w s p.2 := by
  have hsc := (graphOf vgs hist).factors_scopes lp
  have hr' := hr
  rw [← hsc] at hr'
  have hdeg : ∀ w ∈ graphVars vgs, (edgesOf (graphOf vgs hist).allScopes w).length = 2 := by
    intro w hw
    obtain ⟨k, hk, rfl⟩ := (hr.mem w).1 hw
    have := hr'.degree_two hk
    rw [hsc] at this
    exact this
  have hn2 : ∀ w ∈ graphVars vgs, w.n = 2 := by
    intro w hw
    obtain ⟨k, hk, rfl⟩ := (hr.mem w).1 hw
    exact hr.binary k hk
  obtain ⟨k, hk0, hk1, L, hL, hrun⟩ := C60_loop h hT hbp env hexp hlog hfit lp ev hlp hev hmod (fun F hF => (hcomp F hF).1) (by
    have := hr'.inputs
    rw [hsc] at this
    exact this)
  have hfix := (hrun 0 le_rfl one_pos).2
  have hbound : ∀ f i w s, IsEdge (graphOf vgs hist).allScopes f i w → s < w.n → -R ≤ readMsgs (graphOf vgs hist).allScopes L f i s := by
    intro f i w s he hs
    obtain ⟨F, hF, -⟩ := (graphOf vgs hist).factors_edge lp he
    have hf : f < (graphOf vgs hist).tables.length := by
      obtain ⟨vs, h1, -⟩ := he
      have := (List.getElem?_eq_some_iff.1 h1).1
      rw [htab]
      rw [hr.scopes, List.length_map, List.length_range] at this
      exact this
    have := C56_sum_partial h hT hbp env hexp hlog hfit ⟨lp, L, ev⟩ 1 0 hlp hev hL hmod f F hF hf (hcomp F (List.mem_of_getElem? hF)).1 R (hcomp F (List.mem_of_getElem? hF)).2 i w he s hs
    rw [hfix, pow_one, zero_mul, add_zero] at this
    exact this
  obtain ⟨c, hmix⟩ := h.ring_at_rest hT hbp env hexp hlog hfit ⟨lp, L, ev⟩ 0 (d := 0) one_pos hlp hev hL hmod
    (fun f i w he => ⟨0, h.edge_pos he, by have := hbound f i w 0 he (h.edge_pos he); linarith⟩) (η := 0)
    (fun f i w s he hs => by rw [hfix, hfix, sub_self, abs_zero])
    (fun f i w s he hs => by rw [hfix]; have := hbound f i w s he hs; linarith) hr (fun F hF => (hcomp F hF).1)
  rw [hfix] at hmix
  refine ⟨_, _, c, k, hk0, hk1, hmix, fun d hd0 hd1 ms hms hinit => ?_⟩
  have hlen : ∀ n, (bp.runBP env ⟨lp, ms, ev⟩ n d).ftovMsgs.length = st.totalFactorNumStates := fun n => (h.run_read hbp env hfit ⟨lp, ms, ev⟩ d hlp hev n hms).1
  have hclose : ∀ n, ∀ w ∈ graphVars vgs, ∀ s < w.n, |beliefOf (graphOf vgs hist).allScopes (readEv st.varsToStarts ev)
      (readMsgs (graphOf vgs hist).allScopes (bp.runBP env ⟨lp, ms, ev⟩ n d).ftovMsgs) w s
      - beliefOf (graphOf vgs hist).allScopes (readEv st.varsToStarts ev) (readMsgs (graphOf vgs hist).allScopes L) w s| ≤ 2 * (2000 * (d + (1 - d) * k) ^ n) := by
    intro n w hw s hs
    have := beliefOf_close (scopes := (graphOf vgs hist).allScopes) (readEv st.varsToStarts ev) (m := readMsgs (graphOf vgs hist).allScopes (bp.runBP env ⟨lp, ms, ev⟩ n d).ftovMsgs)
      (m' := readMsgs (graphOf vgs hist).allScopes L) (D := 2000 * (d + (1 - d) * k) ^ n) (v := w) (s := s) (fun f i he => by
        obtain ⟨vs, h1, h2⟩ := he
        exact (hrun d hd0 hd1).1 ms hms hinit n _ (h.edgeStart_lt h1 h2 hs))
    rw [hdeg w hw] at this
    exact_mod_cast this
  refine ⟨fun n => beliefOf (graphOf vgs hist).allScopes (readEv st.varsToStarts ev) (readMsgs (graphOf vgs hist).allScopes (bp.runBP env ⟨lp, ms, ev⟩ n d).ftovMsgs),
    fun n w start hw s hs => C34_flat h hbp _ (hlen n) hev w start hw s hs, hclose, ?_⟩
  have htend : ∀ w ∈ graphVars vgs, ∀ s < w.n, Tendsto (fun n => beliefOf (graphOf vgs hist).allScopes (readEv st.varsToStarts ev)
      (readMsgs (graphOf vgs hist).allScopes (bp.runBP env ⟨lp, ms, ev⟩ n d).ftovMsgs) w s) atTop
      (𝓝 (beliefOf (graphOf vgs hist).allScopes (readEv st.varsToStarts ev) (readMsgs (graphOf vgs hist).allScopes L) w s)) := by
    intro w hw s hs
    rw [tendsto_iff_dist_tendsto_zero]
    refine squeeze_zero (fun _ => dist_nonneg) (fun n => ?_) (g := fun n => 2 * (2000 * (d + (1 - d) * k) ^ n)) ?_
    · rw [Real.dist_eq]
      exact hclose n w hw s hs
    · have h1 : 0 ≤ d + (1 - d) * k := add_nonneg hd0 (mul_nonneg (by linarith) hk0)
      have h2 : d + (1 - d) * k < 1 := by
        have := mul_lt_mul_of_pos_left hk1 (show 0 < 1 - d by linarith)
        linarith
      have := ((tendsto_pow_atTop_nhds_zero_of_lt_one h1 h2).const_mul 2000).const_mul (2 : ℝ)
      simpa using this
  have hev1 : ∀ w ∈ graphVars vgs, ∀ s ∈ Finset.range 2, ∀ t ∈ Finset.range 2, ∀ᶠ n in atTop,
      stateWeight T (graphVars vgs) ((graphOf vgs hist).factors lp) (readEv st.varsToStarts ev) w t + 4 * Real.exp (betheLogTotal T (graphVars vgs) ((graphOf vgs hist).factors lp) (readEv st.varsToStarts ev)
        (readMsgs (graphOf vgs hist).allScopes L)) * ringGap N T 0 0 < stateWeight T (graphVars vgs) ((graphOf vgs hist).factors lp) (readEv st.varsToStarts ev) w s →
      beliefOf (graphOf vgs hist).allScopes (readEv st.varsToStarts ev) (readMsgs (graphOf vgs hist).allScopes (bp.runBP env ⟨lp, ms, ev⟩ n d).ftovMsgs) w t <
        beliefOf (graphOf vgs hist).allScopes (readEv st.varsToStarts ev) (readMsgs (graphOf vgs hist).allScopes (bp.runBP env ⟨lp, ms, ev⟩ n d).ftovMsgs) w s := by
    intro w hw s hs t ht
    have hs := Finset.mem_range.1 hs
    have ht := Finset.mem_range.1 ht
    by_cases hlt : stateWeight T (graphVars vgs) ((graphOf vgs hist).factors lp) (readEv st.varsToStarts ev) w t + 4 * Real.exp (betheLogTotal T (graphVars vgs) ((graphOf vgs hist).factors lp) (readEv st.varsToStarts ev)
        (readMsgs (graphOf vgs hist).allScopes L)) * ringGap N T 0 0 < stateWeight T (graphVars vgs) ((graphOf vgs hist).factors lp) (readEv st.varsToStarts ev) w s
    · have := belief_lt hT (by rw [hn2 w hw]; exact hs) (hmix.order w hw s hs t ht hlt)
      filter_upwards [(htend w hw t (by rw [hn2 w hw]; exact ht)).eventually_lt (htend w hw s (by rw [hn2 w hw]; exact hs)) this] with n hn _ using hn
    · exact Eventually.of_forall fun n h' => absurd h' hlt
  have hall : ∀ᶠ n in atTop, ∀ w ∈ graphVars vgs, ∀ s ∈ Finset.range 2, ∀ t ∈ Finset.range 2, _ :=
    (Filter.eventually_all_finset _).2 fun w hw => (Filter.eventually_all_finset _).2 fun s hs => (Filter.eventually_all_finset _).2 fun t ht => hev1 w hw s hs t ht
  obtain ⟨n0, hn0⟩ := eventually_atTop.1 hall
  refine ⟨n0, fun n hn => ?_⟩
  obtain ⟨bs, rs, e1, e2, e3, e4⟩ := C35_partial h hbp (bp.runBP env ⟨lp, ms, ev⟩ n d) (hlen n) hev hreg hst
  refine ⟨bs, rs, e1, e2, e3, fun p hp w hw s hs hlt => ?_⟩
  have hpv : p.1 ∈ vgs := by rw [← e3]; exact List.mem_map_of_mem hp
  have hwv : w ∈ graphVars vgs := mem_graphVars.2 ⟨p.1, hpv, hw⟩
  have hbel := fun t (ht : t < 2) (hts : t ≠ s) => hn0 n hn w hwv s (Finset.mem_range.2 hs) t (Finset.mem_range.2 ht) (hlt t ht hts)
  refine (e4 p hp).stateIn hw ⟨by rw [hn2 w hwv]; exact hs, fun t ht => ?_, fun t ht => hbel t (by omega) (by omega)⟩
  rw [hn2 w hwv] at ht
  by_cases hts : t = s
  · rw [hts]
  · exact (hbel t ht hts).le

/-! ## Non-vacuity -/

theorem exRing : IsRing (graphVars exVars) [[exVar 0, exVar 1], [exVar 1, exVar 2], [exVar 2, exVar 0]] 3 exVar where
  pos := by decide
  mem := by
    have e : graphVars exVars = {exVar 0, exVar 1, exVar 2} := by decide +kernel
    intro w
    rw [e]
    simp only [Finset.mem_insert, Finset.mem_singleton]
    constructor
    · rintro (rfl | rfl | rfl)
      exacts [⟨0, by decide, rfl⟩, ⟨1, by decide, rfl⟩, ⟨2, by decide, rfl⟩]
    · rintro ⟨k, hk, rfl⟩
      interval_cases k
      exacts [.inl rfl, .inr (.inl rfl), .inr (.inr rfl)]
  inj := by decide +kernel
  binary := fun _ _ => rfl
  scopes := by decide +kernel

/-- Non-vacuity of `C111_limit`: the triangle `exHistL`, where equal states cost 1. -/
example {env : Env ℝ} (hexp : env.exp = Real.exp) (hlog : env.log = Real.log) (hw : env.wrapNeg = false) : ∃ (B : Var → Nat → ℝ) (C c : ℝ),
    RingMix (graphVars exVars) (stateWeight 1 (graphVars exVars) ((graphOf exVars exHistL).factors exLpL) (readEv exStateL.varsToStarts exEvT)) (fun w => gibbs (fun s => B w s / 1) w.n)
        (totalWeight 1 (graphVars exVars) ((graphOf exVars exHistL).factors exLpL) (readEv exStateL.varsToStarts exEvT)) C c (ringGap 3 1 0 0) := by
  obtain ⟨B, C, c, -, -, -, h, -⟩ := C111_limit exStateL_compiled one_pos (exBPL_create 1) env hexp hlog ⟨.inl hw, fun h => absurd h one_ne_zero⟩ exLpL exEvT rfl rfl exModerateL exStatedT.1 exStatedT.2
    (N := 3) exRing rfl (R := 1) (by norm_num) (fun F hF => ⟨exCompleteL F hF, by
      revert F
      rw [exFactorsL]
      simp only [SFac.Within, List.forall_mem_cons]
      norm_num⟩)
  exact ⟨B, C, c, h⟩

/-- A table for which messages 0 are at rest if the evidence is `0, log 2`. -/
noncomputable def exRowsRg : List (List Nat × ℝ) := [([0, 0], Real.log (3 / 2)), ([0, 1], Real.log (3 / 4)), ([1, 0], Real.log (3 / 4)), ([1, 1], Real.log (9 / 8))]

/-- The triangle of these tables. -/
noncomputable def exFacsRg : List (SFac ℝ) := [⟨[exVar 0, exVar 1], exRowsRg⟩, ⟨[exVar 1, exVar 2], exRowsRg⟩, ⟨[exVar 2, exVar 0], exRowsRg⟩]

noncomputable def exEvRg : Var → Nat → ℝ := fun _ s => if s = 0 then 0 else Real.log 2

theorem exFacRg {f : Nat} {F : SFac ℝ} (hF : exFacsRg[f]? = some F) : F.rows = exRowsRg ∧ F.scope.length = 2 ∧ ∀ w ∈ F.scope, w.n = 2 := by
  match f, hF with
  | 0, hF => cases hF; exact ⟨rfl, rfl, by simp [exVar]⟩
  | 1, hF => cases hF; exact ⟨rfl, rfl, by simp [exVar]⟩
  | 2, hF => cases hF; exact ⟨rfl, rfl, by simp [exVar]⟩

theorem exInRg {f : Nat} {F : SFac ℝ} (hF : exFacsRg[f]? = some F) {i : Nat} (hi : i < 2) (s : Nat) : tbIn exFacsRg exEvRg (fun _ _ _ => 0) f F i s = if s = 0 then 0 else Real.log 2 := by
  unfold tbIn
  rw [List.getElem?_eq_getElem (show i < F.scope.length by rw [(exFacRg hF).2.1]; exact hi)]
  simp [varToFac, exEvRg]

/-- Non-vacuity of `C111_exact`: distributions of variables and factors in the triangle that are consistent, with probability 2 / 3 of state 1; the tables are attractive. -/
theorem exConsistentRg : LocallyConsistent (graphVars exVars) exFacsRg 1 (rowDist 1 exFacsRg exEvRg (fun _ _ _ => 0)) (stateDist 1 exFacsRg exEvRg (fun _ _ _ => 0)) := by
  have hget : ∀ {f F}, exFacsRg[f]? = some F → exFacsRg.getD f ⟨[], []⟩ = F := fun {f F} hF => by rw [List.getD, hF]; rfl
  have hw : ∀ {f : Nat} {F : SFac ℝ}, exFacsRg[f]? = some F → F.rows.map (rowWeight 1 F.scope.length (tbIn exFacsRg exEvRg (fun _ _ _ => 0) f F)) = [3 / 2, 3 / 2, 3 / 2, 9 / 2] := by
    intro f F hF
    obtain ⟨h1, h2, -⟩ := exFacRg hF
    have e0 := exInRg hF (i := 0) (by decide)
    have e1 := exInRg hF (i := 1) (by decide)
    rw [h1, h2]
    simp only [exRowsRg, List.map_cons, List.map_nil, rowWeight, Finset.sum_range_succ, Finset.range_zero, Finset.sum_empty, List.getD_cons_zero, List.getD_cons_succ, e0, e1]
    simp only [if_true, one_ne_zero, if_false, div_one, zero_add, add_zero, Real.exp_add, Real.exp_log (show (0 : ℝ) < 2 by norm_num), Real.exp_log (show (0 : ℝ) < 3 / 2 by norm_num),
      Real.exp_log (show (0 : ℝ) < 3 / 4 by norm_num), Real.exp_log (show (0 : ℝ) < 9 / 8 by norm_num)]
    norm_num
  have hp : ∀ {f : Nat} {F : SFac ℝ}, exFacsRg[f]? = some F → ∀ k < 4, rowDist 1 exFacsRg exEvRg (fun _ _ _ => 0) f k = if k = 3 then 1 / 2 else 1 / 6 := by
    intro f F hF k hk
    have h4 := hw hF
    have hl : F.rows.length = 4 := by rw [(exFacRg hF).1]; rfl
    unfold rowDist SFac.rowProb
    rw [hget hF, h4]
    have e : rowWeight 1 F.scope.length (tbIn exFacsRg exEvRg (fun _ _ _ => 0) f F) (F.rows.getD k ([], 0)) = [3 / 2, 3 / 2, 3 / 2, 9 / 2].getD k (0 : ℝ) := by
      rw [← h4, List.getD_eq_getElem _ _ (by rw [hl]; exact hk), List.getD_eq_getElem _ _ (by rw [List.length_map, hl]; exact hk), List.getElem_map]
    rw [e]
    interval_cases k <;> norm_num
  have hb : ∀ w : Var, w.n = 2 → ∀ s < 2, stateDist 1 exFacsRg exEvRg (fun _ _ _ => 0) w s = if s = 0 then 1 / 3 else 2 / 3 := by
    intro w hw s hs
    unfold stateDist
    rw [hw, gibbs_eq, Finset.sum_range_succ, Finset.sum_range_one]
    simp only [beliefOf, List.map_const', List.sum_replicate, smul_zero, add_zero, exEvRg, div_one]
    interval_cases s
    · rw [if_pos rfl, if_pos rfl, if_neg one_ne_zero, Real.exp_log (by norm_num), Real.exp_zero]; norm_num
    · simp only [one_ne_zero, if_false, if_true, Real.exp_log (show (0 : ℝ) < 2 by norm_num), Real.exp_zero]; norm_num
  have hn : ∀ w ∈ graphVars exVars, w.n = 2 := by decide +kernel
  refine ⟨fun w hw => ?_, fun f F hF => ?_, fun f F i w hF hi s hs => ?_⟩
  · rw [hn w hw, Finset.sum_range_succ, Finset.sum_range_one, hb w (hn w hw) 0 (by decide), hb w (hn w hw) 1 (by decide)]
    norm_num
  · rw [(exFacRg hF).1, show exRowsRg.length = 4 from rfl, Finset.sum_congr rfl fun k hk => hp hF k (Finset.mem_range.1 hk)]
    norm_num [Finset.sum_range_succ]
  · have hw2 := (exFacRg hF).2.2 w (List.mem_of_getElem? hi)
    have hi2 : i < 2 := by
      rw [← (exFacRg hF).2.1]
      exact (List.getElem?_eq_some_iff.1 hi).1
    rw [hw2] at hs
    rw [hb w hw2 s hs]
    unfold SFac.placesAt
    rw [(exFacRg hF).1, show exRowsRg.length = 4 from rfl, Finset.sum_filter]
    have : ∀ k ∈ Finset.range 4, (if (exRowsRg.getD k ([], 0)).1[i]? = some s then rowDist 1 exFacsRg exEvRg (fun _ _ _ => 0) f k else 0) =
        if (exRowsRg.getD k ([], 0)).1[i]? = some s then (if k = 3 then 1 / 2 else 1 / 6) else 0 := fun k hk => by rw [hp hF k (Finset.mem_range.1 hk)]
    rw [Finset.sum_congr rfl this]
    interval_cases i <;> interval_cases s <;> norm_num [Finset.sum_range_succ, exRowsRg]

theorem exRowsFitRg : ∀ F ∈ exFacsRg, ∀ r ∈ F.rows, List.Forall₂ (fun s (v : Var) => s < v.n) r.1 F.scope := by
  simp only [exFacsRg, exRowsRg, List.forall_mem_cons]
  simp [exVar]

theorem exCompleteRg : ∀ F ∈ exFacsRg, F.Complete ∧ F.Rises F := by
  have hr : Real.log (3 / 4) + Real.log (3 / 4) ≤ Real.log (3 / 2) + Real.log (9 / 8) := by
    rw [← Real.log_mul (by norm_num) (by norm_num), ← Real.log_mul (by norm_num) (by norm_num)]
    exact Real.log_le_log (by norm_num) (by norm_num)
  have key : ∀ v w : Var, v.n = 2 → w.n = 2 → SFac.Complete ⟨[v, w], exRowsRg⟩ ∧ SFac.Rises ⟨[v, w], exRowsRg⟩ (⟨[v, w], exRowsRg⟩ : SFac ℝ) := by
    intro v w hv hw
    refine ⟨⟨by simp [exRowsRg], ?_⟩, rfl, ?_⟩
    · intro c hc
      match c, hc with
      | [a, b], .cons ha (.cons hb .nil) =>
        rw [hv] at ha
        rw [hw] at hb
        interval_cases a <;> interval_cases b <;> simp [exRowsRg]
    · intro r hr1 r' hr2
      simp only [exRowsRg, List.mem_cons, List.not_mem_nil, or_false] at hr1 hr2
      rcases hr1 with rfl | rfl | rfl | rfl <;> rcases hr2 with rfl | rfl | rfl | rfl <;>
        first
        | (refine ⟨([0, 0], Real.log (3 / 2)), by simp [exRowsRg], ([0, 0], Real.log (3 / 2)), by simp [exRowsRg], rfl, rfl, ?_⟩; linarith)
        | (refine ⟨([0, 1], Real.log (3 / 4)), by simp [exRowsRg], ([0, 0], Real.log (3 / 2)), by simp [exRowsRg], rfl, rfl, ?_⟩; linarith)
        | (refine ⟨([1, 0], Real.log (3 / 4)), by simp [exRowsRg], ([0, 0], Real.log (3 / 2)), by simp [exRowsRg], rfl, rfl, ?_⟩; linarith)
        | (refine ⟨([1, 1], Real.log (9 / 8)), by simp [exRowsRg], ([0, 0], Real.log (3 / 2)), by simp [exRowsRg], rfl, rfl, ?_⟩; linarith)
        | (refine ⟨([0, 1], Real.log (3 / 4)), by simp [exRowsRg], ([0, 1], Real.log (3 / 4)), by simp [exRowsRg], rfl, rfl, ?_⟩; linarith)
        | (refine ⟨([1, 0], Real.log (3 / 4)), by simp [exRowsRg], ([1, 0], Real.log (3 / 4)), by simp [exRowsRg], rfl, rfl, ?_⟩; linarith)
        | (refine ⟨([1, 1], Real.log (9 / 8)), by simp [exRowsRg], ([0, 1], Real.log (3 / 4)), by simp [exRowsRg], rfl, rfl, ?_⟩; linarith)
        | (refine ⟨([1, 1], Real.log (9 / 8)), by simp [exRowsRg], ([1, 0], Real.log (3 / 4)), by simp [exRowsRg], rfl, rfl, ?_⟩; linarith)
        | (refine ⟨([1, 1], Real.log (9 / 8)), by simp [exRowsRg], ([1, 1], Real.log (9 / 8)), by simp [exRowsRg], rfl, rfl, ?_⟩; linarith)
  simp only [exFacsRg, List.forall_mem_cons]
  exact ⟨key _ _ rfl rfl, key _ _ rfl rfl, key _ _ rfl rfl, by simp⟩

/-- In this triangle, all variables are more often in state 1, and their beliefs are too confident. -/
example : ∃ c : ℝ, 0 ≤ c ∧ c < 1 ∧ totalWeight 1 (graphVars exVars) exFacsRg exEvRg = Real.exp (betheLogTotal 1 (graphVars exVars) exFacsRg exEvRg (fun _ _ _ => 0)) * (1 + c) := by
  obtain ⟨c, h1, -, h3, h4⟩ := C111_exact (factors := exFacsRg) exRing one_pos exRowsFitRg exEvRg (fun _ _ _ => 0) exConsistentRg
  exact ⟨c, h4 exCompleteRg, (h3 fun F hF => (exCompleteRg F hF).1).2.1, h1⟩

end PGMax
