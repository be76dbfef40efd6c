import Verif.Lemmas.RbmRun
import Verif.Props.C37_C54
import Verif.Props.C60

/-! # C89: marginals in the RBM program -/

namespace PGMax

theorem bumps_sum : Bumps (fun _ => lse 1) sumBump where
  one _ x := by simp [lse]
  two _ w a b := by
    have ha := Real.exp_pos a
    have hb := Real.exp_pos b
    have hwb := Real.exp_pos (w + b)
    simp only [lse, List.map_cons, List.map_nil, List.sum_cons, List.sum_nil, div_one, one_mul, add_zero]
    unfold sumBump
    rw [← Real.log_div (by positivity) (by positivity)]
    congr 1
    rw [show w + (b - a) = (w + b) - a by ring, Real.exp_sub, Real.exp_sub]
    field_simp
  le w a := by
    unfold sumBump
    have h0 := Real.exp_pos a
    have key : ∀ u v : ℝ, u ≤ v → 0 ≤ Real.log ((1 + Real.exp v) / (1 + Real.exp u)) ∧ Real.log ((1 + Real.exp v) / (1 + Real.exp u)) ≤ v - u := by
      intro u v huv
      have h1 := Real.exp_pos u
      have h2 := Real.exp_pos v
      have h3 := Real.exp_le_exp.2 huv
      constructor
      · apply Real.log_nonneg
        rw [le_div_iff₀ (by positivity)]
        linarith
      · rw [Real.log_le_iff_le_exp (by positivity), div_le_iff₀ (by positivity), Real.exp_sub, div_mul_eq_mul_div, le_div_iff₀ h1]
        nlinarith
    rcases le_total 0 w with hw | hw
    · have := key a (w + a) (by linarith)
      rw [abs_of_nonneg this.1, abs_of_nonneg hw]
      linarith [this.2]
    · have := key (w + a) a (by linarith)
      rw [← inv_div, Real.log_inv, abs_neg, abs_of_nonneg this.1, abs_of_nonpos hw]
      linarith [this.2]

theorem logistic_sub {x y : ℝ} (h : y ≤ x) : 0 ≤ logistic x - logistic y ∧ logistic x - logistic y ≤ x - y := by
  have h1 := Real.exp_pos (-x)
  have h2 := Real.exp_pos (-y)
  have h3 : Real.exp (-x) ≤ Real.exp (-y) := Real.exp_le_exp.2 (by linarith)
  have h4 : Real.exp (-x) = Real.exp (-y) * Real.exp (y - x) := by rw [← Real.exp_add]; ring_nf
  have h5 := Real.add_one_le_exp (y - x)
  have e : logistic x - logistic y = (Real.exp (-y) - Real.exp (-x)) / ((1 + Real.exp (-x)) * (1 + Real.exp (-y))) := by
    unfold logistic
    field_simp
    ring
  rw [e]
  refine ⟨div_nonneg (by linarith) (by positivity), ?_⟩
  rw [div_le_iff₀ (by positivity)]
  have h6 : Real.exp (-y) - Real.exp (-x) ≤ Real.exp (-y) * (x - y) := by
    rw [h4]; nlinarith
  refine h6.trans ?_
  have h7 : 0 ≤ x - y := by linarith
  have h8 : Real.exp (-y) ≤ (1 + Real.exp (-x)) * (1 + Real.exp (-y)) := by nlinarith [mul_pos h1 h2]
  nlinarith

/-- Close log odds have close probabilities. -/
theorem logistic_close (x y : ℝ) : |logistic x - logistic y| ≤ |x - y| := by
  rcases le_total y x with h | h
  · obtain ⟨h1, h2⟩ := logistic_sub h
    rwa [abs_of_nonneg h1, abs_of_nonneg (by linarith)]
  · obtain ⟨h1, h2⟩ := logistic_sub h
    rw [abs_sub_comm, abs_sub_comm x]
    rwa [abs_of_nonneg h1, abs_of_nonneg (by linarith)]

theorem gibbs_logistic (f : Nat → ℝ) : gibbs f 2 1 = logistic (f 1 - f 0) ∧ gibbs f 2 0 = 1 - logistic (f 1 - f 0) := by
  have h0 := Real.exp_pos (f 0)
  have h1 := Real.exp_pos (f 1)
  have e : Real.exp (-(f 1 - f 0)) = Real.exp (f 0) / Real.exp (f 1) := by rw [← Real.exp_sub]; ring_nf
  unfold gibbs logistic
  simp only [List.range_succ, List.range_zero, List.nil_append, List.cons_append, List.map_cons, List.map_nil, List.sum_cons, List.sum_nil, add_zero]
  rw [e]
  constructor
  · field_simp
    ring
  · field_simp
    ring

section
variable {κ : Type} {idH idV : Nat} {bh bv : List ℝ} {W : NDArr ℝ} {s : RbmSetup κ ℝ} {hist : List (AddArg ℝ)} {garbage : Garbage} {st : FGState κ ℝ}

theorem RbmBuilt.inputs {T : ℝ} (h : RbmBuilt idH idV bh bv W T s hist garbage st) (hid : idH % 2 ^ 32 ≠ idV % 2 ^ 32) (hs : RbmSizes bh bv W) :
    ∀ vs ∈ (graphOf (rVgs κ idH idV bh.length bv.length) hist).allScopes, ∀ i < vs.length,
      (inputsBut (graphOf (rVgs κ idH idV bh.length bv.length) hist).allScopes vs i : ℝ) ≤ bh.length + bv.length := by
  intro vs hvs i hi
  rw [h.scopes] at hvs ⊢
  have hv := rbmVars hid hs
  have eh : ∀ i < bh.length, (edgesOf (((RbmNet.ofLists bh bv W.data).factors (rHid idH bh.length) (rHid idV bv.length)).map (·.scope)) (rHid idH bh.length i)).length = bv.length + 1 := by
    intro i hi
    rw [(hv.edges_h hi).length_eq]
    simp [RbmNet.ofLists]
  have ev : ∀ j < bv.length, (edgesOf (((RbmNet.ofLists bh bv W.data).factors (rHid idH bh.length) (rHid idV bv.length)).map (·.scope)) (rHid idV bv.length j)).length = bh.length + 1 := by
    intro i hi
    rw [(hv.edges_v hi).length_eq]
    simp [RbmNet.ofLists]
  obtain ⟨F, hF, rfl⟩ := List.mem_map.1 hvs
  obtain ⟨f, hF⟩ := List.mem_iff_getElem?.1 hF
  have : inputsBut (((RbmNet.ofLists bh bv W.data).factors (rHid idH bh.length) (rHid idV bv.length)).map (·.scope)) F.scope i ≤ bh.length + bv.length := by
    unfold inputsBut
    rcases RbmNet.fac_cases hF with ⟨i', hi', rfl, rfl⟩ | ⟨j, hj, rfl, rfl⟩ | ⟨i', hi', j, hj, rfl, rfl⟩
    · obtain rfl : i = 0 := by simpa using hi
      simp [List.range_succ]
    · obtain rfl : i = 0 := by simpa using hi
      simp [List.range_succ]
    · have hi : i < 2 := hi
      have e1 := eh i' hi'
      have e2 := ev j hj
      interval_cases i
      · simp [List.range_succ]
        rw [e2]; omega
      · simp [List.range_succ]
        rw [e1]; omega
  exact_mod_cast this

/-- The log odds of the beliefs are close to those of the specification. -/
theorem RbmBuilt.sum_odds [DecidableEq κ] (h : RbmBuilt idH idV bh bv W (1 : ℝ) s hist garbage st) (hid : idH % 2 ^ 32 ≠ idV % 2 ^ 32) (hs : RbmSizes bh bv W) {env : Env ℝ}
    (hexp : env.exp = Real.exp) (hlog : env.log = Real.log)
    (hsize : env.wrapNeg = false ∨ 4 * (bh.length * bv.length) + 2 * bh.length + 2 * bv.length + 2 ≤ 100000) {Eh Ev : List ℝ} {arrs : BPArrays ℝ}
    (hi : RbmInit idH idV bh bv Eh Ev s st arrs) {e : ℝ} (heh : ∀ x ∈ Eh, |x| ≤ e) (hev : ∀ x ∈ Ev, |x| ≤ e) (he0 : 0 ≤ e) (hsm : (RbmNet.ofLists bh bv W.data).Small e) {d : ℝ}
    (hd : 0 ≤ d ∧ d ≤ 1) (t : Nat) : (s.bp.runBP env arrs t d).ftovMsgs.length = st.totalFactorNumStates ∧
    (∀ i < bh.length, |beliefOf (graphOf (rVgs κ idH idV bh.length bv.length) hist).allScopes (readEv st.varsToStarts arrs.evidence)
        (readMsgs (graphOf (rVgs κ idH idV bh.length bv.length) hist).allScopes (s.bp.runBP env arrs t d).ftovMsgs) (rHid idH bh.length i) 1 -
      beliefOf (graphOf (rVgs κ idH idV bh.length bv.length) hist).allScopes (readEv st.varsToStarts arrs.evidence)
        (readMsgs (graphOf (rVgs κ idH idV bh.length bv.length) hist).allScopes (s.bp.runBP env arrs t d).ftovMsgs) (rHid idH bh.length i) 0 -
      hiddenOdds sumBump (RbmNet.ofLists bh bv W.data) (pairOdds Eh) (pairOdds Ev) d t i| ≤
        2 * ((bv.length + 1) * (Real.exp (-100000) * ∑ k ∈ Finset.range t, (2 * ((bh.length : ℝ) + bv.length)) ^ k))) ∧
    (∀ j < bv.length, |beliefOf (graphOf (rVgs κ idH idV bh.length bv.length) hist).allScopes (readEv st.varsToStarts arrs.evidence)
        (readMsgs (graphOf (rVgs κ idH idV bh.length bv.length) hist).allScopes (s.bp.runBP env arrs t d).ftovMsgs) (rHid idV bv.length j) 1 -
      beliefOf (graphOf (rVgs κ idH idV bh.length bv.length) hist).allScopes (readEv st.varsToStarts arrs.evidence)
        (readMsgs (graphOf (rVgs κ idH idV bh.length bv.length) hist).allScopes (s.bp.runBP env arrs t d).ftovMsgs) (rHid idV bv.length j) 0 -
      visibleOdds sumBump (RbmNet.ofLists bh bv W.data) (pairOdds Eh) (pairOdds Ev) d t j| ≤
        2 * ((bh.length + 1) * (Real.exp (-100000) * ∑ k ∈ Finset.range t, (2 * ((bh.length : ℝ) + bv.length)) ^ k))) := by
  obtain ⟨state, hbp, -⟩ := h.bp
  obtain ⟨b, q1, q2, q3, q4, q5, q6⟩ := h.tame hid hs hi heh hev he0 hsm hd
  have hlp : arrs.logPotentials.length = st.logPotentials.length := by rw [hi.pots]
  refine ⟨h.compiled.run_length hbp env arrs t d hlp q5, ?_⟩
  have hv := rbmVars hid hs
  have hL1 : (1 : ℝ) ≤ bh.length + bv.length := by
    have : 1 ≤ bh.length + bv.length := by have := hs.1; omega
    exact_mod_cast this
  have hrun := C54_tame_partial h.compiled one_pos hbp env hexp hlog (h.fits hsize) arrs t d hlp hi.len q5 b q1 q4 q3 hL1 (h.inputs hid hs)
  have hspec := hv.spec_odds bumps_sum hd (readEv st.varsToStarts arrs.evidence) (eh := pairOdds Eh) (ev' := pairOdds Ev)
    (fun i hi' => by rw [hi.evH i hi' 1 (by omega), hi.evH i hi' 0 (by omega)]; rfl)
    (fun i hi' => by rw [hi.evV i hi' 1 (by omega), hi.evV i hi' 0 (by omega)]; rfl) hsm q6 t
  rw [hi.pots, h.factors, one_mul] at hrun
  have eh : ∀ i < bh.length, (edgesOf (graphOf (rVgs κ idH idV bh.length bv.length) hist).allScopes (rHid idH bh.length i)).length = bv.length + 1 := by
    intro i hi
    rw [h.scopes, (hv.edges_h hi).length_eq]
    simp [RbmNet.ofLists]
  have ev : ∀ j < bv.length, (edgesOf (graphOf (rVgs κ idH idV bh.length bv.length) hist).allScopes (rHid idV bv.length j)).length = bh.length + 1 := by
    intro i hi
    rw [h.scopes, (hv.edges_v hi).length_eq]
    simp [RbmNet.ofLists]
  rw [← h.scopes] at hspec
  have close : ∀ v : Var, v.n = 2 → ∀ s < 2, _ := fun v hv s hs => beliefOf_close (readEv st.varsToStarts arrs.evidence) (v := v) (s := s) (fun f i he => hrun f i v s he (by omega))
  refine ⟨fun i hi' => ?_, fun j hj' => ?_⟩
  · have c1 := close (rHid idH bh.length i) rfl 1 (by omega)
    have c0 := close (rHid idH bh.length i) rfl 0 (by omega)
    rw [eh i hi', Nat.cast_add, Nat.cast_one] at c1 c0
    rw [← hspec.1 i hi']
    rw [abs_le] at *
    constructor <;> linarith [c1.1, c1.2, c0.1, c0.2]
  · have c1 := close (rHid idV bv.length j) rfl 1 (by omega)
    have c0 := close (rHid idV bv.length j) rfl 0 (by omega)
    rw [ev j hj', Nat.cast_add, Nat.cast_one] at c1 c0
    rw [← hspec.2 j hj']
    rw [abs_le] at *
    constructor <;> linarith [c1.1, c1.2, c0.1, c0.2]

end

theorem unitMarginals_length (p : Nat → ℝ) (n : Nat) : (unitMarginals p n).length = n * 2 := by
  unfold unitMarginals
  simp [List.length_flatMap]

theorem unitMarginals_getElem (p : Nat → ℝ) {n k s : Nat} (hk : k < n) (hs : s < 2) : (unitMarginals p n)[k * 2 + s]? = some (if s = 0 then some (1 - p k) else some (p k)) := by
  have h := flatMap_getElem?_block (List.range n) (fun i => [some (1 - p i), some (p i)]) k s k (by simp [hk]) (by simpa using hs)
  have e : (((List.range n).map (fun y => [some (1 - p y), some (p y)].length)).take k).sum = k * 2 := by
    simp only [List.length_cons, List.length_nil]
    rw [List.map_const', List.length_range, List.take_replicate, List.sum_replicate, Nat.min_eq_left hk.le]
    simp
  rw [e] at h
  unfold unitMarginals
  rw [h]
  interval_cases s <;> rfl

theorem tiny_error {a b c : ℕ} (ha : a ≤ 1000000000) (hb : b ≤ 1000000000) (hc : c ≤ 1000000000) (h1 : 1 ≤ a) :
    2 * (((c : ℝ) + 1) * (Real.exp (-100000) * ∑ k ∈ Finset.range 100, (2 * ((a : ℝ) + b)) ^ k)) ≤ Real.exp (-90000) := by
  have ha' : (a : ℝ) ≤ 1000000000 := by exact_mod_cast ha
  have hb' : (b : ℝ) ≤ 1000000000 := by exact_mod_cast hb
  have hc' : (c : ℝ) ≤ 1000000000 := by exact_mod_cast hc
  have h1' : (1 : ℝ) ≤ a := by exact_mod_cast h1
  have hb0 : (0 : ℝ) ≤ b := Nat.cast_nonneg _
  have hc0 : (0 : ℝ) ≤ c := Nat.cast_nonneg _
  have s1 : ∑ k ∈ Finset.range 100, (2 * ((a : ℝ) + b)) ^ k ≤ 100 * (4000000000 : ℝ) ^ 100 := by
    calc ∑ k ∈ Finset.range 100, (2 * ((a : ℝ) + b)) ^ k ≤ ∑ k ∈ Finset.range 100, (4000000000 : ℝ) ^ 100 := by
          refine Finset.sum_le_sum fun k hk => ?_
          rw [Finset.mem_range] at hk
          exact (pow_le_pow_right₀ (by linarith) hk.le).trans (pow_le_pow_left₀ (by linarith) (by linarith) _)
      _ = _ := by simp
  have e1 : Real.exp (-100000) = Real.exp (-90000) * (Real.exp 10000)⁻¹ := by
    rw [← Real.exp_neg, ← Real.exp_add]; norm_num
  have e2 : (2 : ℝ) ^ 10000 ≤ Real.exp 10000 := by
    have : Real.exp 10000 = Real.exp 1 ^ 10000 := by rw [← Real.exp_nat_mul]; norm_num
    rw [this]
    exact pow_le_pow_left₀ (by norm_num) (by linarith [Real.add_one_le_exp (1 : ℝ)]) _
  have e3 : 2 * ((1000000000 : ℝ) + 1) * (100 * (4000000000 : ℝ) ^ 100) ≤ (2 : ℝ) ^ 10000 := by
    have : 2 * (1000000000 + 1) * (100 * 4000000000 ^ 100) ≤ 2 ^ 10000 := by decide +kernel
    exact_mod_cast this
  have hp := Real.exp_pos (-90000)
  have hq := Real.exp_pos (10000)
  rw [e1]
  have hS : (0 : ℝ) ≤ ∑ k ∈ Finset.range 100, (2 * ((a : ℝ) + b)) ^ k := Finset.sum_nonneg fun k _ => by positivity
  generalize ∑ k ∈ Finset.range 100, (2 * ((a : ℝ) + b)) ^ k = S at *
  have e4 : 2 * ((c : ℝ) + 1) * S ≤ Real.exp 10000 := by
    refine le_trans ?_ (e3.trans e2)
    have : 2 * ((c : ℝ) + 1) ≤ 2 * ((1000000000 : ℝ) + 1) := by linarith
    exact mul_le_mul this s1 hS (by norm_num)
  calc 2 * (((c : ℝ) + 1) * (Real.exp (-90000) * (Real.exp 10000)⁻¹ * S)) = Real.exp (-90000) * ((2 * ((c : ℝ) + 1) * S) / Real.exp 10000) := by
        rw [div_eq_mul_inv]; ring
    _ ≤ Real.exp (-90000) * 1 := mul_le_mul_of_nonneg_left ((div_le_one hq).2 e4) hp.le
    _ = _ := mul_one _

/-- The marginals of an array of variables with two states. -/
theorem marginals_two {κ : Type} {B : Var → Nat → ℝ} (id n : Nat) (r : GroupMarginals κ ℝ) (hn : 1 ≤ n) (hr : (VGroup.arr (uniArr id [n] 2) : VGroup κ).HasMarginals B r) :
    r = .arr ⟨[n, 2], unitMarginals (fun i => logistic (B (rHid id n i) 1 - B (rHid id n i) 0)) n⟩ := by
  cases r with
  | dict => exact hr.elim
  | arr r =>
    obtain ⟨m, r0, r1, r2, r3⟩ := hr
    obtain ⟨sh, dat⟩ := r
    obtain rfl : m = 2 := by
      refine (List.mem_replicate.1 (r0.2 ?_)).2
      rw [← List.length_pos_iff_ne_nil]
      simp [uniArr]
      omega
    have r2 : sh = [n, 2] := r2
    subst r2
    have hl : dat.length = n * 2 := by simpa [NDArr.WF] using r1
    refine congrArg (fun x => GroupMarginals.arr ⟨[n, 2], x⟩) ?_
    apply List.ext_getElem?
    intro c
    by_cases hc : c < n * 2
    · have hk : c / 2 < n := by omega
      have hd : c / 2 * 2 + c % 2 = c := by omega
      have h2 : c % 2 < 2 := by omega
      have hv := r3 (c / 2) (rHid id n (c / 2)) (c % 2) (by
        unfold NDVarArray.variables NDVarArray.variableHashes uniArr
        simp [hk, uniCell, rowMajor]) h2
      have hu := unitMarginals_getElem (fun i => logistic (B (rHid id n i) 1 - B (rHid id n i) 0)) hk h2
      simp only [hd] at hv hu
      rw [hv, hu, if_pos (show c % 2 < (rHid id n (c / 2)).n from h2), show (rHid id n (c / 2)).n = 2 from rfl]
      congr 1
      have hg := gibbs_logistic (B (rHid id n (c / 2)))
      rcases Nat.mod_two_eq_zero_or_one c with e | e <;> rw [e]
      · exact congrArg some hg.2
      · exact congrArg some hg.1
    · rw [List.getElem?_eq_none (by omega), List.getElem?_eq_none (by rw [unitMarginals_length]; omega)]

/-- **C89.** The sum-product part of the RBM program returns marginals, two for every unit, that differ by at most `exp (-90000)` from the probabilities with the log odds of
`Verif.Spec.Rbm` after 100 iterations with damping 1/2. -/
theorem C89 {κ : Type} [DecidableEq κ] {idH idV idA idB idP : Nat} (hid : idH % 2 ^ 32 ≠ idV % 2 ^ 32) (hf : [idA, idB, idP].Nodup) {bh bv : List ℝ} {W : NDArr ℝ} (hs : RbmSizes bh bv W)
    (garbage : Garbage) (stateId : Nat) {env : Env ℝ} (hexp : env.exp = Real.exp) (hlog : env.log = Real.log)
    (hsize : env.wrapNeg = false ∨ 4 * (bh.length * bv.length) + 2 * bh.length + 2 * bv.length + 2 ≤ 100000) (hsm : (RbmNet.ofLists bh bv W.data).Small 0) :
    ∃ s ph pv, rbmSetup κ idH idV idA idB idP garbage stateId bh bv W 1 = .ok s ∧ rbmMarginals env s = .ok [
        (.arr s.net.hidden, .arr ⟨[bh.length, 2], unitMarginals ph bh.length⟩), (.arr s.net.visible, .arr ⟨[bv.length, 2], unitMarginals pv bv.length⟩)] ∧
      (∀ i < bh.length, |ph i - logistic (hiddenOdds sumBump (RbmNet.ofLists bh bv W.data) (fun _ => 0) (fun _ => 0) (1 / 2) 100 i)| ≤ Real.exp (-90000)) ∧
      ∀ j < bv.length, |pv j - logistic (visibleOdds sumBump (RbmNet.ofLists bh bv W.data) (fun _ => 0) (fun _ => 0) (1 / 2) 100 j)| ≤ Real.exp (-90000) := by
  obtain ⟨s, hist, st, h1, h2⟩ := rbm_setup (κ := κ) hid hf hs garbage stateId (1 : ℝ)
  obtain ⟨arrs, h3, h4⟩ := h2.init_none
  obtain ⟨state, hbp, -⟩ := h2.bp
  obtain ⟨b1, b2, b3⟩ := h2.sum_odds hid hs hexp hlog hsize h4 (by simp) (by simp) le_rfl hsm (d := 1 / 2) ⟨by norm_num, by norm_num⟩ 100
  have hz : pairOdds ([] : List ℝ) = fun _ => 0 := by funext i; simp [pairOdds]
  rw [hz] at b2 b3
  have hre : (s.bp.runBP env arrs 100 (1 / 2)).evidence = arrs.evidence := runBP_evidence ..
  obtain ⟨bs, rs, e1, e2, e3, e4⟩ := C36_partial h2.compiled hbp env hexp hlog (s.bp.runBP env arrs 100 (1 / 2)) b1 (by rw [hre]; exact h4.len) (rbm_groups hs).1 (rbm_groups hs).2
  rw [hre] at e4
  generalize beliefOf (graphOf (rVgs κ idH idV bh.length bv.length) hist).allScopes (readEv st.varsToStarts arrs.evidence)
        (readMsgs (graphOf (rVgs κ idH idV bh.length bv.length) hist).allScopes (s.bp.runBP env arrs 100 (1 / 2)).ftovMsgs) = B at *
  refine ⟨s, fun i => logistic (B (rHid idH bh.length i) 1 - B (rHid idH bh.length i) 0), fun i => logistic (B (rHid idV bv.length i) 1 - B (rHid idV bv.length i) 0), h1, ?_,
    fun i hi => (logistic_close _ _).trans ((b2 i hi).trans (tiny_error hs.2.1 hs.2.2.2.1 hs.2.2.2.1 hs.1)),
    fun i hi => (logistic_close _ _).trans ((b3 i hi).trans (tiny_error hs.2.1 hs.2.2.2.1 hs.2.1 hs.1))⟩
  unfold rbmMarginals
  rw [h3, py_ok_bind, e1, py_ok_bind, e2]
  match rs, e3, e4 with
  | [], e3, _ => simp [rVgs] at e3
  | [_], e3, _ => simp [rVgs] at e3
  | _ :: _ :: _ :: _, e3, _ => simp [rVgs] at e3
  | [(g, r), (g', r')], e3, e4 =>
    obtain ⟨rfl, rfl⟩ : g = .arr (uniArr idH [bh.length] 2) ∧ g' = .arr (uniArr idV [bv.length] 2) := by simpa [rVgs] using e3
    rw [marginals_two _ _ r hs.1 (e4 (.arr (uniArr idH [bh.length] 2), r) (by simp)), marginals_two _ _ r' hs.2.2.1 (e4 (.arr (uniArr idV [bv.length] 2), r') (by simp)), h2.hidden, h2.visible]

/-- Non-vacuity: a machine with two hidden units and one visible unit meets the hypotheses; after one iteration, the log odds of its visible unit are not those of max-product. -/
example (env : Env ℝ) (hexp : env.exp = Real.exp) (hlog : env.log = Real.log) (hw : env.wrapNeg = false) :
    (∃ s ph pv, rbmSetup Nat 2000000000 2500000000 1 2 3 (fun _ _ => 0) 5 [1, -1] [1 / 2] (⟨[2, 1], [2, -3]⟩ : NDArr ℝ) 1 = .ok s ∧ rbmMarginals env s = .ok [
        (.arr s.net.hidden, .arr ⟨[2, 2], unitMarginals ph 2⟩), (.arr s.net.visible, .arr ⟨[1, 2], unitMarginals pv 1⟩)] ∧
      (∀ i < 2, |ph i - logistic (hiddenOdds sumBump (RbmNet.ofLists [1, -1] [1 / 2] [2, -3]) (fun _ => 0) (fun _ => 0) (1 / 2) 100 i)| ≤ Real.exp (-90000)) ∧
      ∀ j < 1, |pv j - logistic (visibleOdds sumBump (RbmNet.ofLists [1, -1] [1 / 2] [2, -3]) (fun _ => 0) (fun _ => 0) (1 / 2) 100 j)| ≤ Real.exp (-90000)) ∧
    visibleOdds sumBump (RbmNet.ofLists [1] [0] [2]) (fun _ => 0) (fun _ => 0) 0 1 0 < visibleOdds maxBump (RbmNet.ofLists [1] [0] [2]) (fun _ => 0) (fun _ => 0) 0 1 0 := by
  refine ⟨C89 (κ := Nat) (idH := 2000000000) (idV := 2500000000) (idA := 1) (idB := 2) (idP := 3) (bh := [1, -1]) (bv := [1 / 2]) (W := ⟨[2, 1], [2, -3]⟩)
    (by norm_num) (by decide) (by unfold RbmSizes; simp) (fun _ _ => 0) 5 hexp hlog (.inl hw) ⟨2, 3, ?_, ?_, ?_, by norm_num, by norm_num, by norm_num [RbmNet.ofLists]⟩, ?_⟩
  · intro i hi
    have hi : i < 2 := hi
    interval_cases i <;> norm_num [RbmNet.ofLists]
  · intro i hi
    have hi : i < 1 := hi
    interval_cases i
    norm_num [RbmNet.ofLists, abs_le]
  · intro i hi j hj
    have hi : i < 2 := hi
    have hj : j < 1 := hj
    interval_cases i <;> interval_cases j <;> norm_num [RbmNet.ofLists]
  · simp only [visibleOdds, rbmMsgs, RbmNet.ofLists, sumBump, maxBump]
    norm_num
    rw [Real.log_lt_iff_lt_exp (by positivity), div_lt_iff₀ (by norm_num)]
    nlinarith [Real.add_one_lt_exp (x := 2) (by norm_num)]

end PGMax
