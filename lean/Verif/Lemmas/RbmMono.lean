import Verif.Spec.Rbm
import Mathlib.Algebra.Order.BigOperators.Group.Finset
import Mathlib.Tactic.Linarith
import Mathlib.Tactic.Positivity
import Mathlib.Tactic.Ring
import Mathlib.Tactic.FieldSimp
import Mathlib.Tactic.GCongr

/-!
# Restricted Boltzmann machines: how the log odds depend on biases, weights and evidence
-/

namespace PGMax

variable {α : Type _} [Field α] [LinearOrder α] [IsStrictOrderedRing α]

/-- What is used about `maxBump` and `sumBump`. -/
structure BumpLike (g : α → α → α) : Prop where
  mono : ∀ {w a a' : α}, 0 ≤ w → a ≤ a' → g w a ≤ g w a'
  weight : ∀ {w w' : α} (a : α), w ≤ w' → g w a ≤ g w' a
  small : ∀ w a : α, |g w a| ≤ |w|

theorem maxBump_like : BumpLike (maxBump : α → α → α) where
  mono := by
    intro w a a' hw ha
    unfold maxBump
    rcases max_cases 0 (w + a) with h1 | h1 <;> rcases max_cases 0 a with h2 | h2 <;> rcases max_cases 0 (w + a') with h3 | h3 <;> rcases max_cases 0 a' with h4 | h4 <;> linarith
  weight := by
    intro w w' a hw
    unfold maxBump
    have := max_le_max (le_refl (0 : α)) (add_le_add_left hw a)
    linarith
  small := by
    intro w a
    unfold maxBump
    rw [max_comm 0, max_comm 0]
    exact (abs_max_sub_max_le_abs _ _ _).trans (by simp)

theorem sumBump_like : BumpLike sumBump where
  mono := by
    intro w a a' hw ha
    unfold sumBump
    have h1 := Real.exp_pos a
    have h2 := Real.exp_pos a'
    have h3 := Real.exp_pos w
    refine Real.log_le_log (by positivity) ?_
    rw [div_le_div_iff₀ (by positivity) (by positivity), Real.exp_add, Real.exp_add]
    have h4 := Real.exp_le_exp.2 ha
    have h5 := Real.one_le_exp hw
    nlinarith [mul_nonneg (sub_nonneg.2 h4) (sub_nonneg.2 h5)]
  weight := by
    intro w w' a hw
    unfold sumBump
    have h1 := Real.exp_pos a
    refine Real.log_le_log (by positivity) ?_
    gcongr
  small := by
    intro w a
    unfold sumBump
    have h1 := Real.exp_pos a
    have h2 := Real.exp_pos w
    rw [Real.log_div (by positivity) (by positivity), abs_le, Real.exp_add]
    rcases le_total 0 w with h | h
    · rw [abs_of_nonneg h]
      have h5 := Real.one_le_exp h
      have p := Real.log_le_log (x := 1 + Real.exp a) (y := 1 + Real.exp w * Real.exp a) (by positivity) (by nlinarith)
      have q := Real.log_le_log (x := 1 + Real.exp w * Real.exp a) (y := Real.exp w * (1 + Real.exp a)) (by positivity) (by nlinarith)
      rw [Real.log_mul (by positivity) (by positivity), Real.log_exp] at q
      constructor <;> linarith
    · rw [abs_of_nonpos h]
      have h5 := Real.exp_le_one_iff.2 h
      have p := Real.log_le_log (y := 1 + Real.exp a) (x := 1 + Real.exp w * Real.exp a) (by positivity) (by nlinarith)
      have q := Real.log_le_log (y := 1 + Real.exp w * Real.exp a) (x := Real.exp w * (1 + Real.exp a)) (by positivity) (by nlinarith)
      rw [Real.log_mul (by positivity) (by positivity), Real.log_exp] at q
      constructor <;> linarith

variable {g : α → α → α} {N N' : RbmNet α} {eh eh' ev ev' : Nat → α} {d : α}

/-- A machine with the same units and weights, biases and evidence that are at least as large. -/
structure RbmNet.Below (N N' : RbmNet α) (eh eh' ev ev' : Nat → α) : Prop where
  nh : N'.nh = N.nh
  nv : N'.nv = N.nv
  bh : ∀ i < N.nh, N.bh i ≤ N'.bh i
  bv : ∀ j < N.nv, N.bv j ≤ N'.bv j
  w : ∀ i < N.nh, ∀ j < N.nv, N.w i j ≤ N'.w i j
  eh : ∀ i < N.nh, eh i ≤ eh' i
  ev : ∀ j < N.nv, ev j ≤ ev' j

theorem pow_le_one_of {d : α} (hd : 0 ≤ d ∧ d ≤ 1) (t : Nat) : 0 ≤ 1 - d ^ t := sub_nonneg.2 (pow_le_one₀ hd.1 hd.2)

theorem rbmMsgs_mono (hg : BumpLike g) (h : N.Below N' eh eh' ev ev') (hw : ∀ i < N.nh, ∀ j < N.nv, 0 ≤ N.w i j) (hd : 0 ≤ d ∧ d ≤ 1) (t : Nat) :
    ∀ i < N.nh, ∀ j < N.nv, (rbmMsgs g N eh ev d t).toV i j ≤ (rbmMsgs g N' eh' ev' d t).toV i j ∧ (rbmMsgs g N eh ev d t).toH i j ≤ (rbmMsgs g N' eh' ev' d t).toH i j := by
  induction t with
  | zero => intro i _ j _; exact ⟨le_rfl, le_rfl⟩
  | succ t ih =>
    intro i hi j hj
    have h1 : (0 : α) ≤ 1 - d := sub_nonneg.2 hd.2
    have h2 := pow_le_one_of hd t
    have e1 := hg.mono (hw i hi j hj) (add_le_add (add_le_add (h.eh i hi) (mul_le_mul_of_nonneg_left (h.bh i hi) h2))
      (Finset.sum_le_sum (s := (Finset.range N.nv).erase j) fun l hl => (ih i hi l (Finset.mem_range.1 (Finset.mem_of_mem_erase hl))).2))
    have e2 := hg.mono (hw i hi j hj) (add_le_add (add_le_add (h.ev j hj) (mul_le_mul_of_nonneg_left (h.bv j hj) h2))
      (Finset.sum_le_sum (s := (Finset.range N.nh).erase i) fun l hl => (ih l (Finset.mem_range.1 (Finset.mem_of_mem_erase hl)) j hj).1))
    simp only [rbmMsgs, h.nh, h.nv]
    exact ⟨add_le_add (mul_le_mul_of_nonneg_left (ih i hi j hj).1 hd.1) (mul_le_mul_of_nonneg_left (e1.trans (hg.weight _ (h.w i hi j hj))) h1),
      add_le_add (mul_le_mul_of_nonneg_left (ih i hi j hj).2 hd.1) (mul_le_mul_of_nonneg_left (e2.trans (hg.weight _ (h.w i hi j hj))) h1)⟩

/-- **Monotone.** If the weights are not negative, larger biases, weights and evidence give larger log odds. -/
theorem rbmOdds_mono (hg : BumpLike g) (h : N.Below N' eh eh' ev ev') (hw : ∀ i < N.nh, ∀ j < N.nv, 0 ≤ N.w i j) (hd : 0 ≤ d ∧ d ≤ 1) (t : Nat) :
    (∀ i < N.nh, hiddenOdds g N eh ev d t i ≤ hiddenOdds g N' eh' ev' d t i) ∧ ∀ j < N.nv, visibleOdds g N eh ev d t j ≤ visibleOdds g N' eh' ev' d t j := by
  have key := rbmMsgs_mono hg h hw hd t
  have h2 := pow_le_one_of hd t
  refine ⟨fun i hi => ?_, fun j hj => ?_⟩
  · unfold hiddenOdds
    rw [h.nv]
    exact add_le_add (add_le_add (h.eh i hi) (mul_le_mul_of_nonneg_left (h.bh i hi) h2)) (Finset.sum_le_sum fun l hl => (key i hi l (Finset.mem_range.1 hl)).2)
  · unfold visibleOdds
    rw [h.nh]
    exact add_le_add (add_le_add (h.ev j hj) (mul_le_mul_of_nonneg_left (h.bv j hj) h2)) (Finset.sum_le_sum fun l hl => (key l (Finset.mem_range.1 hl) j hj).1)

theorem rbmMsgs_small (hg : BumpLike g) (hd : 0 ≤ d ∧ d ≤ 1) (t i j : Nat) : |(rbmMsgs g N eh ev d t).toV i j| ≤ |N.w i j| ∧ |(rbmMsgs g N eh ev d t).toH i j| ≤ |N.w i j| := by
  have step : ∀ x y c : α, |x| ≤ c → |y| ≤ c → |d * x + (1 - d) * y| ≤ c := by
    intro x y c hx hy
    rw [abs_le] at *
    have h1 : (0 : α) ≤ 1 - d := sub_nonneg.2 hd.2
    constructor <;> nlinarith [mul_le_mul_of_nonneg_left hx.1 hd.1, mul_le_mul_of_nonneg_left hx.2 hd.1, mul_le_mul_of_nonneg_left hy.1 h1, mul_le_mul_of_nonneg_left hy.2 h1]
  induction t with
  | zero => simp [rbmMsgs]
  | succ t ih =>
    simp only [rbmMsgs]
    exact ⟨step _ _ _ ih.1 (hg.small _ _), step _ _ _ ih.2 (hg.small _ _)⟩

/-- **The other units move the log odds of a unit by no more than its weights.** -/
theorem rbmOdds_near (hg : BumpLike g) (hd : 0 ≤ d ∧ d ≤ 1) (t : Nat) :
    (∀ i, |hiddenOdds g N eh ev d t i - (eh i + (1 - d ^ t) * N.bh i)| ≤ ∑ j ∈ Finset.range N.nv, |N.w i j|) ∧
    ∀ j, |visibleOdds g N eh ev d t j - (ev j + (1 - d ^ t) * N.bv j)| ≤ ∑ i ∈ Finset.range N.nh, |N.w i j| := by
  refine ⟨fun i => ?_, fun j => ?_⟩
  · unfold hiddenOdds
    rw [add_sub_cancel_left]
    exact (Finset.abs_sum_le_sum_abs _ _).trans (Finset.sum_le_sum fun l _ => (rbmMsgs_small hg hd t i l).2)
  · unfold visibleOdds
    rw [add_sub_cancel_left]
    exact (Finset.abs_sum_le_sum_abs _ _).trans (Finset.sum_le_sum fun l _ => (rbmMsgs_small hg hd t l j).1)

/-- The machine with the roles of hidden and visible units exchanged. -/
def RbmNet.swap (N : RbmNet α) : RbmNet α := ⟨N.nv, N.nh, N.bv, N.bh, fun i j => N.w j i⟩

omit [IsStrictOrderedRing α] in
theorem rbmMsgs_swap (t : Nat) : rbmMsgs g N.swap ev eh d t = ⟨fun i j => (rbmMsgs g N eh ev d t).toH j i, fun i j => (rbmMsgs g N eh ev d t).toV j i⟩ := by
  induction t with
  | zero => rfl
  | succ t ih =>
    simp only [rbmMsgs, ih]
    rfl

omit [IsStrictOrderedRing α] in
/-- **Hidden and visible units play the same role.** -/
theorem rbmOdds_swap (t i : Nat) : hiddenOdds g N.swap ev eh d t i = visibleOdds g N eh ev d t i ∧ visibleOdds g N.swap ev eh d t i = hiddenOdds g N eh ev d t i := by
  unfold hiddenOdds visibleOdds
  rw [rbmMsgs_swap]
  exact ⟨rfl, rfl⟩

omit [IsStrictOrderedRing α] in
/-- Machines that agree on their units have the same log odds. -/
theorem rbmOdds_weights (g : α → α → α) (h1 : N.nh = N'.nh) (h2 : N.nv = N'.nv) (h3 : ∀ i < N.nh, N.bh i = N'.bh i) (h4 : ∀ j < N.nv, N.bv j = N'.bv j)
    (h5 : ∀ i < N.nh, ∀ j < N.nv, N.w i j = N'.w i j) (t : Nat) :
    (∀ i < N.nh, hiddenOdds g N eh ev d t i = hiddenOdds g N' eh ev d t i) ∧ ∀ j < N.nv, visibleOdds g N eh ev d t j = visibleOdds g N' eh ev d t j := by
  have key : ∀ i < N.nh, ∀ j < N.nv, (rbmMsgs g N eh ev d t).toV i j = (rbmMsgs g N' eh ev d t).toV i j ∧ (rbmMsgs g N eh ev d t).toH i j = (rbmMsgs g N' eh ev d t).toH i j := by
    induction t with
    | zero => intro i _ j _; exact ⟨rfl, rfl⟩
    | succ t ih =>
      intro i hi j hj
      simp only [rbmMsgs]
      rw [(ih i hi j hj).1, (ih i hi j hj).2, h3 i hi, h4 j hj, h5 i hi j hj, ← h1, ← h2,
        Finset.sum_congr rfl fun l hl => (ih i hi l (Finset.mem_range.1 (Finset.mem_of_mem_erase hl))).2,
        Finset.sum_congr rfl fun l hl => (ih l (Finset.mem_range.1 (Finset.mem_of_mem_erase hl)) j hj).1]
      exact ⟨rfl, rfl⟩
  refine ⟨fun i hi => ?_, fun j hj => ?_⟩
  · unfold hiddenOdds
    rw [h3 i hi, ← h2, Finset.sum_congr rfl fun l hl => (key i hi l (Finset.mem_range.1 hl)).2]
  · unfold visibleOdds
    rw [h4 j hj, ← h1, Finset.sum_congr rfl fun l hl => (key l (Finset.mem_range.1 hl) j hj).1]

end PGMax
