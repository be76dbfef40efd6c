import Verif.Props.C90

/-! # The log odds of a torus for related evidence -/

namespace PGMax

variable {α : Type} [Field α] [LinearOrder α] [IsStrictOrderedRing α] {m n : Nat} {J : α} {e e' : Nat → Nat → α} {d : α}

theorem coupling_second (J a : α) : oddsToSecond (coupling J) a = oddsToFirst (coupling J) a := by simp [oddsToFirst, oddsToSecond, coupling]

/-- The odds that a cell gets. -/
theorem coupling_first (J a : α) : oddsToFirst (coupling J) a = max (-J) (J + a) - max J (-J + a) := by simp [oddsToFirst, coupling]

theorem coupling_mono (hJ : 0 ≤ J) {a b : α} (h : a ≤ b) : oddsToFirst (coupling J) a ≤ oddsToFirst (coupling J) b := by
  rw [coupling_first, coupling_first]
  rcases max_cases (-J) (J + a) with ⟨h1, _⟩ | ⟨h1, _⟩ <;> rcases max_cases (-J) (J + b) with ⟨h2, _⟩ | ⟨h2, _⟩ <;> rcases max_cases J (-J + a) with ⟨h3, _⟩ | ⟨h3, _⟩ <;>
    rcases max_cases J (-J + b) with ⟨h4, _⟩ | ⟨h4, _⟩ <;> rw [h1, h2, h3, h4] <;> linarith

theorem coupling_neg (J a : α) : oddsToFirst (coupling J) (-a) = -oddsToFirst (coupling J) a := by
  rw [coupling_first, coupling_first]
  rcases max_cases (-J) (J + -a) with ⟨h1, _⟩ | ⟨h1, _⟩ <;> rcases max_cases (-J) (J + a) with ⟨h2, _⟩ | ⟨h2, _⟩ <;> rcases max_cases J (-J + -a) with ⟨h3, _⟩ | ⟨h3, _⟩ <;>
    rcases max_cases J (-J + a) with ⟨h4, _⟩ | ⟨h4, _⟩ <;> rw [h1, h2, h3, h4] <;> linarith

theorem coupling_gauge (J a : α) : oddsToFirst (coupling (-J)) a = -oddsToFirst (coupling J) a := by
  rw [coupling_first, coupling_first]
  simp only [neg_neg]
  ring

/-- What the messages to a cell are made of, with the message of the cell's neighbour taken out. -/
theorem odds_below (M : TorusMsgs α) {i j : Nat} (hi : i < m) : cellOdds m n e M ((i + 1) % m) j - M.down i j =
    e ((i + 1) % m) j + M.up ((i + 1) % m) j + M.left ((i + 1) % m) j + M.right ((i + 1) % m) ((j + (n - 1)) % n) := by
  unfold cellOdds
  rw [mod_prev hi]
  ring

theorem odds_beside (M : TorusMsgs α) {i j : Nat} (hj : j < n) : cellOdds m n e M i ((j + 1) % n) - M.right i j =
    e i ((j + 1) % n) + M.up i ((j + 1) % n) + M.left i ((j + 1) % n) + M.down ((i + (m - 1)) % m) ((j + 1) % n) := by
  unfold cellOdds
  rw [mod_prev hj]
  ring

theorem odds_above (M : TorusMsgs α) (i j : Nat) : cellOdds m n e M i j - M.up i j = e i j + M.left i j + M.down ((i + (m - 1)) % m) j + M.right i ((j + (n - 1)) % n) := by
  unfold cellOdds
  ring

theorem odds_before (M : TorusMsgs α) (i j : Nat) : cellOdds m n e M i j - M.left i j = e i j + M.up i j + M.down ((i + (m - 1)) % m) j + M.right i ((j + (n - 1)) % n) := by
  unfold cellOdds
  ring

/-- The messages of the first are at most those of the second. -/
structure TorusMsgs.Le (m n : Nat) (M M' : TorusMsgs α) : Prop where
  up : ∀ i < m, ∀ j < n, M.up i j ≤ M'.up i j
  down : ∀ i < m, ∀ j < n, M.down i j ≤ M'.down i j
  left : ∀ i < m, ∀ j < n, M.left i j ≤ M'.left i j
  right : ∀ i < m, ∀ j < n, M.right i j ≤ M'.right i j

theorem torusMsgs_mono (hJ : 0 ≤ J) (hd : 0 ≤ d ∧ d ≤ 1) (he : ∀ i < m, ∀ j < n, e i j ≤ e' i j) (t : Nat) :
    (torusMsgs m n (coupling J) e d t).Le m n (torusMsgs m n (coupling J) e' d t) := by
  induction t with
  | zero => exact ⟨fun _ _ _ _ => le_rfl, fun _ _ _ _ => le_rfl, fun _ _ _ _ => le_rfl, fun _ _ _ _ => le_rfl⟩
  | succ t ih =>
    have hlt : ∀ {a b : Nat}, a < b → (a + 1) % b < b := fun h => Nat.mod_lt _ (by omega)
    have hpr : ∀ {a b : Nat}, a < b → (a + (b - 1)) % b < b := fun h => Nat.mod_lt _ (by omega)
    have mix : ∀ {x x' y y' : α}, x ≤ x' → y ≤ y' → d * x + (1 - d) * oddsToFirst (coupling J) y ≤ d * x' + (1 - d) * oddsToFirst (coupling J) y' := fun h1 h2 =>
      add_le_add (mul_le_mul_of_nonneg_left h1 hd.1) (mul_le_mul_of_nonneg_left (coupling_mono hJ h2) (by linarith [hd.2]))
    constructor <;> intro i hi j hj <;> simp only [torusMsgs, coupling_second]
    · refine mix (ih.up i hi j hj) ?_
      rw [odds_below _ hi, odds_below _ hi]
      exact add_le_add (add_le_add (add_le_add (he _ (hlt hi) j hj) (ih.up _ (hlt hi) j hj)) (ih.left _ (hlt hi) j hj)) (ih.right _ (hlt hi) _ (hpr hj))
    · refine mix (ih.down i hi j hj) ?_
      rw [odds_above, odds_above]
      exact add_le_add (add_le_add (add_le_add (he i hi j hj) (ih.left i hi j hj)) (ih.down _ (hpr hi) j hj)) (ih.right i hi _ (hpr hj))
    · refine mix (ih.left i hi j hj) ?_
      rw [odds_beside _ hj, odds_beside _ hj]
      exact add_le_add (add_le_add (add_le_add (he i hi _ (hlt hj)) (ih.up i hi _ (hlt hj))) (ih.left i hi _ (hlt hj))) (ih.down _ (hpr hi) _ (hlt hj))
    · refine mix (ih.right i hi j hj) ?_
      rw [odds_before, odds_before]
      exact add_le_add (add_le_add (add_le_add (he i hi j hj) (ih.up i hi j hj)) (ih.down _ (hpr hi) j hj)) (ih.right i hi _ (hpr hj))

/-- **Monotone.** -/
theorem torusOdds_mono (hJ : 0 ≤ J) (hd : 0 ≤ d ∧ d ≤ 1) (he : ∀ i < m, ∀ j < n, e i j ≤ e' i j) (t : Nat) :
    ∀ i < m, ∀ j < n, torusOdds m n (coupling J) e d t i j ≤ torusOdds m n (coupling J) e' d t i j := by
  intro i hi j hj
  have h := torusMsgs_mono hJ hd he t
  exact add_le_add (add_le_add (add_le_add (add_le_add (he i hi j hj) (h.up i hi j hj)) (h.left i hi j hj)) (h.down _ (Nat.mod_lt _ (by omega)) j hj)) (h.right i hi _ (Nat.mod_lt _ (by omega)))

/-- **Never more than eight couplings away from the evidence.** -/
theorem torusOdds_near (hd : 0 ≤ d ∧ d ≤ 1) (t i j : Nat) : |torusOdds m n (coupling J) e d t i j - e i j| ≤ 8 * |J| := by
  have key := torusMsgs_le (m := m) (n := n) (coupling_abs J) e hd t
  have h1 := abs_le.1 (key i j).1
  have h2 := abs_le.1 (key ((i + (m - 1)) % m) j).2.1
  have h3 := abs_le.1 (key i j).2.2.1
  have h4 := abs_le.1 (key i ((j + (n - 1)) % n)).2.2.2
  unfold torusOdds cellOdds
  rw [abs_le]
  constructor <;> linarith [h1.1, h1.2, h2.1, h2.2, h3.1, h3.2, h4.1, h4.2]

/-- Messages related by a map of the cells and a sign for every cell. -/
theorem torusMsgs_neg (d : α) (t : Nat) : torusMsgs m n (coupling J) (fun i j => -e i j) d t = ⟨fun i j => -(torusMsgs m n (coupling J) e d t).up i j, fun i j => -(torusMsgs m n (coupling J) e d t).down i j,
    fun i j => -(torusMsgs m n (coupling J) e d t).left i j, fun i j => -(torusMsgs m n (coupling J) e d t).right i j⟩ := by
  induction t with
  | zero => simp [torusMsgs]
  | succ t ih =>
    have ho : ∀ i j, cellOdds m n (fun i j => -e i j) (torusMsgs m n (coupling J) (fun i j => -e i j) d t) i j = -cellOdds m n e (torusMsgs m n (coupling J) e d t) i j := by
      intro i j
      rw [ih]
      simp only [cellOdds]
      ring
    have hs : ∀ x y : α, -x - -y = -(x - y) := fun x y => by ring
    simp only [torusMsgs, coupling_second, ho]
    rw [ih]
    simp only [hs, coupling_neg, TorusMsgs.mk.injEq]
    refine ⟨?_, ?_, ?_, ?_⟩ <;> funext i j <;> ring

/-- **The two states can be exchanged.** -/
theorem torusOdds_neg (d : α) (t i j : Nat) : torusOdds m n (coupling J) (fun i j => -e i j) d t i j = -torusOdds m n (coupling J) e d t i j := by
  unfold torusOdds
  rw [torusMsgs_neg]
  simp only [cellOdds]
  ring

/-- **Rows and columns can be exchanged.** -/
theorem torusOdds_transpose (d : α) (t i j : Nat) : torusOdds n m (coupling J) (fun i j => e j i) d t i j = torusOdds m n (coupling J) e d t j i := by
  have key : ∀ t, torusMsgs n m (coupling J) (fun i j => e j i) d t = ⟨fun i j => (torusMsgs m n (coupling J) e d t).left j i, fun i j => (torusMsgs m n (coupling J) e d t).right j i,
    fun i j => (torusMsgs m n (coupling J) e d t).up j i, fun i j => (torusMsgs m n (coupling J) e d t).down j i⟩ := by
    intro t
    induction t with
    | zero => simp [torusMsgs]
    | succ t ih =>
      have ho : ∀ i j, cellOdds n m (fun i j => e j i) (torusMsgs n m (coupling J) (fun i j => e j i) d t) i j = cellOdds m n e (torusMsgs m n (coupling J) e d t) j i := by
        intro i j
        rw [ih]
        simp only [cellOdds]
        ring
      simp only [torusMsgs, ho]
      rw [ih]
  unfold torusOdds
  rw [key]
  simp only [cellOdds]
  ring

theorem rot_next {a i m : Nat} : (((i + 1) % m) + a) % m = ((i + a) % m + 1) % m := by
  rw [Nat.mod_add_mod, Nat.mod_add_mod, show i + 1 + a = i + a + 1 by omega]

theorem rot_prev {a i m : Nat} : (((i + (m - 1)) % m) + a) % m = ((i + a) % m + (m - 1)) % m := by
  rw [Nat.mod_add_mod, Nat.mod_add_mod, show i + (m - 1) + a = i + a + (m - 1) by omega]

/-- **The torus can be shifted.** -/
theorem torusOdds_shift {A : Nat → Nat → α} (a b : Nat) (d : α) (t : Nat) (i j : Nat) :
    torusOdds m n A (fun i j => e ((i + a) % m) ((j + b) % n)) d t i j = torusOdds m n A e d t ((i + a) % m) ((j + b) % n) := by
  have key : ∀ t, torusMsgs m n A (fun i j => e ((i + a) % m) ((j + b) % n)) d t = ⟨fun i j => (torusMsgs m n A e d t).up ((i + a) % m) ((j + b) % n),
    fun i j => (torusMsgs m n A e d t).down ((i + a) % m) ((j + b) % n), fun i j => (torusMsgs m n A e d t).left ((i + a) % m) ((j + b) % n),
    fun i j => (torusMsgs m n A e d t).right ((i + a) % m) ((j + b) % n)⟩ := by
    intro t
    induction t with
    | zero => simp [torusMsgs]
    | succ t ih =>
      have ho : ∀ i j, cellOdds m n (fun i j => e ((i + a) % m) ((j + b) % n)) (torusMsgs m n A (fun i j => e ((i + a) % m) ((j + b) % n)) d t) i j =
          cellOdds m n e (torusMsgs m n A e d t) ((i + a) % m) ((j + b) % n) := by
        intro i j
        rw [ih]
        simp only [cellOdds, rot_prev]
      simp only [torusMsgs, ho]
      rw [ih]
      simp only [rot_next]
  unfold torusOdds
  rw [key]
  simp only [cellOdds, rot_prev]

theorem checker_next {i j : Nat} : (checker (i + 1) j : α) = -checker i j ∧ (checker i (j + 1) : α) = -checker i j := by
  unfold checker
  rcases Nat.mod_two_eq_zero_or_one (i + j) with h | h
  · rw [if_pos h, if_neg (by omega), if_neg (by omega)]
    simp
  · rw [if_neg (show ¬ (i + j) % 2 = 0 by omega), if_pos (show (i + 1 + j) % 2 = 0 by omega), if_pos (show (i + (j + 1)) % 2 = 0 by omega)]
    simp

theorem checker_mod (hm : m % 2 = 0) (hn : n % 2 = 0) (i j : Nat) : (checker (i % m) j : α) = checker i j ∧ (checker i (j % n) : α) = checker i j := by
  have h1 : i % m % 2 = i % 2 := Nat.mod_mod_of_dvd _ (Nat.dvd_of_mod_eq_zero hm)
  have h2 : j % n % 2 = j % 2 := Nat.mod_mod_of_dvd _ (Nat.dvd_of_mod_eq_zero hn)
  unfold checker
  rw [Nat.add_mod (i % m), h1, ← Nat.add_mod, Nat.add_mod i (j % n), h2, ← Nat.add_mod]
  exact ⟨rfl, rfl⟩

theorem checker_prev (hm : m % 2 = 0) (hn : n % 2 = 0) {i j : Nat} (hi : i < m) (hj : j < n) :
    (checker ((i + (m - 1)) % m) j : α) = -checker i j ∧ (checker i ((j + (n - 1)) % n) : α) = -checker i j := by
  rw [(checker_mod hm hn _ _).1, (checker_mod hm hn _ _).2]
  unfold checker
  rcases Nat.mod_two_eq_zero_or_one (i + j) with h | h
  · rw [if_pos h, if_neg (by omega), if_neg (by omega)]
    simp
  · rw [if_neg (show ¬ (i + j) % 2 = 0 by omega), if_pos (show (i + (m - 1) + j) % 2 = 0 by omega), if_pos (show (i + (j + (n - 1))) % 2 = 0 by omega)]
    simp

theorem coupling_checker (c J a : α) (hc : c = 1 ∨ c = -1) : oddsToFirst (coupling (-J)) (c * a) = -(c * oddsToFirst (coupling J) a) := by
  rcases hc with rfl | rfl
  · rw [one_mul, one_mul, coupling_gauge]
  · rw [neg_one_mul, neg_one_mul, coupling_gauge, coupling_neg]

theorem checker_cases (i j : Nat) : (checker i j : α) = 1 ∨ (checker i j : α) = -1 := by
  unfold checker
  split
  · exact .inl rfl
  · exact .inr rfl

/-- **The sign of the coupling can be exchanged on a torus with even numbers of rows and columns.** -/
theorem torusOdds_checker (hm : m % 2 = 0) (hn : n % 2 = 0) (d : α) (t : Nat) : ∀ i < m, ∀ j < n,
    torusOdds m n (coupling (-J)) (fun i j => checker i j * e i j) d t i j = checker i j * torusOdds m n (coupling J) e d t i j := by
  have hlt : ∀ {a b : Nat}, a < b → (a + 1) % b < b := fun h => Nat.mod_lt _ (by omega)
  have hpr : ∀ {a b : Nat}, a < b → (a + (b - 1)) % b < b := fun h => Nat.mod_lt _ (by omega)
  have key : ∀ t, (torusMsgs m n (coupling (-J)) (fun i j => checker i j * e i j) d t).Same m n ⟨fun i j => checker i j * (torusMsgs m n (coupling J) e d t).up i j,
    fun i j => -(checker i j * (torusMsgs m n (coupling J) e d t).down i j), fun i j => checker i j * (torusMsgs m n (coupling J) e d t).left i j,
    fun i j => -(checker i j * (torusMsgs m n (coupling J) e d t).right i j)⟩ ∧
    ∀ i < m, ∀ j < n, torusOdds m n (coupling (-J)) (fun i j => checker i j * e i j) d t i j = checker i j * torusOdds m n (coupling J) e d t i j := by
    intro t
    induction t with
    | zero =>
      refine ⟨⟨?_, ?_, ?_, ?_⟩, ?_⟩ <;> intro i hi j hj <;> simp [torusMsgs, torusOdds, cellOdds]
    | succ t ih =>
      have hmsg : (torusMsgs m n (coupling (-J)) (fun i j => checker i j * e i j) d (t + 1)).Same m n ⟨fun i j => checker i j * (torusMsgs m n (coupling J) e d (t + 1)).up i j,
          fun i j => -(checker i j * (torusMsgs m n (coupling J) e d (t + 1)).down i j), fun i j => checker i j * (torusMsgs m n (coupling J) e d (t + 1)).left i j,
          fun i j => -(checker i j * (torusMsgs m n (coupling J) e d (t + 1)).right i j)⟩ := by
        obtain ⟨h1, h2⟩ := ih
        unfold torusOdds at h2
        constructor <;> intro i hi j hj <;> simp only [torusMsgs, coupling_second]
        · rw [h1.up i hi j hj, h1.down i hi j hj, h2 _ (hlt hi) j hj]
          simp only
          rw [(checker_mod hm hn _ _).1, checker_next.1, show ∀ c x y : α, -c * x - -(c * y) = -c * (x - y) from fun c x y => by ring,
            coupling_checker _ _ _ (by rcases checker_cases (α := α) i j with h | h <;> simp [h])]
          ring
        · rw [h1.up i hi j hj, h1.down i hi j hj, h2 _ hi j hj]
          simp only
          rw [← mul_sub, coupling_checker _ _ _ (checker_cases i j)]
          ring
        · rw [h1.left i hi j hj, h1.right i hi j hj, h2 _ hi _ (hlt hj)]
          simp only
          rw [(checker_mod hm hn _ _).2, checker_next.2, show ∀ c x y : α, -c * x - -(c * y) = -c * (x - y) from fun c x y => by ring,
            coupling_checker _ _ _ (by rcases checker_cases (α := α) i j with h | h <;> simp [h])]
          ring
        · rw [h1.left i hi j hj, h1.right i hi j hj, h2 _ hi j hj]
          simp only
          rw [← mul_sub, coupling_checker _ _ _ (checker_cases i j)]
          ring
      refine ⟨hmsg, fun i hi j hj => ?_⟩
      unfold torusOdds
      rw [hmsg.odds _ hi hj]
      simp only [cellOdds]
      rw [(checker_prev hm hn hi hj).1, (checker_prev hm hn hi hj).2]
      ring
  exact (key t).2

end PGMax
