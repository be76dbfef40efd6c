import Verif.Spec.Ising
import Verif.Lemmas.RbmOdds
import Verif.Lemmas.Grid
import Verif.Lemmas.Rows
import Verif.Props.C73

/-! # Helper lemmas: max-product with tables of two variables of two states, in log odds -/

namespace PGMax

variable {α : Type _} [Field α] [LinearOrder α]

/-- The table of a factor of two variables of two states. -/
abbrev binTable (A : Nat → Nat → α) : List (List Nat × α) := [([0, 0], A 0 0), ([0, 1], A 0 1), ([1, 0], A 1 0), ([1, 1], A 1 1)]

/-- The log odds of the belief of a variable. -/
def beliefOdds (scopes : List (List Var)) (ev : Var → Nat → α) (m : Msgs α) (v : Var) : α := beliefOf scopes ev m v 1 - beliefOf scopes ev m v 0

section
variable [IsStrictOrderedRing α]

theorem tbNorm_total {x : Nat → WithBot α} {a b : α} (h0 : x 0 = WithBot.some a) (h1 : x 1 = WithBot.some b) (h : |b - a| ≤ 1000) : tbNorm 2 x 0 + tbNorm 2 x 1 = -|b - a| := by
  have hs : (Finset.range 2).sup x = WithBot.some (max a b) := by
    rw [show Finset.range 2 = {0, 1} from rfl, Finset.sup_insert, Finset.sup_singleton, h0, h1]
    rfl
  rw [tbNorm_coe hs h1, tbNorm_coe hs h0]
  have h' := abs_le.1 h
  rcases le_total a b with hab | hab
  · rw [max_eq_right hab, max_eq_left (by linarith), max_eq_left (by linarith), abs_of_nonneg (by linarith)]
    ring
  · rw [max_eq_left hab, max_eq_left (by linarith), max_eq_left (by linarith), abs_of_nonpos (by linarith)]
    ring

/-- A message that comes from normalisation: maximum 0, clipped at -1000. -/
theorem sumStep_total (Φ : Nat → List α → α) {factors : List (SFac α)} {f k : Nat} {F : SFac α} {v : Var} (hF : factors[f]? = some F) (hk : F.scope[k]? = some v) (hn : v.n = 2)
    (ev : Var → Nat → α) {d : α} (m : Msgs α) {o₀ o₁ : α} (h0 : sumOut (Φ f) F (tbIn factors ev m f F) k 0 = WithBot.some o₀)
    (h1 : sumOut (Φ f) F (tbIn factors ev m f F) k 1 = WithBot.some o₁) (h : |d * oddsOf m f k + (1 - d) * (o₁ - o₀)| ≤ 1000) :
    oddsOf (sumStep Φ factors ev d m) f k = d * oddsOf m f k + (1 - d) * (o₁ - o₀) ∧
      sumStep Φ factors ev d m f k 0 + sumStep Φ factors ev d m f k 1 = -|oddsOf (sumStep Φ factors ev d m) f k| := by
  have e0 := sumStep_odds Φ hF hk hn ev m h0 h1 h
  refine ⟨e0, ?_⟩
  have e : d * oddsOf m f k + (1 - d) * (o₁ - o₀) = (d * m f k 1 + (1 - d) * o₁) - (d * m f k 0 + (1 - d) * o₀) := by
    unfold oddsOf
    ring
  rw [e0, e]
  rw [e] at h
  rw [sumStep_at Φ hF hk, sumStep_at Φ hF hk, hn]
  exact tbNorm_total (by rw [h0]; rfl) (by rw [h1]; rfl) h

theorem maxOf_two (x y : α) : maxOf (0 : α) [x, y] = max x y := rfl

theorem max_shift (a b x y : α) : max (a + x) (b + y) = max a (b + (y - x)) + x := by
  rw [← max_add_add_right]
  congr 1
  ring

/-- The message to the first variable. -/
theorem step_first {factors : List (SFac α)} {f : Nat} {v w : Var} {A : Nat → Nat → α} (hF : factors[f]? = some ⟨[v, w], binTable A⟩) (hv : v.n = 2)
    (ev : Var → Nat → α) {d : α} (m : Msgs α)
    (h : |d * oddsOf m f 0 + (1 - d) * oddsToFirst A (beliefOdds (factors.map (·.scope)) ev m w - oddsOf m f 1)| ≤ 1000) :
    oddsOf (sumStep (fun _ => maxOf 0) factors ev d m) f 0 = d * oddsOf m f 0 + (1 - d) * oddsToFirst A (beliefOdds (factors.map (·.scope)) ev m w - oddsOf m f 1) ∧
      sumStep (fun _ => maxOf 0) factors ev d m f 0 0 + sumStep (fun _ => maxOf 0) factors ev d m f 0 1 = -|oddsOf (sumStep (fun _ => maxOf 0) factors ev d m) f 0| := by
  have he : IsEdge (factors.map (·.scope)) f 1 w := ⟨[v, w], by rw [List.getElem?_map, hF]; rfl, rfl⟩
  have hq : ∀ s, tbIn factors ev m f ⟨[v, w], binTable A⟩ 1 s = varToFac (factors.map (·.scope)) ev m w (f, 1) s := fun s => tbIn_at rfl _ _ _ _
  have ho := varToFac_odds ev m he
  have e : (max (A 1 0 + varToFac (factors.map (·.scope)) ev m w (f, 1) 0) (A 1 1 + varToFac (factors.map (·.scope)) ev m w (f, 1) 1)) -
      (max (A 0 0 + varToFac (factors.map (·.scope)) ev m w (f, 1) 0) (A 0 1 + varToFac (factors.map (·.scope)) ev m w (f, 1) 1)) =
      oddsToFirst A (beliefOdds (factors.map (·.scope)) ev m w - oddsOf m f 1) := by
    unfold oddsToFirst beliefOdds
    rw [max_shift, max_shift, ho]
    ring
  rw [← e] at h ⊢
  exact sumStep_total (fun _ => maxOf 0) hF rfl hv ev m
    (by simp [sumOut, SFac.rowsAt, scoreBut, hq, List.range_succ, maxOf_two]) (by simp [sumOut, SFac.rowsAt, scoreBut, hq, List.range_succ, maxOf_two]) h

/-- The message to the second variable. -/
theorem step_second {factors : List (SFac α)} {f : Nat} {v w : Var} {A : Nat → Nat → α} (hF : factors[f]? = some ⟨[v, w], binTable A⟩) (hw : w.n = 2)
    (ev : Var → Nat → α) {d : α} (m : Msgs α)
    (h : |d * oddsOf m f 1 + (1 - d) * oddsToSecond A (beliefOdds (factors.map (·.scope)) ev m v - oddsOf m f 0)| ≤ 1000) :
    oddsOf (sumStep (fun _ => maxOf 0) factors ev d m) f 1 = d * oddsOf m f 1 + (1 - d) * oddsToSecond A (beliefOdds (factors.map (·.scope)) ev m v - oddsOf m f 0) ∧
      sumStep (fun _ => maxOf 0) factors ev d m f 1 0 + sumStep (fun _ => maxOf 0) factors ev d m f 1 1 = -|oddsOf (sumStep (fun _ => maxOf 0) factors ev d m) f 1| := by
  have he : IsEdge (factors.map (·.scope)) f 0 v := ⟨[v, w], by rw [List.getElem?_map, hF]; rfl, rfl⟩
  have hq : ∀ s, tbIn factors ev m f ⟨[v, w], binTable A⟩ 0 s = varToFac (factors.map (·.scope)) ev m v (f, 0) s := fun s => tbIn_at rfl _ _ _ _
  have ho := varToFac_odds ev m he
  have e : (max (A 0 1 + varToFac (factors.map (·.scope)) ev m v (f, 0) 0) (A 1 1 + varToFac (factors.map (·.scope)) ev m v (f, 0) 1)) -
      (max (A 0 0 + varToFac (factors.map (·.scope)) ev m v (f, 0) 0) (A 1 0 + varToFac (factors.map (·.scope)) ev m v (f, 0) 1)) =
      oddsToSecond A (beliefOdds (factors.map (·.scope)) ev m v - oddsOf m f 0) := by
    unfold oddsToSecond beliefOdds
    rw [max_shift, max_shift, ho]
    ring
  rw [← e] at h ⊢
  exact sumStep_total (fun _ => maxOf 0) hF rfl hw ev m
    (by simp [sumOut, SFac.rowsAt, scoreBut, hq, List.range_succ, maxOf_two]) (by simp [sumOut, SFac.rowsAt, scoreBut, hq, List.range_succ, maxOf_two]) h

/-- Messages are at most as large as the log potentials differ. -/
theorem odds_le {A : Nat → Nat → α} {c : α} (hA : ∀ s < 2, ∀ t < 2, |A s t| ≤ c) (a : α) : |oddsToFirst A a| ≤ 2 * c ∧ |oddsToSecond A a| ≤ 2 * c := by
  have k : ∀ p q r s x : α, |p| ≤ c → |q| ≤ c → |r| ≤ c → |s| ≤ c → |max p (q + x) - max r (s + x)| ≤ 2 * c := by
    intro p q r s x hp hq hr hs
    rw [abs_le] at hp hq hr hs ⊢
    constructor
    · have : max r (s + x) ≤ max p (q + x) + 2 * c := max_le (by linarith [le_max_left p (q + x)]) (by linarith [le_max_right p (q + x)])
      linarith
    · have : max p (q + x) ≤ max r (s + x) + 2 * c := max_le (by linarith [le_max_left r (s + x)]) (by linarith [le_max_right r (s + x)])
      linarith
  exact ⟨k _ _ _ _ _ (hA 1 (by omega) 0 (by omega)) (hA 1 (by omega) 1 (by omega)) (hA 0 (by omega) 0 (by omega)) (hA 0 (by omega) 1 (by omega)),
    k _ _ _ _ _ (hA 0 (by omega) 1 (by omega)) (hA 1 (by omega) 1 (by omega)) (hA 0 (by omega) 0 (by omega)) (hA 1 (by omega) 0 (by omega))⟩

end

/-! ### The torus -/

section
variable {m n : Nat} {cell : Nat → Nat → Var} {A : Nat → Nat → α}

/-- The factors of a torus. -/
def torusFacs (m n : Nat) (cell : Nat → Nat → Var) (A : Nat → Nat → α) : List (SFac α) := ((grid m n).flatMap (torusAt cell m n)).map (fun vs => ⟨vs, binTable A⟩)

/-- The indices of the factors of a cell. -/
abbrev facDown (n i j : Nat) : Nat := (i * n + j) * 2
abbrev facRight (n i j : Nat) : Nat := (i * n + j) * 2 + 1

theorem torusScopes_get (cell : Nat → Nat → Var) {i j : Nat} (hi : i < m) (hj : j < n) :
    ((grid m n).flatMap (torusAt cell m n))[facDown n i j]? = some [cell i j, cell ((i + 1) % m) j] ∧
    ((grid m n).flatMap (torusAt cell m n))[facRight n i j]? = some [cell i j, cell i ((j + 1) % n)] :=
  ⟨flatMap_row (grid m n) (torusAt cell m n) 2 (i * n + j) 0 (fun _ _ => rfl) (grid_getElem? hi hj) (by omega),
    flatMap_row (grid m n) (torusAt cell m n) 2 (i * n + j) 1 (fun _ _ => rfl) (grid_getElem? hi hj) (by omega)⟩

theorem torusFacs_get (cell : Nat → Nat → Var) (A : Nat → Nat → α) {i j : Nat} (hi : i < m) (hj : j < n) :
    (torusFacs m n cell A)[facDown n i j]? = some ⟨[cell i j, cell ((i + 1) % m) j], binTable A⟩ ∧
    (torusFacs m n cell A)[facRight n i j]? = some ⟨[cell i j, cell i ((j + 1) % n)], binTable A⟩ := by
  obtain ⟨h1, h2⟩ := torusScopes_get cell hi hj
  unfold torusFacs
  rw [List.getElem?_map, List.getElem?_map, h1, h2]
  exact ⟨rfl, rfl⟩

theorem torusFacs_scopes (cell : Nat → Nat → Var) (A : Nat → Nat → α) : (torusFacs m n cell A).map (·.scope) = (grid m n).flatMap (torusAt cell m n) := by
  unfold torusFacs
  rw [List.map_map]
  exact List.map_id _

theorem torusScopes_length (cell : Nat → Nat → Var) : ((grid m n).flatMap (torusAt cell m n)).length = m * n * 2 := by
  rw [List.length_flatMap]
  simp [torusAt, grid_length]

/-- The scopes, by index. -/
theorem torusScopes_cases {f : Nat} {vs : List Var} (h : ((grid m n).flatMap (torusAt cell m n))[f]? = some vs) :
    ∃ i < m, ∃ j < n, f = facDown n i j ∧ vs = [cell i j, cell ((i + 1) % m) j] ∨ f = facRight n i j ∧ vs = [cell i j, cell i ((j + 1) % n)] := by
  have hlt := (List.getElem?_eq_some_iff.1 h).1
  rw [torusScopes_length] at hlt
  have hn : 0 < n := Nat.pos_of_ne_zero (by rintro rfl; simp at hlt)
  have k1 : f / 2 / n < m := by
    rw [Nat.div_lt_iff_lt_mul hn]
    omega
  have k2 : f / 2 % n < n := Nat.mod_lt _ hn
  have e : f / 2 / n * n + f / 2 % n = f / 2 := Nat.div_add_mod' _ _
  refine ⟨_, k1, _, k2, ?_⟩
  obtain ⟨g1, g2⟩ := torusScopes_get cell k1 k2
  rcases Nat.mod_two_eq_zero_or_one f with h0 | h0
  · have e' : facDown n (f / 2 / n) (f / 2 % n) = f := by unfold facDown; omega
    rw [e', h] at g1
    exact .inl ⟨e'.symm, Option.some.inj g1⟩
  · have e' : facRight n (f / 2 / n) (f / 2 % n) = f := by unfold facRight; omega
    rw [e', h] at g2
    exact .inr ⟨e'.symm, Option.some.inj g2⟩

theorem mod_next {i m : Nat} (h : i < m) : ((i + (m - 1)) % m + 1) % m = i := by
  rw [Nat.mod_add_mod, show i + (m - 1) + 1 = i + m by omega, Nat.add_mod_right, Nat.mod_eq_of_lt h]

theorem mod_prev {i m : Nat} (h : i < m) : ((i + 1) % m + (m - 1)) % m = i := by
  rw [Nat.mod_add_mod, show i + 1 + (m - 1) = i + m by omega, Nat.add_mod_right, Nat.mod_eq_of_lt h]

/-- The cells are variables with two states, and different. -/
structure TorusCells (m n : Nat) (cell : Nat → Nat → Var) : Prop where
  two : ∀ i < m, ∀ j < n, (cell i j).n = 2
  inj : ∀ i < m, ∀ j < n, ∀ k < m, ∀ l < n, cell i j = cell k l → i = k ∧ j = l

theorem torus_edge_cases {f k : Nat} {v : Var} (h : IsEdge ((grid m n).flatMap (torusAt cell m n)) f k v) :
    ∃ i < m, ∃ j < n, f = facDown n i j ∧ (k = 0 ∧ v = cell i j ∨ k = 1 ∧ v = cell ((i + 1) % m) j) ∨ f = facRight n i j ∧ (k = 0 ∧ v = cell i j ∨ k = 1 ∧ v = cell i ((j + 1) % n)) := by
  obtain ⟨vs, h1, h2⟩ := h
  have two : ∀ {a b : Var}, [a, b][k]? = some v → k = 0 ∧ v = a ∨ k = 1 ∧ v = b := by
    intro a b h
    match k with
    | 0 => exact .inl ⟨rfl, by simpa using h.symm⟩
    | 1 => exact .inr ⟨rfl, by simpa using h.symm⟩
    | k + 2 => simp at h
  obtain ⟨i, hi, j, hj, ⟨rfl, rfl⟩ | ⟨rfl, rfl⟩⟩ := torusScopes_cases h1
  · exact ⟨i, hi, j, hj, .inl ⟨rfl, two h2⟩⟩
  · exact ⟨i, hi, j, hj, .inr ⟨rfl, two h2⟩⟩

theorem TorusCells.edges (hc : TorusCells m n cell) {i j : Nat} (hi : i < m) (hj : j < n) :
    (edgesOf ((grid m n).flatMap (torusAt cell m n)) (cell i j)).Perm
      [(facDown n i j, 0), (facRight n i j, 0), (facDown n ((i + (m - 1)) % m) j, 1), (facRight n i ((j + (n - 1)) % n), 1)] := by
  refine (List.perm_ext_iff_of_nodup (edgesOf_nodup _ _) ?_).2 ?_
  · simp only [facDown, facRight, List.nodup_cons, List.mem_cons, Prod.mk.injEq, List.not_mem_nil, or_false, not_false_eq_true, List.nodup_nil, and_true]
    omega
  · rintro ⟨f, k⟩
    rw [mem_edgesOf]
    have hm : ∀ a, a < m → (a + 1) % m < m := fun a ha => Nat.mod_lt _ (by omega)
    have hn : ∀ a, a < n → (a + 1) % n < n := fun a ha => Nat.mod_lt _ (by omega)
    constructor
    · intro h
      obtain ⟨a, ha, b, hb, ⟨rfl, ⟨rfl, e⟩ | ⟨rfl, e⟩⟩ | ⟨rfl, ⟨rfl, e⟩ | ⟨rfl, e⟩⟩⟩ := torus_edge_cases h
      · obtain ⟨rfl, rfl⟩ := hc.inj _ hi _ hj _ ha _ hb e
        simp
      · obtain ⟨rfl, rfl⟩ := hc.inj _ hi _ hj _ (hm a ha) _ hb e
        rw [mod_prev ha]
        simp
      · obtain ⟨rfl, rfl⟩ := hc.inj _ hi _ hj _ ha _ hb e
        simp
      · obtain ⟨rfl, rfl⟩ := hc.inj _ hi _ hj _ ha _ (hn b hb) e
        rw [mod_prev hb]
        simp
    · intro h
      simp only [List.mem_cons, Prod.mk.injEq, List.not_mem_nil, or_false] at h
      rcases h with ⟨rfl, rfl⟩ | ⟨rfl, rfl⟩ | ⟨rfl, rfl⟩ | ⟨rfl, rfl⟩
      · exact ⟨_, (torusScopes_get cell hi hj).1, rfl⟩
      · exact ⟨_, (torusScopes_get cell hi hj).2, rfl⟩
      · refine ⟨_, (torusScopes_get cell (Nat.mod_lt _ (by omega)) hj).1, ?_⟩
        rw [mod_next hi]
        rfl
      · refine ⟨_, (torusScopes_get cell hi (Nat.mod_lt _ (by omega))).2, ?_⟩
        rw [mod_next hj]
        rfl

/-- The messages of belief propagation, in log odds. -/
def torusOf (n : Nat) (M : Msgs α) : TorusMsgs α where
  up i j := oddsOf M (facDown n i j) 0
  down i j := oddsOf M (facDown n i j) 1
  left i j := oddsOf M (facRight n i j) 0
  right i j := oddsOf M (facRight n i j) 1

omit [LinearOrder α] in
theorem TorusCells.belief (hc : TorusCells m n cell) (ev : Var → Nat → α) (M : Msgs α) {i j : Nat} (hi : i < m) (hj : j < n) (s : Nat) :
    beliefOf ((grid m n).flatMap (torusAt cell m n)) ev M (cell i j) s = ev (cell i j) s + M (facDown n i j) 0 s + M (facRight n i j) 0 s +
      M (facDown n ((i + (m - 1)) % m) j) 1 s + M (facRight n i ((j + (n - 1)) % n)) 1 s := by
  unfold beliefOf
  rw [((hc.edges hi hj).map _).sum_eq]
  simp only [List.map_cons, List.map_nil, List.sum_cons, List.sum_nil]
  ring

theorem TorusCells.odds (hc : TorusCells m n cell) (ev : Var → Nat → α) (M : Msgs α) {i j : Nat} (hi : i < m) (hj : j < n) {e : Nat → Nat → α} (he : ev (cell i j) 1 - ev (cell i j) 0 = e i j) :
    beliefOdds ((grid m n).flatMap (torusAt cell m n)) ev M (cell i j) = cellOdds m n e (torusOf n M) i j := by
  unfold beliefOdds cellOdds torusOf
  rw [hc.belief ev M hi hj, hc.belief ev M hi hj, ← he]
  simp only [oddsOf]
  ring

/-- Messages that are equal on the torus. -/
structure TorusMsgs.Same (m n : Nat) (M M' : TorusMsgs α) : Prop where
  up : ∀ i < m, ∀ j < n, M.up i j = M'.up i j
  down : ∀ i < m, ∀ j < n, M.down i j = M'.down i j
  left : ∀ i < m, ∀ j < n, M.left i j = M'.left i j
  right : ∀ i < m, ∀ j < n, M.right i j = M'.right i j

theorem TorusMsgs.Same.odds {M M' : TorusMsgs α} (h : M.Same m n M') (e : Nat → Nat → α) {i j : Nat} (hi : i < m) (hj : j < n) : cellOdds m n e M i j = cellOdds m n e M' i j := by
  unfold cellOdds
  rw [h.up i hi j hj, h.left i hi j hj, h.down _ (Nat.mod_lt _ (by omega)) j hj, h.right i hi _ (Nat.mod_lt _ (by omega))]

variable [IsStrictOrderedRing α]

theorem torusMsgs_le {c : α} (hA : ∀ s < 2, ∀ t < 2, |A s t| ≤ c) (e : Nat → Nat → α) {d : α} (hd : 0 ≤ d ∧ d ≤ 1) (t i j : Nat) :
    |(torusMsgs m n A e d t).up i j| ≤ 2 * c ∧ |(torusMsgs m n A e d t).down i j| ≤ 2 * c ∧ |(torusMsgs m n A e d t).left i j| ≤ 2 * c ∧ |(torusMsgs m n A e d t).right i j| ≤ 2 * c := by
  have hc : 0 ≤ c := (abs_nonneg _).trans (hA 0 (by omega) 0 (by omega))
  have key : ∀ x y : α, |x| ≤ 2 * c → |y| ≤ 2 * c → |d * x + (1 - d) * y| ≤ 2 * c := by
    intro x y hx hy
    refine (abs_add_le _ _).trans ?_
    rw [abs_mul, abs_mul, abs_of_nonneg hd.1, abs_of_nonneg (show 0 ≤ 1 - d by linarith [hd.2])]
    nlinarith [mul_le_mul_of_nonneg_left hx hd.1, mul_le_mul_of_nonneg_left hy (show 0 ≤ 1 - d by linarith [hd.2])]
  induction t generalizing i j with
  | zero => simp [torusMsgs, hc]
  | succ t ih =>
    exact ⟨key _ _ (ih i j).1 (odds_le hA _).1, key _ _ (ih i j).2.1 (odds_le hA _).2, key _ _ (ih i j).2.2.1 (odds_le hA _).1, key _ _ (ih i j).2.2.2 (odds_le hA _).2⟩

/-- The sum of the two entries of a message is minus the size of its log odds. -/
def Totals (n m : Nat) (M : Msgs α) : Prop := ∀ i < m, ∀ j < n, ∀ k < 2,
  M (facDown n i j) k 0 + M (facDown n i j) k 1 = -|oddsOf M (facDown n i j) k| ∧ M (facRight n i j) k 0 + M (facRight n i j) k 1 = -|oddsOf M (facRight n i j) k|

/-- **The messages of max-product are those of the specification.** -/
theorem TorusCells.run (hc : TorusCells m n cell) {c : α} (hA : ∀ s < 2, ∀ t < 2, |A s t| ≤ c) (hc5 : c ≤ 500) {d : α} (hd : 0 ≤ d ∧ d ≤ 1) (ev : Var → Nat → α) {e : Nat → Nat → α}
    (he : ∀ i < m, ∀ j < n, ev (cell i j) 1 - ev (cell i j) 0 = e i j) {M₀ : Msgs α} (hM : ∀ f k s, M₀ f k s = 0) (t : Nat) :
    (torusOf n (sumRun (fun _ => maxOf 0) (torusFacs m n cell A) ev d t M₀)).Same m n (torusMsgs m n A e d t) ∧
      Totals n m (sumRun (fun _ => maxOf 0) (torusFacs m n cell A) ev d t M₀) := by
  have hlt : ∀ {a b : Nat}, a < b → (a + 1) % b < b := fun h => Nat.mod_lt _ (by omega)
  induction t with
  | zero =>
    have key : ∀ {f k : Nat} {v w : Var} {u : Var}, (torusFacs m n cell A)[f]? = some ⟨[v, w], binTable A⟩ → [v, w][k]? = some u → u.n = 2 → ∀ s < 2,
        sumRun (fun _ => maxOf 0) (torusFacs m n cell A) ev d 0 M₀ f k s = 0 := by
      intro f k v w u hF hk hn s hs
      show tbInit _ M₀ f k s = 0
      rw [tbInit_at hF hk, hn]
      have h1 := tbNorm_odds (x := fun s => WithBot.some (M₀ f k s)) (a := 0) (b := 0) (by rw [hM]) (by rw [hM]) (by norm_num)
      have h2 := tbNorm_total (x := fun s => WithBot.some (M₀ f k s)) (a := 0) (b := 0) (by rw [hM]) (by rw [hM]) (by norm_num)
      simp only [sub_self, abs_zero, neg_zero] at h1 h2
      interval_cases s <;> linarith
    have h0 : ∀ i < m, ∀ j < n, ∀ s < 2, ∀ k < 2, sumRun (fun _ => maxOf 0) (torusFacs m n cell A) ev d 0 M₀ (facDown n i j) k s = 0 ∧
        sumRun (fun _ => maxOf 0) (torusFacs m n cell A) ev d 0 M₀ (facRight n i j) k s = 0 := by
      intro i hi j hj s hs k hk
      obtain ⟨g1, g2⟩ := torusFacs_get cell A hi hj
      interval_cases k
      · exact ⟨key g1 rfl (hc.two i hi j hj) s hs, key g2 rfl (hc.two i hi j hj) s hs⟩
      · exact ⟨key g1 rfl (hc.two _ (hlt hi) j hj) s hs, key g2 rfl (hc.two i hi _ (hlt hj)) s hs⟩
    generalize sumRun (fun _ => maxOf 0) (torusFacs m n cell A) ev d 0 M₀ = M at h0
    have h1 : ∀ i < m, ∀ j < n, ∀ k < 2, oddsOf M (facDown n i j) k = 0 ∧ oddsOf M (facRight n i j) k = 0 := by
      intro i hi j hj k hk
      unfold oddsOf
      rw [(h0 i hi j hj 0 (by omega) k hk).1, (h0 i hi j hj 1 (by omega) k hk).1, (h0 i hi j hj 0 (by omega) k hk).2, (h0 i hi j hj 1 (by omega) k hk).2]
      simp
    refine ⟨⟨fun i hi j hj => (h1 i hi j hj 0 (by omega)).1, fun i hi j hj => (h1 i hi j hj 1 (by omega)).1, fun i hi j hj => (h1 i hi j hj 0 (by omega)).2,
      fun i hi j hj => (h1 i hi j hj 1 (by omega)).2⟩, fun i hi j hj k hk => ?_⟩
    rw [(h1 i hi j hj k hk).1, (h1 i hi j hj k hk).2, (h0 i hi j hj 0 (by omega) k hk).1, (h0 i hi j hj 1 (by omega) k hk).1, (h0 i hi j hj 0 (by omega) k hk).2,
      (h0 i hi j hj 1 (by omega) k hk).2]
    simp
  | succ t ih =>
    obtain ⟨i1, -⟩ := ih
    have hS : sumRun (fun _ => maxOf 0) (torusFacs m n cell A) ev d (t + 1) M₀ =
      sumStep (fun _ => maxOf 0) (torusFacs m n cell A) ev d (sumRun (fun _ => maxOf 0) (torusFacs m n cell A) ev d t M₀) := rfl
    rw [hS]
    generalize sumRun (fun _ => maxOf 0) (torusFacs m n cell A) ev d t M₀ = M at i1 ⊢
    have hle := torusMsgs_le (m := m) (n := n) hA e hd (t + 1)
    have hodds : ∀ i < m, ∀ j < n, beliefOdds ((torusFacs m n cell A).map (·.scope)) ev M (cell i j) = cellOdds m n e (torusMsgs m n A e d t) i j := by
      intro i hi j hj
      rw [torusFacs_scopes, hc.odds ev M hi hj (he i hi j hj), i1.odds e hi hj]
    have hup : ∀ i < m, ∀ j < n, _ := fun i hi j hj => step_first (torusFacs_get cell A hi hj).1 (hc.two i hi j hj) ev (d := d) M (by
      rw [hodds _ (hlt hi) j hj, show oddsOf M (facDown n i j) 0 = _ from i1.up i hi j hj, show oddsOf M (facDown n i j) 1 = _ from i1.down i hi j hj]
      exact (hle i j).1.trans (by linarith))
    have hdown : ∀ i < m, ∀ j < n, _ := fun i hi j hj => step_second (torusFacs_get cell A hi hj).1 (hc.two _ (hlt hi) j hj) ev (d := d) M (by
      rw [hodds _ hi j hj, show oddsOf M (facDown n i j) 0 = _ from i1.up i hi j hj, show oddsOf M (facDown n i j) 1 = _ from i1.down i hi j hj]
      exact (hle i j).2.1.trans (by linarith))
    have hleft : ∀ i < m, ∀ j < n, _ := fun i hi j hj => step_first (torusFacs_get cell A hi hj).2 (hc.two i hi j hj) ev (d := d) M (by
      rw [hodds _ hi _ (hlt hj), show oddsOf M (facRight n i j) 0 = _ from i1.left i hi j hj, show oddsOf M (facRight n i j) 1 = _ from i1.right i hi j hj]
      exact (hle i j).2.2.1.trans (by linarith))
    have hright : ∀ i < m, ∀ j < n, _ := fun i hi j hj => step_second (torusFacs_get cell A hi hj).2 (hc.two i hi _ (hlt hj)) ev (d := d) M (by
      rw [hodds _ hi j hj, show oddsOf M (facRight n i j) 0 = _ from i1.left i hi j hj, show oddsOf M (facRight n i j) 1 = _ from i1.right i hi j hj]
      exact (hle i j).2.2.2.trans (by linarith))
    refine ⟨⟨fun i hi j hj => ?_, fun i hi j hj => ?_, fun i hi j hj => ?_, fun i hi j hj => ?_⟩, fun i hi j hj k hk => ?_⟩
    · refine (hup i hi j hj).1.trans ?_
      rw [hodds _ (hlt hi) j hj, show oddsOf M (facDown n i j) 0 = _ from i1.up i hi j hj, show oddsOf M (facDown n i j) 1 = _ from i1.down i hi j hj]
      rfl
    · refine (hdown i hi j hj).1.trans ?_
      rw [hodds _ hi j hj, show oddsOf M (facDown n i j) 0 = _ from i1.up i hi j hj, show oddsOf M (facDown n i j) 1 = _ from i1.down i hi j hj]
      rfl
    · refine (hleft i hi j hj).1.trans ?_
      rw [hodds _ hi _ (hlt hj), show oddsOf M (facRight n i j) 0 = _ from i1.left i hi j hj, show oddsOf M (facRight n i j) 1 = _ from i1.right i hi j hj]
      rfl
    · refine (hright i hi j hj).1.trans ?_
      rw [hodds _ hi j hj, show oddsOf M (facRight n i j) 0 = _ from i1.left i hi j hj, show oddsOf M (facRight n i j) 1 = _ from i1.right i hi j hj]
      rfl
    · interval_cases k
      · exact ⟨(hup i hi j hj).2, (hleft i hi j hj).2⟩
      · exact ⟨(hdown i hi j hj).2, (hright i hi j hj).2⟩

end

end PGMax
