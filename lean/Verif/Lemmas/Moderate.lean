import Verif.Spec.Textbook
import Verif.Lemmas.Step
import Mathlib.Tactic.Linarith
import Mathlib.Tactic.Ring

/-! Helper lemmas: messages when `-1e5` acts as minus infinity. -/

namespace PGMax

variable {κ α : Type _} {vgs : List (VGroup κ)} {hist : List (AddArg α)} {garbage : Garbage} {st : FGState κ α}

section
variable [Field α] [LinearOrder α] [IsStrictOrderedRing α]

/-- Messages within the clipping bounds. -/
def Clipped (scopes : List (List Var)) (m : Msgs α) : Prop := ∀ f i v s, IsEdge scopes f i v → s < v.n → -1000 ≤ m f i s ∧ m f i s ≤ 0

theorem normM_clipped {scopes : List (List Var)} {maxLen : Nat} (hmax : ∀ f i v, IsEdge scopes f i v → v.n ≤ maxLen) (m : Msgs α) :
    Clipped scopes (normM scopes maxLen m) := by
  intro f i v s he hs
  rw [normM_at he]
  have := (segM_spec (m f i) v.n maxLen (by omega) (hmax f i v he)).1 s hs
  exact ⟨le_max_right _ _, max_le (by linarith) (by norm_num)⟩

theorem abs_sum_le {β : Type _} (l : List β) (f : β → α) (B : α) (h : ∀ x ∈ l, |f x| ≤ B) : |(l.map f).sum| ≤ B * (l.length : α) := by
  induction l with
  | nil => simp
  | cons x l ih =>
    have h1 := h x (by simp)
    have h2 := ih (fun y hy => h y (by simp [hy]))
    simp only [List.map_cons, List.sum_cons, List.length_cons, Nat.cast_add, Nat.cast_one, mul_add, mul_one]
    calc |f x + (l.map f).sum| ≤ |f x| + |(l.map f).sum| := abs_add_le _ _
      _ ≤ _ := by linarith

/-- All messages of factor `f` lie between `-b f` and 0. -/
def Bounded (scopes : List (List Var)) (b : Nat → α) (m : Msgs α) : Prop := ∀ f i v s, IsEdge scopes f i v → s < v.n → -b f ≤ m f i s ∧ m f i s ≤ 0

omit [IsStrictOrderedRing α] in
theorem Clipped.bounded {scopes : List (List Var)} {m : Msgs α} (h : Clipped scopes m) : Bounded scopes (fun _ => 1000) m := h

theorem Bounded.sum_le {scopes : List (List Var)} {b : Nat → α} {m : Msgs α} (hm : Bounded scopes b m) {v : Var} {s : Nat} (hs : s < v.n) (p : Nat × Nat → Bool) :
    -((edgesOf scopes v).map (fun e => b e.1)).sum ≤ (((edgesOf scopes v).filter p).map (fun e => m e.1 e.2 s)).sum ∧
      (((edgesOf scopes v).filter p).map (fun e => m e.1 e.2 s)).sum ≤ 0 := by
  have key : ∀ l : List (Nat × Nat), (∀ x ∈ l, x ∈ edgesOf scopes v) →
      -(l.map (fun e => b e.1)).sum ≤ ((l.filter p).map (fun e => m e.1 e.2 s)).sum ∧ ((l.filter p).map (fun e => m e.1 e.2 s)).sum ≤ 0 := by
    intro l
    induction l with
    | nil => simp
    | cons x l ih =>
      intro hl
      have h1 := ih (fun y hy => hl y (by simp [hy]))
      have h2 := hm x.1 x.2 v s ((mem_edgesOf _ _ _ _).1 (hl x (by simp))) hs
      rw [List.filter_cons, List.map_cons, List.sum_cons]
      split
      · rw [List.map_cons, List.sum_cons]
        constructor <;> linarith [h1.1, h1.2, h2.1, h2.2]
      · constructor <;> linarith [h1.1, h1.2, h2.1, h2.2]
  exact key _ fun x hx => hx

theorem Bounded.varToFac_abs {scopes : List (List Var)} {b : Nat → α} {m : Msgs α} (hm : Bounded scopes b m) {ev : Var → Nat → α} {v : Var} {s : Nat} (hs : s < v.n)
    {B : α} (hB : |ev v s| + ((edgesOf scopes v).map (fun e => b e.1)).sum ≤ B) (e : Nat × Nat) : |varToFac scopes ev m v e s| ≤ B := by
  unfold varToFac
  obtain ⟨h1, h2⟩ := hm.sum_le hs (fun e' => e' ≠ e)
  have h3 := abs_add_le (ev v s) ((((edgesOf scopes v).filter (fun e' => e' ≠ e)).map (fun e' => m e'.1 e'.2 s)).sum)
  rw [abs_of_nonpos h2] at h3
  linarith

theorem Bounded.varToFac_diff {scopes : List (List Var)} {b : Nat → α} {m : Msgs α} (hm : Bounded scopes b m) {ev : Var → Nat → α} {v : Var} {s t : Nat} (hs : s < v.n) (ht : t < v.n)
    (e : Nat × Nat) : ev v s - ev v t - ((edgesOf scopes v).map (fun e => b e.1)).sum ≤ varToFac scopes ev m v e s - varToFac scopes ev m v e t := by
  unfold varToFac
  have h1 := (hm.sum_le hs (fun e' => e' ≠ e)).1
  have h2 := (hm.sum_le ht (fun e' => e' ≠ e)).2
  linarith

theorem sum_const_1000 (l : List (Nat × Nat)) : (l.map (fun _ => (1000 : α))).sum = 1000 * (l.length : α) := by
  induction l with
  | nil => simp
  | cons x l ih =>
    simp only [List.map_cons, List.sum_cons, List.length_cons, Nat.cast_add, Nat.cast_one, ih]
    ring

theorem varToFac_diff {scopes : List (List Var)} {m : Msgs α} (hm : Clipped scopes m) {ev : Var → Nat → α} {v : Var} {s t : Nat} (hs : s < v.n) (ht : t < v.n)
    (e : Nat × Nat) : ev v s - ev v t - 1000 * ((edgesOf scopes v).length : α) ≤ varToFac scopes ev m v e s - varToFac scopes ev m v e t := by
  rw [← sum_const_1000]
  exact hm.bounded.varToFac_diff hs ht e

theorem Moderate.tame {κ : Type _} {fg : FactorGraph κ α} {lp : List α} {ev : Var → Nat → α} {d : α} (h : Moderate fg lp ev d) :
    Tame fg lp ev d (fun _ => 1000) where
  damping := h.damping
  spread _ _ _ := .inl rfl
  bounds := by
    obtain ⟨R, h1, h2⟩ := h.bounds
    refine ⟨R, fun f i v s he hs => ?_, h2⟩
    rw [sum_const_1000]
    exact h1 f i v s he hs

theorem LogicalModerate.tame {κ : Type _} {fg : FactorGraph κ α} {ev : Var → Nat → α} (h : LogicalModerate fg ev) : LogicalTame fg ev (fun _ => 1000) := by
  unfold LogicalTame
  simp only [sum_const_1000]
  exact h

/-! ## Maxima -/

omit [IsStrictOrderedRing α] in
theorem foldl_max_maxOf (l : List α) (b z : α) (h : l ≠ []) : l.foldl max b = max b (maxOf z l) := by
  cases l with
  | nil => exact absurd rfl h
  | cons x l =>
    have : ∀ (l : List α) (a c : α), l.foldl max (max a c) = max a (l.foldl max c) := by
      intro l
      induction l with
      | nil => intro a c; rfl
      | cons y l ih => intro a c; simp only [List.foldl_cons]; rw [max_assoc, ih]
    exact this l b x

theorem maxOf_map_add {β : Type _} (l : List β) (f : β → α) (c z : α) (h : l ≠ []) : maxOf z (l.map (fun x => f x + c)) = maxOf z (l.map f) + c := by
  obtain ⟨h1, h2⟩ := maxOf_spec z (l.map f) (by simpa using h)
  obtain ⟨h3, h4⟩ := maxOf_spec z (l.map (fun x => f x + c)) (by simpa using h)
  apply le_antisymm
  · obtain ⟨x, hx, he⟩ := List.mem_map.1 h3
    rw [← he]
    have := h2 (f x) (List.mem_map.2 ⟨x, hx, rfl⟩)
    linarith
  · obtain ⟨x, hx, he⟩ := List.mem_map.1 h1
    rw [← he]
    exact h4 _ (List.mem_map.2 ⟨x, hx, rfl⟩)

/-! ## Enumeration factors -/

/-- The message of an enumeration factor without the constant `-1e5` (except in the offset `exp (-1e5)` of the sum of
exponentials). -/
def softOut (env : Env α) (T : α) (F : SFac α) (q : Nat → Nat → α) (i s : Nat) : α :=
  if T = 0 then maxOf 0 ((F.rowsAt i s).map (scoreBut F.scope.length q i))
  else maxOf 0 ((F.rowsAt i s).map (scoreBut F.scope.length q i)) +
    T * env.log (env.exp NEG_INF + ((F.rowsAt i s).map (fun r => env.exp ((scoreBut F.scope.length q i r -
      maxOf 0 ((F.rowsAt i s).map (scoreBut F.scope.length q i))) / T))).sum)

theorem enumOut_soft (env : Env α) (T : α) {F : SFac α} {q : Nat → Nat → α} {i s : Nat} (hne : F.rowsAt i s ≠ [])
    (hge : ∀ r ∈ F.rowsAt i s, NEG_INF ≤ scoreBut F.scope.length q i r + q i s) : enumOut env T F q i s = softOut env T F q i s := by
  have hM : ((F.rowsAt i s).map (fun r => scoreBut F.scope.length q i r + q i s)).foldl max NEG_INF
      = maxOf 0 ((F.rowsAt i s).map (scoreBut F.scope.length q i)) + q i s := by
    rw [foldl_max_maxOf _ _ 0 (by simpa using hne), maxOf_map_add _ _ _ _ hne, max_eq_right]
    obtain ⟨h1, -⟩ := maxOf_spec 0 ((F.rowsAt i s).map (scoreBut F.scope.length q i)) (by simpa using hne)
    obtain ⟨r, hr, he⟩ := List.mem_map.1 h1
    rw [← he]
    exact hge r hr
  unfold enumOut softOut
  rw [hM]
  split
  · ring
  · congr 1
    · ring
    · congr 4
      apply List.map_congr_left
      intro r _
      congr 2
      ring

/-- A state without configurations. -/
theorem enumOut_nil (env : Env α) (T : α) (hT : T = 0 ∨ (0 < T ∧ EnvOk env)) {F : SFac α} {q : Nat → Nat → α} {i s : Nat} (hnil : F.rowsAt i s = []) :
    enumOut env T F q i s ≤ -100000 - q i s := by
  unfold enumOut
  rw [hnil]
  simp only [List.map_nil, List.foldl_nil, List.sum_nil, add_zero]
  have hN : (NEG_INF : α) = -100000 := by norm_num [NEG_INF]
  rcases hT with hT | ⟨hT, ho⟩
  · rw [if_pos hT, hN]
  · rw [if_neg hT.ne', hN]
    have := mul_nonpos_of_nonneg_of_nonpos hT.le ho.log_tiny
    linarith

theorem softOut_ge (env : Env α) (T : α) (hT : T = 0 ∨ (0 < T ∧ EnvOk env)) {F : SFac α} {q : Nat → Nat → α} {i s : Nat} {r : List Nat × α} (hr : r ∈ F.rowsAt i s) :
    scoreBut F.scope.length q i r ≤ softOut env T F q i s := by
  obtain ⟨h1, h2⟩ := maxOf_spec 0 ((F.rowsAt i s).map (scoreBut F.scope.length q i)) (by
    intro h; rw [List.map_eq_nil_iff] at h; rw [h] at hr; simp at hr)
  have h3 := h2 _ (List.mem_map.2 ⟨r, hr, rfl⟩)
  unfold softOut
  rcases hT with hT | ⟨hT, ho⟩
  · rw [if_pos hT]; exact h3
  · rw [if_neg hT.ne']
    obtain ⟨r0, hr0, he⟩ := List.mem_map.1 h1
    generalize maxOf 0 ((F.rowsAt i s).map (scoreBut F.scope.length q i)) = M at *
    have hsum : 1 ≤ ((F.rowsAt i s).map (fun r => env.exp ((scoreBut F.scope.length q i r - M) / T))).sum := by
      have : env.exp ((scoreBut F.scope.length q i r0 - M) / T) = 1 := by rw [he, sub_self, zero_div]; exact ho.exp_zero
      rw [← this]
      exact List.single_le_sum (by
        intro x hx
        obtain ⟨r, -, rfl⟩ := List.mem_map.1 hx
        exact ho.exp_nonneg _) _ (List.mem_map.2 ⟨r0, hr0, rfl⟩)
    have h4 : 1 ≤ env.exp NEG_INF + ((F.rowsAt i s).map (fun r => env.exp ((scoreBut F.scope.length q i r - M) / T))).sum := by
      have := ho.exp_nonneg (NEG_INF : α)
      linarith
    have := mul_nonneg hT.le (ho.log_nonneg _ h4)
    linarith

/-- The states of position `i` (of `n` states) that occur in configurations. -/
def SFac.supp (F : SFac α) (i n : Nat) : List Nat := (List.range n).filter (fun s => !(F.rowsAt i s).isEmpty)

/-- Normalisation over the states that occur in configurations; all others are clipped. -/
def suppNorm (F : SFac α) (i n : Nat) (x : Nat → α) (s : Nat) : α :=
  if F.rowsAt i s = [] then -1000 else max (x s - maxOf 0 ((F.supp i n).map x)) (-1000)

omit [Field α] [LinearOrder α] [IsStrictOrderedRing α] in
theorem SFac.mem_supp {F : SFac α} {i n s : Nat} : s ∈ F.supp i n ↔ s < n ∧ F.rowsAt i s ≠ [] := by
  simp [SFac.supp, List.mem_filter]

omit [IsStrictOrderedRing α] in
theorem suppNorm_congr {F : SFac α} {i n : Nat} {x y : Nat → α} (h : ∀ s, s < n → F.rowsAt i s ≠ [] → x s = y s) (s : Nat) (hs : s < n) :
    suppNorm F i n x s = suppNorm F i n y s := by
  unfold suppNorm
  split
  · rfl
  · next hne =>
    rw [h s hs hne]
    congr 3
    apply List.map_congr_left
    intro t ht
    obtain ⟨h1, h2⟩ := SFac.mem_supp.1 ht
    exact h t h1 h2

theorem suppNorm_shift {F : SFac α} {i n : Nat} {x y : Nat → α} (c : α) (h : ∀ s, s < n → F.rowsAt i s ≠ [] → y s = x s + c) (s : Nat) (hs : s < n) :
    suppNorm F i n y s = suppNorm F i n x s := by
  rw [suppNorm_congr (y := fun s => x s + c) h s hs]
  unfold suppNorm
  split
  · rfl
  · next hne =>
    rw [maxOf_map_add]
    · congr 1; ring
    · exact List.ne_nil_of_mem (SFac.mem_supp.2 ⟨hs, hne⟩)

/-- The size of a score. -/
theorem scoreBut_abs {F : SFac α} {q : Nat → Nat → α} {R : Var → α} (hrow : ∀ r ∈ F.rows, List.Forall₂ (fun s (v : Var) => s < v.n) r.1 F.scope)
    (hq : ∀ (j : Nat) (w : Var) (t : Nat), F.scope[j]? = some w → t < w.n → |q j t| ≤ R w) {r : List Nat × α} (hr : r ∈ F.rows) {i : Nat} {v : Var}
    (hi : F.scope[i]? = some v) : |scoreBut F.scope.length q i r| ≤ |r.2| + (F.scope.map R).sum - R v := by
  have hil := (List.getElem?_eq_some_iff.1 hi).1
  have hRs : (F.scope.map R).sum = (((List.range F.scope.length).filter (fun j => j ≠ i)).map (fun j => R (F.scope.getD j ⟨0, 0⟩))).sum + R v := by
    have e : F.scope.map R = (List.range F.scope.length).map (fun j => R (F.scope.getD j ⟨0, 0⟩)) := by
      apply List.ext_getElem?
      intro j
      by_cases hj : j < F.scope.length
      · simp [hj, List.getD]
      · simp [hj]
    rw [e, sum_range_but _ i hil, getD_of_some hi]
  have key : ∀ l : List Nat, (∀ j ∈ l, j < F.scope.length) → |(l.map (fun j => q j (r.1.getD j 0))).sum| ≤ (l.map (fun j => R (F.scope.getD j ⟨0, 0⟩))).sum := by
    intro l
    induction l with
    | nil => intro _; simp
    | cons j l ih =>
      intro hl
      have h1 := ih (fun j hj => hl j (by simp [hj]))
      have hj := hl j (by simp)
      have hf := hrow r hr
      have hlen := hf.length_eq
      obtain ⟨w, hw, hlt⟩ := forall₂_getElem? hf (List.getElem?_eq_getElem (show j < r.1.length by omega))
      have h2 := hq j w _ hw hlt
      simp only [List.map_cons, List.sum_cons]
      rw [getD_of_some hw, getD_of_some (List.getElem?_eq_getElem (show j < r.1.length by omega))]
      exact le_trans (abs_add_le _ _) (add_le_add h2 h1)
  have h3 := key ((List.range F.scope.length).filter (fun j => j ≠ i)) (by
    intro j hj; have := (List.mem_filter.1 hj).1; simpa using this)
  unfold scoreBut
  refine le_trans (abs_add_le _ _) ?_
  rw [hRs]
  linarith

/-- The damped new messages of an enumeration factor are normalised as if states without configurations were minus infinity. -/
theorem enum_norm (env : Env α) (T : α) (hT : T = 0 ∨ (0 < T ∧ EnvOk env)) {F : SFac α} {q : Nat → Nat → α} {R : Var → α} {W d : α}
    (hrow : ∀ r ∈ F.rows, List.Forall₂ (fun s (v : Var) => s < v.n) r.1 F.scope) (hne : F.rows ≠ [])
    (hq : ∀ (j : Nat) (w : Var) (t : Nat), F.scope[j]? = some w → t < w.n → |q j t| ≤ R w)
    (hW : ∀ r ∈ F.rows, |r.2| + (F.scope.map R).sum ≤ W) (hW1 : W ≤ 100000) (hfull : F.Full ∨ 1000 * (1 + d) ≤ (1 - d) * (100000 - W))
    (hd : 0 ≤ d ∧ d ≤ 1) {i : Nat} {v : Var} (hi : F.scope[i]? = some v) {maxLen : Nat} (hmax : v.n ≤ maxLen) {m : Nat → α}
    (hm : ∀ s < v.n, -1000 ≤ m s ∧ m s ≤ 0) (s : Nat) (hs : s < v.n) :
    max ((m s + (1 - d) * (enumOut env T F q i s - m s)) - segM (fun s => m s + (1 - d) * (enumOut env T F q i s - m s)) v.n maxLen) (-1000)
      = suppNorm F i v.n (fun s => m s + (1 - d) * (softOut env T F q i s - m s)) s := by
  have hN : (NEG_INF : α) = -100000 := by norm_num [NEG_INF]
  obtain ⟨hd0, hd1⟩ := hd
  have hq0 := hq i v s hi hs
  have hRv : 0 ≤ R v := le_trans (abs_nonneg _) hq0
  have hstate : ∀ s r, r ∈ F.rowsAt i s → s < v.n := by
    intro s r hr
    obtain ⟨h1, h2⟩ := List.mem_filter.1 hr
    simp only [decide_eq_true_eq] at h2
    obtain ⟨w, hw, hlt⟩ := forall₂_getElem? (hrow r h1) h2
    rw [hi] at hw; cases hw; exact hlt
  have hsoft : ∀ s, F.rowsAt i s ≠ [] → enumOut env T F q i s = softOut env T F q i s := by
    intro s hne'
    refine enumOut_soft env T hne' ?_
    intro r hr
    have h1 := abs_le.1 (scoreBut_abs hrow hq (List.mem_filter.1 hr).1 hi)
    have h2 := hW r (List.mem_filter.1 hr).1
    have h3 := abs_le.1 (hq i v s hi (hstate s r hr))
    rw [hN]
    linarith [h1.1, h3.1]
  have hlow : ∀ s, F.rowsAt i s ≠ [] → -1000 * d + (1 - d) * (R v - W) ≤ m s + (1 - d) * (softOut env T F q i s - m s) := by
    intro s hne'
    obtain ⟨r, hr⟩ := List.exists_mem_of_ne_nil _ hne'
    have h1 := abs_le.1 (scoreBut_abs hrow hq (List.mem_filter.1 hr).1 hi)
    have h2 := hW r (List.mem_filter.1 hr).1
    have h3 := softOut_ge env T hT (q := q) hr
    have h4 := hm s (hstate s r hr)
    have h5 : R v - W ≤ softOut env T F q i s := by linarith [h1.1]
    have h6 := mul_le_mul_of_nonneg_left h5 (show (0 : α) ≤ 1 - d by linarith)
    have h7 := mul_le_mul_of_nonneg_left h4.1 hd0
    have : m s + (1 - d) * (softOut env T F q i s - m s) = d * m s + (1 - d) * softOut env T F q i s := by ring
    rw [this]
    linarith
  have hhigh : ∀ s < v.n, F.rowsAt i s = [] → m s + (1 - d) * (enumOut env T F q i s - m s) ≤ (1 - d) * (R v - 100000) := by
    intro s hs hnil
    have h1 := enumOut_nil env T hT (q := q) hnil
    have h2 := abs_le.1 (hq i v s hi hs)
    have h3 := (hm s hs).2
    have h4 : enumOut env T F q i s ≤ R v - 100000 := by linarith [h2.1]
    have h5 := mul_le_mul_of_nonneg_left h4 (show (0 : α) ≤ 1 - d by linarith)
    have h6 := mul_nonpos_of_nonneg_of_nonpos hd0 h3
    have : m s + (1 - d) * (enumOut env T F q i s - m s) = d * m s + (1 - d) * enumOut env T F q i s := by ring
    rw [this]
    linarith
  -- a supported state
  obtain ⟨r0, hr0⟩ := List.exists_mem_of_ne_nil _ hne
  obtain ⟨s0, hs0⟩ : ∃ s0, F.rowsAt i s0 ≠ [] := by
    have hlen := (hrow r0 hr0).length_eq
    have hil := (List.getElem?_eq_some_iff.1 hi).1
    refine ⟨r0.1[i]'(by omega), List.ne_nil_of_mem (a := r0) (List.mem_filter.2 ⟨hr0, ?_⟩)⟩
    simp [List.getElem?_eq_getElem (show i < r0.1.length by omega)]
  have hs0n : s0 < v.n := by
    obtain ⟨r, hr⟩ := List.exists_mem_of_ne_nil _ hs0
    exact hstate s0 r hr
  have hsupp : (F.supp i v.n).map (fun s => m s + (1 - d) * (softOut env T F q i s - m s)) ≠ [] := by
    rw [Ne, List.map_eq_nil_iff]
    exact List.ne_nil_of_mem (SFac.mem_supp.2 ⟨hs0n, hs0⟩)
  obtain ⟨g1, g2⟩ := maxOf_spec 0 _ hsupp
  obtain ⟨k1, k2, k3⟩ := segM_spec (fun s => m s + (1 - d) * (enumOut env T F q i s - m s)) v.n maxLen (by omega) hmax
  have hseg : segM (fun s => m s + (1 - d) * (enumOut env T F q i s - m s)) v.n maxLen
      = maxOf 0 ((F.supp i v.n).map (fun s => m s + (1 - d) * (softOut env T F q i s - m s))) := by
    apply le_antisymm
    · have hle : ∀ s < v.n, m s + (1 - d) * (enumOut env T F q i s - m s) ≤ maxOf 0 ((F.supp i v.n).map (fun s => m s + (1 - d) * (softOut env T F q i s - m s))) := by
        intro s hs
        by_cases hnil : F.rowsAt i s = []
        · have h1 := hhigh s hs hnil
          have h2 := hlow s0 hs0
          have h3 := g2 _ (List.mem_map.2 ⟨s0, SFac.mem_supp.2 ⟨hs0n, hs0⟩, rfl⟩)
          rcases hfull with hf | hf
          · exact absurd hnil (hf i v s hi hs)
          · have e1 : (1 - d) * (R v - 100000) = (1 - d) * (R v - W) - (1 - d) * (100000 - W) := by ring
            linarith
        · rw [hsoft s hnil]
          exact g2 _ (List.mem_map.2 ⟨s, SFac.mem_supp.2 ⟨hs, hnil⟩, rfl⟩)
      rcases k2 with ⟨s, hs, k2⟩ | ⟨-, k2, -⟩
      · rw [k2]; exact hle s hs
      · rw [k2, hN]
        have h2 := hlow s0 hs0
        have h3 := g2 _ (List.mem_map.2 ⟨s0, SFac.mem_supp.2 ⟨hs0n, hs0⟩, rfl⟩)
        have h4 := mul_le_mul_of_nonneg_left (show (-100000 : α) ≤ R v - W by linarith) (show (0 : α) ≤ 1 - d by linarith)
        have : (-100000 : α) ≤ -1000 * d + (1 - d) * (-100000) := by linarith
        linarith
    · obtain ⟨s, hs, he⟩ := List.mem_map.1 g1
      obtain ⟨hs1, hs2⟩ := SFac.mem_supp.1 hs
      rw [← he, ← hsoft s hs2]
      exact k1 s hs1
  rw [hseg]
  unfold suppNorm
  split
  · next hnil =>
    apply max_eq_right
    have h1 := hhigh s hs hnil
    have h2 := hlow s0 hs0
    have h3 := g2 _ (List.mem_map.2 ⟨s0, SFac.mem_supp.2 ⟨hs0n, hs0⟩, rfl⟩)
    rcases hfull with hf | hf
    · exact absurd hnil (hf i v s hi hs)
    · have e1 : (1 - d) * (R v - 100000) = (1 - d) * (R v - W) - (1 - d) * (100000 - W) := by ring
      linarith
  · next hnil => rw [hsoft s hnil]

end

end PGMax
