import Verif.Spec.Rbm
import Verif.Lemmas.Image
import Verif.Lemmas.Moved
import Verif.Lemmas.SumTextbook

/-! # Helper lemmas: belief propagation in restricted Boltzmann machines, in log odds -/

namespace PGMax

section
variable {α : Type _} [Field α] [LinearOrder α]

/-- The factors of a restricted Boltzmann machine. -/
def RbmNet.factors (N : RbmNet α) (H V : Nat → Var) : List (SFac α) :=
  (List.range N.nh).map (fun i => ⟨[H i], [([0], 0), ([1], N.bh i)]⟩) ++
  ((List.range N.nv).map (fun j => ⟨[V j], [([0], 0), ([1], N.bv j)]⟩) ++
  (grid N.nh N.nv).map (fun p => ⟨[H p.1, V p.2], [([0, 0], 0), ([0, 1], 0), ([1, 0], 0), ([1, 1], N.w p.1 p.2)]⟩))

/-- The index of the factor between hidden unit `i` and visible unit `j`. -/
abbrev RbmNet.pair (N : RbmNet α) (i j : Nat) : Nat := N.nh + N.nv + (i * N.nv + j)

/-- The variables of a restricted Boltzmann machine. -/
structure RbmVars (N : RbmNet α) (H V : Nat → Var) : Prop where
  hn : ∀ i < N.nh, (H i).n = 2
  vn : ∀ j < N.nv, (V j).n = 2
  hinj : ∀ i < N.nh, ∀ k < N.nh, H i = H k → i = k
  vinj : ∀ i < N.nv, ∀ k < N.nv, V i = V k → i = k
  ne : ∀ i < N.nh, ∀ j < N.nv, H i ≠ V j

variable {N : RbmNet α} {H V : Nat → Var}

theorem RbmNet.fac_h {i : Nat} (hi : i < N.nh) : (N.factors H V)[i]? = some ⟨[H i], [([0], 0), ([1], N.bh i)]⟩ := by
  unfold RbmNet.factors
  rw [List.getElem?_append_left (by simpa using hi), List.getElem?_map, List.getElem?_range hi]
  rfl

theorem RbmNet.fac_v {j : Nat} (hj : j < N.nv) : (N.factors H V)[N.nh + j]? = some ⟨[V j], [([0], 0), ([1], N.bv j)]⟩ := by
  unfold RbmNet.factors
  rw [List.getElem?_append_right (by simp), List.length_map, List.length_range, Nat.add_sub_cancel_left, List.getElem?_append_left (by simpa using hj), List.getElem?_map,
    List.getElem?_range hj]
  rfl

theorem RbmNet.fac_p {i j : Nat} (hi : i < N.nh) (hj : j < N.nv) :
    (N.factors H V)[N.pair i j]? = some ⟨[H i, V j], [([0, 0], 0), ([0, 1], 0), ([1, 0], 0), ([1, 1], N.w i j)]⟩ := by
  unfold RbmNet.factors RbmNet.pair
  rw [List.getElem?_append_right (by simp; omega), List.length_map, List.length_range, List.getElem?_append_right (by simp; omega), List.length_map, List.length_range,
    show N.nh + N.nv + (i * N.nv + j) - N.nh - N.nv = i * N.nv + j by omega, List.getElem?_map, grid_getElem? hi hj]
  rfl

/-- The factors, by index. -/
theorem RbmNet.fac_cases {f : Nat} {F : SFac α} (h : (N.factors H V)[f]? = some F) :
    (∃ i < N.nh, f = i ∧ F = ⟨[H i], [([0], 0), ([1], N.bh i)]⟩) ∨ (∃ j < N.nv, f = N.nh + j ∧ F = ⟨[V j], [([0], 0), ([1], N.bv j)]⟩) ∨
    ∃ i < N.nh, ∃ j < N.nv, f = N.pair i j ∧ F = ⟨[H i, V j], [([0, 0], 0), ([0, 1], 0), ([1, 0], 0), ([1, 1], N.w i j)]⟩ := by
  have hlt : f < N.nh + (N.nv + N.nh * N.nv) := by
    have := (List.getElem?_eq_some_iff.1 h).1
    simpa [RbmNet.factors, grid_length] using this
  by_cases h1 : f < N.nh
  · rw [N.fac_h h1] at h
    exact .inl ⟨f, h1, rfl, (Option.some.inj h).symm⟩
  by_cases h2 : f < N.nh + N.nv
  · have e : N.nh + (f - N.nh) = f := by omega
    rw [← e, N.fac_v (by omega)] at h
    exact .inr (.inl ⟨f - N.nh, by omega, e.symm, (Option.some.inj h).symm⟩)
  · have hv : 0 < N.nv := Nat.pos_of_ne_zero (by intro h0; rw [h0] at hlt h2; simp at hlt; omega)
    have k1 : (f - N.nh - N.nv) / N.nv < N.nh := Nat.div_lt_of_lt_mul (by rw [Nat.mul_comm]; omega)
    have k2 : (f - N.nh - N.nv) % N.nv < N.nv := Nat.mod_lt _ hv
    have e : N.pair ((f - N.nh - N.nv) / N.nv) ((f - N.nh - N.nv) % N.nv) = f := by
      show N.nh + N.nv + _ = f
      rw [Nat.div_add_mod' (f - N.nh - N.nv) N.nv]
      omega
    rw [← e, N.fac_p k1 k2] at h
    exact .inr (.inr ⟨_, k1, _, k2, e.symm, (Option.some.inj h).symm⟩)

theorem RbmNet.pair_inj {i j k l : Nat} (hj : j < N.nv) (hl : l < N.nv) (h : N.pair i j = N.pair k l) : i = k ∧ j = l := by
  have h : i * N.nv + j = k * N.nv + l := by
    have : N.nh + N.nv + (i * N.nv + j) = N.nh + N.nv + (k * N.nv + l) := h
    omega
  have hv : 0 < N.nv := by omega
  have d1 := congrArg (· / N.nv) h
  have d2 := congrArg (· % N.nv) h
  simp only [Nat.mul_comm _ N.nv, Nat.mul_add_div hv, Nat.div_eq_of_lt hj, Nat.div_eq_of_lt hl, Nat.mul_add_mod, Nat.mod_eq_of_lt hj, Nat.mod_eq_of_lt hl] at d1 d2
  omega

/-- The edges. -/
theorem RbmNet.edge_cases {f k : Nat} {v : Var} (h : IsEdge ((N.factors H V).map (·.scope)) f k v) :
    (∃ i < N.nh, f = i ∧ k = 0 ∧ v = H i) ∨ (∃ j < N.nv, f = N.nh + j ∧ k = 0 ∧ v = V j) ∨
    ∃ i < N.nh, ∃ j < N.nv, f = N.pair i j ∧ (k = 0 ∧ v = H i ∨ k = 1 ∧ v = V j) := by
  obtain ⟨vs, h1, h2⟩ := h
  rw [List.getElem?_map] at h1
  obtain ⟨F, hF, rfl⟩ := Option.map_eq_some_iff.1 h1
  rcases N.fac_cases hF with ⟨i, hi, rfl, rfl⟩ | ⟨j, hj, rfl, rfl⟩ | ⟨i, hi, j, hj, rfl, rfl⟩
  · match k with
    | 0 => exact .inl ⟨_, hi, rfl, rfl, by simpa using h2.symm⟩
    | k + 1 => simp at h2
  · match k with
    | 0 => exact .inr (.inl ⟨_, hj, rfl, rfl, by simpa using h2.symm⟩)
    | k + 1 => simp at h2
  · match k with
    | 0 => exact .inr (.inr ⟨_, hi, _, hj, rfl, .inl ⟨rfl, by simpa using h2.symm⟩⟩)
    | 1 => exact .inr (.inr ⟨_, hi, _, hj, rfl, .inr ⟨rfl, by simpa using h2.symm⟩⟩)
    | k + 2 => simp at h2

theorem RbmNet.edge_h {i : Nat} (hi : i < N.nh) : IsEdge ((N.factors H V).map (·.scope)) i 0 (H i) :=
  ⟨[H i], by rw [List.getElem?_map, N.fac_h hi]; rfl, rfl⟩

theorem RbmNet.edge_v {j : Nat} (hj : j < N.nv) : IsEdge ((N.factors H V).map (·.scope)) (N.nh + j) 0 (V j) :=
  ⟨[V j], by rw [List.getElem?_map, N.fac_v hj]; rfl, rfl⟩

theorem RbmNet.edge_ph {i j : Nat} (hi : i < N.nh) (hj : j < N.nv) : IsEdge ((N.factors H V).map (·.scope)) (N.pair i j) 0 (H i) :=
  ⟨[H i, V j], by rw [List.getElem?_map, N.fac_p hi hj]; rfl, rfl⟩

theorem RbmNet.edge_pv {i j : Nat} (hi : i < N.nh) (hj : j < N.nv) : IsEdge ((N.factors H V).map (·.scope)) (N.pair i j) 1 (V j) :=
  ⟨[H i, V j], by rw [List.getElem?_map, N.fac_p hi hj]; rfl, rfl⟩

theorem RbmVars.edges_h (hv : RbmVars N H V) {i : Nat} (hi : i < N.nh) :
    (edgesOf ((N.factors H V).map (·.scope)) (H i)).Perm ((i, 0) :: (List.range N.nv).map (fun j => (N.pair i j, 0))) := by
  refine (List.perm_ext_iff_of_nodup (edgesOf_nodup _ _) ?_).2 ?_
  · rw [List.nodup_cons]
    refine ⟨?_, List.Nodup.map_on (fun j hj l hl h => ?_) List.nodup_range⟩
    · intro h
      obtain ⟨j, hj, e⟩ := List.mem_map.1 h
      have : N.nh + N.nv + (i * N.nv + j) = i := (Prod.mk.inj e).1
      omega
    · exact (N.pair_inj (List.mem_range.1 hj) (List.mem_range.1 hl) (Prod.mk.inj h).1).2
  · rintro ⟨f, k⟩
    rw [mem_edgesOf]
    constructor
    · intro h
      rcases N.edge_cases h with ⟨l, hl, rfl, rfl, e⟩ | ⟨j, hj, rfl, rfl, e⟩ | ⟨l, hl, j, hj, rfl, ⟨rfl, e⟩ | ⟨rfl, e⟩⟩
      · rw [hv.hinj _ hi _ hl e]; simp
      · exact absurd e (hv.ne _ hi _ hj)
      · rw [hv.hinj _ hi _ hl e]
        exact List.mem_cons_of_mem _ (List.mem_map.2 ⟨j, List.mem_range.2 hj, rfl⟩)
      · exact absurd e (hv.ne _ hi _ hj)
    · intro h
      rw [List.mem_cons] at h
      rcases h with h | h
      · cases h
        exact N.edge_h hi
      · obtain ⟨j, hj, e⟩ := List.mem_map.1 h
        cases e
        exact N.edge_ph hi (List.mem_range.1 hj)

theorem RbmVars.edges_v (hv : RbmVars N H V) {j : Nat} (hj : j < N.nv) :
    (edgesOf ((N.factors H V).map (·.scope)) (V j)).Perm ((N.nh + j, 0) :: (List.range N.nh).map (fun i => (N.pair i j, 1))) := by
  refine (List.perm_ext_iff_of_nodup (edgesOf_nodup _ _) ?_).2 ?_
  · rw [List.nodup_cons]
    refine ⟨?_, List.Nodup.map_on (fun i hi l hl h => ?_) List.nodup_range⟩
    · intro h
      obtain ⟨i, hi, e⟩ := List.mem_map.1 h
      have := (Prod.mk.inj e).2
      omega
    · exact (N.pair_inj hj hj (Prod.mk.inj h).1).1
  · rintro ⟨f, k⟩
    rw [mem_edgesOf]
    constructor
    · intro h
      rcases N.edge_cases h with ⟨l, hl, rfl, rfl, e⟩ | ⟨l, hl, rfl, rfl, e⟩ | ⟨i, hi, l, hl, rfl, ⟨rfl, e⟩ | ⟨rfl, e⟩⟩
      · exact absurd e.symm (hv.ne _ hl _ hj)
      · rw [hv.vinj _ hj _ hl e]; simp
      · exact absurd e.symm (hv.ne _ hi _ hj)
      · rw [hv.vinj _ hj _ hl e]
        exact List.mem_cons_of_mem _ (List.mem_map.2 ⟨i, List.mem_range.2 hi, rfl⟩)
    · intro h
      rw [List.mem_cons] at h
      rcases h with h | h
      · cases h
        exact N.edge_v hj
      · obtain ⟨i, hi, e⟩ := List.mem_map.1 h
        cases e
        exact N.edge_pv (List.mem_range.1 hi) hj


/-! ### Log odds -/

variable [IsStrictOrderedRing α]

theorem tbNorm_odds {x : Nat → WithBot α} {a b : α} (h0 : x 0 = WithBot.some a) (h1 : x 1 = WithBot.some b) (h : |b - a| ≤ 1000) : tbNorm 2 x 1 - tbNorm 2 x 0 = b - a := by
  have hs : (Finset.range 2).sup x = WithBot.some (max a b) := by
    rw [show Finset.range 2 = {0, 1} from rfl, Finset.sup_insert, Finset.sup_singleton, h0, h1]
    rfl
  rw [tbNorm_coe hs h1, tbNorm_coe hs h0]
  rw [abs_le] at h
  rcases le_total a b with hab | hab
  · rw [max_eq_right hab, max_eq_left (by linarith), max_eq_left (by linarith)]
    ring
  · rw [max_eq_left hab, max_eq_left (by linarith), max_eq_left (by linarith)]
    ring

/-- The log odds of a message. -/
def oddsOf (m : Msgs α) (f k : Nat) : α := m f k 1 - m f k 0

omit [LinearOrder α] [IsStrictOrderedRing α] in
theorem varToFac_odds {scopes : List (List Var)} (ev : Var → Nat → α) (m : Msgs α) {v : Var} {f i : Nat} (he : IsEdge scopes f i v) :
    varToFac scopes ev m v (f, i) 1 - varToFac scopes ev m v (f, i) 0 = beliefOf scopes ev m v 1 - beliefOf scopes ev m v 0 - oddsOf m f i := by
  rw [varToFac_eq ev m he, varToFac_eq ev m he]
  unfold oddsOf
  ring

omit [IsStrictOrderedRing α] in
theorem RbmVars.belief_h (hv : RbmVars N H V) (ev : Var → Nat → α) (m : Msgs α) {i : Nat} (hi : i < N.nh) :
    beliefOf ((N.factors H V).map (·.scope)) ev m (H i) 1 - beliefOf ((N.factors H V).map (·.scope)) ev m (H i) 0 =
      (ev (H i) 1 - ev (H i) 0) + oddsOf m i 0 + ∑ j ∈ Finset.range N.nv, oddsOf m (N.pair i j) 0 := by
  unfold beliefOf
  rw [((hv.edges_h hi).map _).sum_eq, ((hv.edges_h hi).map _).sum_eq]
  simp only [List.map_cons, List.map_map, List.sum_cons]
  rw [range_sum, range_sum]
  simp only [oddsOf, Function.comp_apply, Finset.sum_sub_distrib]
  ring

omit [IsStrictOrderedRing α] in
theorem RbmVars.belief_v (hv : RbmVars N H V) (ev : Var → Nat → α) (m : Msgs α) {j : Nat} (hj : j < N.nv) :
    beliefOf ((N.factors H V).map (·.scope)) ev m (V j) 1 - beliefOf ((N.factors H V).map (·.scope)) ev m (V j) 0 =
      (ev (V j) 1 - ev (V j) 0) + oddsOf m (N.nh + j) 0 + ∑ i ∈ Finset.range N.nh, oddsOf m (N.pair i j) 1 := by
  unfold beliefOf
  rw [((hv.edges_v hj).map _).sum_eq, ((hv.edges_v hj).map _).sum_eq]
  simp only [List.map_cons, List.map_map, List.sum_cons]
  rw [range_sum, range_sum]
  simp only [oddsOf, Function.comp_apply, Finset.sum_sub_distrib]
  ring

theorem sumStep_odds (Φ : Nat → List α → α) {factors : List (SFac α)} {f k : Nat} {F : SFac α} {v : Var} (hF : factors[f]? = some F) (hk : F.scope[k]? = some v) (hn : v.n = 2)
    (ev : Var → Nat → α) {d : α} (m : Msgs α) {o₀ o₁ : α} (h0 : sumOut (Φ f) F (tbIn factors ev m f F) k 0 = WithBot.some o₀)
    (h1 : sumOut (Φ f) F (tbIn factors ev m f F) k 1 = WithBot.some o₁) (h : |d * oddsOf m f k + (1 - d) * (o₁ - o₀)| ≤ 1000) :
    oddsOf (sumStep Φ factors ev d m) f k = d * oddsOf m f k + (1 - d) * (o₁ - o₀) := by
  have e : d * oddsOf m f k + (1 - d) * (o₁ - o₀) = (d * m f k 1 + (1 - d) * o₁) - (d * m f k 0 + (1 - d) * o₀) := by
    unfold oddsOf
    ring
  rw [e] at h ⊢
  show sumStep Φ factors ev d m f k 1 - sumStep Φ factors ev d m f k 0 = _
  rw [sumStep_at Φ hF hk, sumStep_at Φ hF hk, hn]
  exact tbNorm_odds (by rw [h0]; rfl) (by rw [h1]; rfl) h

/-- What is needed of a way to summarise scores: `g w a` are the log odds that it gives to a unit. -/
structure Bumps (Φ : Nat → List α → α) (g : α → α → α) : Prop where
  one : ∀ f x, Φ f [x] = x
  two : ∀ f w a b, Φ f [a, w + b] - Φ f [a, b] = g w (b - a)
  le : ∀ w a, |g w a| ≤ |w|

theorem bumps_max : Bumps (fun _ => maxOf (0 : α)) maxBump where
  one _ _ := rfl
  two _ w a b := by
    show max a (w + b) - max a b = max 0 (w + (b - a)) - max 0 (b - a)
    rcases le_total a (w + b) with h1 | h1 <;> rcases le_total a b with h2 | h2
    · rw [max_eq_right h1, max_eq_right h2, max_eq_right (by linarith), max_eq_right (by linarith)]; ring
    · rw [max_eq_right h1, max_eq_left h2, max_eq_right (by linarith), max_eq_left (by linarith)]; ring
    · rw [max_eq_left h1, max_eq_right h2, max_eq_left (by linarith), max_eq_right (by linarith)]; ring
    · rw [max_eq_left h1, max_eq_left h2, max_eq_left (by linarith), max_eq_left (by linarith)]; ring
  le w a := by
    unfold maxBump
    have h := abs_max_sub_max_le_abs (w + a) a 0
    rwa [max_comm, max_comm a, add_sub_cancel_right] at h

variable {Φ : Nat → List α → α} {g : α → α → α} {eh ev' : Nat → α} {d : α}

/-- Messages are at most as large as weights. -/
theorem rbmMsgs_le (hg : ∀ w a, |g w a| ≤ |w|) (hd : 0 ≤ d ∧ d ≤ 1) (t i j : Nat) :
    |(rbmMsgs g N eh ev' d t).toV i j| ≤ |N.w i j| ∧ |(rbmMsgs g N eh ev' d t).toH i j| ≤ |N.w i j| := by
  have key : ∀ x y w : α, |x| ≤ |w| → |y| ≤ |w| → |d * x + (1 - d) * y| ≤ |w| := by
    intro x y w hx hy
    refine (abs_add_le _ _).trans ?_
    rw [abs_mul, abs_mul, abs_of_nonneg hd.1, abs_of_nonneg (show 0 ≤ 1 - d by linarith [hd.2])]
    nlinarith [mul_le_mul_of_nonneg_left hx hd.1, mul_le_mul_of_nonneg_left hy (show 0 ≤ 1 - d by linarith [hd.2])]
  induction t with
  | zero => simp [rbmMsgs]
  | succ t ih => exact ⟨key _ _ _ ih.1 (hg _ _), key _ _ _ ih.2 (hg _ _)⟩

/-- **The messages of belief propagation are those of the specification.** -/
theorem RbmVars.odds (hv : RbmVars N H V) (hb : Bumps Φ g) (hd : 0 ≤ d ∧ d ≤ 1) (ev : Var → Nat → α) (hh : ∀ i < N.nh, ev (H i) 1 - ev (H i) 0 = eh i)
    (hv' : ∀ j < N.nv, ev (V j) 1 - ev (V j) 0 = ev' j) (hbh : ∀ i < N.nh, |N.bh i| ≤ 1000) (hbv : ∀ j < N.nv, |N.bv j| ≤ 1000)
    (hw : ∀ i < N.nh, ∀ j < N.nv, |N.w i j| ≤ 1000) {m : Msgs α} (hm : ∀ f k s, m f k s = 0) (t : Nat) :
    (∀ i < N.nh, oddsOf (sumRun Φ (N.factors H V) ev d t m) i 0 = (1 - d ^ t) * N.bh i) ∧
    (∀ j < N.nv, oddsOf (sumRun Φ (N.factors H V) ev d t m) (N.nh + j) 0 = (1 - d ^ t) * N.bv j) ∧
    ∀ i < N.nh, ∀ j < N.nv, oddsOf (sumRun Φ (N.factors H V) ev d t m) (N.pair i j) 0 = (rbmMsgs g N eh ev' d t).toH i j ∧
      oddsOf (sumRun Φ (N.factors H V) ev d t m) (N.pair i j) 1 = (rbmMsgs g N eh ev' d t).toV i j := by
  induction t with
  | zero =>
    have key : ∀ {f k : Nat} {F : SFac α} {v : Var}, (N.factors H V)[f]? = some F → F.scope[k]? = some v → v.n = 2 → oddsOf (sumRun Φ (N.factors H V) ev d 0 m) f k = 0 := by
      intro f k F v hF hk hn
      show tbInit _ m f k 1 - tbInit _ m f k 0 = 0
      rw [tbInit_at hF hk, tbInit_at hF hk, hn]
      rw [tbNorm_odds (a := 0) (b := 0) (by rw [hm]) (by rw [hm]) (by norm_num)]
      ring
    refine ⟨fun i hi => ?_, fun j hj => ?_, fun i hi j hj => ⟨?_, ?_⟩⟩
    · rw [key (N.fac_h hi) rfl (hv.hn i hi)]; simp
    · rw [key (N.fac_v hj) rfl (hv.vn j hj)]; simp
    · rw [key (N.fac_p hi hj) rfl (hv.hn i hi)]; rfl
    · rw [key (N.fac_p hi hj) rfl (hv.vn j hj)]; rfl
  | succ t ih =>
    obtain ⟨i1, i2, i3⟩ := ih
    have hdt : 0 ≤ d ^ t ∧ d ^ t ≤ 1 := ⟨pow_nonneg hd.1 t, pow_le_one₀ hd.1 hd.2⟩
    have hds : 0 ≤ d ^ (t + 1) ∧ d ^ (t + 1) ≤ 1 := ⟨pow_nonneg hd.1 _, pow_le_one₀ hd.1 hd.2⟩
    have hbias : ∀ b : α, |b| ≤ 1000 → |(1 - d ^ (t + 1)) * b| ≤ 1000 := by
      intro b hb
      rw [abs_mul, abs_of_nonneg (show 0 ≤ 1 - d ^ (t + 1) by linarith [hds.2])]
      nlinarith [abs_nonneg b, hds.1]
    have hpow : ∀ b : α, d * ((1 - d ^ t) * b) + (1 - d) * b = (1 - d ^ (t + 1)) * b := fun b => by rw [pow_succ]; ring
    generalize hM : sumRun Φ (N.factors H V) ev d t m = M at *
    have hS : sumRun Φ (N.factors H V) ev d (t + 1) m = sumStep Φ (N.factors H V) ev d M := by rw [← hM]; rfl
    rw [hS]
    refine ⟨fun i hi => ?_, fun j hj => ?_, fun i hi j hj => ⟨?_, ?_⟩⟩
    · have e := hpow (N.bh i)
      rw [sumStep_odds Φ (N.fac_h hi) rfl (hv.hn i hi) ev M (o₀ := 0) (o₁ := N.bh i) (by simp [sumOut, SFac.rowsAt, scoreBut, hb.one]) (by simp [sumOut, SFac.rowsAt, scoreBut, hb.one])] <;>
        rw [i1 i hi, sub_zero, e]
      exact hbias _ (hbh i hi)
    · have e := hpow (N.bv j)
      rw [sumStep_odds Φ (N.fac_v hj) rfl (hv.vn j hj) ev M (o₀ := 0) (o₁ := N.bv j) (by simp [sumOut, SFac.rowsAt, scoreBut, hb.one]) (by simp [sumOut, SFac.rowsAt, scoreBut, hb.one])] <;>
        rw [i2 j hj, sub_zero, e]
      exact hbias _ (hbv j hj)
    · have hq : ∀ s, tbIn (N.factors H V) ev M (N.pair i j) ⟨[H i, V j], [([0, 0], 0), ([0, 1], 0), ([1, 0], 0), ([1, 1], N.w i j)]⟩ 1 s =
          varToFac ((N.factors H V).map (·.scope)) ev M (V j) (N.pair i j, 1) s := fun s => tbIn_at rfl _ _ _ _
      have ho := varToFac_odds ev M (N.edge_pv (H := H) (V := V) hi hj)
      rw [hv.belief_v ev M hj, hv' j hj, i2 j hj, (i3 i hi j hj).2, Finset.sum_congr rfl (fun l hl => (i3 l (Finset.mem_range.1 hl) j hj).2)] at ho
      have e : d * oddsOf M (N.pair i j) 0 + (1 - d) * (Φ (N.pair i j) [varToFac ((N.factors H V).map (·.scope)) ev M (V j) (N.pair i j, 1) 0, N.w i j + varToFac ((N.factors H V).map (·.scope)) ev M (V j) (N.pair i j, 1) 1] -
          Φ (N.pair i j) [varToFac ((N.factors H V).map (·.scope)) ev M (V j) (N.pair i j, 1) 0, varToFac ((N.factors H V).map (·.scope)) ev M (V j) (N.pair i j, 1) 1]) =
          (rbmMsgs g N eh ev' d (t + 1)).toH i j := by
        rw [hb.two, ho, (i3 i hi j hj).1]
        show _ = d * _ + (1 - d) * g _ _
        rw [Finset.sum_erase_eq_sub (Finset.mem_range.2 hi)]
        congr 3
        ring
      rw [sumStep_odds Φ (N.fac_p hi hj) rfl (hv.hn i hi) ev M (by simp [sumOut, SFac.rowsAt, scoreBut, hq, List.range_succ]; rfl) (by simp [sumOut, SFac.rowsAt, scoreBut, hq, List.range_succ]; rfl)] <;> rw [e]
      exact (rbmMsgs_le hb.le hd _ i j).2.trans (hw i hi j hj)
    · have hq : ∀ s, tbIn (N.factors H V) ev M (N.pair i j) ⟨[H i, V j], [([0, 0], 0), ([0, 1], 0), ([1, 0], 0), ([1, 1], N.w i j)]⟩ 0 s =
          varToFac ((N.factors H V).map (·.scope)) ev M (H i) (N.pair i j, 0) s := fun s => tbIn_at rfl _ _ _ _
      have ho := varToFac_odds ev M (N.edge_ph (H := H) (V := V) hi hj)
      rw [hv.belief_h ev M hi, hh i hi, i1 i hi, (i3 i hi j hj).1, Finset.sum_congr rfl (fun l hl => (i3 i hi l (Finset.mem_range.1 hl)).1)] at ho
      have e : d * oddsOf M (N.pair i j) 1 + (1 - d) * (Φ (N.pair i j) [varToFac ((N.factors H V).map (·.scope)) ev M (H i) (N.pair i j, 0) 0, N.w i j + varToFac ((N.factors H V).map (·.scope)) ev M (H i) (N.pair i j, 0) 1] -
          Φ (N.pair i j) [varToFac ((N.factors H V).map (·.scope)) ev M (H i) (N.pair i j, 0) 0, varToFac ((N.factors H V).map (·.scope)) ev M (H i) (N.pair i j, 0) 1]) =
          (rbmMsgs g N eh ev' d (t + 1)).toV i j := by
        rw [hb.two, ho, (i3 i hi j hj).2]
        show _ = d * _ + (1 - d) * g _ _
        rw [Finset.sum_erase_eq_sub (Finset.mem_range.2 hj)]
        congr 3
        ring
      rw [sumStep_odds Φ (N.fac_p hi hj) rfl (hv.vn j hj) ev M (by simp [sumOut, SFac.rowsAt, scoreBut, hq, List.range_succ]; rfl) (by simp [sumOut, SFac.rowsAt, scoreBut, hq, List.range_succ]; rfl)] <;> rw [e]
      exact (rbmMsgs_le hb.le hd _ i j).1.trans (hw i hi j hj)

end

end PGMax
