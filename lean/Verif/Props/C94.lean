import Verif.Props.C88
import Verif.Props.C89
import Verif.Lemmas.RbmMono

/-! # C94: the RBM program with larger biases, weights and noise -/

namespace PGMax

variable {κ : Type} [DecidableEq κ] {α : Type} [Field α] [LinearOrder α] [IsStrictOrderedRing α]

omit [IsStrictOrderedRing α] in
theorem likelyStates_getD (odds : Nat → α) {n i : Nat} (hi : i < n) : (likelyStates odds n).getD i 0 = if 0 < odds i then 1 else 0 := by
  unfold likelyStates
  rw [List.getD, List.getElem?_map, List.getElem?_range hi]
  rfl

omit [IsStrictOrderedRing α] in
theorem likelyStates_length (odds : Nat → α) (n : Nat) : (likelyStates odds n).length = n := by simp [likelyStates]

omit [IsStrictOrderedRing α] in
theorem likelyStates_mono {odds odds' : Nat → α} {n : Nat} (h : ∀ i < n, odds i ≤ odds' i) : List.Forall₂ (· ≤ ·) (likelyStates odds n) (likelyStates odds' n) := by
  unfold likelyStates
  rw [List.forall₂_map_left_iff, List.forall₂_map_right_iff, List.forall₂_same]
  intro i hi
  have := h i (List.mem_range.1 hi)
  split_ifs with p q
  · exact le_rfl
  · exact absurd (p.trans_le this) q
  · exact Nat.zero_le _
  · exact le_rfl

omit [IsStrictOrderedRing α] in
/-- Lists of biases and weights, one not above the other entry by entry. -/
theorem ofLists_below {bh bh' bv bv' W W' : List α} (h1 : List.Forall₂ (· ≤ ·) bh bh') (h2 : List.Forall₂ (· ≤ ·) bv bv') (h3 : List.Forall₂ (· ≤ ·) W W') {eh eh' ev ev' : Nat → α}
    (h4 : ∀ i < bh.length, eh i ≤ eh' i) (h5 : ∀ j < bv.length, ev j ≤ ev' j) : (RbmNet.ofLists bh bv W).Below (RbmNet.ofLists bh' bv' W') eh eh' ev ev' := by
  have key : ∀ {xs ys : List α}, List.Forall₂ (· ≤ ·) xs ys → ∀ i, xs.getD i 0 ≤ ys.getD i 0 := by
    intro xs ys h
    induction h with
    | nil => intro i; simp
    | cons h1 _ ih => intro i; cases i with
      | zero => simpa using h1
      | succ i => simpa using ih i
  refine ⟨h1.length_eq.symm, h2.length_eq.symm, fun i _ => key h1 i, fun j _ => key h2 j, fun i _ j _ => ?_, h4, h5⟩
  show W.getD (i * bv.length + j) 0 ≤ W'.getD (i * bv'.length + j) 0
  rw [← h2.length_eq]
  exact key h3 _

/-- **C94, samples.** Take two machines of the same size, the first with weights that are not negative, the second with biases and weights that are at least as large, and noise for both, with log odds that
are at least as large for the second. Then every unit that is on in the first sample is on in the second. -/
theorem C94 {idH idV idA idB idP : Nat} (hid : idH % 2 ^ 32 ≠ idV % 2 ^ 32) (hf : [idA, idB, idP].Nodup) {bh bv bh' bv' : List α} {W W' : NDArr α} (hs : RbmSizes bh bv W) (hs' : RbmSizes bh' bv' W')
    (garbage : Garbage) (stateId : Nat) {env : Env α} (hsize : env.wrapNeg = false ∨ 4 * (bh.length * bv.length) + 2 * bh.length + 2 * bv.length + 2 ≤ 100000)
    (h1 : List.Forall₂ (· ≤ ·) bh bh') (h2 : List.Forall₂ (· ≤ ·) bv bv') (h3 : List.Forall₂ (· ≤ ·) W.data W'.data) (hw : ∀ x ∈ W.data, 0 ≤ x) :
    ∃ s s', rbmSetup κ idH idV idA idB idP garbage stateId bh bv W 0 = .ok s ∧ rbmSetup κ idH idV idA idB idP garbage stateId bh' bv' W' 0 = .ok s' ∧
      ∀ (Eh Ev Eh' Ev' : List α) (e : α), Eh.length = bh.length * 2 → Ev.length = bv.length * 2 → Eh'.length = bh.length * 2 → Ev'.length = bv.length * 2 →
      (∀ x ∈ Eh, |x| ≤ e) → (∀ x ∈ Ev, |x| ≤ e) → (∀ x ∈ Eh', |x| ≤ e) → (∀ x ∈ Ev', |x| ≤ e) →
      (RbmNet.ofLists bh bv W.data).Small e → (RbmNet.ofLists bh' bv' W'.data).Small e →
      (∀ i < bh.length, Eh.getD (i * 2 + 1) 0 - Eh.getD (i * 2) 0 ≤ Eh'.getD (i * 2 + 1) 0 - Eh'.getD (i * 2) 0) →
      (∀ j < bv.length, Ev.getD (j * 2 + 1) 0 - Ev.getD (j * 2) 0 ≤ Ev'.getD (j * 2 + 1) 0 - Ev'.getD (j * 2) 0) →
      ∃ x y x' y' : List Nat, rbmSample env s ⟨[bh.length, 2], Eh⟩ ⟨[bv.length, 2], Ev⟩ = .ok [(.arr s.net.hidden, .arr ⟨[bh.length], x⟩), (.arr s.net.visible, .arr ⟨[bv.length], y⟩)] ∧
        rbmSample env s' ⟨[bh.length, 2], Eh'⟩ ⟨[bv.length, 2], Ev'⟩ = .ok [(.arr s'.net.hidden, .arr ⟨[bh.length], x'⟩), (.arr s'.net.visible, .arr ⟨[bv.length], y'⟩)] ∧
        x.length = bh.length ∧ y.length = bv.length ∧ List.Forall₂ (· ≤ ·) x x' ∧ List.Forall₂ (· ≤ ·) y y' := by
  have l1 := h1.length_eq
  have l2 := h2.length_eq
  obtain ⟨s, a1, a2⟩ := C88 (κ := κ) hid hf hs garbage stateId hsize
  obtain ⟨s', b1, b2⟩ := C88 (κ := κ) hid hf hs' garbage stateId (by rw [← l1, ← l2]; exact hsize)
  refine ⟨s, s', a1, b1, fun Eh Ev Eh' Ev' e e1 e2 e3 e4 e5 e6 e7 e8 m1 m2 c1 c2 => ?_⟩
  have b3 := b2 Eh' Ev' e (by rw [← l1]; exact e3) (by rw [← l2]; exact e4) e7 e8 m2
  rw [← l1, ← l2] at b3
  have key := rbmOdds_mono maxBump_like (ofLists_below h1 h2 h3 (eh := pairOdds Eh) (eh' := pairOdds Eh') (ev := pairOdds Ev) (ev' := pairOdds Ev') c1 c2) (by
    intro i _ j _
    show 0 ≤ W.data.getD _ 0
    rw [List.getD_eq_getElem?_getD]
    cases h : W.data[i * bv.length + j]? with
    | none => exact le_rfl
    | some x => exact hw x (List.mem_of_getElem? h)) (d := 1 / 2) ⟨by norm_num, by norm_num⟩ 100
  exact ⟨_, _, _, _, a2 Eh Ev e e1 e2 e5 e6 m1, b3, likelyStates_length _ _, likelyStates_length _ _, likelyStates_mono key.1, likelyStates_mono key.2⟩

/-- **C94, units with strong biases.** In a sample of any machine, a unit is decoded to the state that its bias and noise favour by more than all of its weights together. -/
theorem C94_strong {idH idV idA idB idP : Nat} (hid : idH % 2 ^ 32 ≠ idV % 2 ^ 32) (hf : [idA, idB, idP].Nodup) {bh bv : List α} {W : NDArr α} (hs : RbmSizes bh bv W) (garbage : Garbage)
    (stateId : Nat) {env : Env α} (hsize : env.wrapNeg = false ∨ 4 * (bh.length * bv.length) + 2 * bh.length + 2 * bv.length + 2 ≤ 100000) :
    ∃ s, rbmSetup κ idH idV idA idB idP garbage stateId bh bv W 0 = .ok s ∧ ∀ (Eh Ev : List α) (e : α), Eh.length = bh.length * 2 → Ev.length = bv.length * 2 →
      (∀ x ∈ Eh, |x| ≤ e) → (∀ x ∈ Ev, |x| ≤ e) → (RbmNet.ofLists bh bv W.data).Small e →
      ∃ x y : List Nat, rbmSample env s ⟨[bh.length, 2], Eh⟩ ⟨[bv.length, 2], Ev⟩ = .ok [(.arr s.net.hidden, .arr ⟨[bh.length], x⟩), (.arr s.net.visible, .arr ⟨[bv.length], y⟩)] ∧
        (∀ i < bh.length, (∑ j ∈ Finset.range bv.length, |W.data.getD (i * bv.length + j) 0| < Eh.getD (i * 2 + 1) 0 - Eh.getD (i * 2) 0 + (1 - (1 / 2) ^ 100) * bh.getD i 0 → x.getD i 0 = 1) ∧
          (∑ j ∈ Finset.range bv.length, |W.data.getD (i * bv.length + j) 0| ≤ -(Eh.getD (i * 2 + 1) 0 - Eh.getD (i * 2) 0 + (1 - (1 / 2) ^ 100) * bh.getD i 0) → x.getD i 0 = 0)) ∧
        ∀ j < bv.length, (∑ i ∈ Finset.range bh.length, |W.data.getD (i * bv.length + j) 0| < Ev.getD (j * 2 + 1) 0 - Ev.getD (j * 2) 0 + (1 - (1 / 2) ^ 100) * bv.getD j 0 → y.getD j 0 = 1) ∧
          (∑ i ∈ Finset.range bh.length, |W.data.getD (i * bv.length + j) 0| ≤ -(Ev.getD (j * 2 + 1) 0 - Ev.getD (j * 2) 0 + (1 - (1 / 2) ^ 100) * bv.getD j 0) → y.getD j 0 = 0) := by
  obtain ⟨s, a1, a2⟩ := C88 (κ := κ) hid hf hs garbage stateId hsize
  refine ⟨s, a1, fun Eh Ev e e1 e2 e3 e4 hsm => ⟨_, _, a2 Eh Ev e e1 e2 e3 e4 hsm, fun i hi => ?_, fun j hj => ?_⟩⟩
  all_goals
    have key := rbmOdds_near (maxBump_like (α := α)) (N := RbmNet.ofLists bh bv W.data) (eh := pairOdds Eh) (ev := pairOdds Ev) (d := 1 / 2) ⟨by norm_num, by norm_num⟩ 100
  · have k := abs_le.1 (key.1 i)
    rw [likelyStates_getD _ hi]
    exact ⟨fun h => if_pos (by have k1 := k.1; simp only [RbmNet.ofLists, pairOdds] at k1 ⊢; linarith), fun h => if_neg (by have k1 := k.2; simp only [RbmNet.ofLists, pairOdds] at k1 ⊢; linarith)⟩
  · have k := abs_le.1 (key.2 j)
    rw [likelyStates_getD _ hj]
    exact ⟨fun h => if_pos (by have k1 := k.1; simp only [RbmNet.ofLists, pairOdds] at k1 ⊢; linarith), fun h => if_neg (by have k1 := k.2; simp only [RbmNet.ofLists, pairOdds] at k1 ⊢; linarith)⟩

/-- **C94, hidden and visible units.** If the two groups of units are exchanged (biases, noise, and the matrix of weights transposed), the two arrays of states are exchanged. -/
theorem C94_swap {idH idV idA idB idP : Nat} (hid : idH % 2 ^ 32 ≠ idV % 2 ^ 32) (hf : [idA, idB, idP].Nodup) {bh bv : List α} {W W' : NDArr α} (hs : RbmSizes bh bv W) (hs' : RbmSizes bv bh W')
    (garbage : Garbage) (stateId : Nat) {env : Env α} (hsize : env.wrapNeg = false ∨ 4 * (bh.length * bv.length) + 2 * bh.length + 2 * bv.length + 2 ≤ 100000)
    (hW : ∀ i < bh.length, ∀ j < bv.length, W'.data.getD (j * bh.length + i) 0 = W.data.getD (i * bv.length + j) 0) :
    ∃ s s', rbmSetup κ idH idV idA idB idP garbage stateId bh bv W 0 = .ok s ∧ rbmSetup κ idH idV idA idB idP garbage stateId bv bh W' 0 = .ok s' ∧
      ∀ (Eh Ev : List α) (e : α), Eh.length = bh.length * 2 → Ev.length = bv.length * 2 → (∀ x ∈ Eh, |x| ≤ e) → (∀ x ∈ Ev, |x| ≤ e) → (RbmNet.ofLists bh bv W.data).Small e →
      ∃ x y : List Nat, rbmSample env s ⟨[bh.length, 2], Eh⟩ ⟨[bv.length, 2], Ev⟩ = .ok [(.arr s.net.hidden, .arr ⟨[bh.length], x⟩), (.arr s.net.visible, .arr ⟨[bv.length], y⟩)] ∧
        rbmSample env s' ⟨[bv.length, 2], Ev⟩ ⟨[bh.length, 2], Eh⟩ = .ok [(.arr s'.net.hidden, .arr ⟨[bv.length], y⟩), (.arr s'.net.visible, .arr ⟨[bh.length], x⟩)] := by
  obtain ⟨s, a1, a2⟩ := C88 (κ := κ) hid hf hs garbage stateId hsize
  obtain ⟨s', b1, b2⟩ := C88 (κ := κ) hid hf hs' garbage stateId (env := env) (hsize.imp_right fun h => by rw [Nat.mul_comm bv.length]; omega)
  refine ⟨s, s', a1, b1, fun Eh Ev e e1 e2 e3 e4 hsm => ?_⟩
  have hnet : ∀ i < bv.length, ∀ j < bh.length, (RbmNet.ofLists bv bh W'.data).w i j = (RbmNet.ofLists bh bv W.data).swap.w i j := fun i hi j hj => hW j hj i hi
  have hsm' : (RbmNet.ofLists bv bh W'.data).Small e := by
    obtain ⟨B, w, c1, c2, c3, c4, c5, c6⟩ := hsm.bounds
    refine ⟨B, w, c2, c1, fun i hi j hj => ?_, c4, c5, ?_⟩
    · rw [hnet i hi j hj]; exact c3 j hj i hi
    · simp only [RbmNet.ofLists] at c6 ⊢
      linarith
  have hcongr := rbmOdds_weights maxBump (N := RbmNet.ofLists bv bh W'.data) (N' := (RbmNet.ofLists bh bv W.data).swap) rfl rfl (fun _ _ => rfl) (fun _ _ => rfl) hnet (eh := pairOdds Ev) (ev := pairOdds Eh) (d := 1 / 2) 100
  have h1 : likelyStates (hiddenOdds maxBump (RbmNet.ofLists bv bh W'.data) (pairOdds Ev) (pairOdds Eh) (1 / 2) 100) bv.length =
      likelyStates (visibleOdds maxBump (RbmNet.ofLists bh bv W.data) (pairOdds Eh) (pairOdds Ev) (1 / 2) 100) bv.length := by
    refine List.map_congr_left fun i hi => ?_
    rw [hcongr.1 i (List.mem_range.1 hi), (rbmOdds_swap 100 i).1]
  have h2 : likelyStates (visibleOdds maxBump (RbmNet.ofLists bv bh W'.data) (pairOdds Ev) (pairOdds Eh) (1 / 2) 100) bh.length =
      likelyStates (hiddenOdds maxBump (RbmNet.ofLists bh bv W.data) (pairOdds Eh) (pairOdds Ev) (1 / 2) 100) bh.length := by
    refine List.map_congr_left fun i hi => ?_
    rw [hcongr.2 i (List.mem_range.1 hi), (rbmOdds_swap 100 i).2]
  have b3 := b2 Ev Eh e e2 e1 e4 e3 hsm'
  rw [h1, h2] at b3
  exact ⟨_, _, a2 Eh Ev e e1 e2 e3 e4 hsm, b3⟩

/-- **C94, marginals.** The marginal of state 1 of every unit is at least as large in the second machine, but for the error of C89. -/
theorem C94_marginals {κ : Type} [DecidableEq κ] {idH idV idA idB idP : Nat} (hid : idH % 2 ^ 32 ≠ idV % 2 ^ 32) (hf : [idA, idB, idP].Nodup) {bh bv bh' bv' : List ℝ} {W W' : NDArr ℝ}
    (hs : RbmSizes bh bv W) (hs' : RbmSizes bh' bv' W') (garbage : Garbage) (stateId : Nat) {env : Env ℝ} (hexp : env.exp = Real.exp) (hlog : env.log = Real.log)
    (hsize : env.wrapNeg = false ∨ 4 * (bh.length * bv.length) + 2 * bh.length + 2 * bv.length + 2 ≤ 100000) (hsm : (RbmNet.ofLists bh bv W.data).Small 0) (hsm' : (RbmNet.ofLists bh' bv' W'.data).Small 0)
    (h1 : List.Forall₂ (· ≤ ·) bh bh') (h2 : List.Forall₂ (· ≤ ·) bv bv') (h3 : List.Forall₂ (· ≤ ·) W.data W'.data) (hw : ∀ x ∈ W.data, 0 ≤ x) :
    ∃ s s' ph pv ph' pv', rbmSetup κ idH idV idA idB idP garbage stateId bh bv W 1 = .ok s ∧ rbmSetup κ idH idV idA idB idP garbage stateId bh' bv' W' 1 = .ok s' ∧
      rbmMarginals env s = .ok [(.arr s.net.hidden, .arr ⟨[bh.length, 2], unitMarginals ph bh.length⟩), (.arr s.net.visible, .arr ⟨[bv.length, 2], unitMarginals pv bv.length⟩)] ∧
      rbmMarginals env s' = .ok [(.arr s'.net.hidden, .arr ⟨[bh.length, 2], unitMarginals ph' bh.length⟩), (.arr s'.net.visible, .arr ⟨[bv.length, 2], unitMarginals pv' bv.length⟩)] ∧
      (∀ i < bh.length, ph i ≤ ph' i + 2 * Real.exp (-90000)) ∧ ∀ j < bv.length, pv j ≤ pv' j + 2 * Real.exp (-90000) := by
  have l1 := h1.length_eq
  have l2 := h2.length_eq
  obtain ⟨s, ph, pv, a1, a2, a3, a4⟩ := C89 (κ := κ) hid hf hs garbage stateId hexp hlog hsize hsm
  obtain ⟨s', ph', pv', b1, b2, b3, b4⟩ := C89 (κ := κ) hid hf hs' garbage stateId hexp hlog (by rw [← l1, ← l2]; exact hsize) hsm'
  rw [← l1, ← l2] at b2
  rw [← l1] at b3
  rw [← l2] at b4
  have hmono : ∀ {x y : ℝ}, x ≤ y → logistic x ≤ logistic y := by
    intro x y h
    unfold logistic
    have := Real.exp_le_exp.2 (neg_le_neg h)
    have := Real.exp_pos (-y)
    exact one_div_le_one_div_of_le (by positivity) (by linarith)
  have key := rbmOdds_mono sumBump_like (ofLists_below h1 h2 h3 (eh := fun _ => 0) (eh' := fun _ => 0) (ev := fun _ => 0) (ev' := fun _ => 0) (fun _ _ => le_rfl) (fun _ _ => le_rfl)) (by
    intro i _ j _
    show 0 ≤ W.data.getD _ 0
    rw [List.getD_eq_getElem?_getD]
    cases h : W.data[i * bv.length + j]? with
    | none => exact le_rfl
    | some x => exact hw x (List.mem_of_getElem? h)) (d := 1 / 2) ⟨by norm_num, by norm_num⟩ 100
  refine ⟨s, s', ph, pv, ph', pv', a1, b1, a2, b2, fun i hi => ?_, fun j hj => ?_⟩
  · have := hmono (key.1 i hi)
    linarith [(abs_le.1 (a3 i hi)).2, (abs_le.1 (b3 i hi)).1]
  · have := hmono (key.2 j hj)
    linarith [(abs_le.1 (a4 j hj)).2, (abs_le.1 (b4 j hj)).1]

/-- Non-vacuity: two machines with two hidden units and one visible unit, and noise, meet the hypotheses of C94. In the second, the weight of the first hidden unit is larger and the noise favours state 1 of the
visible unit more; all units change from 0 to 1. -/
example : RbmSizes [-1, -2] [1 / 2] (⟨[2, 1], [0, 3]⟩ : NDArr ℚ) ∧ RbmSizes [-1, -2] [1 / 2] (⟨[2, 1], [2, 3]⟩ : NDArr ℚ) ∧ List.Forall₂ (· ≤ ·) ([0, 3] : List ℚ) [2, 3] ∧ (∀ x ∈ ([0, 3] : List ℚ), 0 ≤ x) ∧
    (RbmNet.ofLists [-1, -2] [1 / 2] ([0, 3] : List ℚ)).Small 4 ∧ (RbmNet.ofLists [-1, -2] [1 / 2] ([2, 3] : List ℚ)).Small 4 ∧
    ((rbmSetup Nat 2000000000 2500000000 1 2 3 (fun _ _ => 0) 5 [-1, -2] [1 / 2] (⟨[2, 1], [0, 3]⟩ : NDArr ℚ) 0).bind (fun s =>
      (rbmSample exEnv s ⟨[2, 2], [0, 0, 0, 0]⟩ ⟨[1, 2], [3, 0]⟩).map (fun r => r.filterMap (fun p => p.2.arr?)))).toOption = some [⟨[2], [0, 0]⟩, ⟨[1], [0]⟩] ∧
    ((rbmSetup Nat 2000000000 2500000000 1 2 3 (fun _ _ => 0) 5 [-1, -2] [1 / 2] (⟨[2, 1], [2, 3]⟩ : NDArr ℚ) 0).bind (fun s =>
      (rbmSample exEnv s ⟨[2, 2], [0, 0, 0, 0]⟩ ⟨[1, 2], [3, 4]⟩).map (fun r => r.filterMap (fun p => p.2.arr?)))).toOption = some [⟨[2], [1, 1]⟩, ⟨[1], [1]⟩] := by
  refine ⟨by unfold RbmSizes; decide, by unfold RbmSizes; decide, by simp, by decide +kernel,
    ⟨2, 3, by decide +kernel, by decide +kernel, by decide +kernel, by norm_num, by norm_num, by norm_num [RbmNet.ofLists]⟩,
    ⟨2, 3, by decide +kernel, by decide +kernel, by decide +kernel, by norm_num, by norm_num, by norm_num [RbmNet.ofLists]⟩, ?_, ?_⟩
  all_goals decide +kernel

end PGMax
