import Verif.Lemmas.RbmRun
import Verif.Lemmas.BatchDecode

/-! # C88: inference in the RBM program -/

namespace PGMax

variable {κ α : Type} [Field α] [LinearOrder α] [IsStrictOrderedRing α] [DecidableEq κ]

/-- **C88.** The RBM program makes its graph and `bp` without an exception, and for all biases, weights and noise that are small enough, what it decodes for a sample are the signs of the log
odds of `Verif.Spec.Rbm` after 100 iterations with damping 1/2: the visible and hidden units are on exactly if they are positive. -/
theorem C88 {idH idV idA idB idP : Nat} (hid : idH % 2 ^ 32 ≠ idV % 2 ^ 32) (hf : [idA, idB, idP].Nodup) {bh bv : List α} {W : NDArr α} (hs : RbmSizes bh bv W) (garbage : Garbage)
    (stateId : Nat) {env : Env α} (hsize : env.wrapNeg = false ∨ 4 * (bh.length * bv.length) + 2 * bh.length + 2 * bv.length + 2 ≤ 100000) :
    ∃ s, rbmSetup κ idH idV idA idB idP garbage stateId bh bv W 0 = .ok s ∧ ∀ (Eh Ev : List α) (e : α), Eh.length = bh.length * 2 → Ev.length = bv.length * 2 →
      (∀ x ∈ Eh, |x| ≤ e) → (∀ x ∈ Ev, |x| ≤ e) → (RbmNet.ofLists bh bv W.data).Small e → rbmSample env s ⟨[bh.length, 2], Eh⟩ ⟨[bv.length, 2], Ev⟩ = .ok [
        (.arr s.net.hidden, .arr ⟨[bh.length], likelyStates (hiddenOdds maxBump (RbmNet.ofLists bh bv W.data) (pairOdds Eh) (pairOdds Ev) (1 / 2) 100) bh.length⟩),
        (.arr s.net.visible, .arr ⟨[bv.length], likelyStates (visibleOdds maxBump (RbmNet.ofLists bh bv W.data) (pairOdds Eh) (pairOdds Ev) (1 / 2) 100) bv.length⟩)] := by
  obtain ⟨s, hist, st, h1, h2⟩ := rbm_setup (κ := κ) hid hf hs garbage stateId (0 : α)
  refine ⟨s, h1, fun Eh Ev e l1 l2 a1 a2 hsm => ?_⟩
  obtain ⟨arrs, h3, h4⟩ := h2.init hid hs l1 l2
  have he0 : 0 ≤ e := by
    cases Eh with
    | nil => have := hs.1; rw [List.length_nil] at l1; omega
    | cons x Eh => exact (abs_nonneg _).trans (a1 x (by simp))
  obtain ⟨bs, h5, h6⟩ := h2.decode hid hs hsize h4 a1 a2 he0 hsm (d := 1 / 2) ⟨by norm_num, by norm_num⟩ 100
  unfold rbmSample
  rw [h3, py_ok_bind, h5, py_ok_bind, h6]

/-- **C88, without noise.** -/
theorem C88_map {idH idV idA idB idP : Nat} (hid : idH % 2 ^ 32 ≠ idV % 2 ^ 32) (hf : [idA, idB, idP].Nodup) {bh bv : List α} {W : NDArr α} (hs : RbmSizes bh bv W) (garbage : Garbage)
    (stateId : Nat) {env : Env α} (hsize : env.wrapNeg = false ∨ 4 * (bh.length * bv.length) + 2 * bh.length + 2 * bv.length + 2 ≤ 100000)
    (hsm : (RbmNet.ofLists bh bv W.data).Small 0) : ∃ s, rbmSetup κ idH idV idA idB idP garbage stateId bh bv W 0 = .ok s ∧ rbmMap env s = .ok [
        (.arr s.net.hidden, .arr ⟨[bh.length], likelyStates (hiddenOdds maxBump (RbmNet.ofLists bh bv W.data) (fun _ => 0) (fun _ => 0) (1 / 2) 100) bh.length⟩),
        (.arr s.net.visible, .arr ⟨[bv.length], likelyStates (visibleOdds maxBump (RbmNet.ofLists bh bv W.data) (fun _ => 0) (fun _ => 0) (1 / 2) 100) bv.length⟩)] := by
  obtain ⟨s, hist, st, h1, h2⟩ := rbm_setup (κ := κ) hid hf hs garbage stateId (0 : α)
  obtain ⟨arrs, h3, h4⟩ := h2.init_none
  refine ⟨s, h1, ?_⟩
  obtain ⟨bs, h5, h6⟩ := h2.decode hid hs hsize h4 (by simp) (by simp) le_rfl hsm (d := 1 / 2) ⟨by norm_num, by norm_num⟩ 100
  have hz : pairOdds ([] : List α) = fun _ => 0 := by funext i; simp [pairOdds]
  rw [hz] at h6
  unfold rbmMap
  rw [h3, py_ok_bind, h5, py_ok_bind, h6]

omit [IsStrictOrderedRing α] [DecidableEq κ] in
theorem rbmMsgs_congr (g : α → α → α) (N : RbmNet α) {eh eh' ev ev' : Nat → α} (h1 : ∀ i < N.nh, eh i = eh' i) (h2 : ∀ j < N.nv, ev j = ev' j) (d : α) (t : Nat) :
    ∀ i < N.nh, ∀ j < N.nv, (rbmMsgs g N eh ev d t).toV i j = (rbmMsgs g N eh' ev' d t).toV i j ∧ (rbmMsgs g N eh ev d t).toH i j = (rbmMsgs g N eh' ev' d t).toH i j := by
  induction t with
  | zero => exact fun _ _ _ _ => ⟨rfl, rfl⟩
  | succ t ih =>
    intro i hi j hj
    have s1 : ∑ l ∈ (Finset.range N.nv).erase j, (rbmMsgs g N eh ev d t).toH i l = ∑ l ∈ (Finset.range N.nv).erase j, (rbmMsgs g N eh' ev' d t).toH i l :=
      Finset.sum_congr rfl fun l hl => (ih i hi l (Finset.mem_range.1 (Finset.mem_of_mem_erase hl))).2
    have s2 : ∑ l ∈ (Finset.range N.nh).erase i, (rbmMsgs g N eh ev d t).toV l j = ∑ l ∈ (Finset.range N.nh).erase i, (rbmMsgs g N eh' ev' d t).toV l j :=
      Finset.sum_congr rfl fun l hl => (ih l (Finset.mem_range.1 (Finset.mem_of_mem_erase hl)) j hj).1
    simp only [rbmMsgs, s1, s2, h1 i hi, h2 j hj, (ih i hi j hj).1, (ih i hi j hj).2, and_self]

omit [IsStrictOrderedRing α] [DecidableEq κ] in
theorem odds_congr (g : α → α → α) (N : RbmNet α) {eh eh' ev ev' : Nat → α} (h1 : ∀ i < N.nh, eh i = eh' i) (h2 : ∀ j < N.nv, ev j = ev' j) (d : α) (t : Nat) :
    likelyStates (hiddenOdds g N eh ev d t) N.nh = likelyStates (hiddenOdds g N eh' ev' d t) N.nh ∧
    likelyStates (visibleOdds g N eh ev d t) N.nv = likelyStates (visibleOdds g N eh' ev' d t) N.nv := by
  have key := rbmMsgs_congr g N h1 h2 d t
  constructor <;> refine List.map_congr_left fun i hi => ?_
  · rw [List.mem_range] at hi
    simp only [hiddenOdds, h1 i hi]
    rw [Finset.sum_congr rfl fun j hj => (key i hi j (Finset.mem_range.1 hj)).2]
    rfl
  · rw [List.mem_range] at hi
    simp only [visibleOdds, h2 i hi]
    rw [Finset.sum_congr rfl fun j hj => (key j (Finset.mem_range.1 hj) i hi).1]
    rfl

omit [LinearOrder α] [IsStrictOrderedRing α] [DecidableEq κ] in
theorem pairOdds_slice (G : List α) (k m : Nat) {i : Nat} (hi : i < m) : pairOdds (slice G (k * (m * 2)) (k * (m * 2) + m * 2)) i = pairOdds G (k * m + i) := by
  have e1 : k * (m * 2) = k * m * 2 := by ring
  unfold pairOdds
  simp only [List.getD, slice_getElem?]
  rw [if_pos (by omega), if_pos (by omega), e1, show k * m * 2 + (i * 2 + 1) = (k * m + i) * 2 + 1 by omega, show k * m * 2 + i * 2 = (k * m + i) * 2 by omega]

omit [IsStrictOrderedRing α] [DecidableEq κ] [Field α] [LinearOrder α] in
theorem batch_pair {n a b : Nat} {g g' : VGroup κ} {A B : Nat → List Nat} (hn : 1 ≤ n) {Y : PyTree κ Nat}
    (h : IsBatchTree ((List.range n).map (fun k => statesTree [(g, .arr ⟨[a], A k⟩), (g', .arr ⟨[b], B k⟩)])) Y) :
    Y = ⟨[(g, none), (g', none)], [⟨[n, a], (List.range n).flatMap A⟩, ⟨[n, b], (List.range n).flatMap B⟩]⟩ := by
  have h0 : statesTree [(g, .arr ⟨[a], A 0⟩), (g', .arr ⟨[b], B 0⟩)] ∈ (List.range n).map (fun k => statesTree [(g, .arr ⟨[a], A k⟩), (g', .arr ⟨[b], B k⟩)]) :=
    List.mem_map.2 ⟨0, List.mem_range.2 (by omega), rfl⟩
  have h1 := h.treedef _ h0
  have h2 := h.length _ h0
  obtain ⟨td, ls⟩ := Y
  match ls, h, h1, h2 with
  | [], _, _, h2 => simp [statesTree] at h2
  | [_], _, _, h2 => simp [statesTree] at h2
  | _ :: _ :: _ :: _, _, _, h2 => simp [statesTree] at h2
  | [x, y], h, h1, _ =>
    obtain ⟨s1, k1⟩ := h.leaf 0 x rfl
    obtain ⟨s2, k2⟩ := h.leaf 1 y rfl
    have r1 := k1.shape ⟨[a], A 0⟩ (List.mem_map.2 ⟨_, h0, rfl⟩)
    have r2 := k2.shape ⟨[b], B 0⟩ (List.mem_map.2 ⟨_, h0, rfl⟩)
    subst r1
    subst r2
    have e1 := k1.eq
    have e2 := k2.eq
    simp only [List.map_map, List.length_map, List.length_range, List.flatMap_map] at e1 e2
    congr 1
    · exact h1.symm
    · rw [e1, e2]
      rfl

/-- **C88, batches.** Sample `k` of a batch of `n` samples is decoded from its own noise: the rows `k * nh ..` and `k * nv ..` of the two arrays. -/
theorem C88_batch {idH idV idA idB idP : Nat} (hid : idH % 2 ^ 32 ≠ idV % 2 ^ 32) (hf : [idA, idB, idP].Nodup) {bh bv : List α} {W : NDArr α} (hs : RbmSizes bh bv W) (garbage : Garbage)
    (stateId : Nat) {env : Env α} (hsize : env.wrapNeg = false ∨ 4 * (bh.length * bv.length) + 2 * bh.length + 2 * bv.length + 2 ≤ 100000) :
    ∃ s, rbmSetup κ idH idV idA idB idP garbage stateId bh bv W 0 = .ok s ∧ ∀ (n : Nat) (Gh Gv : List α) (e : α), 1 ≤ n → Gh.length = n * (bh.length * 2) → Gv.length = n * (bv.length * 2) →
      (∀ x ∈ Gh, |x| ≤ e) → (∀ x ∈ Gv, |x| ≤ e) → (RbmNet.ofLists bh bv W.data).Small e → rbmSamples env s ⟨[n, bh.length, 2], Gh⟩ ⟨[n, bv.length, 2], Gv⟩ = .ok
        ⟨[(.arr s.net.hidden, none), (.arr s.net.visible, none)],
          [⟨[n, bh.length], (List.range n).flatMap (fun k => likelyStates (hiddenOdds maxBump (RbmNet.ofLists bh bv W.data)
              (fun i => pairOdds Gh (k * bh.length + i)) (fun j => pairOdds Gv (k * bv.length + j)) (1 / 2) 100) bh.length)⟩,
           ⟨[n, bv.length], (List.range n).flatMap (fun k => likelyStates (visibleOdds maxBump (RbmNet.ofLists bh bv W.data)
              (fun i => pairOdds Gh (k * bh.length + i)) (fun j => pairOdds Gv (k * bv.length + j)) (1 / 2) 100) bv.length)⟩]⟩ := by
  obtain ⟨s, hist, st, h1, h2⟩ := rbm_setup (κ := κ) hid hf hs garbage stateId (0 : α)
  refine ⟨s, h1, fun n Gh Gv e hn l1 l2 a1 a2 hsm => ?_⟩
  obtain ⟨state, hbp, -⟩ := h2.bp
  have he0 : 0 ≤ e := by
    cases Gh with
    | nil =>
      have := Nat.mul_le_mul hn (Nat.mul_le_mul_right 2 hs.1)
      rw [List.length_nil] at l1
      omega
    | cons x Eh => exact (abs_nonneg _).trans (a1 x (by simp))
  have hslice : ∀ (G : List α) (m k : Nat), G.length = n * (m * 2) → k < n → (slice G (k * (m * 2)) (k * (m * 2) + m * 2)).length = m * 2 := by
    intro G m k hG hk
    have : (k + 1) * (m * 2) ≤ n * (m * 2) := Nat.mul_le_mul_right _ hk
    rw [Nat.add_mul, Nat.one_mul] at this
    rw [slice_length, hG]
    omega
  have hmem : ∀ (G : List α) (a b : Nat) (x : α), x ∈ slice G a b → x ∈ G := fun G a b x hx => List.mem_of_mem_take (List.mem_of_mem_drop hx)
  have hex : ∀ k, ∃ arrs, k < n → s.bp.update none none none (some [.group (.arr s.net.hidden) (.arr ⟨[bh.length, 2], slice Gh (k * (bh.length * 2)) (k * (bh.length * 2) + bh.length * 2)⟩),
      .group (.arr s.net.visible) (.arr ⟨[bv.length, 2], slice Gv (k * (bv.length * 2)) (k * (bv.length * 2) + bv.length * 2)⟩)]) = .ok arrs ∧
      RbmInit idH idV bh bv (slice Gh (k * (bh.length * 2)) (k * (bh.length * 2) + bh.length * 2)) (slice Gv (k * (bv.length * 2)) (k * (bv.length * 2) + bv.length * 2)) s st arrs := by
    intro k
    by_cases hk : k < n
    · obtain ⟨arrs, h3, h4⟩ := h2.init hid hs (hslice Gh _ k l1 hk) (hslice Gv _ k l2 hk)
      exact ⟨arrs, fun _ => ⟨h3, h4⟩⟩
    · exact ⟨⟨[], [], []⟩, fun h => absurd h hk⟩
  choose arrsOf hinit using hex
  have hd : (0 : α) ≤ 1 / 2 ∧ (1 / 2 : α) ≤ 1 := ⟨by norm_num, by norm_num⟩
  have hlen : ∀ a ∈ s.bp.vmapRun env ((List.range n).map arrsOf) 100 (1 / 2), a.ftovMsgs.length = st.totalFactorNumStates ∧ a.evidence.length = st.numVarStates := by
    intro a ha
    unfold BPFun.vmapRun at ha
    rw [List.map_map] at ha
    obtain ⟨k, hk, rfl⟩ := List.mem_map.1 ha
    have hk := hinit k (List.mem_range.1 hk)
    refine ⟨(h2.belief_odds hid hs hsize hk.2 (fun x hx => a1 x (hmem _ _ _ _ hx)) (fun x hx => a2 x (hmem _ _ _ _ hx)) he0 hsm hd 100).1, ?_⟩
    rw [Function.comp_apply, runBP_evidence]
    exact hk.2.len
  let ss : BPArrays α → List (VGroup κ × GroupStates κ) := fun a => match (s.bp.getBeliefs a).bind decodeMapStates with
    | .ok r => r
    | .error _ => []
  have hss0 : ∀ a bs r, s.bp.getBeliefs a = .ok bs → decodeMapStates bs = .ok r → ss a = r := by
    intro a bs r e1 e2
    simp only [ss, e1, Except.bind, e2]
  clear_value ss
  have hss : ∀ k < n, (∃ bs, s.bp.getBeliefs (s.bp.runBP env (arrsOf k) 100 (1 / 2)) = .ok bs ∧ decodeMapStates bs = .ok (ss (s.bp.runBP env (arrsOf k) 100 (1 / 2)))) ∧
      ss (s.bp.runBP env (arrsOf k) 100 (1 / 2)) = [(.arr s.net.hidden, .arr ⟨[bh.length], likelyStates (hiddenOdds maxBump (RbmNet.ofLists bh bv W.data)
              (fun i => pairOdds Gh (k * bh.length + i)) (fun j => pairOdds Gv (k * bv.length + j)) (1 / 2) 100) bh.length⟩),
        (.arr s.net.visible, .arr ⟨[bv.length], likelyStates (visibleOdds maxBump (RbmNet.ofLists bh bv W.data)
              (fun i => pairOdds Gh (k * bh.length + i)) (fun j => pairOdds Gv (k * bv.length + j)) (1 / 2) 100) bv.length⟩)] := by
    intro k hk
    have hk := hinit k hk
    obtain ⟨bs, e1, e2⟩ := h2.decode hid hs hsize hk.2 (fun x hx => a1 x (hmem _ _ _ _ hx)) (fun x hx => a2 x (hmem _ _ _ _ hx)) he0 hsm hd 100
    have hc := odds_congr maxBump (RbmNet.ofLists bh bv W.data) (eh := pairOdds (slice Gh (k * (bh.length * 2)) (k * (bh.length * 2) + bh.length * 2)))
      (ev := pairOdds (slice Gv (k * (bv.length * 2)) (k * (bv.length * 2) + bv.length * 2))) (eh' := fun i => pairOdds Gh (k * bh.length + i))
      (ev' := fun j => pairOdds Gv (k * bv.length + j)) (fun i hi => pairOdds_slice Gh k _ hi) (fun j hj => pairOdds_slice Gv k _ hj) (1 / 2) 100
    rw [show (RbmNet.ofLists bh bv W.data).nh = bh.length from rfl, show (RbmNet.ofLists bh bv W.data).nv = bv.length from rfl] at hc
    rw [hc.1, hc.2] at e2
    have e3 := hss0 _ _ _ e1 e2
    exact ⟨⟨bs, e1, by rw [e3, e2]⟩, e3⟩
  obtain ⟨X, Y, x1, x2, x3⟩ := decode_batch h2.compiled hbp (s.bp.vmapRun env ((List.range n).map arrsOf) 100 (1 / 2)) (by
      unfold BPFun.vmapRun
      intro h
      have := congrArg List.length h
      simp at this
      omega) hlen (rbm_groups hs).1 (by
      intro g hg
      simp only [rVgs, List.mem_cons, List.not_mem_nil, or_false, VGroup.arr.injEq] at hg
      rcases hg with rfl | rfl <;> simp [uniArr]) ss (by
      intro a ha
      unfold BPFun.vmapRun at ha
      rw [List.map_map] at ha
      obtain ⟨k, hk, rfl⟩ := List.mem_map.1 ha
      exact (hss k (List.mem_range.1 hk)).1)
  have hup : s.bp.vmapInit [(.arr s.net.hidden, ⟨[n, bh.length, 2], Gh⟩), (.arr s.net.visible, ⟨[n, bv.length, 2], Gv⟩)] = .ok ((List.range n).map arrsOf) := by
    simp only [BPFun.vmapInit]
    rw [if_pos (by simp)]
    refine mapM_ok _ _ _ fun k hk => ?_
    simpa [NDArr.sample] using (hinit k (List.mem_range.1 hk)).1
  unfold rbmSamples
  rw [hup, py_ok_bind, x1, py_ok_bind, x2]
  congr 1
  unfold BPFun.vmapRun at x3
  rw [List.map_map, List.map_map, List.map_congr_left (g := fun k => statesTree [(.arr s.net.hidden, .arr ⟨[bh.length], likelyStates (hiddenOdds maxBump (RbmNet.ofLists bh bv W.data)
              (fun i => pairOdds Gh (k * bh.length + i)) (fun j => pairOdds Gv (k * bv.length + j)) (1 / 2) 100) bh.length⟩),
        (.arr s.net.visible, .arr ⟨[bv.length], likelyStates (visibleOdds maxBump (RbmNet.ofLists bh bv W.data)
              (fun i => pairOdds Gh (k * bh.length + i)) (fun j => pairOdds Gv (k * bv.length + j)) (1 / 2) 100) bv.length⟩)]) (by
    intro k hk
    simp only [Function.comp_apply]
    rw [(hss k (List.mem_range.1 hk)).2])] at x3
  exact batch_pair hn x3

/-- Non-vacuity: a machine with two hidden units and one visible unit meets the hypotheses. -/
example : RbmSizes [1, -1] [1 / 2] (⟨[2, 1], [2, -3]⟩ : NDArr ℚ) ∧ (RbmNet.ofLists [1, -1] [1 / 2] ([2, -3] : List ℚ)).Small 4 ∧
    (∀ x ∈ ([0, 0, 0, 4] : List ℚ), |x| ≤ 4) ∧ (∀ x ∈ ([3, 0] : List ℚ), |x| ≤ 4) := by
  refine ⟨by unfold RbmSizes; decide, ⟨2, 3, by decide +kernel, by decide +kernel, by decide +kernel, by norm_num, by norm_num, by norm_num [RbmNet.ofLists]⟩, by decide +kernel, by decide +kernel⟩

/-- The noise changes what is decoded for this machine. -/
example : ((rbmSetup Nat 2000000000 2500000000 1 2 3 (fun _ _ => 0) 5 [1, -1] [1 / 2] (⟨[2, 1], [2, -3]⟩ : NDArr ℚ) 0).bind (fun s =>
    (rbmSample exEnv s ⟨[2, 2], [0, 0, 0, 4]⟩ ⟨[1, 2], [3, 0]⟩).map (fun r => r.filterMap (fun p => p.2.arr?)))).toOption = some [⟨[2], [1, 1]⟩, ⟨[1], [0]⟩] := by
  decide +kernel

example : ((rbmSetup Nat 2000000000 2500000000 1 2 3 (fun _ _ => 0) 5 [1, -1] [1 / 2] (⟨[2, 1], [2, -3]⟩ : NDArr ℚ) 0).bind (fun s =>
    (rbmMap exEnv s).map (fun r => r.filterMap (fun p => p.2.arr?)))).toOption = some [⟨[2], [1, 0]⟩, ⟨[1], [1]⟩] := by
  decide +kernel

end PGMax
