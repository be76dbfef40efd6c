import Verif.Lemmas.RcnRate

/-! # C79: how many iterations the RCN program needs on networks that are trees -/

namespace PGMax

/-- **C79, partial.** Let all networks be trees and let the differences of bottom-up messages be multiples of `g` and at most `R`.  If no path in a network has more than `K` edges,
and `(m - 1) * R` times the probability that fewer than `K` of `n` trials succeed (when one fails with probability `d`) is less than `g` for the number `m` of features of every
network, then after `n` iterations with damping `d` the program returns the best deformation of every network that has only one, with its score, and (if all networks have only one) predicts the network
with the best score.
Missing: as in C77, networks with loops (`C77_loop`), more than one best deformation (`C77_tie`), bottom-up messages with so large a range that messages are clipped, windows of one
pixel.  The iterations are needed: `C79_slow`. -/
theorem C79_partial {κ α : Type} [Field α] [LinearOrder α] [IsStrictOrderedRing α] [DecidableEq κ] (env : Env α) {idV : Nat → Nat} {idF : Nat → Nat → Nat} (garbage : Garbage)
    (stateId : Nat) {hps vps : Nat} {frcs edges : List (List (Nat × Nat × Nat))}
    (hid : ∀ i < frcs.length, ∀ j < frcs.length, idV i % 2 ^ 32 = idV j % 2 ^ 32 → i = j) (hF : ∀ a b c d, idF a b = idF c d → a = c ∧ b = d)
    (hok : RcnOk (frcs.map List.length) edges) (hne : ∃ es ∈ edges, es ≠ []) (hpos : ∀ frc ∈ frcs, frc ≠ []) {F H W : Nat} {bu : NDArr α} (hb : bu.WF)
    (hs : bu.shape = [F, H, W]) (hin : ∀ frc ∈ frcs, ∀ p ∈ frc, RcnInside hps vps F H W p) (hM : 1 ≤ hps + vps)
    (hw : env.wrapNeg = false ∨ (2 * (edges.map List.length).sum + 1) * ((2 * hps + 1) * (2 * vps + 1)) ≤ 100000)
    (hloop : ∀ es ∈ edges, ∀ e ∈ es, e.1 ≠ e.2.1) (htree : ∀ es ∈ edges, (rcnNet es).IsAcyclic)
    (K : Nat) (hK : 0 < K) (hdiam : ∀ es ∈ edges, ∀ i j, (rcnNet es).dist i j ≤ K) {d : α} (hd : 0 ≤ d ∧ d ≤ 1 / 2) (n : Nat) {R B D g : α}
    (hR : ∀ a ∈ bu.data, ∀ b ∈ bu.data, a - b ≤ R) (hsize : ∀ frc ∈ frcs, frc.length * R < 1000) (hB : ∀ a ∈ bu.data, |a| ≤ B)
    (hdeg : ∀ es ∈ edges, ∀ i, ((es.filter (fun e => e.1 = i ∨ e.2.1 = i)).length : α) ≤ D) (hnum : 2 * (B + 1000 * D) ≤ 97000)
    (hg0 : 0 < g) (hgap : ∀ a ∈ bu.data, ∀ b ∈ bu.data, ∃ k : ℤ, a - b = k * g) (hrate : ∀ frc ∈ frcs, ((frc.length : α) - 1) * R * lag d n K < g) :
    ∃ maps scores best, rcnInfer κ env idV idF garbage stateId hps vps (frcs.map rcnInts) edges bu n d = .ok (maps, scores, best) ∧
      RcnExact hps vps bu frcs edges maps scores best := by
  have hid' : ∀ i < (frcs.map List.length).length, ∀ j < (frcs.map List.length).length, idV i % 2 ^ 32 = idV j % 2 ^ 32 → i = j := by simpa using hid
  obtain ⟨⟨vars, fg⟩, h⟩ := (C71_inputs (κ := κ) (α := α) (idF := idF) (hps := hps) (vps := vps) (edges := edges) hid').1.2 hok
  obtain ⟨cell, hist, st, -, -, hst, hg, hbp, -⟩ := C71_model hid' hF h garbage
  have hs' : bpStateOf stateId st = .ok (⟨⟨stateId, st.logPotentials⟩, ⟨stateId, List.replicate st.totalFactorNumStates 0⟩, ⟨stateId, List.replicate st.numVarStates 0⟩⟩ : BPState α) := by
    simp [bpStateOf, LogPotentials.create, FToVMessages.create, Evidence.create, BPState.create, bind, Except.bind]
  obtain ⟨bp, hbp⟩ := (hbp (⟨⟨stateId, st.logPotentials⟩, ⟨stateId, List.replicate st.totalFactorNumStates 0⟩, ⟨stateId, List.replicate st.numVarStates 0⟩⟩ : BPState α) 0).2 hne
  have hc := hst.compiled
  rw [hg] at hc
  obtain ⟨ups, hu, hall⟩ := rcn_tree_run_rate hid' hF h hst hg rfl (by
      intro n hn
      obtain ⟨frc, hf, rfl⟩ := List.mem_map.1 hn
      exact List.length_pos_iff.2 (hpos frc hf)) hb hs hin hs' hbp env (rcn_fits hid' hF h hw 0) hM hloop htree K hK hdiam hd n hR (by
      intro n hn
      obtain ⟨frc, hf, rfl⟩ := List.mem_map.1 hn
      exact hsize frc hf) hB hdeg hnum hg0 hgap (by
      intro n hn
      obtain ⟨frc, hf, rfl⟩ := List.mem_map.1 hn
      exact hrate frc hf)
  obtain ⟨arrs, bs, rs, ha, g1, g2, -, es, maps, g4, g5, g6⟩ := hall ups (List.Perm.refl _)
  rw [rcnInfer_eq rfl h hc hs' hbp hu ha g1 g2 g4]
  have : rs.filterMap (fun p => p.2.arr?) = maps := by
    have e : rs.filterMap (fun p => p.2.arr?) = (rs.map (·.2)).filterMap GroupStates.arr? := by rw [List.filterMap_map]; rfl
    rw [e, g5, List.filterMap_map]
    exact List.filterMap_some
  rw [this]
  exact ⟨_, _, _, rfl, g6⟩

/-- A feature has less edges than there are features, if no two edges connect the same features. -/
theorem rcn_degree_lt {sizes : List Nat} {edges : List (List (Nat × Nat × Nat))} (hok : RcnOk sizes edges) (hloop : ∀ es ∈ edges, ∀ e ∈ es, e.1 ≠ e.2.1) {N : Nat}
    (hN : ∀ m ∈ sizes, m ≤ N + 1) : ∀ es ∈ edges, ∀ i, (es.filter (fun e => e.1 = i ∨ e.2.1 = i)).length ≤ N := by
  intro es hes i
  obtain ⟨idx, hidx⟩ := List.mem_iff_getElem?.1 hes
  have hlt := (List.getElem?_eq_some_iff.1 hidx).1
  have hg : edges.getD idx [] = es := by rw [List.getD, hidx, Option.getD_some]
  have hends := hok.ends idx hlt
  have hsimple := hok.simple idx hlt
  rw [hg] at hends hsimple
  have hm : sizes.getD idx 0 ≤ N + 1 := by
    refine hN _ ?_
    have : idx < sizes.length := by rw [hok.len]; exact hlt
    rw [List.getD, List.getElem?_eq_getElem this]
    exact List.getElem_mem this
  have hnd : ((es.filter (fun e => e.1 = i ∨ e.2.1 = i)).map (fun e => ({e.1, e.2.1} : Finset Nat))).Nodup := hsimple.sublist (List.filter_sublist.map _)
  rw [← List.length_map (f := fun e => ({e.1, e.2.1} : Finset Nat)), ← List.toFinset_card_of_nodup hnd]
  by_cases hi : i < sizes.getD idx 0
  · refine (Finset.card_le_card (t := ((Finset.range (sizes.getD idx 0)).erase i).image (fun j => ({i, j} : Finset Nat))) ?_).trans (Finset.card_image_le.trans ?_)
    · intro s hs
      obtain ⟨e, he, rfl⟩ := List.mem_map.1 (List.mem_toFinset.1 hs)
      obtain ⟨he, hi'⟩ := List.mem_filter.1 he
      obtain ⟨h1, h2, -⟩ := hends e he
      have hne := hloop es hes e he
      rcases of_decide_eq_true hi' with rfl | rfl
      · exact Finset.mem_image.2 ⟨e.2.1, Finset.mem_erase.2 ⟨hne.symm, Finset.mem_range.2 h2⟩, rfl⟩
      · exact Finset.mem_image.2 ⟨e.1, Finset.mem_erase.2 ⟨hne, Finset.mem_range.2 h1⟩, Finset.pair_comm _ _⟩
    · rw [Finset.card_erase_of_mem (Finset.mem_range.2 hi), Finset.card_range]
      omega
  · have : es.filter (fun e => e.1 = i ∨ e.2.1 = i) = [] := by
      refine List.filter_eq_nil_iff.2 fun e he => ?_
      obtain ⟨h1, h2, -⟩ := hends e he
      simp only [decide_eq_true_eq]
      omega
    rw [this]
    simp

/-- **C79, partial, for the parameters of the program.** With bottom-up messages -1 and 1, windows of 25 by 25 pixels, 30 iterations and damping 1/2, the result is exact if all networks are trees with at
most 47 features and without paths of more than 10 edges. -/
theorem C79_program_partial {κ α : Type} [Field α] [LinearOrder α] [IsStrictOrderedRing α] [DecidableEq κ] (env : Env α) {idV : Nat → Nat} {idF : Nat → Nat → Nat} (garbage : Garbage)
    (stateId : Nat) {frcs edges : List (List (Nat × Nat × Nat))}
    (hid : ∀ i < frcs.length, ∀ j < frcs.length, idV i % 2 ^ 32 = idV j % 2 ^ 32 → i = j) (hF : ∀ a b c d, idF a b = idF c d → a = c ∧ b = d)
    (hok : RcnOk (frcs.map List.length) edges) (hne : ∃ es ∈ edges, es ≠ []) (hpos : ∀ frc ∈ frcs, frc ≠ []) {F H W : Nat} {bu : NDArr α} (hb : bu.WF)
    (hs : bu.shape = [F, H, W]) (hin : ∀ frc ∈ frcs, ∀ p ∈ frc, RcnInside 12 12 F H W p)
    (hw : env.wrapNeg = false ∨ (2 * (edges.map List.length).sum + 1) * 625 ≤ 100000)
    (hloop : ∀ es ∈ edges, ∀ e ∈ es, e.1 ≠ e.2.1) (htree : ∀ es ∈ edges, (rcnNet es).IsAcyclic)
    (hdiam : ∀ es ∈ edges, ∀ i j, (rcnNet es).dist i j ≤ 10) (hsize : ∀ frc ∈ frcs, frc.length ≤ 47) (hbu : ∀ a ∈ bu.data, a = -1 ∨ a = 1) :
    ∃ maps scores best, rcnInfer κ env idV idF garbage stateId 12 12 (frcs.map rcnInts) edges bu 30 (1 / 2) = .ok (maps, scores, best) ∧
      RcnExact 12 12 bu frcs edges maps scores best := by
  have hcast : ∀ frc ∈ frcs, (frc.length : α) ≤ 47 := fun frc hf => by exact_mod_cast hsize frc hf
  have hdeg := rcn_degree_lt hok hloop (N := 46) (by
    intro m hm
    obtain ⟨frc, hf, rfl⟩ := List.mem_map.1 hm
    exact hsize frc hf)
  refine C79_partial (R := 2) (B := 1) (D := 46) (g := 2) env garbage stateId hid hF hok hne hpos hb hs hin (by norm_num) hw hloop htree 10 (by norm_num) hdiam (by norm_num) 30
    ?_ (fun frc hf => by linarith [hcast frc hf]) ?_ (fun es hes i => by exact_mod_cast hdeg es hes i) (by norm_num) (by norm_num) ?_ ?_
  · intro a ha b hb
    rcases hbu a ha with rfl | rfl <;> rcases hbu b hb with rfl | rfl <;> norm_num
  · intro a ha
    rcases hbu a ha with rfl | rfl <;> norm_num
  · intro a ha b hb
    rcases hbu a ha with rfl | rfl <;> rcases hbu b hb with rfl | rfl
    · exact ⟨0, by norm_num⟩
    · exact ⟨-1, by norm_num⟩
    · exact ⟨1, by norm_num⟩
    · exact ⟨0, by norm_num⟩
  · intro frc hf
    have h1 : lag (1 / 2 : α) 30 10 < 1 / 46 := by
      norm_num [lag, Finset.sum_range_succ, Nat.choose]
    have h2 := mul_le_mul_of_nonneg_right (show ((frc.length : α) - 1) * 2 ≤ 92 by linarith [hcast frc hf]) (lag_nonneg (d := (1 / 2 : α)) (by norm_num) 30 10)
    linarith

/-- The features, the edges and the bottom-up messages of the counterexample `C79_slow`. -/
def exSlowFrc : List (Nat × Nat × Nat) := (0, 0, 1) :: (List.replicate 5 (2, 0, 1) ++ [(1, 0, 1), (1, 0, 1)])

@[inherit_doc exSlowFrc]
def exSlowEdges : List (Nat × Nat × Nat) := (List.range 7).map (fun i => (i, i + 1, 0))

@[inherit_doc exSlowFrc]
def exSlow : NDArr ℚ := ⟨[3, 1, 3], [1, -1, -1, -1, 1, -1, -1, -1, -1]⟩

set_option maxRecDepth 100000 in
theorem exSlow_run : rcnInfer Nat exEnv id Nat.pair (fun _ _ => 0) 1 0 1 ([exSlowFrc].map rcnInts) [exSlowEdges] exSlow 10 (1 / 2) =
    .ok ([⟨[8], 0 :: List.replicate 7 1⟩], [-2], 0) := by
  decide +kernel

/-- The number of iterations matters: 10 iterations with damping 1/2 are not enough on a path with 7 edges; there, with bottom-up messages -1 and 1, the displacement that is decoded for the first
feature is not that of the only best deformation, and the decoded displacements are infeasible; their score is larger than that of every feasible deformation. -/
theorem C79_slow : rcnInfer Nat exEnv id Nat.pair (fun _ _ => 0) 1 0 1 ([exSlowFrc].map rcnInts) [exSlowEdges] exSlow 10 (1 / 2) =
      .ok ([⟨[8], 0 :: List.replicate 7 1⟩], [-2], 0) ∧
    RcnBest 0 1 exSlow exSlowFrc exSlowEdges (fun _ => 1) ∧ deformScore 0 1 exSlow exSlowFrc (fun _ => 1) = -4 := by
  have hfe : ∀ y, RcnFeasible 0 1 exSlowFrc.length exSlowEdges y → ∃ c < 3, ∀ i < 8, y i = c := by
    intro y hy
    have hl : ∀ i < 8, y i < 3 := fun i hi => by simpa using hy.1 i hi
    have he : ∀ i < 7, y (i + 1) = y i := by
      intro i hi
      obtain ⟨-, -, h3, h4⟩ := hy.2 (i, i + 1, 0) (List.mem_map.2 ⟨i, List.mem_range.2 hi, rfl⟩)
      have := hl i (by omega)
      have := hl (i + 1) (by omega)
      simp only at h3 h4
      omega
    refine ⟨y 0, hl 0 (by omega), fun i hi => ?_⟩
    induction i with
    | zero => rfl
    | succ i ih => rw [he i (by omega), ih (by omega)]
  have hval : ∀ c < 3, ∀ y, (∀ i < 8, y i = c) → deformScore 0 1 exSlow exSlowFrc y = if c = 0 then -6 else if c = 1 then -4 else -8 := by
    intro c hc y hy
    rw [deformScore_congr (frc := exSlowFrc) (y' := fun _ => c) hy]
    clear hy
    interval_cases c <;> decide +kernel
  have h3 : deformScore 0 1 exSlow exSlowFrc (fun _ => 1) = -4 := hval 1 (by omega) _ (fun _ _ => rfl)
  refine ⟨exSlow_run, ⟨⟨fun i _ => by norm_num, ?_⟩, ?_, ?_⟩, h3⟩
  · exact fun e _ => ⟨Nat.le_add_right _ _, Nat.le_add_right _ _, Nat.le_add_right _ _, Nat.le_add_right _ _⟩
  · intro y hy
    obtain ⟨c, hc, hy⟩ := hfe y hy
    rw [h3, hval c hc y hy]
    split <;> [norm_num; split <;> norm_num]
  · intro y hy e i hi
    obtain ⟨c, hc, hy⟩ := hfe y hy
    rw [h3, hval c hc y hy] at e
    rw [hy i hi]
    interval_cases c
    · norm_num at e
    · rfl
    · norm_num at e

/-- Non-vacuity of C79: the networks of the example of C77, with the 30 iterations and the damping of the program. -/
example : ∃ maps scores best, rcnInfer Nat exEnv id Nat.pair (fun _ _ => 0) 1 0 1 (exNetFrcs.map rcnInts) exNetEdges
      (⟨[3, 1, 3], [-1, -1, 1, 1, -1, 1, -1, -1, 1]⟩ : NDArr ℚ) 30 (1 / 2) = .ok (maps, scores, best) ∧
    RcnExact 0 1 (⟨[3, 1, 3], [-1, -1, 1, 1, -1, 1, -1, -1, 1]⟩ : NDArr ℚ) exNetFrcs exNetEdges maps scores best := by
  obtain ⟨⟨h1, h2, h3, h4⟩, h5, h6, h7⟩ := exNets
  refine C79_partial (κ := Nat) (bu := (⟨[3, 1, 3], [-1, -1, 1, 1, -1, 1, -1, -1, 1]⟩ : NDArr ℚ)) (R := 2) (B := 1) (D := 2) (g := 2)
    exEnv (idV := id) (idF := Nat.pair) (fun _ _ => 0) 1 (by decide) (fun a b c d => Nat.pair_eq_pair.1) h1 h2 h3 rfl rfl h4 (by norm_num) (.inl rfl) h5 h6 2 (by norm_num)
    (fun es hes i j => le_trans (rcnNet_dist_le es i j) (by revert es; decide)) (by norm_num) 30 (by decide +kernel) (by decide +kernel) (by decide +kernel)
    (fun es hes i => by exact_mod_cast h7 es hes i) (by norm_num) (by norm_num) ?_ ?_
  · intro a ha b hb
    have hv : ∀ a ∈ ([-1, -1, 1, 1, -1, 1, -1, -1, 1] : List ℚ), a = -1 ∨ a = 1 := by decide +kernel
    rcases hv a ha with rfl | rfl <;> rcases hv b hb with rfl | rfl
    · exact ⟨0, by norm_num⟩
    · exact ⟨-1, by norm_num⟩
    · exact ⟨1, by norm_num⟩
    · exact ⟨0, by norm_num⟩
  · intro frc hf
    have h1 : lag (1 / 2 : ℚ) 30 2 < 1 / 46 := by
      norm_num [lag, Finset.sum_range_succ]
    have h2 : (frc.length : ℚ) ≤ 3 := by revert frc; decide +kernel
    have h3 := mul_le_mul_of_nonneg_right (show ((frc.length : ℚ) - 1) * 2 ≤ 4 by linarith) (lag_nonneg (d := (1 / 2 : ℚ)) (by norm_num) 30 2)
    linarith

/-- The bottom-up messages of the example. -/
def exOne : NDArr ℚ := ⟨[1, 25, 25], 1 :: List.replicate 624 (-1)⟩

theorem exOne_WF : exOne.WF := by
  rw [NDArr.WF, show exOne.data = 1 :: List.replicate 624 (-1) from rfl, List.length_cons, List.length_replicate]
  rfl

/-- Non-vacuity of C79 for the parameters of the program: a network of two features and one edge of radius 0, in an image with one active pixel, at which both features are found. -/
example (env : Env ℚ) : ∃ maps scores best, rcnInfer Nat env id Nat.pair (fun _ _ => 0) 1 12 12 ([[(0, 12, 12), (0, 12, 12)]].map rcnInts) [[(0, 1, 0)]]
      exOne 30 (1 / 2) = .ok (maps, scores, best) ∧ maps[0]? = some ⟨[2], [0, 0]⟩ ∧ scores[0]? = some 2 := by
  have hac : ∀ es ∈ [[(0, 1, 0)]], (rcnNet es).IsAcyclic := by
    intro es hes
    refine acyclic_of_level id fun x y z hy hz h1 h2 => ?_
    rw [List.mem_singleton.1 hes] at hy hz
    simp only [rcnNet, SimpleGraph.fromRel_adj, List.mem_cons, List.not_mem_nil, or_false, Prod.mk.injEq, exists_and_left, exists_eq, and_true] at hy hz
    simp only [id] at h1 h2
    omega
  obtain ⟨maps, scores, best, k1, k2⟩ := C79_program_partial (κ := Nat) (F := 1) (H := 25) (W := 25) (bu := exOne)
    (frcs := [[(0, 12, 12), (0, 12, 12)]]) (edges := [[(0, 1, 0)]])
    env (idV := id) (idF := Nat.pair) (fun _ _ => 0) 1 (by decide) (fun a b c d => Nat.pair_eq_pair.1) ⟨rfl, by decide, by decide, by decide⟩ (by decide) (by decide)
    exOne_WF rfl (by unfold RcnInside; decide) (.inr (by decide)) (by decide) hac
    (fun es hes i j => le_trans (rcnNet_dist_le es i j) (by revert es; decide)) (by decide) (by
      intro a ha
      rcases List.mem_cons.1 ha with h | h
      · exact .inr h
      · exact .inl (List.mem_replicate.1 h).2)
  refine ⟨maps, scores, best, k1, ?_⟩
  have hr : ∀ s < 625, exOne.read [0, s / 25, s % 25] = if s = 0 then 1 else -1 := by
    intro s hs
    have e : rowMajor [1, 25, 25] [0, s / 25, s % 25] = s := by
      simp [rowMajor]
      omega
    unfold NDArr.read
    rw [show exOne.shape = [1, 25, 25] from rfl, show exOne.data = 1 :: List.replicate 624 (-1) from rfl, e]
    rcases s with _ | s
    · rfl
    · rw [if_neg (by omega), List.getD, List.getElem?_cons_succ, List.getElem?_replicate, if_pos (by omega)]
      rfl
  have hd : ∀ y, RcnFeasible 12 12 2 [(0, 1, 0)] y → deformScore 12 12 exOne [(0, 12, 12), (0, 12, 12)] y =
      (if y 0 = 0 then 1 else -1) + if y 1 = 0 then 1 else -1 := by
    intro y hy
    have h0 := hr (y 0) (hy.1 0 (by omega))
    have h1 := hr (y 1) (hy.1 1 (by omega))
    simp only [deformScore, List.length_cons, List.length_nil, Finset.sum_range_succ, Finset.sum_range_zero]
    simpa using congrArg₂ (· + ·) h0 h1
  have hf : RcnFeasible 12 12 2 [(0, 1, 0)] (fun _ => 0) :=
    ⟨fun i _ => by norm_num, fun e _ => ⟨Nat.le_add_right _ _, Nat.le_add_right _ _, Nat.le_add_right _ _, Nat.le_add_right _ _⟩⟩
  have hb : RcnBest 12 12 exOne [(0, 12, 12), (0, 12, 12)] [(0, 1, 0)] (fun _ => 0) := by
    refine ⟨hf, fun y hy => ?_, fun y hy e => ?_⟩
    · rw [hd y hy, hd _ hf]
      split <;> split <;> norm_num
    · rw [hd y hy, hd _ hf] at e
      have h0 : y 0 = 0 := by
        by_contra hne
        rw [if_neg hne] at e
        split at e <;> norm_num at e
      have h1 : y 1 = 0 := by
        by_contra hne
        rw [if_neg hne] at e
        split at e <;> norm_num at e
      intro i hi
      simp only [List.length_cons, List.length_nil] at hi
      interval_cases i <;> assumption
  obtain ⟨k3, k4⟩ := k2.network 0 _ rfl _ hb
  refine ⟨k3, ?_⟩
  rw [k4, hd _ hf]
  norm_num

end PGMax
