import Verif.Props.C79
import Verif.Props.C80

/-! # C81: the RCN program as a whole -/

namespace PGMax

variable {κ α : Type}

theorem py_bind_inv {β γ : Type _} {x : Py β} {f : β → Py γ} {c : γ} (h : (x >>= f) = .ok c) : ∃ b, x = .ok b ∧ f b = .ok c := by
  cases x with
  | ok b => exact ⟨b, rfl, h⟩
  | error e => cases h

/-- What the program makes before the loop over the images. -/
def rcnSetup (κ : Type) [Field α] [LinearOrder α] [DecidableEq κ] (idV : Nat → Nat) (idF : Nat → Nat → Nat) (garbage : Garbage) (stateId hps vps : Nat) (sizes : List Nat)
    (edges : List (List (Nat × Nat × Nat))) : Py (List NDVarArray × BPFun κ α) := do
  let r ← rcn (κ := κ) (α := α) idV idF hps vps sizes edges
  let st ← r.2.fgState garbage
  let state ← bpStateOf stateId st
  let bp ← BP.create st state 0
  pure (r.1, bp)

theorem rcnInfer_setup [Field α] [LinearOrder α] [DecidableEq κ] {env : Env α} {idV : Nat → Nat} {idF : Nat → Nat → Nat} {garbage : Garbage} {stateId hps vps : Nat}
    {frcs : List (List (Int × Int × Int))} {edges : List (List (Nat × Nat × Nat))} {bu : NDArr α} {n : Nat} {d : α} {maps : List (NDArr Nat)} {scores : List α} {best : Nat} :
    rcnInfer κ env idV idF garbage stateId hps vps frcs edges bu n d = .ok (maps, scores, best) ↔
      ∃ vars bp, rcnSetup (α := α) κ idV idF garbage stateId hps vps (frcs.map List.length) edges = .ok (vars, bp) ∧ best = rcnBestModel scores ∧
        (do
          let ups ← rcnUpdates hps vps vars frcs bu
          let arrs ← bp.update none none none (some ups)
          let bs ← bp.getBeliefs (bp.runBP env arrs n d)
          let rs ← decodeMapStates bs
          let es ← frcs.mapM (rcnEvidence hps vps bu)
          let maps := rs.filterMap (fun p => p.2.arr?)
          pure (maps, rcnScores es maps)) = (.ok (maps, scores) : Py (List (NDArr Nat) × List α)) := by
  constructor
  · intro h
    unfold rcnInfer at h
    obtain ⟨r, h1, h⟩ := py_bind_inv h
    obtain ⟨st, h2, h⟩ := py_bind_inv h
    obtain ⟨state, h3, h⟩ := py_bind_inv h
    obtain ⟨bp, h4, h⟩ := py_bind_inv h
    obtain ⟨ups, h5, h⟩ := py_bind_inv h
    obtain ⟨arrs, h6, h⟩ := py_bind_inv h
    obtain ⟨bs, h7, h⟩ := py_bind_inv h
    obtain ⟨rs, h8, h⟩ := py_bind_inv h
    obtain ⟨es, h9, h⟩ := py_bind_inv h
    injection h with k1
    injection k1 with ha k2
    injection k2 with hb hc
    subst ha hb hc
    refine ⟨r.1, bp, ?_, rfl, ?_⟩
    · unfold rcnSetup
      rw [h1, py_ok_bind, h2, py_ok_bind, h3, py_ok_bind, h4, py_ok_bind]
      rfl
    · rw [h5, py_ok_bind, h6, py_ok_bind, h7, py_ok_bind, h8, py_ok_bind, h9, py_ok_bind]
      rfl
  · rintro ⟨vars, bp, hs, rfl, h⟩
    unfold rcnSetup at hs
    obtain ⟨r, h1, hs⟩ := py_bind_inv hs
    obtain ⟨st, h2, hs⟩ := py_bind_inv hs
    obtain ⟨state, h3, hs⟩ := py_bind_inv hs
    obtain ⟨bp', h4, hs⟩ := py_bind_inv hs
    injection hs with hs
    injection hs with ha hb
    subst ha hb
    obtain ⟨ups, h5, h⟩ := py_bind_inv h
    obtain ⟨arrs, h6, h⟩ := py_bind_inv h
    obtain ⟨bs, h7, h⟩ := py_bind_inv h
    obtain ⟨rs, h8, h⟩ := py_bind_inv h
    obtain ⟨es, h9, h⟩ := py_bind_inv h
    injection h with h
    injection h with ha hb
    subst ha hb
    unfold rcnInfer
    rw [h1, py_ok_bind, h2, py_ok_bind, h3, py_ok_bind, h4, py_ok_bind, h5, py_ok_bind, h6, py_ok_bind, h7, py_ok_bind, h8, py_ok_bind, h9, py_ok_bind]
    rfl

/-- The share of the positions at which the predictions are the labels. -/
theorem rcnAccuracy_eq [Field α] (preds labels : List Nat) (h : preds.length = labels.length) (hne : labels ≠ []) :
    rcnAccuracy (α := α) preds labels = some ((((Finset.range labels.length).filter (fun t => preds[t]? = labels[t]?)).card : α) / labels.length) := by
  unfold rcnAccuracy
  rw [if_neg hne]
  congr 3
  clear hne
  induction preds generalizing labels with
  | nil =>
    obtain rfl : labels = [] := List.length_eq_zero_iff.1 h.symm
    rfl
  | cons a preds ih =>
    cases labels with
    | nil => cases h
    | cons b labels =>
      rw [List.zipWith_cons_cons, List.sum_cons, ih labels (by simpa using h), List.length_cons, Finset.range_add_one', Finset.filter_insert]
      rw [Finset.filter_map, List.getElem?_cons_zero, List.getElem?_cons_zero]
      have e : (Finset.range labels.length).filter ((fun t => (a :: preds)[t]? = (b :: labels)[t]?) ∘ (⟨fun i => i + 1, fun i j => by simp⟩ : ℕ ↪ ℕ)) =
          (Finset.range labels.length).filter (fun t => preds[t]? = labels[t]?) := by
        refine Finset.filter_congr fun t _ => ?_
        change (a :: preds)[t + 1]? = (b :: labels)[t + 1]? ↔ _
        rw [List.getElem?_cons_succ, List.getElem?_cons_succ]
      rw [e]
      by_cases hab : a = b
      · rw [if_pos hab, if_pos (by rw [hab]), Finset.card_insert_of_notMem (by simp), Finset.card_map]
        omega
      · rw [if_neg hab, if_neg (by simpa using hab), Finset.card_map]
        omega

/-- **C81, the loop over the images.** Whatever the program returns for several images, it returns for every image what it returns for this image alone: the states, scores and the network
that are computed from the bottom-up messages of the image.  The predictions are the labels of these networks, and the accuracy is the share of right predictions. -/
theorem C81_images [Field α] [LinearOrder α] [DecidableEq κ] {env : Env α} {idV : Nat → Nat} {idF : Nat → Nat → Nat} {garbage : Garbage} {stateId hps vps : Nat}
    {frcs : List (List (Int × Int × Int))} {edges : List (List (Nat × Nat × Nat))} {threshold : α} {masks : List (NDArr Bool)} {H W n : Nat} {d : α}
    {trainLabels : List Nat} {tests : List (List (List α) × Nat)} {results : List (List (NDArr Nat) × List α)} {preds : List Nat} {acc : Option α}
    (h : rcnProgram κ env idV idF garbage stateId hps vps frcs edges threshold masks H W n d trainLabels tests = .ok (results, preds, acc)) :
    results.length = tests.length ∧ preds.length = tests.length ∧
      (∀ (t : Nat) img label, tests[t]? = some (img, label) → ∃ bu maps scores best p, buMsg threshold masks H W img = .ok bu ∧
        rcnInfer κ env idV idF garbage stateId hps vps frcs edges bu n d = .ok (maps, scores, best) ∧ results[t]? = some (maps, scores) ∧ trainLabels[best]? = some p ∧ preds[t]? = some p) ∧
      (tests ≠ [] → acc = some ((((Finset.range tests.length).filter (fun t => preds[t]? = (tests.map (·.2))[t]?)).card : α) / tests.length)) ∧ (tests = [] → acc = none) := by
  unfold rcnProgram at h
  obtain ⟨r, h1, h⟩ := py_bind_inv h
  obtain ⟨st, h2, h⟩ := py_bind_inv h
  obtain ⟨state, h3, h⟩ := py_bind_inv h
  obtain ⟨bp, h4, h⟩ := py_bind_inv h
  obtain ⟨results', h5, h⟩ := py_bind_inv h
  obtain ⟨preds', h6, h⟩ := py_bind_inv h
  injection h with k1
  injection k1 with ha k2
  injection k2 with hb hc
  subst ha hb hc
  have hs : rcnSetup (α := α) κ idV idF garbage stateId hps vps (frcs.map List.length) edges = .ok (r.1, bp) := by
    unfold rcnSetup
    rw [h1, py_ok_bind, h2, py_ok_bind, h3, py_ok_bind, h4, py_ok_bind]
    rfl
  have f5 := mapM_ok_inv _ _ _ h5
  have f6 := mapM_ok_inv _ _ _ h6
  have l5 := f5.length_eq.symm
  have l6 := f6.length_eq.symm
  refine ⟨l5, l6.trans l5, fun t img label ht => ?_, fun hne => ?_, fun he => ?_⟩
  · obtain ⟨⟨maps, scores⟩, g1, g2⟩ := forall₂_getElem? f5 ht
    obtain ⟨p, g3, g4⟩ := forall₂_getElem? f6 g1
    unfold rcnImage at g2
    obtain ⟨bu, g5, g6⟩ := py_bind_inv g2
    refine ⟨bu, maps, scores, rcnBestModel scores, p, g5, rcnInfer_setup.2 ⟨r.1, bp, hs, rfl, g6⟩, g1, ?_, g3⟩
    simp only at g4
    split at g4
    · rename_i q hq
      injection g4 with g4
      rw [hq, g4]
    · cases g4
  · rw [rcnAccuracy_eq _ _ (by rw [l6, l5, List.length_map]) (by simpa using hne), List.length_map]
  · subst he
    rfl

theorem argmax_lt_of_length [LinearOrder α] {scores : List α} {m : Nat} (hm : 0 < m) (h : scores.length ≤ m) : rcnBestModel scores < m := by
  unfold rcnBestModel
  rcases Nat.eq_zero_or_pos scores.length with e | e
  · rw [List.length_eq_zero_iff.1 e]
    exact hm
  · obtain ⟨m', hm', -⟩ := argmax_spec scores (List.length_pos_iff.1 e)
    exact ((List.getElem?_eq_some_iff.1 hm').1).trans_le h

/-- If inference works for the bottom-up messages of all images, the program works. -/
theorem rcnProgram_ok [Field α] [LinearOrder α] [DecidableEq κ] {env : Env α} {idV : Nat → Nat} {idF : Nat → Nat → Nat} {garbage : Garbage} {stateId hps vps : Nat}
    {frcs : List (List (Int × Int × Int))} {edges : List (List (Nat × Nat × Nat))} {threshold : α} {masks : List (NDArr Bool)} {H W n : Nat} {d : α}
    {trainLabels : List Nat} (hlab : trainLabels.length = frcs.length) (hpos : frcs ≠ []) {tests : List (List (List α) × Nat)} {bu0 : NDArr α}
    (h0 : ∃ maps scores best, rcnInfer κ env idV idF garbage stateId hps vps frcs edges bu0 n d = .ok (maps, scores, best))
    (h : ∀ t ∈ tests, ∃ bu maps scores best, buMsg threshold masks H W t.1 = .ok bu ∧ rcnInfer κ env idV idF garbage stateId hps vps frcs edges bu n d = .ok (maps, scores, best)) :
    ∃ results preds acc, rcnProgram κ env idV idF garbage stateId hps vps frcs edges threshold masks H W n d trainLabels tests = .ok (results, preds, acc) := by
  obtain ⟨maps0, scores0, best0, h0⟩ := h0
  obtain ⟨vars, bp, hs, -, -⟩ := rcnInfer_setup.1 h0
  have hs' := hs
  unfold rcnSetup at hs
  obtain ⟨r, h1, hs⟩ := py_bind_inv hs
  obtain ⟨st, h2, hs⟩ := py_bind_inv hs
  obtain ⟨state, h3, hs⟩ := py_bind_inv hs
  obtain ⟨bp', h4, hs⟩ := py_bind_inv hs
  injection hs with k1
  injection k1 with ha hb
  subst ha hb
  have key : ∀ t : List (List α) × Nat, ∃ p : List (NDArr Nat) × List α, t ∈ tests → rcnImage env hps vps frcs threshold masks H W n d r.1 bp' t.1 = .ok p ∧ p.2.length ≤ frcs.length := by
    intro t
    by_cases ht : t ∈ tests
    · obtain ⟨bu, maps, scores, best, g1, g2⟩ := h t ht
      obtain ⟨vars, bp, g3, -, g4⟩ := rcnInfer_setup.1 g2
      rw [hs'] at g3
      injection g3 with k1
      injection k1 with ha hb
      subst ha hb
      refine ⟨(maps, scores), fun _ => ⟨?_, ?_⟩⟩
      · unfold rcnImage
        rw [g1, py_ok_bind]
        exact g4
      · obtain ⟨ups, -, g4⟩ := py_bind_inv g4
        obtain ⟨arrs, -, g4⟩ := py_bind_inv g4
        obtain ⟨bs, -, g4⟩ := py_bind_inv g4
        obtain ⟨rs, -, g4⟩ := py_bind_inv g4
        obtain ⟨es, g5, g4⟩ := py_bind_inv g4
        injection g4 with k1
        injection k1 with ha hb
        subst ha hb
        have := (mapM_ok_inv _ _ _ g5).length_eq
        simp only [rcnScores, List.length_zipWith]
        omega
    · exact ⟨([], []), fun h => absurd h ht⟩
  choose g hg using key
  have hbest : ∀ p ∈ tests.map g, ∃ label, trainLabels[rcnBestModel p.2]? = some label := by
    intro p hp
    obtain ⟨t, ht, rfl⟩ := List.mem_map.1 hp
    have : rcnBestModel (g t).2 < trainLabels.length := by
      rw [hlab]
      exact argmax_lt_of_length (List.length_pos_iff.2 hpos) (hg t ht).2
    exact ⟨_, List.getElem?_eq_getElem this⟩
  refine ⟨tests.map g, (tests.map g).map (fun p => trainLabels.getD (rcnBestModel p.2) 0), rcnAccuracy ((tests.map g).map (fun p => trainLabels.getD (rcnBestModel p.2) 0)) (tests.map (·.2)), ?_⟩
  unfold rcnProgram
  rw [h1, py_ok_bind, h2, py_ok_bind, h3, py_ok_bind, h4, py_ok_bind, mapM_ok _ g _ (fun t ht => (hg t ht).1), py_ok_bind,
    mapM_ok _ (fun p => trainLabels.getD (rcnBestModel p.2) 0), py_ok_bind]
  · rfl
  · intro p hp
    obtain ⟨label, hl⟩ := hbest p hp
    rw [hl, List.getD, hl, Option.getD_some]

/-- **C81, partial.** The whole program with its parameters (windows of 25 by 25 pixels, 30 iterations, damping 1/2), on networks that are trees with at most 47 features and without paths of more than 10
edges, for any number of test images: it returns; for every image and every network that has only one best deformation it returns this deformation and its score; and if all networks have only one, it predicts
the label of the first network with the best score. -/
theorem C81_partial [Field α] [LinearOrder α] [IsStrictOrderedRing α] [DecidableEq κ] (env : Env α) {idV : Nat → Nat} {idF : Nat → Nat → Nat} (garbage : Garbage)
    (stateId : Nat) {frcs edges : List (List (Nat × Nat × Nat))}
    (hid : ∀ i < frcs.length, ∀ j < frcs.length, idV i % 2 ^ 32 = idV j % 2 ^ 32 → i = j) (hF : ∀ a b c d, idF a b = idF c d → a = c ∧ b = d)
    (hok : RcnOk (frcs.map List.length) edges) (hne : ∃ es ∈ edges, es ≠ []) (hpos : ∀ frc ∈ frcs, frc ≠ []) {F H W : Nat}
    (hin : ∀ frc ∈ frcs, ∀ p ∈ frc, RcnInside 12 12 F H W p)
    (hw : env.wrapNeg = false ∨ (2 * (edges.map List.length).sum + 1) * 625 ≤ 100000)
    (hloop : ∀ es ∈ edges, ∀ e ∈ es, e.1 ≠ e.2.1) (htree : ∀ es ∈ edges, (rcnNet es).IsAcyclic)
    (hdiam : ∀ es ∈ edges, ∀ i j, (rcnNet es).dist i j ≤ 10) (hsize : ∀ frc ∈ frcs, frc.length ≤ 47)
    {trainLabels : List Nat} (hlab : trainLabels.length = frcs.length) {threshold : α} (ht : 0 < threshold) {masks : List (NDArr Bool)}
    (hmask : ∀ mask ∈ masks, ∃ a b, mask.shape = [a, b] ∧ ∃ u < a, ∃ w < b, mask.data.getD (u * b + w) false = true)
    {tests : List (List (List α) × Nat)} (himg : ∀ t ∈ tests, t.1.length = F ∧ ∀ layer ∈ t.1, layer.length = H * W) :
    ∃ results preds acc, rcnProgram κ env idV idF garbage stateId 12 12 (frcs.map rcnInts) edges threshold masks H W 30 (1 / 2) trainLabels tests = .ok (results, preds, acc) ∧
      ∀ (t : Nat) img label, tests[t]? = some (img, label) → ∃ bu maps scores best p, buMsg threshold masks H W img = .ok bu ∧ results[t]? = some (maps, scores) ∧
        trainLabels[best]? = some p ∧ preds[t]? = some p ∧ RcnExact 12 12 bu frcs edges maps scores best := by
  have hfrcs : frcs ≠ [] := by
    rintro rfl
    obtain ⟨es, hes, -⟩ := hne
    have := hok.len
    rw [List.map_nil, List.length_nil] at this
    rw [List.length_eq_zero_iff.1 this.symm] at hes
    cases hes
  have hFpos : 0 < F := by
    obtain ⟨frc, hf⟩ := List.exists_mem_of_ne_nil _ hfrcs
    obtain ⟨p, hp⟩ := List.exists_mem_of_ne_nil _ (hpos frc hf)
    have := (hin frc hf p hp).1
    omega
  have hrun := fun (bu : NDArr α) (hb : bu.WF) (hs : bu.shape = [F, H, W]) (hbu : ∀ a ∈ bu.data, a = -1 ∨ a = 1) =>
    C79_program_partial (κ := κ) env garbage stateId hid hF hok hne hpos hb hs hin hw hloop htree hdiam hsize hbu
  have hmsg : ∀ t ∈ tests, ∃ bu, buMsg threshold masks H W t.1 = .ok bu ∧ bu.WF ∧ bu.shape = [F, H, W] ∧ ∀ a ∈ bu.data, a = -1 ∨ a = 1 := by
    intro t htm
    obtain ⟨k1, k2⟩ := himg t htm
    obtain ⟨bu, b1, b2, b3, b4, -⟩ := C80 ht masks H W t.1 (fun e => by rw [e] at k1; simp at k1; omega) k2 (fun j mask hj _ => hmask mask (List.mem_of_getElem? hj))
    exact ⟨bu, b1, b3, by rw [b2, k1], b4⟩
  obtain ⟨results, preds, acc, hp⟩ := rcnProgram_ok (κ := κ) (env := env) (idV := idV) (idF := idF) (garbage := garbage) (stateId := stateId) (hps := 12) (vps := 12)
    (frcs := frcs.map rcnInts) (edges := edges) (threshold := threshold) (masks := masks) (H := H) (W := W) (n := 30) (d := 1 / 2) (trainLabels := trainLabels)
    (by rw [hlab, List.length_map]) (fun e => hfrcs (List.map_eq_nil_iff.1 e)) (tests := tests) (bu0 := ⟨[F, H, W], List.replicate (F * (H * W)) (-1)⟩) (by
      obtain ⟨maps, scores, best, k, -⟩ := hrun ⟨[F, H, W], List.replicate (F * (H * W)) (-1)⟩ (by rw [NDArr.WF, List.length_replicate]; simp) rfl
        (fun a ha => .inl (List.mem_replicate.1 ha).2)
      exact ⟨maps, scores, best, k⟩) (by
      intro t htm
      obtain ⟨bu, b1, b2, b3, b4⟩ := hmsg t htm
      obtain ⟨maps, scores, best, k, -⟩ := hrun bu b2 b3 b4
      exact ⟨bu, maps, scores, best, b1, k⟩)
  refine ⟨results, preds, acc, hp, fun t img label h => ?_⟩
  obtain ⟨-, -, himages, -⟩ := C81_images hp
  obtain ⟨bu, maps, scores, best, p, g1, g2, g3, g4, g5⟩ := himages t img label h
  obtain ⟨bu', b1, b2, b3, b4⟩ := hmsg _ (List.mem_of_getElem? h)
  obtain rfl : bu' = bu := by
    rw [g1] at b1
    injection b1 with e
    exact e.symm
  obtain ⟨maps', scores', best', k, hex⟩ := hrun bu' b2 b3 b4
  rw [g2] at k
  injection k with e
  injection e with ha e
  injection e with hb hc
  subst ha hb hc
  exact ⟨bu', maps, scores, best, p, g1, g3, g4, g5, hex⟩

/-- Non-vacuity of C81: one network of two features with label 7, three test images of one channel with one bright pixel, a mask of one pixel and the threshold of the program. -/
example (env : Env ℚ) : ∃ results acc, rcnProgram Nat env id Nat.pair (fun _ _ => 0) 1 12 12 ([[(0, 12, 12), (0, 12, 12)]].map rcnInts) [[(0, 1, 0)]] 40 [⟨[1, 1], [true]⟩] 25 25 30 (1 / 2) [7]
      (List.replicate 3 ([100 :: List.replicate 624 0], 7)) = .ok (results, [7, 7, 7], acc) ∧ acc = some 1 := by
  have hac : ∀ es ∈ [[(0, 1, 0)]], (rcnNet es).IsAcyclic := by
    intro es hes
    refine acyclic_of_level id fun x y z hy hz h1 h2 => ?_
    rw [List.mem_singleton.1 hes] at hy hz
    simp only [rcnNet, SimpleGraph.fromRel_adj, List.mem_cons, List.not_mem_nil, or_false, Prod.mk.injEq, exists_and_left, exists_eq, and_true] at hy hz
    simp only [id] at h1 h2
    omega
  obtain ⟨results, preds, acc, k1, k2⟩ := C81_partial (κ := Nat) (F := 1) (H := 25) (W := 25) (frcs := [[(0, 12, 12), (0, 12, 12)]]) (edges := [[(0, 1, 0)]]) (trainLabels := [7])
    (threshold := (40 : ℚ)) (masks := [⟨[1, 1], [true]⟩]) (tests := List.replicate 3 ([100 :: List.replicate 624 0], 7))
    env (idV := id) (idF := Nat.pair) (fun _ _ => 0) 1 (by decide) (fun a b c d => Nat.pair_eq_pair.1) ⟨rfl, by decide, by decide, by decide⟩ (by decide) (by decide)
    (by unfold RcnInside; decide) (.inr (by decide)) (by decide) hac
    (fun es hes i j => le_trans (rcnNet_dist_le es i j) (by revert es; decide)) (by decide) rfl (by norm_num) (by
      intro mask hm
      rw [List.mem_singleton.1 hm]
      exact ⟨1, 1, rfl, 0, by norm_num, 0, by norm_num, rfl⟩) (by
      intro t ht
      rw [(List.mem_replicate.1 ht).2]
      refine ⟨rfl, fun layer hl => ?_⟩
      rw [List.mem_singleton.1 hl, List.length_cons, List.length_replicate])
  have h7 : ∀ t < 3, preds[t]? = some 7 := by
    intro t ht
    obtain ⟨bu, maps, scores, best, p, -, -, k3, k4, -⟩ := k2 t [100 :: List.replicate 624 0] 7 (List.getElem?_replicate_of_lt ht)
    rcases best with _ | best
    · rw [k4, ← k3]
      rfl
    · cases k3
  obtain ⟨-, hlen, -, hacc, -⟩ := C81_images k1
  rw [List.length_replicate] at hlen hacc
  obtain rfl : preds = [7, 7, 7] := by
    refine List.ext_getElem? fun t => ?_
    by_cases ht : t < 3
    · rw [h7 t ht]
      interval_cases t <;> rfl
    · rw [List.getElem?_eq_none (by omega), List.getElem?_eq_none (by simpa using ht)]
  refine ⟨results, acc, k1, (hacc (List.cons_ne_nil _ _)).trans ?_⟩
  rw [show (Finset.range 3).filter (fun t => ([7, 7, 7] : List Nat)[t]? = ((List.replicate 3 (([100 :: List.replicate 624 0], 7) : List (List ℚ) × Nat)).map (·.2))[t]?) = Finset.range 3 from ?_]
  · norm_num
  · refine Finset.filter_true_of_mem fun t ht => ?_
    have := Finset.mem_range.1 ht
    rw [List.map_replicate, h7 t this, List.getElem?_replicate_of_lt this]

end PGMax
