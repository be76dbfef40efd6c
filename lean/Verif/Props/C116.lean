import Verif.Spec.Pytree
import Verif.Model.Batch
import Verif.Lemmas.Wiring
import Verif.Props.C13_C18
import Verif.Lemmas.JitUpdate
import Mathlib.Data.List.GetD

/-!
# C116: taking `BPArrays` and wirings apart and putting them together again changes nothing
-/

namespace PGMax

variable {κ α β : Type _}

theorem arraysFlatten (a : BPArrays α) : a.treeFlatten = .ok ([a.evidence, a.ftovMsgs, a.logPotentials], ["evidence", "ftov_msgs", "log_potentials"]) := by
  simp [BPArrays.treeFlatten, dictFlatten, pySort, insertKey, bind, Except.bind, pure, Except.pure, Except.map]

theorem arraysUnflatten (x y z : List α) : BPArrays.treeUnflatten ["evidence", "ftov_msgs", "log_potentials"] [x, y, z] = .ok ⟨z, y, x⟩ := rfl

theorem enumFlatten (w : EnumWiring) : w.treeFlatten = .ok ([.nums w.edgesNumStates, .pairs w.factorConfigsEdgeStates, .nums w.varStatesForEdges],
    ["edges_num_states", "factor_configs_edge_states", "var_states_for_edges"]) := by
  simp [EnumWiring.treeFlatten, dictFlatten, pySort, insertKey, bind, Except.bind, pure, Except.pure, Except.map]

theorem logicalFlatten (w : LogicalWiring) : w.treeFlatten = .ok ([.nums w.childrenEdgeStates, .int w.edgeStatesOffset, .nums w.edgesNumStates, .pairs w.parentsEdgeStates, .nums w.varStatesForEdges],
    ["children_edge_states", "edge_states_offset", "edges_num_states", "parents_edge_states", "var_states_for_edges"]) := by
  simp [LogicalWiring.treeFlatten, dictFlatten, pySort, insertKey, bind, Except.bind, pure, Except.pure, Except.map]

/-- **C116**, `BPArrays`: a function of the parts is applied to each of the three arrays and every result gets to the field that its argument came from; so without change (`jax.device_put`, or the way into and out of a
compiled function) the object is the same. -/
theorem C116 (f : List α → List β) (a : BPArrays α) :
    a.treeMap f = .ok ⟨f a.logPotentials, f a.ftovMsgs, f a.evidence⟩ := by
  unfold BPArrays.treeMap
  rw [arraysFlatten]
  rfl

theorem C116_same (a : BPArrays α) : a.treeMap id = .ok a := C116 id a

/-- **C116**, wirings of enumeration factors: the parts get to their fields. -/
theorem C116_enum (fn : List Nat → List Nat) (fp : List (Nat × Nat) → List (Nat × Nat)) (f : WPart → WPart)
    (hn : ∀ xs, f (.nums xs) = .nums (fn xs)) (hp : ∀ xs, f (.pairs xs) = .pairs (fp xs)) (w : EnumWiring) :
    w.treeMap f = .ok ⟨fn w.edgesNumStates, fn w.varStatesForEdges, fp w.factorConfigsEdgeStates⟩ := by
  unfold EnumWiring.treeMap
  rw [enumFlatten]
  simp only [bind, Except.bind, List.map_cons, List.map_nil, hn, hp]
  rfl

/-- **C116**, wirings of logical factors: the parts get to their fields; the result is validated again, so it is accepted exactly if it has as many different factor indices as children, all in range, and the offset 1 or -1
(or no children). -/
theorem C116_logical (fn : List Nat → List Nat) (fp : List (Nat × Nat) → List (Nat × Nat)) (fi : Int → Int) (f : WPart → WPart)
    (hn : ∀ xs, f (.nums xs) = .nums (fn xs)) (hp : ∀ xs, f (.pairs xs) = .pairs (fp xs)) (hi : ∀ i, f (.int i) = .int (fi i)) (w : LogicalWiring) :
    let w' : LogicalWiring := ⟨fn w.edgesNumStates, fn w.varStatesForEdges, fp w.parentsEdgeStates, fn w.childrenEdgeStates, fi w.edgeStatesOffset⟩
    (w'.Valid → w.treeMap f = .ok w') ∧ (¬ w'.Valid → w.treeMap f = .error .valueError) := by
  intro w'
  have h : w.treeMap f = w'.validate := by
    unfold LogicalWiring.treeMap
    rw [logicalFlatten]
    simp only [bind, Except.bind, List.map_cons, List.map_nil, hn, hp, hi]
    rfl
  rw [h]
  exact validate_eq w'

theorem concatenate_valid (ws : List LogicalWiring) (w : LogicalWiring) (h : LogicalFactor.concatenateWirings ws = .ok w) : w.Valid := by
  unfold LogicalFactor.concatenateWirings at h
  have key : ∀ v : LogicalWiring, v.validate = .ok w → w.Valid := by
    intro v hv
    by_cases hV : v.Valid
    · rw [(validate_eq v).1 hV] at hv
      cases hv
      exact hV
    · rw [(validate_eq v).2 hV] at hv
      cases hv
  cases ws with
  | nil => exact key _ h
  | cons w0 ws => exact key _ h

/-- **C116**, compiled graphs: every wiring of a graph can be taken apart and put together, and is the same then (`tests/test_pgmax.py:369-374`). -/
theorem C116_wiring (garbage : Garbage) (fg : FactorGraph κ α) (W : Wirings) (h : fg.wiring garbage = .ok W) :
    W.enum.treeMap id = .ok W.enum ∧ W.or.treeMap id = .ok W.or ∧ W.and.treeMap id = .ok W.and := by
  unfold FactorGraph.wiring at h
  simp only [Py.bind_ok] at h
  obtain ⟨e, -, o, -, a, -, we, -, wo, ho, wa, ha, hW⟩ := h
  cases hW
  refine ⟨C116_enum id id id (fun _ => rfl) (fun _ => rfl) _, ?_, ?_⟩
  · exact (C116_logical id id id id (fun _ => rfl) (fun _ => rfl) (fun _ => rfl) wo).1 (concatenate_valid _ _ ho)
  · exact (C116_logical id id id id (fun _ => rfl) (fun _ => rfl) (fun _ => rfl) wa).1 (concatenate_valid _ _ ha)

theorem slice_eq (as : List (BPArrays α)) (i : Nat) (hi : i < as.length) :
    BPArrays.treeUnflatten ["evidence", "ftov_msgs", "log_potentials"]
      [(as.map BPArrays.evidence).getD i [], (as.map BPArrays.ftovMsgs).getD i [], (as.map BPArrays.logPotentials).getD i []] = .ok as[i] := by
  rw [arraysUnflatten]
  simp only [List.getD_eq_getElem _ _ (show i < (as.map BPArrays.evidence).length by simpa using hi), List.getD_eq_getElem _ _ (show i < (as.map BPArrays.ftovMsgs).length by simpa using hi),
    List.getD_eq_getElem _ _ (show i < (as.map BPArrays.logPotentials).length by simpa using hi), List.getElem_map]

theorem vmapArrays_unfold (f : BPArrays α → Py (BPArrays α)) (as : List (BPArrays α)) :
    vmapArrays f ⟨as.map BPArrays.logPotentials, as.map BPArrays.ftovMsgs, as.map BPArrays.evidence⟩ =
      (do
        let results ← (List.range as.length).mapM (fun i => (do
          let a ← BPArrays.treeUnflatten ["evidence", "ftov_msgs", "log_potentials"]
            [(as.map BPArrays.evidence).getD i [], (as.map BPArrays.ftovMsgs).getD i [], (as.map BPArrays.logPotentials).getD i []]
          let r ← f a
          r.treeFlatten : Py (List (List α) × List String)))
        BPArrays.treeUnflatten ["evidence", "ftov_msgs", "log_potentials"]
          [results.map (fun r => r.1.getD 0 []), results.map (fun r => r.1.getD 1 []), results.map (fun r => r.1.getD 2 [])] : Py (BPArrays (List α))) := by
  unfold vmapArrays
  rw [arraysFlatten]
  simp only [bind, Except.bind, List.headD_cons, List.map_cons, List.map_nil, List.length_map, List.any_cons, List.any_nil, ne_eq, not_true_eq_false, decide_false, Bool.or_false, Bool.false_eq_true, if_false]
  rfl

/-- **C116**, batches: `jax.vmap` of a function of `BPArrays` returns the batch of the results for the samples. -/
theorem C116_vmap (f : BPArrays α → Py (BPArrays α)) (g : BPArrays α → BPArrays α) (as : List (BPArrays α)) (b : BPArrays (List α))
    (hb : IsBatchOf as b) (hf : ∀ a ∈ as, f a = .ok (g a)) : ∃ b', vmapArrays f b = .ok b' ∧ IsBatchOf (as.map g) b' := by
  obtain ⟨lp, ft, ev⟩ := b
  obtain ⟨rfl, rfl, rfl⟩ : lp = _ ∧ ft = _ ∧ ev = _ := hb
  refine ⟨⟨(as.map g).map BPArrays.logPotentials, (as.map g).map BPArrays.ftovMsgs, (as.map g).map BPArrays.evidence⟩, ?_, rfl, rfl, rfl⟩
  rw [vmapArrays_unfold, mapM_ok _ (fun i => match as[i]? with
    | some a => ([(g a).evidence, (g a).ftovMsgs, (g a).logPotentials], ["evidence", "ftov_msgs", "log_potentials"])
    | none => ([], []))]
  · have hl : ∀ (k : List (List α) × List String → List α),
        ((List.range as.length).map (fun i => match as[i]? with
          | some a => (([(g a).evidence, (g a).ftovMsgs, (g a).logPotentials], ["evidence", "ftov_msgs", "log_potentials"]) : List (List α) × List String)
          | none => ([], []))).map k = as.map (fun a => k ([(g a).evidence, (g a).ftovMsgs, (g a).logPotentials], ["evidence", "ftov_msgs", "log_potentials"])) := by
      intro k
      apply List.ext_getElem (by simp)
      intro i h1 h2
      have hi : i < as.length := by simpa using h1
      simp [hi]
    simp only [bind, Except.bind, hl, arraysUnflatten, List.map_map]
    rfl
  · intro i hi
    rw [List.mem_range] at hi
    rw [slice_eq as i hi, List.getElem?_eq_getElem hi]
    show (do let r ← f as[i]; r.treeFlatten : Py _) = _
    rw [hf _ (List.getElem_mem hi)]
    exact arraysFlatten _

theorem forall₂_left {γ δ : Type _} {R : γ → δ → Prop} {xs : List γ} {ys : List δ} (h : List.Forall₂ R xs ys) (x : γ) (hx : x ∈ xs) : ∃ y, R x y := by
  induction h with
  | nil => simp at hx
  | cons h1 _ ih =>
    rcases List.mem_cons.1 hx with rfl | hx
    · exact ⟨_, h1⟩
    · exact ih hx

/-- **C116**, batches: if the function raises for a sample, so does its `jax.vmap`. -/
theorem C116_vmap_raises (f : BPArrays α → Py (BPArrays α)) (as : List (BPArrays α)) (b : BPArrays (List α)) (hb : IsBatchOf as b)
    (a : BPArrays α) (ha : a ∈ as) (e : PyErr) (hf : f a = .error e) : ∃ e', vmapArrays f b = .error e' := by
  obtain ⟨lp, ft, ev⟩ := b
  obtain ⟨rfl, rfl, rfl⟩ : lp = _ ∧ ft = _ ∧ ev = _ := hb
  obtain ⟨i, hi, rfl⟩ := List.getElem_of_mem ha
  rw [vmapArrays_unfold]
  cases hr : (List.range as.length).mapM (fun i => (do
          let a ← BPArrays.treeUnflatten ["evidence", "ftov_msgs", "log_potentials"]
            [(as.map BPArrays.evidence).getD i [], (as.map BPArrays.ftovMsgs).getD i [], (as.map BPArrays.logPotentials).getD i []]
          let r ← f a
          r.treeFlatten : Py (List (List α) × List String))) with
  | error e' => exact ⟨e', rfl⟩
  | ok r =>
    exfalso
    obtain ⟨y, hy⟩ := forall₂_left (mapM_ok_inv _ _ _ hr) i (List.mem_range.2 hi)
    rw [slice_eq as i hi] at hy
    change (do let r ← f as[i]; r.treeFlatten : Py _) = _ at hy
    rw [hf] at hy
    cases hy

/-- **C116**, batches: what `jax.vmap` accepts is a batch of `BPArrays`; if the three arrays have different sizes of the batch, it raises. -/
theorem C116_vmap_batch (f : BPArrays α → Py (BPArrays α)) (b b' : BPArrays (List α)) (h : vmapArrays f b = .ok b') : ∃ as, IsBatchOf as b := by
  obtain ⟨lp, ft, ev⟩ := b
  have hlen : ft.length = ev.length ∧ lp.length = ev.length := by
    by_contra hc
    unfold vmapArrays at h
    rw [arraysFlatten] at h
    simp only [bind, Except.bind, List.headD_cons, List.any_cons, List.any_nil, ne_eq, not_true_eq_false, decide_false, Bool.or_false, Bool.false_or] at h
    rw [if_pos (by
      rw [Bool.or_eq_true]
      by_cases h1 : ft.length = ev.length
      · exact .inr (decide_eq_true (fun h2 => hc ⟨h1, h2⟩))
      · exact .inl (decide_eq_true h1))] at h
    cases h
  refine ⟨(List.range ev.length).map (fun i => ⟨lp.getD i [], ft.getD i [], ev.getD i []⟩), ?_, ?_, ?_⟩ <;>
  · apply List.ext_getElem (by simp [hlen])
    intro i h1 h2
    have hi : i < ev.length := by simpa using h2
    simp only [List.getElem_map, List.getElem_range]
    rw [List.getD_eq_getElem _ _ (by omega)]

/-- **C116**, batches: `jax.vmap(bp.run_bp)` runs belief propagation for every sample. -/
theorem C116_run [Field α] [LinearOrder α] (env : Env α) (bp : BPFun κ α) (as : List (BPArrays α)) (b : BPArrays (List α)) (hb : IsBatchOf as b) (n : Nat) (d : α) :
    ∃ b', vmapArrays (fun a => .ok (bp.runBP env a n d)) b = .ok b' ∧ IsBatchOf (bp.vmapRun env as n d) b' :=
  C116_vmap _ (fun a => bp.runBP env a n d) as b hb (fun _ _ => rfl)

/-! ### Examples (tests of the hypotheses, not part of the proofs) -/

example : IsBatchOf [(⟨[1], [2, 3], [4]⟩ : BPArrays ℚ), ⟨[5], [6, 7], [8]⟩] ⟨[[1], [5]], [[2, 3], [6, 7]], [[4], [8]]⟩ := ⟨rfl, rfl, rfl⟩

example : ∃ W, ((FactorGraph.create exVars : FactorGraph Nat ℚ).addHistory [.one (exOr 1 0 1), .one (exOr 2 1 2), .one (exOr 3 0 2)]).wiring 0 = .ok W ∧ W.or.childrenEdgeStates.length = 3 :=
  ⟨_, rfl, rfl⟩

/-- A wiring whose factor indices are shifted is not accepted: no transformation that changes the indices returns. -/
theorem C116_refuted : ∃ (f : WPart → WPart) (w : LogicalWiring), w.Valid ∧ w.treeMap id = .ok w ∧ w.treeMap f = .error .valueError := by
  have hv : (⟨[2, 2], [0, 1, 2, 3], [(0, 0)], [2], 1⟩ : LogicalWiring).Valid := .inr ⟨by decide, by decide, .inl rfl⟩
  refine ⟨fun p => match p with
    | .pairs xs => .pairs (xs.map (fun x => (x.1 + 1, x.2 + 1)))
    | .nums xs => .nums xs
    | .int i => .int i, ⟨[2, 2], [0, 1, 2, 3], [(0, 0)], [2], 1⟩, hv, ?_, ?_⟩
  · exact (C116_logical id id id id (fun _ => rfl) (fun _ => rfl) (fun _ => rfl) _).1 hv
  · refine (C116_logical id (fun xs => xs.map (fun x => (x.1 + 1, x.2 + 1))) id _ (fun _ => rfl) (fun _ => rfl) (fun _ => rfl) _).2 ?_
    rintro (h | ⟨-, h, -⟩)
    · exact absurd h (by decide)
    · exact absurd (h 1 (by decide)) (by decide)

end PGMax
