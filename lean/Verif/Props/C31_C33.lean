import Verif.Lemmas.Step
import Verif.Lemmas.Example3

/-! # C31, C32, C33: normalisation, resuming, and what a run leaves alone -/

namespace PGMax

variable {κ α : Type _} {vgs : List (VGroup κ)} {hist : List (AddArg α)} {garbage : Garbage} {st : FGState κ α}

section
variable [Field α] [LinearOrder α] [IsStrictOrderedRing α]

/-- **C31, partial: any array cut into segments.** For every array and every segmentation into non-empty segments of at most
`maxLen` entries: the result has the same length; every segment is the old one minus one number `M`, clipped at -1000; all
values lie in `[-1000, 0]`; and `M` is the maximum of the segment, so that the new maximum is 0, if the segment has exactly
`maxLen` entries or an entry of at least `-1e5`.
Missing: shorter segments with all entries below `-1e5` (`C31_refuted_floor`), and, if `dynamic_slice` wraps negative start
indices around, arrays of about `1e5` entries or more (`C31_refuted_large`). -/
theorem C31_segments_partial (env : Env α) (msgs : List α) (lens : List Nat) (hs : msgs.length = lens.sum) (maxLen : Nat)
    (hpos : ∀ n ∈ lens, 0 < n) (hmax : ∀ n ∈ lens, n ≤ maxLen) (hw : env.wrapNeg = false ∨ msgs.length + maxLen ≤ 100000) :
    (normalizeAndClip env msgs lens maxLen).length = msgs.length ∧
    ∀ (k n : Nat), lens[k]? = some n → ∃ M : α,
      (∀ j < n, ∃ x y, msgs[(lens.take k).sum + j]? = some x ∧ (normalizeAndClip env msgs lens maxLen)[(lens.take k).sum + j]? = some y ∧
        y = max (x - M) (-1000) ∧ -1000 ≤ y ∧ y ≤ 0) ∧
      ((n = maxLen ∨ ∃ j < n, ∃ x, msgs[(lens.take k).sum + j]? = some x ∧ -100000 ≤ x) →
        IsGreatest {x | ∃ j < n, msgs[(lens.take k).sum + j]? = some x} M ∧
        ∃ j < n, (normalizeAndClip env msgs lens maxLen)[(lens.take k).sum + j]? = some 0) := by
  refine ⟨normalizeAndClip_length env msgs lens hs maxLen, ?_⟩
  intro k n hk
  have hn := hpos n (List.mem_of_getElem? hk)
  have hnm := hmax n (List.mem_of_getElem? hk)
  have hle := take_sum_le lens k n hk
  obtain ⟨h1, h2, h3⟩ := segMaxAt_spec env.oob msgs (lens.take k).sum n maxLen hn hnm
  have hat := fun j hj => normalizeAndClip_at env msgs lens hs maxLen hmax hw k n j hk hj
  have hx : ∀ j < n, msgs[(lens.take k).sum + j]? = some (msgs.getD ((lens.take k).sum + j) 0) := by
    intro j hj
    rw [List.getElem?_eq_getElem (by omega), getD_of_some (List.getElem?_eq_getElem (by omega))]
  refine ⟨segMaxAt env.oob msgs (lens.take k).sum n maxLen, ?_, ?_⟩
  · intro j hj
    refine ⟨_, _, hx j hj, hat j hj, rfl, le_max_right _ _, max_le ?_ (by norm_num)⟩
    linarith [h1 j hj]
  · intro hyp
    have hatt : ∃ j < n, segMaxAt env.oob msgs (lens.take k).sum n maxLen = msgs.getD ((lens.take k).sum + j) 0 := by
      rcases h2 with h2 | ⟨h2, h4, h5⟩
      · exact h2
      · rcases hyp with rfl | ⟨j, hj, x, hxj, hge⟩
        · omega
        · rw [hx j hj] at hxj
          cases hxj
          exact ⟨j, hj, h4 ▸ le_antisymm hge (h5 j hj)⟩
    obtain ⟨j, hj, he⟩ := hatt
    refine ⟨⟨⟨j, hj, by rw [hx j hj, he]⟩, ?_⟩, j, hj, ?_⟩
    · rintro x ⟨j', hj', hxj⟩
      rw [hx j' hj'] at hxj
      cases hxj
      exact h1 j' hj'
    · rw [hat j hj, he, sub_self, max_eq_left (by norm_num)]

/-- A message array of a compiled graph, after normalisation. -/
theorem Compiled.norm_range (h : Compiled vgs hist garbage st) {state : BPState α} {T : α} {bp : BPFun κ α}
    (hbp : BP.create st state T = .ok bp) (env : Env α) (hseg : SegFits env (graphOf vgs hist)) (msgs : List α) (hm : msgs.length = st.totalFactorNumStates)
    {f i : Nat} {v : Var} (he : IsEdge (graphOf vgs hist).allScopes f i v) :
    (∀ s < v.n, -1000 ≤ readMsgs (graphOf vgs hist).allScopes (normalizeAndClip env msgs bp.edgesNumStates bp.maxMsgSize) f i s ∧
      readMsgs (graphOf vgs hist).allScopes (normalizeAndClip env msgs bp.edgesNumStates bp.maxMsgSize) f i s ≤ 0) ∧
    (v.n = bp.maxMsgSize → ∃ s < v.n, readMsgs (graphOf vgs hist).allScopes (normalizeAndClip env msgs bp.edgesNumStates bp.maxMsgSize) f i s = 0) := by
  have hr := h.norm_read hbp env hseg msgs hm
  obtain ⟨h1, h2, -⟩ := segM_spec (readMsgs (graphOf vgs hist).allScopes msgs f i) v.n bp.maxMsgSize (h.edge_pos he) ((h.maxMsgSize hbp).1 f i v he)
  constructor
  · intro s hs
    rw [hr f i v s he hs, normM_at he]
    exact ⟨le_max_right _ _, max_le (by linarith [h1 s hs]) (by norm_num)⟩
  · intro hn
    rcases h2 with ⟨s, hs, h2⟩ | ⟨h2, -⟩
    · refine ⟨s, hs, ?_⟩
      rw [hr f i v s he hs, normM_at he, h2, sub_self, max_eq_left (by norm_num)]
    · omega

omit [IsStrictOrderedRing α] in
/-- The messages after a run were normalised last. -/
theorem Compiled.run_norm (h : Compiled vgs hist garbage st) {state : BPState α} {T : α} {bp : BPFun κ α}
    (hbp : BP.create st state T = .ok bp) (env : Env α) (a : BPArrays α) (d : α) (n : Nat)
    (hlp : a.logPotentials.length = st.logPotentials.length) (hm : a.ftovMsgs.length = st.totalFactorNumStates) :
    ∃ ms : List α, ms.length = st.totalFactorNumStates ∧
      (bp.runBP env a n d).ftovMsgs = normalizeAndClip env ms bp.edgesNumStates bp.maxMsgSize := by
  unfold BPFun.runBP
  simp only
  have key : ∀ (n : Nat) (x : List α), x.length = st.totalFactorNumStates →
      (∃ ms : List α, ms.length = st.totalFactorNumStates ∧ x = normalizeAndClip env ms bp.edgesNumStates bp.maxMsgSize) →
      ∃ ms : List α, ms.length = st.totalFactorNumStates ∧
        BPFun.iterate (bp.step env a.logPotentials a.evidence d) n x = normalizeAndClip env ms bp.edgesNumStates bp.maxMsgSize := by
    intro n
    induction n with
    | zero => intro x _ hx; exact hx
    | succ n ih =>
      intro x hx _
      obtain ⟨ms, h1, h2, h3, -⟩ := h.step_eq hbp env a.logPotentials a.evidence x d hlp hx
      exact ih _ h3 ⟨ms, h1, h2⟩
  exact key n _ (h.normalize_length hbp env _ hm) ⟨_, hm, rfl⟩

/-- **C31, partial: after a run.** After any number of iterations, at any temperature and damping, all values of all messages
lie in `[-1000, 0]`; and every message to a variable with the most states of all variables in factors has maximum exactly 0
(so every message, if all these variables have equally many states).
Missing: messages to variables with fewer states have a maximum below 0 if they were below `-1e5` before normalisation
(`C31_refuted_run`). -/
theorem C31_run_partial (h : Compiled vgs hist garbage st) {state : BPState α} {T : α} {bp : BPFun κ α}
    (hbp : BP.create st state T = .ok bp) (env : Env α) (hseg : SegFits env (graphOf vgs hist)) (a : BPArrays α) (d : α) (n : Nat)
    (hlp : a.logPotentials.length = st.logPotentials.length) (hm : a.ftovMsgs.length = st.totalFactorNumStates)
    (f i : Nat) (v : Var) (he : IsEdge (graphOf vgs hist).allScopes f i v) :
    (∀ s < v.n, -1000 ≤ readMsgs (graphOf vgs hist).allScopes (bp.runBP env a n d).ftovMsgs f i s ∧
      readMsgs (graphOf vgs hist).allScopes (bp.runBP env a n d).ftovMsgs f i s ≤ 0) ∧
    ((∀ f' i' v', IsEdge (graphOf vgs hist).allScopes f' i' v' → v'.n ≤ v.n) →
      ∃ s < v.n, readMsgs (graphOf vgs hist).allScopes (bp.runBP env a n d).ftovMsgs f i s = 0) := by
  obtain ⟨ms, h1, h2⟩ := h.run_norm hbp env a d n hlp hm
  rw [h2]
  obtain ⟨r1, r2⟩ := h.norm_range hbp env hseg ms h1 he
  refine ⟨r1, fun hall => r2 ?_⟩
  obtain ⟨hmax, f', i', v', he', hv'⟩ := h.maxMsgSize hbp
  exact le_antisymm (hmax f i v he) (hv' ▸ hall f' i' v' he')

end

/-- **C31 does not hold in general.** A 1-state message of `-2e5` next to a 2-state message: it becomes -1000, not 0. -/
theorem C31_refuted_floor : normalizeAndClip exEnv [-200000, 0, 0] [1, 2] 2 = [-1000, 0, 0] := by
  decide +kernel

/-- **C31 does not hold in general.** If negative start indices of `dynamic_slice` are wrapped around, as in JAX 0.3.13, an
array of `N ≥ 100000` other messages makes the maximum of the first message be read from somewhere else: 5 stays 5. -/
theorem C31_refuted_large [Field α] [LinearOrder α] [IsStrictOrderedRing α] (env : Env α) (hw : env.wrapNeg = true) (N : Nat) (hN : 100000 ≤ N) :
    (normalizeAndClip env (5 :: List.replicate N 0) (List.replicate (N + 1) 1) 1)[0]? = some 5 := by
  have hseg : (segmentMaxOpt env (5 :: List.replicate N (0 : α)) (List.replicate (N + 1) 1) 1)[0]? = some 0 := by
    unfold segmentMaxOpt
    rw [zip_at _ (segStartIndices_at _ 0 (by rw [List.length_replicate]; omega)) (show (List.replicate (N + 1) 1)[0]? = some 1 by simp)]
    rw [if_pos rfl]
    unfold dynamicSlice
    have hl : ((5 : α) :: List.replicate N 0 ++ List.replicate 1 0).length = N + 2 := by simp
    simp only [hw, Bool.true_and, hl]
    rw [show decide ((-100000 : Int) < 0) = true from rfl, if_pos rfl]
    obtain ⟨p, hp, hst⟩ : ∃ p, p ≤ N ∧ (max 0 (min ((-100000 : Int) + ((N + 2 : Nat) : Int)) (((N + 2 : Nat) : Int) - ((1 : Nat) : Int)))).toNat = p + 1 :=
      ⟨N - 99999, by omega, by omega⟩
    rw [hst]
    have hat : ((5 : α) :: List.replicate N 0 ++ List.replicate 1 0)[p + 1 + 0]? = some 0 := by
      rw [Nat.add_zero, List.cons_append, List.getElem?_cons_succ, List.replicate_append_replicate, List.getElem?_replicate, if_pos (by omega)]
    have hsl : (slice ((5 : α) :: List.replicate N 0 ++ List.replicate 1 0) (p + 1) (p + 1 + 1))[0]? = some 0 := by
      rw [slice_getElem?, if_pos (by omega), hat]
    rw [show List.range 1 = [0] from rfl]
    simp only [List.map_cons, List.map_nil, listMax, List.foldl_nil, Nat.lt_one_iff, if_true]
    rw [List.getD, hsl]; rfl
  have hrep : (repeatTo env.oob (segmentMaxOpt env (5 :: List.replicate N (0 : α)) (List.replicate (N + 1) 1) 1) (List.replicate (N + 1) 1)
      (5 :: List.replicate N (0 : α)).length)[0]? = some 0 := by
    have := repeatTo_at env.oob _ (List.replicate (N + 1) 1) 0 1 0 0 (by simp) hseg (segmentMaxOpt_length _ _ _ _) (by omega)
    have e : (5 :: List.replicate N (0 : α)).length = (List.replicate (N + 1) 1).sum := by simp
    rw [e]
    exact this
  unfold normalizeAndClip
  refine (map_at (fun x => max x (-1000)) (zip_at _ (show (5 :: List.replicate N (0 : α))[0]? = some 5 from rfl) hrep)).trans ?_
  simp only [sub_zero]
  rw [max_eq_left (by norm_num)]

/-- **C31 does not hold in general for runs.** The 2-state message of the graph `exHist3` with evidence `3e5` on its 2-state
variable and `-5e5` on its 3-state variable, after one iteration. -/
theorem C31_refuted_run :
    (exBP3.runBP exEnv ⟨[0, 0, 0], [0, 0, 0, 0, 0], [300000, 300000, -500000, -500000, -500000]⟩ 1 0).ftovMsgs = [-1000, -1000, 0, 0, 0] := by
  decide +kernel

/-- Non-vacuity of C31: two segments of 2 and 3 entries. -/
example : normalizeAndClip exEnv [3, 5, -2000, 1, 0] [2, 3] 3 = [-2, 0, -1000, 0, -1] ∧ ([3, 5, -2000, 1, 0] : List ℚ).length = [2, 3].sum ∧
    (∀ n ∈ [2, 3], 0 < n) ∧ (∀ n ∈ [2, 3], n ≤ 3) ∧ exEnv.wrapNeg = false := by
  exact ⟨by decide +kernel, by rfl, by decide, by decide, rfl⟩

/-! ## C32 -/

section
variable [Field α] [LinearOrder α] [IsStrictOrderedRing α]

omit [Field α] [LinearOrder α] [IsStrictOrderedRing α] in
theorem iterate_add (g : List α → List α) (n m : Nat) (x : List α) : BPFun.iterate g m (BPFun.iterate g n x) = BPFun.iterate g (n + m) x := by
  induction n generalizing x with
  | zero => rw [Nat.zero_add]; rfl
  | succ n ih => rw [Nat.succ_add]; exact ih (g x)

/-- Normalisation leaves a message array alone exactly if it is normalised. -/
theorem Compiled.norm_fix_iff (h : Compiled vgs hist garbage st) {state : BPState α} {T : α} {bp : BPFun κ α}
    (hbp : BP.create st state T = .ok bp) (env : Env α) (hseg : SegFits env (graphOf vgs hist)) (msgs : List α) (hm : msgs.length = st.totalFactorNumStates)
    (hr : ∀ f i v, IsEdge (graphOf vgs hist).allScopes f i v → ∀ s < v.n, -1000 ≤ readMsgs (graphOf vgs hist).allScopes msgs f i s) :
    normalizeAndClip env msgs bp.edgesNumStates bp.maxMsgSize = msgs ↔ Normalised (graphOf vgs hist).allScopes (readMsgs (graphOf vgs hist).allScopes msgs) := by
  have hread := h.norm_read hbp env hseg msgs hm
  constructor
  · intro heq f i v he
    rw [heq] at hread
    obtain ⟨h1, h2, -⟩ := segM_spec (readMsgs (graphOf vgs hist).allScopes msgs f i) v.n bp.maxMsgSize (h.edge_pos he) ((h.maxMsgSize hbp).1 f i v he)
    have hle : ∀ s < v.n, readMsgs (graphOf vgs hist).allScopes msgs f i s ≤ 0 := by
      intro s hs
      rw [hread f i v s he hs, normM_at he]
      exact max_le (by linarith [h1 s hs]) (by norm_num)
    refine ⟨fun s hs => ⟨hr f i v he s hs, hle s hs⟩, ?_⟩
    rcases h2 with ⟨s, hs, h2⟩ | ⟨-, h2, h3⟩
    · refine ⟨s, hs, ?_⟩
      rw [hread f i v s he hs, normM_at he, h2, sub_self, max_eq_left (by norm_num)]
    · exfalso
      have := hr f i v he 0 (h.edge_pos he)
      have := h3 0 (h.edge_pos he)
      unfold NEG_INF at this
      linarith
  · intro hn
    refine eq_of_read ((h.normalize_length hbp env _ hm).trans h.totalStates) (hm.trans h.totalStates) ?_
    refine hread.trans ?_
    intro f i v s he hs
    obtain ⟨h1, s0, hs0, h0⟩ := hn f i v he
    have hM : segM (readMsgs (graphOf vgs hist).allScopes msgs f i) v.n bp.maxMsgSize = 0 := by
      obtain ⟨g1, g2, g3⟩ := segM_spec (readMsgs (graphOf vgs hist).allScopes msgs f i) v.n bp.maxMsgSize (h.edge_pos he) ((h.maxMsgSize hbp).1 f i v he)
      apply le_antisymm
      · rcases g2 with ⟨s1, hs1, g2⟩ | ⟨-, g2, g3⟩
        · rw [g2]; exact (h1 s1 hs1).2
        · rw [g2]; norm_num [NEG_INF]
      · rw [← h0]; exact g1 s0 hs0
    rw [normM_at he, hM, sub_zero, max_eq_left (h1 s hs).1]

/-- **C32, partial.** Whenever the messages after the first `n` iterations are normalised (every message has maximum 0),
running `n` iterations and then `m` gives the same arrays as running `n + m`, at any temperature and damping.
Missing: runs that end with a message of maximum below 0 (`C32_refuted`); by `C32_iff` they cannot be resumed. -/
theorem C32_partial (h : Compiled vgs hist garbage st) {state : BPState α} {T : α} {bp : BPFun κ α}
    (hbp : BP.create st state T = .ok bp) (env : Env α) (hseg : SegFits env (graphOf vgs hist)) (a : BPArrays α) (d : α) (n m : Nat)
    (hlp : a.logPotentials.length = st.logPotentials.length) (hm : a.ftovMsgs.length = st.totalFactorNumStates)
    (hnorm : Normalised (graphOf vgs hist).allScopes (readMsgs (graphOf vgs hist).allScopes (bp.runBP env a n d).ftovMsgs)) :
    bp.runBP env (bp.runBP env a n d) m d = bp.runBP env a (n + m) d := by
  obtain ⟨ms, h1, h2⟩ := h.run_norm hbp env a d n hlp hm
  have hl : (bp.runBP env a n d).ftovMsgs.length = st.totalFactorNumStates := by rw [h2]; exact h.normalize_length hbp env ms h1
  have hfix := (h.norm_fix_iff hbp env hseg _ hl (fun f i v he s hs => ((hnorm f i v he).1 s hs).1)).2 hnorm
  have e : ∀ (b : BPArrays α), bp.runBP env b m d = ⟨b.logPotentials, BPFun.iterate (bp.step env b.logPotentials b.evidence d) m
    (normalizeAndClip env b.ftovMsgs bp.edgesNumStates bp.maxMsgSize), b.evidence⟩ := fun _ => rfl
  rw [e, hfix]
  unfold BPFun.runBP
  simp only
  rw [iterate_add]

/-- **C32 for graphs whose factors only contain variables with equally many states**: no condition on the messages. -/
theorem C32_uniform (h : Compiled vgs hist garbage st) {state : BPState α} {T : α} {bp : BPFun κ α}
    (hbp : BP.create st state T = .ok bp) (env : Env α) (hseg : SegFits env (graphOf vgs hist)) (a : BPArrays α) (d : α) (n m : Nat)
    (hlp : a.logPotentials.length = st.logPotentials.length) (hm : a.ftovMsgs.length = st.totalFactorNumStates)
    (k : Nat) (hk : ∀ f i v, IsEdge (graphOf vgs hist).allScopes f i v → v.n = k) :
    bp.runBP env (bp.runBP env a n d) m d = bp.runBP env a (n + m) d := by
  refine C32_partial h hbp env hseg a d n m hlp hm ?_
  intro f i v he
  obtain ⟨r1, r2⟩ := C31_run_partial h hbp env hseg a d n hlp hm f i v he
  exact ⟨r1, r2 (fun f' i' v' he' => by rw [hk f i v he, hk f' i' v' he'])⟩

/-- **C32, when exactly.** A run can be resumed (for 0 more iterations) exactly if its messages are normalised. -/
theorem C32_iff (h : Compiled vgs hist garbage st) {state : BPState α} {T : α} {bp : BPFun κ α}
    (hbp : BP.create st state T = .ok bp) (env : Env α) (hseg : SegFits env (graphOf vgs hist)) (a : BPArrays α) (d : α) (n : Nat)
    (hlp : a.logPotentials.length = st.logPotentials.length) (hm : a.ftovMsgs.length = st.totalFactorNumStates) :
    bp.runBP env (bp.runBP env a n d) 0 d = bp.runBP env a n d ↔
      Normalised (graphOf vgs hist).allScopes (readMsgs (graphOf vgs hist).allScopes (bp.runBP env a n d).ftovMsgs) := by
  constructor
  · intro heq
    obtain ⟨ms, h1, h2⟩ := h.run_norm hbp env a d n hlp hm
    have hl : (bp.runBP env a n d).ftovMsgs.length = st.totalFactorNumStates := by rw [h2]; exact h.normalize_length hbp env ms h1
    refine (h.norm_fix_iff hbp env hseg _ hl (fun f i v he s hs => ((C31_run_partial h hbp env hseg a d n hlp hm f i v he).1 s hs).1)).1 ?_
    exact congrArg BPArrays.ftovMsgs heq
  · intro hn
    exact C32_partial h hbp env hseg a d n 0 hlp hm hn

/-- **C32 does not hold in general.** For the run of `C31_refuted_run`, resuming for 0 iterations changes the messages. -/
theorem C32_refuted :
    (exBP3.runBP exEnv (exBP3.runBP exEnv ⟨[0, 0, 0], [0, 0, 0, 0, 0], [300000, 300000, -500000, -500000, -500000]⟩ 1 0) 0 0).ftovMsgs
      ≠ (exBP3.runBP exEnv ⟨[0, 0, 0], [0, 0, 0, 0, 0], [300000, 300000, -500000, -500000, -500000]⟩ (1 + 0) 0).ftovMsgs := by
  decide +kernel

/-- Non-vacuity of C31 (run), C32 and C33: the mixed graph with moderate arrays ends normalised after one iteration, and the
messages are not all 0; the binary graph `exHist` meets the condition of `C32_uniform`. -/
example : SegFits exEnv (graphOf exVars3 exHist3) ∧ SegFits ⟨id, id, (0 : ℚ), true⟩ (graphOf exVars3 exHist3) ∧
    (exBP3.runBP exEnv ⟨[1, 2, 3], [0, 0, 0, 0, 0], [0, 5, 1, 0, 0]⟩ 1 0).ftovMsgs = [-1, 0, -7, 0, -6] ∧
    Normalised (graphOf exVars3 exHist3).allScopes (readMsgs (graphOf exVars3 exHist3).allScopes
      (exBP3.runBP exEnv ⟨[1, 2, 3], [0, 0, 0, 0, 0], [0, 5, 1, 0, 0]⟩ 1 0).ftovMsgs) ∧
    ∀ f i v, IsEdge (graphOf exVars exHist).allScopes f i v → v.n = 2 := by
  have e3 : (graphOf exVars3 exHist3).allScopes = [[⟨1000000000, 2⟩, ⟨1000000001, 3⟩]] := rfl
  have hr : (exBP3.runBP exEnv ⟨[1, 2, 3], [0, 0, 0, 0, 0], [0, 5, 1, 0, 0]⟩ 1 0).ftovMsgs = [-1, 0, -7, 0, -6] := by decide +kernel
  have hedge : ∀ f i v, IsEdge (graphOf exVars3 exHist3).allScopes f i v → (f = 0 ∧ i = 0 ∧ v = ⟨1000000000, 2⟩) ∨ (f = 0 ∧ i = 1 ∧ v = ⟨1000000001, 3⟩) := by
    rintro f i v ⟨vs, h1, h2⟩
    rw [e3] at h1
    match f, h1 with
    | 0, h1 =>
      cases h1
      match i, h2 with
      | 0, h2 => cases h2; simp
      | 1, h2 => cases h2; simp
  refine ⟨.inl rfl, .inr ?_, hr, ?_, ?_⟩
  · intro f i v he
    rcases hedge f i v he with ⟨-, -, rfl⟩ | ⟨-, -, rfl⟩ <;> decide
  · rw [hr, e3]
    rw [e3] at hedge
    intro f i v he
    rcases hedge f i v he with ⟨rfl, rfl, rfl⟩ | ⟨rfl, rfl, rfl⟩
    · exact ⟨by decide +kernel, 1, by decide, by decide +kernel⟩
    · exact ⟨by decide +kernel, 1, by decide, by decide +kernel⟩
  · rintro f i v ⟨vs, h1, h2⟩
    have e : ∀ vs ∈ (graphOf exVars exHist).allScopes, ∀ v ∈ vs, v.n = 2 := by decide
    exact e vs (List.mem_of_getElem? h1) v (List.mem_of_getElem? h2)

/-! ## C33 -/

/-- **C33.** `run_bp` returns the log potentials and the evidence it was given and a message array of the same length, for
every number of iterations, damping and temperature.  With damping 1 the messages are only normalised (once more in every
iteration), and only once if the first normalisation yields maximum 0 for every message. -/
theorem C33 (h : Compiled vgs hist garbage st) {state : BPState α} {T : α} {bp : BPFun κ α}
    (hbp : BP.create st state T = .ok bp) (env : Env α) (a : BPArrays α) (d : α) (n : Nat)
    (hlp : a.logPotentials.length = st.logPotentials.length) (hm : a.ftovMsgs.length = st.totalFactorNumStates) :
    (bp.runBP env a n d).logPotentials = a.logPotentials ∧ (bp.runBP env a n d).evidence = a.evidence ∧
    (bp.runBP env a n d).ftovMsgs.length = a.ftovMsgs.length ∧
    (d = 1 → (bp.runBP env a n d).ftovMsgs =
      BPFun.iterate (fun ms => normalizeAndClip env ms bp.edgesNumStates bp.maxMsgSize) (n + 1) a.ftovMsgs) ∧
    (d = 1 → SegFits env (graphOf vgs hist) → Normalised (graphOf vgs hist).allScopes (readMsgs (graphOf vgs hist).allScopes
        (normalizeAndClip env a.ftovMsgs bp.edgesNumStates bp.maxMsgSize)) →
      (bp.runBP env a n d).ftovMsgs = normalizeAndClip env a.ftovMsgs bp.edgesNumStates bp.maxMsgSize) := by
  have h4 : d = 1 → (bp.runBP env a n d).ftovMsgs =
      BPFun.iterate (fun ms => normalizeAndClip env ms bp.edgesNumStates bp.maxMsgSize) (n + 1) a.ftovMsgs := by
    intro hd
    have key : ∀ (n : Nat) (x : List α), x.length = st.totalFactorNumStates →
        BPFun.iterate (bp.step env a.logPotentials a.evidence d) n x = BPFun.iterate (fun ms => normalizeAndClip env ms bp.edgesNumStates bp.maxMsgSize) n x := by
      intro n
      induction n with
      | zero => intro x _; rfl
      | succ n ih =>
        intro x hx
        obtain ⟨ms, -, h2, h3, h4⟩ := h.step_eq hbp env a.logPotentials a.evidence x d hlp hx
        rw [h4 hd] at h2
        show BPFun.iterate _ n _ = BPFun.iterate _ n _
        rw [ih _ h3, h2]
    exact key n _ (h.normalize_length hbp env _ hm)
  refine ⟨rfl, rfl, ?_, h4, ?_⟩
  · obtain ⟨ms, h1, h2⟩ := h.run_norm hbp env a d n hlp hm
    rw [h2, hm]
    exact h.normalize_length hbp env ms h1
  · intro hd hseg hn
    rw [h4 hd]
    have hl := h.normalize_length hbp env _ hm
    have hfix := (h.norm_fix_iff hbp env hseg _ hl (fun f i v he s hs => ((hn f i v he).1 s hs).1)).2 hn
    show BPFun.iterate _ n (normalizeAndClip env a.ftovMsgs bp.edgesNumStates bp.maxMsgSize) = _
    generalize normalizeAndClip env a.ftovMsgs bp.edgesNumStates bp.maxMsgSize = x at hfix
    clear h4 hn hl
    induction n with
    | zero => rfl
    | succ n ih =>
      show BPFun.iterate _ n (normalizeAndClip env x bp.edgesNumStates bp.maxMsgSize) = _
      rw [hfix]
      exact ih

end

end PGMax
