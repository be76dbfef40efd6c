import Verif.Lemmas.Step
import Verif.Lemmas.Example3

/-! # C43: BP states and arrays -/

namespace PGMax

variable {κ α : Type _} {vgs : List (VGroup κ)} {hist : List (AddArg α)} {garbage : Garbage} {st : FGState κ α}

/-- Arrays of the sizes of a compiled graph. -/
structure BPArrays.Fit (st : FGState κ α) (a : BPArrays α) : Prop where
  pots : a.logPotentials.length = st.logPotentials.length
  msgs : a.ftovMsgs.length = st.totalFactorNumStates
  ev : a.evidence.length = st.numVarStates

section
variable [Field α] [LinearOrder α]

/-- **C43 (1).** `bp.init()` returns the arrays of the BP state `BP` was called with. -/
theorem C43_init [DecidableEq κ] {state : BPState α} {T : α} {bp : BPFun κ α} (hbp : BP.create st state T = .ok bp) :
    bp.update none none none none = .ok ⟨state.logPotentials.value, state.ftovMsgs.value, state.evidence.value⟩ := by
  obtain ⟨-, e2, -⟩ := BP_create_ok hbp
  unfold BPFun.update
  simp only [e2, bind, Except.bind, pure, Except.pure]

/-- **C43 (2).** `to_bp_state` accepts exactly the arrays of the right sizes, its parts all belong to the same graph state and have
the given arrays as values; `init()` of `BP` on the result returns the arrays.  All other arrays raise ValueError. -/
theorem C43_to_bp_state [DecidableEq κ] {state : BPState α} {T : α} {bp : BPFun κ α} (hbp : BP.create st state T = .ok bp) (stateId : Nat) (a : BPArrays α) :
    (BPArrays.Fit st a → ∃ s, bp.toBPState stateId a = .ok s ∧ s = ⟨⟨stateId, a.logPotentials⟩, ⟨stateId, a.ftovMsgs⟩, ⟨stateId, a.evidence⟩⟩ ∧
      ∃ bp', BP.create st s T = .ok bp' ∧ bp'.update none none none none = .ok a) ∧
    (¬ BPArrays.Fit st a → bp.toBPState stateId a = .error .valueError) := by
  obtain ⟨e1, -⟩ := BP_create_ok hbp
  unfold BPFun.toBPState LogPotentials.create FToVMessages.create Evidence.create BPState.create
  simp only [e1, List.cons.injEq, and_true]
  constructor
  · rintro ⟨h1, h2, h3⟩
    refine ⟨⟨⟨stateId, a.logPotentials⟩, ⟨stateId, a.ftovMsgs⟩, ⟨stateId, a.evidence⟩⟩, ?_, rfl, ?_⟩
    · simp [h1, h2, h3, bind, Except.bind]
    · unfold BP.create at hbp ⊢
      simp only [bind, Except.bind] at hbp ⊢
      cases hm : npMax (FType.all.flatMap st.wiring.edgesNumStates) with
      | error e => rw [hm] at hbp; cases hbp
      | ok m => exact ⟨_, rfl, by simp [BPFun.update, bind, Except.bind, pure, Except.pure]⟩
  · intro hn
    by_cases h1 : a.logPotentials.length = st.logPotentials.length
    · by_cases h2 : a.ftovMsgs.length = st.totalFactorNumStates
      · have h3 : ¬ a.evidence.length = st.numVarStates := fun h3 => hn ⟨h1, h2, h3⟩
        simp [h1, h2, h3, bind, Except.bind]
      · simp [h1, h2, bind, Except.bind]
    · simp [h1, bind, Except.bind]

/-- A part of a BP state made from an array (`make`) accepts exactly one-dimensional arrays of size `size`, with the array as value;
everything else raises ValueError. -/
def AcceptsOnly (stateId : Nat) (make : NDArr α → Py (Part α)) (size : Nat) : Prop :=
  ∀ v : NDArr α, v.WF → ((v.shape.length = 1 ∧ v.data.length = size) → make v = .ok ⟨stateId, v.data⟩) ∧
    (¬ (v.shape.length = 1 ∧ v.data.length = size) → make v = .error .valueError)

omit [Field α] [LinearOrder α] in
theorem acceptsOnly_of (stateId size : Nat) : AcceptsOnly stateId (fun v : NDArr α => if v.shape = [size] then .ok ⟨stateId, v.data⟩ else .error .valueError) size := by
  intro v hv
  have key : v.shape = [size] ↔ v.shape.length = 1 ∧ v.data.length = size := by
    unfold NDArr.WF at hv
    constructor
    · intro h; rw [h] at hv ⊢; simpa using hv
    · rintro ⟨h1, h2⟩
      obtain ⟨n, hn⟩ := List.length_eq_one_iff.1 h1
      rw [hn] at hv ⊢
      simp at hv
      rw [← h2, hv]
  exact ⟨fun h => if_pos (key.2 h), fun h => if_neg (fun h' => h (key.1 h'))⟩

omit [LinearOrder α] in
/-- **C43 (3).** Log potentials, messages and evidence given as arrays of any shape are accepted exactly if they are one-dimensional
of the size of the graph; everything else raises ValueError. -/
theorem C43_parts (stateId : Nat) :
    AcceptsOnly stateId (fun v : NDArr α => LogPotentials.create stateId st (some v)) st.logPotentials.length ∧
    AcceptsOnly stateId (fun v : NDArr α => FToVMessages.create stateId st (some v)) st.totalFactorNumStates ∧
    AcceptsOnly stateId (fun v : NDArr α => Evidence.create stateId st (some v)) st.numVarStates :=
  ⟨acceptsOnly_of _ _, acceptsOnly_of _ _, acceptsOnly_of _ _⟩

omit [Field α] [LinearOrder α] in
/-- **C43 (4).** Parts are combined to a BP state exactly if they belong to the same graph state; else ValueError. -/
theorem C43_same_graph (lp ft ev : Part α) :
    ((lp.stateId = ft.stateId ∧ ft.stateId = ev.stateId) → BPState.create lp ft ev = .ok ⟨lp, ft, ev⟩) ∧
    (¬ (lp.stateId = ft.stateId ∧ ft.stateId = ev.stateId) → BPState.create lp ft ev = .error .valueError) := by
  unfold BPState.create
  constructor
  · rintro ⟨h1, h2⟩; rw [if_neg (by simp [h1, h2])]
  · intro h
    rw [if_pos]
    by_cases h1 : lp.stateId = ft.stateId
    · exact .inr (fun h2 => h ⟨h1, h2⟩)
    · exact .inl h1

/-- **C43 (5).** The BP state of a graph fits it, and the arrays after any run still do: `to_bp_state(run_bp(...))` always succeeds and
describes the arrays of the run. -/
theorem C43_run (h : Compiled vgs hist garbage st) {state : BPState α} {T : α} {bp : BPFun κ α} (hbp : BP.create st state T = .ok bp)
    (env : Env α) (a : BPArrays α) (ha : BPArrays.Fit st a) (n : Nat) (d : α) (stateId : Nat) :
    (∃ s, bpStateOf stateId st = .ok s ∧ BPArrays.Fit st ⟨s.logPotentials.value, s.ftovMsgs.value, s.evidence.value⟩ ∧
      (∀ x ∈ s.ftovMsgs.value, x = 0) ∧ ∀ x ∈ s.evidence.value, x = 0) ∧
    BPArrays.Fit st (bp.runBP env a n d) ∧
    bp.toBPState stateId (bp.runBP env a n d) = .ok ⟨⟨stateId, a.logPotentials⟩, ⟨stateId, (bp.runBP env a n d).ftovMsgs⟩, ⟨stateId, a.evidence⟩⟩ := by
  have hiter : ∀ (n : Nat) (msgs : List α), msgs.length = st.totalFactorNumStates →
      (BPFun.iterate (bp.step env a.logPotentials a.evidence d) n msgs).length = st.totalFactorNumStates := by
    intro n
    induction n with
    | zero => exact fun _ h => h
    | succ n ih =>
      intro msgs hm
      obtain ⟨-, -, -, hl, -⟩ := h.step_eq hbp env a.logPotentials a.evidence msgs d ha.pots hm
      exact ih _ hl
  have hfit : BPArrays.Fit st (bp.runBP env a n d) := ⟨ha.pots, hiter n _ (h.normalize_length hbp env _ ha.msgs), ha.ev⟩
  have hdef : bpStateOf stateId st = .ok ⟨⟨stateId, st.logPotentials⟩, ⟨stateId, List.replicate st.totalFactorNumStates 0⟩,
      ⟨stateId, List.replicate st.numVarStates 0⟩⟩ := by
    simp [bpStateOf, LogPotentials.create, FToVMessages.create, Evidence.create, BPState.create, bind, Except.bind]
  refine ⟨⟨_, hdef, ⟨rfl, by simp, by simp⟩, by simp, by simp⟩, hfit, ?_⟩
  obtain ⟨e1, -⟩ := BP_create_ok hbp
  unfold BPFun.toBPState LogPotentials.create FToVMessages.create Evidence.create BPState.create
  simp [e1, hfit.pots, hfit.msgs, hfit.ev, bind, Except.bind]
  exact ⟨rfl, rfl⟩

end

/-- Non-vacuity: the default arrays of `exHist3`, and arrays that are rejected. -/
example : BPArrays.Fit exState3 ⟨[0, 0, 0], [0, 0, 0, 0, 0], [0, 0, 0, 0, 0]⟩ ∧
    exBP3.update none none none none = .ok ⟨[0, 0, 0], [0, 0, 0, 0, 0], [0, 0, 0, 0, 0]⟩ ∧
    ¬ BPArrays.Fit exState3 ⟨[0, 0], [0, 0, 0, 0, 0], [0, 0, 0, 0, 0]⟩ := by
  refine ⟨⟨rfl, rfl, rfl⟩, rfl, fun h => ?_⟩
  have := h.pots
  revert this
  decide

end PGMax
