import Verif.Spec.Store
import Verif.Props.C23_C25
import Verif.Props.C43
import Verif.Lemmas.Example

/-! # C62: the last write wins -/

namespace PGMax

variable {κ α : Type _} {vgs : List (VGroup κ)} {hist : List (AddArg α)} {garbage : Garbage} {st : FGState κ α}

/-- The arrays of a BP state. -/
def BPState.arrays (s : BPState α) : BPArrays α := ⟨s.logPotentials.value, s.ftovMsgs.value, s.evidence.value⟩

theorem sliceAssign_single_error (xs : List α) (s n : Nat) (vals : List α) (h : s + n ≤ xs.length) (hn : vals.length ≠ n)
    (h1 : vals.length ≠ 1) : sliceAssign xs s (s + n) vals = .error .valueError := by
  unfold sliceAssign
  simp only [Nat.min_eq_left (show s ≤ xs.length by omega), Nat.min_eq_left h]
  rw [if_neg (by omega)]
  match vals, h1 with
  | [], _ => rfl
  | [_], h1 => simp at h1
  | _ :: _ :: _, _ => rfl

variable [Field α] [DecidableEq κ]

/-- One assignment. -/
theorem write_spec [CharZero α] (h : Compiled vgs hist garbage st) (s : BPState α) (hs : BPArrays.Fit st s.arrays) (w : Write κ α)
    (hw : w.Fair vgs (graphOf vgs hist)) :
    (w.Accepted vgs (graphOf vgs hist) → (s.write st w).2 = none ∧ BPArrays.Fit st (s.write st w).1.arrays ∧
      ∀ c, c.Exists vgs (graphOf vgs hist) → (s.write st w).1.read st (graphOf vgs hist) c
        = match w.value (graphOf vgs hist) c with | some x => .ok x | none => s.read st (graphOf vgs hist) c) ∧
    (¬ w.Accepted vgs (graphOf vgs hist) → (s.write st w).1 = s ∧ (s.write st w).2 ≠ none) := by
  obtain ⟨b1, b2, -, -⟩ := h.blocks
  cases w with
  | pots g d =>
    simp only [BPState.write, LogPotentials.setitem, updateLogPotentials, List.foldlM_cons, List.foldlM_nil, bind_pure]
    constructor
    · rintro ⟨⟨t, hg⟩, x, hx, hl⟩
      obtain ⟨lp', e1, e2, e3, e4, -⟩ := (C21_update h g t hg d s.logPotentials.value hs.pots).1 x hx hl
      rw [e1]
      refine ⟨rfl, ⟨e2.trans hs.pots, hs.msgs, hs.ev⟩, ?_⟩
      intro c hc
      cases c with
      | pots k =>
        obtain ⟨u, hk⟩ := hc
        by_cases hid : k.objId = g.objId
        · have : k = g := h.ids k (List.mem_flatMap.2 ⟨u, by cases u <;> simp [FType.all], hk⟩) g
            (List.mem_flatMap.2 ⟨t, by cases t <;> simp [FType.all], hg⟩) hid
          subst this
          simp [Write.value, hx, Except.toOption, BPState.read, Part.assign, e3]
        · simp only [Write.value, if_neg hid]
          exact e4 u k hk (fun hkg => hid (by rw [hkg]))
      | msg f i => rfl
      | ev v => rfl
    · intro hn
      have he : ∃ e, updateLogPotential st s.logPotentials.value g d = .error e := by
        rcases hw with ⟨t, hg⟩ | hg
        · obtain ⟨-, u2, u3⟩ := C21_update h g t hg d s.logPotentials.value hs.pots
          cases hf : g.flatten d with
          | error e => exact ⟨e, u3 e hf⟩
          | ok x => exact ⟨_, u2 x hf (fun hl => hn ⟨⟨t, hg⟩, x, hf, hl⟩)⟩
        · exact ⟨_, (C21_unknown h g hg d _).1⟩
      obtain ⟨e, he⟩ := he
      rw [he]
      exact ⟨rfl, by simp [Part.assign]⟩
  | msgs v d =>
    simp only [BPState.write, FToVMessages.setitem, updateFtovMsgs, List.foldlM_cons, List.foldlM_nil, bind_pure]
    constructor
    · rintro ⟨hv, hd⟩
      obtain ⟨z, e1, e2, e3, e4, -⟩ := C24_spread h v hv d hw hd s.ftovMsgs.value hs.msgs
      rw [e1]
      refine ⟨rfl, ⟨hs.pots, e2.trans hs.msgs, hs.ev⟩, ?_⟩
      intro c hc
      cases c with
      | pots k => rfl
      | ev v => rfl
      | msg f i =>
        obtain ⟨vs, u, hf, hi⟩ := hc
        have hsc : ((graphOf vgs hist).allScopes.getD f [])[i]? = some u := by rw [List.getD_eq_getElem?_getD, hf]; exact hi
        have hdl : d.data.length = v.n := by rw [hw, hd]; simp
        by_cases huv : u = v
        · subst huv
          simp only [Write.value, hsc, if_true, BPState.read, Part.assign, Option.map_some, Option.getD_some]
          congr 1
          refine List.ext_getElem? fun k => ?_
          rw [slice_getElem?, List.getElem?_map]
          by_cases hk : k < u.n
          · rw [if_pos (by omega), List.getElem?_eq_getElem (show k < d.data.length by omega)]
            rw [e3 f i vs hf hi k _ (List.getElem?_eq_getElem (show k < d.data.length by omega))]
            rfl
          · rw [if_neg (by omega), List.getElem?_eq_none (by omega)]
            rfl
        · simp only [Write.value, hsc, Option.some.injEq, if_neg huv, BPState.read, Part.assign, Option.map_some, Option.getD_some]
          congr 1
          refine List.ext_getElem? fun k => ?_
          rw [slice_getElem?, slice_getElem?]
          by_cases hk : k < u.n
          · rw [if_pos (by omega), if_pos (by omega), e4 f i vs u hf hi huv k hk]
          · rw [if_neg (by omega), if_neg (by omega)]
    · intro hn
      rw [C24_rejects h v d s.ftovMsgs.value (by
        by_contra hc
        push Not at hc
        exact hn hc)]
      exact ⟨rfl, by simp [Part.assign]⟩
  | evidence u =>
    cases u with
    | var v d =>
      simp only [BPState.write, Evidence.setitem, updateEvidence, List.foldlM_cons, List.foldlM_nil, bind_pure]
      constructor
      · rintro ⟨hv, hd⟩
        obtain ⟨ev', e1, e2, e3, e4⟩ := (C22_var h s.evidence.value hs.ev v d hw.1 hd).1 hv
        rw [e1]
        refine ⟨rfl, ⟨hs.pots, hs.msgs, e2.trans hs.ev⟩, ?_⟩
        intro c hc
        cases c with
        | pots k => rfl
        | msg f i => rfl
        | ev w =>
          by_cases hwv : w = v
          · subst hwv
            simp [Write.value, BPState.read, Part.assign, e3]
          · simp only [Write.value, if_neg hwv]
            exact e4 w hwv
      · intro hn
        have he : ∃ e, updateEvidence1 st s.evidence.value (.var v d) = .error e := by
          simp only [updateEvidence1]
          cases hv : st.varsToStarts v with
          | none => exact ⟨_, rfl⟩
          | some t =>
            simp only
            split
            · rename_i hd1
              obtain ⟨k, hk⟩ := List.length_eq_one_iff.1 hd1
              have hkn : k ≠ v.n := fun hkn => hn ⟨(b1 v).1 ⟨t, hv⟩, by rw [hk, hkn]⟩
              have hl : d.data.length = k := by rw [hw.1, hk]; simp
              refine ⟨_, sliceAssign_single_error _ _ _ _ (by rw [show s.evidence.value.length = st.numVarStates from hs.ev]; exact b2 v t hv)
                (by omega) ?_⟩
              intro h1
              exact hkn (by rw [hw.2 (by rw [hk, ← hl, h1])]; omega)
            · exact ⟨_, rfl⟩
        obtain ⟨e, he⟩ := he
        rw [he]
        exact ⟨rfl, by simp [Part.assign]⟩
    | group g d =>
      simp only [BPState.write, Evidence.setitem, updateEvidence, List.foldlM_cons, List.foldlM_nil, bind_pure]
      constructor
      · rintro ⟨hg, hne, x, hx⟩
        obtain ⟨ev', e1, e2, e3, e4⟩ := C22_group h s.evidence.value hs.ev g hg hne d x hx (hw.2 x hx)
        rw [e1]
        refine ⟨rfl, ⟨hs.pots, hs.msgs, e2.trans hs.ev⟩, ?_⟩
        intro c hc
        cases c with
        | pots k => rfl
        | msg f i => rfl
        | ev w =>
          by_cases hwv : w ∈ g.variables
          · have hidx : g.variables[g.variables.idxOf w]? = some w := by
              rw [List.getElem?_eq_getElem (List.idxOf_lt_length_iff.2 hwv)]; simp
            obtain ⟨y, y1, y2, y3⟩ := e3 _ w hidx
            simp only [Write.value, if_pos hwv, hx, Except.toOption, Option.map_some, BPState.read, Part.assign]
            rw [y1]
            congr 1
            refine List.ext_getElem? fun k => ?_
            rw [slice_getElem?]
            by_cases hk : k < w.n
            · rw [if_pos (by omega), y3 k hk]
            · rw [if_neg (by omega), List.getElem?_eq_none (by omega)]
          · simp only [Write.value, if_neg hwv]
            exact e4 w hwv
      · intro hn
        have he : ∃ e, updateEvidence1 st s.evidence.value (.group g d) = .error e := by
          rcases hw.1 with hg | hg
          · by_cases hne : g.variables = []
            · refine ⟨.indexError, ?_⟩
              simp only [updateEvidence1]
              rw [if_pos (by rw [h.varGroups, List.any_eq_true]; exact ⟨g, hg, by simp [VGroup.pyEq]⟩), hne]
              rfl
            · cases hf : g.flatten d with
              | error e => exact ⟨e, (C23_partial h s.evidence.value hs.ev g hg hne d).1 e hf⟩
              | ok x => exact absurd ⟨hg, hne, x, hf⟩ hn
          · exact ⟨_, C22_unknown h s.evidence.value g hg d⟩
        obtain ⟨e, he⟩ := he
        rw [he]
        exact ⟨rfl, by simp [Part.assign]⟩

theorem lastValue_snoc (fg : FactorGraph κ α) (ws : List (Write κ α)) (w : Write κ α) (c : Cell α) (x : List α) :
    (w.Accepted vgs fg → lastValue vgs fg (ws ++ [w]) c x = (w.value fg c).getD (lastValue vgs fg ws c x)) ∧
    (¬ w.Accepted vgs fg → lastValue vgs fg (ws ++ [w]) c x = lastValue vgs fg ws c x) := by
  unfold lastValue
  constructor
  · intro hw
    cases hv : w.value fg c <;> simp [hw, hv]
  · intro hw
    simp [hw]

theorem writes_snoc (s : BPState α) (ws : List (Write κ α)) (w : Write κ α) : s.writes st (ws ++ [w]) = ((s.writes st ws).write st w).1 := by
  simp [BPState.writes]

theorem writes_append (s : BPState α) (ws vs : List (Write κ α)) : s.writes st (ws ++ vs) = (s.writes st ws).writes st vs := by
  simp [BPState.writes]

theorem write_ids (s : BPState α) (w : Write κ α) : (s.write st w).1.logPotentials.stateId = s.logPotentials.stateId ∧
    (s.write st w).1.ftovMsgs.stateId = s.ftovMsgs.stateId ∧ (s.write st w).1.evidence.stateId = s.evidence.stateId := by
  have key : ∀ (p : Part α) r, (p.assign r).1.stateId = p.stateId := by
    intro p r; cases r <;> rfl
  cases w with
  | pots g d => exact ⟨key _ _, rfl, rfl⟩
  | msgs v d => exact ⟨rfl, key _ _, rfl⟩
  | evidence u => exact ⟨rfl, rfl, key _ _⟩

/-- **C62.** After any sequence of item assignments to the log potentials, messages and evidence of a BP state, whether they raised
or not: everything reads as the last accepted assignment concerning it says, or as before if there was none.  Sizes
and the graph the parts belong to stay the same, so that the result can be used for inference. -/
theorem C62 [CharZero α] (h : Compiled vgs hist garbage st) (s : BPState α) (hs : BPArrays.Fit st s.arrays) (ws : List (Write κ α))
    (hw : ∀ w ∈ ws, w.Fair vgs (graphOf vgs hist)) :
    (∀ c, c.Exists vgs (graphOf vgs hist) → ∀ x, s.read st (graphOf vgs hist) c = .ok x →
      (s.writes st ws).read st (graphOf vgs hist) c = .ok (lastValue vgs (graphOf vgs hist) ws c x)) ∧
    BPArrays.Fit st (s.writes st ws).arrays ∧
    ((s.writes st ws).logPotentials.stateId = s.logPotentials.stateId ∧ (s.writes st ws).ftovMsgs.stateId = s.ftovMsgs.stateId ∧
      (s.writes st ws).evidence.stateId = s.evidence.stateId) := by
  induction ws using List.reverseRecOn with
  | nil => exact ⟨fun c _ x hx => hx, hs, rfl, rfl, rfl⟩
  | append_singleton ws w ih =>
    obtain ⟨i1, i2, j1, j2, j3⟩ := ih (fun w hw' => hw w (by simp [hw']))
    obtain ⟨k1, k2⟩ := write_spec h (s.writes st ws) i2 w (hw w (by simp))
    obtain ⟨d1, d2, d3⟩ := write_ids (st := st) (s.writes st ws) w
    rw [writes_snoc]
    refine ⟨?_, ?_, d1.trans j1, d2.trans j2, d3.trans j3⟩
    · intro c hc x hx
      by_cases ha : w.Accepted vgs (graphOf vgs hist)
      · rw [(k1 ha).2.2 c hc, (lastValue_snoc _ ws w c x).1 ha, i1 c hc x hx]
        cases w.value (graphOf vgs hist) c <;> rfl
      · rw [(k2 ha).1, (lastValue_snoc _ ws w c x).2 ha, i1 c hc x hx]
    · by_cases ha : w.Accepted vgs (graphOf vgs hist)
      · exact (k1 ha).2.1
      · rw [(k2 ha).1]; exact i2

/-- **C62, exceptions.** An assignment raises iff it is not one of those allowed, and then changes nothing. -/
theorem C62_raises [CharZero α] (h : Compiled vgs hist garbage st) (s : BPState α) (hs : BPArrays.Fit st s.arrays) (w : Write κ α)
    (hw : w.Fair vgs (graphOf vgs hist)) :
    ((s.write st w).2 = none ↔ w.Accepted vgs (graphOf vgs hist)) ∧ ((s.write st w).2 ≠ none → (s.write st w).1 = s) := by
  obtain ⟨k1, k2⟩ := write_spec h s hs w hw
  refine ⟨⟨fun hn => ?_, fun ha => (k1 ha).1⟩, fun hn => (k2 (fun ha => hn (k1 ha).1)).1⟩
  by_contra ha
  exact (k2 ha).2 hn

/-- An update of one of the three arrays is a sequence of assignments to it. -/
theorem foldlM_assign [CharZero α] {β : Type _} (h : Compiled vgs hist garbage st) (f : List α → β → Py (List α)) (mk : β → Write κ α)
    (get : BPState α → List α)
    (hstep : ∀ s b, f (get s) b = match (s.write st (mk b)).2 with | none => .ok (get (s.write st (mk b)).1) | some e => .error e)
    (ups : List β) (s : BPState α) (hs : BPArrays.Fit st s.arrays) (hw : ∀ b ∈ ups, (mk b).Fair vgs (graphOf vgs hist)) :
    ((∀ b ∈ ups, (mk b).Accepted vgs (graphOf vgs hist)) → ups.foldlM f (get s) = .ok (get (s.writes st (ups.map mk)))) ∧
    ((¬ ∀ b ∈ ups, (mk b).Accepted vgs (graphOf vgs hist)) → ∃ e, ups.foldlM f (get s) = .error e) := by
  induction ups generalizing s with
  | nil => exact ⟨fun _ => rfl, fun hn => absurd (by simp) hn⟩
  | cons b ups ih =>
    obtain ⟨k1, k2⟩ := write_spec h s hs (mk b) (hw b (by simp))
    rw [List.foldlM_cons, hstep]
    by_cases hb : (mk b).Accepted vgs (graphOf vgs hist)
    · obtain ⟨e1, e2, -⟩ := k1 hb
      obtain ⟨i1, i2⟩ := ih (s.write st (mk b)).1 e2 (fun c hc => hw c (by simp [hc]))
      rw [e1]
      refine ⟨fun ha => i1 (fun c hc => ha c (by simp [hc])), fun hn => i2 (fun ha => hn ?_)⟩
      intro c hc
      rcases List.mem_cons.1 hc with rfl | hc
      · exact hb
      · exact ha c hc
    · obtain ⟨-, e2⟩ := k2 hb
      cases hr : (s.write st (mk b)).2 with
      | none => exact absurd hr e2
      | some e => exact ⟨fun ha => absurd (ha b (by simp)) hb, fun _ => ⟨e, rfl⟩⟩

theorem writes_parts (s : BPState α) (ws : List (Write κ α)) :
    ((∀ w ∈ ws, ∀ g d, w ≠ .pots g d) → (s.writes st ws).logPotentials = s.logPotentials) ∧
    ((∀ w ∈ ws, ∀ v d, w ≠ .msgs v d) → (s.writes st ws).ftovMsgs = s.ftovMsgs) ∧
    ((∀ w ∈ ws, ∀ u, w ≠ .evidence u) → (s.writes st ws).evidence = s.evidence) := by
  induction ws using List.reverseRecOn with
  | nil => exact ⟨fun _ => rfl, fun _ => rfl, fun _ => rfl⟩
  | append_singleton ws w ih =>
    rw [writes_snoc]
    refine ⟨fun hn => ?_, fun hn => ?_, fun hn => ?_⟩
    · rw [← ih.1 (fun w hw => hn w (by simp [hw]))]
      cases w with
      | pots g d => exact absurd rfl (hn _ (by simp) g d)
      | msgs v d => rfl
      | evidence u => rfl
    · rw [← ih.2.1 (fun w hw => hn w (by simp [hw]))]
      cases w with
      | pots g d => rfl
      | msgs v d => exact absurd rfl (hn _ (by simp) v d)
      | evidence u => rfl
    · rw [← ih.2.2 (fun w hw => hn w (by simp [hw]))]
      cases w with
      | pots g d => rfl
      | msgs v d => rfl
      | evidence u => exact absurd rfl (hn _ (by simp) u)

/-- **C62, `bp.update`.** Given arrays (or none, then those of the BP state), `bp.update` with any update dictionaries returns, if all
their entries are allowed, arrays that read as after the assignments one by one; if one entry is not allowed it raises. -/
theorem C62_update [LinearOrder α] [CharZero α] (h : Compiled vgs hist garbage st) (bp : BPFun κ α) (hbp : bp.st = st) (arrs : Option (BPArrays α))
    (ha : BPArrays.Fit st (arrs.getD bp.state.arrays)) (lpu : Option (List (FGroup α × NDArr α))) (mu : Option (List (Var × NDArr α)))
    (eu : Option (List (EvidenceUpdate κ α)))
    (ws : List (Write κ α)) (hws : ws = (lpu.getD []).map (fun p => .pots p.1 p.2) ++ (mu.getD []).map (fun p => .msgs p.1 p.2)
      ++ (eu.getD []).map .evidence)
    (hw : ∀ w ∈ ws, w.Fair vgs (graphOf vgs hist)) :
    ((∀ w ∈ ws, w.Accepted vgs (graphOf vgs hist)) → ∃ a, bp.update arrs lpu mu eu = .ok a ∧ BPArrays.Fit st a ∧
      ∀ c, c.Exists vgs (graphOf vgs hist) → ∀ x, (arrs.getD bp.state.arrays).asState.read st (graphOf vgs hist) c = .ok x →
        a.asState.read st (graphOf vgs hist) c = .ok (lastValue vgs (graphOf vgs hist) ws c x)) ∧
    ((¬ ∀ w ∈ ws, w.Accepted vgs (graphOf vgs hist)) → ∃ e, bp.update arrs lpu mu eu = .error e) := by
  set a := arrs.getD bp.state.arrays with hadef
  set L1 := lpu.getD [] with hL1
  set L2 := mu.getD [] with hL2
  set L3 := eu.getD [] with hL3
  have hupd : bp.update arrs lpu mu eu = (do
      let lp ← updateLogPotentials st a.logPotentials L1
      let ft ← updateFtovMsgs st a.ftovMsgs L2
      let ev ← updateEvidence st a.evidence L3
      pure ⟨lp, ft, ev⟩) := by
    rw [hadef, hL1, hL2, hL3]
    unfold BPFun.update
    rw [hbp]
    cases arrs <;> cases lpu <;> cases mu <;> cases eu <;> rfl
  set W1 : List (Write κ α) := L1.map (fun p => .pots p.1 p.2) with hW1
  set W2 : List (Write κ α) := L2.map (fun p => .msgs p.1 p.2) with hW2
  set W3 : List (Write κ α) := L3.map .evidence with hW3
  have hs0 : BPArrays.Fit st a.asState.arrays := ha
  have f1 : ∀ w ∈ W1, w.Fair vgs (graphOf vgs hist) := fun w h1 => hw w (by rw [hws]; simp [h1])
  have f2 : ∀ w ∈ W2, w.Fair vgs (graphOf vgs hist) := fun w h1 => hw w (by rw [hws]; simp [h1])
  have f3 : ∀ w ∈ W3, w.Fair vgs (graphOf vgs hist) := fun w h1 => hw w (by rw [hws]; simp [h1])
  have hs1 := (C62 h a.asState hs0 W1 f1).2.1
  have hs2 := (C62 h _ hs1 W2 f2).2.1
  obtain ⟨p1, q1⟩ := foldlM_assign h (fun lp p => updateLogPotential st lp p.1 p.2) (fun p => Write.pots p.1 p.2)
    (fun s => s.logPotentials.value) (fun s b => by
      simp only [BPState.write, LogPotentials.setitem, updateLogPotentials, List.foldlM_cons, List.foldlM_nil, bind_pure]
      cases updateLogPotential st s.logPotentials.value b.1 b.2 <;> rfl) L1 a.asState hs0
    (fun b hb => f1 _ (List.mem_map.2 ⟨b, hb, rfl⟩))
  obtain ⟨p2, q2⟩ := foldlM_assign h (fun m p => updateFtovMsg st m p.1 p.2) (fun p => Write.msgs p.1 p.2)
    (fun s => s.ftovMsgs.value) (fun s b => by
      simp only [BPState.write, FToVMessages.setitem, updateFtovMsgs, List.foldlM_cons, List.foldlM_nil, bind_pure]
      cases updateFtovMsg st s.ftovMsgs.value b.1 b.2 <;> rfl) L2 _ hs1
    (fun b hb => f2 _ (List.mem_map.2 ⟨b, hb, rfl⟩))
  obtain ⟨p3, q3⟩ := foldlM_assign h (updateEvidence1 st) Write.evidence
    (fun s => s.evidence.value) (fun s b => by
      simp only [BPState.write, Evidence.setitem, updateEvidence, List.foldlM_cons, List.foldlM_nil, bind_pure]
      cases updateEvidence1 st s.evidence.value b <;> rfl) L3 _ hs2
    (fun b hb => f3 _ (List.mem_map.2 ⟨b, hb, rfl⟩))
  have n1 : ∀ w ∈ W1, (∀ v d, w ≠ .msgs v d) ∧ ∀ u, w ≠ .evidence u := by
    intro w h1; obtain ⟨b, -, rfl⟩ := List.mem_map.1 h1; simp
  have n2 : ∀ w ∈ W2, (∀ g d, w ≠ .pots g d) ∧ ∀ u, w ≠ .evidence u := by
    intro w h1; obtain ⟨b, -, rfl⟩ := List.mem_map.1 h1; simp
  have n3 : ∀ w ∈ W3, (∀ g d, w ≠ .pots g d) ∧ ∀ v d, w ≠ .msgs v d := by
    intro w h1; obtain ⟨b, -, rfl⟩ := List.mem_map.1 h1; simp
  have m1 := (writes_parts (st := st) a.asState W1).2.1 (fun w hw => (n1 w hw).1)
  have e1 := (writes_parts (st := st) a.asState W1).2.2 (fun w hw => (n1 w hw).2)
  have l2 := (writes_parts (st := st) (a.asState.writes st W1) W2).1 (fun w hw => (n2 w hw).1)
  have e2 := (writes_parts (st := st) (a.asState.writes st W1) W2).2.2 (fun w hw => (n2 w hw).2)
  have l3 := (writes_parts (st := st) ((a.asState.writes st W1).writes st W2) W3).1 (fun w hw => (n3 w hw).1)
  have m3 := (writes_parts (st := st) ((a.asState.writes st W1).writes st W2) W3).2.1 (fun w hw => (n3 w hw).2)
  have g2 : (a.asState.writes st W1).ftovMsgs.value = a.ftovMsgs := by rw [m1]; rfl
  have g3 : ((a.asState.writes st W1).writes st W2).evidence.value = a.evidence := by rw [e2, e1]; rfl
  simp only [g2] at p2 q2
  simp only [g3] at p3 q3
  have hsplit : (∀ w ∈ ws, w.Accepted vgs (graphOf vgs hist)) ↔ (∀ b ∈ L1, (Write.pots b.1 b.2 : Write κ α).Accepted vgs (graphOf vgs hist)) ∧
      (∀ b ∈ L2, (Write.msgs b.1 b.2 : Write κ α).Accepted vgs (graphOf vgs hist)) ∧
      ∀ b ∈ L3, (Write.evidence b : Write κ α).Accepted vgs (graphOf vgs hist) := by
    rw [hws, hW1, hW2, hW3]
    simp only [List.mem_append, List.mem_map]
    constructor
    · intro hh
      exact ⟨fun b hb => hh _ (.inl (.inl ⟨b, hb, rfl⟩)), fun b hb => hh _ (.inl (.inr ⟨b, hb, rfl⟩)), fun b hb => hh _ (.inr ⟨b, hb, rfl⟩)⟩
    · rintro ⟨h1, h2, h3⟩ w ((⟨b, hb, rfl⟩ | ⟨b, hb, rfl⟩) | ⟨b, hb, rfl⟩)
      · exact h1 b hb
      · exact h2 b hb
      · exact h3 b hb
  rw [hupd, hsplit]
  unfold updateLogPotentials updateFtovMsgs updateEvidence
  refine ⟨?_, ?_⟩
  · rintro ⟨h1, h2, h3⟩
    have r1 : L1.foldlM (fun lp p => updateLogPotential st lp p.1 p.2) a.logPotentials = _ := p1 h1
    rw [r1, p2 h2, p3 h3]
    obtain ⟨c1, c2, -⟩ := C62 h a.asState hs0 ws hw
    have hfin : a.asState.writes st ws = ((a.asState.writes st W1).writes st W2).writes st W3 := by rw [hws, writes_append, writes_append]
    refine ⟨(a.asState.writes st ws).arrays, ?_, c2, fun c hc x hx => ?_⟩
    · rw [hfin]
      unfold BPState.arrays
      rw [l3, l2, m3]
      rfl
    · rw [← c1 c hc x hx]
      cases c <;> rfl
  · intro hn
    by_cases h1 : ∀ b ∈ L1, (Write.pots b.1 b.2 : Write κ α).Accepted vgs (graphOf vgs hist)
    · have r1 : L1.foldlM (fun lp p => updateLogPotential st lp p.1 p.2) a.logPotentials = _ := p1 h1
      rw [r1]
      by_cases h2 : ∀ b ∈ L2, (Write.msgs b.1 b.2 : Write κ α).Accepted vgs (graphOf vgs hist)
      · rw [p2 h2]
        obtain ⟨e, he⟩ := q3 (fun h3 => hn ⟨h1, h2, h3⟩)
        rw [he]
        exact ⟨e, rfl⟩
      · obtain ⟨e, he⟩ := q2 h2
        rw [he]
        exact ⟨e, rfl⟩
    · obtain ⟨e, he⟩ := q1 h1
      have he : L1.foldlM (fun lp p => updateLogPotential st lp p.1 p.2) a.logPotentials = .error e := he
      rw [he]
      exact ⟨e, rfl⟩

/-! ### Examples -/

/-- Assignments to the graph of `exState`: evidence of a variable, then of its group, then of the variable again with data of a wrong
size, log potentials, messages, and evidence of another variable. -/
def exWrites : List (Write Nat ℚ) := [.evidence (.var (exVar 0) ⟨[2], [1, 2]⟩), .evidence (.group (.arr ⟨1000000000, [3], [2, 2, 2]⟩) (.arr ⟨[3, 2], [3, 4, 5, 6, 7, 8]⟩)),
  .evidence (.var (exVar 0) ⟨[3], [9, 9, 9]⟩), .pots (exGroup 5 [[exVar 0, exVar 1], [exVar 1, exVar 2]]) ⟨[2], [1, 2]⟩,
  .msgs (exVar 1) ⟨[2], [4, 8]⟩, .evidence (.var (exVar 1) ⟨[2], [0, 1]⟩)]

/-- Non-vacuity of `C62` and `C62_raises`: the assignments are fair, the third raises, and the evidence of the first variable is what
the second says, that of the second variable what the last says. -/
example : BPArrays.Fit exState exBPState.arrays ∧ (∀ w ∈ exWrites, w.Fair exVars (graphOf exVars exHist)) ∧
    (exBPState.write exState (.evidence (.var (exVar 0) ⟨[3], [9, 9, 9]⟩))).2 = some .valueError ∧
    (exBPState.writes exState exWrites).evidence.value = [3, 4, 0, 1, 7, 8] ∧
    (exBPState.writes exState exWrites).logPotentials.value = [1, 2, 1, 2] ∧
    (exBPState.writes exState exWrites).ftovMsgs.value = [0, 0, 1, 2, 1, 2, 0, 0, 0, 0, 1, 2, 1, 2, 0, 0, 0, 0] := by
  refine ⟨⟨by rfl, by rfl, by rfl⟩, ?_, by decide +kernel, by decide +kernel, by decide +kernel, by decide +kernel⟩
  simp only [exWrites, List.mem_cons, List.not_mem_nil, or_false, forall_eq_or_imp, forall_eq, Write.Fair]
  refine ⟨⟨by decide, by decide⟩, ⟨.inl (by simp [exVars]), ?_⟩, ⟨by decide, by decide⟩, .inl ⟨.enum, ?_⟩, by decide, ⟨by decide, by decide⟩⟩
  · intro x hx
    have : (VGroup.flatten (.arr ⟨1000000000, [3], [2, 2, 2]⟩ : VGroup Nat) (.arr ⟨[3, 2], [3, 4, 5, 6, 7, 8]⟩) : Py (List ℚ))
      = .ok [3, 4, 5, 6, 7, 8] := by rfl
    rw [this] at hx
    cases hx
    rfl
  · have e : (graphOf exVars exHist).groups .enum = [exGroup 5 [[exVar 0, exVar 1], [exVar 1, exVar 2]]] := by rfl
    rw [e]; simp

/-- Without fairness the statement fails: evidence of one value for a variable of two states is accepted and broadcast. -/
theorem C62_broadcast_refuted : (exBPState.write exState (.evidence (.var (exVar 0) ⟨[1], [9]⟩) : Write Nat ℚ)).2 = none ∧
    ¬ (.evidence (.var (exVar 0) ⟨[1], [9]⟩) : Write Nat ℚ).Accepted exVars (graphOf exVars exHist) ∧
    (exBPState.write exState (.evidence (.var (exVar 0) ⟨[1], [9]⟩) : Write Nat ℚ)).1.evidence.value = [9, 9, 0, 0, 0, 0] :=
  ⟨by decide +kernel, fun h => absurd h.2 (by decide), by decide +kernel⟩

end PGMax
