import Verif.Lemmas.JitUpdate

/-! # C115: dictionaries pass through `jax.jit` sorted by their keys -/

namespace PGMax

variable {κ α : Type _} {vgs : List (VGroup κ)} {hist : List (AddArg α)} {garbage : Garbage} {st : FGState κ α}

/-- Sorting the log potentials to update. -/
theorem jitLogPotentials_iff (h : Compiled vgs hist garbage st) (ups : List (FGroup α × NDArr α)) (hkeys : (ups.map (·.1.objId)).Nodup)
    (hids : ∀ p ∈ ups, ∀ k ∈ (graphOf vgs hist).allGroups, k.objId = p.1.objId → k = p.1) (lp : List α) (hlp : lp.length = st.logPotentials.length) (z : List α) :
    jitUpdateLogPotentials st lp ups = .ok z ↔ updateLogPotentials st lp ups = .ok z := by
  obtain ⟨us, h1, h2⟩ := pySort_ok (fun p q : FGroup α × NDArr α => some (decide (p.1.objId < q.1.objId))) ups (by simp)
  unfold jitUpdateLogPotentials
  rw [h1]
  exact (C25_logPotentials h ups us h2.symm hkeys hids lp hlp z).symm

/-- Sorting the messages to update. -/
theorem jitFtovMsgs_iff [Field α] (h : Compiled vgs hist garbage st) (ups : List (Var × NDArr α)) (hkeys : (ups.map (·.1)).Nodup) (hwf : ∀ p ∈ ups, p.2.WF)
    (msgs : List α) (hm : msgs.length = st.totalFactorNumStates) (z : List α) : jitUpdateFtovMsgs st msgs ups = .ok z ↔ updateFtovMsgs st msgs ups = .ok z := by
  obtain ⟨us, h1, h2⟩ := pySort_ok (fun p q : Var × NDArr α => some (p.1.ltTuple q.1)) ups (by simp)
  unfold jitUpdateFtovMsgs
  rw [h1]
  exact (C25_msgs h ups us h2.symm hkeys hwf msgs hm z).symm

/-- Sorting the evidence to update. -/
theorem jitEvidence_iff [DecidableEq κ] (h : Compiled vgs hist garbage st) (ltName : PyLt κ) (hashTuple : Var → Int) (ups : List (EvidenceUpdate κ α))
    (hdis : ups.Pairwise (fun a b => a.targets.Disjoint b.targets)) (hvg : ∀ g ∈ vgs, g.NamesOk ∧ ∀ n ∈ g.numStates, 1 ≤ n)
    (hok : ∀ g data, EvidenceUpdate.group g data ∈ ups → data.WF ∧ (g ∈ vgs ∨ ∀ k ∈ vgs, k.hash ≠ g.hash)) (hsort : ∀ u ∈ ups, u.Sorts ltName)
    (ev : List α) (hev : ev.length = st.numVarStates) (z : List α) :
    jitUpdateEvidence ltName hashTuple st ev ups = .ok z ↔ updateEvidence st ev ups = .ok z := by
  obtain ⟨us, -, h2, h3⟩ := jitUpdateEvidence_some ltName hashTuple st ups hsort
  rw [h3]
  exact (C25_evidence h ups us h2.symm hdis hvg hok ev hev z).symm

/-- **C115, updates.** If the entries of the dictionaries concern different groups of factors and variables, and Python can sort the names in the data of dictionaries of variables, the sorting of the
dictionaries by `jax.jit` has no effect: the compiled `update` returns the same arrays as the updates in the order of the dictionaries. -/
theorem C115 [Field α] [DecidableEq κ] [LinearOrder α] (h : Compiled vgs hist garbage st) (ltName : PyLt κ) (hashTuple : Var → Int) (bp : BPFun κ α) (hbp : bp.st = st)
    (arrs : Option (BPArrays α)) (ha : BPArrays.Fit st (arrs.getD bp.state.arrays))
    (lpu : Option (List (FGroup α × NDArr α))) (hl : ((lpu.getD []).map (·.1.objId)).Nodup)
    (hids : ∀ p ∈ lpu.getD [], ∀ k ∈ (graphOf vgs hist).allGroups, k.objId = p.1.objId → k = p.1)
    (mu : Option (List (Var × NDArr α))) (hm : ((mu.getD []).map (·.1)).Nodup) (hwf : ∀ p ∈ mu.getD [], p.2.WF)
    (eu : Option (List (EvidenceUpdate κ α))) (hdis : (eu.getD []).Pairwise (fun a b => a.targets.Disjoint b.targets))
    (hvg : ∀ g ∈ vgs, g.NamesOk ∧ ∀ n ∈ g.numStates, 1 ≤ n)
    (hok : ∀ g data, EvidenceUpdate.group g data ∈ eu.getD [] → data.WF ∧ (g ∈ vgs ∨ ∀ k ∈ vgs, k.hash ≠ g.hash))
    (hsort : ∀ u ∈ eu.getD [], u.Sorts ltName) (z : BPArrays α) :
    bp.jitUpdate ltName hashTuple arrs lpu mu eu = .ok z ↔ bp.update arrs lpu mu eu = .ok z := by
  set a := arrs.getD bp.state.arrays with hadef
  have e1 : bp.jitUpdate ltName hashTuple arrs lpu mu eu = (do
      let lp ← jitUpdateLogPotentials st a.logPotentials (lpu.getD [])
      let ft ← jitUpdateFtovMsgs st a.ftovMsgs (mu.getD [])
      let ev ← jitUpdateEvidence ltName hashTuple st a.evidence (eu.getD [])
      pure ⟨lp, ft, ev⟩) := by
    rw [hadef, ← hbp]
    cases arrs <;> cases lpu <;> cases mu <;> cases eu <;> rfl
  have e2 : bp.update arrs lpu mu eu = (do
      let lp ← updateLogPotentials st a.logPotentials (lpu.getD [])
      let ft ← updateFtovMsgs st a.ftovMsgs (mu.getD [])
      let ev ← updateEvidence st a.evidence (eu.getD [])
      pure ⟨lp, ft, ev⟩) := by
    rw [hadef, ← hbp]
    cases arrs <;> cases lpu <;> cases mu <;> cases eu <;> rfl
  rw [e1, e2]
  simp only [Py.bind_ok, jitLogPotentials_iff h _ hl hids _ ha.pots, jitFtovMsgs_iff h _ hm hwf _ ha.msgs, jitEvidence_iff h ltName hashTuple _ hdis hvg hok hsort _ ha.ev]

/-- **C115, order.** If the comparisons of the keys of a dictionary of evidence are those of a total order, the result of the compiled `update_evidence` does not depend on the order of the dictionary, whether or not
its entries overlap. -/
theorem C115_order [DecidableEq κ] {ι : Type _} [LinearOrder ι] (ltName : PyLt κ) (hashTuple : Var → Int) (st : FGState κ α) (ups ups' : List (EvidenceUpdate κ α)) (hp : ups.Perm ups')
    (r : EvidenceUpdate κ α → ι) (hr : ∀ a ∈ ups, ∀ b ∈ ups, evidenceLt hashTuple a b = some (decide (r a < r b))) (hnd : (ups.map r).Nodup) (ev : List α) :
    jitUpdateEvidence ltName hashTuple st ev ups' = jitUpdateEvidence ltName hashTuple st ev ups := by
  unfold jitUpdateEvidence
  rw [pySort_unique (evidenceLt hashTuple) r ups ups' hp hr hnd]

/-- **C115, overlapping entries.** For a dictionary of evidence with entries as documented, whose keys are compared as in a total order (they are, for instance, if at most one key is a variable and the hashes of the keys differ): after
the compiled `update_evidence` a variable with an entry of its own, whose group also has an entry, has the evidence of its own entry exactly if the hash of the group is smaller than that of the tuple of the variable, else that of
the group's entry; variables with one of the two entries have its evidence; the others keep theirs. -/
theorem C115_overlap [Field α] [CharZero α] [DecidableEq κ] {ι : Type _} [LinearOrder ι] (h : Compiled vgs hist garbage st) (ltName : PyLt κ) (hashTuple : Var → Int) (a : BPArrays α) (ha : BPArrays.Fit st a)
    (ups : List (EvidenceUpdate κ α)) (hw : ∀ u ∈ ups, (Write.evidence u : Write κ α).Fair vgs (graphOf vgs hist) ∧ (Write.evidence u : Write κ α).Accepted vgs (graphOf vgs hist))
    (hsort : ∀ u ∈ ups, u.Sorts ltName)
    (r : EvidenceUpdate κ α → ι) (hr : ∀ a ∈ ups, ∀ b ∈ ups, evidenceLt hashTuple a b = some (decide (r a < r b))) (hnd : (ups.map r).Nodup) :
    ∃ ev', jitUpdateEvidence ltName hashTuple st a.evidence ups = .ok ev' ∧
      (∀ g d x v e, .group g d ∈ ups → g.flatten d = .ok x → v ∈ g.variables → .var v e ∈ ups →
        Evidence.getitem st ev' v = .ok (if (g.hash : Int) < hashTuple v then e.data else g.part x v)) ∧
      (∀ g d x v, .group g d ∈ ups → g.flatten d = .ok x → v ∈ g.variables → (∀ e, .var v e ∉ ups) → Evidence.getitem st ev' v = .ok (g.part x v)) ∧
      (∀ v e, .var v e ∈ ups → (∀ g d, .group g d ∈ ups → v ∉ g.variables) → Evidence.getitem st ev' v = .ok e.data) ∧
      (∀ v, (∃ g ∈ vgs, v ∈ g.variables) → (∀ e, .var v e ∉ ups) → (∀ g d, .group g d ∈ ups → v ∉ g.variables) →
        Evidence.getitem st ev' v = Evidence.getitem st a.evidence v) := by
  obtain ⟨us, u1, u2, u3⟩ := jitUpdateEvidence_some ltName hashTuple st ups hsort
  obtain ⟨us', v1, -, v3⟩ := pySort_sorted (evidenceLt hashTuple) r ups hr hnd
  rw [u1] at v1
  cases v1
  have hcmp : ∀ b ∈ us, ∀ c ∈ us, ∀ t, evidenceLt hashTuple b c = some t → (r b < r c ↔ t = true) := by
    intro b hb c hc t ht
    rw [hr b (u2.mem_iff.1 hb) c (u2.mem_iff.1 hc)] at ht
    rw [← Option.some.inj ht, decide_eq_true_iff]
  have hself : ∀ v e e', .var v e ∈ us → .var v e' ∈ us → ¬ r (.var v e) < r (.var v e') := by
    intro v e e' h1 h2 hlt
    have := (hcmp _ h1 _ h2 (v.ltTuple v) rfl).1 hlt
    simp [Var.ltTuple] at this
  have hselfg : ∀ g d d', .group g d ∈ us → .group g d' ∈ us → ¬ r (.group g d) < r (.group g d') := by
    intro g d d' h1 h2 hlt
    have := (hcmp _ h1 _ h2 (decide (g.hash < g.hash)) rfl).1 hlt
    simp at this
  have hgv : ∀ g d v e, .group g d ∈ us → .var v e ∈ us → (r (.group g d) < r (.var v e) ↔ (g.hash : Int) < hashTuple v) := by
    intro g d v e h1 h2
    rw [hcmp _ h1 _ h2 (decide ((g.hash : Int) < hashTuple v)) rfl, decide_eq_true_iff]
  have hfair : ∀ w ∈ us.map (Write.evidence : _ → Write κ α), w.Fair vgs (graphOf vgs hist) := by
    intro w hw'
    obtain ⟨u, hu, rfl⟩ := List.mem_map.1 hw'
    exact (hw u (u2.mem_iff.1 hu)).1
  obtain ⟨p3, -⟩ := foldlM_assign h (updateEvidence1 st) Write.evidence
    (fun s => s.evidence.value) (fun s b => by
      simp only [BPState.write, Evidence.setitem, updateEvidence, List.foldlM_cons, List.foldlM_nil, bind_pure]
      cases updateEvidence1 st s.evidence.value b <;> rfl) us a.asState ha
    (fun b hb => (hw b (u2.mem_iff.1 hb)).1)
  have hrun := p3 (fun b hb => (hw b (u2.mem_iff.1 hb)).2)
  obtain ⟨c1, -, -⟩ := C62 h a.asState ha (us.map .evidence) hfair
  refine ⟨_, (u3 _).trans hrun, ?_⟩
  -- what is read
  have hread : ∀ v, (∃ g ∈ vgs, v ∈ g.variables) → ∃ x, Evidence.getitem st a.evidence v = .ok x ∧
      Evidence.getitem st (a.asState.writes st (us.map .evidence)).evidence.value v
        = .ok ((us.reverse.findSome? (fun u => (Write.evidence u : Write κ α).value (graphOf vgs hist) (.ev v))).getD x) := by
    intro v hv
    obtain ⟨b1, -⟩ := h.blocks
    obtain ⟨s, hs⟩ := (b1 v).2 hv
    have hx : Evidence.getitem st a.evidence v = .ok (slice a.evidence s (s + v.n)) := by
      simp only [Evidence.getitem, StartMap.get, hs]
      rfl
    refine ⟨_, hx, ?_⟩
    have := c1 (.ev v) hv (slice a.evidence s (s + v.n)) hx
    rw [show Evidence.getitem st (a.asState.writes st (us.map .evidence)).evidence.value v
      = (a.asState.writes st (us.map .evidence)).read st (graphOf vgs hist) (.ev v) from rfl, this]
    unfold lastValue
    rw [List.filter_eq_self.2 (by
      intro w hw'
      rw [List.mem_reverse] at hw'
      obtain ⟨u, hu, rfl⟩ := List.mem_map.1 hw'
      simpa using (hw u (u2.mem_iff.1 hu)).2), ← List.map_reverse, List.findSome?_map]
    rfl
  have hvar : ∀ v e w, (Write.evidence (.var v e) : Write κ α).value (graphOf vgs hist) (.ev w) = if w = v then some e.data else none := fun _ _ _ => rfl
  have hgrp : ∀ g d x w, g.flatten d = .ok x → (Write.evidence (.group g d) : Write κ α).value (graphOf vgs hist) (.ev w)
      = if w ∈ g.variables then some (g.part x w) else none := by
    intro g d x w hx
    simp only [Write.value, hx]
    rfl
  have hgmem : ∀ g d, .group g d ∈ us → g ∈ vgs ∧ ∃ x, g.flatten d = .ok x := by
    intro g d hg
    obtain ⟨-, k1, -, k3⟩ := hw _ (u2.mem_iff.1 hg)
    exact ⟨k1, k3⟩
  have hvmem : ∀ v e, .var v e ∈ us → ∃ g ∈ vgs, v ∈ g.variables := fun v e hv => (hw _ (u2.mem_iff.1 hv)).2.1
  -- which entries concern a variable
  have hconc : ∀ v c, c ∈ us → (∀ e, c ≠ .var v e) → (∀ g d, c = .group g d → v ∉ g.variables) →
      (Write.evidence c : Write κ α).value (graphOf vgs hist) (.ev v) = none := by
    intro v c hc n1 n2
    cases c with
    | var w e =>
      rw [hvar, if_neg]
      rintro rfl
      exact n1 e rfl
    | group g d =>
      obtain ⟨-, x, hx⟩ := hgmem g d hc
      rw [hgrp g d x v hx, if_neg (n2 g d rfl)]
  refine ⟨?_, ?_, ?_, ?_⟩
  · intro g d x v e hg hx hv he
    have hg' := u2.mem_iff.2 hg
    have he' := u2.mem_iff.2 he
    obtain ⟨x0, -, hr⟩ := hread v ⟨g, (hgmem g d hg').1, hv⟩
    rw [hr]
    congr 1
    by_cases hlt : (g.hash : Int) < hashTuple v
    · rw [if_pos hlt, findSome_last _ r us v3 (.var v e) he' e.data (by rw [hvar, if_pos rfl])]
      · rfl
      · intro c hc hgt
        refine hconc v c hc ?_ ?_
        · rintro e' rfl
          exact hself v e e' he' hc hgt
        · rintro k d' rfl hvk
          have := h.vgroups.unique k g (hgmem k d' hc).1 (hgmem g d hg').1 v hvk hv
          subst this
          exact absurd ((hgv k d' v e hc he').2 hlt) hgt.asymm
    · rw [if_neg hlt, findSome_last _ r us v3 (.group g d) hg' (g.part x v) (by rw [hgrp g d x v hx, if_pos hv])]
      · rfl
      · intro c hc hgt
        refine hconc v c hc ?_ ?_
        · rintro e' rfl
          exact hlt ((hgv g d v e' hg' hc).1 hgt)
        · rintro k d' rfl hvk
          have := h.vgroups.unique k g (hgmem k d' hc).1 (hgmem g d hg').1 v hvk hv
          subst this
          exact hselfg k d d' hg' hc hgt
  · intro g d x v hg hx hv hno
    have hg' := u2.mem_iff.2 hg
    obtain ⟨x0, -, hr⟩ := hread v ⟨g, (hgmem g d hg').1, hv⟩
    rw [hr, findSome_last _ r us v3 (.group g d) hg' (g.part x v) (by rw [hgrp g d x v hx, if_pos hv])]
    · rfl
    · intro c hc hgt
      refine hconc v c hc ?_ ?_
      · rintro e' rfl
        exact hno e' (u2.mem_iff.1 hc)
      · rintro k d' rfl hvk
        have := h.vgroups.unique k g (hgmem k d' hc).1 (hgmem g d hg').1 v hvk hv
        subst this
        exact hselfg k d d' hg' hc hgt
  · intro v e he hno
    have he' := u2.mem_iff.2 he
    obtain ⟨x0, -, hr⟩ := hread v (hvmem v e he')
    rw [hr, findSome_last _ r us v3 (.var v e) he' e.data (by rw [hvar, if_pos rfl])]
    · rfl
    · intro c hc hgt
      refine hconc v c hc ?_ ?_
      · rintro e' rfl
        exact hself v e e' he' hc hgt
      · rintro k d' rfl
        exact hno k d' (u2.mem_iff.1 hc)
  · intro v hv n1 n2
    obtain ⟨x0, h0, hr⟩ := hread v hv
    rw [hr, h0]
    congr 1
    rw [List.findSome?_eq_none_iff.2]
    · rfl
    · intro c hc
      rw [List.mem_reverse] at hc
      refine hconc v c hc ?_ ?_
      · rintro e' rfl
        exact n1 e' (u2.mem_iff.1 hc)
      · rintro k d' rfl
        exact n2 k d' (u2.mem_iff.1 hc)

/-- The sorted beliefs of a group. -/
theorem GroupBeliefs.jit_holds [DecidableEq κ] {objId : Nat} (ltName : PyLt κ) (g : VGroup κ) (hb : VGroup.Built objId g) (hreg : g.Regular) (B : Var → Nat → α) (b : GroupBeliefs κ α) (hrep : g.Reports B b)
    (hs : ∀ k, g = .dict k → Sortable ltName k.names) : ∃ b', b.jit ltName = .ok b' ∧ g.Holds B b' := by
  match g, b, hb, hreg, hrep, hs with
  | .arr g, .arr a, _, _, hrep, _ => exact ⟨.arr a, rfl, hrep⟩
  | .dict g, .dict d, hb, hreg, ⟨h1, h2⟩, hs =>
    have hnd : (d.map (·.1)).Nodup := by rw [h1]; exact hreg.1
    obtain ⟨d', e1, e2⟩ := pySort_ok (fun p q : κ × List α => ltName p.1 q.1) d (by
      intro p hp q hq
      refine hs g rfl p.1 ?_ q.1 ?_
      · rw [← h1]; exact List.mem_map_of_mem hp
      · rw [← h1]; exact List.mem_map_of_mem hq)
    refine ⟨.dict d', ?_, by rw [← h1]; exact e2.map _, ?_⟩
    · unfold GroupBeliefs.jit jitDict
      simp only [e1]
      rfl
    · intro k name v hk hv
      obtain ⟨x, x1, x2⟩ := h2 k v hv
      have hx : x.1 = name := by
        rw [← h1, List.getElem?_map, x1] at hk
        exact Option.some.inj hk
      rw [lookup_perm d d' e2 hnd, ← x2, ← hx]
      exact lookup_of_mem_nodup d hnd _ _ (List.mem_iff_getElem?.2 ⟨k, x1⟩)

/-- The groups of a graph have different hashes. -/
theorem VGroupsOk.hashes (h : VGroupsOk vgs) : (vgs.map (fun g => g.hash)).Nodup := by
  rw [List.Nodup, List.pairwise_map]
  refine h.distinct.imp ?_
  intro g k hgk heq
  unfold VGroup.pyEq at hgk
  rw [heq, beq_self_eq_true] at hgk
  cases hgk

theorem mapM_jit [DecidableEq κ] (ltName : PyLt κ) (B : Var → Nat → α) (bs : List (VGroup κ × GroupBeliefs κ α)) (h : ∀ p ∈ bs, ∃ b', p.2.jit ltName = .ok b' ∧ p.1.Holds B b') :
    ∃ bs', bs.mapM (fun p => (p.2.jit ltName).map (fun b => (p.1, b))) = (.ok bs' : Py _) ∧ bs'.map (·.1) = bs.map (·.1) ∧ ∀ p ∈ bs', p.1.Holds B p.2 := by
  induction bs with
  | nil => exact ⟨[], rfl, rfl, by simp⟩
  | cons p bs ih =>
    obtain ⟨b', h1, h2⟩ := h p (by simp)
    obtain ⟨bs', g1, g2, g3⟩ := ih (fun q hq => h q (by simp [hq]))
    refine ⟨(p.1, b') :: bs', by rw [List.mapM_cons, h1, g1]; rfl, by simp [g2], ?_⟩
    intro q hq
    rcases List.mem_cons.1 hq with rfl | hq
    · exact h2
    · exact g3 q hq

/-- **C115, beliefs.** If Python can sort the names of every dictionary of variables, the compiled `get_beliefs` returns a dictionary with the groups of the graph, in the order of their hashes, and the beliefs of every group; those of a
dictionary of variables under the names of the variables. -/
theorem C115_beliefs [DecidableEq κ] [Field α] [LinearOrder α] (h : Compiled vgs hist garbage st) {state : BPState α} {T : α} {bp : BPFun κ α} (hbp : BP.create st state T = .ok bp) (a : BPArrays α)
    (hm : a.ftovMsgs.length = st.totalFactorNumStates) (hev : a.evidence.length = st.numVarStates) (hreg : ∀ g ∈ vgs, g.Regular) (ltName : PyLt κ)
    (hs : ∀ k, VGroup.dict k ∈ vgs → Sortable ltName k.names) :
    ∃ bs, bp.jitBeliefs ltName a = .ok bs ∧ (bs.map (·.1)).Perm vgs ∧ (bs.map (fun p => p.1.hash)).Pairwise (· < ·) ∧
      ∀ p ∈ bs, p.1.Holds (beliefOf (graphOf vgs hist).allScopes (readEv st.varsToStarts a.evidence) (readMsgs (graphOf vgs hist).allScopes a.ftovMsgs)) p.2 := by
  obtain ⟨bs, e1, e2, e3⟩ := C34_partial h hbp a hm hev hreg
  obtain ⟨cs, c1, c2, c3⟩ := pySort_sorted (fun p q : VGroup κ × GroupBeliefs κ α => some (decide (p.1.hash < q.1.hash))) (fun p => p.1.hash) bs
    (fun p _ q _ => by congr 1) (by
      have := h.vgroups.hashes
      rw [← e2, List.map_map] at this
      exact this)
  have hin : ∀ p ∈ cs, p ∈ bs ∧ p.1 ∈ vgs := fun p hp => ⟨c2.mem_iff.1 hp, by rw [← e2]; exact List.mem_map_of_mem (c2.mem_iff.1 hp)⟩
  obtain ⟨ds, d1, d2, d3⟩ := mapM_jit ltName _ cs (fun p hp => by
    obtain ⟨i, hb⟩ := h.vgroups.built p.1 (hin p hp).2
    exact GroupBeliefs.jit_holds ltName p.1 hb (hreg _ (hin p hp).2) _ p.2 (e3 p (hin p hp).1) (fun k hk => hs k (hk ▸ (hin p hp).2)))
  refine ⟨ds, ?_, ?_, ?_, d3⟩
  · unfold BPFun.jitBeliefs
    rw [e1]
    show (pySort _ bs >>= _) = _
    rw [c1]
    exact d1
  · rw [d2, ← e2]
    exact c2.map _
  · have : ds.map (fun p => p.1.hash) = cs.map (fun p => p.1.hash) := by
      have := congrArg (List.map (fun g : VGroup κ => g.hash)) d2
      rw [List.map_map, List.map_map] at this
      exact this
    rw [this, List.pairwise_map]
    exact c3

theorem mapM_raises {β γ : Type _} (f : β → Py γ) (e : PyErr) (xs : List β) (hall : ∀ x ∈ xs, (∃ y, f x = .ok y) ∨ f x = .error e) (hex : ∃ x ∈ xs, f x = .error e) :
    xs.mapM f = (.error e : Py _) := by
  induction xs with
  | nil => simp at hex
  | cons x xs ih =>
    rw [List.mapM_cons]
    rcases hall x (by simp) with ⟨y, hy⟩ | hx
    · have : ∃ x ∈ xs, f x = .error e := by
        obtain ⟨z, hz, hze⟩ := hex
        rcases List.mem_cons.1 hz with rfl | hz
        · rw [hy] at hze; cases hze
        · exact ⟨z, hz, hze⟩
      rw [hy, ih (fun z hz => hall z (by simp [hz])) this]
      rfl
    · rw [hx]
      rfl

/-- **C115, names.** If the names are of kinds that Python can only compare within (numbers and strings, for instance), the compiled `get_beliefs` returns exactly if the names of every dictionary of variables are of one kind; otherwise it
raises, for any evidence and messages. -/
theorem C115_names [DecidableEq κ] [Field α] [LinearOrder α] {τ : Type _} (h : Compiled vgs hist garbage st) {state : BPState α} {T : α} {bp : BPFun κ α} (hbp : BP.create st state T = .ok bp) (a : BPArrays α)
    (hm : a.ftovMsgs.length = st.totalFactorNumStates) (hev : a.evidence.length = st.numVarStates) (hreg : ∀ g ∈ vgs, g.Regular) (ltName : PyLt κ) (kind : κ → τ)
    (hlt : ∀ x y, ltName x y = none ↔ kind x ≠ kind y) :
    ((∃ bs, bp.jitBeliefs ltName a = .ok bs) ↔ ∀ k, VGroup.dict k ∈ vgs → ∀ x ∈ k.names, ∀ y ∈ k.names, kind x = kind y) ∧
    ((∃ bs, bp.jitBeliefs ltName a = .ok bs) ∨ bp.jitBeliefs ltName a = .error .valueError) := by
  by_cases hs : ∀ k, VGroup.dict k ∈ vgs → ∀ x ∈ k.names, ∀ y ∈ k.names, kind x = kind y
  · obtain ⟨bs, hbs, -⟩ := C115_beliefs h hbp a hm hev hreg ltName (fun k hk x hx y hy hnone => (hlt x y).1 hnone (hs k hk x hx y hy))
    exact ⟨⟨fun _ => hs, fun _ => ⟨bs, hbs⟩⟩, .inl ⟨bs, hbs⟩⟩
  · have hraise : bp.jitBeliefs ltName a = .error .valueError := by
      push Not at hs
      obtain ⟨k, hk, x, hx, y, hy, hxy⟩ := hs
      obtain ⟨bs, e1, e2, e3⟩ := C34_partial h hbp a hm hev hreg
      obtain ⟨cs, c1, c2⟩ := pySort_ok (fun p q : VGroup κ × GroupBeliefs κ α => some (decide (p.1.hash < q.1.hash))) bs (by simp)
      unfold BPFun.jitBeliefs
      rw [e1]
      show (pySort _ bs >>= _) = _
      rw [c1]
      have hdict : ∀ d : List (κ × List α), (∃ d', jitDict ltName d = .ok d') ∨ jitDict ltName d = .error .valueError := by
        intro d
        by_cases hd : ∃ p ∈ d, ∃ q ∈ d, kind p.1 ≠ kind q.1
        · exact .inr (pySort_raises _ (fun p : κ × List α => kind p.1) (fun p q => hlt p.1 q.1) d hd)
        · push Not at hd
          obtain ⟨d', h1, -⟩ := pySort_ok (fun p q : κ × List α => ltName p.1 q.1) d (fun p hp q hq hnone => (hlt p.1 q.1).1 hnone (hd p hp q hq))
          exact .inl ⟨d', h1⟩
      refine mapM_raises _ .valueError cs ?_ ?_
      · intro p _
        match p with
        | (g, .arr b) => exact .inl ⟨_, rfl⟩
        | (g, .dict d) =>
          rcases hdict d with ⟨d', hd⟩ | hd
          · left; exact ⟨(g, .dict d'), by simp only [GroupBeliefs.jit, hd]; rfl⟩
          · right; simp only [GroupBeliefs.jit, hd]; rfl
      · have : VGroup.dict k ∈ bs.map (·.1) := by rw [e2]; exact hk
        obtain ⟨⟨g, b⟩, hp, hg⟩ := List.mem_map.1 this
        simp only at hg
        subst hg
        have hrep := e3 _ hp
        match b, hp, hrep with
        | .dict d, hp, ⟨r1, _⟩ =>
          refine ⟨_, c2.mem_iff.2 hp, ?_⟩
          have hd : jitDict ltName d = .error .valueError := by
            refine pySort_raises _ (fun p : κ × List α => kind p.1) (fun p q => hlt p.1 q.1) d ?_
            rw [← r1] at hx hy
            obtain ⟨p, hp1, rfl⟩ := List.mem_map.1 hx
            obtain ⟨q, hq1, rfl⟩ := List.mem_map.1 hy
            exact ⟨p, hp1, q, hq1, hxy⟩
          simp only [GroupBeliefs.jit, hd]
          rfl
    refine ⟨⟨fun ⟨bs, hbs⟩ => ?_, fun hh => absurd hh hs⟩, .inr hraise⟩
    rw [hraise] at hbs
    cases hbs

/-! ### Examples -/

/-- `<` of natural numbers. -/
def exLtNat : PyLt Nat := fun x y => some (decide (x < y))

/-- The group and the data of the examples: an array of two variables with three states. -/
def exJitGroup : EvidenceUpdate Nat ℚ := .group (.arr ⟨1000000000, [2], [3, 3]⟩) (.arr ⟨[2, 3], [1, 2, 3, 4, 5, 6]⟩)
/-- Evidence for the first variable. -/
def exJitVar0 : EvidenceUpdate Nat ℚ := .var ⟨1000000000, 3⟩ ⟨[3], [7, 8, 9]⟩
/-- Evidence for the second variable. -/
def exJitVar1 : EvidenceUpdate Nat ℚ := .var ⟨1000000001, 3⟩ ⟨[3], [7, 8, 9]⟩

/-- **The order of a dictionary of evidence does not count.** With the hashes of CPython, evidence for an array and one of its variables in one dictionary: the evidence of the first variable takes effect, that of the second is lost, whether
listed before or after the array; in the order of the dictionary it would take effect if listed last. -/
theorem C115_refuted :
    jitUpdateEvidence exLtNat pyTupleHash exEvState (List.replicate 11 0) [exJitGroup, exJitVar0] = .ok [7, 8, 9, 4, 5, 6, 0, 0, 0, 0, 0] ∧
    jitUpdateEvidence exLtNat pyTupleHash exEvState (List.replicate 11 0) [exJitVar0, exJitGroup] = .ok [7, 8, 9, 4, 5, 6, 0, 0, 0, 0, 0] ∧
    jitUpdateEvidence exLtNat pyTupleHash exEvState (List.replicate 11 0) [exJitGroup, exJitVar1] = .ok [1, 2, 3, 4, 5, 6, 0, 0, 0, 0, 0] ∧
    jitUpdateEvidence exLtNat pyTupleHash exEvState (List.replicate 11 0) [exJitVar1, exJitGroup] = .ok [1, 2, 3, 4, 5, 6, 0, 0, 0, 0, 0] ∧
    updateEvidence exEvState (List.replicate 11 0) [exJitGroup, exJitVar1] = .ok [1, 2, 3, 7, 8, 9, 0, 0, 0, 0, 0] := by
  refine ⟨by decide +kernel, by decide +kernel, by decide +kernel, by decide +kernel, by decide +kernel⟩

/-- Non-vacuity of `C115_overlap` and `C115_order`: the array and its second variable. -/
example : BPArrays.Fit exEvState (⟨[], [], List.replicate 11 0⟩ : BPArrays ℚ) ∧
    (∀ u ∈ [exJitGroup, exJitVar1], (Write.evidence u : Write Nat ℚ).Fair exEvVars (graphOf exEvVars []) ∧ (Write.evidence u : Write Nat ℚ).Accepted exEvVars (graphOf exEvVars [])) ∧
    (∀ u ∈ [exJitGroup, exJitVar1], u.Sorts exLtNat) ∧
    (∀ a ∈ [exJitGroup, exJitVar1], ∀ b ∈ [exJitGroup, exJitVar1], evidenceLt pyTupleHash a b = some (decide (a.keyHash pyTupleHash < b.keyHash pyTupleHash))) ∧
    ([exJitGroup, exJitVar1].map (EvidenceUpdate.keyHash pyTupleHash)).Nodup := by
  have hflat : (VGroup.flatten (.arr ⟨1000000000, [2], [3, 3]⟩ : VGroup Nat) (.arr ⟨[2, 3], [1, 2, 3, 4, 5, 6]⟩) : Py (List ℚ)) = .ok [1, 2, 3, 4, 5, 6] := by rfl
  have hmem : (VGroup.arr ⟨1000000000, [2], [3, 3]⟩ : VGroup Nat) ∈ exEvVars := by simp [exEvVars]
  refine ⟨⟨by rfl, by rfl, by rfl⟩, ?_, ?_, ?_, by decide +kernel⟩
  · simp only [List.mem_cons, List.not_mem_nil, or_false, forall_eq_or_imp, forall_eq]
    refine ⟨⟨⟨.inl hmem, fun x hx => ?_⟩, hmem, by decide, _, hflat⟩, ⟨by rfl, by decide⟩, ⟨_, hmem, by decide⟩, rfl⟩
    rw [hflat] at hx
    cases hx
    rfl
  · simp [exJitGroup, exJitVar1, EvidenceUpdate.Sorts]
  · refine evidenceLt_one pyTupleHash _ ?_
    intro v d w e hv he
    simp only [exJitGroup, exJitVar1, List.mem_cons, List.not_mem_nil, or_false, reduceCtorEq, false_or, EvidenceUpdate.var.injEq] at hv he
    rw [hv.1, he.1]

/-- Evidence for the dictionary of the graph, in another order than its names. -/
def exJitDict : EvidenceUpdate Nat ℚ := .group (.dict ⟨2000000000, [0, 1], [2, 3]⟩) (.dict [(1, ⟨[3], [1, 2, 3]⟩), (0, ⟨[2], [4, 5]⟩)])

/-- Non-vacuity of `C115` and `C115_beliefs`: evidence for a dictionary of variables and for the second variable of an array. -/
example : ([exJitDict, exJitVar1].Pairwise (fun a b => a.targets.Disjoint b.targets)) ∧ (∀ g ∈ exEvVars, g.NamesOk ∧ (∀ n ∈ g.numStates, 1 ≤ n) ∧ g.Regular) ∧
    (∀ g data, EvidenceUpdate.group g data ∈ [exJitDict, exJitVar1] → data.WF ∧ (g ∈ exEvVars ∨ ∀ k ∈ exEvVars, k.hash ≠ g.hash)) ∧
    (∀ u ∈ [exJitDict, exJitVar1], u.Sorts exLtNat) ∧ (∀ k, VGroup.dict k ∈ exEvVars → Sortable exLtNat k.names) ∧
    jitUpdateEvidence exLtNat pyTupleHash exEvState (List.replicate 11 0) [exJitDict, exJitVar1] = .ok [0, 0, 0, 7, 8, 9, 4, 5, 1, 2, 3] := by
  refine ⟨?_, ?_, ?_, ?_, ?_, by decide +kernel⟩
  · refine List.pairwise_cons.2 ⟨?_, List.pairwise_singleton _ _⟩
    intro b hb
    rw [List.mem_singleton.1 hb, List.disjoint_iff_ne]
    decide
  · simp [exEvVars, VGroup.NamesOk, VGroup.numStates, VGroup.Regular]
  · intro g data hg
    simp only [exJitDict, exJitVar1, List.mem_cons, List.not_mem_nil, or_false, reduceCtorEq, EvidenceUpdate.group.injEq] at hg
    obtain ⟨rfl, rfl⟩ := hg
    exact ⟨by simp [GroupData.WF, NDArr.WF], .inl (by simp [exEvVars])⟩
  · simp [exJitDict, exJitVar1, EvidenceUpdate.Sorts, Sortable, exLtNat]
  · intro k _ x _ y _
    simp [exLtNat]

/-- `<` of names that are numbers or strings. -/
def exLtMix : PyLt (Nat ⊕ String)
  | .inl x, .inl y => some (decide (x < y))
  | .inr x, .inr y => some (decide (x < y))
  | _, _ => none
/-- Variables named `0` and `"a"`. -/
def exMixVars : List (VGroup (Nat ⊕ String)) := [.dict ⟨1000000000, [.inl 0, .inr "a"], [2, 2]⟩]
/-- A factor of both. -/
def exMixHist : List (AddArg ℚ) := [.one (exGroup 5 [[exVar 0, exVar 1]])]
/-- The compiled graph. -/
def exMixState : FGState (Nat ⊕ String) ℚ :=
  match (graphOf exMixVars exMixHist).fgState 0 with
  | .ok st => st
  | .error _ => ⟨[], fun _ => none, 0, 0, fun _ => (0, 0), fun _ => (0, 0), fun _ => none, [], ⟨⟨[], [], []⟩, ⟨[], [], [], [], 1⟩, ⟨[], [], [], [], 1⟩⟩⟩
/-- Its BP state. -/
def exMixBPState : BPState ℚ := ⟨⟨0, [0, 0]⟩, ⟨0, [0, 0, 0, 0]⟩, ⟨0, [0, 0, 0, 0]⟩⟩
/-- The functions of belief propagation. -/
def exMixBP : BPFun (Nat ⊕ String) ℚ :=
  match BP.create exMixState exMixBPState 0 with
  | .ok bp => bp
  | .error _ => ⟨exMixState, exMixBPState, [], 0, [], 0⟩

theorem exMix_compiled : Compiled exMixVars exMixHist 0 exMixState where
  vgroups :=
    { built := by
        simp only [exMixVars, List.mem_cons, List.not_mem_nil, or_false, forall_eq]
        exact ⟨1, .dict (ns := .scalar 2) (names := [.inl 0, .inr "a"]) (by intro x hx; cases hx) (by simp) (by decide)⟩
      distinct := by simp [exMixVars] }
  valid := by
    simp only [exMixHist, List.mem_cons, List.not_mem_nil, or_false, forall_eq, AddArg.flat]
    refine ⟨by decide, by decide, fun _ => ⟨by decide, by decide, by decide, ?_, by rfl⟩, fun h => absurd rfl h⟩
    intro vs hvs r hr
    simp only [exGroup, List.mem_cons, List.not_mem_nil, or_false] at hvs hr
    rcases hvs with rfl <;> rcases hr with rfl | rfl <;> simp [exVar]
  ids := by
    have e : FType.all.flatMap (graphOf exMixVars exMixHist).groups = [exGroup 5 [[exVar 0, exVar 1]]] := by rfl
    rw [e]
    intro g hg k hk hid
    simp only [List.mem_cons, List.not_mem_nil, or_false] at hg hk
    rw [hg, hk]
  compiled := by rfl

/-- **A dictionary of variables with names that Python cannot compare:** the graph is compiled and messages can be computed, but `get_beliefs` always raises. -/
theorem C115_names_refuted : Compiled exMixVars exMixHist 0 exMixState ∧ BP.create exMixState exMixBPState 0 = .ok exMixBP ∧
    ∀ a : BPArrays ℚ, BPArrays.Fit exMixState a → (∃ bs, exMixBP.getBeliefs a = .ok bs) ∧ exMixBP.jitBeliefs exLtMix a = .error .valueError := by
  have hbp : BP.create exMixState exMixBPState 0 = .ok exMixBP := by rfl
  refine ⟨exMix_compiled, hbp, fun a ha => ?_⟩
  have hreg : ∀ g ∈ exMixVars, g.Regular := by
    simp [exMixVars, VGroup.Regular]
  obtain ⟨bs, hbs, -⟩ := C34_partial exMix_compiled hbp a ha.msgs ha.ev hreg
  refine ⟨⟨bs, hbs⟩, ?_⟩
  obtain ⟨h1, h2⟩ := C115_names exMix_compiled hbp a ha.msgs ha.ev hreg exLtMix (fun x => x.isLeft) (by
    intro x y
    cases x <;> cases y <;> simp [exLtMix])
  refine h2.resolve_left (fun h3 => ?_)
  have := h1.1 h3 _ (List.mem_singleton.2 rfl) (.inl 0) (by simp) (.inr "a") (by simp)
  simp at this

end PGMax
