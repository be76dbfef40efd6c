import Verif.Props.C87

/-! # Helper lemmas: decoding batches -/

namespace PGMax

variable {κ α : Type _} [DecidableEq κ] [Field α] [LinearOrder α] {vgs : List (VGroup κ)} {hist : List (AddArg α)} {garbage : Garbage} {st : FGState κ α}

/-- The decoded states of a batch, if all samples can be decoded and all arrays of variables have axes. -/
theorem decode_batch (h : Compiled vgs hist garbage st) {state : BPState α} {T : α} {bp : BPFun κ α} (hbp : BP.create st state T = .ok bp) (batch : List (BPArrays α)) (hne : batch ≠ [])
    (hm : ∀ a ∈ batch, a.ftovMsgs.length = st.totalFactorNumStates ∧ a.evidence.length = st.numVarStates) (hreg : ∀ g ∈ vgs, g.Regular)
    (hax : ∀ g, .arr g ∈ vgs → g.shape ≠ []) (ss : BPArrays α → List (VGroup κ × GroupStates κ))
    (hdec : ∀ a ∈ batch, ∃ bs, bp.getBeliefs a = .ok bs ∧ decodeMapStates bs = .ok (ss a)) :
    ∃ X Y, bp.vmapBeliefs batch = .ok X ∧ decodeTree X = .ok Y ∧ IsBatchTree (batch.map (fun a => statesTree (ss a))) Y := by
  obtain ⟨X, b, h1, h2, h3⟩ := vmapBeliefs_batch h hbp batch hne hm hreg
  have hdim : ∀ t ∈ batch.map (fun a => beliefsTree (b a)), ∀ x ∈ t.leaves, x.shape ≠ [] := by
    rintro _ ht x hx
    obtain ⟨a, ha, rfl⟩ := List.mem_map.1 ht
    obtain ⟨bs, e1, e2, e3⟩ := C34_partial h hbp a (hm a ha).1 (hm a ha).2 hreg
    obtain rfl : bs = b a := Except.ok.inj (e1.symm.trans (h2 a ha))
    simp only [beliefsTree, List.mem_flatMap] at hx
    obtain ⟨⟨g, r⟩, hp, hx⟩ := hx
    have hg : g ∈ vgs := by rw [← e2]; exact List.mem_map_of_mem (f := Prod.fst) hp
    have hrep := e3 _ hp
    cases r with
    | arr r =>
      cases g with
      | dict => exact hrep.elim
      | arr g =>
        obtain ⟨m, -, -, hsh, -⟩ := hrep
        simp only [List.mem_singleton] at hx
        subst hx
        have := hax g hg
        rcases hsh with e | ⟨e, -⟩ <;> rw [e] <;> simp [this]
    | dict r =>
      obtain ⟨q, -, rfl⟩ := List.mem_map.1 hx
      simp
  have hdec' : ∀ a ∈ batch, decodeTree (beliefsTree (b a)) = .ok (statesTree (ss a)) := by
    intro a ha
    obtain ⟨bs, e1, e2⟩ := hdec a ha
    obtain rfl : bs = b a := Except.ok.inj (e1.symm.trans (h2 a ha))
    rw [decodeTree_beliefs, e2]
    rfl
  rcases argmaxRowwise.batchTree h3 (by simpa using hne) hdim with ⟨e1, e2⟩ | ⟨Y, y, e1, e2, e3⟩
  · exfalso
    obtain ⟨a, ha⟩ := List.exists_mem_of_ne_nil _ hne
    have k1 : decodeTree (beliefsTree (b a)) = .error .valueError := e2 _ (List.mem_map.2 ⟨a, ha, rfl⟩)
    rw [hdec' a ha] at k1
    cases k1
  · refine ⟨X, Y, h1, e1, ?_⟩
    rw [List.map_map] at e3
    rwa [List.map_congr_left (g := fun a => statesTree (ss a))] at e3
    intro a ha
    have k1 : decodeTree (beliefsTree (b a)) = .ok (y (beliefsTree (b a))) := e2 _ (List.mem_map.2 ⟨a, ha, rfl⟩)
    rw [hdec' a ha] at k1
    exact (Except.ok.inj k1).symm

end PGMax
