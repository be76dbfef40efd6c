import Verif.Lemmas.Jit

/-! Lemmas for C115: updates with sorted dictionaries. -/

namespace PGMax

variable {κ α β γ : Type _} {vgs : List (VGroup κ)} {hist : List (AddArg α)} {garbage : Garbage} {st : FGState κ α}

/-- A sorted entry has the same effect. -/
theorem EvidenceUpdate.jit_same [DecidableEq κ] (ltName : PyLt κ) (st : FGState κ α) (u : EvidenceUpdate κ α) (hu : u.Sorts ltName) :
    ∃ u', u.jit ltName = .ok u' ∧ ∀ ev, updateEvidence1 st ev u' = updateEvidence1 st ev u := by
  match u, hu with
  | .var v d, _ => exact ⟨_, rfl, fun _ => rfl⟩
  | .group g (.arr a), _ => exact ⟨_, rfl, fun _ => rfl⟩
  | .group g (.dict d), ⟨hnd, hs⟩ =>
    obtain ⟨d', h1, h2⟩ := pySort_ok (fun p q : κ × NDArr α => ltName p.1 q.1) d
      (fun a ha b hb => hs a.1 (List.mem_map_of_mem ha) b.1 (List.mem_map_of_mem hb))
    refine ⟨.group g (.dict d'), ?_, fun ev => ?_⟩
    · unfold EvidenceUpdate.jit jitDict
      simp only [h1]
      rfl
    · have hf : g.flatten (GroupData.dict d' : GroupData κ α) = g.flatten (.dict d) := by
        cases g with
        | arr g => rfl
        | dict g => exact VarDict.flatten_perm g d d' h2 hnd
      simp only [updateEvidence1, hf]

theorem updates_jit [DecidableEq κ] (ltName : PyLt κ) (st : FGState κ α) (ups : List (EvidenceUpdate κ α)) (h : ∀ u ∈ ups, u.Sorts ltName) :
    ∃ us, ups.mapM (fun u => u.jit ltName) = (.ok us : Py _) ∧ ∀ ev, updateEvidence st ev us = updateEvidence st ev ups := by
  induction ups with
  | nil => exact ⟨[], rfl, fun _ => rfl⟩
  | cons u ups ih =>
    obtain ⟨u', h1, h2⟩ := u.jit_same ltName st (h u (by simp))
    obtain ⟨us, g1, g2⟩ := ih (fun w hw => h w (by simp [hw]))
    refine ⟨u' :: us, by rw [List.mapM_cons, h1, g1]; rfl, fun ev => ?_⟩
    unfold updateEvidence at g2 ⊢
    rw [List.foldlM_cons, List.foldlM_cons, h2]
    cases updateEvidence1 st ev u with
    | error e => rfl
    | ok ev' => exact g2 ev'

theorem evidenceLt_some (hashTuple : Var → Int) (u w : EvidenceUpdate κ α) : evidenceLt hashTuple u w ≠ none := by
  cases u <;> cases w <;> simp [evidenceLt]

/-- The updates happen in some order. -/
theorem jitUpdateEvidence_some [DecidableEq κ] (ltName : PyLt κ) (hashTuple : Var → Int) (st : FGState κ α) (ups : List (EvidenceUpdate κ α))
    (h : ∀ u ∈ ups, u.Sorts ltName) :
    ∃ us, pySort (evidenceLt hashTuple) ups = .ok us ∧ us.Perm ups ∧ ∀ ev, jitUpdateEvidence ltName hashTuple st ev ups = updateEvidence st ev us := by
  obtain ⟨us, h1, h2⟩ := pySort_ok (evidenceLt hashTuple) ups (fun a _ b _ => evidenceLt_some hashTuple a b)
  obtain ⟨ws, g1, g2⟩ := updates_jit ltName st us (fun u hu => h u (h2.mem_iff.1 hu))
  refine ⟨us, h1, h2, fun ev => ?_⟩
  unfold jitUpdateEvidence
  rw [h1]
  show (us.mapM (fun u => u.jit ltName) >>= fun ups => updateEvidence st ev ups) = _
  rw [g1]
  exact g2 ev

/-- Where the order of tuples is that of their hashes, keys are compared by their hashes. -/
theorem evidenceLt_keyHash (hashTuple : Var → Int) (ups : List (EvidenceUpdate κ α))
    (hcons : ∀ v d w e, .var v d ∈ ups → .var w e ∈ ups → (v.ltTuple w = true ↔ hashTuple v < hashTuple w)) :
    ∀ a ∈ ups, ∀ b ∈ ups, evidenceLt hashTuple a b = some (decide (a.keyHash hashTuple < b.keyHash hashTuple)) := by
  intro a ha b hb
  have key : ∀ x y : Bool, (x = true ↔ y = true) → some x = some y := fun x y hxy => by rw [Bool.eq_iff_iff.2 hxy]
  match a, b, ha, hb with
  | .group g _, .group k _, _, _ => exact key _ _ (by rw [decide_eq_true_iff, decide_eq_true_iff]; simp [EvidenceUpdate.keyHash])
  | .group g _, .var w _, _, _ => exact key _ _ (by rw [decide_eq_true_iff, decide_eq_true_iff]; rfl)
  | .var v _, .group k _, _, _ =>
    refine key _ _ ?_
    rw [decide_eq_true_iff, Bool.and_eq_true, Bool.not_eq_true', Bool.not_eq_true', decide_eq_false_iff_not, decide_eq_false_iff_not]
    simp only [EvidenceUpdate.keyHash]
    omega
  | .var v d, .var w e, ha, hb =>
    refine key _ _ ?_
    rw [decide_eq_true_iff, hcons v d w e ha hb]
    rfl

/-- With at most one variable keys are compared by their hashes. -/
theorem evidenceLt_one (hashTuple : Var → Int) (ups : List (EvidenceUpdate κ α)) (hone : ∀ v d w e, .var v d ∈ ups → .var w e ∈ ups → v = w) :
    ∀ a ∈ ups, ∀ b ∈ ups, evidenceLt hashTuple a b = some (decide (a.keyHash hashTuple < b.keyHash hashTuple)) :=
  evidenceLt_keyHash hashTuple ups (fun v d w e hv he => by
    cases hone v d w e hv he
    simp [Var.ltTuple])

/-- The value of the last entry that has one. -/
theorem findSome_last {β ι : Type _} [LinearOrder ι] (val : γ → Option β) (r : γ → ι) (ys : List γ) (hs : ys.Pairwise (fun a b => r a < r b)) (b : γ) (hb : b ∈ ys) (y : β)
    (hy : val b = some y) (hn : ∀ c ∈ ys, r b < r c → val c = none) : ys.reverse.findSome? val = some y := by
  induction ys with
  | nil => simp at hb
  | cons a ys ih =>
    obtain ⟨h1, h2⟩ := List.pairwise_cons.1 hs
    rw [List.reverse_cons, List.findSome?_append]
    rcases List.mem_cons.1 hb with rfl | hb
    · have : ys.reverse.findSome? val = none := by
        rw [List.findSome?_eq_none_iff]
        intro c hc
        rw [List.mem_reverse] at hc
        exact hn c (by simp [hc]) (h1 c hc)
      rw [this]
      simp [hy]
    · rw [ih h2 hb (fun c hc => hn c (by simp [hc]))]
      rfl

/-- A variable belongs to one group. -/
theorem VGroupsOk.unique (h : VGroupsOk vgs) (g k : VGroup κ) (hg : g ∈ vgs) (hk : k ∈ vgs) (v : Var) (h1 : v ∈ g.variables) (h2 : v ∈ k.variables) : g = k := by
  by_contra hne
  have hnd := h.nodup
  unfold allVars at hnd
  rw [List.nodup_flatMap] at hnd
  have : Std.Symm (Function.onFun List.Disjoint (fun g : VGroup κ => g.variables)) := ⟨fun a b hab => List.Disjoint.symm hab⟩
  exact hnd.2.forall hg hk hne h1 h2

end PGMax
