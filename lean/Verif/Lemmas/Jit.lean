import Verif.Spec.Jit
import Verif.Props.C62
import Verif.Props.C34_C36

/-! Lemmas for C115: sorting, dictionaries in another order. -/

namespace PGMax

variable {κ α β γ : Type _}

theorem insertKey_perm (lt : PyLt γ) (x : γ) (ys zs : List γ) (h : insertKey lt x ys = .ok zs) : zs.Perm (x :: ys) := by
  induction ys generalizing zs with
  | nil => cases h; exact .refl _
  | cons y ys ih =>
    unfold insertKey at h
    cases hl : lt x y with
    | none => rw [hl] at h; cases h
    | some b =>
      rw [hl] at h
      cases b with
      | true => cases h; exact .refl _
      | false =>
        cases he : insertKey lt x ys with
        | error e => simp only [he] at h; cases h
        | ok ws =>
          simp only [he] at h
          cases h
          exact ((ih ws he).cons y).trans (List.Perm.swap x y ys)

theorem sortFrom_perm (lt : PyLt γ) (xs acc ys : List γ) (h : xs.foldlM (fun acc x => insertKey lt x acc) acc = .ok ys) : ys.Perm (xs ++ acc) := by
  induction xs generalizing acc with
  | nil => cases h; exact .refl _
  | cons x xs ih =>
    rw [List.foldlM_cons, Py.bind_ok] at h
    obtain ⟨zs, h1, h2⟩ := h
    refine (ih zs h2).trans ?_
    refine ((insertKey_perm lt x acc zs h1).append_left xs).trans ?_
    exact List.perm_middle

/-- Sorting permutes. -/
theorem pySort_perm (lt : PyLt γ) (xs ys : List γ) (h : pySort lt xs = .ok ys) : ys.Perm xs := by
  have := sortFrom_perm lt xs [] ys h
  rwa [List.append_nil] at this

theorem insertKey_ok (lt : PyLt γ) (x : γ) (ys : List γ) (h : ∀ y ∈ ys, lt x y ≠ none) : ∃ zs, insertKey lt x ys = .ok zs := by
  induction ys with
  | nil => exact ⟨_, rfl⟩
  | cons y ys ih =>
    unfold insertKey
    cases hl : lt x y with
    | none => exact absurd hl (h y (by simp))
    | some b =>
      cases b with
      | true => exact ⟨_, rfl⟩
      | false =>
        obtain ⟨zs, hz⟩ := ih (fun y hy => h y (by simp [hy]))
        exact ⟨y :: zs, by simp only [hz]; rfl⟩

theorem sortFrom_ok (lt : PyLt γ) (xs acc : List γ) (h : ∀ a ∈ xs ++ acc, ∀ b ∈ xs ++ acc, lt a b ≠ none) :
    ∃ ys, xs.foldlM (fun acc x => insertKey lt x acc) acc = .ok ys := by
  induction xs generalizing acc with
  | nil => exact ⟨acc, rfl⟩
  | cons x xs ih =>
    obtain ⟨zs, hz⟩ := insertKey_ok lt x acc (fun y hy => h x (by simp) y (by simp [hy]))
    have hp := insertKey_perm lt x acc zs hz
    obtain ⟨ys, hy⟩ := ih zs (by
      intro a ha b hb
      have hm : ∀ c ∈ xs ++ zs, c ∈ x :: xs ++ acc := by
        intro c hc
        rcases List.mem_append.1 hc with hc | hc
        · simp [hc]
        · rcases List.mem_cons.1 (hp.mem_iff.1 hc) with rfl | hc
          · simp
          · simp [hc]
      exact h a (hm a ha) b (hm b hb))
    exact ⟨ys, by rw [List.foldlM_cons, hz]; exact hy⟩

/-- Sorting does not raise if any two keys can be compared. -/
theorem pySort_ok (lt : PyLt γ) (xs : List γ) (h : ∀ a ∈ xs, ∀ b ∈ xs, lt a b ≠ none) : ∃ ys, pySort lt xs = .ok ys ∧ ys.Perm xs := by
  obtain ⟨ys, hy⟩ := sortFrom_ok lt xs [] (by simpa using h)
  exact ⟨ys, hy, pySort_perm lt xs ys hy⟩

theorem insertKey_sorted {ι : Type _} [LinearOrder ι] (lt : PyLt γ) (r : γ → ι) (x : γ) (ys zs : List γ) (hlt : ∀ y ∈ ys, lt x y = some (decide (r x < r y)))
    (hs : ys.Pairwise (fun a b => r a ≤ r b)) (h : insertKey lt x ys = .ok zs) : zs.Pairwise (fun a b => r a ≤ r b) := by
  induction ys generalizing zs with
  | nil => cases h; simp
  | cons y ys ih =>
    obtain ⟨hs1, hs2⟩ := List.pairwise_cons.1 hs
    unfold insertKey at h
    rw [hlt y (by simp)] at h
    by_cases hxy : r x < r y
    · rw [decide_eq_true hxy] at h
      cases h
      refine List.pairwise_cons.2 ⟨?_, hs⟩
      intro b hb
      rcases List.mem_cons.1 hb with rfl | hb
      · exact hxy.le
      · exact hxy.le.trans (hs1 b hb)
    · rw [decide_eq_false hxy] at h
      cases he : insertKey lt x ys with
      | error e => simp only [he] at h; cases h
      | ok ws =>
        simp only [he] at h
        cases h
        refine List.pairwise_cons.2 ⟨?_, ih ws (fun y hy => hlt y (by simp [hy])) hs2 he⟩
        intro b hb
        rcases List.mem_cons.1 ((insertKey_perm lt x ys ws he).mem_iff.1 hb) with rfl | hb
        · exact not_lt.1 hxy
        · exact hs1 b hb

theorem sortFrom_sorted {ι : Type _} [LinearOrder ι] (lt : PyLt γ) (r : γ → ι) (xs acc ys : List γ)
    (hlt : ∀ a ∈ xs ++ acc, ∀ b ∈ xs ++ acc, lt a b = some (decide (r a < r b))) (hs : acc.Pairwise (fun a b => r a ≤ r b))
    (h : xs.foldlM (fun acc x => insertKey lt x acc) acc = .ok ys) : ys.Pairwise (fun a b => r a ≤ r b) := by
  induction xs generalizing acc with
  | nil => cases h; exact hs
  | cons x xs ih =>
    rw [List.foldlM_cons, Py.bind_ok] at h
    obtain ⟨zs, h1, h2⟩ := h
    refine ih zs ?_ (insertKey_sorted lt r x acc zs (fun y hy => hlt x (by simp) y (by simp [hy])) hs h1) h2
    have hp := insertKey_perm lt x acc zs h1
    have hm : ∀ c ∈ xs ++ zs, c ∈ x :: xs ++ acc := by
      intro c hc
      rcases List.mem_append.1 hc with hc | hc
      · simp [hc]
      · rcases List.mem_cons.1 (hp.mem_iff.1 hc) with rfl | hc
        · simp
        · simp [hc]
    exact fun a ha b hb => hlt a (hm a ha) b (hm b hb)

/-- If `<` compares different ranks, the sorted keys have increasing ranks. -/
theorem pySort_sorted {ι : Type _} [LinearOrder ι] (lt : PyLt γ) (r : γ → ι) (xs : List γ)
    (hlt : ∀ a ∈ xs, ∀ b ∈ xs, lt a b = some (decide (r a < r b))) (hnd : (xs.map r).Nodup) :
    ∃ ys, pySort lt xs = .ok ys ∧ ys.Perm xs ∧ ys.Pairwise (fun a b => r a < r b) := by
  obtain ⟨ys, hy, hp⟩ := pySort_ok lt xs (fun a ha b hb => by rw [hlt a ha b hb]; simp)
  refine ⟨ys, hy, hp, ?_⟩
  have h1 := sortFrom_sorted lt r xs [] ys (by simpa using hlt) (by simp) hy
  have h2 : (ys.map r).Nodup := ((hp.map r).nodup_iff).2 hnd
  rw [List.Nodup, List.pairwise_map] at h2
  exact (h1.and h2).imp (fun hab => lt_of_le_of_ne hab.1 hab.2)

/-- ... and do not depend on the order before. -/
theorem pySort_unique {ι : Type _} [LinearOrder ι] (lt : PyLt γ) (r : γ → ι) (xs xs' : List γ) (hp : xs.Perm xs')
    (hlt : ∀ a ∈ xs, ∀ b ∈ xs, lt a b = some (decide (r a < r b))) (hnd : (xs.map r).Nodup) : pySort lt xs' = pySort lt xs := by
  obtain ⟨ys, h1, h2, h3⟩ := pySort_sorted lt r xs hlt hnd
  obtain ⟨zs, g1, g2, g3⟩ := pySort_sorted lt r xs' (fun a ha b hb => hlt a (hp.mem_iff.2 ha) b (hp.mem_iff.2 hb)) ((hp.map r).nodup_iff.1 hnd)
  rw [h1, g1]
  congr 1
  exact List.Perm.eq_of_pairwise (le := fun a b => r a < r b) (fun a b _ _ hab hba => absurd hab hba.asymm) g3 h3 (g2.trans (hp.symm.trans h2.symm))

theorem sortFrom_raises {τ : Type _} (lt : PyLt γ) (cls : γ → τ) (hlt : ∀ a b, lt a b = none ↔ cls a ≠ cls b) (c : τ) (xs acc : List γ) (hne : acc ≠ [])
    (hacc : ∀ a ∈ acc, cls a = c) (hx : ∃ x ∈ xs, cls x ≠ c) : xs.foldlM (fun acc x => insertKey lt x acc) acc = .error .valueError := by
  induction xs generalizing acc with
  | nil => simp at hx
  | cons x xs ih =>
    rw [List.foldlM_cons]
    by_cases hc : cls x = c
    · obtain ⟨zs, hz⟩ := insertKey_ok lt x acc (fun y hy => by rw [Ne, hlt, hacc y hy]; simp [hc])
      have hp := insertKey_perm lt x acc zs hz
      rw [hz]
      refine ih zs (fun h0 => by rw [h0] at hp; simpa using hp.length_eq) ?_ ?_
      · intro a ha
        rcases List.mem_cons.1 (hp.mem_iff.1 ha) with rfl | ha
        · exact hc
        · exact hacc a ha
      · obtain ⟨y, hy, hyc⟩ := hx
        rcases List.mem_cons.1 hy with rfl | hy
        · exact absurd hc hyc
        · exact ⟨y, hy, hyc⟩
    · match acc, hne with
      | a :: as, _ =>
        have : insertKey lt x (a :: as) = .error .valueError := by
          unfold insertKey
          rw [(hlt x a).2 (by rw [hacc a (by simp)]; exact hc)]
        rw [this]
        rfl

/-- Sorting raises if there are keys of two kinds that cannot be compared with each other. -/
theorem pySort_raises {τ : Type _} (lt : PyLt γ) (cls : γ → τ) (hlt : ∀ a b, lt a b = none ↔ cls a ≠ cls b) (xs : List γ)
    (h : ∃ a ∈ xs, ∃ b ∈ xs, cls a ≠ cls b) : pySort lt xs = .error .valueError := by
  match xs, h with
  | x :: xs, ⟨a, ha, b, hb, hab⟩ =>
    unfold pySort
    rw [List.foldlM_cons]
    refine sortFrom_raises lt cls hlt (cls x) xs [x] (by simp) (by simp) ?_
    by_cases hax : cls a = cls x
    · refine ⟨b, ?_, fun hbx => hab (hax.trans hbx.symm)⟩
      rcases List.mem_cons.1 hb with rfl | hb
      · exact absurd hax hab
      · exact hb
    · refine ⟨a, ?_, hax⟩
      rcases List.mem_cons.1 ha with rfl | ha
      · exact absurd rfl hax
      · exact ha

theorem lookup_perm [DecidableEq κ] (d d' : List (κ × β)) (hp : d'.Perm d) (hnd : (d.map (·.1)).Nodup) (k : κ) : d'.lookup k = d.lookup k := by
  have hnd' : (d'.map (·.1)).Nodup := ((hp.map _).nodup_iff).2 hnd
  cases h : d.lookup k with
  | some v => exact lookup_of_mem_nodup d' hnd' k v (hp.mem_iff.2 (mem_of_lookup d k v h))
  | none =>
    cases h' : d'.lookup k with
    | none => rfl
    | some v =>
      rw [lookup_of_mem_nodup d hnd k v (hp.mem_iff.1 (mem_of_lookup d' k v h'))] at h
      cases h

/-- The flattened data of a dictionary do not depend on its order. -/
theorem VarDict.flatten_perm [DecidableEq κ] (g : VarDict κ) (d d' : List (κ × NDArr α)) (hp : d'.Perm d) (hnd : (d.map (·.1)).Nodup) :
    g.flatten d' = g.flatten d := by
  have h1 : d'.any (fun p => g.flattenRejects p.1 p.2) = d.any (fun p => g.flattenRejects p.1 p.2) := by
    rw [Bool.eq_iff_iff, List.any_eq_true, List.any_eq_true]
    exact ⟨fun ⟨p, hm, hr⟩ => ⟨p, hp.mem_iff.1 hm, hr⟩, fun ⟨p, hm, hr⟩ => ⟨p, hp.mem_iff.2 hm, hr⟩⟩
  have h2 : (fun name => (dictGet d' name).map (fun a : NDArr α => a.data)) = fun name => (dictGet d name).map (fun a : NDArr α => a.data) := by
    funext name
    unfold dictGet
    rw [lookup_perm d d' hp hnd]
  unfold VarDict.flatten
  rw [h1, h2]

end PGMax
