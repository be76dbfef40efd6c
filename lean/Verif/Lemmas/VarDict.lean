import Verif.Lemmas.Flatten

/-! Helper lemmas about `VarDict.flatten` / `unflatten`. -/

namespace PGMax

variable {κ α : Type _} [DecidableEq κ]

/-- Consecutive slices, one per name. -/
def namedSlices (flat : List α) : Nat → List (κ × Nat) → List (κ × List α)
  | _, [] => []
  | start, (k, n) :: r => (k, slice flat start (start + n)) :: namedSlices flat (start + n) r

theorem dictSet_of_not_mem (d : List (κ × List α)) (k : κ) (v : List α) (h : k ∉ d.map (·.1)) :
    dictSet d k v = d ++ [(k, v)] := by
  induction d with
  | nil => rfl
  | cons p d ih =>
    obtain ⟨k', v'⟩ := p
    simp only [List.map_cons, List.mem_cons, not_or] at h
    simp [dictSet, Ne.symm h.1, ih h.2]

theorem unflattenLoop_eq (g : VarDict κ) (flat : List α) (b : Bool) (rest : List κ) (start : Nat)
    (acc : List (κ × List α)) (hnd : rest.Nodup) (hdis : ∀ k ∈ rest, k ∉ acc.map (·.1)) :
    g.unflattenLoop flat b rest start acc
      = acc ++ namedSlices flat start
          (rest.map (fun k => (k, if b then g.numStates.getD (g.names.idxOf k) 0 else 1))) := by
  induction rest generalizing start acc with
  | nil => simp [VarDict.unflattenLoop, namedSlices]
  | cons k rest ih =>
    simp only [List.nodup_cons] at hnd
    have hk := hdis k (by simp)
    have step : ∀ n v, (∀ k' ∈ rest, k' ∉ (dictSet acc k v).map (·.1)) ∧
        dictSet acc k v ++ namedSlices flat (start + n)
          (rest.map (fun k => (k, if b then g.numStates.getD (g.names.idxOf k) 0 else 1)))
        = acc ++ ((k, v) :: namedSlices flat (start + n)
          (rest.map (fun k => (k, if b then g.numStates.getD (g.names.idxOf k) 0 else 1)))) := by
      intro n v
      rw [dictSet_of_not_mem acc k v hk]
      refine ⟨?_, by simp⟩
      intro k' hk'
      simp only [List.map_append, List.map_cons, List.map_nil, List.mem_append, List.mem_singleton, not_or]
      refine ⟨hdis k' (by simp [hk']), ?_⟩
      rintro rfl; exact hnd.1 hk'
    cases b with
    | true =>
      simp only [VarDict.unflattenLoop, if_true, List.map_cons, namedSlices]
      obtain ⟨s1, s2⟩ := step (g.numStates.getD (g.names.idxOf k) 0)
        (slice flat start (start + g.numStates.getD (g.names.idxOf k) 0))
      rw [ih _ _ hnd.2 s1]
      simpa using s2
    | false =>
      simp only [VarDict.unflattenLoop, List.map_cons, namedSlices]
      obtain ⟨s1, s2⟩ := step 1 (slice flat start (start + 1))
      have := ih (start + 1) _ hnd.2 s1
      simp only [Bool.false_eq_true, if_false] at this s2 ⊢
      rw [this]
      simpa using s2

theorem namedSlices_map_fst (flat : List α) (start : Nat) (l : List (κ × Nat)) :
    (namedSlices flat start l).map (·.1) = l.map (·.1) := by
  induction l generalizing start with
  | nil => rfl
  | cons p l ih => simp [namedSlices, ih]

theorem namedSlices_flatten (flat : List α) (start : Nat) (l : List (κ × Nat)) :
    ((namedSlices flat start l).map (·.2)).flatten = slice flat start (start + (l.map (·.2)).sum) := by
  induction l generalizing start with
  | nil => simp [namedSlices, slice]
  | cons p l ih =>
    simp only [namedSlices, List.map_cons, List.flatten_cons, ih, List.sum_cons]
    rw [slice_append_slice _ _ _ _ (by omega) (by omega), add_assoc]

theorem namedSlices_getElem? (flat : List α) (start : Nat) (l : List (κ × Nat)) (i : Nat) :
    (namedSlices flat start l)[i]? = l[i]?.map (fun p =>
      (p.1, slice flat (start + ((l.map (·.2)).take i).sum) (start + ((l.map (·.2)).take i).sum + p.2))) := by
  induction l generalizing start i with
  | nil => simp [namedSlices]
  | cons p l ih =>
    cases i with
    | zero => simp [namedSlices]
    | succ i =>
      simp only [namedSlices, List.getElem?_cons_succ, ih, List.map_cons, List.take_succ_cons, List.sum_cons,
        add_assoc]

theorem idxOf_map_getD (names : List κ) (ns : List Nat) (hnd : names.Nodup) (hl : ns.length = names.length) :
    names.map (fun k => ns.getD (names.idxOf k) 0) = ns := by
  apply List.ext_getElem?
  intro i
  by_cases h : i < names.length
  · rw [List.getElem?_map, List.getElem?_eq_getElem h, List.getElem?_eq_getElem (by omega)]
    simp only [Option.map_some, hnd.idxOf_getElem i h, List.getD,
      List.getElem?_eq_getElem (show i < ns.length by omega), Option.getD_some]
  · rw [List.getElem?_eq_none (by simp; omega), List.getElem?_eq_none (by omega)]

theorem lookup_of_mem_nodup {β : Type _} (d : List (κ × β)) (hnd : (d.map (·.1)).Nodup) (k : κ) (v : β)
    (h : (k, v) ∈ d) : d.lookup k = some v := by
  induction d with
  | nil => simp at h
  | cons p d ih =>
    obtain ⟨k', v'⟩ := p
    simp only [List.map_cons, List.nodup_cons] at hnd
    rcases List.mem_cons.1 h with h | h'
    · simp only [Prod.mk.injEq] at h
      obtain ⟨rfl, rfl⟩ := h
      simp
    · have : k ≠ k' := by
        rintro rfl; exact hnd.1 (List.mem_map.2 ⟨(k, v), h', rfl⟩)
      rw [List.lookup_cons]
      have hb : (k == k') = false := by simpa using this
      simp [hb, ih hnd.2 h']

theorem lookup_isSome {β : Type _} (d : List (κ × β)) (k : κ) :
    (∃ v, d.lookup k = some v) ↔ k ∈ d.map (·.1) := by
  induction d with
  | nil => simp
  | cons p d ih =>
    obtain ⟨k', v'⟩ := p
    rw [List.lookup_cons]
    by_cases h : k = k'
    · subst h; simp
    · have hb : (k == k') = false := by simpa using h
      simp only [hb, ih]
      simp [h]

theorem mem_of_lookup {β : Type _} (d : List (κ × β)) (k : κ) (v : β) (h : d.lookup k = some v) : (k, v) ∈ d := by
  induction d with
  | nil => simp at h
  | cons p d ih =>
    obtain ⟨k', v'⟩ := p
    rw [List.lookup_cons] at h
    by_cases hk : k = k'
    · subst hk; simp at h; simp [h]
    · have hb : (k == k') = false := by simpa using hk
      simp only [hb] at h
      simp [ih h]

theorem dictGet_some {β : Type _} {d : List (κ × β)} {k : κ} {v : β} (h : d.lookup k = some v) :
    dictGet d k = .ok v := by simp [dictGet, h]

theorem dictGet_none {β : Type _} {d : List (κ × β)} {k : κ} (h : d.lookup k = none) :
    dictGet d k = .error .keyError := by simp [dictGet, h]

/-- When `flatten` succeeds, and its value. -/
theorem VarDict.flatten_eq (g : VarDict κ) (data : List (κ × NDArr α)) :
    g.flatten data =
      if data.any (fun p => g.flattenRejects p.1 p.2) then .error .valueError
      else (g.names.mapM (fun name => (dictGet data name).map (·.data))) >>= concatArrays := by
  unfold VarDict.flatten
  split
  · simp [bind, Except.bind, throw, throwThe, MonadExceptOf.throw]
  · simp only [bind, Except.bind, pure, Except.pure]

theorem concatArrays_ok {l : List (List α)} (h : l ≠ []) : concatArrays l = .ok l.flatten := by
  cases l with
  | nil => exact absurd rfl h
  | cons a l => rfl

theorem VarDict.flatten_ok (g : VarDict κ) (hne : g.names ≠ []) (data : List (κ × NDArr α))
    (hok : ∀ p ∈ data, g.flattenRejects p.1 p.2 = false) (f : κ → List α)
    (hf : ∀ k ∈ g.names, (data.lookup k).map (·.data) = some (f k)) :
    g.flatten data = .ok (g.names.map f).flatten := by
  rw [VarDict.flatten_eq, if_neg]
  · rw [mapM_ok _ f]
    · exact concatArrays_ok (by simpa using hne)
    · intro k hk
      have := hf k hk
      rw [Option.map_eq_some_iff] at this
      obtain ⟨arr, h1, h2⟩ := this
      rw [dictGet_some h1]; simp [h2, Except.map]
  · simp only [List.any_eq_true, not_exists, not_and, Bool.not_eq_true]
    exact hok

end PGMax
