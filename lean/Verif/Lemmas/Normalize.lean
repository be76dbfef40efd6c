import Verif.Lemmas.Logical
import Verif.Lemmas.Scatter
import Verif.Model.BP

/-! Helper lemmas: normalisation of messages. -/

namespace PGMax

variable {α : Type _}

theorem listMax_spec [LinearOrder α] [Field α] (o : α) (l : List α) (h : l ≠ []) : listMax o l ∈ l ∧ ∀ x ∈ l, x ≤ listMax o l := by
  cases l with
  | nil => exact absurd rfl h
  | cons x xs =>
    obtain ⟨h1, h2, h3⟩ := foldl_max_eq xs x
    refine ⟨?_, ?_⟩
    · rcases h3 with h3 | h3
      · rw [listMax, h3]; exact List.mem_cons_self
      · exact List.mem_cons_of_mem _ h3
    · intro y hy
      rcases List.mem_cons.1 hy with rfl | hy
      · exact h1
      · exact h2 y hy

theorem segStartIndices_at (lens : List Nat) (k : Nat) (hk : k < lens.length) :
    (segStartIndices lens)[k]? = some (if k = 0 then -100000 else ((lens.take k).sum : Int)) := by
  unfold segStartIndices
  rw [List.getElem?_dropLast, if_pos (by simp; omega)]
  cases k with
  | zero => rfl
  | succ k =>
    rw [List.getElem?_cons_succ, List.getElem?_map, cumsum, cumsumFrom_getElem? _ _ _ (by omega)]
    simp

theorem segStartIndices_length (lens : List Nat) : (segStartIndices lens).length = lens.length := by
  simp [segStartIndices]

section
variable [Field α] [LinearOrder α]

/-- The value that a message of length `n` starting at `p` is normalised by. -/
def segMaxAt (oob : α) (data : List α) (p n maxLen : Nat) : α :=
  listMax oob ((List.range maxLen).map (fun j => if j < n then data.getD (p + j) 0 else NEG_INF))

theorem segmentMaxOpt_length (env : Env α) (data : List α) (lens : List Nat) (m : Nat) : (segmentMaxOpt env data lens m).length = lens.length := by
  simp [segmentMaxOpt, segStartIndices_length]

theorem take_sum_le (lens : List Nat) (k n : Nat) (hk : lens[k]? = some n) : (lens.take k).sum + n ≤ lens.sum := by
  obtain ⟨h, rfl⟩ := List.getElem?_eq_some_iff.1 hk
  have : lens.sum = (lens.take k).sum + (lens.drop k).sum := by rw [← List.sum_append, List.take_append_drop]
  rw [this, List.drop_eq_getElem_cons h, List.sum_cons]
  omega

theorem segmentMaxOpt_at (env : Env α) (data : List α) (lens : List Nat) (hs : data.length = lens.sum) (maxLen : Nat)
    (hmax : ∀ n ∈ lens, n ≤ maxLen) (hw : env.wrapNeg = false ∨ data.length + maxLen ≤ 100000) (k n : Nat) (hk : lens[k]? = some n) :
    (segmentMaxOpt env data lens maxLen)[k]? = some (segMaxAt env.oob data (lens.take k).sum n maxLen) := by
  obtain ⟨hkl, hkn⟩ := List.getElem?_eq_some_iff.1 hk
  have hle := take_sum_le lens k n hk
  have hnm := hmax n (List.mem_of_getElem? hk)
  unfold segmentMaxOpt
  rw [zip_at _ (segStartIndices_at lens k hkl) hk]
  unfold segMaxAt
  refine congrArg (fun l => some (listMax env.oob l)) (List.map_congr_left ?_)
  intro j hj
  rw [List.mem_range] at hj
  by_cases hjn : j < n
  · rw [if_pos hjn, if_pos hjn]
    unfold dynamicSlice
    have hst : (max 0 (min (if env.wrapNeg && decide ((if k = 0 then (-100000 : Int) else ((lens.take k).sum : Int)) < 0)
        then (if k = 0 then (-100000 : Int) else ((lens.take k).sum : Int)) + ((data ++ List.replicate maxLen (0 : α)).length : Int)
        else (if k = 0 then (-100000 : Int) else ((lens.take k).sum : Int)))
        (((data ++ List.replicate maxLen (0 : α)).length : Int) - maxLen))).toNat = (lens.take k).sum := by
      simp only [List.length_append, List.length_replicate]
      by_cases h0 : k = 0
      · subst h0
        simp only [if_true, List.take_zero, List.sum_nil]
        rcases hw with hw | hw
        · simp [hw]
        · split <;> omega
      · simp only [if_neg h0]
        have : decide (((lens.take k).sum : Int) < 0) = false := by simp
        rw [this, Bool.and_false]
        simp only [Bool.false_eq_true, if_false]
        omega
    simp only [hst]
    rw [List.getD, slice_getElem?, if_pos (by omega), List.getElem?_append_left (by omega), List.getD]
    rw [List.getElem?_eq_getElem (by omega)]; rfl
  · rw [if_neg hjn, if_neg hjn]

theorem repeatTo_at (oob : α) (xs : List α) (lens : List Nat) (k n j : Nat) (x : α) (hk : lens[k]? = some n) (hx : xs[k]? = some x)
    (hl : xs.length = lens.length) (hj : j < n) : (repeatTo oob xs lens lens.sum)[(lens.take k).sum + j]? = some x := by
  have hle := take_sum_le lens k n hk
  unfold repeatTo
  have hflen : ((xs.zip lens).flatMap (fun p => List.replicate p.2 p.1)).length = lens.sum := by
    rw [List.length_flatMap]
    simp only [List.length_replicate]
    rw [show (fun a : α × Nat => a.2) = Prod.snd from rfl, List.map_snd_zip (by omega)]
  have hb := flatMap_getElem?_block (xs.zip lens) (fun p => List.replicate p.2 p.1) k j (x, n)
    (by rw [List.getElem?_zip_eq_some]; exact ⟨hx, hk⟩) (by simpa using hj)
  have htk : ((xs.zip lens).map (fun p => (List.replicate p.2 p.1).length)).take k = lens.take k := by
    simp only [List.length_replicate]
    rw [show (fun a : α × Nat => a.2) = Prod.snd from rfl, List.map_snd_zip (by omega)]
  simp only [hflen]
  rw [List.getElem?_append_left (by rw [List.length_take]; omega), List.getElem?_take_of_lt (by omega)]
  rw [htk] at hb
  rw [hb]
  simp [hj]

theorem normalizeAndClip_length (env : Env α) (msgs : List α) (lens : List Nat) (hs : msgs.length = lens.sum) (m : Nat) :
    (normalizeAndClip env msgs lens m).length = msgs.length := by
  have : (repeatTo env.oob (segmentMaxOpt env msgs lens m) lens msgs.length).length = msgs.length := by
    unfold repeatTo
    simp only [List.length_append, List.length_take, List.length_replicate]
    omega
  simp [normalizeAndClip, zipOp, this]

theorem normalizeAndClip_at (env : Env α) (msgs : List α) (lens : List Nat) (hs : msgs.length = lens.sum) (maxLen : Nat)
    (hmax : ∀ n ∈ lens, n ≤ maxLen) (hw : env.wrapNeg = false ∨ msgs.length + maxLen ≤ 100000) (k n j : Nat) (hk : lens[k]? = some n)
    (hj : j < n) :
    (normalizeAndClip env msgs lens maxLen)[(lens.take k).sum + j]? =
      some (max (msgs.getD ((lens.take k).sum + j) 0 - segMaxAt env.oob msgs (lens.take k).sum n maxLen) (-1000)) := by
  have hle := take_sum_le lens k n hk
  unfold normalizeAndClip
  have h1 : msgs[(lens.take k).sum + j]? = some (msgs.getD ((lens.take k).sum + j) 0) := by
    rw [List.getElem?_eq_getElem (by omega), getD_of_some (List.getElem?_eq_getElem (by omega))]
  have h2 := repeatTo_at env.oob (segmentMaxOpt env msgs lens maxLen) lens k n j _ hk (segmentMaxOpt_at env msgs lens hs maxLen hmax hw k n hk)
    (segmentMaxOpt_length _ _ _ _) hj
  rw [← hs] at h2
  exact map_at _ (zip_at (· - ·) h1 h2)

/-- What the normalising value is. -/
theorem segMaxAt_spec (oob : α) (data : List α) (p n maxLen : Nat) (hn : 0 < n) (hm : n ≤ maxLen) :
    (∀ j < n, data.getD (p + j) 0 ≤ segMaxAt oob data p n maxLen) ∧
    ((∃ j < n, segMaxAt oob data p n maxLen = data.getD (p + j) 0) ∨ (n < maxLen ∧ segMaxAt oob data p n maxLen = NEG_INF ∧
      ∀ j < n, data.getD (p + j) 0 ≤ NEG_INF)) ∧
    (n < maxLen → NEG_INF ≤ segMaxAt oob data p n maxLen) := by
  obtain ⟨h1, h2⟩ := listMax_spec oob ((List.range maxLen).map (fun j => if j < n then data.getD (p + j) 0 else NEG_INF))
    (by
      intro h
      have := congrArg List.length h
      simp at this
      omega)
  have h2' : ∀ j < n, data.getD (p + j) 0 ≤ segMaxAt oob data p n maxLen := by
    intro j hj
    have := h2 (data.getD (p + j) 0) (List.mem_map.2 ⟨j, List.mem_range.2 (by omega), if_pos hj⟩)
    exact this
  refine ⟨h2', ?_, ?_⟩
  · obtain ⟨j, hj, he⟩ := List.mem_map.1 h1
    rw [List.mem_range] at hj
    by_cases hjn : j < n
    · rw [if_pos hjn] at he
      exact .inl ⟨j, hjn, he.symm⟩
    · rw [if_neg hjn] at he
      have he' : segMaxAt oob data p n maxLen = NEG_INF := he.symm
      exact .inr ⟨by omega, he', fun j hj => he' ▸ h2' j hj⟩
  · intro hlt
    exact h2 NEG_INF (List.mem_map.2 ⟨n, List.mem_range.2 hlt, if_neg (by omega)⟩)

end

end PGMax
