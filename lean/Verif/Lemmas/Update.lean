import Verif.Lemmas.Block

/-! Helper lemmas about writing blocks of an array. -/

namespace PGMax

variable {α : Type _}

/-- The array `xs` with `vals` written from position `s` on. -/
def writeBlock (xs : List α) (s : Nat) (vals : List α) : List α := xs.take s ++ vals ++ xs.drop (s + vals.length)

theorem writeBlock_length (xs : List α) (s : Nat) (vals : List α) (h : s + vals.length ≤ xs.length) :
    (writeBlock xs s vals).length = xs.length := by
  simp [writeBlock]; omega

theorem writeBlock_getElem? (xs : List α) (s : Nat) (vals : List α) (h : s + vals.length ≤ xs.length) (p : Nat) :
    (writeBlock xs s vals)[p]? = if s ≤ p ∧ p < s + vals.length then vals[p - s]? else xs[p]? := by
  unfold writeBlock
  by_cases h1 : p < s
  · rw [if_neg (by omega), List.append_assoc, List.getElem?_append_left (by simp; omega), List.getElem?_take, if_pos h1]
  · by_cases h2 : p < s + vals.length
    · rw [if_pos (by omega), List.append_assoc, List.getElem?_append_right (by simp; omega), List.length_take,
        Nat.min_eq_left (by omega), List.getElem?_append_left (by omega)]
    · rw [if_neg (by omega), List.getElem?_append_right (by simp; omega), List.getElem?_drop]
      congr 1
      simp only [List.length_append, List.length_take]
      omega

theorem slice_writeBlock (xs : List α) (s : Nat) (vals : List α) (h : s + vals.length ≤ xs.length) :
    slice (writeBlock xs s vals) s (s + vals.length) = vals := by
  apply List.ext_getElem?
  intro i
  rw [slice_getElem?, writeBlock_getElem? xs s vals h]
  by_cases hi : i < vals.length
  · rw [if_pos (by omega), if_pos (by omega), Nat.add_sub_cancel_left]
  · rw [if_neg (by omega), List.getElem?_eq_none (by omega)]

theorem slice_writeBlock_disjoint (xs : List α) (s : Nat) (vals : List α) (h : s + vals.length ≤ xs.length) (t n : Nat)
    (hd : t + n ≤ s ∨ s + vals.length ≤ t ∨ n = 0 ∨ vals = []) :
    slice (writeBlock xs s vals) t (t + n) = slice xs t (t + n) := by
  apply List.ext_getElem?
  intro i
  rw [slice_getElem?, slice_getElem?, writeBlock_getElem? xs s vals h]
  by_cases hi : i < n
  · simp only [show t + i < t + n by omega, if_true]
    rw [if_neg]
    rcases hd with hd | hd | hd | hd
    · omega
    · omega
    · omega
    · subst hd; simp
  · simp only [show ¬ t + i < t + n by omega, if_false]

theorem writeBlock_comm (xs : List α) (s t : Nat) (v w : List α) (h : s + v.length ≤ xs.length)
    (h' : t + w.length ≤ xs.length) (hd : s + v.length ≤ t ∨ t + w.length ≤ s ∨ v = [] ∨ w = []) :
    writeBlock (writeBlock xs s v) t w = writeBlock (writeBlock xs t w) s v := by
  apply List.ext_getElem?
  intro p
  rw [writeBlock_getElem? _ t w (by rw [writeBlock_length _ _ _ h]; exact h'), writeBlock_getElem? _ s v h,
    writeBlock_getElem? _ s v (by rw [writeBlock_length _ _ _ h']; exact h), writeBlock_getElem? _ t w h']
  by_cases h1 : t ≤ p ∧ p < t + w.length
  · rw [if_pos h1]
    by_cases h2 : s ≤ p ∧ p < s + v.length
    · exfalso
      rcases hd with hd | hd | hd | hd
      · omega
      · omega
      · subst hd; simp at h2; omega
      · subst hd; simp at h1; omega
    · rw [if_neg h2, if_pos h1]
  · rw [if_neg h1]
    by_cases h2 : s ≤ p ∧ p < s + v.length
    · rw [if_pos h2, if_pos h2]
    · rw [if_neg h2, if_neg h2, if_neg h1]

/-- Slice assignment inside the array: a block of the right length, a broadcast single value, or an error. -/
theorem sliceAssign_block (xs : List α) (s n : Nat) (vals : List α) (h : s + n ≤ xs.length) :
    sliceAssign xs s (s + n) vals =
      if vals.length = n then .ok (writeBlock xs s vals)
      else match vals with
        | [v] => .ok (writeBlock xs s (List.replicate n v))
        | _ => .error .valueError := by
  unfold sliceAssign
  have h1 : min s xs.length = s := by omega
  have h2 : min (s + n) xs.length - s = n := by omega
  simp only [h1, h2]
  by_cases h3 : vals.length = n
  · rw [if_pos h3, if_pos h3, writeBlock, h3]
  · rw [if_neg h3, if_neg h3]
    match vals with
    | [] => rfl
    | [v] => simp [writeBlock]
    | _ :: _ :: _ => rfl

theorem sliceAssign_ok (xs : List α) (s n : Nat) (vals : List α) (h : s + n ≤ xs.length) (hv : vals.length = n) :
    sliceAssign xs s (s + n) vals = .ok (writeBlock xs s vals) := by
  rw [sliceAssign_block xs s n vals h, if_pos hv]

theorem sliceAssign_length (xs : List α) (s e : Nat) (vals ys : List α) (h : sliceAssign xs s e vals = .ok ys) :
    ys.length = xs.length := by
  unfold sliceAssign at h
  simp only at h
  split at h
  · rename_i hl
    cases h
    simp only [List.length_append, List.length_take, List.length_drop]
    omega
  · split at h
    · cases h
      simp only [List.length_append, List.length_take, List.length_drop, List.length_replicate]
      omega
    · cases h

/-- Running a list of updates in another order, when any two of them commute (exceptions are not distinguished). -/
theorem foldlM_perm {β γ : Type _} (f : β → γ → Py β) (R : γ → γ → Prop) (hsym : ∀ a b, R a b → R b a) (P : β → Prop)
    (hP : ∀ x a y, P x → f x a = .ok y → P y)
    (hcomm : ∀ x a b, P x → R a b → ∀ z, (f x a >>= fun y => f y b) = .ok z → (f x b >>= fun y => f y a) = .ok z)
    (l l' : List γ) (hp : l.Perm l') (hR : l.Pairwise R) (x : β) (hx : P x) (z : β) :
    l.foldlM f x = .ok z ↔ l'.foldlM f x = .ok z := by
  have bind_ok : ∀ {δ ε : Type _} (m : Py δ) (k : δ → Py ε) (z : ε),
      (m >>= k) = .ok z ↔ ∃ y, m = .ok y ∧ k y = .ok z := by
    intro δ ε m k z
    cases m with
    | error e => simp [bind, Except.bind]
    | ok y => simp [bind, Except.bind]
  induction hp generalizing x with
  | nil => rfl
  | cons a hp ih =>
    rw [List.pairwise_cons] at hR
    simp only [List.foldlM_cons]
    rw [bind_ok, bind_ok]
    constructor
    · rintro ⟨y, h1, h2⟩; exact ⟨y, h1, (ih hR.2 y (hP x a y hx h1)).1 h2⟩
    · rintro ⟨y, h1, h2⟩; exact ⟨y, h1, (ih hR.2 y (hP x a y hx h1)).2 h2⟩
  | swap a b l =>
    rw [List.pairwise_cons, List.pairwise_cons] at hR
    have hab : R b a := hR.1 a (by simp)
    simp only [List.foldlM_cons]
    constructor
    · intro h
      obtain ⟨y, h1, h2⟩ := (bind_ok _ _ _).1 h
      obtain ⟨w, h3, h4⟩ := (bind_ok _ _ _).1 h2
      have := hcomm x b a hx hab w ((bind_ok _ _ _).2 ⟨y, h1, h3⟩)
      obtain ⟨y', h5, h6⟩ := (bind_ok _ _ _).1 this
      exact (bind_ok _ _ _).2 ⟨y', h5, (bind_ok _ _ _).2 ⟨w, h6, h4⟩⟩
    · intro h
      obtain ⟨y, h1, h2⟩ := (bind_ok _ _ _).1 h
      obtain ⟨w, h3, h4⟩ := (bind_ok _ _ _).1 h2
      have := hcomm x a b hx (hsym _ _ hab) w ((bind_ok _ _ _).2 ⟨y, h1, h3⟩)
      obtain ⟨y', h5, h6⟩ := (bind_ok _ _ _).1 this
      exact (bind_ok _ _ _).2 ⟨y', h5, (bind_ok _ _ _).2 ⟨w, h6, h4⟩⟩
  | trans hp1 _ ih1 ih2 =>
    exact (ih1 hR x hx).trans (ih2 (hp1.pairwise hR (fun h => hsym _ _ h)) x hx)

end PGMax
