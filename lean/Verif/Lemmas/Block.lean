import Verif.Lemmas.Arr

/-! Block structure of concatenated arrays: position `(ns.take k).sum + s` is entry `s` of block `k`. -/

namespace PGMax

theorem flatten_getElem?_block {β : Type _} (L : List (List β)) (k s : Nat)
    (hs : s < (L.getD k []).length) :
    L.flatten[((L.map List.length).take k).sum + s]? = (L.getD k [])[s]? := by
  induction L generalizing k with
  | nil => simp at hs
  | cons l L ih =>
    cases k with
    | zero =>
      simp only [List.getD_cons_zero] at hs ⊢
      simp [List.getElem?_append_left hs]
    | succ k =>
      simp only [List.getD_cons_succ] at hs ⊢
      simp only [List.flatten_cons, List.map_cons, List.take_succ_cons, List.sum_cons]
      rw [List.getElem?_append_right (by omega), ← ih k hs]
      congr 1; omega

theorem flatMap_getElem?_block {γ β : Type _} (l : List γ) (f : γ → List β) (k s : Nat) (x : γ)
    (hx : l[k]? = some x) (hs : s < (f x).length) :
    (l.flatMap f)[((l.map (fun y => (f y).length)).take k).sum + s]? = (f x)[s]? := by
  have h : (l.map f).getD k [] = f x := by simp [List.getD, hx]
  have := flatten_getElem?_block (l.map f) k s (by rw [h]; exact hs)
  rw [h, List.map_map] at this
  rw [← this, List.flatMap_def]
  rfl

/-- Every flat position lies in some block. -/
theorem exists_block (ns : List Nat) (j : Nat) (h : j < ns.sum) :
    ∃ k s, k < ns.length ∧ s < ns.getD k 0 ∧ j = (ns.take k).sum + s := by
  induction ns generalizing j with
  | nil => simp at h
  | cons n ns ih =>
    by_cases hj : j < n
    · exact ⟨0, j, by simp, by simpa using hj, by simp⟩
    · simp only [List.sum_cons] at h
      obtain ⟨k, s, hk, hs, e⟩ := ih (j - n) (by omega)
      exact ⟨k + 1, s, by simpa using hk, by simpa using hs, by simp; omega⟩

theorem block_lt (ns : List Nat) (k s : Nat) (hk : k < ns.length) (hs : s < ns.getD k 0) :
    (ns.take k).sum + s < ns.sum := by
  have h1 := sum_take_succ_getD ns k hk
  have h2 := sum_take_le ns (k + 1)
  omega

/-- The block and the offset of a flat position are unique. -/
theorem block_inj (ns : List Nat) (k k' s s' : Nat) (hk : k < ns.length) (hk' : k' < ns.length)
    (hs : s < ns.getD k 0) (hs' : s' < ns.getD k' 0)
    (h : (ns.take k).sum + s = (ns.take k').sum + s') : k = k' ∧ s = s' := by
  have hkk : k = k' := by
    by_contra hne
    rcases Nat.lt_or_gt_of_ne hne with hlt | hlt
    · have h1 := sum_take_succ_getD ns k hk
      have h2 := sum_take_mono ns (show k + 1 ≤ k' by omega)
      omega
    · have h1 := sum_take_succ_getD ns k' hk'
      have h2 := sum_take_mono ns (show k' + 1 ≤ k by omega)
      omega
  subst hkk
  exact ⟨rfl, by omega⟩

theorem sum_replicate_take (n m k : Nat) (h : k ≤ n) : ((List.replicate n m).take k).sum = k * m := by
  rw [List.take_replicate]; simp [Nat.min_eq_left h]

/-- Hits of an index array without duplicates. -/
theorem hits_nodup {β : Type _} (idx : List Nat) (vals : List β) (hnd : idx.Nodup) (j k : Nat) (v : β)
    (hj : idx[j]? = some k) (hv : vals[j]? = some v) : hits idx vals k = [v] := by
  induction idx generalizing vals j with
  | nil => simp at hj
  | cons i idx ih =>
    cases vals with
    | nil => simp at hv
    | cons w vals =>
      simp only [List.nodup_cons] at hnd
      cases j with
      | zero =>
        simp only [List.getElem?_cons_zero, Option.some.injEq] at hj hv
        subst hj; subst hv
        have : (idx.zip vals).filter (fun p => p.1 == i) = [] := by
          rw [List.filter_eq_nil_iff]
          rintro ⟨a, b⟩ hp
          have := (List.of_mem_zip hp).1
          simp only [beq_iff_eq]
          rintro rfl
          exact hnd.1 this
        simp [hits, this]
      | succ j =>
        simp only [List.getElem?_cons_succ] at hj hv
        have hne : i ≠ k := by
          rintro rfl
          exact hnd.1 (List.mem_of_getElem? hj)
        have := ih vals hnd.2 j hj hv
        simp only [hits] at this ⊢
        simp [hne, this]

theorem hits_not_mem {β : Type _} (idx : List Nat) (vals : List β) (k : Nat) (h : k ∉ idx) : hits idx vals k = [] := by
  simp only [hits, List.map_eq_nil_iff, List.filter_eq_nil_iff]
  rintro ⟨a, b⟩ hp
  have := (List.of_mem_zip hp).1
  simp only [beq_iff_eq]
  rintro rfl
  exact h this

theorem scatterSet_getElem?_hit {α : Type _} (xs : List α) (idx : List Nat) (vals : List α) (hnd : idx.Nodup)
    (j k : Nat) (v : α) (hj : idx[j]? = some k) (hv : vals[j]? = some v) (hk : k < xs.length) :
    (scatterSet xs idx vals)[k]? = some v := by
  rw [scatterSet, scatterWith_getElem?, hits_nodup idx vals hnd j k v hj hv]
  simp [List.getElem?_eq_getElem hk]

theorem scatterSet_getElem?_miss {α : Type _} (xs : List α) (idx : List Nat) (vals : List α)
    (k : Nat) (h : k ∉ idx) : (scatterSet xs idx vals)[k]? = xs[k]? := by
  rw [scatterSet, scatterWith_getElem?, hits_not_mem idx vals k h]
  simp

@[simp] theorem scatterSet_length {α : Type _} (xs : List α) (idx : List Nat) (vals : List α) :
    (scatterSet xs idx vals).length = xs.length := scatterWith_length _ _ _ _
@[simp] theorem scatterAdd_length {α : Type _} [Add α] (xs : List α) (idx : List Nat) (vals : List α) :
    (scatterAdd xs idx vals).length = xs.length := scatterWith_length _ _ _ _
@[simp] theorem scatterMax_length {α : Type _} [Max α] (xs : List α) (idx : List Nat) (vals : List α) :
    (scatterMax xs idx vals).length = xs.length := scatterWith_length _ _ _ _

theorem mapM_ok {β γ : Type _} (f : β → Py γ) (g : β → γ) (l : List β) (h : ∀ x ∈ l, f x = .ok (g x)) :
    l.mapM f = .ok (l.map g) := by
  induction l with
  | nil => rfl
  | cons x l ih =>
    rw [List.mapM_cons, h x (by simp), ih (fun y hy => h y (by simp [hy]))]
    rfl

/-- If a `mapM` succeeds, it succeeded on every element. -/
theorem mapM_ok_inv {β γ : Type _} (f : β → Py γ) (l : List β) (r : List γ) (h : l.mapM f = .ok r) :
    List.Forall₂ (fun x y => f x = .ok y) l r := by
  induction l generalizing r with
  | nil => simp [pure, Except.pure] at h; subst h; exact .nil
  | cons x l ih =>
    rw [List.mapM_cons] at h
    cases hx : f x with
    | error e => rw [hx] at h; simp [bind, Except.bind] at h
    | ok y =>
      rw [hx] at h
      cases hl : l.mapM f with
      | error e => rw [hl] at h; simp [bind, Except.bind] at h
      | ok ys =>
        rw [hl] at h
        simp [bind, Except.bind, pure, Except.pure] at h
        subst h
        exact .cons hx (ih ys hl)

theorem forall₂_mem_left {β γ : Type _} {R : β → γ → Prop} {l : List β} {r : List γ} (h : List.Forall₂ R l r)
    {x : β} (hx : x ∈ l) : ∃ y ∈ r, R x y := by
  induction h with
  | nil => simp at hx
  | cons h1 _ ih =>
    rcases List.mem_cons.1 hx with rfl | hx
    · exact ⟨_, by simp, h1⟩
    · obtain ⟨y, hy, hr⟩ := ih hx
      exact ⟨y, by simp [hy], hr⟩

theorem forall₂_getElem? {β γ : Type _} {R : β → γ → Prop} {l : List β} {r : List γ} (h : List.Forall₂ R l r)
    {i : Nat} {x : β} (hx : l[i]? = some x) : ∃ y, r[i]? = some y ∧ R x y := by
  induction h generalizing i with
  | nil => simp at hx
  | cons h1 _ ih =>
    cases i with
    | zero => simp at hx; subst hx; exact ⟨_, by simp, h1⟩
    | succ i => simp at hx; simpa using ih hx

/-- If one element fails, the `mapM` fails. -/
theorem mapM_error {β γ : Type _} (f : β → Py γ) (l : List β) (x : β) (hx : x ∈ l) (e : PyErr)
    (he : f x = .error e) : ∃ e', l.mapM f = .error e' := by
  cases h : l.mapM f with
  | error e' => exact ⟨e', rfl⟩
  | ok r =>
    have := mapM_ok_inv f l r h
    obtain ⟨y, -, hy⟩ := forall₂_mem_left this hx
    rw [he] at hy; cases hy

end PGMax
