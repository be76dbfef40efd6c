import Verif.Model.Arr
import Mathlib.Algebra.BigOperators.Group.List.Basic
import Mathlib.Tactic.Ring
import Mathlib.Tactic.Linarith

/-! Helper lemmas about the array primitives. -/

namespace PGMax

/-! ### cumsum -/

@[simp] theorem cumsumFrom_length (a : Nat) (ns : List Nat) : (cumsumFrom a ns).length = ns.length := by
  induction ns generalizing a with
  | nil => rfl
  | cons n ns ih => simp [cumsumFrom, ih]

@[simp] theorem cumsum_length (ns : List Nat) : (cumsum ns).length = ns.length := by simp [cumsum]

@[simp] theorem cumsum0_length (ns : List Nat) : (cumsum0 ns).length = ns.length + 1 := by simp [cumsum0]

theorem cumsumFrom_getElem? (a : Nat) (ns : List Nat) (i : Nat) (h : i < ns.length) :
    (cumsumFrom a ns)[i]? = some (a + (ns.take (i + 1)).sum) := by
  induction ns generalizing a i with
  | nil => simp at h
  | cons n ns ih =>
    cases i with
    | zero => simp [cumsumFrom]
    | succ i =>
      simp only [List.length_cons, Nat.add_lt_add_iff_right] at h
      simp only [cumsumFrom, List.getElem?_cons_succ, ih _ _ h, List.take_succ_cons, List.sum_cons]
      simp only [Option.some.injEq]; omega

theorem cumsum0_getElem? (ns : List Nat) (i : Nat) (h : i ≤ ns.length) :
    (cumsum0 ns)[i]? = some (ns.take i).sum := by
  cases i with
  | zero => simp [cumsum0]
  | succ i => simp [cumsum0, cumsum, cumsumFrom_getElem? 0 ns i (by omega)]

theorem cumsum0_getD (ns : List Nat) (i : Nat) (h : i ≤ ns.length) :
    (cumsum0 ns).getD i 0 = (ns.take i).sum := by
  simp [List.getD, cumsum0_getElem? ns i h]

theorem cumsum0_eq_map (ns : List Nat) :
    cumsum0 ns = (List.range (ns.length + 1)).map (fun i => (ns.take i).sum) := by
  apply List.ext_getElem?
  intro i
  by_cases h : i ≤ ns.length
  · rw [cumsum0_getElem? ns i h]
    simp [List.getElem?_range (show i < ns.length + 1 by omega)]
  · rw [List.getElem?_eq_none (by simp; omega), List.getElem?_eq_none (by simp; omega)]

theorem cumsum0_getLastD (ns : List Nat) : (cumsum0 ns).getLastD 0 = ns.sum := by
  rw [cumsum0_eq_map, List.range_succ, List.map_append]
  simp

theorem cumsum0_dropLast (ns : List Nat) :
    (cumsum0 ns).dropLast = (List.range ns.length).map (fun i => (ns.take i).sum) := by
  rw [cumsum0_eq_map, List.range_succ, List.map_append]
  simp

theorem sum_take_succ_getD (ns : List Nat) (i : Nat) (h : i < ns.length) :
    (ns.take (i + 1)).sum = (ns.take i).sum + ns.getD i 0 := by
  rw [List.take_add_one, List.sum_append]
  simp [List.getD, h]

theorem sum_take_le (ns : List Nat) (i : Nat) : (ns.take i).sum ≤ ns.sum := by
  conv_rhs => rw [← List.take_append_drop i ns, List.sum_append]
  omega

theorem sum_take_mono (ns : List Nat) {i j : Nat} (h : i ≤ j) : (ns.take i).sum ≤ (ns.take j).sum := by
  have : ns.take i = (ns.take j).take i := by rw [List.take_take]; congr 1; omega
  rw [this]; exact sum_take_le _ _

/-! ### slices -/

theorem sliceAssign_eq {α : Type _} (xs : List α) (start stop : Nat) (vals : List α)
    (h1 : stop ≤ xs.length) (h2 : start + vals.length = stop) :
    sliceAssign xs start stop vals = .ok (xs.take start ++ vals ++ xs.drop stop) := by
  have hs : min start xs.length = start := by omega
  have ht : min stop xs.length = stop := by omega
  have hl : stop - start = vals.length := by omega
  simp only [sliceAssign, hs, ht, hl, if_true]
  rw [h2]

/-- Assigning one value to a slice. -/
theorem sliceAssign_one {α : Type _} (xs : List α) (start stop : Nat) (v : α)
    (h1 : stop ≤ xs.length) (h2 : start ≤ stop) :
    sliceAssign xs start stop [v]
      = .ok (xs.take start ++ List.replicate (stop - start) v ++ xs.drop stop) := by
  have hs : min start xs.length = start := by omega
  have ht : min stop xs.length = stop := by omega
  simp only [sliceAssign, hs, ht]
  have h3 : start + (stop - start) = stop := by omega
  split
  · rename_i h; simp at h; rw [h3, ← h]; simp
  · simp [h3]

@[simp] theorem slice_length {α : Type _} (xs : List α) (a b : Nat) :
    (slice xs a b).length = min b xs.length - a := by simp [slice]

theorem slice_getElem? {α : Type _} (xs : List α) (a b i : Nat) :
    (slice xs a b)[i]? = if a + i < b then xs[a + i]? else none := by
  simp only [slice, List.getElem?_drop, List.getElem?_take]

theorem slice_append_mid {α : Type _} (xs ys zs : List α) :
    slice (xs ++ ys ++ zs) xs.length (xs.length + ys.length) = ys := by
  simp [slice, List.take_append, List.drop_append]

/-- Concatenating consecutive slices. -/
theorem slice_append_slice {α : Type _} (xs : List α) (a b c : Nat) (h1 : a ≤ b) (h2 : b ≤ c) :
    slice xs a b ++ slice xs b c = slice xs a c := by
  simp only [slice]
  have hb : xs.take b = (xs.take c).take b := by rw [List.take_take]; congr 1; omega
  rw [hb]
  generalize xs.take c = l
  conv_rhs => rw [← List.take_append_drop b l, List.drop_append]
  by_cases hl : b ≤ l.length
  · have : (l.take b).length = b := by simp; omega
    rw [this, show a - b = 0 by omega, List.drop_zero]
  · have h3 : l.drop b = [] := by simp; omega
    simp [h3]

theorem slice_zero {α : Type _} (xs : List α) (b : Nat) : slice xs 0 b = xs.take b := by simp [slice]

theorem slice_full {α : Type _} (xs : List α) : slice xs 0 xs.length = xs := by simp [slice]

/-! ### scatter and gather -/

theorem scatterWith_nil_left {α β : Type _} (f : α → β → α) (xs : List α) (vals : List β) :
    scatterWith f xs [] vals = xs := by simp [scatterWith]

theorem scatterWith_nil_right {α β : Type _} (f : α → β → α) (xs : List α) (idx : List Nat) :
    scatterWith f xs idx [] = xs := by simp [scatterWith]

theorem scatterWith_cons {α β : Type _} (f : α → β → α) (xs : List α) (i : Nat) (idx : List Nat) (v : β)
    (vals : List β) :
    scatterWith f xs (i :: idx) (v :: vals) = scatterWith f (xs.modify i (fun x => f x v)) idx vals := by
  simp [scatterWith]

@[simp] theorem scatterWith_length {α β : Type _} (f : α → β → α) (xs : List α) (idx : List Nat)
    (vals : List β) : (scatterWith f xs idx vals).length = xs.length := by
  induction idx generalizing xs vals with
  | nil => simp [scatterWith]
  | cons i idx ih =>
    cases vals with
    | nil => simp [scatterWith]
    | cons v vals => rw [scatterWith_cons, ih]; simp

/-- The values sent to position `k`, in order. -/
def hits {β : Type _} (idx : List Nat) (vals : List β) (k : Nat) : List β :=
  ((idx.zip vals).filter (fun p => p.1 == k)).map (·.2)

/-- The key lemma: position `k` of a scatter folds exactly the values whose index is `k`. -/
theorem scatterWith_getElem? {α β : Type _} (f : α → β → α) (xs : List α) (idx : List Nat)
    (vals : List β) (k : Nat) :
    (scatterWith f xs idx vals)[k]? = xs[k]?.map (fun x => (hits idx vals k).foldl f x) := by
  induction idx generalizing xs vals with
  | nil => simp [scatterWith, hits]
  | cons i idx ih =>
    cases vals with
    | nil => simp [scatterWith, hits]
    | cons v vals =>
      rw [scatterWith_cons, ih]
      by_cases h : i = k
      · subst h
        simp [hits, List.getElem?_modify_eq]
        cases xs[i]? <;> simp
      · simp only [hits, List.zip_cons_cons, List.filter_cons]
        have : (i == k) = false := by simp [h]
        simp [this, List.getElem?_modify, h]

@[simp] theorem gather_length {α : Type _} (oob : α) (xs : List α) (idx : List Nat) :
    (gather oob xs idx).length = idx.length := by simp [gather]

theorem gather_getElem? {α : Type _} (oob : α) (xs : List α) (idx : List Nat) (i : Nat) :
    (gather oob xs idx)[i]? = idx[i]?.map (fun j => xs.getD j oob) := by simp [gather]

theorem foldl_add_sum {α : Type _} [AddCommMonoid α] (l : List α) (x : α) :
    l.foldl (· + ·) x = x + l.sum := by
  induction l generalizing x with
  | nil => simp
  | cons a l ih => simp [ih, add_assoc]

@[simp] theorem tile_length {α : Type _} (xs : List α) (k : Nat) : (tile xs k).length = k * xs.length := by
  simp [tile, List.length_flatten]

end PGMax
