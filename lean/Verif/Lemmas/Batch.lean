import Verif.Model.Batch
import Verif.Lemmas.Beliefs
import Verif.Lemmas.Enums
import Verif.Lemmas.Rows

/-! Helper lemmas: batches. -/

namespace PGMax

variable {κ α β γ : Type _}

/-- `X` is the batch of the arrays `xs`, which have shape `s`. -/
structure IsBatch (xs : List (NDArr β)) (s : List Nat) (X : NDArr β) : Prop where
  eq : X = ⟨xs.length :: s, xs.flatMap (fun x => x.data)⟩
  shape : ∀ x ∈ xs, x.shape = s
  wf : ∀ x ∈ xs, x.data.length = s.prod

theorem IsBatch.sample {xs : List (NDArr β)} {s : List Nat} {X : NDArr β} (h : IsBatch xs s X) {i : Nat} {x : NDArr β} (hi : xs[i]? = some x) : X.sample i = x := by
  have hx := List.mem_of_getElem? hi
  have h1 : slice (xs.flatMap (fun x => x.data)) (i * s.prod) (i * s.prod + s.prod) = x.data := by
    apply List.ext_getElem?
    intro j
    rw [slice_getElem?]
    by_cases hj : j < s.prod
    · rw [if_pos (by omega), flatMap_row xs (fun x => x.data) s.prod i j h.wf hi hj]
    · rw [if_neg (by omega), List.getElem?_eq_none (by rw [h.wf x hx]; omega)]
  rw [h.eq]
  unfold NDArr.sample
  simp only [List.tail_cons]
  rw [h1, ← h.shape x hx]

theorem rows_append (a b : List β) (q k m : Nat) (ha : a.length = q * m) : rows (a ++ b) (q + k) m = rows a q m ++ rows b k m := by
  unfold rows
  rw [List.range_add, List.map_append, List.map_map]
  congr 1
  · apply List.map_congr_left
    intro i hi
    rw [List.mem_range] at hi
    have h1 : i * m + m ≤ q * m := by nlinarith
    apply List.ext_getElem?
    intro j
    rw [slice_getElem?, slice_getElem?]
    split
    · rw [List.getElem?_append_left (by omega)]
    · rfl
  · apply List.map_congr_left
    intro i hi
    rw [Function.comp_apply]
    apply List.ext_getElem?
    intro j
    have h1 : (q + i) * m = q * m + i * m := by ring
    rw [slice_getElem?, slice_getElem?, h1]
    by_cases hj : j < m
    · rw [if_pos (by omega), if_pos (by omega), List.getElem?_append_right (by omega)]
      congr 1
      omega
    · rw [if_neg (by omega), if_neg (by omega)]

theorem rows_batch (xs : List (NDArr β)) (q m : Nat) (h : ∀ x ∈ xs, x.data.length = q * m) :
    rows (xs.flatMap (fun x => x.data)) (xs.length * q) m = xs.flatMap (fun x => rows x.data q m) := by
  induction xs with
  | nil => simp [rows]
  | cons x xs ih =>
    rw [List.flatMap_cons, List.flatMap_cons, List.length_cons, Nat.add_mul, one_mul, Nat.add_comm, rows_append _ _ _ _ _ (h x (by simp)), ih (fun y hy => h y (by simp [hy]))]

/-- A function that treats the rows along the last axis one by one. -/
structure Rowwise (f : NDArr β → Py (NDArr γ)) where
  bad : Nat → Bool
  size : List Nat → List Nat
  row : List β → List γ
  len : Nat → Nat
  size_cons : ∀ n s, s ≠ [] → size (n :: s) = n :: size s
  size_prod : ∀ s m, s.getLast? = some m → (size s).prod = s.dropLast.prod * len m
  row_length : ∀ r, (row r).length = len r.length
  eq : ∀ a m, a.shape.getLast? = some m → f a = if bad m then .error .valueError else .ok ⟨size a.shape, (rows a.data a.shape.dropLast.prod m).flatMap row⟩

theorem prod_last (s : List Nat) (m : Nat) (h : s.getLast? = some m) : s.dropLast.prod * m = s.prod := by
  obtain ⟨l, rfl⟩ := List.getLast?_eq_some_iff.1 h
  rw [List.dropLast_concat, List.prod_append, List.prod_singleton]

theorem rows_mem_length (xs : List β) (q m : Nat) (h : xs.length = q * m) (r : List β) (hr : r ∈ rows xs q m) : r.length = m := by
  obtain ⟨i, hi, rfl⟩ := List.mem_map.1 hr
  rw [List.mem_range] at hi
  have : i * m + m ≤ q * m := by nlinarith
  rw [slice_length]
  omega

theorem flatMap_length_const {β γ : Type _} (l : List β) (g : β → List γ) (k : Nat) (h : ∀ x ∈ l, (g x).length = k) : (l.flatMap g).length = l.length * k := by
  induction l with
  | nil => simp
  | cons x l ih => rw [List.flatMap_cons, List.length_append, h x (by simp), ih (fun y hy => h y (by simp [hy])), List.length_cons]; ring

/-- Batches may be mapped as a whole. -/
theorem Rowwise.batch {f : NDArr β → Py (NDArr γ)} (r : Rowwise f) {xs : List (NDArr β)} {s : List Nat} {X : NDArr β} (h : IsBatch xs s X) (hs : s ≠ []) :
    (f X = .error .valueError ∧ ∀ x ∈ xs, f x = .error .valueError) ∨
    ∃ (Y : NDArr γ) (y : NDArr β → NDArr γ), f X = .ok Y ∧ (∀ x ∈ xs, f x = .ok (y x)) ∧ IsBatch (xs.map y) (r.size s) Y := by
  obtain ⟨m, hm⟩ : ∃ m, s.getLast? = some m := by
    cases e : s.getLast? with
    | none => exact absurd (List.getLast?_eq_none_iff.1 e) hs
    | some m => exact ⟨m, rfl⟩
  have hX : X.shape.getLast? = some m := by
    rw [h.eq]
    obtain ⟨l, rfl⟩ := List.getLast?_eq_some_iff.1 hm
    show (xs.length :: (l ++ [m])).getLast? = some m
    exact List.getLast?_eq_some_iff.2 ⟨xs.length :: l, rfl⟩
  have hx : ∀ x ∈ xs, x.shape.getLast? = some m := fun x hx => by rw [h.shape x hx, hm]
  by_cases hb : r.bad m = true
  · left
    refine ⟨by rw [r.eq X m hX, if_pos hb], fun x hx' => by rw [r.eq x m (hx x hx'), if_pos hb]⟩
  right
  have hw : ∀ x ∈ xs, x.data.length = s.dropLast.prod * m := fun x hx => by rw [h.wf x hx, prod_last s m hm]
  refine ⟨⟨r.size X.shape, (rows X.data X.shape.dropLast.prod m).flatMap r.row⟩, fun x => ⟨r.size s, (rows x.data s.dropLast.prod m).flatMap r.row⟩,
    by rw [r.eq X m hX, if_neg hb], fun x hx' => by rw [r.eq x m (hx x hx'), if_neg hb, h.shape x hx'], ?_, ?_, ?_⟩
  · have hd : (xs.length :: s).dropLast.prod = xs.length * s.dropLast.prod := by
      cases s with
      | nil => exact absurd rfl hs
      | cons => simp
    rw [h.eq]
    simp only [r.size_cons _ _ hs, List.length_map, hd]
    rw [rows_batch xs _ m hw, List.flatMap_assoc, List.flatMap_map]
  · rintro _ hy
    obtain ⟨x, -, rfl⟩ := List.mem_map.1 hy
    rfl
  · rintro _ hy
    obtain ⟨x, hx', rfl⟩ := List.mem_map.1 hy
    show ((rows x.data s.dropLast.prod m).flatMap r.row).length = _
    rw [flatMap_length_const _ _ (r.len m) (fun l hl => by rw [r.row_length, rows_mem_length _ _ _ (hw x hx') l hl]), r.size_prod s m hm]
    simp [rows]

/-- `argmax` over the last axis. -/
def argmaxRowwise [LinearOrder β] : Rowwise (argmaxLast (β := β)) where
  bad m := decide (m = 0)
  size s := s.dropLast
  row l := [argmax l]
  len _ := 1
  size_cons n s hs := by cases s with
    | nil => exact absurd rfl hs
    | cons => simp
  size_prod s m _ := by simp
  row_length _ := rfl
  eq a m hm := by
    unfold argmaxLast
    rw [hm]
    simp only [decide_eq_true_eq]
    congr 3
    induction rows a.data a.shape.dropLast.prod m with
    | nil => rfl
    | cons r l ih => simp [ih]

theorem marginalRow_length [Field α] [LinearOrder α] (env : Env α) (l : List (WithBot α)) : (marginalRow env l).length = l.length := by
  unfold marginalRow
  split <;> simp

/-- The map of `get_marginals`. -/
def marginalsRowwise [Field α] [LinearOrder α] (env : Env α) : Rowwise (marginalsLast env) where
  bad _ := false
  size s := s
  row := marginalRow env
  len m := m
  size_cons _ _ _ := rfl
  size_prod s m hm := (prod_last s m hm).symm
  row_length := marginalRow_length env
  eq a m hm := by
    unfold marginalsLast
    rw [hm]
    rfl

theorem stackArrs_ok {xs : List (NDArr β)} {s : List Nat} (hne : xs ≠ []) (hs : ∀ x ∈ xs, x.shape = s) (hw : ∀ x ∈ xs, x.data.length = s.prod) :
    ∃ X, stackArrs xs = .ok X ∧ IsBatch xs s X := by
  cases xs with
  | nil => exact absurd rfl hne
  | cons x xs =>
    refine ⟨_, ?_, rfl, hs, hw⟩
    unfold stackArrs
    dsimp only
    rw [if_pos (by
      rw [List.all_eq_true]
      intro y hy
      rw [decide_eq_true_eq, hs y hy, hs x (by simp)]), hs x (by simp)]

/-- The trees have the same structure, and arrays of the same shapes. -/
structure Alike (t u : PyTree κ β) : Prop where
  treedef : t.treedef = u.treedef
  shapes : t.leaves.map (fun a => a.shape) = u.leaves.map (fun a => a.shape)

/-- `X` is the batch of the trees `ts`. -/
structure IsBatchTree (ts : List (PyTree κ β)) (X : PyTree κ β) : Prop where
  treedef : ∀ t ∈ ts, t.treedef = X.treedef
  length : ∀ t ∈ ts, t.leaves.length = X.leaves.length
  leaf : ∀ j A, X.leaves[j]? = some A → ∃ s, IsBatch (ts.map (fun t => t.leaves.getD j ⟨[], []⟩)) s A

theorem IsBatchTree.sample {ts : List (PyTree κ β)} {X : PyTree κ β} (h : IsBatchTree ts X) {i : Nat} {t : PyTree κ β} (hi : ts[i]? = some t) : X.sample i = t := by
  have ht := List.mem_of_getElem? hi
  unfold PyTree.sample
  cases t with
  | mk td ls =>
  have h1 := h.treedef _ ht
  have h2 := h.length _ ht
  dsimp only at h1 h2
  congr 1
  · exact h1.symm
  · apply List.ext_getElem?
    intro j
    rw [List.getElem?_map]
    cases e : X.leaves[j]? with
    | none =>
      rw [List.getElem?_eq_none_iff] at e
      rw [List.getElem?_eq_none (by omega)]
      rfl
    | some A =>
      obtain ⟨s, hb⟩ := h.leaf j A e
      have hj := (List.getElem?_eq_some_iff.1 e).1
      rw [Option.map_some, hb.sample (i := i) (x := ls.getD j ⟨[], []⟩) (by rw [List.getElem?_map, hi]; rfl), List.getD, List.getElem?_eq_getElem (by omega)]
      rfl

theorem stackTrees_ok {ts : List (PyTree κ β)} (hne : ts ≠ []) (ha : ∀ t ∈ ts, ∀ u ∈ ts, Alike t u) (hw : ∀ t ∈ ts, ∀ a ∈ t.leaves, a.WF) :
    ∃ X, stackTrees ts = .ok X ∧ IsBatchTree ts X := by
  cases ts with
  | nil => exact absurd rfl hne
  | cons t ts =>
    have hlen : ∀ u ∈ t :: ts, u.leaves.length = t.leaves.length := by
      intro u hu
      have := congrArg List.length (ha u hu t (by simp)).shapes
      simpa using this
    have key : ∀ j, ∃ A, j < t.leaves.length → stackArrs ((t :: ts).map (fun u => u.leaves.getD j ⟨[], []⟩)) = .ok A ∧
        IsBatch ((t :: ts).map (fun u => u.leaves.getD j ⟨[], []⟩)) (t.leaves.getD j ⟨[], []⟩).shape A := by
      intro j
      by_cases hj : j < t.leaves.length
      swap
      · exact ⟨⟨[], []⟩, fun h => absurd h hj⟩
      have hsh : ∀ u ∈ t :: ts, (u.leaves.getD j ⟨[], []⟩).shape = (t.leaves.getD j ⟨[], []⟩).shape ∧ (u.leaves.getD j ⟨[], []⟩).WF := by
        intro u hu
        have h1 := congrArg (fun l => l[j]?) (ha u hu t (by simp)).shapes
        have h2 := hlen u hu
        simp only [List.getElem?_map] at h1
        rw [List.getElem?_eq_getElem (by omega), List.getElem?_eq_getElem (by omega)] at h1
        rw [List.getD, List.getD, List.getElem?_eq_getElem (by omega), List.getElem?_eq_getElem (by omega)]
        exact ⟨by simpa using h1, hw u hu _ (List.getElem_mem _)⟩
      obtain ⟨A, h1, h2⟩ := stackArrs_ok (xs := (t :: ts).map (fun u => u.leaves.getD j ⟨[], []⟩)) (s := (t.leaves.getD j ⟨[], []⟩).shape) (by simp) (by
        rintro _ hx
        obtain ⟨u, hu, rfl⟩ := List.mem_map.1 hx
        exact (hsh u hu).1) (by
        rintro _ hx
        obtain ⟨u, hu, rfl⟩ := List.mem_map.1 hx
        rw [← (hsh u hu).1]
        exact (hsh u hu).2)
      exact ⟨A, fun _ => ⟨h1, h2⟩⟩
    choose A hA using key
    refine ⟨⟨t.treedef, (List.range t.leaves.length).map A⟩, ?_, ?_, ?_, ?_⟩
    · unfold stackTrees
      dsimp only
      rw [mapM_ok _ A _ (fun j hj => (hA j (List.mem_range.1 hj)).1), py_ok_bind]
      rfl
    · exact fun u hu => (ha u hu t (by simp)).treedef
    · intro u hu
      simp only [List.length_map, List.length_range]
      exact hlen u hu
    · intro j B hB'
      dsimp only at hB'
      rw [List.getElem?_map] at hB'
      have hj : j < t.leaves.length := by
        by_contra hc
        rw [List.getElem?_eq_none (by simpa using hc)] at hB'
        cases hB'
      rw [List.getElem?_range hj, Option.map_some] at hB'
      cases hB'
      exact ⟨_, (hA j hj).2⟩

/-- A batch of trees may be mapped as a whole. -/
theorem Rowwise.batchTree {f : NDArr β → Py (NDArr γ)} (r : Rowwise f) {ts : List (PyTree κ β)} {X : PyTree κ β} (h : IsBatchTree ts X) (hne : ts ≠ [])
    (hs : ∀ t ∈ ts, ∀ a ∈ t.leaves, a.shape ≠ []) :
    (X.mapM f = .error .valueError ∧ ∀ t ∈ ts, t.mapM f = .error .valueError) ∨
    ∃ (Y : PyTree κ γ) (y : PyTree κ β → PyTree κ γ), X.mapM f = .ok Y ∧ (∀ t ∈ ts, t.mapM f = .ok (y t)) ∧ IsBatchTree (ts.map y) Y := by
  have hget : ∀ t ∈ ts, ∀ j (hj : j < t.leaves.length), t.leaves.getD j ⟨[], []⟩ = t.leaves[j] := by
    intro t ht j hj
    rw [List.getD, List.getElem?_eq_getElem hj]
    rfl
  have hleaf : ∀ j (hj : j < X.leaves.length), (f X.leaves[j] = .error .valueError ∧ ∀ t ∈ ts, f (t.leaves.getD j ⟨[], []⟩) = .error .valueError) ∨
      ∃ Y y s, f X.leaves[j] = .ok Y ∧ (∀ t ∈ ts, f (t.leaves.getD j ⟨[], []⟩) = .ok (y (t.leaves.getD j ⟨[], []⟩))) ∧
        IsBatch ((ts.map (fun t => t.leaves.getD j ⟨[], []⟩)).map y) s Y := by
    intro j hj
    obtain ⟨s, hb⟩ := h.leaf j _ (List.getElem?_eq_getElem hj)
    have hs' : s ≠ [] := by
      obtain ⟨t, ht⟩ := List.exists_mem_of_ne_nil ts hne
      rw [← hb.shape _ (List.mem_map.2 ⟨t, ht, rfl⟩), hget t ht j (by rw [h.length t ht]; exact hj)]
      exact hs t ht _ (List.getElem_mem _)
    rcases r.batch hb hs' with ⟨h1, h2⟩ | ⟨Y, y, h1, h2, h3⟩
    · exact .inl ⟨h1, fun t ht => h2 _ (List.mem_map.2 ⟨t, ht, rfl⟩)⟩
    · exact .inr ⟨Y, y, _, h1, fun t ht => h2 _ (List.mem_map.2 ⟨t, ht, rfl⟩), h3⟩
  have herr : ∀ (l : List (NDArr β)), (∀ a ∈ l, f a = .error .valueError ∨ ∃ b, f a = .ok b) → (∃ a ∈ l, f a = .error .valueError) → l.mapM f = .error .valueError := by
    intro l
    induction l with
    | nil => rintro - ⟨a, ha, -⟩; cases ha
    | cons x l ih =>
      intro h1 h2
      rw [List.mapM_cons]
      rcases h1 x (by simp) with e | ⟨b, e⟩
      · rw [e]; rfl
      · rw [e, py_ok_bind, ih (fun a ha => h1 a (by simp [ha])) ?_]
        · rfl
        · obtain ⟨a, ha, ea⟩ := h2
          rcases List.mem_cons.1 ha with rfl | ha
          · rw [ea] at e; cases e
          · exact ⟨a, ha, ea⟩
  by_cases hall : ∃ j, ∃ hj : j < X.leaves.length, f X.leaves[j] = .error .valueError
  · left
    obtain ⟨j, hj, ej⟩ := hall
    constructor
    · unfold PyTree.mapM
      rw [herr X.leaves ?_ ⟨_, List.getElem_mem hj, ej⟩]
      · rfl
      · intro a ha
        obtain ⟨k, hk, rfl⟩ := List.mem_iff_getElem.1 ha
        rcases hleaf k hk with ⟨e, -⟩ | ⟨Y, _, _, e, _⟩
        · exact .inl e
        · exact .inr ⟨Y, e⟩
    · intro t ht
      unfold PyTree.mapM
      rw [herr t.leaves ?_ ?_]
      · rfl
      · intro a ha
        obtain ⟨k, hk, rfl⟩ := List.mem_iff_getElem.1 ha
        rw [← hget t ht k hk]
        rcases hleaf k (by rw [← h.length t ht]; exact hk) with ⟨-, e⟩ | ⟨_, y, _, _, e, _⟩
        · exact .inl (e t ht)
        · exact .inr ⟨_, e t ht⟩
      · have hj' : j < t.leaves.length := by rw [h.length t ht]; exact hj
        refine ⟨_, List.getElem_mem hj', ?_⟩
        rcases hleaf j hj with ⟨-, e⟩ | ⟨_, _, _, e, _⟩
        · rw [← hget t ht j hj']; exact e t ht
        · rw [e] at ej; cases ej
  · right
    have hleaf' : ∀ j, ∃ (Y : NDArr γ) (y : NDArr β → NDArr γ) (s : List Nat), j < X.leaves.length → X.leaves[j]?.map f = some (.ok Y) ∧
        (∀ t ∈ ts, f (t.leaves.getD j ⟨[], []⟩) = .ok (y (t.leaves.getD j ⟨[], []⟩))) ∧ IsBatch ((ts.map (fun t => t.leaves.getD j ⟨[], []⟩)).map y) s Y := by
      intro j
      by_cases hj : j < X.leaves.length
      · rcases hleaf j hj with ⟨e, -⟩ | ⟨Y, y, s, h1, h2, h3⟩
        · exact absurd ⟨j, hj, e⟩ hall
        · exact ⟨Y, y, s, fun _ => ⟨by rw [List.getElem?_eq_getElem hj, Option.map_some, h1], h2, h3⟩⟩
      · exact ⟨⟨[], []⟩, fun _ => ⟨[], []⟩, [], fun h => absurd h hj⟩
    choose Y y s hY using hleaf'
    have hmap : ∀ (l : List (NDArr β)) (g : Nat → NDArr γ), (∀ j (hj : j < l.length), f l[j] = .ok (g j)) → l.mapM f = .ok ((List.range l.length).map g) := by
      intro l
      induction l with
      | nil => intro g _; rfl
      | cons x l ih =>
        intro g hg
        rw [List.mapM_cons, show f x = .ok (g 0) from hg 0 (by simp), py_ok_bind, ih (fun j => g (j + 1)) (fun j hj => hg (j + 1) (by simpa using hj)), py_ok_bind,
          List.length_cons, List.range_succ_eq_map, List.map_cons, List.map_map]
        rfl
    refine ⟨⟨X.treedef, (List.range X.leaves.length).map Y⟩, fun t => ⟨t.treedef, (List.range t.leaves.length).map (fun j => y j (t.leaves.getD j ⟨[], []⟩))⟩, ?_, ?_, ?_, ?_, ?_⟩
    · unfold PyTree.mapM
      rw [hmap X.leaves Y (fun j hj => by
        have := (hY j hj).1
        rw [List.getElem?_eq_getElem hj] at this
        exact Option.some.inj this), py_ok_bind]
      rfl
    · intro t ht
      unfold PyTree.mapM
      rw [hmap t.leaves (fun j => y j (t.leaves.getD j ⟨[], []⟩)) (fun j hj => by
        have := (hY j (by rw [← h.length t ht]; exact hj)).2.1 t ht
        rw [hget t ht j hj] at this ⊢
        exact this), py_ok_bind]
      rfl
    · rintro _ hu
      obtain ⟨t, ht, rfl⟩ := List.mem_map.1 hu
      exact h.treedef t ht
    · rintro _ hu
      obtain ⟨t, ht, rfl⟩ := List.mem_map.1 hu
      simpa using h.length t ht
    · intro j A hA
      dsimp only at hA
      rw [List.getElem?_map] at hA
      have hj : j < X.leaves.length := by
        by_contra hc
        rw [List.getElem?_eq_none (by simpa using hc)] at hA
        cases hA
      rw [List.getElem?_range hj, Option.map_some] at hA
      cases hA
      refine ⟨s j, ?_⟩
      have := (hY j hj).2.2
      have e : (ts.map (fun t : PyTree κ β => (⟨t.treedef, (List.range t.leaves.length).map (fun j => y j (t.leaves.getD j ⟨[], []⟩))⟩ : PyTree κ γ))).map (fun t => t.leaves.getD j ⟨[], []⟩) =
          (ts.map (fun t => t.leaves.getD j ⟨[], []⟩)).map (y j) := by
        rw [List.map_map, List.map_map]
        apply List.map_congr_left
        intro t ht
        simp only [Function.comp_apply]
        rw [List.getD, List.getElem?_map, List.getElem?_range (by rw [h.length t ht]; exact hj)]
        rfl
      rw [e]
      exact this

end PGMax
