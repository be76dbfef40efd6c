import Verif.Lemmas.VGroup
import Verif.Lemmas.Block

/-! Helper lemmas about `flatten` / `unflatten` of variable groups. -/

namespace PGMax

theorem npMax_ok {ns : List Nat} {m : Nat} (h : npMax ns = .ok m) : m ∈ ns ∧ ∀ n ∈ ns, n ≤ m := by
  cases ns with
  | nil => simp [npMax] at h
  | cons a ns =>
    simp only [npMax, Except.ok.injEq] at h
    subst h
    have key : ∀ (l : List Nat) (a : Nat), (l.foldl max a = a ∨ l.foldl max a ∈ l) ∧ a ≤ l.foldl max a ∧
        ∀ n ∈ l, n ≤ l.foldl max a := by
      intro l
      induction l with
      | nil => simp
      | cons b l ih =>
        intro a
        obtain ⟨h1, h2, h3⟩ := ih (max a b)
        simp only [List.foldl_cons, List.mem_cons, forall_eq_or_imp]
        refine ⟨?_, by omega, by omega, h3⟩
        rcases h1 with h1 | h1
        · rcases Nat.le_total a b with hab | hab
          · right; left; rw [h1]; omega
          · left; rw [h1]; omega
        · right; right; exact h1
    obtain ⟨h1, h2, h3⟩ := key ns a
    refine ⟨?_, by simpa using ⟨h2, h3⟩⟩
    rcases h1 with h1 | h1
    · rw [h1]; simp
    · exact List.mem_cons_of_mem _ h1

theorem npMax_of_ne_nil {ns : List Nat} (h : ns ≠ []) : ∃ m, npMax ns = .ok m := by
  cases ns with
  | nil => exact absurd rfl h
  | cons a ns => exact ⟨_, rfl⟩

theorem filter_lt_range (m n : Nat) (h : n ≤ m) : (List.range m).filter (fun s => s < n) = List.range n := by
  obtain ⟨k, rfl⟩ := Nat.exists_eq_add_of_le h
  rw [List.range_add, List.filter_append]
  have h1 : (List.range n).filter (fun s => decide (s < n)) = List.range n := by
    rw [List.filter_eq_self]; simp
  have h2 : ((List.range k).map (fun x => n + x)).filter (fun s => decide (s < n)) = [] := by
    rw [List.filter_eq_nil_iff]; simp
  rw [h1, h2, List.append_nil]

theorem getD_le {ns : List Nat} {m : Nat} (h : ∀ n ∈ ns, n ≤ m) (k : Nat) : ns.getD k 0 ≤ m := by
  by_cases hk : k < ns.length
  · simp only [List.getD, List.getElem?_eq_getElem hk, Option.getD_some]
    exact h _ (List.getElem_mem hk)
  · simp [List.getD, List.getElem?_eq_none (show ns.length ≤ k by omega)]

theorem maskPositions_eq (ns : List Nat) (m : Nat) (h : ∀ n ∈ ns, n ≤ m) :
    maskPositions ns m
      = (List.range ns.length).flatMap (fun k => (List.range (ns.getD k 0)).map (fun s => k * m + s)) := by
  unfold maskPositions
  congr 1
  funext k
  rw [filter_lt_range m _ (getD_le h k)]

theorem map_range_getD (ns : List Nat) : (List.range ns.length).map (fun k => ns.getD k 0) = ns := by
  apply List.ext_getElem?
  intro i
  by_cases h : i < ns.length
  · simp [List.getElem?_range h, List.getD, List.getElem?_eq_getElem h]
  · rw [List.getElem?_eq_none (by simp; omega), List.getElem?_eq_none (by omega)]

theorem maskPositions_length (ns : List Nat) (m : Nat) (h : ∀ n ∈ ns, n ≤ m) :
    (maskPositions ns m).length = ns.sum := by
  rw [maskPositions_eq ns m h, List.length_flatMap]
  simp only [List.length_map, List.length_range]
  rw [map_range_getD]

theorem maskPositions_getElem? (ns : List Nat) (m : Nat) (h : ∀ n ∈ ns, n ≤ m) (k s : Nat) (hk : k < ns.length)
    (hs : s < ns.getD k 0) : (maskPositions ns m)[(ns.take k).sum + s]? = some (k * m + s) := by
  rw [maskPositions_eq ns m h]
  have := flatMap_getElem?_block (List.range ns.length)
    (fun k => (List.range (ns.getD k 0)).map (fun s => k * m + s)) k s k (List.getElem?_range hk) (by simpa using hs)
  simp only [List.length_map, List.length_range] at this
  rw [map_range_getD] at this
  rw [this, List.getElem?_map, List.getElem?_range hs]
  rfl

theorem mem_maskPositions (ns : List Nat) (m : Nat) (h : ∀ n ∈ ns, n ≤ m) (p : Nat) :
    p ∈ maskPositions ns m ↔ ∃ k s, k < ns.length ∧ s < ns.getD k 0 ∧ p = k * m + s := by
  rw [maskPositions_eq ns m h]
  simp only [List.mem_flatMap, List.mem_range, List.mem_map]
  constructor
  · rintro ⟨k, hk, s, hs, rfl⟩; exact ⟨k, s, hk, hs, rfl⟩
  · rintro ⟨k, s, hk, hs, rfl⟩; exact ⟨k, hk, s, hs, rfl⟩

theorem mul_add_inj {m k k' s s' : Nat} (hs : s < m) (hs' : s' < m) (h : k * m + s = k' * m + s') :
    k = k' ∧ s = s' := by
  have hm : 0 < m := by omega
  have e1 : (k * m + s) / m = k := by rw [mul_comm, Nat.mul_add_div hm, Nat.div_eq_of_lt hs, add_zero]
  have e2 : (k' * m + s') / m = k' := by rw [mul_comm, Nat.mul_add_div hm, Nat.div_eq_of_lt hs', add_zero]
  have : k = k' := by rw [← e1, ← e2, h]
  subst this
  exact ⟨rfl, by omega⟩

theorem maskPositions_nodup (ns : List Nat) (m : Nat) (h : ∀ n ∈ ns, n ≤ m) : (maskPositions ns m).Nodup := by
  rw [maskPositions_eq ns m h, List.nodup_flatMap]
  constructor
  · intro k _
    apply List.Nodup.map _ List.nodup_range
    intro a b hab
    simp only at hab; omega
  · apply List.Pairwise.imp_of_mem _ List.pairwise_lt_range
    intro a b ha hb hab
    simp only [Function.onFun, List.disjoint_left, List.mem_map, List.mem_range]
    rintro p ⟨s, hs, rfl⟩ ⟨s', hs', he⟩
    have := mul_add_inj (m := m) (by have := getD_le h b; omega) (by have := getD_le h a; omega) he
    omega

theorem filterMap_some_getElem? {β γ : Type _} (l : List β) (f : β → Option γ) (h : ∀ x ∈ l, (f x).isSome)
    (i : Nat) : (l.filterMap f)[i]? = l[i]?.bind f := by
  induction l generalizing i with
  | nil => simp
  | cons x l ih =>
    have hx := h x (by simp)
    obtain ⟨y, hy⟩ := Option.isSome_iff_exists.1 hx
    rw [List.filterMap_cons_some hy]
    cases i with
    | zero => simp [hy]
    | succ i => simpa using ih (fun z hz => h z (by simp [hz])) i

theorem filterMap_some_length {β γ : Type _} (l : List β) (f : β → Option γ) (h : ∀ x ∈ l, (f x).isSome) :
    (l.filterMap f).length = l.length := by
  induction l with
  | nil => simp
  | cons x l ih =>
    obtain ⟨y, hy⟩ := Option.isSome_iff_exists.1 (h x (by simp))
    rw [List.filterMap_cons_some hy]
    simp [ih (fun z hz => h z (by simp [hz]))]

/-- `flatten` of data of shape `shape + (max num_states,)`. -/
theorem NDVarArray.flatten_states {α : Type _} (g : NDVarArray) (hl : g.numStates.length = g.shape.prod) (m : Nat)
    (hm : npMax g.numStates = .ok m) (data : NDArr α) (hw : data.WF) (hs : data.shape = g.shape ++ [m]) :
    ∃ flat, g.flatten data = .ok flat ∧ flat.length = g.numStates.sum ∧
      ∀ k s, k < g.numStates.length → s < g.numStates.getD k 0 →
        flat[(g.numStates.take k).sum + s]? = data.data[k * m + s]? := by
  obtain ⟨-, hle⟩ := npMax_ok hm
  have hlen : data.data.length = g.numStates.length * m := by rw [hw, hs, hl]; simp
  have hsome : ∀ p ∈ maskPositions g.numStates m, (data.data[p]?).isSome := by
    intro p hp
    obtain ⟨k, s, hk, hs, rfl⟩ := (mem_maskPositions _ _ hle _).1 hp
    have h1 := getD_le hle k
    have : k * m + s < data.data.length := by
      rw [hlen]
      calc k * m + s < k * m + m := by omega
        _ = (k + 1) * m := by ring
        _ ≤ _ := Nat.mul_le_mul_right _ hk
    simp [this]
  refine ⟨(maskPositions g.numStates m).filterMap (fun p => data.data[p]?), ?_, ?_, ?_⟩
  · unfold NDVarArray.flatten
    have : ¬ data.shape = g.shape := by
      rw [hs]; intro h; have := congrArg List.length h; simp at this
    rw [if_neg this]
    simp [hm, bind, Except.bind, hs, pure, Except.pure]
  · rw [filterMap_some_length _ _ hsome, maskPositions_length _ _ hle]
  · intro k s hk hs
    rw [filterMap_some_getElem? _ _ hsome, maskPositions_getElem? _ _ hle k s hk hs]
    rfl

/-- `unflatten` of flat data with one entry per state. -/
theorem NDVarArray.unflatten_states {α : Type _} (g : NDVarArray) (hl : g.numStates.length = g.shape.prod) (m : Nat)
    (hm : npMax g.numStates = .ok m) (flat : List α) (h1 : flat.length ≠ g.shape.prod)
    (h2 : flat.length = g.numStates.sum) :
    ∃ r, g.unflatten ⟨[flat.length], flat⟩ = .ok r ∧ r.shape = g.shape ++ [m] ∧ r.WF ∧
      ∀ k s, k < g.numStates.length → s < m →
        r.data[k * m + s]? = if s < g.numStates.getD k 0
          then flat[(g.numStates.take k).sum + s]?.map WithBot.some else some ⊥ := by
  obtain ⟨-, hle⟩ := npMax_ok hm
  refine ⟨{ shape := g.shape ++ [m],
            data := scatterSet (List.replicate ((g.shape ++ [m]).prod) ⊥) (maskPositions g.numStates m)
              (flat.map WithBot.some) }, ?_, rfl, ?_, ?_⟩
  · unfold NDVarArray.unflatten
    simp only [List.length_singleton, ne_eq, not_true_eq_false, if_false, h1, if_neg]
    simp only [h2, if_true, hm, bind, Except.bind, pure, Except.pure]
  · simp [NDArr.WF]
  · intro k s hk hs
    have hlt : k * m + s < ((g.shape ++ [m]).prod) := by
      rw [List.prod_append, ← hl]
      simp only [List.prod_cons, List.prod_nil, mul_one]
      calc k * m + s < k * m + m := by omega
        _ = (k + 1) * m := by ring
        _ ≤ _ := Nat.mul_le_mul_right _ hk
    split
    · rename_i hs'
      have hj := maskPositions_getElem? _ _ hle k s hk hs'
      have hb := block_lt g.numStates k s hk hs'
      have hf : (g.numStates.take k).sum + s < flat.length := by omega
      rw [scatterSet_getElem?_hit _ _ _ (maskPositions_nodup _ _ hle) _ _ (WithBot.some flat[(g.numStates.take k).sum + s])
        hj (by simp [List.getElem?_eq_getElem hf]) (by simpa using hlt)]
      simp [List.getElem?_eq_getElem hf]
    · rename_i hs'
      rw [scatterSet_getElem?_miss]
      · rw [List.getElem?_replicate, if_pos hlt]
      · intro hmem
        obtain ⟨k', s', hk', hs'', he⟩ := (mem_maskPositions _ _ hle _).1 hmem
        have h3 := getD_le hle k'
        obtain ⟨rfl, rfl⟩ := mul_add_inj hs (by omega) he
        exact hs' hs''

theorem NDVarArray.unflatten_eq {α : Type _} (g : NDVarArray) (flat : NDArr α) :
    g.unflatten flat =
      if flat.shape.length ≠ 1 then .error .valueError
      else if flat.data.length = g.shape.prod then .ok { shape := g.shape, data := flat.data.map WithBot.some }
      else if flat.data.length = g.numStates.sum then
        match npMax g.numStates with
        | .ok m => .ok { shape := g.shape ++ [m],
                         data := scatterSet (List.replicate ((g.shape ++ [m]).prod) ⊥) (maskPositions g.numStates m)
                           (flat.data.map WithBot.some) }
        | .error e => .error e
      else .error .valueError := by
  unfold NDVarArray.unflatten
  by_cases h1 : flat.shape.length = 1 <;> by_cases h2 : flat.data.length = g.shape.prod <;>
    by_cases h3 : flat.data.length = g.numStates.sum <;> cases h4 : npMax g.numStates <;>
    simp only [h1, h2, h3, ne_eq, not_true_eq_false, not_false_eq_true, if_true, if_false, bind, Except.bind,
      pure, Except.pure, throw, throwThe, MonadExceptOf.throw] <;> (try split) <;> rfl

theorem npMax_error {ns : List Nat} {e : PyErr} (h : npMax ns = .error e) : ns = [] ∧ e = .valueError := by
  cases ns with
  | nil => simp [npMax] at h; exact ⟨rfl, h.symm⟩
  | cons a l => simp [npMax] at h

theorem NDVarArray.unflatten_vars {α : Type _} (g : NDVarArray) (flat : List α) (h1 : flat.length = g.shape.prod) :
    g.unflatten ⟨[flat.length], flat⟩ = .ok ⟨g.shape, flat.map WithBot.some⟩ := by
  unfold NDVarArray.unflatten
  simp only [List.length_singleton, ne_eq, not_true_eq_false, if_false, h1, if_true, pure, Except.pure]

theorem NDVarArray.flatten_vars {α : Type _} (g : NDVarArray) (data : NDArr α) (h : data.shape = g.shape) :
    g.flatten data = .ok data.data := by
  unfold NDVarArray.flatten
  rw [if_pos h]; rfl

end PGMax
