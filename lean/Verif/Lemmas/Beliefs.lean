import Verif.Spec.Beliefs
import Verif.Lemmas.Scatter
import Verif.Lemmas.VarDict
import Verif.Props.C26

/-! Helper lemmas about reported beliefs and `argmax`. -/

namespace PGMax

variable {κ α : Type _}

theorem sum_of_all_one {ns : List Nat} (h : ∀ n ∈ ns, n = 1) : ns.sum = ns.length := by
  induction ns with
  | nil => rfl
  | cons n ns ih =>
    rw [List.sum_cons, List.length_cons, h n (by simp), ih (fun m hm => h m (by simp [hm]))]; omega

theorem take_sum_of_all_one {ns : List Nat} (h : ∀ n ∈ ns, n = 1) {k : Nat} (hk : k ≤ ns.length) : (ns.take k).sum = k := by
  rw [sum_of_all_one (fun n hn => h n (List.mem_of_mem_take hn)), List.length_take]; omega

/-- Unflattening the beliefs of one group. -/
theorem VGroup.unflatten_reports [DecidableEq κ] {objId : Nat} {g : VGroup κ} (hb : VGroup.Built objId g) (hreg : g.Regular)
    (flat : List α) (hl : flat.length = g.numStates.sum) (B : Var → Nat → α)
    (hB : ∀ (k : Nat) v s, g.variables[k]? = some v → s < v.n → flat[(g.numStates.take k).sum + s]? = some (B v s)) :
    ∃ b, g.unflatten flat = .ok b ∧ g.Reports B b := by
  have hvar := hb.facts.2.2
  cases hb with
  | arr hns hc =>
    rename_i shape ns g
    obtain ⟨-, hsh, hlen, -⟩ := NDVarArray.create_ok hns hc
    rw [← hsh] at hlen
    simp only [VGroup.numStates, VGroup.variables, VGroup.Regular, VGroup.hash] at hl hB hreg hvar
    by_cases h1 : flat.length = g.shape.prod
    · have hone := hreg (by omega)
      refine ⟨.arr ⟨g.shape, flat.map WithBot.some⟩, ?_, 1, ⟨fun n hn => by rw [hone n hn], fun hne => by obtain ⟨n, hn⟩ := List.exists_mem_of_ne_nil _ hne; have := hone n hn; subst this; exact hn⟩, by simp [NDArr.WF, h1], .inr ⟨rfl, rfl⟩, ?_⟩
      · simp only [VGroup.unflatten, NDVarArray.unflatten_vars g flat h1]; rfl
      · intro k v s hv hs
        have hk : k < g.numStates.length := by
          by_contra hk
          rw [hvar k, List.getElem?_eq_none (by omega)] at hv
          cases hv
        have hvn : v.n = 1 := by
          rw [hvar k, List.getElem?_eq_getElem hk] at hv
          cases hv
          exact hone _ (List.getElem_mem _)
        have := hB k v s hv (by omega)
        rw [take_sum_of_all_one hone (by omega)] at this
        simp only [mul_one, List.getElem?_map]
        rw [this, if_pos (by omega)]
        rfl
    · have hne : g.numStates ≠ [] := by
        intro h'
        rw [h'] at hl hlen
        simp at hl hlen
        simp [hl, ← hlen] at h1
      obtain ⟨m, hm⟩ := npMax_of_ne_nil hne
      obtain ⟨r, e1, e2, e3, e4⟩ := NDVarArray.unflatten_states g hlen m hm flat h1 hl
      refine ⟨.arr r, by simp only [VGroup.unflatten, e1]; rfl, m, ⟨(npMax_ok hm).2, fun _ => (npMax_ok hm).1⟩, e3, .inl e2, ?_⟩
      intro k v s hv hs
      have hk : k < g.numStates.length := by
        by_contra hk
        rw [hvar k, List.getElem?_eq_none (by omega)] at hv
        cases hv
      have hvn : g.numStates.getD k 0 = v.n := by
        rw [hvar k, List.getElem?_eq_getElem hk] at hv
        cases hv
        simp [List.getD, List.getElem?_eq_getElem hk]
      rw [e4 k s hk hs, hvn]
      by_cases hs' : s < v.n
      · rw [if_pos hs', if_pos hs', hB k v s hv hs']; rfl
      · rw [if_neg hs', if_neg hs']
  | dict hns hlen hc =>
    rename_i names ns g
    obtain ⟨-, hnm, hlen⟩ := VarDict.create_ok hns hc
    rw [← hnm] at hlen
    simp only [VGroup.numStates, VGroup.variables, VGroup.Regular, VGroup.hash] at hl hB hreg hvar
    obtain ⟨hnd, hreg⟩ := hreg
    -- both branches of `unflatten` cut the array into the same slices
    have key : g.unflatten ⟨[flat.length], flat⟩ = .ok (namedSlices flat 0 (g.names.map (fun k => (k, g.numStates.getD (g.names.idxOf k) 0)))) := by
      unfold VarDict.unflatten
      by_cases h1 : flat.length = g.names.length
      · have hone := hreg (by omega)
        simp only [List.length_singleton, ne_eq, not_true_eq_false, if_false, h1, if_true, pure, Except.pure]
        rw [unflattenLoop_eq g flat false _ _ _ hnd (by simp)]
        simp only [Bool.false_eq_true, if_false, List.nil_append]
        congr 2
        apply List.map_congr_left
        intro k hk
        have hidx : g.names.idxOf k < g.numStates.length := by rw [hlen]; exact List.idxOf_lt_length_of_mem hk
        rw [List.getD, List.getElem?_eq_getElem hidx]
        simp [hone _ (List.getElem_mem hidx)]
      · simp only [List.length_singleton, ne_eq, not_true_eq_false, if_false, h1, hl, if_true, pure, Except.pure]
        rw [if_neg (by omega), unflattenLoop_eq g flat true _ _ _ hnd (by simp)]
        simp
    refine ⟨.dict _, by simp only [VGroup.unflatten, key]; rfl, ?_, ?_⟩
    · rw [namedSlices_map_fst, List.map_map]; simp [Function.comp_def]
    · intro k v hv
      have hk : k < g.numStates.length := by
        by_contra hk
        rw [hvar k, List.getElem?_eq_none (by omega)] at hv
        cases hv
      have hvn : g.numStates.getD k 0 = v.n := by
        have := hv
        rw [hvar k, List.getElem?_eq_getElem hk] at this
        cases this
        simp [List.getD, List.getElem?_eq_getElem hk]
      rw [namedSlices_getElem?, List.getElem?_map, List.getElem?_eq_getElem (by omega : k < g.names.length)]
      refine ⟨_, rfl, ?_⟩
      simp only [List.map_map, Function.comp_def]
      rw [idxOf_map_getD _ _ hnd hlen, hnd.idxOf_getElem k (by omega), hvn, zero_add]
      apply List.ext_getElem?
      intro s
      rw [slice_getElem?]
      by_cases hs : s < v.n
      · rw [if_pos (by omega), hB k v s hv hs, List.getElem?_map, List.getElem?_range hs]; rfl
      · rw [if_neg (by omega), List.getElem?_eq_none (by simpa using hs)]

/-- Unflattening the beliefs of all groups. -/
theorem unflattenBeliefs_reports [DecidableEq κ] [Field α] [LinearOrder α] (vgs : List (VGroup κ)) (hb : ∀ g ∈ vgs, ∃ objId, VGroup.Built objId g)
    (hreg : ∀ g ∈ vgs, g.Regular) (flat : List α) (start : Nat) (hl : flat.length = start + ((allVars vgs).map (·.n)).sum) (B : Var → Nat → α)
    (hB : ∀ (i : Nat) v s, (allVars vgs)[i]? = some v → s < v.n → flat[start + (((allVars vgs).map (·.n)).take i).sum + s]? = some (B v s)) :
    ∃ bs, unflattenBeliefs flat vgs start = .ok bs ∧ bs.map (·.1) = vgs ∧ ∀ p ∈ bs, p.1.Reports B p.2 := by
  induction vgs generalizing start with
  | nil => exact ⟨[], rfl, rfl, by simp⟩
  | cons g vgs ih =>
    obtain ⟨objId, hbg⟩ := hb g (by simp)
    have hok : GroupOk g := GroupOk.of_built hbg
    have hall : allVars (g :: vgs) = g.variables ++ allVars vgs := by simp [allVars]
    rw [hall, List.map_append, List.sum_append, hok] at hl
    obtain ⟨b, e1, e2⟩ := VGroup.unflatten_reports hbg (hreg g (by simp)) (slice flat start (start + g.numStates.sum))
      (by rw [slice_length]; omega) B (by
        intro k v s hv hs
        have hk : k < g.variables.length := (List.getElem?_eq_some_iff.1 hv).1
        have := hB k v s (by rw [hall, List.getElem?_append_left hk]; exact hv) hs
        rw [hall, List.map_append, List.take_append_of_le_length (by simpa using hk.le), hok] at this
        rw [slice_getElem?, if_pos, ← add_assoc, this]
        have hlt : (g.numStates.take k).sum + v.n ≤ g.numStates.sum := by
          have h1 : g.numStates[k]? = some v.n := by rw [← hok, List.getElem?_map, hv]; rfl
          have h2 : (g.numStates.take (k + 1)).sum = (g.numStates.take k).sum + v.n := by
            rw [List.take_add_one, h1]; simp
          rw [← h2]
          exact sum_take_le _ _
        omega)
    obtain ⟨bs, f1, f2, f3⟩ := ih (fun g' h => hb g' (by simp [h])) (fun g' h => hreg g' (by simp [h])) (start + g.numStates.sum) (by omega) (by
      intro i v s hv hs
      have := hB (g.variables.length + i) v s (by rw [hall, List.getElem?_append_right (by omega)]; simpa using hv) hs
      rw [hall, List.map_append, List.take_append, hok, List.sum_append, List.take_of_length_le (by rw [← hok]; simp)] at this
      have hlen : g.variables.length + i - g.numStates.length = i := by rw [← hok]; simp
      rw [hlen, ← add_assoc] at this
      exact this)
    refine ⟨(g, b) :: bs, ?_, by simp [f2], ?_⟩
    · simp only [unflattenBeliefs, e1, f1, bind, Except.bind, pure, Except.pure]
    · simp only [List.mem_cons, forall_eq_or_imp]
      exact ⟨e2, f3⟩

/-- `argmax` finds the first maximum. -/
theorem argmax_spec {β : Type _} [LinearOrder β] (xs : List β) (hne : xs ≠ []) :
    ∃ m, xs[argmax xs]? = some m ∧ (∀ x ∈ xs, x ≤ m) ∧ ∀ (i : Nat) x, i < argmax xs → xs[i]? = some x → x < m := by
  cases xs with
  | nil => exact absurd rfl hne
  | cons x xs =>
    have hmax : ∀ (l : List β) (a : β), a ≤ l.foldl max a ∧ (∀ y ∈ l, y ≤ l.foldl max a) ∧ (l.foldl max a = a ∨ l.foldl max a ∈ l) := by
      intro l
      induction l with
      | nil => simp
      | cons b l ih =>
        intro a
        obtain ⟨i1, i2, i3⟩ := ih (max a b)
        simp only [List.foldl_cons, List.mem_cons, forall_eq_or_imp]
        refine ⟨(le_max_left _ _).trans i1, ⟨(le_max_right _ _).trans i1, i2⟩, ?_⟩
        rcases i3 with i3 | i3
        · rcases max_choice a b with h | h
          · left; rw [i3, h]
          · right; left; rw [i3, h]
        · exact .inr (.inr i3)
    obtain ⟨m1, m2, m3⟩ := hmax xs x
    simp only [argmax]
    generalize xs.foldl max x = M at *
    refine ⟨M, ?_, ?_, ?_⟩
    · by_cases h : M = x
      · simp [h]
      · simp only [h, if_false, List.getElem?_cons_succ]
        have hm := m3.resolve_left h
        rw [List.getElem?_eq_getElem (List.idxOf_lt_length_of_mem hm), List.getElem_idxOf]
    · simp only [List.mem_cons, forall_eq_or_imp]
      exact ⟨m1, m2⟩
    · intro i y hi hy
      by_cases h : M = x
      · simp [h] at hi
      · simp only [h, if_false] at hi
        cases i with
        | zero =>
          simp only [List.getElem?_cons_zero, Option.some.injEq] at hy
          subst hy
          exact lt_of_le_of_ne m1 (fun h' => h h'.symm)
        | succ i =>
          rw [List.getElem?_cons_succ] at hy
          refine lt_of_le_of_ne (m2 y (List.mem_of_getElem? hy)) ?_
          rintro rfl
          have hi' : i < xs.findIdx (· == y) := by have : xs.idxOf y = xs.findIdx (· == y) := rfl; omega
          have := List.not_of_lt_findIdx hi'
          obtain ⟨hl, hy⟩ := List.getElem?_eq_some_iff.1 hy
          rw [hy] at this
          simp at this

end PGMax
