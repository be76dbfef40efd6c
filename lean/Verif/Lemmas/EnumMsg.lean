import Verif.Lemmas.Scatter

/-! Helper lemmas: messages of enumeration factors. -/

namespace PGMax

/-- Within range: every row of the tables has one state per variable, and the states exist. -/
def TablesOk (L : List (List Var × Configs)) : Prop :=
  ∀ p ∈ L, p.1.length = p.2.ncols ∧ ∀ r ∈ p.2.rows, List.Forall₂ (fun s (v : Var) => s < v.n) r p.1

theorem cfgStart_cons_zero (p : List Var × Configs) (L : List (List Var × Configs)) : cfgStart (p :: L) 0 = 0 := rfl
theorem cfgStart_cons_succ (p : List Var × Configs) (L : List (List Var × Configs)) (k : Nat) :
    cfgStart (p :: L) (k + 1) = p.2.rows.length + cfgStart L k := by simp [cfgStart]

theorem enumEntries_fst_bounds (cb eb : Nat) (L : List (List Var × Configs)) (e : Nat × Nat) (he : e ∈ enumEntries cb eb L) :
    cb ≤ e.1 := by
  obtain ⟨k, vs, cf, c, i, -, -, -, rfl⟩ := (enumEntries_mem cb eb L e).1 he
  simp only; omega

theorem enumEntries_snd_bounds (cb eb : Nat) (L : List (List Var × Configs)) (e : Nat × Nat) (he : e ∈ enumEntries cb eb L) :
    eb ≤ e.2 := by
  obtain ⟨k, vs, cf, c, i, -, -, -, rfl⟩ := (enumEntries_mem cb eb L e).1 he
  simp only; omega

/-- The entries of one factor. -/
def facEntries (cb eb : Nat) (vs : List Var) (cf : Configs) : List (Nat × Nat) :=
  (List.range cf.rows.length).flatMap (fun c => (List.range cf.ncols).map (fun i =>
        (cb + c, eb + ((scopeNs vs).take i).sum + (cf.rows.getD c []).getD i 0)))

theorem enumEntries_cons (cb eb : Nat) (vs : List Var) (cf : Configs) (L : List (List Var × Configs)) :
    enumEntries cb eb ((vs, cf) :: L) = facEntries cb eb vs cf ++ enumEntries (cb + cf.rows.length) (eb + (scopeNs vs).sum) L := rfl

theorem filter_flatMap {β γ : Type _} (l : List β) (f : β → List γ) (p : γ → Bool) :
    (l.flatMap f).filter p = l.flatMap (fun x => (f x).filter p) := by
  induction l with
  | nil => rfl
  | cons a l ih => simp [List.filter_append, ih]

theorem flatMap_range_single {γ : Type _} (n c : Nat) (hc : c < n) (f : Nat → List γ) (h : ∀ d, d ≠ c → f d = []) :
    (List.range n).flatMap f = f c := by
  induction n with
  | zero => omega
  | succ n ih =>
    rw [List.range_succ, List.flatMap_append, List.flatMap_singleton]
    by_cases hcn : c = n
    · subst hcn
      have : (List.range c).flatMap f = [] := by
        rw [List.flatMap_eq_nil_iff]
        intro d hd
        exact h d (by have := List.mem_range.1 hd; omega)
      rw [this, List.nil_append]
    · rw [ih (by omega), h n (fun hh => hcn hh.symm), List.append_nil]

theorem facEntries_filter_fst (cb eb : Nat) (vs : List Var) (cf : Configs) (c : Nat) (hc : c < cf.rows.length) :
    (facEntries cb eb vs cf).filter (fun e => e.1 == cb + c)
      = (List.range cf.ncols).map (fun i => (cb + c, eb + ((scopeNs vs).take i).sum + (cf.rows.getD c []).getD i 0)) := by
  unfold facEntries
  rw [filter_flatMap, flatMap_range_single _ c hc]
  · rw [List.filter_eq_self]
    intro e he
    obtain ⟨i, -, rfl⟩ := List.mem_map.1 he
    simp
  · intro d hd
    rw [List.filter_eq_nil_iff]
    intro e he
    obtain ⟨i, -, rfl⟩ := List.mem_map.1 he
    simp; omega

/-- The entries of configuration `c` of factor `k`: one per variable. -/
theorem enumEntries_filter_fst (cb eb : Nat) (L : List (List Var × Configs)) (k c : Nat) (vs : List Var) (cf : Configs)
    (hk : L[k]? = some (vs, cf)) (hc : c < cf.rows.length) :
    (enumEntries cb eb L).filter (fun e => e.1 == cb + cfgStart L k + c)
      = (List.range cf.ncols).map (fun i => (cb + cfgStart L k + c,
          eb + edgeStart (L.map (·.1)) k i + (cf.rows.getD c []).getD i 0)) := by
  induction L generalizing cb eb k with
  | nil => simp at hk
  | cons q L ih =>
    obtain ⟨ws, cg⟩ := q
    rw [enumEntries_cons, List.filter_append]
    cases k with
    | zero =>
      simp only [List.getElem?_cons_zero, Option.some.injEq, Prod.mk.injEq] at hk
      obtain ⟨rfl, rfl⟩ := hk
      simp only [cfgStart_cons_zero, Nat.add_zero]
      rw [facEntries_filter_fst _ _ _ _ _ hc]
      have : (enumEntries (cb + cg.rows.length) (eb + (scopeNs ws).sum) L).filter (fun e => e.1 == cb + c) = [] := by
        rw [List.filter_eq_nil_iff]
        intro e he
        have := enumEntries_fst_bounds _ _ _ _ he
        simp; omega
      rw [this, List.append_nil]
      apply List.map_congr_left
      intro i _
      simp only [List.map_cons, edgeStart_cons_zero, scopeNs, List.map_take]
    | succ k =>
      have h1 : (facEntries cb eb ws cg).filter (fun e => e.1 == cb + cfgStart ((ws, cg) :: L) (k + 1) + c) = [] := by
        rw [List.filter_eq_nil_iff]
        intro e he
        obtain ⟨d, hd, he⟩ := List.mem_flatMap.1 he
        obtain ⟨i, -, rfl⟩ := List.mem_map.1 he
        have := List.mem_range.1 hd
        rw [cfgStart_cons_succ]
        simp; omega
      have := ih (cb + cg.rows.length) (eb + (scopeNs ws).sum) k (by simpa using hk)
      rw [h1, List.nil_append]
      rw [cfgStart_cons_succ] 
      rw [show cb + ((ws, cg).2.rows.length + cfgStart L k) + c = cb + cg.rows.length + cfgStart L k + c by simp only; omega, this]
      apply List.map_congr_left
      intro i _
      rw [List.map_cons, edgeStart_cons_succ]
      simp only [Prod.mk.injEq, scopeNs]
      exact ⟨trivial, by omega⟩

theorem facEntries_filter_snd (cb eb : Nat) (vs : List Var) (cf : Configs) (hw : vs.length = cf.ncols)
    (hr : ∀ r ∈ cf.rows, List.Forall₂ (fun s (v : Var) => s < v.n) r vs) (i s : Nat) (v : Var) (hi : vs[i]? = some v) (hs : s < v.n) :
    (facEntries cb eb vs cf).filter (fun e => e.2 == eb + ((scopeNs vs).take i).sum + s)
      = ((List.range cf.rows.length).filter (fun c => (cf.rows.getD c [])[i]? = some s)).map
          (fun c => (cb + c, eb + ((scopeNs vs).take i).sum + s)) := by
  have hil : i < vs.length := (List.getElem?_eq_some_iff.1 hi).1
  unfold facEntries
  rw [filter_flatMap]
  have key : ∀ c ∈ List.range cf.rows.length,
      ((List.range cf.ncols).map (fun j => (cb + c, eb + ((scopeNs vs).take j).sum + (cf.rows.getD c []).getD j 0))).filter
        (fun e => e.2 == eb + ((scopeNs vs).take i).sum + s)
      = if (cf.rows.getD c [])[i]? = some s then [(cb + c, eb + ((scopeNs vs).take i).sum + s)] else [] := by
    intro c hc
    have hc := List.mem_range.1 hc
    have hrow := hr (cf.rows.getD c []) (by simp [List.getD, List.getElem?_eq_getElem hc])
    have hlen := hrow.length_eq
    generalize cf.rows.getD c [] = r at hrow hlen ⊢
    have hrj : ∀ j, j < vs.length → r.getD j 0 < (scopeNs vs).getD j 0 := by
      intro j hj
      have := forall₂_getElem? hrow (List.getElem?_eq_getElem (show j < r.length by omega))
      simpa [List.getD, List.getElem?_eq_getElem (show j < r.length by omega), List.getElem?_eq_getElem hj] using this
    have hsi : s < (scopeNs vs).getD i 0 := by simpa [List.getD, hi] using hs
    rw [List.filter_map]
    by_cases hri : r[i]? = some s
    · rw [if_pos hri]
      have hfil : (List.range cf.ncols).filter ((fun e : Nat × Nat => e.2 == eb + ((scopeNs vs).take i).sum + s) ∘
          fun j => (cb + c, eb + ((scopeNs vs).take j).sum + r.getD j 0)) = (List.range cf.ncols).filter (· == i) := by
        apply List.filter_congr
        intro j hj
        have hj := List.mem_range.1 hj
        simp only [Function.comp_apply]
        by_cases hji : j = i
        · subst hji
          simp [List.getD, hri]
        · have : ¬ (eb + ((scopeNs vs).take j).sum + r.getD j 0 = eb + ((scopeNs vs).take i).sum + s) := by
            intro heq
            exact hji (block_inj (scopeNs vs) j i _ _ (by simp; omega) (by simpa using hil) (hrj j (by omega)) hsi (by omega)).1
          simp only [beq_eq_false_iff_ne.2 this, beq_eq_false_iff_ne.2 hji]
      rw [hfil]
      have : (List.range cf.ncols).filter (· == i) = [i] := by
        have h2 : (List.range cf.ncols).count i = 1 := List.count_eq_one_of_mem List.nodup_range (by simp; omega)
        have h3 : (List.range cf.ncols).filter (· == i) = List.replicate ((List.range cf.ncols).count i) i := by
          rw [List.filter_beq]
        rw [h3, h2]; rfl
      rw [this]
      simp [List.getD, hri]
    · rw [if_neg hri]
      have : (List.range cf.ncols).filter ((fun e : Nat × Nat => e.2 == eb + ((scopeNs vs).take i).sum + s) ∘
          fun j => (cb + c, eb + ((scopeNs vs).take j).sum + r.getD j 0)) = [] := by
        rw [List.filter_eq_nil_iff]
        intro j hj
        have hj := List.mem_range.1 hj
        simp only [Function.comp_apply, beq_iff_eq]
        intro heq
        obtain ⟨h1, h2⟩ := block_inj (scopeNs vs) j i _ _ (by simp; omega) (by simpa using hil) (hrj j (by omega)) hsi (by omega)
        subst h1
        apply hri
        rw [List.getElem?_eq_getElem (by omega), ← h2]
        simp [List.getD, List.getElem?_eq_getElem (show j < r.length by omega)]
      rw [this]; rfl
  rw [List.flatMap_def, List.map_congr_left key, ← List.flatMap_def]
  induction (List.range cf.rows.length) with
  | nil => rfl
  | cons c l ih =>
    rw [List.flatMap_cons, ih, List.filter_cons]
    by_cases hc : (cf.rows.getD c [])[i]? = some s
    · simp only [if_pos hc, decide_true, if_true, List.map_cons, List.singleton_append, hc]
    · simp only [if_neg hc, List.nil_append, hc, decide_false, Bool.false_eq_true, if_false]

/-- The entries of state `s` of position `i` of factor `k`: the configurations in which position `i` is in state `s`. -/
theorem enumEntries_filter_snd (cb eb : Nat) (L : List (List Var × Configs)) (hL : TablesOk L) (k i s : Nat) (vs : List Var) (cf : Configs)
    (v : Var) (hk : L[k]? = some (vs, cf)) (hi : vs[i]? = some v) (hs : s < v.n) :
    (enumEntries cb eb L).filter (fun e => e.2 == eb + edgeStart (L.map (·.1)) k i + s)
      = ((List.range cf.rows.length).filter (fun c => (cf.rows.getD c [])[i]? = some s)).map
          (fun c => (cb + cfgStart L k + c, eb + edgeStart (L.map (·.1)) k i + s)) := by
  have hpos : ∀ (vs : List Var) (i s : Nat) (v : Var), vs[i]? = some v → s < v.n → ((scopeNs vs).take i).sum + s < (scopeNs vs).sum := by
    intro vs i s v hi hs
    exact block_lt (scopeNs vs) i s (by simpa using (List.getElem?_eq_some_iff.1 hi).1) (by simpa [List.getD, hi] using hs)
  induction L generalizing cb eb k with
  | nil => simp at hk
  | cons q L ih =>
    obtain ⟨ws, cg⟩ := q
    rw [enumEntries_cons, List.filter_append]
    obtain ⟨hw, hr⟩ := hL (ws, cg) (by simp)
    simp only at hw hr
    cases k with
    | zero =>
      simp only [List.getElem?_cons_zero, Option.some.injEq, Prod.mk.injEq] at hk
      obtain ⟨rfl, rfl⟩ := hk
      have e0 : edgeStart (((ws, cg) :: L).map (·.1)) 0 i = ((scopeNs ws).take i).sum := by
        simp only [List.map_cons, edgeStart_cons_zero, scopeNs, List.map_take]
      rw [e0, facEntries_filter_snd cb eb ws cg hw hr i s v hi hs]
      have : (enumEntries (cb + cg.rows.length) (eb + (scopeNs ws).sum) L).filter
          (fun e => e.2 == eb + ((scopeNs ws).take i).sum + s) = [] := by
        rw [List.filter_eq_nil_iff]
        intro e he
        have h1 := enumEntries_snd_bounds _ _ _ _ he
        have h2 := hpos ws i s v hi hs
        simp only [beq_iff_eq]
        omega
      rw [this, List.append_nil]
      simp only [cfgStart_cons_zero, Nat.add_zero]
    | succ k =>
      have e0 : edgeStart (((ws, cg) :: L).map (·.1)) (k + 1) i = (scopeNs ws).sum + edgeStart (L.map (·.1)) k i := by
        rw [List.map_cons, edgeStart_cons_succ]
      have h1 : (facEntries cb eb ws cg).filter (fun e => e.2 == eb + ((scopeNs ws).sum + edgeStart (L.map (·.1)) k i) + s) = [] := by
        rw [List.filter_eq_nil_iff]
        intro e he
        obtain ⟨d, hd, he⟩ := List.mem_flatMap.1 he
        obtain ⟨j, hj, rfl⟩ := List.mem_map.1 he
        have hd := List.mem_range.1 hd
        have hj := List.mem_range.1 hj
        have hrow := hr (cg.rows.getD d []) (by simp [List.getD, List.getElem?_eq_getElem hd])
        have hl := hrow.length_eq
        obtain ⟨w, hw1, hlt⟩ := forall₂_getElem? hrow (List.getElem?_eq_getElem (show j < (cg.rows.getD d []).length by omega))
        have := hpos ws j _ w hw1 hlt
        have hg : (cg.rows.getD d []).getD j 0 = (cg.rows.getD d [])[j]'(by omega) := by
          exact getD_of_some (List.getElem?_eq_getElem (by omega))
        simp only [beq_iff_eq]
        omega
      rw [e0, h1, List.nil_append]
      have := ih (cb + cg.rows.length) (eb + (scopeNs ws).sum) (fun p hp => hL p (by simp [hp])) k (by simpa using hk)
      rw [show eb + ((scopeNs ws).sum + edgeStart (L.map (·.1)) k i) + s = eb + (scopeNs ws).sum + edgeStart (L.map (·.1)) k i + s by omega,
        this]
      apply List.map_congr_left
      intro c _
      rw [cfgStart_cons_succ]
      simp only [Prod.mk.injEq]
      exact ⟨by omega, trivial⟩


variable {α : Type _} [Field α] [LinearOrder α]

/-- Number of configurations of a list of tables. -/
def totalCfgs (L : List (List Var × Configs)) : Nat := (L.map (fun p => p.2.rows.length)).sum

theorem enumEntries_lt (L : List (List Var × Configs)) (hL : TablesOk L) (e : Nat × Nat) (he : e ∈ enumEntries 0 0 L) :
    e.1 < totalCfgs L ∧ e.2 < statesOf (L.map (·.1)) := by
  obtain ⟨k, vs, cf, c, i, hk, hc, hi, rfl⟩ := (enumEntries_mem 0 0 L e).1 he
  refine ⟨by have := cfgStart_lt L k c vs cf hk hc; simp only [totalCfgs]; omega, ?_⟩
  obtain ⟨hw, hr⟩ := hL (vs, cf) (List.mem_iff_getElem?.2 ⟨k, hk⟩)
  simp only at hw hr
  have hrow := hr (cf.rows.getD c []) (by simp [List.getD, List.getElem?_eq_getElem hc])
  have hl := hrow.length_eq
  obtain ⟨v, hv, hlt⟩ := forall₂_getElem? hrow (List.getElem?_eq_getElem (show i < (cf.rows.getD c []).length by omega))
  have hg : (cf.rows.getD c []).getD i 0 = (cf.rows.getD c [])[i]'(by omega) := by
    exact getD_of_some (List.getElem?_eq_getElem (by omega))
  have := edgeStart_lt (L.map (·.1)) k i vs v _ (by simp [hk]) hv hlt
  simp only [hg, statesOf]
  omega

/-- `fac_config_summary_sum`: log potential plus all incoming messages of the configuration. -/
theorem enumSummary_getElem? (env : Env α) (L : List (List Var × Configs)) (hL : TablesOk L) (vtof lp : List α)
    (hv : vtof.length = statesOf (L.map (·.1))) (hlp : lp.length = totalCfgs L) (k c : Nat) (vs : List Var) (cf : Configs)
    (hk : L[k]? = some (vs, cf)) (hc : c < cf.rows.length) :
    (enumSummary env vtof (enumEntries 0 0 L) lp (totalCfgs L))[cfgStart L k + c]? = some
      (lp.getD (cfgStart L k + c) 0 + ((List.range vs.length).map
        (fun j => readMsgs (L.map (·.1)) vtof k j ((cf.rows.getD c []).getD j 0))).sum) := by
  have hlt : cfgStart L k + c < totalCfgs L := cfgStart_lt L k c vs cf hk hc
  obtain ⟨hw, hr⟩ := hL (vs, cf) (List.mem_iff_getElem?.2 ⟨k, hk⟩)
  simp only at hw
  unfold enumSummary zipOp
  rw [List.getElem?_zipWith, scatterAdd_getElem?, gather, List.map_map, hits_map]
  have := enumEntries_filter_fst 0 0 L k c vs cf hk hc
  simp only [Nat.zero_add] at this
  rw [this, List.map_map, List.getElem?_replicate, if_pos hlt, List.getElem?_eq_getElem (show cfgStart L k + c < lp.length by omega)]
  simp only [Option.map_some, zero_add, Option.some.injEq]
  rw [getD_of_some (List.getElem?_eq_getElem (show cfgStart L k + c < lp.length by omega)), add_comm, hw]
  congr 2
  apply List.map_congr_left
  intro j hj
  have hj := List.mem_range.1 hj
  have hin : edgeStart (L.map (·.1)) k j + (cf.rows.getD c []).getD j 0 < vtof.length := by
    rw [hv]
    refine (enumEntries_lt L hL (cfgStart L k + c, edgeStart (L.map (·.1)) k j + (cf.rows.getD c []).getD j 0) ?_).2
    rw [enumEntries_mem]
    exact ⟨k, vs, cf, c, j, hk, hc, hj, by simp⟩
  simp only [Function.comp_apply, readMsgs]
  rw [getD_of_some (List.getElem?_eq_getElem hin), getD_of_some (List.getElem?_eq_getElem hin)]

/-- Score of configuration `c` of factor `k`: log potential plus all incoming messages. -/
def cfgScore (L : List (List Var × Configs)) (vtof lp : List α) (k c : Nat) : α :=
  lp.getD (cfgStart L k + c) 0 + ((List.range ((L.getD k ([], ⟨0, []⟩)).1).length).map
        (fun j => readMsgs (L.map (·.1)) vtof k j (((L.getD k ([], ⟨0, []⟩)).2.rows.getD c []).getD j 0))).sum

/-- The configurations of factor `k` in which position `i` is in state `s`. -/
def cfgsAt (cf : Configs) (i s : Nat) : List Nat := (List.range cf.rows.length).filter (fun c => (cf.rows.getD c [])[i]? = some s)

/-- `max_factor_config_summary_for_edge_states`. -/
theorem enumMaxes_getElem? (env : Env α) (L : List (List Var × Configs)) (hL : TablesOk L) (vtof lp : List α)
    (hv : vtof.length = statesOf (L.map (·.1))) (hlp : lp.length = totalCfgs L) (k i s : Nat) (vs : List Var) (cf : Configs)
    (v : Var) (hk : L[k]? = some (vs, cf)) (hi : vs[i]? = some v) (hs : s < v.n) :
    (enumMaxes env vtof (enumEntries 0 0 L) (enumSummary env vtof (enumEntries 0 0 L) lp (totalCfgs L)))[edgeStart (L.map (·.1)) k i + s]?
      = some (((cfgsAt cf i s).map (cfgScore L vtof lp k)).foldl max NEG_INF) := by
  have hlt : edgeStart (L.map (·.1)) k i + s < vtof.length := by
    rw [hv]; exact edgeStart_lt _ k i vs v s (by simp [hk]) hi hs
  unfold enumMaxes scatterMax
  rw [scatterWith_getElem?, gather, List.map_map, hits_map]
  have := enumEntries_filter_snd 0 0 L hL k i s vs cf v hk hi hs
  simp only [Nat.zero_add] at this
  rw [this, List.map_map, List.getElem?_replicate, if_pos hlt]
  simp only [Option.map_some, Option.some.injEq]
  congr 1
  apply List.map_congr_left
  intro c hc
  have hc : c < cf.rows.length := by have := (List.mem_filter.1 hc).1; simpa using this
  simp only [Function.comp_apply]
  rw [getD_of_some (enumSummary_getElem? env L hL vtof lp hv hlp k c vs cf hk hc)]
  simp only [cfgScore, getD_of_some hk]

theorem getLast?_enumEntries (L : List (List Var × Configs)) (hne : L ≠ []) (h : ∀ p ∈ L, p.2.rows ≠ [] ∧ 0 < p.2.ncols) (cb eb : Nat) :
    ∃ e, (enumEntries cb eb L).getLast? = some (cb + totalCfgs L - 1, e) := by
  induction L generalizing cb eb with
  | nil => exact absurd rfl hne
  | cons q L ih =>
    obtain ⟨vs, cf⟩ := q
    rw [enumEntries_cons]
    obtain ⟨h1, h2⟩ := h (vs, cf) (by simp)
    have hl : 0 < cf.rows.length := List.length_pos_iff.2 h1
    by_cases hLe : L = []
    · subst hLe
      simp only [enumEntries, List.append_nil]
      obtain ⟨m, hm⟩ : ∃ m, cf.rows.length = m + 1 := ⟨cf.rows.length - 1, by omega⟩
      obtain ⟨n, hn⟩ : ∃ n, cf.ncols = n + 1 := ⟨cf.ncols - 1, by simp only at h2; omega⟩
      refine ⟨eb + ((scopeNs vs).take n).sum + (cf.rows.getD m []).getD n 0, ?_⟩
      · unfold facEntries
        rw [hm, hn, List.range_succ (n := m), List.flatMap_append, List.flatMap_singleton, List.range_succ (n := n), List.map_append, ← List.append_assoc]
        simp only [List.map_cons, List.map_nil, List.getLast?_append, List.getLast?_singleton, Option.some_or, totalCfgs, List.sum_cons, List.sum_nil,
          Option.some.injEq, Prod.mk.injEq, and_true]
        omega
    · obtain ⟨e, he⟩ := ih hLe (fun p hp => h p (by simp [hp])) (cb + cf.rows.length) (eb + (scopeNs vs).sum)
      refine ⟨e, ?_⟩
      rw [List.getLast?_append, he]
      simp only [Option.some_or, totalCfgs, List.map_cons, List.sum_cons, Option.some.injEq, Prod.mk.injEq, and_true]
      omega

theorem numValConfigs_eq (st : StartMap) (L : List (List Var × Configs)) (h : ∀ p ∈ L, p.2.rows ≠ [] ∧ 0 < p.2.ncols) :
    (mkEnumW st L).numValConfigs = totalCfgs L := by
  unfold EnumWiring.numValConfigs mkEnumW
  by_cases hne : L = []
  · subst hne; rfl
  · obtain ⟨e, he⟩ := getLast?_enumEntries L hne h 0 0
    simp only [he]
    have : 0 < totalCfgs L := by
      match L, hne with
      | p :: L, _ =>
        have := List.length_pos_iff.2 (h p (by simp)).1
        simp only [totalCfgs, List.map_cons, List.sum_cons]; omega
    omega

end PGMax
