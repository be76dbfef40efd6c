import Verif.Spec.FGraph
import Verif.Lemmas.Wiring

/-! Helper lemmas about the data of factor groups (`factors`, `flatten`, `unflatten`, pairwise potentials). -/

namespace PGMax

variable {α : Type _}

/-- Cutting a list into consecutive slices of equal length and joining them. -/
theorem flatMap_slice {β : Type _} (n w : Nat) (l : List β) (hl : l.length = n * w) :
    (List.range n).flatMap (fun f => slice l (f * w) (f * w + w)) = l := by
  induction n generalizing l with
  | zero => simp at hl; simp [hl]
  | succ n ih =>
    rw [List.range_succ, List.flatMap_append]
    have h1 := ih (l.take (n * w)) (by rw [List.length_take, hl, Nat.min_eq_left (Nat.mul_le_mul_right _ (by omega))])
    have h2 : (List.range n).flatMap (fun f => slice (l.take (n * w)) (f * w) (f * w + w))
        = (List.range n).flatMap (fun f => slice l (f * w) (f * w + w)) := by
      rw [List.flatMap_def, List.flatMap_def]
      congr 1
      apply List.map_congr_left
      intro f hf
      rw [List.mem_range] at hf
      have : f * w + w ≤ n * w := by
        calc f * w + w = (f + 1) * w := by ring
          _ ≤ _ := Nat.mul_le_mul_right _ hf
      unfold slice
      rw [List.take_take, Nat.min_eq_left this]
    rw [← h2, h1]
    simp only [List.flatMap_cons, List.flatMap_nil, List.append_nil, slice]
    rw [show n * w + w = l.length by rw [hl]; ring, List.take_length, List.take_append_drop]

/-- Filling a dictionary with different keys. -/
theorem foldl_dictSet {κ β : Type _} [DecidableEq κ] (l : List (κ × β)) (acc : List (κ × β))
    (h : ((acc ++ l).map (·.1)).Nodup) : l.foldl (fun d p => dictSet d p.1 p.2) acc = acc ++ l := by
  have ds : ∀ (d : List (κ × β)) (k : κ) (v : β), k ∉ d.map (·.1) → dictSet d k v = d ++ [(k, v)] := by
    intro d
    induction d with
    | nil => intro k v _; rfl
    | cons p d ih =>
      obtain ⟨k', v'⟩ := p
      intro k v h
      simp only [List.map_cons, List.mem_cons, not_or] at h
      simp [dictSet, Ne.symm h.1, ih k v h.2]
  induction l generalizing acc with
  | nil => simp
  | cons p l ih =>
    rw [List.foldl_cons, ds acc p.1 p.2]
    · rw [ih (acc ++ [(p.1, p.2)]) (by simpa using h)]
      simp
    · intro hm
      rw [List.map_append, List.nodup_append] at h
      exact h.2.2 _ hm _ (by simp) rfl

/-- The dictionary of factors of a group whose factors can be built. -/
theorem variablesToFactors_eq (g : FGroup α) (F : Nat → AnyFactor α)
    (hb : ∀ ii vs, g.varsForFactors[ii]? = some vs → g.buildFactor ii vs = .ok (F ii))
    (hnd : (g.varsForFactors.map List.toFinset).Nodup) :
    g.variablesToFactors
      = .ok ((List.range g.varsForFactors.length).map (fun ii => ((g.varsForFactors.getD ii []).toFinset, F ii))) := by
  unfold FGroup.variablesToFactors
  rw [mapM_ok _ (fun ii => ((g.varsForFactors.getD ii []).toFinset, F ii))]
  · simp only [bind, Except.bind, pure, Except.pure]
    rw [foldl_dictSet]
    · simp
    · simp only [List.nil_append, List.map_map, Function.comp_def]
      have : (List.range g.varsForFactors.length).map (fun ii => (g.varsForFactors.getD ii []).toFinset)
          = g.varsForFactors.map List.toFinset := by
        apply List.ext_getElem?
        intro i
        simp only [List.getElem?_map]
        by_cases hi : i < g.varsForFactors.length
        · rw [List.getElem?_range hi]; simp [List.getD, List.getElem?_eq_getElem hi]
        · rw [List.getElem?_eq_none (by simpa using hi), List.getElem?_eq_none (by simpa using hi)]; rfl
      rw [this]; exact hnd
  · intro ii hii
    rw [List.mem_range] at hii
    have := hb ii _ (List.getElem?_eq_getElem hii)
    simp only [List.getD, List.getElem?_eq_getElem hii, Option.getD_some]
    rw [this]
    rfl

/-- Factors of a valid enumeration group can be built. -/
theorem buildFactor_enum {g : FGroup α} (ht : g.ftype = .enum)
    (hw : ∀ vs ∈ g.varsForFactors, vs.length = g.configs.ncols)
    (hr : ∀ vs ∈ g.varsForFactors, ∀ r ∈ g.configs.rows, List.Forall₂ (fun s v => s < v.n) r vs)
    (ii : Nat) (vs : List Var) (h : g.varsForFactors[ii]? = some vs) :
    g.buildFactor ii vs = .ok (.enum ⟨vs, g.configs,
      slice g.logPotentials (ii * g.configs.rows.length) (ii * g.configs.rows.length + g.configs.rows.length)⟩) := by
  unfold FGroup.buildFactor
  rw [ht]
  simp only
  rw [if_neg]
  rintro ⟨-, hbad⟩
  have hm := List.mem_of_getElem? h
  rcases hbad with hbad | hbad
  · exact hbad (hw vs hm)
  · rw [List.any_eq_true] at hbad
    obtain ⟨r, hr', hbad⟩ := hbad
    rw [List.any_eq_true] at hbad
    obtain ⟨⟨s, v⟩, hp, hbad⟩ := hbad
    have hF := hr vs hm r hr'
    have := List.forall₂_iff_zip.1 hF |>.2 hp
    simp only [decide_eq_true_eq] at hbad
    omega

theorem buildFactor_logical {g : FGroup α} (isAnd : Bool) (ht : g.ftype = if isAnd then .and else .or) (ii : Nat)
    (vs : List Var) (h : LogicalScope vs) : g.buildFactor ii vs = .ok (.logical ⟨vs, isAnd⟩) := by
  have : LogicalFactor.create vs isAnd = .ok ⟨vs, isAnd⟩ := by
    unfold LogicalFactor.create
    have hall : vs.all (fun v => decide (v.n = 2)) = true := by simpa using h.2
    simp only [hall, if_true, bind, Except.bind, pure, Except.pure]
    rw [if_neg (by have := h.1; omega)]
  unfold FGroup.buildFactor
  rw [ht]
  cases isAnd <;> simp only [Bool.false_eq_true, if_false, if_true] <;> rw [this] <;> rfl

theorem factors_length_enum {g : FGroup α} (ht : g.ftype = .enum)
    (hw : ∀ vs ∈ g.varsForFactors, vs.length = g.configs.ncols)
    (hr : ∀ vs ∈ g.varsForFactors, ∀ r ∈ g.configs.rows, List.Forall₂ (fun s v => s < v.n) r vs)
    (hnd : (g.varsForFactors.map List.toFinset).Nodup) :
    ∃ fs, g.factors = .ok fs ∧ fs.length = g.varsForFactors.length := by
  refine ⟨_, by
    unfold FGroup.factors
    rw [variablesToFactors_eq g _ (fun ii vs h => (buildFactor_enum ht hw hr ii vs h).trans (by
      rw [show vs = g.varsForFactors.getD ii [] by simp [List.getD, h]])) hnd]
    rfl, by simp⟩

/-! ### Pairwise potentials -/

theorem filterMap_range_slice {β : Type _} (m : List β) (s n : Nat) :
    (List.range n).filterMap (fun j => m[s + j]?) = slice m s (s + n) := by
  have e : ∀ n, slice m s (s + n) = (m.drop s).take n := by
    intro n; unfold slice; rw [List.drop_take]; congr 1; omega
  rw [e]
  induction n with
  | zero => simp
  | succ n ih =>
    rw [List.range_succ, List.filterMap_append, ih, List.take_add_one]
    congr 1
    simp only [List.filterMap_cons, List.filterMap_nil, List.getElem?_drop]
    cases m[s + n]? <;> rfl

theorem mgrid_filterMap (a b : Nat) (m : List α) (hm : m.length = a * b) :
    (mgridConfigs a b).rows.filterMap (fun r => m[r.getD 0 0 * b + r.getD 1 0]?) = m := by
  unfold mgridConfigs
  simp only [List.filterMap_flatMap]
  conv_rhs => rw [← flatMap_slice a b m hm]
  rw [List.flatMap_def, List.flatMap_def]
  congr 1
  apply List.map_congr_left
  intro i hi
  rw [List.filterMap_map, ← filterMap_range_slice]
  rfl

theorem computeLogPotentials_eq (a b : Nat) (mats : List (List α)) (h : ∀ m ∈ mats, m.length = a * b) :
    computeLogPotentials mats (mgridConfigs a b) b = mats.flatten := by
  unfold computeLogPotentials
  rw [List.flatMap_def]
  congr 1
  conv_rhs => rw [← List.map_id mats]
  apply List.map_congr_left
  intro m hm
  exact mgrid_filterMap a b m (h m hm)

theorem mgrid_rows_length (a b : Nat) : (mgridConfigs a b).rows.length = a * b := by
  simp [mgridConfigs, List.length_flatMap, List.map_const']

theorem mgrid_mem (a b : Nat) (r : List Nat) : r ∈ (mgridConfigs a b).rows ↔ ∃ i j, i < a ∧ j < b ∧ r = [i, j] := by
  simp only [mgridConfigs, List.mem_flatMap, List.mem_range, List.mem_map]
  constructor
  · rintro ⟨i, hi, j, hj, rfl⟩; exact ⟨i, j, hi, hj, rfl⟩
  · rintro ⟨i, j, hi, hj, rfl⟩; exact ⟨i, hi, j, hj, rfl⟩

theorem mgrid_getElem? (a b i j : Nat) (hi : i < a) (hj : j < b) : (mgridConfigs a b).rows[i * b + j]? = some [i, j] := by
  have := flatMap_getElem?_block (List.range a) (fun i => (List.range b).map (fun j => [i, j])) i j i
    (List.getElem?_range hi) (by simpa using hj)
  rw [show ((List.range a).map (fun y => ((List.range b).map (fun j => [y, j])).length)) = List.replicate a b by
    simp [List.map_const'], sum_replicate_take _ _ _ (by omega)] at this
  simp only [mgridConfigs]
  rw [this, List.getElem?_map, List.getElem?_range hj]
  rfl

theorem mgrid_nodup (a b : Nat) : (mgridConfigs a b).rows.Nodup := by
  simp only [mgridConfigs]
  rw [List.nodup_flatMap]
  refine ⟨?_, ?_⟩
  · intro i _
    rw [List.nodup_map_iff_inj_on List.nodup_range]
    intro x _ y _ h
    simpa using h
  · refine List.Pairwise.imp_of_mem ?_ List.nodup_range
    intro i i' _ _ hne
    simp only [Function.onFun, List.Disjoint, List.mem_map, List.mem_range, not_exists, not_and, forall_exists_index,
      and_imp]
    rintro r j hj rfl j' hj' h
    simp only [List.cons.injEq, and_true] at h
    exact hne h.1.symm

/-- What a successfully constructed pairwise group looks like. -/
theorem pairwise_create_facts [Zero α] (id : Nat) (scopes : List (List Var)) (m : NDArr α) (hm : m.WF) (mFloat : Bool)
    (g : FGroup α) (h : PairwiseFactorGroup.create id scopes (some m) mFloat = .ok g) :
    ∃ a b, scopes ≠ [] ∧ (m.shape = [a, b] ∨ m.shape = [scopes.length, a, b]) ∧
      (∀ vs ∈ scopes, ∃ v0 v1, vs = [v0, v1] ∧ v0.n = a ∧ v1.n = b) ∧
      g.ftype = .enum ∧ g.kind = .pairwise a b ∧ g.objId = id ∧
      g.varsForFactors = scopes ∧ g.configs = mgridConfigs a b ∧
      g.logPotentials = (if m.shape.length = 3 then m.data else (List.replicate scopes.length m.data).flatten) := by
  unfold PairwiseFactorGroup.create at h
  simp only [bind, Except.bind, pure, Except.pure, throw, throwThe, MonadExceptOf.throw, Option.isSome_some,
    Bool.true_and] at h
  by_cases h0 : scopes.length = 0
  · rw [if_pos h0] at h; cases h
  rw [if_neg h0] at h
  by_cases h1 : m.shape.length ≠ 2 ∧ m.shape.length ≠ 3
  · rw [if_pos h1] at h; cases h
  rw [if_neg h1] at h
  by_cases h2 : (!mFloat) = true
  · rw [if_pos h2] at h; cases h
  rw [if_neg h2] at h
  by_cases h3 : m.shape.length = 3 ∧ m.shape.getD 0 0 ≠ scopes.length
  · rw [if_pos h3] at h; cases h
  rw [if_neg h3] at h
  split at h
  · cases h
  rename_i h4
  rw [Except.ok.injEq] at h
  subst h
  refine ⟨m.shape.getD (m.shape.length - 2) 0, m.shape.getD (m.shape.length - 1) 0, ?_, ?_, ?_, rfl, rfl, rfl, rfl,
    rfl, ?_⟩
  · intro hc; rw [hc] at h0; exact h0 rfl
  · match hs : m.shape with
    | [] => rw [hs] at h1; simp at h1
    | [_] => rw [hs] at h1; simp at h1
    | [x, y] => left; rfl
    | [x, y, z] =>
      right
      rw [hs] at h3
      simp only [List.length_cons, List.length_nil, Nat.reduceAdd, List.getD_cons_zero, ne_eq, true_and, not_not] at h3
      rw [h3]
      rfl
    | _ :: _ :: _ :: _ :: _ => rw [hs] at h1; simp at h1
  · intro vs hvs
    simp only [Bool.not_eq_true, List.any_eq_false] at h4
    have := h4 vs hvs
    match vs with
    | [] => simp at this
    | [_] => simp at this
    | [v0, v1] => exact ⟨v0, v1, rfl, by simpa using this⟩
    | _ :: _ :: _ :: _ => simp at this
  · rw [NDArr.WF] at hm
    by_cases h5 : m.shape.length = 3
    · simp only [h5, if_true]
      match hs : m.shape with
      | [x, y, z] =>
        rw [hs] at h3 hm
        simp only [List.length_cons, List.length_nil, Nat.reduceAdd, List.getD_cons_zero, ne_eq, true_and, not_not] at h3
        simp only [List.prod_cons, List.prod_nil, mul_one] at hm
        have hlen : m.data.length = scopes.length * (y * z) := by rw [hm, h3]
        show computeLogPotentials (rows m.data scopes.length (y * z)) (mgridConfigs y z) z = m.data
        rw [computeLogPotentials_eq]
        · unfold rows
          rw [← List.flatMap_def]
          exact flatMap_slice _ _ _ hlen
        · intro r hr
          obtain ⟨k, hk, rfl⟩ := List.mem_map.1 hr
          rw [List.mem_range] at hk
          have hle : k * (y * z) + y * z ≤ m.data.length := by
            rw [hlen]; calc k * (y * z) + y * z = (k + 1) * (y * z) := by ring
              _ ≤ _ := Nat.mul_le_mul_right _ hk
          simp only [slice, List.length_drop, List.length_take]
          omega
      | [] => rw [hs] at h5; simp at h5
      | [_] => rw [hs] at h5; simp at h5
      | [_, _] => rw [hs] at h5; simp at h5
      | _ :: _ :: _ :: _ :: _ => rw [hs] at h5; simp at h5
    · simp only [h5, if_false]
      match hs : m.shape with
      | [x, y] =>
        rw [hs] at hm
        simp only [List.prod_cons, List.prod_nil, mul_one] at hm
        show computeLogPotentials (List.replicate scopes.length m.data) (mgridConfigs x y) y = _
        rw [computeLogPotentials_eq]
        intro r hr
        rw [List.mem_replicate] at hr
        rw [hr.2, hm]
      | [] => rw [hs] at h1; simp at h1
      | [_] => rw [hs] at h1; simp at h1
      | [_, _, _] => rw [hs] at h5; simp at h5
      | _ :: _ :: _ :: _ :: _ => rw [hs] at h1; simp at h1

end PGMax
