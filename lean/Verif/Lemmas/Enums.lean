import Verif.Lemmas.Deconv
import Mathlib.Data.List.GetD

/-! Helper lemmas: graphs of enumeration groups, built by programs. -/

namespace PGMax

variable {κ α : Type _}

/-- Cells of arrays made by objects with different ids are different. -/
theorem uniCell_ne {i j : Nat} {s t cs ds : List Nat} {k l : Nat} (hij : i % 2 ^ 32 ≠ j % 2 ^ 32) (hs : s.prod ≤ 1000000000) (ht : t.prod ≤ 1000000000)
    (hc : List.Forall₂ (fun c d => c < d) cs s) (hd : List.Forall₂ (fun c d => c < d) ds t) : uniCell i s k cs ≠ uniCell j t l ds := by
  intro e
  refine (C02_groups_distinct_partial (κ := Nat) i j _ _ (uniArr_built i s k hs) (uniArr_built j t l ht) hij).2 (uniCell i s k cs) ?_ (uniCell j t l ds) ?_
    (congrArg Var.hash e)
  · exact (mem_uniArr i s k _).2 ⟨cs, hc, rfl⟩
  · exact (mem_uniArr j t l _).2 ⟨ds, hd, rfl⟩

/-- A group of enumeration factors, given factor by factor. -/
def enumGroup (objId : Nat) (kind : FKind) (cf : Configs) (L : List (List Var × List α)) : FGroup α :=
  { objId := objId, ftype := .enum, kind := kind, varsForFactors := L.map (·.1), configs := cf, logPotentials := L.flatMap (·.2) }

theorem enumGroup_valid {known : Var → Prop} (objId : Nat) (kind : FKind) (cf : Configs) (L : List (List Var × List α)) (hne : L ≠ [])
    (hc : 0 < cf.ncols) (hr : cf.rows ≠ []) (hk : ∀ p ∈ L, ∀ v ∈ p.1, known v) (hw : ∀ p ∈ L, p.1.length = cf.ncols)
    (hin : ∀ p ∈ L, ∀ r ∈ cf.rows, List.Forall₂ (fun s v => s < v.n) r p.1) (hp : ∀ p ∈ L, p.2.length = cf.rows.length) :
    (enumGroup objId kind cf L).Valid known where
  ne := by simpa [enumGroup] using hne
  vars vs hvs := by
    obtain ⟨p, hp, rfl⟩ := List.mem_map.1 hvs
    exact hk p hp
  enumOk _ := {
    cols := hc
    rowsNe := hr
    width := fun vs hvs => by
      obtain ⟨p, hp, rfl⟩ := List.mem_map.1 hvs
      exact hw p hp
    inRange := fun vs hvs => by
      obtain ⟨p, hp, rfl⟩ := List.mem_map.1 hvs
      exact hin p hp
    pots := by
      show (L.flatMap (·.2)).length = (L.map (·.1)).length * cf.rows.length
      induction L with
      | nil => simp
      | cons q L ih =>
        rw [List.flatMap_cons, List.length_append, hp q (by simp), List.map_cons, List.length_cons, Nat.add_mul, Nat.one_mul, Nat.add_comm]
        congr 1
        by_cases h : L = []
        · subst h; simp
        · exact ih h (fun p h => hk p (by simp [h])) (fun p h => hw p (by simp [h])) (fun p h => hin p (by simp [h])) (fun p h => hp p (by simp [h])) rfl }
  logicalOk h := absurd rfl h

theorem setsOf_enum {gs : List (FGroup α)} (he : ∀ g ∈ gs, g.ftype = .enum) :
    (∀ t, (setsOf gs t).Nodup) ↔ ((gs.flatMap (·.varsForFactors)).map List.toFinset).Nodup := by
  have e : setsOf gs .enum = (gs.flatMap (·.varsForFactors)).map List.toFinset := by
    unfold setsOf
    rw [List.filter_eq_self.2 (fun g hg => by simp [he g hg]), List.map_flatMap]
  have e' : ∀ t, t ≠ .enum → setsOf gs t = [] := by
    intro t ht
    unfold setsOf
    rw [List.filter_eq_nil_iff.2 (fun g hg => by simp [he g hg, Ne.symm ht])]
    rfl
  constructor
  · intro h; rw [← e]; exact h _
  · intro h t
    by_cases ht : t = .enum
    · subst ht; rw [e]; exact h
    · rw [e' t ht]; exact List.nodup_nil

/-- A graph of enumeration groups built without exceptions: it compiles, and its scopes and factors are those of the groups, in order. -/
theorem enum_build [Zero α] {vgs : List (VGroup κ)} (hv : VGroupsOk vgs) {hist : List (AddArg α)} {fg : FactorGraph κ α}
    (h : (FactorGraph.create vgs).addAll hist = .ok fg)
    (valid : ∀ g ∈ AddArg.flatList hist, g.Valid (fun v => v ∈ graphVars vgs))
    (ids : ((AddArg.flatList hist).map (·.objId)).Nodup) (he : ∀ g ∈ AddArg.flatList hist, g.ftype = .enum) (garbage : Garbage) :
    graphOf vgs hist = fg ∧ ∃ st, Compiled vgs hist garbage st ∧
      fg.allScopes = (AddArg.flatList hist).flatMap (·.varsForFactors) ∧
      fg.tables = (AddArg.flatList hist).flatMap (fun g => g.varsForFactors.map (fun vs => (vs, g.configs))) ∧
      (∀ t, t ≠ .enum → fg.scopesOf t = []) ∧
      st.logPotentials = (AddArg.flatList hist).flatMap (·.logPotentials) ∧
      (∀ lp, fg.factors lp = tableFacs fg.tables lp) ∧
      fg.factors st.logPotentials =
        (AddArg.flatList hist).flatMap (fun g => tableFacs (g.varsForFactors.map (fun vs => (vs, g.configs))) g.logPotentials) := by
  have hnil : ∀ t, t ≠ .enum → (AddArg.flatList hist).filter (fun g => decide (g.ftype = t)) = [] := fun t ht =>
    List.filter_eq_nil_iff.2 (fun g hg => by simp [he g hg, Ne.symm ht])
  obtain ⟨hg, st, hst, hgr, hlp⟩ := compiled_build hv h valid ids (by rw [hnil .or (by decide)]; simp) (by rw [hnil .and (by decide)]; simp) garbage
  have hge : fg.groups .enum = AddArg.flatList hist := by
    rw [hgr, List.filter_eq_self.2 (fun g hg => by simp [he g hg])]
  have hgo : ∀ t, t ≠ .enum → fg.scopesOf t = [] := fun t ht => by
    unfold FactorGraph.scopesOf
    rw [hgr, hnil t ht]; rfl
  have ht : fg.tables = (AddArg.flatList hist).flatMap (fun g => g.varsForFactors.map (fun vs => (vs, g.configs))) := by
    unfold FactorGraph.tables; rw [hge]
  have hf : ∀ lp, fg.factors lp = tableFacs fg.tables lp := by
    intro lp
    unfold FactorGraph.factors
    rw [hgo .or (by decide), hgo .and (by decide)]
    simp
  rw [hge] at hlp
  refine ⟨hg, st, hst, ?_, ht, hgo, hlp, hf, ?_⟩
  · simp only [FactorGraph.allScopes, FType.all, List.flatMap_cons, List.flatMap_nil, hgo .or (by decide), hgo .and (by decide), List.append_nil]
    unfold FactorGraph.scopesOf
    rw [hge]
  · rw [hf, hlp, ht, tableFacs_groups _ (fun g hg => (valid g hg).enumOk (he g hg))]

theorem enumGroup_facs (objId : Nat) (kind : FKind) (cf : Configs) (L : List (List Var × List α)) (hp : ∀ p ∈ L, p.2.length = cf.rows.length) :
    tableFacs ((enumGroup objId kind cf L).varsForFactors.map (fun vs => (vs, cf))) (enumGroup objId kind cf L).logPotentials =
      L.map (fun p => ⟨p.1, cf.rows.zip p.2⟩) := by
  rw [← tableFacs_blocks L cf hp]
  simp only [enumGroup, List.map_map]
  rfl

/-! ### Constructors -/

theorem rows_flatten (a b : Nat) (xs : List α) (h : xs.length = a * b) : (rows xs a b).flatten = xs := by
  induction a generalizing xs with
  | zero => simp only [Nat.zero_mul] at h; simp [rows, List.length_eq_zero_iff.1 h]
  | succ a ih =>
    have e : rows xs (a + 1) b = xs.take b :: rows (xs.drop b) a b := by
      unfold rows
      rw [List.range_succ_eq_map, List.map_cons, List.map_map]
      congr 1
      · simp [slice]
      · refine List.map_congr_left fun i _ => ?_
        simp only [Function.comp, slice, Nat.succ_eq_add_one, List.drop_take, List.drop_drop]
        rw [show (i + 1) * b = b + i * b by rw [Nat.add_mul]; omega, show b + i * b + b - (b + i * b) = i * b + b - i * b by omega]
    rw [e, List.flatten_cons, ih _ (by rw [List.length_drop, h, Nat.add_mul]; omega), List.take_append_drop]

theorem rows_length_each (a b : Nat) (xs : List α) (h : xs.length = a * b) : ∀ m ∈ rows xs a b, m.length = b := by
  intro m hm
  obtain ⟨i, hi, rfl⟩ := List.mem_map.1 hm
  rw [List.mem_range] at hi
  simp only [slice, List.length_take, List.length_drop, h]
  have : (i + 1) * b ≤ a * b := Nat.mul_le_mul_right b hi
  rw [Nat.add_mul] at this
  omega

/-- `PairwiseFactorGroup.create` with one matrix for each factor. -/
theorem pairwise_create_3d [Zero α] (id : Nat) (scopes : List (List Var)) (k a b : Nat) (data : List α) (hne : scopes ≠ [])
    (hd : data.length = k * (a * b)) (hs : ∀ vs ∈ scopes, ∃ v w, vs = [v, w] ∧ v.n = a ∧ w.n = b) :
    PairwiseFactorGroup.create id scopes (some ⟨[k, a, b], data⟩) true = if k = scopes.length then .ok
      { objId := id, ftype := .enum, kind := .pairwise a b, varsForFactors := scopes, configs := mgridConfigs a b, logPotentials := data }
      else .error .valueError := by
  have h0 : ¬ scopes.length = 0 := by simpa using hne
  unfold PairwiseFactorGroup.create
  simp only [bind, Except.bind, pure, Except.pure, if_neg h0]
  simp only [List.length_cons, List.length_nil, ne_eq, Nat.reduceAdd, not_true_eq_false,
    and_false, if_false, Option.isSome_some, Bool.not_true, Bool.and_false, Bool.false_eq_true, Nat.reduceEqDiff, Nat.reduceSub, true_and, if_true]
  rw [show List.getD [k, a, b] 0 0 = k from rfl, show List.getD [k, a, b] 1 0 = a from rfl, show List.getD [k, a, b] 2 0 = b from rfl]
  by_cases hk : k = scopes.length
  · subst hk
    simp only [not_true_eq_false, if_false, if_true]
    rw [if_neg (by
      rw [Bool.not_eq_true, List.any_eq_false]
      intro vs hvs
      obtain ⟨v, w, rfl, h1, h2⟩ := hs vs hvs
      simp [h1, h2]), computeLogPotentials_eq _ _ _ (rows_length_each _ _ _ hd), rows_flatten _ _ _ hd]
  · rw [if_pos hk, if_neg hk]
    rfl

/-- `PairwiseFactorGroup.create` without a matrix. -/
theorem pairwise_create_none [Zero α] (id : Nat) (scopes : List (List Var)) (a b : Nat) (fl : Bool) (hne : scopes ≠ [])
    (hs : ∀ vs ∈ scopes, ∃ v w, vs = [v, w] ∧ v.n = a ∧ w.n = b) :
    (PairwiseFactorGroup.create id scopes none fl : Py (FGroup α)) = .ok
      { objId := id, ftype := .enum, kind := .pairwise a b, varsForFactors := scopes, configs := mgridConfigs a b,
        logPotentials := (List.replicate scopes.length (List.replicate (a * b) 0)).flatten } := by
  have h0 : ¬ scopes.length = 0 := by simpa using hne
  unfold PairwiseFactorGroup.create
  cases scopes with
  | nil => exact absurd rfl hne
  | cons s scopes =>
    obtain ⟨v, w, rfl, h1, h2⟩ := hs s (by simp)
    simp only [bind, Except.bind, pure, Except.pure, if_neg h0]
    simp only [List.length_cons, List.length_nil, ne_eq, Nat.reduceAdd, not_true_eq_false, h1, h2,
      false_and, if_false, Option.isSome_none, Bool.false_and, Bool.false_eq_true, Nat.reduceEqDiff, Nat.reduceSub]
    rw [show List.getD [a, b] 0 0 = a from rfl, show List.getD [a, b] 1 0 = b from rfl, if_neg (by
      rw [Bool.not_eq_true, List.any_eq_false]
      intro vs hvs
      obtain ⟨v, w, rfl, h1, h2⟩ := hs vs hvs
      simp [h1, h2])]
    rw [computeLogPotentials_eq]
    intro m hm
    rw [List.eq_of_mem_replicate hm, List.length_replicate]

/-- `EnumFactorGroup.create` with log potentials for each factor. -/
theorem enum_create_2d [Zero α] (id : Nat) (scopes : List (List Var)) (cf : Configs) (data : List α) (hne : scopes ≠ []) :
    EnumFactorGroup.create id scopes cf (some ⟨[scopes.length, cf.rows.length], data⟩) true = .ok
      { objId := id, ftype := .enum, kind := .enumGroup, varsForFactors := scopes, configs := cf, logPotentials := data } := by
  have h0 : ¬ scopes.length = 0 := by simpa using hne
  unfold EnumFactorGroup.create
  simp [h0, bind, Except.bind, pure, Except.pure]

/-- `EnumFactorGroup.create` without log potentials. -/
theorem enum_create_none [Zero α] (id : Nat) (scopes : List (List Var)) (cf : Configs) (fl : Bool) (hne : scopes ≠ []) :
    (EnumFactorGroup.create id scopes cf none fl : Py (FGroup α)) = .ok
      { objId := id, ftype := .enum, kind := .enumGroup, varsForFactors := scopes, configs := cf,
        logPotentials := List.replicate (scopes.length * cf.rows.length) 0 } := by
  have h0 : ¬ scopes.length = 0 := by simpa using hne
  unfold EnumFactorGroup.create
  simp [h0, bind, Except.bind, pure, Except.pure]

theorem range_sum [AddCommMonoid α] (k : Nat) (h : Nat → α) : ((List.range k).map h).sum = ∑ i ∈ Finset.range k, h i := by
  induction k with
  | zero => rfl
  | succ k ih => rw [List.range_succ, List.map_append, List.sum_append, ih, Finset.sum_range_succ]; simp

theorem list_eq_range (l : List α) (d : α) : l = (List.range l.length).map (fun i => l.getD i d) := by
  apply List.ext_getElem
  · simp
  · intro i h1 h2
    simp [List.getD, List.getElem?_eq_getElem h1]

theorem grid_index (m n : Nat) : (grid m n).map (fun p => p.1 * n + p.2) = List.range (m * n) := by
  induction m with
  | zero => simp [grid]
  | succ m ih =>
    have : grid (m + 1) n = grid m n ++ (List.range n).map (fun j => (m, j)) := by
      unfold grid
      rw [List.range_succ, List.flatMap_append]; simp
    rw [this, List.map_append, ih, List.map_map, Nat.add_mul, Nat.one_mul, List.range_add]
    rfl

theorem foldlM_addAll {ι : Type _} (f : FactorGraph κ α → ι → Py (FactorGraph κ α)) (G : ι → FGroup α) (l : List ι)
    (h : ∀ fg, ∀ i ∈ l, f fg i = fg.addAll [.one (G i)]) (fg : FactorGraph κ α) : l.foldlM f fg = fg.addAll ((l.map G).map .one) := by
  induction l generalizing fg with
  | nil => rfl
  | cons i l ih =>
    have e1 := addAll_append fg [.one (G i)] ((l.map G).map .one)
    rw [List.singleton_append] at e1
    rw [List.foldlM_cons, h fg i (by simp), List.map_cons, List.map_cons, e1]
    cases fg.addAll [.one (G i)] with
    | ok fg' => rw [py_ok_bind]; exact ih (fun fg j hj => h fg j (by simp [hj])) fg'
    | error e => rw [py_error_bind]

theorem flatList_ones (gs : List (FGroup α)) : AddArg.flatList (gs.map .one) = gs := by
  induction gs with
  | nil => rfl
  | cons g gs ih => simp [AddArg.flatList, AddArg.flat, ih]

end PGMax
