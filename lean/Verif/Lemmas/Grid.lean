import Verif.Spec.Programs
import Verif.Lemmas.Cells

/-! Helper lemmas: grids of variables, and groups of factors over pairs. -/

namespace PGMax

variable {κ α : Type _}

/-! ### Grids -/

theorem mem_grid {m n : Nat} {p : Nat × Nat} : p ∈ grid m n ↔ p.1 < m ∧ p.2 < n := by
  obtain ⟨i, j⟩ := p
  simp [grid]

theorem grid_nodup (m n : Nat) : (grid m n).Nodup := by
  unfold grid
  rw [List.nodup_flatMap]
  refine ⟨fun i _ => List.Nodup.map (fun a b h => (Prod.ext_iff.1 h).2) List.nodup_range, ?_⟩
  refine List.nodup_range.imp fun {i k} hne => ?_
  intro p hp hq
  obtain ⟨j, -, rfl⟩ := List.mem_map.1 hp
  obtain ⟨l, -, h⟩ := List.mem_map.1 hq
  exact hne (Prod.ext_iff.1 h).1.symm

theorem grid_sum [AddCommMonoid α] (m n : Nat) (f : Nat × Nat → α) :
    ((grid m n).map f).sum = ∑ i ∈ Finset.range m, ∑ j ∈ Finset.range n, f (i, j) := by
  have key : ∀ (k : Nat) (h : Nat → α), ((List.range k).map h).sum = ∑ i ∈ Finset.range k, h i := by
    intro k h
    induction k with
    | zero => rfl
    | succ k ih => rw [List.range_succ, List.map_append, List.sum_append, ih, Finset.sum_range_succ]; simp
  unfold grid
  rw [List.map_flatMap, List.flatMap_def, List.sum_flatten, List.map_map, ← key]
  congr 1
  refine List.map_congr_left fun i _ => ?_
  simp only [Function.comp_def, List.map_map]
  exact key n _

theorem pair_toFinset_eq {a b c d : Var} (h : [a, b].toFinset = [c, d].toFinset) : a = c ∧ b = d ∨ a = d ∧ b = c := by
  have h1 : ({a, b} : Set Var) = {c, d} := by
    have := congrArg (fun s : Finset Var => (s : Set Var)) h
    simpa using this
  exact Set.pair_eq_pair_iff.1 h1

theorem succ_mod {i m : Nat} (h : i < m) : (i + 1 < m ∧ (i + 1) % m = i + 1) ∨ (i + 1 = m ∧ (i + 1) % m = 0) := by
  by_cases h1 : i + 1 < m
  · exact .inl ⟨h1, Nat.mod_eq_of_lt h1⟩
  · have : i + 1 = m := by omega
    exact .inr ⟨this, by rw [this, Nat.mod_self]⟩

theorem isGrid_uniArr (idV m n s : Nat) : IsGrid (uniArr idV [m, n] s) m n s (fun i j => uniCell idV [m, n] s [i, j]) where
  getitem i hi j hj := uniArr_getitem idV [m, n] s (by simp) (cs := [i, j]) (by simp [hi, hj])
  states _ _ _ _ := rfl
  inj i hi j hj k hk l hl h := by
    have := uniCell_inj (cs := [i, j]) (ds := [k, l]) (by simp [hi, hj]) (by simp [hk, hl]) h
    simpa using this
  vars v := by
    rw [mem_uniArr]
    constructor
    · rintro ⟨cs, h, rfl⟩
      cases h with
      | cons h1 h => cases h with
        | cons h2 h => cases h; exact ⟨_, h1, _, h2, rfl⟩
    · rintro ⟨i, hi, j, hj, rfl⟩
      exact ⟨[i, j], by simp [hi, hj], rfl⟩

/-! ### Groups of factors over pairs -/

/-- `PairwiseFactorGroup.create` with one matrix for all factors. -/
theorem pairwise_create_ok [Zero α] (id : Nat) (scopes : List (List Var)) (a b : Nat) (data : List α) (hne : scopes ≠ [])
    (hd : data.length = a * b) (hs : ∀ vs ∈ scopes, ∃ v w, vs = [v, w] ∧ v.n = a ∧ w.n = b) :
    PairwiseFactorGroup.create id scopes (some ⟨[a, b], data⟩) true = .ok
      { objId := id, ftype := .enum, kind := .pairwise a b, varsForFactors := scopes, configs := mgridConfigs a b,
        logPotentials := (List.replicate scopes.length data).flatten } := by
  have h0 : ¬ scopes.length = 0 := by simpa using hne
  unfold PairwiseFactorGroup.create
  simp only [bind, Except.bind, pure, Except.pure, if_neg h0]
  simp only [List.length_cons, List.length_nil, ne_eq, Nat.reduceAdd, not_true_eq_false, 
    false_and, if_false, Option.isSome_some, Bool.not_true, Bool.and_false, Bool.false_eq_true, Nat.reduceEqDiff, Nat.reduceSub]
  rw [show List.getD [a, b] 0 0 = a from rfl, show List.getD [a, b] 1 0 = b from rfl, if_neg]
  · rw [computeLogPotentials_eq]
    intro m hm
    rw [List.eq_of_mem_replicate hm, hd]
  · rw [Bool.not_eq_true, List.any_eq_false]
    intro vs hvs
    obtain ⟨v, w, rfl, h1, h2⟩ := hs vs hvs
    simp [h1, h2]

/-- A group of enumeration factors over pairs, with its table of all pairs of states, is valid. -/
theorem pairs_valid {known : Var → Prop} {g : FGroup α} {a b : Nat} (ht : g.ftype = .enum) (hc : g.configs = mgridConfigs a b) (ha : 0 < a) (hb : 0 < b)
    (hne : g.varsForFactors ≠ []) (hs : ∀ vs ∈ g.varsForFactors, ∃ v w, vs = [v, w] ∧ v.n = a ∧ w.n = b ∧ known v ∧ known w)
    (hp : g.logPotentials.length = g.varsForFactors.length * (a * b)) : g.Valid known where
  ne := hne
  vars vs hvs v hv := by
    obtain ⟨p, q, rfl, -, -, h1, h2⟩ := hs vs hvs
    simp only [List.mem_cons, List.not_mem_nil, or_false] at hv
    rcases hv with rfl | rfl
    · exact h1
    · exact h2
  enumOk _ := {
    cols := by rw [hc]; simp [mgridConfigs]
    rowsNe := by
      intro h0
      have := mgrid_rows_length a b
      rw [← hc, h0] at this
      have h1 : 0 < a * b := Nat.mul_pos ha hb
      rw [← this] at h1
      exact absurd h1 (by simp)
    width := by
      intro vs hvs
      obtain ⟨p, q, rfl, -⟩ := hs vs hvs
      rw [hc]; rfl
    inRange := by
      intro vs hvs r hr
      obtain ⟨p, q, rfl, h1, h2, -⟩ := hs vs hvs
      rw [hc] at hr
      obtain ⟨i, j, hi, hj, rfl⟩ := (mgrid_mem a b r).1 hr
      simp [h1, h2, hi, hj]
    pots := by rw [hp, hc, mgrid_rows_length] }
  logicalOk h := absurd ht h

/-- What a factor over a pair with the given matrix (row-major) says about a pair of states. -/
theorem pair_weighs (v w : Var) (a b : Nat) (data : List α) (hd : data.length = a * b) (x : Var → Nat) (hv : x v < a) (hw : x w < b) (z : α)
    (hz : data[x v * b + x w]? = some z) : (SFac.mk [v, w] ((mgridConfigs a b).rows.zip data)).Weighs x z := by
  have hr := mgrid_getElem? a b (x v) (x w) hv hw
  constructor
  · apply List.mem_of_getElem? (i := x v * b + x w)
    rw [List.getElem?_zip_eq_some]
    exact ⟨hr, hz⟩
  · rintro ⟨r, y⟩ hry (e : r = [x v, x w])
    subst e
    obtain ⟨c, hc⟩ := List.mem_iff_getElem?.1 hry
    obtain ⟨h1, h2⟩ := List.getElem?_zip_eq_some.1 hc
    have : c = x v * b + x w := by
      obtain ⟨p1, p2⟩ := List.getElem?_eq_some_iff.1 h1
      obtain ⟨q1, q2⟩ := List.getElem?_eq_some_iff.1 hr
      exact (List.Nodup.getElem_inj_iff (mgrid_nodup a b)).1 (p2.trans q2.symm)
    subst this
    simp only at h2
    rw [hz] at h2
    exact (Option.some.inj h2).symm

end PGMax
