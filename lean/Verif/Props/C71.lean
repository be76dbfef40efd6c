import Verif.Lemmas.Enums

/-! # C71: the program for recursive cortical networks -/

namespace PGMax

section

variable {κ α : Type}

/-! ### Valid configurations -/

theorem div_mod_unique {w s a b : Nat} (hb : b < w) (h : s = a * w + b) : s / w = a ∧ s % w = b := by
  subst h
  have hw : 0 < w := by omega
  rw [Nat.add_comm, Nat.add_mul_div_right _ _ hw, Nat.add_mul_mod_self_right, Nat.div_eq_of_lt hb, Nat.mod_eq_of_lt hb]
  omega

theorem mem_validConfigs (r hps vps : Nat) (row : List Nat) :
    row ∈ validConfigs r hps vps ↔ ∃ s t, row = [s, t] ∧ s < (2 * hps + 1) * (2 * vps + 1) ∧ t < (2 * hps + 1) * (2 * vps + 1) ∧ WithinRadius (2 * vps + 1) r s t := by
  have hw : 0 < 2 * vps + 1 := by omega
  unfold validConfigs WithinRadius
  simp only [List.mem_flatMap, List.mem_map, List.mem_range, List.mem_range'_1]
  constructor
  · rintro ⟨s, hs, a, ⟨ha1, ha2⟩, b, ⟨hb1, hb2⟩, rfl⟩
    have hd : s / (2 * vps + 1) < 2 * hps + 1 := Nat.div_lt_of_lt_mul (by rw [Nat.mul_comm]; exact hs)
    have hm : s % (2 * vps + 1) < 2 * vps + 1 := Nat.mod_lt _ hw
    have hbw : b < 2 * vps + 1 := by omega
    have haw : a < 2 * hps + 1 := by omega
    obtain ⟨e1, e2⟩ := div_mod_unique hbw rfl (a := a)
    refine ⟨s, _, rfl, hs, ?_, ?_, ?_, ?_, ?_⟩
    · calc a * (2 * vps + 1) + b < a * (2 * vps + 1) + (2 * vps + 1) := by omega
        _ = (a + 1) * (2 * vps + 1) := by rw [Nat.add_mul, Nat.one_mul]
        _ ≤ _ := Nat.mul_le_mul_right _ haw
    all_goals (first | rw [e1] | rw [e2]); omega
  · rintro ⟨s, t, rfl, hs, ht, h1, h2, h3, h4⟩
    have hd : t / (2 * vps + 1) < 2 * hps + 1 := Nat.div_lt_of_lt_mul (by rw [Nat.mul_comm]; exact ht)
    have hm : t % (2 * vps + 1) < 2 * vps + 1 := Nat.mod_lt _ hw
    have k1 : t / (2 * vps + 1) < s / (2 * vps + 1) - r + (min (s / (2 * vps + 1) + r) (2 * hps) + 1 - (s / (2 * vps + 1) - r)) := by
      generalize t / (2 * vps + 1) = a at *
      generalize s / (2 * vps + 1) = b at *
      omega
    have k2 : t % (2 * vps + 1) < s % (2 * vps + 1) - r + (min (s % (2 * vps + 1) + r) (2 * vps) + 1 - (s % (2 * vps + 1) - r)) := by
      generalize t % (2 * vps + 1) = a at *
      generalize s % (2 * vps + 1) = b at *
      omega
    refine ⟨s, hs, t / (2 * vps + 1), ⟨Nat.sub_le_iff_le_add.2 h1, k1⟩, t % (2 * vps + 1), ⟨Nat.sub_le_iff_le_add.2 h3, k2⟩, ?_⟩
    rw [Nat.mul_comm, Nat.div_add_mod]

theorem validConfigs_ne (r hps vps : Nat) : validConfigs r hps vps ≠ [] := by
  have : [0, 0] ∈ validConfigs r hps vps := (mem_validConfigs r hps vps _).2 ⟨0, 0, rfl, by positivity, by positivity, by simp [WithinRadius]⟩
  intro h
  rw [h] at this
  cases this

/-! ### The loops -/

theorem foldlM_flatMap {σ ι ι' : Type} (f : σ → ι' → Py σ) (g : ι → List ι') (l : List ι) (s : σ) :
    l.foldlM (fun s i => (g i).foldlM f s) s = (l.flatMap g).foldlM f s := by
  induction l generalizing s with
  | nil => rfl
  | cons i l ih =>
    rw [List.flatMap_cons, List.foldlM_append, List.foldlM_cons]
    congr 1
    funext s'
    exact ih s'

theorem foldlM_ok_each {σ ι : Type} (f : σ → ι → Py σ) (l : List ι) (s r : σ) (h : l.foldlM f s = .ok r) : ∀ i ∈ l, ∃ s' r', f s' i = .ok r' := by
  induction l generalizing s with
  | nil => simp
  | cons i l ih =>
    rw [List.foldlM_cons] at h
    cases hf : f s i with
    | error e => rw [hf] at h; cases h
    | ok s' =>
      rw [hf] at h
      intro j hj
      rw [List.mem_cons] at hj
      rcases hj with rfl | hj
      · exact ⟨_, _, hf⟩
      · exact ih s' h j hj

/-- The edges with the index of their network and their position. -/
abbrev cEdges (edges : List (List (Nat × Nat × Nat))) : List (Nat × Nat × (Nat × Nat × Nat)) :=
  (List.range edges.length).flatMap (fun idx => (edges.getD idx []).zipIdx.map (fun p => (idx, p.2, p.1)))

theorem mem_cEdges {edges : List (List (Nat × Nat × Nat))} {q : Nat × Nat × (Nat × Nat × Nat)} :
    q ∈ cEdges edges ↔ q.1 < edges.length ∧ (edges.getD q.1 [])[q.2.1]? = some q.2.2 := by
  obtain ⟨idx, k, e1, e2, e3⟩ := q
  simp only [cEdges, List.mem_flatMap, List.mem_range, List.mem_map, Prod.mk.injEq, Prod.exists, List.mem_zipIdx_iff_getElem?]
  constructor
  · rintro ⟨_, h, _, _, _, _, h', rfl, rfl, rfl, rfl, rfl⟩; exact ⟨h, h'⟩
  · rintro ⟨h, h'⟩; exact ⟨_, h, e1, e2, e3, k, h', rfl, rfl, rfl, rfl, rfl⟩

abbrev cStates (hps vps : Nat) : Nat := (2 * hps + 1) * (2 * vps + 1)

/-- The variables of the program. -/
abbrev cCell (idV : Nat → Nat) (hps vps : Nat) (sizes : List Nat) (idx i : Nat) : Var :=
  uniCell (idV idx) [sizes.getD idx 0] (cStates hps vps) [i]

/-- The arrays of variables. -/
abbrev cVars (idV : Nat → Nat) (hps vps : Nat) (sizes : List Nat) : List NDVarArray :=
  (List.range sizes.length).map (fun idx => uniArr (idV idx) [sizes.getD idx 0] (cStates hps vps))

theorem cVars_at {idV : Nat → Nat} {hps vps : Nat} {sizes : List Nat} {idx : Nat} (h : idx < sizes.length) :
    listAt (cVars idV hps vps sizes) idx = .ok (uniArr (idV idx) [sizes.getD idx 0] (cStates hps vps)) := by
  unfold listAt cVars
  rw [List.getElem?_map, List.getElem?_range h, Option.map_some]

/-- The group of an edge. -/
abbrev cGroup [Zero α] (idV : Nat → Nat) (idF : Nat → Nat → Nat) (hps vps : Nat) (sizes : List Nat) (q : Nat × Nat × (Nat × Nat × Nat)) : FGroup α :=
  enumGroup (idF q.1 q.2.1) .enumGroup ⟨2, validConfigs q.2.2.2.2 hps vps⟩
    [([cCell idV hps vps sizes q.1 q.2.2.1, cCell idV hps vps sizes q.1 q.2.2.2.1], List.replicate (validConfigs q.2.2.2.2 hps vps).length 0)]

theorem cAt (id n k i : Nat) : (∃ v, (uniArr id [n] k).at [(i : Int)] = .ok v) ↔ i < n := by
  by_cases h : i < n
  · have := uniArr_at id [n] k (by simp) (cs := [i]) (by simp [h])
    exact ⟨fun _ => h, fun _ => ⟨_, this⟩⟩
  · have := (C03_out_of_range (uniArr id [n] k) [(i : Int)]).1 (by simp [uniArr]) ⟨(n, (i : Int)), by simp [uniArr], by simp only; omega⟩
    refine ⟨fun ⟨v, hv⟩ => ?_, fun h' => absurd h' h⟩
    unfold NDVarArray.at at hv
    rw [this] at hv
    cases hv

theorem rcnEdge_ok [Zero α] {idV : Nat → Nat} {hps vps : Nat} {sizes : List Nat} {idx idF : Nat} {e : Nat × Nat × Nat} {fg fg' : FactorGraph κ α}
    (h : rcnEdge hps vps (cVars idV hps vps sizes) idx idF fg e = .ok fg') (hidx : idx < sizes.length) :
    e.1 < sizes.getD idx 0 ∧ e.2.1 < sizes.getD idx 0 ∧ e.2.2 < 22 := by
  unfold rcnEdge at h
  rw [cVars_at hidx, py_ok_bind] at h
  have a1 := (cAt (idV idx) (sizes.getD idx 0) (cStates hps vps) e.1)
  have a2 := (cAt (idV idx) (sizes.getD idx 0) (cStates hps vps) e.2.1)
  cases e1 : (uniArr (idV idx) [sizes.getD idx 0] (cStates hps vps)).at [(e.1 : Int)] with
  | error _ => rw [e1, py_error_bind] at h; cases h
  | ok v =>
    rw [e1, py_ok_bind] at h
    cases e2 : (uniArr (idV idx) [sizes.getD idx 0] (cStates hps vps)).at [(e.2.1 : Int)] with
    | error _ => rw [e2, py_error_bind] at h; cases h
    | ok w =>
      rw [e2, py_ok_bind] at h
      refine ⟨a1.1 ⟨_, e1⟩, a2.1 ⟨_, e2⟩, ?_⟩
      by_contra hc
      have : listAt ((List.range 22).map (fun r => validConfigs r hps vps)) e.2.2 = .error .indexError := by
        unfold listAt
        rw [List.getElem?_eq_none (by rw [List.length_map, List.length_range]; omega)]
      rw [this] at h
      cases h

theorem rcnEdge_eq [Zero α] {idV : Nat → Nat} {idF : Nat → Nat → Nat} {hps vps : Nat} {sizes : List Nat} (q : Nat × Nat × (Nat × Nat × Nat))
    (fg : FactorGraph κ α) (hidx : q.1 < sizes.length)
    (h : q.2.2.1 < sizes.getD q.1 0 ∧ q.2.2.2.1 < sizes.getD q.1 0 ∧ q.2.2.2.2 < 22) :
    rcnEdge hps vps (cVars idV hps vps sizes) q.1 (idF q.1 q.2.1) fg q.2.2 = fg.addAll [.one (cGroup idV idF hps vps sizes q)] := by
  obtain ⟨h1, h2, h3⟩ := h
  have e1 := uniArr_at (idV q.1) [sizes.getD q.1 0] (cStates hps vps) (by simp) (cs := [q.2.2.1]) (by simpa using h1)
  have e2 := uniArr_at (idV q.1) [sizes.getD q.1 0] (cStates hps vps) (by simp) (cs := [q.2.2.2.1]) (by simpa using h2)
  unfold rcnEdge
  simp only [List.map_cons, List.map_nil] at e1 e2
  have e3 : listAt ((List.range 22).map (fun r => validConfigs r hps vps)) q.2.2.2.2 = .ok (validConfigs q.2.2.2.2 hps vps) := by
    unfold listAt
    rw [List.getElem?_map, List.getElem?_range h3, Option.map_some]
  rw [cVars_at hidx, py_ok_bind, e1, py_ok_bind, e2, py_ok_bind, e3, py_ok_bind, enum_create_none _ _ _ _ (by simp), py_ok_bind]
  unfold cGroup enumGroup
  simp only [List.length_singleton, Nat.one_mul, List.map_cons, List.map_nil, List.flatMap_cons, List.flatMap_nil, List.append_nil]

/-- The loops of the program. -/
theorem rcn_loops [Zero α] (idV : Nat → Nat) (idF : Nat → Nat → Nat) {hps vps : Nat} {sizes : List Nat} {edges : List (List (Nat × Nat × Nat))}
    (hl : sizes.length = edges.length) (hs : ∀ idx < sizes.length, sizes.getD idx 0 ≤ 1000000000) :
    (rcn idV idF hps vps sizes edges : Py (List NDVarArray × FactorGraph κ α)) =
      (cEdges edges).foldlM (fun fg q => rcnEdge hps vps (cVars idV hps vps sizes) q.1 (idF q.1 q.2.1) fg q.2.2)
        (FactorGraph.create ((cVars idV hps vps sizes).map .arr)) >>= fun fg => .ok (cVars idV hps vps sizes, fg) := by
  unfold rcn
  rw [if_neg (by simpa using hl)]
  have hm := mapM_ok (fun (idx : Nat) => NDVarArray.create (idV idx) [sizes.getD idx 0] (.scalar ((2 * hps + 1) * (2 * vps + 1))))
    (fun idx => uniArr (idV idx) [sizes.getD idx 0] (cStates hps vps)) (List.range sizes.length) (fun idx hidx => by
      rw [List.mem_range] at hidx
      exact create_scalar _ _ _ (by simpa using hs idx hidx))
  simp only
  rw [hm, py_ok_bind]
  rw [← foldlM_flatMap]
  simp only [List.foldlM_map]
  rfl

/-- The variables of different networks are different. -/
theorem cCell_inj {idV : Nat → Nat} {hps vps : Nat} {sizes : List Nat} (hid : ∀ i < sizes.length, ∀ j < sizes.length, idV i % 2 ^ 32 = idV j % 2 ^ 32 → i = j)
    (hs : ∀ idx < sizes.length, sizes.getD idx 0 ≤ 1000000000) {a b i j : Nat} (ha : a < sizes.length) (hb : b < sizes.length)
    (hi : i < sizes.getD a 0) (hj : j < sizes.getD b 0) (h : cCell idV hps vps sizes a i = cCell idV hps vps sizes b j) : a = b ∧ i = j := by
  by_cases hab : a = b
  · subst hab
    have := uniCell_inj (cs := [i]) (ds := [j]) (by simpa using hi) (by simpa using hj) h
    simpa using this
  · exact absurd h (uniCell_ne (fun e => hab (hid a ha b hb e)) (by simpa using hs a ha) (by simpa using hs b hb) (by simpa using hi) (by simpa using hj))

theorem cSets [Zero α] {idV : Nat → Nat} {idF : Nat → Nat → Nat} {hps vps : Nat} {sizes : List Nat} {edges : List (List (Nat × Nat × Nat))}
    (hid : ∀ i < sizes.length, ∀ j < sizes.length, idV i % 2 ^ 32 = idV j % 2 ^ 32 → i = j)
    (hl : sizes.length = edges.length) (hs : ∀ idx < sizes.length, sizes.getD idx 0 ≤ 1000000000)
    (he : ∀ idx < edges.length, ∀ e ∈ edges.getD idx [], e.1 < sizes.getD idx 0 ∧ e.2.1 < sizes.getD idx 0 ∧ e.2.2 < 22) :
    (∀ t, (setsOf (AddArg.flatList (((cEdges edges).map (cGroup (α := α) idV idF hps vps sizes)).map .one)) t).Nodup) ↔
      ∀ idx < edges.length, ((edges.getD idx []).map (fun e => ({e.1, e.2.1} : Finset Nat))).Nodup := by
  have hends : ∀ {a b} {p : Nat × Nat × Nat}, a < edges.length → p ∈ edges.getD a [] → b < edges.length → ∀ q ∈ edges.getD b [],
      ([cCell idV hps vps sizes a p.1, cCell idV hps vps sizes a p.2.1].toFinset = [cCell idV hps vps sizes b q.1, cCell idV hps vps sizes b q.2.1].toFinset) →
      a = b ∧ ({p.1, p.2.1} : Finset Nat) = {q.1, q.2.1} := by
    intro a b p ha hp hb q hq e
    obtain ⟨p1, p2, -⟩ := he a ha p hp
    obtain ⟨q1, q2, -⟩ := he b hb q hq
    rw [← hl] at ha hb
    rcases pair_toFinset_eq e with ⟨e1, e2⟩ | ⟨e1, e2⟩
    · obtain ⟨r1, r2⟩ := cCell_inj hid hs ha hb p1 q1 e1
      obtain ⟨-, r3⟩ := cCell_inj hid hs ha hb p2 q2 e2
      exact ⟨r1, by rw [r2, r3]⟩
    · obtain ⟨r1, r2⟩ := cCell_inj hid hs ha hb p1 q2 e1
      obtain ⟨-, r3⟩ := cCell_inj hid hs ha hb p2 q1 e2
      exact ⟨r1, by rw [r2, r3, Finset.pair_comm]⟩
  rw [flatList_ones, setsOf_enum (by
    intro g hg
    obtain ⟨q, -, rfl⟩ := List.mem_map.1 hg
    rfl)]
  have e1 : (((cEdges edges).map (cGroup (α := α) idV idF hps vps sizes)).flatMap (·.varsForFactors)).map List.toFinset =
      (List.range edges.length).flatMap (fun idx => (edges.getD idx []).map
        (fun e => [cCell idV hps vps sizes idx e.1, cCell idV hps vps sizes idx e.2.1].toFinset)) := by
    rw [List.flatMap_map]
    simp only [cGroup, enumGroup, List.map_cons, List.map_nil, ← List.map_eq_flatMap, cEdges, List.map_flatMap, List.map_map]
    congr 1
    funext idx
    conv_rhs => rw [← List.zipIdx_map_fst 0 (edges.getD idx []), List.map_map]
    rfl
  rw [e1, List.nodup_flatMap]
  constructor
  · rintro ⟨h1, -⟩ idx hidx
    have h1 := h1 idx (List.mem_range.2 hidx)
    rw [List.Nodup, List.pairwise_map] at h1 ⊢
    refine h1.imp_of_mem fun {p q} hp hq hne e => hne ?_
    have e' : ({p.1, p.2.1} : Set Nat) = {q.1, q.2.1} := by
      have := congrArg (fun s : Finset Nat => (s : Set Nat)) e
      simpa using this
    rcases Set.pair_eq_pair_iff.1 e' with ⟨r1, r2⟩ | ⟨r1, r2⟩
    · rw [r1, r2]
    · rw [r1, r2]
      simp [Finset.pair_comm]
  · intro h
    refine ⟨fun idx hidx => ?_, ?_⟩
    · rw [List.mem_range] at hidx
      have := h idx hidx
      rw [List.Nodup, List.pairwise_map] at this ⊢
      exact this.imp_of_mem fun {p q} hp hq hne e => hne (hends hidx hp hidx q hq e).2
    · refine List.nodup_range.imp_of_mem fun {a b} ha hb hne => ?_
      rw [List.mem_range] at ha hb
      intro s hs1 hs2
      obtain ⟨p, hp, rfl⟩ := List.mem_map.1 hs1
      obtain ⟨q, hq, e⟩ := List.mem_map.1 hs2
      exact hne (hends ha hp hb q hq e.symm).1

theorem rcn_eq [Zero α] {idV : Nat → Nat} {idF : Nat → Nat → Nat} {hps vps : Nat} {sizes : List Nat} {edges : List (List (Nat × Nat × Nat))}
    (hl : sizes.length = edges.length) (hs : ∀ idx < sizes.length, sizes.getD idx 0 ≤ 1000000000)
    (he : ∀ idx < edges.length, ∀ e ∈ edges.getD idx [], e.1 < sizes.getD idx 0 ∧ e.2.1 < sizes.getD idx 0 ∧ e.2.2 < 22) :
    (rcn idV idF hps vps sizes edges : Py (List NDVarArray × FactorGraph κ α)) =
      (FactorGraph.create ((cVars idV hps vps sizes).map .arr)).addAll (((cEdges edges).map (cGroup idV idF hps vps sizes)).map .one) >>=
        fun fg => .ok (cVars idV hps vps sizes, fg) := by
  rw [rcn_loops idV idF hl hs, foldlM_addAll _ (cGroup idV idF hps vps sizes) _ (fun fg q hq => by
    obtain ⟨h1, h2⟩ := mem_cEdges.1 hq
    exact rcnEdge_eq q fg (by omega) (he q.1 h1 _ (List.mem_of_getElem? h2)))]

/-- **C71 (inputs).** The program builds its graph exactly if there is a list of edges for every network, networks have at most `10 ^ 9`
variables, edges are between variables of the network and have a radius below 22, and no two edges of a network are between the same
variables.  Duplicate edges, and too many variables, are reported by a `ValueError`. -/
theorem C71_inputs [Zero α] {idV : Nat → Nat} {idF : Nat → Nat → Nat} {hps vps : Nat} {sizes : List Nat} {edges : List (List (Nat × Nat × Nat))}
    (hid : ∀ i < sizes.length, ∀ j < sizes.length, idV i % 2 ^ 32 = idV j % 2 ^ 32 → i = j) :
    ((∃ r, (rcn idV idF hps vps sizes edges : Py (List NDVarArray × FactorGraph κ α)) = .ok r) ↔ RcnOk sizes edges) ∧
    (sizes.length ≠ edges.length → (rcn idV idF hps vps sizes edges : Py (List NDVarArray × FactorGraph κ α)) = .error .assertionError) ∧
    (sizes.length = edges.length → ¬ RcnOk sizes edges →
      ((∃ idx < sizes.length, 1000000000 < sizes.getD idx 0) ∨
        ∀ idx < edges.length, ∀ e ∈ edges.getD idx [], e.1 < sizes.getD idx 0 ∧ e.2.1 < sizes.getD idx 0 ∧ e.2.2 < 22) →
      (rcn idV idF hps vps sizes edges : Py (List NDVarArray × FactorGraph κ α)) = .error .valueError) := by
  have hneq : sizes.length ≠ edges.length → (rcn idV idF hps vps sizes edges : Py (List NDVarArray × FactorGraph κ α)) = .error .assertionError := by
    intro hl
    unfold rcn
    rw [if_pos hl]
    rfl
  by_cases hl : sizes.length = edges.length
  · have hlarge : ¬ (∀ idx < sizes.length, sizes.getD idx 0 ≤ 1000000000) →
        (rcn idV idF hps vps sizes edges : Py (List NDVarArray × FactorGraph κ α)) = .error .valueError := by
      intro hs
      have key : ∀ l : List Nat, (∃ idx ∈ l, ¬ sizes.getD idx 0 ≤ 1000000000) →
          l.mapM (fun (idx : Nat) => NDVarArray.create (idV idx) [sizes.getD idx 0] (.scalar ((2 * hps + 1) * (2 * vps + 1)))) = .error .valueError := by
        intro l
        induction l with
        | nil => simp
        | cons a l ih =>
          rintro ⟨idx, hmem, hidx⟩
          rw [List.mapM_cons]
          by_cases ha : sizes.getD a 0 ≤ 1000000000
          · rw [create_scalar _ _ _ (by simpa using ha), py_ok_bind, ih, py_error_bind]
            rw [List.mem_cons] at hmem
            rcases hmem with rfl | hmem
            · exact absurd ha hidx
            · exact ⟨idx, hmem, hidx⟩
          · rw [create_scalar_large _ _ _ (by simpa using ha), py_error_bind]
      push Not at hs
      obtain ⟨idx, h1, h2⟩ := hs
      unfold rcn
      rw [if_neg (by simpa using hl)]
      simp only
      rw [key _ ⟨idx, List.mem_range.2 h1, by omega⟩, py_error_bind]
    by_cases hs : ∀ idx < sizes.length, sizes.getD idx 0 ≤ 1000000000
    · by_cases he : ∀ idx < edges.length, ∀ e ∈ edges.getD idx [], e.1 < sizes.getD idx 0 ∧ e.2.1 < sizes.getD idx 0 ∧ e.2.2 < 22
      · have hS := cSets (α := α) (idF := idF) (hps := hps) (vps := vps) hid hl hs he
        obtain ⟨a1, a2⟩ := addAll_create (κ := κ) (α := α) ((cVars idV hps vps sizes).map .arr) (((cEdges edges).map (cGroup idV idF hps vps sizes)).map .one)
        have e := rcn_eq (κ := κ) (α := α) (idV := idV) (idF := idF) (hps := hps) (vps := vps) hl hs he
        by_cases hn : ∀ idx < edges.length, ((edges.getD idx []).map (fun e => ({e.1, e.2.1} : Finset Nat))).Nodup
        · obtain ⟨fg, hfg⟩ := a1 (hS.2 hn)
          rw [hfg, py_ok_bind] at e
          exact ⟨⟨fun _ => ⟨hl, hs, he, hn⟩, fun _ => ⟨_, e⟩⟩, hneq, fun _ h => absurd ⟨hl, hs, he, hn⟩ h⟩
        · rw [a2 (fun h => hn (hS.1 h)), py_error_bind] at e
          rw [e]
          exact ⟨⟨fun ⟨r, hr⟩ => (by cases hr), fun h => absurd h.simple hn⟩, fun h => absurd hl h, fun _ _ _ => rfl⟩
      · refine ⟨⟨fun ⟨r, hr⟩ => ?_, fun h => absurd h.ends he⟩, hneq, fun _ _ h => ?_⟩
        · exfalso
          apply he
          rw [rcn_loops idV idF hl hs] at hr
          cases hf : (cEdges edges).foldlM (fun fg q => rcnEdge hps vps (cVars idV hps vps sizes) q.1 (idF q.1 q.2.1) fg q.2.2)
              (FactorGraph.create ((cVars idV hps vps sizes).map .arr) : FactorGraph κ α) with
          | error e => rw [hf, py_error_bind] at hr; cases hr
          | ok fg =>
            intro idx hidx e hmem
            obtain ⟨k, hk⟩ := List.mem_iff_getElem?.1 hmem
            obtain ⟨s, s', hs'⟩ := foldlM_ok_each _ _ _ _ hf (idx, k, e) (mem_cEdges.2 ⟨hidx, hk⟩)
            exact rcnEdge_ok hs' (by omega)
        · rcases h with ⟨idx, h1, h2⟩ | h
          · exact absurd (hs idx h1) (by omega)
          · exact absurd h he
    · rw [hlarge hs]
      exact ⟨⟨fun ⟨r, hr⟩ => (by cases hr), fun h => absurd h.small hs⟩, fun h => absurd hl h, fun _ _ _ => rfl⟩
  · rw [hneq hl]
    exact ⟨⟨fun ⟨r, hr⟩ => (by cases hr), fun h => absurd h.len hl⟩, fun _ => rfl, fun h => absurd h hl⟩

theorem mem_cVgs {idV : Nat → Nat} {hps vps : Nat} {sizes : List Nat} (v : Var) :
    v ∈ graphVars ((cVars idV hps vps sizes).map (.arr : NDVarArray → VGroup κ)) ↔
      ∃ idx < sizes.length, ∃ i < sizes.getD idx 0, v = cCell idV hps vps sizes idx i := by
  simp only [graphVars, List.mem_toFinset, List.mem_flatMap, List.mem_map, exists_exists_and_eq_and, List.mem_range]
  constructor
  · rintro ⟨idx, h, hv⟩
    obtain ⟨cs, hcs, rfl⟩ := (mem_uniArr (idV idx) [sizes.getD idx 0] (cStates hps vps) v).1 hv
    cases hcs with
    | cons h1 h2 =>
      cases h2
      exact ⟨idx, h, _, h1, rfl⟩
  · rintro ⟨idx, h, i, hi, rfl⟩
    exact ⟨idx, h, (mem_uniArr (idV idx) [sizes.getD idx 0] (cStates hps vps) _).2 ⟨[i], by simpa using hi, rfl⟩⟩

theorem cEdges_nodup (edges : List (List (Nat × Nat × Nat))) : (cEdges edges).Nodup := by
  rw [cEdges, List.nodup_flatMap]
  refine ⟨fun idx _ => ?_, List.nodup_range.imp_of_mem fun {a b} _ _ hne => ?_⟩
  · refine List.Nodup.of_map (fun q => q.2.1) ?_
    rw [List.map_map]
    have : (fun q : Nat × Nat × (Nat × Nat × Nat) => q.2.1) ∘ (fun p : (Nat × Nat × Nat) × Nat => (idx, p.2, p.1)) = Prod.snd := rfl
    rw [this, List.zipIdx_map_snd]
    exact List.nodup_range'
  · intro q h1 h2
    obtain ⟨p, -, rfl⟩ := List.mem_map.1 h1
    obtain ⟨p', -, e⟩ := List.mem_map.1 h2
    exact hne (congrArg Prod.fst e).symm

theorem flatMap_len_one {β γ : Type _} (l : List β) (f : β → List γ) (h : ∀ b ∈ l, (f b).length = 1) : (l.flatMap f).length = l.length := by
  induction l with
  | nil => rfl
  | cons b l ih => rw [List.flatMap_cons, List.length_append, h b (by simp), ih (fun b hb => h b (by simp [hb])), List.length_cons, Nat.add_comm]

/-- The graph that the program builds. -/
theorem rcn_build [Zero α] {idV : Nat → Nat} {idF : Nat → Nat → Nat} {hps vps : Nat} {sizes : List Nat} {edges : List (List (Nat × Nat × Nat))}
    (hid : ∀ i < sizes.length, ∀ j < sizes.length, idV i % 2 ^ 32 = idV j % 2 ^ 32 → i = j)
    (hF : ∀ a b c d, idF a b = idF c d → a = c ∧ b = d) {vars : List NDVarArray} {fg : FactorGraph κ α}
    (h : rcn idV idF hps vps sizes edges = .ok (vars, fg)) (garbage : Garbage) :
    vars = cVars idV hps vps sizes ∧ ∃ (hist : List (AddArg α)) (st : FGState κ α),
      graphOf (vars.map .arr) hist = fg ∧ Compiled (vars.map .arr) hist garbage st ∧ (cEdges edges).Nodup ∧
      fg.allScopes = (cEdges edges).map (fun q => [cCell idV hps vps sizes q.1 q.2.2.1, cCell idV hps vps sizes q.1 q.2.2.2.1]) ∧
      fg.tables.length = (cEdges edges).length ∧ (∀ lp, fg.factors lp = tableFacs fg.tables lp) ∧
      fg.factors st.logPotentials = (cEdges edges).map (fun q => ⟨[cCell idV hps vps sizes q.1 q.2.2.1, cCell idV hps vps sizes q.1 q.2.2.2.1],
        (validConfigs q.2.2.2.2 hps vps).zip (List.replicate (validConfigs q.2.2.2.2 hps vps).length 0)⟩) := by
  obtain ⟨hl, hs, he, hn⟩ := (C71_inputs (κ := κ) (α := α) (idF := idF) (hps := hps) (vps := vps) (edges := edges) hid).1.1 ⟨_, h⟩
  rw [rcn_eq hl hs he] at h
  cases hfg : (FactorGraph.create ((cVars idV hps vps sizes).map .arr) : FactorGraph κ α).addAll
      (((cEdges edges).map (cGroup idV idF hps vps sizes)).map .one) with
  | error e => rw [hfg, py_error_bind] at h; cases h
  | ok fg' =>
  rw [hfg, py_ok_bind] at h
  cases h
  have hv : VGroupsOk ((cVars idV hps vps sizes).map (.arr : NDVarArray → VGroup κ)) := by
    have := vgroupsOk_of (κ := κ) ((List.range sizes.length).map (fun idx => (idV idx, .arr (uniArr (idV idx) [sizes.getD idx 0] (cStates hps vps))))) (by
        intro p hp
        obtain ⟨idx, hidx, rfl⟩ := List.mem_map.1 hp
        exact uniArr_built _ _ _ (by simpa using hs idx (List.mem_range.1 hidx)))
      (by
        rw [List.map_map]
        refine List.Nodup.map_on (fun a ha b hb e => ?_) List.nodup_range
        exact hid a (List.mem_range.1 ha) b (List.mem_range.1 hb) e)
    rw [List.map_map] at this ⊢
    exact this
  have hcell : ∀ q ∈ cEdges edges, q.1 < sizes.length ∧ q.2.2.1 < sizes.getD q.1 0 ∧ q.2.2.2.1 < sizes.getD q.1 0 := by
    intro q hq
    obtain ⟨h1, h2⟩ := mem_cEdges.1 hq
    obtain ⟨h3, h4, -⟩ := he q.1 h1 _ (List.mem_of_getElem? h2)
    exact ⟨by omega, h3, h4⟩
  have henum : ∀ g ∈ (cEdges edges).map (cGroup (α := α) idV idF hps vps sizes), g.ftype = .enum := by
    intro g hg
    obtain ⟨q, -, rfl⟩ := List.mem_map.1 hg
    rfl
  obtain ⟨hg, st, hst, hsc, htab, -, -, htf, hfac⟩ := enum_build hv hfg (by
      rw [flatList_ones]
      intro g hg
      obtain ⟨q, hq, rfl⟩ := List.mem_map.1 hg
      obtain ⟨h1, h2, h3⟩ := hcell q hq
      refine enumGroup_valid _ _ _ _ (by simp) (by simp) (validConfigs_ne _ _ _) ?_ (by simp) ?_ (by simp)
      · simp only [List.mem_cons, List.not_mem_nil, or_false, forall_eq, forall_eq_or_imp]
        exact ⟨(mem_cVgs _).2 ⟨_, h1, _, h2, rfl⟩, (mem_cVgs _).2 ⟨_, h1, _, h3, rfl⟩⟩
      · intro p hp r hr
        rw [List.mem_singleton] at hp
        subst hp
        obtain ⟨s, t, rfl, k1, k2, -⟩ := (mem_validConfigs _ _ _ _).1 hr
        exact .cons k1 (.cons k2 .nil))
    (by
      rw [flatList_ones, List.map_map]
      refine List.Nodup.map_on (fun p hp q hq e => ?_) ?_
      · obtain ⟨e1, e2⟩ := hF _ _ _ _ e
        have h1 := (mem_cEdges.1 hp).2
        rw [e1, e2, (mem_cEdges.1 hq).2] at h1
        exact Prod.ext e1 (Prod.ext e2 (Option.some.inj h1).symm)
      · exact cEdges_nodup edges)
    (by rw [flatList_ones]; exact henum) garbage
  rw [flatList_ones] at hsc hfac htab
  have hfac : fg.factors st.logPotentials = (cEdges edges).map (fun q => ⟨[cCell idV hps vps sizes q.1 q.2.2.1, cCell idV hps vps sizes q.1 q.2.2.2.1],
      (validConfigs q.2.2.2.2 hps vps).zip (List.replicate (validConfigs q.2.2.2.2 hps vps).length 0)⟩) := by
    rw [hfac, List.flatMap_map, List.map_eq_flatMap]
    congr 1
    funext q
    rw [show (cGroup (α := α) idV idF hps vps sizes q).configs = ⟨2, validConfigs q.2.2.2.2 hps vps⟩ from rfl, enumGroup_facs _ _ _ _ (by simp)]
    rfl
  refine ⟨rfl, _, st, hg, hst, cEdges_nodup edges, ?_, ?_, htf, hfac⟩
  · rw [hsc, List.flatMap_map, List.map_eq_flatMap]
    rfl
  · rw [htab, List.flatMap_map, flatMap_len_one]
    intro q _
    rfl

/-- **C71 (model).** The `idx`-th array of variables has one variable for every vertex of the `idx`-th network, with one state for every
displacement in the window.  The graph compiles, and belief propagation can be set up on it exactly if there is an edge.  Its joint assignments
are those in which the displacements of the ends of every edge differ by at most the radius of the edge in both directions, and their scores are
the evidence. -/
theorem C71_model [Semiring α] {idV : Nat → Nat} {idF : Nat → Nat → Nat} {hps vps : Nat} {sizes : List Nat} {edges : List (List (Nat × Nat × Nat))}
    (hid : ∀ i < sizes.length, ∀ j < sizes.length, idV i % 2 ^ 32 = idV j % 2 ^ 32 → i = j)
    (hF : ∀ a b c d, idF a b = idF c d → a = c ∧ b = d) {vars : List NDVarArray} {fg : FactorGraph κ α}
    (h : rcn idV idF hps vps sizes edges = .ok (vars, fg)) (garbage : Garbage) :
    ∃ (cell : Nat → List Nat → Var) (hist : List (AddArg α)) (st : FGState κ α),
      vars.length = sizes.length ∧
      (∀ idx g, vars[idx]? = some g → IsArr g [sizes.getD idx 0] ((2 * hps + 1) * (2 * vps + 1)) (cell idx)) ∧
      Compiled (vars.map .arr) hist garbage st ∧ graphOf (vars.map .arr) hist = fg ∧
      (∀ state T, (∃ bp, BP.create st state T = .ok bp) ↔ ∃ es ∈ edges, es ≠ []) ∧
      ∀ x : Var → Nat,
        ((∃ ρ, Joint (graphVars (vars.map (.arr : NDVarArray → VGroup κ))) (fg.factors st.logPotentials) x ρ) ↔
          (∀ idx < sizes.length, ∀ i < sizes.getD idx 0, x (cell idx [i]) < (2 * hps + 1) * (2 * vps + 1)) ∧
          ∀ idx < sizes.length, ∀ e ∈ edges.getD idx [], WithinRadius (2 * vps + 1) e.2.2 (x (cell idx [e.1])) (x (cell idx [e.2.1]))) ∧
        ∀ ev ρ, Joint (graphVars (vars.map (.arr : NDVarArray → VGroup κ))) (fg.factors st.logPotentials) x ρ →
          jointScore (graphVars (vars.map (.arr : NDVarArray → VGroup κ))) (fg.factors st.logPotentials) ev x ρ =
            ∑ idx ∈ Finset.range sizes.length, ∑ i ∈ Finset.range (sizes.getD idx 0), ev (cell idx [i]) (x (cell idx [i])) := by
  obtain ⟨hl, hs, he, hn⟩ := (C71_inputs (κ := κ) (α := α) (idF := idF) (hps := hps) (vps := vps) (edges := edges) hid).1.1 ⟨_, h⟩
  obtain ⟨rfl, hist, st, hg, hst, -, hsc, -, -, hfac⟩ := rcn_build hid hF h garbage
  have hcell : ∀ q ∈ cEdges edges, q.1 < sizes.length ∧ q.2.2.1 < sizes.getD q.1 0 ∧ q.2.2.2.1 < sizes.getD q.1 0 := by
    intro q hq
    obtain ⟨h1, h2⟩ := mem_cEdges.1 hq
    obtain ⟨h3, h4, -⟩ := he q.1 h1 _ (List.mem_of_getElem? h2)
    exact ⟨by omega, h3, h4⟩
  have hrow : ∀ r row, (∃ w : α, (row, w) ∈ (validConfigs r hps vps).zip (List.replicate (validConfigs r hps vps).length 0)) ↔ row ∈ validConfigs r hps vps := by
    intro r row
    constructor
    · rintro ⟨w, hw⟩; exact (List.of_mem_zip hw).1
    · intro hr
      obtain ⟨i, hi⟩ := List.mem_iff_getElem?.1 hr
      refine ⟨0, List.mem_iff_getElem?.2 ⟨i, ?_⟩⟩
      rw [List.getElem?_zip_eq_some]
      exact ⟨hi, by
        rw [List.getElem?_replicate, if_pos]
        exact (List.getElem?_eq_some_iff.1 hi).1⟩
  refine ⟨fun idx => uniCell (idV idx) [sizes.getD idx 0] (cStates hps vps), _, st, by simp, ?_, hst, hg, fun state T => ?_, fun x => ⟨?_, fun ev ρ hρ => ?_⟩⟩
  · intro idx g hidx
    rw [List.getElem?_map] at hidx
    obtain ⟨i, hi, rfl⟩ := Option.map_eq_some_iff.1 hidx
    obtain ⟨h1, h2⟩ := List.getElem?_eq_some_iff.1 hi
    rw [List.getElem_range] at h2
    subst h2
    exact isArr_uniArr _ _ _ (by simp)
  · rw [(C51_partial hst state T).1, hg, hsc, ne_eq, List.map_eq_nil_iff]
    constructor
    · intro hne
      obtain ⟨q, hq⟩ := List.exists_mem_of_ne_nil _ hne
      obtain ⟨h1, h2⟩ := mem_cEdges.1 hq
      refine ⟨edges.getD q.1 [], ?_, ?_⟩
      · rw [List.getD, List.getElem?_eq_getElem h1]
        exact List.getElem_mem h1
      · exact List.ne_nil_of_mem (List.mem_of_getElem? h2)
    · rintro ⟨es, hes, hne⟩ hc
      obtain ⟨idx, hidx⟩ := List.mem_iff_getElem?.1 hes
      obtain ⟨e, l, rfl⟩ := List.exists_cons_of_ne_nil hne
      have : (idx, 0, e) ∈ cEdges edges := (mem_cEdges.2 ⟨(List.getElem?_eq_some_iff.1 hidx).1, by simp [List.getD, hidx]⟩)
      rw [hc] at this
      cases this
  · rw [joint_exists_iff, hfac, List.forall_mem_map]
    have h1 : (∀ v ∈ graphVars ((cVars idV hps vps sizes).map (.arr : NDVarArray → VGroup κ)), x v < v.n) ↔
        ∀ idx < sizes.length, ∀ i < sizes.getD idx 0, x (cCell idV hps vps sizes idx i) < cStates hps vps := by
      constructor
      · intro hx idx h1 i h2
        exact hx _ ((mem_cVgs _).2 ⟨idx, h1, i, h2, rfl⟩)
      · intro hx v hv
        obtain ⟨idx, h1, i, h2, rfl⟩ := (mem_cVgs v).1 hv
        exact hx idx h1 i h2
    rw [h1]
    refine and_congr_right fun hx => ?_
    constructor
    · intro hq idx hidx e hmem
      obtain ⟨k, hk⟩ := List.mem_iff_getElem?.1 hmem
      have := (hrow _ _).1 (hq (idx, k, e) (mem_cEdges.2 ⟨by simp only; omega, hk⟩))
      obtain ⟨s, t, e1, -, -, hnear⟩ := (mem_validConfigs _ _ _ _).1 this
      simp only [List.map_cons, List.map_nil, List.cons.injEq, and_true] at e1
      rw [e1.1, e1.2]
      exact hnear
    · intro hq q hmem
      obtain ⟨k1, k2, k3⟩ := hcell q hmem
      obtain ⟨-, h2⟩ := mem_cEdges.1 hmem
      refine (hrow _ _).2 ((mem_validConfigs _ _ _ _).2 ⟨_, _, rfl, hx _ k1 _ k2, hx _ k1 _ k3, hq _ k1 _ (List.mem_of_getElem? h2)⟩)
  · rw [jointScore_zero hρ]
    swap
    · rw [hfac]
      intro F hF r hr
      obtain ⟨q, -, rfl⟩ := List.mem_map.1 hF
      exact (List.mem_replicate.1 (List.of_mem_zip hr).2).2
    rw [Finset.sum_sigma']
    refine (Finset.sum_bij (fun (p : (_ : Nat) × Nat) _ => cCell idV hps vps sizes p.1 p.2) ?_ ?_ ?_ ?_).symm
    · intro p hp
      simp only [Finset.mem_sigma, Finset.mem_range] at hp
      exact (mem_cVgs _).2 ⟨_, hp.1, _, hp.2, rfl⟩
    · intro p hp q hq e
      simp only [Finset.mem_sigma, Finset.mem_range] at hp hq
      obtain ⟨e1, e2⟩ := cCell_inj hid hs hp.1 hq.1 hp.2 hq.2 e
      exact Sigma.ext e1 (heq_of_eq e2)
    · intro v hv
      obtain ⟨idx, h1, i, h2, rfl⟩ := (mem_cVgs v).1 hv
      exact ⟨⟨idx, i⟩, by simp only [Finset.mem_sigma, Finset.mem_range]; exact ⟨h1, h2⟩, rfl⟩
    · intros; rfl

/-- Non-vacuity of C71: two networks in a window of 5 by 7 displacements; an edge given twice, in either direction, is rejected. -/
example : (∃ r : List NDVarArray × FactorGraph Nat ℚ, rcn id (fun a b => 2 ^ a * (2 * b + 1)) 2 3 [3, 2] [[(0, 1, 2), (1, 2, 0)], [(0, 1, 3)]] = .ok r) ∧
    (rcn id (fun a b => 2 ^ a * (2 * b + 1)) 2 3 [3, 2] [[(0, 1, 2), (1, 0, 1)], []] : Py (List NDVarArray × FactorGraph Nat ℚ)) = .error .valueError := by
  have hid : ∀ i < [3, 2].length, ∀ j < [3, 2].length, id i % 2 ^ 32 = id j % 2 ^ 32 → i = j := by decide
  refine ⟨(C71_inputs hid).1.2 ⟨rfl, by decide, by decide, by decide⟩, (C71_inputs hid).2.2 rfl (fun h => ?_) (.inr (by decide))⟩
  have := h.simple 0 (by decide)
  revert this
  decide

end

end PGMax
