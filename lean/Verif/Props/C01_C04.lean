import Verif.Lemmas.Slice

/-! # C01–C04: variable handles, groups, indexing and slicing -/

namespace PGMax

/-! ## C01 -/

/-- **C01.** In every constructed group of at most `10^9` variables no handle occurs twice, every hash fits in a signed
64-bit integer; and the assertion at construction never fails (for every object id). -/
theorem C01_handles_distinct {κ : Type _} :
    (∀ objId : Nat, ∃ h, vgPostInit objId = .ok h) ∧
    ∀ (objId : Nat) (g : VGroup κ), VGroup.Built objId g →
      g.variables.Nodup ∧ g.variables.length = g.numStates.length ∧
      (∀ v ∈ g.variables, v.hash < 2 ^ 63) ∧ (g.variables.map (·.hash)).Nodup := by
  refine ⟨fun i => ⟨_, vgPostInit_ok i⟩, ?_⟩
  intro objId g hb
  obtain ⟨h1, h2, h3⟩ := hb.facts
  refine ⟨VGroup.variables_nodup h3, VGroup.variables_length h3, ?_, ?_⟩
  · intro v hv
    obtain ⟨i, hi, hh⟩ := (VGroup.mem_variables h3 v).1 hv
    have : i < g.numStates.length := by
      by_contra hc; rw [List.getElem?_eq_none (by omega)] at hi; cases hi
    have hm : objId % 2 ^ 32 < 2 ^ 32 := Nat.mod_lt _ (by norm_num)
    omega
  · apply (List.nodup_map_iff_inj_on (VGroup.variables_nodup h3)).2
    intro v hv w hw hvw
    obtain ⟨i, hi, hhi⟩ := (VGroup.mem_variables h3 v).1 hv
    obtain ⟨j, hj, hhj⟩ := (VGroup.mem_variables h3 w).1 hw
    have hij : i = j := by omega
    subst hij
    rw [hi] at hj
    cases v; cases w; simp_all

/-- The construction also rejects what the documentation says it rejects: arrays of more than `10^9` variables, state
arrays of another shape, and non-integer state counts. -/
theorem C01_construction (objId : Nat) (shape : List Nat) (ns : NumStatesArg) :
    (∃ g, NDVarArray.create objId shape ns = .ok g) ↔
      shape.prod ≤ 1000000000 ∧ ((∃ n, ns = .scalar n) ∨ ∃ a, ns = .array a ∧ a.shape = shape) := by
  unfold NDVarArray.create
  rw [vgPostInit_ok]
  simp only [bind, Except.bind, MAX_SIZE, gt_iff_lt]
  by_cases h : 1000000000 < shape.prod
  · simp [h, throw, throwThe, MonadExceptOf.throw]
  · have h' : shape.prod ≤ 1000000000 := by omega
    cases ns with
    | scalar n => simp [h, pure, Except.pure, h']
    | array a =>
      by_cases hs : a.shape = shape <;>
        simp [h, hs, pure, Except.pure, throw, throwThe, MonadExceptOf.throw, h']
    | other => simp [h, throw, throwThe, MonadExceptOf.throw, pure, Except.pure]

/-- Non-vacuity: a 2×3 array with 4 states per variable is built. -/
example : VGroup.Built (κ := Nat) 139872416
    (.arr ⟨139872416 * 1000000000, [2, 3], [4, 4, 4, 4, 4, 4]⟩) :=
  .arr (ns := .scalar 4) (shape := [2, 3]) (by simp) (by decide)

/-- Non-vacuity: a dictionary of two variables with 2 and 3 states. -/
example : VGroup.Built 4096 (.dict ⟨4096 * 1000000000, ["a", "b"], [2, 3]⟩) :=
  .dict (ns := .array ⟨[2], [2, 3]⟩) (names := ["a", "b"])
    (by intro x hx; cases hx; rfl) (by simp) (by decide)

/-! ## C02 -/

/-- **C02 (partial).** Groups whose object ids differ modulo `2^32` never compare equal and never share a handle (not
even a hash).  Missing: ids that are congruent modulo `2^32`, for which the claim is false (`C02_refuted`), and
dictionaries of more than `10^9` variables (`C02_dict_size_refuted`). -/
theorem C02_groups_distinct_partial {κ : Type _} (id₁ id₂ : Nat) (g₁ g₂ : VGroup κ)
    (h₁ : VGroup.Built id₁ g₁) (h₂ : VGroup.Built id₂ g₂) (hne : id₁ % 2 ^ 32 ≠ id₂ % 2 ^ 32) :
    g₁.pyEq g₂ = false ∧ ∀ v ∈ g₁.variables, ∀ w ∈ g₂.variables, v.hash ≠ w.hash := by
  obtain ⟨a1, a2, a3⟩ := h₁.facts
  obtain ⟨b1, b2, b3⟩ := h₂.facts
  constructor
  · simp only [VGroup.pyEq, beq_eq_false_iff_ne, ne_eq]; omega
  · intro v hv w hw
    obtain ⟨i, hi, hhi⟩ := (VGroup.mem_variables a3 v).1 hv
    obtain ⟨j, hj, hhj⟩ := (VGroup.mem_variables b3 w).1 hw
    have hil : i < g₁.numStates.length := by
      by_contra hc; rw [List.getElem?_eq_none (by omega)] at hi; cases hi
    have hjl : j < g₂.numStates.length := by
      by_contra hc; rw [List.getElem?_eq_none (by omega)] at hj; cases hj
    omega

/-- In particular the claim holds for all groups of a process whose objects live in one aligned 4 GiB window. -/
theorem C02_window_partial {κ : Type _} (id₁ id₂ : Nat) (g₁ g₂ : VGroup κ)
    (h₁ : VGroup.Built id₁ g₁) (h₂ : VGroup.Built id₂ g₂) (hne : id₁ ≠ id₂) (hw : id₁ / 2 ^ 32 = id₂ / 2 ^ 32) :
    g₁.pyEq g₂ = false ∧ ∀ v ∈ g₁.variables, ∀ w ∈ g₂.variables, v ≠ w := by
  have := C02_groups_distinct_partial id₁ id₂ g₁ g₂ h₁ h₂ (by omega)
  exact ⟨this.1, fun v hv w hw he => this.2 v hv w hw (by rw [he])⟩

/-- The exact condition: two constructed groups compare equal iff their ids agree modulo `2^32`. -/
theorem C02_equal_iff {κ : Type _} (id₁ id₂ : Nat) (g₁ g₂ : VGroup κ)
    (h₁ : VGroup.Built id₁ g₁) (h₂ : VGroup.Built id₂ g₂) :
    g₁.pyEq g₂ = true ↔ id₁ % 2 ^ 32 = id₂ % 2 ^ 32 := by
  obtain ⟨a1, -, -⟩ := h₁.facts
  obtain ⟨b1, -, -⟩ := h₂.facts
  simp only [VGroup.pyEq, beq_iff_eq]
  omega

/-- `total_ordering` (vgroup.py:15,41): on groups whose ids differ modulo `2^32` the ordering is a strict total order,
as JAX needs when it sorts dictionary keys. -/
theorem C02_ordering_partial {κ : Type _} (id₁ id₂ : Nat) (g₁ g₂ : VGroup κ)
    (h₁ : VGroup.Built id₁ g₁) (h₂ : VGroup.Built id₂ g₂) (hne : id₁ % 2 ^ 32 ≠ id₂ % 2 ^ 32) :
    (g₁.pyLt g₂ = true ∧ g₂.pyLt g₁ = false) ∨ (g₁.pyLt g₂ = false ∧ g₂.pyLt g₁ = true) := by
  obtain ⟨a1, -, -⟩ := h₁.facts
  obtain ⟨b1, -, -⟩ := h₂.facts
  simp only [VGroup.pyLt, decide_eq_true_eq, decide_eq_false_iff_not]
  omega

/-- **C02 is false as stated:** two live groups whose ids differ by `2^32` compare equal and share a handle. -/
theorem C02_refuted : ∃ (id₁ id₂ : Nat) (g₁ g₂ : VGroup Nat), id₁ ≠ id₂ ∧ VGroup.Built id₁ g₁ ∧
    VGroup.Built id₂ g₂ ∧ g₁ ≠ g₂ ∧ g₁.pyEq g₂ = true ∧ ∃ v, v ∈ g₁.variables ∧ v ∈ g₂.variables := by
  refine ⟨4096, 4096 + 2 ^ 32, .arr ⟨4096 * 1000000000, [1], [2]⟩, .arr ⟨4096 * 1000000000, [2], [2, 2]⟩,
    by decide, .arr (ns := .scalar 2) (shape := [1]) (by simp) (by decide),
    .arr (ns := .scalar 2) (shape := [2]) (by simp) (by decide), by decide, by decide,
    ⟨4096 * 1000000000, 2⟩, by decide, by decide⟩

/-- **A second way C02 fails:** a dictionary has no size check, so one with more than `10^9` names (any such tuple of
names) runs into the hashes of the group with the next id. -/
theorem C02_dict_size_refuted {κ : Type _} (names : List κ) (hn : 1000000000 < names.length) (name : κ) :
    ∃ (d₁ d₂ : VarDict κ), VarDict.create 1 names (.scalar 2) = .ok d₁ ∧
      VarDict.create 2 [name] (.scalar 2) = .ok d₂ ∧ d₁.hash ≠ d₂.hash ∧
      ∃ v, v ∈ d₁.variables ∧ v ∈ d₂.variables := by
  have key : ∀ (id : Nat) (ns : List κ), VarDict.create id ns (.scalar 2)
      = .ok ⟨(id % 2 ^ 32) * 1000000000, ns, List.replicate ns.length 2⟩ := by
    intro id ns
    unfold VarDict.create
    rw [vgPostInit_ok]; rfl
  refine ⟨_, _, key 1 names, key 2 [name], by simp, ⟨2000000000, 2⟩, ?_, ?_⟩
  · rw [List.mem_iff_getElem?]
    refine ⟨1000000000, ?_⟩
    rw [VarDict.variables_getElem? _ (by simp)]
    simp [List.getElem?_replicate, hn]
  · rw [List.mem_iff_getElem?]
    refine ⟨0, ?_⟩
    rw [VarDict.variables_getElem? _ (by simp)]
    simp

example : ∃ names : List Nat, 1000000000 < names.length := ⟨List.range (1000000000 + 1), by
  rw [List.length_range]; omega⟩

example : ∃ g₁ g₂ : VGroup Nat, VGroup.Built 4096 g₁ ∧ VGroup.Built 8192 g₂ ∧ 4096 % 2 ^ 32 ≠ 8192 % 2 ^ 32 :=
  ⟨.arr ⟨4096 * 1000000000, [1], [2]⟩, .arr ⟨8192 * 1000000000, [1], [2]⟩,
    .arr (ns := .scalar 2) (shape := [1]) (by simp) (by decide),
    .arr (ns := .scalar 2) (shape := [1]) (by simp) (by decide), by decide⟩

/-! ## C03 -/

theorem forall₂_of_denotes : ∀ {shape : List Nat} {idx : List Int} {cs : List Nat},
    shape.length = idx.length → List.Forall₂ (fun (p : Nat × Int) c => Denotes p.1 p.2 c) (shape.zip idx) cs →
    List.Forall₂ (fun c d => c < d) cs shape := by
  intro shape
  induction shape with
  | nil => intro idx cs _ h; cases idx <;> cases h <;> simp
  | cons d ds ih =>
    intro idx cs hl h
    cases idx with
    | nil => simp at hl
    | cons i is =>
      simp only [List.zip_cons_cons] at h
      cases h with
      | cons h1 h2 => exact .cons h1.1 (ih (by simpa using hl) h2)

/-- **C03 (1).** A full in-range index (with negative components counting from the end) returns the variable at the row-major
position of the cell it denotes.  (`shape ≠ []`: for a 0-dimensional array the only full index is `()`, on which
`val[0]` raises, `C03_zero_dim`.) -/
theorem C03_getitem (g : NDVarArray) (hl : g.numStates.length = g.shape.prod) (hs : g.shape ≠ [])
    (idx : List Int) (cs : List Nat) (hlen : g.shape.length = idx.length)
    (hd : List.Forall₂ (fun (p : Nat × Int) c => Denotes p.1 p.2 c) (g.shape.zip idx) cs) :
    ∃ v, g.getitem (idx.map .int) = .ok (.one v) ∧ g.variables[rowMajor g.shape cs]? = some v ∧
      v.hash = g.hash + rowMajor g.shape cs ∧ g.numStates[rowMajor g.shape cs]? = some v.n := by
  have hlt := rowMajor_lt _ _ (forall₂_of_denotes hlen hd)
  have hp := flatPositions_ints g.shape idx cs hd hlen
  have hr := resultShape_ints g.shape idx hlen
  have hln : rowMajor g.shape cs < g.numStates.length := by omega
  refine ⟨⟨g.hash + rowMajor g.shape cs, g.numStates[rowMajor g.shape cs]⟩, ?_, ?_, rfl, ?_⟩
  · cases idx with
    | nil => exact absurd (List.length_eq_zero_iff.1 hlen) hs
    | cons i is =>
      simp only [List.map_cons] at hp hr ⊢
      have hh : g.variableHashes[rowMajor g.shape cs]? = some (g.hash + rowMajor g.shape cs) := by
        simp [NDVarArray.variableHashes, List.getElem?_range hlt]
      simp [NDVarArray.getitem, hp, hr, bind, Except.bind, hh, List.getElem?_eq_getElem hln, pure, Except.pure]
  · rw [NDVarArray.variables_getElem? g hl, List.getElem?_eq_getElem hln]; rfl
  · rw [List.getElem?_eq_getElem hln]

/-- **C03 (2).** Two in-range indices return the same handle iff they denote the same cell. -/
theorem C03_injective (g : NDVarArray) (hl : g.numStates.length = g.shape.prod) (hs : g.shape ≠ [])
    (idx idx' : List Int) (cs cs' : List Nat) (hlen : g.shape.length = idx.length)
    (hlen' : g.shape.length = idx'.length)
    (hd : List.Forall₂ (fun (p : Nat × Int) c => Denotes p.1 p.2 c) (g.shape.zip idx) cs)
    (hd' : List.Forall₂ (fun (p : Nat × Int) c => Denotes p.1 p.2 c) (g.shape.zip idx') cs') :
    g.getitem (idx.map .int) = g.getitem (idx'.map .int) ↔ cs = cs' := by
  obtain ⟨v, h1, h2, h3, h4⟩ := C03_getitem g hl hs idx cs hlen hd
  obtain ⟨v', h1', h2', h3', h4'⟩ := C03_getitem g hl hs idx' cs' hlen' hd'
  rw [h1, h1']
  constructor
  · intro h
    simp only [Except.ok.injEq, GetResult.one.injEq] at h
    subst h
    exact rowMajor_inj _ _ _ (forall₂_of_denotes hlen hd) (forall₂_of_denotes hlen' hd') (by omega)
  · rintro rfl
    rw [h2] at h2'
    simp only [Option.some.injEq] at h2'
    rw [h2']

theorem flatPositions_int_error : ∀ (shape : List Nat) (idx : List Int), shape.length = idx.length →
    (∃ p ∈ shape.zip idx, ¬ (-(p.1 : Int) ≤ p.2 ∧ p.2 < p.1)) →
    flatPositions shape (idx.map .int) = .error .indexError := by
  intro shape
  induction shape with
  | nil => intro idx _ h; simp at h
  | cons d ds ih =>
    intro idx hl h
    cases idx with
    | nil => simp at hl
    | cons i is =>
      simp only [List.map_cons, flatPositions]
      by_cases hi : -(d : Int) ≤ i ∧ i < d
      · obtain ⟨c, hc⟩ : ∃ c, Denotes d i c := by
          by_cases h0 : 0 ≤ i
          · exact ⟨i.toNat, by omega, Or.inl (by omega)⟩
          · exact ⟨(i + d).toNat, by omega, Or.inr (by omega)⟩
        rw [select_int_of_denotes hc]
        have : ∃ p ∈ ds.zip is, ¬ (-(p.1 : Int) ≤ p.2 ∧ p.2 < p.1) := by
          obtain ⟨p, hp, hpn⟩ := h
          simp only [List.zip_cons_cons, List.mem_cons] at hp
          rcases hp with rfl | hp
          · exact absurd hi hpn
          · exact ⟨p, hp, hpn⟩
        simp [bind, Except.bind, ih is (by simpa using hl) this]
      · have : Ix.select d (.int i) = .error .indexError := by
          simp only [Ix.select]
          rw [if_neg (by omega), if_neg (by omega)]
        simp [this, bind, Except.bind]

/-- **C03 (3).** An index of full length with a component out of range raises IndexError; so does an index with too many
components. -/
theorem C03_out_of_range (g : NDVarArray) (idx : List Int) :
    (g.shape.length = idx.length → (∃ p ∈ g.shape.zip idx, ¬ (-(p.1 : Int) ≤ p.2 ∧ p.2 < p.1)) →
      g.getitem (idx.map .int) = .error .indexError) ∧
    (g.shape.length < idx.length → g.getitem (idx.map .int) = .error .indexError) := by
  constructor
  · intro hl h
    have hp := flatPositions_int_error g.shape idx hl h
    cases idx with
    | nil => simp at h
    | cons i is =>
      simp only [List.map_cons] at hp ⊢
      simp [NDVarArray.getitem, hp, bind, Except.bind]
  · intro hl
    have key : ∀ (shape : List Nat) (idx : List Int), shape.length < idx.length →
        flatPositions shape (idx.map .int) = .error .indexError := by
      intro shape
      induction shape with
      | nil => intro idx h; cases idx with
        | nil => simp at h
        | cons i is => rfl
      | cons d ds ih =>
        intro idx h
        cases idx with
        | nil => simp at h
        | cons i is =>
          have := ih is (by simpa using h)
          simp only [List.map_cons, flatPositions, this]
          have : Ix.select d (.int i) = .error .indexError ∨ ∃ l, Ix.select d (.int i) = .ok l := by
            simp only [Ix.select]
            split
            · exact .inr ⟨_, rfl⟩
            · split
              · exact .inr ⟨_, rfl⟩
              · exact .inl rfl
          rcases this with h | ⟨l, h⟩ <;> simp [h, bind, Except.bind]
    have hp := key g.shape idx hl
    cases idx with
    | nil => simp at hl
    | cons i is =>
      simp only [List.map_cons] at hp ⊢
      simp [NDVarArray.getitem, hp, bind, Except.bind]

/-- The excluded point of C03: the empty index (the full index of a 0-dimensional array) raises IndexError. -/
theorem C03_zero_dim (g : NDVarArray) : g.getitem [] = .error .indexError := rfl

example : NDVarArray.getitem ⟨7000000000, [2, 3], [4, 5, 6, 7, 8, 9]⟩ [.int 1, .int (-3)]
    = .ok (.one ⟨7000000003, 7⟩) := by decide

example : List.Forall₂ (fun (p : Nat × Int) c => Denotes p.1 p.2 c) ([2, 3].zip [1, -3]) [1, 0] := by
  refine .cons ⟨by decide, .inl rfl⟩ (.cons ⟨by decide, .inr (by decide)⟩ .nil)

/-! ## C04 -/

/-- **C04 (1).** An index whose first component is a slice (further components: slices with positive steps, or in-range
integers) returns exactly the variables whose multi-index is selected by every component, once each and in row-major
order. -/
theorem C04_slices (g : NDVarArray) (hl : g.numStates.length = g.shape.prod) (a b s : Option Int) (ixs : List Ix)
    (hok : IxsOk g.shape (.slice a b s :: ixs)) :
    ∃ l, g.getitem (.slice a b s :: ixs) = .ok (.vars l) ∧
      l.map some = ((allIndices g.shape).filter (fun c => SelectedAll g.shape c (.slice a b s :: ixs))).map
        (fun c => g.variables[rowMajor g.shape c]?) := by
  have hp := flatPositions_ok g.shape _ hok
  set sel := (allIndices g.shape).filter (fun c => SelectedAll g.shape c (.slice a b s :: ixs)) with hsel
  have hmem : ∀ c ∈ sel, rowMajor g.shape c < g.shape.prod := by
    intro c hc
    exact rowMajor_lt _ _ ((mem_allIndices _ _).1 (List.mem_of_mem_filter hc))
  have hh : (sel.map (rowMajor g.shape)).filterMap (fun p => g.variableHashes[p]?)
      = sel.map (fun c => g.hash + rowMajor g.shape c) := by
    rw [List.filterMap_map]
    rw [← List.filterMap_eq_map]
    apply List.filterMap_congr
    intro c hc
    simp [NDVarArray.variableHashes, List.getElem?_range (hmem c hc)]
  have hn : (sel.map (rowMajor g.shape)).filterMap (fun p => g.numStates[p]?)
      = sel.map (fun c => g.numStates.getD (rowMajor g.shape c) 0) := by
    rw [List.filterMap_map]
    rw [← List.filterMap_eq_map]
    apply List.filterMap_congr
    intro c hc
    have := hmem c hc
    simp [List.getD, List.getElem?_eq_getElem (show rowMajor g.shape c < g.numStates.length by omega)]
  refine ⟨sel.map (fun c => ⟨g.hash + rowMajor g.shape c, g.numStates.getD (rowMajor g.shape c) 0⟩), ?_, ?_⟩
  · simp only [NDVarArray.getitem, hp, bind, Except.bind, pure, Except.pure, hh, hn]
    rw [List.zipWith_map, List.zipWith_self]
  · rw [List.map_map]
    apply List.map_congr_left
    intro c hc
    have := hmem c hc
    rw [NDVarArray.variables_getElem? g hl]
    simp [List.getD, List.getElem?_eq_getElem (show rowMajor g.shape c < g.numStates.length by omega)]

/-- **C04 (2).** Each variable returned is what single-element indexing of its cell returns, and no variable is returned
twice. -/
theorem C04_elements (g : NDVarArray) (hl : g.numStates.length = g.shape.prod) (hs : g.shape ≠ []) (a b s : Option Int)
    (ixs : List Ix) (hok : IxsOk g.shape (.slice a b s :: ixs)) (l : List Var)
    (h : g.getitem (.slice a b s :: ixs) = .ok (.vars l)) :
    l.Nodup ∧ ∀ v, v ∈ l ↔ ∃ c, List.Forall₂ (fun i d => i < d) c g.shape ∧
      SelectedAll g.shape c (.slice a b s :: ixs) = true ∧
      g.getitem (c.map (fun (i : Nat) => .int (i : Int))) = .ok (.one v) := by
  obtain ⟨l', h1, h2⟩ := C04_slices g hl a b s ixs hok
  rw [h1] at h
  simp only [Except.ok.injEq, GetResult.vars.injEq] at h
  subst h
  have hget : ∀ c, List.Forall₂ (fun i d => i < d) c g.shape →
      ∃ v, g.getitem (c.map (fun (i : Nat) => .int (i : Int))) = .ok (.one v) ∧
        g.variables[rowMajor g.shape c]? = some v := by
    intro c hc
    have hlen := hc.length_eq
    have hd : List.Forall₂ (fun (p : Nat × Int) c => Denotes p.1 p.2 c) (g.shape.zip (c.map (fun (i : Nat) => (i : Int)))) c := by
      clear hl hs hok h1 h2 hlen
      generalize g.shape = sh at hc
      induction hc with
      | nil => simp
      | cons h1 _ ih => exact .cons ⟨h1, .inl rfl⟩ ih
    obtain ⟨v, e1, e2, -, -⟩ := C03_getitem g hl hs (c.map (fun (i : Nat) => (i : Int))) c (by simp [hlen]) hd
    refine ⟨v, ?_, e2⟩
    rw [← e1, List.map_map]; rfl
  constructor
  · apply List.Nodup.of_map some
    rw [h2]
    have hnd : (allIndices g.shape).Nodup := by
      apply List.Nodup.of_map (rowMajor g.shape)
      rw [allIndices_map_rowMajor]; exact List.nodup_range
    apply List.Nodup.map_on _ (hnd.filter _)
    intro c hc c' hc' he
    have hc1 := (mem_allIndices _ _).1 (List.mem_of_mem_filter hc)
    have hc1' := (mem_allIndices _ _).1 (List.mem_of_mem_filter hc')
    apply rowMajor_inj _ _ _ hc1 hc1'
    have l1 := rowMajor_lt _ _ hc1
    have l2 := rowMajor_lt _ _ hc1'
    rw [NDVarArray.variables_getElem? g hl, NDVarArray.variables_getElem? g hl,
      List.getElem?_eq_getElem (by omega), List.getElem?_eq_getElem (by omega)] at he
    simp only [Option.map_some, Option.some.injEq, Var.mk.injEq] at he
    omega
  · intro v
    have : v ∈ l' ↔ some v ∈ l'.map some := by simp
    rw [this, h2]
    simp only [List.mem_map, List.mem_filter, mem_allIndices]
    constructor
    · rintro ⟨c, ⟨hc, hs⟩, he⟩
      obtain ⟨w, e1, e2⟩ := hget c hc
      rw [e2] at he
      simp only [Option.some.injEq] at he
      subst he
      exact ⟨c, hc, hs, e1⟩
    · rintro ⟨c, hc, hs, he⟩
      obtain ⟨w, e1, e2⟩ := hget c hc
      rw [e1] at he
      simp only [Except.ok.injEq, GetResult.one.injEq] at he
      subst he
      exact ⟨c, ⟨hc, hs⟩, e2⟩

/-- **Beyond C04:** an index that starts with an integer but contains a slice does not return variables at all, but a pair
of arrays (of hashes and of state counts). -/
theorem C04_int_first_refuted : ∃ (g : NDVarArray), g.numStates.length = g.shape.prod ∧
    g.getitem [.int 0, .slice none none none] = .ok (.arrays [2] [5000000000, 5000000001] [3, 4]) :=
  ⟨⟨5000000000, [2, 2], [3, 4, 5, 6]⟩, by decide, by decide⟩

example : NDVarArray.getitem ⟨7000000000, [2, 3], [4, 5, 6, 7, 8, 9]⟩
    [.slice none none none, .slice (some (-2)) (some 10) none]
    = .ok (.vars [⟨7000000001, 5⟩, ⟨7000000002, 6⟩, ⟨7000000004, 8⟩, ⟨7000000005, 9⟩]) := by decide

example : IxsOk [2, 3] [.slice none none none, .slice (some (-2)) (some 10) (some 2)] := by
  simp [IxsOk, IxOk]

end PGMax
