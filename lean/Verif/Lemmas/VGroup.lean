import Verif.Spec.VGroup
import Verif.Lemmas.Arr
import Mathlib.Data.List.Sort

/-! Helper lemmas about variable groups. -/

namespace PGMax

theorem vgPostInit_ok (objId : Nat) : vgPostInit objId = .ok ((objId % 2 ^ 32) * 1000000000) := by
  have h : objId % 2 ^ 32 < 2 ^ 32 := Nat.mod_lt _ (by norm_num)
  unfold vgPostInit MAX_SIZE
  rw [if_pos (by omega)]

/-- What a successful array construction gives. -/
theorem NDVarArray.create_ok {objId : Nat} {shape : List Nat} {ns : NumStatesArg} {g : NDVarArray}
    (hns : ∀ x, ns = .array x → x.WF) (h : NDVarArray.create objId shape ns = .ok g) :
    g.hash = (objId % 2 ^ 32) * 1000000000 ∧ g.shape = shape ∧ g.numStates.length = shape.prod ∧
      shape.prod ≤ 1000000000 := by
  unfold NDVarArray.create at h
  rw [vgPostInit_ok] at h
  simp only [bind, Except.bind] at h
  split at h
  · simp [throw, throwThe, MonadExceptOf.throw] at h
  · rename_i hs
    have hs' : shape.prod ≤ 1000000000 := by simpa [MAX_SIZE] using hs
    cases ns with
    | scalar n =>
      simp [pure, Except.pure] at h
      subst h; exact ⟨rfl, rfl, by simp, hs'⟩
    | array a =>
      simp only [pure, Except.pure] at h
      split at h
      · simp [throw, throwThe, MonadExceptOf.throw] at h
      · rename_i hsh
        simp only [ne_eq, not_not] at hsh
        simp only [Except.ok.injEq] at h
        subst h
        refine ⟨rfl, rfl, ?_, hs'⟩
        have := hns a rfl
        rw [NDArr.WF, hsh] at this
        exact this
    | other => simp [throw, throwThe, MonadExceptOf.throw, pure, Except.pure] at h

theorem VarDict.create_ok {κ : Type _} {objId : Nat} {names : List κ} {ns : NumStatesArg} {g : VarDict κ}
    (hns : ∀ x, ns = .array x → x.WF) (h : VarDict.create objId names ns = .ok g) :
    g.hash = (objId % 2 ^ 32) * 1000000000 ∧ g.names = names ∧ g.numStates.length = names.length := by
  unfold VarDict.create at h
  rw [vgPostInit_ok] at h
  simp only [bind, Except.bind] at h
  cases ns with
  | scalar n =>
    simp [pure, Except.pure] at h
    subst h; exact ⟨rfl, rfl, by simp⟩
  | array a =>
    simp only [pure, Except.pure] at h
    split at h
    · simp [throw, throwThe, MonadExceptOf.throw] at h
    · rename_i hsh
      simp only [ne_eq, not_not] at hsh
      simp only [Except.ok.injEq] at h
      subst h
      refine ⟨rfl, rfl, ?_⟩
      have := hns a rfl
      rw [NDArr.WF, hsh] at this
      simpa using this
  | other => simp [throw, throwThe, MonadExceptOf.throw] at h

theorem NDVarArray.variables_getElem? (g : NDVarArray) (hl : g.numStates.length = g.shape.prod) (i : Nat) :
    g.variables[i]? = g.numStates[i]?.map (fun n => ⟨g.hash + i, n⟩) := by
  unfold NDVarArray.variables NDVarArray.variableHashes
  rw [List.getElem?_zipWith]
  by_cases h : i < g.numStates.length
  · rw [List.getElem?_map, List.getElem?_range (by omega)]
    simp [List.getElem?_eq_getElem h]
  · rw [List.getElem?_eq_none (l := g.numStates) (by omega)]
    cases (List.map (fun i => g.hash + i) (List.range g.shape.prod))[i]? <;> rfl

theorem VarDict.variables_getElem? {κ : Type _} (g : VarDict κ) (hl : g.numStates.length = g.names.length) (i : Nat) :
    g.variables[i]? = g.numStates[i]?.map (fun n => ⟨g.hash + i, n⟩) := by
  unfold VarDict.variables VarDict.variableHashes
  rw [List.getElem?_zipWith]
  by_cases h : i < g.numStates.length
  · rw [List.getElem?_map, List.getElem?_range (by omega)]
    simp [List.getElem?_eq_getElem h]
  · rw [List.getElem?_eq_none (l := g.numStates) (by omega)]
    cases (List.map (fun i => g.hash + i) (List.range g.names.length))[i]? <;> rfl

/-- What construction guarantees, for both classes. -/
theorem VGroup.Built.facts {κ : Type _} {objId : Nat} {g : VGroup κ} (h : VGroup.Built objId g) :
    g.hash = (objId % 2 ^ 32) * 1000000000 ∧ g.numStates.length ≤ 1000000000 ∧
      ∀ i : Nat, g.variables[i]? = g.numStates[i]?.map (fun n => (⟨g.hash + i, n⟩ : Var)) := by
  cases h with
  | arr hns h =>
    obtain ⟨h1, h2, h3, h4⟩ := NDVarArray.create_ok hns h
    refine ⟨h1, by simp only [VGroup.numStates]; omega, ?_⟩
    exact NDVarArray.variables_getElem? _ (by rw [h2, h3])
  | dict hns hlen h =>
    obtain ⟨h1, h2, h3⟩ := VarDict.create_ok hns h
    refine ⟨h1, by simp only [VGroup.numStates]; omega, ?_⟩
    exact VarDict.variables_getElem? _ (by rw [h2, h3])

theorem VGroup.mem_variables {κ : Type _} {g : VGroup κ}
    (hv : ∀ i, g.variables[i]? = g.numStates[i]?.map (fun n => (⟨g.hash + i, n⟩ : Var))) (v : Var) :
    v ∈ g.variables ↔ ∃ i, g.numStates[i]? = some v.n ∧ v.hash = g.hash + i := by
  rw [List.mem_iff_getElem?]
  constructor
  · rintro ⟨i, hi⟩
    rw [hv, Option.map_eq_some_iff] at hi
    obtain ⟨n, hn, rfl⟩ := hi
    exact ⟨i, hn, rfl⟩
  · rintro ⟨i, hi, hh⟩
    refine ⟨i, ?_⟩
    rw [hv, hi]; simp only [Option.map_some, ← hh]

theorem VGroup.variables_length {κ : Type _} {g : VGroup κ}
    (hv : ∀ i, g.variables[i]? = g.numStates[i]?.map (fun n => (⟨g.hash + i, n⟩ : Var))) :
    g.variables.length = g.numStates.length := by
  apply Nat.le_antisymm
  · by_contra hc
    have := hv g.numStates.length
    rw [List.getElem?_eq_none (l := g.numStates) (le_refl _)] at this
    simp at this; omega
  · by_contra hc
    have := hv g.variables.length
    rw [List.getElem?_eq_none (l := g.variables) (le_refl _)] at this
    have h2 : g.variables.length < g.numStates.length := by omega
    simp [List.getElem?_eq_getElem h2] at this

theorem VGroup.variables_nodup {κ : Type _} {g : VGroup κ}
    (hv : ∀ i, g.variables[i]? = g.numStates[i]?.map (fun n => (⟨g.hash + i, n⟩ : Var))) :
    g.variables.Nodup := by
  rw [List.nodup_iff_injective_get]
  intro i j hij
  have hi := hv i.1
  have hj := hv j.1
  rw [List.getElem?_eq_getElem i.2] at hi
  rw [List.getElem?_eq_getElem j.2] at hj
  simp only [List.get_eq_getElem] at hij
  rw [eq_comm, Option.map_eq_some_iff] at hi hj
  obtain ⟨n, _, hn⟩ := hi
  obtain ⟨m, _, hm⟩ := hj
  rw [← hn, ← hm] at hij
  simp only [Var.mk.injEq] at hij
  exact Fin.ext (by omega)

/-! ### Indexing -/

theorem rowMajor_lt : ∀ (shape is : List Nat), List.Forall₂ (fun c d => c < d) is shape →
    rowMajor shape is < shape.prod := by
  intro shape
  induction shape with
  | nil => intro is h; cases h; simp [rowMajor]
  | cons d ds ih =>
    intro is h
    cases h with
    | cons hc ht =>
      rename_i c cs
      have := ih _ ht
      simp only [rowMajor, List.prod_cons]
      calc c * ds.prod + rowMajor ds cs < c * ds.prod + ds.prod := by omega
        _ = (c + 1) * ds.prod := by ring
        _ ≤ d * ds.prod := Nat.mul_le_mul_right _ hc

theorem rowMajor_inj : ∀ (shape is js : List Nat), List.Forall₂ (fun c d => c < d) is shape →
    List.Forall₂ (fun c d => c < d) js shape → rowMajor shape is = rowMajor shape js → is = js := by
  intro shape
  induction shape with
  | nil => intro is js hi hj _; cases hi; cases hj; rfl
  | cons d ds ih =>
    intro is js hi hj h
    cases hi with
    | cons hc ht =>
      cases hj with
      | cons hc' ht' =>
        rename_i c cs c' cs'
        simp only [rowMajor] at h
        have h1 := rowMajor_lt _ _ ht
        have h2 := rowMajor_lt _ _ ht'
        have hcc : c = c' := by
          have e1 : (c * ds.prod + rowMajor ds cs) / ds.prod = c := by
            rw [mul_comm, Nat.mul_add_div (by omega), Nat.div_eq_of_lt h1, add_zero]
          have e2 : (c' * ds.prod + rowMajor ds cs') / ds.prod = c' := by
            rw [mul_comm, Nat.mul_add_div (by omega), Nat.div_eq_of_lt h2, add_zero]
          rw [← e1, ← e2, h]
        subst hcc
        rw [ih _ _ ht ht' (by omega)]

theorem select_int_of_denotes {d : Nat} {i : Int} {c : Nat} (h : Denotes d i c) :
    Ix.select d (.int i) = .ok [c] := by
  obtain ⟨hc, h | h⟩ := h
  · simp only [Ix.select]
    rw [if_pos (by omega)]; congr 1; subst h; simp
  · simp only [Ix.select]
    rw [if_neg (by omega), if_pos (by omega)]; congr 1; subst h; simp

theorem flatPositions_ints : ∀ (shape : List Nat) (idx : List Int) (cs : List Nat),
    List.Forall₂ (fun (p : Nat × Int) c => Denotes p.1 p.2 c) (shape.zip idx) cs → shape.length = idx.length →
    flatPositions shape (idx.map .int) = .ok [rowMajor shape cs] := by
  intro shape
  induction shape with
  | nil =>
    intro idx cs h hl
    cases idx with
    | nil => simp [flatPositions, rowMajor]
    | cons _ _ => simp at hl
  | cons d ds ih =>
    intro idx cs h hl
    cases idx with
    | nil => simp at hl
    | cons i is =>
      simp only [List.zip_cons_cons] at h
      cases h with
      | cons h1 h2 =>
        rename_i c cs
        simp only [List.map_cons, flatPositions, select_int_of_denotes h1, ih is _ h2 (by simpa using hl)]
        simp [bind, Except.bind, pure, Except.pure, rowMajor]

theorem resultShape_ints : ∀ (shape : List Nat) (idx : List Int), shape.length = idx.length →
    resultShape shape (idx.map .int) = .ok [] := by
  intro shape
  induction shape with
  | nil => intro idx h; cases idx <;> simp_all [resultShape]
  | cons d ds ih =>
    intro idx h
    cases idx with
    | nil => simp at h
    | cons i is => simpa [resultShape] using ih is (by simpa using h)

end PGMax
