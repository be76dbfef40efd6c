import Verif.Lemmas.Build
import Verif.Lemmas.Slice
import Verif.Props.C01_C04

/-! Helper lemmas: the variables of an array whose variables all have the same number of states. -/

namespace PGMax

variable {κ α : Type _}

/-- The array that `NDVarArray.create objId shape (.scalar k)` makes. -/
def uniArr (objId : Nat) (shape : List Nat) (k : Nat) : NDVarArray :=
  ⟨objId % 2 ^ 32 * 1000000000, shape, List.replicate shape.prod k⟩

/-- Its variable with the given coordinates. -/
def uniCell (objId : Nat) (shape : List Nat) (k : Nat) (cs : List Nat) : Var :=
  ⟨objId % 2 ^ 32 * 1000000000 + rowMajor shape cs, k⟩

theorem create_scalar (objId : Nat) (shape : List Nat) (k : Nat) (h : shape.prod ≤ 1000000000) :
    NDVarArray.create objId shape (.scalar k) = .ok (uniArr objId shape k) := by
  unfold NDVarArray.create
  rw [vgPostInit_ok]
  simp only [bind, Except.bind, MAX_SIZE, gt_iff_lt]
  rw [if_neg (by omega)]
  rfl

theorem create_scalar_large (objId : Nat) (shape : List Nat) (k : Nat) (h : ¬ shape.prod ≤ 1000000000) :
    NDVarArray.create objId shape (.scalar k) = .error .valueError := by
  unfold NDVarArray.create
  rw [vgPostInit_ok]
  simp only [bind, Except.bind, MAX_SIZE, gt_iff_lt]
  rw [if_pos (by omega)]
  rfl

theorem uniArr_built (objId : Nat) (shape : List Nat) (k : Nat) (h : shape.prod ≤ 1000000000) :
    VGroup.Built objId (.arr (uniArr objId shape k) : VGroup κ) :=
  .arr (by intro x hx; cases hx) (create_scalar objId shape k h)

theorem denotes_cast {shape cs : List Nat} (h : List.Forall₂ (fun c d => c < d) cs shape) :
    List.Forall₂ (fun (p : Nat × Int) c => Denotes p.1 p.2 c) (shape.zip (cs.map (fun (c : Nat) => (c : Int)))) cs := by
  induction h with
  | nil => exact .nil
  | cons h _ ih => exact .cons ⟨h, .inl rfl⟩ ih

theorem uniArr_getitem (objId : Nat) (shape : List Nat) (k : Nat) (hs : shape ≠ []) {cs : List Nat}
    (h : List.Forall₂ (fun c d => c < d) cs shape) :
    (uniArr objId shape k).getitem (cs.map (fun (c : Nat) => .int (c : Int))) = .ok (.one (uniCell objId shape k cs)) := by
  obtain ⟨v, h1, -, h3, h4⟩ := C03_getitem (uniArr objId shape k) (by simp [uniArr]) hs (cs.map (fun (c : Nat) => (c : Int))) cs
    (by simp [uniArr, h.length_eq]) (denotes_cast h)
  rw [List.map_map] at h1
  rw [show (cs.map (fun (c : Nat) => Ix.int (c : Int))) = cs.map (Ix.int ∘ fun (c : Nat) => (c : Int)) from rfl, h1]
  have h5 : v.n = k := by
    have := List.mem_of_getElem? h4
    simp only [uniArr] at this
    exact List.eq_of_mem_replicate this
  cases v
  simp only [uniArr] at h3 h5
  subst h3 h5
  rfl

theorem uniArr_at (objId : Nat) (shape : List Nat) (k : Nat) (hs : shape ≠ []) {cs : List Nat}
    (h : List.Forall₂ (fun c d => c < d) cs shape) :
    (uniArr objId shape k).at (cs.map (fun (c : Nat) => (c : Int))) = .ok (uniCell objId shape k cs) := by
  unfold NDVarArray.at
  have := uniArr_getitem objId shape k hs h
  rw [List.map_map, show (Ix.int ∘ fun (c : Nat) => (c : Int)) = fun (c : Nat) => Ix.int (c : Int) from rfl, this]

theorem uniCell_inj {objId : Nat} {shape : List Nat} {k : Nat} {cs ds : List Nat}
    (h : List.Forall₂ (fun c d => c < d) cs shape) (h' : List.Forall₂ (fun c d => c < d) ds shape)
    (e : uniCell objId shape k cs = uniCell objId shape k ds) : cs = ds := by
  simp only [uniCell, Var.mk.injEq, and_true] at e
  exact rowMajor_inj shape cs ds h h' (by omega)

theorem uniArr_variables (objId : Nat) (shape : List Nat) (k : Nat) :
    (uniArr objId shape k).variables = (allIndices shape).map (uniCell objId shape k) := by
  have h := allIndices_map_rowMajor shape
  have : (allIndices shape).map (uniCell objId shape k) = (List.range shape.prod).map (fun i => Var.mk (objId % 2 ^ 32 * 1000000000 + i) k) := by
    rw [← h, List.map_map]; rfl
  rw [this]
  unfold NDVarArray.variables NDVarArray.variableHashes uniArr
  apply List.ext_getElem?
  intro i
  by_cases hi : i < shape.prod
  · simp [hi]
  · rw [List.getElem?_eq_none (by simp; omega), List.getElem?_eq_none (by simp; omega)]

theorem mem_uniArr (objId : Nat) (shape : List Nat) (k : Nat) (v : Var) :
    v ∈ (uniArr objId shape k).variables ↔ ∃ cs, List.Forall₂ (fun c d => c < d) cs shape ∧ v = uniCell objId shape k cs := by
  rw [uniArr_variables, List.mem_map]
  constructor
  · rintro ⟨cs, h, rfl⟩; exact ⟨cs, (mem_allIndices shape cs).1 h, rfl⟩
  · rintro ⟨cs, h, rfl⟩; exact ⟨cs, (mem_allIndices shape cs).2 h, rfl⟩

theorem vgroupsOk_one (objId : Nat) (shape : List Nat) (k : Nat) (h : shape.prod ≤ 1000000000) :
    VGroupsOk [(.arr (uniArr objId shape k) : VGroup κ)] :=
  ⟨by intro g hg; rw [List.mem_singleton] at hg; subst hg; exact ⟨objId, uniArr_built objId shape k h⟩, by simp⟩

/-- Variable groups made by objects whose ids differ modulo `2 ^ 32`. -/
theorem vgroupsOk_of (L : List (Nat × VGroup κ)) (hb : ∀ p ∈ L, VGroup.Built p.1 p.2) (hd : (L.map (fun p => p.1 % 2 ^ 32)).Nodup) :
    VGroupsOk (L.map (·.2)) := by
  constructor
  · intro g hg
    obtain ⟨p, hp, rfl⟩ := List.mem_map.1 hg
    exact ⟨p.1, hb p hp⟩
  · rw [List.pairwise_map]
    rw [List.Nodup, List.pairwise_map] at hd
    exact hd.imp_of_mem fun {a b} ha hb' hne => (C02_groups_distinct_partial _ _ _ _ (hb a ha) (hb b hb') hne).1

end PGMax
