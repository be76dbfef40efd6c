import Verif.Lemmas.Example

/-! # A concrete tree -/

namespace PGMax

/-- Four binary variables. -/
def exVars5 : List (VGroup Nat) := [.arr ⟨2000000000, [4], [2, 2, 2, 2]⟩]

/-- The `i`-th of them. -/
def exVar5 (i : Nat) : Var := ⟨2000000000 + i, 2⟩

/-- An enumeration factor on the first two variables; the last variable is the OR of the second and third. -/
def exHist5 : List (AddArg ℚ) := [.one ⟨5, .enum, .enumGroup, [[exVar5 0, exVar5 1]], ⟨2, [[0, 0], [0, 1], [1, 1]]⟩, [0, 0, 0]⟩,
  .one ⟨6, .or, .single, [[exVar5 1, exVar5 2, exVar5 3]], ⟨0, []⟩, []⟩]

/-- Its compiled state. -/
def exState5 : FGState Nat ℚ :=
  match (graphOf exVars5 exHist5).fgState 0 with
  | .ok st => st
  | .error _ => ⟨[], fun _ => none, 0, 0, fun _ => (0, 0), fun _ => (0, 0), fun _ => none, [],
      ⟨⟨[], [], []⟩, ⟨[], [], [], [], 1⟩, ⟨[], [], [], [], 1⟩⟩⟩

theorem exState5_compiled : Compiled exVars5 exHist5 0 exState5 where
  vgroups := {
    built := by
      simp only [exVars5, List.mem_cons, List.not_mem_nil, or_false, forall_eq]
      exact ⟨2, .arr (ns := .array ⟨[4], [2, 2, 2, 2]⟩) (shape := [4]) (by intro a h; cases h; rfl) (by decide)⟩
    distinct := by simp [exVars5] }
  valid := by
    simp only [exHist5, List.mem_cons, List.not_mem_nil, or_false, forall_eq_or_imp, forall_eq, AddArg.flat]
    refine ⟨⟨by decide, by decide, fun _ => ⟨by decide, by decide, by decide, ?_, by rfl⟩, fun h => absurd rfl h⟩, ?_⟩
    · intro vs hvs r hr
      simp only [List.mem_cons, List.not_mem_nil, or_false] at hvs hr
      subst hvs
      rcases hr with rfl | rfl | rfl <;> simp [exVar5]
    · exact ⟨by decide, by decide, (fun h => by cases h), fun _ => ⟨rfl, by unfold LogicalScope; decide⟩⟩
  ids := by
    have e : FType.all.flatMap (graphOf exVars5 exHist5).groups = [
      ⟨5, .enum, .enumGroup, [[exVar5 0, exVar5 1]], ⟨2, [[0, 0], [0, 1], [1, 1]]⟩, [0, 0, 0]⟩,
      ⟨6, .or, .single, [[exVar5 1, exVar5 2, exVar5 3]], ⟨0, []⟩, []⟩] := by rfl
    rw [e]
    intro g hg k hk hid
    simp only [List.mem_cons, List.not_mem_nil, or_false] at hg hk
    rcases hg with rfl | rfl <;> rcases hk with rfl | rfl <;> first | rfl | (simp at hid)
  compiled := rfl

/-- The default BP state of the graph. -/
def exBPState5 : BPState ℚ :=
  match bpStateOf 1 exState5 with
  | .ok s => s
  | .error _ => ⟨⟨0, []⟩, ⟨0, []⟩, ⟨0, []⟩⟩

/-- Max-product belief propagation on it. -/
def exBP5 : BPFun Nat ℚ :=
  match BP.create exState5 exBPState5 0 with
  | .ok bp => bp
  | .error _ => ⟨exState5, exBPState5, [], 0, [], 0⟩

theorem exBP5_create : BP.create exState5 exBPState5 0 = .ok exBP5 := rfl

end PGMax
