import Verif.Lemmas.Example

/-! # A concrete graph with two connected components -/

namespace PGMax

/-- Four binary variables. -/
def exVars4 : List (VGroup Nat) := [.arr ⟨2000000000, [4], [2, 2, 2, 2]⟩]

/-- The `i`-th of them. -/
def exVar4 (i : Nat) : Var := ⟨2000000000 + i, 2⟩

/-- An enumeration factor on the first two variables, an OR factor on the last two. -/
def exHist4 : List (AddArg ℚ) := [.one ⟨5, .enum, .enumGroup, [[exVar4 0, exVar4 1]], ⟨2, [[0, 0], [0, 1], [1, 1]]⟩, [0, 0, 0]⟩,
  .one ⟨6, .or, .single, [[exVar4 2, exVar4 3]], ⟨0, []⟩, []⟩]

/-- Its compiled state. -/
def exState4 : FGState Nat ℚ :=
  match (graphOf exVars4 exHist4).fgState 0 with
  | .ok st => st
  | .error _ => ⟨[], fun _ => none, 0, 0, fun _ => (0, 0), fun _ => (0, 0), fun _ => none, [],
      ⟨⟨[], [], []⟩, ⟨[], [], [], [], 1⟩, ⟨[], [], [], [], 1⟩⟩⟩

theorem exState4_compiled : Compiled exVars4 exHist4 0 exState4 where
  vgroups := {
    built := by
      simp only [exVars4, List.mem_cons, List.not_mem_nil, or_false, forall_eq]
      exact ⟨2, .arr (ns := .array ⟨[4], [2, 2, 2, 2]⟩) (shape := [4]) (by intro a h; cases h; rfl) (by decide)⟩
    distinct := by simp [exVars4] }
  valid := by
    simp only [exHist4, List.mem_cons, List.not_mem_nil, or_false, forall_eq_or_imp, forall_eq, AddArg.flat]
    refine ⟨⟨by decide, by decide, fun _ => ⟨by decide, by decide, by decide, ?_, by rfl⟩, fun h => absurd rfl h⟩, ?_⟩
    · intro vs hvs r hr
      simp only [List.mem_cons, List.not_mem_nil, or_false] at hvs hr
      subst hvs
      rcases hr with rfl | rfl | rfl <;> simp [exVar4]
    · exact ⟨by decide, by decide, (fun h => by cases h), fun _ => ⟨rfl, by unfold LogicalScope; decide⟩⟩
  ids := by
    have e : FType.all.flatMap (graphOf exVars4 exHist4).groups = [
      ⟨5, .enum, .enumGroup, [[exVar4 0, exVar4 1]], ⟨2, [[0, 0], [0, 1], [1, 1]]⟩, [0, 0, 0]⟩,
      ⟨6, .or, .single, [[exVar4 2, exVar4 3]], ⟨0, []⟩, []⟩] := by rfl
    rw [e]
    intro g hg k hk hid
    simp only [List.mem_cons, List.not_mem_nil, or_false] at hg hk
    rcases hg with rfl | rfl <;> rcases hk with rfl | rfl <;> first | rfl | (simp at hid)
  compiled := rfl

/-- The default BP state of the graph. -/
def exBPState4 : BPState ℚ :=
  match bpStateOf 1 exState4 with
  | .ok s => s
  | .error _ => ⟨⟨0, []⟩, ⟨0, []⟩, ⟨0, []⟩⟩

/-- Max-product belief propagation on it. -/
def exBP4 : BPFun Nat ℚ :=
  match BP.create exState4 exBPState4 0 with
  | .ok bp => bp
  | .error _ => ⟨exState4, exBPState4, [], 0, [], 0⟩

theorem exBP4_create : BP.create exState4 exBPState4 0 = .ok exBP4 := rfl

end PGMax
