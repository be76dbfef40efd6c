import Verif.Lemmas.Example

/-! # A concrete graph with variables of 2 and 3 states -/

namespace PGMax

/-- Two variables with 2 and 3 states. -/
def exVars3 : List (VGroup Nat) := [.arr ⟨1000000000, [2], [2, 3]⟩]

/-- One enumeration factor on them, with three configurations. -/
def exHist3 : List (AddArg ℚ) := [.one ⟨5, .enum, .enumGroup, [[⟨1000000000, 2⟩, ⟨1000000001, 3⟩]], ⟨2, [[0, 0], [0, 2], [1, 1]]⟩, [0, 0, 0]⟩]

/-- Its compiled state. -/
def exState3 : FGState Nat ℚ :=
  match (graphOf exVars3 exHist3).fgState 0 with
  | .ok st => st
  | .error _ => ⟨[], fun _ => none, 0, 0, fun _ => (0, 0), fun _ => (0, 0), fun _ => none, [],
      ⟨⟨[], [], []⟩, ⟨[], [], [], [], 1⟩, ⟨[], [], [], [], 1⟩⟩⟩

theorem exState3_compiled : Compiled exVars3 exHist3 0 exState3 where
  vgroups := {
    built := by
      simp only [exVars3, List.mem_cons, List.not_mem_nil, or_false, forall_eq]
      exact ⟨1, .arr (ns := .array ⟨[2], [2, 3]⟩) (shape := [2]) (by intro a h; cases h; rfl) (by decide)⟩
    distinct := by simp [exVars3] }
  valid := by
    simp only [exHist3, List.mem_cons, List.not_mem_nil, or_false, forall_eq, AddArg.flat]
    refine ⟨by decide, by decide, fun _ => ⟨by decide, by decide, by decide, ?_, by rfl⟩, fun h => absurd rfl h⟩
    intro vs hvs r hr
    simp only [List.mem_cons, List.not_mem_nil, or_false] at hvs hr
    subst hvs
    rcases hr with rfl | rfl | rfl <;> simp
  ids := by
    have e : FType.all.flatMap (graphOf exVars3 exHist3).groups = [
      ⟨5, .enum, .enumGroup, [[⟨1000000000, 2⟩, ⟨1000000001, 3⟩]], ⟨2, [[0, 0], [0, 2], [1, 1]]⟩, [0, 0, 0]⟩] := by rfl
    rw [e]
    intro g hg k hk hid
    rw [List.mem_singleton.1 hg, List.mem_singleton.1 hk]
  compiled := rfl

/-- The default BP state of the graph. -/
def exBPState3 : BPState ℚ :=
  match bpStateOf 1 exState3 with
  | .ok s => s
  | .error _ => ⟨⟨0, []⟩, ⟨0, []⟩, ⟨0, []⟩⟩

/-- Max-product belief propagation on it. -/
def exBP3 : BPFun Nat ℚ :=
  match BP.create exState3 exBPState3 0 with
  | .ok bp => bp
  | .error _ => ⟨exState3, exBPState3, [], 0, [], 0⟩

theorem exBP3_create : BP.create exState3 exBPState3 0 = .ok exBP3 := rfl

end PGMax
