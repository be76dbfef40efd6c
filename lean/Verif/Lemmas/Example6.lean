import Verif.Lemmas.Example

/-! # A graph with the factors of `exHist`, grouped and listed differently, over a different list of variable groups -/

namespace PGMax

/-- One more variable group in front. -/
def exVars6 : List (VGroup Nat) := .arr ⟨2000000000, [1], [3]⟩ :: exVars

theorem exVars6_ok : VGroupsOk exVars6 where
  built := by
    intro g hg
    rcases List.mem_cons.1 hg with rfl | hg
    · exact ⟨2, .arr (ns := .array ⟨[1], [3]⟩) (shape := [1]) (by intro a h; cases h; rfl) (by decide)⟩
    · exact exVars_ok.built g hg
  distinct := by
    refine List.pairwise_cons.2 ⟨by decide, exVars_ok.distinct⟩

/-- The enumeration factors one by one, the configurations of the second in another order. -/
def exHist6 : List (AddArg ℚ) := [.one ⟨8, .enum, .single, [[exVar 0, exVar 1]], ⟨2, [[0, 0], [1, 1]]⟩, [0, 0]⟩,
  .one ⟨9, .enum, .single, [[exVar 1, exVar 2]], ⟨2, [[1, 1], [0, 0]]⟩, [0, 0]⟩,
  .one ⟨6, .or, .single, [[exVar 0, exVar 1]], ⟨0, []⟩, []⟩,
  .one ⟨7, .and, .single, [[exVar 1, exVar 0, exVar 2]], ⟨0, []⟩, []⟩]

/-- Its compiled state. -/
def exState6 : FGState Nat ℚ :=
  match (graphOf exVars6 exHist6).fgState 0 with
  | .ok st => st
  | .error _ => ⟨[], fun _ => none, 0, 0, fun _ => (0, 0), fun _ => (0, 0), fun _ => none, [],
      ⟨⟨[], [], []⟩, ⟨[], [], [], [], 1⟩, ⟨[], [], [], [], 1⟩⟩⟩

theorem exState6_compiled : Compiled exVars6 exHist6 0 exState6 where
  vgroups := exVars6_ok
  valid := by
    simp only [exHist6, List.mem_cons, List.not_mem_nil, or_false, forall_eq_or_imp, forall_eq, AddArg.flat]
    refine ⟨?_, ?_, ?_, ?_⟩
    · refine ⟨by decide, by decide, fun _ => ⟨by decide, by decide, by decide, ?_, by rfl⟩, fun h => absurd rfl h⟩
      intro vs hvs r hr
      simp only [List.mem_cons, List.not_mem_nil, or_false] at hvs hr
      subst hvs
      rcases hr with rfl | rfl <;> simp [exVar]
    · refine ⟨by decide, by decide, fun _ => ⟨by decide, by decide, by decide, ?_, by rfl⟩, fun h => absurd rfl h⟩
      intro vs hvs r hr
      simp only [List.mem_cons, List.not_mem_nil, or_false] at hvs hr
      subst hvs
      rcases hr with rfl | rfl <;> simp [exVar]
    · exact ⟨by decide, by decide, (fun h => by cases h), fun _ => ⟨rfl, by unfold LogicalScope; decide⟩⟩
    · exact ⟨by decide, by decide, (fun h => by cases h), fun _ => ⟨rfl, by unfold LogicalScope; decide⟩⟩
  ids := by
    have e : FType.all.flatMap (graphOf exVars6 exHist6).groups = [
      ⟨8, .enum, .single, [[exVar 0, exVar 1]], ⟨2, [[0, 0], [1, 1]]⟩, [0, 0]⟩,
      ⟨9, .enum, .single, [[exVar 1, exVar 2]], ⟨2, [[1, 1], [0, 0]]⟩, [0, 0]⟩,
      ⟨6, .or, .single, [[exVar 0, exVar 1]], ⟨0, []⟩, []⟩, ⟨7, .and, .single, [[exVar 1, exVar 0, exVar 2]], ⟨0, []⟩, []⟩] := by rfl
    rw [e]
    intro g hg k hk hid
    simp only [List.mem_cons, List.not_mem_nil, or_false] at hg hk
    rcases hg with rfl | rfl | rfl | rfl <;> rcases hk with rfl | rfl | rfl | rfl <;> first | rfl | (simp at hid)
  compiled := rfl

/-- Belief propagation at temperature `T` on it. -/
def exBP6 (T : ℚ) : BPFun Nat ℚ :=
  match BP.create exState6 exBPState T with
  | .ok bp => bp
  | .error _ => ⟨exState6, exBPState, [], 0, [], 0⟩

theorem exBP6_create (T : ℚ) : BP.create exState6 exBPState T = .ok (exBP6 T) := rfl

end PGMax
