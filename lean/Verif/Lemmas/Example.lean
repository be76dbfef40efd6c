import Verif.Props.C23_C25
import Verif.Props.C26
import Mathlib.Data.Real.Basic

/-! # A concrete graph with belief propagation set up, used by the non-vacuity examples

The graph of `exHist`: three binary variables, an enumeration group of two factors, an OR factor and an AND factor. -/

namespace PGMax

/-- No transcendental functions are needed at temperature 0. -/
def exEnv : Env ℚ := ⟨id, id, 0, false⟩

/-- The default BP state of the graph. -/
def exBPState : BPState ℚ :=
  match bpStateOf 1 exState with
  | .ok s => s
  | .error _ => ⟨⟨0, []⟩, ⟨0, []⟩, ⟨0, []⟩⟩

/-- Max-product belief propagation on it. -/
def exBP : BPFun Nat ℚ :=
  match BP.create exState exBPState 0 with
  | .ok bp => bp
  | .error _ => ⟨exState, exBPState, [], 0, [], 0⟩

theorem exBP_create : BP.create exState exBPState 0 = .ok exBP := rfl

example : bpStateOf 1 exState = .ok exBPState := rfl

/-- The same graph with real log potentials. -/
def exHistR : List (AddArg ℝ) := [.one ⟨5, .enum, .enumGroup, [[exVar 0, exVar 1], [exVar 1, exVar 2]], ⟨2, [[0, 0], [1, 1]]⟩, [0, 0, 0, 0]⟩,
  .one ⟨6, .or, .single, [[exVar 0, exVar 1]], ⟨0, []⟩, []⟩,
  .list [.one ⟨7, .and, .single, [[exVar 1, exVar 0, exVar 2]], ⟨0, []⟩, []⟩]]

/-- Its compiled state. -/
noncomputable def exStateR : FGState Nat ℝ :=
  match (graphOf exVars exHistR).fgState 0 with
  | .ok st => st
  | .error _ => ⟨[], fun _ => none, 0, 0, fun _ => (0, 0), fun _ => (0, 0), fun _ => none, [],
      ⟨⟨[], [], []⟩, ⟨[], [], [], [], 1⟩, ⟨[], [], [], [], 1⟩⟩⟩

theorem exStateR_compiled : Compiled exVars exHistR 0 exStateR where
  vgroups := exVars_ok
  valid := by
    simp only [exHistR, List.mem_cons, List.not_mem_nil, or_false, forall_eq_or_imp, forall_eq, AddArg.flat, AddArg.flatList,
      List.append_nil]
    refine ⟨?_, ?_, ?_⟩
    · refine ⟨by decide, by decide, fun _ => ⟨by decide, by decide, by decide, ?_, by rfl⟩, fun h => absurd rfl h⟩
      intro vs hvs r hr
      simp only [List.mem_cons, List.not_mem_nil, or_false] at hvs hr
      rcases hvs with rfl | rfl <;> rcases hr with rfl | rfl <;> simp [exVar]
    · exact ⟨by decide, by decide, (fun h => by cases h), fun _ => ⟨rfl, by unfold LogicalScope; decide⟩⟩
    · exact ⟨by decide, by decide, (fun h => by cases h), fun _ => ⟨rfl, by unfold LogicalScope; decide⟩⟩
  ids := by
    have e : FType.all.flatMap (graphOf exVars exHistR).groups = [
      ⟨5, .enum, .enumGroup, [[exVar 0, exVar 1], [exVar 1, exVar 2]], ⟨2, [[0, 0], [1, 1]]⟩, [0, 0, 0, 0]⟩,
      ⟨6, .or, .single, [[exVar 0, exVar 1]], ⟨0, []⟩, []⟩, ⟨7, .and, .single, [[exVar 1, exVar 0, exVar 2]], ⟨0, []⟩, []⟩] := by rfl
    rw [e]
    intro g hg k hk hid
    simp only [List.mem_cons, List.not_mem_nil, or_false] at hg hk
    rcases hg with rfl | rfl | rfl <;> rcases hk with rfl | rfl | rfl <;> first | rfl | (simp at hid)
  compiled := rfl

/-- The default BP state of the graph. -/
noncomputable def exBPStateR : BPState ℝ :=
  match bpStateOf 1 exStateR with
  | .ok s => s
  | .error _ => ⟨⟨0, []⟩, ⟨0, []⟩, ⟨0, []⟩⟩

/-- Belief propagation at temperature `T` on it. -/
noncomputable def exBPR (T : ℝ) : BPFun Nat ℝ :=
  match BP.create exStateR exBPStateR T with
  | .ok bp => bp
  | .error _ => ⟨exStateR, exBPStateR, [], 0, [], 0⟩

theorem exBPR_create (T : ℝ) : BP.create exStateR exBPStateR T = .ok (exBPR T) := rfl

/-- Non-vacuity of C26: `v1` has four edges; its message to factor 0. -/
example : (graphOf exVars exHist).allScopes = [[exVar 0, exVar 1], [exVar 1, exVar 2], [exVar 0, exVar 1], [exVar 1, exVar 0, exVar 2]] ∧
    exState.numVarStates = 6 ∧
    passVarToFac exEnv ((List.range 18).map (fun (k : Nat) => (k : ℚ))) [100, 200, 300, 400, 500, 600] exBP.varStatesForEdges
      = [122, 224, 326, 429, 324, 427, 516, 617, 114, 216, 318, 421, 316, 419, 108, 210, 506, 607] := by
  exact ⟨by rfl, by rfl, by decide +kernel⟩

end PGMax
