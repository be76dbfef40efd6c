import Verif.Lemmas.Cache
import Verif.Props.C13_C18
import Mathlib.Logic.Encodable.Basic
import Mathlib.Logic.Equiv.List
import Mathlib.Data.Rat.Defs

/-!
# C12: a compiled state is never stale

Full statement: for every interleaving of constructions, `add_factors`, `compute_offsets`, `fg_state` and `bp_state` calls
on any number of graphs, `fg_state` and `bp_state` return what compiling the graph from scratch gives.

The full statement is false: `compute_offsets` is memoised across graphs although its effect is on the graph it is
called on (`C12_refuted_attribute`, `C12_refuted_stale`).  `C12_partial` proves it for all interleavings that are
`Disciplined`; the two extreme cases are `C12_exclusive_partial` (no two graphs made from equal lists of variable groups:
nothing else is required) and `C12_shared_partial` (no direct `compute_offsets` calls, and only graphs that compile are
queried: nothing else is required).

All need `Faithful`: hashes and ids identify what they stand for.
-/

namespace PGMax

variable {κ α : Type _} [Field α] [LinearOrder α]

/-- C12 for disciplined interleavings. -/
theorem C12_partial (H : List Nat → Nat) (garbage : Garbage) (P : List Nat → Prop) (calls : List (Call κ α))
    (hF : Faithful H calls) (hD : Disciplined garbage P calls) (i : Nat) (b : Built κ α)
    (hb : (builtBy calls)[i]? = some b) :
    ((World.after H garbage calls).fgState H garbage i).2.map (·.2) = b.graph.fgState garbage ∧
    ∃ id, ((World.after H garbage calls).bpState H garbage i).2 = (b.graph.fgState garbage).bind (bpStateOf id) := by
  have hI := inv_after hF hD calls (List.prefix_refl _)
  have hR := hI.ready i b hb
  obtain ⟨-, -, -, h1⟩ := fgState_spec hF (List.prefix_refl _) hI.base hb hR
  obtain ⟨-, -, -, h2⟩ := bpState_spec hF (List.prefix_refl _) hI.base hb hR
  constructor
  · rcases h1 with ⟨e, he, hr⟩ | ⟨st, id, hst, hr, -⟩
    · rw [he, hr]; rfl
    · rw [hst, hr]; rfl
  · rcases h2 with ⟨e, he, hr⟩ | ⟨st, id, hst, hr, -⟩
    · exact ⟨0, by rw [he, hr]; rfl⟩
    · exact ⟨id, by rw [hst, hr]; rfl⟩

/-- C12 when no two graphs are made from equal lists of variable groups: any calls in any order, including direct calls
of `compute_offsets` and calls that raise. -/
theorem C12_exclusive_partial (H : List Nat → Nat) (garbage : Garbage) (calls : List (Call κ α)) (hF : Faithful H calls)
    (hX : ((builtBy calls).map Built.vgHashes).Nodup) (i : Nat) (b : Built κ α)
    (hb : (builtBy calls)[i]? = some b) :
    ((World.after H garbage calls).fgState H garbage i).2.map (·.2) = b.graph.fgState garbage ∧
    ∃ id, ((World.after H garbage calls).bpState H garbage i).2 = (b.graph.fgState garbage).bind (bpStateOf id) := by
  refine C12_partial H garbage (fun _ => True) calls hF ⟨?_, fun _ _ _ _ _ _ h => absurd trivial h⟩ i b hb
  intro i j b c hb hc hv _
  have h1 : ((builtBy calls).map Built.vgHashes)[i]? = some b.vgHashes := by simp [hb]
  have h2 : ((builtBy calls).map Built.vgHashes)[j]? = some b.vgHashes := by simp [hc, hv]
  have hi : i < ((builtBy calls).map Built.vgHashes).length := by
    by_contra hn
    rw [List.getElem?_eq_none (by omega)] at h1
    cases h1
  exact (List.getElem?_inj hi hX).1 (h1.trans h2.symm)

/-- C12 for any number of graphs sharing variable groups and factor groups, when `compute_offsets` is not called directly
and only graphs that compile are queried. -/
theorem C12_shared_partial (H : List Nat → Nat) (garbage : Garbage) (calls : List (Call κ α)) (hF : Faithful H calls)
    (hX : ∀ i, Call.computeOffsets i ∉ calls)
    (hC : ∀ p c, p ++ [c] <+: calls → ∀ (i : Nat) (b : Built κ α), (builtBy p)[i]? = some b →
      c = .fgState i ∨ c = .bpState i → ∃ st, b.graph.fgState garbage = .ok st)
    (i : Nat) (b : Built κ α) (hb : (builtBy calls)[i]? = some b) :
    ((World.after H garbage calls).fgState H garbage i).2.map (·.2) = b.graph.fgState garbage ∧
    ∃ id, ((World.after H garbage calls).bpState H garbage i).2 = (b.graph.fgState garbage).bind (bpStateOf id) := by
  refine C12_partial H garbage (fun _ => False) calls hF ⟨fun _ _ _ _ _ _ _ h => h.elim, ?_⟩ i b hb
  intro p c hp i b hb _
  refine ⟨?_, hC p c hp i b hb⟩
  rintro rfl
  refine hX i (hp.mem ?_)
  simp

/-! ### The full statement is false -/

/-- A collision-free hash of tuples of ids. -/
def exH : List Nat → Nat := Encodable.encode

theorem exH_inj : Function.Injective exH := Encodable.encode_injective

/-- A factor group over `v0`, `v1` and one over `v1`, `v2`. -/
def exG1 : FGroup ℚ := exGroup 5 [[exVar 0, exVar 1]]
/-- See `exG1`. -/
def exG2 : FGroup ℚ := exGroup 6 [[exVar 1, exVar 2]]

/-- Two graphs over the same variables; the offsets of the first are computed. -/
def exCalls1 : List (Call Nat ℚ) := [.new exVars, .new exVars, .computeOffsets 0]

/-- The second graph is compiled with one factor group and gets another; the first gets both, and its offsets are
computed. -/
def exCalls2 : List (Call Nat ℚ) := [.new exVars, .new exVars, .add 1 (.one exG1), .fgState 1, .add 1 (.one exG2),
  .add 0 (.one exG1), .add 0 (.one exG2), .computeOffsets 0]

/-- One graph, with direct calls of `compute_offsets`. -/
def exCalls4 : List (Call Nat ℚ) := [.new exVars, .computeOffsets 0, .add 0 (.one exG1), .fgState 0, .add 0 (.one exG2),
  .computeOffsets 0]

/-- Both graphs are used for inference while factors are added. -/
def exCalls3 : List (Call Nat ℚ) := [.new exVars, .new exVars, .add 0 (.one exG1), .bpState 0, .add 1 (.one exG1),
  .fgState 1, .add 1 (.one exG2), .fgState 1, .fgState 0]

/-- What can be built by these calls. -/
def exBuilt (b : Built Nat ℚ) : Prop :=
  b.vgs = exVars ∧ (b.hist = [] ∨ b.hist = [.one exG1] ∨ b.hist = [.one exG1, .one exG2])

theorem exBuilt_groups (b : Built Nat ℚ) (h : exBuilt b) (t : FType) : ∀ g ∈ b.graph.groups t, g = exG1 ∨ g = exG2 := by
  obtain ⟨v, hi⟩ := b
  obtain ⟨h1, h2⟩ := h
  simp only at h1 h2
  subst h1
  rcases h2 with rfl | rfl | rfl
  · intro g hg
    cases t <;> exact absurd hg (by simp [Built.graph, graphOf, FactorGraph.addHistory, FactorGraph.create])
  · intro g hg
    have e : (Built.graph ⟨exVars, [.one exG1]⟩ : FactorGraph Nat ℚ).groups =
        Function.update (fun _ => []) FType.enum [exG1] := rfl
    rw [e] at hg
    cases t <;> simp at hg
    exact Or.inl hg
  · intro g hg
    have e : (Built.graph ⟨exVars, [.one exG1, .one exG2]⟩ : FactorGraph Nat ℚ).groups =
        Function.update (Function.update (fun _ => []) FType.enum [exG1]) FType.enum [exG1, exG2] := rfl
    rw [e] at hg
    cases t <;> simp at hg
    exact hg

theorem faithful_of_exBuilt (calls : List (Call Nat ℚ)) (h : ∀ b, Occurs calls b → exBuilt b) : Faithful exH calls where
  tuples := fun b c _ _ e => exH_inj e
  vgroups := fun b c hb hc _ => by rw [(h b hb).1, (h c hc).1]
  groups := fun b c hb hc t u g hg k hk hid => by
    rcases exBuilt_groups b (h b hb) t g hg with rfl | rfl <;> rcases exBuilt_groups c (h c hc) u k hk with rfl | rfl <;>
      first | rfl | exact absurd hid (by decide)

theorem occurs_iff (calls : List (Call Nat ℚ)) (b : Built Nat ℚ) :
    Occurs calls b ↔ ∃ p ∈ calls.inits, b ∈ builtBy p := by
  simp [Occurs, List.mem_inits]

theorem exCalls1_faithful : Faithful exH exCalls1 := by
  refine faithful_of_exBuilt _ fun b hb => ?_
  rw [occurs_iff] at hb
  simp [exCalls1, builtBy] at hb
  simp [exBuilt, hb]

theorem exCalls2_faithful : Faithful exH exCalls2 := by
  refine faithful_of_exBuilt _ fun b hb => ?_
  rw [occurs_iff] at hb
  simp [exCalls2, builtBy] at hb
  have : b = ⟨exVars, []⟩ ∨ b = ⟨exVars, [.one exG1]⟩ ∨ b = ⟨exVars, [.one exG1, .one exG2]⟩ := by tauto
  rcases this with rfl | rfl | rfl <;> simp [exBuilt]

theorem exCalls4_faithful : Faithful exH exCalls4 := by
  refine faithful_of_exBuilt _ fun b hb => ?_
  rw [occurs_iff] at hb
  simp [exCalls4, builtBy] at hb
  have : b = ⟨exVars, []⟩ ∨ b = ⟨exVars, [.one exG1]⟩ ∨ b = ⟨exVars, [.one exG1, .one exG2]⟩ := by tauto
  rcases this with rfl | rfl | rfl <;> simp [exBuilt]

theorem exBuilt_compiles (b : Built Nat ℚ) (h : exBuilt b) : ∃ st, b.graph.fgState 0 = .ok st := by
  obtain ⟨v, hi⟩ := b
  obtain ⟨h1, h2⟩ := h
  simp only at h1 h2
  subst h1
  rcases h2 with rfl | rfl | rfl <;> exact ⟨_, rfl⟩

theorem exCalls3_faithful : Faithful exH exCalls3 := by
  refine faithful_of_exBuilt _ fun b hb => ?_
  rw [occurs_iff] at hb
  simp [exCalls3, builtBy] at hb
  have : b = ⟨exVars, []⟩ ∨ b = ⟨exVars, [.one exG1]⟩ ∨ b = ⟨exVars, [.one exG1, .one exG2]⟩ := by tauto
  rcases this with rfl | rfl | rfl <;> simp [exBuilt]

/-- The full statement fails with an exception: after `A.compute_offsets()`, `B.fg_state` raises an `AttributeError` for a
graph `B` over the same variables, although `B` compiles. -/
theorem C12_refuted_attribute : Faithful exH exCalls1 ∧ (builtBy exCalls1)[1]? = some ⟨exVars, []⟩ ∧
    (∃ st, (Built.graph ⟨exVars, []⟩ : FactorGraph Nat ℚ).fgState 0 = .ok st) ∧
    ((World.after exH 0 exCalls1).fgState exH 0 1).2.map (·.2) = .error .attributeError :=
  ⟨exCalls1_faithful, rfl, ⟨_, rfl⟩, rfl⟩

/-- The full statement fails silently: `B.fg_state` describes the sizes of the graph before the last `add_factors`. -/
theorem C12_refuted_stale : Faithful exH exCalls2 ∧
    (builtBy exCalls2)[1]? = some ⟨exVars, [.one exG1, .one exG2]⟩ ∧
    (∃ st, (Built.graph ⟨exVars, [.one exG1, .one exG2]⟩ : FactorGraph Nat ℚ).fgState 0 = .ok st ∧
      st.totalFactorNumStates = 8) ∧
    ∃ st, ((World.after exH 0 exCalls2).fgState exH 0 1).2.map (·.2) = .ok st ∧
      st.totalFactorNumStates = 4 ∧ st.logPotentials.length = 4 ∧ st.groupToPotsStart 6 = none :=
  ⟨exCalls2_faithful, rfl, ⟨_, rfl, rfl⟩, ⟨_, rfl, rfl, rfl, rfl⟩⟩

/-- Non-vacuity of `C12_shared_partial`: two graphs sharing variables and factor groups. -/
example : Faithful exH exCalls3 ∧ (∀ i, Call.computeOffsets i ∉ exCalls3) ∧
    (∀ p c, p ++ [c] <+: exCalls3 → ∀ (i : Nat) (b : Built Nat ℚ), (builtBy p)[i]? = some b →
      c = .fgState i ∨ c = .bpState i → ∃ st, b.graph.fgState 0 = .ok st) ∧
    (builtBy exCalls3)[1]? = some ⟨exVars, [.one exG1, .one exG2]⟩ ∧
    ∃ st, ((World.after exH 0 exCalls3).fgState exH 0 1).2.map (·.2) = .ok st ∧ st.totalFactorNumStates = 8 := by
  refine ⟨exCalls3_faithful, by simp [exCalls3], ?_, rfl, ⟨_, rfl, rfl⟩⟩
  intro p c hp i b hb _
  refine exBuilt_compiles b ?_
  have hb : Occurs exCalls3 b := ⟨p, (List.prefix_append _ _).trans hp, List.mem_of_getElem? hb⟩
  rw [occurs_iff] at hb
  simp [exCalls3, builtBy] at hb
  have : b = ⟨exVars, []⟩ ∨ b = ⟨exVars, [.one exG1]⟩ ∨ b = ⟨exVars, [.one exG1, .one exG2]⟩ := by tauto
  rcases this with rfl | rfl | rfl <;> simp [exBuilt]

/-- Non-vacuity of `C12_exclusive_partial`: one graph with direct calls of `compute_offsets`. -/
example : Faithful exH exCalls4 ∧ ((builtBy exCalls4).map Built.vgHashes).Nodup ∧
    (builtBy exCalls4)[0]? = some ⟨exVars, [.one exG1, .one exG2]⟩ ∧
    ∃ st, ((World.after exH 0 exCalls4).fgState exH 0 0).2.map (·.2) = .ok st ∧ st.totalFactorNumStates = 8 :=
  ⟨exCalls4_faithful, by decide, rfl, ⟨_, rfl, rfl⟩⟩

end PGMax
