import Verif.Lemmas.Fixed
import Verif.Props.C63

/-! # C64: what max-product belief propagation decodes when it has come to rest -/

namespace PGMax

section
variable {κ α : Type _} [Field α] [LinearOrder α] [IsStrictOrderedRing α] {vgs : List (VGroup κ)} {hist : List (AddArg α)} {garbage : Garbage} {st : FGState κ α}

/-- **C64.** On any graph of factors of any type, with or without loops, at temperature 0 and for moderate numbers: if the messages do not change in the `n + 1`-st iteration, every
variable has one state `x v` whose belief is larger than that of its other states, and the messages to these states are not clipped, then `decode_map_states` returns `x`,
`x` satisfies all factors, and no assignment that differs from `x` on variables that have, together with their factors, at most one loop in each component, has a larger score. -/
theorem C64 [DecidableEq κ] (h : Compiled vgs hist garbage st) {state : BPState α} {bp : BPFun κ α} (hbp : BP.create st state 0 = .ok bp)
    (env : Env α) (hfit : Fits env (graphOf vgs hist) (0 : α)) (a : BPArrays α) (n : Nat) (d : α) (hd : d < 1)
    (hlp : a.logPotentials.length = st.logPotentials.length) (hev : a.evidence.length = st.numVarStates) (hm : a.ftovMsgs.length = st.totalFactorNumStates)
    (hmod : Moderate (graphOf vgs hist) a.logPotentials (readEv st.varsToStarts a.evidence) d)
    (hlmod : LogicalModerate (graphOf vgs hist) (readEv st.varsToStarts a.evidence))
    (hinit : ∀ f i v, IsEdge (graphOf vgs hist).allScopes f i v → ∃ s < v.n, -100000 ≤ readMsgs (graphOf vgs hist).allScopes a.ftovMsgs f i s)
    (hreg : ∀ g ∈ vgs, g.Regular) (hst : ∀ g ∈ vgs, g.Stated)
    (hrest : (bp.runBP env a (n + 1) d).ftovMsgs = (bp.runBP env a n d).ftovMsgs) (x : Var → Nat)
    (hx : ∀ v ∈ graphVars vgs, x v < v.n ∧ ∀ s < v.n, s ≠ x v →
      beliefOf (graphOf vgs hist).allScopes (readEv st.varsToStarts a.evidence) (readMsgs (graphOf vgs hist).allScopes (bp.runBP env a n d).ftovMsgs) v s <
        beliefOf (graphOf vgs hist).allScopes (readEv st.varsToStarts a.evidence) (readMsgs (graphOf vgs hist).allScopes (bp.runBP env a n d).ftovMsgs) v (x v))
    (hclip : ∀ f i v, IsEdge (graphOf vgs hist).allScopes f i v → -1000 < readMsgs (graphOf vgs hist).allScopes (bp.runBP env a n d).ftovMsgs f i (x v)) :
    (∃ bs rs, bp.getBeliefs (bp.runBP env a n d) = .ok bs ∧ decodeMapStates bs = .ok rs ∧ rs.map (·.1) = vgs ∧ ∀ p ∈ rs, ∀ v ∈ p.1.variables, p.1.StateIn v (x v) p.2) ∧
    ∃ ρ, Joint (graphVars vgs) ((graphOf vgs hist).factors a.logPotentials) x ρ ∧
      ∀ x' ρ', Joint (graphVars vgs) ((graphOf vgs hist).factors a.logPotentials) x' ρ' → FewLoops (graphOf vgs hist).allScopes (fun v => x' v ≠ x v) →
        jointScore (graphVars vgs) ((graphOf vgs hist).factors a.logPotentials) (readEv st.varsToStarts a.evidence) x' ρ' ≤
          jointScore (graphVars vgs) ((graphOf vgs hist).factors a.logPotentials) (readEv st.varsToStarts a.evidence) x ρ := by
  refine ⟨h.decode_states hbp _ (h.run_read hbp env hfit a d hlp hev n hm).1 hev hreg hst (fun v hv => ⟨(hx v hv).1, fun s hs => ?_, fun s hs => ?_⟩), ?_⟩
  · by_cases e : s = x v
    · rw [e]
    · exact ((hx v hv).2 s hs e).le
  · exact (hx v hv).2 s (hs.trans (hx v hv).1) hs.ne
  · have hsc := (graphOf vgs hist).factors_scopes a.logPotentials
    have h1 := C37_partial h hbp env hfit a n d hlp hev hm hmod hlmod hinit
    have h2 := C37_partial h hbp env hfit a (n + 1) d hlp hev hm hmod hlmod hinit
    rw [hrest] at h2
    have hvars : ∀ F ∈ (graphOf vgs hist).factors a.logPotentials, ∀ v ∈ F.scope, v ∈ graphVars vgs := by
      intro F hF v hv
      obtain ⟨s, hs⟩ := h.scopeVars F.scope (by rw [← hsc]; exact List.mem_map.2 ⟨F, hF, rfl⟩) v hv
      obtain ⟨i, hi, -⟩ := (h.starts_iff v s).1 hs
      exact List.mem_toFinset.2 (List.mem_of_getElem? hi)
    have key := fixed_optimal (factors := (graphOf vgs hist).factors a.logPotentials) (ev := readEv st.varsToStarts a.evidence) (d := d) hd
      (m := readMsgs (graphOf vgs hist).allScopes (bp.runBP env a n d).ftovMsgs)
      (fun F hF => h.scopes_ne _ (by rw [← hsc]; exact List.mem_map.2 ⟨F, hF, rfl⟩))
      (fun F hF => by
        obtain ⟨f, hf⟩ := List.mem_iff_getElem?.1 hF
        exact h.rowsFit a.logPotentials hf) hvars (x := x)
      (by
        rw [hsc]
        intro f i v s he hs
        rw [h2 f i v s he hs]
        exact h.tbStep_congr a.logPotentials _ d h1 f i v s he hs) (by rw [hsc]; exact hx) (by rw [hsc]; exact hclip)
    rw [hsc] at key
    exact key

/-- **C64, graphs with at most one loop in each component.** The decoded states are a MAP assignment. -/
theorem C64_map [DecidableEq κ] (h : Compiled vgs hist garbage st) {state : BPState α} {bp : BPFun κ α} (hbp : BP.create st state 0 = .ok bp)
    (env : Env α) (hfit : Fits env (graphOf vgs hist) (0 : α)) (a : BPArrays α) (n : Nat) (d : α) (hd : d < 1)
    (hlp : a.logPotentials.length = st.logPotentials.length) (hev : a.evidence.length = st.numVarStates) (hm : a.ftovMsgs.length = st.totalFactorNumStates)
    (hmod : Moderate (graphOf vgs hist) a.logPotentials (readEv st.varsToStarts a.evidence) d)
    (hlmod : LogicalModerate (graphOf vgs hist) (readEv st.varsToStarts a.evidence))
    (hinit : ∀ f i v, IsEdge (graphOf vgs hist).allScopes f i v → ∃ s < v.n, -100000 ≤ readMsgs (graphOf vgs hist).allScopes a.ftovMsgs f i s)
    (hreg : ∀ g ∈ vgs, g.Regular) (hst : ∀ g ∈ vgs, g.Stated)
    (hrest : (bp.runBP env a (n + 1) d).ftovMsgs = (bp.runBP env a n d).ftovMsgs) (x : Var → Nat)
    (hx : ∀ v ∈ graphVars vgs, x v < v.n ∧ ∀ s < v.n, s ≠ x v →
      beliefOf (graphOf vgs hist).allScopes (readEv st.varsToStarts a.evidence) (readMsgs (graphOf vgs hist).allScopes (bp.runBP env a n d).ftovMsgs) v s <
        beliefOf (graphOf vgs hist).allScopes (readEv st.varsToStarts a.evidence) (readMsgs (graphOf vgs hist).allScopes (bp.runBP env a n d).ftovMsgs) v (x v))
    (hclip : ∀ f i v, IsEdge (graphOf vgs hist).allScopes f i v → -1000 < readMsgs (graphOf vgs hist).allScopes (bp.runBP env a n d).ftovMsgs f i (x v))
    (hloop : FewLoops (graphOf vgs hist).allScopes (fun _ => True)) :
    (∃ bs rs, bp.getBeliefs (bp.runBP env a n d) = .ok bs ∧ decodeMapStates bs = .ok rs ∧ rs.map (·.1) = vgs ∧ ∀ p ∈ rs, ∀ v ∈ p.1.variables, p.1.StateIn v (x v) p.2) ∧
    ∃ ρ, IsMAP (graphVars vgs) ((graphOf vgs hist).factors a.logPotentials) (readEv st.varsToStarts a.evidence) x ρ := by
  obtain ⟨h1, ρ, h2, h3⟩ := C64 h hbp env hfit a n d hd hlp hev hm hmod hlmod hinit hreg hst hrest x hx hclip
  exact ⟨h1, ρ, h2, fun x' ρ' hJ => h3 x' ρ' hJ (hloop.mono fun _ _ => trivial)⟩

/-- **C64, one variable.** No graph has an assignment with a larger score that differs from the decoded states in one variable only. -/
theorem C64_local [DecidableEq κ] (h : Compiled vgs hist garbage st) {state : BPState α} {bp : BPFun κ α} (hbp : BP.create st state 0 = .ok bp)
    (env : Env α) (hfit : Fits env (graphOf vgs hist) (0 : α)) (a : BPArrays α) (n : Nat) (d : α) (hd : d < 1)
    (hlp : a.logPotentials.length = st.logPotentials.length) (hev : a.evidence.length = st.numVarStates) (hm : a.ftovMsgs.length = st.totalFactorNumStates)
    (hmod : Moderate (graphOf vgs hist) a.logPotentials (readEv st.varsToStarts a.evidence) d)
    (hlmod : LogicalModerate (graphOf vgs hist) (readEv st.varsToStarts a.evidence))
    (hinit : ∀ f i v, IsEdge (graphOf vgs hist).allScopes f i v → ∃ s < v.n, -100000 ≤ readMsgs (graphOf vgs hist).allScopes a.ftovMsgs f i s)
    (hreg : ∀ g ∈ vgs, g.Regular) (hst : ∀ g ∈ vgs, g.Stated)
    (hrest : (bp.runBP env a (n + 1) d).ftovMsgs = (bp.runBP env a n d).ftovMsgs) (x : Var → Nat)
    (hx : ∀ v ∈ graphVars vgs, x v < v.n ∧ ∀ s < v.n, s ≠ x v →
      beliefOf (graphOf vgs hist).allScopes (readEv st.varsToStarts a.evidence) (readMsgs (graphOf vgs hist).allScopes (bp.runBP env a n d).ftovMsgs) v s <
        beliefOf (graphOf vgs hist).allScopes (readEv st.varsToStarts a.evidence) (readMsgs (graphOf vgs hist).allScopes (bp.runBP env a n d).ftovMsgs) v (x v))
    (hclip : ∀ f i v, IsEdge (graphOf vgs hist).allScopes f i v → -1000 < readMsgs (graphOf vgs hist).allScopes (bp.runBP env a n d).ftovMsgs f i (x v))
    (hnd : ∀ vs ∈ (graphOf vgs hist).allScopes, vs.Nodup) :
    ∃ ρ, Joint (graphVars vgs) ((graphOf vgs hist).factors a.logPotentials) x ρ ∧
      ∀ x' ρ', Joint (graphVars vgs) ((graphOf vgs hist).factors a.logPotentials) x' ρ' → (∃ v, ∀ w, w ≠ v → x' w = x w) →
        jointScore (graphVars vgs) ((graphOf vgs hist).factors a.logPotentials) (readEv st.varsToStarts a.evidence) x' ρ' ≤
          jointScore (graphVars vgs) ((graphOf vgs hist).factors a.logPotentials) (readEv st.varsToStarts a.evidence) x ρ := by
  obtain ⟨-, ρ, h2, h3⟩ := C64 h hbp env hfit a n d hd hlp hev hm hmod hlmod hinit hreg hst hrest x hx hclip
  refine ⟨ρ, h2, fun x' ρ' hJ hv => h3 x' ρ' hJ ?_⟩
  obtain ⟨v, hv⟩ := hv
  exact (fewLoops_single hnd v).mono fun w hw => by_contra fun hne => hw (hv w hne)

end

/-! ## A graph with two loops on which the decoded states are not the best -/

/-- Four variables in a circle, and a factor across. -/
def exHistC : List (AddArg ℚ) := [.one ⟨5, .enum, .enumGroup, [[exVar5 0, exVar5 1], [exVar5 1, exVar5 2], [exVar5 2, exVar5 3], [exVar5 3, exVar5 0], [exVar5 0, exVar5 2]], ⟨2, exAll⟩,
  [2, 1, 1, 2, -2, 1, 2, 1, 0, 3, 3, 1, -3, -3, -3, 0, 1, -2, 3, -3]⟩]

/-- Its compiled state. -/
def exStateC : FGState Nat ℚ :=
  match (graphOf exVars5 exHistC).fgState 0 with
  | .ok st => st
  | .error _ => ⟨[], fun _ => none, 0, 0, fun _ => (0, 0), fun _ => (0, 0), fun _ => none, [],
      ⟨⟨[], [], []⟩, ⟨[], [], [], [], 1⟩, ⟨[], [], [], [], 1⟩⟩⟩

set_option maxRecDepth 4000 in
theorem exStateC_compiled : Compiled exVars5 exHistC 0 exStateC where
  vgroups := exState5_compiled.vgroups
  valid := by
    simp only [exHistC, List.mem_cons, List.not_mem_nil, or_false, forall_eq, AddArg.flat]
    refine ⟨by decide, by decide, fun _ => ⟨by decide, by decide, by decide, ?_, by rfl⟩, fun h => absurd rfl h⟩
    intro vs hvs r hr
    simp only [exAll, List.mem_cons, List.not_mem_nil, or_false] at hvs hr
    rcases hvs with rfl | rfl | rfl | rfl | rfl <;> rcases hr with rfl | rfl | rfl | rfl <;> simp [exVar5]
  ids := by
    have e : FType.all.flatMap (graphOf exVars5 exHistC).groups = [
      ⟨5, .enum, .enumGroup, [[exVar5 0, exVar5 1], [exVar5 1, exVar5 2], [exVar5 2, exVar5 3], [exVar5 3, exVar5 0], [exVar5 0, exVar5 2]], ⟨2, exAll⟩,
        [2, 1, 1, 2, -2, 1, 2, 1, 0, 3, 3, 1, -3, -3, -3, 0, 1, -2, 3, -3]⟩] := by rfl
    rw [e]
    intro g hg k hk _
    simp only [List.mem_cons, List.not_mem_nil, or_false] at hg hk
    rw [hg, hk]
  compiled := rfl

/-- Max-product belief propagation on it. -/
def exBPC : BPFun Nat ℚ :=
  match BP.create exStateC exBPState 0 with
  | .ok bp => bp
  | .error _ => ⟨exStateC, exBPState, [], 0, [], 0⟩

set_option maxRecDepth 4000 in
theorem exBPC_create : BP.create exStateC exBPState 0 = .ok exBPC := rfl

/-- Log potentials, messages and evidence. -/
def exArrC : BPArrays ℚ := ⟨[2, 1, 1, 2, -2, 1, 2, 1, 0, 3, 3, 1, -3, -3, -3, 0, 1, -2, 3, -3], List.replicate 20 0, [0, -3, 0, -2, 0, 0, 0, -3]⟩

/-- The decoded states. -/
def exDecC (v : Var) : Nat := if v = exVar5 2 then 1 else 0

/-- Better states. -/
def exBestC (v : Var) : Nat := if v = exVar5 2 then 0 else 1

theorem exFactorsC : (graphOf exVars5 exHistC).factors exArrC.logPotentials = [
    ⟨[exVar5 0, exVar5 1], [([0, 0], 2), ([0, 1], 1), ([1, 0], 1), ([1, 1], 2)]⟩, ⟨[exVar5 1, exVar5 2], [([0, 0], -2), ([0, 1], 1), ([1, 0], 2), ([1, 1], 1)]⟩,
    ⟨[exVar5 2, exVar5 3], [([0, 0], 0), ([0, 1], 3), ([1, 0], 3), ([1, 1], 1)]⟩, ⟨[exVar5 3, exVar5 0], [([0, 0], -3), ([0, 1], -3), ([1, 0], -3), ([1, 1], 0)]⟩,
    ⟨[exVar5 0, exVar5 2], [([0, 0], 1), ([0, 1], -2), ([1, 0], 3), ([1, 1], -3)]⟩] := rfl

theorem exScopesC : (graphOf exVars5 exHistC).allScopes =
    [[exVar5 0, exVar5 1], [exVar5 1, exVar5 2], [exVar5 2, exVar5 3], [exVar5 3, exVar5 0], [exVar5 0, exVar5 2]] := rfl

theorem exModerateC : Moderate (graphOf exVars5 exHistC) exArrC.logPotentials (readEv exStateC.varsToStarts exArrC.evidence) 0 := by
  refine moderate_of_bounds (E := 3) (P := 3) (D := 3) (K := 2) (by norm_num) ?_ ?_ (by norm_num) ?_ (by norm_num)
  · intro _ _ v s _ _
    unfold readEv List.getD
    cases e : exArrC.evidence[(exStateC.varsToStarts v).getD 0 + s]? with
    | none => norm_num
    | some x =>
      have hl : ∀ x ∈ exArrC.evidence, |x| ≤ 3 := by decide +kernel
      exact hl x (List.mem_of_getElem? e)
  · intro f i v he
    have hd : ∀ vs ∈ [[exVar5 0, exVar5 1], [exVar5 1, exVar5 2], [exVar5 2, exVar5 3], [exVar5 3, exVar5 0], [exVar5 0, exVar5 2]], ∀ v ∈ vs,
      (edgesOf [[exVar5 0, exVar5 1], [exVar5 1, exVar5 2], [exVar5 2, exVar5 3], [exVar5 3, exVar5 0], [exVar5 0, exVar5 2]] v).length ≤ 3 := by decide +kernel
    obtain ⟨vs, h1, h2⟩ := he
    rw [exScopesC] at h1 ⊢
    exact Nat.cast_le_ofNat.2 (hd vs (List.mem_of_getElem? h1) v (List.mem_of_getElem? h2))
  · have e : tableFacs (graphOf exVars5 exHistC).tables exArrC.logPotentials = (graphOf exVars5 exHistC).factors exArrC.logPotentials := rfl
    rw [e, exFactorsC]
    simp only [List.forall_mem_cons]
    norm_num

theorem exRestC : (exBPC.runBP exEnv exArrC 7 0).ftovMsgs = (exBPC.runBP exEnv exArrC 6 0).ftovMsgs := by decide +kernel

theorem exVarsC : ∀ v ∈ graphVars exVars5, v = exVar5 0 ∨ v = exVar5 1 ∨ v = exVar5 2 ∨ v = exVar5 3 := by decide +kernel

theorem exUniqueC : ∀ v ∈ graphVars exVars5, exDecC v < v.n ∧ ∀ s < v.n, s ≠ exDecC v →
    beliefOf (graphOf exVars5 exHistC).allScopes (readEv exStateC.varsToStarts exArrC.evidence) (readMsgs (graphOf exVars5 exHistC).allScopes (exBPC.runBP exEnv exArrC 6 0).ftovMsgs) v s <
      beliefOf (graphOf exVars5 exHistC).allScopes (readEv exStateC.varsToStarts exArrC.evidence) (readMsgs (graphOf exVars5 exHistC).allScopes (exBPC.runBP exEnv exArrC 6 0).ftovMsgs) v (exDecC v) := by
  decide +kernel

theorem exClipC : ∀ f i v, IsEdge (graphOf exVars5 exHistC).allScopes f i v → -1000 < readMsgs (graphOf exVars5 exHistC).allScopes (exBPC.runBP exEnv exArrC 6 0).ftovMsgs f i (exDecC v) := by
  have hl : ∀ y ∈ (exBPC.runBP exEnv exArrC 6 0).ftovMsgs, -1000 < y := by decide +kernel
  intro f i v _
  unfold readMsgs List.getD
  cases e : (exBPC.runBP exEnv exArrC 6 0).ftovMsgs[edgeStart (graphOf exVars5 exHistC).allScopes f i + exDecC v]? with
  | none => norm_num
  | some y => exact hl y (List.mem_of_getElem? e)

/-- **The restriction to few loops is needed.** On this graph the messages do not change in the seventh iteration, all beliefs have unique maxima (at the states 0, 0, 1, 0) and no
message is clipped, but the states 1, 1, 0, 1 have a larger score. -/
theorem C64_refuted : (exBPC.runBP exEnv exArrC 7 0).ftovMsgs = (exBPC.runBP exEnv exArrC 6 0).ftovMsgs ∧
    (∀ v ∈ graphVars exVars5, exDecC v < v.n ∧ ∀ s < v.n, s ≠ exDecC v →
      beliefOf (graphOf exVars5 exHistC).allScopes (readEv exStateC.varsToStarts exArrC.evidence) (readMsgs (graphOf exVars5 exHistC).allScopes (exBPC.runBP exEnv exArrC 6 0).ftovMsgs) v s <
        beliefOf (graphOf exVars5 exHistC).allScopes (readEv exStateC.varsToStarts exArrC.evidence) (readMsgs (graphOf exVars5 exHistC).allScopes (exBPC.runBP exEnv exArrC 6 0).ftovMsgs) v (exDecC v)) ∧
    (∀ f i v, IsEdge (graphOf exVars5 exHistC).allScopes f i v → -1000 < readMsgs (graphOf exVars5 exHistC).allScopes (exBPC.runBP exEnv exArrC 6 0).ftovMsgs f i (exDecC v)) ∧
    ¬∃ ρ, IsMAP (graphVars exVars5) ((graphOf exVars5 exHistC).factors exArrC.logPotentials) (readEv exStateC.varsToStarts exArrC.evidence) exDecC ρ := by
  refine ⟨exRestC, exUniqueC, exClipC, ?_⟩
  rintro ⟨ρ, hJ, hmax⟩
  let σ : Nat → List Nat × ℚ := fun f => [([1, 1], 2), ([1, 0], 2), ([0, 1], 3), ([1, 1], 0), ([1, 0], 3)].getD f ([], 0)
  have hσ : Joint (graphVars exVars5) ((graphOf exVars5 exHistC).factors exArrC.logPotentials) exBestC σ := by
    refine ⟨fun v hv => ?_, fun f F hF => ?_⟩
    · rcases exVarsC v hv with rfl | rfl | rfl | rfl <;> decide
    · rw [exFactorsC] at hF
      match f, hF with
      | 0, hF => cases hF; exact ⟨by simp [σ], by decide⟩
      | 1, hF => cases hF; exact ⟨by simp [σ], by decide⟩
      | 2, hF => cases hF; exact ⟨by simp [σ], by decide⟩
      | 3, hF => cases hF; exact ⟨by simp [σ], by decide⟩
      | 4, hF => cases hF; exact ⟨by simp [σ], by decide⟩
      | n + 5, hF => cases hF
  have h0 : (ρ 0).2 = 2 := by
    obtain ⟨h1, h2⟩ := hJ.rows 0 _ (by rw [exFactorsC]; rfl)
    simp only [List.mem_cons, List.not_mem_nil, or_false] at h1
    rcases h1 with h | h | h | h <;> rw [h] at h2 ⊢ <;> exact absurd h2 (by decide)
  have h1 : (ρ 1).2 = 1 := by
    obtain ⟨h1, h2⟩ := hJ.rows 1 _ (by rw [exFactorsC]; rfl)
    simp only [List.mem_cons, List.not_mem_nil, or_false] at h1
    rcases h1 with h | h | h | h <;> rw [h] at h2 ⊢ <;> exact absurd h2 (by decide)
  have h2 : (ρ 2).2 = 3 := by
    obtain ⟨h1, h2⟩ := hJ.rows 2 _ (by rw [exFactorsC]; rfl)
    simp only [List.mem_cons, List.not_mem_nil, or_false] at h1
    rcases h1 with h | h | h | h <;> rw [h] at h2 ⊢ <;> exact absurd h2 (by decide)
  have h3 : (ρ 3).2 = -3 := by
    obtain ⟨h1, h2⟩ := hJ.rows 3 _ (by rw [exFactorsC]; rfl)
    simp only [List.mem_cons, List.not_mem_nil, or_false] at h1
    rcases h1 with h | h | h | h <;> rw [h] at h2 ⊢ <;> exact absurd h2 (by decide)
  have h4 : (ρ 4).2 = -2 := by
    obtain ⟨h1, h2⟩ := hJ.rows 4 _ (by rw [exFactorsC]; rfl)
    simp only [List.mem_cons, List.not_mem_nil, or_false] at h1
    rcases h1 with h | h | h | h <;> rw [h] at h2 ⊢ <;> exact absurd h2 (by decide)
  have hle := hmax exBestC σ hσ
  have hl : ((graphOf exVars5 exHistC).factors exArrC.logPotentials).length = 5 := by rw [exFactorsC]; rfl
  have e1 : ∑ v ∈ graphVars exVars5, readEv exStateC.varsToStarts exArrC.evidence v (exBestC v) = -8 := by decide +kernel
  have e2 : ∑ v ∈ graphVars exVars5, readEv exStateC.varsToStarts exArrC.evidence v (exDecC v) = 0 := by decide +kernel
  unfold jointScore at hle
  rw [e1, e2, hl] at hle
  simp only [Finset.sum_range_succ, Finset.sum_range_zero, h0, h1, h2, h3, h4] at hle
  simp [σ] at hle
  norm_num at hle

/-! ## Non-vacuity -/

theorem exInitC : ∀ f i v, IsEdge (graphOf exVars5 exHistC).allScopes f i v → ∃ s < v.n, -100000 ≤ readMsgs (graphOf exVars5 exHistC).allScopes exArrC.ftovMsgs f i s := by
  intro f i v he
  refine ⟨0, ?_, ?_⟩
  · obtain ⟨vs, h1, h2⟩ := he
    rw [exScopesC] at h1
    have hp : ∀ vs ∈ [[exVar5 0, exVar5 1], [exVar5 1, exVar5 2], [exVar5 2, exVar5 3], [exVar5 3, exVar5 0], [exVar5 0, exVar5 2]], ∀ v ∈ vs, 0 < v.n := by decide
    exact hp vs (List.mem_of_getElem? h1) v (List.mem_of_getElem? h2)
  · unfold readMsgs List.getD
    cases e : exArrC.ftovMsgs[edgeStart (graphOf exVars5 exHistC).allScopes f i + 0]? with
    | none => norm_num
    | some y =>
      rw [List.eq_of_mem_replicate (List.mem_of_getElem? e)]
      norm_num

theorem exLogicalC : LogicalModerate (graphOf exVars5 exHistC) (readEv exStateC.varsToStarts exArrC.evidence) := by
  intro f vs hvs hf
  have h1 := (List.getElem?_eq_some_iff.1 hvs).1
  have h2 : (graphOf exVars5 exHistC).allScopes.length = (graphOf exVars5 exHistC).tables.length := rfl
  omega

set_option maxRecDepth 4000 in
/-- Non-vacuity of C64: on the graph with two loops, changing one variable of 0, 0, 1, 0 does not help. -/
example : ∃ ρ, Joint (graphVars exVars5) ((graphOf exVars5 exHistC).factors exArrC.logPotentials) exDecC ρ ∧
    ∀ x' ρ', Joint (graphVars exVars5) ((graphOf exVars5 exHistC).factors exArrC.logPotentials) x' ρ' → (∃ v, ∀ w, w ≠ v → x' w = exDecC w) →
      jointScore (graphVars exVars5) ((graphOf exVars5 exHistC).factors exArrC.logPotentials) (readEv exStateC.varsToStarts exArrC.evidence) x' ρ' ≤
        jointScore (graphVars exVars5) ((graphOf exVars5 exHistC).factors exArrC.logPotentials) (readEv exStateC.varsToStarts exArrC.evidence) exDecC ρ :=
  C64_local exStateC_compiled exBPC_create exEnv ⟨.inl rfl, fun _ => by decide +kernel⟩ exArrC 6 0 (by norm_num) rfl rfl rfl exModerateC exLogicalC exInitC
    (by simp [exVars5, VGroup.Regular]) (by simp [exVars5, VGroup.Stated]) exRestC exDecC exUniqueC exClipC (by rw [exScopesC]; decide)

theorem exStateLQ_compiled : Compiled exVars exHistLQ 0 exStateLQ where
  vgroups := exVars_ok
  valid := by
    simp only [exHistLQ, List.mem_cons, List.not_mem_nil, or_false, forall_eq, AddArg.flat]
    refine ⟨by decide, by decide, fun _ => ⟨by decide, by decide, by decide, ?_, by rfl⟩, fun h => absurd rfl h⟩
    intro vs hvs r hr
    simp only [exAll, List.mem_cons, List.not_mem_nil, or_false] at hvs hr
    rcases hvs with rfl | rfl | rfl <;> rcases hr with rfl | rfl | rfl | rfl <;> simp [exVar]
  ids := by
    have e : FType.all.flatMap (graphOf exVars exHistLQ).groups = [
      ⟨5, .enum, .enumGroup, [[exVar 0, exVar 1], [exVar 1, exVar 2], [exVar 2, exVar 0]], ⟨2, exAll⟩, [-1, 0, 0, -1, -1, 0, 0, -1, -1, 0, 0, -1]⟩] := by rfl
    rw [e]
    intro g hg k hk _
    simp only [List.mem_cons, List.not_mem_nil, or_false] at hg hk
    rw [hg, hk]
  compiled := rfl

/-- Log potentials, messages and evidence for a loop. -/
def exArrLQ : BPArrays ℚ := ⟨[-1, 0, 0, -1, -1, 0, 0, -1, -1, 0, 0, -1], List.replicate 12 0, [3, 0, 0, 1, 2, 0]⟩

theorem exModerateLQ : Moderate (graphOf exVars exHistLQ) exArrLQ.logPotentials (readEv exStateLQ.varsToStarts exArrLQ.evidence) 0 := by
  refine moderate_of_bounds (E := 3) (P := 3) (D := 2) (K := 2) (by norm_num) ?_ ?_ (by norm_num) ?_ (by norm_num)
  · intro _ _ v s _ _
    unfold readEv List.getD
    cases e : exArrLQ.evidence[(exStateLQ.varsToStarts v).getD 0 + s]? with
    | none => norm_num
    | some x =>
      have hl : ∀ x ∈ exArrLQ.evidence, |x| ≤ 3 := by decide +kernel
      exact hl x (List.mem_of_getElem? e)
  · intro f i v he
    have hd : ∀ vs ∈ [[exVar 0, exVar 1], [exVar 1, exVar 2], [exVar 2, exVar 0]], ∀ v ∈ vs,
      (edgesOf [[exVar 0, exVar 1], [exVar 1, exVar 2], [exVar 2, exVar 0]] v).length ≤ 2 := by decide +kernel
    obtain ⟨vs, h1, h2⟩ := he
    have e : (graphOf exVars exHistLQ).allScopes = [[exVar 0, exVar 1], [exVar 1, exVar 2], [exVar 2, exVar 0]] := rfl
    rw [e] at h1 ⊢
    exact Nat.cast_le_ofNat.2 (hd vs (List.mem_of_getElem? h1) v (List.mem_of_getElem? h2))
  · have e : tableFacs (graphOf exVars exHistLQ).tables exArrLQ.logPotentials = (graphOf exVars exHistLQ).factors exArrLQ.logPotentials := rfl
    have e' : (graphOf exVars exHistLQ).factors exArrLQ.logPotentials = [⟨[exVar 0, exVar 1], [([0, 0], -1), ([0, 1], 0), ([1, 0], 0), ([1, 1], -1)]⟩,
      ⟨[exVar 1, exVar 2], [([0, 0], -1), ([0, 1], 0), ([1, 0], 0), ([1, 1], -1)]⟩, ⟨[exVar 2, exVar 0], [([0, 0], -1), ([0, 1], 0), ([1, 0], 0), ([1, 1], -1)]⟩] := rfl
    rw [e, e']
    simp only [List.forall_mem_cons]
    norm_num

/-- Non-vacuity of C64 for loops: on the loop of three tables, with evidence 3, 1, 2 for the states 0, 1, 0, belief propagation comes to rest, so these states are a MAP assignment. -/
example : ∃ ρ, IsMAP (graphVars exVars) ((graphOf exVars exHistLQ).factors exArrLQ.logPotentials) (readEv exStateLQ.varsToStarts exArrLQ.evidence) exDom ρ := by
  refine (C64_map exStateLQ_compiled exBPLQ_create exEnv ⟨.inl rfl, fun _ => by decide +kernel⟩ exArrLQ 3 0 (by norm_num) rfl rfl rfl exModerateLQ ?_ ?_
    exStatedT.1 exStatedT.2 (by decide +kernel) exDom (by decide +kernel) ?_ ?_).2
  · intro f vs hvs hf
    have h1 := (List.getElem?_eq_some_iff.1 hvs).1
    have h2 : (graphOf exVars exHistLQ).allScopes.length = (graphOf exVars exHistLQ).tables.length := rfl
    omega
  · intro f i v he
    refine ⟨0, ?_, ?_⟩
    · obtain ⟨vs, h1, h2⟩ := he
      have hp : ∀ vs ∈ (graphOf exVars exHistLQ).allScopes, ∀ v ∈ vs, 0 < v.n := by decide +kernel
      exact hp vs (List.mem_of_getElem? h1) v (List.mem_of_getElem? h2)
    · unfold readMsgs List.getD
      cases e : exArrLQ.ftovMsgs[edgeStart (graphOf exVars exHistLQ).allScopes f i + 0]? with
      | none => norm_num
      | some y =>
        rw [List.eq_of_mem_replicate (List.mem_of_getElem? e)]
        norm_num
  · have hl : ∀ y ∈ (exBPLQ.runBP exEnv exArrLQ 3 0).ftovMsgs, -1000 < y := by decide +kernel
    intro f i v _
    unfold readMsgs List.getD
    cases e : (exBPLQ.runBP exEnv exArrLQ 3 0).ftovMsgs[edgeStart (graphOf exVars exHistLQ).allScopes f i + exDom v]? with
    | none => norm_num
    | some y => exact hl y (List.mem_of_getElem? e)
  · have hS : ∀ vs ∈ (graphOf exVars exHistLQ).allScopes, ∀ v ∈ vs, (edgesOf (graphOf exVars exHistLQ).allScopes v).length ≤ 2 := by decide +kernel
    refine fewLoops_of_degree (fun v _ => ?_) (by decide +kernel)
    cases e : edgesOf (graphOf exVars exHistLQ).allScopes v with
    | nil => simp
    | cons p l =>
      rw [← e]
      obtain ⟨vs, h1, h2⟩ := (mem_edgesOf _ _ p.1 p.2).1 (by rw [e]; exact List.mem_cons_self)
      exact hS vs (List.mem_of_getElem? h1) v (List.mem_of_getElem? h2)

end PGMax
