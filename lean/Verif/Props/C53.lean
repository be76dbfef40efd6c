import Verif.Props.C38

/-! # C53: belief propagation converges on trees -/

namespace PGMax

variable {κ α : Type _} {vgs : List (VGroup κ)} {hist : List (AddArg α)} {garbage : Garbage} {st : FGState κ α}

section
variable [Field α] [LinearOrder α] [IsStrictOrderedRing α]

omit [IsStrictOrderedRing α] in
/-- Textbook belief propagation on forests converges, to messages that do not depend on the initial ones. -/
theorem tbRun_converged {factors : List (SFac α)} (hG : (bipartite (factors.map (·.scope))).IsAcyclic) (hnd : ∀ F ∈ factors, F.scope.Nodup)
    (hne : ∀ F ∈ factors, F.scope ≠ []) (hrow : ∀ F ∈ factors, ∀ r ∈ F.rows, List.Forall₂ (fun s (v : Var) => s < v.n) r.1 F.scope)
    (ev : Var → Nat → α) (m0 m1 : Msgs α) (a b : Nat) (ha : factors.length ≤ a) (hb : factors.length ≤ b) {f i : Nat} {v : Var}
    (he : IsEdge (factors.map (·.scope)) f i v) {s : Nat} (hs : s < v.n) : tbRun factors ev 0 a m0 f i s = tbRun factors ev 0 b m1 f i s := by
  have hlt : f < factors.length := by
    obtain ⟨vs, h1, -⟩ := he
    simpa using (List.getElem?_eq_some_iff.1 h1).1
  have hdist : ∀ v f, (bipartite (factors.map (·.scope))).dist (.inl v) (.inr f) < 2 * factors.length := by
    intro v f
    have := dist_lt_factors (scopes := factors.map (·.scope)) v f (by simp; omega)
    simpa using this
  obtain ⟨hR, hroot, hht⟩ := rootedForest hG (by simpa using hnd) (by simpa using hne) v factors.length (hdist v) (fun w g _ => hdist w g)
  have hup : upOf (factors.map (·.scope)) v f = i := by
    by_contra hc
    have := (hR.par_iff v f i).2 ⟨he, fun h => hc h.symm⟩
    rw [hroot] at this
    cases this
  have hh := hht f (by simpa using hlt)
  obtain ⟨a, rfl⟩ := Nat.exists_eq_succ_of_ne_zero (show a ≠ 0 by omega)
  obtain ⟨b, rfl⟩ := Nat.exists_eq_succ_of_ne_zero (show b ≠ 0 by omega)
  have := hR.converged (fun f F hF => hrow F (List.mem_of_getElem? hF)) ev m0 m1 _ f v s a b le_rfl (by omega) (by omega) (by rw [hup]; exact he) hs
  rw [hup] at this
  exact this

/-- **C53, partial.** On an acyclic factor graph, at temperature 0 and with damping 0, the messages after `n` and after `n'` iterations
from any two initial messages are the same if `n` and `n'` are at least the number of factors: belief propagation has converged, to a
limit that does not depend on the initial messages.
Missing: numbers that are not moderate (`C53_refuted`). -/
theorem C53_partial (h : Compiled vgs hist garbage st) {state : BPState α} {bp : BPFun κ α}
    (hbp : BP.create st state 0 = .ok bp) (env : Env α) (hfit : Fits env (graphOf vgs hist) (0 : α)) (lp ev ms ms' : List α) (n n' : Nat)
    (hlp : lp.length = st.logPotentials.length) (hev : ev.length = st.numVarStates) (hm : ms.length = st.totalFactorNumStates)
    (hm' : ms'.length = st.totalFactorNumStates) (hmod : Moderate (graphOf vgs hist) lp (readEv st.varsToStarts ev) 0)
    (hlmod : LogicalModerate (graphOf vgs hist) (readEv st.varsToStarts ev))
    (hinit : ∀ f i v, IsEdge (graphOf vgs hist).allScopes f i v → ∃ s < v.n, -100000 ≤ readMsgs (graphOf vgs hist).allScopes ms f i s)
    (hinit' : ∀ f i v, IsEdge (graphOf vgs hist).allScopes f i v → ∃ s < v.n, -100000 ≤ readMsgs (graphOf vgs hist).allScopes ms' f i s)
    (htree : (bipartite (graphOf vgs hist).allScopes).IsAcyclic) (hnd : ∀ vs ∈ (graphOf vgs hist).allScopes, vs.Nodup)
    (hn : (graphOf vgs hist).allScopes.length ≤ n) (hn' : (graphOf vgs hist).allScopes.length ≤ n') :
    (bp.runBP env ⟨lp, ms, ev⟩ n 0).ftovMsgs = (bp.runBP env ⟨lp, ms', ev⟩ n' 0).ftovMsgs := by
  have htb := C37_partial h hbp env hfit ⟨lp, ms, ev⟩ n 0 hlp hev hm hmod hlmod hinit
  have htb' := C37_partial h hbp env hfit ⟨lp, ms', ev⟩ n' 0 hlp hev hm' hmod hlmod hinit'
  have hsc := (graphOf vgs hist).factors_scopes lp
  have hlen : ((graphOf vgs hist).factors lp).length = (graphOf vgs hist).allScopes.length := by rw [← hsc]; simp
  have hmemF : ∀ F ∈ (graphOf vgs hist).factors lp, F.scope ∈ (graphOf vgs hist).allScopes := by
    intro F hF
    rw [← hsc]
    exact List.mem_map.2 ⟨F, hF, rfl⟩
  apply eq_of_read (scopes := (graphOf vgs hist).allScopes)
  · rw [(h.run_read hbp env hfit ⟨lp, ms, ev⟩ 0 hlp hev n hm).1, h.totalStates]
  · rw [(h.run_read hbp env hfit ⟨lp, ms', ev⟩ 0 hlp hev n' hm').1, h.totalStates]
  · intro f i v s he hs
    rw [htb f i v s he hs, htb' f i v s he hs]
    exact tbRun_converged (factors := (graphOf vgs hist).factors lp) (by rw [hsc]; exact htree) (fun F hF => hnd _ (hmemF F hF))
      (fun F hF => h.scopes_ne _ (hmemF F hF))
      (fun F hF => by
        obtain ⟨f, hf⟩ := List.mem_iff_getElem?.1 hF
        exact h.rowsFit lp hf) _ _ _ n n' (by omega) (by omega) (by rw [hsc]; exact he) hs

end

/-! ## Refutation and non-vacuity -/

/-- Two factors over the first variable and one other each, in which only state 0 of the first variable occurs. -/
def exHist7 : List (AddArg ℚ) := [.one ⟨5, .enum, .enumGroup, [[exVar 0, exVar 1], [exVar 0, exVar 2]], ⟨2, [[0, 0], [0, 1]]⟩, [0, 0, 0, 0]⟩]

/-- Its compiled state. -/
def exState7 : FGState Nat ℚ :=
  match (graphOf exVars exHist7).fgState 0 with
  | .ok st => st
  | .error _ => ⟨[], fun _ => none, 0, 0, fun _ => (0, 0), fun _ => (0, 0), fun _ => none, [],
      ⟨⟨[], [], []⟩, ⟨[], [], [], [], 1⟩, ⟨[], [], [], [], 1⟩⟩⟩

theorem exState7_compiled : Compiled exVars exHist7 0 exState7 where
  vgroups := exVars_ok
  valid := by
    simp only [exHist7, List.mem_cons, List.not_mem_nil, or_false, forall_eq, AddArg.flat]
    refine ⟨by decide, by decide, fun _ => ⟨by decide, by decide, by decide, ?_, by rfl⟩, fun h => absurd rfl h⟩
    intro vs hvs r hr
    simp only [List.mem_cons, List.not_mem_nil, or_false] at hvs hr
    rcases hvs with rfl | rfl <;> rcases hr with rfl | rfl <;> simp [exVar]
  ids := by
    have e : FType.all.flatMap (graphOf exVars exHist7).groups = [
      ⟨5, .enum, .enumGroup, [[exVar 0, exVar 1], [exVar 0, exVar 2]], ⟨2, [[0, 0], [0, 1]]⟩, [0, 0, 0, 0]⟩] := by rfl
    rw [e]
    intro g hg k hk _
    simp only [List.mem_cons, List.not_mem_nil, or_false] at hg hk
    rw [hg, hk]
  compiled := rfl

/-- Max-product belief propagation on it. -/
def exBP7 : BPFun Nat ℚ :=
  match BP.create exState7 exBPState 0 with
  | .ok bp => bp
  | .error _ => ⟨exState7, exBPState, [], 0, [], 0⟩

theorem exBP7_create : BP.create exState7 exBPState 0 = .ok exBP7 := rfl

theorem exTree7 : (bipartite (graphOf exVars exHist7).allScopes).IsAcyclic := by
  refine acyclic_of_edges [(exVar 0, 0), (exVar 1, 0), (exVar 0, 1), (exVar 2, 1)] ?_ (fun v => if v = exVar 0 then 0 else 2) (fun _ => 1) (by decide +kernel) (by decide +kernel)
  have e : (graphOf exVars exHist7).allScopes = [[exVar 0, exVar 1], [exVar 0, exVar 2]] := rfl
  rintro f i v ⟨vs, h1, h2⟩
  rw [e] at h1
  match f, h1 with
  | 0, h1 =>
    cases h1
    match i, h2 with
    | 0, h2 => cases h2; simp
    | 1, h2 => cases h2; simp
  | 1, h1 =>
    cases h1
    match i, h2 with
    | 0, h2 => cases h2; simp
    | 1, h2 => cases h2; simp

/-- **C53 does not hold in general.** On the tree `exHist7`, with evidence -99500 for one state, the messages change in every
iteration for ever: they are one array after every even number of iterations and another after every odd number. -/
theorem C53_refuted : (bipartite (graphOf exVars exHist7).allScopes).IsAcyclic ∧ ∀ k,
    (exBP7.runBP exEnv ⟨[0, 0, 0, 0], [0, 0, 0, 0, 0, 0, 0, 0], [0, -99500, 0, 0, 0, 0]⟩ (2 * k) 0).ftovMsgs = [0, 0, 0, 0, 0, 0, 0, 0] ∧
    (exBP7.runBP exEnv ⟨[0, 0, 0, 0], [0, 0, 0, 0, 0, 0, 0, 0], [0, -99500, 0, 0, 0, 0]⟩ (2 * k + 1) 0).ftovMsgs = [0, -500, 0, 0, 0, -500, 0, 0] := by
  refine ⟨exTree7, ?_⟩
  have h1 : exBP7.step exEnv [0, 0, 0, 0] [0, -99500, 0, 0, 0, 0] 0 [0, 0, 0, 0, 0, 0, 0, 0] = [0, -500, 0, 0, 0, -500, 0, 0] := by decide +kernel
  have h2 : exBP7.step exEnv [0, 0, 0, 0] [0, -99500, 0, 0, 0, 0] 0 [0, -500, 0, 0, 0, -500, 0, 0] = [0, 0, 0, 0, 0, 0, 0, 0] := by decide +kernel
  have h0 : (exBP7.runBP exEnv ⟨[0, 0, 0, 0], [0, 0, 0, 0, 0, 0, 0, 0], [0, -99500, 0, 0, 0, 0]⟩ 0 0).ftovMsgs = [0, 0, 0, 0, 0, 0, 0, 0] := by decide +kernel
  have hs : ∀ n, (exBP7.runBP exEnv ⟨[0, 0, 0, 0], [0, 0, 0, 0, 0, 0, 0, 0], [0, -99500, 0, 0, 0, 0]⟩ (n + 1) 0).ftovMsgs
      = exBP7.step exEnv [0, 0, 0, 0] [0, -99500, 0, 0, 0, 0] 0 (exBP7.runBP exEnv ⟨[0, 0, 0, 0], [0, 0, 0, 0, 0, 0, 0, 0], [0, -99500, 0, 0, 0, 0]⟩ n 0).ftovMsgs :=
    fun n => iterate_succ' _ n _
  intro k
  induction k with
  | zero => exact ⟨h0, by rw [hs 0, h0, h1]⟩
  | succ k ih =>
    have e1 : (exBP7.runBP exEnv ⟨[0, 0, 0, 0], [0, 0, 0, 0, 0, 0, 0, 0], [0, -99500, 0, 0, 0, 0]⟩ (2 * (k + 1)) 0).ftovMsgs = [0, 0, 0, 0, 0, 0, 0, 0] := by
      show (exBP7.runBP exEnv ⟨[0, 0, 0, 0], [0, 0, 0, 0, 0, 0, 0, 0], [0, -99500, 0, 0, 0, 0]⟩ (2 * k + 1 + 1) 0).ftovMsgs = _
      rw [hs, ih.2, h2]
    exact ⟨e1, by rw [hs, e1, h1]⟩

/-- Non-vacuity of C53: on the tree `exHist5`, two and seven iterations from the same messages. -/
example : (exBP5.runBP exEnv ⟨[0, 1, 2], List.replicate 10 0, [3, 0, 0, 1, 1, 0, 0, 2]⟩ 2 0).ftovMsgs
    = (exBP5.runBP exEnv ⟨[0, 1, 2], List.replicate 10 0, [3, 0, 0, 1, 1, 0, 0, 2]⟩ 7 0).ftovMsgs := by
  obtain ⟨h1, h2, h3, h4, h5, h6, -, h7, -⟩ := exTree5_ok
  exact C53_partial exState5_compiled exBP5_create exEnv h1 _ _ _ _ 2 7 rfl rfl rfl rfl h2 h3 h4 h4 h5 h6 h7 (by omega)

end PGMax
