import Verif.Lemmas.Cover
import Verif.Props.C72
import Verif.Props.C46_large

/-!
# C99: what `n` iterations can see

After `n` iterations the messages to a variable, and its beliefs, depend only on the evidence, factors and initial messages within `n`
steps of the variable. Nothing else of the graph matters: two graphs that look alike from near a variable give it the same beliefs, and a
graph that is an unwrapped copy of another one (for instance a cycle of twice the length) has the same beliefs everywhere.
-/

namespace PGMax

variable {κ κ' α : Type _} {vgs : List (VGroup κ)} {hist : List (AddArg α)} {garbage : Garbage} {st : FGState κ α}
  {vgs' : List (VGroup κ')} {hist' : List (AddArg α)} {garbage' : Garbage} {st' : FGState κ' α}

section
variable [Field α] [LinearOrder α] [IsStrictOrderedRing α]

omit [IsStrictOrderedRing α] in
theorem Compiled.sameLargest (h : Compiled vgs hist garbage st) (h' : Compiled vgs' hist' garbage' st') {state state' : BPState α} {T : α}
    {bp : BPFun κ α} {bp' : BPFun κ' α} (hbp : BP.create st state T = .ok bp) (hbp' : BP.create st' state' T = .ok bp')
    (hl : SameLargest (graphOf vgs hist).allScopes (graphOf vgs' hist').allScopes) : bp'.maxMsgSize = bp.maxMsgSize := by
  obtain ⟨u1, f1, i1, v1, ⟨vs1, a1, b1⟩, r1⟩ := h.maxMsgSize hbp
  obtain ⟨u2, f2, i2, v2, ⟨vs2, a2, b2⟩, r2⟩ := h'.maxMsgSize hbp'
  apply le_antisymm
  · obtain ⟨vs, hvs, v, hv, hn⟩ := (hl bp'.maxMsgSize).2 ⟨vs2, List.mem_of_getElem? a2, v2, List.mem_of_getElem? b2, r2.ge⟩
    obtain ⟨f, hf⟩ := List.mem_iff_getElem?.1 hvs
    obtain ⟨i, hi⟩ := List.mem_iff_getElem?.1 hv
    exact hn.trans (u1 f i v ⟨vs, hf, hi⟩)
  · obtain ⟨vs, hvs, v, hv, hn⟩ := (hl bp.maxMsgSize).1 ⟨vs1, List.mem_of_getElem? a1, v1, List.mem_of_getElem? b1, r1.ge⟩
    obtain ⟨f, hf⟩ := List.mem_iff_getElem?.1 hvs
    obtain ⟨i, hi⟩ := List.mem_iff_getElem?.1 hv
    exact hn.trans (u2 f i v ⟨vs, hf, hi⟩)

/-- **C99 (1), partial.** Two graphs, possibly of different sizes, with maps `φ` of factors and `ψ` of variables. If every variable within `n`
steps of `w` has the same evidence, factors and initial messages as its image, then after `n` iterations, at any temperature and damping and
for numbers of any size, the messages to `w` and its beliefs are those of its image.
Missing: graphs beyond the sizes of `Fits`, for which it is false (`C99_refuted`). -/
theorem C99_partial (h : Compiled vgs hist garbage st) (h' : Compiled vgs' hist' garbage' st') {state state' : BPState α} {T : α}
    {bp : BPFun κ α} {bp' : BPFun κ' α} (hbp : BP.create st state T = .ok bp) (hbp' : BP.create st' state' T = .ok bp') (env : Env α)
    (hfit : Fits env (graphOf vgs hist) T) (hfit' : Fits env (graphOf vgs' hist') T) (a a' : BPArrays α) (n : Nat) (d : α)
    (hlp : a.logPotentials.length = st.logPotentials.length) (hlp' : a'.logPotentials.length = st'.logPotentials.length)
    (hm : a.ftovMsgs.length = st.totalFactorNumStates) (hm' : a'.ftovMsgs.length = st'.totalFactorNumStates)
    (hev : a.evidence.length = st.numVarStates) (hev' : a'.evidence.length = st'.numVarStates)
    (hl : SameLargest (graphOf vgs hist).allScopes (graphOf vgs' hist').allScopes) (φ : Nat → Nat) (ψ : Var → Var) (w : Var)
    (hnear : ∀ u, Within (graphOf vgs hist).allScopes n w u →
      SameAround (graphOf vgs hist) (graphOf vgs' hist') a.logPotentials a'.logPotentials φ ψ u ∧
      SameEvidence (readEv st.varsToStarts a.evidence) (readEv st'.varsToStarts a'.evidence) ψ u ∧
      SameTo (graphOf vgs hist).allScopes (readMsgs (graphOf vgs hist).allScopes a.ftovMsgs) (readMsgs (graphOf vgs' hist').allScopes a'.ftovMsgs) φ u) :
    SameTo (graphOf vgs hist).allScopes (readMsgs (graphOf vgs hist).allScopes (bp.runBP env a n d).ftovMsgs)
      (readMsgs (graphOf vgs' hist').allScopes (bp'.runBP env a' n d).ftovMsgs) φ w ∧
    ∀ start start', st.varsToStarts w = some start → st'.varsToStarts (ψ w) = some start' → ∀ s < w.n,
      ∃ b, (bp.flatBeliefs (bp.runBP env a n d))[start + s]? = some b ∧ (bp'.flatBeliefs (bp'.runBP env a' n d))[start' + s]? = some b := by
  obtain ⟨l1, r1⟩ := h.run_read hbp env hfit a d hlp hev n hm
  obtain ⟨l2, r2⟩ := h'.run_read hbp' env hfit' a' d hlp' hev' n hm'
  rw [h.sameLargest h' hbp hbp' hl] at r2
  obtain ⟨g1, g2, g3⟩ := hnear w (Within.refl _ _ _)
  have hC := (iterM_near (fun f F hF => h.facOk _ f F hF) env T bp.maxMsgSize d (fun u => Within (graphOf vgs hist).allScopes n w u)
    (fun u hu => ⟨(hnear u hu).1, (hnear u hu).2.1, (hnear u hu).1.normM (hnear u hu).2.1.1 bp.maxMsgSize (hnear u hu).2.2⟩) n w
    (fun k hk u hu => hu.le hk.le)
    (fun u hu e he s hs => (hnear u hu).1.varToFac (hnear u hu).2.1 ((hnear u hu).1.normM (hnear u hu).2.1.1 bp.maxMsgSize (hnear u hu).2.2) e he s hs)).1
    (Within.refl _ _ _)
  have hS : SameTo (graphOf vgs hist).allScopes (readMsgs (graphOf vgs hist).allScopes (bp.runBP env a n d).ftovMsgs)
      (readMsgs (graphOf vgs' hist').allScopes (bp'.runBP env a' n d).ftovMsgs) φ w := by
    rintro ⟨f, i⟩ he s hs
    have he' : (φ f, i) ∈ edgesOf (graphOf vgs' hist').allScopes (ψ w) := g1.places.subset (List.mem_map.2 ⟨_, he, rfl⟩)
    rw [r1 f i w s ((mem_edgesOf _ _ _ _).1 he) hs, r2 (φ f) i (ψ w) s ((mem_edgesOf _ _ _ _).1 he') (by rw [g2.1]; exact hs)]
    exact hC (f, i) he s hs
  refine ⟨hS, fun start start' hst hst' s hs => ⟨_, C34_flat h hbp _ l1 hev w start hst s hs, ?_⟩⟩
  rw [C34_flat h' hbp' _ l2 hev' (ψ w) start' hst' s (by rw [g2.1]; exact hs)]
  exact congrArg some (g1.beliefOf g2 hS s hs)

theorem normM_zeros {scopes : List (List Var)} {maxLen : Nat} {m : Msgs α} {f i : Nat} {v : Var} (he : IsEdge scopes f i v) (hn : v.n ≤ maxLen)
    (hm : ∀ s < v.n, m f i s = 0) (s : Nat) (hs : s < v.n) : normM scopes maxLen m f i s = 0 := by
  rw [normM_at he, hm s hs]
  obtain ⟨-, h2, h3⟩ := segM_spec (m f i) v.n maxLen (by omega) hn
  have hz : segM (m f i) v.n maxLen = 0 := by
    rcases h2 with ⟨j, hj, e⟩ | ⟨hlt, e, h4⟩
    · rw [e, hm j hj]
    · have := h4 s hs
      rw [hm s hs] at this
      exact absurd this (not_le.2 (by unfold NEG_INF; norm_num))
  rw [hz]
  norm_num

theorem readMsgs_zeros (scopes : List (List Var)) (k f i s : Nat) : readMsgs scopes (List.replicate k (0 : α)) f i s = 0 := by
  unfold readMsgs
  rw [List.getD_eq_getElem?_getD, List.getElem?_replicate]
  split <;> rfl

/-- **C99 (2), partial.** From zero messages, the factors matter only within fewer than `n` steps: of the variables at distance `n` only the
evidence counts.
Missing: as in (1). -/
theorem C99_zero_partial (h : Compiled vgs hist garbage st) (h' : Compiled vgs' hist' garbage' st') {state state' : BPState α} {T : α}
    {bp : BPFun κ α} {bp' : BPFun κ' α} (hbp : BP.create st state T = .ok bp) (hbp' : BP.create st' state' T = .ok bp') (env : Env α)
    (hfit : Fits env (graphOf vgs hist) T) (hfit' : Fits env (graphOf vgs' hist') T) (lp ev lp' ev' : List α) (n : Nat) (d : α)
    (hlp : lp.length = st.logPotentials.length) (hlp' : lp'.length = st'.logPotentials.length)
    (hev : ev.length = st.numVarStates) (hev' : ev'.length = st'.numVarStates)
    (hl : SameLargest (graphOf vgs hist).allScopes (graphOf vgs' hist').allScopes) (φ : Nat → Nat) (ψ : Var → Var) (w : Var)
    (hnear : ∀ k < n, ∀ u, Within (graphOf vgs hist).allScopes k w u → SameAround (graphOf vgs hist) (graphOf vgs' hist') lp lp' φ ψ u)
    (hevs : ∀ u, Within (graphOf vgs hist).allScopes n w u → SameEvidence (readEv st.varsToStarts ev) (readEv st'.varsToStarts ev') ψ u)
    (start start' : Nat) (hst : st.varsToStarts w = some start) (hst' : st'.varsToStarts (ψ w) = some start') (s : Nat) (hs : s < w.n) :
    ∃ b, (bp.flatBeliefs (bp.runBP env ⟨lp, List.replicate st.totalFactorNumStates 0, ev⟩ n d))[start + s]? = some b ∧
      (bp'.flatBeliefs (bp'.runBP env ⟨lp', List.replicate st'.totalFactorNumStates 0, ev'⟩ n d))[start' + s]? = some b := by
  obtain ⟨l1, r1⟩ := h.run_read hbp env hfit ⟨lp, List.replicate st.totalFactorNumStates 0, ev⟩ d hlp hev n (by simp)
  obtain ⟨l2, r2⟩ := h'.run_read hbp' env hfit' ⟨lp', List.replicate st'.totalFactorNumStates 0, ev'⟩ d hlp' hev' n (by simp)
  have hle := (h.maxMsgSize hbp).1
  have hle' := (h'.maxMsgSize hbp').1
  have hww := hevs w (Within.refl _ _ _)
  have z1 : ∀ f i v, IsEdge (graphOf vgs hist).allScopes f i v → ∀ s < v.n, normM (graphOf vgs hist).allScopes bp.maxMsgSize
      (readMsgs (graphOf vgs hist).allScopes (List.replicate st.totalFactorNumStates (0 : α))) f i s = 0 :=
    fun f i v he s hs => normM_zeros he (hle f i v he) (fun _ _ => readMsgs_zeros _ _ _ _ _) s hs
  have z2 : ∀ f i v, IsEdge (graphOf vgs' hist').allScopes f i v → ∀ s < v.n, normM (graphOf vgs' hist').allScopes bp'.maxMsgSize
      (readMsgs (graphOf vgs' hist').allScopes (List.replicate st'.totalFactorNumStates (0 : α))) f i s = 0 :=
    fun f i v he s hs => normM_zeros he (hle' f i v he) (fun _ _ => readMsgs_zeros _ _ _ _ _) s hs
  refine ⟨_, C34_flat h hbp _ l1 hev w start hst s hs, ?_⟩
  rw [C34_flat h' hbp' _ l2 hev' (ψ w) start' hst' s (by rw [hww.1]; exact hs)]
  refine congrArg some ?_
  simp only at r1 r2
  cases n with
  | zero =>
    have e1 : beliefOf (graphOf vgs hist).allScopes (readEv st.varsToStarts ev)
        (readMsgs (graphOf vgs hist).allScopes (bp.runBP env ⟨lp, List.replicate st.totalFactorNumStates 0, ev⟩ 0 d).ftovMsgs) w s =
          readEv st.varsToStarts ev w s := by
      unfold beliefOf
      rw [List.sum_eq_zero, add_zero]
      intro x hx
      obtain ⟨e, he, rfl⟩ := List.mem_map.1 hx
      rw [r1 _ _ w s ((mem_edgesOf _ _ _ _).1 he) hs]
      exact z1 _ _ w ((mem_edgesOf _ _ _ _).1 he) s hs
    have e2 : beliefOf (graphOf vgs' hist').allScopes (readEv st'.varsToStarts ev')
        (readMsgs (graphOf vgs' hist').allScopes (bp'.runBP env ⟨lp', List.replicate st'.totalFactorNumStates 0, ev'⟩ 0 d).ftovMsgs) (ψ w) s =
          readEv st'.varsToStarts ev' (ψ w) s := by
      unfold beliefOf
      rw [List.sum_eq_zero, add_zero]
      intro x hx
      obtain ⟨e, he, rfl⟩ := List.mem_map.1 hx
      rw [r2 _ _ (ψ w) s ((mem_edgesOf _ _ _ _).1 he) (by rw [hww.1]; exact hs)]
      exact z2 _ _ (ψ w) ((mem_edgesOf _ _ _ _).1 he) s (by rw [hww.1]; exact hs)
    exact e2.trans ((hww.2 s hs).trans e1.symm)
  | succ n =>
    rw [h.sameLargest h' hbp hbp' hl] at r2 z2
    have g1 := hnear 0 (by omega) w rfl
    have hC := (iterM_near (fun f F hF => h.facOk _ f F hF) env T bp.maxMsgSize d (fun u => ∃ k < n + 1, Within (graphOf vgs hist).allScopes k w u)
      (fun u ⟨k, hk, hu⟩ => ⟨hnear k hk u hu, hevs u (hu.le hk.le), (hnear k hk u hu).normM (hevs u (hu.le hk.le)).1 bp.maxMsgSize
        (fun e _ s _ => (readMsgs_zeros (graphOf vgs' hist').allScopes st'.totalFactorNumStates (φ e.1) e.2 s).trans
          (readMsgs_zeros (graphOf vgs hist).allScopes st.totalFactorNumStates e.1 e.2 s).symm)⟩) (n + 1) w
      (fun k hk u hu => ⟨k, hk, hu⟩)
      (by
        intro u hu e he t ht
        have hu' := hevs u hu
        unfold varToFac
        rw [List.sum_eq_zero, List.sum_eq_zero, add_zero, add_zero]
        · exact hu'.2 t ht
        · intro x hx
          obtain ⟨e', he', rfl⟩ := List.mem_map.1 hx
          exact z1 _ _ u ((mem_edgesOf _ _ _ _).1 (List.mem_filter.1 he').1) t ht
        · intro x hx
          obtain ⟨e', he', rfl⟩ := List.mem_map.1 hx
          exact z2 _ _ (ψ u) ((mem_edgesOf _ _ _ _).1 (List.mem_filter.1 he').1) t (by rw [hu'.1]; exact ht))).1 ⟨0, by omega, rfl⟩
    refine g1.beliefOf hww ?_ s hs
    rintro ⟨f, i⟩ he t ht
    have he' : (φ f, i) ∈ edgesOf (graphOf vgs' hist').allScopes (ψ w) := g1.places.subset (List.mem_map.2 ⟨_, he, rfl⟩)
    rw [r1 f i w t ((mem_edgesOf _ _ _ _).1 he) ht, r2 (φ f) i (ψ w) t ((mem_edgesOf _ _ _ _).1 he') (by rw [hww.1]; exact ht)]
    exact hC (f, i) he t ht

/-- **C99 (3), partial: the light cone.** One graph, two runs from zero messages. If the evidence of all variables within `n` steps of `w` and
the log potentials of all factors of variables within fewer than `n` steps are the same, then the beliefs of `w` after `n` iterations are.
Missing: as in (1). -/
theorem C99_cone_partial (h : Compiled vgs hist garbage st) {state : BPState α} {T : α} {bp : BPFun κ α} (hbp : BP.create st state T = .ok bp)
    (env : Env α) (hfit : Fits env (graphOf vgs hist) T) (lp ev lp' ev' : List α) (n : Nat) (d : α)
    (hlp : lp.length = st.logPotentials.length) (hlp' : lp'.length = st.logPotentials.length)
    (hev : ev.length = st.numVarStates) (hev' : ev'.length = st.numVarStates) (w : Var)
    (hnear : ∀ k < n, ∀ u, Within (graphOf vgs hist).allScopes k w u → ∀ (f : Nat) (vs : List Var),
      (graphOf vgs hist).allScopes[f]? = some vs → u ∈ vs → ((graphOf vgs hist).factors lp)[f]? = ((graphOf vgs hist).factors lp')[f]?)
    (hevs : ∀ u, Within (graphOf vgs hist).allScopes n w u → ∀ s < u.n, readEv st.varsToStarts ev u s = readEv st.varsToStarts ev' u s)
    (start : Nat) (hst : st.varsToStarts w = some start) (s : Nat) (hs : s < w.n) :
    (bp.flatBeliefs (bp.runBP env ⟨lp, List.replicate st.totalFactorNumStates 0, ev⟩ n d))[start + s]? =
      (bp.flatBeliefs (bp.runBP env ⟨lp', List.replicate st.totalFactorNumStates 0, ev'⟩ n d))[start + s]? := by
  obtain ⟨b, h1, h2⟩ := C99_zero_partial h h hbp hbp env hfit hfit lp ev lp' ev' n d hlp hlp' hev hev' (fun _ => Iff.rfl) id id w
    (fun k hk u hu => ⟨by simp, fun e he => ⟨Iff.rfl, fun _ => rfl, by
      have hE := (mem_edgesOf _ _ _ _).1 he
      obtain ⟨F, hF, hi, hsc⟩ := (graphOf vgs hist).factors_edge lp hE
      exact ⟨F, F, hF, (hnear k hk u hu e.1 _ hsc (List.mem_of_getElem? hi)) ▸ hF, by simp, .refl _⟩⟩⟩)
    (fun u hu => ⟨rfl, fun s hs => (hevs u hu s hs).symm⟩) start start hst hst s hs
  rw [h1, h2]

omit [Field α] [LinearOrder α] [IsStrictOrderedRing α] in
theorem Within.mem {scopes : List (List Var)} {S : Var → Prop} (hS : ∀ vs ∈ scopes, ∀ v ∈ vs, S v) {n : Nat} {w u : Var} (h : Within scopes n w u)
    (hw : S w) : S u := by
  induction n generalizing w with
  | zero => exact h ▸ hw
  | succ n ih =>
    rcases h with rfl | ⟨vs, hvs, -, x, hx, hxu⟩
    · exact hw
    · exact ih hxu (hS vs hvs x hx)

/-- **C99 (4), partial: covers.** If every variable of a graph has the same evidence and factors as its image in another graph, then from zero
messages it has the beliefs of its image, after any number of iterations, at any damping and temperature. So belief propagation cannot tell a
graph from its unwrapped copies.
Missing: as in (1). -/
theorem C99_cover_partial (h : Compiled vgs hist garbage st) (h' : Compiled vgs' hist' garbage' st') {state state' : BPState α} {T : α}
    {bp : BPFun κ α} {bp' : BPFun κ' α} (hbp : BP.create st state T = .ok bp) (hbp' : BP.create st' state' T = .ok bp') (env : Env α)
    (hfit : Fits env (graphOf vgs hist) T) (hfit' : Fits env (graphOf vgs' hist') T) (lp ev lp' ev' : List α) (n : Nat) (d : α)
    (hlp : lp.length = st.logPotentials.length) (hlp' : lp'.length = st'.logPotentials.length)
    (hev : ev.length = st.numVarStates) (hev' : ev'.length = st'.numVarStates)
    (hl : SameLargest (graphOf vgs hist).allScopes (graphOf vgs' hist').allScopes) (φ : Nat → Nat) (ψ : Var → Var)
    (hcover : ∀ u ∈ graphVars vgs, SameAround (graphOf vgs hist) (graphOf vgs' hist') lp lp' φ ψ u ∧
      SameEvidence (readEv st.varsToStarts ev) (readEv st'.varsToStarts ev') ψ u)
    (hψ : ∀ u ∈ graphVars vgs, ψ u ∈ graphVars vgs') :
    ∀ w ∈ graphVars vgs, ∃ start start', st.varsToStarts w = some start ∧ st'.varsToStarts (ψ w) = some start' ∧ ∀ s < w.n,
      ∃ b, (bp.flatBeliefs (bp.runBP env ⟨lp, List.replicate st.totalFactorNumStates 0, ev⟩ n d))[start + s]? = some b ∧
        (bp'.flatBeliefs (bp'.runBP env ⟨lp', List.replicate st'.totalFactorNumStates 0, ev'⟩ n d))[start' + s]? = some b := by
  intro w hw
  obtain ⟨g, hg, hvg⟩ := mem_graphVars.1 hw
  obtain ⟨start, hst⟩ := h.mem_starts hg hvg
  obtain ⟨g', hg', hvg'⟩ := mem_graphVars.1 (hψ w hw)
  obtain ⟨start', hst'⟩ := h'.mem_starts hg' hvg'
  have hin : ∀ vs ∈ (graphOf vgs hist).allScopes, ∀ v ∈ vs, v ∈ graphVars vgs := by
    intro vs hvs v hv
    obtain ⟨f, hf⟩ := List.mem_iff_getElem?.1 hvs
    obtain ⟨i, hi⟩ := List.mem_iff_getElem?.1 hv
    exact h.edge_vars f i v ⟨vs, hf, hi⟩
  exact ⟨start, start', hst, hst', fun s hs => C99_zero_partial h h' hbp hbp' env hfit hfit' lp ev lp' ev' n d hlp hlp' hev hev' hl φ ψ w
    (fun k _ u hu => (hcover u (hu.mem hin hw)).1) (fun u hu => (hcover u (hu.mem hin hw)).2) start start' hst hst' s hs⟩

end

/-- **C99 does not hold in general.** Under JAX 0.3.13 (`wrapNeg`), for a graph of 100001 edge states, already without any iteration: two runs
with the same evidence, log potentials and initial messages to a variable end with different messages to it. -/
theorem C99_refuted (env : Env ℚ) (hw : env.wrapNeg = true) :
    ∃ (st : FGState Nat ℚ) (state : BPState ℚ) (bp : BPFun Nat ℚ) (a b : BPArrays ℚ) (w : Var),
      Compiled bigVars bigHist 0 st ∧ BP.create st state 0 = .ok bp ∧
      a.logPotentials = b.logPotentials ∧ a.evidence = b.evidence ∧ a.logPotentials.length = st.logPotentials.length ∧
      a.evidence.length = st.numVarStates ∧ a.ftovMsgs.length = st.totalFactorNumStates ∧ b.ftovMsgs.length = st.totalFactorNumStates ∧
      (∀ u, Within (graphOf bigVars bigHist).allScopes 0 w u → SameTo (graphOf bigVars bigHist).allScopes
        (readMsgs (graphOf bigVars bigHist).allScopes a.ftovMsgs) (readMsgs (graphOf bigVars bigHist).allScopes b.ftovMsgs) id u) ∧
      ¬ SameTo (graphOf bigVars bigHist).allScopes (readMsgs (graphOf bigVars bigHist).allScopes (bp.runBP env a 0 0).ftovMsgs)
        (readMsgs (graphOf bigVars bigHist).allScopes (bp.runBP env b 0 0).ftovMsgs) id w := by
  obtain ⟨st, state, bp, S, a, b, h1, h2, -, h4, h5, h6, h7, h8, h9, h10, h11⟩ := C46_refuted env hw
  unfold AgreeIn at h11
  push Not at h11
  obtain ⟨f, i, v, s, he, hv, hs, hne⟩ := h11
  refine ⟨st, state, bp, a, b, v, h1, h2, h4, h5, h6, h7, h8, h9, ?_, fun hc => hne (hc (f, i) ((mem_edgesOf _ _ _ _).2 he) s hs).symm⟩
  rintro u rfl ⟨f', i'⟩ he' s' hs'
  exact (h10 f' i' u s' ((mem_edgesOf _ _ _ _).1 he') hv hs').symm

/-! ## Examples: a cycle of six variables and a cycle of three -/

/-- `k` binary variables. -/
def exCycVars (k : Nat) : List (VGroup Nat) := [.arr ⟨2000000000, [k], List.replicate k 2⟩]

/-- The `i`-th of them, counted around the cycle. -/
def exCycVar (k i : Nat) : Var := ⟨2000000000 + i % k, 2⟩

/-- Pairwise factors around a cycle of `k` variables, with the same four log potentials each. -/
def exCycHist (k : Nat) : List (AddArg ℚ) := [.one ⟨5, .enum, .enumGroup, (List.range k).map (fun i => [exCycVar k i, exCycVar k (i + 1)]),
  ⟨2, [[0, 0], [0, 1], [1, 0], [1, 1]]⟩, (List.replicate k [1, 0, 2, 5]).flatten⟩]

/-- The compiled state. -/
def exCycSt (k : Nat) : FGState Nat ℚ :=
  match (graphOf (exCycVars k) (exCycHist k)).fgState 0 with
  | .ok st => st
  | .error _ => ⟨[], fun _ => none, 0, 0, fun _ => (0, 0), fun _ => (0, 0), fun _ => none, [],
      ⟨⟨[], [], []⟩, ⟨[], [], [], [], 1⟩, ⟨[], [], [], [], 1⟩⟩⟩

/-- The default BP state. -/
def exCycBPState (k : Nat) : BPState ℚ :=
  match bpStateOf 1 (exCycSt k) with
  | .ok s => s
  | .error _ => ⟨⟨0, []⟩, ⟨0, []⟩, ⟨0, []⟩⟩

/-- Max-product belief propagation. -/
def exCycBP (k : Nat) : BPFun Nat ℚ :=
  match BP.create (exCycSt k) (exCycBPState k) 0 with
  | .ok bp => bp
  | .error _ => ⟨exCycSt k, exCycBPState k, [], 0, [], 0⟩

set_option maxRecDepth 4000 in
theorem exCyc6_compiled : Compiled (exCycVars 6) (exCycHist 6) 0 (exCycSt 6) where
  vgroups := {
    built := by
      simp only [exCycVars, List.mem_cons, List.not_mem_nil, or_false, forall_eq]
      exact ⟨2, .arr (ns := .array ⟨[6], [2, 2, 2, 2, 2, 2]⟩) (shape := [6]) (by intro a h; cases h; rfl) (by decide)⟩
    distinct := by simp [exCycVars] }
  valid := by
    simp only [exCycHist, List.mem_cons, List.not_mem_nil, or_false, forall_eq, AddArg.flat]
    refine ⟨by decide, by decide, fun _ => ⟨by decide, by decide, by decide, ?_, by rfl⟩, fun h => absurd rfl h⟩
    decide
  ids := by
    intro g hg k hk _
    have e : FType.all.flatMap (graphOf (exCycVars 6) (exCycHist 6)).groups = [⟨5, .enum, .enumGroup,
      (List.range 6).map (fun i => [exCycVar 6 i, exCycVar 6 (i + 1)]), ⟨2, [[0, 0], [0, 1], [1, 0], [1, 1]]⟩,
      (List.replicate 6 [1, 0, 2, 5]).flatten⟩] := by rfl
    rw [e] at hg hk
    rw [List.mem_singleton.1 hg, List.mem_singleton.1 hk]
  compiled := rfl

theorem exCyc3_compiled : Compiled (exCycVars 3) (exCycHist 3) 0 (exCycSt 3) where
  vgroups := {
    built := by
      simp only [exCycVars, List.mem_cons, List.not_mem_nil, or_false, forall_eq]
      exact ⟨2, .arr (ns := .array ⟨[3], [2, 2, 2]⟩) (shape := [3]) (by intro a h; cases h; rfl) (by decide)⟩
    distinct := by simp [exCycVars] }
  valid := by
    simp only [exCycHist, List.mem_cons, List.not_mem_nil, or_false, forall_eq, AddArg.flat]
    refine ⟨by decide, by decide, fun _ => ⟨by decide, by decide, by decide, ?_, by rfl⟩, fun h => absurd rfl h⟩
    decide
  ids := by
    intro g hg k hk _
    have e : FType.all.flatMap (graphOf (exCycVars 3) (exCycHist 3)).groups = [⟨5, .enum, .enumGroup,
      (List.range 3).map (fun i => [exCycVar 3 i, exCycVar 3 (i + 1)]), ⟨2, [[0, 0], [0, 1], [1, 0], [1, 1]]⟩,
      (List.replicate 3 [1, 0, 2, 5]).flatten⟩] := by rfl
    rw [e] at hg hk
    rw [List.mem_singleton.1 hg, List.mem_singleton.1 hk]
  compiled := rfl

/-- The evidence of the cycle of three variables. -/
def exCycEv : List ℚ := [0, 3, 1, 0, 0, -2]

/-- The map of the variables of the longer cycle to those of the shorter one. -/
def exCycMap (v : Var) : Var := exCycVar 3 (v.hash - 2000000000)

theorem exCyc_vars (u : Var) (hu : u ∈ graphVars (exCycVars 6)) : ∃ i < 6, u = exCycVar 6 i := by
  have : ∀ u ∈ graphVars (exCycVars 6), ∃ i ∈ List.range 6, u = exCycVar 6 i := by decide
  obtain ⟨i, hi, e⟩ := this u hu
  exact ⟨i, List.mem_range.1 hi, e⟩

set_option maxRecDepth 4000 in
theorem exCyc_factor (f : Nat) (hf : f < 6) : SameFactor (graphOf (exCycVars 6) (exCycHist 6)) (graphOf (exCycVars 3) (exCycHist 3))
    (exCycSt 6).logPotentials (exCycSt 3).logPotentials (· % 3) exCycMap f := by
  refine ⟨?_, fun h => ?_, ?_⟩
  · have h6 : ((graphOf (exCycVars 6) (exCycHist 6)).scopesOf .enum).length = 6 := rfl
    have h3 : ((graphOf (exCycVars 3) (exCycHist 3)).scopesOf .enum).length = 3 := rfl
    rw [h6, h3]
    simp only
    omega
  · have h6 : ((graphOf (exCycVars 6) (exCycHist 6)).scopesOf .enum).length = 6 := rfl
    omega
  · obtain rfl | rfl | rfl | rfl | rfl | rfl : f = 0 ∨ f = 1 ∨ f = 2 ∨ f = 3 ∨ f = 4 ∨ f = 5 := by omega
    all_goals exact ⟨_, _, rfl, rfl, by decide, by decide +kernel⟩

theorem exCyc_cover (u : Var) (hu : u ∈ graphVars (exCycVars 6)) :
    SameAround (graphOf (exCycVars 6) (exCycHist 6)) (graphOf (exCycVars 3) (exCycHist 3))
      (exCycSt 6).logPotentials (exCycSt 3).logPotentials (· % 3) exCycMap u ∧
    SameEvidence (readEv (exCycSt 6).varsToStarts (exCycEv ++ exCycEv)) (readEv (exCycSt 3).varsToStarts exCycEv) exCycMap u := by
  obtain ⟨i, hi, rfl⟩ := exCyc_vars u hu
  refine ⟨⟨?_, fun e he => exCyc_factor e.1 ?_⟩, by simp [exCycMap, exCycVar], ?_⟩
  · clear hu
    obtain rfl | rfl | rfl | rfl | rfl | rfl : i = 0 ∨ i = 1 ∨ i = 2 ∨ i = 3 ∨ i = 4 ∨ i = 5 := by omega
    all_goals decide +kernel
  · obtain ⟨vs, h, -⟩ := (mem_edgesOf _ _ e.1 e.2).1 he
    have hl := (List.getElem?_eq_some_iff.1 h).1
    have h6 : (graphOf (exCycVars 6) (exCycHist 6)).allScopes.length = 6 := by decide
    rw [h6] at hl
    exact hl
  · clear hu
    obtain rfl | rfl | rfl | rfl | rfl | rfl : i = 0 ∨ i = 1 ∨ i = 2 ∨ i = 3 ∨ i = 4 ∨ i = 5 := by omega
    all_goals decide +kernel

theorem exCyc_largest : SameLargest (graphOf (exCycVars 6) (exCycHist 6)).allScopes (graphOf (exCycVars 3) (exCycHist 3)).allScopes := by
  have h6 : ∀ vs ∈ (graphOf (exCycVars 6) (exCycHist 6)).allScopes, ∀ v ∈ vs, v.n = 2 := by decide
  have h3 : ∀ vs ∈ (graphOf (exCycVars 3) (exCycHist 3)).allScopes, ∀ v ∈ vs, v.n = 2 := by decide
  intro N
  constructor
  · rintro ⟨vs, hvs, v, hv, hn⟩
    rw [h6 vs hvs v hv] at hn
    exact ⟨[exCycVar 3 0, exCycVar 3 1], by decide, exCycVar 3 0, by decide, hn⟩
  · rintro ⟨vs, hvs, v, hv, hn⟩
    rw [h3 vs hvs v hv] at hn
    exact ⟨[exCycVar 6 0, exCycVar 6 1], by decide, exCycVar 6 0, by decide, hn⟩

set_option maxRecDepth 4000 in
/-- Non-vacuity of C99 (4): the cycle of six variables covers the cycle of three. After three iterations its beliefs are those of the shorter
cycle, twice. -/
example : (∀ u ∈ graphVars (exCycVars 6), SameAround (graphOf (exCycVars 6) (exCycHist 6)) (graphOf (exCycVars 3) (exCycHist 3))
      (exCycSt 6).logPotentials (exCycSt 3).logPotentials (· % 3) exCycMap u ∧
      SameEvidence (readEv (exCycSt 6).varsToStarts (exCycEv ++ exCycEv)) (readEv (exCycSt 3).varsToStarts exCycEv) exCycMap u) ∧
    SameLargest (graphOf (exCycVars 6) (exCycHist 6)).allScopes (graphOf (exCycVars 3) (exCycHist 3)).allScopes ∧
    (∀ u ∈ graphVars (exCycVars 6), exCycMap u ∈ graphVars (exCycVars 3)) ∧
    BP.create (exCycSt 6) (exCycBPState 6) 0 = .ok (exCycBP 6) ∧ BP.create (exCycSt 3) (exCycBPState 3) 0 = .ok (exCycBP 3) ∧
    Fits exEnv (graphOf (exCycVars 6) (exCycHist 6)) (0 : ℚ) ∧ Fits exEnv (graphOf (exCycVars 3) (exCycHist 3)) (0 : ℚ) ∧
    (exCycBP 3).flatBeliefs ((exCycBP 3).runBP exEnv ⟨(exCycSt 3).logPotentials, List.replicate 12 0, exCycEv⟩ 3 0) = [-8, 3, -7, 0, -8, -2] ∧
    (exCycBP 6).flatBeliefs ((exCycBP 6).runBP exEnv ⟨(exCycSt 6).logPotentials, List.replicate 24 0, exCycEv ++ exCycEv⟩ 3 0) =
      [-8, 3, -7, 0, -8, -2, -8, 3, -7, 0, -8, -2] :=
  ⟨exCyc_cover, exCyc_largest, by decide +kernel, rfl, rfl, ⟨.inl rfl, by decide⟩, ⟨.inl rfl, by decide⟩, by decide +kernel, by decide +kernel⟩

set_option maxRecDepth 4000 in
/-- Non-vacuity of C99 (3): with one iteration the first variable of the cycle of six sees its two neighbours, but not the evidence of the
other three, nor the log potentials of the four factors that it is not part of. -/
example : let lp' := [1, 0, 2, 5, 7, 7, 0, 0, 0, 9, 0, 0, 1, 2, 3, 4, 4, 3, 2, -50, 1, 0, 2, 5]
    (∀ u, Within (graphOf (exCycVars 6) (exCycHist 6)).allScopes 0 (exCycVar 6 0) u → ∀ (f : Nat) (vs : List Var),
      (graphOf (exCycVars 6) (exCycHist 6)).allScopes[f]? = some vs → u ∈ vs →
      ((graphOf (exCycVars 6) (exCycHist 6)).factors (exCycSt 6).logPotentials)[f]? = ((graphOf (exCycVars 6) (exCycHist 6)).factors lp')[f]?) ∧
    (∀ u, Within (graphOf (exCycVars 6) (exCycHist 6)).allScopes 1 (exCycVar 6 0) u → ∀ s < u.n,
      readEv (exCycSt 6).varsToStarts [0, 3, 1, 0, 0, 7, 0, 0, -5, 2, 2, 0] u s = readEv (exCycSt 6).varsToStarts [0, 3, 1, 0, 0, -20, 0, 9, 9, 2, 2, 0] u s) ∧
    (exCycBP 6).flatBeliefs ((exCycBP 6).runBP exEnv ⟨(exCycSt 6).logPotentials, List.replicate 24 0, [0, 3, 1, 0, 0, 7, 0, 0, -5, 2, 2, 0]⟩ 1 0) =
      [-5, 3, -7, 0, -7, 7, -8, 0, -10, 2, -6, 0] ∧
    ((exCycBP 6).flatBeliefs ((exCycBP 6).runBP exEnv ⟨lp', List.replicate 24 0, [0, 3, 1, 0, 0, -20, 0, 9, 9, 2, 2, 0]⟩ 1 0)).take 2 = [-5, 3] := by
  have hf : ∀ f ∈ List.range 6, exCycVar 6 0 ∈ (graphOf (exCycVars 6) (exCycHist 6)).allScopes.getD f [] → f = 0 ∨ f = 5 := by decide
  have hn : ∀ vs ∈ (graphOf (exCycVars 6) (exCycHist 6)).allScopes, exCycVar 6 0 ∈ vs → ∀ u ∈ vs, u = exCycVar 6 0 ∨ u = exCycVar 6 1 ∨ u = exCycVar 6 5 := by
    decide +kernel
  refine ⟨?_, ?_, by decide +kernel, by decide +kernel⟩
  · rintro u rfl f vs hfs hu
    have h6 : f < 6 := (List.getElem?_eq_some_iff.1 hfs).1
    rcases hf f (List.mem_range.2 h6) (by rw [getD_of_some hfs]; exact hu) with rfl | rfl <;> rfl
  · rintro u (rfl | ⟨vs, hvs, hw, x, hx, rfl⟩)
    · decide +kernel
    · rcases hn vs hvs hw u hx with rfl | rfl | rfl <;> decide +kernel

end PGMax
