import Verif.Lemmas.Same
import Verif.Lemmas.Moderate
import Verif.Props.C31_C33
import Verif.Lemmas.Example6

/-! # C48: bounds of beliefs; C49: the description of the factors does not matter; C50: neither do the other variable groups;
C51: BP can be set up -/

namespace PGMax

variable {κ κ' α : Type _} {vgs : List (VGroup κ)} {vgs' : List (VGroup κ')} {hist hist' : List (AddArg α)} {garbage garbage' : Garbage}
  {st : FGState κ α} {st' : FGState κ' α}

section
variable [Field α] [LinearOrder α] [IsStrictOrderedRing α]

/-- **C48.** After any number of iterations at any temperature and damping, from any messages, the belief of a variable in a state lies
between its evidence minus 1000 per factor that the variable is in, and its evidence. -/
theorem C48 (h : Compiled vgs hist garbage st) {state : BPState α} {T : α} {bp : BPFun κ α}
    (hbp : BP.create st state T = .ok bp) (env : Env α) (hseg : SegFits env (graphOf vgs hist)) (a : BPArrays α) (d : α) (n : Nat)
    (hlp : a.logPotentials.length = st.logPotentials.length) (hev : a.evidence.length = st.numVarStates)
    (hm : a.ftovMsgs.length = st.totalFactorNumStates) (v : Var) (start : Nat) (hv : st.varsToStarts v = some start) (s : Nat) (hs : s < v.n) :
    ∃ b, (bp.flatBeliefs (bp.runBP env a n d))[start + s]? = some b ∧
      readEv st.varsToStarts a.evidence v s - 1000 * ((edgesOf (graphOf vgs hist).allScopes v).length : α) ≤ b ∧
      b ≤ readEv st.varsToStarts a.evidence v s := by
  have hl : (bp.runBP env a n d).ftovMsgs.length = st.totalFactorNumStates := (C33 h hbp env a d n hlp hm).2.2.1.trans hm
  refine ⟨_, C34_flat h hbp _ hl hev v start hv s hs, ?_⟩
  have hmsg := fun f i (he : IsEdge (graphOf vgs hist).allScopes f i v) => (C31_run_partial h hbp env hseg a d n hlp hm f i v he).1 s hs
  show _ ≤ beliefOf _ (readEv st.varsToStarts a.evidence) _ v s ∧ beliefOf _ (readEv st.varsToStarts a.evidence) _ v s ≤ _
  generalize readMsgs (graphOf vgs hist).allScopes (bp.runBP env a n d).ftovMsgs = m at hmsg ⊢
  unfold beliefOf
  have key : ∀ L : List (Nat × Nat), (∀ e ∈ L, -1000 ≤ m e.1 e.2 s ∧ m e.1 e.2 s ≤ 0) →
      -(1000 * (L.length : α)) ≤ (L.map (fun e => m e.1 e.2 s)).sum ∧ (L.map (fun e => m e.1 e.2 s)).sum ≤ 0 := by
    intro L
    induction L with
    | nil => intro _; simp
    | cons e L ih =>
      intro hL
      obtain ⟨i1, i2⟩ := ih (fun x hx => hL x (List.mem_cons_of_mem _ hx))
      obtain ⟨e1, e2⟩ := hL e (by simp)
      simp only [List.map_cons, List.sum_cons, List.length_cons, Nat.cast_add, Nat.cast_one]
      constructor <;> linarith
  obtain ⟨k1, k2⟩ := key (edgesOf (graphOf vgs hist).allScopes v) (fun e he => hmsg e.1 e.2 ((mem_edgesOf _ _ _ _).1 he))
  constructor <;> linarith

/-- **C49.** Two graphs over arbitrary variable groups that have the same factors up to the order of their configurations, however
the factors are grouped: with the same evidence of each variable and the same messages, they have the same messages
after any number of iterations at any temperature and damping, and the same beliefs of each variable. -/
theorem C49 (h : Compiled vgs hist garbage st) (h' : Compiled vgs' hist' garbage' st') {state state' : BPState α} {T : α}
    {bp : BPFun κ α} {bp' : BPFun κ' α} (hbp : BP.create st state T = .ok bp) (hbp' : BP.create st' state' T = .ok bp') (env : Env α)
    (hfit : Fits env (graphOf vgs hist) T) (a a' : BPArrays α) (n : Nat) (d : α)
    (hlp : a.logPotentials.length = st.logPotentials.length) (hlp' : a'.logPotentials.length = st'.logPotentials.length)
    (hev : a.evidence.length = st.numVarStates) (hev' : a'.evidence.length = st'.numVarStates)
    (hm : a.ftovMsgs.length = st.totalFactorNumStates) (hmm : a'.ftovMsgs = a.ftovMsgs)
    (hsame : SameFactors (graphOf vgs hist) (graphOf vgs' hist') a.logPotentials a'.logPotentials)
    (heq : ∀ v start start', st.varsToStarts v = some start → st'.varsToStarts v = some start' → ∀ s < v.n,
      readEv st.varsToStarts a.evidence v s = readEv st'.varsToStarts a'.evidence v s) :
    (bp'.runBP env a' n d).ftovMsgs = (bp.runBP env a n d).ftovMsgs ∧
    ∀ v start start', st.varsToStarts v = some start → st'.varsToStarts v = some start' → ∀ s < v.n,
      (bp'.flatBeliefs (bp'.runBP env a' n d))[start' + s]? = (bp.flatBeliefs (bp.runBP env a n d))[start + s]? := by
  have hsc := hsame.scopes
  have htot : st'.totalFactorNumStates = st.totalFactorNumStates := by rw [h.totalStates, h'.totalStates, hsc]
  have hm' : a'.ftovMsgs.length = st'.totalFactorNumStates := by rw [hmm, htot, hm]
  have hfit' : Fits env (graphOf vgs' hist') T := by
    refine ⟨?_, fun hT => ?_⟩
    · rcases hfit.seg with hw | hw
      · exact .inl hw
      · right; rw [← hsc]; exact hw
    · have e : (graphOf vgs' hist').numParents = (graphOf vgs hist).numParents := by
        have h3 : (graphOf vgs hist).scopesOf .or ++ (graphOf vgs hist).scopesOf .and = (graphOf vgs' hist').scopesOf .or ++ (graphOf vgs' hist').scopesOf .and := by
          have := hsc
          simp only [FactorGraph.allScopes, FType.all, List.flatMap_cons, List.flatMap_nil, List.append_nil] at this
          exact (List.append_inj this (hsame.types .enum)).2
        unfold FactorGraph.numParents
        rw [h3]
      rw [e]; exact hfit.par hT
  have hmax : bp'.maxMsgSize = bp.maxMsgSize := by
    obtain ⟨u1, f1, i1, v1, e1, r1⟩ := h.maxMsgSize hbp
    obtain ⟨u2, f2, i2, v2, e2, r2⟩ := h'.maxMsgSize hbp'
    apply le_antisymm
    · rw [← r2]; exact u1 f2 i2 v2 (hsc ▸ e2)
    · rw [← r1]; exact u2 f1 i1 v1 (hsc ▸ e1)
  obtain ⟨l1, r1⟩ := h.run_read hbp env hfit a d hlp hev n hm
  obtain ⟨l2, r2⟩ := h'.run_read hbp' env hfit' a' d hlp' hev' n hm'
  have hE : ∀ f i v s, IsEdge (graphOf vgs hist).allScopes f i v → s < v.n →
      readEv st.varsToStarts a.evidence v s = readEv st'.varsToStarts a'.evidence v s := by
    intro f i v s he hs
    obtain ⟨vs, k1, k2⟩ := he
    obtain ⟨s1, hs1⟩ := h.scopeVars vs (List.mem_of_getElem? k1) v (List.mem_of_getElem? k2)
    obtain ⟨s2, hs2⟩ := h'.scopeVars vs (hsc ▸ List.mem_of_getElem? k1) v (List.mem_of_getElem? k2)
    exact heq v s1 s2 hs1 hs2 s hs
  have hmsgs : (bp'.runBP env a' n d).ftovMsgs = (bp.runBP env a n d).ftovMsgs := by
    apply eq_of_read (scopes := (graphOf vgs hist).allScopes)
    · rw [l2, htot, h.totalStates]
    · rw [l1, h.totalStates]
    · rw [← hsc, hmax, ← hsame.stepM, hmm] at r2
      exact r2.trans ((r1.trans (h.iterM_ev env T _ _ d hE n _)).symm)
  refine ⟨hmsgs, ?_⟩
  intro v start start' hv hv' s hs
  rw [C34_flat h hbp _ l1 hev v start hv s hs, C34_flat h' hbp' _ l2 hev' v start' hv' s hs, hmsgs, ← hsc]
  unfold beliefOf
  have : readEv st'.varsToStarts (bp'.runBP env a' n d).evidence v s = readEv st.varsToStarts (bp.runBP env a n d).evidence v s :=
    (heq v start start' hv hv' s hs).symm
  rw [this]

end

/-! ## C51 -/

/-- **C51, partial.** `BP` can be set up for a compiled graph if and only if the graph has a factor; without factors it raises
ValueError.
Missing: graphs without factors, see `C51_refuted`. -/
theorem C51_partial (h : Compiled vgs hist garbage st) (state : BPState α) (T : α) :
    ((∃ bp, BP.create st state T = .ok bp) ↔ (graphOf vgs hist).allScopes ≠ []) ∧
    ((graphOf vgs hist).allScopes = [] → BP.create st state T = .error .valueError) := by
  have e : FType.all.flatMap st.wiring.edgesNumStates = (graphOf vgs hist).allScopes.flatMap (fun vs => vs.map (·.n)) := by
    rw [h.st_eq]
    simp only [FactorGraph.allScopes, List.flatMap_assoc]
    refine List.flatMap_congr (fun t _ => ?_)
    exact mkWirings_edgesNumStates _ t
  have h0 : (graphOf vgs hist).allScopes = [] → BP.create st state T = .error .valueError := by
    intro h0
    unfold BP.create
    rw [e, h0]
    rfl
  refine ⟨⟨?_, ?_⟩, h0⟩
  · rintro ⟨bp, hbp⟩ hc
    rw [h0 hc] at hbp
    cases hbp
  · intro hne
    obtain ⟨vs, hvs⟩ := List.exists_mem_of_ne_nil _ hne
    have hvs0 : vs ≠ [] := by
      obtain ⟨t, -, h2⟩ := List.mem_flatMap.1 hvs
      obtain ⟨g, hg, h3⟩ := List.mem_flatMap.1 h2
      obtain ⟨hgt, hgv⟩ := h.fgValid t g hg
      rintro rfl
      by_cases ht : g.ftype = .enum
      · have hE := hgv.enumOk ht
        have := hE.width _ h3
        have := hE.cols
        simp at *
        omega
      · have := ((hgv.logicalOk ht).2 _ h3)
        simp [LogicalScope] at this
    unfold BP.create
    rw [e]
    cases hl : (graphOf vgs hist).allScopes.flatMap (fun vs => vs.map (·.n)) with
    | cons x xs => exact ⟨_, rfl⟩
    | nil =>
      rw [List.flatMap_eq_nil_iff] at hl
      exact absurd (List.map_eq_nil_iff.1 (hl vs hvs)) hvs0

/-- The exception: a graph of three variables without factors compiles, but `BP` raises ValueError. -/
theorem C51_refuted : ∃ st : FGState Nat ℚ, Compiled exVars [] 0 st ∧ ∀ state T, BP.create st state T = .error .valueError := by
  refine ⟨_, ⟨exVars_ok, by simp, ?_, rfl⟩, fun _ _ => rfl⟩
  intro g hg
  have : FType.all.flatMap (graphOf exVars ([] : List (AddArg ℚ))).groups = [] := rfl
  rw [this] at hg
  cases hg

/-- Non-vacuity of C51: the graph of `exHist` has factors. -/
example : ∃ bp, BP.create exState exBPState 0 = .ok bp := ((C51_partial exState_compiled exBPState 0).1).2 (by decide)

/-! ## C50 -/

section
variable [Field α] [LinearOrder α] [IsStrictOrderedRing α]

/-- **C50.** The order of the variable groups does not matter, nor do groups whose variables are in no factor: the same history of
`add_factors` over any other variable groups that contain the same variables compiles to a graph with the same log potentials and
messages; with the same evidence of each variable, the messages are the same after any number of iterations at any temperature and
damping, and so is the belief of each variable. -/
theorem C50 (h : Compiled vgs hist garbage st) (hok : VGroupsOk vgs')
    (hsub : ∀ g ∈ vgs, ∀ v ∈ g.variables, ∃ g' ∈ vgs', v ∈ g'.variables) (garbage' : Garbage) :
    ∃ st', Compiled vgs' hist garbage' st' ∧ st'.logPotentials = st.logPotentials ∧ st'.totalFactorNumStates = st.totalFactorNumStates ∧
      ∀ (state state' : BPState α) (T : α) (bp : BPFun κ α), BP.create st state T = .ok bp → ∃ bp', BP.create st' state' T = .ok bp' ∧
        ∀ (env : Env α), Fits env (graphOf vgs hist) T → ∀ (lp ev ev' ms : List α) (n : Nat) (d : α),
          lp.length = st.logPotentials.length → ev.length = st.numVarStates → ev'.length = st'.numVarStates →
          ms.length = st.totalFactorNumStates →
          (∀ v start start', st.varsToStarts v = some start → st'.varsToStarts v = some start' → ∀ s < v.n,
            readEv st.varsToStarts ev v s = readEv st'.varsToStarts ev' v s) →
          (bp'.runBP env ⟨lp, ms, ev'⟩ n d).ftovMsgs = (bp.runBP env ⟨lp, ms, ev⟩ n d).ftovMsgs ∧
          ∀ v start, st.varsToStarts v = some start → ∃ start', st'.varsToStarts v = some start' ∧ ∀ s < v.n,
            (bp'.flatBeliefs (bp'.runBP env ⟨lp, ms, ev'⟩ n d))[start' + s]? = (bp.flatBeliefs (bp.runBP env ⟨lp, ms, ev⟩ n d))[start + s]? := by
  obtain ⟨st', hc, e1, e2⟩ := h.regroup hok hsub garbage'
  refine ⟨st', hc, e1, e2, ?_⟩
  intro state state' T bp hbp
  have hsame := fun lp => (SameGroups.graphOf (α := α) vgs vgs' hist).factors lp
  have hne := ((C51_partial h state T).1).1 ⟨bp, hbp⟩
  rw [(hsame []).scopes] at hne
  obtain ⟨bp', hbp'⟩ := ((C51_partial hc state' T).1).2 hne
  refine ⟨bp', hbp', ?_⟩
  intro env hfit lp ev ev' ms n d hlp hev hev' hm heq
  obtain ⟨r1, r2⟩ := C49 h hc hbp hbp' env hfit ⟨lp, ms, ev⟩ ⟨lp, ms, ev'⟩ n d hlp (by rw [e1]; exact hlp) hev hev' hm rfl (hsame lp) heq
  refine ⟨r1, ?_⟩
  intro v start hv
  have hR : ∃ i : Nat, (allVars vgs)[i]? = some v := by
    obtain ⟨i, hi, -⟩ := (h.starts_iff v start).1 hv
    exact ⟨i, hi⟩
  obtain ⟨i, hi⟩ := hR
  obtain ⟨g, hg, hvg⟩ := List.mem_flatMap.1 (List.mem_of_getElem? hi)
  obtain ⟨g', hg', hvg'⟩ := hsub g hg v hvg
  obtain ⟨j, hj⟩ := List.mem_iff_getElem?.1 (show v ∈ allVars vgs' from List.mem_flatMap.2 ⟨g', hg', hvg'⟩)
  have hv' := (hc.starts_iff v _).2 ⟨j, hj, rfl⟩
  exact ⟨_, hv', r2 v start _ hv hv'⟩

end

/-! ## Non-vacuity -/

theorem exFits : Fits exEnv (graphOf exVars exHist) 0 := ⟨.inl rfl, fun _ => by decide⟩

/-- Non-vacuity of C48: three damped iterations on the graph of `exHist`; `v1` is in four factors. -/
example : ∃ b, (exBP.flatBeliefs (exBP.runBP exEnv ⟨[5, -7, 3, 11], List.replicate 18 2, [1, 2, 3, 4, 5, 6]⟩ 3 (1 / 3)))[2]? = some b ∧
    3 - 1000 * 4 ≤ b ∧ b ≤ 3 := by
  obtain ⟨b, h1, h2, h3⟩ := C48 exState_compiled exBP_create exEnv (.inl rfl) ⟨[5, -7, 3, 11], List.replicate 18 2, [1, 2, 3, 4, 5, 6]⟩ (1 / 3) 3
    rfl rfl rfl (exVar 1) 2 rfl 0 (by decide)
  have e1 : readEv exState.varsToStarts [1, 2, 3, 4, 5, 6] (exVar 1) 0 = 3 := by decide +kernel
  have e2 : (edgesOf (graphOf exVars exHist).allScopes (exVar 1)).length = 4 := by decide +kernel
  simp only [e1, e2] at h2 h3
  exact ⟨b, h1, h2, h3⟩

/-- Non-vacuity of C49: the graphs of `exHist` and `exHist6` with potentials that differ between configurations. -/
example : SameFactors (graphOf exVars exHist) (graphOf exVars6 exHist6) [5, -7, 3, 11] [5, -7, 11, 3] ∧
    (exBP6 0).runBP exEnv ⟨[5, -7, 11, 3], List.replicate 18 2, [9, 9, 9, 1, 2, 3, 4, 5, 6]⟩ 3 (1 / 3)
      = ⟨[5, -7, 11, 3], (exBP.runBP exEnv ⟨[5, -7, 3, 11], List.replicate 18 2, [1, 2, 3, 4, 5, 6]⟩ 3 (1 / 3)).ftovMsgs, [9, 9, 9, 1, 2, 3, 4, 5, 6]⟩ := by
  have hs : SameFactors (graphOf exVars exHist) (graphOf exVars6 exHist6) [5, -7, 3, 11] [5, -7, 11, 3] := by
    refine ⟨?_, by intro t; cases t <;> rfl⟩
    show List.Forall₂ SFac.Same
      [⟨[exVar 0, exVar 1], [([0, 0], 5), ([1, 1], -7)]⟩, ⟨[exVar 1, exVar 2], [([0, 0], 3), ([1, 1], 11)]⟩,
        ⟨[exVar 0, exVar 1], orRows 1⟩, ⟨[exVar 1, exVar 0, exVar 2], andRows 2⟩]
      [⟨[exVar 0, exVar 1], [([0, 0], 5), ([1, 1], -7)]⟩, ⟨[exVar 1, exVar 2], [([1, 1], 11), ([0, 0], 3)]⟩,
        ⟨[exVar 0, exVar 1], orRows 1⟩, ⟨[exVar 1, exVar 0, exVar 2], andRows 2⟩]
    refine .cons ⟨rfl, .refl _⟩ (.cons ⟨rfl, List.Perm.swap _ _ _⟩ (.cons ⟨rfl, .refl _⟩ (.cons ⟨rfl, .refl _⟩ .nil)))
  refine ⟨hs, ?_⟩
  have := (C49 exState_compiled exState6_compiled exBP_create (exBP6_create 0) exEnv exFits ⟨[5, -7, 3, 11], List.replicate 18 2, [1, 2, 3, 4, 5, 6]⟩
    ⟨[5, -7, 11, 3], List.replicate 18 2, [9, 9, 9, 1, 2, 3, 4, 5, 6]⟩ 3 (1 / 3) rfl rfl rfl rfl rfl rfl hs (by
      intro v start start' hv hv' s hs
      obtain ⟨i, hi, hst⟩ := (exState_compiled.starts_iff v start).1 hv
      have hlt : i < 3 := (List.getElem?_eq_some_iff.1 hi).1
      have hcases : v = exVar 0 ∨ v = exVar 1 ∨ v = exVar 2 := by
        match i, hlt, hi with
        | 0, _, hi => cases hi; exact .inl rfl
        | 1, _, hi => cases hi; exact .inr (.inl rfl)
        | 2, _, hi => cases hi; exact .inr (.inr rfl)
      rcases hcases with rfl | rfl | rfl <;> (change s < 2 at hs; rcases (by omega : s = 0 ∨ s = 1) with rfl | rfl) <;> decide +kernel)).1
  rw [← this]
  rfl

/-- Non-vacuity of C50: one more variable group in front of those of `exHist`. -/
example : VGroupsOk exVars6 ∧ ∀ g ∈ exVars, ∀ v ∈ g.variables, ∃ g' ∈ exVars6, v ∈ g'.variables :=
  ⟨exVars6_ok, fun g hg v hv => ⟨g, List.mem_cons_of_mem _ hg, hv⟩⟩

end PGMax
