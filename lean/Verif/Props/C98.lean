import Verif.Lemmas.Retype
import Verif.Props.C72
import Verif.Props.C37_C54
import Verif.Props.C76

/-! # C98: OR and AND factors and the enumeration factors that list their configurations -/

namespace PGMax

section
variable {κ κ' α : Type _} {vgs : List (VGroup κ)} {vgs' : List (VGroup κ')} {hist hist' : List (AddArg α)} {garbage garbage' : Garbage}
  {st : FGState κ α} {st' : FGState κ' α} [Field α] [LinearOrder α] [IsStrictOrderedRing α]

theorem maxOf_perm {l l' : List α} (h : l.Perm l') : maxOf 0 l = maxOf 0 l' := maxOf_mem_congr 0 fun _ => h.mem_iff

/-- Initial messages of the second graph are as large as those of the first. -/
theorem init_models {R : Renaming} {Fs Fs' : List (SFac α)} {k : Nat → α} (hR : R.Models Fs Fs' k) {vars vars' : Finset Var} (hvars : R.VarsOk vars vars')
    (hin : ∀ f i v, IsEdge (Fs.map (·.scope)) f i v → v ∈ vars) {m m' : Msgs α} (hsm : R.SameMsgs (Fs.map (·.scope)) m m') {c : α}
    (hinit : ∀ f i v, IsEdge (Fs.map (·.scope)) f i v → ∃ s < v.n, c ≤ m f i s) (f i : Nat) (v : Var) (he : IsEdge (Fs'.map (·.scope)) f i v) :
    ∃ s < v.n, c ≤ m' f i s := by
  obtain ⟨f, i, v, he0, rfl, rfl, rfl⟩ := hR.edge_surj he
  obtain ⟨s, hs, hle⟩ := hinit f i v he0
  have hvv := hin f i v he0
  exact ⟨R.state v s, by rw [hvars.size v hvv]; exact (hvars.states v hvv s).1 hs, by rw [hsm f i v s he0 hs]; exact hle⟩

/-- **C98 (1), partial.** Two graphs whose factors are the same tables of configurations (up to names, numbers, order and constants), where a factor may be
of type OR or AND in one graph and be listed in an enumeration factor in the other: at temperature 0, from corresponding messages and
evidence of moderate size, all messages and beliefs correspond after any number of iterations, at any damping.
`[missing: larger numbers: C98_refuted]` -/
theorem C98_partial (h : Compiled vgs hist garbage st) (h' : Compiled vgs' hist' garbage' st') {state state' : BPState α}
    {bp : BPFun κ α} {bp' : BPFun κ' α} (hbp : BP.create st state 0 = .ok bp) (hbp' : BP.create st' state' 0 = .ok bp') (env : Env α)
    (hfit : Fits env (graphOf vgs hist) (0 : α)) (hfit' : Fits env (graphOf vgs' hist') (0 : α)) (a a' : BPArrays α) (n : Nat) (d : α)
    (hlp : a.logPotentials.length = st.logPotentials.length) (hlp' : a'.logPotentials.length = st'.logPotentials.length)
    (hm : a.ftovMsgs.length = st.totalFactorNumStates) (hm' : a'.ftovMsgs.length = st'.totalFactorNumStates)
    (hev : a.evidence.length = st.numVarStates) (hev' : a'.evidence.length = st'.numVarStates)
    (R : Renaming) (k : Nat → α) (hR : R.Models ((graphOf vgs hist).factors a.logPotentials) ((graphOf vgs' hist').factors a'.logPotentials) k)
    (hvars : R.VarsOk (graphVars vgs) (graphVars vgs'))
    (hse : R.SameVals (graphVars vgs) (readEv st.varsToStarts a.evidence) (readEv st'.varsToStarts a'.evidence))
    (hsm : R.SameMsgs (graphOf vgs hist).allScopes (readMsgs (graphOf vgs hist).allScopes a.ftovMsgs) (readMsgs (graphOf vgs' hist').allScopes a'.ftovMsgs))
    (b b' : Nat → α) (hmod : Tame (graphOf vgs hist) a.logPotentials (readEv st.varsToStarts a.evidence) d b)
    (hmod' : Tame (graphOf vgs' hist') a'.logPotentials (readEv st'.varsToStarts a'.evidence) d b')
    (hlmod : LogicalTame (graphOf vgs hist) (readEv st.varsToStarts a.evidence) b)
    (hlmod' : LogicalTame (graphOf vgs' hist') (readEv st'.varsToStarts a'.evidence) b')
    (hinit : ∀ f i v, IsEdge (graphOf vgs hist).allScopes f i v → ∃ s < v.n, -100000 ≤ readMsgs (graphOf vgs hist).allScopes a.ftovMsgs f i s)
    (hmild : Mild (graphOf vgs hist).allScopes b (readMsgs (graphOf vgs hist).allScopes a.ftovMsgs))
    (hmild' : Mild (graphOf vgs' hist').allScopes b' (readMsgs (graphOf vgs' hist').allScopes a'.ftovMsgs)) :
    R.SameMsgs (graphOf vgs hist).allScopes (readMsgs (graphOf vgs hist).allScopes (bp.runBP env a n d).ftovMsgs)
      (readMsgs (graphOf vgs' hist').allScopes (bp'.runBP env a' n d).ftovMsgs) ∧
    ∀ v ∈ graphVars vgs, ∃ start start', st.varsToStarts v = some start ∧ st'.varsToStarts (R.var v) = some start' ∧ ∀ s < v.n,
      ∃ b, (bp.flatBeliefs (bp.runBP env a n d))[start + s]? = some b ∧ (bp'.flatBeliefs (bp'.runBP env a' n d))[start' + R.state v s]? = some b := by
  have hsc := (graphOf vgs hist).factors_scopes a.logPotentials
  have hsc' := (graphOf vgs' hist').factors_scopes a'.logPotentials
  have hin : ∀ f i v, IsEdge (((graphOf vgs hist).factors a.logPotentials).map (·.scope)) f i v → v ∈ graphVars vgs := by
    rw [hsc]; exact h.edge_vars
  have hsm1 := hsm
  rw [← hsc, ← hsc'] at hsm1
  have hinit' : ∀ f i v, IsEdge (graphOf vgs' hist').allScopes f i v → ∃ s < v.n, -100000 ≤ readMsgs (graphOf vgs' hist').allScopes a'.ftovMsgs f i s := by
    intro f i v he
    rw [← hsc'] at he ⊢
    exact init_models hR hvars hin hsm1 (by rw [hsc]; exact hinit) f i v he
  have r1 := C37_tame_partial h hbp env hfit a n d hlp hev hm b hmod hlmod hinit hmild
  have r2 := C37_tame_partial h' hbp' env hfit' a' n d hlp' hev' hm' b' hmod' hlmod' hinit' hmild'
  rw [tbRun_sumRun] at r1 r2
  have hrun := hR.sumRun hvars hin (fun F hF => by
      obtain ⟨f, hf⟩ := List.mem_iff_getElem?.1 hF
      exact h.rowsFit a.logPotentials hf) (maxOf 0) (fun _ _ => maxOf_perm) (fun l hl c => by simpa using maxOf_map_add l id c 0 hl) hse d n hsm1
  have hC : R.SameMsgs (graphOf vgs hist).allScopes (readMsgs (graphOf vgs hist).allScopes (bp.runBP env a n d).ftovMsgs)
      (readMsgs (graphOf vgs' hist').allScopes (bp'.runBP env a' n d).ftovMsgs) := by
    intro f i v s he hs
    have he1 := he
    rw [← hsc] at he1
    have he2 := hR.scopes f i v he1
    rw [hsc'] at he2
    have hvv := h.edge_vars _ _ _ he
    have := hrun f i v s he1 hs
    rw [hsc, hsc'] at this
    rw [r1 f i v s he hs, r2 _ _ _ _ he2 (by rw [hvars.size v hvv]; exact (hvars.states v hvv s).1 hs)]
    exact this
  refine ⟨hC, fun v hv => ?_⟩
  have l1 := (h.run_read hbp env hfit a d hlp hev n hm).1
  have l2 := (h'.run_read hbp' env hfit' a' d hlp' hev' n hm').1
  obtain ⟨g, hg, hvg⟩ := mem_graphVars.1 hv
  obtain ⟨start, hst⟩ := h.mem_starts hg hvg
  obtain ⟨g', hg', hvg'⟩ := mem_graphVars.1 (hvars.known v hv)
  obtain ⟨start', hst'⟩ := h'.mem_starts hg' hvg'
  refine ⟨start, start', hst, hst', fun s hs => ⟨_, C34_flat h hbp _ l1 hev v start hst s hs, ?_⟩⟩
  rw [C34_flat h' hbp' _ l2 hev' (R.var v) start' hst' (R.state v s) (by rw [hvars.size v hv]; exact (hvars.states v hv s).1 hs)]
  have := hR.beliefOf hvars hin hse (m := readMsgs (graphOf vgs hist).allScopes (bp.runBP env a n d).ftovMsgs) (by rw [hsc]; exact hC) v hv s hs
  rw [hsc, hsc'] at this
  exact congrArg some this

/-- **C98 (2), partial.** The same for small numbers: evidence of at most `E`, log potentials of at most `P`, variables that occur at most `D` times in
factors, factors of at most `K` variables, where `P + K (E + 1000 D)` is at most 99000 (for damping 0). Then the numbers of the other
graph are small as well, and nothing else is needed. `[missing: larger numbers: C98_refuted]` -/
theorem C98_small_partial (h : Compiled vgs hist garbage st) (h' : Compiled vgs' hist' garbage' st') {state state' : BPState α}
    {bp : BPFun κ α} {bp' : BPFun κ' α} (hbp : BP.create st state 0 = .ok bp) (hbp' : BP.create st' state' 0 = .ok bp') (env : Env α)
    (hfit : Fits env (graphOf vgs hist) (0 : α)) (hfit' : Fits env (graphOf vgs' hist') (0 : α)) (a a' : BPArrays α) (n : Nat) {d E P : α} {D K : Nat}
    (hlp : a.logPotentials.length = st.logPotentials.length) (hlp' : a'.logPotentials.length = st'.logPotentials.length)
    (hm : a.ftovMsgs.length = st.totalFactorNumStates) (hm' : a'.ftovMsgs.length = st'.totalFactorNumStates)
    (hev : a.evidence.length = st.numVarStates) (hev' : a'.evidence.length = st'.numVarStates)
    (R : Renaming) (hR : R.Models ((graphOf vgs hist).factors a.logPotentials) ((graphOf vgs' hist').factors a'.logPotentials) (fun _ => 0))
    (hvars : R.VarsOk (graphVars vgs) (graphVars vgs'))
    (hse : R.SameVals (graphVars vgs) (readEv st.varsToStarts a.evidence) (readEv st'.varsToStarts a'.evidence))
    (hsm : R.SameMsgs (graphOf vgs hist).allScopes (readMsgs (graphOf vgs hist).allScopes a.ftovMsgs) (readMsgs (graphOf vgs' hist').allScopes a'.ftovMsgs))
    (hsmall : SmallNumbers ((graphOf vgs hist).factors a.logPotentials) (readEv st.varsToStarts a.evidence) d E P D K)
    (hinit : ∀ f i v, IsEdge (graphOf vgs hist).allScopes f i v → ∃ s < v.n, -100000 ≤ readMsgs (graphOf vgs hist).allScopes a.ftovMsgs f i s) :
    R.SameMsgs (graphOf vgs hist).allScopes (readMsgs (graphOf vgs hist).allScopes (bp.runBP env a n d).ftovMsgs)
      (readMsgs (graphOf vgs' hist').allScopes (bp'.runBP env a' n d).ftovMsgs) ∧
    ∀ v ∈ graphVars vgs, ∃ start start', st.varsToStarts v = some start ∧ st'.varsToStarts (R.var v) = some start' ∧ ∀ s < v.n,
      ∃ b, (bp.flatBeliefs (bp.runBP env a n d))[start + s]? = some b ∧ (bp'.flatBeliefs (bp'.runBP env a' n d))[start' + R.state v s]? = some b := by
  have hin : ∀ f i v, IsEdge (((graphOf vgs hist).factors a.logPotentials).map (·.scope)) f i v → v ∈ graphVars vgs := by
    rw [(graphOf vgs hist).factors_scopes]; exact h.edge_vars
  obtain ⟨m1, m2⟩ := hsmall.tame h
  obtain ⟨m1', m2'⟩ := (hR.small hvars hin hse hsmall).tame h'
  exact C98_partial h h' hbp hbp' env hfit hfit' a a' n d hlp hlp' hm hm' hev hev' R _ hR hvars hse hsm (fun _ => 1000) (fun _ => 1000) m1.tame m1'.tame m2.tame m2'.tame
    hinit (fun _ _ _ _ => .inl rfl) (fun _ _ _ _ => .inl rfl)

end

section
variable {κ κ' : Type _} {vgs : List (VGroup κ)} {vgs' : List (VGroup κ')} {hist hist' : List (AddArg ℝ)} {garbage garbage' : Garbage}
  {st : FGState κ ℝ} {st' : FGState κ' ℝ}

theorem lse_perm (T : ℝ) {l l' : List ℝ} (h : l.Perm l') : lse T l = lse T l' := by
  unfold lse
  rw [(h.map _).sum_eq]

/-- **C98 (3), partial.** The same at a positive temperature `T`, up to the small number `exp (-1e5)` that the code adds under the logarithm in messages of
enumeration factors: after `n` iterations, corresponding messages differ by at most `2 T exp (-1e5) Σ (2 L) ^ k` (`k < n`), where at most `L` messages go into
one message, and corresponding beliefs by at most this for each factor of the variable. `[missing: larger numbers, as for C54_refuted]` -/
theorem C98_sum_partial (h : Compiled vgs hist garbage st) (h' : Compiled vgs' hist' garbage' st') {state state' : BPState ℝ} {T : ℝ} (hT : 0 < T)
    {bp : BPFun κ ℝ} {bp' : BPFun κ' ℝ} (hbp : BP.create st state T = .ok bp) (hbp' : BP.create st' state' T = .ok bp') (env : Env ℝ)
    (hexp : env.exp = Real.exp) (hlog : env.log = Real.log)
    (hfit : Fits env (graphOf vgs hist) T) (hfit' : Fits env (graphOf vgs' hist') T) (a a' : BPArrays ℝ) (n : Nat) {d E P : ℝ} {D K : Nat}
    (hlp : a.logPotentials.length = st.logPotentials.length) (hlp' : a'.logPotentials.length = st'.logPotentials.length)
    (hm : a.ftovMsgs.length = st.totalFactorNumStates) (hm' : a'.ftovMsgs.length = st'.totalFactorNumStates)
    (hev : a.evidence.length = st.numVarStates) (hev' : a'.evidence.length = st'.numVarStates)
    (R : Renaming) (hR : R.Models ((graphOf vgs hist).factors a.logPotentials) ((graphOf vgs' hist').factors a'.logPotentials) (fun _ => 0))
    (hvars : R.VarsOk (graphVars vgs) (graphVars vgs'))
    (hse : R.SameVals (graphVars vgs) (readEv st.varsToStarts a.evidence) (readEv st'.varsToStarts a'.evidence))
    (hsm : R.SameMsgs (graphOf vgs hist).allScopes (readMsgs (graphOf vgs hist).allScopes a.ftovMsgs) (readMsgs (graphOf vgs' hist').allScopes a'.ftovMsgs))
    (hsmall : SmallNumbers ((graphOf vgs hist).factors a.logPotentials) (readEv st.varsToStarts a.evidence) d E P D K)
    (hinit : ∀ f i v, IsEdge (graphOf vgs hist).allScopes f i v → ∃ s < v.n, -100000 ≤ readMsgs (graphOf vgs hist).allScopes a.ftovMsgs f i s)
    {L : ℝ} (hL1 : 1 ≤ L) (hL : ∀ vs ∈ (graphOf vgs hist).allScopes, ∀ i < vs.length, (inputsBut (graphOf vgs hist).allScopes vs i : ℝ) ≤ L) :
    (∀ f i v s, IsEdge (graphOf vgs hist).allScopes f i v → s < v.n →
      |readMsgs (graphOf vgs' hist').allScopes (bp'.runBP env a' n d).ftovMsgs (R.fac f) (R.pos f i) (R.state v s)
        - readMsgs (graphOf vgs hist).allScopes (bp.runBP env a n d).ftovMsgs f i s| ≤ 2 * (T * Real.exp (-100000) * ∑ k ∈ Finset.range n, (2 * L) ^ k)) ∧
    ∀ v ∈ graphVars vgs, ∃ start start', st.varsToStarts v = some start ∧ st'.varsToStarts (R.var v) = some start' ∧ ∀ s < v.n,
      ∃ b b', (bp.flatBeliefs (bp.runBP env a n d))[start + s]? = some b ∧ (bp'.flatBeliefs (bp'.runBP env a' n d))[start' + R.state v s]? = some b' ∧
        |b' - b| ≤ (edgesOf (graphOf vgs hist).allScopes v).length * (2 * (T * Real.exp (-100000) * ∑ k ∈ Finset.range n, (2 * L) ^ k)) := by
  have hsc := (graphOf vgs hist).factors_scopes a.logPotentials
  have hsc' := (graphOf vgs' hist').factors_scopes a'.logPotentials
  have hin : ∀ f i v, IsEdge (((graphOf vgs hist).factors a.logPotentials).map (·.scope)) f i v → v ∈ graphVars vgs := by
    rw [hsc]; exact h.edge_vars
  have hsm1 := hsm
  rw [← hsc, ← hsc'] at hsm1
  have hinit' : ∀ f i v, IsEdge (graphOf vgs' hist').allScopes f i v → ∃ s < v.n, -100000 ≤ readMsgs (graphOf vgs' hist').allScopes a'.ftovMsgs f i s := by
    intro f i v he
    rw [← hsc'] at he ⊢
    exact init_models hR hvars hin hsm1 (by rw [hsc]; exact hinit) f i v he
  have hL' : ∀ vs ∈ (graphOf vgs' hist').allScopes, ∀ i < vs.length, (inputsBut (graphOf vgs' hist').allScopes vs i : ℝ) ≤ L := by
    intro ws hws i' hi'
    obtain ⟨f', hf'⟩ := List.mem_iff_getElem?.1 hws
    have he' : IsEdge (((graphOf vgs' hist').factors a'.logPotentials).map (·.scope)) f' i' ws[i'] := by
      rw [hsc']; exact ⟨ws, hf', List.getElem?_eq_getElem hi'⟩
    obtain ⟨f, i, v, he, rfl, rfl, hw⟩ := hR.edge_surj he'
    obtain ⟨F, hF, hi⟩ := he.facs
    obtain ⟨F', hF'⟩ := hR.at hF
    have e : F'.scope = ws := by
      rw [← hsc', List.getElem?_map, hF'] at hf'
      exact Option.some.inj hf'
    have := hR.inputsBut hvars hin hF hF' i
    rw [hsc, hsc', e] at this
    rw [this]
    refine hL F.scope ?_ i (List.getElem?_eq_some_iff.1 hi).1
    rw [← hsc]
    exact List.mem_map.2 ⟨F, List.mem_of_getElem? hF, rfl⟩
  have m1 := (hsmall.tame h).1
  have m1' := ((hR.small hvars hin hse hsmall).tame h').1
  have r1 := C54_partial h hT hbp env hexp hlog hfit a n d hlp hev hm m1 hinit hL1 hL
  have r2 := C54_partial h' hT hbp' env hexp hlog hfit' a' n d hlp' hev' hm' m1' hinit' hL1 hL'
  have hrun := hR.sumRun hvars hin (fun F hF => by
      obtain ⟨f, hf⟩ := List.mem_iff_getElem?.1 hF
      exact h.rowsFit a.logPotentials hf) (lse T) (fun _ _ => lse_perm T) (fun l hl c => lse_shift hT hl c) hse d n hsm1
  generalize T * Real.exp (-100000) * ∑ k ∈ Finset.range n, (2 * L) ^ k = δ at r1 r2 ⊢
  have hC : ∀ f i v s, IsEdge (graphOf vgs hist).allScopes f i v → s < v.n →
      |readMsgs (graphOf vgs' hist').allScopes (bp'.runBP env a' n d).ftovMsgs (R.fac f) (R.pos f i) (R.state v s)
        - readMsgs (graphOf vgs hist).allScopes (bp.runBP env a n d).ftovMsgs f i s| ≤ 2 * δ := by
    intro f i v s he hs
    have he1 := he
    rw [← hsc] at he1
    have he2 := hR.scopes f i v he1
    rw [hsc'] at he2
    have hvv := h.edge_vars _ _ _ he
    have h3 := hrun f i v s he1 hs
    rw [hsc, hsc'] at h3
    have h1 := abs_le.1 (r1 f i v s he hs)
    have h2 := abs_le.1 (r2 _ _ _ _ he2 (by rw [hvars.size v hvv]; exact (hvars.states v hvv s).1 hs))
    rw [h3] at h2
    rw [abs_le]
    constructor <;> linarith [h1.1, h1.2, h2.1, h2.2]
  refine ⟨hC, fun v hv => ?_⟩
  have l1 := (h.run_read hbp env hfit a d hlp hev n hm).1
  have l2 := (h'.run_read hbp' env hfit' a' d hlp' hev' n hm').1
  obtain ⟨g, hg, hvg⟩ := mem_graphVars.1 hv
  obtain ⟨start, hst⟩ := h.mem_starts hg hvg
  obtain ⟨g', hg', hvg'⟩ := mem_graphVars.1 (hvars.known v hv)
  obtain ⟨start', hst'⟩ := h'.mem_starts hg' hvg'
  refine ⟨start, start', hst, hst', fun s hs => ⟨_, _, C34_flat h hbp _ l1 hev v start hst s hs,
    C34_flat h' hbp' _ l2 hev' (R.var v) start' hst' (R.state v s) (by rw [hvars.size v hv]; exact (hvars.states v hv s).1 hs), ?_⟩⟩
  have hp := hR.edges hvars hin v hv
  rw [hsc, hsc'] at hp
  unfold beliefOf
  show |readEv st'.varsToStarts a'.evidence _ _ + _ - (readEv st.varsToStarts a.evidence _ _ + _)| ≤ _
  rw [hse v hv s hs, add_sub_add_left_eq_sub, ← (hp.map _).sum_eq, List.map_map]
  have key : ∀ l : List (Nat × Nat), (∀ e ∈ l, IsEdge (graphOf vgs hist).allScopes e.1 e.2 v) →
      |(l.map ((fun e : Nat × Nat => readMsgs (graphOf vgs' hist').allScopes (bp'.runBP env a' n d).ftovMsgs e.1 e.2 (R.state v s)) ∘
          fun e => (R.fac e.1, R.pos e.1 e.2))).sum
        - (l.map (fun e => readMsgs (graphOf vgs hist).allScopes (bp.runBP env a n d).ftovMsgs e.1 e.2 s)).sum| ≤ l.length * (2 * δ) := by
    intro l
    induction l with
    | nil => intro _; simp
    | cons e l ih =>
      intro hl
      have i1 := abs_le.1 (ih (fun e he => hl e (by simp [he])))
      have i2 := abs_le.1 (hC e.1 e.2 v s (hl e (by simp)) hs)
      simp only [List.map_cons, List.sum_cons, List.length_cons, Function.comp_apply]
      push_cast
      rw [abs_le]
      constructor <;> linarith [i1.1, i1.2, i2.1, i2.2]
  exact key _ (fun e he => (mem_edgesOf _ _ _ _).1 he)

end

/-! ## Refutation for large numbers -/

/-- The enumeration factor that lists the configurations of the OR factor of `exPar`. -/
def exParE : List (AddArg ℚ) := [.one ⟨5, .enum, .enumGroup, [[exVar 0, exVar 1, exVar 2]], ⟨3, [[0, 0, 0], [1, 0, 1], [0, 1, 1], [1, 1, 1]]⟩, [0, 0, 0, 0]⟩]

/-- **C98 does not hold for large numbers.** An OR factor and the enumeration factor that lists its configurations, with evidence `-2e5` against `v1 = 1`:
the beliefs of all variables except the child differ after one iteration. -/
theorem C98_refuted :
    (graphOf exVars exPar).factors (exIsoSt exPar).logPotentials = (graphOf exVars exParE).factors (exIsoSt exParE).logPotentials ∧
    (graphOf exVars exPar).fgState 0 = .ok (exIsoSt exPar) ∧ (graphOf exVars exParE).fgState 0 = .ok (exIsoSt exParE) ∧
    BP.create (exIsoSt exPar) exBPState 0 = .ok (exIsoBP exPar) ∧ BP.create (exIsoSt exParE) exBPState 0 = .ok (exIsoBP exParE) ∧
    exIsoBeliefs exPar [0, 5, 0, -200000, 0, 1] 1 = [0, 5, 0, -200000, -5, 1] ∧
    exIsoBeliefs exParE [0, 5, 0, -200000, 0, 1] 1 = [-1, 5, -1000, -200000, -5, 1] := by
  refine ⟨rfl, rfl, rfl, rfl, rfl, ?_, ?_⟩
  · decide +kernel
  · decide +kernel

/-! ## Non-vacuity -/

/-- The configurations of an OR factor listed in an enumeration factor, and an AND factor. -/
noncomputable def exReA : List (AddArg ℝ) := [.one ⟨4, .enum, .enumGroup, [[exVar 0, exVar 1, exVar 2]], ⟨3, [[1, 1, 1], [0, 0, 0], [1, 0, 1], [0, 1, 1]]⟩, [0, 0, 0, 0]⟩,
  .one ⟨5, .and, .single, [[exVar 2, exVar 1]], ⟨0, []⟩, []⟩]
/-- The other way round. -/
noncomputable def exReB : List (AddArg ℝ) := [.one ⟨4, .enum, .enumGroup, [[exVar 2, exVar 1]], ⟨2, [[1, 1], [0, 0]]⟩, [0, 0]⟩,
  .one ⟨5, .or, .single, [[exVar 0, exVar 1, exVar 2]], ⟨0, []⟩, []⟩]

/-- A state for histories that cannot be compiled. -/
noncomputable def exReNone : FGState Nat ℝ := ⟨[], fun _ => none, 0, 0, fun _ => (0, 0), fun _ => (0, 0), fun _ => none, [],
  ⟨⟨[], [], []⟩, ⟨[], [], [], [], 1⟩, ⟨[], [], [], [], 1⟩⟩⟩

/-- The compiled state of a history. -/
noncomputable def exReSt (hist : List (AddArg ℝ)) : FGState Nat ℝ :=
  match (graphOf exVars hist).fgState 0 with
  | .ok st => st
  | .error _ => exReNone

/-- The default BP state. -/
noncomputable def exReState (hist : List (AddArg ℝ)) : BPState ℝ :=
  match bpStateOf 1 (exReSt hist) with
  | .ok s => s
  | .error _ => ⟨⟨0, []⟩, ⟨0, []⟩, ⟨0, []⟩⟩

/-- Belief propagation at temperature `T`. -/
noncomputable def exReBP (hist : List (AddArg ℝ)) (T : ℝ) : BPFun Nat ℝ :=
  match BP.create (exReSt hist) (exReState hist) T with
  | .ok bp => bp
  | .error _ => ⟨exReSt hist, exReState hist, [], 0, [], 0⟩

/-- The factors change places. -/
def exReR : Renaming := ⟨Equiv.swap 0 1, fun _ => Equiv.refl _, id, fun _ => Equiv.refl _⟩

theorem exReA_compiled : Compiled exVars exReA 0 (exReSt exReA) where
  vgroups := exVars_ok
  valid := by
    simp only [exReA, List.mem_cons, List.not_mem_nil, or_false, forall_eq_or_imp, forall_eq, AddArg.flat]
    refine ⟨?_, ?_⟩
    · refine ⟨by decide, by decide, fun _ => ⟨by decide, by decide, by decide, ?_, by rfl⟩, fun h => absurd rfl h⟩
      intro vs hvs r hr
      simp only [List.mem_cons, List.not_mem_nil, or_false] at hvs hr
      subst hvs
      rcases hr with rfl | rfl | rfl | rfl <;> simp [exVar]
    · exact ⟨by decide, by decide, (fun h => by cases h), fun _ => ⟨rfl, by unfold LogicalScope; decide⟩⟩
  ids := by
    have e : FType.all.flatMap (graphOf exVars exReA).groups = [⟨4, .enum, .enumGroup, [[exVar 0, exVar 1, exVar 2]], ⟨3, [[1, 1, 1], [0, 0, 0], [1, 0, 1], [0, 1, 1]]⟩, [0, 0, 0, 0]⟩,
      ⟨5, .and, .single, [[exVar 2, exVar 1]], ⟨0, []⟩, []⟩] := rfl
    rw [e]
    intro g hg k hk hid
    simp only [List.mem_cons, List.not_mem_nil, or_false] at hg hk
    rcases hg with rfl | rfl <;> rcases hk with rfl | rfl <;> first | rfl | (simp at hid)
  compiled := rfl

theorem exReB_compiled : Compiled exVars exReB 0 (exReSt exReB) where
  vgroups := exVars_ok
  valid := by
    simp only [exReB, List.mem_cons, List.not_mem_nil, or_false, forall_eq_or_imp, forall_eq, AddArg.flat]
    refine ⟨?_, ?_⟩
    · refine ⟨by decide, by decide, fun _ => ⟨by decide, by decide, by decide, ?_, by rfl⟩, fun h => absurd rfl h⟩
      intro vs hvs r hr
      simp only [List.mem_cons, List.not_mem_nil, or_false] at hvs hr
      subst hvs
      rcases hr with rfl | rfl <;> simp [exVar]
    · exact ⟨by decide, by decide, (fun h => by cases h), fun _ => ⟨rfl, by unfold LogicalScope; decide⟩⟩
  ids := by
    have e : FType.all.flatMap (graphOf exVars exReB).groups = [⟨4, .enum, .enumGroup, [[exVar 2, exVar 1]], ⟨2, [[1, 1], [0, 0]]⟩, [0, 0]⟩,
      ⟨5, .or, .single, [[exVar 0, exVar 1, exVar 2]], ⟨0, []⟩, []⟩] := rfl
    rw [e]
    intro g hg k hk hid
    simp only [List.mem_cons, List.not_mem_nil, or_false] at hg hk
    rcases hg with rfl | rfl <;> rcases hk with rfl | rfl <;> first | rfl | (simp at hid)
  compiled := rfl

theorem exReA_factors : (graphOf exVars exReA).factors [0, 0, 0, 0] =
    [⟨[exVar 0, exVar 1, exVar 2], [([1, 1, 1], 0), ([0, 0, 0], 0), ([1, 0, 1], 0), ([0, 1, 1], 0)]⟩, ⟨[exVar 2, exVar 1], [([0, 0], 0), ([1, 1], 0)]⟩] := rfl
theorem exReB_factors : (graphOf exVars exReB).factors [0, 0] =
    [⟨[exVar 2, exVar 1], [([1, 1], 0), ([0, 0], 0)]⟩, ⟨[exVar 0, exVar 1, exVar 2], [([0, 0, 0], 0), ([1, 0, 1], 0), ([0, 1, 1], 0), ([1, 1, 1], 0)]⟩] := rfl

theorem exReR_models : exReR.Models ((graphOf exVars exReA).factors [0, 0, 0, 0]) ((graphOf exVars exReB).factors [0, 0]) (fun _ => 0) := by
  rw [exReA_factors, exReB_factors]
  have hid : ∀ (f : Nat) (scope : List Var) (l : List (List Nat × ℝ)), List.Forall₂ (exReR.Row f scope) l l := by
    intro f scope l
    rw [List.forall₂_same]
    intro r _
    exact ⟨rfl, rfl, fun i v s _ h => h⟩
  have hcase : ∀ f < 2, f = 0 ∨ f = 1 := by omega
  refine ⟨fun f => ?_, fun f F F' hF hF' => ?_, fun f i v he => ?_, fun f F F' hF hF' => ?_⟩
  · rcases f with _ | _ | f
    · exact iff_of_true (by simp) (by simp [exReR])
    · exact iff_of_true (by simp) (by simp [exReR])
    · simp only [List.length_cons, List.length_nil, exReR]
      rw [Equiv.swap_apply_of_ne_of_ne (by omega) (by omega)]
  · rcases hcase f (List.getElem?_eq_some_iff.1 hF).1 with rfl | rfl
    · cases hF; simp [exReR] at hF'; subst hF'; rfl
    · cases hF; simp [exReR] at hF'; subst hF'; rfl
  · obtain ⟨F, hF, hi⟩ := he.facs
    rcases hcase f (List.getElem?_eq_some_iff.1 hF).1 with rfl | rfl
    · cases hF; exact ⟨_, by simp [exReR], hi⟩
    · cases hF; exact ⟨_, by simp [exReR], hi⟩
  · rcases hcase f (List.getElem?_eq_some_iff.1 hF).1 with rfl | rfl
    · cases hF
      simp [exReR] at hF'
      subst hF'
      refine ⟨_, ?_, hid _ _ _⟩
      simp only [SFac.shift, List.map_cons, List.map_nil, add_zero]
      exact (List.perm_append_singleton (([1, 1, 1], 0) : List Nat × ℝ) [([0, 0, 0], 0), ([1, 0, 1], 0), ([0, 1, 1], 0)]).symm
    · cases hF
      simp [exReR] at hF'
      subst hF'
      refine ⟨_, ?_, hid _ _ _⟩
      simp only [SFac.shift, List.map_cons, List.map_nil, add_zero]
      exact List.Perm.swap _ _ _

theorem exReR_vars : exReR.VarsOk (graphVars exVars) (graphVars exVars) :=
  ⟨fun _ h => h, fun _ _ _ _ h => h, fun _ _ => rfl, fun _ _ _ => Iff.rfl⟩

theorem exReA_scopes : (graphOf exVars exReA).allScopes = [[exVar 0, exVar 1, exVar 2], [exVar 2, exVar 1]] := rfl

theorem exRe_small {d : ℝ} (hd : 0 ≤ d ∧ d ≤ 1 / 2) :
    SmallNumbers ((graphOf exVars exReA).factors [0, 0, 0, 0]) (readEv (exReSt exReA).varsToStarts [0, 3, 1, 0, 0, 2]) d 3 0 2 3 := by
  have hev : ∀ v s, |readEv (exReSt exReA).varsToStarts [0, 3, 1, 0, 0, (2 : ℝ)] v s| ≤ 3 := by
    intro v s
    unfold readEv List.getD
    cases e : [0, 3, 1, 0, 0, (2 : ℝ)][((exReSt exReA).varsToStarts v).getD 0 + s]? with
    | none => norm_num
    | some x =>
      have := List.mem_of_getElem? e
      simp only [List.mem_cons, List.not_mem_nil, or_false] at this
      rcases this with rfl | rfl | rfl | rfl | rfl | rfl <;> norm_num
  refine ⟨⟨hd.1, by linarith [hd.2]⟩, by norm_num, fun F _ v _ s _ => hev v s, fun F hF r hr => ?_, fun v => ?_, fun F hF => ?_, ?_⟩
  · rw [exReA_factors] at hF
    simp only [List.mem_cons, List.not_mem_nil, or_false] at hF
    rcases hF with rfl | rfl <;> simp only [List.mem_cons, List.not_mem_nil, or_false] at hr
    · rcases hr with rfl | rfl | rfl | rfl <;> simp
    · rcases hr with rfl | rfl <;> simp
  · rw [(graphOf exVars exReA).factors_scopes, exReA_scopes]
    by_cases hv : edgesOf [[exVar 0, exVar 1, exVar 2], [exVar 2, exVar 1]] v = []
    · rw [hv]; simp
    · obtain ⟨⟨f, i⟩, he⟩ := List.exists_mem_of_ne_nil _ hv
      obtain ⟨vs, h1, h2⟩ := (mem_edgesOf _ _ _ _).1 he
      have h3 : ∀ vs ∈ [[exVar 0, exVar 1, exVar 2], [exVar 2, exVar 1]], ∀ v ∈ vs,
          (edgesOf [[exVar 0, exVar 1, exVar 2], [exVar 2, exVar 1]] v).length ≤ 2 := by decide +kernel
      exact h3 vs (List.mem_of_getElem? h1) v (List.mem_of_getElem? h2)
  · rw [exReA_factors] at hF
    simp only [List.mem_cons, List.not_mem_nil, or_false] at hF
    rcases hF with rfl | rfl <;> simp
  · push_cast
    nlinarith [hd.1, hd.2]

theorem exRe_fits {env : Env ℝ} (hw : env.wrapNeg = false) (T : ℝ) : Fits env (graphOf exVars exReA) T ∧ Fits env (graphOf exVars exReB) T := by
  have h1 : (graphOf exVars exReA).numParents = 1 := rfl
  have h2 : (graphOf exVars exReB).numParents = 2 := rfl
  exact ⟨⟨.inl hw, fun _ => by omega⟩, ⟨.inl hw, fun _ => by omega⟩⟩

theorem exRe_zero (k : Nat) (scopes : List (List Var)) (f i s : Nat) : readMsgs scopes (List.replicate k (0 : ℝ)) f i s = 0 := by
  unfold readMsgs
  rw [List.getD_eq_getElem?_getD, List.getElem?_replicate]
  split <;> rfl

theorem exRe_init (f i : Nat) (v : Var) (he : IsEdge (graphOf exVars exReA).allScopes f i v) :
    ∃ s < v.n, (-100000 : ℝ) ≤ readMsgs (graphOf exVars exReA).allScopes (List.replicate 10 0) f i s := by
  refine ⟨0, ?_, by rw [exRe_zero]; norm_num⟩
  have h3 : ∀ vs ∈ (graphOf exVars exReA).allScopes, ∀ v ∈ vs, 0 < v.n := by rw [exReA_scopes]; decide
  obtain ⟨vs, h1, h2⟩ := he
  exact h3 vs (List.mem_of_getElem? h1) v (List.mem_of_getElem? h2)

/-- Non-vacuity of C98: half of the factors listed, half of them logical, in two ways; at temperature 0 with damping 1/2. -/
example {env : Env ℝ} (hw : env.wrapNeg = false) (n : Nat) (v : Var) (hv : v ∈ graphVars exVars) :
    ∃ start start', (exReSt exReA).varsToStarts v = some start ∧ (exReSt exReB).varsToStarts v = some start' ∧ ∀ s < v.n, ∃ b,
      ((exReBP exReA 0).flatBeliefs ((exReBP exReA 0).runBP env ⟨[0, 0, 0, 0], List.replicate 10 0, [0, 3, 1, 0, 0, 2]⟩ n (1 / 2)))[start + s]? = some b ∧
      ((exReBP exReB 0).flatBeliefs ((exReBP exReB 0).runBP env ⟨[0, 0], List.replicate 10 0, [0, 3, 1, 0, 0, 2]⟩ n (1 / 2)))[start' + s]? = some b :=
  (C98_small_partial exReA_compiled exReB_compiled (state := exReState exReA) (state' := exReState exReB) rfl rfl env (exRe_fits hw 0).1 (exRe_fits hw 0).2
    ⟨[0, 0, 0, 0], List.replicate 10 0, [0, 3, 1, 0, 0, 2]⟩ ⟨[0, 0], List.replicate 10 0, [0, 3, 1, 0, 0, 2]⟩ n rfl rfl (by simp; rfl) (by simp; rfl) rfl rfl
    exReR exReR_models exReR_vars (fun _ _ _ _ => rfl) (fun f i v s _ _ => by rw [exRe_zero, exRe_zero]) (exRe_small (by norm_num)) exRe_init).2 v hv

/-- And at temperature 1. -/
example {env : Env ℝ} (hexp : env.exp = Real.exp) (hlog : env.log = Real.log) (hw : env.wrapNeg = false) (n f i : Nat) (v : Var) (s : Nat)
    (he : IsEdge (graphOf exVars exReA).allScopes f i v) (hs : s < v.n) :
    |readMsgs (graphOf exVars exReB).allScopes ((exReBP exReB 1).runBP env ⟨[0, 0], List.replicate 10 0, [0, 3, 1, 0, 0, 2]⟩ n 0).ftovMsgs (exReR.fac f) i s
      - readMsgs (graphOf exVars exReA).allScopes ((exReBP exReA 1).runBP env ⟨[0, 0, 0, 0], List.replicate 10 0, [0, 3, 1, 0, 0, 2]⟩ n 0).ftovMsgs f i s|
      ≤ 2 * (1 * Real.exp (-100000) * ∑ k ∈ Finset.range n, (2 * 2) ^ k) :=
  (C98_sum_partial exReA_compiled exReB_compiled one_pos (state := exReState exReA) (state' := exReState exReB) rfl rfl env hexp hlog (exRe_fits hw 1).1 (exRe_fits hw 1).2
    ⟨[0, 0, 0, 0], List.replicate 10 0, [0, 3, 1, 0, 0, 2]⟩ ⟨[0, 0], List.replicate 10 0, [0, 3, 1, 0, 0, 2]⟩ n rfl rfl (by simp; rfl) (by simp; rfl) rfl rfl
    exReR exReR_models exReR_vars (fun _ _ _ _ => rfl) (fun f i v s _ _ => by rw [exRe_zero, exRe_zero]) (exRe_small (by norm_num)) exRe_init one_le_two (by
      have hd : ∀ vs ∈ [[exVar 0, exVar 1, exVar 2], [exVar 2, exVar 1]], ∀ i < vs.length, inputsBut [[exVar 0, exVar 1, exVar 2], [exVar 2, exVar 1]] vs i ≤ 2 := by decide +kernel
      rw [exReA_scopes]
      intro vs hvs i hi
      exact_mod_cast hd vs hvs i hi)).1 f i v s he hs

end PGMax
