import Verif.Lemmas.Moved
import Verif.Props.C82
import Verif.Props.C76

/-! # C84: terms of single variables in the factors or in the evidence -/

namespace PGMax

section
variable {κ α : Type _} [Field α]

/-- **C84, the models.** Moving terms of single variables from the factors to the evidence changes no score: the joint assignments of the two models correspond to each other and have the same scores. -/
theorem C84_model {factors factors' : List (SFac α)} {vars : Finset Var} (hvars : ∀ F ∈ factors, ∀ v ∈ F.scope, v ∈ vars) {g : Msgs α} {ev ev' : Var → Nat → α}
    (hmv : Moved g vars factors factors' ev ev') {x : Var → Nat} {ρ : Nat → List Nat × α} (hJ : Joint vars factors x ρ) :
    ∃ ρ', Joint vars factors' x ρ' ∧ jointScore vars factors' ev' x ρ' = jointScore vars factors ev x ρ := by
  have hvars' : ∀ vs ∈ factors.map (·.scope), ∀ v ∈ vs, v ∈ vars := by
    intro vs hvs v hv
    obtain ⟨F, hF, rfl⟩ := List.mem_map.1 hvs
    exact hvars F hF v hv
  refine ⟨fun f => ((ρ f).1, (ρ f).2 - termsOf (factors.getD f ⟨[], []⟩).scope.length (g f) (ρ f).1), ⟨hJ.states, fun f F' hF' => ?_⟩, ?_⟩
  · have hf : f < factors.length := by
      rw [← hmv.length]
      exact (List.getElem?_eq_some_iff.1 hF').1
    have hF := List.getElem?_eq_getElem hf
    obtain ⟨h1, h2⟩ := hmv.factor f _ F' hF hF'
    obtain ⟨h3, h4⟩ := hJ.rows f _ hF
    rw [h1, h2]
    refine ⟨List.mem_map.2 ⟨_, h3, ?_⟩, h4⟩
    rw [List.getD, hF]
    rfl
  · unfold jointScore
    have e1 : ∑ v ∈ vars, ev' v (x v) = ∑ v ∈ vars, ev v (x v) + ∑ v ∈ vars, ((edgesOf (factors.map (·.scope)) v).map (fun e => g e.1 e.2 (x v))).sum := by
      rw [← Finset.sum_add_distrib]
      exact Finset.sum_congr rfl fun v hv => hmv.evidence v hv _ (hJ.states v hv)
    rw [e1, sum_by_factors _ vars hvars' (fun f i v => g f i (x v)), List.length_map, hmv.length, Finset.sum_sub_distrib]
    have e2 : ∀ f ∈ Finset.range factors.length, termsOf (factors.getD f ⟨[], []⟩).scope.length (g f) (ρ f).1 =
        ∑ i ∈ Finset.range ((factors.map (·.scope)).getD f []).length, g f i (x (((factors.map (·.scope)).getD f []).getD i ⟨0, 0⟩)) := by
      intro f hf
      obtain ⟨F, hF⟩ : ∃ F, factors[f]? = some F := ⟨_, List.getElem?_eq_getElem (Finset.mem_range.1 hf)⟩
      have h1 : factors.getD f ⟨[], []⟩ = F := by rw [List.getD, hF]; rfl
      have h2 : (factors.map (·.scope)).getD f [] = F.scope := by rw [List.getD, List.getElem?_map, hF]; rfl
      rw [h1, h2, (hJ.rows f F hF).2]
      refine Finset.sum_congr rfl fun i hi => ?_
      have hi := Finset.mem_range.1 hi
      rw [List.getD_eq_getElem _ _ hi, List.getD, List.getElem?_map, List.getElem?_eq_getElem hi]
      rfl
    rw [Finset.sum_congr rfl e2]
    ring

variable [LinearOrder α] [IsStrictOrderedRing α] {vgs : List (VGroup κ)} {hist : List (AddArg α)} {garbage : Garbage} {st : FGState κ α}

/-- From runs of the code that are iterations with summaries. -/
theorem Compiled.moved (h : Compiled vgs hist garbage st) {state : BPState α} {T : α} {bp : BPFun κ α} (hbp : BP.create st state T = .ok bp) (env : Env α) (hfit : Fits env (graphOf vgs hist) T)
    {Φ : Nat → List α → α} (hΦ : ∀ f, Summary (Φ f)) (a a' : BPArrays α) (n : Nat) {d : α} (hd : 0 ≤ d ∧ d ≤ 1)
    (hlp : a.logPotentials.length = st.logPotentials.length) (hev : a.evidence.length = st.numVarStates) (hm : a.ftovMsgs.length = st.totalFactorNumStates)
    (hlp' : a'.logPotentials.length = st.logPotentials.length) (hev' : a'.evidence.length = st.numVarStates) (hm' : a'.ftovMsgs.length = st.totalFactorNumStates)
    (hrun : ∀ n, AgreeOn (graphOf vgs hist).allScopes (readMsgs (graphOf vgs hist).allScopes (bp.runBP env a n d).ftovMsgs)
      (sumRun Φ ((graphOf vgs hist).factors a.logPotentials) (readEv st.varsToStarts a.evidence) d n (readMsgs (graphOf vgs hist).allScopes a.ftovMsgs)))
    (hrun' : ∀ n, AgreeOn (graphOf vgs hist).allScopes (readMsgs (graphOf vgs hist).allScopes (bp.runBP env a' n d).ftovMsgs)
      (sumRun Φ ((graphOf vgs hist).factors a'.logPotentials) (readEv st.varsToStarts a'.evidence) d n (readMsgs (graphOf vgs hist).allScopes a'.ftovMsgs)))
    {g : Msgs α} (hmv : Moved g (graphVars vgs) ((graphOf vgs hist).factors a.logPotentials) ((graphOf vgs hist).factors a'.logPotentials) (readEv st.varsToStarts a.evidence) (readEv st.varsToStarts a'.evidence))
    (hfree : ∀ f F F', ((graphOf vgs hist).factors a.logPotentials)[f]? = some F → ((graphOf vgs hist).factors a'.logPotentials)[f]? = some F' → MovesFreely g f F F')
    (hstart : MovedMsgs (graphOf vgs hist).allScopes g (readMsgs (graphOf vgs hist).allScopes a.ftovMsgs) (readMsgs (graphOf vgs hist).allScopes a'.ftovMsgs))
    (hrange : ∀ f i v, IsEdge (graphOf vgs hist).allScopes f i v → ∀ s < v.n, ∀ t < v.n, readMsgs (graphOf vgs hist).allScopes a.ftovMsgs f i s - readMsgs (graphOf vgs hist).allScopes a.ftovMsgs f i t ≤ 1000 ∧
      readMsgs (graphOf vgs hist).allScopes a'.ftovMsgs f i s - readMsgs (graphOf vgs hist).allScopes a'.ftovMsgs f i t ≤ 1000) :
    MovedMsgs (graphOf vgs hist).allScopes g (readMsgs (graphOf vgs hist).allScopes (bp.runBP env a n d).ftovMsgs) (readMsgs (graphOf vgs hist).allScopes (bp.runBP env a' n d).ftovMsgs) ∧
    ∃ c : Var → α, ∀ v ∈ graphVars vgs, ∀ s < v.n,
      beliefOf (graphOf vgs hist).allScopes (readEv st.varsToStarts a'.evidence) (readMsgs (graphOf vgs hist).allScopes (bp.runBP env a' n d).ftovMsgs) v s =
        beliefOf (graphOf vgs hist).allScopes (readEv st.varsToStarts a.evidence) (readMsgs (graphOf vgs hist).allScopes (bp.runBP env a n d).ftovMsgs) v s + c v := by
  have hsc := (graphOf vgs hist).factors_scopes a.logPotentials
  have key : MovedMsgs (graphOf vgs hist).allScopes g (readMsgs (graphOf vgs hist).allScopes (bp.runBP env a n d).ftovMsgs) (readMsgs (graphOf vgs hist).allScopes (bp.runBP env a' n d).ftovMsgs) := by
    have h0 : MovedMsgs (((graphOf vgs hist).factors a.logPotentials).map (·.scope)) g
        (tbInit ((graphOf vgs hist).factors a.logPotentials) (readMsgs (graphOf vgs hist).allScopes a.ftovMsgs))
        (tbInit ((graphOf vgs hist).factors a'.logPotentials) (readMsgs (graphOf vgs hist).allScopes a'.ftovMsgs)) := by
      rw [hsc]
      obtain ⟨c, hc⟩ := hstart
      have key : ∀ f i, ∃ k, ∀ v s, IsEdge (graphOf vgs hist).allScopes f i v → s < v.n →
          tbInit ((graphOf vgs hist).factors a'.logPotentials) (readMsgs (graphOf vgs hist).allScopes a'.ftovMsgs) f i s =
            tbInit ((graphOf vgs hist).factors a.logPotentials) (readMsgs (graphOf vgs hist).allScopes a.ftovMsgs) f i s - g f i s + k := by
        intro f i
        by_cases he : ∃ v, IsEdge (graphOf vgs hist).allScopes f i v
        · obtain ⟨v, he⟩ := he
          obtain ⟨F, hF, hi, -⟩ := (graphOf vgs hist).factors_edge a.logPotentials he
          obtain ⟨F', hF', hi', -⟩ := (graphOf vgs hist).factors_edge a'.logPotentials he
          obtain ⟨k, hk⟩ := tbNorm_moved (fun s hs => hc f i v s he hs) (fun s hs t ht => (hrange f i v he s hs t ht).1) (fun s hs t ht => (hrange f i v he s hs t ht).2)
          refine ⟨k, fun w s hw hs => ?_⟩
          obtain rfl : v = w := by
            obtain ⟨vs, h1, h2⟩ := he
            obtain ⟨ws, h3, h4⟩ := hw
            rw [h1] at h3
            cases h3
            rw [h2] at h4
            exact Option.some.inj h4
          rw [tbInit_at hF hi, tbInit_at hF' hi']
          exact hk s hs
        · exact ⟨0, fun v s hv _ => absurd ⟨v, hv⟩ he⟩
      choose k hk using key
      exact ⟨k, fun f i v s he hs => hk f i v s he hs⟩
    obtain ⟨c, hc⟩ := hmv.run (h.factors_vars _) hΦ (fun F hF => by
      obtain ⟨f, hf⟩ := List.mem_iff_getElem?.1 hF
      exact h.rowsFit _ hf) hfree hd h0 n
    rw [hsc] at hc
    refine ⟨c, fun f i v s he hs => ?_⟩
    rw [hrun n f i v s he hs, hrun' n f i v s he hs]
    exact hc f i v s he hs
  refine ⟨key, ?_⟩
  obtain ⟨c, hc⟩ := key
  refine ⟨fun v => ((edgesOf (graphOf vgs hist).allScopes v).map (fun e => c e.1 e.2)).sum, fun v hv s hs => moved_belief hc hs ?_⟩
  rw [hmv.evidence v hv s hs, hsc]

/-- **C84, partial, temperature 0.** Let the log potentials and evidence of `a'` be those of `a`, except that terms `g f i s` of single variables are moved from complete factors with
log potentials in a range of 1000 to the evidence (constants may be moved from any factor), and let the initial messages of `a'` be those of `a` less the terms, up to constants, all of them in a range of 1000.
Then after any number of iterations, the messages still differ by the terms and constants, the beliefs of every variable differ by a constant, and the decoded states are the same.
Missing: log potentials in a larger range, whose messages are clipped (`C84_refuted`), factors without all configurations, numbers that are not moderate, the size limits `Fits`. -/
theorem C84_partial [DecidableEq κ] (h : Compiled vgs hist garbage st) {state : BPState α} {bp : BPFun κ α} (hbp : BP.create st state 0 = .ok bp) (env : Env α)
    (hfit : Fits env (graphOf vgs hist) (0 : α)) (a a' : BPArrays α) (n : Nat) (d : α)
    (hlp : a.logPotentials.length = st.logPotentials.length) (hev : a.evidence.length = st.numVarStates) (hm : a.ftovMsgs.length = st.totalFactorNumStates)
    (hlp' : a'.logPotentials.length = st.logPotentials.length) (hev' : a'.evidence.length = st.numVarStates) (hm' : a'.ftovMsgs.length = st.totalFactorNumStates)
    (hmod : Moderate (graphOf vgs hist) a.logPotentials (readEv st.varsToStarts a.evidence) d) (hmod' : Moderate (graphOf vgs hist) a'.logPotentials (readEv st.varsToStarts a'.evidence) d)
    (hlmod : LogicalModerate (graphOf vgs hist) (readEv st.varsToStarts a.evidence)) (hlmod' : LogicalModerate (graphOf vgs hist) (readEv st.varsToStarts a'.evidence))
    (hinit : ∀ f i v, IsEdge (graphOf vgs hist).allScopes f i v → ∃ s < v.n, -100000 ≤ readMsgs (graphOf vgs hist).allScopes a.ftovMsgs f i s)
    (hinit' : ∀ f i v, IsEdge (graphOf vgs hist).allScopes f i v → ∃ s < v.n, -100000 ≤ readMsgs (graphOf vgs hist).allScopes a'.ftovMsgs f i s)
    (g : Msgs α) (hmv : Moved g (graphVars vgs) ((graphOf vgs hist).factors a.logPotentials) ((graphOf vgs hist).factors a'.logPotentials) (readEv st.varsToStarts a.evidence) (readEv st.varsToStarts a'.evidence))
    (hfree : ∀ f F F', ((graphOf vgs hist).factors a.logPotentials)[f]? = some F → ((graphOf vgs hist).factors a'.logPotentials)[f]? = some F' → MovesFreely g f F F')
    (hstart : MovedMsgs (graphOf vgs hist).allScopes g (readMsgs (graphOf vgs hist).allScopes a.ftovMsgs) (readMsgs (graphOf vgs hist).allScopes a'.ftovMsgs))
    (hrange : ∀ f i v, IsEdge (graphOf vgs hist).allScopes f i v → ∀ s < v.n, ∀ t < v.n, readMsgs (graphOf vgs hist).allScopes a.ftovMsgs f i s - readMsgs (graphOf vgs hist).allScopes a.ftovMsgs f i t ≤ 1000 ∧
      readMsgs (graphOf vgs hist).allScopes a'.ftovMsgs f i s - readMsgs (graphOf vgs hist).allScopes a'.ftovMsgs f i t ≤ 1000) :
    MovedMsgs (graphOf vgs hist).allScopes g (readMsgs (graphOf vgs hist).allScopes (bp.runBP env a n d).ftovMsgs) (readMsgs (graphOf vgs hist).allScopes (bp.runBP env a' n d).ftovMsgs) ∧
    (∃ c : Var → α, ∀ v start, st.varsToStarts v = some start → ∀ s < v.n,
      (bp.flatBeliefs (bp.runBP env a' n d))[start + s]? = ((bp.flatBeliefs (bp.runBP env a n d))[start + s]?).map (· + c v)) ∧
    ((∀ g ∈ vgs, g.Regular) → (∀ g ∈ vgs, g.Stated) → ∃ bs bs' rs, bp.getBeliefs (bp.runBP env a n d) = .ok bs ∧ bp.getBeliefs (bp.runBP env a' n d) = .ok bs' ∧
      decodeMapStates bs = .ok rs ∧ decodeMapStates bs' = .ok rs) := by
  obtain ⟨hmsg, c, hc⟩ := h.moved hbp env hfit (Φ := fun _ => maxOf 0) (fun _ => summary_max) a a' n hmod.damping hlp hev hm hlp' hev' hm'
    (fun n => by rw [← tbRun_sumRun]; exact C37_partial h hbp env hfit a n d hlp hev hm hmod hlmod hinit)
    (fun n => by rw [← tbRun_sumRun]; exact C37_partial h hbp env hfit a' n d hlp' hev' hm' hmod' hlmod' hinit') hmv hfree hstart hrange
  obtain ⟨l1, -⟩ := h.run_read hbp env hfit a d hlp hev n hm
  obtain ⟨l2, -⟩ := h.run_read hbp env hfit a' d hlp' hev' n hm'
  refine ⟨hmsg, ⟨c, fun v start hv s hs => ?_⟩, fun hreg hst => ?_⟩
  · rw [C34_flat h hbp _ l1 hev v start hv s hs, C34_flat h hbp _ l2 hev' v start hv s hs]
    obtain ⟨i, hi, -⟩ := (h.starts_iff v start).1 hv
    exact congrArg some (hc v (List.mem_toFinset.2 (List.mem_of_getElem? hi)) s hs)
  · obtain ⟨bs, rs, e1, e2, e3, e4⟩ := C35_partial h hbp _ l1 hev hreg hst
    obtain ⟨bs', rs', f1, f2, f3, f4⟩ := C35_partial h hbp _ l2 hev' hreg hst
    refine ⟨bs, bs', rs, e1, f1, e2, ?_⟩
    rw [f2]
    congr 1
    refine eq_of_keys (f3.trans e3.symm) ?_
    intro g r r' h1 h2
    have hg : g ∈ vgs := by rw [← e3]; exact List.mem_map_of_mem (f := Prod.fst) h2
    obtain ⟨objId, hb⟩ := h.vgroups.built g hg
    exact VGroup.Decodes.unique hb (f4 _ h1) ((e4 _ h2).shift c fun v hv s hs => hc v (mem_graphVars.2 ⟨g, hg, hv⟩) s hs)

/-- **C84, separable factors, partial, temperature 0.** For all graphs, log potentials, evidence and messages: if the log potentials of a complete factor are a constant plus terms of single variables
with ranges up to 1000, then whatever the other factors send, its message to a variable is, after `n` iterations with damping `d`, the mixture `d ^ n` to `1 - d ^ n` of its initial message and the
term of this variable, up to a constant. So constant factors send constants, and factors of single variables act as evidence.
Missing: terms in a larger range, which are clipped (`C84_refuted`), factors without all configurations, numbers that are not moderate, the size limits `Fits`. -/
theorem C84_separable_partial (h : Compiled vgs hist garbage st) {state : BPState α} {bp : BPFun κ α} (hbp : BP.create st state 0 = .ok bp) (env : Env α)
    (hfit : Fits env (graphOf vgs hist) (0 : α)) (a : BPArrays α) (n : Nat) (d : α)
    (hlp : a.logPotentials.length = st.logPotentials.length) (hev : a.evidence.length = st.numVarStates) (hm : a.ftovMsgs.length = st.totalFactorNumStates)
    (hmod : Moderate (graphOf vgs hist) a.logPotentials (readEv st.varsToStarts a.evidence) d) (hlmod : LogicalModerate (graphOf vgs hist) (readEv st.varsToStarts a.evidence))
    (hinit : ∀ f i v, IsEdge (graphOf vgs hist).allScopes f i v → ∃ s < v.n, -100000 ≤ readMsgs (graphOf vgs hist).allScopes a.ftovMsgs f i s)
    (f : Nat) (F : SFac α) (hF : ((graphOf vgs hist).factors a.logPotentials)[f]? = some F) (hcomplete : F.Complete) (hne : F.rows ≠ []) (g : Nat → Nat → α) (hg : F.Separable g)
    (i : Nat) (v : Var) (hi : F.scope[i]? = some v) (hspread : ∀ s < v.n, ∀ t < v.n, g i s - g i t ≤ 1000) :
    ∃ C, ∀ s < v.n, readMsgs (graphOf vgs hist).allScopes (bp.runBP env a n d).ftovMsgs f i s =
      d ^ n * readMsgs (graphOf vgs hist).allScopes (bp.runBP env a 0 d).ftovMsgs f i s + (1 - d ^ n) * g i s + C := by
  obtain ⟨C, hC⟩ := SFac.Complete.separable_run hF hcomplete (h.rowsFit _ hF) hne hg (Φ := fun _ => maxOf 0) summary_max (readEv st.varsToStarts a.evidence) hmod.damping hi hspread
    (readMsgs (graphOf vgs hist).allScopes a.ftovMsgs) n
  have he : IsEdge (graphOf vgs hist).allScopes f i v := ⟨F.scope, by rw [← (graphOf vgs hist).factors_scopes a.logPotentials, List.getElem?_map, hF]; rfl, hi⟩
  refine ⟨C, fun s hs => ?_⟩
  have hrun : ∀ n, _ := fun n => C37_partial h hbp env hfit a n d hlp hev hm hmod hlmod hinit f i v s he hs
  rw [hrun n, hrun 0, tbRun_sumRun, tbRun_sumRun]
  exact hC s hs

end

section
variable {κ : Type _} {vgs : List (VGroup κ)} {hist : List (AddArg ℝ)} {garbage : Garbage} {st : FGState κ ℝ}

/-- **C84, partial, temperature above 0.** As `C84_partial`, and the marginals are the same, too.
Missing: as in `C84_partial`. -/
theorem C84_sum_partial [DecidableEq κ] (h : Compiled vgs hist garbage st) {state : BPState ℝ} {bp : BPFun κ ℝ} {T : ℝ} (hT : 0 < T) (hbp : BP.create st state T = .ok bp) (env : Env ℝ)
    (hexp : env.exp = Real.exp) (hlog : env.log = Real.log) (hfit : Fits env (graphOf vgs hist) T) (a a' : BPArrays ℝ) (n : Nat) (d : ℝ)
    (hlp : a.logPotentials.length = st.logPotentials.length) (hev : a.evidence.length = st.numVarStates) (hm : a.ftovMsgs.length = st.totalFactorNumStates)
    (hlp' : a'.logPotentials.length = st.logPotentials.length) (hev' : a'.evidence.length = st.numVarStates) (hm' : a'.ftovMsgs.length = st.totalFactorNumStates)
    (hmod : Moderate (graphOf vgs hist) a.logPotentials (readEv st.varsToStarts a.evidence) d) (hmod' : Moderate (graphOf vgs hist) a'.logPotentials (readEv st.varsToStarts a'.evidence) d)
    (hinit : ∀ f i v, IsEdge (graphOf vgs hist).allScopes f i v → ∃ s < v.n, -100000 ≤ readMsgs (graphOf vgs hist).allScopes a.ftovMsgs f i s)
    (hinit' : ∀ f i v, IsEdge (graphOf vgs hist).allScopes f i v → ∃ s < v.n, -100000 ≤ readMsgs (graphOf vgs hist).allScopes a'.ftovMsgs f i s)
    (g : Msgs ℝ) (hmv : Moved g (graphVars vgs) ((graphOf vgs hist).factors a.logPotentials) ((graphOf vgs hist).factors a'.logPotentials) (readEv st.varsToStarts a.evidence) (readEv st.varsToStarts a'.evidence))
    (hfree : ∀ f F F', ((graphOf vgs hist).factors a.logPotentials)[f]? = some F → ((graphOf vgs hist).factors a'.logPotentials)[f]? = some F' → MovesFreely g f F F')
    (hstart : MovedMsgs (graphOf vgs hist).allScopes g (readMsgs (graphOf vgs hist).allScopes a.ftovMsgs) (readMsgs (graphOf vgs hist).allScopes a'.ftovMsgs))
    (hrange : ∀ f i v, IsEdge (graphOf vgs hist).allScopes f i v → ∀ s < v.n, ∀ t < v.n, readMsgs (graphOf vgs hist).allScopes a.ftovMsgs f i s - readMsgs (graphOf vgs hist).allScopes a.ftovMsgs f i t ≤ 1000 ∧
      readMsgs (graphOf vgs hist).allScopes a'.ftovMsgs f i s - readMsgs (graphOf vgs hist).allScopes a'.ftovMsgs f i t ≤ 1000) :
    MovedMsgs (graphOf vgs hist).allScopes g (readMsgs (graphOf vgs hist).allScopes (bp.runBP env a n d).ftovMsgs) (readMsgs (graphOf vgs hist).allScopes (bp.runBP env a' n d).ftovMsgs) ∧
    (∃ c : Var → ℝ, ∀ v start, st.varsToStarts v = some start → ∀ s < v.n,
      (bp.flatBeliefs (bp.runBP env a' n d))[start + s]? = ((bp.flatBeliefs (bp.runBP env a n d))[start + s]?).map (· + c v)) ∧
    ((∀ g ∈ vgs, g.Regular) → (∀ g ∈ vgs, g.Stated) → ∃ bs bs' rs ms, bp.getBeliefs (bp.runBP env a n d) = .ok bs ∧ bp.getBeliefs (bp.runBP env a' n d) = .ok bs' ∧
      decodeMapStates bs = .ok rs ∧ decodeMapStates bs' = .ok rs ∧ getMarginals env bs = .ok ms ∧ getMarginals env bs' = .ok ms) := by
  obtain ⟨hmsg, c, hc⟩ := h.moved hbp env hfit (codeSummary_summary (graphOf vgs hist).tables.length hT) a a' n hmod.damping hlp hev hm hlp' hev' hm'
    (fun n => h.run_sum hT hbp env hexp hlog hfit a n d hlp hev hm hmod hinit)
    (fun n => h.run_sum hT hbp env hexp hlog hfit a' n d hlp' hev' hm' hmod' hinit') hmv hfree hstart hrange
  obtain ⟨l1, -⟩ := h.run_read hbp env hfit a d hlp hev n hm
  obtain ⟨l2, -⟩ := h.run_read hbp env hfit a' d hlp' hev' n hm'
  refine ⟨hmsg, ⟨c, fun v start hv s hs => ?_⟩, fun hreg hst => ?_⟩
  · rw [C34_flat h hbp _ l1 hev v start hv s hs, C34_flat h hbp _ l2 hev' v start hv s hs]
    obtain ⟨i, hi, -⟩ := (h.starts_iff v start).1 hv
    exact congrArg some (hc v (List.mem_toFinset.2 (List.mem_of_getElem? hi)) s hs)
  · obtain ⟨bs, rs, e1, e2, e3, e4⟩ := C35_partial h hbp _ l1 hev hreg hst
    obtain ⟨bs', rs', f1, f2, f3, f4⟩ := C35_partial h hbp _ l2 hev' hreg hst
    obtain ⟨bs1, ms, e1', e2', e3', e4'⟩ := C36_partial h hbp env hexp hlog _ l1 hev hreg hst
    obtain ⟨bs1', ms', f1', f2', f3', f4'⟩ := C36_partial h hbp env hexp hlog _ l2 hev' hreg hst
    rw [e1] at e1'
    rw [f1] at f1'
    cases e1'
    cases f1'
    refine ⟨bs, bs', rs, ms, e1, f1, e2, ?_, e2', ?_⟩
    · rw [f2]
      congr 1
      refine eq_of_keys (f3.trans e3.symm) ?_
      intro g r r' h1 h2
      have hg : g ∈ vgs := by rw [← e3]; exact List.mem_map_of_mem (f := Prod.fst) h2
      obtain ⟨objId, hb⟩ := h.vgroups.built g hg
      exact VGroup.Decodes.unique hb (f4 _ h1) ((e4 _ h2).shift c fun v hv s hs => hc v (mem_graphVars.2 ⟨g, hg, hv⟩) s hs)
    · rw [f2']
      congr 1
      refine eq_of_keys (f3'.trans e3'.symm) ?_
      intro g r r' h1 h2
      have hg : g ∈ vgs := by rw [← e3']; exact List.mem_map_of_mem (f := Prod.fst) h2
      obtain ⟨objId, hb⟩ := h.vgroups.built g hg
      exact VGroup.HasMarginals.unique hb (hst g hg) (f4' _ h1) ((e4' _ h2).shift c fun v hv s hs => hc v (mem_graphVars.2 ⟨g, hg, hv⟩) s hs)

/-- **C84, separable factors, partial, temperature above 0.** As `C84_separable_partial`.
Missing: as in `C84_separable_partial`. -/
theorem C84_separable_sum_partial (h : Compiled vgs hist garbage st) {state : BPState ℝ} {bp : BPFun κ ℝ} {T : ℝ} (hT : 0 < T) (hbp : BP.create st state T = .ok bp) (env : Env ℝ)
    (hexp : env.exp = Real.exp) (hlog : env.log = Real.log) (hfit : Fits env (graphOf vgs hist) T) (a : BPArrays ℝ) (n : Nat) (d : ℝ)
    (hlp : a.logPotentials.length = st.logPotentials.length) (hev : a.evidence.length = st.numVarStates) (hm : a.ftovMsgs.length = st.totalFactorNumStates)
    (hmod : Moderate (graphOf vgs hist) a.logPotentials (readEv st.varsToStarts a.evidence) d)
    (hinit : ∀ f i v, IsEdge (graphOf vgs hist).allScopes f i v → ∃ s < v.n, -100000 ≤ readMsgs (graphOf vgs hist).allScopes a.ftovMsgs f i s)
    (f : Nat) (F : SFac ℝ) (hF : ((graphOf vgs hist).factors a.logPotentials)[f]? = some F) (hcomplete : F.Complete) (hne : F.rows ≠ []) (g : Nat → Nat → ℝ) (hg : F.Separable g)
    (i : Nat) (v : Var) (hi : F.scope[i]? = some v) (hspread : ∀ s < v.n, ∀ t < v.n, g i s - g i t ≤ 1000) :
    ∃ C, ∀ s < v.n, readMsgs (graphOf vgs hist).allScopes (bp.runBP env a n d).ftovMsgs f i s =
      d ^ n * readMsgs (graphOf vgs hist).allScopes (bp.runBP env a 0 d).ftovMsgs f i s + (1 - d ^ n) * g i s + C := by
  obtain ⟨C, hC⟩ := SFac.Complete.separable_run hF hcomplete (h.rowsFit _ hF) hne hg (codeSummary_summary (graphOf vgs hist).tables.length hT f) (readEv st.varsToStarts a.evidence) hmod.damping hi hspread
    (readMsgs (graphOf vgs hist).allScopes a.ftovMsgs) n
  have he : IsEdge (graphOf vgs hist).allScopes f i v := ⟨F.scope, by rw [← (graphOf vgs hist).factors_scopes a.logPotentials, List.getElem?_map, hF]; rfl, hi⟩
  refine ⟨C, fun s hs => ?_⟩
  have hrun : ∀ n, _ := fun n => h.run_sum hT hbp env hexp hlog hfit a n d hlp hev hm hmod hinit f i v s he hs
  rw [hrun n, hrun 0]
  exact hC s hs

end

/-! ### Examples -/

/-- Tables of two variables with two states each are complete. -/
theorem complete_two {α : Type _} (v w : Var) (a b c d : α) (hv : v.n = 2) (hw : w.n = 2) : SFac.Complete (⟨[v, w], [([0, 0], a), ([0, 1], b), ([1, 0], c), ([1, 1], d)]⟩ : SFac α) := by
  refine ⟨by simp, ?_⟩
  intro x hx
  cases hx with
  | cons h1 hx =>
    cases hx with
    | cons h2 hx =>
      cases hx
      rename_i p q
      have hp : p = 0 ∨ p = 1 := by omega
      have hq : q = 0 ∨ q = 1 := by omega
      rcases hp with rfl | rfl <;> rcases hq with rfl | rfl <;> simp

/-- The term 1 of state 1 of variable 0 in factor 0. -/
def exTerm {α : Type _} [Zero α] [One α] : Msgs α := fun f i s => if f = 0 ∧ i = 0 ∧ s = 1 then 1 else 0

/-- `exArrLQ` after this term is moved. -/
def exArrMvQ : BPArrays ℚ := ⟨[-1, 0, -1, -2, -1, 0, 0, -1, -1, 0, 0, -1], [0, -1, 0, 0, 0, 0, 0, 0, 0, 0, 0, 0], [3, 1, 0, 1, 2, 0]⟩

theorem exModerateMvQ : Moderate (graphOf exVars exHistLQ) exArrMvQ.logPotentials (readEv exStateLQ.varsToStarts exArrMvQ.evidence) 0 := by
  refine moderate_of_bounds (E := 3) (P := 3) (D := 2) (K := 2) (by norm_num) ?_ ?_ (by norm_num) ?_ (by norm_num)
  · intro _ _ v s _ _
    unfold readEv List.getD
    cases e : exArrMvQ.evidence[(exStateLQ.varsToStarts v).getD 0 + s]? with
    | none => norm_num
    | some x =>
      have hl : ∀ x ∈ exArrMvQ.evidence, |x| ≤ 3 := by decide +kernel
      exact hl x (List.mem_of_getElem? e)
  · intro f i v he
    have hd : ∀ vs ∈ [[exVar 0, exVar 1], [exVar 1, exVar 2], [exVar 2, exVar 0]], ∀ v ∈ vs,
      (edgesOf [[exVar 0, exVar 1], [exVar 1, exVar 2], [exVar 2, exVar 0]] v).length ≤ 2 := by decide +kernel
    obtain ⟨vs, h1, h2⟩ := he
    have e : (graphOf exVars exHistLQ).allScopes = [[exVar 0, exVar 1], [exVar 1, exVar 2], [exVar 2, exVar 0]] := rfl
    rw [e] at h1 ⊢
    exact Nat.cast_le_ofNat.2 (hd vs (List.mem_of_getElem? h1) v (List.mem_of_getElem? h2))
  · have e : tableFacs (graphOf exVars exHistLQ).tables exArrMvQ.logPotentials = [⟨[exVar 0, exVar 1], [([0, 0], -1), ([0, 1], 0), ([1, 0], -1), ([1, 1], -2)]⟩,
      ⟨[exVar 1, exVar 2], [([0, 0], -1), ([0, 1], 0), ([1, 0], 0), ([1, 1], -1)]⟩, ⟨[exVar 2, exVar 0], [([0, 0], -1), ([0, 1], 0), ([1, 0], 0), ([1, 1], -1)]⟩] := rfl
    rw [e]
    simp only [List.forall_mem_cons]
    norm_num

theorem exMovedQ : Moved exTerm (graphVars exVars) ((graphOf exVars exHistLQ).factors exArrLQ.logPotentials) ((graphOf exVars exHistLQ).factors exArrMvQ.logPotentials)
    (readEv exStateLQ.varsToStarts exArrLQ.evidence) (readEv exStateLQ.varsToStarts exArrMvQ.evidence) where
  length := rfl
  factor f F F' hF hF' := by
    have e1 : (graphOf exVars exHistLQ).factors exArrLQ.logPotentials = [⟨[exVar 0, exVar 1], [([0, 0], -1), ([0, 1], 0), ([1, 0], 0), ([1, 1], -1)]⟩,
      ⟨[exVar 1, exVar 2], [([0, 0], -1), ([0, 1], 0), ([1, 0], 0), ([1, 1], -1)]⟩, ⟨[exVar 2, exVar 0], [([0, 0], -1), ([0, 1], 0), ([1, 0], 0), ([1, 1], -1)]⟩] := rfl
    have e2 : (graphOf exVars exHistLQ).factors exArrMvQ.logPotentials = [⟨[exVar 0, exVar 1], [([0, 0], -1), ([0, 1], 0), ([1, 0], -1), ([1, 1], -2)]⟩,
      ⟨[exVar 1, exVar 2], [([0, 0], -1), ([0, 1], 0), ([1, 0], 0), ([1, 1], -1)]⟩, ⟨[exVar 2, exVar 0], [([0, 0], -1), ([0, 1], 0), ([1, 0], 0), ([1, 1], -1)]⟩] := rfl
    rw [e1] at hF
    rw [e2] at hF'
    match f with
    | 0 => cases hF; cases hF'; exact ⟨rfl, by decide +kernel⟩
    | 1 => cases hF; cases hF'; exact ⟨rfl, by decide +kernel⟩
    | 2 => cases hF; cases hF'; exact ⟨rfl, by decide +kernel⟩
    | n + 3 => simp at hF
  evidence := by
    have hV : graphVars exVars = {exVar 0, exVar 1, exVar 2} := rfl
    rw [hV]
    decide +kernel

theorem exEdgesLQ {f i : Nat} {v : Var} (he : IsEdge (graphOf exVars exHistLQ).allScopes f i v) : f < 3 ∧ i < 2 ∧ v.n = 2 := by
  have hS : (graphOf exVars exHistLQ).allScopes = [[exVar 0, exVar 1], [exVar 1, exVar 2], [exVar 2, exVar 0]] := rfl
  obtain ⟨vs, h1, h2⟩ := he
  rw [hS] at h1
  have hf := (List.getElem?_eq_some_iff.1 h1).1
  have hi := (List.getElem?_eq_some_iff.1 h2).1
  have hl : ∀ vs ∈ [[exVar 0, exVar 1], [exVar 1, exVar 2], [exVar 2, exVar 0]], vs.length = 2 ∧ ∀ v ∈ vs, v.n = 2 := by decide +kernel
  have := hl vs (List.mem_of_getElem? h1)
  exact ⟨hf, by omega, this.2 v (List.mem_of_getElem? h2)⟩

/-- Non-vacuity of C84: on the loop of three tables, the term 1 of state 1 of variable 0 is moved from the first table to the evidence. -/
example (n : Nat) : ∃ bs bs' rs, exBPLQ.getBeliefs (exBPLQ.runBP exEnv exArrLQ n 0) = .ok bs ∧ exBPLQ.getBeliefs (exBPLQ.runBP exEnv exArrMvQ n 0) = .ok bs' ∧
    decodeMapStates bs = .ok rs ∧ decodeMapStates bs' = .ok rs := by
  have hl : ∀ ev, LogicalModerate (graphOf exVars exHistLQ) ev := by
    intro ev f vs hvs hf
    have h1 := (List.getElem?_eq_some_iff.1 hvs).1
    have h2 : (graphOf exVars exHistLQ).allScopes.length = (graphOf exVars exHistLQ).tables.length := rfl
    omega
  refine (C84_partial exStateLQ_compiled exBPLQ_create exEnv ⟨.inl rfl, fun _ => by decide +kernel⟩ exArrLQ exArrMvQ n 0 rfl rfl rfl rfl rfl rfl exModerateLQ exModerateMvQ (hl _) (hl _) ?_ ?_ exTerm
    exMovedQ ?_ ?_ ?_).2.2 exStatedT.1 exStatedT.2
  · intro f i v he
    obtain ⟨hf, hi, hv⟩ := exEdgesLQ he
    have : ∀ f < 3, ∀ i < 2, -100000 ≤ readMsgs (graphOf exVars exHistLQ).allScopes exArrLQ.ftovMsgs f i 0 := by decide +kernel
    exact ⟨0, by omega, this f hf i hi⟩
  · intro f i v he
    obtain ⟨hf, hi, hv⟩ := exEdgesLQ he
    have : ∀ f < 3, ∀ i < 2, -100000 ≤ readMsgs (graphOf exVars exHistLQ).allScopes exArrMvQ.ftovMsgs f i 0 := by decide +kernel
    exact ⟨0, by omega, this f hf i hi⟩
  · intro f F F' hF hF'
    right
    have e1 : (graphOf exVars exHistLQ).factors exArrLQ.logPotentials = [⟨[exVar 0, exVar 1], [([0, 0], -1), ([0, 1], 0), ([1, 0], 0), ([1, 1], -1)]⟩,
      ⟨[exVar 1, exVar 2], [([0, 0], -1), ([0, 1], 0), ([1, 0], 0), ([1, 1], -1)]⟩, ⟨[exVar 2, exVar 0], [([0, 0], -1), ([0, 1], 0), ([1, 0], 0), ([1, 1], -1)]⟩] := rfl
    have h1 : ∀ F ∈ (graphOf exVars exHistLQ).factors exArrLQ.logPotentials, F.Complete ∧ F.rows ≠ [] := by
      rw [e1]
      simp only [List.forall_mem_cons]
      exact ⟨⟨complete_two _ _ _ _ _ _ rfl rfl, by simp⟩, ⟨complete_two _ _ _ _ _ _ rfl rfl, by simp⟩, ⟨complete_two _ _ _ _ _ _ rfl rfl, by simp⟩, by simp⟩
    have h2 : ∀ F ∈ (graphOf exVars exHistLQ).factors exArrLQ.logPotentials, F.Within 1000 := by
      unfold SFac.Within
      decide +kernel
    have h3 : ∀ F ∈ (graphOf exVars exHistLQ).factors exArrMvQ.logPotentials, F.Within 1000 := by
      unfold SFac.Within
      decide +kernel
    have hm := List.mem_of_getElem? hF
    exact ⟨(h1 F hm).1, (h1 F hm).2, h2 F hm, h3 F' (List.mem_of_getElem? hF')⟩
  · have : ∀ f < 3, ∀ i < 2, ∀ s < 2, readMsgs (graphOf exVars exHistLQ).allScopes exArrMvQ.ftovMsgs f i s = readMsgs (graphOf exVars exHistLQ).allScopes exArrLQ.ftovMsgs f i s - exTerm f i s + 0 := by
      decide +kernel
    refine ⟨fun _ _ => 0, fun f i v s he hs => ?_⟩
    obtain ⟨hf, hi, hv⟩ := exEdgesLQ he
    exact this f hf i hi s (by omega)
  · intro f i v he s hs t ht
    have : ∀ f < 3, ∀ i < 2, ∀ s < 2, ∀ t < 2, readMsgs (graphOf exVars exHistLQ).allScopes exArrLQ.ftovMsgs f i s - readMsgs (graphOf exVars exHistLQ).allScopes exArrLQ.ftovMsgs f i t ≤ 1000 ∧
        readMsgs (graphOf exVars exHistLQ).allScopes exArrMvQ.ftovMsgs f i s - readMsgs (graphOf exVars exHistLQ).allScopes exArrMvQ.ftovMsgs f i t ≤ 1000 := by decide +kernel
    obtain ⟨hf, hi, hv⟩ := exEdgesLQ he
    exact this f hf i hi s (by omega) t (by omega)

/-- The same over the reals: log potentials, evidence and initial messages after the term is moved. -/
def exArrMvL : BPArrays ℝ := ⟨[-1, 0, -1, -2, -1, 0, 0, -1, -1, 0, 0, -1], [0, -1, 0, 0, 0, 0, 0, 0, 0, 0, 0, 0], [1, 1, 0, 2, 0, 3]⟩

theorem exFactorsMvL : (graphOf exVars exHistL).factors exArrMvL.logPotentials = [⟨[exVar 0, exVar 1], [([0, 0], -1), ([0, 1], 0), ([1, 0], -1), ([1, 1], -2)]⟩,
    ⟨[exVar 1, exVar 2], [([0, 0], -1), ([0, 1], 0), ([1, 0], 0), ([1, 1], -1)]⟩, ⟨[exVar 2, exVar 0], [([0, 0], -1), ([0, 1], 0), ([1, 0], 0), ([1, 1], -1)]⟩] := rfl

theorem exModerateMvL : Moderate (graphOf exVars exHistL) exArrMvL.logPotentials (readEv exStateL.varsToStarts exArrMvL.evidence) 0 := by
  refine moderate_of_bounds (E := 3) (P := 3) (D := 2) (K := 2) (by norm_num) ?_ ?_ (by norm_num) ?_ (by norm_num)
  · intro _ _ v s _ _
    unfold readEv List.getD
    cases e : exArrMvL.evidence[(exStateL.varsToStarts v).getD 0 + s]? with
    | none => norm_num
    | some x =>
      have hl : ∀ x ∈ exArrMvL.evidence, |x| ≤ 3 := by simp only [exArrMvL, List.forall_mem_cons]; norm_num
      exact hl x (List.mem_of_getElem? e)
  · intro f i v he
    have hd : ∀ vs ∈ [[exVar 0, exVar 1], [exVar 1, exVar 2], [exVar 2, exVar 0]], ∀ v ∈ vs,
      (edgesOf [[exVar 0, exVar 1], [exVar 1, exVar 2], [exVar 2, exVar 0]] v).length ≤ 2 := by decide +kernel
    obtain ⟨vs, h1, h2⟩ := he
    rw [exScopesL] at h1 ⊢
    exact Nat.cast_le_ofNat.2 (hd vs (List.mem_of_getElem? h1) v (List.mem_of_getElem? h2))
  · have e : tableFacs (graphOf exVars exHistL).tables exArrMvL.logPotentials = (graphOf exVars exHistL).factors exArrMvL.logPotentials := rfl
    rw [e, exFactorsMvL]
    simp only [List.forall_mem_cons]
    norm_num

theorem exMovedL : Moved exTerm (graphVars exVars) ((graphOf exVars exHistL).factors exLpL) ((graphOf exVars exHistL).factors exArrMvL.logPotentials)
    (readEv exStateL.varsToStarts exEvT) (readEv exStateL.varsToStarts exArrMvL.evidence) where
  length := rfl
  factor f F F' hF hF' := by
    rw [exFactorsL] at hF
    rw [exFactorsMvL] at hF'
    match f with
    | 0 => cases hF; cases hF'; refine ⟨rfl, ?_⟩; simp only [termsOf, List.length_cons, List.length_nil, Finset.sum_range_succ, Finset.sum_range_zero]; simp [exTerm]; norm_num
    | 1 => cases hF; cases hF'; refine ⟨rfl, ?_⟩; simp [termsOf, exTerm, Finset.sum_range_succ]
    | 2 => cases hF; cases hF'; refine ⟨rfl, ?_⟩; simp [termsOf, exTerm, Finset.sum_range_succ]
    | n + 3 => simp at hF
  evidence := by
    have hV : graphVars exVars = {exVar 0, exVar 1, exVar 2} := rfl
    rw [hV, (graphOf exVars exHistL).factors_scopes, exScopesL]
    have h0 : edgesOf [[exVar 0, exVar 1], [exVar 1, exVar 2], [exVar 2, exVar 0]] (exVar 0) = [(0, 0), (2, 1)] := by decide +kernel
    have h1 : edgesOf [[exVar 0, exVar 1], [exVar 1, exVar 2], [exVar 2, exVar 0]] (exVar 1) = [(0, 1), (1, 0)] := by decide +kernel
    have h2 : edgesOf [[exVar 0, exVar 1], [exVar 1, exVar 2], [exVar 2, exVar 0]] (exVar 2) = [(1, 1), (2, 0)] := by decide +kernel
    intro v hv s hs
    simp only [Finset.mem_insert, Finset.mem_singleton] at hv
    rcases hv with rfl | rfl | rfl
    · have hs : s = 0 ∨ s = 1 := by simp only [exVar] at hs; omega
      rcases hs with rfl | rfl
      · show (1 : ℝ) = 1 + _
        rw [h0]
        simp [exTerm]
      · show (1 : ℝ) = 0 + _
        rw [h0]
        simp [exTerm]
    · have hs : s = 0 ∨ s = 1 := by simp only [exVar] at hs; omega
      rcases hs with rfl | rfl
      · show (0 : ℝ) = 0 + _
        rw [h1]
        simp [exTerm]
      · show (2 : ℝ) = 2 + _
        rw [h1]
        simp [exTerm]
    · have hs : s = 0 ∨ s = 1 := by simp only [exVar] at hs; omega
      rcases hs with rfl | rfl
      · show (0 : ℝ) = 0 + _
        rw [h2]
        simp [exTerm]
      · show (3 : ℝ) = 3 + _
        rw [h2]
        simp [exTerm]

/-- The initial messages after the term is moved. -/
theorem exMsgsMvL {f i : Nat} {v : Var} {s : Nat} (he : IsEdge (graphOf exVars exHistL).allScopes f i v) (hs : s < v.n) :
    readMsgs (graphOf exVars exHistL).allScopes exArrMvL.ftovMsgs f i s = readMsgs (graphOf exVars exHistL).allScopes (List.replicate 12 0) f i s - exTerm f i s + 0 := by
  obtain ⟨hf, hi, hv⟩ := exEdgesLQ (f := f) (i := i) (v := v) he
  rw [hv] at hs
  have h0 : readMsgs (graphOf exVars exHistL).allScopes (List.replicate 12 (0 : ℝ)) f i s = 0 := by
    unfold readMsgs List.getD
    cases e : (List.replicate 12 (0 : ℝ))[edgeStart (graphOf exVars exHistL).allScopes f i + s]? with
    | none => rfl
    | some y => exact List.eq_of_mem_replicate (List.mem_of_getElem? e)
  rw [h0]
  interval_cases f <;> interval_cases i <;> interval_cases s
  · show (0 : ℝ) = _; simp [exTerm]
  · show (-1 : ℝ) = _; simp [exTerm]
  all_goals show (0 : ℝ) = _; simp [exTerm]

/-- Non-vacuity of C84 above temperature 0. -/
example {env : Env ℝ} (hexp : env.exp = Real.exp) (hlog : env.log = Real.log) (hw : env.wrapNeg = false) {T : ℝ} (hT : 0 < T) (n : Nat) :
    ∃ bs bs' rs ms, (exBPL T).getBeliefs ((exBPL T).runBP env ⟨exLpL, List.replicate 12 0, exEvT⟩ n 0) = .ok bs ∧ (exBPL T).getBeliefs ((exBPL T).runBP env exArrMvL n 0) = .ok bs' ∧
      decodeMapStates bs = .ok rs ∧ decodeMapStates bs' = .ok rs ∧ getMarginals env bs = .ok ms ∧ getMarginals env bs' = .ok ms := by
  have h0 : ∀ f i s, readMsgs (graphOf exVars exHistL).allScopes (List.replicate 12 (0 : ℝ)) f i s = 0 := by
    intro f i s
    unfold readMsgs List.getD
    cases e : (List.replicate 12 (0 : ℝ))[edgeStart (graphOf exVars exHistL).allScopes f i + s]? with
    | none => rfl
    | some y => exact List.eq_of_mem_replicate (List.mem_of_getElem? e)
  have h01 : ∀ f i s, 0 ≤ exTerm (α := ℝ) f i s ∧ exTerm (α := ℝ) f i s ≤ 1 := by
    intro f i s
    unfold exTerm
    split <;> norm_num
  refine (C84_sum_partial exStateL_compiled hT (exBPL_create T) env hexp hlog ⟨.inl hw, fun h => absurd h hT.ne'⟩ ⟨exLpL, List.replicate 12 0, exEvT⟩ exArrMvL n 0 rfl rfl rfl rfl rfl rfl
    exModerateL exModerateMvL ?_ ?_ exTerm exMovedL ?_ ?_ ?_).2.2 exStatedT.1 exStatedT.2
  · intro f i v he
    obtain ⟨hf, hi, hv⟩ := exEdgesLQ (f := f) (i := i) (v := v) he
    exact ⟨0, by omega, by rw [h0]; norm_num⟩
  · intro f i v he
    obtain ⟨hf, hi, hv⟩ := exEdgesLQ (f := f) (i := i) (v := v) he
    refine ⟨0, by omega, ?_⟩
    rw [exMsgsMvL he (by omega), h0]
    linarith [(h01 f i 0).2]
  · intro f F F' hF hF'
    have h1 : ∀ F ∈ (graphOf exVars exHistL).factors exLpL, F.rows ≠ [] ∧ F.Within 1000 := by
      rw [exFactorsL]
      simp only [SFac.Within, List.forall_mem_cons]
      norm_num
      simp
    have h2 : ∀ F ∈ (graphOf exVars exHistL).factors exArrMvL.logPotentials, F.Within 1000 := by
      rw [exFactorsMvL]
      simp only [SFac.Within, List.forall_mem_cons]
      norm_num
    have hm := List.mem_of_getElem? hF
    exact .inr ⟨exCompleteL F hm, (h1 F hm).1, (h1 F hm).2, h2 F' (List.mem_of_getElem? hF')⟩
  · exact ⟨fun _ _ => 0, fun f i v s he hs => exMsgsMvL he hs⟩
  · intro f i v he s hs t ht
    rw [exMsgsMvL he hs, exMsgsMvL he ht]
    simp only [h0]
    exact ⟨by norm_num, by linarith [(h01 f i s).1, (h01 f i t).2]⟩

/-- Non-vacuity of C84 for separable factors: the first table has the log potentials -2, -5, 0, -3, so 2 for state 1 of variable 0 and -3 for state 1 of variable 1, up to a constant. With damping 1/2 the message to
variable 0 is, after `n` iterations, the fraction `1 - (1 / 2) ^ n` of the first term. -/
example (n : Nat) : ∃ C, ∀ s < 2, readMsgs (graphOf exVars exHistLQ).allScopes (exBPLQ.runBP exEnv ⟨[-2, -5, 0, -3, -1, 0, 0, -1, -1, 0, 0, -1], List.replicate 12 0, [3, 0, 0, 1, 2, 0]⟩ n (1 / 2)).ftovMsgs 0 0 s =
    (1 - (1 / 2) ^ n) * (2 * (s : ℚ)) + C := by
  have e : (graphOf exVars exHistLQ).factors ([-2, -5, 0, -3, -1, 0, 0, -1, -1, 0, 0, -1] : List ℚ) = [⟨[exVar 0, exVar 1], [([0, 0], -2), ([0, 1], -5), ([1, 0], 0), ([1, 1], -3)]⟩,
    ⟨[exVar 1, exVar 2], [([0, 0], -1), ([0, 1], 0), ([1, 0], 0), ([1, 1], -1)]⟩, ⟨[exVar 2, exVar 0], [([0, 0], -1), ([0, 1], 0), ([1, 0], 0), ([1, 1], -1)]⟩] := rfl
  have hmod : Moderate (graphOf exVars exHistLQ) [-2, -5, 0, -3, -1, 0, 0, -1, -1, 0, 0, -1] (readEv exStateLQ.varsToStarts [3, 0, 0, 1, 2, 0]) (1 / 2) := by
    refine moderate_of_bounds (E := 3) (P := 5) (D := 2) (K := 2) (by norm_num) ?_ ?_ (by norm_num) ?_ (by norm_num)
    · intro _ _ v s _ _
      unfold readEv List.getD
      cases e : ([3, 0, 0, 1, 2, 0] : List ℚ)[(exStateLQ.varsToStarts v).getD 0 + s]? with
      | none => norm_num
      | some x =>
        have hl : ∀ x ∈ ([3, 0, 0, 1, 2, 0] : List ℚ), |x| ≤ 3 := by decide +kernel
        exact hl x (List.mem_of_getElem? e)
    · intro f i v he
      have hd : ∀ vs ∈ [[exVar 0, exVar 1], [exVar 1, exVar 2], [exVar 2, exVar 0]], ∀ v ∈ vs,
        (edgesOf [[exVar 0, exVar 1], [exVar 1, exVar 2], [exVar 2, exVar 0]] v).length ≤ 2 := by decide +kernel
      obtain ⟨vs, h1, h2⟩ := he
      have e : (graphOf exVars exHistLQ).allScopes = [[exVar 0, exVar 1], [exVar 1, exVar 2], [exVar 2, exVar 0]] := rfl
      rw [e] at h1 ⊢
      exact Nat.cast_le_ofNat.2 (hd vs (List.mem_of_getElem? h1) v (List.mem_of_getElem? h2))
    · have e' : tableFacs (graphOf exVars exHistLQ).tables ([-2, -5, 0, -3, -1, 0, 0, -1, -1, 0, 0, -1] : List ℚ) = (graphOf exVars exHistLQ).factors ([-2, -5, 0, -3, -1, 0, 0, -1, -1, 0, 0, -1] : List ℚ) := rfl
      rw [e', e]
      simp only [List.forall_mem_cons]
      norm_num
  have hl : LogicalModerate (graphOf exVars exHistLQ) (readEv exStateLQ.varsToStarts ([3, 0, 0, 1, 2, 0] : List ℚ)) := by
    intro f vs hvs hf
    have h1 := (List.getElem?_eq_some_iff.1 hvs).1
    have h2 : (graphOf exVars exHistLQ).allScopes.length = (graphOf exVars exHistLQ).tables.length := rfl
    omega
  obtain ⟨C, hC⟩ := C84_separable_partial exStateLQ_compiled exBPLQ_create exEnv ⟨.inl rfl, fun _ => by decide +kernel⟩ ⟨[-2, -5, 0, -3, -1, 0, 0, -1, -1, 0, 0, -1], List.replicate 12 0, [3, 0, 0, 1, 2, 0]⟩ n (1 / 2)
    rfl rfl rfl hmod hl (fun f i v he => by
      obtain ⟨hf, hi, hv⟩ := exEdgesLQ he
      have : ∀ f < 3, ∀ i < 2, -100000 ≤ readMsgs (graphOf exVars exHistLQ).allScopes (List.replicate 12 (0 : ℚ)) f i 0 := by decide +kernel
      exact ⟨0, by omega, this f hf i hi⟩) 0 _ (by rw [e]; rfl) (complete_two _ _ _ _ _ _ rfl rfl) (by simp) (fun i s => if i = 0 then 2 * (s : ℚ) else -3 * (s : ℚ))
    ⟨-2, by decide +kernel⟩ 0 (exVar 0) rfl (by decide +kernel)
  have h0 : ∀ s < 2, readMsgs (graphOf exVars exHistLQ).allScopes (exBPLQ.runBP exEnv ⟨[-2, -5, 0, -3, -1, 0, 0, -1, -1, 0, 0, -1], List.replicate 12 0, [3, 0, 0, 1, 2, 0]⟩ 0 (1 / 2)).ftovMsgs 0 0 s = 0 := by
    decide +kernel
  refine ⟨C, fun s hs => ?_⟩
  rw [hC s hs, h0 s hs, if_pos rfl]
  ring

deriving instance DecidableEq for GroupStates

/-- **C84, refuted without a bound on the range of the terms.** On a loop of three tables, the first has a term 1500 for state 1 of variable 0, the others are zero, and the evidence is 1200 for state 0 of this variable.
If the term is moved to the evidence, all joint assignments keep their scores, so state 1 is better by 300 in both models. But the message of the table is clipped at -1000, so state 0 is decoded before the move and state 1
after it, although the messages are at rest in both cases. -/
theorem C84_refuted : ∃ (a a' : BPArrays ℚ) (g : Msgs ℚ), a.ftovMsgs = List.replicate 12 0 ∧ a'.ftovMsgs = List.replicate 12 0 ∧
    Moved g (graphVars exVars) ((graphOf exVars exHistLQ).factors a.logPotentials) ((graphOf exVars exHistLQ).factors a'.logPotentials) (readEv exStateLQ.varsToStarts a.evidence) (readEv exStateLQ.varsToStarts a'.evidence) ∧
    (∀ f (F F' : SFac ℚ), ((graphOf exVars exHistLQ).factors a.logPotentials)[f]? = some F → ((graphOf exVars exHistLQ).factors a'.logPotentials)[f]? = some F' →
      F.Complete ∧ F.Separable (g f) ∧ F.Within 1500 ∧ F'.Within 0) ∧
    (exBPLQ.runBP exEnv a 2 0).ftovMsgs = (exBPLQ.runBP exEnv a 1 0).ftovMsgs ∧ (exBPLQ.runBP exEnv a' 2 0).ftovMsgs = (exBPLQ.runBP exEnv a' 1 0).ftovMsgs ∧
    ((exBPLQ.getBeliefs (exBPLQ.runBP exEnv a 1 0)).bind decodeMapStates).toOption.map (·.map (·.2)) = some [.arr ⟨[3], [0, 0, 0]⟩] ∧
    ((exBPLQ.getBeliefs (exBPLQ.runBP exEnv a' 1 0)).bind decodeMapStates).toOption.map (·.map (·.2)) = some [.arr ⟨[3], [1, 0, 0]⟩] := by
  have e1 : (graphOf exVars exHistLQ).factors ([0, 0, 1500, 1500, 0, 0, 0, 0, 0, 0, 0, 0] : List ℚ) = [⟨[exVar 0, exVar 1], [([0, 0], 0), ([0, 1], 0), ([1, 0], 1500), ([1, 1], 1500)]⟩,
    ⟨[exVar 1, exVar 2], [([0, 0], 0), ([0, 1], 0), ([1, 0], 0), ([1, 1], 0)]⟩, ⟨[exVar 2, exVar 0], [([0, 0], 0), ([0, 1], 0), ([1, 0], 0), ([1, 1], 0)]⟩] := rfl
  have e2 : (graphOf exVars exHistLQ).factors ([0, 0, 0, 0, 0, 0, 0, 0, 0, 0, 0, 0] : List ℚ) = [⟨[exVar 0, exVar 1], [([0, 0], 0), ([0, 1], 0), ([1, 0], 0), ([1, 1], 0)]⟩,
    ⟨[exVar 1, exVar 2], [([0, 0], 0), ([0, 1], 0), ([1, 0], 0), ([1, 1], 0)]⟩, ⟨[exVar 2, exVar 0], [([0, 0], 0), ([0, 1], 0), ([1, 0], 0), ([1, 1], 0)]⟩] := rfl
  refine ⟨⟨[0, 0, 1500, 1500, 0, 0, 0, 0, 0, 0, 0, 0], List.replicate 12 0, [1200, 0, 0, 0, 0, 0]⟩, ⟨[0, 0, 0, 0, 0, 0, 0, 0, 0, 0, 0, 0], List.replicate 12 0, [1200, 1500, 0, 0, 0, 0]⟩,
    fun f i s => if f = 0 ∧ i = 0 ∧ s = 1 then 1500 else 0, rfl, rfl, ⟨rfl, fun f F F' hF hF' => ?_, ?_⟩, fun f F F' hF hF' => ?_, by decide +kernel, by decide +kernel, by decide +kernel, by decide +kernel⟩
  · rw [e1] at hF
    rw [e2] at hF'
    match f with
    | 0 => cases hF; cases hF'; exact ⟨rfl, by decide +kernel⟩
    | 1 => cases hF; cases hF'; exact ⟨rfl, by decide +kernel⟩
    | 2 => cases hF; cases hF'; exact ⟨rfl, by decide +kernel⟩
    | n + 3 => simp at hF
  · have hV : graphVars exVars = {exVar 0, exVar 1, exVar 2} := rfl
    rw [hV]
    decide +kernel
  · rw [e1] at hF
    rw [e2] at hF'
    unfold SFac.Within SFac.Separable
    match f with
    | 0 => cases hF; cases hF'; exact ⟨complete_two _ _ _ _ _ _ rfl rfl, ⟨0, by decide +kernel⟩, by decide +kernel, by decide +kernel⟩
    | 1 => cases hF; cases hF'; exact ⟨complete_two _ _ _ _ _ _ rfl rfl, ⟨0, by decide +kernel⟩, by decide +kernel, by decide +kernel⟩
    | 2 => cases hF; cases hF'; exact ⟨complete_two _ _ _ _ _ _ rfl rfl, ⟨0, by decide +kernel⟩, by decide +kernel, by decide +kernel⟩
    | n + 3 => simp at hF

end PGMax
