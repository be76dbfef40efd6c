import Verif.Lemmas.Order
import Verif.Lemmas.Example

/-! # C41: the order in which factors are added -/

namespace PGMax

variable {κ α : Type _} {vgs : List (VGroup κ)} {hist hist' : List (AddArg α)} {garbage garbage' : Garbage} {st st' : FGState κ α}

section
variable [Field α] [LinearOrder α] [IsStrictOrderedRing α]

/-- **C41 (1).** Two graphs over the same variable groups that have, in some order and grouping, the same factors with the same
log potentials and messages: after any number of iterations at any damping and temperature they still have the same
factors with the same messages, and the same beliefs. -/
theorem C41_factors [DecidableEq κ] (h : Compiled vgs hist garbage st) (h' : Compiled vgs hist' garbage' st') {state state' : BPState α} {T : α}
    {bp bp' : BPFun κ α} (hbp : BP.create st state T = .ok bp) (hbp' : BP.create st' state' T = .ok bp') (env : Env α)
    (hfit : Fits env (graphOf vgs hist) T) (a a' : BPArrays α) (n : Nat) (d : α)
    (hlp : a.logPotentials.length = st.logPotentials.length) (hlp' : a'.logPotentials.length = st'.logPotentials.length)
    (hm : a.ftovMsgs.length = st.totalFactorNumStates) (hm' : a'.ftovMsgs.length = st'.totalFactorNumStates)
    (hev : a.evidence.length = st.numVarStates) (heq : a'.evidence = a.evidence)
    (hperm : ((graphOf vgs hist).loaded a.logPotentials a.ftovMsgs).Perm ((graphOf vgs hist').loaded a'.logPotentials a'.ftovMsgs)) :
    ((graphOf vgs hist).loaded a.logPotentials (bp.runBP env a n d).ftovMsgs).Perm
      ((graphOf vgs hist').loaded a'.logPotentials (bp'.runBP env a' n d).ftovMsgs) ∧
    bp.flatBeliefs (bp.runBP env a n d) = bp'.flatBeliefs (bp'.runBP env a' n d) ∧
    bp.getBeliefs (bp.runBP env a n d) = bp'.getBeliefs (bp'.runBP env a' n d) := by
  obtain ⟨σ, hσ⟩ := perm_positions hperm
  have hM := loaded_match h.fgValid h'.fgValid hσ
  have hC := loaded_corr hσ hM
  have hfit' : Fits env (graphOf vgs hist') T := by
    refine ⟨hM.segFits hfit.seg, fun hT => ?_⟩
    rw [← FactorGraph.loaded_parents _ h'.fgValid a'.logPotentials a'.ftovMsgs, ← (hperm.map parentsOf).sum_eq, FactorGraph.loaded_parents _ h.fgValid]
    exact hfit.par hT
  have hnum : st'.numVarStates = st.numVarStates := by rw [h.numVarStates, h'.numVarStates]
  have hstarts : st'.varsToStarts = st.varsToStarts := by
    funext v
    apply Option.ext
    intro s
    rw [h.starts_iff, h'.starts_iff]
  have hmax : bp'.maxMsgSize = bp.maxMsgSize := by
    obtain ⟨u1, f1, i1, v1, e1, r1⟩ := h.maxMsgSize hbp
    obtain ⟨u2, f2, i2, v2, e2, r2⟩ := h'.maxMsgSize hbp'
    apply le_antisymm
    · rw [← r2]
      refine u1 (σ.symm f2) i2 v2 ((hM.edge _ i2 v2).2 ?_)
      rw [Equiv.apply_symm_apply]; exact e2
    · rw [← r1]
      exact u2 (σ f1) i1 v1 ((hM.edge _ i1 v1).1 e1)
  have hev' : a'.evidence.length = st'.numVarStates := by rw [heq, hnum, hev]
  obtain ⟨l1, r1⟩ := h.run_read hbp env hfit a d hlp hev n hm
  obtain ⟨l2, r2⟩ := h'.run_read hbp' env hfit' a' d hlp' hev' n hm'
  rw [hstarts, heq, hmax] at r2
  have hC' : Corr (graphOf vgs hist).allScopes σ (readMsgs (graphOf vgs hist).allScopes (bp.runBP env a n d).ftovMsgs)
      (readMsgs (graphOf vgs hist').allScopes (bp'.runBP env a' n d).ftovMsgs) := by
    intro f i v s he hs
    rw [r1 f i v s he hs, r2 (σ f) i v s ((hM.edge f i v).1 he) hs]
    exact hM.iterM (fun f F hF => h.facOk _ f F hF) env T _ _ d n (hM.normM _ hC) f i v s he hs
  have hflat : bp.flatBeliefs (bp.runBP env a n d) = bp'.flatBeliefs (bp'.runBP env a' n d) := by
    apply List.ext_getElem?
    intro p
    have hlen : ∀ (b : BPFun κ α) (x : BPArrays α), (b.flatBeliefs x).length = x.evidence.length := by
      intro b x; unfold BPFun.flatBeliefs scatterAdd; rw [scatterWith_length]
    by_cases hp : p < st.numVarStates
    · obtain ⟨-, -, -, b4⟩ := h.blocks
      obtain ⟨v, s, hv, hle, hlt⟩ := b4 p hp
      obtain ⟨k, rfl⟩ := Nat.exists_eq_add_of_le hle
      rw [C34_flat h hbp _ l1 hev v s hv k (by omega), C34_flat h' hbp' _ l2 hev' v s (by rw [hstarts]; exact hv) k (by omega), hstarts]
      have : (bp'.runBP env a' n d).evidence = (bp.runBP env a n d).evidence := heq
      rw [this, hM.beliefOf _ hC' v k (by omega)]
    · rw [List.getElem?_eq_none, List.getElem?_eq_none]
      · rw [hlen]; show a'.evidence.length ≤ p; omega
      · rw [hlen]; show a.evidence.length ≤ p; omega
  refine ⟨perm_of_positions (loaded_of_corr hσ hM (l1.trans h.totalStates) (l2.trans h'.totalStates) hC'), hflat, ?_⟩
  unfold BPFun.getBeliefs
  rw [hflat, (BP_create_ok hbp).1, (BP_create_ok hbp').1, h.varGroups, h'.varGroups]

/-- **C41 (2), partial.** Two graphs that have the same factor groups in a different order, with any log potentials and
messages, those of each group being the same in both: the beliefs after any number of iterations are the same.
Missing: both orders must compile (`C41_refuted`). -/
theorem C41_groups_partial [DecidableEq κ] (h : Compiled vgs hist garbage st) (h' : Compiled vgs hist' garbage' st') {state state' : BPState α} {T : α}
    {bp bp' : BPFun κ α} (hbp : BP.create st state T = .ok bp) (hbp' : BP.create st' state' T = .ok bp') (env : Env α)
    (hfit : Fits env (graphOf vgs hist) T) (a a' : BPArrays α) (n : Nat) (d : α)
    (hlp : a.logPotentials.length = st.logPotentials.length) (hlp' : a'.logPotentials.length = st'.logPotentials.length)
    (hm : a.ftovMsgs.length = st.totalFactorNumStates) (hm' : a'.ftovMsgs.length = st'.totalFactorNumStates)
    (hev : a.evidence.length = st.numVarStates) (heq : a'.evidence = a.evidence)
    (hperm : (groupBlocks (FType.all.flatMap (graphOf vgs hist).groups) a.logPotentials a.ftovMsgs).Perm
      (groupBlocks (FType.all.flatMap (graphOf vgs hist').groups) a'.logPotentials a'.ftovMsgs)) :
    bp.getBeliefs (bp.runBP env a n d) = bp'.getBeliefs (bp'.runBP env a' n d) := by
  have hv : ∀ {hist : List (AddArg α)}, (graphOf vgs hist).Valid → ∀ g ∈ FType.all.flatMap (graphOf vgs hist).groups,
      g.logPotentials.length = (g.headers.map numPots).sum := by
    intro hist hv g hg
    obtain ⟨t, -, hg⟩ := List.mem_flatMap.1 hg
    exact (hv t g hg).2.numPots
  refine (C41_factors h h' hbp hbp' env hfit a a' n d hlp hlp' hm hm' hev heq ?_).2.2
  unfold FactorGraph.loaded
  rw [load_groups _ (hv h.fgValid), load_groups _ (hv h'.fgValid)]
  exact hperm.flatMap_right _

end

/-! ## Histories -/

theorem addList_ones (gs : List (FGroup α)) (fg : FactorGraph κ α) (hn : ∀ t, (fg.seen t).Nodup) :
    ((fg.addList (gs.map .one)).2 = none ↔
      ∀ t, (fg.seen t ++ (gs.filter (fun g => g.ftype = t)).flatMap (fun g => g.varsForFactors.map List.toFinset)).Nodup) ∧
    ((fg.addList (gs.map .one)).2 = none → ∀ t, (fg.addList (gs.map .one)).1.groups t = fg.groups t ++ gs.filter (fun g => g.ftype = t)) := by
  induction gs generalizing fg with
  | nil => simpa [FactorGraph.addList] using hn
  | cons g gs ih =>
    simp only [List.map_cons, FactorGraph.addList, FactorGraph.addFactors]
    have hscopes := addScopes_ok (fg.seen g.ftype) g.varsForFactors
    cases hr : fg.addGroup g with
    | mk fg' e =>
      cases e with
      | some e =>
        have hbad : ¬ (FactorGraph.addScopes (fg.seen g.ftype) g.varsForFactors).2 = none := by
          rw [← addGroup_none_iff, hr]; simp
        simp only [reduceCtorEq, false_iff, IsEmpty.forall_iff, and_true]
        intro hall
        have := hall g.ftype
        rw [List.filter_cons_of_pos (by simp), List.flatMap_cons, ← List.append_assoc] at this
        have := (List.nodup_append.1 this).1
        apply hbad
        rw [hscopes.1]
        obtain ⟨-, h2, h3⟩ := List.nodup_append.1 this
        exact ⟨h2, fun s hs hs' => h3 s hs' s hs rfl⟩
      | none =>
        have hok := addGroup_eq_ok fg g (by rw [hr])
        have hgood := hscopes.1.1 hok.1
        have hfg' := hok.2
        rw [hr] at hfg'
        simp only at hfg' ⊢
        have hseen : ∀ t, fg'.seen t = fg.seen t ++ if g.ftype = t then g.varsForFactors.map List.toFinset else [] := by
          intro t
          rw [hfg']
          by_cases ht : g.ftype = t
          · subst ht; simp
          · simp [Function.update_of_ne (Ne.symm ht), ht]
        have hgr : ∀ t, fg'.groups t = fg.groups t ++ if g.ftype = t then [g] else [] := by
          intro t
          rw [hfg']
          by_cases ht : g.ftype = t
          · subst ht; simp
          · simp [Function.update_of_ne (Ne.symm ht), ht]
        obtain ⟨i1, i2⟩ := ih fg' (by
          intro t
          rw [hseen]
          by_cases ht : g.ftype = t
          · subst ht
            rw [if_pos rfl]
            refine List.nodup_append.2 ⟨hn _, hgood.1, ?_⟩
            rintro s hs s' hs' rfl
            exact hgood.2 s hs' hs
          · rw [if_neg ht, List.append_nil]; exact hn t)
        refine ⟨i1.trans (forall_congr' fun t => ?_), fun hnone t => (i2 hnone t).trans ?_⟩
        · rw [hseen, List.append_assoc]
          by_cases ht : g.ftype = t
          · rw [if_pos ht, List.filter_cons_of_pos (by simpa using ht), List.flatMap_cons]
          · rw [if_neg ht, List.filter_cons_of_neg (by simpa using ht), List.nil_append]
        · rw [hgr, List.append_assoc]
          by_cases ht : g.ftype = t
          · rw [if_pos ht, List.filter_cons_of_pos (by simpa using ht)]; rfl
          · rw [if_neg ht, List.filter_cons_of_neg (by simpa using ht), List.nil_append]

/-- **C41 (3).** Whether a list of factor groups is accepted does not depend on its order, and the graph has the groups of each
type in the order in which they were added. -/
theorem C41_accepted {gs gs' : List (FGroup α)} (hp : gs.Perm gs')
    (hok : ((FactorGraph.create vgs : FactorGraph κ α).addFactors (.list (gs.map .one))).2 = none) :
    ((FactorGraph.create vgs : FactorGraph κ α).addFactors (.list (gs'.map .one))).2 = none ∧
    ∀ t, ((graphOf vgs [.list (gs.map .one)] : FactorGraph κ α).groups t).Perm ((graphOf vgs [.list (gs'.map .one)]).groups t) := by
  have e0 : ∀ t, (FactorGraph.create vgs : FactorGraph κ α).seen t = [] := fun _ => rfl
  have e1 : ∀ t, (FactorGraph.create vgs : FactorGraph κ α).groups t = [] := fun _ => rfl
  obtain ⟨a1, a2⟩ := addList_ones gs (FactorGraph.create vgs : FactorGraph κ α) (by intro t; rw [e0]; simp)
  obtain ⟨b1, b2⟩ := addList_ones gs' (FactorGraph.create vgs : FactorGraph κ α) (by intro t; rw [e0]; simp)
  simp only [FactorGraph.addFactors] at hok ⊢
  have hok' : ((FactorGraph.create vgs : FactorGraph κ α).addList (gs'.map .one)).2 = none := by
    rw [b1]
    intro t
    have := a1.1 hok t
    rw [e0, List.nil_append] at this ⊢
    exact ((hp.filter _).flatMap_right _).nodup_iff.1 this
  refine ⟨hok', fun t => ?_⟩
  have c1 := a2 hok t
  have c2 := b2 hok' t
  rw [e1, List.nil_append] at c1 c2
  have d1 : (graphOf vgs [.list (gs.map .one)] : FactorGraph κ α).groups t = gs.filter (fun g => g.ftype = t) := by
    rw [← c1]; simp [graphOf, FactorGraph.addHistory, FactorGraph.addFactors]
  have d2 : (graphOf vgs [.list (gs'.map .one)] : FactorGraph κ α).groups t = gs'.filter (fun g => g.ftype = t) := by
    rw [← c2]; simp [graphOf, FactorGraph.addHistory, FactorGraph.addFactors]
  rw [d1, d2]
  exact hp.filter _

theorem groupBlocks_default [Zero α] (gs : List (FGroup α)) (k : Nat) (hk : (gs.map FGroup.numEdgeStates).sum ≤ k) :
    groupBlocks gs (gs.flatMap (·.logPotentials)) (List.replicate k 0) = gs.map (fun g => (g, g.logPotentials, List.replicate g.numEdgeStates 0)) := by
  induction gs generalizing k with
  | nil => rfl
  | cons g gs ih =>
    simp only [List.map_cons, List.sum_cons] at hk
    simp only [groupBlocks, List.flatMap_cons, List.map_cons, List.take_left, List.drop_left, List.take_replicate, List.drop_replicate]
    rw [min_eq_left (by omega), ih _ (by omega)]

/-- **C41 (4), partial.** A list of factor groups, added without an exception, and the same groups in a different order: with the
groups' log potentials, zero initial messages and the same evidence, the beliefs after any number of iterations, at any damping
and temperature, are the same.
Missing: both orders must compile (`C41_refuted`). -/
theorem C41_partial [Field α] [LinearOrder α] [IsStrictOrderedRing α] [DecidableEq κ] {gs gs' : List (FGroup α)} (hp : gs.Perm gs')
    (hok : ((FactorGraph.create vgs : FactorGraph κ α).addFactors (.list (gs.map .one))).2 = none)
    (h : Compiled vgs [.list (gs.map .one)] garbage st) (h' : Compiled vgs [.list (gs'.map .one)] garbage' st') {state state' : BPState α} {T : α}
    {bp bp' : BPFun κ α} (hbp : BP.create st state T = .ok bp) (hbp' : BP.create st' state' T = .ok bp') (env : Env α)
    (hfit : Fits env (graphOf vgs [.list (gs.map .one)]) T) (ev : List α) (hev : ev.length = st.numVarStates) (n : Nat) (d : α) :
    bp.getBeliefs (bp.runBP env ⟨st.logPotentials, List.replicate st.totalFactorNumStates 0, ev⟩ n d) =
    bp'.getBeliefs (bp'.runBP env ⟨st'.logPotentials, List.replicate st'.totalFactorNumStates 0, ev⟩ n d) := by
  refine C41_groups_partial h h' hbp hbp' env hfit _ _ n d rfl rfl (by simp) (by simp) hev rfl ?_
  have hlp : ∀ {hist : List (AddArg α)} {garbage : Garbage} {st : FGState κ α}, Compiled vgs hist garbage st →
      st.logPotentials = (FType.all.flatMap (graphOf vgs hist).groups).flatMap (·.logPotentials) ∧
      st.totalFactorNumStates = ((FType.all.flatMap (graphOf vgs hist).groups).map FGroup.numEdgeStates).sum := by
    intro hist garbage st h
    constructor
    · rw [h.st_eq]
      simp [FType.all, FactorGraph.logPotentialsOf]
    · rw [h.totalStates]
      unfold FactorGraph.allScopes FactorGraph.scopesOf statesOf
      simp [FType.all, List.flatMap, List.sum_flatten, Function.comp_def]
      rfl
  obtain ⟨a1, a2⟩ := hlp h
  obtain ⟨b1, b2⟩ := hlp h'
  simp only
  rw [a1, b1, groupBlocks_default _ _ (le_of_eq a2.symm), groupBlocks_default _ _ (le_of_eq b2.symm)]
  refine List.Perm.map _ ?_
  have hg := (C41_accepted (κ := κ) (vgs := vgs) hp hok).2
  simp only [FType.all, List.flatMap_cons, List.flatMap_nil, List.append_nil]
  exact (hg .enum).append ((hg .or).append (hg .and))

/-- **C41, refuted as stated.** A group of two OR factors and a single OR factor: added in this order the graph does not compile, in
the other order it does. -/
theorem C41_refuted :
    (graphOf exVars [.list ([exOr2, exOr 3 0 2].map .one)]).fgState 0 = .error .valueError ∧
    (∃ st, (graphOf exVars [.list ([exOr 3 0 2, exOr2].map .one)]).fgState 0 = .ok st) ∧
    ((FactorGraph.create exVars : FactorGraph Nat ℚ).addFactors (.list ([exOr2, exOr 3 0 2].map .one))).2 = none :=
  ⟨rfl, ⟨_, rfl⟩, by decide⟩

/-! ## Non-vacuity -/

/-- An enumeration group with different log potentials. -/
def exOrdG : FGroup ℚ := ⟨4, .enum, .enumGroup, [[exVar 1, exVar 2]], ⟨2, [[0, 0], [1, 1], [0, 1]]⟩, [1, 2, 5]⟩
/-- Three groups. -/
def exOrd : List (FGroup ℚ) := [exGroup 3 [[exVar 0, exVar 1]], exOrdG, exOr 5 0 1]
/-- The same groups in another order. -/
def exOrd' : List (FGroup ℚ) := [exOrdG, exOr 5 0 1, exGroup 3 [[exVar 0, exVar 1]]]

theorem exOrd_compiled {gs : List (FGroup ℚ)} (hp : exOrd.Perm gs) {st : FGState Nat ℚ} (hc : (graphOf exVars [.list (gs.map .one)]).fgState 0 = .ok st)
    (hids : (FType.all.flatMap (graphOf exVars [.list (gs.map .one)]).groups).Perm exOrd) : Compiled exVars [.list (gs.map .one)] 0 st where
  vgroups := exVars_ok
  valid := by
    have hfl : ∀ l : List (FGroup ℚ), AddArg.flatList (l.map .one) = l := by
      intro l; induction l with
      | nil => rfl
      | cons g l ih => simp [AddArg.flatList, AddArg.flat, ih]
    simp only [List.mem_singleton, forall_eq, AddArg.flat, hfl]
    intro g hg
    have hg' := hp.mem_iff.2 hg
    simp only [exOrd, List.mem_cons, List.not_mem_nil, or_false] at hg'
    rcases hg' with rfl | rfl | rfl
    · refine ⟨by decide, by decide, fun _ => ⟨by decide, by decide, by decide, ?_, by rfl⟩, fun h => absurd rfl h⟩
      intro vs hvs r hr
      simp only [exGroup, List.mem_cons, List.not_mem_nil, or_false] at hvs hr
      subst hvs
      rcases hr with rfl | rfl <;> simp [exVar]
    · refine ⟨by decide, by decide, fun _ => ⟨by decide, by decide, by decide, ?_, by rfl⟩, fun h => absurd rfl h⟩
      intro vs hvs r hr
      simp only [exOrdG, List.mem_cons, List.not_mem_nil, or_false] at hvs hr
      subst hvs
      rcases hr with rfl | rfl | rfl <;> simp [exVar]
    · exact ⟨by decide, by decide, (fun h => by cases h), fun _ => ⟨rfl, by unfold LogicalScope; decide⟩⟩
  ids := by
    intro g hg k hk hid
    have hg := hids.mem_iff.1 hg
    have hk := hids.mem_iff.1 hk
    simp only [exOrd, List.mem_cons, List.not_mem_nil, or_false] at hg hk
    rcases hg with rfl | rfl | rfl <;> rcases hk with rfl | rfl | rfl <;> first | rfl | (simp [exGroup, exOrdG, exOr] at hid)
  compiled := hc

/-- The compiled state for an order of the groups. -/
def exOrdSt (gs : List (FGroup ℚ)) : FGState Nat ℚ :=
  match (graphOf exVars [.list (gs.map .one)]).fgState 0 with
  | .ok st => st
  | .error _ => exState

/-- Max-product belief propagation on it. -/
def exOrdBP (gs : List (FGroup ℚ)) : BPFun Nat ℚ :=
  match BP.create (exOrdSt gs) exBPState 0 with
  | .ok bp => bp
  | .error _ => exBP

/-- Three iterations with some evidence. -/
def exOrdRun (gs : List (FGroup ℚ)) : BPArrays ℚ :=
  (exOrdBP gs).runBP exEnv ⟨(exOrdSt gs).logPotentials, List.replicate (exOrdSt gs).totalFactorNumStates 0, [0, 1, 0, 0, 2, 0]⟩ 3 0

/-- Non-vacuity of C41: both orders are accepted and compile, the messages are stored in different places, and the beliefs after three
iterations are the same non-trivial numbers. -/
example : exOrd.Perm exOrd' ∧ ((FactorGraph.create exVars : FactorGraph Nat ℚ).addFactors (.list (exOrd.map .one))).2 = none ∧
    Compiled exVars [.list (exOrd.map .one)] 0 (exOrdSt exOrd) ∧ Compiled exVars [.list (exOrd'.map .one)] 0 (exOrdSt exOrd') ∧
    BP.create (exOrdSt exOrd) exBPState 0 = .ok (exOrdBP exOrd) ∧ BP.create (exOrdSt exOrd') exBPState 0 = .ok (exOrdBP exOrd') ∧
    Fits exEnv (graphOf exVars [.list (exOrd.map .one)]) 0 ∧
    (exOrdRun exOrd).ftovMsgs = [0, -2, 0, -1, 0, -3, -4, 0, 0, -2, 0, -1] ∧
    (exOrdRun exOrd').ftovMsgs = [0, -3, -4, 0, 0, -2, 0, -1, 0, -2, 0, -1] ∧
    (exOrdBP exOrd).flatBeliefs (exOrdRun exOrd) = [0, -3, 0, -5, -2, 0] := by
  have hp : exOrd.Perm exOrd' := by
    have : exOrd' = [exOrdG, exOr 5 0 1] ++ [exGroup 3 [[exVar 0, exVar 1]]] := rfl
    rw [this]
    exact (List.perm_append_singleton _ _).symm
  refine ⟨hp, by decide, exOrd_compiled (List.Perm.refl _) rfl (List.Perm.refl _), exOrd_compiled hp rfl ?_, rfl, rfl,
    ⟨.inl rfl, fun _ => by decide⟩, by decide +kernel, by decide +kernel, by decide +kernel⟩
  have : FType.all.flatMap (graphOf exVars [.list (exOrd'.map .one)]).groups = [exOrdG, exGroup 3 [[exVar 0, exVar 1]], exOr 5 0 1] := rfl
  rw [this]
  exact List.Perm.swap _ _ _

end PGMax
