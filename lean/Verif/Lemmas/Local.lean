import Verif.Lemmas.LogicalLocal
import Verif.Lemmas.LogicalPart
import Verif.Lemmas.Factors

/-! Helper lemmas: every new message is a function of the incoming messages of its own factor. -/

namespace PGMax

variable {κ α : Type _} {vgs : List (VGroup κ)} {hist : List (AddArg α)} {garbage : Garbage} {st : FGState κ α}

section
variable [Field α] [LinearOrder α]

/-- The message of an enumeration factor `F` to position `i` in state `s`. -/
def enumOut (env : Env α) (T : α) (F : SFac α) (q : Nat → Nat → α) (i s : Nat) : α :=
  if T = 0 then ((F.rowsAt i s).map (fun r => scoreBut F.scope.length q i r + q i s)).foldl max NEG_INF - q i s
  else ((F.rowsAt i s).map (fun r => scoreBut F.scope.length q i r + q i s)).foldl max NEG_INF - q i s +
    T * env.log (env.exp NEG_INF + ((F.rowsAt i s).map (fun r => env.exp ((scoreBut F.scope.length q i r + q i s -
      ((F.rowsAt i s).map (fun r => scoreBut F.scope.length q i r + q i s)).foldl max NEG_INF) / T))).sum)

/-- The message of an OR (`rel = 0`) or AND (`rel = 1`) factor with `n` parents to position `i` in state `s`. -/
noncomputable def lgOut (env : Env α) (T : α) (rel n : Nat) (q : Nat → Nat → α) (i s : Nat) : α :=
  if s = rel then 0 else
    logicalOut env T ((List.range n).map (fun j => q j (1 - rel) - q j rel)) (q n (1 - rel) - q n rel) i

/-- The message of a factor `F`: an enumeration factor (`none`), or an OR / AND factor. -/
noncomputable def facOut (env : Env α) (T : α) (kind : Option Nat) (F : SFac α) (q : Nat → Nat → α) (i s : Nat) : α :=
  match kind with
  | none => enumOut env T F q i s
  | some rel => lgOut env T rel (F.scope.length - 1) q i s

/-- The kind of factor `f`. -/
def FactorGraph.kind (fg : FactorGraph κ α) (f : Nat) : Option Nat :=
  if f < fg.tables.length then none else some (fg.restState f)

/-- A factor whose rows fit its scope; logical factors are binary with at least one parent. -/
def FacOk (kind : Option Nat) (F : SFac α) : Prop :=
  match kind with
  | none => ∀ r ∈ F.rows, List.Forall₂ (fun s (v : Var) => s < v.n) r.1 F.scope
  | some rel => rel < 2 ∧ LogicalScope F.scope

theorem facOut_congr (env : Env α) (T : α) {kind : Option Nat} {F : SFac α} (hok : FacOk kind F) {q q' : Nat → Nat → α}
    (hq : ∀ (i : Nat) (v : Var) (s : Nat), F.scope[i]? = some v → s < v.n → q i s = q' i s) (i s : Nat) (v : Var) (hi : F.scope[i]? = some v)
    (hs : s < v.n) : facOut env T kind F q i s = facOut env T kind F q' i s := by
  cases kind with
  | none =>
    simp only [facOut, enumOut]
    have hsc : ∀ r ∈ F.rowsAt i s, scoreBut F.scope.length q i r = scoreBut F.scope.length q' i r := by
      intro r hr
      unfold scoreBut
      congr 2
      apply List.map_congr_left
      intro j hj
      have hj' : j < F.scope.length := by have := (List.mem_filter.1 hj).1; simpa using this
      have hrow := hok r (List.mem_filter.1 hr).1
      have hl := hrow.length_eq
      obtain ⟨w, hw, hlt⟩ := forall₂_getElem? hrow (List.getElem?_eq_getElem (show j < r.1.length by omega))
      rw [getD_of_some (List.getElem?_eq_getElem (show j < r.1.length by omega))]
      exact hq j w _ hw hlt
    have h1 : (F.rowsAt i s).map (fun r => scoreBut F.scope.length q i r + q i s) = (F.rowsAt i s).map (fun r => scoreBut F.scope.length q' i r + q' i s) := by
      apply List.map_congr_left
      intro r hr
      rw [hsc r hr, hq i v s hi hs]
    rw [h1, hq i v s hi hs]
    have h2 : ∀ M, (F.rowsAt i s).map (fun r => env.exp ((scoreBut F.scope.length q i r + q' i s - M) / T))
      = (F.rowsAt i s).map (fun r => env.exp ((scoreBut F.scope.length q' i r + q' i s - M) / T)) := by
      intro M
      apply List.map_congr_left
      intro r hr
      rw [hsc r hr]
    rw [h2]
  | some rel =>
    obtain ⟨hr, hl, h2⟩ := hok
    simp only [facOut, lgOut]
    have hqq : ∀ j < F.scope.length, ∀ s < 2, q j s = q' j s := fun j hj s hs => hq j _ s (List.getElem?_eq_getElem hj)
      (by rw [h2 _ (List.getElem_mem hj)]; exact hs)
    have h1 : (List.range (F.scope.length - 1)).map (fun j => q j (1 - rel) - q j rel) = (List.range (F.scope.length - 1)).map (fun j => q' j (1 - rel) - q' j rel) := by
      apply List.map_congr_left
      intro j hj
      have := List.mem_range.1 hj
      rw [hqq j (by omega) _ (by omega), hqq j (by omega) _ hr]
    rw [h1, hqq (F.scope.length - 1) (by omega) _ (by omega), hqq (F.scope.length - 1) (by omega) _ hr]

theorem Compiled.facOk (h : Compiled vgs hist garbage st) (lp : List α) (f : Nat) (F : SFac α)
    (hF : ((graphOf vgs hist).factors lp)[f]? = some F) : FacOk ((graphOf vgs hist).kind f) F := by
  have hscope := FactorGraph.factors_scope _ lp hF
  have hts := Compiled.tables_scopes (graphOf vgs hist)
  have htl : (graphOf vgs hist).tables.length = ((graphOf vgs hist).scopesOf .enum).length := by rw [← hts]; simp
  unfold FactorGraph.kind
  by_cases hf : f < (graphOf vgs hist).tables.length
  · rw [if_pos hf]
    unfold FactorGraph.factors at hF
    obtain ⟨⟨vs, cf⟩, hk⟩ : ∃ p, (graphOf vgs hist).tables[f]? = some p := ⟨_, List.getElem?_eq_getElem hf⟩
    rw [List.append_assoc, List.getElem?_append_left (by simpa using hf), tableFacs_getElem?, hk] at hF
    have hFeq := (Option.some.inj hF).symm
    subst hFeq
    intro r hr
    exact (h.tablesOk (vs, cf) (List.mem_iff_getElem?.2 ⟨f, hk⟩)).2 r.1 (List.of_mem_zip hr).1
  · rw [if_neg hf]
    refine ⟨by unfold FactorGraph.restState; split <;> omega, ?_⟩
    have hall : (graphOf vgs hist).allScopes = (graphOf vgs hist).scopesOf .enum ++ ((graphOf vgs hist).scopesOf .or ++ (graphOf vgs hist).scopesOf .and) := by
      simp [FactorGraph.allScopes, FType.all]
    rw [hall, List.getElem?_append_right (by omega)] at hscope
    rcases List.mem_append.1 (List.mem_of_getElem? hscope) with hm | hm
    · exact h.logicalScopes .or (by decide) _ hm
    · exact h.logicalScopes .and (by decide) _ hm

/-- The messages of enumeration factors, at any temperature. -/
theorem Compiled.enum_local (h : Compiled vgs hist garbage st) {bp : BPFun κ α} (hbp : bp.st = st) (env : Env α) (lp vtof : List α)
    (hlp : lp.length = st.logPotentials.length) (hv : vtof.length = st.totalFactorNumStates) (f i s : Nat) (F : SFac α) (v : Var)
    (hF : ((graphOf vgs hist).factors lp)[f]? = some F) (hf : f < (graphOf vgs hist).tables.length)
    (hi : F.scope[i]? = some v) (hs : s < v.n) :
    (bp.newMsgs env lp vtof)[edgeStart (graphOf vgs hist).allScopes f i + s]? = some
      (enumOut env bp.temperature F (readMsgs (graphOf vgs hist).allScopes vtof f) i s) := by
  obtain ⟨vs, cf, hk, hFe, hn, hl, hlt, hsc⟩ := h.enum_part hbp env lp vtof hlp hv f i s F v hF hf hi hs
  have hi' : vs[i]? = some v := by rw [hFe] at hi; exact hi
  rw [hn, passEnum]
  unfold zipOp
  have hll := h.lpLength
  have hts := Compiled.tables_scopes (graphOf vgs hist)
  have hall : (graphOf vgs hist).allScopes = (graphOf vgs hist).scopesOf .enum ++ ((graphOf vgs hist).scopesOf .or ++ (graphOf vgs hist).scopesOf .and) := by
    simp [FactorGraph.allScopes, FType.all]
  have hsl : f < ((graphOf vgs hist).scopesOf .enum).length := by rw [← hts]; simpa using hf
  have hes : edgeStart (graphOf vgs hist).allScopes f i = edgeStart ((graphOf vgs hist).tables.map (·.1)) f i := by
    rw [hall, hts]; exact edgeStart_left _ _ _ _ hsl
  have hltE : edgeStart ((graphOf vgs hist).tables.map (·.1)) f i + s < statesOf ((graphOf vgs hist).scopesOf .enum) := by
    rw [hts]; exact PGMax.edgeStart_lt _ f i vs v s (by rw [← hts]; simp [hk]) hi' hs
  have hmax := enumMaxes_getElem? env _ h.tablesOk _ lp hl (hlp.trans hll) f i s vs cf v hk hi' hs
  have hsum : ∀ c ∈ cfgsAt cf i s, _ := fun c hc => enumSummary_getElem? env _ h.tablesOk _ lp hl (hlp.trans hll) f c vs cf hk
    (by have := (List.mem_filter.1 hc).1; simpa using this)
  generalize hX : vtof.take (statesOf ((graphOf vgs hist).scopesOf .enum)) = X at *
  simp only
  generalize hS : enumSummary env X (enumEntries 0 0 (graphOf vgs hist).tables) lp (totalCfgs (graphOf vgs hist).tables) = S at *
  generalize hM : enumMaxes env X (enumEntries 0 0 (graphOf vgs hist).tables) S = M at *
  have hXlt : edgeStart ((graphOf vgs hist).tables.map (·.1)) f i + s < X.length := by rw [hl, hts]; rw [hts] at hltE; exact hltE
  have hq : X[edgeStart ((graphOf vgs hist).tables.map (·.1)) f i + s]? = some (readMsgs (graphOf vgs hist).allScopes vtof f i s) := by
    rw [← hX, List.getElem?_take, if_pos hltE, ← hes, List.getElem?_eq_getElem hlt]
    rw [readMsgs, getD_of_some (List.getElem?_eq_getElem hlt)]
  have hle : cfgStart (graphOf vgs hist).tables f + cf.rows.length ≤ lp.length := by rw [hlp, hll]; exact cfgStart_add_le _ f vs cf hk
  have hrA : F.rowsAt i s = (cfgsAt cf i s).map (fun c => (cf.rows.getD c [], lp.getD (cfgStart (graphOf vgs hist).tables f + c) 0)) := by
    rw [hFe]; exact rowsAt_table _ _ _ _ _ _ hle
  have hMval : ((cfgsAt cf i s).map (cfgScore (graphOf vgs hist).tables X lp f)).foldl max NEG_INF =
      ((F.rowsAt i s).map (fun r => scoreBut F.scope.length (readMsgs (graphOf vgs hist).allScopes vtof f) i r
        + readMsgs (graphOf vgs hist).allScopes vtof f i s)).foldl max NEG_INF := by
    rw [hrA, List.map_map]
    congr 1
    exact List.map_congr_left (fun c hc => hsc c hc)
  unfold enumOut
  by_cases hT : bp.temperature = 0
  · rw [if_pos hT, if_pos hT, List.getElem?_zipWith, hmax, hq, hMval]
  · rw [if_neg hT, if_neg hT]
    rw [List.getElem?_zipWith, List.getElem?_zipWith, hmax, hq, List.getElem?_map, scatterAdd_getElem?, List.getElem?_replicate, if_pos hXlt]
    have hargs : (List.zipWith (· - ·) (gather env.oob S ((enumEntries 0 0 (graphOf vgs hist).tables).map (·.1)))
        (gather env.oob M ((enumEntries 0 0 (graphOf vgs hist).tables).map (·.2)))).map (fun x => env.exp (x / bp.temperature))
        = (enumEntries 0 0 (graphOf vgs hist).tables).map (fun e => env.exp ((S.getD e.1 env.oob - M.getD e.2 env.oob) / bp.temperature)) := by
      unfold gather
      rw [List.map_map, List.map_map, List.zipWith_map, List.zipWith_self, List.map_map]
      rfl
    rw [hargs, hits_map]
    have hfil := enumEntries_filter_snd 0 0 (graphOf vgs hist).tables h.tablesOk f i s vs cf v hk hi' hs
    simp only [Nat.zero_add] at hfil
    rw [hfil, List.map_map]
    simp only [Option.map_some, Option.some.injEq]
    have hcs : ∀ c ∈ cfgsAt cf i s, S.getD (cfgStart (graphOf vgs hist).tables f + c) env.oob = cfgScore (graphOf vgs hist).tables X lp f c := by
      intro c hc
      rw [getD_of_some (hsum c hc)]
      simp only [cfgScore, getD_of_some hk]
    rw [hMval] at hmax
    rw [hMval]
    generalize ((F.rowsAt i s).map (fun r => scoreBut F.scope.length (readMsgs (graphOf vgs hist).allScopes vtof f) i r
        + readMsgs (graphOf vgs hist).allScopes vtof f i s)).foldl max NEG_INF = MM at *
    congr 3
    rw [hrA, List.map_map]
    congr 1
    congr 1
    apply List.map_congr_left
    intro c hc
    simp only [Function.comp_apply]
    rw [hcs c hc, getD_of_some hmax, hsc c hc]

variable [IsStrictOrderedRing α]

/-- The messages of logical factors, at any temperature. -/
theorem Compiled.logical_local (h : Compiled vgs hist garbage st) {bp : BPFun κ α} (hbp : bp.st = st) (env : Env α) (lp vtof : List α)
    (hlp : lp.length = st.logPotentials.length) (hv : vtof.length = st.totalFactorNumStates)
    (hN : bp.temperature = 0 → (graphOf vgs hist).numParents ≤ 100000) (f i s : Nat) (F : SFac α)
    (hF : ((graphOf vgs hist).factors lp)[f]? = some F) (hf : (graphOf vgs hist).tables.length ≤ f)
    (hi : i < F.scope.length) (hs : s < 2) :
    (bp.newMsgs env lp vtof)[edgeStart (graphOf vgs hist).allScopes f i + s]? = some
      (lgOut env bp.temperature ((graphOf vgs hist).restState f) (F.scope.length - 1) (readMsgs (graphOf vgs hist).allScopes vtof f) i s) := by
  obtain ⟨rel, base, scopes, vt, hrel, hbf, hl, hvt, hsc, hrows, hcnt, hpart, hmsg, -⟩ := h.logical_part hbp env lp vtof hlp hv f F hF hf
  obtain ⟨g, rfl⟩ : ∃ g, f = base + g := ⟨f - base, by omega⟩
  rw [Nat.add_sub_cancel_left] at hsc
  have h2 := (hl _ (List.mem_of_getElem? hsc)).1
  have hgl : g < (parentCounts scopes).length := by rw [parentCounts, List.length_map]; exact (List.getElem?_eq_some_iff.1 hsc).1
  have hnn : (parentCounts scopes).getD g 0 = F.scope.length - 1 := parentCounts_getD hsc
  rw [(hpart g _ hsc).2.1]
  have hd : ∀ j < F.scope.length, readMsgs (graphOf vgs hist).allScopes vtof (base + g) j (1 - rel) - readMsgs (graphOf vgs hist).allScopes vtof (base + g) j rel
      = diffAt scopes vt rel g j := by
    intro j hj
    rw [(hmsg g _ j _ hsc hj (by omega)).2, (hmsg g _ j _ hsc hj hrel).2]; rfl
  have hxs : (List.range (F.scope.length - 1)).map (fun j => readMsgs (graphOf vgs hist).allScopes vtof (base + g) j (1 - rel)
      - readMsgs (graphOf vgs hist).allScopes vtof (base + g) j rel) = block (parentCounts scopes) (pdiffs env vt rel scopes) g := by
    rw [block, hnn]
    apply List.map_congr_left
    intro j hj
    have := List.mem_range.1 hj
    rw [hd j (by omega), getD_of_some (pdiffs_at env vt hvt hl rel hrel g j _ hsc this)]
  have hy := cdiffs_at env vt hvt hl rel hrel g _ hsc
  rw [(hmsg g _ i s hsc hi hs).1, lgOut, hd _ (by omega), hxs]
  have fin : ∀ pm cm : List α, (if bp.temperature = 0 then logicalMax env (pdiffs env vt rel scopes) (cdiffs env vt rel scopes) ((lParents rel 0 0 scopes).map (·.1)) (parentCounts scopes).length
      else logicalSum env bp.temperature (pdiffs env vt rel scopes) (cdiffs env vt rel scopes) ((lParents rel 0 0 scopes).map (·.1)) (parentCounts scopes).length) = (pm, cm) →
      pm.length = (parentCounts scopes).sum → cm.length = scopes.length →
      cm[g]? = some (if bp.temperature = 0 then maxC (block (parentCounts scopes) (pdiffs env vt rel scopes) g)
        else sumC env bp.temperature (block (parentCounts scopes) (pdiffs env vt rel scopes) g)) →
      (∀ k < F.scope.length - 1, pm[blk (parentCounts scopes) g k]? = some (if bp.temperature = 0 then
        maxP (block (parentCounts scopes) (pdiffs env vt rel scopes) g) (diffAt scopes vt rel g (F.scope.length - 1)) k
        else sumP env bp.temperature (block (parentCounts scopes) (pdiffs env vt rel scopes) g) (diffAt scopes vt rel g (F.scope.length - 1)) k)) →
      (passLogical env bp.temperature vt (lParents rel 0 0 scopes) (lChildren rel 0 scopes) (if rel = 0 then 1 else -1))[edgeStart scopes g i + s]? =
        some (if s = rel then 0 else logicalOut env bp.temperature (block (parentCounts scopes) (pdiffs env vt rel scopes) g)
          (diffAt scopes vt rel g (F.scope.length - 1)) i) := by
    intro pm cm hpc hpl hcl hc hp
    obtain ⟨p1, p2⟩ := passLogical_at env bp.temperature vt hvt hl rel hrel pm cm hpc hpl hcl g i _ hsc hi
    by_cases hsr : s = rel
    · rw [if_pos hsr, hsr, p1]
    · rw [if_neg hsr, show s = 1 - rel by omega, p2, logicalOut, block_length, hnn]
      by_cases hin : i < F.scope.length - 1
      · rw [if_pos hin, if_pos hin]
        by_cases h1 : F.scope.length - 1 = 1
        · rw [if_pos h1, if_pos h1]
        · rw [if_neg h1, if_neg h1, hp i hin]
      · rw [if_neg hin, if_neg hin, hc]
  by_cases hT : bp.temperature = 0
  · have hloc := logicalMax_local (lLabels rel hl) env (pdiffs env vt rel scopes) (cdiffs env vt rel scopes) (pdiffs_length _ _ _ _)
      ((cdiffs_length _ _ _ _).trans (by simp [parentCounts])) (parentCounts_pos hl) (hcnt.trans (hN hT)) g hgl _ hy
    obtain ⟨l1, l2⟩ := logicalMax_length (lLabels rel hl) env (pdiffs env vt rel scopes) (cdiffs env vt rel scopes) (pdiffs_length _ _ _ _)
      ((cdiffs_length _ _ _ _).trans (by simp [parentCounts]))
    refine fin (logicalMax env (pdiffs env vt rel scopes) (cdiffs env vt rel scopes) ((lParents rel 0 0 scopes).map (·.1)) (parentCounts scopes).length).1
      (logicalMax env (pdiffs env vt rel scopes) (cdiffs env vt rel scopes) ((lParents rel 0 0 scopes).map (·.1)) (parentCounts scopes).length).2
      (if_pos hT) l1 (l2.trans (by simp [parentCounts])) ?_ ?_
    · rw [if_pos hT]; exact hloc.1
    · intro k hk; rw [if_pos hT]; exact hloc.2 k (by omega)
  · have hloc := logicalSum_local (lLabels rel hl) env bp.temperature (pdiffs env vt rel scopes) (cdiffs env vt rel scopes) (pdiffs_length _ _ _ _) g hgl _ hy
    obtain ⟨l1, l2⟩ := logicalSum_length (lLabels rel hl) env bp.temperature (pdiffs env vt rel scopes) (cdiffs env vt rel scopes) (pdiffs_length _ _ _ _)
    simp only [if_neg hT] at fin
    generalize logicalSum env bp.temperature (pdiffs env vt rel scopes) (cdiffs env vt rel scopes) ((lParents rel 0 0 scopes).map (·.1)) (parentCounts scopes).length = pc at *
    refine fin pc.1 pc.2 rfl l1 (l2.trans (by simp [parentCounts])) hloc.1 ?_
    intro k hk
    exact hloc.2 k (by omega)

/-- Every new message is a function of the incoming messages of its own factor. -/
theorem Compiled.newMsgs_local (h : Compiled vgs hist garbage st) {bp : BPFun κ α} (hbp : bp.st = st) (env : Env α) (lp vtof : List α)
    (hlp : lp.length = st.logPotentials.length) (hv : vtof.length = st.totalFactorNumStates)
    (hN : bp.temperature = 0 → (graphOf vgs hist).numParents ≤ 100000) (f i s : Nat) (F : SFac α) (v : Var)
    (hF : ((graphOf vgs hist).factors lp)[f]? = some F) (hi : F.scope[i]? = some v) (hs : s < v.n) :
    (bp.newMsgs env lp vtof)[edgeStart (graphOf vgs hist).allScopes f i + s]? = some
      (facOut env bp.temperature ((graphOf vgs hist).kind f) F (readMsgs (graphOf vgs hist).allScopes vtof f) i s) := by
  have hok := h.facOk lp f F hF
  unfold FactorGraph.kind at hok ⊢
  by_cases hf : f < (graphOf vgs hist).tables.length
  · rw [if_pos hf]
    exact h.enum_local hbp env lp vtof hlp hv f i s F v hF hf hi hs
  · rw [if_neg hf] at hok ⊢
    have : v.n = 2 := hok.2.2 v (List.mem_of_getElem? hi)
    exact h.logical_local hbp env lp vtof hlp hv hN f i s F hF (by omega) (List.getElem?_eq_some_iff.1 hi).1 (by omega)

end

end PGMax
