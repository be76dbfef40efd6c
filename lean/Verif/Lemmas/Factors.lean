import Verif.Lemmas.NewMsgs

/-! Helper lemmas: the factors of the specification and their places in the arrays. -/

namespace PGMax

variable {κ α : Type _} {vgs : List (VGroup κ)} {hist : List (AddArg α)} {garbage : Garbage} {st : FGState κ α}

theorem tableFacs_getElem? (L : List (List Var × Configs)) (lp : List α) (k : Nat) :
    (tableFacs L lp)[k]? = L[k]?.map (fun p => ⟨p.1, p.2.rows.zip (lp.drop (cfgStart L k))⟩) := by
  induction L generalizing lp k with
  | nil => simp [tableFacs]
  | cons q L ih =>
    obtain ⟨vs, cf⟩ := q
    cases k with
    | zero => simp [tableFacs, cfgStart]
    | succ k =>
      simp only [tableFacs, List.getElem?_cons_succ, ih, List.drop_drop, cfgStart_cons_succ]

@[simp] theorem tableFacs_length (L : List (List Var × Configs)) (lp : List α) : (tableFacs L lp).length = L.length := by
  induction L generalizing lp with
  | nil => rfl
  | cons q L ih => obtain ⟨vs, cf⟩ := q; simp [tableFacs, ih]

theorem tableFacs_scopes (L : List (List Var × Configs)) (lp : List α) : (tableFacs L lp).map (·.scope) = L.map (·.1) := by
  induction L generalizing lp with
  | nil => rfl
  | cons q L ih => obtain ⟨vs, cf⟩ := q; simp [tableFacs, ih]

theorem FactorGraph.factors_scopes [Zero α] (fg : FactorGraph κ α) (lp : List α) : (fg.factors lp).map (·.scope) = fg.allScopes := by
  unfold FactorGraph.factors FactorGraph.allScopes
  simp only [List.map_append, tableFacs_scopes, Compiled.tables_scopes, List.map_map, Function.comp_def, List.map_id', FType.all,
    List.flatMap_cons, List.flatMap_nil, List.append_nil, List.append_assoc]

theorem FactorGraph.factors_scope [Zero α] (fg : FactorGraph κ α) (lp : List α) {f : Nat} {F : SFac α} (h : (fg.factors lp)[f]? = some F) :
    fg.allScopes[f]? = some F.scope := by
  rw [← fg.factors_scopes lp, List.getElem?_map, h]; rfl

/-- The rows of an enumeration factor, by index. -/
theorem zip_rows [Zero α] (rows : List (List Nat)) (lp : List α) (d : Nat) (h : d + rows.length ≤ lp.length) :
    rows.zip (lp.drop d) = (List.range rows.length).map (fun c => (rows.getD c [], lp.getD (d + c) 0)) := by
  apply List.ext_getElem?
  intro c
  rw [List.getElem?_map]
  by_cases hc : c < rows.length
  · rw [List.getElem?_range hc, List.getElem?_eq_getElem (by simp; omega)]
    simp [List.getD, List.getElem?_eq_getElem hc, List.getElem?_eq_getElem (show d + c < lp.length by omega)]
  · rw [List.getElem?_eq_none (by simp; omega), List.getElem?_eq_none (by simp; omega)]; rfl

theorem rowsAt_table [Zero α] (vs : List Var) (cf : Configs) (lp : List α) (d i s : Nat) (h : d + cf.rows.length ≤ lp.length) :
    (SFac.mk vs (cf.rows.zip (lp.drop d))).rowsAt i s = (cfgsAt cf i s).map (fun c => (cf.rows.getD c [], lp.getD (d + c) 0)) := by
  unfold SFac.rowsAt cfgsAt
  simp only
  rw [zip_rows _ _ _ h, List.filter_map]
  rfl

theorem sum_range_but [AddCommGroup α] (n i : Nat) (hi : i < n) (q : Nat → α) :
    ((List.range n).map q).sum = (((List.range n).filter (fun j => j ≠ i)).map q).sum + q i := by
  rw [sum_filter_ne (List.range n) List.nodup_range i (by simpa using hi), add_comm]

/-- The value of a flat position of a part of the graph, seen from the whole graph. -/
theorem edgeStart_left (a b : List (List Var)) (f i : Nat) (hf : f < a.length) : edgeStart (a ++ b) f i = edgeStart a f i :=
  edgeStart_append_left a b f i hf

theorem cfgStart_add_le (L : List (List Var × Configs)) (k : Nat) (vs : List Var) (cf : Configs) (hk : L[k]? = some (vs, cf)) :
    cfgStart L k + cf.rows.length ≤ totalCfgs L := by
  induction L generalizing k with
  | nil => simp at hk
  | cons q L ih =>
    cases k with
    | zero =>
      simp only [List.getElem?_cons_zero, Option.some.injEq] at hk
      subst hk
      simp [cfgStart, totalCfgs]
    | succ k =>
      rw [cfgStart_cons_succ]
      have := ih k (by simpa using hk)
      simp only [totalCfgs, List.map_cons, List.sum_cons] at this ⊢
      omega

variable [Field α] [LinearOrder α]

/-- The messages of enumeration factors, as a function of the factor's rows. -/
theorem Compiled.enum_part (h : Compiled vgs hist garbage st) {bp : BPFun κ α} (hbp : bp.st = st) (env : Env α) (lp vtof : List α)
    (hlp : lp.length = st.logPotentials.length) (hv : vtof.length = st.totalFactorNumStates) (f i s : Nat) (F : SFac α) (v : Var)
    (hF : ((graphOf vgs hist).factors lp)[f]? = some F) (hf : f < (graphOf vgs hist).tables.length) (hi : F.scope[i]? = some v) (hs : s < v.n) :
    ∃ vs cf, (graphOf vgs hist).tables[f]? = some (vs, cf) ∧ F = ⟨vs, cf.rows.zip (lp.drop (cfgStart (graphOf vgs hist).tables f))⟩ ∧
      (bp.newMsgs env lp vtof)[edgeStart (graphOf vgs hist).allScopes f i + s]? =
        (passEnum env bp.temperature (vtof.take (statesOf ((graphOf vgs hist).scopesOf .enum)))
          (enumEntries 0 0 (graphOf vgs hist).tables) lp (totalCfgs (graphOf vgs hist).tables))[edgeStart ((graphOf vgs hist).tables.map (·.1)) f i + s]? ∧
      (vtof.take (statesOf ((graphOf vgs hist).scopesOf .enum))).length = statesOf ((graphOf vgs hist).tables.map (·.1)) ∧
      edgeStart (graphOf vgs hist).allScopes f i + s < vtof.length ∧
      ∀ c ∈ cfgsAt cf i s, cfgScore (graphOf vgs hist).tables (vtof.take (statesOf ((graphOf vgs hist).scopesOf .enum))) lp f c
        = scoreBut F.scope.length (readMsgs (graphOf vgs hist).allScopes vtof f) i
            (cf.rows.getD c [], lp.getD (cfgStart (graphOf vgs hist).tables f + c) 0)
          + readMsgs (graphOf vgs hist).allScopes vtof f i s := by
  obtain ⟨⟨vs, cf⟩, hk⟩ : ∃ p, (graphOf vgs hist).tables[f]? = some p := ⟨_, List.getElem?_eq_getElem hf⟩
  have hFeq : F = ⟨vs, cf.rows.zip (lp.drop (cfgStart (graphOf vgs hist).tables f))⟩ := by
    unfold FactorGraph.factors at hF
    rw [List.append_assoc, List.getElem?_append_left (by simpa using hf), tableFacs_getElem?, hk] at hF
    exact (Option.some.inj hF).symm
  subst hFeq
  simp only at hi
  have hall : (graphOf vgs hist).allScopes = (graphOf vgs hist).scopesOf .enum ++ ((graphOf vgs hist).scopesOf .or ++ (graphOf vgs hist).scopesOf .and) := by
    simp [FactorGraph.allScopes, FType.all]
  have hts := Compiled.tables_scopes (graphOf vgs hist)
  have hsl : f < ((graphOf vgs hist).scopesOf .enum).length := by rw [← hts]; simpa using hf
  have hes : ∀ j, edgeStart (graphOf vgs hist).allScopes f j = edgeStart ((graphOf vgs hist).scopesOf .enum) f j := by
    intro j; rw [hall]; exact edgeStart_left _ _ _ _ hsl
  have hlt : edgeStart ((graphOf vgs hist).scopesOf .enum) f i + s < statesOf ((graphOf vgs hist).scopesOf .enum) :=
    PGMax.edgeStart_lt _ f i vs v s (by rw [← hts]; simp [hk]) hi hs
  have htot : statesOf ((graphOf vgs hist).scopesOf .enum) ≤ st.totalFactorNumStates := by
    rw [h.totalStates, hall, statesOf_append]; omega
  refine ⟨vs, cf, hk, rfl, ?_, ?_, ?_, ?_⟩
  · rw [h.newMsgs_eq hbp env lp vtof hlp hv, hes, hts, List.append_assoc, List.getElem?_append_left]
    rw [passEnum_length, List.length_take]
    omega
  · rw [List.length_take, hts]; omega
  · rw [hes]; omega
  · intro c hc
    obtain ⟨hc1, hc2⟩ := List.mem_filter.1 hc
    simp only [List.mem_range, decide_eq_true_eq] at hc1 hc2
    unfold cfgScore scoreBut
    simp only [getD_of_some hk]
    rw [sum_range_but vs.length i (List.getElem?_eq_some_iff.1 hi).1, add_assoc]
    obtain ⟨hw, hr⟩ := h.tablesOk (vs, cf) (List.mem_iff_getElem?.2 ⟨f, hk⟩)
    simp only at hw hr
    have hread : ∀ j x, j < vs.length → x = (cf.rows.getD c []).getD j 0 →
        readMsgs ((graphOf vgs hist).tables.map (·.1)) (vtof.take (statesOf ((graphOf vgs hist).scopesOf .enum))) f j x
          = readMsgs (graphOf vgs hist).allScopes vtof f j x := by
      intro j x hj hx
      have hrow := hr (cf.rows.getD c []) (by simp [List.getD, List.getElem?_eq_getElem hc1])
      have hl := hrow.length_eq
      obtain ⟨w, hw1, hlt'⟩ := forall₂_getElem? hrow (List.getElem?_eq_getElem (show j < (cf.rows.getD c []).length by omega))
      have hxe : x = (cf.rows.getD c [])[j]'(by omega) := by rw [hx]; exact getD_of_some (List.getElem?_eq_getElem (by omega))
      have hlt2 : edgeStart ((graphOf vgs hist).scopesOf .enum) f j + x < statesOf ((graphOf vgs hist).scopesOf .enum) :=
        PGMax.edgeStart_lt _ f j vs w x (by rw [← hts]; simp [hk]) hw1 (by rw [hxe]; exact hlt')
      simp only [readMsgs, hes, hts, List.getD]
      rw [List.getElem?_take, if_pos hlt2]
    congr 2
    · congr 1
      apply List.map_congr_left
      intro j hj
      have hj : j < vs.length := by have := (List.mem_filter.1 hj).1; simpa using this
      exact hread j _ hj rfl
    · rw [hread i _ (List.getElem?_eq_some_iff.1 hi).1 rfl]
      congr 1
      exact getD_of_some hc2

end PGMax
