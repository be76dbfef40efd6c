import Verif.Lemmas.PassLogical
import Verif.Lemmas.LogicalRows

/-! Helper lemma: the OR and AND factors of a compiled graph. -/

namespace PGMax

variable {κ α : Type _} {vgs : List (VGroup κ)} {hist : List (AddArg α)} {garbage : Garbage} {st : FGState κ α}

theorem Compiled.logicalScopes (h : Compiled vgs hist garbage st) (t : FType) (ht : t ≠ .enum) :
    ∀ vs ∈ (graphOf vgs hist).scopesOf t, LogicalScope vs := by
  intro vs hvs
  obtain ⟨g, hg, hv⟩ := List.mem_flatMap.1 hvs
  obtain ⟨e, hval⟩ := h.fgValid t g hg
  exact (hval.logicalOk (by rw [e]; exact ht)).2 vs hv

variable [Field α] [LinearOrder α]

/-- An OR or AND factor `f`, seen inside the list of factors of its type. -/
theorem Compiled.logical_part (h : Compiled vgs hist garbage st) {bp : BPFun κ α} (hbp : bp.st = st) (env : Env α) (lp vtof : List α)
    (hlp : lp.length = st.logPotentials.length) (hv : vtof.length = st.totalFactorNumStates) (f : Nat) (F : SFac α)
    (hF : ((graphOf vgs hist).factors lp)[f]? = some F) (hf : (graphOf vgs hist).tables.length ≤ f) :
    ∃ (rel base : Nat) (scopes : List (List Var)) (vt : List α), rel < 2 ∧ base ≤ f ∧ (∀ vs ∈ scopes, LogicalScope vs) ∧
      vt.length = statesOf scopes ∧ scopes[f - base]? = some F.scope ∧ F.rows = lRows rel (F.scope.length - 1) ∧
      (parentCounts scopes).sum ≤ (graphOf vgs hist).numParents ∧
      (∀ (g : Nat) (vs : List Var), scopes[g]? = some vs → (graphOf vgs hist).tables.length ≤ base + g ∧
        (graphOf vgs hist).restState (base + g) = rel ∧ (graphOf vgs hist).allScopes[base + g]? = some vs) ∧
      (∀ (g : Nat) (vs : List Var) (i s : Nat), scopes[g]? = some vs → i < vs.length → s < 2 →
        (bp.newMsgs env lp vtof)[edgeStart (graphOf vgs hist).allScopes (base + g) i + s]? =
          (passLogical env bp.temperature vt (lParents rel 0 0 scopes) (lChildren rel 0 scopes) (if rel = 0 then 1 else -1))[edgeStart scopes g i + s]? ∧
        readMsgs (graphOf vgs hist).allScopes vtof (base + g) i s = readMsgs scopes vt g i s) ∧
      ((f < ((graphOf vgs hist).scopesOf .enum).length + ((graphOf vgs hist).scopesOf .or).length ∧ rel = 0 ∧
          base = ((graphOf vgs hist).scopesOf .enum).length ∧ scopes = (graphOf vgs hist).scopesOf .or) ∨
        (((graphOf vgs hist).scopesOf .enum).length + ((graphOf vgs hist).scopesOf .or).length ≤ f ∧ rel = 1 ∧
          base = ((graphOf vgs hist).scopesOf .enum).length + ((graphOf vgs hist).scopesOf .or).length ∧
          scopes = (graphOf vgs hist).scopesOf .and)) := by
  have hall : (graphOf vgs hist).allScopes = (graphOf vgs hist).scopesOf .enum ++ ((graphOf vgs hist).scopesOf .or ++ (graphOf vgs hist).scopesOf .and) := by
    simp [FactorGraph.allScopes, FType.all]
  have hts := Compiled.tables_scopes (graphOf vgs hist)
  have htl : (graphOf vgs hist).tables.length = ((graphOf vgs hist).scopesOf .enum).length := by rw [← hts]; simp
  have htot : st.totalFactorNumStates = statesOf ((graphOf vgs hist).scopesOf .enum) + (statesOf ((graphOf vgs hist).scopesOf .or)
      + statesOf ((graphOf vgs hist).scopesOf .and)) := by
    rw [h.totalStates, hall, statesOf_append, statesOf_append]
  have hnew := h.newMsgs_eq hbp env lp vtof hlp hv
  have hlO := h.logicalScopes .or (by decide)
  have hlA := h.logicalScopes .and (by decide)
  unfold FactorGraph.factors at hF
  unfold FactorGraph.numParents FactorGraph.restState
  generalize (graphOf vgs hist).scopesOf .enum = E at *
  generalize (graphOf vgs hist).scopesOf .or = O at *
  generalize (graphOf vgs hist).scopesOf .and = A at *
  have hbound : ∀ (scopes : List (List Var)), (∀ vs ∈ scopes, LogicalScope vs) → ∀ (g : Nat) (vs : List Var) (i s : Nat), scopes[g]? = some vs →
      i < vs.length → s < 2 → edgeStart scopes g i + s < statesOf scopes := by
    intro scopes hl g vs i s hg hi hs
    have hn : (vs[i]).n = 2 := (hl vs (List.mem_of_getElem? hg)).2 _ (List.getElem_mem hi)
    exact PGMax.edgeStart_lt scopes g i vs vs[i] s hg (List.getElem?_eq_getElem hi) (by omega)
  have hEs : (E.map (fun vs => (vs.map (·.n)).sum)).sum = statesOf E := rfl
  have hOs : (O.map (fun vs => (vs.map (·.n)).sum)).sum = statesOf O := rfl
  have hEl : (vtof.take (statesOf E)).length = statesOf E := by rw [List.length_take]; omega
  have hOl : (slice vtof (statesOf E) (statesOf E + statesOf O)).length = statesOf O := by rw [slice_length]; omega
  by_cases hfO : f < E.length + O.length
  · refine ⟨0, E.length, O, slice vtof (statesOf E) (statesOf E + statesOf O), by omega, by omega, hlO, hOl, ?_, ?_, ?_, ?_, ?_, .inl ⟨hfO, rfl, rfl, rfl⟩⟩
    · rw [List.append_assoc, List.getElem?_append_right (by simpa using hf), List.getElem?_append_left (by simp; omega), List.getElem?_map] at hF
      rw [tableFacs_length, htl] at hF
      cases hO : O[f - E.length]? with
      | none => rw [hO] at hF; cases hF
      | some vs => rw [hO] at hF; cases hF; rfl
    · rw [List.append_assoc, List.getElem?_append_right (by simpa using hf), List.getElem?_append_left (by simp; omega), List.getElem?_map] at hF
      cases hO : O[f - (tableFacs (graphOf vgs hist).tables lp).length]? with
      | none => rw [hO] at hF; cases hF
      | some vs => rw [hO] at hF; cases hF; rfl
    · simp [parentCounts]
    · intro g vs hg
      have hgl := (List.getElem?_eq_some_iff.1 hg).1
      refine ⟨by omega, if_pos (by omega), ?_⟩
      rw [hall, List.getElem?_append_right (by omega), Nat.add_sub_cancel_left, List.getElem?_append_left hgl, hg]
    · intro g vs i s hg hi hs
      have hgl := (List.getElem?_eq_some_iff.1 hg).1
      have hb := hbound O hlO g vs i s hg hi hs
      have hes : edgeStart (graphOf vgs hist).allScopes (E.length + g) i = statesOf E + edgeStart O g i := by
        rw [hall, edgeStart_append_right, edgeStart_append_left _ _ _ _ hgl, hEs]
      constructor
      · rw [hnew, hes, List.append_assoc, List.getElem?_append_right (by rw [passEnum_length, hEl]; omega), passEnum_length, hEl,
          List.getElem?_append_left (by rw [passLogical_length, hOl]; omega)]
        congr 1; omega
      · simp only [readMsgs, hes, List.getD]
        rw [slice_getElem?, if_pos (by omega), Nat.add_assoc]
  · have hlenF := (List.getElem?_eq_some_iff.1 hF).1
    simp only [List.length_append, tableFacs_length, List.length_map] at hlenF
    refine ⟨1, E.length + O.length, A, vtof.drop (statesOf E + statesOf O), by omega, by omega, hlA, by rw [List.length_drop]; omega, ?_, ?_, ?_, ?_, ?_,
      .inr ⟨by omega, rfl, rfl, rfl⟩⟩
    · rw [List.getElem?_append_right (by simp; omega), List.getElem?_map] at hF
      simp only [List.length_append, tableFacs_length, List.length_map, htl] at hF
      cases hO : A[f - (E.length + O.length)]? with
      | none => rw [hO] at hF; cases hF
      | some vs => rw [hO] at hF; cases hF; rfl
    · rw [List.getElem?_append_right (by simp; omega), List.getElem?_map] at hF
      simp only [List.length_append, tableFacs_length, List.length_map, htl] at hF
      cases hO : A[f - (E.length + O.length)]? with
      | none => rw [hO] at hF; cases hF
      | some vs => rw [hO] at hF; cases hF; rfl
    · simp [parentCounts]
    · intro g vs hg
      refine ⟨by omega, if_neg (by omega), ?_⟩
      rw [hall, List.getElem?_append_right (by omega), List.getElem?_append_right (by omega), ← hg]
      congr 1; omega
    · intro g vs i s hg hi hs
      have hb := hbound A hlA g vs i s hg hi hs
      have hes : edgeStart (graphOf vgs hist).allScopes (E.length + O.length + g) i = statesOf E + statesOf O + edgeStart A g i := by
        rw [hall, Nat.add_assoc, edgeStart_append_right, edgeStart_append_right, hEs, hOs, Nat.add_assoc]
      constructor
      · rw [hnew, hes, List.getElem?_append_right (by simp [passEnum_length, passLogical_length, hEl, hOl]; omega)]
        simp only [List.length_append, passEnum_length, passLogical_length, hEl, hOl]
        congr 1; omega
      · simp only [readMsgs, hes, List.getD]
        rw [List.getElem?_drop, Nat.add_assoc]

end PGMax
