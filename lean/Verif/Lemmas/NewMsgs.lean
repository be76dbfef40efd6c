import Verif.Lemmas.EnumMsg

/-! Helper lemmas: the new messages are those of the three factor types, concatenated. -/

namespace PGMax

variable {κ α : Type _} {vgs : List (VGroup κ)} {hist : List (AddArg α)} {garbage : Garbage} {st : FGState κ α}

theorem Compiled.msgsRange (h : Compiled vgs hist garbage st) :
    st.typeToMsgsRange .enum = (0, statesOf ((graphOf vgs hist).scopesOf .enum)) ∧
    st.typeToMsgsRange .or = (statesOf ((graphOf vgs hist).scopesOf .enum),
      statesOf ((graphOf vgs hist).scopesOf .enum) + statesOf ((graphOf vgs hist).scopesOf .or)) ∧
    st.typeToMsgsRange .and = (statesOf ((graphOf vgs hist).scopesOf .enum) + statesOf ((graphOf vgs hist).scopesOf .or),
      statesOf ((graphOf vgs hist).scopesOf .enum) + statesOf ((graphOf vgs hist).scopesOf .or)
        + statesOf ((graphOf vgs hist).scopesOf .and)) := by
  obtain ⟨a1, -⟩ := computeOffsets_spec (graphOf vgs hist) h.idsNodup
  rw [h.st_eq]
  simp only [a1, FType.before, edgeStatesOf_eq, FactorGraph.scopesOf, List.flatMap_nil, List.flatMap_cons, List.append_nil,
    List.flatMap_append, statesOf_append]
  simp [statesOf]

theorem Compiled.nopots (h : Compiled vgs hist garbage st) (t : FType) (ht : t ≠ .enum) : potsOf ((graphOf vgs hist).groups t) = 0 := by
  unfold potsOf
  have : ((graphOf vgs hist).groups t).map (fun g => g.logPotentials.length) = List.replicate ((graphOf vgs hist).groups t).length 0 := by
    rw [List.eq_replicate_iff]
    refine ⟨by simp, ?_⟩
    intro n hn
    obtain ⟨g, hg, rfl⟩ := List.mem_map.1 hn
    rw [((h.fgValid t g hg).2.logicalOk (by rw [(h.fgValid t g hg).1]; exact ht)).1]; rfl
  rw [this]; simp

theorem Compiled.potsRange (h : Compiled vgs hist garbage st) :
    st.typeToPotsRange .enum = (0, st.logPotentials.length) := by
  obtain ⟨-, a2, -⟩ := computeOffsets_spec (graphOf vgs hist) h.idsNodup
  have h1 := h.totalPots
  have h2 := h.nopots .or (by decide)
  have h3 := h.nopots .and (by decide)
  have h4 : st.typeToPotsRange .enum = (0, potsOf ((graphOf vgs hist).groups .enum)) := by
    rw [h.st_eq]; simp only [a2, FType.before, List.flatMap_nil]; simp [potsOf]
  rw [h4, h1]
  simp only [FactorGraph.allGroups, FType.all, List.flatMap_cons, List.flatMap_nil, List.append_nil]
  simp only [potsOf, List.map_append, List.sum_append] at h2 h3 ⊢
  rw [h2, h3]; simp only [Nat.add_zero]

theorem Compiled.tables_scopes (fg : FactorGraph κ α) : fg.tables.map (·.1) = fg.scopesOf .enum := by
  unfold FactorGraph.tables FactorGraph.scopesOf
  rw [List.map_flatMap]
  simp only [List.map_map, Function.comp_def, List.map_id']

theorem Compiled.tablesOk (h : Compiled vgs hist garbage st) : TablesOk (graphOf vgs hist).tables := by
  intro p hp
  obtain ⟨g, hg, hp⟩ := List.mem_flatMap.1 hp
  obtain ⟨vs, hvs, rfl⟩ := List.mem_map.1 hp
  have hv := h.fgValid .enum g hg
  have he := hv.2.enumOk hv.1
  exact ⟨he.width vs hvs, fun r hr => he.inRange vs hvs r hr⟩

theorem Compiled.tablesNe (h : Compiled vgs hist garbage st) : ∀ p ∈ (graphOf vgs hist).tables, p.2.rows ≠ [] ∧ 0 < p.2.ncols := by
  intro p hp
  obtain ⟨g, hg, hp⟩ := List.mem_flatMap.1 hp
  obtain ⟨vs, hvs, rfl⟩ := List.mem_map.1 hp
  have hv := h.fgValid .enum g hg
  have he := hv.2.enumOk hv.1
  exact ⟨he.rowsNe, he.cols⟩

theorem Compiled.lpLength (h : Compiled vgs hist garbage st) : st.logPotentials.length = totalCfgs (graphOf vgs hist).tables := by
  have h1 := h.totalPots
  have h2 := h.nopots .or (by decide)
  have h3 := h.nopots .and (by decide)
  rw [h1]
  simp only [FactorGraph.allGroups, FType.all, List.flatMap_cons, List.flatMap_nil, List.append_nil]
  simp only [potsOf, List.map_append, List.sum_append] at h2 h3 ⊢
  rw [h2, h3]
  unfold totalCfgs FactorGraph.tables
  rw [List.map_flatMap, List.flatMap_def, List.sum_flatten, List.map_map]
  simp only [Nat.add_zero]
  congr 1
  apply List.map_congr_left
  intro g hg
  have hv := h.fgValid .enum g hg
  have he := (hv.2.enumOk hv.1).pots
  rw [he]
  simp [Function.comp_def, List.map_const']

variable [Field α] [LinearOrder α]

theorem passEnum_length (env : Env α) (T : α) (vtof : List α) (fces : List (Nat × Nat)) (lp : List α) (n : Nat) :
    (passEnum env T vtof fces lp n).length = vtof.length := by
  unfold passEnum
  simp only
  split <;> simp [zipOp, enumMaxes]

theorem passLogical_length (env : Env α) (T : α) (vtof : List α) (parents : List (Nat × Nat)) (children : List Nat) (off : Int) :
    (passLogical env T vtof parents children off).length = vtof.length := by
  unfold passLogical scatterSetI
  simp

/-- The new messages of the three factor types, concatenated. -/
theorem Compiled.newMsgs_eq (h : Compiled vgs hist garbage st) {bp : BPFun κ α} (hbp : bp.st = st) (env : Env α) (lp vtof : List α)
    (hlp : lp.length = st.logPotentials.length) (hv : vtof.length = st.totalFactorNumStates) :
    bp.newMsgs env lp vtof =
      passEnum env bp.temperature (vtof.take (statesOf ((graphOf vgs hist).scopesOf .enum)))
        (enumEntries 0 0 (graphOf vgs hist).tables) lp (totalCfgs (graphOf vgs hist).tables)
      ++ passLogical env bp.temperature (slice vtof (statesOf ((graphOf vgs hist).scopesOf .enum))
          (statesOf ((graphOf vgs hist).scopesOf .enum) + statesOf ((graphOf vgs hist).scopesOf .or)))
        (lParents 0 0 0 ((graphOf vgs hist).scopesOf .or)) (lChildren 0 0 ((graphOf vgs hist).scopesOf .or)) 1
      ++ passLogical env bp.temperature (vtof.drop (statesOf ((graphOf vgs hist).scopesOf .enum) + statesOf ((graphOf vgs hist).scopesOf .or)))
        (lParents 1 0 0 ((graphOf vgs hist).scopesOf .and)) (lChildren 1 0 ((graphOf vgs hist).scopesOf .and)) (-1) := by
  obtain ⟨r1, r2, r3⟩ := h.msgsRange
  have hp := h.potsRange
  have htot : st.totalFactorNumStates = statesOf ((graphOf vgs hist).scopesOf .enum) + statesOf ((graphOf vgs hist).scopesOf .or)
      + statesOf ((graphOf vgs hist).scopesOf .and) := by
    rw [h.totalStates]
    simp only [FactorGraph.allScopes, FType.all, List.flatMap_cons, List.flatMap_nil, List.append_nil, statesOf_append]
    omega
  have hw : st.wiring = mkWirings (graphOf vgs hist) := by rw [h.st_eq]
  have htab : (graphOf vgs hist).tables = ((graphOf vgs hist).groups .enum).flatMap (·.sfs) := rfl
  have hnvc : st.wiring.enum.numValConfigs = totalCfgs (graphOf vgs hist).tables := by
    rw [hw, htab]
    exact numValConfigs_eq _ _ (by rw [← htab]; exact h.tablesNe)
  have hE : ∀ x, bp.facToVar env .enum x (slice lp 0 st.logPotentials.length) =
      passEnum env bp.temperature x (enumEntries 0 0 (graphOf vgs hist).tables) lp (totalCfgs (graphOf vgs hist).tables) := by
    intro x
    simp only [BPFun.facToVar, hbp, hnvc]
    rw [← hlp, slice_full, hw]
    rfl
  have hO : ∀ x y, bp.facToVar env .or x y = passLogical env bp.temperature x
        (lParents 0 0 0 ((graphOf vgs hist).scopesOf .or)) (lChildren 0 0 ((graphOf vgs hist).scopesOf .or)) 1 := by
    intro x y
    simp only [BPFun.facToVar, hbp, hw]
    rfl
  have hA : ∀ x y, bp.facToVar env .and x y = passLogical env bp.temperature x
        (lParents 1 0 0 ((graphOf vgs hist).scopesOf .and)) (lChildren 1 0 ((graphOf vgs hist).scopesOf .and)) (-1) := by
    intro x y
    simp only [BPFun.facToVar, hbp, hw, mkWirings, mkLogicalW]
    by_cases hg : (graphOf vgs hist).groups .and = []
    · rw [if_pos hg]
      simp only [FactorGraph.scopesOf, hg, List.flatMap_nil, lParents, lChildren]
      rfl
    · rw [if_neg hg]
      rfl
  generalize statesOf ((graphOf vgs hist).scopesOf .enum) = a at *
  generalize statesOf ((graphOf vgs hist).scopesOf .or) = b at *
  generalize statesOf ((graphOf vgs hist).scopesOf .and) = c at *
  unfold BPFun.newMsgs
  simp only [FType.all, List.foldl_cons, List.foldl_nil, hbp, r1, r2, r3, hp, hE, hO, hA]
  simp only [slice_zero]
  have l1 := passEnum_length env bp.temperature (vtof.take a) (enumEntries 0 0 (graphOf vgs hist).tables) lp (totalCfgs (graphOf vgs hist).tables)
  have l2 := passLogical_length env bp.temperature (slice vtof a (a + b)) (lParents 0 0 0 ((graphOf vgs hist).scopesOf .or)) (lChildren 0 0 ((graphOf vgs hist).scopesOf .or)) 1
  have e3 : slice vtof (a + b) (a + b + c) = vtof.drop (a + b) := by
    unfold slice; rw [List.take_of_length_le (by omega)]
  rw [e3]
  generalize passEnum env bp.temperature (vtof.take a) (enumEntries 0 0 (graphOf vgs hist).tables) lp (totalCfgs (graphOf vgs hist).tables) = x at *
  generalize passLogical env bp.temperature (slice vtof a (a + b)) (lParents 0 0 0 ((graphOf vgs hist).scopesOf .or)) (lChildren 0 0 ((graphOf vgs hist).scopesOf .or)) 1 = y at *
  generalize passLogical env bp.temperature (vtof.drop (a + b)) (lParents 1 0 0 ((graphOf vgs hist).scopesOf .and)) (lChildren 1 0 ((graphOf vgs hist).scopesOf .and)) (-1) = z at *
  have hx : x.length = a := by rw [l1, List.length_take]; omega
  have hy : y.length = b := by rw [l2, slice_length]; omega
  have A1 : (List.replicate vtof.length (0 : α)).take 0 ++ x ++ (List.replicate vtof.length (0 : α)).drop a
      = x ++ List.replicate (b + c) 0 := by
    rw [List.take_zero, List.nil_append, List.drop_replicate]
    congr 2; omega
  have A2 : (x ++ List.replicate (b + c) (0 : α)).take a ++ y ++ (x ++ List.replicate (b + c) (0 : α)).drop (a + b)
      = x ++ y ++ List.replicate c 0 := by
    rw [List.take_left' hx, ← hx, List.drop_append, List.drop_of_length_le (by omega), List.drop_replicate,
      show b + c - (x.length + b - x.length) = c by omega]
    simp
  have A3 : (x ++ y ++ List.replicate c (0 : α)).take (a + b) ++ z ++ (x ++ y ++ List.replicate c (0 : α)).drop (a + b + c)
      = x ++ y ++ z := by
    rw [List.take_left' (by simp; omega), List.drop_of_length_le (by simp; omega), List.append_nil]
  rw [A1, A2, A3]

end PGMax
