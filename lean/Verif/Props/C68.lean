import Verif.Lemmas.Enums

/-! # C68: the binary deconvolution program -/

namespace PGMax

variable {κ α : Type _}

section
variable (idW idS idSW idX idA idO nImg nChan imH imW nFeat fH fW : Nat)

/-- The cells that the body of the loops uses. -/
abbrev dS (p : Place) : Var := uniCell idS [nImg, nFeat, imH - fH + 1, imW - fW + 1] 2 [p.img, p.feat, p.sh, p.sw]
abbrev dW (p : Place) : Var := uniCell idW [nChan, nFeat, fH, fW] 2 [p.chan, p.feat, p.fh, p.fw]
abbrev dSW (p : Place) : Var :=
  uniCell idSW [nImg, nChan, imH, imW, nFeat, fH, fW] 2 [p.img, p.chan, p.fh + p.sh, p.fw + p.sw, p.feat, p.fh, p.fw]
abbrev dX (p : Place) : Var := uniCell idX [nImg, nChan, imH, imW] 2 [p.img, p.chan, p.fh + p.sh, p.fw + p.sw]

abbrev dPlaces : List Place := places nImg nChan (imH - fH + 1) (imW - fW + 1) nFeat fH fW

/-- The AND group of the program. -/
def dAnd : FGroup α :=
  { objId := idA, ftype := .and, kind := .logicalGroup, configs := ⟨0, []⟩, logPotentials := [],
    varsForFactors := (dPlaces nImg nChan imH imW nFeat fH fW).map
      (fun p => [dS idS nImg imH imW nFeat fH fW p, dW idW nChan nFeat fH fW p, dSW idSW nImg nChan imH imW nFeat fH fW p]) }

/-- The dictionary of the program. -/
def dDict : List (Var × List Var) :=
  (dPlaces nImg nChan imH imW nFeat fH fW).foldl
    (fun d p => dictAppend d (dX idX nImg nChan imH imW p) (dSW idSW nImg nChan imH imW nFeat fH fW p)) []

/-- The OR group of the program. -/
def dOr : FGroup α :=
  { objId := idO, ftype := .or, kind := .logicalGroup, configs := ⟨0, []⟩, logPotentials := [],
    varsForFactors := (dDict idSW idX nImg nChan imH imW nFeat fH fW).map (fun p => p.2 ++ [p.1]) }

theorem deconv_fold (hh : fH ≤ imH) (hw : fW ≤ imW) :
    (dPlaces nImg nChan imH imW nFeat fH fW).foldlM
      (deconvStep (uniArr idS [nImg, nFeat, imH - fH + 1, imW - fW + 1] 2) (uniArr idW [nChan, nFeat, fH, fW] 2)
        (uniArr idSW [nImg, nChan, imH, imW, nFeat, fH, fW] 2) (uniArr idX [nImg, nChan, imH, imW] 2)) ([], []) =
      .ok ((dAnd idW idS idSW idA nImg nChan imH imW nFeat fH fW : FGroup α).varsForFactors, dDict idSW idX nImg nChan imH imW nFeat fH fW) := by
  rw [foldlM_ok _ (fun st p => (st.1 ++ [[dS idS nImg imH imW nFeat fH fW p, dW idW nChan nFeat fH fW p, dSW idSW nImg nChan imH imW nFeat fH fW p]],
    dictAppend st.2 (dX idX nImg nChan imH imW p) (dSW idSW nImg nChan imH imW nFeat fH fW p)))]
  · congr 1
    unfold dAnd dDict
    simp only
    generalize dPlaces nImg nChan imH imW nFeat fH fW = l
    induction l using List.reverseRecOn with
    | nil => rfl
    | append_singleton l p ih => simp only [List.foldl_append, List.foldl_cons, List.foldl_nil, ih, List.map_append, List.map_cons, List.map_nil]
  · intro s p hp
    obtain ⟨h1, h2, h3, h4, h5, h6, h7⟩ := mem_places.1 hp
    have hu : p.fh + p.sh < imH := by omega
    have hv : p.fw + p.sw < imW := by omega
    have e1 := uniArr_at idSW [nImg, nChan, imH, imW, nFeat, fH, fW] 2 (by simp)
      (cs := [p.img, p.chan, p.fh + p.sh, p.fw + p.sw, p.feat, p.fh, p.fw]) (by simp [h1, h2, h5, h6, h7, hu, hv])
    have e2 := uniArr_at idS [nImg, nFeat, imH - fH + 1, imW - fW + 1] 2 (by simp) (cs := [p.img, p.feat, p.sh, p.sw]) (by simp [h1, h3, h4, h5])
    have e3 := uniArr_at idW [nChan, nFeat, fH, fW] 2 (by simp) (cs := [p.chan, p.feat, p.fh, p.fw]) (by simp [h2, h5, h6, h7])
    have e4 := uniArr_at idX [nImg, nChan, imH, imW] 2 (by simp) (cs := [p.img, p.chan, p.fh + p.sh, p.fw + p.sw]) (by simp [h1, h2, hu, hv])
    simp only [List.map_cons, List.map_nil] at e1 e2 e3 e4
    unfold deconvStep
    simp only [bind, Except.bind]
    rw [e1, e2, e3, e4]
    rfl

variable {idW idS idSW idX idA idO nImg nChan imH imW nFeat fH fW}

theorem dPlaces_ne (h : DeconvSizes nImg nChan imH imW nFeat fH fW) : dPlaces nImg nChan imH imW nFeat fH fW ≠ [] := by
  obtain ⟨h1, h2, h3, h4, h5, h6, h7, -⟩ := h
  have : (⟨0, 0, 0, 0, 0, 0, 0⟩ : Place) ∈ dPlaces nImg nChan imH imW nFeat fH fW := mem_places.2 ⟨h1, h2, by simp, by simp, h3, h4, h6⟩
  exact List.ne_nil_of_mem this

theorem dSW_inj {p q : Place} (hp : p ∈ dPlaces nImg nChan imH imW nFeat fH fW) (hq : q ∈ dPlaces nImg nChan imH imW nFeat fH fW)
    (hh : fH ≤ imH) (hw : fW ≤ imW)
    (e : dSW idSW nImg nChan imH imW nFeat fH fW p = dSW idSW nImg nChan imH imW nFeat fH fW q) : p = q := by
  obtain ⟨h1, h2, h3, h4, h5, h6, h7⟩ := mem_places.1 hp
  obtain ⟨k1, k2, k3, k4, k5, k6, k7⟩ := mem_places.1 hq
  have := uniCell_inj (by simp [h1, h2, h5, h6, h7]; omega) (by simp [k1, k2, k5, k6, k7]; omega) e
  obtain ⟨a1, a2, a3, a4, a5, a6, a7⟩ := p
  obtain ⟨b1, b2, b3, b4, b5, b6, b7⟩ := q
  simp only [List.cons.injEq, and_true, Place.mk.injEq] at this ⊢
  omega

/-- The sizes of the four arrays. -/
theorem deconv_prods (h : DeconvSizes nImg nChan imH imW nFeat fH fW) :
    [nChan, nFeat, fH, fW].prod ≤ 1000000000 ∧ [nImg, nFeat, imH - fH + 1, imW - fW + 1].prod ≤ 1000000000 ∧
    [nImg, nChan, imH, imW, nFeat, fH, fW].prod ≤ 1000000000 ∧ [nImg, nChan, imH, imW].prod ≤ 1000000000 := by
  obtain ⟨h1, h2, h3, h4, h5, h6, h7, h8⟩ := h
  simp only [List.prod_cons, List.prod_nil, mul_one]
  have hsw : nImg * (nChan * (imH * (imW * (nFeat * (fH * fW))))) ≤ 1000000000 := by
    rw [show nImg * (nChan * (imH * (imW * (nFeat * (fH * fW))))) = nImg * nChan * imH * imW * nFeat * fH * fW by ring]
    exact h8
  refine ⟨le_trans ?_ hsw, le_trans ?_ hsw, hsw, le_trans ?_ hsw⟩
  · calc nChan * (nFeat * (fH * fW)) = 1 * (nChan * (1 * (1 * (nFeat * (fH * fW))))) := by ring
      _ ≤ _ := by gcongr <;> omega
  · calc nImg * (nFeat * ((imH - fH + 1) * (imW - fW + 1))) = nImg * (1 * ((imH - fH + 1) * ((imW - fW + 1) * (nFeat * (1 * 1))))) := by ring
      _ ≤ _ := by gcongr <;> omega
  · calc nImg * (nChan * (imH * imW)) = nImg * (nChan * (imH * (imW * (1 * (1 * 1))))) := by ring
      _ ≤ _ := by gcongr

/-- Ids of the arrays that differ where it matters. -/
structure DeconvIds (idW idS idSW idX idA idO : Nat) : Prop where
  arrays : ([idS, idW, idSW, idX].map (· % 2 ^ 32)).Nodup
  groups : idA ≠ idO

theorem dSW_ne (hi : DeconvIds idW idS idSW idX idA idO) (h : DeconvSizes nImg nChan imH imW nFeat fH fW) {p q : Place}
    (hp : p ∈ dPlaces nImg nChan imH imW nFeat fH fW) (hq : q ∈ dPlaces nImg nChan imH imW nFeat fH fW) :
    dSW idSW nImg nChan imH imW nFeat fH fW p ≠ dS idS nImg imH imW nFeat fH fW q ∧
    dSW idSW nImg nChan imH imW nFeat fH fW p ≠ dW idW nChan nFeat fH fW q ∧
    dX idX nImg nChan imH imW q ≠ dSW idSW nImg nChan imH imW nFeat fH fW p := by
  obtain ⟨p1, p2, p3, p4⟩ := deconv_prods h
  obtain ⟨-, -, -, -, hh, -, hw, -⟩ := h
  have hd := hi.arrays
  simp only [List.map_cons, List.map_nil, List.nodup_cons, List.mem_cons, List.not_mem_nil, or_false, not_or] at hd
  obtain ⟨h1, h2, h3, h4, h5, h6, h7⟩ := mem_places.1 hp
  obtain ⟨k1, k2, k3, k4, k5, k6, k7⟩ := mem_places.1 hq
  refine ⟨uniCell_ne ?_ p3 p2 ?_ ?_, uniCell_ne ?_ p3 p1 ?_ ?_, uniCell_ne ?_ p4 p3 ?_ ?_⟩
  · omega
  · simp [h1, h2, h5, h6, h7]; omega
  · simp [k1, k5, k3, k4]
  · omega
  · simp [h1, h2, h5, h6, h7]; omega
  · simp [k2, k5, k6, k7]
  · omega
  · simp [k1, k2]; omega
  · simp [h1, h2, h5, h6, h7]; omega

theorem dDict_facts (idSW idX nImg nChan imH imW nFeat fH fW : Nat) :
    ((dDict idSW idX nImg nChan imH imW nFeat fH fW).map (·.1)).Nodup ∧
    (∀ k, k ∈ (dDict idSW idX nImg nChan imH imW nFeat fH fW).map (·.1) ↔ ∃ p ∈ dPlaces nImg nChan imH imW nFeat fH fW, dX idX nImg nChan imH imW p = k) ∧
    ∀ e ∈ dDict idSW idX nImg nChan imH imW nFeat fH fW, ∀ v, v ∈ e.2 ↔
      ∃ p ∈ dPlaces nImg nChan imH imW nFeat fH fW, dX idX nImg nChan imH imW p = e.1 ∧ dSW idSW nImg nChan imH imW nFeat fH fW p = v :=
  dictAppend_foldl _ _ _

theorem dAnd_nodup (hi : DeconvIds idW idS idSW idX idA idO) (h : DeconvSizes nImg nChan imH imW nFeat fH fW) :
    (((dAnd idW idS idSW idA nImg nChan imH imW nFeat fH fW : FGroup α).varsForFactors).map List.toFinset).Nodup := by
  unfold dAnd
  rw [List.map_map]
  refine List.Nodup.map_on (fun p hp q hq e => ?_) (places_nodup _ _ _ _ _ _ _)
  have hm : dSW idSW nImg nChan imH imW nFeat fH fW p ∈ [dS idS nImg imH imW nFeat fH fW q, dW idW nChan nFeat fH fW q, dSW idSW nImg nChan imH imW nFeat fH fW q].toFinset := by
    have : [dS idS nImg imH imW nFeat fH fW q, dW idW nChan nFeat fH fW q, dSW idSW nImg nChan imH imW nFeat fH fW q].toFinset =
      [dS idS nImg imH imW nFeat fH fW p, dW idW nChan nFeat fH fW p, dSW idSW nImg nChan imH imW nFeat fH fW p].toFinset := e.symm
    rw [this]
    simp
  rw [List.mem_toFinset, List.mem_cons, List.mem_cons, List.mem_singleton] at hm
  obtain ⟨n1, n2, -⟩ := dSW_ne hi h hp hq
  rcases hm with hm | hm | hm
  · exact absurd hm n1
  · exact absurd hm n2
  · exact dSW_inj hp hq h.2.2.2.2.1 h.2.2.2.2.2.2.1 hm

theorem dOr_nodup (hi : DeconvIds idW idS idSW idX idA idO) (h : DeconvSizes nImg nChan imH imW nFeat fH fW) :
    (((dOr idSW idX idO nImg nChan imH imW nFeat fH fW : FGroup α).varsForFactors).map List.toFinset).Nodup := by
  obtain ⟨f1, f2, f3⟩ := dDict_facts idSW idX nImg nChan imH imW nFeat fH fW
  unfold dOr
  rw [List.map_map]
  refine List.Nodup.map_on (fun e he e' he' hs => ?_) (List.Nodup.of_map _ f1)
  obtain ⟨q, hq, hqe⟩ := (f2 e.1).1 (List.mem_map_of_mem he)
  have hm : e.1 ∈ (e'.2 ++ [e'.1]).toFinset := by
    have : (e'.2 ++ [e'.1]).toFinset = (e.2 ++ [e.1]).toFinset := hs.symm
    rw [this]
    simp
  rw [List.mem_toFinset, List.mem_append, List.mem_singleton] at hm
  rcases hm with hm | hm
  · obtain ⟨p, hp, -, hpe⟩ := (f3 e' he' e.1).1 hm
    rw [← hqe] at hpe
    exact absurd hpe.symm (dSW_ne hi h hp hq).2.2
  · exact List.inj_on_of_nodup_map f1 he he' hm

theorem dDict_ne (h : DeconvSizes nImg nChan imH imW nFeat fH fW) : dDict idSW idX nImg nChan imH imW nFeat fH fW ≠ [] := by
  obtain ⟨p, hp⟩ := List.exists_mem_of_ne_nil _ (dPlaces_ne h)
  intro e
  have := ((dDict_facts idSW idX nImg nChan imH imW nFeat fH fW).2.1 _).2 ⟨p, hp, rfl⟩
  rw [e] at this
  simp at this

/-- The variable groups of the program. -/
abbrev dVgs (κ : Type _) (idW idS idSW idX nImg nChan imH imW nFeat fH fW : Nat) : List (VGroup κ) :=
  [.arr (uniArr idS [nImg, nFeat, imH - fH + 1, imW - fW + 1] 2), .arr (uniArr idW [nChan, nFeat, fH, fW] 2),
    .arr (uniArr idSW [nImg, nChan, imH, imW, nFeat, fH, fW] 2), .arr (uniArr idX [nImg, nChan, imH, imW] 2)]

/-- The calls of `add_factors` of the program. -/
abbrev dHist (α : Type _) (idW idS idSW idX idA idO nImg nChan imH imW nFeat fH fW : Nat) : List (AddArg α) :=
  [.one (dAnd idW idS idSW idA nImg nChan imH imW nFeat fH fW), .one (dOr idSW idX idO nImg nChan imH imW nFeat fH fW)]

theorem dHist_flat : AddArg.flatList (dHist α idW idS idSW idX idA idO nImg nChan imH imW nFeat fH fW) =
    [dAnd idW idS idSW idA nImg nChan imH imW nFeat fH fW, dOr idSW idX idO nImg nChan imH imW nFeat fH fW] := by
  simp [AddArg.flatList, AddArg.flat]

theorem deconv_eq (hi : DeconvIds idW idS idSW idX idA idO) (h : DeconvSizes nImg nChan imH imW nFeat fH fW) :
    ∃ fg : FactorGraph κ α,
      (FactorGraph.create (dVgs κ idW idS idSW idX nImg nChan imH imW nFeat fH fW)).addAll (dHist α idW idS idSW idX idA idO nImg nChan imH imW nFeat fH fW) = .ok fg ∧
      deconv idW idS idSW idX idA idO nImg nChan imH imW nFeat fH fW = .ok
        ⟨uniArr idS [nImg, nFeat, imH - fH + 1, imW - fW + 1] 2, uniArr idW [nChan, nFeat, fH, fW] 2,
          uniArr idSW [nImg, nChan, imH, imW, nFeat, fH, fW] 2, uniArr idX [nImg, nChan, imH, imW] 2,
          dAnd idW idS idSW idA nImg nChan imH imW nFeat fH fW, dOr idSW idX idO nImg nChan imH imW nFeat fH fW, fg⟩ := by
  obtain ⟨p1, p2, p3, p4⟩ := deconv_prods h
  obtain ⟨fg, hfg⟩ := (addAll_create (dVgs κ idW idS idSW idX nImg nChan imH imW nFeat fH fW)
    (dHist α idW idS idSW idX idA idO nImg nChan imH imW nFeat fH fW)).1 (by
      rw [dHist_flat]
      intro t
      cases t
      · simp [setsOf, dAnd, dOr]
      · simpa [setsOf, dAnd, dOr] using (dOr_nodup (α := α) hi h)
      · simpa [setsOf, dAnd, dOr] using (dAnd_nodup (α := α) hi h))
  refine ⟨fg, hfg, ?_⟩
  have hgr := fun t => addAll_groups hfg t
  rw [dHist_flat] at hgr
  have hfg' := hfg
  rw [show dHist α idW idS idSW idX idA idO nImg nChan imH imW nFeat fH fW =
    [.one (dAnd idW idS idSW idA nImg nChan imH imW nFeat fH fW)] ++ [.one (dOr idSW idX idO nImg nChan imH imW nFeat fH fW)] from rfl, addAll_append] at hfg'
  cases h1 : (FactorGraph.create (dVgs κ idW idS idSW idX nImg nChan imH imW nFeat fH fW)).addAll
      [.one (dAnd idW idS idSW idA nImg nChan imH imW nFeat fH fW : FGroup α)] with
  | error e => rw [h1] at hfg'; cases hfg'
  | ok fg1 =>
    rw [h1] at hfg'
    simp only at hfg'
    have hcond : ¬ ((imH : Int) - fH + 1 < 0 ∨ (imW : Int) - fW + 1 < 0) := by
      have := h.2.2.2.2.1; have := h.2.2.2.2.2.2.1; omega
    have t1 : ((imH : Int) - fH + 1).toNat = imH - fH + 1 := by have := h.2.2.2.2.1; omega
    have t2 : ((imW : Int) - fW + 1).toNat = imW - fW + 1 := by have := h.2.2.2.2.2.2.1; omega
    unfold deconv
    simp only [if_neg hcond, t1, t2]
    rw [create_scalar _ _ _ p1, py_ok_bind, create_scalar _ _ _ p2, py_ok_bind, create_scalar _ _ _ p3, py_ok_bind, create_scalar _ _ _ p4, py_ok_bind,
      deconv_fold (α := α) idW idS idSW idX idA nImg nChan imH imW nFeat fH fW h.2.2.2.2.1 h.2.2.2.2.2.2.1, py_ok_bind,
      logical_create_ok _ _ _ (by simpa [dAnd] using dPlaces_ne h), py_ok_bind]
    simp only [if_true]
    rw [show (FGroup.mk idA .and .logicalGroup (dAnd idW idS idSW idA nImg nChan imH imW nFeat fH fW : FGroup α).varsForFactors ⟨0, []⟩ [] : FGroup α) =
      dAnd idW idS idSW idA nImg nChan imH imW nFeat fH fW from rfl, h1, py_ok_bind, logical_create_ok _ _ _ (by simpa using dDict_ne h), py_ok_bind]
    simp only [Bool.false_eq_true, if_false]
    rw [show (FGroup.mk idO .or .logicalGroup ((dDict idSW idX nImg nChan imH imW nFeat fH fW).map (fun p => p.2 ++ [p.1])) ⟨0, []⟩ [] : FGroup α) =
      dOr idSW idX idO nImg nChan imH imW nFeat fH fW from rfl, hfg', py_ok_bind, if_neg]
    · rfl
    simp [FType.all, hgr, FactorGraph.create, dAnd, dOr]

/-- **C68 (sizes).** The program builds its graph exactly for sizes for which the features fit into the images and there is at least one of
everything, and at most `10 ^ 9` variables in the largest array; for all other sizes it stops with a `ValueError`. -/
theorem C68_sizes (hi : DeconvIds idW idS idSW idX idA idO) (nImg nChan imH imW nFeat fH fW : Nat) :
    ((∃ r : Deconv κ α, deconv idW idS idSW idX idA idO nImg nChan imH imW nFeat fH fW = .ok r) ↔ DeconvSizes nImg nChan imH imW nFeat fH fW) ∧
    ((¬ ∃ r : Deconv κ α, deconv idW idS idSW idX idA idO nImg nChan imH imW nFeat fH fW = .ok r) →
      (deconv idW idS idSW idX idA idO nImg nChan imH imW nFeat fH fW : Py (Deconv κ α)) = .error .valueError) := by
  by_cases h : DeconvSizes nImg nChan imH imW nFeat fH fW
  · obtain ⟨fg, -, e⟩ := deconv_eq (κ := κ) (α := α) hi h
    exact ⟨⟨fun _ => h, fun _ => ⟨_, e⟩⟩, fun hc => absurd ⟨_, e⟩ hc⟩
  · have e : (deconv idW idS idSW idX idA idO nImg nChan imH imW nFeat fH fW : Py (Deconv κ α)) = .error .valueError := by
      unfold deconv
      by_cases hcond : (imH : Int) - fH + 1 < 0 ∨ (imW : Int) - fW + 1 < 0
      · simp only [if_pos hcond]; rfl
      · simp only [if_neg hcond]
        have t1 : ((imH : Int) - fH + 1).toNat = imH + 1 - fH := by omega
        have t2 : ((imW : Int) - fW + 1).toNat = imW + 1 - fW := by omega
        simp only [t1, t2]
        by_cases p1 : [nChan, nFeat, fH, fW].prod ≤ 1000000000
        · rw [create_scalar _ _ _ p1, py_ok_bind]
          by_cases p2 : [nImg, nFeat, imH + 1 - fH, imW + 1 - fW].prod ≤ 1000000000
          · rw [create_scalar _ _ _ p2, py_ok_bind]
            by_cases p3 : [nImg, nChan, imH, imW, nFeat, fH, fW].prod ≤ 1000000000
            · rw [create_scalar _ _ _ p3, py_ok_bind]
              by_cases p4 : [nImg, nChan, imH, imW].prod ≤ 1000000000
              · rw [create_scalar _ _ _ p4, py_ok_bind]
                have hnil : places nImg nChan (imH + 1 - fH) (imW + 1 - fW) nFeat fH fW = [] := by
                  rw [List.eq_nil_iff_forall_not_mem]
                  intro p hp
                  obtain ⟨h1, h2, h3, h4, h5, h6, h7⟩ := mem_places.1 hp
                  refine h ⟨by omega, by omega, by omega, by omega, by omega, by omega, by omega, ?_⟩
                  simp only [List.prod_cons, List.prod_nil, mul_one] at p3
                  rw [show nImg * nChan * imH * imW * nFeat * fH * fW = nImg * (nChan * (imH * (imW * (nFeat * (fH * fW))))) by ring]
                  exact p3
                rw [hnil, List.foldlM_nil, pure_bind]
                rfl
              · rw [create_scalar_large _ _ _ p4, py_error_bind]
            · rw [create_scalar_large _ _ _ p3, py_error_bind]
          · rw [create_scalar_large _ _ _ p2, py_error_bind]
        · rw [create_scalar_large _ _ _ p1, py_error_bind]
    rw [e]
    exact ⟨⟨fun ⟨r, hr⟩ => (by cases hr), fun hc => absurd hc h⟩, fun _ => rfl⟩

/-- What the program builds: the variables, the compiled graph and its factors. -/
theorem deconv_built (hi : DeconvIds idW idS idSW idX idA idO) {r : Deconv κ α}
    (h : deconv idW idS idSW idX idA idO nImg nChan imH imW nFeat fH fW = .ok r) (garbage : Garbage) :
    DeconvSizes nImg nChan imH imW nFeat fH fW ∧ ∃ (fg : FactorGraph κ α) (st : FGState κ α),
      r = ⟨uniArr idS [nImg, nFeat, imH - fH + 1, imW - fW + 1] 2, uniArr idW [nChan, nFeat, fH, fW] 2,
          uniArr idSW [nImg, nChan, imH, imW, nFeat, fH, fW] 2, uniArr idX [nImg, nChan, imH, imW] 2,
          dAnd idW idS idSW idA nImg nChan imH imW nFeat fH fW, dOr idSW idX idO nImg nChan imH imW nFeat fH fW, fg⟩ ∧
      VGroupsOk (dVgs κ idW idS idSW idX nImg nChan imH imW nFeat fH fW) ∧
      Compiled (dVgs κ idW idS idSW idX nImg nChan imH imW nFeat fH fW) (dHist α idW idS idSW idX idA idO nImg nChan imH imW nFeat fH fW) garbage st ∧
      graphOf (dVgs κ idW idS idSW idX nImg nChan imH imW nFeat fH fW) (dHist α idW idS idSW idX idA idO nImg nChan imH imW nFeat fH fW) = fg ∧
      fg.groups .enum = [] ∧ fg.groups .or = [dOr idSW idX idO nImg nChan imH imW nFeat fH fW] ∧
      fg.groups .and = [dAnd idW idS idSW idA nImg nChan imH imW nFeat fH fW] := by
  have hs := (C68_sizes (κ := κ) (α := α) hi nImg nChan imH imW nFeat fH fW).1.1 ⟨r, h⟩
  obtain ⟨fg, hfg, e⟩ := deconv_eq (κ := κ) (α := α) hi hs
  rw [e] at h
  cases h
  obtain ⟨p1, p2, p3, p4⟩ := deconv_prods hs
  have hh := hs.2.2.2.2.1
  have hw := hs.2.2.2.2.2.2.1
  have hvg : VGroupsOk (dVgs κ idW idS idSW idX nImg nChan imH imW nFeat fH fW) :=
    vgroupsOk_of [(idS, .arr (uniArr idS [nImg, nFeat, imH - fH + 1, imW - fW + 1] 2)), (idW, .arr (uniArr idW [nChan, nFeat, fH, fW] 2)),
      (idSW, .arr (uniArr idSW [nImg, nChan, imH, imW, nFeat, fH, fW] 2)), (idX, .arr (uniArr idX [nImg, nChan, imH, imW] 2))]
      (by
        intro q hq
        simp only [List.mem_cons, List.not_mem_nil, or_false] at hq
        rcases hq with rfl | rfl | rfl | rfl
        · exact uniArr_built _ _ _ p2
        · exact uniArr_built _ _ _ p1
        · exact uniArr_built _ _ _ p3
        · exact uniArr_built _ _ _ p4)
      hi.arrays
  have hmem : ∀ v, v ∈ graphVars (dVgs κ idW idS idSW idX nImg nChan imH imW nFeat fH fW) ↔
      (∃ cs, List.Forall₂ (fun c d => c < d) cs [nImg, nFeat, imH - fH + 1, imW - fW + 1] ∧ v = uniCell idS [nImg, nFeat, imH - fH + 1, imW - fW + 1] 2 cs) ∨
      (∃ cs, List.Forall₂ (fun c d => c < d) cs [nChan, nFeat, fH, fW] ∧ v = uniCell idW [nChan, nFeat, fH, fW] 2 cs) ∨
      (∃ cs, List.Forall₂ (fun c d => c < d) cs [nImg, nChan, imH, imW, nFeat, fH, fW] ∧ v = uniCell idSW [nImg, nChan, imH, imW, nFeat, fH, fW] 2 cs) ∨
      (∃ cs, List.Forall₂ (fun c d => c < d) cs [nImg, nChan, imH, imW] ∧ v = uniCell idX [nImg, nChan, imH, imW] 2 cs) := by
    intro v
    rw [← mem_uniArr, ← mem_uniArr, ← mem_uniArr, ← mem_uniArr]
    simp [graphVars, VGroup.variables]
  have hcell : ∀ p ∈ dPlaces nImg nChan imH imW nFeat fH fW,
      dS idS nImg imH imW nFeat fH fW p ∈ graphVars (dVgs κ idW idS idSW idX nImg nChan imH imW nFeat fH fW) ∧
      dW idW nChan nFeat fH fW p ∈ graphVars (dVgs κ idW idS idSW idX nImg nChan imH imW nFeat fH fW) ∧
      dSW idSW nImg nChan imH imW nFeat fH fW p ∈ graphVars (dVgs κ idW idS idSW idX nImg nChan imH imW nFeat fH fW) ∧
      dX idX nImg nChan imH imW p ∈ graphVars (dVgs κ idW idS idSW idX nImg nChan imH imW nFeat fH fW) := by
    intro p hp
    obtain ⟨h1, h2, h3, h4, h5, h6, h7⟩ := mem_places.1 hp
    refine ⟨(hmem _).2 (.inl ⟨_, ?_, rfl⟩), (hmem _).2 (.inr (.inl ⟨_, ?_, rfl⟩)), (hmem _).2 (.inr (.inr (.inl ⟨_, ?_, rfl⟩))),
      (hmem _).2 (.inr (.inr (.inr ⟨_, ?_, rfl⟩)))⟩
    · simp [h1, h5, h3, h4]
    · simp [h2, h5, h6, h7]
    · simp [h1, h2, h5, h6, h7]; omega
    · simp [h1, h2]; omega
  have hin : ∀ q ∈ dPlaces nImg nChan imH imW nFeat fH fW,
      List.Forall₂ (fun c d => c < d) [q.img, q.chan, q.fh + q.sh, q.fw + q.sw] [nImg, nChan, imH, imW] := by
    intro q hq
    obtain ⟨h1, h2, h3, h4, h5, h6, h7⟩ := mem_places.1 hq
    simp [h1, h2]; omega
  obtain ⟨f1, f2, f3⟩ := dDict_facts idSW idX nImg nChan imH imW nFeat fH fW
  have hvalid : ∀ g ∈ AddArg.flatList (dHist α idW idS idSW idX idA idO nImg nChan imH imW nFeat fH fW),
      g.Valid (fun v => v ∈ graphVars (dVgs κ idW idS idSW idX nImg nChan imH imW nFeat fH fW)) := by
    intro g hg
    rw [dHist_flat] at hg
    simp only [List.mem_cons, List.not_mem_nil, or_false] at hg
    rcases hg with rfl | rfl
    · refine ⟨by simpa [dAnd] using dPlaces_ne hs, ?_, (by intro hc; cases hc), fun _ => ⟨rfl, ?_⟩⟩
      · intro vs hvs v hv
        obtain ⟨p, hp, rfl⟩ := List.mem_map.1 hvs
        obtain ⟨c1, c2, c3, -⟩ := hcell p hp
        simp only [List.mem_cons, List.not_mem_nil, or_false] at hv
        rcases hv with rfl | rfl | rfl
        · exact c1
        · exact c2
        · exact c3
      · intro vs hvs
        obtain ⟨p, hp, rfl⟩ := List.mem_map.1 hvs
        refine ⟨by simp, ?_⟩
        intro v hv
        simp only [List.mem_cons, List.not_mem_nil, or_false] at hv
        rcases hv with rfl | rfl | rfl <;> rfl
    · refine ⟨by simpa [dOr] using dDict_ne hs, ?_, (by intro hc; cases hc), fun _ => ⟨rfl, ?_⟩⟩
      · intro vs hvs v hv
        obtain ⟨d, hd, rfl⟩ := List.mem_map.1 hvs
        rcases List.mem_append.1 hv with hv | hv
        · obtain ⟨p, hp, -, rfl⟩ := (f3 d hd v).1 hv
          exact (hcell p hp).2.2.1
        · rw [List.mem_singleton] at hv
          subst hv
          obtain ⟨p, hp, e⟩ := (f2 d.1).1 (List.mem_map_of_mem hd)
          rw [← e]
          exact (hcell p hp).2.2.2
      · intro vs hvs
        obtain ⟨d, hd, rfl⟩ := List.mem_map.1 hvs
        obtain ⟨p, hp, e⟩ := (f2 d.1).1 (List.mem_map_of_mem hd)
        have hin : dSW idSW nImg nChan imH imW nFeat fH fW p ∈ d.2 := (f3 d hd _).2 ⟨p, hp, e, rfl⟩
        have : 0 < d.2.length := List.length_pos_of_mem hin
        refine ⟨by simp; omega, ?_⟩
        intro v hv
        rcases List.mem_append.1 hv with hv | hv
        · obtain ⟨p, hp, -, rfl⟩ := (f3 d hd v).1 hv
          rfl
        · rw [List.mem_singleton] at hv
          subst hv
          rw [← e]
          rfl
  obtain ⟨hg, st, hst, hgr, -⟩ := compiled_build hvg hfg hvalid (by rw [dHist_flat]; simpa [dAnd, dOr] using hi.groups)
    (by rw [dHist_flat]; simp [dAnd, dOr]) (by rw [dHist_flat]; simp [dAnd, dOr]) garbage
  rw [dHist_flat] at hgr
  have hge : fg.groups .enum = [] := by rw [hgr]; simp [dAnd, dOr]
  have hgo : fg.groups .or = [dOr idSW idX idO nImg nChan imH imW nFeat fH fW] := by rw [hgr]; simp [dAnd, dOr]
  have hga : fg.groups .and = [dAnd idW idS idSW idA nImg nChan imH imW nFeat fH fW] := by rw [hgr]; simp [dAnd, dOr]
  exact ⟨hs, fg, st, rfl, hvg, hst, hg, hge, hgo, hga⟩

/-- **C68 (model).** Whenever the program builds its graph, the graph compiles, belief propagation can be set up on it, and the joint
assignments of states to `S`, `W`, `SW`, `X` are exactly those in which `SW` says for every placement of a pixel of a feature whether the feature
is placed there and has this pixel, and every image in `X` is the binary convolution of `S` and `W`: a pixel is on iff some feature is placed such
that one of the pixels that it has falls there.  The score of a joint assignment is its evidence. -/
theorem C68_model (hi : DeconvIds idW idS idSW idX idA idO) [AddCommMonoid α] {r : Deconv κ α}
    (h : deconv idW idS idSW idX idA idO nImg nChan imH imW nFeat fH fW = .ok r) (garbage : Garbage) :
    ∃ (S W SW X : List Nat → Var) (st : FGState κ α),
      IsArr r.S [nImg, nFeat, imH - fH + 1, imW - fW + 1] 2 S ∧ IsArr r.W [nChan, nFeat, fH, fW] 2 W ∧
      IsArr r.SW [nImg, nChan, imH, imW, nFeat, fH, fW] 2 SW ∧ IsArr r.X [nImg, nChan, imH, imW] 2 X ∧
      Compiled [.arr r.S, .arr r.W, .arr r.SW, .arr r.X] [.one r.andGroup, .one r.orGroup] garbage st ∧
      graphOf [.arr r.S, .arr r.W, .arr r.SW, .arr r.X] [.one r.andGroup, .one r.orGroup] = r.fg ∧
      (∀ state T, ∃ bp, BP.create st state T = .ok bp) ∧
      ∀ x : Var → Nat, (∀ v ∈ graphVars [(.arr r.S : VGroup κ), .arr r.W, .arr r.SW, .arr r.X], x v < 2) →
        ((∃ ρ, Joint (graphVars [(.arr r.S : VGroup κ), .arr r.W, .arr r.SW, .arr r.X]) (r.fg.factors st.logPotentials) x ρ) ↔
          (∀ i < nImg, ∀ c < nChan, ∀ f < nFeat, ∀ a < imH - fH + 1, ∀ b < imW - fW + 1, ∀ u < fH, ∀ w < fW,
            (x (SW [i, c, u + a, w + b, f, u, w]) = 1 ↔ x (S [i, f, a, b]) = 1 ∧ x (W [c, f, u, w]) = 1)) ∧
          (∀ i < nImg, ∀ c < nChan, ∀ y < imH, ∀ z < imW,
            (x (X [i, c, y, z]) = 1 ↔ ∃ f < nFeat, ∃ a < imH - fH + 1, ∃ b < imW - fW + 1, ∃ u < fH, ∃ w < fW,
              u + a = y ∧ w + b = z ∧ x (S [i, f, a, b]) = 1 ∧ x (W [c, f, u, w]) = 1))) ∧
        ∀ ev ρ, Joint (graphVars [(.arr r.S : VGroup κ), .arr r.W, .arr r.SW, .arr r.X]) (r.fg.factors st.logPotentials) x ρ →
          jointScore (graphVars [(.arr r.S : VGroup κ), .arr r.W, .arr r.SW, .arr r.X]) (r.fg.factors st.logPotentials) ev x ρ =
            ∑ v ∈ graphVars [(.arr r.S : VGroup κ), .arr r.W, .arr r.SW, .arr r.X], ev v (x v) := by
  obtain ⟨hs, fg, st, rfl, hvg, hst, hg, hge, hgo, hga⟩ := deconv_built hi h garbage
  have hh := hs.2.2.2.2.1
  have hw := hs.2.2.2.2.2.2.1
  have hmem : ∀ v, v ∈ graphVars (dVgs κ idW idS idSW idX nImg nChan imH imW nFeat fH fW) ↔
      (∃ cs, List.Forall₂ (fun c d => c < d) cs [nImg, nFeat, imH - fH + 1, imW - fW + 1] ∧ v = uniCell idS [nImg, nFeat, imH - fH + 1, imW - fW + 1] 2 cs) ∨
      (∃ cs, List.Forall₂ (fun c d => c < d) cs [nChan, nFeat, fH, fW] ∧ v = uniCell idW [nChan, nFeat, fH, fW] 2 cs) ∨
      (∃ cs, List.Forall₂ (fun c d => c < d) cs [nImg, nChan, imH, imW, nFeat, fH, fW] ∧ v = uniCell idSW [nImg, nChan, imH, imW, nFeat, fH, fW] 2 cs) ∨
      (∃ cs, List.Forall₂ (fun c d => c < d) cs [nImg, nChan, imH, imW] ∧ v = uniCell idX [nImg, nChan, imH, imW] 2 cs) := by
    intro v
    rw [← mem_uniArr, ← mem_uniArr, ← mem_uniArr, ← mem_uniArr]
    simp [graphVars, VGroup.variables]
  have hcell : ∀ p ∈ dPlaces nImg nChan imH imW nFeat fH fW,
      dS idS nImg imH imW nFeat fH fW p ∈ graphVars (dVgs κ idW idS idSW idX nImg nChan imH imW nFeat fH fW) ∧
      dW idW nChan nFeat fH fW p ∈ graphVars (dVgs κ idW idS idSW idX nImg nChan imH imW nFeat fH fW) ∧
      dSW idSW nImg nChan imH imW nFeat fH fW p ∈ graphVars (dVgs κ idW idS idSW idX nImg nChan imH imW nFeat fH fW) ∧
      dX idX nImg nChan imH imW p ∈ graphVars (dVgs κ idW idS idSW idX nImg nChan imH imW nFeat fH fW) := by
    intro p hp
    obtain ⟨h1, h2, h3, h4, h5, h6, h7⟩ := mem_places.1 hp
    refine ⟨(hmem _).2 (.inl ⟨_, ?_, rfl⟩), (hmem _).2 (.inr (.inl ⟨_, ?_, rfl⟩)), (hmem _).2 (.inr (.inr (.inl ⟨_, ?_, rfl⟩))),
      (hmem _).2 (.inr (.inr (.inr ⟨_, ?_, rfl⟩)))⟩
    · simp [h1, h5, h3, h4]
    · simp [h2, h5, h6, h7]
    · simp [h1, h2, h5, h6, h7]; omega
    · simp [h1, h2]; omega
  have hin : ∀ q ∈ dPlaces nImg nChan imH imW nFeat fH fW,
      List.Forall₂ (fun c d => c < d) [q.img, q.chan, q.fh + q.sh, q.fw + q.sw] [nImg, nChan, imH, imW] := by
    intro q hq
    obtain ⟨h1, h2, h3, h4, h5, h6, h7⟩ := mem_places.1 hq
    simp [h1, h2]; omega
  obtain ⟨f1, f2, f3⟩ := dDict_facts idSW idX nImg nChan imH imW nFeat fH fW
  have hfac : fg.factors st.logPotentials =
      ((dDict idSW idX nImg nChan imH imW nFeat fH fW).map (fun p => (⟨p.2 ++ [p.1], orRows ((p.2 ++ [p.1]).length - 1)⟩ : SFac α))) ++
      ((dPlaces nImg nChan imH imW nFeat fH fW).map (fun p => (⟨[dS idS nImg imH imW nFeat fH fW p, dW idW nChan nFeat fH fW p] ++
        [dSW idSW nImg nChan imH imW nFeat fH fW p], andRows (([dS idS nImg imH imW nFeat fH fW p, dW idW nChan nFeat fH fW p] ++
        [dSW idSW nImg nChan imH imW nFeat fH fW p]).length - 1)⟩ : SFac α))) := by
    unfold FactorGraph.factors
    simp only [FactorGraph.tables, FactorGraph.scopesOf, hge, hgo, hga, List.flatMap_cons, List.flatMap_nil, List.append_nil, tableFacs, List.nil_append,
      dOr, dAnd, List.map_map]
    rfl
  refine ⟨_, _, _, _, st, isArr_uniArr _ _ _ (by simp), isArr_uniArr _ _ _ (by simp), isArr_uniArr _ _ _ (by simp), isArr_uniArr _ _ _ (by simp),
    hst, hg, fun state T => ?_, fun x hx => ⟨?_, fun ev ρ hρ => ?_⟩⟩
  · refine (C51_partial hst state T).1.2 ?_
    rw [hg]
    have : (dAnd idW idS idSW idA nImg nChan imH imW nFeat fH fW : FGroup α).varsForFactors ≠ [] := by simpa [dAnd] using dPlaces_ne hs
    simp [FactorGraph.allScopes, FactorGraph.scopesOf, FType.all, hge, hgo, hga, this]
  · rw [joint_exists_iff, hfac]
    have hx2 : ∀ v ∈ graphVars (dVgs κ idW idS idSW idX nImg nChan imH imW nFeat fH fW), x v < v.n := by
      intro v hv
      have : v.n = 2 := by
        rcases (hmem v).1 hv with ⟨cs, -, rfl⟩ | ⟨cs, -, rfl⟩ | ⟨cs, -, rfl⟩ | ⟨cs, -, rfl⟩ <;> rfl
      rw [this]
      exact hx v hv
    have hA : (∀ p ∈ dPlaces nImg nChan imH imW nFeat fH fW, ∃ w : α, (([dS idS nImg imH imW nFeat fH fW p, dW idW nChan nFeat fH fW p] ++
        [dSW idSW nImg nChan imH imW nFeat fH fW p]).map x, w) ∈ andRows (([dS idS nImg imH imW nFeat fH fW p, dW idW nChan nFeat fH fW p] ++
        [dSW idSW nImg nChan imH imW nFeat fH fW p]).length - 1)) ↔
        ∀ p ∈ dPlaces nImg nChan imH imW nFeat fH fW, (x (dSW idSW nImg nChan imH imW nFeat fH fW p) = 1 ↔
          x (dS idS nImg imH imW nFeat fH fW p) = 1 ∧ x (dW idW nChan nFeat fH fW p) = 1) := by
      refine forall₂_congr fun p hp => ?_
      rw [and_allows]
      obtain ⟨c1, c2, c3, -⟩ := hcell p hp
      have b1 := hx _ c1
      have b2 := hx _ c2
      have b3 := hx _ c3
      simp only [List.mem_cons, List.not_mem_nil, or_false, forall_eq_or_imp, forall_eq, b1, b2, true_and, exists_eq_or_imp, exists_eq_left]
      generalize x (dSW idSW nImg nChan imH imW nFeat fH fW p) = s at *
      generalize x (dS idS nImg imH imW nFeat fH fW p) = t at *
      generalize x (dW idW nChan nFeat fH fW p) = q at *
      split <;> omega
    have hO : (∀ d ∈ dDict idSW idX nImg nChan imH imW nFeat fH fW, ∃ w : α, ((d.2 ++ [d.1]).map x, w) ∈ orRows ((d.2 ++ [d.1]).length - 1)) ↔
        ∀ p ∈ dPlaces nImg nChan imH imW nFeat fH fW, (x (dX idX nImg nChan imH imW p) = 1 ↔
          ∃ q ∈ dPlaces nImg nChan imH imW nFeat fH fW, dX idX nImg nChan imH imW q = dX idX nImg nChan imH imW p ∧
            x (dSW idSW nImg nChan imH imW nFeat fH fW q) = 1) := by
      have key : ∀ d ∈ dDict idSW idX nImg nChan imH imW nFeat fH fW,
          ((∃ w : α, ((d.2 ++ [d.1]).map x, w) ∈ orRows ((d.2 ++ [d.1]).length - 1)) ↔
          (x d.1 = 1 ↔ ∃ q ∈ dPlaces nImg nChan imH imW nFeat fH fW, dX idX nImg nChan imH imW q = d.1 ∧
            x (dSW idSW nImg nChan imH imW nFeat fH fW q) = 1)) := by
        intro d hd
        rw [or_allows]
        have hb : ∀ v ∈ d.2, x v < 2 := by
          intro v hv
          obtain ⟨p, hp, -, rfl⟩ := (f3 d hd v).1 hv
          exact hx _ (hcell p hp).2.2.1
        have hex : (∃ v ∈ d.2, x v = 1) ↔ ∃ q ∈ dPlaces nImg nChan imH imW nFeat fH fW, dX idX nImg nChan imH imW q = d.1 ∧
            x (dSW idSW nImg nChan imH imW nFeat fH fW q) = 1 := by
          constructor
          · rintro ⟨v, hv, hv1⟩
            obtain ⟨p, hp, hp1, rfl⟩ := (f3 d hd v).1 hv
            exact ⟨p, hp, hp1, hv1⟩
          · rintro ⟨p, hp, hp1, hp2⟩
            exact ⟨_, (f3 d hd _).2 ⟨p, hp, hp1, rfl⟩, hp2⟩
        obtain ⟨p, hp, e⟩ := (f2 d.1).1 (List.mem_map_of_mem hd)
        have hd1 : x d.1 < 2 := by rw [← e]; exact hx _ (hcell p hp).2.2.2
        rw [← hex]
        constructor
        · rintro ⟨-, h2⟩
          rw [h2]
          split <;> simp_all
        · intro h2
          refine ⟨hb, ?_⟩
          split
          · rename_i h3; exact h2.2 h3
          · rename_i h3
            have : x d.1 ≠ 1 := fun h4 => h3 (h2.1 h4)
            omega
      constructor
      · intro h p hp
        obtain ⟨d, hd, e⟩ := List.mem_map.1 ((f2 _).2 ⟨p, hp, rfl⟩)
        have := (key d hd).1 (h d hd)
        rw [e] at this
        exact this
      · intro h d hd
        obtain ⟨p, hp, e⟩ := (f2 d.1).1 (List.mem_map_of_mem hd)
        have := h p hp
        rw [e] at this
        exact (key d hd).2 this
    have hsplit : (∀ F ∈ ((dDict idSW idX nImg nChan imH imW nFeat fH fW).map (fun p => (⟨p.2 ++ [p.1], orRows ((p.2 ++ [p.1]).length - 1)⟩ : SFac α))) ++
      ((dPlaces nImg nChan imH imW nFeat fH fW).map (fun p => (⟨[dS idS nImg imH imW nFeat fH fW p, dW idW nChan nFeat fH fW p] ++
        [dSW idSW nImg nChan imH imW nFeat fH fW p], andRows (([dS idS nImg imH imW nFeat fH fW p, dW idW nChan nFeat fH fW p] ++
        [dSW idSW nImg nChan imH imW nFeat fH fW p]).length - 1)⟩ : SFac α))), ∃ w, (F.scope.map x, w) ∈ F.rows) ↔
        (∀ d ∈ dDict idSW idX nImg nChan imH imW nFeat fH fW, ∃ w : α, ((d.2 ++ [d.1]).map x, w) ∈ orRows ((d.2 ++ [d.1]).length - 1)) ∧
        (∀ p ∈ dPlaces nImg nChan imH imW nFeat fH fW, ∃ w : α, (([dS idS nImg imH imW nFeat fH fW p, dW idW nChan nFeat fH fW p] ++
        [dSW idSW nImg nChan imH imW nFeat fH fW p]).map x, w) ∈ andRows (([dS idS nImg imH imW nFeat fH fW p, dW idW nChan nFeat fH fW p] ++
        [dSW idSW nImg nChan imH imW nFeat fH fW p]).length - 1)) := by
      rw [List.forall_mem_append, List.forall_mem_map, List.forall_mem_map]
    rw [hsplit, hO, hA]
    constructor
    · rintro ⟨-, hO, hA⟩
      refine ⟨fun i h1 c h2 f h5 a h3 b h4 u h6 w h7 => hA ⟨i, c, a, b, f, u, w⟩ (mem_places.2 ⟨h1, h2, h3, h4, h5, h6, h7⟩), ?_⟩
      intro i h1 c h2 y h3 z h4
      have hu : ∃ a < imH - fH + 1, ∃ u < fH, u + a = y := by
        have := hs.2.2.2.1
        by_cases hy : y < fH
        · exact ⟨0, by omega, y, hy, by omega⟩
        · exact ⟨y - (fH - 1), by omega, fH - 1, by omega, by omega⟩
      have hv : ∃ b < imW - fW + 1, ∃ w < fW, w + b = z := by
        have := hs.2.2.2.2.2.1
        by_cases hz : z < fW
        · exact ⟨0, by omega, z, hz, by omega⟩
        · exact ⟨z - (fW - 1), by omega, fW - 1, by omega, by omega⟩
      obtain ⟨a, ha, u, hu, rfl⟩ := hu
      obtain ⟨b, hb, w, hw', rfl⟩ := hv
      have hp := hO ⟨i, c, a, b, 0, u, w⟩ (mem_places.2 ⟨h1, h2, ha, hb, hs.2.2.1, hu, hw'⟩)
      refine hp.trans ?_
      constructor
      · rintro ⟨q, hq, hq1, hq2⟩
        obtain ⟨k1, k2, k3, k4, k5, k6, k7⟩ := mem_places.1 hq
        have := uniCell_inj (hin q hq) (by simp [h1, h2, h3, h4]) hq1
        simp only [List.cons.injEq, and_true] at this
        obtain ⟨e1, e2, e3, e4⟩ := this
        have := (hA q hq).1 hq2
        refine ⟨q.feat, k5, q.sh, k3, q.sw, k4, q.fh, k6, q.fw, k7, e3, e4, ?_⟩
        rw [← e1, ← e2]
        exact this
      · rintro ⟨f, k5, a', k3, b', k4, u', k6, w', k7, e3, e4, hx1⟩
        have hq : (⟨i, c, a', b', f, u', w'⟩ : Place) ∈ dPlaces nImg nChan imH imW nFeat fH fW := mem_places.2 ⟨h1, h2, k3, k4, k5, k6, k7⟩
        refine ⟨_, hq, ?_, (hA _ hq).2 hx1⟩
        show uniCell _ _ _ [i, c, u' + a', w' + b'] = uniCell _ _ _ [i, c, u + a, w + b]
        rw [e3, e4]
    · rintro ⟨hA, hX⟩
      have hA' : ∀ p ∈ dPlaces nImg nChan imH imW nFeat fH fW, (x (dSW idSW nImg nChan imH imW nFeat fH fW p) = 1 ↔
          x (dS idS nImg imH imW nFeat fH fW p) = 1 ∧ x (dW idW nChan nFeat fH fW p) = 1) := by
        intro p hp
        obtain ⟨k1, k2, k3, k4, k5, k6, k7⟩ := mem_places.1 hp
        exact hA _ k1 _ k2 _ k5 _ k3 _ k4 _ k6 _ k7
      refine ⟨hx2, ?_, hA'⟩
      intro p hp
      obtain ⟨k1, k2, k3, k4, k5, k6, k7⟩ := mem_places.1 hp
      refine (hX p.img k1 p.chan k2 (p.fh + p.sh) (by omega) (p.fw + p.sw) (by omega)).trans ?_
      constructor
      · rintro ⟨f, j5, a', j3, b', j4, u', j6, w', j7, e3, e4, hx1⟩
        have hq : (⟨p.img, p.chan, a', b', f, u', w'⟩ : Place) ∈ dPlaces nImg nChan imH imW nFeat fH fW := mem_places.2 ⟨k1, k2, j3, j4, j5, j6, j7⟩
        refine ⟨_, hq, ?_, (hA' _ hq).2 hx1⟩
        show uniCell _ _ _ [p.img, p.chan, u' + a', w' + b'] = uniCell _ _ _ [p.img, p.chan, p.fh + p.sh, p.fw + p.sw]
        rw [e3, e4]
      · rintro ⟨q, hq, hq1, hq2⟩
        obtain ⟨j1, j2, j3, j4, j5, j6, j7⟩ := mem_places.1 hq
        have := uniCell_inj (hin q hq) (hin p hp) hq1
        simp only [List.cons.injEq, and_true] at this
        obtain ⟨e1, e2, e3, e4⟩ := this
        refine ⟨q.feat, j5, q.sh, j3, q.sw, j4, q.fh, j6, q.fw, j7, e3, e4, ?_⟩
        rw [← e1, ← e2]
        exact (hA' q hq).1 hq2
  · refine jointScore_zero hρ ?_
    rw [hfac]
    intro F hF r hr
    rcases List.mem_append.1 hF with hF | hF
    · obtain ⟨d, -, rfl⟩ := List.mem_map.1 hF
      simp only [orRows, List.mem_map] at hr
      obtain ⟨p, -, rfl⟩ := hr
      rfl
    · obtain ⟨d, -, rfl⟩ := List.mem_map.1 hF
      simp only [andRows, List.mem_map] at hr
      obtain ⟨p, -, rfl⟩ := hr
      rfl

/-- Non-vacuity of C68: two images of 6 by 7 pixels with 3 features of 2 by 3 pixels; features higher than the images are rejected. -/
example : (∃ r : Deconv Nat ℚ, deconv 1 2 3 4 5 6 2 1 6 7 3 2 3 = .ok r) ∧
    (deconv 1 2 3 4 5 6 2 1 6 7 3 8 3 : Py (Deconv Nat ℚ)) = .error .valueError := by
  have hi : DeconvIds 1 2 3 4 5 6 := ⟨by decide, by decide⟩
  refine ⟨(C68_sizes hi 2 1 6 7 3 2 3).1.2 (by norm_num [DeconvSizes]), (C68_sizes hi 2 1 6 7 3 8 3).2 fun h => ?_⟩
  have := (C68_sizes (κ := Nat) (α := ℚ) hi 2 1 6 7 3 8 3).1.1 h
  norm_num [DeconvSizes] at this

end

end PGMax
