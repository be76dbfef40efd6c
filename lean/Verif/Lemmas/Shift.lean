import Verif.Lemmas.Moderate

/-! Helper lemmas: shifting evidence and log potentials by constants. -/

namespace PGMax

variable {κ α : Type _} {vgs : List (VGroup κ)} {hist : List (AddArg α)} {garbage : Garbage} {st : FGState κ α}

section
variable [Field α] [LinearOrder α] 

omit [LinearOrder α] in
/-- An enumeration factor of the graph. -/
theorem FactorGraph.factors_table (fg : FactorGraph κ α) (lp : List α) {f : Nat} (hf : f < fg.tables.length) :
    (fg.factors lp)[f]? = (tableFacs fg.tables lp)[f]? := by
  unfold FactorGraph.factors
  rw [List.append_assoc, List.getElem?_append_left (by simpa using hf)]

omit [LinearOrder α] in
/-- The logical factors do not depend on the log potentials. -/
theorem FactorGraph.factors_logical (fg : FactorGraph κ α) (lp lp' : List α) {f : Nat} (hf : ¬ f < fg.tables.length) :
    (fg.factors lp)[f]? = (fg.factors lp')[f]? := by
  unfold FactorGraph.factors
  rw [List.append_assoc, List.append_assoc, List.getElem?_append_right (l₁ := tableFacs fg.tables lp) (by simpa using hf),
    List.getElem?_append_right (l₁ := tableFacs fg.tables lp') (by simpa using hf), tableFacs_length, tableFacs_length]

omit [LinearOrder α] in
theorem Compiled.rows_ne (h : Compiled vgs hist garbage st) (lp : List α) (hlp : lp.length = st.logPotentials.length) {f : Nat} {F : SFac α}
    (hF : (tableFacs (graphOf vgs hist).tables lp)[f]? = some F) : F.rows ≠ [] := by
  rw [tableFacs_getElem?] at hF
  obtain ⟨⟨vs, cf⟩, hk, he⟩ := Option.map_eq_some_iff.1 hF
  have h1 := (h.tablesNe _ (List.mem_of_getElem? hk)).1
  have h2 := cfgStart_add_le _ f vs cf hk
  rw [← he]
  intro h0
  have h3 := congrArg List.length h0
  simp only [List.length_zip, List.length_drop, List.length_nil] at h3
  have h4 := h.lpLength
  have h5 : 0 < cf.rows.length := List.length_pos_of_ne_nil h1
  omega

variable [IsStrictOrderedRing α]

/-- An iteration at an enumeration factor, if `-1e5` acts as minus infinity. -/
theorem Compiled.step_enum_tame (h : Compiled vgs hist garbage st) (env : Env α) (T : α) (hT : T = 0 ∨ (0 < T ∧ EnvOk env)) {maxLen : Nat}
    (hmax : ∀ f i v, IsEdge (graphOf vgs hist).allScopes f i v → v.n ≤ maxLen) (lp : List α) (hlp : lp.length = st.logPotentials.length)
    (ev : Var → Nat → α) (d : α) {b : Nat → α} (hmod : Tame (graphOf vgs hist) lp ev d b) (m : Msgs α)
    (hb : Bounded (graphOf vgs hist).allScopes b m) (hm : Clipped (graphOf vgs hist).allScopes m)
    {f i : Nat} {v : Var} {F : SFac α} (he : IsEdge (graphOf vgs hist).allScopes f i v) (hf : f < (graphOf vgs hist).tables.length)
    (hF : ((graphOf vgs hist).factors lp)[f]? = some F) (s : Nat) (hs : s < v.n) :
    stepM env T (graphOf vgs hist) maxLen lp ev d m f i s
      = suppNorm F i v.n (fun s => m f i s + (1 - d) * (softOut env T F (vtofM (graphOf vgs hist).allScopes ev m f) i s - m f i s)) s := by
  obtain ⟨R, hR, hW⟩ := hmod.bounds
  have hF' := hF
  rw [FactorGraph.factors_table _ _ hf] at hF'
  obtain ⟨W, w1, w2, w3⟩ := hW F (List.mem_of_getElem? hF')
  have hsc := (graphOf vgs hist).factors_scope lp hF
  obtain ⟨vs, g1, g2⟩ := id he
  rw [hsc] at g1
  cases g1
  have hok := h.facOk lp f F hF
  have hkind : (graphOf vgs hist).kind f = none := by unfold FactorGraph.kind; rw [if_pos hf]
  rw [hkind] at hok
  unfold stepM
  rw [normM_at he]
  have e : (fun s => m f i s + (1 - d) * (rawM env T (graphOf vgs hist) lp ev m f i s - m f i s))
      = fun s => m f i s + (1 - d) * (enumOut env T F (vtofM (graphOf vgs hist).allScopes ev m f) i s - m f i s) := by
    funext s
    rw [rawM_at _ _ hF, hkind]; rfl
  rw [e, rawM_at _ _ hF, hkind]
  refine enum_norm env T hT hok (h.rows_ne lp hlp hF') ?_ w1 w2 w3 hmod.damping g2 (hmax f i v he) (fun s hs => hm f i v s he hs) s hs
  intro j w t hj ht
  have hej : IsEdge (graphOf vgs hist).allScopes f j w := ⟨_, hsc, hj⟩
  rw [vtofM_at hej]
  exact hb.varToFac_abs ht (hR f j w t hej ht) _

theorem Compiled.step_enum (h : Compiled vgs hist garbage st) (env : Env α) (T : α) (hT : T = 0 ∨ (0 < T ∧ EnvOk env)) {maxLen : Nat}
    (hmax : ∀ f i v, IsEdge (graphOf vgs hist).allScopes f i v → v.n ≤ maxLen) (lp : List α) (hlp : lp.length = st.logPotentials.length)
    (ev : Var → Nat → α) (d : α) (hmod : Moderate (graphOf vgs hist) lp ev d) (m : Msgs α) (hm : Clipped (graphOf vgs hist).allScopes m)
    {f i : Nat} {v : Var} {F : SFac α} (he : IsEdge (graphOf vgs hist).allScopes f i v) (hf : f < (graphOf vgs hist).tables.length)
    (hF : ((graphOf vgs hist).factors lp)[f]? = some F) (s : Nat) (hs : s < v.n) :
    stepM env T (graphOf vgs hist) maxLen lp ev d m f i s
      = suppNorm F i v.n (fun s => m f i s + (1 - d) * (softOut env T F (vtofM (graphOf vgs hist).allScopes ev m f) i s - m f i s)) s :=
  h.step_enum_tame env T hT hmax lp hlp ev d hmod.tame m hm.bounded hm he hf hF s hs

omit [LinearOrder α] [IsStrictOrderedRing α] in
theorem varToFac_shift {scopes : List (List Var)} {m : Msgs α} {ev ev' : Var → Nat → α} {v : Var} {s : Nat} {c : α} (h : ev' v s = ev v s + c) (e : Nat × Nat) :
    varToFac scopes ev' m v e s = varToFac scopes ev m v e s + c := by
  unfold varToFac; rw [h]; ring

omit [LinearOrder α] [IsStrictOrderedRing α] in
theorem SFac.shift_rowsAt (F : SFac α) (k : α) (i s : Nat) : (F.shift k).rowsAt i s = (F.rowsAt i s).map (fun r => (r.1, r.2 + k)) := by
  simp only [SFac.rowsAt, SFac.shift, List.filter_map]
  rfl

/-- Shifted potentials and incoming messages shift the new message. -/
theorem softOut_shift (env : Env α) (T : α) {F : SFac α} (hrow : ∀ r ∈ F.rows, List.Forall₂ (fun s (v : Var) => s < v.n) r.1 F.scope)
    {q q' : Nat → Nat → α} (k : α) (c : Var → α) (hq : ∀ (j : Nat) (w : Var) (t : Nat), F.scope[j]? = some w → t < w.n → q' j t = q j t + c w)
    (i s : Nat) (hne : F.rowsAt i s ≠ []) :
    softOut env T (F.shift k) q' i s = softOut env T F q i s
      + (k + (((List.range F.scope.length).filter (fun j => j ≠ i)).map (fun j => c (F.scope.getD j ⟨0, 0⟩))).sum) := by
  have hsc : ∀ r ∈ F.rowsAt i s, scoreBut F.scope.length q' i (r.1, r.2 + k) = scoreBut F.scope.length q i r
      + (k + (((List.range F.scope.length).filter (fun j => j ≠ i)).map (fun j => c (F.scope.getD j ⟨0, 0⟩))).sum) := by
    intro r hr
    have hf := hrow r (List.mem_filter.1 hr).1
    have hlen := hf.length_eq
    have key : ∀ l : List Nat, (∀ j ∈ l, j < F.scope.length) → (l.map (fun j => q' j (r.1.getD j 0))).sum
        = (l.map (fun j => q j (r.1.getD j 0))).sum + (l.map (fun j => c (F.scope.getD j ⟨0, 0⟩))).sum := by
      intro l
      induction l with
      | nil => intro _; simp
      | cons j l ih =>
        intro hl
        have hj := hl j (by simp)
        obtain ⟨w, hw, hlt⟩ := forall₂_getElem? hf (List.getElem?_eq_getElem (show j < r.1.length by omega))
        have h2 := hq j w _ hw hlt
        simp only [List.map_cons, List.sum_cons]
        rw [ih (fun j hj => hl j (by simp [hj])), getD_of_some hw, getD_of_some (List.getElem?_eq_getElem (show j < r.1.length by omega)), h2]
        ring
    unfold scoreBut
    simp only
    rw [key _ (by intro j hj; have := (List.mem_filter.1 hj).1; simpa using this)]
    ring
  generalize k + (((List.range F.scope.length).filter (fun j => j ≠ i)).map (fun j => c (F.scope.getD j ⟨0, 0⟩))).sum = K at hsc ⊢
  have hl : (F.shift k).scope.length = F.scope.length := rfl
  have e1 : ((F.shift k).rowsAt i s).map (scoreBut F.scope.length q' i) = (F.rowsAt i s).map (fun r => scoreBut F.scope.length q i r + K) := by
    rw [SFac.shift_rowsAt, List.map_map]
    exact List.map_congr_left hsc
  unfold softOut
  rw [hl, e1, maxOf_map_add _ _ _ _ hne]
  split
  · rfl
  · have e2 : ((F.shift k).rowsAt i s).map (fun r => env.exp ((scoreBut F.scope.length q' i r - (maxOf 0 ((F.rowsAt i s).map (scoreBut F.scope.length q i)) + K)) / T))
        = (F.rowsAt i s).map (fun r => env.exp ((scoreBut F.scope.length q i r - maxOf 0 ((F.rowsAt i s).map (scoreBut F.scope.length q i))) / T)) := by
      rw [SFac.shift_rowsAt, List.map_map]
      apply List.map_congr_left
      intro r hr
      simp only [Function.comp_apply]
      rw [hsc r hr, add_sub_add_right_eq_sub]
    rw [e2]
    ring

omit [IsStrictOrderedRing α] in
theorem suppNorm_shift_fac (F : SFac α) (k : α) (i n : Nat) (x : Nat → α) (s : Nat) : suppNorm (F.shift k) i n x s = suppNorm F i n x s := by
  have h1 : ∀ s, (F.shift k).rowsAt i s = [] ↔ F.rowsAt i s = [] := by intro s; rw [SFac.shift_rowsAt, List.map_eq_nil_iff]
  have h2 : (F.shift k).supp i n = F.supp i n := by
    unfold SFac.supp
    apply List.filter_congr
    intro s _
    rw [SFac.shift_rowsAt, List.isEmpty_map]
  unfold suppNorm
  rw [h2]
  simp only [h1]

/-- Two iterations from the same messages with shifted evidence and log potentials. -/
theorem Compiled.stepM_shift (h : Compiled vgs hist garbage st) (env : Env α) (T : α) (hT : T = 0 ∨ (0 < T ∧ EnvOk env)) {maxLen : Nat}
    (hmax : ∀ f i v, IsEdge (graphOf vgs hist).allScopes f i v → v.n ≤ maxLen) (lp lp' : List α) (hlp : lp.length = st.logPotentials.length)
    (hlp' : lp'.length = st.logPotentials.length) (k : Nat → α) (hk : PotShift (graphOf vgs hist) lp lp' k)
    (ev ev' : Var → Nat → α) (c : Var → α) (hc : ∀ f i v s, IsEdge (graphOf vgs hist).allScopes f i v → s < v.n → ev' v s = ev v s + c v)
    (d : α) (hmod : Moderate (graphOf vgs hist) lp ev d) (hmod' : Moderate (graphOf vgs hist) lp' ev' d)
    (m : Msgs α) (hm : Clipped (graphOf vgs hist).allScopes m) :
    AgreeOn (graphOf vgs hist).allScopes (stepM env T (graphOf vgs hist) maxLen lp' ev' d m) (stepM env T (graphOf vgs hist) maxLen lp ev d m) := by
  intro f i v s he hs
  obtain ⟨F, hF, hi, hsc⟩ := (graphOf vgs hist).factors_edge lp he
  have hq : ∀ (j : Nat) (w : Var) (t : Nat), F.scope[j]? = some w → t < w.n → vtofM (graphOf vgs hist).allScopes ev' m f j t
      = vtofM (graphOf vgs hist).allScopes ev m f j t + c w := by
    intro j w t hj ht
    have hej : IsEdge (graphOf vgs hist).allScopes f j w := ⟨_, hsc, hj⟩
    rw [vtofM_at hej, vtofM_at hej]
    exact varToFac_shift (hc f j w t hej ht) _
  have hok := h.facOk lp f F hF
  by_cases hf : f < (graphOf vgs hist).tables.length
  · have hkind : (graphOf vgs hist).kind f = none := by unfold FactorGraph.kind; rw [if_pos hf]
    rw [hkind] at hok
    have hF' : ((graphOf vgs hist).factors lp')[f]? = some (F.shift (k f)) := by
      rw [FactorGraph.factors_table _ _ hf, hk f, ← FactorGraph.factors_table _ _ hf, hF]; rfl
    rw [h.step_enum env T hT hmax lp hlp ev d hmod m hm he hf hF s hs, h.step_enum env T hT hmax lp' hlp' ev' d hmod' m hm he hf hF' s hs,
      suppNorm_shift_fac]
    refine suppNorm_shift ((1 - d) * (k f + (((List.range F.scope.length).filter (fun j => j ≠ i)).map (fun j => c (F.scope.getD j ⟨0, 0⟩))).sum)) ?_ s hs
    intro s _ hne
    rw [softOut_shift env T hok (k f) c hq i s hne]
    ring
  · have hF' : ((graphOf vgs hist).factors lp')[f]? = some F := by rw [← FactorGraph.factors_logical _ lp lp' hf]; exact hF
    have hkind : (graphOf vgs hist).kind f = some ((graphOf vgs hist).restState f) := by unfold FactorGraph.kind; rw [if_neg hf]
    rw [hkind] at hok
    obtain ⟨hr, hl, h2⟩ := hok
    unfold stepM
    rw [normM_at he, normM_at he]
    have e : ∀ s, rawM env T (graphOf vgs hist) lp' ev' m f i s = rawM env T (graphOf vgs hist) lp ev m f i s := by
      intro s
      rw [rawM_at _ _ hF, rawM_at _ _ hF', hkind]
      simp only [facOut, lgOut]
      have hqq : ∀ j < F.scope.length, vtofM (graphOf vgs hist).allScopes ev' m f j (1 - (graphOf vgs hist).restState f)
            - vtofM (graphOf vgs hist).allScopes ev' m f j ((graphOf vgs hist).restState f)
          = vtofM (graphOf vgs hist).allScopes ev m f j (1 - (graphOf vgs hist).restState f)
            - vtofM (graphOf vgs hist).allScopes ev m f j ((graphOf vgs hist).restState f) := by
        intro j hj
        have hn := h2 _ (List.getElem_mem hj)
        rw [hq j _ _ (List.getElem?_eq_getElem hj) (by rw [hn]; omega), hq j _ _ (List.getElem?_eq_getElem hj) (by rw [hn]; omega)]
        ring
      have h1 : (List.range (F.scope.length - 1)).map (fun j => vtofM (graphOf vgs hist).allScopes ev' m f j (1 - (graphOf vgs hist).restState f)
            - vtofM (graphOf vgs hist).allScopes ev' m f j ((graphOf vgs hist).restState f))
          = (List.range (F.scope.length - 1)).map (fun j => vtofM (graphOf vgs hist).allScopes ev m f j (1 - (graphOf vgs hist).restState f)
            - vtofM (graphOf vgs hist).allScopes ev m f j ((graphOf vgs hist).restState f)) := by
        apply List.map_congr_left
        intro j hj
        exact hqq j (by have := List.mem_range.1 hj; omega)
      rw [h1, hqq _ (by omega)]
    simp only [e]

/-- Several iterations. -/
theorem Compiled.iterM_shift (h : Compiled vgs hist garbage st) (env : Env α) (T : α) (hT : T = 0 ∨ (0 < T ∧ EnvOk env)) {maxLen : Nat}
    (hmax : ∀ f i v, IsEdge (graphOf vgs hist).allScopes f i v → v.n ≤ maxLen) (lp lp' : List α) (hlp : lp.length = st.logPotentials.length)
    (hlp' : lp'.length = st.logPotentials.length) (k : Nat → α) (hk : PotShift (graphOf vgs hist) lp lp' k)
    (ev ev' : Var → Nat → α) (c : Var → α) (hc : ∀ f i v s, IsEdge (graphOf vgs hist).allScopes f i v → s < v.n → ev' v s = ev v s + c v)
    (d : α) (hmod : Moderate (graphOf vgs hist) lp ev d) (hmod' : Moderate (graphOf vgs hist) lp' ev' d) (n : Nat)
    (m : Msgs α) (hm : Clipped (graphOf vgs hist).allScopes m) :
    AgreeOn (graphOf vgs hist).allScopes (iterM (stepM env T (graphOf vgs hist) maxLen lp' ev' d) n m) (iterM (stepM env T (graphOf vgs hist) maxLen lp ev d) n m) := by
  induction n generalizing m with
  | zero => exact AgreeOn.refl _ _
  | succ n ih =>
    refine (h.iterM_congr env T maxLen lp' ev' d n (h.stepM_shift env T hT hmax lp lp' hlp hlp' k hk ev ev' c hc d hmod hmod' m hm)).trans ?_
    exact ih _ (normM_clipped hmax _)

end

end PGMax
