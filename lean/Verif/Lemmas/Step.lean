import Verif.Lemmas.Local
import Verif.Lemmas.Normalize
import Verif.Props.C26

/-! Helper lemmas: belief propagation on functions of (factor, position, state) instead of flat arrays. -/

namespace PGMax

variable {κ α : Type _} {vgs : List (VGroup κ)} {hist : List (AddArg α)} {garbage : Garbage} {st : FGState κ α}

theorem IsEdge.unique {scopes : List (List Var)} {f i : Nat} {v w : Var} (h : IsEdge scopes f i v) (h' : IsEdge scopes f i w) : v = w := by
  obtain ⟨vs, h1, h2⟩ := h
  obtain ⟨ws, h3, h4⟩ := h'
  rw [h1] at h3; cases h3
  rw [h2] at h4; exact Option.some.inj h4

theorem AgreeOn.refl (scopes : List (List Var)) (m : Msgs α) : AgreeOn scopes m m := fun _ _ _ _ _ _ => rfl
theorem AgreeOn.symm {scopes : List (List Var)} {m m' : Msgs α} (h : AgreeOn scopes m m') : AgreeOn scopes m' m :=
  fun f i v s he hs => (h f i v s he hs).symm
theorem AgreeOn.trans {scopes : List (List Var)} {m m' m'' : Msgs α} (h : AgreeOn scopes m m') (h' : AgreeOn scopes m' m'') : AgreeOn scopes m m'' :=
  fun f i v s he hs => (h f i v s he hs).trans (h' f i v s he hs)

/-- The variable at an edge. -/
def varAt (scopes : List (List Var)) (f i : Nat) : Option Var := scopes[f]?.bind (fun vs => vs[i]?)

theorem varAt_iff {scopes : List (List Var)} {f i : Nat} {v : Var} : varAt scopes f i = some v ↔ IsEdge scopes f i v := by
  unfold varAt IsEdge
  exact Option.bind_eq_some_iff

/-- The flat array is determined by its messages. -/
theorem eq_of_read [Zero α] {scopes : List (List Var)} {xs ys : List α} (hx : xs.length = statesOf scopes) (hy : ys.length = statesOf scopes)
    (h : AgreeOn scopes (readMsgs scopes xs) (readMsgs scopes ys)) : xs = ys := by
  apply List.ext_getElem?
  intro p
  by_cases hp : p < statesOf scopes
  · obtain ⟨f, i, vs, v, s, h1, h2, h3, rfl⟩ := exists_edgeStart scopes p hp
    have := h f i v s ⟨vs, h1, h2⟩ h3
    unfold readMsgs at this
    rw [getD_of_some (List.getElem?_eq_getElem (show _ < xs.length by omega)), getD_of_some (List.getElem?_eq_getElem (show _ < ys.length by omega))] at this
    rw [List.getElem?_eq_getElem (show _ < xs.length by omega), List.getElem?_eq_getElem (show _ < ys.length by omega), this]
  · rw [List.getElem?_eq_none (by omega), List.getElem?_eq_none (by omega)]

theorem read_at [Zero α] {scopes : List (List Var)} {xs : List α} (hx : xs.length = statesOf scopes) {f i : Nat} {v : Var} {s : Nat} (he : IsEdge scopes f i v)
    (hs : s < v.n) : xs[edgeStart scopes f i + s]? = some (readMsgs scopes xs f i s) := by
  obtain ⟨vs, h1, h2⟩ := he
  have hlt : edgeStart scopes f i + s < xs.length := by rw [hx]; exact edgeStart_lt _ f i vs v s h1 h2 hs
  rw [readMsgs, List.getElem?_eq_getElem hlt, getD_of_some (List.getElem?_eq_getElem hlt)]

theorem read_of_at [Zero α] {scopes : List (List Var)} {xs : List α} {f i s : Nat} {x : α} (h : xs[edgeStart scopes f i + s]? = some x) :
    readMsgs scopes xs f i s = x := getD_of_some h

/-- The number of the segment of an edge. -/
def segOf (scopes : List (List Var)) (f i : Nat) : Nat := ((scopes.take f).flatMap id).length + i

theorem segOf_take (scopes : List (List Var)) (f i : Nat) (vs : List Var) (v : Var) (hf : scopes[f]? = some vs) (hi : vs[i]? = some v) :
    (scopes.flatMap (fun vs => vs.map (·.n)))[segOf scopes f i]? = some v.n ∧
    ((scopes.flatMap (fun vs => vs.map (·.n))).take (segOf scopes f i)).sum = edgeStart scopes f i := by
  induction scopes generalizing f with
  | nil => simp at hf
  | cons ws scopes ih =>
    cases f with
    | zero =>
      simp at hf; subst hf
      have hl := (List.getElem?_eq_some_iff.1 hi).1
      rw [edgeStart_cons_zero]
      simp only [segOf, List.take_zero, List.flatMap_nil, List.length_nil, Nat.zero_add, List.flatMap_cons]
      rw [List.getElem?_append_left (by simpa using hl), List.take_append_of_le_length (by simp; omega), List.map_take]
      exact ⟨by simp [hi], rfl⟩
    | succ f =>
      have hf' : scopes[f]? = some vs := by simpa using hf
      obtain ⟨h1, h2⟩ := ih f hf'
      rw [edgeStart_cons_succ]
      have hs : segOf (ws :: scopes) (f + 1) i = (ws.map (·.n)).length + segOf scopes f i := by
        simp [segOf, Nat.add_assoc]
      rw [hs, List.flatMap_cons]
      constructor
      · rw [List.getElem?_append_right (by omega), Nat.add_sub_cancel_left]; exact h1
      · rw [List.take_length_add_append, List.sum_append, h2]

theorem lens_sum (scopes : List (List Var)) : (scopes.flatMap (fun vs => vs.map (·.n))).sum = statesOf scopes := by
  induction scopes with
  | nil => rfl
  | cons vs scopes ih =>
    have : statesOf (vs :: scopes) = (vs.map (·.n)).sum + statesOf scopes := rfl
    rw [List.flatMap_cons, List.sum_append, ih, this]

theorem Compiled.bpLens [Field α] [LinearOrder α] (h : Compiled vgs hist garbage st) {state : BPState α} {T : α} {bp : BPFun κ α}
    (hbp : BP.create st state T = .ok bp) :
    bp.edgesNumStates = (graphOf vgs hist).allScopes.flatMap (fun vs => vs.map (·.n)) := by
  obtain ⟨-, -, -, -, e5, -⟩ := BP_create_ok hbp
  rw [e5, h.st_eq]
  unfold FactorGraph.allScopes
  rw [List.flatMap_assoc]
  refine congrArg (fun g => List.flatMap g FType.all) (funext fun t => ?_)
  exact mkWirings_edgesNumStates _ t

theorem npMax_spec {l : List Nat} {m : Nat} (h : npMax l = .ok m) : m ∈ l ∧ ∀ n ∈ l, n ≤ m := by
  cases l with
  | nil => cases h
  | cons x xs =>
    cases h
    obtain ⟨h1, h2, h3⟩ := foldl_max_eq xs x
    refine ⟨?_, ?_⟩
    · rcases h3 with h3 | h3
      · rw [h3]; exact List.mem_cons_self
      · exact List.mem_cons_of_mem _ h3
    · intro n hn
      rcases List.mem_cons.1 hn with rfl | hn
      · exact h1
      · exact h2 n hn

theorem Compiled.maxMsgSize [Field α] [LinearOrder α] (h : Compiled vgs hist garbage st) {state : BPState α} {T : α} {bp : BPFun κ α}
    (hbp : BP.create st state T = .ok bp) :
    (∀ f i v, IsEdge (graphOf vgs hist).allScopes f i v → v.n ≤ bp.maxMsgSize) ∧
    ∃ f i v, IsEdge (graphOf vgs hist).allScopes f i v ∧ v.n = bp.maxMsgSize := by
  obtain ⟨-, -, -, -, -, e6⟩ := BP_create_ok hbp
  rw [h.bpLens hbp] at e6
  obtain ⟨h1, h2⟩ := npMax_spec e6
  refine ⟨?_, ?_⟩
  · rintro f i v ⟨vs, hf, hi⟩
    exact h2 _ (List.mem_flatMap.2 ⟨vs, List.mem_of_getElem? hf, List.mem_map.2 ⟨v, List.mem_of_getElem? hi, rfl⟩⟩)
  · obtain ⟨vs, hvs, hm⟩ := List.mem_flatMap.1 h1
    obtain ⟨v, hv, hn⟩ := List.mem_map.1 hm
    obtain ⟨f, hf⟩ := List.mem_iff_getElem?.1 hvs
    obtain ⟨i, hi⟩ := List.mem_iff_getElem?.1 hv
    exact ⟨f, i, v, ⟨vs, hf, hi⟩, hn⟩

section
variable [Field α] [LinearOrder α]

/-- The number that a message `x` of `n` states is normalised by. -/
def segM (x : Nat → α) (n maxLen : Nat) : α := maxOf 0 ((List.range maxLen).map (fun j => if j < n then x j else NEG_INF))

theorem segM_congr {x y : Nat → α} {n : Nat} (h : ∀ j < n, x j = y j) (maxLen : Nat) : segM x n maxLen = segM y n maxLen := by
  unfold segM
  congr 1
  apply List.map_congr_left
  intro j _
  by_cases hj : j < n
  · rw [if_pos hj, if_pos hj, h j hj]
  · rw [if_neg hj, if_neg hj]

theorem maxOf_spec (d : α) (l : List α) (h : l ≠ []) : maxOf d l ∈ l ∧ ∀ x ∈ l, x ≤ maxOf d l := by
  have := listMax_spec d l h
  cases l with
  | nil => exact absurd rfl h
  | cons x xs => exact this

theorem segM_spec (x : Nat → α) (n maxLen : Nat) (hn : 0 < n) (hm : n ≤ maxLen) :
    (∀ j < n, x j ≤ segM x n maxLen) ∧
    ((∃ j < n, segM x n maxLen = x j) ∨ (n < maxLen ∧ segM x n maxLen = NEG_INF ∧ ∀ j < n, x j ≤ NEG_INF)) ∧
    (n < maxLen → NEG_INF ≤ segM x n maxLen) := by
  obtain ⟨h1, h2⟩ := maxOf_spec 0 ((List.range maxLen).map (fun j => if j < n then x j else NEG_INF))
    (by
      intro h
      have := congrArg List.length h
      simp at this
      omega)
  have h2' : ∀ j < n, x j ≤ segM x n maxLen := fun j hj => h2 (x j) (List.mem_map.2 ⟨j, List.mem_range.2 (by omega), if_pos hj⟩)
  refine ⟨h2', ?_, ?_⟩
  · obtain ⟨j, hj, he⟩ := List.mem_map.1 h1
    rw [List.mem_range] at hj
    by_cases hjn : j < n
    · rw [if_pos hjn] at he
      exact .inl ⟨j, hjn, he.symm⟩
    · rw [if_neg hjn] at he
      have he' : segM x n maxLen = NEG_INF := he.symm
      exact .inr ⟨by omega, he', fun j hj => he' ▸ h2' j hj⟩
  · intro hlt
    exact h2 NEG_INF (List.mem_map.2 ⟨n, List.mem_range.2 hlt, if_neg (by omega)⟩)

theorem segMaxAt_eq (oob : α) (data : List α) (p n maxLen : Nat) (hn : 0 < n) (hm : n ≤ maxLen) :
    segMaxAt oob data p n maxLen = segM (fun j => data.getD (p + j) 0) n maxLen := by
  unfold segMaxAt segM
  have : (List.range maxLen).map (fun j => if j < n then data.getD (p + j) 0 else NEG_INF) ≠ [] := by
    intro h
    have := congrArg List.length h
    simp at this
    omega
  revert this
  generalize (List.range maxLen).map (fun j => if j < n then data.getD (p + j) 0 else NEG_INF) = l
  intro hl
  cases l with
  | nil => exact absurd rfl hl
  | cons x xs => rfl

/-- Normalisation and clipping of messages. -/
def normM (scopes : List (List Var)) (maxLen : Nat) (m : Msgs α) : Msgs α := fun f i s =>
  match varAt scopes f i with
  | some v => max (m f i s - segM (m f i) v.n maxLen) (-1000)
  | none => 0

theorem normM_at {scopes : List (List Var)} {f i : Nat} {v : Var} (he : IsEdge scopes f i v) (maxLen : Nat) (m : Msgs α) (s : Nat) :
    normM scopes maxLen m f i s = max (m f i s - segM (m f i) v.n maxLen) (-1000) := by
  unfold normM; rw [varAt_iff.2 he]

theorem normM_congr {scopes : List (List Var)} (maxLen : Nat) {m m' : Msgs α} (h : AgreeOn scopes m m') :
    AgreeOn scopes (normM scopes maxLen m) (normM scopes maxLen m') := by
  intro f i v s he hs
  rw [normM_at he, normM_at he, h f i v s he hs, segM_congr (fun j hj => h f i v j he hj)]

/-- The variable-to-factor messages. -/
def vtofM (scopes : List (List Var)) (ev : Var → Nat → α) (m : Msgs α) : Msgs α := fun f i s =>
  match varAt scopes f i with
  | some v => varToFac scopes ev m v (f, i) s
  | none => 0

theorem vtofM_at {scopes : List (List Var)} {f i : Nat} {v : Var} (he : IsEdge scopes f i v) (ev : Var → Nat → α) (m : Msgs α) (s : Nat) :
    vtofM scopes ev m f i s = varToFac scopes ev m v (f, i) s := by
  unfold vtofM; rw [varAt_iff.2 he]

theorem varToFac_congr {scopes : List (List Var)} {m m' : Msgs α} (h : AgreeOn scopes m m') {ev ev' : Var → Nat → α} {v : Var} {s : Nat}
    (hev : ev v s = ev' v s) (e : Nat × Nat) (hs : s < v.n) : varToFac scopes ev m v e s = varToFac scopes ev' m' v e s := by
  unfold varToFac
  rw [hev]
  congr 2
  apply List.map_congr_left
  intro e' he'
  exact h _ _ v s ((mem_edgesOf _ _ _ _).1 (List.mem_filter.1 he').1) hs

theorem vtofM_congr {scopes : List (List Var)} {m m' : Msgs α} (h : AgreeOn scopes m m') (ev : Var → Nat → α) :
    AgreeOn scopes (vtofM scopes ev m) (vtofM scopes ev m') := by
  intro f i v s he hs
  rw [vtofM_at he, vtofM_at he, varToFac_congr h rfl _ hs]

/-- The new factor-to-variable messages. -/
noncomputable def rawM (env : Env α) (T : α) (fg : FactorGraph κ α) (lp : List α) (ev : Var → Nat → α) (m : Msgs α) : Msgs α := fun f i s =>
  match (fg.factors lp)[f]? with
  | some F => facOut env T (fg.kind f) F (vtofM fg.allScopes ev m f) i s
  | none => 0

theorem rawM_at (env : Env α) (T : α) {fg : FactorGraph κ α} {lp : List α} {f : Nat} {F : SFac α} (hF : (fg.factors lp)[f]? = some F) (ev : Var → Nat → α) (m : Msgs α) (i s : Nat) :
    rawM env T fg lp ev m f i s = facOut env T (fg.kind f) F (vtofM fg.allScopes ev m f) i s := by
  unfold rawM; rw [hF]

/-- One iteration. -/
noncomputable def stepM (env : Env α) (T : α) (fg : FactorGraph κ α) (maxLen : Nat) (lp : List α) (ev : Var → Nat → α) (d : α) (m : Msgs α) : Msgs α :=
  normM fg.allScopes maxLen (fun f i s => m f i s + (1 - d) * (rawM env T fg lp ev m f i s - m f i s))

/-- Several iterations. -/
def iterM (g : Msgs α → Msgs α) : Nat → Msgs α → Msgs α
  | 0, m => m
  | n + 1, m => iterM g n (g m)

omit [LinearOrder α] in
theorem FactorGraph.factors_edge (fg : FactorGraph κ α) (lp : List α) {f i : Nat} {v : Var} (he : IsEdge fg.allScopes f i v) :
    ∃ F, (fg.factors lp)[f]? = some F ∧ F.scope[i]? = some v ∧ fg.allScopes[f]? = some F.scope := by
  obtain ⟨vs, h1, h2⟩ := he
  have hl : f < (fg.factors lp).length := by
    have := congrArg List.length (fg.factors_scopes lp)
    rw [List.length_map] at this
    rw [this]
    exact (List.getElem?_eq_some_iff.1 h1).1
  have hF := List.getElem?_eq_getElem hl
  have hsc := fg.factors_scope lp hF
  rw [h1] at hsc
  exact ⟨_, hF, by rw [← Option.some.inj hsc]; exact h2, by rw [h1, ← Option.some.inj hsc]⟩

theorem Compiled.rawM_congr (h : Compiled vgs hist garbage st) (env : Env α) (T : α) (lp : List α) (ev : Var → Nat → α) {m m' : Msgs α}
    (hm : AgreeOn (graphOf vgs hist).allScopes m m') :
    AgreeOn (graphOf vgs hist).allScopes (rawM env T (graphOf vgs hist) lp ev m) (rawM env T (graphOf vgs hist) lp ev m') := by
  intro f i v s he hs
  obtain ⟨F, hF, hi, hsc⟩ := (graphOf vgs hist).factors_edge lp he
  rw [rawM_at _ _ hF, rawM_at _ _ hF]
  exact facOut_congr env T (h.facOk lp f F hF) (fun j w t hj ht => vtofM_congr hm ev f j w t ⟨_, hsc, hj⟩ ht) i s v hi hs

theorem Compiled.stepM_congr (h : Compiled vgs hist garbage st) (env : Env α) (T : α) (maxLen : Nat) (lp : List α) (ev : Var → Nat → α) (d : α) {m m' : Msgs α}
    (hm : AgreeOn (graphOf vgs hist).allScopes m m') :
    AgreeOn (graphOf vgs hist).allScopes (stepM env T (graphOf vgs hist) maxLen lp ev d m) (stepM env T (graphOf vgs hist) maxLen lp ev d m') := by
  apply normM_congr
  intro f i v s he hs
  simp only
  rw [hm f i v s he hs, h.rawM_congr env T lp ev hm f i v s he hs]

theorem Compiled.iterM_congr (h : Compiled vgs hist garbage st) (env : Env α) (T : α) (maxLen : Nat) (lp : List α) (ev : Var → Nat → α) (d : α) (n : Nat) {m m' : Msgs α}
    (hm : AgreeOn (graphOf vgs hist).allScopes m m') :
    AgreeOn (graphOf vgs hist).allScopes (iterM (stepM env T (graphOf vgs hist) maxLen lp ev d) n m) (iterM (stepM env T (graphOf vgs hist) maxLen lp ev d) n m') := by
  induction n generalizing m m' with
  | zero => exact hm
  | succ n ih => exact ih (h.stepM_congr env T maxLen lp ev d hm)

/-- Every variable in a scope has a state. -/
theorem Compiled.edge_pos (h : Compiled vgs hist garbage st) {f i : Nat} {v : Var} (he : IsEdge (graphOf vgs hist).allScopes f i v) : 0 < v.n := by
  have hts := Compiled.tables_scopes (graphOf vgs hist)
  obtain ⟨F, hF, hi, hsc⟩ := (graphOf vgs hist).factors_edge st.logPotentials he
  have hok := h.facOk st.logPotentials f F hF
  unfold FactorGraph.kind at hok
  by_cases hf : f < (graphOf vgs hist).tables.length
  · obtain ⟨⟨vs, cf⟩, hk⟩ : ∃ p, (graphOf vgs hist).tables[f]? = some p := ⟨_, List.getElem?_eq_getElem hf⟩
    have hmem := List.mem_iff_getElem?.2 ⟨f, hk⟩
    obtain ⟨r, hr⟩ := List.exists_mem_of_ne_nil _ (h.tablesNe _ hmem).1
    have hrow := (h.tablesOk _ hmem).2 r hr
    have hvs : vs = F.scope := by
      have hall : (graphOf vgs hist).allScopes = (graphOf vgs hist).scopesOf .enum ++ ((graphOf vgs hist).scopesOf .or ++ (graphOf vgs hist).scopesOf .and) := by
        simp [FactorGraph.allScopes, FType.all]
      rw [hall, List.getElem?_append_left (by rw [← hts]; simpa using hf), ← hts, List.getElem?_map, hk] at hsc
      exact Option.some.inj hsc
    simp only [hvs] at hrow
    have hl := hrow.length_eq
    have hil := (List.getElem?_eq_some_iff.1 hi).1
    obtain ⟨w, hw, hlt⟩ := forall₂_getElem? hrow (List.getElem?_eq_getElem (show i < r.length by omega))
    rw [hi] at hw
    cases hw
    omega
  · rw [if_neg hf] at hok
    rw [hok.2.2 v (List.mem_of_getElem? hi)]
    omega

theorem Compiled.normalize_length (h : Compiled vgs hist garbage st) {state : BPState α} {T : α} {bp : BPFun κ α}
    (hbp : BP.create st state T = .ok bp) (env : Env α) (msgs : List α) (hm : msgs.length = st.totalFactorNumStates) :
    (normalizeAndClip env msgs bp.edgesNumStates bp.maxMsgSize).length = st.totalFactorNumStates := by
  rw [normalizeAndClip_length _ _ _ (by rw [h.bpLens hbp, lens_sum, hm, h.totalStates]), hm]

/-- Normalisation in the flat array. -/
theorem Compiled.norm_read (h : Compiled vgs hist garbage st) {state : BPState α} {T : α} {bp : BPFun κ α}
    (hbp : BP.create st state T = .ok bp) (env : Env α) (hseg : SegFits env (graphOf vgs hist)) (msgs : List α) (hm : msgs.length = st.totalFactorNumStates) :
    AgreeOn (graphOf vgs hist).allScopes (readMsgs (graphOf vgs hist).allScopes (normalizeAndClip env msgs bp.edgesNumStates bp.maxMsgSize))
      (normM (graphOf vgs hist).allScopes bp.maxMsgSize (readMsgs (graphOf vgs hist).allScopes msgs)) := by
  intro f i v s he hs
  rw [normM_at he]
  have hpos := h.edge_pos he
  obtain ⟨hmax, f', i', v', he', hv'⟩ := h.maxMsgSize hbp
  have hw : env.wrapNeg = false ∨ msgs.length + bp.maxMsgSize ≤ 100000 := by
    rcases hseg with hw | hw
    · exact .inl hw
    · right; rw [hm, h.totalStates, ← hv']; exact hw f' i' v' he'
  obtain ⟨vs, h1, h2⟩ := he
  obtain ⟨s1, s2⟩ := segOf_take (graphOf vgs hist).allScopes f i vs v h1 h2
  apply read_of_at
  have := normalizeAndClip_at env msgs bp.edgesNumStates (by rw [h.bpLens hbp, lens_sum, hm, h.totalStates]) bp.maxMsgSize
    (by
      intro n hn
      rw [h.bpLens hbp] at hn
      obtain ⟨vs, hvs, hm⟩ := List.mem_flatMap.1 hn
      obtain ⟨v, hv, rfl⟩ := List.mem_map.1 hm
      obtain ⟨f, hf⟩ := List.mem_iff_getElem?.1 hvs
      obtain ⟨i, hi⟩ := List.mem_iff_getElem?.1 hv
      exact hmax f i v ⟨vs, hf, hi⟩) hw (segOf (graphOf vgs hist).allScopes f i) v.n s (by rw [h.bpLens hbp]; exact s1) hs
  rw [h.bpLens hbp] at this ⊢
  rw [s2] at this
  rw [this, segMaxAt_eq _ _ _ _ _ hpos (hmax f i v ⟨vs, h1, h2⟩)]
  rfl

variable [IsStrictOrderedRing α]

omit [IsStrictOrderedRing α] in
theorem passVarToFac_length (env : Env α) (msgs ev : List α) (vs : List Nat) (h : msgs.length = vs.length) :
    (passVarToFac env msgs ev vs).length = msgs.length := by
  simp [passVarToFac, zipOp, h]

omit [IsStrictOrderedRing α] in
theorem Compiled.varStates_length (h : Compiled vgs hist garbage st) : st.allVarStates.length = st.totalFactorNumStates := by
  rw [h.allVarStates, vsEntries_length, h.totalStates]; rfl

omit [IsStrictOrderedRing α] in
theorem Compiled.newMsgs_length (h : Compiled vgs hist garbage st) {bp : BPFun κ α} (hbp : bp.st = st) (env : Env α) (lp vtof : List α)
    (hlp : lp.length = st.logPotentials.length) (hv : vtof.length = st.totalFactorNumStates) :
    (bp.newMsgs env lp vtof).length = st.totalFactorNumStates := by
  have hall : (graphOf vgs hist).allScopes = (graphOf vgs hist).scopesOf .enum ++ ((graphOf vgs hist).scopesOf .or ++ (graphOf vgs hist).scopesOf .and) := by
    simp [FactorGraph.allScopes, FType.all]
  have htot := h.totalStates
  rw [hall, statesOf_append, statesOf_append] at htot
  rw [h.newMsgs_eq hbp env lp vtof hlp hv]
  simp only [List.length_append, passEnum_length, passLogical_length, List.length_take, List.length_drop, slice_length]
  omega

omit [IsStrictOrderedRing α] in
/-- The array that is normalised at the end of an iteration. -/
theorem Compiled.step_eq (h : Compiled vgs hist garbage st) {state : BPState α} {T : α} {bp : BPFun κ α}
    (hbp : BP.create st state T = .ok bp) (env : Env α) (lp ev msgs : List α) (d : α)
    (hlp : lp.length = st.logPotentials.length) (hm : msgs.length = st.totalFactorNumStates) :
    ∃ ms : List α, ms.length = st.totalFactorNumStates ∧ bp.step env lp ev d msgs = normalizeAndClip env ms bp.edgesNumStates bp.maxMsgSize ∧
      (bp.step env lp ev d msgs).length = st.totalFactorNumStates ∧ (d = 1 → ms = msgs) := by
  obtain ⟨e1, -, e3, e4, -⟩ := BP_create_ok hbp
  have hvl : (passVarToFac env msgs ev bp.varStatesForEdges).length = st.totalFactorNumStates := by
    rw [passVarToFac_length _ _ _ _ (by rw [e3, h.varStates_length, hm]), hm]
  have hnl := h.newMsgs_length e1 env lp _ hlp hvl
  have hl : (zipOp (· + ·) msgs ((zipOp (· - ·) (bp.newMsgs env lp (passVarToFac env msgs ev bp.varStatesForEdges)) msgs).map (fun x => (1 - d) * x))).length
      = st.totalFactorNumStates := by
    simp [zipOp, hnl, hm]
  refine ⟨_, hl, rfl, h.normalize_length hbp env _ hl, ?_⟩
  intro hd
  apply List.ext_getElem?
  intro p
  by_cases hp : p < msgs.length
  · refine (zip_at _ (List.getElem?_eq_getElem hp) (map_at _ (zip_at _ (List.getElem?_eq_getElem (by omega)) (List.getElem?_eq_getElem hp)))).trans ?_
    rw [List.getElem?_eq_getElem hp]
    simp [hd]
  · rw [List.getElem?_eq_none (by omega), List.getElem?_eq_none (by omega)]

omit [IsStrictOrderedRing α] in
/-- One iteration in the flat array, in terms of the new factor messages. -/
theorem Compiled.step_norm (h : Compiled vgs hist garbage st) {state : BPState α} {T : α} {bp : BPFun κ α}
    (hbp : BP.create st state T = .ok bp) (env : Env α) (hseg : SegFits env (graphOf vgs hist)) (lp ev msgs : List α) (d : α)
    (hlp : lp.length = st.logPotentials.length) (hm : msgs.length = st.totalFactorNumStates) :
    (passVarToFac env msgs ev bp.varStatesForEdges).length = st.totalFactorNumStates ∧
    (bp.newMsgs env lp (passVarToFac env msgs ev bp.varStatesForEdges)).length = st.totalFactorNumStates ∧
    (bp.step env lp ev d msgs).length = st.totalFactorNumStates ∧
    AgreeOn (graphOf vgs hist).allScopes (readMsgs (graphOf vgs hist).allScopes (bp.step env lp ev d msgs))
      (normM (graphOf vgs hist).allScopes bp.maxMsgSize (fun f i s => readMsgs (graphOf vgs hist).allScopes msgs f i s + (1 - d) *
        (readMsgs (graphOf vgs hist).allScopes (bp.newMsgs env lp (passVarToFac env msgs ev bp.varStatesForEdges)) f i s
          - readMsgs (graphOf vgs hist).allScopes msgs f i s))) := by
  obtain ⟨e1, -, e3, e4, -⟩ := BP_create_ok hbp
  have hvl : (passVarToFac env msgs ev bp.varStatesForEdges).length = st.totalFactorNumStates := by
    rw [passVarToFac_length _ _ _ _ (by rw [e3, h.varStates_length, hm]), hm]
  have hnl := h.newMsgs_length e1 env lp _ hlp hvl
  have hl : (zipOp (· + ·) msgs ((zipOp (· - ·) (bp.newMsgs env lp (passVarToFac env msgs ev bp.varStatesForEdges)) msgs).map (fun x => (1 - d) * x))).length
      = st.totalFactorNumStates := by
    simp [zipOp, hnl, hm]
  refine ⟨hvl, hnl, h.normalize_length hbp env _ hl, (h.norm_read hbp env hseg _ hl).trans ?_⟩
  apply normM_congr
  intro f i v s he hs
  apply read_of_at
  have hmat := read_at (hm.trans h.totalStates) he hs
  have hnat := read_at (hnl.trans h.totalStates) he hs
  exact zip_at _ hmat (map_at (fun x => (1 - d) * x) (zip_at _ hnat hmat))

/-- One iteration in the flat array. -/
theorem Compiled.step_read (h : Compiled vgs hist garbage st) {state : BPState α} {T : α} {bp : BPFun κ α}
    (hbp : BP.create st state T = .ok bp) (env : Env α) (hfit : Fits env (graphOf vgs hist) T) (lp ev msgs : List α) (d : α)
    (hlp : lp.length = st.logPotentials.length) (hev : ev.length = st.numVarStates) (hm : msgs.length = st.totalFactorNumStates) :
    (bp.step env lp ev d msgs).length = st.totalFactorNumStates ∧
    AgreeOn (graphOf vgs hist).allScopes (readMsgs (graphOf vgs hist).allScopes (bp.step env lp ev d msgs))
      (stepM env T (graphOf vgs hist) bp.maxMsgSize lp (readEv st.varsToStarts ev) d (readMsgs (graphOf vgs hist).allScopes msgs)) := by
  obtain ⟨e1, -, e3, e4, -⟩ := BP_create_ok hbp
  obtain ⟨hvl, hnl, hl, hr⟩ := h.step_norm hbp env hfit.seg lp ev msgs d hlp hm
  refine ⟨hl, hr.trans ?_⟩
  unfold stepM
  apply normM_congr
  intro f i v s he hs
  obtain ⟨F, hF, hi, hsc⟩ := (graphOf vgs hist).factors_edge lp he
  have hnat := h.newMsgs_local e1 env lp _ hlp hvl (by rw [e4]; exact hfit.par) f i s F v hF hi hs
  simp only
  rw [rawM_at _ _ hF, read_of_at hnat, e4]
  congr 3
  refine facOut_congr env T (h.facOk lp f F hF) ?_ i s v hi hs
  intro j w t hj ht
  rw [vtofM_at ⟨_, hsc, hj⟩]
  exact read_of_at (C26_var_to_fac h hbp env msgs ev hm hev f j _ w t hsc hj ht)

theorem Compiled.iterate_read (h : Compiled vgs hist garbage st) {state : BPState α} {T : α} {bp : BPFun κ α}
    (hbp : BP.create st state T = .ok bp) (env : Env α) (hfit : Fits env (graphOf vgs hist) T) (lp ev : List α) (d : α)
    (hlp : lp.length = st.logPotentials.length) (hev : ev.length = st.numVarStates) (n : Nat) (msgs : List α) (hm : msgs.length = st.totalFactorNumStates) :
    (BPFun.iterate (bp.step env lp ev d) n msgs).length = st.totalFactorNumStates ∧
    AgreeOn (graphOf vgs hist).allScopes (readMsgs (graphOf vgs hist).allScopes (BPFun.iterate (bp.step env lp ev d) n msgs))
      (iterM (stepM env T (graphOf vgs hist) bp.maxMsgSize lp (readEv st.varsToStarts ev) d) n (readMsgs (graphOf vgs hist).allScopes msgs)) := by
  induction n generalizing msgs with
  | zero => exact ⟨hm, AgreeOn.refl _ _⟩
  | succ n ih =>
    obtain ⟨s1, s2⟩ := h.step_read hbp env hfit lp ev msgs d hlp hev hm
    obtain ⟨i1, i2⟩ := ih _ s1
    exact ⟨i1, i2.trans (h.iterM_congr env T _ lp _ d n s2)⟩

/-- `run_bp` in the flat array. -/
theorem Compiled.run_read (h : Compiled vgs hist garbage st) {state : BPState α} {T : α} {bp : BPFun κ α}
    (hbp : BP.create st state T = .ok bp) (env : Env α) (hfit : Fits env (graphOf vgs hist) T) (a : BPArrays α) (d : α)
    (hlp : a.logPotentials.length = st.logPotentials.length) (hev : a.evidence.length = st.numVarStates) (n : Nat) (hm : a.ftovMsgs.length = st.totalFactorNumStates) :
    (bp.runBP env a n d).ftovMsgs.length = st.totalFactorNumStates ∧
    AgreeOn (graphOf vgs hist).allScopes (readMsgs (graphOf vgs hist).allScopes (bp.runBP env a n d).ftovMsgs)
      (iterM (stepM env T (graphOf vgs hist) bp.maxMsgSize a.logPotentials (readEv st.varsToStarts a.evidence) d) n
        (normM (graphOf vgs hist).allScopes bp.maxMsgSize (readMsgs (graphOf vgs hist).allScopes a.ftovMsgs))) := by
  have hl := h.normalize_length hbp env _ hm
  obtain ⟨i1, i2⟩ := h.iterate_read hbp env hfit a.logPotentials a.evidence d hlp hev n _ hl
  exact ⟨i1, i2.trans (h.iterM_congr env T _ _ _ d n (h.norm_read hbp env hfit.seg _ hm))⟩

end

end PGMax
