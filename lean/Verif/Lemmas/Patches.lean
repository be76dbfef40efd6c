import Verif.Model.ProgramPatches
import Verif.Spec.Patches
import Verif.Lemmas.Enums
import Verif.Lemmas.Block
import Verif.Lemmas.Writes
import Verif.Props.C43

/-! Helper lemmas: the program with hidden variables over patches of an image. -/

namespace PGMax

section
variable {κ α : Type}

/-- The variable of the pixel `(a, b)`. -/
abbrev pixCell (idX h w P a b : Nat) : Var := uniCell idX [h + 2, w + 2] P [a, b]

/-- The hidden variable of the patch whose first pixel is `(r, c)`. -/
abbrev hidCell (idZ h w Q r c : Nat) : Var := uniCell idZ [h, w] Q [r, c]

/-- The variables of the factor of patch `q.2` and position `q.1` in the patch. -/
abbrev patchScope (idX idZ h w Q P : Nat) (q : (Nat × Nat) × (Nat × Nat)) : List Var :=
  [hidCell idZ h w Q q.2.1 q.2.2, pixCell idX h w P (q.2.1 + q.1.1) (q.2.2 + q.1.2)]

/-- Positions in patches, with the patches. -/
abbrev patchPlaces (h w : Nat) : List ((Nat × Nat) × (Nat × Nat)) := (grid 3 3).flatMap (fun k => (grid h w).map (fun p => (k, p)))

theorem mem_patchPlaces {h w : Nat} {q : (Nat × Nat) × (Nat × Nat)} : q ∈ patchPlaces h w ↔ (q.1.1 < 3 ∧ q.1.2 < 3) ∧ q.2.1 < h ∧ q.2.2 < w := by
  obtain ⟨k, p⟩ := q
  simp only [patchPlaces, List.mem_flatMap, List.mem_map, Prod.mk.injEq, mem_grid]
  constructor
  · rintro ⟨k', hk, p', hp, rfl, rfl⟩; exact ⟨hk, hp⟩
  · rintro ⟨hk, hp⟩; exact ⟨k, hk, p, hp, rfl, rfl⟩

theorem patchPlaces_nodup (h w : Nat) : (patchPlaces h w).Nodup := by
  unfold patchPlaces
  rw [List.nodup_flatMap]
  refine ⟨fun k _ => (grid_nodup h w).map (fun a b e => (Prod.mk.inj e).2), (grid_nodup 3 3).imp_of_mem fun {a b} _ _ hne => ?_⟩
  intro q h1 h2
  obtain ⟨p, -, rfl⟩ := List.mem_map.1 h1
  obtain ⟨p', -, e⟩ := List.mem_map.1 h2
  exact hne (Prod.mk.inj e).1.symm

theorem patchPlaces_length (h w : Nat) : (patchPlaces h w).length = 9 * (h * w) := by
  have hl : ∀ m n, (grid m n).length = m * n := by intro m n; simp [grid, List.length_flatMap]
  simp only [patchPlaces, List.length_flatMap, List.length_map, hl, List.map_const', List.sum_replicate, smul_eq_mul]

theorem PatchSizes.small {h w : Nat} (hs : PatchSizes h w) : h * w ≤ 1000000000 :=
  le_trans (Nat.mul_le_mul (by omega) (by omega)) hs.2.2

theorem pixCell_at {h w a b : Nat} (idX P : Nat) (ha : a < h + 2) (hb : b < w + 2) :
    (uniArr idX [h + 2, w + 2] P).at [(a : Int), (b : Int)] = .ok (pixCell idX h w P a b) := by
  have := uniArr_at idX [h + 2, w + 2] P (by simp) (cs := [a, b]) (by simp [ha, hb])
  simpa using this

theorem hidCell_at {h w a b : Nat} (idZ Q : Nat) (ha : a < h) (hb : b < w) :
    (uniArr idZ [h, w] Q).at [(a : Int), (b : Int)] = .ok (hidCell idZ h w Q a b) := by
  have := uniArr_at idZ [h, w] Q (by simp) (cs := [a, b]) (by simp [ha, hb])
  simpa using this

theorem pixCell_inj {idX h w P a b c d : Nat} (ha : a < h + 2) (hb : b < w + 2) (hc : c < h + 2) (hd : d < w + 2)
    (e : pixCell idX h w P a b = pixCell idX h w P c d) : a = c ∧ b = d := by
  have := uniCell_inj (cs := [a, b]) (ds := [c, d]) (by simp [ha, hb]) (by simp [hc, hd]) e
  simpa using this

theorem hidCell_inj {idZ h w Q a b c d : Nat} (ha : a < h) (hb : b < w) (hc : c < h) (hd : d < w)
    (e : hidCell idZ h w Q a b = hidCell idZ h w Q c d) : a = c ∧ b = d := by
  have := uniCell_inj (cs := [a, b]) (ds := [c, d]) (by simp [ha, hb]) (by simp [hc, hd]) e
  simpa using this

theorem hidCell_ne {idX idZ h w Q P a b c d : Nat} (hid : idX % 2 ^ 32 ≠ idZ % 2 ^ 32) (hs : PatchSizes h w) (ha : a < h) (hb : b < w) (hc : c < h + 2) (hd : d < w + 2) :
    hidCell idZ h w Q a b ≠ pixCell idX h w P c d :=
  uniCell_ne (Ne.symm hid) (by simpa using hs.small) (by simpa using hs.2.2) (by simp [ha, hb]) (by simp [hc, hd])

theorem patchScopes_eq (idX idZ h w Q P : Nat) {kr kc : Nat} (hk : kr < 3 ∧ kc < 3) :
    patchScopes (uniArr idZ [h, w] Q) (uniArr idX [h + 2, w + 2] P) h w kr kc = .ok ((grid h w).map (fun p => patchScope idX idZ h w Q P ((kr, kc), p))) := by
  unfold patchScopes
  refine mapM_ok _ _ _ fun p hp => ?_
  obtain ⟨h1, h2⟩ := mem_grid.1 hp
  rw [hidCell_at idZ Q h1 h2, py_ok_bind, pixCell_at idX P (by omega) (by omega), py_ok_bind]
  rfl

/-- The matrix of potentials of a position. -/
abbrev patchData [Zero α] (Q P : Nat) (W : List α) (k : Nat × Nat) : List α := (patchMatrix Q P W k.1 k.2).data

theorem patchData_length [Zero α] (Q P : Nat) (W : List α) (k : Nat × Nat) : (patchData Q P W k).length = Q * P := by
  simp [patchData, patchMatrix, grid, List.length_flatMap]

/-- The group of factors of a position. -/
abbrev patchGroup [Zero α] (idX idZ : Nat) (idF : Nat → Nat) (h w Q P : Nat) (W : List α) (k : Nat × Nat) : FGroup α :=
  enumGroup (idF (k.1 * 3 + k.2)) (.pairwise Q P) (mgridConfigs Q P) ((grid h w).map (fun p => (patchScope idX idZ h w Q P (k, p), patchData Q P W k)))

theorem grid_ne_nil {m n : Nat} (hm : 1 ≤ m) (hn : 1 ≤ n) : grid m n ≠ [] :=
  List.ne_nil_of_mem (mem_grid.2 ⟨hm, hn⟩ : (0, 0) ∈ grid m n)

theorem patchGroup_create [Zero α] (idX idZ : Nat) (idF : Nat → Nat) {h w : Nat} (hs : PatchSizes h w) (Q P : Nat) (W : List α) (k : Nat × Nat) :
    PairwiseFactorGroup.create (idF (k.1 * 3 + k.2)) ((grid h w).map (fun p => patchScope idX idZ h w Q P (k, p))) (some (patchMatrix Q P W k.1 k.2)) true =
      .ok (patchGroup idX idZ idF h w Q P W k) := by
  have := pairwise_create_ok (idF (k.1 * 3 + k.2)) ((grid h w).map (fun p => patchScope idX idZ h w Q P (k, p))) Q P (patchData Q P W k)
    (by simpa using grid_ne_nil hs.1 hs.2.1) (patchData_length Q P W k) (by
      intro vs hvs
      obtain ⟨p, -, rfl⟩ := List.mem_map.1 hvs
      exact ⟨_, _, rfl, rfl, rfl⟩)
  rw [show patchMatrix Q P W k.1 k.2 = ⟨[Q, P], patchData Q P W k⟩ from rfl, this]
  unfold patchGroup enumGroup
  simp only [List.map_map, List.length_map]
  congr 2
  rw [List.flatMap_map]
  generalize grid h w = L
  induction L with
  | nil => rfl
  | cons a L ih => rw [List.length_cons, List.replicate_succ, List.flatten_cons, ih, List.flatMap_cons]

abbrev patchVgs (κ : Type) (idX idZ h w Q P : Nat) : List (VGroup κ) := [.arr (uniArr idX [h + 2, w + 2] P), .arr (uniArr idZ [h, w] Q)]

abbrev patchHist [Zero α] (idX idZ : Nat) (idF : Nat → Nat) (h w Q P : Nat) (W : List α) : List (AddArg α) :=
  ((grid 3 3).map (patchGroup idX idZ idF h w Q P W)).map .one

theorem patches_eq [Zero α] (idX idZ : Nat) (idF : Nat → Nat) {h w : Nat} (hs : PatchSizes h w) (Q P : Nat) (W : List α) :
    (patches idX idZ idF h w Q P W : Py (Patches κ α)) =
      (FactorGraph.create (patchVgs κ idX idZ h w Q P)).addAll (patchHist idX idZ idF h w Q P W) >>= fun fg =>
        .ok ⟨uniArr idX [h + 2, w + 2] P, uniArr idZ [h, w] Q, fg⟩ := by
  unfold patches
  rw [create_scalar idX [h + 2, w + 2] P (by simpa using hs.2.2), py_ok_bind, create_scalar idZ [h, w] Q (by simpa using hs.small), py_ok_bind]
  dsimp only
  rw [foldlM_addAll _ (patchGroup idX idZ idF h w Q P W) _ (fun fg k hk => by
    rw [patchScopes_eq idX idZ h w Q P (mem_grid.1 hk), py_ok_bind, patchGroup_create idX idZ idF hs, py_ok_bind])]
  rfl

theorem patchHist_scopes [Zero α] (idX idZ : Nat) (idF : Nat → Nat) (h w Q P : Nat) (W : List α) :
    ((grid 3 3).map (patchGroup idX idZ idF h w Q P W)).flatMap (·.varsForFactors) = (patchPlaces h w).map (patchScope idX idZ h w Q P) := by
  rw [List.flatMap_map, patchPlaces, List.map_flatMap]
  congr 1
  funext k
  simp only [patchGroup, enumGroup, List.map_map]
  rfl

theorem patch_sets {idX idZ h w Q P : Nat} (hid : idX % 2 ^ 32 ≠ idZ % 2 ^ 32) (hs : PatchSizes h w) :
    (((patchPlaces h w).map (patchScope idX idZ h w Q P)).map List.toFinset).Nodup := by
  rw [List.map_map]
  refine List.Nodup.map_on (fun p hp q hq e => ?_) (patchPlaces_nodup h w)
  obtain ⟨⟨p1, p2⟩, p3, p4⟩ := mem_patchPlaces.1 hp
  obtain ⟨⟨q1, q2⟩, q3, q4⟩ := mem_patchPlaces.1 hq
  rcases pair_toFinset_eq e with ⟨e1, e2⟩ | ⟨e1, e2⟩
  · obtain ⟨r1, r2⟩ := hidCell_inj p3 p4 q3 q4 e1
    obtain ⟨r3, r4⟩ := pixCell_inj (by omega) (by omega) (by omega) (by omega) e2
    exact Prod.ext (Prod.ext (by omega) (by omega)) (Prod.ext r1 r2)
  · exact absurd e1 (hidCell_ne hid hs p3 p4 (by omega) (by omega))

theorem patches_ok [Zero α] {idX idZ : Nat} (hid : idX % 2 ^ 32 ≠ idZ % 2 ^ 32) (idF : Nat → Nat) {h w : Nat} (hs : PatchSizes h w) (Q P : Nat) (W : List α) :
    ∃ fg, (FactorGraph.create (patchVgs κ idX idZ h w Q P)).addAll (patchHist idX idZ idF h w Q P W) = .ok fg ∧
      (patches idX idZ idF h w Q P W : Py (Patches κ α)) = .ok ⟨uniArr idX [h + 2, w + 2] P, uniArr idZ [h, w] Q, fg⟩ := by
  obtain ⟨fg, hfg⟩ := (addAll_create (patchVgs κ idX idZ h w Q P) (patchHist idX idZ idF h w Q P W)).1 (by
    rw [flatList_ones, setsOf_enum (by
      intro g hg
      obtain ⟨k, -, rfl⟩ := List.mem_map.1 hg
      rfl), patchHist_scopes]
    exact patch_sets hid hs)
  refine ⟨fg, hfg, ?_⟩
  rw [patches_eq idX idZ idF hs, hfg, py_ok_bind]

theorem patches_error [Zero α] (idX idZ : Nat) (idF : Nat → Nat) {h w : Nat} (hs : ¬ PatchSizes h w) (Q P : Nat) (W : List α) :
    (patches idX idZ idF h w Q P W : Py (Patches κ α)) = .error .valueError := by
  unfold patches
  by_cases hl : (h + 2) * (w + 2) ≤ 1000000000
  · have hl' : h * w ≤ 1000000000 := le_trans (Nat.mul_le_mul (by omega) (by omega)) hl
    rw [create_scalar idX [h + 2, w + 2] P (by simpa using hl), py_ok_bind, create_scalar idZ [h, w] Q (by simpa using hl'), py_ok_bind]
    dsimp only
    have hg : grid h w = [] := by
      by_contra hne
      obtain ⟨p, hp⟩ := List.exists_mem_of_ne_nil _ hne
      have := mem_grid.1 hp
      exact hs ⟨by omega, by omega, hl⟩
    have hcons : ∃ k L, grid 3 3 = k :: L ∧ k.1 < 3 ∧ k.2 < 3 := ⟨(0, 0), (grid 3 3).tail, rfl, by norm_num, by norm_num⟩
    obtain ⟨k, L, e, hk⟩ := hcons
    rw [e, List.foldlM_cons, patchScopes_eq idX idZ h w Q P hk, py_ok_bind, hg]
    rfl
  · rw [create_scalar_large idX [h + 2, w + 2] P (by simpa using hl), py_error_bind]

theorem mem_patchVgs {idX idZ h w Q P : Nat} (v : Var) :
    v ∈ graphVars (patchVgs κ idX idZ h w Q P) ↔ (∃ a < h + 2, ∃ b < w + 2, v = pixCell idX h w P a b) ∨ ∃ r < h, ∃ c < w, v = hidCell idZ h w Q r c := by
  simp only [graphVars, List.mem_toFinset, List.mem_flatMap, List.mem_cons, List.not_mem_nil, or_false, exists_eq_or_imp, exists_eq_left]
  exact or_congr ((isGrid_uniArr idX (h + 2) (w + 2) P).vars v) ((isGrid_uniArr idZ h w Q).vars v)

theorem patchVgs_ok {idX idZ h w : Nat} (hid : idX % 2 ^ 32 ≠ idZ % 2 ^ 32) (hs : PatchSizes h w) (Q P : Nat) : VGroupsOk (patchVgs κ idX idZ h w Q P) := by
  have := vgroupsOk_of (κ := κ) [(idX, .arr (uniArr idX [h + 2, w + 2] P)), (idZ, .arr (uniArr idZ [h, w] Q))] (by
      intro p hp
      simp only [List.mem_cons, List.not_mem_nil, or_false] at hp
      rcases hp with rfl | rfl
      · exact uniArr_built _ _ _ (by simpa using hs.2.2)
      · exact uniArr_built _ _ _ (by simpa using hs.small))
    (by simpa using hid)
  exact this

/-- The factor of a position in a patch. -/
abbrev patchFac [Zero α] (idX idZ h w Q P : Nat) (W : List α) (q : (Nat × Nat) × (Nat × Nat)) : SFac α :=
  ⟨patchScope idX idZ h w Q P q, (mgridConfigs Q P).rows.zip (patchData Q P W q.1)⟩

/-- What the program has built. -/
structure PatchesBuilt [Zero α] (idX idZ h w Q P : Nat) (W : List α) (garbage : Garbage) (r : Patches κ α) (hist : List (AddArg α)) (st : FGState κ α) : Prop where
  pixel : r.pixel = uniArr idX [h + 2, w + 2] P
  hidden : r.hidden = uniArr idZ [h, w] Q
  graph : graphOf (patchVgs κ idX idZ h w Q P) hist = r.fg
  compiled : Compiled (patchVgs κ idX idZ h w Q P) hist garbage st
  scopes : r.fg.allScopes = (patchPlaces h w).map (patchScope idX idZ h w Q P)
  tables : r.fg.tables.length = 9 * (h * w)
  others : ∀ t, t ≠ .enum → r.fg.scopesOf t = []
  facs : ∀ lp, r.fg.factors lp = tableFacs r.fg.tables lp
  factors : r.fg.factors st.logPotentials = (patchPlaces h w).map (patchFac idX idZ h w Q P W)

theorem patches_build [Zero α] {idX idZ : Nat} (hid : idX % 2 ^ 32 ≠ idZ % 2 ^ 32) {idF : Nat → Nat} (hF : ((List.range 9).map idF).Nodup) {h w : Nat} (hs : PatchSizes h w) {Q P : Nat}
    (hQ : 1 ≤ Q) (hP : 1 ≤ P) (W : List α) {r : Patches κ α} (hr : patches idX idZ idF h w Q P W = .ok r) (garbage : Garbage) :
    ∃ hist st, PatchesBuilt idX idZ h w Q P W garbage r hist st := by
  obtain ⟨fg, hfg, e⟩ := patches_ok (κ := κ) hid idF hs Q P W
  rw [e, Except.ok.injEq] at hr
  subst hr
  have henum : ∀ g ∈ (grid 3 3).map (patchGroup idX idZ idF h w Q P W), g.ftype = .enum := by
    intro g hg
    obtain ⟨k, -, rfl⟩ := List.mem_map.1 hg
    rfl
  obtain ⟨hg, st, hst, hsc, htab, hoth, -, htf, hfac⟩ := enum_build (patchVgs_ok hid hs Q P) hfg (by
      rw [flatList_ones]
      intro g hg
      obtain ⟨k, hk, rfl⟩ := List.mem_map.1 hg
      obtain ⟨k1, k2⟩ := mem_grid.1 hk
      refine enumGroup_valid _ _ _ _ (by simpa using grid_ne_nil hs.1 hs.2.1) (by simp [mgridConfigs]) ?_ ?_ ?_ ?_ ?_
      · exact List.ne_nil_of_mem ((mgrid_mem Q P [0, 0]).2 ⟨0, 0, hQ, hP, rfl⟩)
      · intro p' hp' v hv
        obtain ⟨p, hp, rfl⟩ := List.mem_map.1 hp'
        obtain ⟨p1, p2⟩ := mem_grid.1 hp
        simp only [patchScope, List.mem_cons, List.not_mem_nil, or_false] at hv
        rw [mem_patchVgs]
        rcases hv with rfl | rfl
        · exact .inr ⟨_, p1, _, p2, rfl⟩
        · exact .inl ⟨_, by omega, _, by omega, rfl⟩
      · intro p hp
        obtain ⟨p, hp, rfl⟩ := List.mem_map.1 hp
        rfl
      · intro p hp row hrow
        obtain ⟨p, hp, rfl⟩ := List.mem_map.1 hp
        obtain ⟨i, j, hi, hj, rfl⟩ := (mgrid_mem Q P row).1 hrow
        exact .cons hi (.cons hj .nil)
      · intro p hp
        obtain ⟨p, hp, rfl⟩ := List.mem_map.1 hp
        rw [patchData_length, mgrid_rows_length])
    (by
      rw [flatList_ones, List.map_map]
      have : (grid 3 3).map ((fun g : FGroup α => g.objId) ∘ patchGroup idX idZ idF h w Q P W) = (List.range 9).map idF := by
        rw [← grid_index 3 3, List.map_map]
        rfl
      rw [this]
      exact hF)
    (by rw [flatList_ones]; exact henum) garbage
  rw [flatList_ones] at hsc htab hfac
  refine ⟨_, st, rfl, rfl, hg, hst, ?_, ?_, hoth, htf, ?_⟩
  · rw [hsc, patchHist_scopes]
  · have := congrArg List.length htab
    rw [this, ← patchPlaces_length, List.flatMap_map, List.length_flatMap, patchPlaces, List.length_flatMap]
    simp [enumGroup]
  · rw [hfac, List.flatMap_map, patchPlaces, List.map_flatMap]
    congr 1
    funext k
    have := enumGroup_facs (idF (k.1 * 3 + k.2)) (.pairwise Q P) (mgridConfigs Q P)
      ((grid h w).map (fun p => (patchScope idX idZ h w Q P (k, p), patchData Q P W k))) (by
      intro p' hp'
      obtain ⟨p, -, rfl⟩ := List.mem_map.1 hp'
      rw [patchData_length, mgrid_rows_length])
    refine this.trans ?_
    rw [List.map_map, List.map_map]
    rfl

/-- What the program has set up. -/
structure PatchesReady [Field α] [LinearOrder α] (idX idZ h w Q P : Nat) (W E e : List α) (T : α) (garbage : Garbage) (s : PatchesSetup κ α) (hist : List (AddArg α))
    (st : FGState κ α) (state : BPState α) : Prop extends PatchesBuilt idX idZ h w Q P W garbage s.net hist st where
  bp : BP.create st state T = .ok s.bp
  pots : s.arrays.logPotentials = st.logPotentials
  msgs : s.arrays.ftovMsgs = List.replicate st.totalFactorNumStates 0
  len : s.arrays.evidence.length = st.numVarStates
  pixEv : ∀ a < h + 2, ∀ b < w + 2, ∀ t < P, readEv st.varsToStarts s.arrays.evidence (pixCell idX h w P a b) t = patchEv h w P E e a b t
  hidEv : ∀ r < h, ∀ c < w, ∀ t < Q, readEv st.varsToStarts s.arrays.evidence (hidCell idZ h w Q r c) t = 0

theorem patches_ready [DecidableEq κ] [Field α] [LinearOrder α] {idX idZ : Nat} (hid : idX % 2 ^ 32 ≠ idZ % 2 ^ 32) {idF : Nat → Nat} (hF : ((List.range 9).map idF).Nodup) {h w : Nat} (hs : PatchSizes h w)
    {Q P : Nat} (hQ : 1 ≤ Q) (hP : 1 ≤ P) (garbage : Garbage) (stateId : Nat) (W E e : List α) (hE : E.length = (h + 2) * (w + 2) * P) (he : e.length = P) (T : α) :
    ∃ s hist st state, (patchesSetup idX idZ idF garbage stateId h w Q P W ⟨[h + 2, w + 2, P], E⟩ ⟨[P], e⟩ T : Py (PatchesSetup κ α)) = .ok s ∧
      PatchesReady idX idZ h w Q P W E e T garbage s hist st state := by
  obtain ⟨fg, -, hr⟩ := patches_ok (κ := κ) hid idF hs Q P W
  obtain ⟨hist, st, hb⟩ := patches_build hid hF hs hQ hP W hr garbage
  have hst := hb.compiled
  obtain ⟨ev1, v1, v2, v3, v4⟩ := uniArr_evidence hst (List.replicate st.numVarStates (0 : α)) (by simp) idX [h + 2, w + 2] P (by simp) (by simp) E (by simpa using hE)
  have hl1 : ev1.length = st.numVarStates := by rw [v2]; simp
  have hread : ∀ (ev : List α) v x, ev.length = st.numVarStates → Evidence.getitem st ev v = .ok x → ∀ t < v.n, readEv st.varsToStarts ev v t = x.getD t 0 := by
    intro ev v x hl hx t ht
    have := C26_evidence hst ev hl v x hx t ht
    rw [List.getD_eq_getElem?_getD, this]
    rfl
  have hknown : ∀ ev v, v ∈ graphVars (patchVgs κ idX idZ h w Q P) → ∃ u, st.varsToStarts v = some u ∧ Evidence.getitem st ev v = .ok (slice ev u (u + v.n)) := by
    intro ev v hv
    obtain ⟨b1, -⟩ := hst.blocks
    simp only [graphVars, List.mem_toFinset, List.mem_flatMap] at hv
    obtain ⟨u, hu⟩ := (b1 v).2 hv
    refine ⟨u, hu, ?_⟩
    simp only [Evidence.getitem, StartMap.get, hu, bind, Except.bind, pure, Except.pure]
  have hpix : ∀ a < h + 2, ∀ b < w + 2, pixCell idX h w P a b ∈ graphVars (patchVgs κ idX idZ h w Q P) := fun a ha b hb => (mem_patchVgs _).2 (.inl ⟨a, ha, b, hb, rfl⟩)
  have hhid : ∀ r < h, ∀ c < w, hidCell idZ h w Q r c ∈ graphVars (patchVgs κ idX idZ h w Q P) := fun a ha b hb => (mem_patchVgs _).2 (.inr ⟨a, ha, b, hb, rfl⟩)
  obtain ⟨ev2, w1, w2, w3, w4⟩ := (C22_var hst ev1 hl1 (pixCell idX h w P 0 0) ⟨[P], e⟩ (by simp [NDArr.WF, he]) rfl).1 (by
    have := hpix 0 (by omega) 0 (by omega)
    simpa only [graphVars, List.mem_toFinset, List.mem_flatMap] using this)
  have hl2 : ev2.length = st.numVarStates := by rw [w2, hl1]
  have u1 : updateEvidence st (List.replicate st.numVarStates (0 : α)) [.group (.arr (uniArr idX [h + 2, w + 2] P)) (.arr ⟨[h + 2, w + 2, P], E⟩)] = .ok ev1 := by
    unfold updateEvidence
    rw [List.foldlM_cons, show (⟨[h + 2, w + 2, P], E⟩ : NDArr α) = ⟨[h + 2, w + 2] ++ [P], E⟩ from rfl, v1]
    rfl
  have u2 : updateEvidence st ev1 [.var (pixCell idX h w P 0 0) ⟨[P], e⟩] = .ok ev2 := by
    unfold updateEvidence
    rw [List.foldlM_cons, w1]
    rfl
  have hplaces : patchPlaces h w ≠ [] :=
    List.ne_nil_of_mem (mem_patchPlaces.2 ⟨⟨by norm_num, by norm_num⟩, hs.1, hs.2.1⟩ : ((0, 0), (0, 0)) ∈ patchPlaces h w)
  obtain ⟨bp, hbp⟩ := (C51_partial hst (⟨⟨stateId, st.logPotentials⟩, ⟨stateId, List.replicate st.totalFactorNumStates 0⟩, ⟨stateId, ev2⟩⟩ : BPState α) T).1.2 (by
    rw [hb.graph, hb.scopes]
    simpa using hplaces)
  have hkeep : ∀ v ∈ graphVars (patchVgs κ idX idZ h w Q P), v ≠ pixCell idX h w P 0 0 → ∀ t < v.n, readEv st.varsToStarts ev2 v t = readEv st.varsToStarts ev1 v t := by
    intro v hv hne t ht
    obtain ⟨u, -, hx⟩ := hknown ev1 v hv
    rw [hread ev2 v _ hl2 ((w4 v hne).trans hx) t ht, hread ev1 v _ hl1 hx t ht]
  refine ⟨⟨⟨uniArr idX [h + 2, w + 2] P, uniArr idZ [h, w] Q, fg⟩, bp, ⟨st.logPotentials, List.replicate st.totalFactorNumStates 0, ev2⟩⟩, hist, st, _, ?_, hb, hbp, rfl, rfl, hl2, ?_, ?_⟩
  · unfold patchesSetup
    rw [hr, py_ok_bind]
    dsimp only
    have h4 := hst.compiled
    rw [hb.graph] at h4
    rw [h4, py_ok_bind, show bpStateOf stateId st = .ok (⟨⟨stateId, st.logPotentials⟩, ⟨stateId, List.replicate st.totalFactorNumStates 0⟩,
      ⟨stateId, List.replicate st.numVarStates 0⟩⟩ : BPState α) by
      simp [bpStateOf, LogPotentials.create, FToVMessages.create, Evidence.create, BPState.create, bind, Except.bind], py_ok_bind]
    dsimp only
    unfold Evidence.setitem
    rw [u1]
    simp only [Part.assign, Part.assigned]
    have p1 := pixCell_at (h := h) (w := w) (a := 0) (b := 0) idX P (by omega) (by omega)
    have p2 := hidCell_at (a := 0) (b := 0) idZ Q hs.1 hs.2.1
    obtain ⟨_, _, g1⟩ := hknown ev2 _ (hpix 0 (by omega) 0 (by omega))
    obtain ⟨_, _, g2⟩ := hknown ev2 _ (hhid 0 hs.1 0 hs.2.1)
    rw [Nat.cast_zero] at p1 p2
    rw [py_ok_bind, p1, py_ok_bind, u2]
    dsimp only
    rw [py_ok_bind, g1, py_ok_bind, p2, py_ok_bind, g2, py_ok_bind, hbp, py_ok_bind, C43_init hbp]
    rfl
  · intro a ha b hb t ht
    dsimp only
    unfold patchEv
    by_cases h0 : a = 0 ∧ b = 0
    · rw [if_pos h0]
      obtain ⟨rfl, rfl⟩ := h0
      exact hread ev2 _ _ hl2 w3 t ht
    · rw [if_neg h0, hkeep _ (hpix a ha b hb) (fun e => h0 (pixCell_inj ha hb (by omega) (by omega) e)) t ht, v3 [a, b] (by simp [ha, hb]) t ht]
      unfold NDArr.read
      congr 1
      simp only [rowMajor, List.prod_cons, List.prod_nil]
      ring
  · intro r hr c hc t ht
    dsimp only
    have hne : hidCell idZ h w Q r c ≠ pixCell idX h w P 0 0 := hidCell_ne hid hs hr hc (by omega) (by omega)
    obtain ⟨u, hu, -⟩ := hknown ev1 _ (hhid r hr c hc)
    rw [hkeep _ (hhid r hr c hc) hne t ht, v4 _ u hu ?_ t ht]
    · simp [readEv, hu, List.getD_eq_getElem?_getD, List.getElem?_replicate]
      split <;> rfl
    · intro hm
      obtain ⟨a, ha, b, hb, e⟩ := ((isGrid_uniArr idX (h + 2) (w + 2) P).vars _).1 hm
      exact hidCell_ne hid hs hr hc ha hb e

end

end PGMax
