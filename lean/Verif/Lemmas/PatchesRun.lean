import Verif.Lemmas.Patches
import Verif.Lemmas.CutsRun
import Verif.Props.C104
import Verif.Props.C89
import Verif.Lemmas.Fixed

/-! Helper lemmas: belief propagation in the program with hidden variables over patches of an image. -/

namespace PGMax

section
variable {κ α : Type}

theorem patchScope_nodup {idX idZ h w Q P : Nat} (hid : idX % 2 ^ 32 ≠ idZ % 2 ^ 32) (hs : PatchSizes h w) {q : (Nat × Nat) × (Nat × Nat)} (hq : q ∈ patchPlaces h w) :
    (patchScope idX idZ h w Q P q).Nodup := by
  obtain ⟨⟨h1, h2⟩, h3, h4⟩ := mem_patchPlaces.1 hq
  simpa [patchScope] using hidCell_ne hid hs h3 h4 (c := q.2.1 + q.1.1) (d := q.2.2 + q.1.2) (by omega) (by omega)

/-- No variable is in more than nine factors. -/
theorem patch_degree {idX idZ h w Q P : Nat} (hid : idX % 2 ^ 32 ≠ idZ % 2 ^ 32) (hs : PatchSizes h w) {q : (Nat × Nat) × (Nat × Nat)} (hq : q ∈ patchPlaces h w) {v : Var}
    (hv : v ∈ patchScope idX idZ h w Q P q) : (edgesOf ((patchPlaces h w).map (patchScope idX idZ h w Q P)) v).length ≤ 9 := by
  rw [edgesOf_length, List.map_map]
  obtain ⟨⟨h1, h2⟩, h3, h4⟩ := mem_patchPlaces.1 hq
  have hg : (grid 3 3).length = 9 := rfl
  have hv' : v = hidCell idZ h w Q q.2.1 q.2.2 ∨ v = pixCell idX h w P (q.2.1 + q.1.1) (q.2.2 + q.1.2) := by simpa [patchScope] using hv
  rcases hv' with rfl | rfl
  · have := sum_count_le (patchPlaces h w) (patchPlaces_nodup h w) (patchScope idX idZ h w Q P) (fun p hp => patchScope_nodup hid hs hp) (hidCell idZ h w Q q.2.1 q.2.2)
      ((grid 3 3).map (fun k => (k, q.2))) (by
        intro p hp hmem
        obtain ⟨⟨p1, p2⟩, p3, p4⟩ := mem_patchPlaces.1 hp
        have hm : hidCell idZ h w Q q.2.1 q.2.2 = hidCell idZ h w Q p.2.1 p.2.2 ∨ hidCell idZ h w Q q.2.1 q.2.2 = pixCell idX h w P (p.2.1 + p.1.1) (p.2.2 + p.1.2) := by simpa [patchScope] using hmem
        rcases hm with e | e
        · obtain ⟨e1, e2⟩ := hidCell_inj h3 h4 p3 p4 e
          exact List.mem_map.2 ⟨p.1, mem_grid.2 ⟨p1, p2⟩, Prod.ext rfl (Prod.ext e1 e2)⟩
        · exact absurd e (hidCell_ne hid hs h3 h4 (by omega) (by omega)))
    rw [List.length_map, hg] at this
    exact this
  · have := sum_count_le (patchPlaces h w) (patchPlaces_nodup h w) (patchScope idX idZ h w Q P) (fun p hp => patchScope_nodup hid hs hp) (pixCell idX h w P (q.2.1 + q.1.1) (q.2.2 + q.1.2))
      ((grid 3 3).map (fun k => (k, (q.2.1 + q.1.1 - k.1, q.2.2 + q.1.2 - k.2)))) (by
        intro p hp hmem
        obtain ⟨⟨p1, p2⟩, p3, p4⟩ := mem_patchPlaces.1 hp
        have hm : pixCell idX h w P (q.2.1 + q.1.1) (q.2.2 + q.1.2) = hidCell idZ h w Q p.2.1 p.2.2 ∨
          pixCell idX h w P (q.2.1 + q.1.1) (q.2.2 + q.1.2) = pixCell idX h w P (p.2.1 + p.1.1) (p.2.2 + p.1.2) := by simpa [patchScope] using hmem
        rcases hm with e | e
        · exact absurd e.symm (hidCell_ne hid hs p3 p4 (by omega) (by omega))
        · obtain ⟨e1, e2⟩ := pixCell_inj (by omega) (by omega) (by omega) (by omega) e
          exact List.mem_map.2 ⟨p.1, mem_grid.2 ⟨p1, p2⟩, Prod.ext rfl (Prod.ext (by simp only; omega) (by simp only; omega))⟩)
    rw [List.length_map, hg] at this
    exact this

/-- At most eight messages go into a score. -/
theorem patch_inputs {idX idZ h w Q P : Nat} (hid : idX % 2 ^ 32 ≠ idZ % 2 ^ 32) (hs : PatchSizes h w) {vs : List Var} (hvs : vs ∈ (patchPlaces h w).map (patchScope idX idZ h w Q P)) (i : Nat)
    (hi : i < vs.length) : inputsBut ((patchPlaces h w).map (patchScope idX idZ h w Q P)) vs i ≤ 8 := by
  obtain ⟨q, hq, rfl⟩ := List.mem_map.1 hvs
  have h0 := patch_degree (Q := Q) (P := P) hid hs hq (v := hidCell idZ h w Q q.2.1 q.2.2) (by simp)
  have h1 := patch_degree (Q := Q) (P := P) hid hs hq (v := pixCell idX h w P (q.2.1 + q.1.1) (q.2.2 + q.1.2)) (by simp)
  have hi : i < 2 := hi
  unfold inputsBut
  generalize (patchPlaces h w).map (patchScope idX idZ h w Q P) = L at *
  interval_cases i
  · simp [List.range_succ]
    omega
  · simp [List.range_succ]
    omega

/-- Tables with all pairs of states are complete. -/
theorem mgrid_complete (v w : Var) (data : List α) (hd : data.length = v.n * w.n) : SFac.Complete (⟨[v, w], (mgridConfigs v.n w.n).rows.zip data⟩ : SFac α) := by
  have hl : (mgridConfigs v.n w.n).rows.length = v.n * w.n := by simp [mgridConfigs, Configs.rows, grid, List.length_flatMap]
  have hm : ((mgridConfigs v.n w.n).rows.zip data).map (·.1) = (mgridConfigs v.n w.n).rows := List.map_fst_zip (by omega)
  refine ⟨?_, fun c hc => ?_⟩
  · dsimp only
    rw [hm]
    exact mgrid_nodup _ _
  · cases hc with
    | cons h1 hc =>
      cases hc with
      | cons h2 hc =>
        cases hc
        rename_i s t
        have h3 := mgrid_getElem? v.n w.n s t h1 h2
        have h4 : s * w.n + t < data.length := by
          rw [hd]
          have := (List.getElem?_eq_some_iff.1 h3).1
          omega
        refine ⟨data[s * w.n + t], List.mem_of_getElem? (i := s * w.n + t) ?_⟩
        rw [List.getElem?_zip_eq_some]
        exact ⟨h3, List.getElem?_eq_getElem h4⟩

/-- The marginals of a two-dimensional array of variables. -/
theorem marginals_grid {B : Var → Nat → ℝ} (id M N K : Nat) (r : GroupMarginals κ ℝ) (hM : 1 ≤ M) (hN : 1 ≤ N) (hr : (VGroup.arr (uniArr id [M, N] K) : VGroup κ).HasMarginals B r) :
    ∃ m, r = .arr m ∧ HoldsGrid M N K m (fun a b t => gibbs (B (uniCell id [M, N] K [a, b])) K t) := by
  cases r with
  | dict => exact hr.elim
  | arr r =>
    obtain ⟨m, r0, r1, r2, r3⟩ := hr
    obtain rfl : m = K := by
      refine (List.mem_replicate.1 (r0.2 ?_)).2
      rw [← List.length_pos_iff_ne_nil]
      simp [uniArr]
      omega
    refine ⟨r, rfl, r2, r1, fun a ha b hb t ht => ?_⟩
    have hc : a * N + b < M * N := by nlinarith
    have := r3 (a * N + b) (uniCell id [M, N] m [a, b]) t (by
      rw [uniArr_getElem hc]
      simp [gPix, uniCell, rowMajor]) ht
    rw [if_pos (show t < (uniCell id [M, N] m [a, b]).n from ht)] at this
    rw [show rowMajor [M, N, m] [a, b, t] = (a * N + b) * m + t by simp [rowMajor]; ring]
    exact this

theorem uniArr_groups (id M N K : Nat) (hM : 1 ≤ M) (hN : 1 ≤ N) (hK : 2 ≤ K) : (VGroup.arr (uniArr id [M, N] K) : VGroup κ).Regular ∧ (VGroup.arr (uniArr id [M, N] K) : VGroup κ).Stated := by
  have hp : 0 < M * N := Nat.mul_pos hM hN
  constructor
  · intro hsum
    simp only [uniArr, List.sum_replicate, List.length_replicate, List.prod_cons, List.prod_nil, Nat.mul_one, smul_eq_mul] at hsum
    nlinarith
  · refine ⟨fun m hm => ?_, K, ?_, by omega⟩
    · have := (List.mem_replicate.1 hm).2
      omega
    · simp only [uniArr, List.prod_cons, List.prod_nil, Nat.mul_one]
      exact List.mem_replicate.2 ⟨by omega, rfl⟩

theorem patch_groups {idX idZ h w Q P : Nat} (hs : PatchSizes h w) (hQ : 2 ≤ Q) (hP : 2 ≤ P) :
    (∀ g ∈ patchVgs κ idX idZ h w Q P, g.Regular) ∧ ∀ g ∈ patchVgs κ idX idZ h w Q P, g.Stated := by
  simp only [List.mem_cons, List.not_mem_nil, or_false, forall_eq_or_imp, forall_eq]
  have h1 := uniArr_groups (κ := κ) idX (h + 2) (w + 2) P (by omega) (by omega) hP
  have h2 := uniArr_groups (κ := κ) idZ h w Q hs.1 hs.2.1 hQ
  exact ⟨⟨h1.1, h2.1⟩, h1.2, h2.2⟩

theorem patchData_read [Zero α] (Q P : Nat) (W : List α) (k : Nat × Nat) {z y : Nat} (hz : z < Q) (hy : y < P) :
    (patchData Q P W k)[z * P + y]? = some ((⟨[Q, P, 3, 3], W⟩ : NDArr α).read [z, y, k.1, k.2]) := by
  have := grid_getElem? (H := Q) (W := P) hz hy
  simp only [patchData, patchMatrix, List.getElem?_map, this, Option.map_some]
  simp [NDArr.read, rowMajor]
  ring_nf

/-- The rows of a factor. -/
theorem patchFac_row [Zero α] {idX idZ h w Q P : Nat} {W : List α} {q : (Nat × Nat) × (Nat × Nat)} {r : List Nat × α} (hr : r ∈ (patchFac idX idZ h w Q P W q).rows) :
    ∃ z < Q, ∃ y < P, r = ([z, y], (⟨[Q, P, 3, 3], W⟩ : NDArr α).read [z, y, q.1.1, q.1.2]) := by
  obtain ⟨c, hc⟩ := List.mem_iff_getElem?.1 hr
  obtain ⟨h1, h2⟩ := List.getElem?_zip_eq_some.1 hc
  obtain ⟨z, y, hz, hy, e⟩ := (mgrid_mem Q P r.1).1 (List.mem_of_getElem? h1)
  have h3 := mgrid_getElem? Q P z y hz hy
  rw [e, ← h3] at h1
  obtain ⟨h4, -⟩ := List.getElem?_eq_some_iff.1 h3
  have h5 : z * P + y = c := (List.getElem?_inj h4 (mgrid_nodup Q P)).1 h1.symm
  rw [← h5, patchData_read Q P W q.1 hz hy] at h2
  exact ⟨z, hz, y, hy, Prod.ext e (Option.some.inj h2).symm⟩

section
variable [Field α] [LinearOrder α] {idX idZ h w Q P : Nat} {W E e : List α} {T : α} {garbage : Garbage} {s : PatchesSetup κ α} {hist : List (AddArg α)} {st : FGState κ α} {state : BPState α}

theorem PatchesReady.edge (hr : PatchesReady idX idZ h w Q P W E e T garbage s hist st state) {f i : Nat} {v : Var} (he : IsEdge s.net.fg.allScopes f i v) :
    ∃ q, q ∈ patchPlaces h w ∧ v ∈ patchScope idX idZ h w Q P q := by
  obtain ⟨vs, h1, h2⟩ := he
  rw [hr.scopes] at h1
  obtain ⟨q, hq, rfl⟩ := List.mem_map.1 (List.mem_of_getElem? h1)
  exact ⟨q, hq, List.mem_of_getElem? h2⟩

theorem PatchesReady.states (hr : PatchesReady idX idZ h w Q P W E e T garbage s hist st state) :
    (s.net.fg.allScopes.map (fun vs => (vs.map (·.n)).sum)).sum = 9 * (h * w) * (Q + P) := by
  rw [hr.scopes, List.map_map]
  rw [List.map_congr_left (f := (fun vs : List Var => (vs.map (·.n)).sum) ∘ patchScope idX idZ h w Q P) (g := fun _ => Q + P) (fun q _ => by simp [patchScope, uniCell])]
  rw [List.map_const', List.sum_replicate, patchPlaces_length, smul_eq_mul]

theorem PatchesReady.fits (hr : PatchesReady idX idZ h w Q P W E e T garbage s hist st state) (env : Env α) (hsize : env.wrapNeg = false ∨ 9 * (h * w) * (Q + P) + max Q P ≤ 100000) : Fits env s.net.fg T := by
  refine ⟨hsize.imp_right fun hsz f i v he => ?_, fun _ => ?_⟩
  · obtain ⟨q, -, hv⟩ := hr.edge he
    have hn : v.n ≤ max Q P := by
      have hv' : v = hidCell idZ h w Q q.2.1 q.2.2 ∨ v = pixCell idX h w P (q.2.1 + q.1.1) (q.2.2 + q.1.2) := by simpa [patchScope] using hv
      rcases hv' with rfl | rfl
      · exact le_max_left _ _
      · exact le_max_right _ _
    rw [hr.states]
    omega
  · unfold FactorGraph.numParents
    rw [hr.others .or (by decide), hr.others .and (by decide)]
    simp

theorem PatchesReady.zero (hr : PatchesReady idX idZ h w Q P W E e T garbage s hist st state) (f i t : Nat) : readMsgs s.net.fg.allScopes s.arrays.ftovMsgs f i t = 0 := by
  rw [hr.msgs]
  unfold readMsgs
  rw [List.getD_eq_getElem?_getD, List.getElem?_replicate]
  split <;> rfl

theorem PatchesReady.msgLen (hr : PatchesReady idX idZ h w Q P W E e T garbage s hist st state) : s.arrays.ftovMsgs.length = st.totalFactorNumStates := by rw [hr.msgs]; simp

theorem PatchesReady.init [IsStrictOrderedRing α] (hr : PatchesReady idX idZ h w Q P W E e T garbage s hist st state) (hQ : 1 ≤ Q) (hP : 1 ≤ P) : ∀ f i v, IsEdge s.net.fg.allScopes f i v →
    ∃ t < v.n, -100000 ≤ readMsgs s.net.fg.allScopes s.arrays.ftovMsgs f i t := by
  intro f i v he
  obtain ⟨q, -, hv⟩ := hr.edge he
  refine ⟨0, ?_, by rw [hr.zero]; norm_num⟩
  have hv' : v = hidCell idZ h w Q q.2.1 q.2.2 ∨ v = pixCell idX h w P (q.2.1 + q.1.1) (q.2.2 + q.1.2) := by simpa [patchScope] using hv
  rcases hv' with rfl | rfl
  · exact hQ
  · exact hP

theorem PatchesReady.logical (hr : PatchesReady idX idZ h w Q P W E e T garbage s hist st state) (ev : Var → Nat → α) : LogicalModerate s.net.fg ev := by
  intro f vs hf hlt
  have := (List.getElem?_eq_some_iff.1 hf).1
  have h1 := congrArg List.length hr.scopes
  rw [List.length_map, patchPlaces_length] at h1
  have h2 := hr.tables
  omega

theorem PatchesReady.moderate [IsStrictOrderedRing α] (hid : idX % 2 ^ 32 ≠ idZ % 2 ^ 32) (hs : PatchSizes h w) (hr : PatchesReady idX idZ h w Q P W E e T garbage s hist st state)
    (hW : ∀ z < Q, ∀ y < P, ∀ k < 3, ∀ l < 3, |(⟨[Q, P, 3, 3], W⟩ : NDArr α).read [z, y, k, l]| ≤ 1000) (hE : ∀ a < h + 2, ∀ b < w + 2, ∀ t < P, |patchEv h w P E e a b t| ≤ 39000)
    {d : α} (hd : 0 ≤ d ∧ d ≤ 1 / 2) : Moderate s.net.fg s.arrays.logPotentials (readEv st.varsToStarts s.arrays.evidence) d := by
  refine moderate_of_bounds (E := 39000) (P := 1000) (D := 9) (K := 2) hd ?_ ?_ (by norm_num) ?_ (by norm_num)
  · intro f i v t hedge ht
    obtain ⟨q, hq, hv⟩ := hr.edge hedge
    obtain ⟨⟨q1, q2⟩, q3, q4⟩ := mem_patchPlaces.1 hq
    have hv' : v = hidCell idZ h w Q q.2.1 q.2.2 ∨ v = pixCell idX h w P (q.2.1 + q.1.1) (q.2.2 + q.1.2) := by simpa [patchScope] using hv
    rcases hv' with rfl | rfl
    · rw [hr.hidEv _ q3 _ q4 t ht, abs_zero]
      norm_num
    · rw [hr.pixEv _ (by omega) _ (by omega) t ht]
      exact hE _ (by omega) _ (by omega) t ht
  · intro f i v hedge
    obtain ⟨q, hq, hv⟩ := hr.edge hedge
    rw [hr.scopes]
    exact_mod_cast patch_degree hid hs hq hv
  · rw [← hr.facs, hr.pots, hr.factors]
    intro F hF
    obtain ⟨q, hq, rfl⟩ := List.mem_map.1 hF
    obtain ⟨⟨q1, q2⟩, -⟩ := mem_patchPlaces.1 hq
    refine ⟨by simp [patchScope], fun r hrow => ?_⟩
    obtain ⟨z, hz, y, hy, rfl⟩ := patchFac_row hrow
    exact hW z hz y hy _ q1 _ q2

end

/-! ### Sums over the factors of a variable -/

theorem sum_range_list {M β : Type _} [AddCommMonoid M] (l : List β) (G : Option β → M) : ∑ f ∈ Finset.range l.length, G l[f]? = (l.map (fun b => G (some b))).sum := by
  induction l with
  | nil => rfl
  | cons b l ih =>
    rw [List.length_cons, Finset.sum_range_succ', List.map_cons, List.sum_cons, add_comm]
    simp only [List.getElem?_cons_zero, List.getElem?_cons_succ]
    rw [ih]

/-- The terms of the factors of a variable. -/
theorem pairs_sum [Field α] {β : Type _} (l : List β) (c e : β → Var) (g : Msgs α) (A B : β → Nat → α) (hA : ∀ f b, l[f]? = some b → ∀ s, g f 0 s = A b s ∧ g f 1 s = B b s) (v : Var) (s : Nat) :
    ((edgesOf (l.map (fun b => [c b, e b])) v).map (fun x => g x.1 x.2 s)).sum = (l.map (fun b => (if c b = v then A b s else 0) + if e b = v then B b s else 0)).sum := by
  have h1 := sum_by_factors (l.map (fun b => [c b, e b])) (insert v ((l.map (fun b => [c b, e b])).flatten.toFinset)) (by
    intro vs hvs u hu
    exact Finset.mem_insert_of_mem (List.mem_toFinset.2 (List.mem_flatten.2 ⟨vs, hvs, hu⟩))) (fun f i u => if u = v then g f i s else 0)
  have h2 : ∀ u, ((edgesOf (l.map (fun b => [c b, e b])) u).map (fun x => if u = v then g x.1 x.2 s else 0)).sum =
      if u = v then ((edgesOf (l.map (fun b => [c b, e b])) v).map (fun x => g x.1 x.2 s)).sum else 0 := by
    intro u
    split
    · next h => subst h; rfl
    · simp
  rw [Finset.sum_congr rfl (fun u _ => h2 u), Finset.sum_ite_eq' _ v, if_pos (Finset.mem_insert_self _ _)] at h1
  rw [h1, List.length_map]
  refine Eq.trans ?_ (sum_range_list l (fun o => o.elim 0 (fun b => (if c b = v then A b s else 0) + if e b = v then B b s else 0)))
  refine Finset.sum_congr rfl fun f hf => ?_
  have hf := Finset.mem_range.1 hf
  have hb : l[f]? = some l[f] := List.getElem?_eq_getElem hf
  rw [hb, List.getD, List.getElem?_map, hb]
  obtain ⟨k1, k2⟩ := hA f _ hb s
  simp [Finset.sum_range_succ, k1, k2]

theorem sum_places {M : Type _} [AddCommMonoid M] (h w : Nat) (F : (Nat × Nat) × (Nat × Nat) → M) :
    ((patchPlaces h w).map F).sum = ∑ k ∈ Finset.range 3, ∑ l ∈ Finset.range 3, ∑ r ∈ Finset.range h, ∑ c ∈ Finset.range w, F ((k, l), (r, c)) := by
  rw [patchPlaces, List.map_flatMap, List.flatMap_def, List.sum_flatten, List.map_map, grid_sum]
  refine Finset.sum_congr rfl fun k _ => Finset.sum_congr rfl fun l _ => ?_
  simp only [Function.comp_apply, List.map_map]
  exact grid_sum h w _

/-- The terms of the factors at a position. -/
def patchTerms [Zero α] (h w : Nat) (A B : Nat → Nat → Nat → α) : Msgs α := fun f i s =>
  match (patchPlaces h w)[f]? with
  | none => 0
  | some q => if i = 0 then A q.1.1 q.1.2 s else B q.1.1 q.1.2 s

theorem pixel_sum [Field α] {idX idZ h w : Nat} (hid : idX % 2 ^ 32 ≠ idZ % 2 ^ 32) (hs : PatchSizes h w) (Q P : Nat) (A B : Nat → Nat → Nat → α) {a b : Nat} (ha : a < h + 2) (hb : b < w + 2) (t : Nat) :
    ((edgesOf ((patchPlaces h w).map (patchScope idX idZ h w Q P)) (pixCell idX h w P a b)).map (fun x => patchTerms h w A B x.1 x.2 t)).sum = pixelTerms h w B a b t := by
  rw [pairs_sum (patchPlaces h w) (fun q => hidCell idZ h w Q q.2.1 q.2.2) (fun q => pixCell idX h w P (q.2.1 + q.1.1) (q.2.2 + q.1.2)) (patchTerms h w A B)
    (fun q => A q.1.1 q.1.2) (fun q => B q.1.1 q.1.2) (fun f q hq s => by simp [patchTerms, hq]), sum_places]
  refine Finset.sum_congr rfl fun k hk => Finset.sum_congr rfl fun l hl => ?_
  have hk := Finset.mem_range.1 hk
  have hl := Finset.mem_range.1 hl
  have e : ∀ r ∈ Finset.range h, ∀ c ∈ Finset.range w, (if hidCell idZ h w Q r c = pixCell idX h w P a b then A k l t else 0) +
      (if pixCell idX h w P (r + k) (c + l) = pixCell idX h w P a b then B k l t else 0) = if r + k = a then if c + l = b then B k l t else 0 else 0 := by
    intro r hr c hc
    have hr := Finset.mem_range.1 hr
    have hc := Finset.mem_range.1 hc
    rw [if_neg (hidCell_ne hid hs hr hc ha hb), zero_add]
    by_cases h1 : r + k = a
    · by_cases h2 : c + l = b
      · rw [if_pos h1, if_pos h2, h1, h2, if_pos rfl]
      · rw [if_pos h1, if_neg h2, if_neg]
        exact fun e => h2 (pixCell_inj (by omega) (by omega) ha hb e).2
    · rw [if_neg h1, if_neg]
      exact fun e => h1 (pixCell_inj (by omega) (by omega) ha hb e).1
  dsimp only
  rw [Finset.sum_congr rfl (fun r hr => Finset.sum_congr rfl (fun c hc => e r hr c hc))]
  by_cases hab : k ≤ a ∧ l ≤ b ∧ a - k < h ∧ b - l < w
  · rw [if_pos hab, Finset.sum_eq_single (a - k), Finset.sum_eq_single (b - l), if_pos (by omega), if_pos (by omega)]
    · intro c _ hc
      rw [if_pos (by omega), if_neg (by omega)]
    · intro hc
      exact absurd (Finset.mem_range.2 hab.2.2.2) hc
    · intro r _ hr
      exact Finset.sum_eq_zero fun c _ => if_neg (by omega)
    · intro hr
      exact absurd (Finset.mem_range.2 hab.2.2.1) hr
  · rw [if_neg hab]
    refine Finset.sum_eq_zero fun r hr => Finset.sum_eq_zero fun c hc => ?_
    have hr := Finset.mem_range.1 hr
    have hc := Finset.mem_range.1 hc
    split
    · split
      · exact absurd ⟨by omega, by omega, by omega, by omega⟩ hab
      · rfl
    · rfl

theorem hidden_sum [Field α] {idX idZ h w : Nat} (hid : idX % 2 ^ 32 ≠ idZ % 2 ^ 32) (hs : PatchSizes h w) (Q P : Nat) (A B : Nat → Nat → Nat → α) {a b : Nat} (ha : a < h) (hb : b < w) (t : Nat) :
    ((edgesOf ((patchPlaces h w).map (patchScope idX idZ h w Q P)) (hidCell idZ h w Q a b)).map (fun x => patchTerms h w A B x.1 x.2 t)).sum = hiddenTerms A t := by
  rw [pairs_sum (patchPlaces h w) (fun q => hidCell idZ h w Q q.2.1 q.2.2) (fun q => pixCell idX h w P (q.2.1 + q.1.1) (q.2.2 + q.1.2)) (patchTerms h w A B)
    (fun q => A q.1.1 q.1.2) (fun q => B q.1.1 q.1.2) (fun f q hq s => by simp [patchTerms, hq]), sum_places]
  refine Finset.sum_congr rfl fun k hk => Finset.sum_congr rfl fun l hl => ?_
  have hk := Finset.mem_range.1 hk
  have hl := Finset.mem_range.1 hl
  have e : ∀ r ∈ Finset.range h, ∀ c ∈ Finset.range w, (if hidCell idZ h w Q r c = hidCell idZ h w Q a b then A k l t else 0) +
      (if pixCell idX h w P (r + k) (c + l) = hidCell idZ h w Q a b then B k l t else 0) = if r = a then if c = b then A k l t else 0 else 0 := by
    intro r hr c hc
    have hr := Finset.mem_range.1 hr
    have hc := Finset.mem_range.1 hc
    have hne : pixCell idX h w P (r + k) (c + l) ≠ hidCell idZ h w Q a b := fun e => hidCell_ne hid hs ha hb (c := r + k) (d := c + l) (by omega) (by omega) e.symm
    rw [if_neg hne, add_zero]
    by_cases h1 : r = a
    · by_cases h2 : c = b
      · rw [if_pos h1, if_pos h2, h1, h2, if_pos rfl]
      · rw [if_pos h1, if_neg h2, if_neg]
        exact fun e => h2 (hidCell_inj hr hc ha hb e).2
    · rw [if_neg h1, if_neg]
      exact fun e => h1 (hidCell_inj hr hc ha hb e).1
  dsimp only
  rw [Finset.sum_congr rfl (fun r hr => Finset.sum_congr rfl (fun c hc => e r hr c hc)), Finset.sum_eq_single a, Finset.sum_eq_single b, if_pos rfl, if_pos rfl]
  · intro c _ hc
    rw [if_pos rfl, if_neg hc]
  · intro hc
    exact absurd (Finset.mem_range.2 hb) hc
  · intro r _ hr
    exact Finset.sum_eq_zero fun c _ => if_neg hr
  · intro hr
    exact absurd (Finset.mem_range.2 ha) hr

end

end PGMax
