import Verif.Spec.Iso
import Verif.Lemmas.Same
import Verif.Lemmas.Moderate
import Verif.Lemmas.Floored

/-! Helper lemmas: belief propagation on isomorphic graphs. -/

namespace PGMax

variable {κ κ' α : Type _}

/-! ## Lists -/

theorem perm_range (π : Equiv.Perm Nat) (n : Nat) (h : ∀ i < n, π i < n) : ((List.range n).map π).Perm (List.range n) := by
  have hnd : ((List.range n).map π).Nodup := List.nodup_range.map π.injective
  have hsub : (List.range n).map π ⊆ List.range n := by
    intro x hx
    obtain ⟨i, hi, rfl⟩ := List.mem_map.1 hx
    exact List.mem_range.2 (h i (List.mem_range.1 hi))
  exact (List.subperm_of_subset hnd hsub).perm_of_length_le (by simp)

theorem perm_range_surj (π : Equiv.Perm Nat) (n : Nat) (h : ∀ i < n, π i < n) (j : Nat) (hj : j < n) : ∃ i < n, π i = j := by
  have := (perm_range π n h).mem_iff.2 (List.mem_range.2 hj)
  obtain ⟨i, hi, e⟩ := List.mem_map.1 this
  exact ⟨i, List.mem_range.1 hi, e⟩

theorem maxOf_mem_congr [LinearOrder α] [Field α] (d : α) {l l' : List α} (h : ∀ x, x ∈ l ↔ x ∈ l') : maxOf d l = maxOf d l' := by
  by_cases hl : l = []
  · subst hl
    have : l' = [] := List.eq_nil_iff_forall_not_mem.2 (fun x hx => by simpa using (h x).2 hx)
    rw [this]
  · have hl' : l' ≠ [] := by
      intro e
      subst e
      exact hl (List.eq_nil_iff_forall_not_mem.2 (fun x hx => by simpa using (h x).1 hx))
    obtain ⟨a1, a2⟩ := maxOf_spec d l hl
    obtain ⟨b1, b2⟩ := maxOf_spec d l' hl'
    exact le_antisymm (b2 _ ((h _).1 a1)) (a2 _ ((h _).2 b1))

theorem segM_perm [LinearOrder α] [Field α] {x x' : Nat → α} {n : Nat} (σ : Equiv.Perm Nat) (hσ : ∀ s, s < n ↔ σ s < n)
    (h : ∀ s < n, x' (σ s) = x s) (maxLen : Nat) (hn : n ≤ maxLen) : segM x' n maxLen = segM x n maxLen := by
  unfold segM
  apply maxOf_mem_congr
  intro y
  simp only [List.mem_map, List.mem_range]
  constructor
  · rintro ⟨j, hj, rfl⟩
    by_cases hjn : j < n
    · obtain ⟨i, hi, rfl⟩ := perm_range_surj σ n (fun i hi => (hσ i).1 hi) j hjn
      exact ⟨i, by omega, by rw [if_pos hi, if_pos hjn, h i hi]⟩
    · exact ⟨j, hj, by rw [if_neg hjn, if_neg hjn]⟩
  · rintro ⟨j, hj, rfl⟩
    by_cases hjn : j < n
    · have := (hσ j).1 hjn
      exact ⟨σ j, by omega, by rw [if_pos this, if_pos hjn, h j hjn]⟩
    · exact ⟨j, hj, by rw [if_neg hjn, if_neg hjn]⟩

theorem forall₂_filter {β γ : Type _} {P : β → γ → Prop} {p : β → Bool} {q : γ → Bool} {l : List β} {l' : List γ} (h : List.Forall₂ P l l')
    (hpq : ∀ a b, a ∈ l → P a b → p a = q b) : List.Forall₂ P (l.filter p) (l'.filter q) := by
  induction h with
  | nil => exact .nil
  | cons hab _ ih =>
    rename_i a b l l' _
    have e := hpq a b (by simp) hab
    have ih' := ih (fun a b ha => hpq a b (by simp [ha]))
    cases hq : q b with
    | true => rw [List.filter_cons_of_pos (by rw [e, hq]), List.filter_cons_of_pos hq]; exact .cons hab ih'
    | false => rw [List.filter_cons_of_neg (by rw [e, hq]; simp), List.filter_cons_of_neg (by rw [hq]; simp)]; exact ih'

theorem forall₂_map_eq {β γ δ : Type _} {P : β → γ → Prop} {f : β → δ} {g : γ → δ} {l : List β} {l' : List γ} (h : List.Forall₂ P l l')
    (hfg : ∀ a b, a ∈ l → P a b → f a = g b) : l.map f = l'.map g := by
  induction h with
  | nil => rfl
  | cons hab _ ih =>
    rename_i a b l l' _
    rw [List.map_cons, List.map_cons, hfg a b (by simp) hab, ih (fun a b ha => hfg a b (by simp [ha]))]

/-! ## Enumeration factors -/

section
variable [Field α] [LinearOrder α]

theorem scoreBut_perm {n : Nat} {π : Equiv.Perm Nat} (hπ : ∀ i < n, π i < n) {q q' : Nat → Nat → α} {i : Nat} {r r' : List Nat × α}
    (h2 : r'.2 = r.2) (h : ∀ j < n, q' (π j) (r'.1.getD (π j) 0) = q j (r.1.getD j 0)) : scoreBut n q' (π i) r' = scoreBut n q i r := by
  unfold scoreBut
  rw [h2]
  congr 1
  have hp := (perm_range π n hπ).filter (fun j => j ≠ π i)
  rw [← (hp.map (fun j => q' j (r'.1.getD j 0))).sum_eq, List.filter_map, List.map_map]
  have e : (List.range n).filter ((fun j => decide (j ≠ π i)) ∘ π) = (List.range n).filter (fun j => j ≠ i) := by
    apply List.filter_congr
    intro j _
    simp
  rw [e]
  congr 1
  apply List.map_congr_left
  intro j hj
  exact h j (by have := (List.mem_filter.1 hj).1; simpa using this)

theorem enumOut_iso (env : Env α) (T : α) {R : Renaming} {f : Nat} {F F' : SFac α} (hlen : F'.scope.length = F.scope.length)
    (hpos : ∀ i < F.scope.length, R.pos f i < F.scope.length)
    (hrow : ∀ r ∈ F.rows, List.Forall₂ (fun s (v : Var) => s < v.n) r.1 F.scope)
    (hl : ∃ l, l.Perm F'.rows ∧ List.Forall₂ (R.Row f F.scope) F.rows l) {q q' : Nat → Nat → α}
    (hq : ∀ (i : Nat) (v : Var) (s : Nat), F.scope[i]? = some v → s < v.n → q' (R.pos f i) (R.state v s) = q i s)
    (i s : Nat) (v : Var) (hi : F.scope[i]? = some v) (hs : s < v.n) :
    enumOut env T F' q' (R.pos f i) (R.state v s) = enumOut env T F q i s := by
  obtain ⟨l, hp, hf⟩ := hl
  have hsame : SFac.Same (⟨F'.scope, l⟩ : SFac α) F' := ⟨rfl, hp⟩
  rw [← enumOut_same env T hsame]
  have hil := (List.getElem?_eq_some_iff.1 hi).1
  have hrows : List.Forall₂ (R.Row f F.scope) (F.rowsAt i s) ((⟨F'.scope, l⟩ : SFac α).rowsAt (R.pos f i) (R.state v s)) := by
    unfold SFac.rowsAt
    apply forall₂_filter hf
    rintro r r' hr ⟨h1, h2, h3⟩
    have hll := (hrow r hr).length_eq
    have hir := List.getElem?_eq_getElem (show i < r.1.length by omega)
    rw [h3 i v _ hi hir, hir]
    simp
  have hscore : ∀ r r', r ∈ F.rowsAt i s → R.Row f F.scope r r' → scoreBut F.scope.length q' (R.pos f i) r' = scoreBut F.scope.length q i r := by
    rintro r r' hr ⟨h1, h2, h3⟩
    have hr' := hrow r (List.mem_filter.1 hr).1
    have hll := hr'.length_eq
    refine scoreBut_perm hpos h2 (fun j hj => ?_)
    obtain ⟨w, hw, hlt⟩ := forall₂_getElem? hr' (List.getElem?_eq_getElem (show j < r.1.length by omega))
    have hjr := List.getElem?_eq_getElem (show j < r.1.length by omega)
    rw [getD_of_some (h3 j w _ hw hjr), getD_of_some hjr]
    exact hq j w _ hw hlt
  have hqi := hq i v s hi hs
  have e1 : (F.rowsAt i s).map (fun r => scoreBut F.scope.length q i r + q i s) =
      ((⟨F'.scope, l⟩ : SFac α).rowsAt (R.pos f i) (R.state v s)).map (fun r => scoreBut F'.scope.length q' (R.pos f i) r + q' (R.pos f i) (R.state v s)) :=
    forall₂_map_eq hrows (fun r r' hr hrr => by rw [hlen, hscore r r' hr hrr, hqi])
  have e2 : ∀ M, (F.rowsAt i s).map (fun r => env.exp ((scoreBut F.scope.length q i r + q i s - M) / T)) =
      ((⟨F'.scope, l⟩ : SFac α).rowsAt (R.pos f i) (R.state v s)).map (fun r => env.exp ((scoreBut F'.scope.length q' (R.pos f i) r + q' (R.pos f i) (R.state v s) - M) / T)) :=
    fun M => forall₂_map_eq hrows (fun r r' hr hrr => by rw [hlen, hscore r r' hr hrr, hqi])
  unfold enumOut
  simp only
  rw [← e1, ← e2, hqi]

/-! ## OR and AND factors -/

variable [IsStrictOrderedRing α]

/-- The position of the maximum, if some number exceeds the floor. -/
theorem argL_above {n : Nat} {g : Nat → α} {k : Nat} (hk : k < n) (hg : NEG_INF < g k) :
    argL ((List.range n).map g) < n ∧ NEG_INF < g (argL ((List.range n).map g)) ∧ (∀ j < n, g j ≤ g (argL ((List.range n).map g))) := by
  have hne : (List.range n).map g ≠ [] := by intro h; have := congrArg List.length h; simp at this; omega
  obtain ⟨h1, h2⟩ : LocalArg ((List.range n).map g) (argL ((List.range n).map g)) := by
    rw [argL_eq_lastTop hne]; exact lastTop_local hne
  generalize argL ((List.range n).map g) = J at h1 h2
  simp only [List.length_map, List.length_range] at h1 h2
  obtain ⟨a1, a2, a3⟩ := foldl_max_eq ((List.range n).map g) NEG_INF
  have hgk := a2 (g k) (List.mem_map.2 ⟨k, List.mem_range.2 hk, rfl⟩)
  have hmem : ((List.range n).map g).foldl max NEG_INF ∈ (List.range n).map g := by
    rcases a3 with a3 | a3
    · exfalso
      rw [a3] at hgk
      exact absurd hg (not_lt.2 hgk)
    · exact a3
  refine ⟨h1, ?_⟩
  rcases h2 with ⟨h2, -⟩ | ⟨h2, -⟩
  · rw [List.getElem?_map, List.getElem?_range h1, Option.map_some] at h2
    rw [Option.some.inj h2]
    exact ⟨lt_of_lt_of_le hg hgk, fun j hj => a2 _ (List.mem_map.2 ⟨j, List.mem_range.2 hj, rfl⟩)⟩
  · exact absurd hmem h2

theorem maxC_above {n : Nat} (hn : 0 < n) {g : Nat → α} (hg : ∀ j < n, NEG_INF < g j) :
    ∃ k < n, (∀ j < n, g j ≤ g k) ∧ maxC ((List.range n).map g) = (((List.range n).map g).map (fun x => max 0 x)).sum + min 0 (g k) := by
  obtain ⟨h1, -, h2⟩ := argL_above (g := g) hn (hg 0 hn)
  refine ⟨_, h1, h2, ?_⟩
  rw [maxC, getD_of_some (show ((List.range n).map g)[argL ((List.range n).map g)]? = some (g (argL ((List.range n).map g))) by
    rw [List.getElem?_map, List.getElem?_range h1]; rfl)]

theorem maxP_above {n : Nat} (hn : 2 ≤ n) {g : Nat → α} (hg : ∀ j < n, NEG_INF < g j) (y : α) {i : Nat} (hi : i < n) :
    ∃ k < n, k ≠ i ∧ (∀ j < n, j ≠ i → g j ≤ g k) ∧
      maxP ((List.range n).map g) y i = min (y + (((List.range n).map g).map (fun x => max 0 x)).sum - max 0 (g i)) (max 0 (-(g k))) := by
  have hat : ∀ j < n, ((List.range n).map g).getD j 0 = g j := fun j hj =>
    getD_of_some (by rw [List.getElem?_map, List.getElem?_range hj]; rfl)
  obtain ⟨h1, -, h2⟩ := argL_above (g := g) (show 0 < n by omega) (hg 0 (by omega))
  by_cases hia : i = argL ((List.range n).map g)
  · have hset : ((List.range n).map g).set i NEG_INF = (List.range n).map (fun j => if j = i then NEG_INF else g j) := by
      apply List.ext_getElem?
      intro j
      rw [List.getElem?_set, List.length_map, List.length_range, List.getElem?_map, List.getElem?_map]
      by_cases hj : j < n
      · rw [List.getElem?_range hj]
        by_cases hij : i = j
        · subst hij; simp [hj]
        · rw [if_neg hij]; simp [Ne.symm hij]
      · rw [List.getElem?_eq_none (show (List.range n).length ≤ j by simpa using hj)]
        by_cases hij : i = j
        · omega
        · rw [if_neg hij]; rfl
    obtain ⟨k0, hk0, hk0i⟩ : ∃ k0 < n, k0 ≠ i := by
      by_cases h0 : i = 0
      · exact ⟨1, by omega, by omega⟩
      · exact ⟨0, by omega, by omega⟩
    obtain ⟨b1, b2, b3⟩ := argL_above (g := fun j => if j = i then NEG_INF else g j) hk0 (by rw [if_neg hk0i]; exact hg k0 hk0)
    rw [← hset] at b1 b2 b3
    have hne : argL (((List.range n).map g).set i NEG_INF) ≠ i := by
      intro e
      rw [if_pos e] at b2
      exact lt_irrefl _ b2
    refine ⟨_, b1, hne, fun j hj hji => ?_, ?_⟩
    · have := b3 j hj
      rwa [if_neg hji, if_neg hne] at this
    · rw [maxP, if_pos hia, ← hia, hat i hi, hat _ b1]
  · refine ⟨_, h1, Ne.symm hia, fun j hj _ => h2 j hj, ?_⟩
    rw [maxP, if_neg hia, hat i hi, hat _ h1]

/-- The differences of the incoming messages, permuted. -/
theorem logicalOut_perm (env : Env α) (T : α) {n : Nat} (hn : 0 < n) {π : Equiv.Perm Nat} (hπ : ∀ i < n, π i < n) {g g' : Nat → α}
    (hg : ∀ j < n, g' (π j) = g j) (hok : T = 0 → (∀ i < n, π i = i) ∨ ∀ j < n, NEG_INF < g j) (y : α) (i i' : Nat)
    (hi : i' = if i < n then π i else n) :
    logicalOut env T ((List.range n).map g') y i' = logicalOut env T ((List.range n).map g) y i := by
  have hat : ∀ (g : Nat → α), ∀ j < n, ((List.range n).map g).getD j 0 = g j := fun g j hj =>
    getD_of_some (by rw [List.getElem?_map, List.getElem?_range hj]; rfl)
  have hperm : ((List.range n).map g').Perm ((List.range n).map g) := by
    have := (perm_range π n hπ).map g'
    rw [List.map_map] at this
    refine this.symm.trans (List.Perm.of_eq ?_)
    exact List.map_congr_left (fun j hj => hg j (List.mem_range.1 hj))
  have hsum : ∀ (u : α → α), (((List.range n).map g').map u).sum = (((List.range n).map g).map u).sum := fun u => (hperm.map u).sum_eq
  have hsurj := perm_range_surj π n hπ
  unfold logicalOut
  simp only [List.length_map, List.length_range]
  have hlt : i' < n ↔ i < n := by
    rw [hi]
    by_cases h : i < n
    · rw [if_pos h]; exact ⟨fun _ => h, fun _ => hπ i h⟩
    · rw [if_neg h]; omega
  by_cases h : i < n
  · rw [if_pos h, if_pos (hlt.2 h)]
    rw [if_pos h] at hi
    subst hi
    by_cases h1 : n = 1
    · rw [if_pos h1, if_pos h1]
    · rw [if_neg h1, if_neg h1]
      by_cases hT : T = 0
      · rw [if_pos hT, if_pos hT]
        rcases hok hT with hid | hab
        · have : (List.range n).map g' = (List.range n).map g := by
            apply List.map_congr_left
            intro j hj
            have := hg j (List.mem_range.1 hj)
            rwa [hid j (List.mem_range.1 hj)] at this
          rw [this, hid i h]
        · have hab' : ∀ j < n, NEG_INF < g' j := by
            intro j hj
            obtain ⟨k, hk, rfl⟩ := hsurj j hj
            rw [hg k hk]; exact hab k hk
          obtain ⟨k, hk, hki, hkm, e⟩ := maxP_above (show 2 ≤ n by omega) hab y h
          obtain ⟨k', hk', hki', hkm', e'⟩ := maxP_above (show 2 ≤ n by omega) hab' y (hπ i h)
          rw [e, e', hsum, hg i h]
          have : g' k' = g k := by
            apply le_antisymm
            · obtain ⟨l, hl, rfl⟩ := hsurj k' hk'
              rw [hg l hl]
              exact hkm l hl (fun e => hki' (by rw [e]))
            · rw [← hg k hk]
              exact hkm' _ (hπ k hk) (fun e => hki (π.injective e))
          rw [this]
      · rw [if_neg hT, if_neg hT]
        unfold sumP
        rw [hsum, hat g' _ (hπ i h), hat g i h, hg i h]
  · rw [if_neg h, if_neg (fun h' => h (hlt.1 h'))]
    by_cases hT : T = 0
    · rw [if_pos hT, if_pos hT]
      rcases hok hT with hid | hab
      · have : (List.range n).map g' = (List.range n).map g := by
          apply List.map_congr_left
          intro j hj
          have := hg j (List.mem_range.1 hj)
          rwa [hid j (List.mem_range.1 hj)] at this
        rw [this]
      · have hab' : ∀ j < n, NEG_INF < g' j := by
          intro j hj
          obtain ⟨k, hk, rfl⟩ := hsurj j hj
          rw [hg k hk]; exact hab k hk
        obtain ⟨k, hk, hkm, e⟩ := maxC_above hn hab
        obtain ⟨k', hk', hkm', e'⟩ := maxC_above hn hab'
        rw [e, e', hsum]
        have : g' k' = g k := by
          apply le_antisymm
          · obtain ⟨l, hl, rfl⟩ := hsurj k' hk'
            rw [hg l hl]
            exact hkm l hl
          · rw [← hg k hk]
            exact hkm' _ (hπ k hk)
        rw [this]
    · rw [if_neg hT, if_neg hT]
      unfold sumC
      rw [hsum]

theorem lgOut_iso (env : Env α) (T : α) {R : Renaming} {f rel rel' : Nat} {F F' : SFac α} (hrel : rel < 2) (hrel' : rel' < 2)
    (hlen : F'.scope.length = F.scope.length) (hsc : LogicalScope F.scope)
    (hpos : ∀ i < F.scope.length, R.pos f i < F.scope.length)
    (hchild : R.pos f (F.scope.length - 1) = F.scope.length - 1)
    (hst : ∀ v ∈ F.scope, (∀ s, s < v.n ↔ R.state v s < v.n) ∧ R.state v rel = rel')
    {q q' : Nat → Nat → α}
    (hq : ∀ (i : Nat) (v : Var) (s : Nat), F.scope[i]? = some v → s < v.n → q' (R.pos f i) (R.state v s) = q i s)
    (hok : T = 0 → (∀ i < F.scope.length, R.pos f i = i) ∨ ∀ j < F.scope.length - 1, NEG_INF < q j (1 - rel) - q j rel)
    (i s : Nat) (v : Var) (hi : F.scope[i]? = some v) (hs : s < v.n) :
    lgOut env T rel' (F'.scope.length - 1) q' (R.pos f i) (R.state v s) = lgOut env T rel (F.scope.length - 1) q i s := by
  obtain ⟨hl, h2⟩ := hsc
  have hflip : ∀ v ∈ F.scope, R.state v (1 - rel) = 1 - rel' := by
    intro v hv
    obtain ⟨a, b⟩ := hst v hv
    have hv2 := h2 v hv
    have h1 := (a (1 - rel)).1 (by omega)
    have hne : R.state v (1 - rel) ≠ R.state v rel := fun e => by
      have := (R.state v).injective e
      omega
    omega
  have hqd : ∀ j < F.scope.length, q' (R.pos f j) (1 - rel') = q j (1 - rel) ∧ q' (R.pos f j) rel' = q j rel := by
    intro j hj
    have hjs := List.getElem?_eq_getElem hj
    have hm := List.getElem_mem hj
    have hv2 := h2 _ hm
    rw [← hflip _ hm, ← (hst _ hm).2]
    exact ⟨hq j _ _ hjs (by omega), hq j _ _ hjs (by omega)⟩
  have hvm := List.mem_of_getElem? hi
  have hil := (List.getElem?_eq_some_iff.1 hi).1
  have hv2 := h2 v hvm
  unfold lgOut
  have hsr : R.state v s = rel' ↔ s = rel := by
    rw [← (hst v hvm).2]; exact (R.state v).injective.eq_iff
  by_cases hsr' : s = rel
  · rw [if_pos hsr', if_pos (hsr.2 hsr')]
  · rw [if_neg hsr', if_neg (fun h => hsr' (hsr.1 h)), hlen]
    have hc := hqd (F.scope.length - 1) (by omega)
    rw [hchild] at hc
    rw [hc.1, hc.2]
    have hpp : ∀ j < F.scope.length - 1, R.pos f j < F.scope.length - 1 := by
      intro j hj
      have h1 := hpos j (by omega)
      have hne : R.pos f j ≠ R.pos f (F.scope.length - 1) := fun e => by
        have := (R.pos f).injective e
        omega
      omega
    refine logicalOut_perm env T (by omega) (π := R.pos f) hpp ?_ ?_ _ i _ ?_
    · intro j hj
      obtain ⟨a, b⟩ := hqd j (by omega)
      rw [a, b]
    · intro hT
      rcases hok hT with h | h
      · exact .inl (fun i hi => h i (by omega))
      · exact .inr h
    · by_cases h : i < F.scope.length - 1
      · rw [if_pos h]
      · rw [if_neg h, show i = F.scope.length - 1 by omega, hchild]

/-! ## Graphs -/

variable {R : Renaming} {fg : FactorGraph κ α} {fg' : FactorGraph κ' α} {lp lp' : List α} {vars vars' : Finset Var}

omit [LinearOrder α] [IsStrictOrderedRing α] in
theorem Renaming.Iso.pos_lt (h : R.Iso fg fg' lp lp') {f : Nat} {vs : List Var} (hf : fg.allScopes[f]? = some vs) (i : Nat) (hi : i < vs.length) :
    R.pos f i < vs.length := by
  obtain ⟨ws, h1, h2⟩ := h.scopes f i _ ⟨vs, hf, List.getElem?_eq_getElem hi⟩
  have := h.lengths f vs ws hf h1
  have := (List.getElem?_eq_some_iff.1 h2).1
  omega

omit [LinearOrder α] [IsStrictOrderedRing α] in
theorem Renaming.Iso.edge_surj (h : R.Iso fg fg' lp lp') {f' i' : Nat} {w : Var} (he : IsEdge fg'.allScopes f' i' w) :
    ∃ f i v, IsEdge fg.allScopes f i v ∧ f' = R.fac f ∧ i' = R.pos f i ∧ w = R.var v := by
  have he0 := he
  obtain ⟨ws, h1, h2⟩ := he
  have hf' := (List.getElem?_eq_some_iff.1 h1).1
  have hf : R.fac.symm f' < fg.allScopes.length := (h.facs _).2 (by rw [Equiv.apply_symm_apply]; exact hf')
  generalize hfe : R.fac.symm f' = f at hf
  have hff : f' = R.fac f := by rw [← hfe, Equiv.apply_symm_apply]
  have hsc := List.getElem?_eq_getElem hf
  have hl := h.lengths f _ ws hsc (by rw [← hff]; exact h1)
  obtain ⟨i, hi, hie⟩ := perm_range_surj (R.pos f) _ (h.pos_lt hsc) i' (by have := (List.getElem?_eq_some_iff.1 h2).1; omega)
  have hed : IsEdge fg.allScopes f i _ := ⟨_, hsc, List.getElem?_eq_getElem hi⟩
  refine ⟨f, i, _, hed, hff, hie.symm, ?_⟩
  have := h.scopes f i _ hed
  rw [← hff, hie] at this
  exact he0.unique this

omit [LinearOrder α] [IsStrictOrderedRing α] in
theorem Renaming.Iso.edges (h : R.Iso fg fg' lp lp') (hv : R.VarsOk vars vars') (hin : ∀ f i v, IsEdge fg.allScopes f i v → v ∈ vars) (v : Var) (hvv : v ∈ vars) :
    ((edgesOf fg.allScopes v).map (fun e => (R.fac e.1, R.pos e.1 e.2))).Perm (edgesOf fg'.allScopes (R.var v)) := by
  have hinj : Function.Injective (fun e : Nat × Nat => (R.fac e.1, R.pos e.1 e.2)) := by
    rintro ⟨a, b⟩ ⟨c, d⟩ hh
    simp only [Prod.mk.injEq, EmbeddingLike.apply_eq_iff_eq] at hh
    obtain ⟨rfl, h2⟩ := hh
    rw [(R.pos a).injective h2]
  rw [List.perm_ext_iff_of_nodup ((edgesOf_nodup _ _).map hinj) (edgesOf_nodup _ _)]
  rintro ⟨f', i'⟩
  rw [List.mem_map, mem_edgesOf]
  constructor
  · rintro ⟨⟨f, i⟩, he, heq⟩
    simp only [Prod.mk.injEq] at heq
    obtain ⟨rfl, rfl⟩ := heq
    exact h.scopes f i v ((mem_edgesOf _ _ _ _).1 he)
  · intro he
    obtain ⟨f, i, w, hw, rfl, rfl, hvw⟩ := h.edge_surj he
    have : v = w := hv.inj v hvv w (hin _ _ _ hw) hvw
    subst this
    exact ⟨(f, i), (mem_edgesOf _ _ _ _).2 hw, rfl⟩

omit [LinearOrder α] [IsStrictOrderedRing α] in
theorem Renaming.Iso.beliefOf (h : R.Iso fg fg' lp lp') (hv : R.VarsOk vars vars') (hin : ∀ f i v, IsEdge fg.allScopes f i v → v ∈ vars)
    {ev ev' : Var → Nat → α} (hev : R.SameVals vars ev ev') {m m' : Msgs α} (hm : R.SameMsgs fg.allScopes m m') :
    R.SameVals vars (PGMax.beliefOf fg.allScopes ev m) (PGMax.beliefOf fg'.allScopes ev' m') := by
  intro v hvv s hs
  unfold PGMax.beliefOf
  rw [hev v hvv s hs, ← ((h.edges hv hin v hvv).map (fun e => m' e.1 e.2 (R.state v s))).sum_eq, List.map_map]
  congr 2
  apply List.map_congr_left
  rintro ⟨f, i⟩ he
  exact hm f i v s ((mem_edgesOf _ _ _ _).1 he) hs

omit [LinearOrder α] [IsStrictOrderedRing α] in
theorem Renaming.Iso.varToFac (h : R.Iso fg fg' lp lp') (hv : R.VarsOk vars vars') (hin : ∀ f i v, IsEdge fg.allScopes f i v → v ∈ vars)
    {ev ev' : Var → Nat → α} (hev : R.SameVals vars ev ev') {m m' : Msgs α} (hm : R.SameMsgs fg.allScopes m m') (v : Var) (hvv : v ∈ vars)
    (f i s : Nat) (hs : s < v.n) :
    varToFac fg'.allScopes ev' m' (R.var v) (R.fac f, R.pos f i) (R.state v s) = varToFac fg.allScopes ev m v (f, i) s := by
  unfold PGMax.varToFac
  rw [hev v hvv s hs, ← (((h.edges hv hin v hvv).filter (fun e' => e' ≠ (R.fac f, R.pos f i))).map (fun e => m' e.1 e.2 (R.state v s))).sum_eq,
    List.filter_map, List.map_map]
  congr 2
  have : (edgesOf fg.allScopes v).filter ((fun e' => decide (e' ≠ (R.fac f, R.pos f i))) ∘ fun e => (R.fac e.1, R.pos e.1 e.2)) =
      (edgesOf fg.allScopes v).filter (fun e' => e' ≠ (f, i)) := by
    apply List.filter_congr
    rintro ⟨a, b⟩ -
    simp only [Function.comp_apply, ne_eq, Prod.mk.injEq, EmbeddingLike.apply_eq_iff_eq, decide_not]
    congr 1
    rw [decide_eq_decide]
    constructor
    · rintro ⟨rfl, h2⟩; exact ⟨rfl, (R.pos a).injective h2⟩
    · rintro ⟨rfl, rfl⟩; exact ⟨rfl, rfl⟩
  rw [this]
  apply List.map_congr_left
  rintro ⟨f', i'⟩ he
  exact hm f' i' v s ((mem_edgesOf _ _ _ _).1 (List.mem_filter.1 he).1) hs

omit [IsStrictOrderedRing α] in
theorem Renaming.Iso.normM (h : R.Iso fg fg' lp lp') (hv : R.VarsOk vars vars') (hin : ∀ f i v, IsEdge fg.allScopes f i v → v ∈ vars)
    {maxLen : Nat} (hmax : ∀ f i v, IsEdge fg.allScopes f i v → v.n ≤ maxLen) {m m' : Msgs α} (hm : R.SameMsgs fg.allScopes m m') :
    R.SameMsgs fg.allScopes (PGMax.normM fg.allScopes maxLen m) (PGMax.normM fg'.allScopes maxLen m') := by
  intro f i v s he hs
  have hvv := hin f i v he
  rw [normM_at he, normM_at (h.scopes f i v he), hm f i v s he hs, hv.size v hvv,
    segM_perm (R.state v) (hv.states v hvv) (fun j hj => hm f i v j he hj) maxLen (hmax f i v he)]

omit [LinearOrder α] [IsStrictOrderedRing α] in
theorem Renaming.Iso.restLt (fg : FactorGraph κ α) (f : Nat) : fg.restState f < 2 := by
  unfold FactorGraph.restState; split <;> omega

/-- The preferences of the parents stay above the floor. -/
theorem pull_above {ev : Var → Nat → α} {m : Msgs α} (hc : Clipped fg.allScopes m) {f i a b : Nat} {v : Var} (he : IsEdge fg.allScopes f i v)
    (ha : a < v.n) (hb : b < v.n) (hev : 1000 * ((edgesOf fg.allScopes v).length : α) - 100000 ≤ ev v a - ev v b) :
    NEG_INF < PGMax.varToFac fg.allScopes ev m v (f, i) a - PGMax.varToFac fg.allScopes ev m v (f, i) b := by
  unfold PGMax.varToFac
  have hsub : ((edgesOf fg.allScopes v).filter (fun e' => e' ≠ (f, i))).Sublist (edgesOf fg.allScopes v) := List.filter_sublist
  have hlt : ((edgesOf fg.allScopes v).filter (fun e' => e' ≠ (f, i))).length < (edgesOf fg.allScopes v).length := by
    rw [List.length_filter_lt_length_iff_exists]
    exact ⟨(f, i), (mem_edgesOf _ _ _ _).2 he, by simp⟩
  have key : ∀ l : List (Nat × Nat), l.Sublist (edgesOf fg.allScopes v) →
      -(1000 * (l.length : α)) ≤ (l.map (fun e => m e.1 e.2 a)).sum - (l.map (fun e => m e.1 e.2 b)).sum := by
    intro l
    induction l with
    | nil => intro _; simp
    | cons e l ih =>
      intro hl
      have i1 := ih ((List.sublist_cons_self e l).trans hl)
      have hee := (mem_edgesOf _ _ _ _).1 (hl.subset (show e ∈ e :: l by simp))
      have c1 := hc _ _ _ _ hee ha
      have c2 := hc _ _ _ _ hee hb
      simp only [List.map_cons, List.sum_cons, List.length_cons]
      push_cast
      linarith [c1.1, c2.2]
  have hk := key _ hsub
  have hlt' : ((((edgesOf fg.allScopes v).filter (fun e' => e' ≠ (f, i))).length : ℕ) : α) < ((edgesOf fg.allScopes v).length : α) := by exact_mod_cast hlt
  have N : (NEG_INF : α) = -100000 := neg_inf_eq
  rw [N]
  linarith

theorem Renaming.Iso.stepM (h : R.Iso fg fg' lp lp') (hv : R.VarsOk vars vars') (hin : ∀ f i v, IsEdge fg.allScopes f i v → v ∈ vars)
    {maxLen : Nat} (hmax : ∀ f i v, IsEdge fg.allScopes f i v → v.n ≤ maxLen)
    (hok : ∀ f F, (fg.factors lp)[f]? = some F → FacOk (fg.kind f) F) (env : Env α) (T : α)
    {ev ev' : Var → Nat → α} (hev : R.SameVals vars ev ev') (hord : T = 0 → R.OrderOk fg ev) (d : α) {m m' : Msgs α} (hc : Clipped fg.allScopes m)
    (hm : R.SameMsgs fg.allScopes m m') :
    R.SameMsgs fg.allScopes (PGMax.stepM env T fg maxLen lp ev d m) (PGMax.stepM env T fg' maxLen lp' ev' d m') := by
  apply h.normM hv hin hmax
  intro f i v s he hs
  obtain ⟨F, hF, hi, hsc⟩ := fg.factors_edge lp he
  obtain ⟨F', hF', hi', hsc'⟩ := fg'.factors_edge lp' (h.scopes f i v he)
  have hlen := h.lengths f _ _ hsc hsc'
  have hq : ∀ (j : Nat) (w : Var) (t : Nat), F.scope[j]? = some w → t < w.n →
      vtofM fg'.allScopes ev' m' (R.fac f) (R.pos f j) (R.state w t) = vtofM fg.allScopes ev m f j t := by
    intro j w t hj ht
    have he' : IsEdge fg.allScopes f j w := ⟨_, hsc, hj⟩
    rw [vtofM_at he', vtofM_at (h.scopes f j w he')]
    exact h.varToFac hv hin hev hm w (hin _ _ _ he') f j t ht
  simp only
  rw [hm f i v s he hs, rawM_at _ _ hF, rawM_at _ _ hF']
  congr 3
  have hFok := hok f F hF
  unfold FactorGraph.kind at hFok ⊢
  rw [tables_length] at hFok ⊢
  rw [tables_length]
  by_cases hf : f < (fg.scopesOf .enum).length
  · rw [if_pos hf] at hFok ⊢
    rw [if_pos ((h.enums f).1 hf)]
    exact enumOut_iso env T hlen (h.pos_lt hsc) hFok (h.rows f F F' hf hF hF') hq i s v hi hs
  · rw [if_neg hf] at hFok ⊢
    rw [if_neg (fun h' => hf ((h.enums f).2 h'))]
    obtain ⟨c1, c2⟩ := h.logical f F.scope (by omega) hsc
    refine lgOut_iso env T hFok.1 (Renaming.Iso.restLt fg' _) hlen hFok.2 (h.pos_lt hsc) c1 ?_ hq ?_ i s v hi hs
    · intro w hw
      obtain ⟨j, hj⟩ := List.mem_iff_getElem?.1 hw
      exact ⟨hv.states w (hin _ _ _ ⟨_, hsc, hj⟩), c2 w hw⟩
    · intro hT
      rcases hord hT f F.scope (by omega) hsc with o | o
      · exact .inl o
      · right
        intro j hj
        have hj' := List.getElem?_eq_getElem (show j < F.scope.length by omega)
        have hej : IsEdge fg.allScopes f j _ := ⟨_, hsc, hj'⟩
        have h2 := hFok.2.2 _ (List.mem_of_getElem? hj')
        have hr := hFok.1
        rw [vtofM_at hej, vtofM_at hej]
        exact pull_above hc hej (by omega) (by omega) (o _ (List.mem_of_getElem? hj'))

theorem Renaming.Iso.iterM (h : R.Iso fg fg' lp lp') (hv : R.VarsOk vars vars') (hin : ∀ f i v, IsEdge fg.allScopes f i v → v ∈ vars)
    {maxLen : Nat} (hmax : ∀ f i v, IsEdge fg.allScopes f i v → v.n ≤ maxLen)
    (hok : ∀ f F, (fg.factors lp)[f]? = some F → FacOk (fg.kind f) F) (env : Env α) (T : α)
    {ev ev' : Var → Nat → α} (hev : R.SameVals vars ev ev') (hord : T = 0 → R.OrderOk fg ev) (d : α) (n : Nat) {m m' : Msgs α} (hc : Clipped fg.allScopes m)
    (hm : R.SameMsgs fg.allScopes m m') :
    R.SameMsgs fg.allScopes (iterM (PGMax.stepM env T fg maxLen lp ev d) n m) (iterM (PGMax.stepM env T fg' maxLen lp' ev' d) n m') := by
  induction n generalizing m m' with
  | zero => exact hm
  | succ n ih => exact ih (normM_clipped hmax _) (h.stepM hv hin hmax hok env T hev hord d hc hm)

end

end PGMax
