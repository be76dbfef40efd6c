import Verif.Lemmas.Moved
import Verif.Spec.Attractive
import Mathlib.Combinatorics.SetFamily.FourFunctions

/-! # Messages of models that favour higher states more -/

namespace PGMax

section
variable {α : Type _} [Field α] [LinearOrder α] [IsStrictOrderedRing α]

theorem Rises.firstMax {n : Nat} {x y : Nat → α} (h : Rises n x y) {j j' : Nat} (hj : IsFirstMax x n j) (hj' : IsFirstMax y n j') : j ≤ j' := by
  by_contra hlt
  have hlt : j' < j := by omega
  have h1 := h j' j hlt.le hj.1
  have h2 := hj.2.2 j' hlt
  have h3 := hj'.2.1 j hj.1
  linarith

theorem Rises.add {n : Nat} {x y x' y' : Nat → α} (h : Rises n x y) (h' : Rises n x' y') : Rises n (fun s => x s + x' s) (fun s => y s + y' s) := by
  intro s s' hle hs
  have h1 := h s s' hle hs
  have h2 := h' s s' hle hs
  simp only
  linarith

theorem Rises.sum {β : Type _} {n : Nat} (l : List β) {x y : β → Nat → α} (h : ∀ e ∈ l, Rises n (x e) (y e)) :
    Rises n (fun s => (l.map (fun e => x e s)).sum) (fun s => (l.map (fun e => y e s)).sum) := by
  induction l with
  | nil =>
    intro s s' _ _
    simp
  | cons e l ih => exact (h e (by simp)).add (ih (fun e he => h e (by simp [he])))

/-- A score and its change under the larger and smaller of two states. -/
theorem Rises.pair {n : Nat} {x y : Nat → α} (h : Rises n x y) {a b : Nat} (ha : a < n) (hb : b < n) : x a + y b ≤ y (max a b) + x (min a b) := by
  rcases le_total a b with hab | hab
  · rw [max_eq_right hab, min_eq_left hab]
    linarith
  · rw [max_eq_left hab, min_eq_right hab]
    have := h b a hab ha
    linarith

theorem tbNorm_two {x : Nat → WithBot α} {a b : α} (h0 : x 0 = WithBot.some a) (h1 : x 1 = WithBot.some b) : tbNorm 2 x 1 - tbNorm 2 x 0 = max (-1000) (min 1000 (b - a)) := by
  have hs : (Finset.range 2).sup x = WithBot.some (max a b) := by
    rw [show Finset.range 2 = {0, 1} from rfl, Finset.sup_insert, Finset.sup_singleton, h0, h1]
    rfl
  rw [tbNorm_coe hs h1, tbNorm_coe hs h0]
  rcases le_total a b with hab | hab
  · rw [max_eq_right hab, sub_self, max_eq_left (show (-1000 : α) ≤ 0 by norm_num), max_eq_right (le_trans (by norm_num : (-1000 : α) ≤ 0) (le_min (by norm_num) (by linarith)))]
    rcases le_total (b - a) 1000 with h | h
    · rw [max_eq_left (by linarith), min_eq_right h]
      ring
    · rw [max_eq_right (by linarith), min_eq_left h]
      ring
  · rw [max_eq_left hab, sub_self, max_eq_left (show (-1000 : α) ≤ 0 by norm_num), min_eq_right (by linarith), max_comm]
    ring

/-- Normalisation keeps the order of messages of at most two states, and of messages that are not clipped. -/
theorem tbNorm_rises {n : Nat} {x x' : Nat → α} (h : Rises n x x') (hn : n ≤ 2 ∨ (∀ s < n, ∀ t < n, x s - x t ≤ 1000) ∧ ∀ s < n, ∀ t < n, x' s - x' t ≤ 1000) :
    Rises n (tbNorm n (fun s => WithBot.some (x s))) (tbNorm n (fun s => WithBot.some (x' s))) := by
  intro s s' hle hs
  rcases hn with hn | ⟨hx, hx'⟩
  · rcases hle.eq_or_lt with rfl | hlt
    · exact le_rfl
    obtain ⟨rfl, rfl, rfl⟩ : n = 2 ∧ s = 0 ∧ s' = 1 := by omega
    have h1 := tbNorm_two (x := fun s => WithBot.some (x s)) (a := x 0) (b := x 1) rfl rfl
    have h2 := tbNorm_two (x := fun s => WithBot.some (x' s)) (a := x' 0) (b := x' 1) rfl rfl
    have h3 : max (-1000) (min 1000 (x 1 - x 0)) ≤ max (-1000) (min 1000 (x' 1 - x' 0)) := max_le_max le_rfl (min_le_min le_rfl (by have := h 0 1 hle hs; linarith))
    linarith
  · obtain ⟨c, hc⟩ := tbNorm_moved (x := x) (x' := x') (g := fun s => x s - x' s) (C := 0) (fun s _ => by ring) hx hx'
    rw [hc s (by omega), hc s' hs]
    have := h s s' hle hs
    linarith

omit [Field α] [IsStrictOrderedRing α] [LinearOrder α] in
theorem zipWith_getD {f : Nat → Nat → Nat} {a b : List Nat} {j : Nat} (ha : j < a.length) (hb : j < b.length) :
    (List.zipWith f a b).getD j 0 = f (a.getD j 0) (b.getD j 0) := by
  simp only [List.getD, List.getElem?_zipWith, List.getElem?_eq_getElem ha, List.getElem?_eq_getElem hb, Option.getD_some]

omit [Field α] [IsStrictOrderedRing α] [LinearOrder α] in
theorem row_state {F : SFac α} {r : List Nat × α} (hr : List.Forall₂ (fun s (v : Var) => s < v.n) r.1 F.scope) {j : Nat} {w : Var} (hj : F.scope[j]? = some w) : r.1.getD j 0 < w.n := by
  have hlt := (List.getElem?_eq_some_iff.1 hj).1
  have hl := hr.length_eq
  have := (List.forall₂_iff_get.1 hr).2 j (by omega) hlt
  rw [List.getD, List.getElem?_eq_getElem (by omega)]
  have e : F.scope[j] = w := (List.getElem?_eq_some_iff.1 hj).2
  rw [← e]
  exact this

/-- Two configurations in different states of the variable at position `i`, and those of their larger and smaller states. -/
theorem SFac.Rises.rows {F F' : SFac α} (h : F.Rises F') (hrow : ∀ r ∈ F.rows, List.Forall₂ (fun s (v : Var) => s < v.n) r.1 F.scope)
    (hrow' : ∀ r ∈ F'.rows, List.Forall₂ (fun s (v : Var) => s < v.n) r.1 F'.scope) {q q' : Nat → Nat → α} {i s s' : Nat} {v : Var} (hi : F.scope[i]? = some v)
    (hq : ∀ j w, j ≠ i → F.scope[j]? = some w → PGMax.Rises w.n (q j) (q' j)) (hle : s ≤ s') {r r' : List Nat × α} (hr : r ∈ F.rowsAt i s') (hr' : r' ∈ F'.rowsAt i s) :
    ∃ p ∈ F'.rowsAt i s', ∃ t ∈ F.rowsAt i s, p.1 = List.zipWith max r.1 r'.1 ∧ t.1 = List.zipWith min r.1 r'.1 ∧
      scoreBut F.scope.length q i r + scoreBut F'.scope.length q' i r' ≤ scoreBut F'.scope.length q' i p + scoreBut F.scope.length q i t := by
  obtain ⟨hsc, hpair⟩ := h
  obtain ⟨h1, h2⟩ := List.mem_filter.1 hr
  obtain ⟨h1', h2'⟩ := List.mem_filter.1 hr'
  have h2 : r.1[i]? = some s' := by simpa using h2
  have h2' : r'.1[i]? = some s := by simpa using h2'
  obtain ⟨p, hp, t, ht, ep, et, hsum⟩ := hpair r h1 r' h1'
  have hil := (List.getElem?_eq_some_iff.1 hi).1
  have l1 := (hrow r h1).length_eq
  have l2 := (hrow' r' h1').length_eq
  rw [hsc] at l2
  refine ⟨p, List.mem_filter.2 ⟨hp, ?_⟩, t, List.mem_filter.2 ⟨ht, ?_⟩, ep, et, ?_⟩
  · rw [ep, List.getElem?_zipWith, h2, h2']
    simpa using hle
  · rw [et, List.getElem?_zipWith, h2, h2']
    simpa using hle
  · unfold scoreBut
    rw [hsc]
    have key : (((List.range F.scope.length).filter (fun j => j ≠ i)).map (fun j => q j (r.1.getD j 0))).sum + (((List.range F.scope.length).filter (fun j => j ≠ i)).map (fun j => q' j (r'.1.getD j 0))).sum
        ≤ (((List.range F.scope.length).filter (fun j => j ≠ i)).map (fun j => q' j (p.1.getD j 0))).sum + (((List.range F.scope.length).filter (fun j => j ≠ i)).map (fun j => q j (t.1.getD j 0))).sum := by
      have hone : ∀ j ∈ (List.range F.scope.length).filter (fun j => j ≠ i), q j (r.1.getD j 0) + q' j (r'.1.getD j 0) ≤ q' j (p.1.getD j 0) + q j (t.1.getD j 0) := by
        intro j hj
        obtain ⟨hj1, hj2⟩ := List.mem_filter.1 hj
        have hj1 := List.mem_range.1 hj1
        have hw := List.getElem?_eq_getElem hj1
        rw [ep, et, zipWith_getD (by omega) (by omega), zipWith_getD (by omega) (by omega)]
        exact (hq j _ (by simpa using hj2) hw).pair (row_state (hrow r h1) hw) (row_state (F := F) (hsc ▸ hrow' r' h1') hw)
      generalize (List.range F.scope.length).filter (fun j => j ≠ i) = l at hone
      induction l with
      | nil => simp
      | cons j l ih =>
        have k1 := hone j (by simp)
        have k2 := ih (fun j hj => hone j (by simp [hj]))
        simp only [List.map_cons, List.sum_cons]
        linarith
    linarith

/-- What a summary needs for messages to keep the order: as for the pairs of configurations above, for the summaries. -/
def RisesThrough (Φ : List α → α) (F F' : SFac α) : Prop :=
  ∀ (q q' : Nat → Nat → α) (i : Nat) (v : Var), F.scope[i]? = some v → (∀ j w, j ≠ i → F.scope[j]? = some w → PGMax.Rises w.n (q j) (q' j)) →
    PGMax.Rises v.n (fun s => Φ ((F.rowsAt i s).map (scoreBut F.scope.length q i))) (fun s => Φ ((F'.rowsAt i s).map (scoreBut F'.scope.length q' i)))

theorem SFac.Rises.through_max {F F' : SFac α} (h : F.Rises F') (hrow : ∀ r ∈ F.rows, List.Forall₂ (fun s (v : Var) => s < v.n) r.1 F.scope)
    (hrow' : ∀ r ∈ F'.rows, List.Forall₂ (fun s (v : Var) => s < v.n) r.1 F'.scope) (hfull : F.Full) (hfull' : F'.Full) : RisesThrough (maxOf 0) F F' := by
  intro q q' i v hi hq s s' hle hs
  have hi' : F'.scope[i]? = some v := by rw [h.1]; exact hi
  have n1 : (F.rowsAt i s').map (scoreBut F.scope.length q i) ≠ [] := by simpa using hfull i v s' hi hs
  have n2 : (F'.rowsAt i s).map (scoreBut F'.scope.length q' i) ≠ [] := by simpa using hfull' i v s hi' (by omega)
  have n3 : (F'.rowsAt i s').map (scoreBut F'.scope.length q' i) ≠ [] := by simpa using hfull' i v s' hi' hs
  have n4 : (F.rowsAt i s).map (scoreBut F.scope.length q i) ≠ [] := by simpa using hfull i v s hi (by omega)
  obtain ⟨r, hr, e⟩ := List.mem_map.1 (maxOf_spec 0 _ n1).1
  obtain ⟨r', hr', e'⟩ := List.mem_map.1 (maxOf_spec 0 _ n2).1
  obtain ⟨p, hp, t, ht, -, -, hsum⟩ := h.rows hrow hrow' hi hq hle hr hr'
  have k1 := (maxOf_spec 0 _ n3).2 _ (List.mem_map.2 ⟨p, hp, rfl⟩)
  have k2 := (maxOf_spec 0 _ n4).2 _ (List.mem_map.2 ⟨t, ht, rfl⟩)
  simp only
  linarith

theorem RisingFactors.scopes {factors factors' : List (SFac α)} (h : RisingFactors factors factors') : factors'.map (·.scope) = factors.map (·.scope) := by
  unfold RisingFactors at h
  induction h with
  | nil => rfl
  | cons h1 _ ih => rw [List.map_cons, List.map_cons, ih, h1.1]

theorem rises_belief {scopes : List (List Var)} {m m' : Msgs α} (hm : RisingMsgs scopes m m') {ev ev' : Var → Nat → α} {v : Var} (hev : Rises v.n (ev v) (ev' v)) :
    Rises v.n (beliefOf scopes ev m v) (beliefOf scopes ev' m' v) :=
  hev.add (Rises.sum _ fun e he => hm e.1 e.2 v ((mem_edgesOf scopes v e.1 e.2).1 he))

theorem rises_toFac {scopes : List (List Var)} {m m' : Msgs α} (hm : RisingMsgs scopes m m') {ev ev' : Var → Nat → α} {v : Var} (hev : Rises v.n (ev v) (ev' v)) (e : Nat × Nat) :
    Rises v.n (varToFac scopes ev m v e) (varToFac scopes ev' m' v e) :=
  hev.add (Rises.sum _ fun e' he => hm e'.1 e'.2 v ((mem_edgesOf scopes v e'.1 e'.2).1 (List.mem_filter.1 he).1))

/-- One iteration in the two models. -/
theorem RisingFactors.step {factors factors' : List (SFac α)} (h : RisingFactors factors factors') {ev ev' : Var → Nat → α}
    (hev : ∀ F ∈ factors, ∀ v ∈ F.scope, Rises v.n (ev v) (ev' v)) {Φ : Nat → List α → α} (hΦ : ∀ f, Summary (Φ f))
    (hrow : ∀ F ∈ factors, ∀ r ∈ F.rows, List.Forall₂ (fun s (v : Var) => s < v.n) r.1 F.scope) (hrow' : ∀ F ∈ factors', ∀ r ∈ F.rows, List.Forall₂ (fun s (v : Var) => s < v.n) r.1 F.scope)
    (hfull : ∀ F ∈ factors, F.Full) (hfull' : ∀ F ∈ factors', F.Full) (hgen : ∀ F ∈ factors, F.Gentle) (hgen' : ∀ F ∈ factors', F.Gentle)
    (hthrough : ∀ f F F', factors[f]? = some F → factors'[f]? = some F' → RisesThrough (Φ f) F F') {d : α} (hd : 0 ≤ d ∧ d ≤ 1) {m m' : Msgs α}
    (hm : RisingMsgs (factors.map (·.scope)) m m') (hcl : Clipped (factors.map (·.scope)) m) (hcl' : Clipped (factors.map (·.scope)) m') :
    RisingMsgs (factors.map (·.scope)) (sumStep Φ factors ev d m) (sumStep Φ factors' ev' d m') := by
  intro f i v he
  have he0 := he
  obtain ⟨vs, h1, hi⟩ := he
  rw [List.getElem?_map, Option.map_eq_some_iff] at h1
  obtain ⟨F, hF, rfl⟩ := h1
  have hlt := (List.getElem?_eq_some_iff.1 hF).1
  have hlen := List.Forall₂.length_eq h
  obtain ⟨F', hF'⟩ : ∃ F', factors'[f]? = some F' := ⟨_, List.getElem?_eq_getElem (by omega)⟩
  have hFm := List.mem_of_getElem? hF
  have hFm' := List.mem_of_getElem? hF'
  have hFF : F.Rises F' := by
    obtain ⟨y, hy, hr⟩ := forall₂_getElem? h hF
    rw [hF'] at hy
    cases hy
    exact hr
  have hi' : F'.scope[i]? = some v := by rw [hFF.1]; exact hi
  -- the messages before normalisation
  have hx : Rises v.n (fun s => d * m f i s + (1 - d) * Φ f ((F.rowsAt i s).map (scoreBut F.scope.length (tbIn factors ev m f F) i)))
      (fun s => d * m' f i s + (1 - d) * Φ f ((F'.rowsAt i s).map (scoreBut F'.scope.length (tbIn factors' ev' m' f F') i))) := by
    intro s s' hle hs
    have k1 := mul_le_mul_of_nonneg_left (hm f i v he0 s s' hle hs) hd.1
    have k2 := mul_le_mul_of_nonneg_left (hthrough f F F' hF hF' (tbIn factors ev m f F) (tbIn factors' ev' m' f F') i v hi (fun j w _ hj => by
      intro t t' hle' ht'
      rw [tbIn_at hj, tbIn_at hj, tbIn_at (by rw [hFF.1]; exact hj), tbIn_at (by rw [hFF.1]; exact hj), h.scopes]
      exact rises_toFac hm (hev F hFm w (List.mem_of_getElem? hj)) (f, j) t t' hle' ht') s s' hle hs) (sub_nonneg.2 hd.2)
    simp only at k2 ⊢
    linarith
  have e1 : ∀ s < v.n, (sumOut (Φ f) F (tbIn factors ev m f F) i s).map (fun x => d * m f i s + (1 - d) * x) =
      WithBot.some (d * m f i s + (1 - d) * Φ f ((F.rowsAt i s).map (scoreBut F.scope.length (tbIn factors ev m f F) i))) := by
    intro s hs
    unfold sumOut
    rw [if_neg (hfull F hFm i v s hi hs)]
    rfl
  have e2 : ∀ s < v.n, (sumOut (Φ f) F' (tbIn factors' ev' m' f F') i s).map (fun x => d * m' f i s + (1 - d) * x) =
      WithBot.some (d * m' f i s + (1 - d) * Φ f ((F'.rowsAt i s).map (scoreBut F'.scope.length (tbIn factors' ev' m' f F') i))) := by
    intro s hs
    unfold sumOut
    rw [if_neg (hfull' F' hFm' i v s hi' hs)]
    rfl
  have hn := tbNorm_rises hx (by
    by_cases hv : v.n ≤ 2
    · exact .inl hv
    refine .inr ⟨fun s hs t ht => ?_, fun s hs t ht => ?_⟩
    · rcases hgen F hFm with hg | ⟨hc, hw⟩
      · exact absurd (hg v (List.mem_of_getElem? hi)) hv
      · have hne : F.rows ≠ [] := by
          intro h0
          refine hfull F hFm i v s hi hs ?_
          unfold SFac.rowsAt
          rw [h0]
          rfl
        obtain ⟨x, k1, k2⟩ := hc.damped_range (hrow F hFm) hne hw (hΦ f) (tbIn factors ev m f F) hi (fun s hs => hcl f i v s he0 hs) hd
        have a1 := WithBot.coe_injective ((e1 s hs).symm.trans (k1 s hs))
        have a2 := WithBot.coe_injective ((e1 t ht).symm.trans (k1 t ht))
        rw [a1, a2]
        exact k2 s hs t ht
    · rcases hgen' F' hFm' with hg | ⟨hc, hw⟩
      · exact absurd (hg v (List.mem_of_getElem? hi')) hv
      · have hne : F'.rows ≠ [] := by
          intro h0
          refine hfull' F' hFm' i v s hi' hs ?_
          unfold SFac.rowsAt
          rw [h0]
          rfl
        obtain ⟨x, k1, k2⟩ := hc.damped_range (hrow' F' hFm') hne hw (hΦ f) (tbIn factors' ev' m' f F') hi' (fun s hs => hcl' f i v s he0 hs) hd
        have a1 := WithBot.coe_injective ((e2 s hs).symm.trans (k1 s hs))
        have a2 := WithBot.coe_injective ((e2 t ht).symm.trans (k1 t ht))
        rw [a1, a2]
        exact k2 s hs t ht)
  intro s s' hle hs
  rw [sumStep_at Φ hF hi, sumStep_at Φ hF' hi', sumStep_at Φ hF hi, sumStep_at Φ hF' hi', tbNorm_congr e1 (show s < v.n by omega), tbNorm_congr e2 (show s < v.n by omega), tbNorm_congr e1 hs,
    tbNorm_congr e2 hs]
  exact hn s s' hle hs

/-- All iterations in the two models. -/
theorem RisingFactors.run {factors factors' : List (SFac α)} (h : RisingFactors factors factors') {ev ev' : Var → Nat → α}
    (hev : ∀ F ∈ factors, ∀ v ∈ F.scope, Rises v.n (ev v) (ev' v)) {Φ : Nat → List α → α} (hΦ : ∀ f, Summary (Φ f))
    (hrow : ∀ F ∈ factors, ∀ r ∈ F.rows, List.Forall₂ (fun s (v : Var) => s < v.n) r.1 F.scope) (hrow' : ∀ F ∈ factors', ∀ r ∈ F.rows, List.Forall₂ (fun s (v : Var) => s < v.n) r.1 F.scope)
    (hfull : ∀ F ∈ factors, F.Full) (hfull' : ∀ F ∈ factors', F.Full) (hgen : ∀ F ∈ factors, F.Gentle) (hgen' : ∀ F ∈ factors', F.Gentle)
    (hthrough : ∀ f F F', factors[f]? = some F → factors'[f]? = some F' → RisesThrough (Φ f) F F') {d : α} (hd : 0 ≤ d ∧ d ≤ 1) {m m' : Msgs α}
    (hm : RisingMsgs (factors.map (·.scope)) m m')
    (hrange : ∀ f i v, IsEdge (factors.map (·.scope)) f i v → v.n ≤ 2 ∨ (∀ s < v.n, ∀ t < v.n, m f i s - m f i t ≤ 1000) ∧ ∀ s < v.n, ∀ t < v.n, m' f i s - m' f i t ≤ 1000) (n : Nat) :
    RisingMsgs (factors.map (·.scope)) (sumRun Φ factors ev d n m) (sumRun Φ factors' ev' d n m') := by
  induction n with
  | zero =>
    intro f i v he
    have hn := tbNorm_rises (hm f i v he) (hrange f i v he)
    obtain ⟨vs, h1, hi⟩ := he
    rw [List.getElem?_map, Option.map_eq_some_iff] at h1
    obtain ⟨F, hF, rfl⟩ := h1
    have hlt := (List.getElem?_eq_some_iff.1 hF).1
    have hlen := List.Forall₂.length_eq h
    obtain ⟨F', hF', hr⟩ := forall₂_getElem? h hF
    intro s s' hle hs
    simp only [sumRun]
    rw [tbInit_at hF hi, tbInit_at hF' (by rw [hr.1]; exact hi), tbInit_at hF hi, tbInit_at hF' (by rw [hr.1]; exact hi)]
    exact hn s s' hle hs
  | succ n ih => exact h.step hev hΦ hrow hrow' hfull hfull' hgen hgen' hthrough hd ih (sumRun_clipped _ _ _ _ _ _) (h.scopes ▸ sumRun_clipped _ _ _ _ _ _)

end

section

open scoped FinsetFamily

/-- Sums over configurations keep the order: the four functions theorem. -/
theorem SFac.Rises.through_lse {F F' : SFac ℝ} (h : F.Rises F') (hrow : ∀ r ∈ F.rows, List.Forall₂ (fun s (v : Var) => s < v.n) r.1 F.scope)
    (hrow' : ∀ r ∈ F'.rows, List.Forall₂ (fun s (v : Var) => s < v.n) r.1 F'.scope) (hfull : F.Full) (hfull' : F'.Full)
    (hnd : (F.rows.map (·.1)).Nodup) (hnd' : (F'.rows.map (·.1)).Nodup) {T : ℝ} (hT : 0 < T) : RisesThrough (lse T) F F' := by
  classical
  intro q q' i v hi hq s s' hle hs
  have hi' : F'.scope[i]? = some v := by rw [h.1]; exact hi
  -- configurations as points of a lattice
  let pt : List Nat × ℝ → Fin F.scope.length → Nat := fun r j => r.1.getD j 0
  have inj : ∀ r r' : List Nat × ℝ, r.1.length = F.scope.length → r'.1.length = F.scope.length → pt r = pt r' → r.1 = r'.1 := by
    intro r r' h1 h2 he
    refine List.ext_getElem (by omega) fun j hj hj' => ?_
    have := congrFun he ⟨j, by omega⟩
    simp only [pt, List.getD, List.getElem?_eq_getElem hj, List.getElem?_eq_getElem hj', Option.getD_some] at this
    exact this
  have len : ∀ r ∈ F.rows, r.1.length = F.scope.length := fun r hr => (hrow r hr).length_eq
  have len' : ∀ r ∈ F'.rows, r.1.length = F.scope.length := fun r hr => by rw [← h.1]; exact (hrow' r hr).length_eq
  -- the weight of a point
  let W : List (List Nat × ℝ) → (List Nat × ℝ → ℝ) → (Fin F.scope.length → Nat) → ℝ := fun l u c => ((l.filter (fun r => pt r = c)).map (fun r => Real.exp (u r / T))).sum
  have W0 : ∀ l u, 0 ≤ W l u := fun l u c => List.sum_nonneg (by
    intro x hx
    obtain ⟨r, -, rfl⟩ := List.mem_map.1 hx
    exact (Real.exp_pos _).le)
  have Wsum : ∀ (l : List (List Nat × ℝ)) (u : List Nat × ℝ → ℝ) (S : Finset (Fin F.scope.length → Nat)), (∀ r ∈ l, pt r ∈ S) → ∑ c ∈ S, W l u c = (l.map (fun r => Real.exp (u r / T))).sum := by
    intro l u S hS
    induction l with
    | nil => simp [W]
    | cons r l ih =>
      have e : ∀ c, W (r :: l) u c = (if pt r = c then Real.exp (u r / T) else 0) + W l u c := by
        intro c
        simp only [W, List.filter_cons]
        by_cases hc : pt r = c
        · simp [hc]
        · simp [hc]
      simp only [e]
      rw [Finset.sum_add_distrib, ih (fun r hr => hS r (by simp [hr])), Finset.sum_ite_eq, if_pos (hS r (by simp))]
      rfl
  have Wat : ∀ (l : List (List Nat × ℝ)) (u : List Nat × ℝ → ℝ), (l.map (·.1)).Nodup → (∀ r ∈ l, r.1.length = F.scope.length) → ∀ r ∈ l, W l u (pt r) = Real.exp (u r / T) := by
    intro l u hn hl r hr
    induction l with
    | nil => cases hr
    | cons r0 l ih =>
      rw [List.map_cons, List.nodup_cons] at hn
      have hl' : ∀ r ∈ l, r.1.length = F.scope.length := fun r hr => hl r (by simp [hr])
      have none : ∀ c, c = pt r0 → W l u c = 0 := by
        rintro c rfl
        have : l.filter (fun r => pt r = pt r0) = [] := by
          rw [List.filter_eq_nil_iff]
          intro r1 hr1 he
          have he : pt r1 = pt r0 := by simpa using he
          exact hn.1 (List.mem_map.2 ⟨r1, hr1, inj r1 r0 (hl' r1 hr1) (hl r0 (by simp)) he⟩)
        simp only [W, this, List.map_nil, List.sum_nil]
      have e : ∀ c, W (r0 :: l) u c = (if pt r0 = c then Real.exp (u r0 / T) else 0) + W l u c := by
        intro c
        simp only [W, List.filter_cons]
        by_cases hc : pt r0 = c
        · simp [hc]
        · simp [hc]
      rw [e]
      rcases List.mem_cons.1 hr with rfl | hr
      · rw [if_pos rfl, none _ rfl, add_zero]
      · rw [if_neg, zero_add, ih hn.2 hl' hr]
        intro he
        exact hn.1 (List.mem_map.2 ⟨r, hr, (inj r0 r (hl r0 (by simp)) (hl' r hr) he).symm⟩)
  have Wnone : ∀ (l : List (List Nat × ℝ)) (u : List Nat × ℝ → ℝ) c, (∀ r ∈ l, pt r ≠ c) → W l u c = 0 := by
    intro l u c hc
    have : l.filter (fun r => pt r = c) = [] := by
      rw [List.filter_eq_nil_iff]
      intro r1 hr1 he
      exact hc r1 hr1 (by simpa using he)
    simp only [W, this, List.map_nil, List.sum_nil]
  have sub : ∀ (G : SFac ℝ) k, (G.rows.map (·.1)).Nodup → ((G.rowsAt i k).map (·.1)).Nodup := fun G k hn => (List.filter_sublist.map _).nodup hn
  let u := scoreBut F.scope.length q i
  let u' := scoreBut F'.scope.length q' i
  let Sb : Finset (Fin F.scope.length → Nat) := ((F.rowsAt i s').map pt).toFinset
  let Sc : Finset (Fin F.scope.length → Nat) := ((F'.rowsAt i s).map pt).toFinset
  have mF : ∀ k r, r ∈ F.rowsAt i k → r ∈ F.rows := fun k r hr => (List.mem_filter.1 hr).1
  have mF' : ∀ k r, r ∈ F'.rowsAt i k → r ∈ F'.rows := fun k r hr => (List.mem_filter.1 hr).1
  have four := four_functions_theorem (W (F.rowsAt i s') u) (W (F'.rowsAt i s) u') (W (F.rowsAt i s) u) (W (F'.rowsAt i s') u') (W0 _ _) (W0 _ _) (W0 _ _) (W0 _ _) (by
    intro a b
    by_cases ha : ∃ r ∈ F.rowsAt i s', pt r = a
    · by_cases hb : ∃ r ∈ F'.rowsAt i s, pt r = b
      · obtain ⟨r, hr, rfl⟩ := ha
        obtain ⟨r', hr', rfl⟩ := hb
        obtain ⟨p, hp, t, ht, ep, et, hsum⟩ := h.rows hrow hrow' hi hq hle hr hr'
        have lr := len r (mF _ r hr)
        have lr' := len' r' (mF' _ r' hr')
        have ep' : pt r ⊔ pt r' = pt p := by
          funext j
          simp only [pt, Pi.sup_apply, ep]
          rw [zipWith_getD (by omega) (by omega)]
        have et' : pt r ⊓ pt r' = pt t := by
          funext j
          simp only [pt, Pi.inf_apply, et]
          rw [zipWith_getD (by omega) (by omega)]
        rw [ep', et', Wat _ u (sub F _ hnd) (fun r hr => len r (mF _ r hr)) r hr, Wat _ u' (sub F' _ hnd') (fun r hr => len' r (mF' _ r hr)) r' hr',
          Wat _ u (sub F _ hnd) (fun r hr => len r (mF _ r hr)) t ht, Wat _ u' (sub F' _ hnd') (fun r hr => len' r (mF' _ r hr)) p hp, ← Real.exp_add, ← Real.exp_add, ← add_div, ← add_div]
        refine Real.exp_le_exp.2 (div_le_div_of_nonneg_right ?_ hT.le)
        rw [add_comm (u t)]
        exact hsum
      · rw [Wnone (F'.rowsAt i s) u' b (fun r hr he => hb ⟨r, hr, he⟩), mul_zero]
        exact mul_nonneg (W0 _ _ _) (W0 _ _ _)
    · rw [Wnone (F.rowsAt i s') u a (fun r hr he => ha ⟨r, hr, he⟩), zero_mul]
      exact mul_nonneg (W0 _ _ _) (W0 _ _ _)) Sb Sc
  rw [Wsum _ u Sb (fun r hr => List.mem_toFinset.2 (List.mem_map.2 ⟨r, hr, rfl⟩)), Wsum _ u' Sc (fun r hr => List.mem_toFinset.2 (List.mem_map.2 ⟨r, hr, rfl⟩))] at four
  have up : ∀ (l : List (List Nat × ℝ)) (w : List Nat × ℝ → ℝ) (S : Finset (Fin F.scope.length → Nat)), ∑ c ∈ S, W l w c ≤ (l.map (fun r => Real.exp (w r / T))).sum := by
    intro l w S
    rw [← Wsum l w (S ∪ (l.map pt).toFinset) (fun r hr => Finset.mem_union_right _ (List.mem_toFinset.2 (List.mem_map.2 ⟨r, hr, rfl⟩)))]
    exact Finset.sum_le_sum_of_subset_of_nonneg Finset.subset_union_left (fun c _ _ => W0 _ _ c)
  have pos : ∀ (l : List (List Nat × ℝ)) (w : List Nat × ℝ → ℝ), l ≠ [] → 0 < (l.map (fun r => Real.exp (w r / T))).sum := by
    intro l w hl
    refine List.sum_pos _ (fun x hx => ?_) (by simpa using hl)
    obtain ⟨r, -, rfl⟩ := List.mem_map.1 hx
    exact Real.exp_pos _
  have p1 := pos (F.rowsAt i s') u (hfull i v s' hi hs)
  have p2 := pos (F'.rowsAt i s) u' (hfull' i v s hi' (by omega))
  have p3 := pos (F.rowsAt i s) u (hfull i v s hi (by omega))
  have p4 := pos (F'.rowsAt i s') u' (hfull' i v s' hi' hs)
  have hfin := four.trans (mul_le_mul (up _ _ _) (up _ _ _) (Finset.sum_nonneg fun c _ => W0 _ _ c) p3.le)
  have hlog := Real.log_le_log (mul_pos p1 p2) hfin
  rw [Real.log_mul p1.ne' p2.ne', Real.log_mul p3.ne' p4.ne'] at hlog
  have hlog := mul_le_mul_of_nonneg_left hlog hT.le
  simp only [lse, List.map_map, Function.comp_def]
  simp only [u, u'] at hlog
  linarith

end

end PGMax
