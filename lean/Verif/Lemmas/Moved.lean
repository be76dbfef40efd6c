import Verif.Lemmas.Damped
import Verif.Lemmas.Dominant
import Verif.Spec.Moved

/-! # Messages of models in which terms of single variables are moved between factors and evidence -/

namespace PGMax

section
variable {α : Type _} [Field α] [LinearOrder α] [IsStrictOrderedRing α]

omit [LinearOrder α] [IsStrictOrderedRing α] in
theorem moved_belief {scopes : List (List Var)} {g m m' : Msgs α} {c : Nat → Nat → α}
    (hm : ∀ f i v s, IsEdge scopes f i v → s < v.n → m' f i s = m f i s - g f i s + c f i) {ev ev' : Var → Nat → α} {v : Var} {s : Nat} (hs : s < v.n)
    (hev : ev' v s = ev v s + ((edgesOf scopes v).map (fun e => g e.1 e.2 s)).sum) :
    beliefOf scopes ev' m' v s = beliefOf scopes ev m v s + ((edgesOf scopes v).map (fun e => c e.1 e.2)).sum := by
  unfold beliefOf
  have e : (edgesOf scopes v).map (fun e => m' e.1 e.2 s) = (edgesOf scopes v).map (fun e => m e.1 e.2 s - g e.1 e.2 s + c e.1 e.2) := by
    refine List.map_congr_left fun e he => ?_
    exact hm e.1 e.2 v s ((mem_edgesOf scopes v e.1 e.2).1 he) hs
  rw [e, hev]
  generalize edgesOf scopes v = l
  clear e hev
  induction l with
  | nil => simp
  | cons e l ih =>
    simp only [List.map_cons, List.sum_cons] at ih ⊢
    linear_combination ih

omit [LinearOrder α] [IsStrictOrderedRing α] in
theorem varToFac_eq {scopes : List (List Var)} (ev : Var → Nat → α) (m : Msgs α) {v : Var} {f i : Nat} (he : IsEdge scopes f i v) (s : Nat) :
    varToFac scopes ev m v (f, i) s = beliefOf scopes ev m v s - m f i s := by
  unfold varToFac beliefOf
  have hmem : (f, i) ∈ edgesOf scopes v := (mem_edgesOf scopes v f i).2 he
  have hp := List.perm_cons_erase hmem
  have : (edgesOf scopes v).filter (fun e' => e' ≠ (f, i)) = (edgesOf scopes v).erase (f, i) := by
    rw [(edgesOf_nodup scopes v).erase_eq_filter]
    refine List.filter_congr fun e _ => ?_
    simp [bne, beq_eq_decide]
  rw [this, (hp.map (fun e' => m e'.1 e'.2 s)).sum_eq, List.map_cons, List.sum_cons]
  ring

omit [LinearOrder α] [IsStrictOrderedRing α] in
theorem termsOf_but {n i : Nat} (hi : i < n) (g : Nat → Nat → α) (c : List Nat) :
    termsOf n g c = g i (c.getD i 0) + (((List.range n).filter (fun j => j ≠ i)).map (fun j => g j (c.getD j 0))).sum := by
  unfold termsOf
  rw [← Finset.add_sum_erase _ _ (Finset.mem_range.2 hi)]
  congr 1
  rw [← List.sum_toFinset _ (List.nodup_range.filter _)]
  refine Finset.sum_congr ?_ fun _ _ => rfl
  ext j
  simp only [Finset.mem_erase, Finset.mem_range, List.mem_toFinset, List.mem_filter, List.mem_range, decide_eq_true_eq]
  tauto

/-- Summaries commute with constants. -/
theorem Summary.add {Φ : List α → α} (hΦ : Summary Φ) {l : List (List Nat × α)} (hl : l ≠ []) {a b : List Nat × α → α} {C : α} (h : ∀ r ∈ l, b r = a r + C) :
    Φ (l.map b) = Φ (l.map a) + C :=
  le_antisymm (hΦ.mono l b a C hl (fun r hr => (h r hr).le))
    (by have := hΦ.mono l a b (-C) hl (fun r hr => by rw [h r hr]; linarith); linarith)

/-- Two messages that differ by `g` and a constant still do so after they are normalised, if neither is clipped. -/
theorem tbNorm_moved {n : Nat} {x x' : Nat → α} {g : Nat → α} {C : α} (h : ∀ s < n, x' s = x s - g s + C) (hx : ∀ s < n, ∀ t < n, x s - x t ≤ 1000) (hx' : ∀ s < n, ∀ t < n, x' s - x' t ≤ 1000) :
    ∃ c, ∀ s < n, tbNorm n (fun s => WithBot.some (x' s)) s = tbNorm n (fun s => WithBot.some (x s)) s - g s + c := by
  rcases Nat.eq_zero_or_pos n with rfl | hn
  · exact ⟨0, fun s hs => absurd hs (Nat.not_lt_zero s)⟩
  have hmax : ∀ y : Nat → α, ∃ t < n, (Finset.range n).sup (fun s => WithBot.some (y s)) = WithBot.some (y t) := by
    intro y
    obtain ⟨t, ht, he⟩ := Finset.exists_mem_eq_sup (Finset.range n) ⟨0, Finset.mem_range.2 hn⟩ (fun s => (WithBot.some (y s) : WithBot α))
    exact ⟨t, Finset.mem_range.1 ht, he⟩
  obtain ⟨t, ht, e⟩ := hmax x
  obtain ⟨t', ht', e'⟩ := hmax x'
  refine ⟨C + x t - x' t', fun s hs => ?_⟩
  rw [tbNorm_coe e rfl, tbNorm_coe e' rfl, max_eq_left (by linarith [hx' t' ht' s hs]), max_eq_left (by linarith [hx t ht s hs]), h s hs]
  ring

/-- Two messages that differ by a constant are equal after they are normalised. -/
theorem tbNorm_add {n : Nat} {x x' : Nat → WithBot α} {C : α} (h : ∀ s < n, x' s = (x s).map (· + C)) {s : Nat} (hs : s < n) : tbNorm n x' s = tbNorm n x s := by
  cases hxs : x s with
  | bot => rw [tbNorm_bot hxs, tbNorm_bot (by rw [h s hs, hxs]; rfl)]
  | coe a =>
    obtain ⟨t, ht, he⟩ := Finset.exists_mem_eq_sup (Finset.range n) ⟨s, Finset.mem_range.2 hs⟩ x
    have hall : ∀ u < n, x u ≤ x t := by
      intro u hu
      rw [← he]
      exact Finset.le_sup (Finset.mem_range.2 hu)
    obtain ⟨X, hX⟩ : ∃ X : α, x t = WithBot.some X := by
      have := hall s hs
      cases hxt : x t with
      | bot => rw [hxt, hxs] at this; exact absurd (le_bot_iff.1 this) WithBot.coe_ne_bot
      | coe X => exact ⟨X, rfl⟩
    have hsup' : (Finset.range n).sup x' = WithBot.some (X + C) := by
      refine sup_eq ⟨t, Finset.mem_range.1 ht, by rw [h t (Finset.mem_range.1 ht), hX]; rfl⟩ fun u hu => ?_
      rw [h u hu]
      have := hall u hu
      cases hxu : x u with
      | bot => exact bot_le
      | coe b =>
        rw [hxu, hX] at this
        exact WithBot.coe_le_coe.2 (by have := WithBot.coe_le_coe.1 this; linarith)
    rw [tbNorm_coe (he.trans hX) hxs, tbNorm_coe hsup' (by rw [h s hs, hxs]; rfl)]
    congr 1
    ring

omit [LinearOrder α] [IsStrictOrderedRing α] in
theorem Moved.scopes {g : Msgs α} {vars : Finset Var} {factors factors' : List (SFac α)} {ev ev' : Var → Nat → α} (h : Moved g vars factors factors' ev ev') :
    factors'.map (·.scope) = factors.map (·.scope) := by
  refine List.ext_getElem (by simp [h.length]) fun f h1 h2 => ?_
  simp only [List.getElem_map, List.length_map] at h1 h2 ⊢
  exact (h.factor f _ _ (List.getElem?_eq_getElem h2) (List.getElem?_eq_getElem h1)).1

/-- The message of a factor before normalisation, in the two models. -/
theorem Moved.out {g : Msgs α} {vars : Finset Var} {factors factors' : List (SFac α)} {ev ev' : Var → Nat → α} (h : Moved g vars factors factors' ev ev') (hvars : ∀ F ∈ factors, ∀ v ∈ F.scope, v ∈ vars) {Φ : List α → α} (hΦ : Summary Φ)
    {f : Nat} {F F' : SFac α} (hF : factors[f]? = some F) (hF' : factors'[f]? = some F') (hrow : ∀ r ∈ F.rows, List.Forall₂ (fun s (v : Var) => s < v.n) r.1 F.scope)
    {m m' : Msgs α} (hm : MovedMsgs (factors.map (·.scope)) g m m') {i : Nat} {v : Var} (hi : F.scope[i]? = some v) :
    ∃ C, ∀ s < v.n, sumOut Φ F' (tbIn factors' ev' m' f F') i s = (sumOut Φ F (tbIn factors ev m f F) i s).map (fun x => x - g f i s + C) := by
  obtain ⟨c, hc⟩ := hm
  obtain ⟨hsc, hrows⟩ := h.factor f F F' hF hF'
  have hedge : ∀ j w, F.scope[j]? = some w → IsEdge (factors.map (·.scope)) f j w := fun j w hj => ⟨F.scope, by rw [List.getElem?_map, hF]; rfl, hj⟩
  -- incoming messages
  let k : Nat → α := fun j => ((edgesOf (factors.map (·.scope)) (F.scope.getD j ⟨0, 0⟩)).map (fun e => c e.1 e.2)).sum - c f j
  have hin : ∀ (j : Nat) w t, F.scope[j]? = some w → t < w.n → tbIn factors' ev' m' f F' j t = tbIn factors ev m f F j t + g f j t + k j := by
    intro j w t hj ht
    have e1 : F.scope.getD j ⟨0, 0⟩ = w := by rw [List.getD, hj]; rfl
    rw [tbIn_at (by rw [hsc]; exact hj), tbIn_at hj, h.scopes, varToFac_eq _ _ (hedge j w hj), varToFac_eq _ _ (hedge j w hj),
      moved_belief hc ht (h.evidence w (hvars F (List.mem_of_getElem? hF) w (List.mem_of_getElem? hj)) t ht), hc f j w t (hedge j w hj) ht]
    simp only [k, e1]
    ring
  refine ⟨(((List.range F.scope.length).filter (fun j => j ≠ i)).map k).sum, fun s hs => ?_⟩
  have hil := (List.getElem?_eq_some_iff.1 hi).1
  have hat : F'.rowsAt i s = (F.rowsAt i s).map (fun r => (r.1, r.2 - termsOf F.scope.length (g f) r.1)) := by
    unfold SFac.rowsAt
    rw [hrows, List.filter_map]
    rfl
  unfold sumOut
  by_cases hne : F.rowsAt i s = []
  · rw [if_pos hne, if_pos (by rw [hat, hne]; rfl)]
    rfl
  · rw [if_neg hne, if_neg (by rw [hat]; simpa using hne)]
    refine congrArg WithBot.some ?_
    rw [hat, List.map_map, hsc]
    refine (hΦ.add (a := scoreBut F.scope.length (tbIn factors ev m f F) i) (C := -g f i s + (((List.range F.scope.length).filter (fun j => j ≠ i)).map k).sum) hne fun r hr => ?_).trans ?_
    · obtain ⟨hr1, hr2⟩ := List.mem_filter.1 hr
      have hr2 : r.1[i]? = some s := by simpa using hr2
      have hfit := hrow r hr1
      simp only [Function.comp, scoreBut]
      rw [termsOf_but hil, show r.1.getD i 0 = s by rw [List.getD, hr2]; rfl]
      have e : ((List.range F.scope.length).filter (fun j => j ≠ i)).map (fun j => tbIn factors' ev' m' f F' j (r.1.getD j 0)) =
          ((List.range F.scope.length).filter (fun j => j ≠ i)).map (fun j => tbIn factors ev m f F j (r.1.getD j 0) + g f j (r.1.getD j 0) + k j) := by
        refine List.map_congr_left fun j hj => ?_
        have hj := List.mem_range.1 (List.mem_filter.1 hj).1
        have hw := List.getElem?_eq_getElem hj
        refine hin j _ _ hw ?_
        have hlen := hfit.length_eq
        have := (List.forall₂_iff_get.1 hfit).2 j (by omega) hj
        rw [List.getD, List.getElem?_eq_getElem (by omega)]
        exact this
      rw [e]
      generalize (List.range F.scope.length).filter (fun j => j ≠ i) = l
      clear e hat
      have : (l.map (fun j => tbIn factors ev m f F j (r.1.getD j 0) + g f j (r.1.getD j 0) + k j)).sum =
          (l.map (fun j => tbIn factors ev m f F j (r.1.getD j 0))).sum + (l.map (fun j => g f j (r.1.getD j 0))).sum + (l.map k).sum := by
        induction l with
        | nil => simp
        | cons j l ih =>
          simp only [List.map_cons, List.sum_cons]
          rw [ih]
          ring
      rw [this]
      ring
    · ring

/-- Every state of every variable occurs in a complete table. -/
theorem SFac.Complete.full {F : SFac α} (hF : F.Complete) (hrow : ∀ r ∈ F.rows, List.Forall₂ (fun s (v : Var) => s < v.n) r.1 F.scope) (hne : F.rows ≠ []) : F.Full := by
  intro i v s hi hs hnil
  obtain ⟨r, hr⟩ := List.exists_mem_of_ne_nil _ hne
  have hr' := hrow r hr
  have hlt : i < r.1.length := by
    rw [hr'.length_eq]
    exact (List.getElem?_eq_some_iff.1 hi).1
  obtain ⟨w, hw, hlt'⟩ := forall₂_getElem? hr' (List.getElem?_eq_getElem hlt)
  rw [hi] at hw
  cases hw
  obtain ⟨φ, hp, -⟩ := hF.perm hrow hi hlt' hs
  rw [hnil] at hp
  have := List.perm_nil.1 hp
  rw [List.map_eq_nil_iff] at this
  have hmem : r ∈ F.rowsAt i r.1[i] := List.mem_filter.2 ⟨hr, by simp [List.getElem?_eq_getElem hlt]⟩
  rw [this] at hmem
  cases hmem

/-- The damped message of a complete table with log potentials in a range of 1000, before normalisation: it is not clipped. -/
theorem SFac.Complete.damped_range {F : SFac α} (hF : F.Complete) (hrow : ∀ r ∈ F.rows, List.Forall₂ (fun s (v : Var) => s < v.n) r.1 F.scope) (hne : F.rows ≠ [])
    (hR : F.Within 1000) {Φ : List α → α} (hΦ : Summary Φ) (q : Nat → Nat → α) {i : Nat} {v : Var} (hi : F.scope[i]? = some v) {m : Nat → α}
    (hm : ∀ s < v.n, -1000 ≤ m s ∧ m s ≤ 0) {d : α} (hd : 0 ≤ d ∧ d ≤ 1) :
    ∃ x : Nat → α, (∀ s < v.n, (sumOut Φ F q i s).map (fun x => d * m s + (1 - d) * x) = WithBot.some (x s)) ∧ ∀ s < v.n, ∀ t < v.n, x s - x t ≤ 1000 := by
  have hfull := hF.full hrow hne
  refine ⟨fun s => d * m s + (1 - d) * Φ ((F.rowsAt i s).map (scoreBut F.scope.length q i)), fun s hs => ?_, fun s hs t ht => ?_⟩
  · unfold sumOut
    rw [if_neg (hfull i v s hi hs)]
    rfl
  · have h1 := hF.out_le hrow hR hΦ q hi hs ht (hfull i v s hi hs)
    have h2 := hm s hs
    have h3 := hm t ht
    have h4 := mul_le_mul_of_nonneg_left (show m s - m t ≤ 1000 by linarith) hd.1
    have h5 := mul_le_mul_of_nonneg_left (show Φ ((F.rowsAt i s).map (scoreBut F.scope.length q i)) - Φ ((F.rowsAt i t).map (scoreBut F.scope.length q i)) ≤ 1000 by linarith) (sub_nonneg.2 hd.2)
    simp only
    linarith

theorem Moved.rows_fit {g : Msgs α} {vars : Finset Var} {factors factors' : List (SFac α)} {ev ev' : Var → Nat → α} (h : Moved g vars factors factors' ev ev') {f : Nat} {F F' : SFac α} (hF : factors[f]? = some F)
    (hF' : factors'[f]? = some F') (hrow : ∀ r ∈ F.rows, List.Forall₂ (fun s (v : Var) => s < v.n) r.1 F.scope) :
    ∀ r ∈ F'.rows, List.Forall₂ (fun s (v : Var) => s < v.n) r.1 F'.scope := by
  obtain ⟨hsc, hrows⟩ := h.factor f F F' hF hF'
  intro r hr
  rw [hrows] at hr
  obtain ⟨r0, hr0, rfl⟩ := List.mem_map.1 hr
  rw [hsc]
  exact hrow r0 hr0

theorem Moved.complete {g : Msgs α} {vars : Finset Var} {factors factors' : List (SFac α)} {ev ev' : Var → Nat → α} (h : Moved g vars factors factors' ev ev') {f : Nat} {F F' : SFac α} (hF : factors[f]? = some F)
    (hF' : factors'[f]? = some F') (hc : F.Complete) : F'.Complete := by
  obtain ⟨hsc, hrows⟩ := h.factor f F F' hF hF'
  refine ⟨?_, fun c hcc => ?_⟩
  · rw [hrows, List.map_map]
    exact hc.1
  · rw [hsc] at hcc
    obtain ⟨x, hx⟩ := hc.2 c hcc
    exact ⟨_, by rw [hrows]; exact List.mem_map.2 ⟨_, hx, rfl⟩⟩

/-- One iteration in the two models. -/
theorem Moved.step {g : Msgs α} {vars : Finset Var} {factors factors' : List (SFac α)} {ev ev' : Var → Nat → α} (h : Moved g vars factors factors' ev ev') (hvars : ∀ F ∈ factors, ∀ v ∈ F.scope, v ∈ vars) {Φ : Nat → List α → α} (hΦ : ∀ f, Summary (Φ f))
    (hrow : ∀ F ∈ factors, ∀ r ∈ F.rows, List.Forall₂ (fun s (v : Var) => s < v.n) r.1 F.scope)
    (hfree : ∀ f F F', factors[f]? = some F → factors'[f]? = some F' → MovesFreely g f F F') {d : α} (hd : 0 ≤ d ∧ d ≤ 1) {m m' : Msgs α}
    (hm : MovedMsgs (factors.map (·.scope)) g m m') (hcl : Clipped (factors.map (·.scope)) m) (hcl' : Clipped (factors.map (·.scope)) m') :
    MovedMsgs (factors.map (·.scope)) g (sumStep Φ factors ev d m) (sumStep Φ factors' ev' d m') := by
  have key : ∀ f i, ∃ c, ∀ v s, IsEdge (factors.map (·.scope)) f i v → s < v.n → sumStep Φ factors' ev' d m' f i s = sumStep Φ factors ev d m f i s - g f i s + c := by
    intro f i
    by_cases he : ∃ v, IsEdge (factors.map (·.scope)) f i v
    · obtain ⟨v, he⟩ := he
      have huniq : ∀ w, IsEdge (factors.map (·.scope)) f i w → w = v := by
        rintro w ⟨vs, h1, h2⟩
        obtain ⟨vs', h1', h2'⟩ := he
        rw [h1] at h1'
        cases h1'
        rw [h2] at h2'
        exact Option.some.inj h2'
      suffices hsuf : ∃ c, ∀ s < v.n, sumStep Φ factors' ev' d m' f i s = sumStep Φ factors ev d m f i s - g f i s + c by
        obtain ⟨c, hc⟩ := hsuf
        exact ⟨c, fun w s hw hs => hc s (by rw [← huniq w hw]; exact hs)⟩
      have hcm := hm
      obtain ⟨c, hc⟩ := hm
      obtain ⟨vs, h1, h2⟩ := he
      rw [List.getElem?_map, Option.map_eq_some_iff] at h1
      obtain ⟨F, hF, rfl⟩ := h1
      have hlt := (List.getElem?_eq_some_iff.1 hF).1
      obtain ⟨F', hF'⟩ : ∃ F', factors'[f]? = some F' := ⟨_, List.getElem?_eq_getElem (by rw [h.length]; exact hlt)⟩
      obtain ⟨hsc, hrows⟩ := h.factor f F F' hF hF'
      have he : IsEdge (factors.map (·.scope)) f i v := ⟨F.scope, by rw [List.getElem?_map, hF]; rfl, h2⟩
      have hrF := hrow F (List.mem_of_getElem? hF)
      obtain ⟨C, hC⟩ := h.out hvars (hΦ f) hF hF' hrF hcm h2
      have h2' : F'.scope[i]? = some v := by rw [hsc]; exact h2
      have hx' : ∀ s < v.n, (sumOut (Φ f) F' (tbIn factors' ev' m' f F') i s).map (fun x => d * m' f i s + (1 - d) * x) =
          ((sumOut (Φ f) F (tbIn factors ev m f F) i s).map (fun x => d * m f i s + (1 - d) * x)).map (fun y => y - g f i s + (d * c f i + (1 - d) * C)) := by
        intro s hs
        rw [hC s hs, hc f i v s he hs]
        cases sumOut (Φ f) F (tbIn factors ev m f F) i s with
        | bot => rfl
        | coe o =>
          refine congrArg WithBot.some ?_
          ring
      rcases hfree f F F' hF hF' with hg | ⟨hcomp, hne, hW, hW'⟩
      · rcases Nat.eq_zero_or_pos v.n with h0 | hpos
        · exact ⟨0, fun s hs => by omega⟩
        refine ⟨g f i 0, fun s hs => ?_⟩
        rw [sumStep_at Φ hF' h2', sumStep_at Φ hF h2, tbNorm_add (x := fun s => (sumOut (Φ f) F (tbIn factors ev m f F) i s).map (fun x => d * m f i s + (1 - d) * x))
          (C := -g f i 0 + (d * c f i + (1 - d) * C)) (fun t ht => ?_) hs, hg i v h2 s hs 0 hpos]
        · ring
        · rw [hx' t ht, hg i v h2 t ht 0 hpos]
          congr 1
          funext y
          ring
      · obtain ⟨x, e1, r1⟩ := hcomp.damped_range hrF hne hW (hΦ f) (tbIn factors ev m f F) h2 (fun s hs => hcl f i v s he hs) hd
        obtain ⟨x', e1', r1'⟩ := (h.complete hF hF' hcomp).damped_range (h.rows_fit hF hF' hrF) (by rw [hrows]; simpa using hne) hW' (hΦ f) (tbIn factors' ev' m' f F') h2'
          (fun s hs => hcl' f i v s he hs) hd
        obtain ⟨k, hk⟩ := tbNorm_moved (x := x) (x' := x') (g := g f i) (C := d * c f i + (1 - d) * C) (fun s hs => by
          have := hx' s hs
          rw [e1 s hs, e1' s hs] at this
          exact WithBot.coe_injective this) r1 r1'
        refine ⟨k, fun s hs => ?_⟩
        rw [sumStep_at Φ hF' h2', sumStep_at Φ hF h2, tbNorm_congr e1 hs, tbNorm_congr e1' hs]
        exact hk s hs
    · exact ⟨0, fun v s hv => absurd ⟨v, hv⟩ he⟩
  choose c hc using key
  exact ⟨c, fun f i v s he hs => hc f i v s he hs⟩

theorem sumRun_clipped (Φ : Nat → List α → α) (factors : List (SFac α)) (ev : Var → Nat → α) (d : α) (n : Nat) (m : Msgs α) :
    Clipped (factors.map (·.scope)) (sumRun Φ factors ev d n m) := by
  rintro f i v s ⟨vs, h1, h2⟩ hs
  rw [List.getElem?_map, Option.map_eq_some_iff] at h1
  obtain ⟨F, hF, rfl⟩ := h1
  cases n with
  | zero =>
    simp only [sumRun]
    rw [tbInit_at hF h2]
    exact tbNorm_mem _ hs
  | succ n =>
    simp only [sumRun]
    rw [sumStep_at Φ hF h2]
    exact tbNorm_mem _ hs

/-- All iterations in the two models. -/
theorem Moved.run {g : Msgs α} {vars : Finset Var} {factors factors' : List (SFac α)} {ev ev' : Var → Nat → α} (h : Moved g vars factors factors' ev ev') (hvars : ∀ F ∈ factors, ∀ v ∈ F.scope, v ∈ vars) {Φ : Nat → List α → α} (hΦ : ∀ f, Summary (Φ f))
    (hrow : ∀ F ∈ factors, ∀ r ∈ F.rows, List.Forall₂ (fun s (v : Var) => s < v.n) r.1 F.scope)
    (hfree : ∀ f F F', factors[f]? = some F → factors'[f]? = some F' → MovesFreely g f F F') {d : α} (hd : 0 ≤ d ∧ d ≤ 1) {m m' : Msgs α}
    (hm : MovedMsgs (factors.map (·.scope)) g (tbInit factors m) (tbInit factors' m')) (n : Nat) :
    MovedMsgs (factors.map (·.scope)) g (sumRun Φ factors ev d n m) (sumRun Φ factors' ev' d n m') := by
  induction n with
  | zero => exact hm
  | succ n ih => exact h.step hvars hΦ hrow hfree hd ih (sumRun_clipped _ _ _ _ _ _) (h.scopes ▸ sumRun_clipped _ _ _ _ _ _)

/-- A separable complete table, without damping and normalisation. -/
theorem SFac.Complete.separable_out {F : SFac α} (hF : F.Complete) (hrow : ∀ r ∈ F.rows, List.Forall₂ (fun s (v : Var) => s < v.n) r.1 F.scope) (hne : F.rows ≠ [])
    {g : Nat → Nat → α} (hg : F.Separable g) {Φ : List α → α} (hΦ : Summary Φ) (q : Nat → Nat → α) {i : Nat} {v : Var} (hi : F.scope[i]? = some v) :
    ∃ K, ∀ s < v.n, sumOut Φ F q i s = WithBot.some (g i s + K) := by
  have hfull := hF.full hrow hne
  rcases Nat.eq_zero_or_pos v.n with h0 | hpos
  · exact ⟨0, fun s hs => by omega⟩
  obtain ⟨k, hk⟩ := hg
  have hil := (List.getElem?_eq_some_iff.1 hi).1
  refine ⟨Φ ((F.rowsAt i 0).map (scoreBut F.scope.length q i)) - g i 0, fun s hs => ?_⟩
  unfold sumOut
  rw [if_neg (hfull i v s hi hs)]
  refine congrArg WithBot.some ?_
  obtain ⟨φ, hp, hφ⟩ := hF.perm hrow hi hpos hs
  rw [← hΦ.perm _ _ (hp.map _), List.map_map]
  refine (hΦ.add (a := scoreBut F.scope.length q i) (C := g i s - g i 0) (hfull i v 0 hi hpos) fun r hr => ?_).trans (by ring)
  obtain ⟨hr1, hr2⟩ := List.mem_filter.1 hr
  have hr2 : r.1[i]? = some 0 := by simpa using hr2
  have hφr : φ r ∈ F.rowsAt i s := hp.mem_iff.1 (List.mem_map.2 ⟨r, hr, rfl⟩)
  obtain ⟨hq1, hq2⟩ := List.mem_filter.1 hφr
  have hq2 : (φ r).1[i]? = some s := by simpa using hq2
  have hsame : ∀ (y : Nat → Nat → α), ((List.range F.scope.length).filter (fun j => j ≠ i)).map (fun j => y j ((φ r).1.getD j 0))
      = ((List.range F.scope.length).filter (fun j => j ≠ i)).map (fun j => y j (r.1.getD j 0)) := by
    intro y
    refine List.map_congr_left fun j hj => ?_
    have hji : j ≠ i := by simpa using (List.mem_filter.1 hj).2
    rw [hφ r hr, List.getD, List.getD, List.getElem?_set_ne hji.symm]
  simp only [Function.comp, scoreBut]
  rw [hk _ hq1, hk _ hr1, termsOf_but hil, termsOf_but hil, hsame, hsame, show r.1.getD i 0 = 0 by rw [List.getD, hr2]; rfl, show (φ r).1.getD i 0 = s by rw [List.getD, hq2]; rfl]
  ring

/-- The messages of a separable complete table. -/
theorem SFac.Complete.separable_run {factors : List (SFac α)} {f : Nat} {F : SFac α} (hFf : factors[f]? = some F) (hF : F.Complete)
    (hrow : ∀ r ∈ F.rows, List.Forall₂ (fun s (v : Var) => s < v.n) r.1 F.scope) (hne : F.rows ≠ [])
    {g : Nat → Nat → α} (hg : F.Separable g) {Φ : Nat → List α → α} (hΦ : Summary (Φ f)) (ev : Var → Nat → α) {d : α} (hd : 0 ≤ d ∧ d ≤ 1) {i : Nat} {v : Var} (hi : F.scope[i]? = some v)
    (hspread : ∀ s < v.n, ∀ t < v.n, g i s - g i t ≤ 1000) (m : Msgs α) (n : Nat) :
    ∃ C, ∀ s < v.n, sumRun Φ factors ev d n m f i s = d ^ n * sumRun Φ factors ev d 0 m f i s + (1 - d ^ n) * g i s + C := by
  have he : IsEdge (factors.map (·.scope)) f i v := ⟨F.scope, by rw [List.getElem?_map, hFf]; rfl, hi⟩
  have h0 : ∀ s < v.n, -1000 ≤ sumRun Φ factors ev d 0 m f i s ∧ sumRun Φ factors ev d 0 m f i s ≤ 0 := fun s hs => sumRun_clipped Φ factors ev d 0 m f i v s he hs
  induction n with
  | zero => exact ⟨0, fun s hs => by rw [pow_zero]; ring⟩
  | succ n ih =>
    obtain ⟨C, hC⟩ := ih
    obtain ⟨K, hK⟩ := hF.separable_out hrow hne hg hΦ (tbIn factors ev (sumRun Φ factors ev d n m) f F) hi
    generalize sumRun Φ factors ev d 0 m = m0 at *
    simp only [sumRun]
    have hp : 0 ≤ d ^ (n + 1) := pow_nonneg hd.1 _
    have hp1 : d ^ (n + 1) ≤ 1 := pow_le_one₀ hd.1 hd.2
    obtain ⟨c, hc⟩ := tbNorm_moved (n := v.n) (x := fun s => d ^ (n + 1) * m0 f i s + (1 - d ^ (n + 1)) * g i s)
      (x' := fun s => d * sumRun Φ factors ev d n m f i s + (1 - d) * (g i s + K)) (g := fun _ => 0) (C := d * C + (1 - d) * K) (fun s hs => by
        rw [hC s hs, pow_succ]
        ring) (fun s hs t ht => by
        have h1 := mul_le_mul_of_nonneg_left (show m0 f i s - m0 f i t ≤ 1000 by linarith [(h0 s hs).2, (h0 t ht).1]) hp
        have h2 := mul_le_mul_of_nonneg_left (hspread s hs t ht) (sub_nonneg.2 hp1)
        linarith) (fun s hs t ht => by
        have h1 := mul_le_mul_of_nonneg_left (show m0 f i s - m0 f i t ≤ 1000 by linarith [(h0 s hs).2, (h0 t ht).1]) hp
        have h2 := mul_le_mul_of_nonneg_left (hspread s hs t ht) (sub_nonneg.2 hp1)
        rw [pow_succ] at h1 h2
        rw [hC s hs, hC t ht]
        linarith)
    obtain ⟨C', hC'⟩ : ∃ C', ∀ s < v.n, tbNorm v.n (fun s => WithBot.some (d ^ (n + 1) * m0 f i s + (1 - d ^ (n + 1)) * g i s)) s = d ^ (n + 1) * m0 f i s + (1 - d ^ (n + 1)) * g i s + C' := by
      rcases Nat.eq_zero_or_pos v.n with hz | hpos
      · exact ⟨0, fun s hs => by omega⟩
      obtain ⟨t, ht, he⟩ := Finset.exists_mem_eq_sup (Finset.range v.n) ⟨0, Finset.mem_range.2 hpos⟩
        (fun s => (WithBot.some (d ^ (n + 1) * m0 f i s + (1 - d ^ (n + 1)) * g i s) : WithBot α))
      have ht := Finset.mem_range.1 ht
      refine ⟨-(d ^ (n + 1) * m0 f i t + (1 - d ^ (n + 1)) * g i t), fun s hs => ?_⟩
      rw [tbNorm_coe he rfl, max_eq_left]
      · ring
      · have h1 := mul_le_mul_of_nonneg_left (show m0 f i t - m0 f i s ≤ 1000 by linarith [(h0 t ht).2, (h0 s hs).1]) hp
        have h2 := mul_le_mul_of_nonneg_left (hspread t ht s hs) (sub_nonneg.2 hp1)
        linarith
    refine ⟨C' + c, fun s hs => ?_⟩
    rw [sumStep_at Φ hFf hi, tbNorm_congr (y := fun s => WithBot.some (d * sumRun Φ factors ev d n m f i s + (1 - d) * (g i s + K))) (fun t ht => by rw [hK t ht]; rfl) hs, hc s hs, hC' s hs]
    ring

end
end PGMax
