import Verif.Lemmas.ZeroTemp
import Verif.Lemmas.Shift
import Verif.Spec.Stability

/-! Helper lemmas: stability of belief propagation. -/

namespace PGMax

theorem spread_succ (L A ε D : ℝ) (n : Nat) : spread L A ε D (n + 1) = 4 * (L * spread L A ε D n + A * ε) := by
  unfold spread
  rw [Finset.sum_range_succ']
  simp only [pow_succ, pow_zero]
  rw [← Finset.sum_mul]
  ring

theorem spread_nonneg {L A ε D : ℝ} (hL : 1 ≤ L) (hA : 0 ≤ A) (hε : 0 ≤ ε) (hD : 0 ≤ D) (n : Nat) : 0 ≤ spread L A ε D n := by
  unfold spread
  have h1 : (0 : ℝ) ≤ 4 * L := by linarith
  have h2 : 0 ≤ ∑ k ∈ Finset.range n, (4 * L) ^ k := Finset.sum_nonneg (fun k _ => pow_nonneg h1 _)
  have h3 := pow_nonneg h1 n
  positivity

theorem forall₂_map_self {β γ δ : Type _} {R : γ → δ → Prop} {l : List β} {f : β → γ} {g : β → δ} (h : ∀ x ∈ l, R (f x) (g x)) : List.Forall₂ R (l.map f) (l.map g) := by
  induction l with
  | nil => exact .nil
  | cons x l ih => exact .cons (h x (by simp)) (ih (fun y hy => h y (by simp [hy])))

theorem forall₂_imp_mem {β γ : Type _} {R S : β → γ → Prop} {l : List β} {l' : List γ} (h : List.Forall₂ R l l') (hi : ∀ x ∈ l, ∀ y ∈ l', R x y → S x y) : List.Forall₂ S l l' := by
  induction h with
  | nil => exact .nil
  | cons h1 h2 ih => exact .cons (hi _ (by simp) _ (by simp) h1) (ih (fun x hx y hy => hi x (by simp [hx]) y (by simp [hy])))

theorem maxOf_near {l l' : List ℝ} {E : ℝ} (hE : 0 ≤ E) (h : Near E l l') : |maxOf 0 l - maxOf 0 l'| ≤ E := by
  have hl := h.length_eq
  have h1 := maxOf_close (l := l.zip l') (c := []) (f := Prod.fst) (g := Prod.snd) hE (by
    rintro ⟨x, y⟩ hxy
    exact (List.forall₂_iff_zip.1 h).2 hxy)
  rwa [List.append_nil, List.append_nil, List.map_fst_zip (by omega), List.map_snd_zip (by omega)] at h1

theorem lse_near {T : ℝ} (hT : 0 < T) {l l' : List ℝ} {E : ℝ} (hE : 0 ≤ E) (h : Near E l l') : |lse T l - lse T l'| ≤ E := by
  have hl := h.length_eq
  by_cases hne : l = []
  · subst hne
    cases h
    simpa using hE
  have h1 := lse_close (l := l.zip l') (g := Prod.fst) (g' := Prod.snd) hT (by
      intro h0
      have := congrArg List.length h0
      simp at this
      have h2 := List.length_pos_of_ne_nil hne
      rcases this with rfl | rfl
      · exact hne rfl
      · simp at hl; exact hne hl) (E := E) (by
    rintro ⟨x, y⟩ hxy
    exact (List.forall₂_iff_zip.1 h).2 hxy)
  rwa [List.map_fst_zip (by omega), List.map_snd_zip (by omega)] at h1

theorem lse_shift {T : ℝ} (hT : 0 < T) {l : List ℝ} (hl : l ≠ []) (c : ℝ) : lse T (l.map (· + c)) = lse T l + c := by
  unfold lse
  rw [List.map_map]
  have e : (l.map ((fun x => Real.exp (x / T)) ∘ (· + c))).sum = Real.exp (c / T) * (l.map (fun x => Real.exp (x / T))).sum := by
    rw [← List.sum_map_mul_left]
    congr 1
    apply List.map_congr_left
    intro x _
    simp only [Function.comp_apply]
    rw [← Real.exp_add]
    congr 1
    ring
  rw [e, Real.log_mul (Real.exp_pos _).ne' (sum_map_exp_pos hl (fun x => x / T)).ne', Real.log_exp]
  field_simp
  ring

theorem maxOf_shift {l : List ℝ} (hl : l ≠ []) (c : ℝ) : maxOf 0 (l.map (· + c)) = maxOf 0 l + c := by
  obtain ⟨a1, a2⟩ := maxOf_spec 0 (l.map (· + c)) (by simpa using hl)
  obtain ⟨b1, b2⟩ := maxOf_spec 0 l hl
  apply le_antisymm
  · obtain ⟨x, hx, he⟩ := List.mem_map.1 a1
    rw [← he]
    have := b2 x hx
    show x + c ≤ _
    linarith
  · exact a2 _ (List.mem_map.2 ⟨_, b1, rfl⟩)

/-- A summary of an enumeration factor does not amplify. -/
theorem floor_eq (l : List ℝ) (c : ℝ) : maxFloor (l.map (· + c)) - c = maxOf 0 ((-100000 - c) :: l) := by
  rw [maxFloor_eq, show (-100000 : ℝ) :: l.map (· + c) = ((-100000 - c) :: l).map (· + c) by simp, maxOf_shift (by simp)]
  ring

/-- The scores of the configurations for state `t` of position `i`, and the incoming message of that position, differ by at most `E`. -/
structure ScoresNear (E : ℝ) (F F' : SFac ℝ) (q q' : Nat → Nat → ℝ) (i s : Nat) : Prop where
  nonneg : 0 ≤ E
  scores : ∀ t, Near E ((F.rowsAt i t).map (scoreBut F.scope.length q i)) ((F'.rowsAt i t).map (scoreBut F'.scope.length q' i))
  own : |q i s - q' i s| ≤ E

/-- A rule that amplifies differences at most by 2. -/
def RuleLip (out : Nat → SFac ℝ → (Nat → Nat → ℝ) → Nat → Nat → ℝ) : Prop :=
  ∀ (f : Nat) (F F' : SFac ℝ) (q q' : Nat → Nat → ℝ) (i s : Nat) (E : ℝ), ScoresNear E F F' q q' i s → |out f F q i s - out f F' q' i s| ≤ 2 * E

theorem ScoresNear.floor {E : ℝ} {F F' : SFac ℝ} {q q' : Nat → Nat → ℝ} {i s : Nat} (h : ScoresNear E F F' q q' i s) :
    |maxOf 0 ((-100000 - q i s) :: (F.rowsAt i s).map (scoreBut F.scope.length q i)) - maxOf 0 ((-100000 - q' i s) :: (F'.rowsAt i s).map (scoreBut F'.scope.length q' i))| ≤ E := by
  refine maxOf_near h.nonneg (.cons ?_ (h.scores s))
  rw [sub_sub_sub_cancel_left, abs_sub_comm]
  exact h.own

theorem map_add_map {β : Type _} (l : List β) (f : β → ℝ) (c : ℝ) : l.map (fun r => f r + c) = (l.map f).map (· + c) := by
  rw [List.map_map]; rfl

theorem ruleLip_limit {κ : Type _} (fg : FactorGraph κ ℝ) : RuleLip (flOutLimit fg) := by
  intro f F F' q q' i s E h
  have h0 := h.nonneg
  unfold flOutLimit
  split
  · unfold flEnum
    rw [map_add_map _ _ (q i s), map_add_map _ _ (q' i s), floor_eq, floor_eq]
    have := h.floor
    linarith
  · have h1 := abs_le.1 (maxOf_near h0 (h.scores s))
    have h2 := abs_le.1 (maxOf_near h0 (h.scores (fg.restState f)))
    rw [abs_le]
    constructor <;> linarith

theorem ruleLip_sum {κ : Type _} {T : ℝ} (hT : 0 < T) (fg : FactorGraph κ ℝ) : RuleLip (flOutSum T fg) := by
  intro f F F' q q' i s E h
  have h0 := h.nonneg
  unfold flOutSum
  split
  · have key : ∀ (F : SFac ℝ) (q : Nat → Nat → ℝ), flEnumSum T F q i s = lse T ((maxOf 0 ((-100000 - q i s) :: (F.rowsAt i s).map (scoreBut F.scope.length q i)) - T * 100000)
        :: (F.rowsAt i s).map (scoreBut F.scope.length q i)) := by
      intro F q
      unfold flEnumSum
      rw [map_add_map _ _ (q i s)]
      generalize (F.rowsAt i s).map (scoreBut F.scope.length q i) = l
      have e : (maxFloor (l.map (· + q i s)) - T * 100000) :: l.map (· + q i s) = ((maxOf 0 ((-100000 - q i s) :: l) - T * 100000) :: l).map (· + q i s) := by
        rw [← floor_eq, List.map_cons]
        congr 1
        ring
      rw [e, lse_shift hT (by simp)]
      ring
    rw [key, key]
    have := lse_near hT h0 (List.Forall₂.cons (l₁ := (F.rowsAt i s).map (scoreBut F.scope.length q i)) (l₂ := (F'.rowsAt i s).map (scoreBut F'.scope.length q' i))
      (a := maxOf 0 ((-100000 - q i s) :: (F.rowsAt i s).map (scoreBut F.scope.length q i)) - T * 100000)
      (b := maxOf 0 ((-100000 - q' i s) :: (F'.rowsAt i s).map (scoreBut F'.scope.length q' i)) - T * 100000) (by
        rw [sub_sub_sub_cancel_right]; exact h.floor) (h.scores s))
    linarith
  · have h1 := abs_le.1 (lse_near hT h0 (h.scores s))
    have h2 := abs_le.1 (lse_near hT h0 (h.scores (fg.restState f)))
    rw [abs_le]
    constructor <;> linarith

/-- Two factors over the same variables with the same configurations, and nearly the same log potentials. -/
structure FacNear (ε : ℝ) (F F' : SFac ℝ) : Prop where
  scope : F.scope = F'.scope
  rows : List.Forall₂ (fun r r' => r.1 = r'.1 ∧ |r.2 - r'.2| ≤ ε) F.rows F'.rows

theorem FacNear.rowsAt {ε : ℝ} {F F' : SFac ℝ} (h : FacNear ε F F') (i t : Nat) :
    List.Forall₂ (fun r r' => r.1 = r'.1 ∧ |r.2 - r'.2| ≤ ε) (F.rowsAt i t) (F'.rowsAt i t) := by
  unfold SFac.rowsAt
  have := h.rows
  generalize F.rows = l at this
  generalize F'.rows = l' at this
  induction this with
  | nil => exact .nil
  | cons h1 _ ih =>
    rw [List.filter_cons, List.filter_cons, h1.1]
    split
    · exact .cons h1 ih
    · exact ih

variable {factors factors' : List (SFac ℝ)} {ev ev' : Var → Nat → ℝ} {ε : ℝ} {L A : ℝ}

theorem varToFac_near {scopes : List (List Var)} {m m' : Msgs ℝ} {D : ℝ} {f i : Nat} {v : Var} (he : IsEdge scopes f i v) {s : Nat} (hs : s < v.n)
    (hev : |ev v s - ev' v s| ≤ ε) (h : ∀ f i v s, IsEdge scopes f i v → s < v.n → |m f i s - m' f i s| ≤ D) :
    |varToFac scopes ev m v (f, i) s - varToFac scopes ev' m' v (f, i) s| ≤ ε + D * (((edgesOf scopes v).length - 1 : Nat) : ℝ) := by
  have h1 := varToFac_close ev he hs h
  have e : varToFac scopes ev m' v (f, i) s - varToFac scopes ev' m' v (f, i) s = ev v s - ev' v s := by unfold varToFac; ring
  calc _ = |(varToFac scopes ev m v (f, i) s - varToFac scopes ev m' v (f, i) s) + (varToFac scopes ev m' v (f, i) s - varToFac scopes ev' m' v (f, i) s)| := by ring_nf
    _ ≤ _ := by
      refine le_trans (abs_add_le _ _) ?_
      rw [e]
      linarith

/-- The two graphs have the same variables and configurations, and nearly the same numbers. -/
structure InNear (ε : ℝ) (factors factors' : List (SFac ℝ)) (ev ev' : Var → Nat → ℝ) : Prop where
  nonneg : 0 ≤ ε
  facs : List.Forall₂ (FacNear ε) factors factors'
  evs : ∀ f i v s, IsEdge (factors.map (·.scope)) f i v → s < v.n → |ev v s - ev' v s| ≤ ε
  fits : ∀ F ∈ factors, ∀ r ∈ F.rows, List.Forall₂ (fun s (v : Var) => s < v.n) r.1 F.scope

theorem InNear.scopes (h : InNear ε factors factors' ev ev') : factors.map (·.scope) = factors'.map (·.scope) := by
  have := h.facs
  clear h
  induction this with
  | nil => rfl
  | cons h1 _ ih => rw [List.map_cons, List.map_cons, h1.scope, ih]

theorem InNear.fac (h : InNear ε factors factors' ev ev') {f : Nat} {F : SFac ℝ} (hF : factors[f]? = some F) : ∃ F', factors'[f]? = some F' ∧ FacNear ε F F' :=
  forall₂_getElem? h.facs hF

theorem InNear.scores (h : InNear ε factors factors' ev ev') (hin : Inputs (factors.map (·.scope)) L A) {m m' : Msgs ℝ} {D : ℝ} (hD : 0 ≤ D)
    (hm : ∀ f i v s, IsEdge (factors.map (·.scope)) f i v → s < v.n → |m f i s - m' f i s| ≤ D) {f : Nat} {F F' : SFac ℝ} (hF : factors[f]? = some F)
    (hF' : factors'[f]? = some F') (hn : FacNear ε F F') {i s : Nat} {v : Var} (hi : F.scope[i]? = some v) (hs : s < v.n) :
    ScoresNear (L * D + A * ε) F F' (tbIn factors ev m f F) (tbIn factors' ev' m' f F') i s := by
  have hε := h.nonneg
  have hsm : F.scope ∈ factors.map (·.scope) := List.mem_map.2 ⟨F, List.mem_of_getElem? hF, rfl⟩
  have hLF := hin.inputs _ hsm
  have hAF := hin.arity _ hsm
  have hL1 := hin.one_le
  have hedge : ∀ {j w}, F.scope[j]? = some w → IsEdge (factors.map (·.scope)) f j w := fun hj => ⟨_, getElem?_scopes hF, hj⟩
  have hq : ∀ (j t : Nat) (w : Var), F.scope[j]? = some w → t < w.n →
      |tbIn factors ev m f F j t - tbIn factors' ev' m' f F' j t| ≤ ε + D * (((edgesOf (factors.map (·.scope)) w).length - 1 : Nat) : ℝ) := by
    intro j t w hj ht
    rw [tbIn_at hj, tbIn_at (hn.scope ▸ hj), ← h.scopes]
    exact varToFac_near (hedge hj) ht (h.evs f j w t (hedge hj) ht) hm
  have hA0 : (0 : ℝ) ≤ F.scope.length := Nat.cast_nonneg _
  refine ⟨by nlinarith [mul_nonneg (by linarith : (0 : ℝ) ≤ A) hε], fun t => ?_, ?_⟩
  · refine List.forall₂_map_left_iff.2 (List.forall₂_map_right_iff.2 (forall₂_imp_mem (hn.rowsAt i t) ?_))
    rintro r hr r' hr' ⟨e1, e2⟩
    have hfit := h.fits F (List.mem_of_getElem? hF) r (List.mem_filter.1 hr).1
    have hlen := hfit.length_eq
    unfold scoreBut
    rw [← e1, ← hn.scope, add_sub_add_comm]
    have key : ∀ l : List Nat, (∀ j ∈ l, j < F.scope.length) → |(l.map (fun j => tbIn factors ev m f F j (r.1.getD j 0))).sum - (l.map (fun j => tbIn factors' ev' m' f F' j (r.1.getD j 0))).sum|
        ≤ (l.length : ℝ) * ε + D * ((l.map (fun j => (edgesOf (factors.map (·.scope)) (F.scope.getD j ⟨0, 0⟩)).length - 1)).sum : Nat) := by
      intro l
      induction l with
      | nil => simp
      | cons j l ih =>
        intro hl
        have h1 := ih (fun k hk => hl k (by simp [hk]))
        have hj := hl j (by simp)
        obtain ⟨w, hw, hlt⟩ := forall₂_getElem? hfit (List.getElem?_eq_getElem (show j < r.1.length by omega))
        have h2 := hq j _ w hw hlt
        simp only [List.map_cons, List.sum_cons, List.length_cons]
        rw [getD_of_some hw, getD_of_some (List.getElem?_eq_getElem (show j < r.1.length by omega))]
        rw [add_sub_add_comm]
        push_cast
        refine le_trans (abs_add_le _ _) ?_
        rw [mul_add, add_mul]
        push_cast at h1 h2
        linarith
    have h1 := key ((List.range F.scope.length).filter (fun j => j ≠ i)) (fun j hj => by have := (List.mem_filter.1 hj).1; simpa using this)
    have h2 : ((((List.range F.scope.length).filter (fun j => j ≠ i)).length : Nat) : ℝ) ≤ F.scope.length := by
      exact_mod_cast le_trans (List.length_filter_le _ _) (by simp)
    have h3 : ((inputsBut (factors.map (·.scope)) F.scope i : Nat) : ℝ) ≤ L := le_trans (by exact_mod_cast inputsBut_le _ _ _) hLF
    unfold inputsBut at h3
    refine le_trans (abs_add_le _ _) ?_
    have h4 := mul_le_mul_of_nonneg_left h3 hD
    have h5 := mul_le_mul_of_nonneg_right h2 hε
    have h6 := mul_le_mul_of_nonneg_right hAF hε
    nlinarith
  · refine le_trans (hq i s v hi hs) ?_
    have h3 : (((edgesOf (factors.map (·.scope)) v).length - 1 : Nat) : ℝ) ≤ L := le_trans (by exact_mod_cast degree_le _ _ hi) hLF
    have h4 := mul_le_mul_of_nonneg_left h3 hD
    have h6 := mul_le_mul_of_nonneg_right hAF hε
    nlinarith

/-- One iteration. -/
theorem flStep_near {out : Nat → SFac ℝ → (Nat → Nat → ℝ) → Nat → Nat → ℝ} (hout : RuleLip out) (h : InNear ε factors factors' ev ev')
    (hin : Inputs (factors.map (·.scope)) L A) {m m' : Msgs ℝ} {D : ℝ} (hD : 0 ≤ D)
    (hm : ∀ f i v s, IsEdge (factors.map (·.scope)) f i v → s < v.n → |m f i s - m' f i s| ≤ D) {d : ℝ} (hd : 0 ≤ d ∧ d ≤ 1)
    (f i : Nat) (v : Var) (s : Nat) (he : IsEdge (factors.map (·.scope)) f i v) (hs : s < v.n) :
    |flStep out factors ev d m f i s - flStep out factors' ev' d m' f i s| ≤ 4 * (L * D + A * ε) := by
  obtain ⟨vs, h1, h2⟩ := id he
  rw [List.getElem?_map] at h1
  obtain ⟨F, hF, rfl⟩ := Option.map_eq_some_iff.1 h1
  obtain ⟨F', hF', hn⟩ := h.fac hF
  rw [flStep_at hF h2, flStep_at hF' (hn.scope ▸ h2), ← h.scopes, show 4 * (L * D + A * ε) = 2 * (2 * (L * D + A * ε)) by ring]
  have hsc : ∀ {t}, t < v.n → _ := fun {t} ht => h.scores hin hD hm hF hF' hn h2 ht
  have h0 := (hsc hs).nonneg
  refine flNorm_close (by linarith) ?_ hs
  intro t ht
  have e1 := abs_le.1 (hout f F F' _ _ i t _ (hsc ht))
  have e2 := abs_le.1 (hm f i v t he ht)
  have hL1 := hin.one_le
  have hAε : 0 ≤ A * ε := mul_nonneg (by
    have := hin.arity F.scope (List.mem_map.2 ⟨F, List.mem_of_getElem? hF, rfl⟩)
    have h0 : (0 : ℝ) ≤ F.scope.length := Nat.cast_nonneg _
    linarith) h.nonneg
  have hDL : D ≤ 2 * (L * D + A * ε) := by nlinarith
  generalize out f F (tbIn factors ev m f F) i t = a at *
  generalize out f F' (tbIn factors' ev' m' f F') i t = b at *
  have e : d * m f i t + (1 - d) * a - (d * m' f i t + (1 - d) * b) = d * (m f i t - m' f i t) + (1 - d) * (a - b) := by ring
  rw [e]
  generalize 2 * (L * D + A * ε) = E at *
  rw [abs_le]
  have e4 : -E ≤ m f i t - m' f i t ∧ m f i t - m' f i t ≤ E := ⟨by linarith, by linarith⟩
  constructor
  · nlinarith [mul_le_mul_of_nonneg_left e4.1 hd.1, mul_le_mul_of_nonneg_left e1.1 (sub_nonneg.2 hd.2)]
  · nlinarith [mul_le_mul_of_nonneg_left e4.2 hd.1, mul_le_mul_of_nonneg_left e1.2 (sub_nonneg.2 hd.2)]

/-- Runs from nearly the same inputs. -/
theorem flRun_near {out : Nat → SFac ℝ → (Nat → Nat → ℝ) → Nat → Nat → ℝ} (hout : RuleLip out) (h : InNear ε factors factors' ev ev')
    (hin : Inputs (factors.map (·.scope)) L A) {m m' : Msgs ℝ} {δ : ℝ} (hδ : 0 ≤ δ)
    (hm : ∀ f i v s, IsEdge (factors.map (·.scope)) f i v → s < v.n → |m f i s - m' f i s| ≤ δ) {d : ℝ} (hd : 0 ≤ d ∧ d ≤ 1) (n : Nat) :
    ∀ f i v s, IsEdge (factors.map (·.scope)) f i v → s < v.n → |flRun out factors ev d n m f i s - flRun out factors' ev' d n m' f i s| ≤ spread L A ε (2 * δ) n := by
  induction n with
  | zero =>
    intro f i v s he hs
    obtain ⟨vs, h1, h2⟩ := id he
    rw [List.getElem?_map] at h1
    obtain ⟨F, hF, rfl⟩ := Option.map_eq_some_iff.1 h1
    obtain ⟨F', hF', hn⟩ := h.fac hF
    show |flInit factors m f i s - flInit factors' m' f i s| ≤ _
    rw [flInit_at hF h2, flInit_at hF' (hn.scope ▸ h2), ← h.scopes]
    refine le_trans (flNorm_close hδ (fun t ht => hm f i v t he ht) hs) (le_of_eq ?_)
    simp [spread]
  | succ n ih =>
    intro f i v s he hs
    have hA : 0 ≤ A := by
      obtain ⟨vs, h1, -⟩ := he
      have := hin.arity vs (List.mem_of_getElem? h1)
      have h0 : (0 : ℝ) ≤ vs.length := Nat.cast_nonneg _
      linarith
    rw [spread_succ]
    exact flStep_near hout h hin (spread_nonneg hin.one_le hA h.nonneg (by linarith) n) ih hd f i v s he hs

section
variable {κ : Type _} {vgs : List (VGroup κ)} {hist : List (AddArg ℝ)} {garbage : Garbage} {st : FGState κ ℝ}

theorem Near.getD {x y : List ℝ} (h : Near ε x y) (hε : 0 ≤ ε) (k : Nat) : |x.getD k 0 - y.getD k 0| ≤ ε := by
  induction h generalizing k with
  | nil => simpa using hε
  | cons h1 _ ih =>
    cases k with
    | zero => simpa using h1
    | succ k => simpa using ih k

theorem zip_near {rows : List (List Nat)} {x y : List ℝ} (h : Near ε x y) : List.Forall₂ (fun r r' => r.1 = r'.1 ∧ |r.2 - r'.2| ≤ ε) (rows.zip x) (rows.zip y) := by
  induction h generalizing rows with
  | nil => simp
  | cons h1 _ ih =>
    cases rows with
    | nil => exact .nil
    | cons r rows => exact .cons ⟨rfl, h1⟩ ih

theorem tableFacs_near {L : List (List Var × Configs)} {lp lp' : List ℝ} (h : Near ε lp lp') : List.Forall₂ (FacNear ε) (tableFacs L lp) (tableFacs L lp') := by
  induction L generalizing lp lp' with
  | nil => exact .nil
  | cons p L ih =>
    obtain ⟨vs, cf⟩ := p
    exact .cons ⟨rfl, zip_near h⟩ (ih (List.forall₂_drop _ h))

theorem FacNear.refl (hε : 0 ≤ ε) (F : SFac ℝ) : FacNear ε F F := ⟨rfl, List.forall₂_same.2 (fun r _ => ⟨rfl, by simpa using hε⟩)⟩

/-- The factors and the evidence of two sets of arrays. -/
theorem Compiled.inNear (h : Compiled vgs hist garbage st) (hε : 0 ≤ ε) {lp lp' e e' : List ℝ} (hlp : Near ε lp lp') (he : Near ε e e') :
    InNear ε ((graphOf vgs hist).factors lp) ((graphOf vgs hist).factors lp') (readEv st.varsToStarts e) (readEv st.varsToStarts e') := by
  refine ⟨hε, ?_, fun f i v s _ _ => he.getD hε _, fun F hF => ?_⟩
  · unfold FactorGraph.factors
    exact List.rel_append (List.rel_append (tableFacs_near hlp) (List.forall₂_same.2 (fun F _ => FacNear.refl hε F))) (List.forall₂_same.2 (fun F _ => FacNear.refl hε F))
  · obtain ⟨f, hf⟩ := List.mem_iff_getElem?.1 hF
    exact h.rowsFit lp hf

theorem belief_near {scopes : List (List Var)} {m m' : Msgs ℝ} {D : ℝ} {v : Var} {s : Nat} (hs : s < v.n) (hev : |ev v s - ev' v s| ≤ ε)
    (h : ∀ f i v s, IsEdge scopes f i v → s < v.n → |m f i s - m' f i s| ≤ D) :
    |beliefOf scopes ev m v s - beliefOf scopes ev' m' v s| ≤ ε + D * ((edgesOf scopes v).length : ℝ) := by
  unfold beliefOf
  rw [add_sub_add_comm]
  refine le_trans (abs_add_le _ _) (add_le_add hev ?_)
  have key : ∀ l : List (Nat × Nat), (l.map (fun e' => m e'.1 e'.2 s)).sum - (l.map (fun e' => m' e'.1 e'.2 s)).sum = (l.map (fun e' => m e'.1 e'.2 s - m' e'.1 e'.2 s)).sum := by
    intro l
    induction l with
    | nil => simp
    | cons a l ih => simp only [List.map_cons, List.sum_cons]; rw [← ih]; ring
  rw [key]
  exact abs_sum_le _ _ _ (fun e' he' => h _ _ v s ((mem_edgesOf _ _ _ _).1 he') hs)

end

end PGMax
