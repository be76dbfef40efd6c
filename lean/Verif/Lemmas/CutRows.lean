import Verif.Lemmas.Dominant
import Verif.Lemmas.Moved

/-! Helper lemmas: variables that are decided by their evidence, in single factors and in joint assignments. -/

namespace PGMax

section
variable {α : Type _} [Field α] [LinearOrder α] [IsStrictOrderedRing α]

theorem list_sum_sub {ι : Type _} (l : List ι) (a b : ι → α) : (l.map a).sum - (l.map b).sum = (l.map (fun e => a e - b e)).sum := by
  induction l with
  | nil => simp
  | cons e l ih => simp only [List.map_cons, List.sum_cons]; rw [← ih]; ring

/-- A configuration with the decided positions set to `x`. -/
def fixRow (P : Var → Prop) [DecidablePred P] (x : Var → Nat) (c : List Nat) (scope : List Var) : List Nat :=
  List.zipWith (fun s v => if P v then x v else s) c scope

variable {P : Var → Prop} [DecidablePred P] {x : Var → Nat}

theorem fixRow_fit {c : List Nat} {scope : List Var} (h : List.Forall₂ (fun s (v : Var) => s < v.n) c scope) (hx : ∀ v ∈ scope, P v → x v < v.n) :
    List.Forall₂ (fun s (v : Var) => s < v.n) (fixRow P x c scope) scope := by
  unfold fixRow
  induction h with
  | nil => exact List.Forall₂.nil
  | @cons s v c scope h1 h2 ih =>
    refine List.Forall₂.cons ?_ (ih fun v hv => hx v (List.mem_cons_of_mem _ hv))
    show (if P v then x v else s) < v.n
    split
    · next hp => exact hx v List.mem_cons_self hp
    · exact h1

theorem fixRow_get {c : List Nat} {scope : List Var} {j t : Nat} {w : Var} (h1 : c[j]? = some t) (h2 : scope[j]? = some w) :
    (fixRow P x c scope)[j]? = some (if P w then x w else t) := by
  unfold fixRow
  rw [List.getElem?_zipWith, h1, h2]

/-- A complete table whose variables have states has a row for every state. -/
theorem SFac.Complete.full_pos {F : SFac α} (hF : F.Complete) (hrow : ∀ r ∈ F.rows, List.Forall₂ (fun s (v : Var) => s < v.n) r.1 F.scope)
    (hpos : ∀ v ∈ F.scope, 0 < v.n) : F.Full := by
  refine hF.full hrow ?_
  obtain ⟨θ, hθ⟩ := hF.2 (F.scope.map (fun _ => 0)) (by
    rw [List.forall₂_map_left_iff, List.forall₂_same]
    exact hpos)
  exact List.ne_nil_of_mem hθ

/-- For every row there is one with the decided positions at `x` that is at least as good. -/
theorem SFac.Complete.fix {F : SFac α} (hc : F.Complete) (hrow : ∀ r ∈ F.rows, List.Forall₂ (fun s (v : Var) => s < v.n) r.1 F.scope)
    {R : α} (hR : F.Within R) {q : Nat → Nat → α} (hx : ∀ v ∈ F.scope, P v → x v < v.n)
    (hq : ∀ j w, F.scope[j]? = some w → P w → ∀ t < w.n, t ≠ x w → q j t + R ≤ q j (x w)) {i s : Nat} {v : Var} (hi : F.scope[i]? = some v) (hv : ¬P v)
    {r : List Nat × α} (hr : r ∈ F.rowsAt i s) :
    ∃ r' ∈ F.rowsAt i s, scoreBut F.scope.length q i r ≤ scoreBut F.scope.length q i r' ∧
      ∀ j w, F.scope[j]? = some w → r'.1.getD j 0 = if P w then x w else r.1.getD j 0 := by
  obtain ⟨hr, hri⟩ := List.mem_filter.1 hr
  have hri : r.1[i]? = some s := by simpa using hri
  have hfit := hrow r hr
  have hlen := hfit.length_eq
  have hR0 : 0 ≤ R := by simpa using hR r hr r hr
  obtain ⟨θ, hθ⟩ := hc.2 _ (fixRow_fit (P := P) (x := x) hfit hx)
  have hget : ∀ j w, F.scope[j]? = some w → (fixRow P x r.1 F.scope).getD j 0 = if P w then x w else r.1.getD j 0 := by
    intro j w hw
    have hj := (List.getElem?_eq_some_iff.1 hw).1
    have h1 : r.1[j]? = some r.1[j] := List.getElem?_eq_getElem (by rw [hlen]; exact hj)
    rw [getD_of_some (fixRow_get h1 hw), getD_of_some h1]
  refine ⟨_, List.mem_filter.2 ⟨hθ, ?_⟩, ?_, hget⟩
  · simp only [fixRow_get hri hi, if_neg hv, decide_true]
  · have hle : ∀ j ∈ (List.range F.scope.length).filter (fun j => j ≠ i), q j (r.1.getD j 0) ≤ q j ((fixRow P x r.1 F.scope).getD j 0) ∧
        (r.1.getD j 0 ≠ (fixRow P x r.1 F.scope).getD j 0 → q j (r.1.getD j 0) + R ≤ q j ((fixRow P x r.1 F.scope).getD j 0)) := by
      intro j hj
      have hjl : j < F.scope.length := by simpa using (List.mem_filter.1 hj).1
      have h1 : r.1[j]? = some r.1[j] := List.getElem?_eq_getElem (by rw [hlen]; exact hjl)
      obtain ⟨w, hw, hlt⟩ := forall₂_getElem? hfit h1
      rw [hget j w hw, getD_of_some h1]
      split
      · next hp =>
        by_cases hne : r.1[j] = x w
        · rw [hne]; exact ⟨le_rfl, fun h => absurd rfl h⟩
        · have := hq j w hw hp _ hlt hne
          exact ⟨by linarith, fun _ => this⟩
      · exact ⟨le_rfl, fun h => absurd rfl h⟩
    unfold scoreBut
    by_cases hall : r.1 = fixRow P x r.1 F.scope
    · have : r = (fixRow P x r.1 F.scope, θ) := List.inj_on_of_nodup_map hc.1 hr hθ hall
      rw [← this]
    · have hex : ∃ j0 ∈ (List.range F.scope.length).filter (fun j => j ≠ i), r.1.getD j0 0 ≠ (fixRow P x r.1 F.scope).getD j0 0 := by
        by_contra hcon
        push Not at hcon
        apply hall
        have hlen' : (fixRow P x r.1 F.scope).length = F.scope.length := (fixRow_fit (P := P) (x := x) hfit hx).length_eq
        apply List.ext_getElem?
        intro j
        by_cases hjl : j < F.scope.length
        · have h1 : r.1[j]? = some r.1[j] := List.getElem?_eq_getElem (by rw [hlen]; exact hjl)
          have h2 : (fixRow P x r.1 F.scope)[j]? = some (fixRow P x r.1 F.scope)[j] := List.getElem?_eq_getElem (by rw [hlen']; exact hjl)
          by_cases hji : j = i
          · subst hji
            rw [fixRow_get hri hi, if_neg hv, hri]
          · have := hcon j (List.mem_filter.2 ⟨List.mem_range.2 hjl, by simpa using hji⟩)
            rw [getD_of_some h1, getD_of_some h2] at this
            rw [h1, h2, this]
        · rw [List.getElem?_eq_none (by rw [hlen]; omega), List.getElem?_eq_none (by rw [hlen']; omega)]
      obtain ⟨j0, hj0, hne⟩ := hex
      have h1 := sum_one_less _ (fun j => q j (r.1.getD j 0)) (fun j => q j ((fixRow P x r.1 F.scope).getD j 0)) R (fun j hj => (hle j hj).1) hj0 ((hle j0 hj0).2 hne)
      have h2 := hR r hr _ hθ
      simp only at h2 ⊢
      linarith

/-- What the messages of the decided positions add. -/
def cutConst (P : Var → Prop) [DecidablePred P] (x : Var → Nat) (scope : List Var) (i : Nat) (q : Nat → Nat → α) : α :=
  (((List.range scope.length).filter (fun j => j ≠ i)).map (fun j => if P (scope.getD j ⟨0, 0⟩) then q j (x (scope.getD j ⟨0, 0⟩)) else 0)).sum

/-- Two families of messages that agree on the undecided positions: the smaller half. -/
theorem SFac.Complete.out_cut_le {F : SFac α} (hc : F.Complete) (hrow : ∀ r ∈ F.rows, List.Forall₂ (fun s (v : Var) => s < v.n) r.1 F.scope)
    {R : α} (hR : F.Within R) {q q' : Nat → Nat → α} (hx : ∀ v ∈ F.scope, P v → x v < v.n)
    (hq : ∀ j w, F.scope[j]? = some w → P w → ∀ t < w.n, t ≠ x w → q j t + R ≤ q j (x w))
    (heq : ∀ j w, F.scope[j]? = some w → ¬P w → ∀ t < w.n, q' j t = q j t) {i s : Nat} {v : Var} (hi : F.scope[i]? = some v) (hv : ¬P v) {a b : α}
    (ha : tbOut F q i s = WithBot.some a) (hb : tbOut F q' i s = WithBot.some b) :
    a - cutConst P x F.scope i q ≤ b - cutConst P x F.scope i q' := by
  obtain ⟨h1, h2⟩ := List.maximum_eq_coe_iff.1 ha
  obtain ⟨h3, h4⟩ := List.maximum_eq_coe_iff.1 hb
  obtain ⟨r, hr, rfl⟩ := List.mem_map.1 h1
  obtain ⟨r', hr', hle, hget⟩ := hc.fix hrow hR hx hq hi hv hr
  have h5 := h4 _ (List.mem_map.2 ⟨r', hr', rfl⟩)
  have hfit := hrow r' (List.mem_filter.1 hr').1
  have key : scoreBut F.scope.length q i r' - cutConst P x F.scope i q = scoreBut F.scope.length q' i r' - cutConst P x F.scope i q' := by
    have e : ∀ q : Nat → Nat → α, scoreBut F.scope.length q i r' - cutConst P x F.scope i q = r'.2 + (((List.range F.scope.length).filter (fun j => j ≠ i)).map
        (fun j => q j (r'.1.getD j 0) - if P (F.scope.getD j ⟨0, 0⟩) then q j (x (F.scope.getD j ⟨0, 0⟩)) else 0)).sum := by
      intro q
      unfold scoreBut cutConst
      rw [add_sub_assoc, list_sum_sub]
    rw [e, e]
    congr 2
    apply List.map_congr_left
    intro j hj
    have hjl : j < F.scope.length := by simpa using (List.mem_filter.1 hj).1
    have hjr : j < r'.1.length := by rw [hfit.length_eq]; exact hjl
    have h1 : r'.1[j]? = some r'.1[j] := List.getElem?_eq_getElem hjr
    obtain ⟨w, hw, hlt⟩ := forall₂_getElem? hfit h1
    rw [getD_of_some hw]
    by_cases hp : P w
    · rw [if_pos hp, if_pos hp, hget j w hw, if_pos hp, sub_self, sub_self]
    · rw [if_neg hp, if_neg hp, getD_of_some h1, heq j w hw hp _ hlt]
  linarith

/-- The messages to an undecided variable do not depend on those of the decided ones, up to a constant. -/
theorem SFac.Complete.norm_cut {F : SFac α} (hc : F.Complete) (hrow : ∀ r ∈ F.rows, List.Forall₂ (fun s (v : Var) => s < v.n) r.1 F.scope)
    (hpos : ∀ v ∈ F.scope, 0 < v.n) {R : α} (hR : F.Within R) {q q' : Nat → Nat → α} (hx : ∀ v ∈ F.scope, P v → x v < v.n)
    (hq : ∀ j w, F.scope[j]? = some w → P w → ∀ t < w.n, t ≠ x w → q j t + R ≤ q j (x w))
    (hq' : ∀ j w, F.scope[j]? = some w → P w → ∀ t < w.n, t ≠ x w → q' j t + R ≤ q' j (x w))
    (heq : ∀ j w, F.scope[j]? = some w → ¬P w → ∀ t < w.n, q' j t = q j t) {i : Nat} {v : Var} (hi : F.scope[i]? = some v) (hv : ¬P v) {s : Nat} (hs : s < v.n) :
    tbNorm v.n (tbOut F q' i) s = tbNorm v.n (tbOut F q i) s := by
  refine tbNorm_add (C := cutConst P x F.scope i q' - cutConst P x F.scope i q) (fun s hs => ?_) hs
  have hne := hc.full_pos hrow hpos i v s hi hs
  have e : ∀ q, ∃ a, tbOut F q i s = WithBot.some a := fun q => ⟨_, by rw [tbOut_eq, if_neg hne]⟩
  obtain ⟨a, ha⟩ := e q
  obtain ⟨b, hb⟩ := e q'
  have h1 := hc.out_cut_le hrow hR hx hq heq hi hv ha hb
  have h2 := hc.out_cut_le hrow hR hx hq' (fun j w hw hp t ht => (heq j w hw hp t ht).symm) hi hv hb ha
  rw [ha, hb]
  show WithBot.some b = WithBot.some (a + _)
  congr 1
  linarith

/-- Setting the decided variables to their states improves a joint assignment. -/
theorem Joint.fix {factors : List (SFac α)} {vars : Finset Var} (hvars : ∀ F ∈ factors, ∀ v ∈ F.scope, v ∈ vars)
    {R : Nat → α} (hR : ∀ f, 0 ≤ R f) (hc : ∀ (f : Nat) (F : SFac α), factors[f]? = some F → F.Complete ∧ F.Within (R f)) {ev : Var → Nat → α}
    (hdom : ∀ v ∈ vars, P v → Dominant (factors.map (·.scope)) ev R x v) {y : Var → Nat} {ρ' : Nat → List Nat × α} (hJ : Joint vars factors y ρ') :
    ∃ ρ, Joint vars factors (fun v => if P v then x v else y v) ρ ∧ jointScore vars factors ev y ρ' ≤ jointScore vars factors ev (fun v => if P v then x v else y v) ρ ∧
      ((∃ v ∈ vars, P v ∧ y v ≠ x v) → jointScore vars factors ev y ρ' < jointScore vars factors ev (fun v => if P v then x v else y v) ρ) := by
  generalize hz : (fun v => if P v then x v else y v) = z
  have hzP : ∀ v, P v → z v = x v := fun v hv => by rw [← hz]; exact if_pos hv
  have hzN : ∀ v, ¬P v → z v = y v := fun v hv => by rw [← hz]; exact if_neg hv
  have hzst : ∀ v ∈ vars, z v < v.n := by
    intro v hv
    by_cases hp : P v
    · rw [hzP v hp]; exact (hdom v hv hp).1
    · rw [hzN v hp]; exact hJ.states v hv
  have hyz : ∀ v, y v ≠ z v → P v ∧ y v ≠ x v := by
    intro v hne
    by_cases hp : P v
    · exact ⟨hp, by rw [← hzP v hp]; exact hne⟩
    · exact absurd (hzN v hp).symm hne
  have hex : ∀ f : Nat, ∃ r : List Nat × α, ∀ F : SFac α, factors[f]? = some F → r ∈ F.rows ∧ r.1 = F.scope.map z := by
    intro f
    cases hF : factors[f]? with
    | none => exact ⟨([], 0), fun F h => by cases h⟩
    | some F =>
      obtain ⟨θ, hθ⟩ := (hc f F hF).1.2 (F.scope.map z) (by
        rw [List.forall₂_map_left_iff, List.forall₂_same]
        exact fun v hv => hzst v (hvars F (List.mem_of_getElem? hF) v hv))
      exact ⟨_, fun F' h => by cases h; exact ⟨hθ, rfl⟩⟩
  choose ρ hρ using hex
  refine ⟨ρ, ⟨hzst, hρ⟩, ?_⟩
  have hl : (factors.map (·.scope)).length = factors.length := by simp
  have hfac : ∀ f ∈ Finset.range factors.length, (ρ' f).2 ≤ (ρ f).2 + ∑ v ∈ vars.filter (fun v => y v ≠ z v), (if v ∈ (factors.map (·.scope)).getD f [] then R f else 0) := by
    intro f hf
    obtain ⟨F, hF⟩ : ∃ F, factors[f]? = some F := ⟨_, List.getElem?_eq_getElem (Finset.mem_range.1 hf)⟩
    have hsc : (factors.map (·.scope)).getD f [] = F.scope := by
      rw [List.getD, List.getElem?_map, hF]; rfl
    obtain ⟨h1, h2⟩ := hρ f _ hF
    obtain ⟨h1', h2'⟩ := hJ.rows f _ hF
    rw [hsc]
    by_cases hall : ∀ v ∈ F.scope, y v = z v
    · have : ρ' f = ρ f := List.inj_on_of_nodup_map (hc f _ hF).1.1 h1' h1 (by rw [h2, h2']; exact List.map_congr_left hall)
      rw [this]
      have : 0 ≤ ∑ v ∈ vars.filter (fun v => y v ≠ z v), (if v ∈ F.scope then R f else 0) :=
        Finset.sum_nonneg fun v _ => by split; exacts [hR f, le_rfl]
      linarith
    · push Not at hall
      obtain ⟨w, hw, hne⟩ := hall
      have h3 := (hc f _ hF).2 _ h1' _ h1
      have h4 : R f ≤ ∑ v ∈ vars.filter (fun v => y v ≠ z v), (if v ∈ F.scope then R f else 0) := by
        refine le_trans (by rw [if_pos hw]) (Finset.single_le_sum (f := fun v => if v ∈ F.scope then R f else 0)
          (fun v _ => by split; exacts [hR f, le_rfl]) (Finset.mem_filter.2 ⟨hvars _ (List.mem_of_getElem? hF) w hw, hne⟩))
      linarith
  have hS := Finset.sum_le_sum hfac
  rw [Finset.sum_add_distrib, Finset.sum_comm] at hS
  have key : ∀ v ∈ vars, y v ≠ z v → ev v (y v) + ∑ f ∈ Finset.range factors.length, (if v ∈ (factors.map (·.scope)).getD f [] then R f else 0) < ev v (z v) := by
    intro v hv hne
    obtain ⟨hp, hne'⟩ := hyz v hne
    have h1 := (hdom v hv hp).2 (y v) (hJ.states v hv) hne'
    have h2 := sum_factors_le (factors.map (·.scope)) v hR
    rw [hl] at h2
    rw [hzP v hp]
    linarith
  have hle : ∀ v ∈ vars, (ev v (y v) + if y v ≠ z v then ∑ f ∈ Finset.range factors.length, (if v ∈ (factors.map (·.scope)).getD f [] then R f else 0) else 0) ≤ ev v (z v) := by
    intro v hv
    by_cases hne : y v = z v
    · rw [if_neg (by simp [hne]), add_zero, hne]
    · rw [if_pos hne]; exact (key v hv hne).le
  rw [Finset.sum_filter] at hS
  unfold jointScore
  constructor
  · have hE := Finset.sum_le_sum hle
    rw [Finset.sum_add_distrib] at hE
    linarith
  · rintro ⟨v0, hv0, hp0, hne0⟩
    have hE := Finset.sum_lt_sum hle ⟨v0, hv0, by
      have : y v0 ≠ z v0 := by rw [hzP v0 hp0]; exact hne0
      rw [if_pos this]; exact key v0 hv0 this⟩
    rw [Finset.sum_add_distrib] at hE
    linarith

end

end PGMax
