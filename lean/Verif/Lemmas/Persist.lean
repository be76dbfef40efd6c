import Verif.Lemmas.Attractive
import Verif.Lemmas.Levels
import Verif.Spec.Tree
/-! In attractive models of binary variables, the run that starts from messages against a state never prefers this state to that of a best joint assignment. -/
namespace PGMax

variable {α : Type _} [Field α] [LinearOrder α] [IsStrictOrderedRing α]

/-- The log potential of a configuration. -/
def SFac.look (F : SFac α) (c : List Nat) : α := ((F.rows.find? (fun r => r.1 = c)).map (·.2)).getD 0

omit [LinearOrder α] [IsStrictOrderedRing α] in
theorem SFac.look_eq {F : SFac α} (h : (F.rows.map (·.1)).Nodup) {r : List Nat × α} (hr : r ∈ F.rows) : F.look r.1 = r.2 := by
  unfold SFac.look
  cases e : F.rows.find? (fun r' => r'.1 = r.1) with
  | none =>
    have := List.find?_eq_none.1 e r hr
    simp at this
  | some r' =>
    have h1 := List.mem_of_find?_eq_some e
    have h2 : r'.1 = r.1 := by simpa using List.find?_some e
    have := List.inj_on_of_nodup_map h h1 hr h2
    rw [this]
    rfl

omit [LinearOrder α] [IsStrictOrderedRing α] in
theorem SFac.look_mem {F : SFac α} (h : F.Complete) {c : List Nat} (hc : List.Forall₂ (fun s (v : Var) => s < v.n) c F.scope) : (c, F.look c) ∈ F.rows := by
  obtain ⟨w, hw⟩ := h.2 c hc
  rw [SFac.look_eq h.1 hw]
  exact hw

theorem SFac.look_super {F : SFac α} (h : F.Complete) (hr : F.Rises F) {c c' : List Nat} (hc : List.Forall₂ (fun s (v : Var) => s < v.n) c F.scope)
    (hc' : List.Forall₂ (fun s (v : Var) => s < v.n) c' F.scope) : F.look c + F.look c' ≤ F.look (List.zipWith max c c') + F.look (List.zipWith min c c') := by
  obtain ⟨p, hp, q, hq, e1, e2, hle⟩ := hr.2 _ (F.look_mem h hc) _ (F.look_mem h hc')
  rw [← e1, ← e2, SFac.look_eq h.1 hp, SFac.look_eq h.1 hq]
  exact hle

/-- The `j`-th variable of a factor. -/
def SFac.varAt (F : SFac α) (j : Nat) : Var := F.scope.getD j ⟨0, 0⟩

omit [Field α] [LinearOrder α] [IsStrictOrderedRing α] in
theorem SFac.varAt_eq {F : SFac α} {j : Nat} {v : Var} (h : F.scope[j]? = some v) : F.varAt j = v := getD_of_some h

omit [Field α] [LinearOrder α] [IsStrictOrderedRing α] in
theorem SFac.varAt_get {F : SFac α} {j : Nat} (h : j < F.scope.length) : F.scope[j]? = some (F.varAt j) := by
  rw [List.getElem?_eq_getElem h, SFac.varAt_eq (List.getElem?_eq_getElem h)]

/-- A configuration given by the state at each place. -/
def SFac.conf (F : SFac α) (a : Nat → Nat) : List Nat := (List.range F.scope.length).map a

omit [Field α] [LinearOrder α] [IsStrictOrderedRing α] in
theorem SFac.conf_zip (F : SFac α) (o : Nat → Nat → Nat) (a b : Nat → Nat) : List.zipWith o (F.conf a) (F.conf b) = F.conf (fun j => o (a j) (b j)) := by
  unfold SFac.conf
  induction List.range F.scope.length with
  | nil => rfl
  | cons j l ih => rw [List.map_cons, List.map_cons, List.zipWith_cons_cons, ih, List.map_cons]

omit [Field α] [LinearOrder α] [IsStrictOrderedRing α] in
theorem SFac.conf_congr (F : SFac α) {a b : Nat → Nat} (h : ∀ j < F.scope.length, a j = b j) : F.conf a = F.conf b :=
  List.map_congr_left fun j hj => h j (List.mem_range.1 hj)

omit [Field α] [LinearOrder α] [IsStrictOrderedRing α] in
theorem SFac.conf_scope (F : SFac α) (x : Var → Nat) : F.conf (fun j => x (F.varAt j)) = F.scope.map x := by
  refine List.ext_getElem (by simp [SFac.conf]) fun j h1 h2 => ?_
  simp only [SFac.conf, List.getElem_map, List.getElem_range]
  rw [SFac.varAt_eq (List.getElem?_eq_getElem (by simpa [SFac.conf] using h1))]

omit [Field α] [LinearOrder α] [IsStrictOrderedRing α] in
theorem SFac.conf_fits (F : SFac α) {a : Nat → Nat} (h : ∀ j < F.scope.length, a j < (F.varAt j).n) : List.Forall₂ (fun s (v : Var) => s < v.n) (F.conf a) F.scope := by
  refine List.forall₂_iff_get.2 ⟨by simp [SFac.conf], fun j h1 h2 => ?_⟩
  have := h j h2
  rw [SFac.varAt_eq (List.getElem?_eq_getElem h2)] at this
  simpa [SFac.conf] using this

omit [Field α] [LinearOrder α] [IsStrictOrderedRing α] in
theorem SFac.conf_row {F : SFac α} {r : List Nat × α} (hr : List.Forall₂ (fun s (v : Var) => s < v.n) r.1 F.scope) : r.1 = F.conf (fun j => r.1.getD j 0) ∧ ∀ j < F.scope.length, r.1.getD j 0 < (F.varAt j).n := by
  have hl := hr.length_eq
  constructor
  · refine List.ext_getElem (by simp [SFac.conf, hl]) fun j h1 h2 => ?_
    simp only [SFac.conf, List.getElem_map, List.getElem_range]
    rw [getD_of_some (List.getElem?_eq_getElem h1)]
  · intro j hj
    exact row_state hr (SFac.varAt_get hj)

/-- The variable can be given state `β` instead of `x v`. -/
def CanRaise (x : Var → Nat) (β : Nat) (v : Var) : Prop := x v ≠ β ∧ β < v.n

instance (x : Var → Nat) (β : Nat) : DecidablePred (CanRaise x β) := fun _ => instDecidableAnd

/-- The places of a factor that can be given state `β`. -/
def SFac.places (F : SFac α) (x : Var → Nat) (β : Nat) : Finset Nat := (Finset.range F.scope.length).filter (fun j => CanRaise x β (F.varAt j))

omit [Field α] [LinearOrder α] [IsStrictOrderedRing α] in
theorem SFac.mem_places {F : SFac α} {x : Var → Nat} {β j : Nat} : j ∈ F.places x β ↔ j < F.scope.length ∧ CanRaise x β (F.varAt j) := by
  unfold SFac.places
  rw [Finset.mem_filter, Finset.mem_range]

/-- What a factor gains if the places `S` get state `β`. -/
def SFac.raise (F : SFac α) (x : Var → Nat) (β : Nat) (S : Finset Nat) : α := F.look (F.conf (fun j => if j ∈ S then β else x (F.varAt j))) - F.look (F.scope.map x)

/-- Two numbers below 2. -/
theorem two_cases {a b : Nat} (ha : a < 2) (hb : b < 2) (h : a ≠ b) : (a = 0 ∧ b = 1) ∨ (a = 1 ∧ b = 0) := by omega

theorem SFac.super {F : SFac α} (h : F.Complete) (hr : F.Rises F) {x : Var → Nat} {β : Nat} (hβ : β < 2) (hn : ∀ v ∈ F.scope, v.n ≤ 2) (hx : ∀ v ∈ F.scope, x v < v.n) :
    Super (F.raise x β) (F.places x β) where
  zero := by
    unfold SFac.raise
    rw [← F.conf_scope x, F.conf_congr (b := fun j => x (F.varAt j)) (fun j _ => by simp), sub_self]
  super := by
    intro S hS S' hS'
    have hmem : ∀ j < F.scope.length, F.varAt j ∈ F.scope := fun j hj => List.mem_of_getElem? (SFac.varAt_get hj)
    have fits : ∀ S ⊆ F.places x β, List.Forall₂ (fun s (v : Var) => s < v.n) (F.conf (fun j => if j ∈ S then β else x (F.varAt j))) F.scope := fun S hS => F.conf_fits fun j hj => by
      split
      · next hjS => exact (SFac.mem_places.1 (hS hjS)).2.2
      · exact hx _ (hmem j hj)
    have key := F.look_super h hr (fits S hS) (fits S' hS')
    rw [SFac.conf_zip, SFac.conf_zip] at key
    have low : ∀ j < F.scope.length, x (F.varAt j) < 2 := fun j hj => (hx _ (hmem j hj)).trans_le (hn _ (hmem j hj))
    have ne : ∀ j, j ∈ S ∨ j ∈ S' → x (F.varAt j) ≠ β := fun j hj => by
      rcases hj with hj | hj
      · exact (SFac.mem_places.1 (hS hj)).2.1
      · exact (SFac.mem_places.1 (hS' hj)).2.1
    unfold SFac.raise
    rcases (by omega : β = 0 ∨ β = 1) with rfl | rfl
    · have e1 : F.conf (fun j => max (if j ∈ S then 0 else x (F.varAt j)) (if j ∈ S' then 0 else x (F.varAt j))) = F.conf (fun j => if j ∈ S ∩ S' then 0 else x (F.varAt j)) := by
        refine F.conf_congr fun j hj => ?_
        by_cases h1 : j ∈ S <;> by_cases h2 : j ∈ S' <;> simp [h1, h2]
      have e2 : F.conf (fun j => min (if j ∈ S then 0 else x (F.varAt j)) (if j ∈ S' then 0 else x (F.varAt j))) = F.conf (fun j => if j ∈ S ∪ S' then 0 else x (F.varAt j)) := by
        refine F.conf_congr fun j hj => ?_
        by_cases h1 : j ∈ S <;> by_cases h2 : j ∈ S' <;> simp [h1, h2]
      rw [e1, e2] at key
      linarith
    · have e1 : F.conf (fun j => max (if j ∈ S then 1 else x (F.varAt j)) (if j ∈ S' then 1 else x (F.varAt j))) = F.conf (fun j => if j ∈ S ∪ S' then 1 else x (F.varAt j)) := by
        refine F.conf_congr fun j hj => ?_
        have := low j hj
        by_cases h1 : j ∈ S <;> by_cases h2 : j ∈ S' <;> simp [h1, h2] <;> omega
      have e2 : F.conf (fun j => min (if j ∈ S then 1 else x (F.varAt j)) (if j ∈ S' then 1 else x (F.varAt j))) = F.conf (fun j => if j ∈ S ∩ S' then 1 else x (F.varAt j)) := by
        refine F.conf_congr fun j hj => ?_
        have := low j hj
        by_cases h1 : j ∈ S <;> by_cases h2 : j ∈ S' <;> simp [h1, h2] <;> omega
      rw [e1, e2] at key
      linarith

omit [Field α] [LinearOrder α] [IsStrictOrderedRing α] in
theorem edge_fac {factors : List (SFac α)} {f i : Nat} {v : Var} (he : IsEdge (factors.map (·.scope)) f i v) : ∃ F, factors[f]? = some F ∧ F.scope[i]? = some v := by
  obtain ⟨vs, h1, h2⟩ := he
  rw [List.getElem?_map] at h1
  cases hF : factors[f]? with
  | none => rw [hF] at h1; cases h1
  | some F =>
    rw [hF] at h1
    cases h1
    exact ⟨F, rfl, h2⟩

/-- The factor at an index. -/
def facAt (factors : List (SFac α)) (f : Nat) : SFac α := factors.getD f ⟨[], []⟩

omit [Field α] [LinearOrder α] [IsStrictOrderedRing α] in
theorem facAt_eq {factors : List (SFac α)} {f : Nat} {F : SFac α} (h : factors[f]? = some F) : facAt factors f = F := getD_of_some h

/-- Copies of variables and of places of factors in state `β`: what they gain in total, if the places of the copies of each factor are put together to level sets. -/
def gain (vars : Finset Var) (factors : List (SFac α)) (ev : Var → Nat → α) (x : Var → Nat) (β : Nat) (c : Var → Nat) (k : Nat → Nat → Nat) : α :=
  ∑ f ∈ Finset.range factors.length, allLevels ((facAt factors f).raise x β) (facAt factors f).scope.length (k f) + ∑ v ∈ vars, (c v : α) * (ev v β - ev v (x v))

/-- The assumptions on the factors. -/
structure Persists (vars : Finset Var) (factors : List (SFac α)) (x : Var → Nat) (β : Nat) : Prop where
  rises : ∀ F ∈ factors, F.Rises F
  complete : ∀ F ∈ factors, F.Complete
  within : ∀ F ∈ factors, F.Within 1000
  rows : ∀ F ∈ factors, ∀ r ∈ F.rows, List.Forall₂ (fun s (v : Var) => s < v.n) r.1 F.scope
  inVars : ∀ F ∈ factors, ∀ v ∈ F.scope, v ∈ vars
  two : ∀ v ∈ vars, v.n ≤ 2
  states : ∀ v ∈ vars, x v < v.n
  bit : β < 2

/-- Copies only of what can get state `β`. -/
def Supp (factors : List (SFac α)) (x : Var → Nat) (β : Nat) (c : Var → Nat) (k : Nat → Nat → Nat) : Prop :=
  (∀ v, ¬CanRaise x β v → c v = 0) ∧ ∀ f i v, IsEdge (factors.map (·.scope)) f i v → ¬CanRaise x β v → k f i = 0

variable {vars : Finset Var} {factors : List (SFac α)} {ev : Var → Nat → α} {x : Var → Nat} {β : Nat}

omit [Field α] [LinearOrder α] [IsStrictOrderedRing α] in
theorem facAt_get {f : Nat} (hf : f < factors.length) : factors[f]? = some (facAt factors f) := by
  rw [List.getElem?_eq_getElem hf, facAt_eq (List.getElem?_eq_getElem hf)]

omit [Field α] [LinearOrder α] [IsStrictOrderedRing α] in
theorem edge_facAt {f j : Nat} (hf : f < factors.length) (hj : j < (facAt factors f).scope.length) : IsEdge (factors.map (·.scope)) f j ((facAt factors f).varAt j) := by
  refine ⟨(facAt factors f).scope, ?_, SFac.varAt_get hj⟩
  rw [List.getElem?_map, facAt_get hf]
  rfl

theorem Persists.super (h : Persists vars factors x β) {f : Nat} (hf : f < factors.length) : Super ((facAt factors f).raise x β) ((facAt factors f).places x β) := by
  have hm := List.mem_of_getElem? (facAt_get hf)
  exact SFac.super (h.complete _ hm) (h.rises _ hm) h.bit (fun v hv => h.two v (h.inVars _ hm v hv)) (fun v hv => h.states v (h.inVars _ hm v hv))

omit [Field α] [LinearOrder α] [IsStrictOrderedRing α] in
theorem Supp.places {c : Var → Nat} {k : Nat → Nat → Nat} (h : Supp factors x β c k) {f : Nat} (hf : f < factors.length) :
    ∀ j < (facAt factors f).scope.length, j ∉ (facAt factors f).places x β → k f j = 0 := fun j hj hR =>
  h.2 f j _ (edge_facAt hf hj) fun hC => hR (SFac.mem_places.2 ⟨hj, hC⟩)

theorem gain_add (h : Persists vars factors x β) {c c' : Var → Nat} {k k' : Nat → Nat → Nat} (hk : Supp factors x β c k) (hk' : Supp factors x β c' k') :
    gain vars factors ev x β c k + gain vars factors ev x β c' k' ≤ gain vars factors ev x β (fun v => c v + c' v) (fun f j => k f j + k' f j) := by
  unfold gain
  have h1 : ∑ f ∈ Finset.range factors.length, allLevels ((facAt factors f).raise x β) (facAt factors f).scope.length (k f) +
      ∑ f ∈ Finset.range factors.length, allLevels ((facAt factors f).raise x β) (facAt factors f).scope.length (k' f) ≤
      ∑ f ∈ Finset.range factors.length, allLevels ((facAt factors f).raise x β) (facAt factors f).scope.length (fun j => k f j + k' f j) := by
    rw [← Finset.sum_add_distrib]
    exact Finset.sum_le_sum fun f hf => (h.super (Finset.mem_range.1 hf)).add (hk.places (Finset.mem_range.1 hf)) (hk'.places (Finset.mem_range.1 hf))
  have h2 : ∑ v ∈ vars, (c v : α) * (ev v β - ev v (x v)) + ∑ v ∈ vars, (c' v : α) * (ev v β - ev v (x v)) = ∑ v ∈ vars, ((c v + c' v : Nat) : α) * (ev v β - ev v (x v)) := by
    rw [← Finset.sum_add_distrib]
    refine Finset.sum_congr rfl fun v _ => ?_
    push_cast
    ring
  linarith

theorem gain_zero : gain vars factors ev x β (fun _ => 0) (fun _ _ => 0) = 0 := by
  unfold gain
  rw [Finset.sum_eq_zero fun f _ => allLevels_zero fun _ _ => rfl, Finset.sum_eq_zero fun v _ => by simp, add_zero]

theorem gain_list (h : Persists vars factors x β) {ι : Type _} (l : List ι) {D : ι → α} {c : ι → Var → Nat} {k : ι → Nat → Nat → Nat}
    (hl : ∀ e ∈ l, Supp factors x β (c e) (k e) ∧ D e ≤ gain vars factors ev x β (c e) (k e)) :
    Supp factors x β (fun v => (l.map (fun e => c e v)).sum) (fun f j => (l.map (fun e => k e f j)).sum) ∧
    (l.map D).sum ≤ gain vars factors ev x β (fun v => (l.map (fun e => c e v)).sum) (fun f j => (l.map (fun e => k e f j)).sum) := by
  induction l with
  | nil => exact ⟨⟨fun _ _ => rfl, fun _ _ _ _ _ => rfl⟩, (le_of_eq gain_zero.symm)⟩
  | cons e l ih =>
    obtain ⟨h1, h2⟩ := hl e (List.mem_cons_self)
    obtain ⟨h3, h4⟩ := ih fun e he => hl e (List.mem_cons_of_mem _ he)
    simp only [List.map_cons, List.sum_cons]
    refine ⟨⟨fun v hv => ?_, fun f i v he hv => ?_⟩, ?_⟩
    · have := h3.1 v hv
      simp only at this ⊢
      rw [h1.1 v hv, this]
    · have := h3.2 f i v he hv
      simp only at this ⊢
      rw [h1.2 f i v he hv, this]
    · have := gain_add (ev := ev) h h1 h3
      linarith

/-- Copies that could be completed by one copy of a variable at place `i` of factor `f`. -/
def OutBag (vars : Finset Var) (factors : List (SFac α)) (ev : Var → Nat → α) (x : Var → Nat) (β : Nat) (f i : Nat) (D : α) : Prop :=
  ∃ c k, Supp factors x β c k ∧ (∀ g j w, IsEdge (factors.map (·.scope)) g j w → k g j = c w + if (g, j) = (f, i) then 1 else 0) ∧ D ≤ gain vars factors ev x β c k

/-- Copies that could be completed by one copy of place `i` of factor `f`. -/
def InBag (vars : Finset Var) (factors : List (SFac α)) (ev : Var → Nat → α) (x : Var → Nat) (β : Nat) (f i : Nat) (D : α) : Prop :=
  ∃ c k, Supp factors x β c k ∧ (∀ g j w, IsEdge (factors.map (·.scope)) g j w → k g j + (if (g, j) = (f, i) then 1 else 0) = c w) ∧ D ≤ gain vars factors ev x β c k

theorem sum_ite_count {ι : Type _} [DecidableEq ι] [BEq ι] [LawfulBEq ι] (l : List ι) (a : ι) : (l.map (fun e => if a = e then (1 : Nat) else 0)).sum = l.count a := by
  induction l with
  | nil => rfl
  | cons e l ih =>
    rw [List.map_cons, List.sum_cons, ih, List.count_cons]
    by_cases h : a = e
    · simp [h, add_comm]
    · simp [h, Ne.symm h]

theorem sum_map_sub' {ι : Type _} (l : List ι) (a b : ι → α) : (l.map a).sum - (l.map b).sum = (l.map (fun e => a e - b e)).sum := by
  induction l with
  | nil => simp
  | cons e l ih =>
    simp only [List.map_cons, List.sum_cons, ← ih]
    ring

theorem sum_map_add' {ι : Type _} (l : List ι) (a b : ι → Nat) : (l.map (fun e => a e + b e)).sum = (l.map a).sum + (l.map b).sum := by
  induction l with
  | nil => rfl
  | cons e l ih =>
    simp only [List.map_cons, List.sum_cons, ih]
    omega

/-- One copy of a variable. -/
theorem gain_var {w : Var} (hw : w ∈ vars) : gain vars factors ev x β (fun v => if v = w then 1 else 0) (fun _ _ => 0) = ev w β - ev w (x w) := by
  unfold gain
  rw [Finset.sum_eq_zero fun f _ => allLevels_zero fun _ _ => rfl, zero_add, Finset.sum_eq_single w (fun v _ hv => by simp [hv]) (fun h => absurd hw h)]
  simp

/-- Evidence and messages of some edges of a variable. -/
theorem bag_var (h : Persists vars factors x β) {m : Msgs α} {w : Var} (hw : w ∈ vars) (hC : CanRaise x β w) (hm : ∀ f i, IsEdge (factors.map (·.scope)) f i w → OutBag vars factors ev x β f i (m f i β - m f i (x w)))
    (p : Nat × Nat → Bool) : ∃ c k, Supp factors x β c k ∧ 1 ≤ c w ∧
      (∀ g j w', IsEdge (factors.map (·.scope)) g j w' → k g j + (if w' = w ∧ p (g, j) = false then 1 else 0) = c w') ∧
      (ev w β + (((edgesOf (factors.map (·.scope)) w).filter p).map (fun e => m e.1 e.2 β)).sum) - (ev w (x w) + (((edgesOf (factors.map (·.scope)) w).filter p).map (fun e => m e.1 e.2 (x w))).sum) ≤
        gain vars factors ev x β c k := by
  have hm' : ∀ e ∈ (edgesOf (factors.map (·.scope)) w).filter p, OutBag vars factors ev x β e.1 e.2 (m e.1 e.2 β - m e.1 e.2 (x w)) := fun e he =>
    hm e.1 e.2 ((mem_edgesOf _ _ _ _).1 (List.mem_filter.1 he).1)
  choose! c k hs hr hg using hm'
  obtain ⟨h1, h2⟩ := gain_list (ev := ev) h ((edgesOf (factors.map (·.scope)) w).filter p) (D := fun e => m e.1 e.2 β - m e.1 e.2 (x w)) (c := c) (k := k) (fun e he => ⟨hs e he, hg e he⟩)
  have h3 : Supp factors x β (fun v => if v = w then 1 else 0) (fun _ _ => 0) := ⟨fun v hv => if_neg fun e : v = w => hv (e ▸ hC), fun _ _ _ _ _ => rfl⟩
  have h4 := gain_add (ev := ev) h h3 h1
  rw [gain_var hw] at h4
  refine ⟨_, _, ⟨fun v hv => ?_, fun f i v he hv => ?_⟩, ?_, fun g j w' he => ?_, le_trans ?_ h4⟩
  · simp only [h3.1 v hv, h1.1 v hv]
  · simp only [h1.2 f i v he hv]
  · simp only [if_true]
    omega
  · have e1 : (((edgesOf (factors.map (·.scope)) w).filter p).map (fun e => k e g j)).sum =
        (((edgesOf (factors.map (·.scope)) w).filter p).map (fun e => c e w')).sum + ((edgesOf (factors.map (·.scope)) w).filter p).count (g, j) := by
      rw [← sum_ite_count, ← sum_map_add']
      exact congrArg List.sum (List.map_congr_left fun e he' => hr e he' g j w' he)
    have e2 : ((edgesOf (factors.map (·.scope)) w).filter p).count (g, j) = if w' = w ∧ p (g, j) = true then 1 else 0 := by
      rw [((edgesOf_nodup _ _).filter _).count]
      refine if_congr ?_ rfl rfl
      rw [List.mem_filter, mem_edgesOf]
      exact ⟨fun hh => ⟨IsEdge.unique he hh.1, hh.2⟩, fun hh => ⟨hh.1 ▸ he, hh.2⟩⟩
    rw [e1, e2]
    by_cases hww : w' = w
    · cases hp : p (g, j) <;> simp [hww, add_comm]
    · simp [hww]
  · rw [← sum_map_sub'] at h2
    linarith

theorem in_bag (h : Persists vars factors x β) {m : Msgs α} {f j : Nat} {w : Var} (he : IsEdge (factors.map (·.scope)) f j w) (hw : w ∈ vars) (hC : CanRaise x β w)
    (hm : ∀ f i, IsEdge (factors.map (·.scope)) f i w → OutBag vars factors ev x β f i (m f i β - m f i (x w))) :
    InBag vars factors ev x β f j (varToFac (factors.map (·.scope)) ev m w (f, j) β - varToFac (factors.map (·.scope)) ev m w (f, j) (x w)) := by
  obtain ⟨c, k, h1, -, h2, h3⟩ := bag_var h hw hC hm (fun e' => decide (e' ≠ (f, j)))
  refine ⟨c, k, h1, fun g j' w' he' => ?_, h3⟩
  rw [← h2 g j' w' he']
  congr 1
  refine if_congr ?_ rfl rfl
  constructor
  · intro e
    obtain ⟨rfl, rfl⟩ := Prod.mk.injEq .. ▸ e
    exact ⟨IsEdge.unique he' he, by simp⟩
  · rintro ⟨-, e⟩
    simpa using e

theorem belief_bag (h : Persists vars factors x β) {m : Msgs α} {w : Var} (hw : w ∈ vars) (hC : CanRaise x β w)
    (hm : ∀ f i, IsEdge (factors.map (·.scope)) f i w → OutBag vars factors ev x β f i (m f i β - m f i (x w))) :
    ∃ c k, Supp factors x β c k ∧ 1 ≤ c w ∧ (∀ g j w', IsEdge (factors.map (·.scope)) g j w' → k g j = c w') ∧
      beliefOf (factors.map (·.scope)) ev m w β - beliefOf (factors.map (·.scope)) ev m w (x w) ≤ gain vars factors ev x β c k := by
  obtain ⟨c, k, h1, h0, h2, h3⟩ := bag_var h hw hC hm (fun _ => true)
  refine ⟨c, k, h1, h0, fun g j' w' he' => by simpa using h2 g j' w' he', ?_⟩
  rw [List.filter_true] at h3
  exact h3

/-- One copy of a factor with the places `S` in state `β`. -/
theorem gain_fac (h : Persists vars factors x β) {f : Nat} {F : SFac α} (hF : factors[f]? = some F) {S : Finset Nat} (hS : S ⊆ F.places x β) :
    Supp factors x β (fun _ => 0) (fun g j => if g = f ∧ j ∈ S then 1 else 0) ∧ F.raise x β S ≤ gain vars factors ev x β (fun _ => 0) (fun g j => if g = f ∧ j ∈ S then 1 else 0) := by
  have hf := (List.getElem?_eq_some_iff.1 hF).1
  have hE := facAt_eq hF
  refine ⟨⟨fun _ _ => rfl, fun g i v he hv => if_neg ?_⟩, ?_⟩
  · rintro ⟨rfl, hi⟩
    obtain ⟨G, hG, hgi⟩ := edge_fac he
    rw [hF] at hG
    cases hG
    have := (SFac.mem_places.1 (hS hi)).2
    rw [SFac.varAt_eq hgi] at this
    exact hv this
  · unfold gain
    have h1 := (h.super hf).single (S := S) (by rw [hE]; exact hS) (n := (facAt factors f).scope.length) (fun j hj => by rw [hE]; exact (SFac.mem_places.1 (hS hj)).1)
    rw [hE] at h1
    have h2 : ∑ v ∈ vars, ((0 : Nat) : α) * (ev v β - ev v (x v)) = 0 := Finset.sum_eq_zero fun v _ => by simp
    rw [h2, add_zero, Finset.sum_eq_single f (fun g _ hg => allLevels_zero fun _ _ => by simp [hg]) (fun hn => absurd (Finset.mem_range.2 hf) hn), hE]
    simpa using h1

theorem virtual_bag (h : Persists vars factors x β) {f i : Nat} {v : Var} (he : IsEdge (factors.map (·.scope)) f i v) (hC : CanRaise x β v) : OutBag vars factors ev x β f i (-1000) := by
  obtain ⟨F, hF, hi⟩ := edge_fac he
  have hm := List.mem_of_getElem? hF
  have hil := (List.getElem?_eq_some_iff.1 hi).1
  have hS : ({i} : Finset Nat) ⊆ F.places x β := by
    rw [Finset.singleton_subset_iff, SFac.mem_places, SFac.varAt_eq hi]
    exact ⟨hil, hC⟩
  obtain ⟨h1, h2⟩ := gain_fac (ev := ev) h hF hS
  refine ⟨_, _, h1, fun g j w _ => ?_, le_trans ?_ h2⟩
  · simp [Prod.ext_iff]
  · have hx : ∀ j < F.scope.length, x (F.varAt j) < (F.varAt j).n := fun j hj => h.states _ (h.inVars F hm _ (List.mem_of_getElem? (SFac.varAt_get hj)))
    have m1 := F.look_mem (h.complete F hm) (F.conf_fits (a := fun j => if j ∈ ({i} : Finset Nat) then β else x (F.varAt j)) (fun j hj => by
      split
      · next hji =>
        rw [Finset.mem_singleton.1 hji, SFac.varAt_eq hi]
        exact hC.2
      · exact hx j hj))
    have m2 := F.look_mem (h.complete F hm) (F.conf_fits (a := fun j => x (F.varAt j)) hx)
    have := h.within F hm _ m2 _ m1
    rw [F.conf_scope] at this
    unfold SFac.raise
    simp only at this
    linarith

theorem out_bag (h : Persists vars factors x β) {m : Msgs α} {f i : Nat} {F : SFac α} {v : Var} (hF : factors[f]? = some F) (hi : F.scope[i]? = some v) (hC : CanRaise x β v)
    (hm : ∀ f i w, IsEdge (factors.map (·.scope)) f i w → CanRaise x β w → OutBag vars factors ev x β f i (m f i β - m f i (x w))) {a b : α}
    (ha : tbOut F (tbIn factors ev m f F) i (x v) = WithBot.some a) (hb : tbOut F (tbIn factors ev m f F) i β = WithBot.some b) : OutBag vars factors ev x β f i (b - a) := by
  have hmem := List.mem_of_getElem? hF
  have hil := (List.getElem?_eq_some_iff.1 hi).1
  rw [tbOut_eq] at ha hb
  have ra : F.rowsAt i (x v) ≠ [] := fun e => by rw [if_pos e] at ha; cases ha
  have rb : F.rowsAt i β ≠ [] := fun e => by rw [if_pos e] at hb; cases hb
  rw [if_neg ra] at ha
  rw [if_neg rb] at hb
  have ha := WithBot.coe_injective ha
  have hb := WithBot.coe_injective hb
  obtain ⟨k1, -⟩ := maxOf_spec 0 ((F.rowsAt i β).map (scoreBut F.scope.length (tbIn factors ev m f F) i)) (by simpa using rb)
  obtain ⟨-, k2⟩ := maxOf_spec 0 ((F.rowsAt i (x v)).map (scoreBut F.scope.length (tbIn factors ev m f F) i)) (by simpa using ra)
  rw [hb] at k1
  rw [ha] at k2
  obtain ⟨r, hr, hrb⟩ := List.mem_map.1 k1
  obtain ⟨hr, hri⟩ := List.mem_filter.1 hr
  have hri : r.1[i]? = some β := by simpa using hri
  have hrow := h.rows F hmem r hr
  obtain ⟨hconf, hlt⟩ := SFac.conf_row hrow
  have hx : ∀ j < F.scope.length, x (F.varAt j) < (F.varAt j).n := fun j hj => h.states _ (h.inVars F hmem _ (List.mem_of_getElem? (SFac.varAt_get hj)))
  have hn : ∀ j < F.scope.length, (F.varAt j).n ≤ 2 := fun j hj => h.two _ (h.inVars F hmem _ (List.mem_of_getElem? (SFac.varAt_get hj)))
  let S : Finset Nat := (Finset.range F.scope.length).filter (fun j => r.1.getD j 0 = β ∧ x (F.varAt j) ≠ β)
  have memS : ∀ j, j ∈ S ↔ j < F.scope.length ∧ r.1.getD j 0 = β ∧ x (F.varAt j) ≠ β := fun j => by
    simp only [S, Finset.mem_filter, Finset.mem_range]
  have hS : S ⊆ F.places x β := fun j hj => by
    obtain ⟨j1, j2, j3⟩ := (memS j).1 hj
    have := hlt j j1
    rw [j2] at this
    exact SFac.mem_places.2 ⟨j1, j3, this⟩
  have hiS : i ∈ S := (memS i).2 ⟨hil, getD_of_some hri, by rw [SFac.varAt_eq hi]; exact hC.1⟩
  -- the row that keeps what is not raised
  let c0 : Nat → Nat := fun j => if j ∈ S then x (F.varAt j) else r.1.getD j 0
  have fit0 : ∀ j < F.scope.length, c0 j < (F.varAt j).n := fun j hj => by
    simp only [c0]
    split
    · exact hx j hj
    · exact hlt j hj
  have mem0 := F.look_mem (h.complete F hmem) (F.conf_fits fit0)
  have hsup := F.look_super (h.complete F hmem) (h.rises F hmem) (F.conf_fits hlt) (F.conf_fits hx)
  rw [SFac.conf_zip, SFac.conf_zip, ← hconf, F.look_eq (h.complete F hmem).1 hr, F.conf_scope] at hsup
  have hsup' : r.2 + F.look (F.scope.map x) ≤ F.look (F.conf (fun j => if j ∈ S then β else x (F.varAt j))) + F.look (F.conf c0) := by
    have hbit := h.bit
    rcases (by omega : β = 0 ∨ β = 1) with hβ | hβ
    · rw [F.conf_congr (a := fun j => max (r.1.getD j 0) (x (F.varAt j))) (b := c0), F.conf_congr (a := fun j => min (r.1.getD j 0) (x (F.varAt j))) (b := fun j => if j ∈ S then β else x (F.varAt j))] at hsup
      · linarith
      · intro j hj
        have h1 := hlt j hj
        have h2 := hx j hj
        have h3 := hn j hj
        by_cases hjS : j ∈ S
        · have := (memS j).1 hjS
          simp only [hjS, if_true]
          omega
        · have : ¬(r.1.getD j 0 = β ∧ x (F.varAt j) ≠ β) := fun e => hjS ((memS j).2 ⟨hj, e⟩)
          simp only [hjS, if_false]
          omega
      · intro j hj
        have h1 := hlt j hj
        have h2 := hx j hj
        have h3 := hn j hj
        by_cases hjS : j ∈ S
        · have := (memS j).1 hjS
          simp only [c0, hjS, if_true]
          omega
        · have : ¬(r.1.getD j 0 = β ∧ x (F.varAt j) ≠ β) := fun e => hjS ((memS j).2 ⟨hj, e⟩)
          simp only [c0, hjS, if_false]
          omega
    · rw [F.conf_congr (a := fun j => min (r.1.getD j 0) (x (F.varAt j))) (b := c0), F.conf_congr (a := fun j => max (r.1.getD j 0) (x (F.varAt j))) (b := fun j => if j ∈ S then β else x (F.varAt j))] at hsup
      · linarith
      · intro j hj
        have h1 := hlt j hj
        have h2 := hx j hj
        have h3 := hn j hj
        by_cases hjS : j ∈ S
        · have := (memS j).1 hjS
          simp only [hjS, if_true]
          omega
        · have : ¬(r.1.getD j 0 = β ∧ x (F.varAt j) ≠ β) := fun e => hjS ((memS j).2 ⟨hj, e⟩)
          simp only [hjS, if_false]
          omega
      · intro j hj
        have h1 := hlt j hj
        have h2 := hx j hj
        have h3 := hn j hj
        by_cases hjS : j ∈ S
        · have := (memS j).1 hjS
          simp only [c0, hjS, if_true]
          omega
        · have : ¬(r.1.getD j 0 = β ∧ x (F.varAt j) ≠ β) := fun e => hjS ((memS j).2 ⟨hj, e⟩)
          simp only [c0, hjS, if_false]
          omega
  have hget0 : ∀ j < F.scope.length, (F.conf c0).getD j 0 = c0 j := fun j hj => by
    refine getD_of_some ?_
    simp [SFac.conf, hj]
  have ha0 : scoreBut F.scope.length (tbIn factors ev m f F) i (F.conf c0, F.look (F.conf c0)) ≤ a := by
    refine k2 _ (List.mem_map.2 ⟨_, List.mem_filter.2 ⟨mem0, ?_⟩, rfl⟩)
    have : (F.conf c0)[i]? = some (c0 i) := by simp [SFac.conf, hil]
    have e : c0 i = x v := by simp only [c0, hiS, if_true, SFac.varAt_eq hi]
    rw [this, e]
    simp
  -- the messages of the raised places
  let L := ((List.range F.scope.length).filter (fun j => j ≠ i)).filter (fun j => decide (j ∈ S))
  have memL : ∀ j, j ∈ L ↔ j ∈ S ∧ j ≠ i := fun j => by
    simp only [L, List.mem_filter, List.mem_range, decide_eq_true_eq]
    exact ⟨fun h => ⟨h.2, h.1.2⟩, fun h => ⟨⟨((memS j).1 h.1).1, h.2⟩, h.1⟩⟩
  have hL : ∀ j ∈ L, InBag vars factors ev x β f j (tbIn factors ev m f F j β - tbIn factors ev m f F j (x (F.varAt j))) := fun j hj => by
    obtain ⟨j1, -, -⟩ := (memS j).1 ((memL j).1 hj).1
    have hC' := (SFac.mem_places.1 (hS ((memL j).1 hj).1)).2
    rw [tbIn_at (SFac.varAt_get j1), tbIn_at (SFac.varAt_get j1)]
    have he : IsEdge (factors.map (·.scope)) f j (F.varAt j) := ⟨F.scope, by rw [List.getElem?_map, hF]; rfl, SFac.varAt_get j1⟩
    exact in_bag h he (h.inVars F hmem _ (List.mem_of_getElem? (SFac.varAt_get j1))) hC' (fun g i' he' => hm g i' _ he' hC')
  have hdiff : b - a ≤ F.raise x β S + (L.map (fun j => tbIn factors ev m f F j β - tbIn factors ev m f F j (x (F.varAt j)))).sum := by
    have e : (((List.range F.scope.length).filter (fun j => j ≠ i)).map (fun j => tbIn factors ev m f F j (r.1.getD j 0))).sum -
        (((List.range F.scope.length).filter (fun j => j ≠ i)).map (fun j => tbIn factors ev m f F j ((F.conf c0).getD j 0))).sum =
        (L.map (fun j => tbIn factors ev m f F j β - tbIn factors ev m f F j (x (F.varAt j)))).sum := by
      rw [sum_map_sub']
      have hlen : ∀ j ∈ (List.range F.scope.length).filter (fun j => j ≠ i), j < F.scope.length := fun j hj => List.mem_range.1 (List.mem_filter.1 hj).1
      simp only [L]
      generalize (List.range F.scope.length).filter (fun j => j ≠ i) = l at hlen
      induction l with
      | nil => rfl
      | cons j l ih =>
        have hj := hlen j List.mem_cons_self
        rw [List.map_cons, List.sum_cons, ih fun j hj => hlen j (List.mem_cons_of_mem _ hj), hget0 j hj]
        by_cases hjS : j ∈ S
        · rw [List.filter_cons_of_pos (by simpa using hjS), List.map_cons, List.sum_cons]
          simp only [c0, hjS, if_true, ((memS j).1 hjS).2.1]
        · rw [List.filter_cons_of_neg (by simpa using hjS)]
          simp only [c0, hjS, if_false, sub_self, zero_add]
    unfold SFac.raise
    unfold scoreBut at hrb ha0
    simp only at hrb ha0
    linarith
  choose! c k hs hrel hg using hL
  obtain ⟨h1, h2⟩ := gain_list (ev := ev) h L (D := fun j => tbIn factors ev m f F j β - tbIn factors ev m f F j (x (F.varAt j))) (c := c) (k := k) (fun e he => ⟨hs e he, hg e he⟩)
  obtain ⟨h3, h4⟩ := gain_fac (ev := ev) h hF hS
  have h5 := gain_add (ev := ev) h h3 h1
  refine ⟨_, _, ⟨fun v hv => ?_, fun f i v he hv => ?_⟩, fun g j w he => ?_, le_trans ?_ h5⟩
  · simp only [h1.1 v hv]
  · simp only [h1.2 f i v he hv]
    have := h3.2 f i v he hv
    simp only at this
    rw [this]
  · have e1 : (L.map (fun e => c e w)).sum = (L.map (fun e => k e g j)).sum + if g = f then L.count j else 0 := by
      have : (L.map (fun e => c e w)).sum = (L.map (fun e => k e g j + if (g, j) = (f, e) then 1 else 0)).sum :=
        congrArg List.sum (List.map_congr_left fun e he' => (hrel e he' g j w he).symm)
      rw [this, sum_map_add']
      congr 1
      by_cases hgf : g = f
      · rw [if_pos hgf, ← sum_ite_count]
        simp [hgf]
      · simp [hgf]
    have e2 : L.count j = if j ∈ S ∧ j ≠ i then 1 else 0 := by
      rw [((List.nodup_range.filter _).filter _).count]
      exact if_congr (memL j) rfl rfl
    rw [e1, e2]
    simp only [Prod.mk.injEq]
    by_cases hgf : g = f
    · by_cases hji : j = i
      · subst hji
        simp [hgf, hiS, add_comm]
      · by_cases hjS : j ∈ S <;> simp [hgf, hji, hjS, add_comm]
    · simp [hgf]
  · linarith

theorem OutBag.mono {f i : Nat} {D D' : α} (h : OutBag vars factors ev x β f i D) (hle : D' ≤ D) : OutBag vars factors ev x β f i D' := by
  obtain ⟨c, k, h1, h2, h3⟩ := h
  exact ⟨c, k, h1, h2, hle.trans h3⟩

theorem norm_diff {v : Var} (h : Persists vars factors x β) (hv : v ∈ vars) (hC : CanRaise x β v) {y : Nat → WithBot α} {a b : α} (ha : y (x v) = WithBot.some a) (hb : y β = WithBot.some b) :
    tbNorm v.n y β - tbNorm v.n y (x v) = max (-1000) (min 1000 (b - a)) := by
  have h1 := h.two v hv
  have h2 := h.states v hv
  have h3 := h.bit
  have h4 := hC.1
  have h5 := hC.2
  have hn : v.n = 2 := by omega
  rw [hn] at h2 ⊢
  rcases two_cases h2 h3 h4 with ⟨e1, e2⟩ | ⟨e1, e2⟩
  · rw [e1] at ha ⊢
    rw [e2] at hb ⊢
    exact tbNorm_two ha hb
  · rw [e1] at ha ⊢
    rw [e2] at hb ⊢
    have := tbNorm_two hb ha
    rw [← neg_sub, this]
    rcases le_total (a - b) (-1000) with k1 | k1
    · rw [min_eq_right (by linarith), max_eq_left k1, min_eq_left (by linarith), max_eq_right (by norm_num)]
      norm_num
    · rcases le_total 1000 (a - b) with k2 | k2
      · rw [min_eq_left k2, max_eq_right (by norm_num), min_eq_right (by linarith), max_eq_left (by linarith)]
      · rw [min_eq_right k2, max_eq_right k1, min_eq_right (by linarith), max_eq_right (by linarith)]
        ring

theorem norm_bag (h : Persists vars factors x β) {f i : Nat} {v : Var} (he : IsEdge (factors.map (·.scope)) f i v) (hC : CanRaise x β v) {D : α} (hD : OutBag vars factors ev x β f i D) :
    OutBag vars factors ev x β f i (max (-1000) (min 1000 D)) := by
  rcases le_total (min 1000 D) (-1000) with k | k
  · rw [max_eq_left k]
    exact virtual_bag h he hC
  · rw [max_eq_right k]
    exact hD.mono (min_le_right _ _)

/-- Messages from the start against `β`. -/
theorem run_bag (h : Persists vars factors x β) {d : α} (hd : 0 ≤ d ∧ d ≤ 1) {m : Msgs α} (hm : ∀ f i v, IsEdge (factors.map (·.scope)) f i v → CanRaise x β v → m f i β - m f i (x v) ≤ -1000) (n : Nat) :
    ∀ f i v, IsEdge (factors.map (·.scope)) f i v → CanRaise x β v → OutBag vars factors ev x β f i (tbRun factors ev d n m f i β - tbRun factors ev d n m f i (x v)) := by
  have hv : ∀ {f i v}, IsEdge (factors.map (·.scope)) f i v → v ∈ vars := fun he => by
    obtain ⟨F, hF, hi⟩ := edge_fac he
    exact h.inVars F (List.mem_of_getElem? hF) _ (List.mem_of_getElem? hi)
  induction n with
  | zero =>
    intro f i v he hC
    obtain ⟨F, hF, hi⟩ := edge_fac he
    show OutBag vars factors ev x β f i (tbInit factors m f i β - tbInit factors m f i (x v))
    rw [tbInit_at hF hi, tbInit_at hF hi, norm_diff h (hv he) hC rfl rfl]
    exact norm_bag h he hC ((virtual_bag h he hC).mono (hm f i v he hC))
  | succ n ih =>
    intro f i v he hC
    obtain ⟨F, hF, hi⟩ := edge_fac he
    have hmem := List.mem_of_getElem? hF
    have hne : F.rows ≠ [] := fun e => by
      have := F.look_mem (h.complete F hmem) (F.conf_fits (a := fun j => x (F.varAt j)) fun j hj => h.states _ (h.inVars F hmem _ (List.mem_of_getElem? (SFac.varAt_get hj))))
      rw [e] at this
      cases this
    have hfull := (h.complete F hmem).full (h.rows F hmem) hne
    obtain ⟨a, ha⟩ : ∃ a, tbOut F (tbIn factors ev (tbRun factors ev d n m) f F) i (x v) = WithBot.some a := by
      rw [tbOut_eq, if_neg (hfull i v _ hi (h.states v (hv he)))]
      exact ⟨_, rfl⟩
    obtain ⟨b, hb⟩ : ∃ b, tbOut F (tbIn factors ev (tbRun factors ev d n m) f F) i β = WithBot.some b := by
      rw [tbOut_eq, if_neg (hfull i v _ hi hC.2)]
      exact ⟨_, rfl⟩
    have h1 := out_bag h hF hi hC ih ha hb
    have h2 := ih f i v he hC
    show OutBag vars factors ev x β f i (tbStep factors ev d (tbRun factors ev d n m) f i β - tbStep factors ev d (tbRun factors ev d n m) f i (x v))
    generalize tbRun factors ev d n m = M at ha hb h2
    have e : ∀ s, tbStep factors ev d M f i s = tbNorm v.n (fun s => (tbOut F (tbIn factors ev M f F) i s).map (fun x => d * M f i s + (1 - d) * x)) s := fun s => by
      unfold tbStep
      simp only [hF, hi]
    rw [e, e, norm_diff h (hv he) hC (a := d * M f i (x v) + (1 - d) * a) (b := d * M f i β + (1 - d) * b) (by rw [ha]; rfl) (by rw [hb]; rfl)]
    refine norm_bag h he hC ?_
    rcases le_total (M f i β - M f i (x v)) (b - a) with k | k
    · refine h1.mono ?_
      have := mul_le_mul_of_nonneg_left k hd.1
      nlinarith
    · refine h2.mono ?_
      have := mul_le_mul_of_nonneg_left k (by linarith [hd.2] : 0 ≤ 1 - d)
      nlinarith

/-- The states after raising. -/
def raiseTo (x : Var → Nat) (β : Nat) (c : Var → Nat) (t : Nat) : Var → Nat := fun v => if t + 1 ≤ c v then β else x v

/-- Copies that fit together gain as much as raising level sets of the original. -/
theorem gain_closed (h : Persists vars factors x β) {ρ : Nat → List Nat × α} (hJ : Joint vars factors x ρ) {c : Var → Nat} {k : Nat → Nat → Nat} (hs : Supp factors x β c k)
    (hck : ∀ g j w, IsEdge (factors.map (·.scope)) g j w → k g j = c w) {N : Nat} (hN : ∀ v ∈ vars, c v ≤ N) :
    ∃ σ : Nat → Nat → List Nat × α, (∀ t, Joint vars factors (raiseTo x β c t) (σ t)) ∧
      gain vars factors ev x β c k = ∑ t ∈ Finset.range N, (jointScore vars factors ev (raiseTo x β c t) (σ t) - jointScore vars factors ev x ρ) := by
  have hst : ∀ t, ∀ v ∈ vars, raiseTo x β c t v < v.n := by
    intro t v hv
    unfold raiseTo
    split
    · next hle =>
      by_contra hlt
      have := hs.1 v fun hC => hlt hC.2
      omega
    · exact h.states v hv
  have hfac : ∀ f < factors.length, facAt factors f ∈ factors := fun f hf => List.mem_of_getElem? (facAt_get hf)
  have hmemv : ∀ f < factors.length, ∀ j < (facAt factors f).scope.length, (facAt factors f).varAt j ∈ vars := fun f hf j hj => h.inVars _ (hfac f hf) _ (List.mem_of_getElem? (SFac.varAt_get hj))
  refine ⟨fun t f => ((facAt factors f).scope.map (raiseTo x β c t), (facAt factors f).look ((facAt factors f).scope.map (raiseTo x β c t))), fun t => ⟨hst t, fun f F hF => ?_⟩, ?_⟩
  · have hm := List.mem_of_getElem? hF
    simp only [facAt_eq hF]
    refine ⟨?_, trivial⟩
    rw [← F.conf_scope]
    exact F.look_mem (h.complete F hm) (F.conf_fits fun j hj => hst t _ (h.inVars F hm _ (List.mem_of_getElem? (SFac.varAt_get hj))))
  · unfold gain jointScore
    have e1 : ∀ f ∈ Finset.range factors.length, allLevels ((facAt factors f).raise x β) (facAt factors f).scope.length (k f) =
        ∑ t ∈ Finset.range N, ((facAt factors f).look ((facAt factors f).scope.map (raiseTo x β c t)) - (ρ f).2) := by
      intro f hf
      have hf := Finset.mem_range.1 hf
      have hk : ∀ j < (facAt factors f).scope.length, k f j = c ((facAt factors f).varAt j) := fun j hj => hck f j _ (edge_facAt hf hj)
      rw [allLevels_eq (h.super hf).zero (N := N) (fun j hj => by rw [hk j hj]; exact hN _ (hmemv f hf j hj))]
      unfold levels
      refine Finset.sum_congr rfl fun t _ => ?_
      unfold SFac.raise
      obtain ⟨r1, r2⟩ := hJ.rows f _ (facAt_get hf)
      have := SFac.look_eq (h.complete _ (hfac f hf)).1 r1
      rw [r2] at this
      rw [this]
      congr 2
      rw [← SFac.conf_scope]
      refine SFac.conf_congr _ fun j hj => ?_
      unfold raiseTo
      refine if_congr ?_ rfl rfl
      rw [mem_level, hk j hj]
      exact ⟨fun h => h.2, fun h => ⟨hj, h⟩⟩
    have e2 : ∀ v ∈ vars, (c v : α) * (ev v β - ev v (x v)) = ∑ t ∈ Finset.range N, (ev v (raiseTo x β c t v) - ev v (x v)) := by
      intro v hv
      have : ∀ t, ev v (raiseTo x β c t v) - ev v (x v) = if t + 1 ≤ c v then ev v β - ev v (x v) else 0 := fun t => by
        unfold raiseTo
        split
        · rfl
        · rw [sub_self]
      rw [Finset.sum_congr rfl fun t _ => this t, ← Finset.sum_filter, Finset.sum_const, nsmul_eq_mul]
      congr 2
      have : (Finset.range N).filter (fun t => t + 1 ≤ c v) = Finset.range (c v) := by
        ext t
        have := hN v hv
        simp only [Finset.mem_filter, Finset.mem_range]
        omega
      rw [this, Finset.card_range]
    rw [Finset.sum_congr rfl e1, Finset.sum_congr rfl e2, Finset.sum_comm, Finset.sum_comm (s := vars), ← Finset.sum_add_distrib]
    refine Finset.sum_congr rfl fun t _ => ?_
    simp only
    rw [Finset.sum_sub_distrib, Finset.sum_sub_distrib]
    ring

/-- In the run that starts from messages against `β`, a variable of a best joint assignment with another state has a belief for this state that is at least that for `β`. -/
theorem persist (h : Persists vars factors x β) {ρ : Nat → List Nat × α} (hmap : IsMAP vars factors ev x ρ) {d : α} (hd : 0 ≤ d ∧ d ≤ 1) {m : Msgs α}
    (hm : ∀ f i v, IsEdge (factors.map (·.scope)) f i v → CanRaise x β v → m f i β - m f i (x v) ≤ -1000) (n : Nat) {v : Var} (hv : v ∈ vars) (hC : CanRaise x β v) :
    beliefOf (factors.map (·.scope)) ev (tbRun factors ev d n m) v β ≤ beliefOf (factors.map (·.scope)) ev (tbRun factors ev d n m) v (x v) := by
  obtain ⟨c, k, h1, h0, h2, h3⟩ := belief_bag h hv hC (fun f i he => run_bag h hd hm n f i v he hC)
  obtain ⟨σ, s1, s2⟩ := gain_closed (ev := ev) h hmap.1 h1 h2 (N := ∑ v ∈ vars, c v) (fun v hv => Finset.single_le_sum (f := c) (fun _ _ => Nat.zero_le _) hv)
  rw [s2] at h3
  have : ∑ t ∈ Finset.range (∑ v ∈ vars, c v), (jointScore vars factors ev (raiseTo x β c t) (σ t) - jointScore vars factors ev x ρ) ≤ 0 := Finset.sum_nonpos fun t _ => sub_nonpos.2 (hmap.2 _ _ (s1 t))
  linarith

/-- It is larger, if giving state `β` to more variables is worse. -/
theorem persist_strict (h : Persists vars factors x β) {ρ : Nat → List Nat × α} (hmap : IsMAP vars factors ev x ρ)
    (hstrict : ∀ x' ρ', Joint vars factors x' ρ' → (∀ v ∈ vars, x' v = x v ∨ x' v = β) → (∃ v ∈ vars, x' v ≠ x v) → jointScore vars factors ev x' ρ' < jointScore vars factors ev x ρ)
    {d : α} (hd : 0 ≤ d ∧ d ≤ 1) {m : Msgs α}
    (hm : ∀ f i v, IsEdge (factors.map (·.scope)) f i v → CanRaise x β v → m f i β - m f i (x v) ≤ -1000) (n : Nat) {v : Var} (hv : v ∈ vars) (hC : CanRaise x β v) :
    beliefOf (factors.map (·.scope)) ev (tbRun factors ev d n m) v β < beliefOf (factors.map (·.scope)) ev (tbRun factors ev d n m) v (x v) := by
  obtain ⟨c, k, h1, h0, h2, h3⟩ := belief_bag h hv hC (fun f i he => run_bag h hd hm n f i v he hC)
  have hle : c v ≤ ∑ v ∈ vars, c v := Finset.single_le_sum (f := c) (fun _ _ => Nat.zero_le _) hv
  obtain ⟨σ, s1, s2⟩ := gain_closed (ev := ev) h hmap.1 h1 h2 (N := ∑ v ∈ vars, c v) (fun v hv => Finset.single_le_sum (f := c) (fun _ _ => Nat.zero_le _) hv)
  rw [s2] at h3
  have : ∑ t ∈ Finset.range (∑ v ∈ vars, c v), (jointScore vars factors ev (raiseTo x β c t) (σ t) - jointScore vars factors ev x ρ) < 0 := by
    refine Finset.sum_neg' (fun t _ => sub_nonpos.2 (hmap.2 _ _ (s1 t))) ⟨0, Finset.mem_range.2 (by omega), sub_neg.2 (hstrict _ _ (s1 0) (fun w _ => ?_) ⟨v, hv, ?_⟩)⟩
    · unfold raiseTo
      split
      · exact .inr rfl
      · exact .inl rfl
    · unfold raiseTo
      rw [if_pos (by omega)]
      exact hC.1.symm
  linarith

/-- The score of a joint assignment depends only on the states. -/
theorem Joint.score {ρ : Nat → List Nat × α} (hc : ∀ F ∈ factors, F.Complete) (h : Joint vars factors x ρ) :
    jointScore vars factors ev x ρ = ∑ v ∈ vars, ev v (x v) + ∑ f ∈ Finset.range factors.length, (facAt factors f).look ((facAt factors f).scope.map x) := by
  unfold jointScore
  congr 1
  refine Finset.sum_congr rfl fun f hf => ?_
  have hF := facAt_get (factors := factors) (Finset.mem_range.1 hf)
  obtain ⟨r1, r2⟩ := h.rows f _ hF
  rw [← r2, SFac.look_eq (hc _ (List.mem_of_getElem? hF)).1 r1]

/-- States give a joint assignment. -/
theorem joint_of_states (hc : ∀ F ∈ factors, F.Complete) (hin : ∀ F ∈ factors, ∀ v ∈ F.scope, v ∈ vars) (hx : ∀ v ∈ vars, x v < v.n) :
    Joint vars factors x (fun f => ((facAt factors f).scope.map x, (facAt factors f).look ((facAt factors f).scope.map x))) := by
  refine ⟨hx, fun f F hF => ?_⟩
  have hm := List.mem_of_getElem? hF
  simp only [facAt_eq hF]
  refine ⟨?_, trivial⟩
  rw [← F.conf_scope]
  exact F.look_mem (hc F hm) (F.conf_fits fun j hj => hx _ (hin F hm _ (List.mem_of_getElem? (SFac.varAt_get hj))))

/-- There is a best joint assignment, and one with the least sum of states. -/
theorem exists_least_map (hc : ∀ F ∈ factors, F.Complete) (hin : ∀ F ∈ factors, ∀ v ∈ F.scope, v ∈ vars) (hpos : ∀ v ∈ vars, 0 < v.n) :
    ∃ x ρ, IsMAP vars factors ev x ρ ∧ ∀ x' ρ', IsMAP vars factors ev x' ρ' → ∑ v ∈ vars, x v ≤ ∑ v ∈ vars, x' v := by
  classical
  let ext : ((v : {v // v ∈ vars}) → Fin v.1.n) → Var → Nat := fun p v => if h : v ∈ vars then p ⟨v, h⟩ else 0
  let sc : (Var → Nat) → α := fun x => ∑ v ∈ vars, ev v (x v) + ∑ f ∈ Finset.range factors.length, (facAt factors f).look ((facAt factors f).scope.map x)
  haveI : Nonempty ((v : {v // v ∈ vars}) → Fin v.1.n) := ⟨fun v => ⟨0, hpos v.1 v.2⟩⟩
  obtain ⟨p, hp⟩ := Finite.exists_max (fun p => sc (ext p))
  have hext : ∀ p, ∀ v ∈ vars, ext p v < v.n := fun p v hv => by
    simp only [ext, dif_pos hv]
    exact (p ⟨v, hv⟩).2
  have hex : ∃ x ρ, IsMAP vars factors ev x ρ := by
    refine ⟨ext p, _, joint_of_states hc hin (hext p), fun x' ρ' hJ => ?_⟩
    rw [(joint_of_states hc hin (hext p)).score hc, hJ.score hc]
    have := hp fun v => ⟨x' v.1, hJ.states v.1 v.2⟩
    have e : ∀ v ∈ vars, ext (fun v => ⟨x' v.1, hJ.states v.1 v.2⟩) v = x' v := fun v hv => by
      simp only [ext, dif_pos hv]
    have e' : sc (ext (fun v => ⟨x' v.1, hJ.states v.1 v.2⟩)) = sc x' := by
      simp only [sc]
      congr 1
      · exact Finset.sum_congr rfl fun v hv => by rw [e v hv]
      · refine Finset.sum_congr rfl fun f hf => ?_
        have hm := List.mem_of_getElem? (facAt_get (factors := factors) (Finset.mem_range.1 hf))
        rw [List.map_congr_left fun v hv => e v (hin _ hm v hv)]
    simp only [e'] at this
    exact this
  have hN : ∃ N, ∃ x ρ, IsMAP vars factors ev x ρ ∧ ∑ v ∈ vars, x v = N := by
    obtain ⟨x, ρ, h⟩ := hex
    exact ⟨_, x, ρ, h, rfl⟩
  obtain ⟨x, ρ, h1, h2⟩ := Nat.find_spec hN
  exact ⟨x, ρ, h1, fun x' ρ' h' => h2 ▸ Nat.find_min' hN ⟨x', ρ', h', rfl⟩⟩

end PGMax
