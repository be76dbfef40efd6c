import Verif.Spec.Unwrap
import Verif.Lemmas.Cover
import Verif.Lemmas.SumTextbook

/-! Helper lemmas: textbook belief propagation near a variable, and on the unwrapped tree. -/

namespace PGMax

variable {α : Type _}

/-! ## Textbook iterations near a variable -/

/-- Variable `w` and its image occur in the same way in factors that are the same. -/
structure LikeAround (Fs Fs' : List (SFac α)) (φ : Nat → Nat) (ψ : Var → Var) (w : Var) : Prop where
  places : ((edgesOf (Fs.map (·.scope)) w).map (fun e => (φ e.1, e.2))).Perm (edgesOf (Fs'.map (·.scope)) (ψ w))
  facs : ∀ e ∈ edgesOf (Fs.map (·.scope)) w, ∃ F F', Fs[e.1]? = some F ∧ Fs'[φ e.1]? = some F' ∧ F'.scope = F.scope.map ψ ∧ F'.rows = F.rows

section
variable [Field α] {Fs Fs' : List (SFac α)} {φ : Nat → Nat} {ψ : Var → Var}

theorem LikeAround.beliefOf {w : Var} (h : LikeAround Fs Fs' φ ψ w) {ev ev' : Var → Nat → α} (hev : SameEvidence ev ev' ψ w)
    {m m' : Msgs α} (hm : SameTo (Fs.map (·.scope)) m m' φ w) (s : Nat) (hs : s < w.n) :
    beliefOf (Fs'.map (·.scope)) ev' m' (ψ w) s = beliefOf (Fs.map (·.scope)) ev m w s := by
  unfold PGMax.beliefOf
  rw [hev.2 s hs, ← (h.places.map (fun e => m' e.1 e.2 s)).sum_eq, List.map_map]
  congr 2
  exact List.map_congr_left (fun e he => hm e he s hs)

theorem LikeAround.varToFac {w : Var} (h : LikeAround Fs Fs' φ ψ w) {ev ev' : Var → Nat → α} (hev : SameEvidence ev ev' ψ w)
    {m m' : Msgs α} (hm : SameTo (Fs.map (·.scope)) m m' φ w) (e : Nat × Nat) (he : e ∈ edgesOf (Fs.map (·.scope)) w) (s : Nat) (hs : s < w.n) :
    varToFac (Fs'.map (·.scope)) ev' m' (ψ w) (φ e.1, e.2) s = varToFac (Fs.map (·.scope)) ev m w e s := by
  unfold PGMax.varToFac
  rw [hev.2 s hs, ← ((h.places.filter (fun e' => e' ≠ (φ e.1, e.2))).map (fun e => m' e.1 e.2 s)).sum_eq,
    List.filter_map, List.map_map]
  have hnd : ((edgesOf (Fs.map (·.scope)) w).map (fun e => (φ e.1, e.2))).Nodup := h.places.nodup_iff.2 (edgesOf_nodup _ _)
  have hinj := List.inj_on_of_nodup_map hnd
  congr 2
  have : (edgesOf (Fs.map (·.scope)) w).filter ((fun e' => decide (e' ≠ (φ e.1, e.2))) ∘ fun e => (φ e.1, e.2)) =
      (edgesOf (Fs.map (·.scope)) w).filter (fun e' => e' ≠ e) := by
    apply List.filter_congr
    intro e' he'
    simp only [Function.comp_apply, ne_eq, decide_not]
    congr 1
    rw [decide_eq_decide]
    exact ⟨fun h' => hinj he' he h', fun h' => by rw [h']⟩
  rw [this]
  exact List.map_congr_left (fun e' he' => hm e' (List.mem_filter.1 he').1 s hs)

variable [LinearOrder α]

theorem sumOut_image (Φ : List α → α) {F F' : SFac α} (hl : F'.scope.length = F.scope.length) (hr : F'.rows = F.rows) (q : Nat → Nat → α) (i s : Nat) :
    sumOut Φ F' q i s = sumOut Φ F q i s := by
  unfold sumOut SFac.rowsAt
  rw [hl, hr]

theorem LikeAround.sumStep {w : Var} (h : LikeAround Fs Fs' φ ψ w) (hn : (ψ w).n = w.n)
    (hrow : ∀ F ∈ Fs, ∀ r ∈ F.rows, List.Forall₂ (fun s (v : Var) => s < v.n) r.1 F.scope) (Φ : Nat → List α → α) {ev ev' : Var → Nat → α} (d : α)
    {m m' : Msgs α} (hm : SameTo (Fs.map (·.scope)) m m' φ w)
    (hq : ∀ (f : Nat) (F : SFac α), Fs[f]? = some F → w ∈ F.scope → ∀ (j : Nat) (u : Var) (t : Nat), F.scope[j]? = some u → t < u.n →
      PGMax.varToFac (Fs'.map (·.scope)) ev' m' (ψ u) (φ f, j) t = PGMax.varToFac (Fs.map (·.scope)) ev m u (f, j) t) :
    SameTo (Fs.map (·.scope)) (PGMax.sumStep (fun f => Φ (φ f)) Fs ev d m) (PGMax.sumStep Φ Fs' ev' d m') φ w := by
  rintro ⟨f, i⟩ he s hs
  obtain ⟨F, F', hF, hF', hsc, hrows⟩ := h.facs _ he
  have hi : F.scope[i]? = some w := by
    obtain ⟨vs, a, b⟩ := (mem_edgesOf _ _ _ _).1 he
    rw [getElem?_scopes hF] at a
    rw [Option.some.inj a]; exact b
  have hi' : F'.scope[i]? = some (ψ w) := by rw [hsc, List.getElem?_map, hi]; rfl
  simp only at hF hF' ⊢
  rw [sumStep_at _ hF hi, sumStep_at _ hF' hi', hn]
  refine tbNorm_congr (fun t ht => ?_) hs
  rw [show m' (φ f) i t = m f i t from hm _ he t ht, sumOut_image _ (by rw [hsc, List.length_map]) hrows]
  congr 1
  refine sumOut_congr _ (fun r hr => ?_)
  refine scoreBut_congr (hrow F (List.mem_of_getElem? hF) r (List.mem_filter.1 hr).1) ?_ i
  intro j u t hj ht
  rw [tbIn_at (by rw [hsc, List.getElem?_map, hj]; rfl : F'.scope[j]? = some (ψ u)), tbIn_at hj]
  exact hq f F hF (List.mem_of_getElem? hi) j u t hj ht

variable [IsStrictOrderedRing α]

theorem tbInit_zero {f i : Nat} {v : Var} (he : IsEdge (Fs.map (·.scope)) f i v) {s : Nat} (hs : s < v.n) :
    tbInit Fs (fun _ _ _ => (0 : α)) f i s = 0 := by
  obtain ⟨vs, a, b⟩ := he
  rw [List.getElem?_map] at a
  obtain ⟨F, hF, rfl⟩ := Option.map_eq_some_iff.1 a
  rw [tbInit_at hF b]
  have hsup : (Finset.range v.n).sup (fun _ => WithBot.some (0 : α)) = WithBot.some 0 := Finset.sup_const ⟨s, Finset.mem_range.2 hs⟩ _
  rw [tbNorm_coe hsup rfl]
  norm_num

/-- `n` iterations from zero messages: what reaches `w`. -/
theorem sumRun_near (hrow : ∀ F ∈ Fs, ∀ r ∈ F.rows, List.Forall₂ (fun s (v : Var) => s < v.n) r.1 F.scope) (Φ : Nat → List α → α)
    {ev ev' : Var → Nat → α} (d : α) (n : Nat) :
    ∀ w, (∀ k < n, ∀ u, Within (Fs.map (·.scope)) k w u → LikeAround Fs Fs' φ ψ u) →
      (∀ u, Within (Fs.map (·.scope)) n w u → SameEvidence ev ev' ψ u) →
      (LikeAround Fs Fs' φ ψ w → SameTo (Fs.map (·.scope)) (sumRun (fun f => Φ (φ f)) Fs ev d n (fun _ _ _ => 0)) (sumRun Φ Fs' ev' d n (fun _ _ _ => 0)) φ w) ∧
      ∀ e ∈ edgesOf (Fs.map (·.scope)) w, ∀ s < w.n,
        varToFac (Fs'.map (·.scope)) ev' (sumRun Φ Fs' ev' d n (fun _ _ _ => 0)) (ψ w) (φ e.1, e.2) s =
          varToFac (Fs.map (·.scope)) ev (sumRun (fun f => Φ (φ f)) Fs ev d n (fun _ _ _ => 0)) w e s := by
  induction n with
  | zero =>
    intro w _ hev
    have hw := hev w rfl
    constructor
    · intro hl e he s hs
      have he' : (φ e.1, e.2) ∈ edgesOf (Fs'.map (·.scope)) (ψ w) := hl.places.subset (List.mem_map.2 ⟨_, he, rfl⟩)
      show tbInit Fs' _ _ _ s = tbInit Fs _ _ _ s
      rw [tbInit_zero ((mem_edgesOf _ _ _ _).1 he) hs, tbInit_zero ((mem_edgesOf _ _ _ _).1 he') (by rw [hw.1]; exact hs)]
    · intro e he s hs
      show varToFac _ _ (tbInit Fs' _) _ _ s = varToFac _ _ (tbInit Fs _) _ _ s
      unfold varToFac
      rw [List.sum_eq_zero, List.sum_eq_zero, add_zero, add_zero]
      · exact hw.2 s hs
      · intro x hx
        obtain ⟨e', he', rfl⟩ := List.mem_map.1 hx
        exact tbInit_zero ((mem_edgesOf _ _ _ _).1 (List.mem_filter.1 he').1) hs
      · intro x hx
        obtain ⟨e', he', rfl⟩ := List.mem_map.1 hx
        exact tbInit_zero ((mem_edgesOf _ _ _ _).1 (List.mem_filter.1 he').1) (by rw [hw.1]; exact hs)
  | succ n ih =>
    intro w hin hev
    have a1 := hin 0 (by omega) w rfl
    have a2 := hev w (Within.refl _ _ _)
    have hC : SameTo (Fs.map (·.scope)) (sumRun (fun f => Φ (φ f)) Fs ev d (n + 1) (fun _ _ _ => 0)) (sumRun Φ Fs' ev' d (n + 1) (fun _ _ _ => 0)) φ w := by
      refine a1.sumStep a2.1 hrow Φ d ((ih w (fun k hk => hin k (by omega)) (fun u hu => hev u hu.mono)).1 a1) ?_
      intro f F hF hwv j u t hj ht
      have hvs : F.scope ∈ Fs.map (·.scope) := List.mem_map.2 ⟨F, List.mem_of_getElem? hF, rfl⟩
      have hu := List.mem_of_getElem? hj
      exact (ih u (fun k hk x hx => hin (k + 1) (by omega) x (.inr ⟨_, hvs, hwv, u, hu, hx⟩))
        (fun x hx => hev x (.inr ⟨_, hvs, hwv, u, hu, hx⟩))).2 (f, j) ((mem_edgesOf _ _ _ _).2 ⟨_, getElem?_scopes hF, hj⟩) t ht
    exact ⟨fun _ => hC, fun e he s hs => a1.varToFac a2 hC e he s hs⟩

end

/-! ## Walks -/

/-- The walks that never go straight back. -/
def ValidWalk (scopes : List (List Var)) (r : Var) : Steps → Prop
  | [] => True
  | (f, i, j) :: p => ValidWalk scopes r p ∧ (f, i) ∈ walkNext scopes r p ∧ j < (scopes.getD f []).length ∧ j ≠ i

section
variable {scopes : List (List Var)} {r : Var}

theorem mem_walks {n : Nat} {p : Steps} : p ∈ walks scopes r n ↔ p.length = n ∧ ValidWalk scopes r p := by
  induction n generalizing p with
  | zero =>
    unfold walks
    rw [List.mem_singleton]
    constructor
    · rintro rfl; exact ⟨rfl, trivial⟩
    · rintro ⟨h, -⟩; exact List.length_eq_zero_iff.1 h
  | succ n ih =>
    unfold walks
    simp only [List.mem_flatMap, List.mem_map, List.mem_filter, List.mem_range, decide_eq_true_eq, ih]
    constructor
    · rintro ⟨q, ⟨rfl, hq⟩, ⟨f, i⟩, he, j, ⟨hj, hji⟩, rfl⟩
      exact ⟨rfl, hq, he, hj, hji⟩
    · rintro ⟨hl, hv⟩
      match p, hl, hv with
      | (f, i, j) :: p, hl, ⟨hv, he, hj, hji⟩ =>
        exact ⟨p, ⟨by simpa using hl, hv⟩, (f, i), he, j, ⟨hj, hji⟩, rfl⟩

theorem walkNext_sub {p : Steps} {e : Nat × Nat} (h : e ∈ walkNext scopes r p) : e ∈ edgesOf scopes (walkEnd scopes r p) := by
  match p with
  | [] => exact h
  | (f, i, j) :: p => exact (List.mem_filter.1 h).1

theorem walkNext_nodup (p : Steps) : (walkNext scopes r p).Nodup := by
  match p with
  | [] => exact edgesOf_nodup _ _
  | (f, i, j) :: p => exact (edgesOf_nodup _ _).filter _

theorem walks_nodup (n : Nat) : (walks scopes r n).Nodup := by
  induction n with
  | zero => exact List.nodup_singleton _
  | succ n ih =>
    unfold walks
    rw [List.nodup_flatMap]
    refine ⟨fun p _ => ?_, ih.imp ?_⟩
    · rw [List.nodup_flatMap]
      refine ⟨fun e _ => (List.nodup_range.filter _).map (fun a b h => by simpa using h), (walkNext_nodup p).imp ?_⟩
      intro e e' hne q h1 h2
      obtain ⟨a, -, rfl⟩ := List.mem_map.1 h1
      obtain ⟨b, -, hb⟩ := List.mem_map.1 h2
      simp only [List.cons.injEq, Prod.mk.injEq, and_true] at hb
      exact hne (Prod.ext hb.1.symm hb.2.1.symm)
    · intro p p' hne q h1 h2
      obtain ⟨e, -, h1⟩ := List.mem_flatMap.1 h1
      obtain ⟨a, -, rfl⟩ := List.mem_map.1 h1
      obtain ⟨e', -, h2⟩ := List.mem_flatMap.1 h2
      obtain ⟨b, -, hb⟩ := List.mem_map.1 h2
      simp only [List.cons.injEq] at hb
      exact hne hb.2.symm

theorem mem_treePlaces {n : Nat} {p : Steps} {e : Nat × Nat} :
    (p, e) ∈ treePlaces scopes r n ↔ p.length < n ∧ ValidWalk scopes r p ∧ e ∈ walkNext scopes r p := by
  unfold treePlaces
  simp only [List.mem_flatMap, List.mem_map, List.mem_range, mem_walks, Prod.mk.injEq]
  constructor
  · rintro ⟨q, ⟨k, hk, rfl, hq⟩, e', he, rfl, rfl⟩
    exact ⟨hk, hq, he⟩
  · rintro ⟨hk, hq, he⟩
    exact ⟨p, ⟨_, hk, rfl, hq⟩, e, he, rfl, rfl⟩

theorem treePlaces_nodup (n : Nat) : (treePlaces scopes r n).Nodup := by
  unfold treePlaces
  rw [List.nodup_flatMap]
  refine ⟨fun p _ => (walkNext_nodup p).map (fun a b h => by simpa using h), ?_⟩
  have : ((List.range n).flatMap (walks scopes r)).Nodup := by
    rw [List.nodup_flatMap]
    refine ⟨fun k _ => walks_nodup k, List.nodup_range.imp ?_⟩
    intro a b hne q h1 h2
    exact hne ((mem_walks.1 h1).1.symm.trans (mem_walks.1 h2).1)
  refine this.imp ?_
  intro p p' hne q h1 h2
  obtain ⟨a, -, rfl⟩ := List.mem_map.1 h1
  obtain ⟨b, -, hb⟩ := List.mem_map.1 h2
  simp only [Prod.mk.injEq] at hb
  exact hne hb.1.symm

theorem treeVar_n (p : Steps) : (treeVar scopes r p).n = (walkEnd scopes r p).n := by unfold treeVar; rfl

theorem treeVar_root_n : (treeVar scopes r []).n = r.n := treeVar_n []

theorem treeVar_inj {p q : Steps} (h : treeVar scopes r p = treeVar scopes r q) : p = q := by
  unfold treeVar at h
  exact Encodable.encode_injective (Var.mk.inj h).1

/-- The walk for position `j` of the copy of `f` that `p` enters at position `i`. -/
def walkOn (p : Steps) (f i j : Nat) : Steps := if j = i then p else (f, i, j) :: p

theorem walkOn_inj {p : Steps} {f i j k : Nat} (h : walkOn p f i j = walkOn p f i k) : j = k := by
  unfold walkOn at h
  split at h <;> split at h
  · omega
  · exact absurd (congrArg List.length h) (by simp)
  · exact absurd (congrArg List.length h) (by simp)
  · simpa using h

end

/-! ## The tree -/

section
variable {Fs : List (SFac α)} {r : Var} {n : Nat}

theorem unwrap_getElem? {g : Nat} {F : SFac α} : (unwrap Fs r n)[g]? = some F ↔
    ∃ p f i, (treePlaces (Fs.map (·.scope)) r n)[g]? = some (p, f, i) ∧ F = treeFac Fs r p f i := by
  unfold unwrap
  rw [List.getElem?_map, Option.map_eq_some_iff]
  constructor
  · rintro ⟨⟨p, f, i⟩, h, rfl⟩; exact ⟨p, f, i, h, rfl⟩
  · rintro ⟨p, f, i, h, rfl⟩; exact ⟨(p, f, i), h, rfl⟩

theorem treeFac_scope {p : Steps} {f i j : Nat} {v : Var} : (treeFac Fs r p f i).scope[j]? = some v ↔
    j < ((Fs.map (·.scope)).getD f []).length ∧ v = treeVar (Fs.map (·.scope)) r (walkOn p f i j) := by
  unfold treeFac
  simp only
  rw [List.getElem?_map, Option.map_eq_some_iff]
  constructor
  · rintro ⟨k, hk, rfl⟩
    obtain ⟨h1, h2⟩ := List.getElem?_eq_some_iff.1 hk
    rw [List.getElem_range] at h2
    subst h2
    exact ⟨by simpa using h1, rfl⟩
  · rintro ⟨h, rfl⟩
    exact ⟨j, by rw [List.getElem?_range h], rfl⟩

theorem treeFac_length (p : Steps) (f i : Nat) : (treeFac Fs r p f i).scope.length = ((Fs.map (·.scope)).getD f []).length := by
  unfold treeFac
  simp only [List.length_map, List.length_range]

theorem unwrap_edge {g j : Nat} {v : Var} : IsEdge ((unwrap Fs r n).map (·.scope)) g j v ↔
    ∃ p f i, (treePlaces (Fs.map (·.scope)) r n)[g]? = some (p, f, i) ∧ j < ((Fs.map (·.scope)).getD f []).length ∧
      v = treeVar (Fs.map (·.scope)) r (walkOn p f i j) := by
  constructor
  · rintro ⟨vs, h1, h2⟩
    rw [List.getElem?_map] at h1
    obtain ⟨F, hF, rfl⟩ := Option.map_eq_some_iff.1 h1
    obtain ⟨p, f, i, h, rfl⟩ := unwrap_getElem?.1 hF
    exact ⟨p, f, i, h, treeFac_scope.1 h2⟩
  · rintro ⟨p, f, i, h, h2⟩
    exact ⟨_, getElem?_scopes (unwrap_getElem?.2 ⟨p, f, i, h, rfl⟩), treeFac_scope.2 h2⟩

/-- What an index of the tree is a copy of. -/
theorem place_facts {g : Nat} {p : Steps} {f i : Nat} (h : (treePlaces (Fs.map (·.scope)) r n)[g]? = some (p, f, i)) :
    p.length < n ∧ ValidWalk (Fs.map (·.scope)) r p ∧ (f, i) ∈ walkNext (Fs.map (·.scope)) r p ∧
      ∃ F, Fs[f]? = some F ∧ (Fs.map (·.scope)).getD f [] = F.scope ∧ F.scope[i]? = some (walkEnd (Fs.map (·.scope)) r p) := by
  obtain ⟨h1, h2, h3⟩ := mem_treePlaces.1 (List.mem_of_getElem? h)
  refine ⟨h1, h2, h3, ?_⟩
  obtain ⟨vs, h4, h5⟩ := (mem_edgesOf _ _ _ _).1 (walkNext_sub h3)
  have h6 := getD_of_some (d := []) h4
  rw [List.getElem?_map] at h4
  obtain ⟨F, hF, rfl⟩ := Option.map_eq_some_iff.1 h4
  exact ⟨F, hF, h6, h5⟩

/-- The copies of the positions of a factor end in its variables. -/
theorem walkEnd_on {p : Steps} {f i j : Nat} {F : SFac α} (hF : (Fs.map (·.scope)).getD f [] = F.scope)
    (hi : F.scope[i]? = some (walkEnd (Fs.map (·.scope)) r p)) (hj : j < F.scope.length) :
    F.scope[j]? = some (walkEnd (Fs.map (·.scope)) r (walkOn p f i j)) := by
  unfold walkOn
  split
  · next h => rw [h, hi]
  · show _ = some (((Fs.map (·.scope)).getD f []).getD j r)
    rw [hF, List.getElem?_eq_getElem hj]
    simp [hj]

/-- The variable that a variable of the tree is a copy of. -/
def treeOf (scopes : List (List Var)) (r : Var) (v : Var) : Var :=
  match (Encodable.decode v.hash : Option Steps) with
  | some p => walkEnd scopes r p
  | none => v

theorem treeOf_treeVar (scopes : List (List Var)) (r : Var) (p : Steps) : treeOf scopes r (treeVar scopes r p) = walkEnd scopes r p := by
  unfold treeOf treeVar
  simp only [Encodable.encodek]

theorem unwrapEv_treeVar [Zero α] (scopes : List (List Var)) (r : Var) (ev : Var → Nat → α) (p : Steps) :
    unwrapEv scopes r ev (treeVar scopes r p) = ev (walkEnd scopes r p) := by
  unfold unwrapEv treeVar
  simp only [Encodable.encodek]

/-- The factor that a factor of the tree is a copy of. -/
def treeIdx (scopes : List (List Var)) (r : Var) (n g : Nat) : Nat := ((treePlaces scopes r n).getD g ([], 0, 0)).2.1

theorem treeFac_map {p : Steps} {f i : Nat} {F : SFac α} (hF : (Fs.map (·.scope)).getD f [] = F.scope)
    (hi : F.scope[i]? = some (walkEnd (Fs.map (·.scope)) r p)) :
    (treeFac Fs r p f i).scope.map (treeOf (Fs.map (·.scope)) r) = F.scope := by
  apply List.ext_getElem?
  intro j
  rw [List.getElem?_map]
  by_cases hj : j < F.scope.length
  · rw [treeFac_scope.2 ⟨by rw [hF]; exact hj, rfl⟩, Option.map_some, treeOf_treeVar, walkEnd_on hF hi hj]
  · rw [List.getElem?_eq_none (l := (treeFac Fs r p f i).scope) (by rw [treeFac_length, hF]; omega), List.getElem?_eq_none (by omega)]
    rfl

theorem treeFac_sizes {p : Steps} {f i : Nat} {F : SFac α} (hF : (Fs.map (·.scope)).getD f [] = F.scope)
    (hi : F.scope[i]? = some (walkEnd (Fs.map (·.scope)) r p)) :
    (treeFac Fs r p f i).scope.map (·.n) = F.scope.map (·.n) := by
  rw [← treeFac_map hF hi, List.map_map]
  apply List.map_congr_left
  intro v hv
  obtain ⟨j, hj⟩ := List.mem_iff_getElem?.1 hv
  obtain ⟨-, rfl⟩ := treeFac_scope.1 hj
  show (treeVar _ r _).n = (treeOf _ r (treeVar _ r _)).n
  rw [treeOf_treeVar]; rfl

theorem unwrap_rows (hrow : ∀ F ∈ Fs, ∀ r ∈ F.rows, List.Forall₂ (fun s (v : Var) => s < v.n) r.1 F.scope) :
    ∀ F ∈ unwrap Fs r n, ∀ r ∈ F.rows, List.Forall₂ (fun s (v : Var) => s < v.n) r.1 F.scope := by
  intro F hF q hq
  obtain ⟨g, hg⟩ := List.mem_iff_getElem?.1 hF
  obtain ⟨p, f, i, h, rfl⟩ := unwrap_getElem?.1 hg
  obtain ⟨-, -, -, F, h1, h2, h3⟩ := place_facts h
  have h4 : (treeFac Fs r p f i).rows = F.rows := by
    show (Fs.getD f ⟨[], []⟩).rows = _
    rw [getD_of_some h1]
  rw [h4] at hq
  have h5 := hrow F (List.mem_of_getElem? h1) q hq
  have key : ∀ sc : List Var, List.Forall₂ (fun s (v : Var) => s < v.n) q.1 sc ↔ List.Forall₂ (fun s k => s < k) q.1 (sc.map (·.n)) :=
    fun sc => List.forall₂_map_right_iff.symm
  rw [key, treeFac_sizes h2 h3, ← key]
  exact h5

theorem unwrap_nodup : ∀ F ∈ unwrap Fs r n, F.scope.Nodup := by
  intro F hF
  obtain ⟨g, hg⟩ := List.mem_iff_getElem?.1 hF
  obtain ⟨p, f, i, h, rfl⟩ := unwrap_getElem?.1 hg
  unfold treeFac
  exact List.nodup_range.map (fun a b hab => walkOn_inj (treeVar_inj hab))

/-- Around the walks of fewer than `n` steps, the tree looks like the graph. -/
theorem unwrap_like {q : Steps} (hq : q.length < n) (hv : ValidWalk (Fs.map (·.scope)) r q) :
    LikeAround (unwrap Fs r n) Fs (treeIdx (Fs.map (·.scope)) r n) (treeOf (Fs.map (·.scope)) r) (treeVar (Fs.map (·.scope)) r q) := by
  have hidx : ∀ {g p f i}, (treePlaces (Fs.map (·.scope)) r n)[g]? = some (p, f, i) → treeIdx (Fs.map (·.scope)) r n g = f := by
    intro g p f i h
    unfold treeIdx
    rw [getD_of_some h]
  constructor
  · rw [treeOf_treeVar]
    refine (List.perm_ext_iff_of_nodup (List.Nodup.map_on ?_ (edgesOf_nodup _ _)) (edgesOf_nodup _ _)).2 ?_
    · rintro ⟨g, j⟩ h1 ⟨g', j'⟩ h2 heq
      obtain ⟨p, f, i, a1, a2, a3⟩ := unwrap_edge.1 ((mem_edgesOf _ _ _ _).1 h1)
      obtain ⟨p', f', i', b1, b2, b3⟩ := unwrap_edge.1 ((mem_edgesOf _ _ _ _).1 h2)
      simp only [hidx a1, hidx b1, Prod.mk.injEq] at heq
      obtain ⟨rfl, rfl⟩ := heq
      have c1 := treeVar_inj a3
      have c2 := treeVar_inj b3
      have hpl : (p, f, i) = (p', f, i') := by
        unfold walkOn at c1 c2
        split at c1 <;> split at c2
        · next e1 e2 => rw [← c1, ← c2, ← e1, ← e2]
        · next e1 e2 =>
          -- `(f, j)` would be the place that `q` came by
          exfalso
          have := (place_facts a1).2.2.1
          rw [← c1, c2, ← e1] at this
          simp [walkNext] at this
        · next e1 e2 =>
          exfalso
          have := (place_facts b1).2.2.1
          rw [← c2, c1, ← e2] at this
          simp [walkNext] at this
        · have := c1.symm.trans c2
          simp only [List.cons.injEq, Prod.mk.injEq, true_and, and_true] at this
          rw [this.1, this.2]
      rw [← hpl] at b1
      have := (List.getElem?_inj (List.getElem?_eq_some_iff.1 a1).1 (treePlaces_nodup n)).1 (a1.trans b1.symm)
      rw [this]
    · rintro ⟨f, j⟩
      rw [List.mem_map]
      constructor
      · rintro ⟨⟨g, j'⟩, h1, heq⟩
        obtain ⟨p, f', i, a1, a2, a3⟩ := unwrap_edge.1 ((mem_edgesOf _ _ _ _).1 h1)
        simp only [hidx a1, Prod.mk.injEq] at heq
        obtain ⟨rfl, rfl⟩ := heq
        obtain ⟨-, -, -, F, b1, b2, b3⟩ := place_facts a1
        rw [treeVar_inj a3]
        exact (mem_edgesOf _ _ _ _).2 ⟨F.scope, getElem?_scopes b1, walkEnd_on b2 b3 (by rw [← b2]; exact a2)⟩
      · intro h
        obtain ⟨vs, h1, h2⟩ := (mem_edgesOf _ _ _ _).1 h
        have hlt : j < ((Fs.map (·.scope)).getD f []).length := by
          rw [getD_of_some h1]; exact (List.getElem?_eq_some_iff.1 h2).1
        by_cases hn : (f, j) ∈ walkNext (Fs.map (·.scope)) r q
        · obtain ⟨g, hg⟩ := List.mem_iff_getElem?.1 (mem_treePlaces.2 ⟨hq, hv, hn⟩)
          refine ⟨(g, j), (mem_edgesOf _ _ _ _).2 (unwrap_edge.2 ⟨q, f, j, hg, hlt, by simp [walkOn]⟩), by simp only [hidx hg]⟩
        · match q, hq, hv, h, hn with
          | [], hq, hv, h, hn => exact absurd h hn
          | (f', i, j') :: p, hq, hv, h, hn =>
            have : (f, j) = (f', j') := by
              by_contra hne
              exact hn (List.mem_filter.2 ⟨h, decide_eq_true hne⟩)
            simp only [Prod.mk.injEq] at this
            obtain ⟨rfl, rfl⟩ := this
            obtain ⟨v1, v2, v3, v4⟩ := hv
            obtain ⟨g, hg⟩ := List.mem_iff_getElem?.1 (mem_treePlaces.2 ⟨(by simp at hq; omega : p.length < n), v1, v2⟩)
            exact ⟨(g, j), (mem_edgesOf _ _ _ _).2 (unwrap_edge.2 ⟨p, f, i, hg, hlt, by simp [walkOn, v4]⟩), by simp only [hidx hg]⟩
  · rintro ⟨g, j⟩ he
    obtain ⟨p, f, i, a1, a2, a3⟩ := unwrap_edge.1 ((mem_edgesOf _ _ _ _).1 he)
    obtain ⟨-, -, -, F, b1, b2, b3⟩ := place_facts a1
    refine ⟨_, F, unwrap_getElem?.2 ⟨p, f, i, a1, rfl⟩, by rw [hidx a1]; exact b1, (treeFac_map b2 b3).symm, ?_⟩
    show F.rows = (Fs.getD f ⟨[], []⟩).rows
    rw [getD_of_some b1]

/-- What is within `k` steps of a walk are walks of at most `k` more steps. -/
theorem unwrap_within {k : Nat} {q : Steps} {u : Var} (hv : ValidWalk (Fs.map (·.scope)) r q)
    (h : Within ((unwrap Fs r n).map (·.scope)) k (treeVar (Fs.map (·.scope)) r q) u) :
    ∃ q', ValidWalk (Fs.map (·.scope)) r q' ∧ q'.length ≤ q.length + k ∧ u = treeVar (Fs.map (·.scope)) r q' := by
  induction k generalizing q with
  | zero => exact ⟨q, hv, le_rfl, h⟩
  | succ k ih =>
    rcases h with rfl | ⟨vs, hvs, hq, x, hx, h⟩
    · exact ⟨q, hv, by omega, rfl⟩
    · obtain ⟨g, hg⟩ := List.mem_iff_getElem?.1 hvs
      obtain ⟨j, hj⟩ := List.mem_iff_getElem?.1 hq
      obtain ⟨j', hj'⟩ := List.mem_iff_getElem?.1 hx
      obtain ⟨p, f, i, a1, a2, a3⟩ := unwrap_edge.1 ⟨vs, hg, hj⟩
      obtain ⟨p', f', i', b1, b2, b3⟩ := unwrap_edge.1 ⟨vs, hg, hj'⟩
      rw [a1] at b1
      simp only [Option.some.injEq, Prod.mk.injEq] at b1
      obtain ⟨rfl, rfl, rfl⟩ := b1
      obtain ⟨c1, c2, c3, -⟩ := place_facts a1
      have hval : ValidWalk (Fs.map (·.scope)) r (walkOn p f i j') := by
        unfold walkOn
        split
        · exact c2
        · next hne => exact ⟨c2, c3, b2, hne⟩
      have hl1 : (walkOn p f i j').length ≤ p.length + 1 := by unfold walkOn; split <;> simp
      have hl2 : p.length ≤ q.length := by
        rw [treeVar_inj a3]; unfold walkOn; split <;> simp
      subst b3
      obtain ⟨q', d1, d2, d3⟩ := ih hval h
      exact ⟨q', d1, by omega, d3⟩

/-- The upward positions of the tree. -/
def treeUp (scopes : List (List Var)) (r : Var) (n g : Nat) : Nat := ((treePlaces scopes r n).getD g ([], 0, 0)).2.2

/-- The heights in the tree. -/
def treeHt (scopes : List (List Var)) (r : Var) (n g : Nat) : Nat := n - 1 - ((treePlaces scopes r n).getD g ([], 0, 0)).1.length

open Classical in
/-- The parents in the tree. -/
noncomputable def treePar (scopes : List (List Var)) (up : Nat → Nat) (v : Var) : Option (Nat × Nat) :=
  if h : ∃ e : Nat × Nat, IsEdge scopes e.1 e.2 v ∧ e.2 ≠ up e.1 then some h.choose else none

/-- A position that is not the upward one. -/
theorem unwrap_down {g j : Nat} {v : Var} (h : IsEdge ((unwrap Fs r n).map (·.scope)) g j v) (hj : j ≠ treeUp (Fs.map (·.scope)) r n g) :
    ∃ p f i, (treePlaces (Fs.map (·.scope)) r n)[g]? = some (p, f, i) ∧ v = treeVar (Fs.map (·.scope)) r ((f, i, j) :: p) := by
  obtain ⟨p, f, i, a1, a2, a3⟩ := unwrap_edge.1 h
  refine ⟨p, f, i, a1, ?_⟩
  have : treeUp (Fs.map (·.scope)) r n g = i := by unfold treeUp; rw [getD_of_some a1]
  rw [this] at hj
  rw [a3, walkOn, if_neg hj]

theorem unwrap_up {g : Nat} {v : Var} (h : IsEdge ((unwrap Fs r n).map (·.scope)) g (treeUp (Fs.map (·.scope)) r n g) v) :
    ∃ p f i, (treePlaces (Fs.map (·.scope)) r n)[g]? = some (p, f, i) ∧ treeUp (Fs.map (·.scope)) r n g = i ∧ v = treeVar (Fs.map (·.scope)) r p := by
  obtain ⟨p, f, i, a1, a2, a3⟩ := unwrap_edge.1 h
  have : treeUp (Fs.map (·.scope)) r n g = i := by unfold treeUp; rw [getD_of_some a1]
  refine ⟨p, f, i, a1, this, ?_⟩
  rw [a3, this, walkOn, if_pos rfl]

theorem unwrap_forest : RootedForest ((unwrap Fs r n).map (·.scope)) (treeUp (Fs.map (·.scope)) r n)
    (treePar ((unwrap Fs r n).map (·.scope)) (treeUp (Fs.map (·.scope)) r n)) (treeHt (Fs.map (·.scope)) r n) := by
  have hpar : ∀ v f j, treePar ((unwrap Fs r n).map (·.scope)) (treeUp (Fs.map (·.scope)) r n) v = some (f, j) ↔
      IsEdge ((unwrap Fs r n).map (·.scope)) f j v ∧ j ≠ treeUp (Fs.map (·.scope)) r n f := by
    intro v g j
    unfold treePar
    split
    · next h =>
      have hc := h.choose_spec
      constructor
      · intro he
        simp only [Option.some.injEq] at he
        rw [he] at hc
        exact hc
      · rintro ⟨h1, h2⟩
        obtain ⟨p, f, i, a1, a2⟩ := unwrap_down h1 h2
        obtain ⟨p', f', i', b1, b2⟩ := unwrap_down hc.1 hc.2
        have := treeVar_inj (a2.symm.trans b2)
        simp only [List.cons.injEq, Prod.mk.injEq] at this
        obtain ⟨⟨rfl, rfl, e3⟩, rfl⟩ := this
        have e4 := (List.getElem?_inj (List.getElem?_eq_some_iff.1 a1).1 (treePlaces_nodup n)).1 (a1.trans b1.symm)
        rw [e3, e4]
    · next h =>
      constructor
      · intro he; cases he
      · rintro ⟨h1, h2⟩; exact absurd ⟨(g, j), h1, h2⟩ h
  refine ⟨?_, hpar, ?_⟩
  · intro g vs h
    rw [List.getElem?_map] at h
    obtain ⟨F, hF, rfl⟩ := Option.map_eq_some_iff.1 h
    obtain ⟨p, f, i, a1, rfl⟩ := unwrap_getElem?.1 hF
    obtain ⟨-, -, -, F, b1, b2, b3⟩ := place_facts a1
    have : treeUp (Fs.map (·.scope)) r n g = i := by unfold treeUp; rw [getD_of_some a1]
    rw [this]
    show i < (treeFac Fs r p f i).scope.length
    rw [treeFac_length, b2]
    exact (List.getElem?_eq_some_iff.1 b3).1
  · intro v g j g' h1 h2
    obtain ⟨h3, h4⟩ := (hpar v g j).1 h1
    obtain ⟨p, f, i, a1, a2⟩ := unwrap_down h3 h4
    obtain ⟨p', f', i', b1, -, b2⟩ := unwrap_up h2
    have e := treeVar_inj (a2.symm.trans b2)
    have hl := (place_facts b1).1
    unfold treeHt
    rw [getD_of_some a1, getD_of_some b1, ← e]
    rw [← e] at hl
    simp only [List.length_cons] at hl ⊢
    omega

theorem unwrap_root : treePar ((unwrap Fs r n).map (·.scope)) (treeUp (Fs.map (·.scope)) r n) (treeVar (Fs.map (·.scope)) r []) = none := by
  unfold treePar
  rw [dif_neg]
  rintro ⟨⟨g, j⟩, h1, h2⟩
  obtain ⟨p, f, i, a1, a2⟩ := unwrap_down h1 h2
  cases treeVar_inj a2

theorem mem_unwrapVars {scopes : List (List Var)} {v : Var} : v ∈ unwrapVars scopes r n ↔
    ∃ q, ValidWalk scopes r q ∧ q.length ≤ n ∧ v = treeVar scopes r q := by
  unfold unwrapVars
  simp only [List.mem_toFinset, List.mem_map, List.mem_flatMap, List.mem_range, mem_walks]
  constructor
  · rintro ⟨q, ⟨k, hk, rfl, hq⟩, rfl⟩; exact ⟨q, hq, by omega, rfl⟩
  · rintro ⟨q, hq, hl, rfl⟩; exact ⟨q, ⟨_, by omega, rfl, hq⟩, rfl⟩

theorem unwrap_edge_vars {g j : Nat} {v : Var} (h : IsEdge ((unwrap Fs r n).map (·.scope)) g j v) : v ∈ unwrapVars (Fs.map (·.scope)) r n := by
  obtain ⟨p, f, i, a1, a2, rfl⟩ := unwrap_edge.1 h
  obtain ⟨c1, c2, c3, -⟩ := place_facts a1
  refine mem_unwrapVars.2 ⟨_, ?_, ?_, rfl⟩
  · unfold walkOn
    split
    · exact c2
    · next hne => exact ⟨c2, c3, a2, hne⟩
  · unfold walkOn
    split
    · omega
    · exact c1

/-- Walks end in the root or in variables of the factors. -/
theorem walkEnd_mem {scopes : List (List Var)} {q : Steps} (h : ValidWalk scopes r q) : walkEnd scopes r q = r ∨ ∃ f i, IsEdge scopes f i (walkEnd scopes r q) := by
  match q, h with
  | [], _ => exact .inl rfl
  | (f, i, j) :: p, ⟨h1, h2, h3, h4⟩ =>
    right
    obtain ⟨vs, a1, a2⟩ := (mem_edgesOf _ _ _ _).1 (walkNext_sub h2)
    refine ⟨f, j, vs, a1, ?_⟩
    show vs[j]? = some ((scopes.getD f []).getD j r)
    rw [getD_of_some a1] at h3 ⊢
    simp [h3]

end

/-! ## Iterations on the tree -/

section
variable [Field α] [LinearOrder α] [IsStrictOrderedRing α] {Fs : List (SFac α)} {r : Var} {n : Nat}

theorem unwrap_evidence (ev : Var → Nat → α) (q : Steps) :
    SameEvidence (unwrapEv (Fs.map (·.scope)) r ev) ev (treeOf (Fs.map (·.scope)) r) (treeVar (Fs.map (·.scope)) r q) := by
  refine ⟨by rw [treeOf_treeVar]; rfl, fun s _ => ?_⟩
  rw [treeOf_treeVar, unwrapEv_treeVar]

/-- The messages of the tree after `k` iterations, to the walks that are `k` steps before its leaves. -/
theorem unwrap_run (hrow : ∀ F ∈ Fs, ∀ r ∈ F.rows, List.Forall₂ (fun s (v : Var) => s < v.n) r.1 F.scope) (Φ : Nat → List α → α)
    (ev : Var → Nat → α) (d : α) {k : Nat} {q : Steps} (hv : ValidWalk (Fs.map (·.scope)) r q) (hk : q.length + k ≤ n) (hq : q.length < n) :
    SameTo ((unwrap Fs r n).map (·.scope))
      (sumRun (fun f => Φ (treeIdx (Fs.map (·.scope)) r n f)) (unwrap Fs r n) (unwrapEv (Fs.map (·.scope)) r ev) d k (fun _ _ _ => 0))
      (sumRun Φ Fs ev d k (fun _ _ _ => 0)) (treeIdx (Fs.map (·.scope)) r n) (treeVar (Fs.map (·.scope)) r q) := by
  refine (sumRun_near (unwrap_rows hrow) Φ d k _ ?_ ?_).1 (unwrap_like hq hv)
  · intro j hj u hu
    obtain ⟨q', h1, h2, rfl⟩ := unwrap_within hv hu
    exact unwrap_like (by omega) h1
  · intro u hu
    obtain ⟨q', h1, h2, rfl⟩ := unwrap_within hv hu
    exact unwrap_evidence ev q'

omit [Field α] [LinearOrder α] [IsStrictOrderedRing α] in
theorem SameTo.at {scopes : List (List Var)} {m m' : Msgs α} {φ : Nat → Nat} {w : Var} (h : SameTo scopes m m' φ w) {f i s : Nat}
    (he : IsEdge scopes f i w) (hs : s < w.n) : m' (φ f) i s = m f i s := h (f, i) ((mem_edgesOf _ _ _ _).2 he) s hs

/-- No upward message of the tree is clipped. -/
theorem unwrap_clip (hrow : ∀ F ∈ Fs, ∀ r ∈ F.rows, List.Forall₂ (fun s (v : Var) => s < v.n) r.1 F.scope) (Φ : Nat → List α → α)
    (ev : Var → Nat → α) (hclip : ∀ k < n, ∀ f i v s, IsEdge (Fs.map (·.scope)) f i v → s < v.n → -1000 < sumRun Φ Fs ev 0 (k + 1) (fun _ _ _ => 0) f i s)
    {g : Nat} {v : Var} {s : Nat} (he : IsEdge ((unwrap Fs r n).map (·.scope)) g (treeUp (Fs.map (·.scope)) r n g) v) (hs : s < v.n) :
    -1000 < sumRun (fun f => Φ (treeIdx (Fs.map (·.scope)) r n f)) (unwrap Fs r n) (unwrapEv (Fs.map (·.scope)) r ev) 0 n (fun _ _ _ => 0) g
      (treeUp (Fs.map (·.scope)) r n g) s := by
  obtain ⟨p, f, i, a1, a2, rfl⟩ := unwrap_up he
  obtain ⟨c1, c2, c3, F, b1, b2, b3⟩ := place_facts a1
  have hht : treeHt (Fs.map (·.scope)) r n g = n - 1 - p.length := by unfold treeHt; rw [getD_of_some a1]
  have h1 := unwrap_forest.sum_converged (factors := unwrap Fs r n) (fun f F hF => unwrap_rows hrow F (List.mem_of_getElem? hF))
    (fun f => Φ (treeIdx (Fs.map (·.scope)) r n f)) (unwrapEv (Fs.map (·.scope)) r ev) (fun _ _ _ => 0) (fun _ _ _ => 0)
    (n - 1 - p.length) g _ s (n - 1) (n - 1 - p.length) hht.le (by omega) le_rfl he hs
  have hn : n - 1 + 1 = n := by omega
  have hk : p.length + (n - 1 - p.length + 1) ≤ n := by omega
  have hk' : n - 1 - p.length < n := by omega
  generalize n - 1 - p.length = k at h1 hk hk'
  rw [hn] at h1
  rw [h1]
  have hidx : treeIdx (Fs.map (·.scope)) r n g = f := by unfold treeIdx; rw [getD_of_some a1]
  have h2 := unwrap_run (r := r) (n := n) hrow Φ ev 0 c2 (k := k + 1) hk c1
  have h3 := h2.at he hs
  refine lt_of_lt_of_eq ?_ h3
  rw [hidx, a2]
  exact hclip k hk' f i _ s ⟨F.scope, getElem?_scopes b1, b3⟩ (show s < (treeVar (Fs.map (·.scope)) r p).n from hs)

/-- The beliefs of the root, in the graph and in the tree. -/
theorem unwrap_belief (hrow : ∀ F ∈ Fs, ∀ r ∈ F.rows, List.Forall₂ (fun s (v : Var) => s < v.n) r.1 F.scope) (Φ : Nat → List α → α)
    (ev : Var → Nat → α) (d : α) {s : Nat} (hs : s < r.n) :
    beliefOf ((unwrap Fs r n).map (·.scope)) (unwrapEv (Fs.map (·.scope)) r ev)
      (sumRun (fun f => Φ (treeIdx (Fs.map (·.scope)) r n f)) (unwrap Fs r n) (unwrapEv (Fs.map (·.scope)) r ev) d n (fun _ _ _ => 0))
      (treeVar (Fs.map (·.scope)) r []) s =
    beliefOf (Fs.map (·.scope)) ev (sumRun Φ Fs ev d n (fun _ _ _ => 0)) r s := by
  cases n with
  | zero =>
    have h1 : edgesOf ((unwrap Fs r 0).map (·.scope)) (treeVar (Fs.map (·.scope)) r []) = [] := by
      simp [unwrap, treePlaces, edgesOf]
    unfold beliefOf
    rw [h1, unwrapEv_treeVar]
    show _ + 0 = ev r s + ((edgesOf (Fs.map (·.scope)) r).map (fun (e : Nat × Nat) => tbInit Fs (fun _ _ _ => 0) e.1 e.2 s)).sum
    rw [List.sum_eq_zero]
    · rfl
    · intro x hx
      obtain ⟨e, he, rfl⟩ := List.mem_map.1 hx
      exact tbInit_zero ((mem_edgesOf _ _ _ _).1 he) hs
  | succ n =>
    have := (unwrap_like (Fs := Fs) (r := r) (n := n + 1) (q := []) (by simp) trivial).beliefOf (unwrap_evidence ev [])
      (unwrap_run hrow Φ ev d (k := n + 1) trivial (by simp) (by simp)) s hs
    rw [treeOf_treeVar] at this
    exact this.symm

/-- The upward messages of the tree are a fixed point. -/
theorem unwrap_fixed (hrow : ∀ F ∈ Fs, ∀ r ∈ F.rows, List.Forall₂ (fun s (v : Var) => s < v.n) r.1 F.scope) (Φ : Nat → List α → α)
    (ev : Var → Nat → α) (hclip : ∀ k < n, ∀ f i v s, IsEdge (Fs.map (·.scope)) f i v → s < v.n → -1000 < sumRun Φ Fs ev 0 (k + 1) (fun _ _ _ => 0) f i s) :
    ∃ (K : Nat → α) (m : Msgs α), (∀ (g : Nat) (F : SFac α) (v : Var), (unwrap Fs r n)[g]? = some F → F.scope[treeUp (Fs.map (·.scope)) r n g]? = some v → ∀ s < v.n,
      F.rowsAt (treeUp (Fs.map (·.scope)) r n g) s ≠ [] ∧
      m g (treeUp (Fs.map (·.scope)) r n g) s + K g = Φ (treeIdx (Fs.map (·.scope)) r n g) ((F.rowsAt (treeUp (Fs.map (·.scope)) r n g) s).map (fun q => q.2 +
        ∑ j ∈ Finset.range F.scope.length with j ≠ treeUp (Fs.map (·.scope)) r n g,
          upSum ((unwrap Fs r n).map (·.scope)) (treeUp (Fs.map (·.scope)) r n) (unwrapEv (Fs.map (·.scope)) r ev) m
            (varOn ((unwrap Fs r n).map (·.scope)) g j) (q.1.getD j 0)))) ∧
      ∀ s < r.n, beliefOf ((unwrap Fs r n).map (·.scope)) (unwrapEv (Fs.map (·.scope)) r ev) m (treeVar (Fs.map (·.scope)) r []) s =
        beliefOf (Fs.map (·.scope)) ev (sumRun Φ Fs ev 0 n (fun _ _ _ => 0)) r s := by
  obtain ⟨K, hK⟩ := (unwrap_forest (Fs := Fs) (r := r) (n := n)).sum_fixed
    (fun f F hF => unwrap_rows hrow F (List.mem_of_getElem? hF)) (fun g => Φ (treeIdx (Fs.map (·.scope)) r n g))
    (unwrapEv (Fs.map (·.scope)) r ev) (fun _ _ _ => 0) n
    (fun g hg => by
      obtain ⟨p, f, i, h1, -⟩ := unwrap_getElem?.1 (List.getElem?_eq_getElem hg)
      have h2 := (place_facts h1).1
      unfold treeHt
      omega)
    (fun g v s he hs => by
      have := unwrap_clip (Fs := Fs) (r := r) (n := n) hrow Φ ev hclip he hs
      exact this)
  exact ⟨K, _, hK, fun s hs => unwrap_belief hrow Φ ev 0 hs⟩

end

end PGMax
