import Verif.Spec.Cutset
import Verif.Lemmas.CutRows
import Verif.Lemmas.PairNets
import Verif.Lemmas.Range
import Mathlib.Data.Nat.Pairing

/-! Helper lemmas: a graph in which every edge of a decided variable gets a variable of its own. -/

namespace PGMax

/-- The variable of position `i` of factor `f`: a new one (with a hash of at least `B`) if the old one is in `D`. -/
def edgeVar (D : Finset Var) (B f i : Nat) (v : Var) : Var := if v ∈ D then ⟨B + Nat.pair f i, v.n⟩ else v

/-- The graph with new variables. -/
def cut {α : Type _} (D : Finset Var) (B : Nat) (factors : List (SFac α)) : List (SFac α) := factors.mapIdx (fun f F => ⟨F.scope.mapIdx (edgeVar D B f), F.rows⟩)

/-- The variable that a new variable replaces. -/
def cutOrig (scopes : List (List Var)) (B : Nat) (w : Var) : Var := if B ≤ w.hash then varOn scopes (Nat.unpair (w.hash - B)).1 (Nat.unpair (w.hash - B)).2 else w

section
variable {α : Type _} {D : Finset Var} {B : Nat} {factors : List (SFac α)}

theorem cut_get {f : Nat} {F : SFac α} (hF : factors[f]? = some F) : (cut D B factors)[f]? = some ⟨F.scope.mapIdx (edgeVar D B f), F.rows⟩ := by
  unfold cut
  rw [List.getElem?_mapIdx, hF]; rfl

theorem cut_get_inv {f : Nat} {F' : SFac α} (hF : (cut D B factors)[f]? = some F') : ∃ F, factors[f]? = some F ∧ F' = ⟨F.scope.mapIdx (edgeVar D B f), F.rows⟩ := by
  unfold cut at hF
  rw [List.getElem?_mapIdx] at hF
  obtain ⟨F, h1, h2⟩ := Option.map_eq_some_iff.1 hF
  exact ⟨F, h1, h2.symm⟩

theorem cut_length : (cut D B factors).length = factors.length := by unfold cut; simp

theorem cut_edge {f i : Nat} {v : Var} (h : IsEdge (factors.map (·.scope)) f i v) : IsEdge ((cut D B factors).map (·.scope)) f i (edgeVar D B f i v) := by
  obtain ⟨vs, h1, h2⟩ := h
  rw [List.getElem?_map] at h1
  obtain ⟨F, hF, rfl⟩ := Option.map_eq_some_iff.1 h1
  refine ⟨_, getElem?_scopes (cut_get hF), ?_⟩
  show (F.scope.mapIdx (edgeVar D B f))[i]? = _
  rw [List.getElem?_mapIdx, h2]; rfl

theorem cut_edge_inv {f i : Nat} {w : Var} (h : IsEdge ((cut D B factors).map (·.scope)) f i w) : ∃ v, IsEdge (factors.map (·.scope)) f i v ∧ w = edgeVar D B f i v := by
  obtain ⟨vs, h1, h2⟩ := h
  rw [List.getElem?_map] at h1
  obtain ⟨F', hF', rfl⟩ := Option.map_eq_some_iff.1 h1
  obtain ⟨F, hF, rfl⟩ := cut_get_inv hF'
  have h2 : (F.scope.mapIdx (edgeVar D B f))[i]? = some w := h2
  rw [List.getElem?_mapIdx] at h2
  obtain ⟨v, h3, h4⟩ := Option.map_eq_some_iff.1 h2
  exact ⟨v, ⟨_, getElem?_scopes hF, h3⟩, h4.symm⟩

theorem edgeVar_n (f i : Nat) (v : Var) : (edgeVar D B f i v).n = v.n := by unfold edgeVar; split <;> rfl

variable (hB : ∀ f i v, IsEdge (factors.map (·.scope)) f i v → v.hash < B)
include hB

theorem edgeVar_new {f i : Nat} {v : Var} (h : IsEdge (factors.map (·.scope)) f i v) : B ≤ (edgeVar D B f i v).hash ↔ v ∈ D := by
  have := hB f i v h
  unfold edgeVar
  split
  · next hv => simp [hv]
  · next hv => simp only [hv, iff_false]; omega

theorem cutOrig_edgeVar {f i : Nat} {v : Var} (h : IsEdge (factors.map (·.scope)) f i v) : cutOrig (factors.map (·.scope)) B (edgeVar D B f i v) = v := by
  have := hB f i v h
  unfold edgeVar cutOrig
  split
  · next hv =>
    rw [if_pos (by simp)]
    simp only [Nat.add_sub_cancel_left, Nat.unpair_pair]
    exact h.varOn
  · rw [if_neg (by omega)]

/-- Undecided variables keep their edges. -/
theorem cut_edgesOf {u : Var} (hu : u.hash < B) (hD : u ∉ D) : edgesOf ((cut D B factors).map (·.scope)) u = edgesOf (factors.map (·.scope)) u := by
  unfold edgesOf
  rw [List.length_map, List.length_map, cut_length]
  apply List.flatMap_congr
  intro f hf
  obtain ⟨F, hF⟩ : ∃ F, factors[f]? = some F := ⟨_, List.getElem?_eq_getElem (List.mem_range.1 hf)⟩
  rw [getD_of_some (getElem?_scopes hF), getD_of_some (getElem?_scopes (cut_get hF))]
  simp only [List.length_mapIdx]
  congr 1
  apply List.filter_congr
  intro i _
  rw [List.getElem?_mapIdx, decide_eq_decide]
  cases hv : F.scope[i]? with
  | none => simp
  | some v =>
    simp only [Option.map_some, Option.some.injEq]
    have := edgeVar_new (D := D) hB (f := f) (i := i) (v := v) ⟨_, getElem?_scopes hF, hv⟩
    constructor
    · intro h
      rw [h] at this
      have hvD : v ∉ D := fun hc => by have := this.2 hc; omega
      unfold edgeVar at h
      rw [if_neg hvD] at h
      exact h
    · rintro rfl
      unfold edgeVar
      rw [if_neg hD]

/-- A new variable has one edge. -/
theorem cut_edge_unique {f i g j : Nat} {w : Var} (hw : B ≤ w.hash) (h1 : IsEdge ((cut D B factors).map (·.scope)) f i w)
    (h2 : IsEdge ((cut D B factors).map (·.scope)) g j w) : f = g ∧ i = j := by
  obtain ⟨v, e1, rfl⟩ := cut_edge_inv h1
  obtain ⟨v', e2, e3⟩ := cut_edge_inv h2
  have h3 := (edgeVar_new hB e1).1 hw
  have h4 : v' ∈ D := (edgeVar_new hB e2).1 (by rw [← e3]; exact hw)
  unfold edgeVar at e3
  rw [if_pos h3, if_pos h4] at e3
  have h5 := congrArg Var.hash e3
  simp only [Nat.add_left_cancel_iff, Nat.pair_eq_pair] at h5
  exact h5

theorem cut_edgesOf_new {f i : Nat} {w : Var} (hw : B ≤ w.hash) (h1 : IsEdge ((cut D B factors).map (·.scope)) f i w) :
    edgesOf ((cut D B factors).map (·.scope)) w = [(f, i)] := by
  have hnd := edgesOf_nodup ((cut D B factors).map (·.scope)) w
  have hmem : (f, i) ∈ edgesOf ((cut D B factors).map (·.scope)) w := (mem_edgesOf _ _ _ _).2 h1
  have hall : ∀ e ∈ edgesOf ((cut D B factors).map (·.scope)) w, e = (f, i) := by
    rintro ⟨g, j⟩ he
    obtain ⟨rfl, rfl⟩ := cut_edge_unique hB hw h1 ((mem_edgesOf _ _ _ _).1 he)
    rfl
  revert hnd hmem hall
  generalize edgesOf ((cut D B factors).map (·.scope)) w = l
  intro hnd hmem hall
  match l with
  | [] => simp at hmem
  | [e] => rw [hall e (by simp)]
  | e :: e' :: l =>
    have h1 := hall e (by simp)
    have h2 := hall e' (by simp)
    rw [h1, h2] at hnd
    simp at hnd

theorem cut_nodup (hnd : ∀ F ∈ factors, F.scope.Nodup) : ∀ vs ∈ (cut D B factors).map (·.scope), vs.Nodup := by
  intro vs hvs
  obtain ⟨f, hf⟩ := List.mem_iff_getElem?.1 hvs
  rw [List.nodup_iff_getElem?_ne_getElem?]
  intro i j hij hj heq
  have h2 : vs[j]? = some vs[j] := List.getElem?_eq_getElem hj
  rw [h2] at heq
  have e1 : IsEdge ((cut D B factors).map (·.scope)) f i vs[j] := ⟨vs, hf, heq⟩
  have e2 : IsEdge ((cut D B factors).map (·.scope)) f j vs[j] := ⟨vs, hf, h2⟩
  by_cases hw : B ≤ (vs[j]).hash
  · have := (cut_edge_unique hB hw e1 e2).2
    omega
  · obtain ⟨v, a1, a2⟩ := cut_edge_inv e1
    obtain ⟨v', b1, b2⟩ := cut_edge_inv e2
    have hv : v = v' := by
      rw [← cutOrig_edgeVar (D := D) hB a1, ← cutOrig_edgeVar (D := D) hB b1, ← a2, ← b2]
    subst hv
    obtain ⟨ws, c1, c2⟩ := a1
    obtain ⟨ws', c3, c4⟩ := b1
    rw [c1] at c3
    cases c3
    rw [List.getElem?_map] at c1
    obtain ⟨F, hF, rfl⟩ := Option.map_eq_some_iff.1 c1
    have := (List.getElem?_inj (List.getElem?_eq_some_iff.1 c2).1 (hnd F (List.mem_of_getElem? hF))).1 (c2.trans c4.symm)
    omega

/-- The new variables are leaves, so the new graph has no cycles if the graph without the decided variables has none. -/
theorem cut_acyclic (hG : (bipartite (without D (factors.map (·.scope)))).IsAcyclic) : (bipartite ((cut D B factors).map (·.scope))).IsAcyclic := by
  obtain ⟨d, hd1, hd2⟩ := levels_of_acyclic hG
  have hw : ∀ {f i v}, IsEdge (factors.map (·.scope)) f i v → v ∉ D → (bipartite (without D (factors.map (·.scope)))).Adj (.inl v) (.inr f) := by
    rintro f i v ⟨vs, h1, h2⟩ hv
    rw [bipartite_adj]
    have hm : v ∈ vs.filter (fun v => v ∉ D) := List.mem_filter.2 ⟨List.mem_of_getElem? h2, by simpa using hv⟩
    obtain ⟨j, hj⟩ := List.mem_iff_getElem?.1 hm
    refine ⟨j, _, ?_, hj⟩
    unfold without
    rw [List.getElem?_map, h1]; rfl
  have hold : ∀ {f i w}, IsEdge ((cut D B factors).map (·.scope)) f i w → ¬B ≤ w.hash → (bipartite (without D (factors.map (·.scope)))).Adj (.inl w) (.inr f) := by
    intro f i w he hlt
    obtain ⟨v, h1, h2⟩ := cut_edge_inv he
    have hv : v ∉ D := fun hc => hlt (by rw [h2]; exact (edgeVar_new hB h1).2 hc)
    unfold edgeVar at h2
    rw [if_neg hv] at h2
    rw [h2]
    exact hw h1 hv
  refine acyclic_of_level (fun z => match z with
    | .inl w => if B ≤ w.hash then d (.inr (Nat.unpair (w.hash - B)).1) + 1 else d (.inl w)
    | .inr f => d (.inr f)) ?_
  have hnew : ∀ {f i w}, IsEdge ((cut D B factors).map (·.scope)) f i w → B ≤ w.hash → (Nat.unpair (w.hash - B)).1 = f := by
    intro f i w he hle
    obtain ⟨v, h1, rfl⟩ := cut_edge_inv he
    have hv := (edgeVar_new hB h1).1 hle
    unfold edgeVar
    rw [if_pos hv]
    simp
  rintro (w | f) (w' | g) (w'' | g') h1 h2
  · exact h1.elim
  · exact h1.elim
  · exact h2.elim
  · obtain ⟨i, hi⟩ := h1
    obtain ⟨j, hj⟩ := h2
    intro l1 l2
    by_cases hle : B ≤ w.hash
    · rw [(cut_edge_unique hB hle hi hj).1]
    · simp only [if_neg hle] at l1 l2
      have a1 := hold hi hle
      have a2 := hold hj hle
      have n1 := hd1 _ _ a1
      have n2 := hd1 _ _ a2
      exact hd2 _ _ _ a1 a2 (by omega) (by omega)
  · obtain ⟨i, hi⟩ := h1
    obtain ⟨j, hj⟩ := h2
    intro l1 l2
    have k1 : ¬B ≤ w'.hash := by
      intro hle
      simp only [if_pos hle, hnew hi hle] at l1
      omega
    have k2 : ¬B ≤ w''.hash := by
      intro hle
      simp only [if_pos hle, hnew hj hle] at l2
      omega
    simp only [if_neg k1, if_neg k2] at l1 l2
    have a1 := hold hi k1
    have a2 := hold hj k2
    have n1 := hd1 _ _ a1
    have n2 := hd1 _ _ a2
    exact hd2 _ _ _ a1.symm a2.symm (by omega) (by omega)
  · exact h2.elim
  · exact h1.elim
  · exact h1.elim

end

section
variable {α : Type _} [Field α] [LinearOrder α] [IsStrictOrderedRing α] {D : Finset Var} {B : Nat} {factors : List (SFac α)}

/-- From zero messages, the messages of complete tables lie between minus the range of the log potentials and 0. -/
theorem tbRun_complete (hrow : ∀ F ∈ factors, ∀ r ∈ F.rows, List.Forall₂ (fun s (v : Var) => s < v.n) r.1 F.scope) (hpos : ∀ F ∈ factors, ∀ v ∈ F.scope, 0 < v.n)
    {R : Nat → α} (hR : ∀ f, 0 ≤ R f) (hc : ∀ (f : Nat) (F : SFac α), factors[f]? = some F → F.Complete ∧ F.Within (R f)) (ev : Var → Nat → α) (k f i : Nat) (v : Var)
    (he : IsEdge (factors.map (·.scope)) f i v) (s : Nat) (hs : s < v.n) :
    -R f ≤ tbRun factors ev 0 k (fun _ _ _ => 0) f i s ∧ tbRun factors ev 0 k (fun _ _ _ => 0) f i s ≤ 0 := by
  obtain ⟨vs, h1, hi⟩ := he
  rw [List.getElem?_map] at h1
  obtain ⟨F, hF, rfl⟩ := Option.map_eq_some_iff.1 h1
  have hm := List.mem_of_getElem? hF
  have hnorm : ∀ x : Nat → α, tbNorm v.n (fun s => WithBot.some (x s)) s ≤ 0 := by
    intro x
    obtain ⟨t, ht, he⟩ := Finset.exists_mem_eq_sup (Finset.range v.n) ⟨s, Finset.mem_range.2 hs⟩ (fun s => (WithBot.some (x s) : WithBot α))
    rw [tbNorm_coe he rfl]
    have : (WithBot.some (x s) : WithBot α) ≤ WithBot.some (x t) := by
      rw [← he]; exact Finset.le_sup (f := fun s => (WithBot.some (x s) : WithBot α)) (Finset.mem_range.2 hs)
    have := WithBot.coe_le_coe.1 this
    exact max_le (by linarith) (by norm_num)
  cases k with
  | zero =>
    simp only [tbRun]
    rw [tbInit_at hF hi]
    exact ⟨(tbNorm_range (x := fun _ => (0 : α)) (fun s _ t _ => by simpa using hR f) hs).1, hnorm (fun _ => 0)⟩
  | succ k =>
    simp only [tbRun]
    rw [tbStep_undamped hF hi]
    have hfull := (hc f F hF).1.full_pos (hrow F hm) (hpos F hm)
    have e : ∀ s < v.n, tbOut F (tbIn factors ev (tbRun factors ev 0 k (fun _ _ _ => 0)) f F) i s =
        WithBot.some (maxOf 0 ((F.rowsAt i s).map (scoreBut F.scope.length (tbIn factors ev (tbRun factors ev 0 k (fun _ _ _ => 0)) f F) i))) := by
      intro s hs
      rw [tbOut_eq, if_neg (hfull i v s hi hs)]
    rw [tbNorm_congr e hs]
    refine ⟨(tbNorm_range (fun s hs t ht => ?_) hs).1, hnorm _⟩
    have := (hc f F hF).1.out_le (hrow F hm) (hc f F hF).2 summary_max (tbIn factors ev (tbRun factors ev 0 k (fun _ _ _ => 0)) f F) hi hs ht (hfull i v s hi hs)
    linarith

variable (hB : ∀ f i v, IsEdge (factors.map (·.scope)) f i v → v.hash < B)
  (hrow : ∀ F ∈ factors, ∀ r ∈ F.rows, List.Forall₂ (fun s (v : Var) => s < v.n) r.1 F.scope) (hpos : ∀ F ∈ factors, ∀ v ∈ F.scope, 0 < v.n)
  {R : Nat → α} (hR : ∀ f, 0 ≤ R f) (hc : ∀ (f : Nat) (F : SFac α), factors[f]? = some F → F.Complete ∧ F.Within (R f))
  {ev : Var → Nat → α} {x : Var → Nat}

omit [Field α] [LinearOrder α] [IsStrictOrderedRing α] in
theorem cut_forall₂ {f : Nat} {scope : List Var} {c : List Nat} :
    List.Forall₂ (fun s (v : Var) => s < v.n) c (scope.mapIdx (edgeVar D B f)) ↔ List.Forall₂ (fun s (v : Var) => s < v.n) c scope := by
  rw [List.forall₂_iff_get, List.forall₂_iff_get]
  simp only [List.length_mapIdx, List.get_eq_getElem, List.getElem_mapIdx, edgeVar_n]

omit [Field α] [LinearOrder α] [IsStrictOrderedRing α] in
include hrow in
theorem cut_rows : ∀ F ∈ cut D B factors, ∀ r ∈ F.rows, List.Forall₂ (fun s (v : Var) => s < v.n) r.1 F.scope := by
  intro F' hF' r hr
  obtain ⟨f, hf⟩ := List.mem_iff_getElem?.1 hF'
  obtain ⟨F, hF, rfl⟩ := cut_get_inv hf
  exact cut_forall₂.2 (hrow F (List.mem_of_getElem? hF) r hr)

omit [Field α] [LinearOrder α] [IsStrictOrderedRing α] in
include hpos in
theorem cut_pos : ∀ F ∈ cut D B factors, ∀ v ∈ F.scope, 0 < v.n := by
  intro F' hF' w hw
  obtain ⟨f, hf⟩ := List.mem_iff_getElem?.1 hF'
  obtain ⟨i, hi⟩ := List.mem_iff_getElem?.1 hw
  obtain ⟨v, ⟨vs, h1, h2⟩, rfl⟩ := cut_edge_inv ⟨_, getElem?_scopes hf, hi⟩
  rw [List.getElem?_map] at h1
  obtain ⟨F, hF, rfl⟩ := Option.map_eq_some_iff.1 h1
  rw [edgeVar_n]
  exact hpos F (List.mem_of_getElem? hF) v (List.mem_of_getElem? h2)

omit [IsStrictOrderedRing α] in
include hc in
theorem cut_complete (f : Nat) (F : SFac α) (hF : (cut D B factors)[f]? = some F) : F.Complete ∧ F.Within (R f) := by
  obtain ⟨F, hF', rfl⟩ := cut_get_inv hF
  obtain ⟨⟨h1, h2⟩, h3⟩ := hc f F hF'
  exact ⟨⟨h1, fun c hc => h2 c (cut_forall₂.1 hc)⟩, h3⟩

include hB hR in
/-- The new variables are decided as well. -/
theorem cut_dominant (hdom : ∀ f i v, IsEdge (factors.map (·.scope)) f i v → v ∈ D → Dominant (factors.map (·.scope)) ev R x v) {f i : Nat} {w : Var}
    (he : IsEdge ((cut D B factors).map (·.scope)) f i w) (hw : B ≤ w.hash) :
    Dominant ((cut D B factors).map (·.scope)) (fun w => ev (cutOrig (factors.map (·.scope)) B w)) R (fun w => x (cutOrig (factors.map (·.scope)) B w)) w := by
  obtain ⟨v, h1, rfl⟩ := cut_edge_inv he
  have hv := (edgeVar_new hB h1).1 hw
  obtain ⟨d1, d2⟩ := hdom f i v h1 hv
  unfold Dominant
  simp only [cutOrig_edgeVar hB h1]
  rw [edgeVar_n, cut_edgesOf_new hB hw he]
  refine ⟨d1, fun s hs hne => ?_⟩
  have h2 := d2 s hs hne
  rw [sum_edges_but (factors.map (·.scope)) h1] at h2
  have h3 : 0 ≤ (((edgesOf (factors.map (·.scope)) v).filter (fun e' => e' ≠ (f, i))).map (fun e => R e.1)).sum :=
    List.sum_nonneg fun y hy => by obtain ⟨e, _, rfl⟩ := List.mem_map.1 hy; exact hR _
  simp only [List.map_cons, List.map_nil, List.sum_cons, List.sum_nil, add_zero]
  linarith

include hB hrow hpos hR hc in
/-- The messages to the undecided variables are the same in the new graph. -/
theorem cut_run (hdom : ∀ f i v, IsEdge (factors.map (·.scope)) f i v → v ∈ D → Dominant (factors.map (·.scope)) ev R x v) (k : Nat) :
    ∀ f i v s, IsEdge (factors.map (·.scope)) f i v → v ∉ D → s < v.n →
      tbRun (cut D B factors) (fun w => ev (cutOrig (factors.map (·.scope)) B w)) 0 k (fun _ _ _ => 0) f i s = tbRun factors ev 0 k (fun _ _ _ => 0) f i s := by
  induction k with
  | zero =>
    intro f i v s he hv hs
    obtain ⟨vs, h1, hi⟩ := he
    rw [List.getElem?_map] at h1
    obtain ⟨F, hF, rfl⟩ := Option.map_eq_some_iff.1 h1
    have hi' : (F.scope.mapIdx (edgeVar D B f))[i]? = some v := by
      rw [List.getElem?_mapIdx, hi]
      simp [edgeVar, hv]
    simp only [tbRun]
    rw [tbInit_at hF hi, tbInit_at (cut_get hF) hi']
  | succ k ih =>
    intro f i v s he hv hs
    obtain ⟨vs, h1, hi⟩ := id he
    rw [List.getElem?_map] at h1
    obtain ⟨F, hF, rfl⟩ := Option.map_eq_some_iff.1 h1
    have hm := List.mem_of_getElem? hF
    have hi' : (F.scope.mapIdx (edgeVar D B f))[i]? = some v := by
      rw [List.getElem?_mapIdx, hi]
      simp [edgeVar, hv]
    simp only [tbRun]
    rw [tbStep_undamped hF hi, tbStep_undamped (cut_get hF) hi']
    have hb := tbRun_complete hrow hpos hR hc ev k
    have hb' := tbRun_complete (cut_rows (D := D) (B := B) hrow) (cut_pos (D := D) (B := B) hpos) hR (cut_complete (D := D) (B := B) hc)
      (fun w => ev (cutOrig (factors.map (·.scope)) B w)) k
    generalize tbRun factors ev 0 k (fun _ _ _ => 0) = m at ih hb ⊢
    generalize tbRun (cut D B factors) (fun w => ev (cutOrig (factors.map (·.scope)) B w)) 0 k (fun _ _ _ => 0) = m' at ih hb' ⊢
    have hlen : ∀ q, tbOut (⟨F.scope.mapIdx (edgeVar D B f), F.rows⟩ : SFac α) q i = tbOut F q i := by
      intro q
      funext s
      unfold tbOut SFac.rowsAt
      simp only [List.length_mapIdx]
    rw [hlen]
    refine (hc f F hF).1.norm_cut (P := fun v => v ∈ D) (x := x) (hrow F hm) (hpos F hm) (hc f F hF).2 (fun w hw hp => ?_) ?_ ?_ ?_ hi hv hs
    · obtain ⟨j, hj⟩ := List.mem_iff_getElem?.1 hw
      exact (hdom f j w ⟨_, getElem?_scopes hF, hj⟩ hp).1
    · intro j w hj hp t ht hne
      have hej : IsEdge (factors.map (·.scope)) f j w := ⟨_, getElem?_scopes hF, hj⟩
      rw [tbIn_at hj, tbIn_at hj]
      exact ((hdom f j w hej hp).message (fun f i he s hs => hb f i w he s hs) hej t ht hne).le
    · intro j w hj hp t ht hne
      have hej : IsEdge (factors.map (·.scope)) f j w := ⟨_, getElem?_scopes hF, hj⟩
      have hej' := cut_edge (D := D) (B := B) hej
      have hj' : (F.scope.mapIdx (edgeVar D B f))[j]? = some (edgeVar D B f j w) := by rw [List.getElem?_mapIdx, hj]; rfl
      rw [tbIn_at (F := ⟨F.scope.mapIdx (edgeVar D B f), F.rows⟩) hj', tbIn_at (F := ⟨F.scope.mapIdx (edgeVar D B f), F.rows⟩) hj']
      have hdw := cut_dominant hB hR hdom hej' ((edgeVar_new hB hej).2 hp)
      have := hdw.message (m := m') (fun f i he s hs => hb' f i _ he s hs) hej' t (by rw [edgeVar_n]; exact ht) (by
        simp only [cutOrig_edgeVar hB hej]; exact hne)
      simp only [cutOrig_edgeVar hB hej] at this
      exact this.le
    · intro j w hj hp t ht
      have hej : IsEdge (factors.map (·.scope)) f j w := ⟨_, getElem?_scopes hF, hj⟩
      have hw' : edgeVar D B f j w = w := by unfold edgeVar; rw [if_neg hp]
      have hj' : (F.scope.mapIdx (edgeVar D B f))[j]? = some w := by rw [List.getElem?_mapIdx, hj]; exact congrArg some hw'
      have ho := cutOrig_edgeVar (D := D) hB hej
      rw [hw'] at ho
      rw [tbIn_at hj, tbIn_at (F := ⟨F.scope.mapIdx (edgeVar D B f), F.rows⟩) hj']
      unfold varToFac
      simp only [ho]
      rw [cut_edgesOf hB (hB f j w hej) hp]
      congr 2
      apply List.map_congr_left
      intro e he
      exact ih e.1 e.2 w t ((mem_edgesOf _ _ _ _).1 (List.mem_filter.1 he).1) hp ht

variable {vars : Finset Var} (hvars : ∀ F ∈ factors, ∀ v ∈ F.scope, v ∈ vars) (hBv : ∀ v ∈ vars, v.hash < B)

/-- The variables of the new graph. -/
def cutVars (D : Finset Var) (B : Nat) (factors : List (SFac α)) (vars : Finset Var) : Finset Var :=
  vars.filter (fun v => v ∉ D) ∪ ((cut D B factors).flatMap (·.scope)).toFinset.filter (fun w => B ≤ w.hash)

omit [Field α] [LinearOrder α] [IsStrictOrderedRing α] in
theorem mem_cutVars {w : Var} : w ∈ cutVars D B factors vars ↔ (w ∈ vars ∧ w ∉ D) ∨ (B ≤ w.hash ∧ ∃ f i, IsEdge ((cut D B factors).map (·.scope)) f i w) := by
  unfold cutVars
  rw [Finset.mem_union, Finset.mem_filter, Finset.mem_filter, List.mem_toFinset, List.mem_flatMap]
  refine or_congr Iff.rfl ?_
  constructor
  · rintro ⟨⟨F, hF, hw⟩, h2⟩
    obtain ⟨f, hf⟩ := List.mem_iff_getElem?.1 hF
    obtain ⟨i, hi⟩ := List.mem_iff_getElem?.1 hw
    exact ⟨h2, f, i, _, getElem?_scopes hf, hi⟩
  · rintro ⟨h2, f, i, vs, h3, h4⟩
    rw [List.getElem?_map] at h3
    obtain ⟨F, hF, rfl⟩ := Option.map_eq_some_iff.1 h3
    exact ⟨⟨F, List.mem_of_getElem? hF, List.mem_of_getElem? h4⟩, h2⟩

omit [Field α] [LinearOrder α] [IsStrictOrderedRing α] in
include hvars hBv in
theorem cut_hB : ∀ f i v, IsEdge (factors.map (·.scope)) f i v → v.hash < B := by
  rintro f i v ⟨vs, h1, h2⟩
  rw [List.getElem?_map] at h1
  obtain ⟨F, hF, rfl⟩ := Option.map_eq_some_iff.1 h1
  exact hBv v (hvars F (List.mem_of_getElem? hF) v (List.mem_of_getElem? h2))

omit [Field α] [LinearOrder α] [IsStrictOrderedRing α] in
include hvars hBv in
theorem cut_vars : ∀ F ∈ cut D B factors, ∀ w ∈ F.scope, w ∈ cutVars D B factors vars := by
  intro F' hF' w hw
  obtain ⟨f, hf⟩ := List.mem_iff_getElem?.1 hF'
  obtain ⟨i, hi⟩ := List.mem_iff_getElem?.1 hw
  have he : IsEdge ((cut D B factors).map (·.scope)) f i w := ⟨_, getElem?_scopes hf, hi⟩
  rw [mem_cutVars]
  obtain ⟨v, h1, rfl⟩ := cut_edge_inv he
  by_cases hv : v ∈ D
  · exact .inr ⟨(edgeVar_new (cut_hB hvars hBv) h1).2 hv, f, i, he⟩
  · left
    have : edgeVar D B f i v = v := by unfold edgeVar; rw [if_neg hv]
    rw [this]
    obtain ⟨vs, h2, h3⟩ := h1
    rw [List.getElem?_map] at h2
    obtain ⟨F, hF, rfl⟩ := Option.map_eq_some_iff.1 h2
    exact ⟨hvars F (List.mem_of_getElem? hF) v (List.mem_of_getElem? h3), hv⟩

/-- The score of the new graph, when the decided variables are in their states, up to a constant. -/
def cutScore (D : Finset Var) (B : Nat) (factors : List (SFac α)) (vars : Finset Var) (ev : Var → Nat → α) (x : Var → Nat) : α :=
  ∑ w ∈ ((cut D B factors).flatMap (·.scope)).toFinset.filter (fun w => B ≤ w.hash), ev (cutOrig (factors.map (·.scope)) B w) (x (cutOrig (factors.map (·.scope)) B w)) -
    ∑ v ∈ vars.filter (fun v => v ∈ D), ev v (x v)

omit [LinearOrder α] [IsStrictOrderedRing α] in
include hBv in
theorem cut_score {y z : Var → Nat} {ρ : Nat → List Nat × α} (hy : ∀ v ∈ vars, v ∈ D → y v = x v) (hyz : ∀ v ∈ vars, v ∉ D → y v = z v)
    (hz : ∀ w f i, B ≤ w.hash → IsEdge ((cut D B factors).map (·.scope)) f i w → z w = x (cutOrig (factors.map (·.scope)) B w)) :
    jointScore (cutVars D B factors vars) (cut D B factors) (fun w => ev (cutOrig (factors.map (·.scope)) B w)) z ρ =
      jointScore vars factors ev y ρ + cutScore D B factors vars ev x := by
  unfold jointScore cutScore cutVars
  rw [cut_length, Finset.sum_union]
  · have e1 : ∑ v ∈ vars, ev v (y v) = ∑ v ∈ vars.filter (fun v => v ∈ D), ev v (x v) + ∑ v ∈ vars.filter (fun v => v ∉ D), ev v (z v) := by
      rw [← Finset.sum_filter_add_sum_filter_not vars (fun v => v ∈ D)]
      congr 1
      · refine Finset.sum_congr rfl fun v hv => ?_
        obtain ⟨h1, h2⟩ := Finset.mem_filter.1 hv
        rw [hy v h1 h2]
      · refine Finset.sum_congr rfl fun v hv => ?_
        obtain ⟨h1, h2⟩ := Finset.mem_filter.1 hv
        rw [hyz v h1 h2]
    have e2 : ∑ v ∈ vars.filter (fun v => v ∉ D), ev (cutOrig (factors.map (·.scope)) B v) (z v) = ∑ v ∈ vars.filter (fun v => v ∉ D), ev v (z v) := by
      refine Finset.sum_congr rfl fun v hv => ?_
      have := hBv v (Finset.mem_filter.1 hv).1
      unfold cutOrig
      rw [if_neg (by omega)]
    have e3 : ∑ w ∈ ((cut D B factors).flatMap (·.scope)).toFinset.filter (fun w => B ≤ w.hash), ev (cutOrig (factors.map (·.scope)) B w) (z w) =
        ∑ w ∈ ((cut D B factors).flatMap (·.scope)).toFinset.filter (fun w => B ≤ w.hash), ev (cutOrig (factors.map (·.scope)) B w) (x (cutOrig (factors.map (·.scope)) B w)) := by
      refine Finset.sum_congr rfl fun w hw => ?_
      obtain ⟨h1, h2⟩ := Finset.mem_filter.1 hw
      obtain ⟨F, hF, h3⟩ := List.mem_flatMap.1 (List.mem_toFinset.1 h1)
      obtain ⟨f, hf⟩ := List.mem_iff_getElem?.1 hF
      obtain ⟨i, hi⟩ := List.mem_iff_getElem?.1 h3
      rw [hz w f i h2 ⟨_, getElem?_scopes hf, hi⟩]
    rw [e1, e2, e3]
    ring
  · rw [Finset.disjoint_left]
    intro w h1 h2
    have := hBv w (Finset.mem_filter.1 h1).1
    have := (Finset.mem_filter.1 h2).2
    omega

include hvars hBv hR hc in
/-- The max-marginals of the undecided variables are the same in the new graph, up to a constant. -/
theorem cut_marginal (hdom : ∀ v ∈ vars, v ∈ D → Dominant (factors.map (·.scope)) ev R x v) {u : Var} (hu : u ∈ vars) (huD : u ∉ D) {M : Nat → α}
    (hM : IsMaxMarginal (cutVars D B factors vars) (cut D B factors) (fun w => ev (cutOrig (factors.map (·.scope)) B w)) u M) :
    IsMaxMarginal vars factors ev u (fun s => M s - cutScore D B factors vars ev x) := by
  have hB := cut_hB hvars hBv
  have hedge : ∀ f i v, IsEdge (factors.map (·.scope)) f i v → v ∈ vars := by
    rintro f i v ⟨vs, h1, h2⟩
    rw [List.getElem?_map] at h1
    obtain ⟨F, hF, rfl⟩ := Option.map_eq_some_iff.1 h1
    exact hvars F (List.mem_of_getElem? hF) v (List.mem_of_getElem? h2)
  have hdom' : ∀ f i v, IsEdge (factors.map (·.scope)) f i v → v ∈ D → Dominant (factors.map (·.scope)) ev R x v := fun f i v he hv => hdom v (hedge f i v he) hv
  have hub : ¬B ≤ u.hash := by have := hBv u hu; omega
  intro s hs
  obtain ⟨⟨z, ρ, hJ, hzu, hMs⟩, hup⟩ := hM s hs
  constructor
  · -- improve the best assignment of the new graph and read it as one of the old graph
    obtain ⟨ρ1, hJ1, hle, -⟩ := hJ.fix (P := fun w => B ≤ w.hash) (x := fun w => x (cutOrig (factors.map (·.scope)) B w)) (cut_vars hvars hBv) hR
      (cut_complete (D := D) (B := B) hc) (ev := fun w => ev (cutOrig (factors.map (·.scope)) B w)) (fun w hw hwB => by
        rcases mem_cutVars.1 hw with ⟨h1, -⟩ | ⟨h1, f, i, h2⟩
        · have := hBv w h1; omega
        · exact cut_dominant hB hR hdom' h2 h1)
    generalize hz1 : (fun w => if B ≤ w.hash then x (cutOrig (factors.map (·.scope)) B w) else z w) = z1 at hJ1 hle
    have hz1n : ∀ w, B ≤ w.hash → z1 w = x (cutOrig (factors.map (·.scope)) B w) := fun w hw => by rw [← hz1]; exact if_pos hw
    have hz1o : ∀ w, ¬B ≤ w.hash → z1 w = z w := fun w hw => by rw [← hz1]; exact if_neg hw
    have hbest := hup ⟨z1, ρ1, hJ1, by rw [hz1o u hub]; exact hzu, rfl⟩
    refine ⟨fun v => if v ∈ D then x v else z1 v, ρ1, ⟨?_, ?_⟩, ?_, ?_⟩
    · intro v hv
      split
      · next h => exact (hdom v hv h).1
      · next h => exact hJ1.states v (mem_cutVars.2 (.inl ⟨hv, h⟩))
    · intro f F hF
      obtain ⟨h1, h2⟩ := hJ1.rows f _ (cut_get hF)
      refine ⟨h1, ?_⟩
      rw [h2]
      apply List.ext_getElem?
      intro i
      simp only [List.getElem?_map, List.getElem?_mapIdx]
      cases hv : F.scope[i]? with
      | none => rfl
      | some v =>
        have he : IsEdge (factors.map (·.scope)) f i v := ⟨_, getElem?_scopes hF, hv⟩
        simp only [Option.map_some, Option.some.injEq]
        split
        · next h => rw [hz1n _ ((edgeVar_new hB he).2 h), cutOrig_edgeVar hB he]
        · next h =>
          have : edgeVar D B f i v = v := by unfold edgeVar; rw [if_neg h]
          rw [this]
    · simp only
      rw [if_neg huD, hz1o u hub]; exact hzu
    · have hsc := cut_score (D := D) (factors := factors) (ev := ev) (x := x) hBv (ρ := ρ1) (y := fun v => if v ∈ D then x v else z1 v) (z := z1)
        (fun v _ h => if_pos h) (fun v _ h => if_neg h) (fun w f i h _ => hz1n w h)
      have : M s = jointScore (cutVars D B factors vars) (cut D B factors) (fun w => ev (cutOrig (factors.map (·.scope)) B w)) z1 ρ1 :=
        le_antisymm (by rw [hMs]; exact hle) hbest
      simp only
      rw [this, hsc]
      ring
  · rintro _ ⟨y, ρ0, hJ0, hyu, rfl⟩
    obtain ⟨ρ1, hJ1, hle, -⟩ := hJ0.fix (P := fun v => v ∈ D) (x := x) hvars hR hc hdom
    generalize hy1 : (fun v => if v ∈ D then x v else y v) = y1 at hJ1 hle
    have hy1D : ∀ v, v ∈ D → y1 v = x v := fun v hv => by rw [← hy1]; exact if_pos hv
    have hy1u : y1 u = s := by rw [← hy1]; simp only [if_neg huD]; exact hyu
    have hold : ∀ v ∈ vars, cutOrig (factors.map (·.scope)) B v = v := by
      intro v hv
      have := hBv v hv
      unfold cutOrig
      rw [if_neg (by omega)]
    have hsc := cut_score (D := D) (factors := factors) (ev := ev) (x := x) hBv (ρ := ρ1) (y := y1) (z := fun w => y1 (cutOrig (factors.map (·.scope)) B w))
      (fun v _ h => hy1D v h) (fun v hv _ => by simp only [hold v hv]) (fun w f i h he => by
        obtain ⟨v, h1, rfl⟩ := cut_edge_inv he
        simp only [cutOrig_edgeVar hB h1]
        exact hy1D v ((edgeVar_new hB h1).1 h))
    have hmem := hup ⟨fun w => y1 (cutOrig (factors.map (·.scope)) B w), ρ1, ⟨?_, ?_⟩, by simp only [hold u hu]; exact hy1u, rfl⟩
    · simp only
      rw [hsc] at hmem
      linarith
    · intro w hw
      rcases mem_cutVars.1 hw with ⟨h1, -⟩ | ⟨h1, f, i, h2⟩
      · rw [hold w h1]; exact hJ1.states w h1
      · obtain ⟨v, h3, rfl⟩ := cut_edge_inv h2
        rw [cutOrig_edgeVar hB h3, edgeVar_n]
        exact hJ1.states v (hedge f i v h3)
    · intro f F' hF'
      obtain ⟨F, hF, rfl⟩ := cut_get_inv hF'
      obtain ⟨h1, h2⟩ := hJ1.rows f F hF
      refine ⟨h1, ?_⟩
      rw [h2]
      apply List.ext_getElem?
      intro i
      simp only [List.getElem?_map, List.getElem?_mapIdx]
      cases hv : F.scope[i]? with
      | none => rfl
      | some v =>
        have he : IsEdge (factors.map (·.scope)) f i v := ⟨_, getElem?_scopes hF, hv⟩
        simp only [Option.map_some, Option.some.injEq]
        rw [cutOrig_edgeVar hB he]

end

end PGMax
