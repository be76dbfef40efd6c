import Verif.Lemmas.Tree
import Mathlib.Combinatorics.SimpleGraph.Acyclic

/-! Helper lemmas: rooting an acyclic factor graph. -/

namespace PGMax

section
variable {V : Type _} {G : SimpleGraph V}

theorem acyclic_closer_unique (hG : G.IsAcyclic) {u x y z : V} (hr : G.Reachable u x) (hy : G.Adj x y) (hz : G.Adj x z)
    (hdy : G.dist u y < G.dist u x) (hdz : G.dist u z < G.dist u x) : y = z := by
  obtain ⟨p, hp, hpl⟩ := hr.exists_path_of_dist
  have key : ∀ y, G.Adj x y → G.dist u y < G.dist u x → y = p.penultimate := by
    intro y hy hd
    obtain ⟨q, hq, hql⟩ := (hr.trans hy.reachable).exists_path_of_dist
    refine hG.eq_penultimate_of_adj_end hp hy (hG.mem_support_of_ne_mem_support_of_adj_of_isPath hp hq hy ?_)
    intro hx
    have := congrArg SimpleGraph.Walk.length (hG.path_concat hp hq hy hx)
    rw [SimpleGraph.Walk.length_concat] at this
    omega
  rw [key y hy hdy, key z hz hdz]

theorem exists_closer {u x : V} (hr : G.Reachable u x) (hne : u ≠ x) : ∃ y, G.Adj x y ∧ G.dist u y < G.dist u x := by
  obtain ⟨p, hp, hpl⟩ := hr.exists_path_of_dist
  have hnil : ¬p.Nil := SimpleGraph.Walk.not_nil_of_ne hne
  refine ⟨p.penultimate, (p.adj_penultimate hnil).symm, ?_⟩
  have h1 := SimpleGraph.dist_le p.dropLast
  have h2 : p.dropLast.length + 1 = p.length := by
    rw [← SimpleGraph.Walk.length_concat _ (p.adj_penultimate hnil), SimpleGraph.Walk.concat_dropLast]
  omega

/-- A criterion: levels such that every vertex has at most one neighbour on a level that is not above its own. -/
theorem acyclic_of_level (d : V → Nat) (h : ∀ x y z, G.Adj x y → G.Adj x z → d y ≤ d x → d z ≤ d x → y = z) : G.IsAcyclic := by
  classical
  intro u c hc
  obtain ⟨v, hv, hmax⟩ := Finset.exists_max_image c.support.toFinset d ⟨u, by simp⟩
  have hv' : v ∈ c.support := List.mem_toFinset.1 hv
  have hc' : (c.rotate v hv').IsCycle := (SimpleGraph.Walk.isCycle_rotate hv').2 hc
  have hmem : ∀ w ∈ (c.rotate v hv').support, d w ≤ d v := by
    intro w hw
    refine hmax w (List.mem_toFinset.2 ?_)
    exact (SimpleGraph.Walk.mem_support_rotate_iff _ _ _).1 hw
  refine hc'.snd_ne_penultimate (h v _ _ ((c.rotate v hv').adj_snd hc'.not_nil) ((c.rotate v hv').adj_penultimate hc'.not_nil).symm ?_ ?_)
  · exact hmem _ (SimpleGraph.Walk.getVert_mem_support _ _)
  · exact hmem _ (SimpleGraph.Walk.getVert_mem_support _ _)

end

variable {scopes : List (List Var)}

theorem bipartite_adj {v : Var} {f : Nat} : (bipartite scopes).Adj (.inl v) (.inr f) ↔ ∃ i, IsEdge scopes f i v := Iff.rfl

theorem bipartite_adj' {v : Var} {f : Nat} : (bipartite scopes).Adj (.inr f) (.inl v) ↔ ∃ i, IsEdge scopes f i v := Iff.rfl

theorem bipartite_not_inr {f g : Nat} : ¬(bipartite scopes).Adj (.inr f) (.inr g) := fun h => h

theorem bipartite_not_inl {v w : Var} : ¬(bipartite scopes).Adj (.inl v) (.inl w) := fun h => h

open Classical in
/-- A root of every component; `r` is the root of its own. -/
noncomputable def rootOf (scopes : List (List Var)) (r : Var) (c : (bipartite scopes).ConnectedComponent) : Var :=
  if c = (bipartite scopes).connectedComponentMk (.inl r) then r
  else if h : ∃ v, (bipartite scopes).connectedComponentMk (.inl v) = c then h.choose else r

/-- The distance from the root. -/
noncomputable def depth (scopes : List (List Var)) (r : Var) (x : Var ⊕ Nat) : Nat :=
  (bipartite scopes).dist (.inl (rootOf scopes r ((bipartite scopes).connectedComponentMk x))) x

theorem rootOf_reach {r : Var} {x : Var ⊕ Nat} (hx : ∃ v, (bipartite scopes).Reachable (.inl v) x) :
    (bipartite scopes).Reachable (.inl (rootOf scopes r ((bipartite scopes).connectedComponentMk x))) x := by
  rw [← SimpleGraph.ConnectedComponent.eq]
  unfold rootOf
  split
  · next h => exact h.symm
  · obtain ⟨v, hv⟩ := hx
    have h : ∃ v, (bipartite scopes).connectedComponentMk (.inl v) = (bipartite scopes).connectedComponentMk x := ⟨v, SimpleGraph.ConnectedComponent.eq.2 hv⟩
    rw [dif_pos h]
    exact h.choose_spec

theorem depth_adj (hG : (bipartite scopes).IsAcyclic) (r : Var) {x y : Var ⊕ Nat} (hx : ∃ v, (bipartite scopes).Reachable (.inl v) x) (h : (bipartite scopes).Adj x y) :
    depth scopes r x = depth scopes r y + 1 ∨ depth scopes r y = depth scopes r x + 1 := by
  unfold depth
  rw [SimpleGraph.ConnectedComponent.eq.2 h.symm.reachable]
  exact hG.dist_eq_dist_add_one_of_adj_of_reachable _ h (rootOf_reach hx)

theorem depth_closer_unique (hG : (bipartite scopes).IsAcyclic) (r : Var) {x y z : Var ⊕ Nat} (hx : ∃ v, (bipartite scopes).Reachable (.inl v) x)
    (hy : (bipartite scopes).Adj x y) (hz : (bipartite scopes).Adj x z) (hdy : depth scopes r y < depth scopes r x) (hdz : depth scopes r z < depth scopes r x) : y = z := by
  unfold depth at hdy hdz
  rw [SimpleGraph.ConnectedComponent.eq.2 hy.symm.reachable] at hdy
  rw [SimpleGraph.ConnectedComponent.eq.2 hz.symm.reachable] at hdz
  exact acyclic_closer_unique hG (rootOf_reach hx) hy hz hdy hdz

open Classical in
/-- The position of the variable of factor `f` that is closest to the root. -/
noncomputable def upOf (scopes : List (List Var)) (r : Var) (f : Nat) : Nat :=
  if h : ∃ i v, IsEdge scopes f i v ∧ depth scopes r (.inl v) < depth scopes r (.inr f) then h.choose else 0

open Classical in
/-- The edge above a variable. -/
noncomputable def parOf (scopes : List (List Var)) (r : Var) (v : Var) : Option (Nat × Nat) :=
  if h : ∃ e : Nat × Nat, IsEdge scopes e.1 e.2 v ∧ e.2 ≠ upOf scopes r e.1 then some h.choose else none

theorem isEdge_unique (hnd : ∀ vs ∈ scopes, vs.Nodup) {f i j : Nat} {v : Var} (h : IsEdge scopes f i v) (h' : IsEdge scopes f j v) : i = j := by
  obtain ⟨vs, h1, h2⟩ := h
  obtain ⟨vs', h1', h2'⟩ := h'
  rw [h1] at h1'
  cases h1'
  exact (List.getElem?_inj (List.getElem?_eq_some_iff.1 h2).1 (hnd vs (List.mem_of_getElem? h1))).1 (h2.trans h2'.symm)

/-- An acyclic factor graph is a forest with root `r`. -/
theorem rootedForest (hG : (bipartite scopes).IsAcyclic) (hnd : ∀ vs ∈ scopes, vs.Nodup) (hne : ∀ vs ∈ scopes, vs ≠ []) (r : Var) (n : Nat)
    (hr : ∀ f, (bipartite scopes).dist (.inl r) (.inr f) < 2 * n)
    (hother : ∀ v f, ¬(bipartite scopes).Reachable (.inl r) (.inl v) → (bipartite scopes).dist (.inl v) (.inr f) < 2 * n) :
    RootedForest scopes (upOf scopes r) (parOf scopes r) (fun f => (2 * n - 1 - depth scopes r (.inr f)) / 2) ∧ parOf scopes r r = none ∧
      ∀ f < scopes.length, (2 * n - 1 - depth scopes r (.inr f)) / 2 < n := by
  have hlt : ∀ f, depth scopes r (.inr f) < 2 * n := by
    intro f
    unfold depth rootOf
    split
    · exact hr f
    · next hc =>
      split
      · next h =>
        refine hother _ _ ?_
        intro hreach
        rw [← h.choose_spec] at hc
        exact hc (SimpleGraph.ConnectedComponent.eq.2 hreach).symm
      · exact hr f
  have hinl : ∀ v : Var, ∃ w : Var, (bipartite scopes).Reachable (.inl w) (.inl v) := fun v => ⟨v, SimpleGraph.Reachable.refl _⟩
  have hinr : ∀ {f i : Nat} {v : Var}, IsEdge scopes f i v → ∃ w : Var, (bipartite scopes).Reachable (.inl w) (.inr f) :=
    fun {f i v} h => ⟨v, SimpleGraph.Adj.reachable (bipartite_adj.2 ⟨i, h⟩)⟩
  -- the edge towards the root
  have hup : ∀ f vs, scopes[f]? = some vs → ∃ v, IsEdge scopes f (upOf scopes r f) v ∧ depth scopes r (.inl v) < depth scopes r (.inr f) := by
    intro f vs hf
    obtain ⟨v, hv⟩ := List.exists_mem_of_ne_nil _ (hne vs (List.mem_of_getElem? hf))
    obtain ⟨i, hi⟩ := List.mem_iff_getElem?.1 hv
    have hreach := rootOf_reach (r := r) (hinr ⟨vs, hf, hi⟩)
    obtain ⟨y, hy1, hy2⟩ := exists_closer hreach (by simp)
    match y, hy1, hy2 with
    | .inr g, hy1, _ => exact absurd hy1 bipartite_not_inr
    | .inl w, hy1, hy2 =>
      obtain ⟨j, hj⟩ := bipartite_adj'.1 hy1
      have h : ∃ i v, IsEdge scopes f i v ∧ depth scopes r (.inl v) < depth scopes r (.inr f) := by
        refine ⟨j, w, hj, ?_⟩
        unfold depth
        rw [SimpleGraph.ConnectedComponent.eq.2 hy1.symm.reachable]
        exact hy2
      unfold upOf
      rw [dif_pos h]
      exact h.choose_spec
  have hclose : ∀ f v, IsEdge scopes f (upOf scopes r f) v → depth scopes r (.inr f) = depth scopes r (.inl v) + 1 := by
    intro f v he
    obtain ⟨vs, h1, h2⟩ := he
    obtain ⟨w, ⟨vs', k1, k2⟩, hw⟩ := hup f vs h1
    rw [h1] at k1
    cases k1
    rw [h2] at k2
    cases k2
    rcases depth_adj hG r (hinl v) (bipartite_adj.2 ⟨_, vs, h1, h2⟩) with h | h <;> omega
  have hfar : ∀ f j v, IsEdge scopes f j v → j ≠ upOf scopes r f → depth scopes r (.inl v) = depth scopes r (.inr f) + 1 := by
    intro f j v he hj
    rcases depth_adj hG r (hinl v) (bipartite_adj.2 ⟨_, he⟩) with h | h
    · exact h
    · obtain ⟨vs, h1, h2⟩ := id he
      obtain ⟨w, hw1, hw2⟩ := hup f vs h1
      have := depth_closer_unique hG r (hinr he) (bipartite_adj'.2 ⟨_, he⟩) (bipartite_adj'.2 ⟨_, hw1⟩) (by omega) hw2
      cases this
      exact absurd (isEdge_unique hnd he hw1) hj
  have hpar : ∀ v f j, parOf scopes r v = some (f, j) ↔ IsEdge scopes f j v ∧ j ≠ upOf scopes r f := by
    intro v f j
    unfold parOf
    constructor
    · intro h
      split at h
      · next hex =>
        have := hex.choose_spec
        rw [Option.some.inj h] at this
        exact this
      · cases h
    · rintro ⟨he, hj⟩
      have hex : ∃ e : Nat × Nat, IsEdge scopes e.1 e.2 v ∧ e.2 ≠ upOf scopes r e.1 := ⟨(f, j), he, hj⟩
      rw [dif_pos hex]
      obtain ⟨g1, g2⟩ := hex.choose_spec
      generalize hex.choose = e at *
      obtain ⟨g, i⟩ := e
      simp only at g1 g2
      have d1 := hfar f j v he hj
      have d2 := hfar g i v g1 g2
      have := depth_closer_unique hG r (hinl v) (bipartite_adj.2 ⟨_, he⟩) (bipartite_adj.2 ⟨_, g1⟩) (by omega) (by omega)
      cases this
      rw [isEdge_unique hnd he g1]
  refine ⟨⟨?_, hpar, ?_⟩, ?_, ?_⟩
  · intro f vs hf
    obtain ⟨v, ⟨vs', h1, h2⟩, -⟩ := hup f vs hf
    rw [hf] at h1
    cases h1
    exact (List.getElem?_eq_some_iff.1 h2).1
  · intro v f j g hp hg
    obtain ⟨h1, h2⟩ := (hpar v f j).1 hp
    have d1 := hfar f j v h1 h2
    have d2 := hclose g v hg
    have := hlt g
    omega
  · cases hp : parOf scopes r r with
    | none => rfl
    | some e =>
      obtain ⟨f, j⟩ := e
      obtain ⟨h1, h2⟩ := (hpar r f j).1 hp
      have d1 := hfar f j r h1 h2
      have : depth scopes r (.inl r) = 0 := by
        unfold depth rootOf
        rw [if_pos rfl, SimpleGraph.dist_self]
      omega
  · intro f hf
    obtain ⟨v, hv, hd⟩ := hup f _ (List.getElem?_eq_getElem hf)
    have := hlt f
    omega

/-- The number of factors on a walk. -/
theorem walk_count {x y : Var ⊕ Nat} (p : (bipartite scopes).Walk x y) :
    2 * (p.support.countP (fun z => z.isRight)) = p.length + (if x.isRight then 1 else 0) + (if y.isRight then 1 else 0) := by
  induction p with
  | nil => rename_i u; cases u <;> simp
  | cons h p ih =>
    rename_i u v w
    rw [SimpleGraph.Walk.support_cons, List.countP_cons, SimpleGraph.Walk.length_cons]
    match u, v, h with
    | .inl u, .inr v, h => simp at ih ⊢; omega
    | .inr u, .inl v, h => simp at ih ⊢; omega

/-- Distances are less than twice the number of factors. -/
theorem dist_lt_factors (v : Var) (f : Nat) (hpos : 0 < scopes.length) : (bipartite scopes).dist (.inl v) (.inr f) < 2 * scopes.length := by
  by_cases hr : (bipartite scopes).Reachable (.inl v) (.inr f)
  · obtain ⟨p, hp, hpl⟩ := hr.exists_path_of_dist
    have h1 := walk_count p
    have hlt : ∀ g, Sum.inr g ∈ p.support → g < scopes.length := by
      intro g hg
      have hadj : ∃ y, (bipartite scopes).Adj (.inr g) y := by
        have hreach : (bipartite scopes).Reachable (.inr g) (.inl v) := (p.takeUntil _ hg).reachable.symm
        obtain ⟨y, hy, -⟩ := exists_closer hreach.symm (by simp)
        exact ⟨y, hy⟩
      obtain ⟨y, hy⟩ := hadj
      match y, hy with
      | .inl w, ⟨i, vs, h1, _⟩ => exact (List.getElem?_eq_some_iff.1 h1).1
    have h2 : p.support.countP (fun z => z.isRight) ≤ scopes.length := by
      rw [List.countP_eq_length_filter]
      have hsub : ((p.support.filter (fun z => z.isRight)).map (fun z => z.elim (fun _ => 0) id)).Nodup := by
        refine List.Nodup.map_on ?_ (hp.support_nodup.filter _)
        rintro (x | x) hx (y | y) hy he
        · simp at hx
        · simp at hx
        · simp at hy
        · simp at he; rw [he]
      have := (List.subperm_of_subset hsub (l₂ := List.range scopes.length) (by
        intro g hg
        obtain ⟨z, hz, rfl⟩ := List.mem_map.1 hg
        obtain ⟨hz1, hz2⟩ := List.mem_filter.1 hz
        match z, hz1, hz2 with
        | .inr g, hz1, _ => exact List.mem_range.2 (hlt g hz1))).length_le
      simpa using this
    simp at h1
    omega
  · rw [SimpleGraph.dist_eq_zero_of_not_reachable hr]
    omega

end PGMax
