import Verif.Spec.Ball
import Verif.Lemmas.Unwrap
import Verif.Lemmas.Forest

/-! Lemmas for C117: the part of a graph near a variable, and what the first iterations see of it. -/

namespace PGMax

variable {α : Type _}

/-! ### Steps -/

section
variable {scopes : List (List Var)}

theorem Within.snoc {n : Nat} {w u x : Var} (h : Within scopes n w u) {vs : List Var} (hvs : vs ∈ scopes) (hu : u ∈ vs) (hx : x ∈ vs) : Within scopes (n + 1) w x := by
  induction n generalizing w with
  | zero =>
    cases h
    exact .inr ⟨vs, hvs, hu, x, hx, rfl⟩
  | succ n ih =>
    rcases h with rfl | ⟨vs', h1, h2, y, h3, h4⟩
    · exact .inr ⟨vs, hvs, hu, x, hx, Within.refl _ _ _⟩
    · exact .inr ⟨vs', h1, h2, y, h3, ih h4⟩

theorem Within.trans {n k : Nat} {w u x : Var} (h : Within scopes n w u) (h' : Within scopes k u x) : Within scopes (n + k) w x := by
  induction k generalizing u n with
  | zero => cases h'; exact h
  | succ k ih =>
    rcases h' with rfl | ⟨vs, h1, h2, y, h3, h4⟩
    · exact h.le (by omega)
    · have := ih (h.snoc h1 h2 h3) h4
      rwa [show n + 1 + k = n + (k + 1) by omega] at this

theorem Within.sub {scopes' : List (List Var)} (hs : ∀ vs ∈ scopes', vs ∈ scopes) {n : Nat} {w u : Var} (h : Within scopes' n w u) : Within scopes n w u := by
  induction n generalizing w with
  | zero => exact h
  | succ n ih =>
    rcases h with rfl | ⟨vs, h1, h2, y, h3, h4⟩
    · exact .inl rfl
    · exact .inr ⟨vs, hs vs h1, h2, y, h3, ih h4⟩

/-- Steps are paths of length 2. -/
theorem Within.walk {n : Nat} {w u : Var} (h : Within scopes n w u) : ∃ p : (bipartite scopes).Walk (.inl w) (.inl u), p.length ≤ 2 * n := by
  induction n generalizing w with
  | zero => cases h; exact ⟨.nil, by simp⟩
  | succ n ih =>
    rcases h with rfl | ⟨vs, h1, h2, y, h3, h4⟩
    · exact ⟨.nil, by simp⟩
    · obtain ⟨p, hp⟩ := ih h4
      obtain ⟨f, hf⟩ := List.mem_iff_getElem?.1 h1
      obtain ⟨i, hi⟩ := List.mem_iff_getElem?.1 h2
      obtain ⟨j, hj⟩ := List.mem_iff_getElem?.1 h3
      have e1 : (bipartite scopes).Adj (.inl w) (.inr f) := ⟨i, vs, hf, hi⟩
      have e2 : (bipartite scopes).Adj (.inr f) (.inl y) := ⟨j, vs, hf, hj⟩
      exact ⟨.cons e1 (.cons e2 p), by simp only [SimpleGraph.Walk.length_cons]; omega⟩

/-- Paths are steps. -/
theorem within_of_walk : ∀ (n : Nat) {w u : Var} (p : (bipartite scopes).Walk (.inl w) (.inl u)), p.length ≤ 2 * n + 1 → Within scopes n w u := by
  intro n
  induction n with
  | zero =>
    intro w u p hp
    match p, hp with
    | .nil, _ => rfl
    | .cons (v := .inl x) h _, _ => exact absurd h bipartite_not_inl
    | .cons (v := .inr f) h (.cons h' q), hp =>
      simp only [SimpleGraph.Walk.length_cons] at hp
      omega
  | succ n ih =>
    intro w u p hp
    match p, hp with
    | .nil, _ => exact .inl rfl
    | .cons (v := .inl x) h _, _ => exact absurd h bipartite_not_inl
    | .cons (v := .inr f) h (.cons (v := .inr g) h' q), _ => exact absurd h' bipartite_not_inr
    | .cons (v := .inr f) h (.cons (v := .inl x) h' q), hp =>
      simp only [SimpleGraph.Walk.length_cons] at hp
      obtain ⟨i, vs, h1, h2⟩ := h
      obtain ⟨j, vs', k1, k2⟩ := h'
      rw [h1] at k1
      cases k1
      exact .inr ⟨vs, List.mem_of_getElem? h1, List.mem_of_getElem? h2, x, List.mem_of_getElem? k2, ih q (by omega)⟩

/-- The variable above a factor is nearer to the root. -/
theorem up_nearer (hne : ∀ vs ∈ scopes, vs ≠ []) (r : Var) {f : Nat} {v : Var} (he : IsEdge scopes f (upOf scopes r f) v) :
    depth scopes r (.inl v) < depth scopes r (.inr f) := by
  obtain ⟨vs, hf, hv'⟩ := he
  obtain ⟨x, hx⟩ := List.exists_mem_of_ne_nil _ (hne vs (List.mem_of_getElem? hf))
  obtain ⟨i, hi⟩ := List.mem_iff_getElem?.1 hx
  have hreach := rootOf_reach (r := r) (x := Sum.inr f) ⟨x, SimpleGraph.Adj.reachable (bipartite_adj.2 ⟨i, vs, hf, hi⟩)⟩
  obtain ⟨y, hy1, hy2⟩ := exists_closer hreach (by simp)
  match y, hy1, hy2 with
  | .inr g, hy1, _ => exact absurd hy1 bipartite_not_inr
  | .inl w, hy1, hy2 =>
    obtain ⟨j, hj⟩ := bipartite_adj'.1 hy1
    have h : ∃ i v, IsEdge scopes f i v ∧ depth scopes r (.inl v) < depth scopes r (.inr f) := by
      refine ⟨j, w, hj, ?_⟩
      unfold depth
      rw [SimpleGraph.ConnectedComponent.eq.2 hy1.symm.reachable]
      exact hy2
    unfold upOf at hv'
    rw [dif_pos h] at hv'
    obtain ⟨v', ⟨vs', k1, k2⟩, hlt⟩ := h.choose_spec
    rw [hf] at k1
    cases k1
    rw [hv'] at k2
    cases k2
    exact hlt

end

/-! ### The ball -/

section
variable {factors : List (SFac α)} {r : Var} {n : Nat} {idx : List Nat} {vars : Finset Var}

theorem subgraph_getElem? {g : Nat} {F : SFac α} (hidx : ∀ f ∈ idx, f < factors.length) :
    (subgraph factors idx)[g]? = some F ↔ ∃ f, idx[g]? = some f ∧ factors[f]? = some F := by
  unfold subgraph
  rw [List.getElem?_map, Option.map_eq_some_iff]
  constructor
  · rintro ⟨f, h1, rfl⟩
    have := hidx f (List.mem_of_getElem? h1)
    exact ⟨f, h1, by rw [List.getD_eq_getElem?_getD, List.getElem?_eq_getElem this, Option.getD_some]⟩
  · rintro ⟨f, h1, h2⟩
    exact ⟨f, h1, getD_of_some h2⟩

theorem IsBall.lt (hB : IsBall (factors.map (·.scope)) r n idx vars) : ∀ f ∈ idx, f < factors.length := by
  intro f hf
  obtain ⟨vs, h1, -⟩ := (hB.facs f).1 hf
  simpa using (List.getElem?_eq_some_iff.1 h1).1

theorem IsBall.edge (hB : IsBall (factors.map (·.scope)) r n idx vars) {g i : Nat} {v : Var} :
    IsEdge ((subgraph factors idx).map (·.scope)) g i v ↔ ∃ f, idx[g]? = some f ∧ IsEdge (factors.map (·.scope)) f i v := by
  constructor
  · rintro ⟨vs, h1, h2⟩
    rw [List.getElem?_map] at h1
    obtain ⟨F, hF, rfl⟩ := Option.map_eq_some_iff.1 h1
    obtain ⟨f, k1, k2⟩ := (subgraph_getElem? hB.lt).1 hF
    exact ⟨f, k1, F.scope, getElem?_scopes k2, h2⟩
  · rintro ⟨f, k1, vs, h1, h2⟩
    rw [List.getElem?_map] at h1
    obtain ⟨F, hF, rfl⟩ := Option.map_eq_some_iff.1 h1
    exact ⟨F.scope, getElem?_scopes ((subgraph_getElem? hB.lt).2 ⟨f, k1, hF⟩), h2⟩

theorem IsBall.sub (hB : IsBall (factors.map (·.scope)) r n idx vars) : ∀ F ∈ subgraph factors idx, F ∈ factors := by
  intro F hF
  obtain ⟨g, hg⟩ := List.mem_iff_getElem?.1 hF
  obtain ⟨f, -, h⟩ := (subgraph_getElem? hB.lt).1 hg
  exact List.mem_of_getElem? h

theorem IsBall.sub_scopes (hB : IsBall (factors.map (·.scope)) r n idx vars) : ∀ vs ∈ (subgraph factors idx).map (·.scope), vs ∈ factors.map (·.scope) := by
  intro vs hvs
  obtain ⟨F, hF, rfl⟩ := List.mem_map.1 hvs
  exact List.mem_map.2 ⟨F, hB.sub F hF, rfl⟩

theorem IsBall.ne (hB : IsBall (factors.map (·.scope)) r n idx vars) : ∀ vs ∈ (subgraph factors idx).map (·.scope), vs ≠ [] := by
  rintro vs hvs rfl
  obtain ⟨g, hg⟩ := List.mem_iff_getElem?.1 hvs
  rw [List.getElem?_map] at hg
  obtain ⟨F, hF, hs⟩ := Option.map_eq_some_iff.1 hg
  obtain ⟨f, k1, k2⟩ := (subgraph_getElem? hB.lt).1 hF
  obtain ⟨vs, a1, u, a2, -⟩ := (hB.facs f).1 (List.mem_of_getElem? k1)
  rw [getElem?_scopes k2, hs] at a1
  cases a1
  cases a2

/-- Near the root the ball looks like the graph. -/
theorem IsBall.like (hB : IsBall (factors.map (·.scope)) r n idx vars) {u : Var} (hu : Within (factors.map (·.scope)) n r u) :
    LikeAround (subgraph factors idx) factors (fun g => idx.getD g 0) id u := by
  constructor
  · refine (List.perm_ext_iff_of_nodup (List.Nodup.map_on ?_ (edgesOf_nodup _ _)) (edgesOf_nodup _ _)).2 ?_
    · rintro ⟨g, j⟩ h1 ⟨g', j'⟩ h2 heq
      obtain ⟨f, a1, -⟩ := hB.edge.1 ((mem_edgesOf _ _ _ _).1 h1)
      obtain ⟨f', b1, -⟩ := hB.edge.1 ((mem_edgesOf _ _ _ _).1 h2)
      simp only [getD_of_some a1, getD_of_some b1, Prod.mk.injEq] at heq
      obtain ⟨rfl, rfl⟩ := heq
      have := (List.getElem?_inj (List.getElem?_eq_some_iff.1 a1).1 hB.nodup).1 (a1.trans b1.symm)
      rw [this]
    · rintro ⟨f, i⟩
      rw [List.mem_map, mem_edgesOf]
      constructor
      · rintro ⟨⟨g, j⟩, h1, h2⟩
        obtain ⟨f', a1, a2⟩ := hB.edge.1 ((mem_edgesOf _ _ _ _).1 h1)
        simp only [getD_of_some a1, Prod.mk.injEq] at h2
        obtain ⟨rfl, rfl⟩ := h2
        exact a2
      · intro he
        obtain ⟨vs, h1, h2⟩ := id he
        obtain ⟨g, hg⟩ := List.mem_iff_getElem?.1 ((hB.facs f).2 ⟨vs, h1, u, List.mem_of_getElem? h2, hu⟩)
        exact ⟨(g, i), (mem_edgesOf _ _ _ _).2 (hB.edge.2 ⟨f, hg, he⟩), by simp only [getD_of_some hg]⟩
  · rintro ⟨g, i⟩ he
    obtain ⟨f, a1, vs, h1, -⟩ := hB.edge.1 ((mem_edgesOf _ _ _ _).1 he)
    rw [List.getElem?_map] at h1
    obtain ⟨F, hF, rfl⟩ := Option.map_eq_some_iff.1 h1
    exact ⟨F, F, (subgraph_getElem? hB.lt).2 ⟨f, a1, hF⟩, by simp only [getD_of_some a1]; exact hF, by simp, rfl⟩

/-- The ball contains the shortest paths from the root. -/
theorem IsBall.within (hB : IsBall (factors.map (·.scope)) r n idx vars) : ∀ (k j : Nat) {w u : Var}, j + k ≤ n + 1 → Within (factors.map (·.scope)) j r w →
    Within (factors.map (·.scope)) k w u → Within ((subgraph factors idx).map (·.scope)) k w u := by
  intro k
  induction k with
  | zero => intro j w u _ _ h; exact h
  | succ k ih =>
    intro j w u hjk hw h
    rcases h with rfl | ⟨vs, h1, h2, y, h3, h4⟩
    · exact .inl rfl
    · refine .inr ⟨vs, ?_, h2, y, h3, ih (j + 1) (by omega) (hw.snoc h1 h2 h3) h4⟩
      obtain ⟨f, hf⟩ := List.mem_iff_getElem?.1 h1
      obtain ⟨g, hg⟩ := List.mem_iff_getElem?.1 ((hB.facs f).2 ⟨vs, hf, w, h2, hw.le (by omega)⟩)
      rw [List.getElem?_map] at hf
      obtain ⟨F, hF, rfl⟩ := Option.map_eq_some_iff.1 hf
      exact List.mem_map.2 ⟨F, List.mem_of_getElem? ((subgraph_getElem? hB.lt).2 ⟨f, hg, hF⟩), rfl⟩

theorem IsBall.fac_walk (hB : IsBall (factors.map (·.scope)) r n idx vars) {g : Nat} (hg : g < idx.length) :
    ∃ p : (bipartite ((subgraph factors idx).map (·.scope))).Walk (.inl r) (.inr g), p.length ≤ 2 * n + 1 := by
  have hg' := List.getElem?_eq_getElem hg
  obtain ⟨vs, h1, u, hu, hw⟩ := (hB.facs _).1 (List.mem_of_getElem? hg')
  obtain ⟨p, hp⟩ := (hB.within n 0 (by omega) (Within.refl _ _ _) hw).walk
  obtain ⟨i, hi⟩ := List.mem_iff_getElem?.1 hu
  have e : (bipartite ((subgraph factors idx).map (·.scope))).Adj (.inl u) (.inr g) := ⟨i, hB.edge.2 ⟨_, hg', vs, h1, hi⟩⟩
  exact ⟨p.concat e, by rw [SimpleGraph.Walk.length_concat]; omega⟩

theorem not_reachable_inr {scopes : List (List Var)} {v : Var} {g : Nat} (hg : scopes.length ≤ g) : ¬ (bipartite scopes).Reachable (.inl v) (.inr g) := by
  intro h
  obtain ⟨y, hy, -⟩ := exists_closer h (by simp)
  match y, hy with
  | .inr f, hy => exact bipartite_not_inr hy
  | .inl w, hy =>
    obtain ⟨i, vs, h1, -⟩ := bipartite_adj'.1 hy
    have := (List.getElem?_eq_some_iff.1 h1).1
    omega

theorem IsBall.dist (hB : IsBall (factors.map (·.scope)) r n idx vars) (g : Nat) :
    (bipartite ((subgraph factors idx).map (·.scope))).dist (.inl r) (.inr g) < 2 * (n + 1) := by
  by_cases hg : g < idx.length
  · obtain ⟨p, hp⟩ := hB.fac_walk hg
    exact (SimpleGraph.dist_le p).trans_lt (by omega)
  · rw [SimpleGraph.dist_eq_zero_of_not_reachable (not_reachable_inr (by simp [subgraph]; omega))]
    omega

theorem IsBall.other (hB : IsBall (factors.map (·.scope)) r n idx vars) (v : Var) (g : Nat)
    (hv : ¬ (bipartite ((subgraph factors idx).map (·.scope))).Reachable (.inl r) (.inl v)) :
    (bipartite ((subgraph factors idx).map (·.scope))).dist (.inl v) (.inr g) < 2 * (n + 1) := by
  rw [SimpleGraph.dist_eq_zero_of_not_reachable]
  · omega
  · by_cases hg : g < idx.length
    · obtain ⟨p, -⟩ := hB.fac_walk hg
      exact fun h => hv (p.reachable.trans h.symm)
    · exact not_reachable_inr (by simp [subgraph]; omega)

theorem IsBall.edge_vars (hB : IsBall (factors.map (·.scope)) r n idx vars) {g i : Nat} {v : Var}
    (he : IsEdge ((subgraph factors idx).map (·.scope)) g i v) : v ∈ vars := by
  obtain ⟨f, h1, vs, h2, h3⟩ := hB.edge.1 he
  obtain ⟨vs', k1, u, hu, hw⟩ := (hB.facs f).1 (List.mem_of_getElem? h1)
  rw [h2] at k1
  cases k1
  exact (hB.vars v).2 (hw.snoc (List.mem_of_getElem? h2) hu (List.mem_of_getElem? h3))

theorem IsBall.root (hB : IsBall (factors.map (·.scope)) r n idx vars) : r ∈ vars := (hB.vars r).2 (Within.refl _ _ _)

/-- The variable above a factor of the ball, and how far below it the ball ends. -/
theorem IsBall.up_within (hB : IsBall (factors.map (·.scope)) r n idx vars) {g : Nat} {v : Var}
    (he : IsEdge ((subgraph factors idx).map (·.scope)) g (upOf ((subgraph factors idx).map (·.scope)) r g) v) :
    ∃ j, j ≤ n ∧ (2 * (n + 1) - 1 - depth ((subgraph factors idx).map (·.scope)) r (.inr g)) / 2 ≤ n - j ∧ Within (factors.map (·.scope)) j r v := by
  have h1 := up_nearer hB.ne r he
  have hg : g < idx.length := by
    obtain ⟨f, h, -⟩ := hB.edge.1 he
    exact (List.getElem?_eq_some_iff.1 h).1
  obtain ⟨p, hp⟩ := hB.fac_walk hg
  have hadj : (bipartite ((subgraph factors idx).map (·.scope))).Adj (.inl v) (.inr g) := ⟨_, he⟩
  have hreach : (bipartite ((subgraph factors idx).map (·.scope))).Reachable (.inl r) (.inl v) := p.reachable.trans hadj.symm.reachable
  have hroot : ∀ x, (bipartite ((subgraph factors idx).map (·.scope))).Reachable (.inl r) x →
      depth ((subgraph factors idx).map (·.scope)) r x = (bipartite ((subgraph factors idx).map (·.scope))).dist (.inl r) x := by
    intro x hx
    unfold depth rootOf
    rw [if_pos (SimpleGraph.ConnectedComponent.eq.2 hx.symm)]
  have h2 := hroot (.inl v) hreach
  have h3 := hroot (.inr g) p.reachable
  have h4 := hB.dist g
  obtain ⟨q, hq⟩ := hreach.exists_walk_length_eq_dist
  refine ⟨(bipartite ((subgraph factors idx).map (·.scope))).dist (.inl r) (.inl v) / 2, by omega, by omega, ?_⟩
  exact (within_of_walk _ q (by omega)).sub hB.sub_scopes

end

/-! ### Runs -/

section
variable [Field α] [LinearOrder α] [IsStrictOrderedRing α] {factors : List (SFac α)} {r : Var} {n : Nat} {idx : List Nat} {vars : Finset Var}

omit [Field α] [LinearOrder α] [IsStrictOrderedRing α] in
theorem IsBall.rows (hB : IsBall (factors.map (·.scope)) r n idx vars) (hrow : ∀ F ∈ factors, ∀ r ∈ F.rows, List.Forall₂ (fun s (v : Var) => s < v.n) r.1 F.scope) :
    ∀ F ∈ subgraph factors idx, ∀ r ∈ F.rows, List.Forall₂ (fun s (v : Var) => s < v.n) r.1 F.scope := fun F hF => hrow F (hB.sub F hF)

/-- The messages to a variable of the ball that is `j` steps from its centre, for `n + 1 - j` iterations. -/
theorem IsBall.run (hB : IsBall (factors.map (·.scope)) r n idx vars) (hrow : ∀ F ∈ factors, ∀ r ∈ F.rows, List.Forall₂ (fun s (v : Var) => s < v.n) r.1 F.scope)
    (Φ : Nat → List α → α) (ev : Var → Nat → α) (d : α) {k j : Nat} (hj : j ≤ n) (hk : j + k ≤ n + 1) {w : Var} (hw : Within (factors.map (·.scope)) j r w) :
    SameTo ((subgraph factors idx).map (·.scope)) (sumRun (fun g => Φ (idx.getD g 0)) (subgraph factors idx) ev d k (fun _ _ _ => 0))
      (sumRun Φ factors ev d k (fun _ _ _ => 0)) (fun g => idx.getD g 0) w := by
  refine (sumRun_near (φ := fun g => idx.getD g 0) (ψ := id) (hB.rows hrow) Φ d k w ?_ ?_).1 (hB.like (hw.le hj))
  · intro i hi u hu
    exact hB.like ((hw.trans (hu.sub hB.sub_scopes)).le (by omega))
  · intro u _
    exact ⟨rfl, fun _ _ => rfl⟩

theorem IsBall.belief (hB : IsBall (factors.map (·.scope)) r n idx vars) (hrow : ∀ F ∈ factors, ∀ r ∈ F.rows, List.Forall₂ (fun s (v : Var) => s < v.n) r.1 F.scope)
    (Φ : Nat → List α → α) (ev : Var → Nat → α) (d : α) {s : Nat} (hs : s < r.n) :
    beliefOf (factors.map (·.scope)) ev (sumRun Φ factors ev d (n + 1) (fun _ _ _ => 0)) r s =
      beliefOf ((subgraph factors idx).map (·.scope)) ev (sumRun (fun g => Φ (idx.getD g 0)) (subgraph factors idx) ev d (n + 1) (fun _ _ _ => 0)) r s :=
  (hB.like (Within.refl _ _ _)).beliefOf (ev' := ev) ⟨rfl, fun _ _ => rfl⟩ (hB.run hrow Φ ev d (Nat.zero_le _) (by omega) (Within.refl _ 0 _)) s hs

/-- No message towards the centre is clipped. -/
theorem IsBall.clip (hB : IsBall (factors.map (·.scope)) r n idx vars) (hrow : ∀ F ∈ factors, ∀ r ∈ F.rows, List.Forall₂ (fun s (v : Var) => s < v.n) r.1 F.scope)
    {par : Var → Option (Nat × Nat)}
    (hR : RootedForest ((subgraph factors idx).map (·.scope)) (upOf ((subgraph factors idx).map (·.scope)) r) par
      (fun f => (2 * (n + 1) - 1 - depth ((subgraph factors idx).map (·.scope)) r (.inr f)) / 2))
    (Φ : Nat → List α → α) (ev : Var → Nat → α)
    (hclip : ∀ k < n + 1, ∀ f ∈ idx, ∀ i v s, IsEdge (factors.map (·.scope)) f i v → s < v.n → -1000 < sumRun Φ factors ev 0 (k + 1) (fun _ _ _ => 0) f i s)
    {g : Nat} {v : Var} {s : Nat} (he : IsEdge ((subgraph factors idx).map (·.scope)) g (upOf ((subgraph factors idx).map (·.scope)) r g) v) (hs : s < v.n) :
    -1000 < sumRun (fun g => Φ (idx.getD g 0)) (subgraph factors idx) ev 0 (n + 1) (fun _ _ _ => 0) g (upOf ((subgraph factors idx).map (·.scope)) r g) s := by
  obtain ⟨j, hj, hht, hw⟩ := hB.up_within he
  have h1 := hR.sum_converged (fun f F hF => hB.rows hrow F (List.mem_of_getElem? hF)) (fun g => Φ (idx.getD g 0)) ev (fun _ _ _ => 0) (fun _ _ _ => 0)
    (n - j) g v s n (n - j) hht (by omega) le_rfl he hs
  rw [h1]
  have h2 := (hB.run hrow Φ ev 0 hj (k := n - j + 1) (by omega) hw).at he hs
  refine lt_of_lt_of_eq ?_ h2
  obtain ⟨f, hf, hE⟩ := hB.edge.1 he
  rw [getD_of_some hf]
  exact hclip (n - j) (by omega) f (List.mem_of_getElem? hf) _ v s hE hs

end

end PGMax
