import Verif.Lemmas.Forest

/-! # Factor graphs that consist of networks of pairwise factors -/

namespace PGMax

open SimpleGraph

/-- In a forest there are levels such that adjacent vertices have different levels and every vertex has at most one neighbour below it. -/
theorem levels_of_acyclic {V : Type _} {G : SimpleGraph V} (hG : G.IsAcyclic) :
    ∃ d : V → Nat, (∀ x y, G.Adj x y → d x ≠ d y) ∧ ∀ x y z, G.Adj x y → G.Adj x z → d y < d x → d z < d x → y = z := by
  classical
  have hr : ∀ x, G.Reachable (G.connectedComponentMk x).out x := fun x =>
    SimpleGraph.ConnectedComponent.exact (Quot.out_eq (G.connectedComponentMk x))
  have hc : ∀ x y, G.Adj x y → (G.connectedComponentMk x).out = (G.connectedComponentMk y).out := fun x y h => by
    rw [SimpleGraph.ConnectedComponent.sound h.reachable]
  refine ⟨fun x => G.dist (G.connectedComponentMk x).out x, fun x y h => ?_, fun x y z hy hz h1 h2 => ?_⟩
  · simp only
    rw [← hc x y h]
    have := hG.dist_eq_dist_add_one_of_adj_of_reachable (G.connectedComponentMk x).out h (hr x)
    omega
  · simp only at h1 h2
    rw [← hc x y hy] at h1
    rw [← hc x z hz] at h2
    exact acyclic_closer_unique hG (hr x) hy hz h1 h2

/-- The graph of the pairs with index `idx`. -/
def netOf (P : List (Nat × Nat × Nat)) (idx : Nat) : SimpleGraph Nat := SimpleGraph.fromRel (fun i j => (idx, i, j) ∈ P)

/-- `i` is an end of a pair with index `idx`. -/
def IsEnd (P : List (Nat × Nat × Nat)) (idx i : Nat) : Prop := ∃ q ∈ P, q.1 = idx ∧ (q.2.1 = i ∨ q.2.2 = i)

/-- Every factor connects two variables `c idx i` and `c idx j` of the same network, and no two factors the same. -/
structure PairNets (scopes : List (List Var)) (P : List (Nat × Nat × Nat)) (c : Nat → Nat → Var) : Prop where
  scopes_eq : scopes = P.map (fun q => [c q.1 q.2.1, c q.1 q.2.2])
  inj : ∀ idx i idx' i', IsEnd P idx i → IsEnd P idx' i' → c idx i = c idx' i' → idx = idx' ∧ i = i'
  loop : ∀ q ∈ P, q.2.1 ≠ q.2.2
  simple : ∀ (f f' : Nat) q q', P[f]? = some q → P[f']? = some q' → q.1 = q'.1 →
    (q.2.1 = q'.2.1 ∧ q.2.2 = q'.2.2 ∨ q.2.1 = q'.2.2 ∧ q.2.2 = q'.2.1) → f = f'

namespace PairNets

variable {scopes : List (List Var)} {P : List (Nat × Nat × Nat)} {c : Nat → Nat → Var}

theorem edge (h : PairNets scopes P c) {f : Nat} {v : Var} :
    (∃ i, IsEdge scopes f i v) ↔ ∃ q, P[f]? = some q ∧ (v = c q.1 q.2.1 ∨ v = c q.1 q.2.2) := by
  constructor
  · rintro ⟨i, vs, h1, h2⟩
    rw [h.scopes_eq, List.getElem?_map] at h1
    obtain ⟨q, hq, rfl⟩ := Option.map_eq_some_iff.1 h1
    refine ⟨q, hq, ?_⟩
    have := List.mem_of_getElem? h2
    simpa using this
  · rintro ⟨q, hq, hv⟩
    have hs : scopes[f]? = some [c q.1 q.2.1, c q.1 q.2.2] := by rw [h.scopes_eq, List.getElem?_map, hq]; rfl
    rcases hv with rfl | rfl
    · exact ⟨0, _, hs, rfl⟩
    · exact ⟨1, _, hs, rfl⟩

theorem ends {q : Nat × Nat × Nat} (hq : q ∈ P) : IsEnd P q.1 q.2.1 ∧ IsEnd P q.1 q.2.2 :=
  ⟨⟨q, hq, rfl, .inl rfl⟩, ⟨q, hq, rfl, .inr rfl⟩⟩

theorem adj (h : PairNets scopes P c) {q : Nat × Nat × Nat} (hq : q ∈ P) : (netOf P q.1).Adj q.2.1 q.2.2 := by
  rw [netOf, SimpleGraph.fromRel_adj]
  exact ⟨h.loop q hq, .inl hq⟩

theorem nodup (h : PairNets scopes P c) : ∀ vs ∈ scopes, vs.Nodup := by
  intro vs hvs
  rw [h.scopes_eq] at hvs
  obtain ⟨q, hq, rfl⟩ := List.mem_map.1 hvs
  simp only [List.nodup_cons, List.mem_singleton, List.not_mem_nil, not_false_eq_true, List.nodup_nil, and_true]
  intro e
  exact h.loop q hq (h.inj _ _ _ _ (ends hq).1 (ends hq).2 e).2

theorem acyclic (h : PairNets scopes P c) (ht : ∀ idx, (netOf P idx).IsAcyclic) : (bipartite scopes).IsAcyclic := by
  classical
  choose d h1 h2 using fun idx => levels_of_acyclic (ht idx)
  let dv : Var → Nat := fun v => if hv : ∃ p : Nat × Nat, IsEnd P p.1 p.2 ∧ v = c p.1 p.2 then d hv.choose.1 hv.choose.2 else 0
  have hdv : ∀ idx i, IsEnd P idx i → dv (c idx i) = d idx i := by
    intro idx i he
    have hv : ∃ p : Nat × Nat, IsEnd P p.1 p.2 ∧ c idx i = c p.1 p.2 := ⟨(idx, i), he, rfl⟩
    have e : dv (c idx i) = d hv.choose.1 hv.choose.2 := dif_pos hv
    obtain ⟨e1, e2⟩ := h.inj _ _ _ _ he hv.choose_spec.1 hv.choose_spec.2
    rw [e, ← e1, ← e2]
  let df : Nat → Nat := fun f => match P[f]? with
    | some q => min (d q.1 q.2.1) (d q.1 q.2.2)
    | none => 0
  have hdf : ∀ (f : Nat) q, P[f]? = some q → df f = min (d q.1 q.2.1) (d q.1 q.2.2) := by
    intro f q hq
    simp only [df, hq]
  refine acyclic_of_level (Sum.elim (fun v => 2 * dv v) (fun f => 2 * df f + 1)) ?_
  rintro (v | f) (w | g) (u | k) hy hz hl1 hl2
  all_goals first | exact absurd hy bipartite_not_inl | exact absurd hy bipartite_not_inr | exact absurd hz bipartite_not_inl | exact absurd hz bipartite_not_inr | skip
  · -- a variable and two factors
    simp only [Sum.elim_inl, Sum.elim_inr] at hl1 hl2
    obtain ⟨q, hq, hvq⟩ := h.edge.1 (bipartite_adj.1 hy)
    obtain ⟨q', hq', hvq'⟩ := h.edge.1 (bipartite_adj.1 hz)
    have mq := List.mem_of_getElem? hq
    have mq' := List.mem_of_getElem? hq'
    rw [hdf g q hq] at hl1
    rw [hdf k q' hq'] at hl2
    have a := h.adj mq
    have a' := h.adj mq'
    obtain ⟨E1, E2⟩ := ends mq
    obtain ⟨E1', E2'⟩ := ends mq'
    congr 1
    rcases hvq with rfl | rfl <;> rcases hvq' with e | e
    · obtain ⟨i1, i2⟩ := h.inj _ _ _ _ E1 E1' e
      rw [hdv _ _ E1] at hl1 hl2
      rw [← i1] at hl2 a'
      rw [← i2] at hl2 a'
      exact h.simple g k q q' hq hq' i1 (.inl ⟨i2, h2 q.1 _ _ _ a a' (by omega) (by omega)⟩)
    · obtain ⟨i1, i2⟩ := h.inj _ _ _ _ E1 E2' e
      rw [hdv _ _ E1] at hl1 hl2
      rw [← i1] at hl2 a'
      rw [← i2] at hl2 a'
      exact h.simple g k q q' hq hq' i1 (.inr ⟨i2, h2 q.1 _ _ _ a a'.symm (by omega) (by omega)⟩)
    · obtain ⟨i1, i2⟩ := h.inj _ _ _ _ E2 E1' e
      rw [hdv _ _ E2] at hl1 hl2
      rw [← i1] at hl2 a'
      rw [← i2] at hl2 a'
      exact h.simple g k q q' hq hq' i1 (.inr ⟨h2 q.1 _ _ _ a.symm a' (by omega) (by omega), i2⟩)
    · obtain ⟨i1, i2⟩ := h.inj _ _ _ _ E2 E2' e
      rw [hdv _ _ E2] at hl1 hl2
      rw [← i1] at hl2 a'
      rw [← i2] at hl2 a'
      exact h.simple g k q q' hq hq' i1 (.inl ⟨h2 q.1 _ _ _ a.symm a'.symm (by omega) (by omega), i2⟩)
  · -- a factor and two variables
    simp only [Sum.elim_inl, Sum.elim_inr] at hl1 hl2
    obtain ⟨q, hq, hvq⟩ := h.edge.1 (bipartite_adj'.1 hy)
    obtain ⟨q', hq', hvq'⟩ := h.edge.1 (bipartite_adj'.1 hz)
    rw [hq] at hq'
    cases hq'
    have mq := List.mem_of_getElem? hq
    rw [hdf f q hq] at hl1 hl2
    have hne := h1 q.1 _ _ (h.adj mq)
    obtain ⟨E1, E2⟩ := ends mq
    congr 1
    rcases hvq with rfl | rfl <;> rcases hvq' with rfl | rfl
    · rfl
    · rw [hdv _ _ E1] at hl1
      rw [hdv _ _ E2] at hl2
      omega
    · rw [hdv _ _ E2] at hl1
      rw [hdv _ _ E1] at hl2
      omega
    · rfl

/-- What is connected with a factor belongs to its network. -/
theorem reach (h : PairNets scopes P c) {f : Nat} {q : Nat × Nat × Nat} (hq : P[f]? = some q) {v : Var} (hr : (bipartite scopes).Reachable (.inl v) (.inr f)) :
    ∃ i, IsEnd P q.1 i ∧ v = c q.1 i ∧ (netOf P q.1).Reachable i q.2.1 := by
  have key : ∀ x, (bipartite scopes).Reachable (.inr f) x → Sum.elim (fun v => ∃ i, IsEnd P q.1 i ∧ v = c q.1 i ∧ (netOf P q.1).Reachable i q.2.1)
      (fun g => ∃ q', P[g]? = some q' ∧ q'.1 = q.1 ∧ (netOf P q.1).Reachable q'.2.1 q.2.1) x := by
    intro x hx
    rw [SimpleGraph.reachable_iff_reflTransGen] at hx
    induction hx with
    | refl => exact ⟨q, hq, rfl, Reachable.refl _⟩
    | @tail y z hy hyz ih =>
      match y, z, hyz, ih with
      | .inl v, .inl w, hyz, _ => exact absurd hyz bipartite_not_inl
      | .inr g, .inr k, hyz, _ => exact absurd hyz bipartite_not_inr
      | .inl v, .inr g, hyz, ih =>
        obtain ⟨i, he, rfl, hi⟩ := ih
        obtain ⟨q', hq', hv⟩ := h.edge.1 (bipartite_adj.1 hyz)
        have mq := List.mem_of_getElem? hq'
        have a := h.adj mq
        rcases hv with e | e
        · obtain ⟨i1, i2⟩ := h.inj _ _ _ _ he (ends mq).1 e
          exact ⟨q', hq', i1.symm, by rw [← i2]; exact hi⟩
        · obtain ⟨i1, i2⟩ := h.inj _ _ _ _ he (ends mq).2 e
          rw [← i1, ← i2] at a
          exact ⟨q', hq', i1.symm, a.reachable.trans hi⟩
      | .inr g, .inl v, hyz, ih =>
        obtain ⟨q', hq', e1, hi⟩ := ih
        obtain ⟨q'', hq'', hv⟩ := h.edge.1 (bipartite_adj'.1 hyz)
        rw [hq'] at hq''
        cases hq''
        have mq := List.mem_of_getElem? hq'
        have a := h.adj mq
        rw [e1] at a
        obtain ⟨E1, E2⟩ := ends mq
        rw [e1] at hv E1 E2
        rcases hv with rfl | rfl
        · exact ⟨_, E1, rfl, hi⟩
        · exact ⟨_, E2, rfl, a.symm.reachable.trans hi⟩
  exact key _ hr.symm

theorem adj_iff (h : PairNets scopes P c) {idx i j : Nat} (ha : (netOf P idx).Adj i j) : ∃ f : Nat,
    (bipartite scopes).Adj (.inl (c idx i)) (.inr f) ∧ (bipartite scopes).Adj (.inr f) (.inl (c idx j)) := by
  rw [netOf, SimpleGraph.fromRel_adj] at ha
  rcases ha.2 with hm | hm <;> obtain ⟨f, hf⟩ := List.mem_iff_getElem?.1 hm
  · exact ⟨f, bipartite_adj.2 (h.edge.2 ⟨_, hf, .inl rfl⟩), bipartite_adj'.2 (h.edge.2 ⟨_, hf, .inr rfl⟩)⟩
  · exact ⟨f, bipartite_adj.2 (h.edge.2 ⟨_, hf, .inr rfl⟩), bipartite_adj'.2 (h.edge.2 ⟨_, hf, .inl rfl⟩)⟩

theorem walk_le (h : PairNets scopes P c) {idx i j : Nat} (p : (netOf P idx).Walk i j) :
    ∃ w : (bipartite scopes).Walk (.inl (c idx i)) (.inl (c idx j)), w.length = 2 * p.length := by
  induction p with
  | nil => exact ⟨.nil, rfl⟩
  | cons ha p ih =>
    obtain ⟨w, hw⟩ := ih
    obtain ⟨f, h1, h2⟩ := h.adj_iff ha
    exact ⟨.cons h1 (.cons h2 w), by simp only [Walk.length_cons, hw]; omega⟩

theorem dist_lt (h : PairNets scopes P c) (ht : ∀ idx, (netOf P idx).IsAcyclic) {n : Nat} (hn : 0 < n) (hd : ∀ idx i j, (netOf P idx).dist i j ≤ n)
    (v : Var) (f : Nat) : (bipartite scopes).dist (.inl v) (.inr f) < 2 * n := by
  by_cases hr : (bipartite scopes).Reachable (.inl v) (.inr f)
  · have hf : ∃ q, P[f]? = some q := by
      obtain ⟨y, hy, -⟩ := exists_closer hr (by simp)
      match y, hy with
      | .inl w, hy =>
        obtain ⟨q, hq, -⟩ := h.edge.1 (bipartite_adj'.1 hy)
        exact ⟨q, hq⟩
      | .inr w, hy => exact absurd hy bipartite_not_inr
    obtain ⟨q, hq⟩ := hf
    obtain ⟨i, -, rfl, hi⟩ := h.reach hq hr
    have mq := List.mem_of_getElem? hq
    have a := h.adj mq
    have hne := (ht q.1).dist_eq_dist_add_one_of_adj_of_reachable i a hi
    have k1 := hd q.1 i q.2.1
    have k2 := hd q.1 i q.2.2
    obtain ⟨p1, hp1⟩ := hi.exists_walk_length_eq_dist
    obtain ⟨p2, hp2⟩ := (hi.trans a.reachable).exists_walk_length_eq_dist
    obtain ⟨w1, hw1⟩ := h.walk_le p1
    obtain ⟨w2, hw2⟩ := h.walk_le p2
    have d1 := SimpleGraph.dist_le (w1.concat (bipartite_adj.2 (h.edge.2 ⟨q, hq, .inl rfl⟩)))
    have d2 := SimpleGraph.dist_le (w2.concat (bipartite_adj.2 (h.edge.2 ⟨q, hq, .inr rfl⟩)))
    rw [Walk.length_concat] at d1 d2
    omega
  · rw [SimpleGraph.dist_eq_zero_of_not_reachable hr]
    omega

end PairNets

end PGMax
