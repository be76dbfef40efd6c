import Verif.Lemmas.Ball
import Mathlib.Combinatorics.SimpleGraph.Acyclic

/-! Lemmas for C117: the part of a graph near a variable exists, and has no cycles if the graph has no short ones. -/

namespace PGMax

/-! ### Balls exist -/

theorem Within.mem_flatten {scopes : List (List Var)} {n : Nat} {w u : Var} (h : Within scopes n w u) : u = w ∨ u ∈ scopes.flatten := by
  induction n generalizing w with
  | zero => exact .inl h
  | succ n ih =>
    rcases h with rfl | ⟨vs, h1, h2, y, h3, h4⟩
    · exact .inl rfl
    · rcases ih h4 with rfl | h
      · exact .inr (List.mem_flatten.2 ⟨vs, h1, h3⟩)
      · exact .inr h

instance decidableWithin (scopes : List (List Var)) : ∀ n w u, Decidable (Within scopes n w u)
  | 0, w, u => inferInstanceAs (Decidable (u = w))
  | n + 1, w, u =>
    have : ∀ x, Decidable (Within scopes n x u) := fun x => decidableWithin scopes n x u
    inferInstanceAs (Decidable (u = w ∨ ∃ vs ∈ scopes, w ∈ vs ∧ ∃ x ∈ vs, Within scopes n x u))

/-- The factors with a variable within `n` steps. -/
def ballFacs (scopes : List (List Var)) (r : Var) (n : Nat) : List Nat :=
  (List.range scopes.length).filter (fun f => decide (∃ u ∈ scopes.getD f [], Within scopes n r u))

/-- The variables within `n + 1` steps. -/
def ballVars (scopes : List (List Var)) (r : Var) (n : Nat) : Finset Var :=
  ((r :: scopes.flatten).filter (fun u => decide (Within scopes (n + 1) r u))).toFinset

theorem isBall_ball (scopes : List (List Var)) (r : Var) (n : Nat) : IsBall scopes r n (ballFacs scopes r n) (ballVars scopes r n) where
  nodup := List.Nodup.filter _ List.nodup_range
  facs f := by
    unfold ballFacs
    rw [List.mem_filter, List.mem_range]
    constructor
    · rintro ⟨h1, h2⟩
      obtain ⟨u, h3, h4⟩ := of_decide_eq_true h2
      rw [getD_of_some (List.getElem?_eq_getElem h1)] at h3
      exact ⟨_, List.getElem?_eq_getElem h1, u, h3, h4⟩
    · rintro ⟨vs, h1, u, h2, h3⟩
      exact ⟨(List.getElem?_eq_some_iff.1 h1).1, decide_eq_true ⟨u, by rw [getD_of_some h1]; exact h2, h3⟩⟩
  vars u := by
    unfold ballVars
    rw [List.mem_toFinset, List.mem_filter]
    constructor
    · rintro ⟨-, h⟩; exact of_decide_eq_true h
    · intro h
      exact ⟨by rcases h.mem_flatten with rfl | h <;> simp_all, decide_eq_true h⟩

/-! ### Short cycles -/

section
variable {V : Type _} {G : SimpleGraph V}

/-- Two different shortest paths to the same node give a cycle that is not longer than both together. -/
theorem short_cycle {r x y z : V} (hy : G.Adj y x) (hz : G.Adj z x) (hne : y ≠ z) (hr : G.Reachable r x) (hy' : G.dist r y + 1 = G.dist r x)
    (hz' : G.dist r z + 1 = G.dist r x) : ∃ (u : V) (c : G.Walk u u), c.IsCycle ∧ c.length ≤ 2 * G.dist r x := by
  classical
  obtain ⟨py, hpy⟩ := (hr.trans hy.symm.reachable).exists_walk_length_eq_dist
  obtain ⟨pz, hpz⟩ := (hr.trans hz.symm.reachable).exists_walk_length_eq_dist
  have ly : (py.concat hy).length = G.dist r x := by rw [SimpleGraph.Walk.length_concat, hpy, hy']
  have lz : (pz.concat hz).length = G.dist r x := by rw [SimpleGraph.Walk.length_concat, hpz, hz']
  have qy := SimpleGraph.Walk.isPath_of_length_eq_dist _ ly
  have qz := SimpleGraph.Walk.isPath_of_length_eq_dist _ lz
  have hdiff : py.concat hy ≠ pz.concat hz := by
    intro h
    have := congrArg SimpleGraph.Walk.penultimate h
    rw [SimpleGraph.Walk.penultimate_concat, SimpleGraph.Walk.penultimate_concat] at this
    exact hne this
  set H : SimpleGraph V := SimpleGraph.fromEdgeSet {e | e ∈ (py.concat hy).edges ++ (pz.concat hz).edges} with hH
  have hin : ∀ e ∈ (py.concat hy).edges ++ (pz.concat hz).edges, e ∈ H.edgeSet := by
    intro e he
    rw [hH, SimpleGraph.edgeSet_fromEdgeSet]
    refine ⟨he, ?_⟩
    have : e ∈ G.edgeSet := by
      rcases List.mem_append.1 he with h | h
      · exact SimpleGraph.Walk.edges_subset_edgeSet _ h
      · exact SimpleGraph.Walk.edges_subset_edgeSet _ h
    exact SimpleGraph.not_isDiag_of_mem_edgeSet _ this
  have hle : H ≤ G := by
    intro a b hab
    rw [hH, SimpleGraph.fromEdgeSet_adj] at hab
    rcases List.mem_append.1 hab.1 with h | h
    · exact SimpleGraph.Walk.adj_of_mem_edges _ h
    · exact SimpleGraph.Walk.adj_of_mem_edges _ h
  have hcyc : ¬H.IsAcyclic := by
    intro hA
    have h1 : ∀ e ∈ (py.concat hy).edges, e ∈ H.edgeSet := fun e he => hin e (List.mem_append_left _ he)
    have h2 : ∀ e ∈ (pz.concat hz).edges, e ∈ H.edgeSet := fun e he => hin e (List.mem_append_right _ he)
    have := hA.path_unique ⟨(py.concat hy).transfer H h1, qy.transfer h1⟩ ⟨(pz.concat hz).transfer H h2, qz.transfer h2⟩
    have e := congrArg (fun p : H.Path r x => (p : H.Walk r x).support) this
    simp only [SimpleGraph.Walk.support_transfer] at e
    exact hdiff (SimpleGraph.Walk.ext_support e)
  unfold SimpleGraph.IsAcyclic at hcyc
  push Not at hcyc
  obtain ⟨u, c, hc⟩ := hcyc
  refine ⟨u, c.mapLe hle, (SimpleGraph.Walk.mapLe_isCycle hle).2 hc, ?_⟩
  have hsub : c.edges ⊆ (py.concat hy).edges ++ (pz.concat hz).edges := by
    intro e he
    have := SimpleGraph.Walk.edges_subset_edgeSet _ he
    rw [hH, SimpleGraph.edgeSet_fromEdgeSet] at this
    exact this.1
  have := (List.subperm_of_subset hc.edges_nodup hsub).length_le
  simp only [List.length_append, SimpleGraph.Walk.length_edges] at this
  rw [SimpleGraph.Walk.length_map]
  omega

end

theorem bipartite_parity {scopes : List (List Var)} {a b : Var ⊕ Nat} (p : (bipartite scopes).Walk a b) : p.length % 2 = if a.isLeft = b.isLeft then 0 else 1 := by
  induction p with
  | nil => simp
  | @cons a b c h p ih =>
    rw [SimpleGraph.Walk.length_cons]
    have : a.isLeft ≠ b.isLeft := by
      rcases a with a | a <;> rcases b with b | b
      · exact absurd h bipartite_not_inl
      · simp
      · simp
      · exact absurd h bipartite_not_inr
    cases ha : a.isLeft <;> cases hb : b.isLeft <;> cases hc : c.isLeft <;> simp_all <;> omega

section
variable {α : Type _} {factors : List (SFac α)} {r : Var} {n : Nat} {idx : List Nat} {vars : Finset Var}

/-- Cycles of the ball are cycles of the graph. -/
theorem IsBall.cycle (hB : IsBall (factors.map (·.scope)) r n idx vars) {x : Var ⊕ Nat} {c : (bipartite ((subgraph factors idx).map (·.scope))).Walk x x}
    (hc : c.IsCycle) : ∃ (y : Var ⊕ Nat) (c' : (bipartite (factors.map (·.scope))).Walk y y), c'.IsCycle ∧ c'.length = c.length := by
  let g : Nat → Nat := fun k => if h : k < idx.length then idx[k] else factors.length + k
  have hg : Function.Injective g := by
    intro a b hab
    simp only [g] at hab
    split at hab <;> split at hab
    · next h1 h2 => exact (List.Nodup.getElem_inj_iff hB.nodup).1 hab
    · next h1 h2 =>
      have := hB.lt _ (List.getElem_mem h1)
      omega
    · next h1 h2 =>
      have := hB.lt _ (List.getElem_mem h2)
      omega
    · omega
  have key : ∀ {k i : Nat} {v : Var}, IsEdge ((subgraph factors idx).map (·.scope)) k i v → IsEdge (factors.map (·.scope)) (g k) i v := by
    intro k i v he
    obtain ⟨f, h1, h2⟩ := hB.edge.1 he
    obtain ⟨h3, rfl⟩ := List.getElem?_eq_some_iff.1 h1
    simp only [g, h3, dite_true]
    exact h2
  let φ : bipartite ((subgraph factors idx).map (·.scope)) →g bipartite (factors.map (·.scope)) :=
    { toFun := Sum.map id g
      map_rel' := by
        rintro (a | a) (b | b) h
        · exact absurd h bipartite_not_inl
        · obtain ⟨i, hi⟩ := h; exact ⟨i, key hi⟩
        · obtain ⟨i, hi⟩ := h; exact ⟨i, key hi⟩
        · exact absurd h bipartite_not_inr }
  have hφ : Function.Injective φ := Sum.map_injective.2 ⟨Function.injective_id, hg⟩
  exact ⟨_, c.map φ, hc.map hφ, SimpleGraph.Walk.length_map _ _⟩

/-- If the graph has no cycles of length at most `4 (n + 1)`, the ball has no cycles. -/
theorem IsBall.acyclic (hB : IsBall (factors.map (·.scope)) r n idx vars)
    (hgirth : ∀ (x : Var ⊕ Nat) (c : (bipartite (factors.map (·.scope))).Walk x x), c.IsCycle → 4 * (n + 1) < c.length) :
    (bipartite ((subgraph factors idx).map (·.scope))).IsAcyclic := by
  refine acyclic_of_level ((bipartite ((subgraph factors idx).map (·.scope))).dist (.inl r)) ?_
  intro x y z hy hz h1 h2
  by_contra hne
  -- factors, and variables of factors, are near the root
  have hfac : ∀ (g i : Nat) (v : Var), IsEdge ((subgraph factors idx).map (·.scope)) g i v →
      (bipartite ((subgraph factors idx).map (·.scope))).Reachable (.inl r) (.inr g) ∧ (bipartite ((subgraph factors idx).map (·.scope))).dist (.inl r) (.inr g) ≤ 2 * n + 1 := by
    intro g i v he
    obtain ⟨f, h, -⟩ := hB.edge.1 he
    obtain ⟨p, hp⟩ := hB.fac_walk (List.getElem?_eq_some_iff.1 h).1
    exact ⟨p.reachable, (SimpleGraph.dist_le p).trans hp⟩
  have hx : (bipartite ((subgraph factors idx).map (·.scope))).Reachable (.inl r) x ∧ (bipartite ((subgraph factors idx).map (·.scope))).dist (.inl r) x ≤ 2 * n + 2 := by
    rcases x with v | g
    · rcases y with w | g
      · exact absurd hy bipartite_not_inl
      · obtain ⟨i, hi⟩ := id hy
        obtain ⟨a, b⟩ := hfac g i v hi
        obtain ⟨p, hp⟩ := a.exists_walk_length_eq_dist
        refine ⟨a.trans hy.symm.reachable, (SimpleGraph.dist_le (p.concat hy.symm)).trans ?_⟩
        rw [SimpleGraph.Walk.length_concat]
        omega
    · rcases y with w | g'
      · obtain ⟨i, hi⟩ := id hy
        obtain ⟨a, b⟩ := hfac g i w hi
        exact ⟨a, by omega⟩
      · exact absurd hy bipartite_not_inr
  have step : ∀ w, (bipartite ((subgraph factors idx).map (·.scope))).Adj x w →
      (bipartite ((subgraph factors idx).map (·.scope))).dist (.inl r) w ≤ (bipartite ((subgraph factors idx).map (·.scope))).dist (.inl r) x →
      (bipartite ((subgraph factors idx).map (·.scope))).dist (.inl r) w + 1 = (bipartite ((subgraph factors idx).map (·.scope))).dist (.inl r) x := by
    intro w hw hle
    obtain ⟨p, hp⟩ := hx.1.exists_walk_length_eq_dist
    obtain ⟨q, hq⟩ := (hx.1.trans hw.reachable).exists_walk_length_eq_dist
    have e1 := bipartite_parity p
    have e2 := bipartite_parity q
    have e3 := bipartite_parity (SimpleGraph.Walk.cons hw .nil)
    have e4 := (SimpleGraph.dist_le (q.concat hw.symm))
    rw [SimpleGraph.Walk.length_concat] at e4
    simp only [SimpleGraph.Walk.length_cons, SimpleGraph.Walk.length_nil] at e3
    rw [hp] at e1
    rw [hq] at e2 e4
    cases hx' : x.isLeft <;> cases hw' : w.isLeft <;> simp_all <;> omega
  obtain ⟨u, c, hc, hl⟩ := short_cycle hy.symm hz.symm hne hx.1 (step y hy h1) (step z hz h2)
  obtain ⟨u', c', hc', hl'⟩ := hB.cycle hc
  have := hgirth u' c' hc'
  omega

end

end PGMax
