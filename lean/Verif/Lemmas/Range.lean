import Verif.Spec.Range
import Verif.Lemmas.Forest
import Verif.Lemmas.SumTextbook

/-! Helper lemmas: how far the entries of a message can be apart. -/

namespace PGMax

section
variable {V α : Type _} {G : SimpleGraph V} [AddCommMonoid α] [PartialOrder α] [IsOrderedAddMonoid α]

/-- The vertices on the side of `a` of the edge from `a` to `b`. -/
def side (G : SimpleGraph V) (a b : V) : Set V := {x | G.Reachable x a ∧ G.dist x a < G.dist x b}

open Classical in
theorem side_sum (hG : G.IsAcyclic) (N : Finset V) (W : V → α) (hW : ∀ x ∈ N, 0 ≤ W x) {a b : V} (hab : G.Adj a b) (ha : a ∈ N) (S : Finset V)
    (hS : ∀ c ∈ S, G.Adj c a ∧ c ≠ b) :
    W a + ∑ c ∈ S, ∑ x ∈ N with x ∈ side G c a, W x ≤ ∑ x ∈ N with x ∈ side G a b, W x := by
  have hdis : (S : Set V).PairwiseDisjoint (fun c => N.filter (fun x => x ∈ side G c a)) := by
    intro c hc d hd hne
    rw [Function.onFun, Finset.disjoint_left]
    intro x hx hx'
    obtain ⟨-, h1, h2⟩ := Finset.mem_filter.1 hx
    obtain ⟨-, h3, h4⟩ := Finset.mem_filter.1 hx'
    exact hne (acyclic_closer_unique hG (h1.trans (hS c hc).1.reachable) (hS c hc).1.symm (hS d hd).1.symm h2 h4)
  rw [← Finset.sum_biUnion hdis, ← Finset.sum_insert]
  · refine Finset.sum_le_sum_of_subset_of_nonneg ?_ (fun x hx _ => hW x (Finset.mem_filter.1 hx).1)
    intro x hx
    rw [Finset.mem_insert, Finset.mem_biUnion] at hx
    rcases hx with rfl | ⟨c, hc, hx⟩
    · refine Finset.mem_filter.2 ⟨ha, SimpleGraph.Reachable.refl _, ?_⟩
      rw [SimpleGraph.dist_self, SimpleGraph.dist_eq_one_iff_adj.2 hab]
      omega
    · obtain ⟨hN, h1, h2⟩ := Finset.mem_filter.1 hx
      have hr := h1.trans (hS c hc).1.reachable
      refine Finset.mem_filter.2 ⟨hN, hr, ?_⟩
      by_contra hle
      rcases hG.dist_eq_dist_add_one_of_adj_of_reachable _ hab hr with h | h
      · exact (hS c hc).2 (acyclic_closer_unique hG hr (hS c hc).1.symm hab h2 (by omega))
      · omega
  · rw [Finset.mem_biUnion]
    rintro ⟨c, hc, hx⟩
    obtain ⟨-, -, h2⟩ := Finset.mem_filter.1 hx
    rw [SimpleGraph.dist_self] at h2
    omega

end

section
variable {α : Type _} [Field α] [LinearOrder α] [IsStrictOrderedRing α]

/-- Entries of a normalised message. -/
theorem tbNorm_range {n : Nat} {x : Nat → α} {R : α} (h : ∀ s < n, ∀ t < n, x s - x t ≤ R) {s : Nat} (hs : s < n) :
    -R ≤ tbNorm n (fun s => WithBot.some (x s)) s ∧ ∀ t < n, tbNorm n (fun s => WithBot.some (x s)) s - tbNorm n (fun s => WithBot.some (x s)) t ≤ R := by
  obtain ⟨k, hk, hmax⟩ := Finset.exists_max_image (Finset.range n) x ⟨s, Finset.mem_range.2 hs⟩
  have hk := Finset.mem_range.1 hk
  have hb : (Finset.range n).sup (fun s => WithBot.some (x s)) = WithBot.some (x k) :=
    sup_eq ⟨k, hk, rfl⟩ (fun t ht => WithBot.coe_le_coe.2 (hmax t (Finset.mem_range.2 ht)))
  have hR : 0 ≤ R := by have := h s hs s hs; simpa using this
  constructor
  · rw [tbNorm_coe hb rfl]
    refine le_trans ?_ (le_max_left _ _)
    have := h k hk s hs
    linarith
  · intro t ht
    rw [tbNorm_coe hb rfl, tbNorm_coe hb rfl, sub_le_iff_le_add]
    have := h s hs t ht
    refine max_le ?_ ?_
    · have := le_max_left (x t - x k) (-1000)
      linarith
    · have := le_max_right (x t - x k) (-1000)
      linarith

/-- A summary of scores that differ by at most `c` differs by at most `c + Q`, for lists of at most `N` scores. -/
def SpreadWithin (Φ : List α → α) (N : Nat) (Q : α) : Prop :=
  ∀ l l' : List α, l ≠ [] → l' ≠ [] → l.length ≤ N → l'.length ≤ N → ∀ c, (∀ x ∈ l, ∀ y ∈ l', x - y ≤ c) → Φ l - Φ l' ≤ c + Q

theorem spread_max (N : Nat) : SpreadWithin (maxOf (0 : α)) N 0 := by
  intro l l' hl hl' _ _ c h
  rw [add_zero]
  exact h _ (maxOf_spec 0 l hl).1 _ (maxOf_spec 0 l' hl').1

variable {factors : List (SFac α)}

theorem list_sum_diff {β : Type _} (l : List β) (f g b : β → α) (h : ∀ x ∈ l, f x - g x ≤ b x) : (l.map f).sum - (l.map g).sum ≤ (l.map b).sum := by
  induction l with
  | nil => simp
  | cons x l ih =>
    have h1 := h x (by simp)
    have h2 := ih (fun y hy => h y (by simp [hy]))
    simp only [List.map_cons, List.sum_cons]
    linarith

/-- What the entries of the messages of `f` to position `i` can differ by if those of all messages differ by at most `β`. -/
def inflow (scopes : List (List Var)) (E : Var → α) (P : Nat → α) (β : Nat → Var → α) (f i : Nat) (scope : List Var) : α :=
  P f + (((List.range scope.length).filter (fun j => j ≠ i)).map (fun j => E (scope.getD j ⟨0, 0⟩) +
    (((edgesOf scopes (scope.getD j ⟨0, 0⟩)).filter (fun e => e ≠ (f, j))).map (fun e => β e.1 (scope.getD j ⟨0, 0⟩))).sum)).sum

/-- Bounds that are consistent with one iteration hold after all iterations. -/
theorem sumRun_range {Φ : Nat → List α → α} {Q : Nat → α} (hrow : ∀ F ∈ factors, ∀ r ∈ F.rows, List.Forall₂ (fun s (v : Var) => s < v.n) r.1 F.scope)
    (hfull : ∀ F ∈ factors, F.Full) {vars : Finset Var} (hvars : ∀ F ∈ factors, ∀ v ∈ F.scope, v ∈ vars) {ev : Var → Nat → α} {E : Var → α} {P : Nat → α}
    (hE : EvWithin vars ev E) (hP : ∀ f F, factors[f]? = some F → F.Within (P f) ∧ SpreadWithin (Φ f) F.rows.length (Q f)) {d : α} (hd : 0 ≤ d ∧ d ≤ 1) {β : Nat → Var → α}
    (hβ : ∀ f F i v, factors[f]? = some F → F.scope[i]? = some v → inflow (factors.map (·.scope)) E (fun f => P f + Q f) β f i F.scope ≤ β f v) {m0 : Msgs α}
    (h0 : ∀ f i v, IsEdge (factors.map (·.scope)) f i v → ∀ s < v.n, ∀ t < v.n, m0 f i s - m0 f i t ≤ β f v) (n : Nat) {f i : Nat} {v : Var}
    (he : IsEdge (factors.map (·.scope)) f i v) :
    ∀ s < v.n, -(β f v) ≤ sumRun Φ factors ev d n m0 f i s ∧ ∀ t < v.n, sumRun Φ factors ev d n m0 f i s - sumRun Φ factors ev d n m0 f i t ≤ β f v := by
  have hedge : ∀ {f i v}, IsEdge (factors.map (·.scope)) f i v → ∃ F, factors[f]? = some F ∧ F.scope[i]? = some v := by
    rintro f i v ⟨vs, h1, h2⟩
    rw [List.getElem?_map] at h1
    obtain ⟨F, hF, rfl⟩ := Option.map_eq_some_iff.1 h1
    exact ⟨F, hF, h2⟩
  induction n generalizing f i v with
  | zero =>
    obtain ⟨F, hF, hi⟩ := hedge he
    intro s hs
    simp only [sumRun]
    refine ⟨?_, fun t ht => ?_⟩
    · rw [tbInit_at hF hi]
      exact (tbNorm_range (h0 f i v he) hs).1
    · rw [tbInit_at hF hi, tbInit_at hF hi]
      exact (tbNorm_range (h0 f i v he) hs).2 t ht
  | succ n ih =>
    obtain ⟨F, hF, hi⟩ := hedge he
    have hmem := List.mem_of_getElem? hF
    simp only [sumRun]
    generalize hm : sumRun Φ factors ev d n m0 = m at ih
    let q := tbIn factors ev m f F
    let out : Nat → α := fun s => Φ f ((F.rowsAt i s).map (scoreBut F.scope.length q i))
    -- messages to the factor
    have hq : ∀ j w, F.scope[j]? = some w → ∀ s < w.n, ∀ t < w.n, q j s - q j t ≤ E w +
        (((edgesOf (factors.map (·.scope)) w).filter (fun e => e ≠ (f, j))).map (fun e => β e.1 w)).sum := by
      intro j w hj s hs t ht
      have h1 := hE w (hvars F hmem w (List.mem_of_getElem? hj)) s hs t ht
      have h2 := list_sum_diff ((edgesOf (factors.map (·.scope)) w).filter (fun e => e ≠ (f, j))) (fun e => m e.1 e.2 s) (fun e => m e.1 e.2 t)
        (fun e => β e.1 w) (fun e hme => (ih ((mem_edgesOf _ _ _ _).1 (List.mem_filter.1 hme).1) s hs).2 t ht)
      simp only [q]
      rw [tbIn_at hj, tbIn_at hj]
      unfold varToFac
      linarith
    have hscore : ∀ r ∈ F.rows, ∀ r' ∈ F.rows, scoreBut F.scope.length q i r - scoreBut F.scope.length q i r' ≤
        P f + (((List.range F.scope.length).filter (fun j => j ≠ i)).map (fun j => E (F.scope.getD j ⟨0, 0⟩) +
          (((edgesOf (factors.map (·.scope)) (F.scope.getD j ⟨0, 0⟩)).filter (fun e => e ≠ (f, j))).map (fun e => β e.1 (F.scope.getD j ⟨0, 0⟩))).sum)).sum := by
      intro r hr r' hr'
      have h1 := (hP f F hF).1 r hr r' hr'
      have h2 := list_sum_diff ((List.range F.scope.length).filter (fun j => j ≠ i)) (fun j => q j (r.1.getD j 0)) (fun j => q j (r'.1.getD j 0))
        (fun j => E (F.scope.getD j ⟨0, 0⟩) +
          (((edgesOf (factors.map (·.scope)) (F.scope.getD j ⟨0, 0⟩)).filter (fun e => e ≠ (f, j))).map (fun e => β e.1 (F.scope.getD j ⟨0, 0⟩))).sum) (by
        intro j hj
        have hjl := List.mem_range.1 (List.mem_filter.1 hj).1
        have hj' := List.getElem?_eq_getElem hjl
        rw [show F.scope.getD j ⟨0, 0⟩ = F.scope[j] by rw [List.getD, hj', Option.getD_some]]
        have hst : ∀ r ∈ F.rows, r.1.getD j 0 < F.scope[j].n := by
          intro r hr
          have hrow' := hrow F hmem r hr
          have hlt : j < r.1.length := by rw [hrow'.length_eq]; exact hjl
          obtain ⟨w, hw, hlt'⟩ := forall₂_getElem? hrow' (List.getElem?_eq_getElem hlt)
          rw [hj'] at hw
          cases hw
          rw [List.getD, List.getElem?_eq_getElem hlt, Option.getD_some]
          exact hlt'
        exact hq j _ hj' _ (hst r hr) _ (hst r' hr'))
      unfold scoreBut
      linarith
    have hout : ∀ s < v.n, ∀ t < v.n, out s - out t ≤ β f v := by
      intro s hs t ht
      have h1 := (hP f F hF).2 ((F.rowsAt i s).map (scoreBut F.scope.length q i)) ((F.rowsAt i t).map (scoreBut F.scope.length q i))
        (by rw [Ne, List.map_eq_nil_iff]; exact hfull F hmem i v s hi hs) (by rw [Ne, List.map_eq_nil_iff]; exact hfull F hmem i v t hi ht)
        (by rw [List.length_map]; exact List.length_filter_le _ _) (by rw [List.length_map]; exact List.length_filter_le _ _) _ (by
          intro x hx y hy
          obtain ⟨r, hr, rfl⟩ := List.mem_map.1 hx
          obtain ⟨r', hr', rfl⟩ := List.mem_map.1 hy
          exact hscore r (List.mem_filter.1 hr).1 r' (List.mem_filter.1 hr').1)
      have h2 := hβ f F i v hF hi
      unfold inflow at h2
      simp only [out]
      linarith
    have hstep : ∀ s < v.n, sumStep Φ factors ev d m f i s = tbNorm v.n (fun s => WithBot.some (d * m f i s + (1 - d) * out s)) s := by
      intro s hs
      rw [sumStep_at Φ hF hi]
      refine tbNorm_congr (fun s hs => ?_) hs
      unfold sumOut
      rw [if_neg (hfull F hmem i v s hi hs)]
      rfl
    have hx : ∀ s < v.n, ∀ t < v.n, (d * m f i s + (1 - d) * out s) - (d * m f i t + (1 - d) * out t) ≤ β f v := by
      intro s hs t ht
      have h1 := mul_le_mul_of_nonneg_left ((ih he s hs).2 t ht) hd.1
      have h2 := mul_le_mul_of_nonneg_left (hout s hs t ht) (sub_nonneg.2 hd.2)
      linarith
    intro s hs
    refine ⟨?_, fun t ht => ?_⟩
    · rw [hstep s hs]
      exact (tbNorm_range hx hs).1
    · rw [hstep s hs, hstep t ht]
      exact (tbNorm_range hx hs).2 t ht

open Classical in
/-- On forests, the totals behind the messages are consistent bounds. -/
theorem totalBehind_inflow {scopes : List (List Var)} (hG : (bipartite scopes).IsAcyclic) (hnd : ∀ vs ∈ scopes, vs.Nodup) {vars : Finset Var}
    (hvars : ∀ vs ∈ scopes, ∀ v ∈ vs, v ∈ vars) {E : Var → α} {P : Nat → α} (hE : ∀ v ∈ vars, 0 ≤ E v) (hP : ∀ f < scopes.length, 0 ≤ P f) {f i : Nat} {vs : List Var}
    {v : Var} (hf : scopes[f]? = some vs) (hi : vs[i]? = some v) :
    inflow scopes E P (totalBehind vars scopes E P) f i vs ≤ totalBehind vars scopes E P f v := by
  let N : Finset (Var ⊕ Nat) := vars.disjSum (Finset.range scopes.length)
  let W : Var ⊕ Nat → α := Sum.elim E P
  have hW : ∀ x ∈ N, 0 ≤ W x := by
    rintro (v | g) hx
    · exact hE v (Finset.inl_mem_disjSum.1 hx)
    · exact hP g (Finset.mem_range.1 (Finset.inr_mem_disjSum.1 hx))
  have htot : ∀ g w, totalBehind vars scopes E P g w = ∑ x ∈ N with x ∈ side (bipartite scopes) (.inr g) (.inl w), W x := by
    intro g w
    simp only [N, Finset.sum_filter, Finset.sum_disjSum, totalBehind]
    rfl
  have hfl := (List.getElem?_eq_some_iff.1 hf).1
  have hmem := List.mem_of_getElem? hf
  -- around a variable
  have hvar : ∀ j w, vs[j]? = some w → E w + (((edgesOf scopes w).filter (fun e => e ≠ (f, j))).map (fun e => totalBehind vars scopes E P e.1 w)).sum ≤
      ∑ x ∈ N with x ∈ side (bipartite scopes) (.inl w) (.inr f), W x := by
    intro j w hj
    have hedge : IsEdge scopes f j w := ⟨vs, hf, hj⟩
    have hfst : (((edgesOf scopes w).filter (fun e => e ≠ (f, j))).map (fun e => (.inr e.1 : Var ⊕ Nat))).Nodup := by
      refine List.Nodup.map_on ?_ ((edgesOf_nodup _ _).filter _)
      rintro ⟨g, k⟩ he ⟨g', k'⟩ he' heq
      cases heq
      rw [isEdge_unique hnd ((mem_edgesOf _ _ _ _).1 (List.mem_filter.1 he).1) ((mem_edgesOf _ _ _ _).1 (List.mem_filter.1 he').1)]
    have := side_sum hG N W hW (bipartite_adj.2 ⟨j, hedge⟩) (Finset.inl_mem_disjSum.2 (hvars vs hmem w (List.mem_of_getElem? hj)))
      (((edgesOf scopes w).filter (fun e => e ≠ (f, j))).map (fun e => (.inr e.1 : Var ⊕ Nat))).toFinset (by
        intro c hc
        obtain ⟨⟨g, k⟩, he, rfl⟩ := List.mem_map.1 (List.mem_toFinset.1 hc)
        obtain ⟨h1, h2⟩ := List.mem_filter.1 he
        have h1 := (mem_edgesOf _ _ _ _).1 h1
        refine ⟨bipartite_adj'.2 ⟨k, h1⟩, ?_⟩
        intro hgf
        cases hgf
        rw [isEdge_unique hnd h1 hedge] at h2
        simp at h2)
    rw [List.sum_toFinset _ hfst, List.map_map] at this
    refine le_trans (le_of_eq ?_) this
    congr 2
    exact List.map_congr_left fun e _ => htot e.1 w
  -- around the factor
  rw [htot]
  have hpos : (((List.range vs.length).filter (fun j => j ≠ i)).map (fun j => (.inl (vs.getD j ⟨0, 0⟩) : Var ⊕ Nat))).Nodup := by
    refine List.Nodup.map_on ?_ (List.nodup_range.filter _)
    intro j hj k hk heq
    have hj := List.mem_range.1 (List.mem_filter.1 hj).1
    have hk := List.mem_range.1 (List.mem_filter.1 hk).1
    rw [Sum.inl.injEq, List.getD, List.getD, List.getElem?_eq_getElem hj, List.getElem?_eq_getElem hk, Option.getD_some, Option.getD_some] at heq
    exact (hnd vs hmem).getElem_inj_iff.1 heq
  have := side_sum hG N W hW (bipartite_adj'.2 ⟨i, vs, hf, hi⟩) (Finset.inr_mem_disjSum.2 (Finset.mem_range.2 hfl))
    (((List.range vs.length).filter (fun j => j ≠ i)).map (fun j => (.inl (vs.getD j ⟨0, 0⟩) : Var ⊕ Nat))).toFinset (by
      intro c hc
      obtain ⟨j, hj, rfl⟩ := List.mem_map.1 (List.mem_toFinset.1 hc)
      obtain ⟨h1, h2⟩ := List.mem_filter.1 hj
      have h1 := List.mem_range.1 h1
      have hj' := List.getElem?_eq_getElem h1
      rw [List.getD, hj', Option.getD_some]
      refine ⟨bipartite_adj.2 ⟨j, vs, hf, hj'⟩, ?_⟩
      intro he
      rw [Sum.inl.injEq] at he
      rw [he] at hj'
      have := (List.getElem?_inj h1 (hnd vs hmem)).1 (hj'.trans hi.symm)
      rw [this] at h2
      simp at h2)
  rw [List.sum_toFinset _ hpos, List.map_map] at this
  refine le_trans ?_ this
  unfold inflow
  refine add_le_add le_rfl (List.sum_le_sum ?_)
  intro j hj
  have hj := List.mem_range.1 (List.mem_filter.1 hj).1
  refine hvar j _ ?_
  rw [List.getD, List.getElem?_eq_getElem hj, Option.getD_some]

end

end PGMax
