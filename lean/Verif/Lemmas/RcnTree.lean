import Verif.Lemmas.PairNets
import Verif.Props.C39_C40
import Verif.Props.C75
import Verif.Props.C76
import Mathlib.Tactic.IntervalCases

/-! # The factor graph of the RCN program, if its networks are trees -/

namespace PGMax

section
variable {κ α : Type} {idV : Nat → Nat} {idF : Nat → Nat → Nat} {hps vps : Nat} {sizes : List Nat} {edges : List (List (Nat × Nat × Nat))}

/-- The edges without position and radius. -/
abbrev cPairs (edges : List (List (Nat × Nat × Nat))) : List (Nat × Nat × Nat) := (cEdges edges).map (fun q => (q.1, q.2.2.1, q.2.2.2.1))

theorem mem_cPairs {p : Nat × Nat × Nat} : p ∈ cPairs edges ↔ ∃ r, (p.2.1, p.2.2, r) ∈ edges.getD p.1 [] := by
  obtain ⟨idx, i, j⟩ := p
  constructor
  · intro h
    obtain ⟨q, hq, e⟩ := List.mem_map.1 h
    obtain ⟨idx', k, a, b, r⟩ := q
    cases e
    exact ⟨r, List.mem_of_getElem? (mem_cEdges.1 hq).2⟩
  · rintro ⟨r, hr⟩
    obtain ⟨k, hk⟩ := List.mem_iff_getElem?.1 hr
    refine List.mem_map.2 ⟨(idx, k, i, j, r), mem_cEdges.2 ⟨?_, hk⟩, rfl⟩
    by_contra hlt
    rw [List.getD_eq_default _ _ (by simpa using hlt)] at hr
    cases hr

theorem netOf_cPairs (idx : Nat) : netOf (cPairs edges) idx = rcnNet (edges.getD idx []) := by
  unfold netOf rcnNet
  congr 1
  funext i j
  exact propext mem_cPairs

theorem isEnd_cPairs (hok : RcnOk sizes edges) {idx i : Nat} (h : IsEnd (cPairs edges) idx i) : idx < sizes.length ∧ i < sizes.getD idx 0 := by
  obtain ⟨q, hq, rfl, hi⟩ := h
  obtain ⟨q', hq', rfl⟩ := List.mem_map.1 hq
  obtain ⟨h1, h2⟩ := mem_cEdges.1 hq'
  obtain ⟨h3, h4, -⟩ := hok.ends _ h1 _ (List.mem_of_getElem? h2)
  refine ⟨by rw [hok.len]; exact h1, ?_⟩
  rcases hi with rfl | rfl
  · exact h3
  · exact h4

theorem rcn_pairNets (hid : ∀ i < sizes.length, ∀ j < sizes.length, idV i % 2 ^ 32 = idV j % 2 ^ 32 → i = j) (hok : RcnOk sizes edges)
    (hloop : ∀ es ∈ edges, ∀ e ∈ es, e.1 ≠ e.2.1) {scopes : List (List Var)}
    (hsc : scopes = (cEdges edges).map (fun q => [cCell idV hps vps sizes q.1 q.2.2.1, cCell idV hps vps sizes q.1 q.2.2.2.1])) :
    PairNets scopes (cPairs edges) (cCell idV hps vps sizes) where
  scopes_eq := by
    rw [hsc, List.map_map]
    rfl
  inj := by
    intro idx i idx' i' h h' e
    obtain ⟨a1, a2⟩ := isEnd_cPairs hok h
    obtain ⟨b1, b2⟩ := isEnd_cPairs hok h'
    exact cCell_inj hid hok.small a1 b1 a2 b2 e
  loop := by
    intro q hq
    obtain ⟨q', hq', rfl⟩ := List.mem_map.1 hq
    obtain ⟨h1, h2⟩ := mem_cEdges.1 hq'
    refine hloop (edges.getD q'.1 []) ?_ _ (List.mem_of_getElem? h2)
    rw [List.getD, List.getElem?_eq_getElem h1]
    exact List.getElem_mem h1
  simple := by
    intro f f' q q' hq hq' h1 h2
    rw [List.getElem?_map] at hq hq'
    obtain ⟨⟨idx, k, e⟩, hr, rfl⟩ := Option.map_eq_some_iff.1 hq
    obtain ⟨⟨idx', k', e'⟩, hr', rfl⟩ := Option.map_eq_some_iff.1 hq'
    simp only at h1 h2
    subst h1
    obtain ⟨l1, l2⟩ := mem_cEdges.1 (List.mem_of_getElem? hr)
    obtain ⟨-, l3⟩ := mem_cEdges.1 (List.mem_of_getElem? hr')
    simp only at l1 l2 l3
    have hs := hok.simple idx l1
    have hk : k = k' := by
      refine (List.getElem?_inj (i := k) (j := k') ?_ hs).1 ?_
      · rw [List.length_map]
        exact (List.getElem?_eq_some_iff.1 l2).1
      · rw [List.getElem?_map, List.getElem?_map, l2, l3]
        simp only [Option.map_some, Option.some.injEq]
        rcases h2 with ⟨e1, e2⟩ | ⟨e1, e2⟩
        · rw [e1, e2]
        · rw [e1, e2, Finset.pair_comm]
    subst hk
    rw [l2] at l3
    cases l3
    exact (List.getElem?_inj (List.getElem?_eq_some_iff.1 hr).1 (cEdges_nodup edges)).1 (hr.trans hr'.symm)

/-- Every variable is in at most as many factors as its vertex has edges. -/
theorem rcn_degree (hid : ∀ i < sizes.length, ∀ j < sizes.length, idV i % 2 ^ 32 = idV j % 2 ^ 32 → i = j) (hok : RcnOk sizes edges)
    (hloop : ∀ es ∈ edges, ∀ e ∈ es, e.1 ≠ e.2.1) {scopes : List (List Var)}
    (hsc : scopes = (cEdges edges).map (fun q => [cCell idV hps vps sizes q.1 q.2.2.1, cCell idV hps vps sizes q.1 q.2.2.2.1]))
    {idx i : Nat} (he : idx < sizes.length ∧ i < sizes.getD idx 0) :
    (edgesOf scopes (cCell idV hps vps sizes idx i)).length ≤ ((edges.getD idx []).filter (fun e => e.1 = i ∨ e.2.1 = i)).length := by
  classical
  have hnets := rcn_pairNets (hps := hps) (vps := vps) hid hok hloop hsc
  -- the position of the edge of a factor
  let pos : Nat × Nat → Nat := fun p => ((cEdges edges).getD p.1 (0, 0, 0, 0, 0)).2.1
  have hmem : ∀ p ∈ edgesOf scopes (cCell idV hps vps sizes idx i), ∃ e, (cEdges edges)[p.1]? = some (idx, pos p, e) ∧ (edges.getD idx [])[pos p]? = some e ∧ (e.1 = i ∨ e.2.1 = i) := by
    rintro ⟨f, j⟩ hp
    obtain ⟨vs, h1, h2⟩ := (mem_edgesOf _ _ _ _).1 hp
    rw [hsc, List.getElem?_map] at h1
    obtain ⟨⟨idx', k, e⟩, hr, rfl⟩ := Option.map_eq_some_iff.1 h1
    obtain ⟨l1, l2⟩ := mem_cEdges.1 (List.mem_of_getElem? hr)
    simp only at l1 l2
    obtain ⟨b1, b2, -⟩ := hok.ends _ l1 _ (List.mem_of_getElem? l2)
    have hpos : pos (f, j) = k := by
      simp only [pos, List.getD, hr, Option.getD_some]
    have hv := List.mem_of_getElem? h2
    simp only [List.mem_cons, List.not_mem_nil, or_false] at hv
    rw [hpos]
    rcases hv with e1 | e1
    · obtain ⟨rfl, rfl⟩ := cCell_inj hid hok.small he.1 (by rw [hok.len]; exact l1) he.2 b1 e1
      exact ⟨e, hr, l2, .inl rfl⟩
    · obtain ⟨rfl, rfl⟩ := cCell_inj hid hok.small he.1 (by rw [hok.len]; exact l1) he.2 b2 e1
      exact ⟨e, hr, l2, .inr rfl⟩
  have hinj : ((edgesOf scopes (cCell idV hps vps sizes idx i)).map pos).Nodup := by
    refine List.Nodup.map_on (fun p hp q hq e => ?_) (edgesOf_nodup _ _)
    obtain ⟨e1, h1, h2, -⟩ := hmem p hp
    obtain ⟨e2, h3, h4, -⟩ := hmem q hq
    rw [← e] at h3 h4
    rw [h2] at h4
    cases h4
    have hf : p.1 = q.1 := (List.getElem?_inj (List.getElem?_eq_some_iff.1 h1).1 (cEdges_nodup edges)).1 (h1.trans h3.symm)
    obtain ⟨vs, a1, a2⟩ := (mem_edgesOf _ _ _ _).1 hp
    obtain ⟨vs', a3, a4⟩ := (mem_edgesOf _ _ _ _).1 hq
    rw [← hf, a1] at a3
    cases a3
    refine Prod.ext hf ?_
    exact (List.getElem?_inj (List.getElem?_eq_some_iff.1 a2).1 (hnets.nodup vs (List.mem_of_getElem? a1))).1 (a2.trans a4.symm)
  have hsub : ((edgesOf scopes (cCell idV hps vps sizes idx i)).map pos).toFinset ⊆
      (Finset.range (edges.getD idx []).length).filter (fun k => ∃ e, (edges.getD idx [])[k]? = some e ∧ (e.1 = i ∨ e.2.1 = i)) := by
    intro k hk
    obtain ⟨p, hp, rfl⟩ := List.mem_map.1 (List.mem_toFinset.1 hk)
    obtain ⟨e, -, h2, h3⟩ := hmem p hp
    exact Finset.mem_filter.2 ⟨Finset.mem_range.2 (List.getElem?_eq_some_iff.1 h2).1, e, h2, h3⟩
  have hcard := Finset.card_le_card hsub
  rw [List.toFinset_card_of_nodup hinj, List.length_map] at hcard
  refine hcard.trans ?_
  generalize edges.getD idx [] = es
  clear * -
  induction es using List.reverseRecOn with
  | nil => simp
  | append_singleton es e ih =>
    rw [List.length_append, List.length_singleton, Finset.range_add_one, Finset.filter_insert, List.filter_append, List.length_append]
    have hin : (Finset.range es.length).filter (fun k => ∃ e', (es ++ [e])[k]? = some e' ∧ (e'.1 = i ∨ e'.2.1 = i)) =
        (Finset.range es.length).filter (fun k => ∃ e', es[k]? = some e' ∧ (e'.1 = i ∨ e'.2.1 = i)) := by
      refine Finset.filter_congr fun k hk => ?_
      rw [List.getElem?_append_left (Finset.mem_range.1 hk)]
    rw [hin]
    split
    · rename_i hc
      obtain ⟨e', h1, h2⟩ := hc
      rw [List.getElem?_append_right le_rfl, Nat.sub_self] at h1
      cases h1
      have : [e].filter (fun e => decide (e.1 = i ∨ e.2.1 = i)) = [e] := by simp [h2]
      rw [this]
      exact (Finset.card_insert_le _ _).trans (by simpa using ih)
    · exact ih.trans (Nat.le_add_right _ _)

theorem withinRadius_refl (w r s : Nat) : WithinRadius w r s s := ⟨by omega, by omega, by omega, by omega⟩

open Classical in
/-- What the exactness of belief propagation on trees needs to know about the program. -/
theorem rcn_facts [Field α] [LinearOrder α] [IsStrictOrderedRing α] (hid : ∀ i < sizes.length, ∀ j < sizes.length, idV i % 2 ^ 32 = idV j % 2 ^ 32 → i = j)
    (hF : ∀ a b c d, idF a b = idF c d → a = c ∧ b = d) {vars : List NDVarArray} {fg : FactorGraph κ α}
    (h : rcn idV idF hps vps sizes edges = .ok (vars, fg)) {hist : List (AddArg α)} {garbage : Garbage} {st : FGState κ α}
    (hst : Compiled (vars.map .arr) hist garbage st) (hg : graphOf (vars.map .arr) hist = fg)
    (hloop : ∀ es ∈ edges, ∀ e ∈ es, e.1 ≠ e.2.1) (htree : ∀ es ∈ edges, (rcnNet es).IsAcyclic) {ev : Var → Nat → α} {R B D d : α}
    (hR : ∀ idx < sizes.length, ∀ i < sizes.getD idx 0, ∀ s < cStates hps vps, ∀ t < cStates hps vps,
      ev (cCell idV hps vps sizes idx i) s - ev (cCell idV hps vps sizes idx i) t ≤ R)
    (hsize : ∀ n ∈ sizes, n * R < 1000)
    (hB : ∀ idx < sizes.length, ∀ i < sizes.getD idx 0, ∀ s < cStates hps vps, |ev (cCell idV hps vps sizes idx i) s| ≤ B)
    (hdeg : ∀ es ∈ edges, ∀ i, ((es.filter (fun e => e.1 = i ∨ e.2.1 = i)).length : α) ≤ D) (hd : 0 ≤ d ∧ d ≤ 1 / 2) (hnum : 2 * (B + 1000 * D) ≤ 97000) :
    (bipartite fg.allScopes).IsAcyclic ∧ (∀ vs ∈ fg.allScopes, vs.Nodup) ∧
    (∀ (f : Nat) (F : SFac α), (fg.factors st.logPotentials)[f]? = some F → F.Full ∧ F.Within 0) ∧
    EvWithin (graphVars (vars.map (.arr : NDVarArray → VGroup κ))) ev (fun _ => R) ∧
    (∀ f i v, IsEdge fg.allScopes f i v → totalBehind (graphVars (vars.map (.arr : NDVarArray → VGroup κ))) fg.allScopes (fun _ => R) (fun _ => 0) f v < 1000) ∧
    Moderate fg st.logPotentials ev d ∧ LogicalModerate fg ev ∧
    ∀ n, 0 < n → (∀ es ∈ edges, ∀ i j, (rcnNet es).dist i j ≤ n) → ∀ v f, (bipartite fg.allScopes).dist (.inl v) (.inr f) < 2 * n := by
  have hok := (C71_inputs (κ := κ) (α := α) (idF := idF) (hps := hps) (vps := vps) (edges := edges) hid).1.1 ⟨_, h⟩
  obtain ⟨rfl, hist', st', hg', hst', -, hsc, htl, htf, hfac⟩ := rcn_build hid hF h garbage
  obtain rfl : st' = st := by
    have h1 := hst'.compiled
    have h2 := hst.compiled
    rw [hg'] at h1
    rw [hg, h1] at h2
    exact Except.ok.inj h2
  have hnets := rcn_pairNets (hps := hps) (vps := vps) hid hok hloop hsc
  have hmemE : ∀ idx, edges.getD idx [] = [] ∨ edges.getD idx [] ∈ edges := by
    intro idx
    rcases Nat.lt_or_ge idx edges.length with hi | hi
    · right
      rw [List.getD, List.getElem?_eq_getElem hi]
      exact List.getElem_mem hi
    · left
      rw [List.getD_eq_default _ _ hi]
  have hnil : rcnNet [] = ⊥ := by
    ext i j
    simp [rcnNet]
  have hac : ∀ idx, (netOf (cPairs edges) idx).IsAcyclic := by
    intro idx
    rw [netOf_cPairs]
    rcases hmemE idx with e | e
    · rw [e, hnil]
      exact SimpleGraph.isAcyclic_bot
    · exact htree _ e
  have hends : ∀ f i v, IsEdge fg.allScopes f i v → ∃ q ∈ cEdges edges, (cEdges edges)[f]? = some q ∧ q.1 < sizes.length ∧
      ∃ j < sizes.getD q.1 0, v = cCell idV hps vps sizes q.1 j := by
    rintro f i v ⟨vs, h1, h2⟩
    rw [hsc, List.getElem?_map] at h1
    obtain ⟨q, hr, rfl⟩ := Option.map_eq_some_iff.1 h1
    have mq := List.mem_of_getElem? hr
    obtain ⟨l1, l2⟩ := mem_cEdges.1 mq
    obtain ⟨b1, b2, -⟩ := hok.ends _ l1 _ (List.mem_of_getElem? l2)
    refine ⟨q, mq, hr, by rw [hok.len]; exact l1, ?_⟩
    have hv := List.mem_of_getElem? h2
    simp only [List.mem_cons, List.not_mem_nil, or_false] at hv
    rcases hv with rfl | rfl
    · exact ⟨_, b1, rfl⟩
    · exact ⟨_, b2, rfl⟩
  have hrows : ∀ F ∈ fg.factors st'.logPotentials, ∃ q ∈ cEdges edges, F = ⟨[cCell idV hps vps sizes q.1 q.2.2.1, cCell idV hps vps sizes q.1 q.2.2.2.1],
      (validConfigs q.2.2.2.2 hps vps).zip (List.replicate (validConfigs q.2.2.2.2 hps vps).length 0)⟩ := by
    intro F hF
    rw [hfac] at hF
    obtain ⟨q, hq, rfl⟩ := List.mem_map.1 hF
    exact ⟨q, hq, rfl⟩
  have hzero : ∀ F ∈ fg.factors st'.logPotentials, ∀ r ∈ F.rows, r.2 = 0 := by
    intro F hF r hr
    obtain ⟨q, -, rfl⟩ := hrows F hF
    exact (List.mem_replicate.1 (List.of_mem_zip hr).2).2
  have hE : EvWithin (graphVars ((cVars idV hps vps sizes).map (.arr : NDVarArray → VGroup κ))) ev (fun _ => R) := by
    intro v hv s hs t ht
    obtain ⟨idx, h1, i, h2, rfl⟩ := (mem_cVgs v).1 hv
    exact hR idx h1 i h2 s hs t ht
  have hM : 0 < cStates hps vps := Nat.mul_pos (by omega) (by omega)
  refine ⟨hnets.acyclic hac, hnets.nodup, ?_, hE, ?_, ?_, ?_, ?_⟩
  · intro f F hf
    refine ⟨?_, ?_⟩
    · obtain ⟨q, -, rfl⟩ := hrows F (List.mem_of_getElem? hf)
      intro i v s hi hs hc
      have hv := List.mem_of_getElem? hi
      have hs : s < cStates hps vps := by
        simp only [List.mem_cons, List.not_mem_nil, or_false] at hv
        rcases hv with rfl | rfl <;> exact hs
      have hi2 : i < 2 := (List.getElem?_eq_some_iff.1 hi).1
      have hrow : [s, s] ∈ validConfigs q.2.2.2.2 hps vps := (mem_validConfigs _ _ _ _).2 ⟨s, s, rfl, hs, hs, withinRadius_refl _ _ _⟩
      obtain ⟨k, hk⟩ := List.mem_iff_getElem?.1 hrow
      have hmem : ([s, s], (0 : α)) ∈ (validConfigs q.2.2.2.2 hps vps).zip (List.replicate (validConfigs q.2.2.2.2 hps vps).length 0) := by
        refine List.mem_iff_getElem?.2 ⟨k, ?_⟩
        rw [List.getElem?_zip_eq_some]
        refine ⟨hk, ?_⟩
        rw [List.getElem?_replicate, if_pos (List.getElem?_eq_some_iff.1 hk).1]
      refine List.not_mem_nil (a := ([s, s], (0 : α))) ?_
      rw [← hc]
      refine List.mem_filter.2 ⟨hmem, ?_⟩
      interval_cases i <;> simp
    · intro r hr r' hr'
      rw [hzero F (List.mem_of_getElem? hf) r hr, hzero F (List.mem_of_getElem? hf) r' hr', sub_zero]
  · intro f i v he
    obtain ⟨q, mq, hq, hlt, j, hj, rfl⟩ := hends f i v he
    have hR0 : 0 ≤ R := by
      have := hR q.1 hlt j hj 0 hM 0 hM
      rwa [sub_self] at this
    unfold totalBehind
    rw [Finset.sum_const_zero, add_zero, Finset.sum_const, nsmul_eq_mul]
    have hsub : (graphVars ((cVars idV hps vps sizes).map (.arr : NDVarArray → VGroup κ))).filter
        (fun u => Behind fg.allScopes f (cCell idV hps vps sizes q.1 j) (.inl u)) ⊆
        (Finset.range (sizes.getD q.1 0)).image (cCell idV hps vps sizes q.1) := by
      intro u hu
      obtain ⟨i', hi', rfl, -⟩ := hnets.reach (q := (q.1, q.2.2.1, q.2.2.2.1)) (by rw [List.getElem?_map, hq]; rfl) (Finset.mem_filter.1 hu).2.1
      exact Finset.mem_image.2 ⟨i', Finset.mem_range.2 (isEnd_cPairs hok hi').2, rfl⟩
    have hcard := (Finset.card_le_card hsub).trans Finset.card_image_le
    rw [Finset.card_range] at hcard
    refine lt_of_le_of_lt (mul_le_mul_of_nonneg_right (Nat.cast_le.2 hcard) hR0) (hsize _ ?_)
    rw [List.getD, List.getElem?_eq_getElem hlt]
    exact List.getElem_mem hlt
  · by_cases hne : ∃ f i v, IsEdge fg.allScopes f i v
    · obtain ⟨f, i, v, he⟩ := hne
      obtain ⟨q, mq, hq, hlt, j, hj, rfl⟩ := hends f i v he
      have hB0 : 0 ≤ B := (abs_nonneg _).trans (hB q.1 hlt j hj 0 hM)
      have hD0 : 0 ≤ D := by
        obtain ⟨l1, l2⟩ := mem_cEdges.1 mq
        refine le_trans ?_ (hdeg (edges.getD q.1 []) ?_ 0)
        · positivity
        · rw [List.getD, List.getElem?_eq_getElem l1]
          exact List.getElem_mem l1
      refine moderate_of_bounds (E := B) (P := 0) (D := D) (K := 2) hd ?_ ?_ (by positivity) ?_ (by linarith)
      · intro f i v s he hs
        obtain ⟨q, -, -, hlt, j, hj, rfl⟩ := hends f i v he
        exact hB q.1 hlt j hj s hs
      · intro f i v he
        obtain ⟨q, mq, -, hlt, j, hj, rfl⟩ := hends f i v he
        obtain ⟨l1, l2⟩ := mem_cEdges.1 mq
        have h1 := rcn_degree (hps := hps) (vps := vps) hid hok hloop hsc ⟨hlt, hj⟩
        refine le_trans (Nat.cast_le.2 h1) (hdeg _ ?_ j)
        rw [List.getD, List.getElem?_eq_getElem l1]
        exact List.getElem_mem l1
      · intro F hF'
        rw [← htf] at hF'
        refine ⟨?_, fun r hr => ?_⟩
        · obtain ⟨q, -, rfl⟩ := hrows F hF'
          simp
        · rw [hzero F hF' r hr, abs_zero]
    · have hnilE : cEdges edges = [] := by
        by_contra hc
        obtain ⟨q, hq⟩ := List.exists_mem_of_ne_nil _ hc
        obtain ⟨f, hf⟩ := List.mem_iff_getElem?.1 hq
        exact hne ⟨f, 0, _, _, by rw [hsc, List.getElem?_map, hf]; rfl, rfl⟩
      refine ⟨⟨hd.1, by linarith [hd.2]⟩, fun _ => 0, fun f i v s he => absurd ⟨f, i, v, he⟩ hne, fun F hF' => ?_⟩
      rw [← htf, hfac, hnilE] at hF'
      cases hF'
  · intro f vs hvs hf
    have h1 := (List.getElem?_eq_some_iff.1 hvs).1
    rw [hsc, List.length_map] at h1
    omega
  · intro n hn hdist
    refine hnets.dist_lt hac hn ?_
    intro idx i j
    rw [netOf_cPairs]
    rcases hmemE idx with e | e
    · rw [e, hnil]
      simp
    · exact hdist _ e i j

/-- If there are max-marginals then there is a MAP assignment. -/
theorem IsMaxMarginal.exists_map [AddCommGroup α] [LinearOrder α] [IsOrderedAddMonoid α] {vs : Finset Var} {factors : List (SFac α)} {ev : Var → Nat → α} {v : Var}
    {M : Nat → α} (hM : IsMaxMarginal vs factors ev v M) (hv : v ∈ vs) (hpos : 0 < v.n) : ∃ x ρ, IsMAP vs factors ev x ρ := by
  obtain ⟨s, hs, hmax⟩ := Finset.exists_max_image (Finset.range v.n) M ⟨0, Finset.mem_range.2 hpos⟩
  obtain ⟨x, ρ, hJ, -, he⟩ := (hM s (Finset.mem_range.1 hs)).1
  refine ⟨x, ρ, hJ, fun x' ρ' h' => ?_⟩
  rw [← he]
  exact ((hM _ (h'.states v hv)).2 ⟨x', ρ', h', rfl, rfl⟩).trans (hmax _ (Finset.mem_range.2 (h'.states v hv)))

/-- The joint assignments of the program. -/
theorem rcn_joint [Semiring α] (hid : ∀ i < sizes.length, ∀ j < sizes.length, idV i % 2 ^ 32 = idV j % 2 ^ 32 → i = j)
    (hF : ∀ a b c d, idF a b = idF c d → a = c ∧ b = d) {vars : List NDVarArray} {fg : FactorGraph κ α}
    (h : rcn idV idF hps vps sizes edges = .ok (vars, fg)) {hist : List (AddArg α)} {garbage : Garbage} {st : FGState κ α}
    (hst : Compiled (vars.map .arr) hist garbage st) (hg : graphOf (vars.map .arr) hist = fg) (x : Var → Nat) :
    (∃ ρ, Joint (graphVars (vars.map (.arr : NDVarArray → VGroup κ))) (fg.factors st.logPotentials) x ρ) ↔
      ∀ idx < sizes.length, RcnFeasible hps vps (sizes.getD idx 0) (edges.getD idx []) (fun i => x (cCell idV hps vps sizes idx i)) := by
  have hok := (C71_inputs (κ := κ) (α := α) (idF := idF) (hps := hps) (vps := vps) (edges := edges) hid).1.1 ⟨_, h⟩
  obtain ⟨cell', hist', st', -, hcell', hst', hg', -, hmod⟩ := C71_model hid hF h garbage
  obtain ⟨rfl, -⟩ := rcn_build hid hF h garbage
  obtain rfl : st' = st := by
    have h1 := hst'.compiled
    have h2 := hst.compiled
    rw [hg'] at h1
    rw [hg, h1] at h2
    exact Except.ok.inj h2
  have hc : ∀ idx < sizes.length, ∀ i < sizes.getD idx 0, cell' idx [i] = cCell idV hps vps sizes idx i := by
    intro idx hidx i hi
    exact isArr_unique (hcell' idx _ (by rw [List.getElem?_map, List.getElem?_range hidx, Option.map_some])) (isArr_uniArr _ _ _ (by simp)) [i] (by simpa using hi)
  rw [(hmod x).1]
  constructor
  · rintro ⟨h1, h2⟩ idx hidx
    refine ⟨fun i hi => ?_, fun e he => ?_⟩
    · simp only
      rw [← hc idx hidx i hi]
      exact h1 idx hidx i hi
    · obtain ⟨k1, k2, -⟩ := hok.ends idx (by rw [← hok.len]; exact hidx) e he
      simp only
      rw [← hc idx hidx _ k1, ← hc idx hidx _ k2]
      exact h2 idx hidx e he
  · intro hf
    refine ⟨fun idx hidx i hi => ?_, fun idx hidx e he => ?_⟩
    · rw [hc idx hidx i hi]; exact (hf idx hidx).1 i hi
    · obtain ⟨k1, k2, -⟩ := hok.ends idx (by rw [← hok.len]; exact hidx) e he
      rw [hc idx hidx _ k1, hc idx hidx _ k2]
      exact (hf idx hidx).2 e he

theorem deformScore_congr [AddCommMonoid α] {bu : NDArr α} {frc : List (Nat × Nat × Nat)} {y y' : Nat → Nat} (h : ∀ i < frc.length, y i = y' i) :
    deformScore hps vps bu frc y = deformScore hps vps bu frc y' := by
  unfold deformScore
  refine Finset.sum_congr rfl fun i hi => ?_
  rw [h i (Finset.mem_range.1 hi)]

/-- All MAP assignments contain the best deformation of a network, if there is only one. -/
theorem rcn_map_best [Field α] [LinearOrder α] [IsStrictOrderedRing α] (hid : ∀ i < sizes.length, ∀ j < sizes.length, idV i % 2 ^ 32 = idV j % 2 ^ 32 → i = j)
    (hF : ∀ a b c d, idF a b = idF c d → a = c ∧ b = d) {vars : List NDVarArray} {fg : FactorGraph κ α}
    (h : rcn idV idF hps vps sizes edges = .ok (vars, fg)) {hist : List (AddArg α)} {garbage : Garbage} {st : FGState κ α}
    (hst : Compiled (vars.map .arr) hist garbage st) (hg : graphOf (vars.map .arr) hist = fg)
    {frcs : List (List (Nat × Nat × Nat))} (hfr : frcs.map List.length = sizes) {bu : NDArr α} {ev : Var → Nat → α}
    (hsum : ∀ x ρ, Joint (graphVars (vars.map (.arr : NDVarArray → VGroup κ))) (fg.factors st.logPotentials) x ρ →
      jointScore (graphVars (vars.map (.arr : NDVarArray → VGroup κ))) (fg.factors st.logPotentials) ev x ρ =
        ∑ idx ∈ Finset.range frcs.length, deformScore hps vps bu (frcs.getD idx []) (fun i => x (cCell idV hps vps sizes idx i)))
    {x : Var → Nat} {ρ : Nat → List Nat × α}
    (hx : IsMAP (graphVars (vars.map (.arr : NDVarArray → VGroup κ))) (fg.factors st.logPotentials) ev x ρ)
    {idx : Nat} {frc : List (Nat × Nat × Nat)} (hfrc : frcs[idx]? = some frc) {y : Nat → Nat} (hy : RcnBest hps vps bu frc (edges.getD idx []) y) :
    ∀ i < frc.length, x (cCell idV hps vps sizes idx i) = y i := by
  classical
  have hok := (C71_inputs (κ := κ) (α := α) (idF := idF) (hps := hps) (vps := vps) (edges := edges) hid).1.1 ⟨_, h⟩
  have hn : frcs.length = sizes.length := by rw [← hfr, List.length_map]
  have hidx : idx < sizes.length := by rw [← hn]; exact (List.getElem?_eq_some_iff.1 hfrc).1
  have hf : frcs.getD idx [] = frc := by rw [List.getD, hfrc, Option.getD_some]
  have hlen : frc.length = sizes.getD idx 0 := by
    rw [← hfr, List.getD, List.getElem?_map, hfrc]
    rfl
  have hfeas := (rcn_joint hid hF h hst hg x).1 ⟨ρ, hx.1⟩
  -- the states of the network replaced
  let x' : Var → Nat := fun v => if hv : ∃ i, i < frc.length ∧ v = cCell idV hps vps sizes idx i then y hv.choose else x v
  have hx'1 : ∀ i < frc.length, x' (cCell idV hps vps sizes idx i) = y i := by
    intro i hi
    have hv : ∃ i', i' < frc.length ∧ cCell idV hps vps sizes idx i = cCell idV hps vps sizes idx i' := ⟨i, hi, rfl⟩
    have e : x' (cCell idV hps vps sizes idx i) = y hv.choose := dif_pos hv
    obtain ⟨-, e2⟩ := cCell_inj hid hok.small hidx hidx (by rw [← hlen]; exact hi) (by rw [← hlen]; exact hv.choose_spec.1) hv.choose_spec.2
    rw [e, ← e2]
  have hx'2 : ∀ k < sizes.length, k ≠ idx → ∀ i < sizes.getD k 0, x' (cCell idV hps vps sizes k i) = x (cCell idV hps vps sizes k i) := by
    intro k hk hne i hi
    refine dif_neg ?_
    rintro ⟨i', hi', e⟩
    exact hne (cCell_inj hid hok.small hk hidx hi (by rw [← hlen]; exact hi') e).1
  have hJ : ∃ ρ', Joint (graphVars (vars.map (.arr : NDVarArray → VGroup κ))) (fg.factors st.logPotentials) x' ρ' := by
    refine (rcn_joint hid hF h hst hg x').2 fun k hk => ?_
    by_cases hki : k = idx
    · subst hki
      obtain ⟨y1, y2⟩ := hy.feasible
      refine ⟨fun i hi => ?_, fun e he => ?_⟩
      · simp only
        rw [hx'1 i (by rw [hlen]; exact hi)]
        exact y1 i (by rw [hlen]; exact hi)
      · obtain ⟨k1, k2, -⟩ := hok.ends k (by rw [← hok.len]; exact hk) e he
        simp only
        rw [hx'1 _ (by rw [hlen]; exact k1), hx'1 _ (by rw [hlen]; exact k2)]
        exact y2 e he
    · refine ⟨fun i hi => ?_, fun e he => ?_⟩
      · simp only
        rw [hx'2 k hk hki i hi]
        exact (hfeas k hk).1 i hi
      · obtain ⟨k1, k2, -⟩ := hok.ends k (by rw [← hok.len]; exact hk) e he
        simp only
        rw [hx'2 k hk hki _ k1, hx'2 k hk hki _ k2]
        exact (hfeas k hk).2 e he
  obtain ⟨ρ', hJ⟩ := hJ
  have hle := hx.2 x' ρ' hJ
  rw [hsum x' ρ' hJ, hsum x ρ hx.1] at hle
  have hmem : idx ∈ Finset.range frcs.length := Finset.mem_range.2 (by omega)
  rw [← Finset.add_sum_erase _ _ hmem, ← Finset.add_sum_erase _ _ hmem] at hle
  have hrest : ∑ k ∈ (Finset.range frcs.length).erase idx, deformScore hps vps bu (frcs.getD k []) (fun i => x' (cCell idV hps vps sizes k i)) =
      ∑ k ∈ (Finset.range frcs.length).erase idx, deformScore hps vps bu (frcs.getD k []) (fun i => x (cCell idV hps vps sizes k i)) := by
    refine Finset.sum_congr rfl fun k hk => ?_
    obtain ⟨hne, hk⟩ := Finset.mem_erase.1 hk
    have hk := Finset.mem_range.1 hk
    refine deformScore_congr fun i hi => ?_
    refine hx'2 k (by omega) hne i ?_
    rw [← hfr, List.getD, List.getElem?_map, List.getElem?_eq_getElem hk]
    rw [List.getD, List.getElem?_eq_getElem hk] at hi
    exact hi
  rw [hrest, hf, deformScore_congr hx'1] at hle
  have hfx : RcnFeasible hps vps frc.length (edges.getD idx []) (fun i => x (cCell idV hps vps sizes idx i)) := by
    rw [hlen]
    exact hfeas idx hidx
  have hbest := hy.best _ hfx
  exact hy.unique _ hfx (le_antisymm hbest (by linarith))

/-- The states that are decoded for a network, and the scores. -/
theorem rcn_decoded_aux [Field α] [LinearOrder α] [IsStrictOrderedRing α] (hid : ∀ i < sizes.length, ∀ j < sizes.length, idV i % 2 ^ 32 = idV j % 2 ^ 32 → i = j)
    (hF : ∀ a b c d, idF a b = idF c d → a = c ∧ b = d) {vars : List NDVarArray} {fg : FactorGraph κ α}
    (h : rcn idV idF hps vps sizes edges = .ok (vars, fg)) {hist : List (AddArg α)} {garbage : Garbage} {st : FGState κ α}
    (hst : Compiled (vars.map .arr) hist garbage st) (hg : graphOf (vars.map .arr) hist = fg)
    {frcs : List (List (Nat × Nat × Nat))} (hfr : frcs.map List.length = sizes) {F H W : Nat} {bu : NDArr α} (hb : bu.WF)
    (hs : bu.shape = [F, H, W]) (hin : ∀ frc ∈ frcs, ∀ p ∈ frc, RcnInside hps vps F H W p) {ev : Var → Nat → α}
    (hsum : ∀ x ρ, Joint (graphVars (vars.map (.arr : NDVarArray → VGroup κ))) (fg.factors st.logPotentials) x ρ →
      jointScore (graphVars (vars.map (.arr : NDVarArray → VGroup κ))) (fg.factors st.logPotentials) ev x ρ =
        ∑ idx ∈ Finset.range frcs.length, deformScore hps vps bu (frcs.getD idx []) (fun i => x (cCell idV hps vps sizes idx i)))
    (hmap : ∀ v ∈ graphVars (vars.map (.arr : NDVarArray → VGroup κ)),
      ∃ x ρ, IsMAP (graphVars (vars.map (.arr : NDVarArray → VGroup κ))) (fg.factors st.logPotentials) ev x ρ)
    {rs : List (VGroup κ × GroupStates κ)} (hrs : rs.map (·.1) = vars.map .arr) {bel : Var → Nat → α} (hdec : ∀ p ∈ rs, p.1.Decodes bel p.2)
    (hstate : ∀ x ρ, IsMAP (graphVars (vars.map (.arr : NDVarArray → VGroup κ))) (fg.factors st.logPotentials) ev x ρ → ∀ p ∈ rs, ∀ v ∈ p.1.variables,
      (∀ x' ρ', IsMAP (graphVars (vars.map (.arr : NDVarArray → VGroup κ))) (fg.factors st.logPotentials) ev x' ρ' → x' v = x v) → p.1.StateIn v (x v) p.2) :
    (∀ idx frc, frcs[idx]? = some frc → ∀ y, RcnBest hps vps bu frc (edges.getD idx []) y →
      (rs.map (·.2))[idx]? = some (.arr (rcnStates frc.length y)) ∧
      ∃ e, rcnEvidence hps vps bu (rcnInts frc) = .ok e ∧ rcnScore e (rcnStates frc.length y) = deformScore hps vps bu frc y) ∧
    ∀ y : Nat → Nat → Nat, frcs ≠ [] → (∀ idx < frcs.length, RcnBest hps vps bu (frcs.getD idx []) (edges.getD idx []) (y idx)) →
      ∃ es maps, frcs.mapM (fun frc => rcnEvidence hps vps bu (rcnInts frc)) = .ok es ∧ rs.map (·.2) = maps.map .arr ∧
        IsFirstMax (fun idx => deformScore hps vps bu (frcs.getD idx []) (y idx)) frcs.length (rcnBestModel (rcnScores es maps)) := by
  have hok := (C71_inputs (κ := κ) (α := α) (idF := idF) (hps := hps) (vps := vps) (edges := edges) hid).1.1 ⟨_, h⟩
  have hn : frcs.length = sizes.length := by rw [← hfr, List.length_map]
  have hvars := (rcn_build hid hF h garbage).1
  have hrlen : rs.length = frcs.length := by
    have := congrArg List.length hrs
    rw [hvars] at this
    simpa [hn] using this
  have first : ∀ idx frc, frcs[idx]? = some frc → ∀ y, RcnBest hps vps bu frc (edges.getD idx []) y →
      (rs.map (·.2))[idx]? = some (.arr (rcnStates frc.length y)) ∧
      rcnScore (⟨[frc.length, (2 * hps + 1) * (2 * vps + 1)], rcnEv hps vps bu frc⟩ : NDArr α) (rcnStates frc.length y) = deformScore hps vps bu frc y := by
    intro idx frc hfrc y hy
    have hidx : idx < sizes.length := by rw [← hn]; exact (List.getElem?_eq_some_iff.1 hfrc).1
    have hlen : frc.length = sizes.getD idx 0 := by
      rw [← hfr, List.getD, List.getElem?_map, hfrc]
      rfl
    have hfi := hin frc (List.mem_of_getElem? hfrc)
    constructor
    · have hr : rs[idx]? = some rs[idx] := List.getElem?_eq_getElem (by omega)
      have hg1 : rs[idx].1 = .arr (uniArr (idV idx) [sizes.getD idx 0] (cStates hps vps)) := by
        have := congrArg (fun l => l[idx]?) hrs
        simp only [List.getElem?_map, hr, hvars, List.getElem?_range hidx, Option.map_some, Option.some.injEq] at this
        exact this
      have hd := hdec _ (List.mem_of_getElem? hr)
      rw [List.getElem?_map, hr, Option.map_some, Option.some.injEq]
      have hstt := fun x ρ hx => hstate x ρ hx _ (List.mem_of_getElem? hr)
      rw [hg1] at hd hstt
      have hvk : ∀ k < frc.length, (uniArr (idV idx) [sizes.getD idx 0] (cStates hps vps)).variables[k]? = some (cCell idV hps vps sizes idx k) := by
        intro k hk
        have := uniArr_variables (idV idx) [sizes.getD idx 0] (cStates hps vps)
        have h2 := allIndices_map_rowMajor [sizes.getD idx 0]
        have h3 : (allIndices [sizes.getD idx 0]).map (uniCell (idV idx) [sizes.getD idx 0] (cStates hps vps)) =
            (List.range [sizes.getD idx 0].prod).map (fun i => Var.mk (idV idx % 2 ^ 32 * 1000000000 + i) (cStates hps vps)) := by
          rw [← h2, List.map_map]; rfl
        rw [this, h3, List.getElem?_map, List.getElem?_range (by rw [List.prod_cons, List.prod_nil, Nat.mul_one, ← hlen]; exact hk)]
        simp [cCell, uniCell, rowMajor]
      have hnd : (uniArr (idV idx) [sizes.getD idx 0] (cStates hps vps)).variables.Nodup := by
        have := (List.nodup_flatMap.1 hst.vgroups.nodup).1 _ (List.mem_map.2 ⟨_, by rw [hvars]; exact List.mem_map.2 ⟨idx, List.mem_range.2 hidx, rfl⟩, rfl⟩)
        exact this
      generalize rs[idx].2 = r at hd hstt ⊢
      match r, hd, hstt with
      | .dict d, hd, _ => exact hd.elim
      | .arr a, hd, hstt =>
        obtain ⟨d1, d2, -⟩ := hd
        have hal : a.data.length = frc.length := by
          rw [NDArr.WF, d1] at d2
          rw [d2, hlen]
          simp [uniArr]
        have hdata : ∀ k < frc.length, a.data[k]? = some (y k) := by
          intro k hk
          have hmem := List.mem_of_getElem? (hvk k hk)
          have hgv : cCell idV hps vps sizes idx k ∈ graphVars (vars.map (.arr : NDVarArray → VGroup κ)) := by
            rw [hvars]
            exact (mem_cVgs _).2 ⟨idx, hidx, k, by rw [← hlen]; exact hk, rfl⟩
          obtain ⟨x, ρ, hx⟩ := hmap _ hgv
          have hxk := rcn_map_best hid hF h hst hg hfr hsum hx hfrc hy k hk
          obtain ⟨k', e1, e2⟩ := hstt x ρ hx _ hmem (fun x' ρ' hx' => by
            rw [rcn_map_best hid hF h hst hg hfr hsum hx' hfrc hy k hk, hxk])
          have : k' = k := (List.getElem?_inj (List.getElem?_eq_some_iff.1 e1).1 hnd).1 (e1.trans (hvk k hk).symm)
          rw [← this, e2, this, hxk]
        obtain ⟨shape, data⟩ := a
        simp only at d1 hal hdata
        have e1 : shape = [frc.length] := by rw [d1, hlen]; rfl
        have e2 : data = (List.range frc.length).map y := by
          apply List.ext_getElem?
          intro k
          by_cases hk : k < frc.length
          · rw [hdata k hk, List.getElem?_map, List.getElem?_range hk]
            rfl
          · rw [List.getElem?_eq_none (by omega), List.getElem?_eq_none (by simp; omega)]
        rw [e1, e2]
    · rw [rcnScore_eq hb hs frc hfi (rcnEvidence_eq hb hs frc hfi) _ (by simp)]
      · refine deformScore_congr fun i hi => ?_
        rw [List.getD, List.getElem?_map, List.getElem?_range hi]
        rfl
      · intro s hs'
        obtain ⟨i, hi, rfl⟩ := List.mem_map.1 hs'
        exact hy.feasible.1 i (List.mem_range.1 hi)
  refine ⟨fun idx frc hfrc y hy => ⟨(first idx frc hfrc y hy).1, _, rcnEvidence_eq hb hs frc (hin frc (List.mem_of_getElem? hfrc)), (first idx frc hfrc y hy).2⟩, ?_⟩
  intro y hne hy
  have hget : ∀ idx < frcs.length, frcs[idx]? = some (frcs.getD idx []) := by
    intro idx hidx
    rw [List.getD, List.getElem?_eq_getElem hidx, Option.getD_some]
  refine ⟨_, (List.range frcs.length).map (fun idx => rcnStates (frcs.getD idx []).length (y idx)),
    mapM_ok _ (fun frc => ⟨[frc.length, (2 * hps + 1) * (2 * vps + 1)], rcnEv hps vps bu frc⟩) _ (fun frc hfrc => rcnEvidence_eq hb hs frc (hin frc hfrc)), ?_, ?_⟩
  · apply List.ext_getElem?
    intro idx
    by_cases hidx : idx < frcs.length
    · rw [(first idx _ (hget idx hidx) _ (hy idx hidx)).1, List.map_map, List.getElem?_map, List.getElem?_range hidx]
      rfl
    · rw [List.getElem?_eq_none (by simp; omega), List.getElem?_eq_none (by simp; omega)]
  · have hsc : rcnScores (frcs.map (fun frc => (⟨[frc.length, (2 * hps + 1) * (2 * vps + 1)], rcnEv hps vps bu frc⟩ : NDArr α)))
        ((List.range frcs.length).map (fun idx => rcnStates (frcs.getD idx []).length (y idx))) =
        (List.range frcs.length).map (fun idx => deformScore hps vps bu (frcs.getD idx []) (y idx)) := by
      unfold rcnScores
      apply List.ext_getElem?
      intro idx
      by_cases hidx : idx < frcs.length
      · rw [List.getElem?_zipWith, List.getElem?_map, List.getElem?_map, List.getElem?_map, List.getElem?_range hidx, hget idx hidx]
        simp only [Option.map_some, Option.some.injEq]
        exact (first idx _ (hget idx hidx) _ (hy idx hidx)).2
      · rw [List.getElem?_eq_none (by simp; omega), List.getElem?_eq_none (by simp; omega)]
    rw [hsc]
    have hpos : 0 < frcs.length := List.length_pos_iff.2 hne
    obtain ⟨m, h1, h2, h3⟩ := argmax_spec ((List.range frcs.length).map (fun idx => deformScore hps vps bu (frcs.getD idx []) (y idx))) (by
      simp only [ne_eq, List.map_eq_nil_iff, List.range_eq_nil]; omega)
    unfold rcnBestModel
    generalize argmax ((List.range frcs.length).map (fun idx => deformScore hps vps bu (frcs.getD idx []) (y idx))) = k at h1 h3
    have hk : k < frcs.length := by
      have := (List.getElem?_eq_some_iff.1 h1).1
      simpa using this
    rw [List.getElem?_map, List.getElem?_range hk, Option.map_some, Option.some.injEq] at h1
    refine ⟨hk, fun s hs' => ?_, fun s hs' => ?_⟩
    · simp only
      rw [h1]
      exact h2 _ (List.mem_map.2 ⟨s, List.mem_range.2 hs', rfl⟩)
    · simp only
      rw [h1]
      exact h3 s _ hs' (by rw [List.getElem?_map, List.getElem?_range (by omega)]; rfl)

/-- The outcome for all networks. -/
theorem rcn_decoded [Field α] [LinearOrder α] [IsStrictOrderedRing α] (hid : ∀ i < sizes.length, ∀ j < sizes.length, idV i % 2 ^ 32 = idV j % 2 ^ 32 → i = j)
    (hF : ∀ a b c d, idF a b = idF c d → a = c ∧ b = d) {vars : List NDVarArray} {fg : FactorGraph κ α}
    (h : rcn idV idF hps vps sizes edges = .ok (vars, fg)) {hist : List (AddArg α)} {garbage : Garbage} {st : FGState κ α}
    (hst : Compiled (vars.map .arr) hist garbage st) (hg : graphOf (vars.map .arr) hist = fg)
    {frcs : List (List (Nat × Nat × Nat))} (hfr : frcs.map List.length = sizes) {F H W : Nat} {bu : NDArr α} (hb : bu.WF)
    (hs : bu.shape = [F, H, W]) (hin : ∀ frc ∈ frcs, ∀ p ∈ frc, RcnInside hps vps F H W p) {ev : Var → Nat → α}
    (hsum : ∀ x ρ, Joint (graphVars (vars.map (.arr : NDVarArray → VGroup κ))) (fg.factors st.logPotentials) x ρ →
      jointScore (graphVars (vars.map (.arr : NDVarArray → VGroup κ))) (fg.factors st.logPotentials) ev x ρ =
        ∑ idx ∈ Finset.range frcs.length, deformScore hps vps bu (frcs.getD idx []) (fun i => x (cCell idV hps vps sizes idx i)))
    (hmap : ∀ v ∈ graphVars (vars.map (.arr : NDVarArray → VGroup κ)),
      ∃ x ρ, IsMAP (graphVars (vars.map (.arr : NDVarArray → VGroup κ))) (fg.factors st.logPotentials) ev x ρ)
    {rs : List (VGroup κ × GroupStates κ)} (hrs : rs.map (·.1) = vars.map .arr) {bel : Var → Nat → α} (hdec : ∀ p ∈ rs, p.1.Decodes bel p.2)
    (hstate : ∀ x ρ, IsMAP (graphVars (vars.map (.arr : NDVarArray → VGroup κ))) (fg.factors st.logPotentials) ev x ρ → ∀ p ∈ rs, ∀ v ∈ p.1.variables,
      (∀ x' ρ', IsMAP (graphVars (vars.map (.arr : NDVarArray → VGroup κ))) (fg.factors st.logPotentials) ev x' ρ' → x' v = x v) → p.1.StateIn v (x v) p.2) :
    ∃ es maps, frcs.mapM (fun frc => rcnEvidence hps vps bu (rcnInts frc)) = .ok es ∧ rs.map (·.2) = maps.map .arr ∧
      RcnExact hps vps bu frcs edges maps (rcnScores es maps) (rcnBestModel (rcnScores es maps)) := by
  obtain ⟨h1, h2⟩ := rcn_decoded_aux hid hF h hst hg hfr hb hs hin hsum hmap hrs hdec hstate
  have hn : frcs.length = sizes.length := by rw [← hfr, List.length_map]
  have he := mapM_ok (fun frc => rcnEvidence hps vps bu (rcnInts frc)) (fun frc => ⟨[frc.length, (2 * hps + 1) * (2 * vps + 1)], rcnEv hps vps bu frc⟩) _
    (fun frc hfrc => rcnEvidence_eq hb hs frc (hin frc hfrc))
  obtain ⟨maps, hmaps⟩ : ∃ maps : List (NDArr Nat), rs.map (·.2) = maps.map .arr := by
    have key : ∀ p ∈ rs, ∃ m : NDArr Nat, p.2 = .arr m := by
      rintro ⟨g, r⟩ hp
      have hg1 : g ∈ vars.map (.arr : NDVarArray → VGroup κ) := by
        rw [← hrs]
        exact List.mem_map.2 ⟨_, hp, rfl⟩
      obtain ⟨g', -, rfl⟩ := List.mem_map.1 hg1
      match r, hdec _ hp with
      | .arr a, _ => exact ⟨a, rfl⟩
      | .dict d, hd => exact hd.elim
    clear hrs hdec hstate h1 h2
    induction rs with
    | nil => exact ⟨[], rfl⟩
    | cons p rs ih =>
      obtain ⟨m, hm⟩ := key p (by simp)
      obtain ⟨ms, hms⟩ := ih (fun q hq => key q (by simp [hq]))
      exact ⟨m :: ms, by rw [List.map_cons, List.map_cons, hms, hm]⟩
  refine ⟨_, maps, he, hmaps, ?_, ?_⟩
  · intro idx frc hfrc y hy
    obtain ⟨k1, e, k2, k3⟩ := h1 idx frc hfrc y hy
    rw [hmaps, List.getElem?_map] at k1
    obtain ⟨m, k4, k5⟩ := Option.map_eq_some_iff.1 k1
    cases k5
    refine ⟨k4, ?_⟩
    rw [rcnEvidence_eq hb hs frc (hin frc (List.mem_of_getElem? hfrc))] at k2
    cases k2
    unfold rcnScores
    rw [List.getElem?_zipWith, List.getElem?_map, hfrc, k4]
    simp only [Option.map_some, Option.some.injEq]
    exact k3
  · intro y hne hy
    obtain ⟨es', maps', k1, k2, k3⟩ := h2 y hne hy
    rw [he] at k1
    cases k1
    have : maps = maps' := by
      rw [hmaps] at k2
      exact List.map_injective_iff.2 (fun a b e => by cases e; rfl) k2
    rw [this]
    exact k3

end
end PGMax
