import Verif.Props.C77
import Verif.Props.C78

/-! # How fast the RCN program finds the best deformations of networks that are trees -/

namespace PGMax

section
variable {κ α : Type} {idV : Nat → Nat} {idF : Nat → Nat → Nat} {hps vps : Nat} {sizes : List Nat} {edges : List (List (Nat × Nat × Nat))}

/-- What is connected with a variable belongs to its network. -/
theorem rcn_around [Field α] [LinearOrder α] [IsStrictOrderedRing α] (hid : ∀ i < sizes.length, ∀ j < sizes.length, idV i % 2 ^ 32 = idV j % 2 ^ 32 → i = j)
    (hok : RcnOk sizes edges) (hloop : ∀ es ∈ edges, ∀ e ∈ es, e.1 ≠ e.2.1) {scopes : List (List Var)}
    (hsc : scopes = (cEdges edges).map (fun q => [cCell idV hps vps sizes q.1 q.2.2.1, cCell idV hps vps sizes q.1 q.2.2.2.1]))
    {idx i : Nat} (hidx : idx < sizes.length) (hi : i < sizes.getD idx 0) {R : α} (hR : 0 ≤ R) (vars : Finset Var) :
    totalAround vars scopes (fun _ => R) (fun _ => 0) (cCell idV hps vps sizes idx i) ≤ ((sizes.getD idx 0 : α) - 1) * R := by
  classical
  have hnets := rcn_pairNets (hps := hps) (vps := vps) hid hok hloop hsc
  unfold totalAround
  rw [Finset.sum_const_zero, add_zero, Finset.sum_const, nsmul_eq_mul]
  refine mul_le_mul_of_nonneg_right ?_ hR
  have hsub : vars.filter (fun u => u ≠ cCell idV hps vps sizes idx i ∧ (bipartite scopes).Reachable (.inl u) (.inl (cCell idV hps vps sizes idx i))) ⊆
      ((Finset.range (sizes.getD idx 0)).erase i).image (cCell idV hps vps sizes idx) := by
    intro u hu
    obtain ⟨-, hne, hr⟩ := Finset.mem_filter.1 hu
    obtain ⟨w⟩ := hr.symm
    obtain ⟨f, ha, hr'⟩ : ∃ f, (bipartite scopes).Adj (.inl (cCell idV hps vps sizes idx i)) (.inr f) ∧ (bipartite scopes).Reachable (.inl u) (.inr f) := by
      match w with
      | .nil => exact absurd rfl hne
      | .cons (v := .inl _) ha _ => exact absurd ha bipartite_not_inl
      | .cons (v := .inr f) ha p => exact ⟨f, ha, p.reachable.symm⟩
    obtain ⟨q, hq, -⟩ := hnets.edge.1 (bipartite_adj.1 ha)
    obtain ⟨i', hi', e1, -⟩ := hnets.reach hq hr'
    obtain ⟨i'', hi'', e2, -⟩ := hnets.reach hq ha.reachable
    obtain ⟨b1, b2⟩ := isEnd_cPairs hok hi''
    obtain ⟨e3, e4⟩ := cCell_inj hid hok.small hidx b1 hi b2 e2
    rw [← e3] at e1 hi'
    refine Finset.mem_image.2 ⟨i', Finset.mem_erase.2 ⟨?_, Finset.mem_range.2 (isEnd_cPairs hok hi').2⟩, e1.symm⟩
    rintro rfl
    exact hne e1
  have hcard := (Finset.card_le_card hsub).trans Finset.card_image_le
  rw [Finset.card_erase_of_mem (Finset.mem_range.2 hi), Finset.card_range] at hcard
  exact (Nat.cast_le.2 hcard).trans (by rw [Nat.cast_sub (by omega), Nat.cast_one])

/-- The scores of deformations differ by multiples of `g`, if the entries do. -/
theorem deformScore_diff [Field α] {F H W : Nat} {bu : NDArr α} (hb : bu.WF) (hs : bu.shape = [F, H, W]) {frc : List (Nat × Nat × Nat)}
    (hin : ∀ p ∈ frc, RcnInside hps vps F H W p) {g : α} (hg : ∀ a ∈ bu.data, ∀ b ∈ bu.data, ∃ k : ℤ, a - b = k * g) {y y' : Nat → Nat}
    (hy : ∀ i < frc.length, y i < (2 * hps + 1) * (2 * vps + 1)) (hy' : ∀ i < frc.length, y' i < (2 * hps + 1) * (2 * vps + 1)) :
    ∃ k : ℤ, deformScore hps vps bu frc y - deformScore hps vps bu frc y' = k * g := by
  unfold deformScore
  rw [← Finset.sum_sub_distrib]
  refine Finset.sum_induction _ (fun x => ∃ k : ℤ, x = k * g) ?_ ⟨0, by simp⟩ ?_
  · rintro _ _ ⟨k, rfl⟩ ⟨l, rfl⟩
    exact ⟨k + l, by push_cast; ring⟩
  · intro i hi
    have hi := Finset.mem_range.1 hi
    have hp : frc.getD i (0, 0, 0) ∈ frc := by
      rw [List.getD, List.getElem?_eq_getElem hi, Option.getD_some]
      exact List.getElem_mem hi
    exact hg _ (read_mem hb hs (hin _ hp) (hy i hi)) _ (read_mem hb hs (hin _ hp) (hy' i hi))

theorem deformScore_gap [Field α] [LinearOrder α] [IsStrictOrderedRing α] {F H W : Nat} {bu : NDArr α} (hb : bu.WF) (hs : bu.shape = [F, H, W]) {frc : List (Nat × Nat × Nat)}
    (hin : ∀ p ∈ frc, RcnInside hps vps F H W p) {g : α} (hg0 : 0 < g) (hg : ∀ a ∈ bu.data, ∀ b ∈ bu.data, ∃ k : ℤ, a - b = k * g) {y y' : Nat → Nat}
    (hy : ∀ i < frc.length, y i < (2 * hps + 1) * (2 * vps + 1)) (hy' : ∀ i < frc.length, y' i < (2 * hps + 1) * (2 * vps + 1))
    (hlt : deformScore hps vps bu frc y' < deformScore hps vps bu frc y) : deformScore hps vps bu frc y' + g ≤ deformScore hps vps bu frc y := by
  obtain ⟨k, hk⟩ := deformScore_diff hb hs hin hg hy hy'
  have h1 : 0 < (k : α) * g := by rw [← hk]; exact sub_pos.2 hlt
  have h2 : 0 < (k : α) := pos_of_mul_pos_left h1 hg0.le
  have h3 : (1 : α) ≤ k := by
    have : 0 < k := by exact_mod_cast h2
    exact_mod_cast this
  have h4 : 1 * g ≤ k * g := mul_le_mul_of_nonneg_right h3 hg0.le
  linarith

/-- In a MAP assignment every network has a deformation with the largest score, and all such deformations are part of a MAP assignment. -/
theorem rcn_map_score [Field α] [LinearOrder α] [IsStrictOrderedRing α] (hid : ∀ i < sizes.length, ∀ j < sizes.length, idV i % 2 ^ 32 = idV j % 2 ^ 32 → i = j)
    (hF : ∀ a b c d, idF a b = idF c d → a = c ∧ b = d) {vars : List NDVarArray} {fg : FactorGraph κ α}
    (h : rcn idV idF hps vps sizes edges = .ok (vars, fg)) {hist : List (AddArg α)} {garbage : Garbage} {st : FGState κ α}
    (hst : Compiled (vars.map .arr) hist garbage st) (hg : graphOf (vars.map .arr) hist = fg)
    {frcs : List (List (Nat × Nat × Nat))} (hfr : frcs.map List.length = sizes) {bu : NDArr α} {ev : Var → Nat → α}
    (hsum : ∀ x ρ, Joint (graphVars (vars.map (.arr : NDVarArray → VGroup κ))) (fg.factors st.logPotentials) x ρ →
      jointScore (graphVars (vars.map (.arr : NDVarArray → VGroup κ))) (fg.factors st.logPotentials) ev x ρ =
        ∑ idx ∈ Finset.range frcs.length, deformScore hps vps bu (frcs.getD idx []) (fun i => x (cCell idV hps vps sizes idx i)))
    {x : Var → Nat} {ρ : Nat → List Nat × α}
    (hx : IsMAP (graphVars (vars.map (.arr : NDVarArray → VGroup κ))) (fg.factors st.logPotentials) ev x ρ)
    {idx : Nat} {frc : List (Nat × Nat × Nat)} (hfrc : frcs[idx]? = some frc) {y : Nat → Nat} (hy : RcnFeasible hps vps frc.length (edges.getD idx []) y) :
    deformScore hps vps bu frc y ≤ deformScore hps vps bu frc (fun i => x (cCell idV hps vps sizes idx i)) ∧
    (deformScore hps vps bu frc y = deformScore hps vps bu frc (fun i => x (cCell idV hps vps sizes idx i)) →
      ∃ x' ρ', IsMAP (graphVars (vars.map (.arr : NDVarArray → VGroup κ))) (fg.factors st.logPotentials) ev x' ρ' ∧ ∀ i < frc.length, x' (cCell idV hps vps sizes idx i) = y i) := by
  classical
  have hok := (C71_inputs (κ := κ) (α := α) (idF := idF) (hps := hps) (vps := vps) (edges := edges) hid).1.1 ⟨_, h⟩
  have hn : frcs.length = sizes.length := by rw [← hfr, List.length_map]
  have hidx : idx < sizes.length := by rw [← hn]; exact (List.getElem?_eq_some_iff.1 hfrc).1
  have hf : frcs.getD idx [] = frc := by rw [List.getD, hfrc, Option.getD_some]
  have hlen : frc.length = sizes.getD idx 0 := by
    rw [← hfr, List.getD, List.getElem?_map, hfrc]
    rfl
  have hfeas := (rcn_joint hid hF h hst hg x).1 ⟨ρ, hx.1⟩
  -- the states of the network replaced
  let x' : Var → Nat := fun v => if hv : ∃ i, i < frc.length ∧ v = cCell idV hps vps sizes idx i then y hv.choose else x v
  have hx'1 : ∀ i < frc.length, x' (cCell idV hps vps sizes idx i) = y i := by
    intro i hi
    have hv : ∃ i', i' < frc.length ∧ cCell idV hps vps sizes idx i = cCell idV hps vps sizes idx i' := ⟨i, hi, rfl⟩
    have e : x' (cCell idV hps vps sizes idx i) = y hv.choose := dif_pos hv
    obtain ⟨-, e2⟩ := cCell_inj hid hok.small hidx hidx (by rw [← hlen]; exact hi) (by rw [← hlen]; exact hv.choose_spec.1) hv.choose_spec.2
    rw [e, ← e2]
  have hx'2 : ∀ k < sizes.length, k ≠ idx → ∀ i < sizes.getD k 0, x' (cCell idV hps vps sizes k i) = x (cCell idV hps vps sizes k i) := by
    intro k hk hne i hi
    refine dif_neg ?_
    rintro ⟨i', hi', e⟩
    exact hne (cCell_inj hid hok.small hk hidx hi (by rw [← hlen]; exact hi') e).1
  have hJ : ∃ ρ', Joint (graphVars (vars.map (.arr : NDVarArray → VGroup κ))) (fg.factors st.logPotentials) x' ρ' := by
    refine (rcn_joint hid hF h hst hg x').2 fun k hk => ?_
    by_cases hki : k = idx
    · subst hki
      obtain ⟨y1, y2⟩ := hy
      refine ⟨fun i hi => ?_, fun e he => ?_⟩
      · simp only
        rw [hx'1 i (by rw [hlen]; exact hi)]
        exact y1 i (by rw [hlen]; exact hi)
      · obtain ⟨k1, k2, -⟩ := hok.ends k (by rw [← hok.len]; exact hk) e he
        simp only
        rw [hx'1 _ (by rw [hlen]; exact k1), hx'1 _ (by rw [hlen]; exact k2)]
        exact y2 e he
    · refine ⟨fun i hi => ?_, fun e he => ?_⟩
      · simp only
        rw [hx'2 k hk hki i hi]
        exact (hfeas k hk).1 i hi
      · obtain ⟨k1, k2, -⟩ := hok.ends k (by rw [← hok.len]; exact hk) e he
        simp only
        rw [hx'2 k hk hki _ k1, hx'2 k hk hki _ k2]
        exact (hfeas k hk).2 e he
  obtain ⟨ρ', hJ⟩ := hJ
  have hmem : idx ∈ Finset.range frcs.length := Finset.mem_range.2 (by omega)
  have hrest : ∑ k ∈ (Finset.range frcs.length).erase idx, deformScore hps vps bu (frcs.getD k []) (fun i => x' (cCell idV hps vps sizes k i)) =
      ∑ k ∈ (Finset.range frcs.length).erase idx, deformScore hps vps bu (frcs.getD k []) (fun i => x (cCell idV hps vps sizes k i)) := by
    refine Finset.sum_congr rfl fun k hk => ?_
    obtain ⟨hne, hk⟩ := Finset.mem_erase.1 hk
    have hk := Finset.mem_range.1 hk
    refine deformScore_congr fun i hi => ?_
    refine hx'2 k (by omega) hne i ?_
    rw [← hfr, List.getD, List.getElem?_map, List.getElem?_eq_getElem hk]
    rw [List.getD, List.getElem?_eq_getElem hk] at hi
    exact hi
  have e' := hsum x' ρ' hJ
  have e := hsum x ρ hx.1
  rw [← Finset.add_sum_erase _ _ hmem, hf] at e e'
  rw [hrest, deformScore_congr hx'1] at e'
  have hle := hx.2 x' ρ' hJ
  refine ⟨by linarith, fun heq => ⟨x', ρ', ⟨hJ, fun x'' ρ'' h'' => (hx.2 x'' ρ'' h'').trans (by linarith)⟩, hx'1⟩⟩

/-- A joint assignment that differs from all MAP assignments in a variable is worse by `g`, if the scores of deformations differ by multiples of `g`. -/
theorem rcn_map_gap [Field α] [LinearOrder α] [IsStrictOrderedRing α] (hid : ∀ i < sizes.length, ∀ j < sizes.length, idV i % 2 ^ 32 = idV j % 2 ^ 32 → i = j)
    (hF : ∀ a b c d, idF a b = idF c d → a = c ∧ b = d) {vars : List NDVarArray} {fg : FactorGraph κ α}
    (h : rcn idV idF hps vps sizes edges = .ok (vars, fg)) {hist : List (AddArg α)} {garbage : Garbage} {st : FGState κ α}
    (hst : Compiled (vars.map .arr) hist garbage st) (hg : graphOf (vars.map .arr) hist = fg)
    {frcs : List (List (Nat × Nat × Nat))} (hfr : frcs.map List.length = sizes) {F H W : Nat} {bu : NDArr α} (hb : bu.WF)
    (hs : bu.shape = [F, H, W]) (hin : ∀ frc ∈ frcs, ∀ p ∈ frc, RcnInside hps vps F H W p) {ev : Var → Nat → α}
    {gap : α} (hg0 : 0 < gap) (hgap : ∀ a ∈ bu.data, ∀ b ∈ bu.data, ∃ k : ℤ, a - b = k * gap)
    (hsum : ∀ x ρ, Joint (graphVars (vars.map (.arr : NDVarArray → VGroup κ))) (fg.factors st.logPotentials) x ρ →
      jointScore (graphVars (vars.map (.arr : NDVarArray → VGroup κ))) (fg.factors st.logPotentials) ev x ρ =
        ∑ idx ∈ Finset.range frcs.length, deformScore hps vps bu (frcs.getD idx []) (fun i => x (cCell idV hps vps sizes idx i)))
    {x : Var → Nat} {ρ : Nat → List Nat × α}
    (hx : IsMAP (graphVars (vars.map (.arr : NDVarArray → VGroup κ))) (fg.factors st.logPotentials) ev x ρ)
    {idx i : Nat} (hidx : idx < sizes.length) (hi : i < sizes.getD idx 0)
    (huniq : ∀ x' ρ', IsMAP (graphVars (vars.map (.arr : NDVarArray → VGroup κ))) (fg.factors st.logPotentials) ev x' ρ' →
      x' (cCell idV hps vps sizes idx i) = x (cCell idV hps vps sizes idx i))
    {x' : Var → Nat} {ρ' : Nat → List Nat × α} (hJ : Joint (graphVars (vars.map (.arr : NDVarArray → VGroup κ))) (fg.factors st.logPotentials) x' ρ')
    (hne : x' (cCell idV hps vps sizes idx i) ≠ x (cCell idV hps vps sizes idx i)) :
    jointScore (graphVars (vars.map (.arr : NDVarArray → VGroup κ))) (fg.factors st.logPotentials) ev x' ρ' + gap ≤
      jointScore (graphVars (vars.map (.arr : NDVarArray → VGroup κ))) (fg.factors st.logPotentials) ev x ρ := by
  have hn : frcs.length = sizes.length := by rw [← hfr, List.length_map]
  have hget : ∀ k < frcs.length, frcs[k]? = some (frcs.getD k []) := by
    intro k hk
    rw [List.getD, List.getElem?_eq_getElem hk, Option.getD_some]
  have hlen : ∀ k < frcs.length, (frcs.getD k []).length = sizes.getD k 0 := by
    intro k hk
    rw [← hfr, List.getD, List.getD, List.getElem?_map, List.getElem?_eq_getElem hk]
    rfl
  have hfeas := (rcn_joint hid hF h hst hg x).1 ⟨ρ, hx.1⟩
  have hfeas' := (rcn_joint hid hF h hst hg x').1 ⟨ρ', hJ⟩
  have key := fun k (hk : k < frcs.length) => rcn_map_score hid hF h hst hg hfr hsum hx (hget k hk) (y := fun i => x' (cCell idV hps vps sizes k i)) (by
    rw [hlen k hk]
    exact hfeas' k (by omega))
  have hk : idx < frcs.length := by omega
  have hlt : deformScore hps vps bu (frcs.getD idx []) (fun i => x' (cCell idV hps vps sizes idx i)) <
      deformScore hps vps bu (frcs.getD idx []) (fun i => x (cCell idV hps vps sizes idx i)) := by
    refine lt_of_le_of_ne (key idx hk).1 fun heq => ?_
    obtain ⟨x'', ρ'', h1, h2⟩ := (key idx hk).2 heq
    exact hne ((h2 i (by rw [hlen idx hk]; exact hi)).symm.trans (huniq x'' ρ'' h1))
  have hstep := deformScore_gap hb hs (hin _ (List.mem_of_getElem? (hget idx hk))) hg0 hgap
    (by rw [hlen idx hk]; exact (hfeas idx hidx).1) (by rw [hlen idx hk]; exact (hfeas' idx hidx).1) hlt
  rw [hsum x' ρ' hJ, hsum x ρ hx.1, ← Finset.add_sum_erase _ _ (Finset.mem_range.2 hk), ← Finset.add_sum_erase _ _ (Finset.mem_range.2 hk)]
  have := Finset.sum_le_sum (s := (Finset.range frcs.length).erase idx) fun k hk => (key k (Finset.mem_range.1 (Finset.mem_erase.1 hk).2)).1
  linarith

/-- The steps of the program, with damping and a given number of iterations. -/
theorem rcn_tree_run_rate [Field α] [LinearOrder α] [IsStrictOrderedRing α] [DecidableEq κ]
    (hid : ∀ i < sizes.length, ∀ j < sizes.length, idV i % 2 ^ 32 = idV j % 2 ^ 32 → i = j)
    (hF : ∀ a b c d, idF a b = idF c d → a = c ∧ b = d) {vars : List NDVarArray} {fg : FactorGraph κ α}
    (h : rcn idV idF hps vps sizes edges = .ok (vars, fg)) {hist : List (AddArg α)} {garbage : Garbage} {st : FGState κ α}
    (hst : Compiled (vars.map .arr) hist garbage st) (hg : graphOf (vars.map .arr) hist = fg)
    {frcs : List (List (Nat × Nat × Nat))} (hfr : frcs.map List.length = sizes) (hpos : ∀ n ∈ sizes, 1 ≤ n) {F H W : Nat} {bu : NDArr α} (hb : bu.WF)
    (hs : bu.shape = [F, H, W]) (hin : ∀ frc ∈ frcs, ∀ p ∈ frc, RcnInside hps vps F H W p)
    {stateId : Nat} {state : BPState α} {bp : BPFun κ α} (hstate : bpStateOf stateId st = .ok state) (hbp : BP.create st state 0 = .ok bp)
    (env : Env α) (hfit : Fits env fg (0 : α)) (hM : 1 ≤ hps + vps)
    (hloop : ∀ es ∈ edges, ∀ e ∈ es, e.1 ≠ e.2.1) (htree : ∀ es ∈ edges, (rcnNet es).IsAcyclic)
    (K : Nat) (hK : 0 < K) (hdiam : ∀ es ∈ edges, ∀ i j, (rcnNet es).dist i j ≤ K) {d : α} (hd : 0 ≤ d ∧ d ≤ 1 / 2) (n : Nat) {R B D g : α}
    (hR : ∀ a ∈ bu.data, ∀ b ∈ bu.data, a - b ≤ R) (hsize : ∀ n ∈ sizes, n * R < 1000)
    (hB : ∀ a ∈ bu.data, |a| ≤ B) (hdeg : ∀ es ∈ edges, ∀ i, ((es.filter (fun e => e.1 = i ∨ e.2.1 = i)).length : α) ≤ D) (hnum : 2 * (B + 1000 * D) ≤ 97000)
    (hg0 : 0 < g) (hgap : ∀ a ∈ bu.data, ∀ b ∈ bu.data, ∃ k : ℤ, a - b = k * g) (hrate : ∀ m ∈ sizes, ((m : α) - 1) * R * lag d n K < g) :
    ∃ ups, rcnUpdates hps vps vars (frcs.map rcnInts) bu = .ok ups ∧ ∀ ups', ups'.Perm ups →
      ∃ arrs bs rs, bp.update none none none (some ups') = .ok arrs ∧ bp.getBeliefs (bp.runBP env arrs n d) = .ok bs ∧ decodeMapStates bs = .ok rs ∧
        rs.map (·.1) = vars.map .arr ∧
        ∃ es maps, frcs.mapM (fun frc => rcnEvidence hps vps bu (rcnInts frc)) = .ok es ∧ rs.map (·.2) = maps.map .arr ∧
          RcnExact hps vps bu frcs edges maps (rcnScores es maps) (rcnBestModel (rcnScores es maps)) := by
  have hok := (C71_inputs (κ := κ) (α := α) (idF := idF) (hps := hps) (vps := vps) (edges := edges) hid).1.1 ⟨_, h⟩
  obtain ⟨hvars, hist', st', hg', hst', -, hscopes, -⟩ := rcn_build hid hF h garbage
  clear hg' hst' hist' st'
  obtain ⟨hreg, hstd⟩ := rcn_groups (κ := κ) (hps := hps) (vps := vps) hid hpos hM
  rw [← hvars] at hreg hstd
  have hn' : frcs.length = sizes.length := by rw [← hfr, List.length_map]
  obtain ⟨ups, hu, hall⟩ := C75_model hid hF h hst hg (cell := fun idx => uniCell (idV idx) [sizes.getD idx 0] (cStates hps vps)) (by
      intro idx g hidx
      rw [hvars, List.getElem?_map] at hidx
      obtain ⟨i, hi, rfl⟩ := Option.map_eq_some_iff.1 hidx
      obtain ⟨h1, h2⟩ := List.getElem?_eq_some_iff.1 hi
      rw [List.getElem_range] at h2
      subst h2
      exact isArr_uniArr _ _ _ (by simp)) hfr hpos hb hs hin hstate hbp
  refine ⟨ups, hu, fun ups' hperm => ?_⟩
  obtain ⟨arrs, ha, hlp, hm, hel, hread, hsc⟩ := hall ups' hperm
  have hval : ∀ idx < sizes.length, ∀ i < sizes.getD idx 0, ∀ s < cStates hps vps,
      readEv st.varsToStarts arrs.evidence (cCell idV hps vps sizes idx i) s ∈ bu.data := by
    intro idx hidx i hi s hs'
    obtain ⟨frc, hf⟩ : ∃ frc, frcs[idx]? = some frc := ⟨_, List.getElem?_eq_getElem (by omega)⟩
    have hlen : frc.length = sizes.getD idx 0 := by
      rw [← hfr, List.getD, List.getElem?_map, hf]
      rfl
    obtain ⟨p, hp⟩ : ∃ p, frc[i]? = some p := ⟨_, List.getElem?_eq_getElem (by rw [hlen]; exact hi)⟩
    have := hread idx _ hf i _ hp s hs'
    rw [cCell, this]
    exact read_mem hb hs (hin _ (List.mem_of_getElem? hf) _ (List.mem_of_getElem? hp)) hs'
  obtain ⟨f1, f2, f3, f4, f5, f6, f7, f8⟩ := rcn_facts (B := B) (D := D) (R := R) (d := d) hid hF h hst hg hloop htree
    (fun idx h1 i h2 s h3 t h4 => hR _ (hval idx h1 i h2 s h3) _ (hval idx h1 i h2 t h4)) hsize
    (fun idx h1 i h2 s h3 => hB _ (hval idx h1 i h2 s h3)) hdeg hd hnum
  subst hg
  rw [← hlp] at f3 f6
  have hpos' := hst.states_pos hstd
  have g1 := (C76_decode_partial hst hbp env hfit arrs K (by rw [hlp]) hel hm f6.undamped f7 f1 f2 (fun f F hF _ => (f3 f F hF).1)
    (fun _ => R) (fun _ => 0) f4 (fun f F hF => (f3 f F hF).2) f5 (f8 K hK hdiam) hreg hstd).1
  obtain ⟨bs, rs, g2, g3, g4, g5⟩ := C78_decode_partial hst hbp env hfit arrs n d (by rw [hlp]) hel hm f6 f7 f1 f2 (fun f F hF _ => (f3 f F hF).1)
    (fun _ => R) (fun _ => 0) f4 (fun f F hF => (f3 f F hF).2) f5 K hreg hstd _ (fun _ => rfl)
  obtain ⟨-, hlen, -⟩ := hst.zero_msgs hm hpos'
  have hrl := (hst.run_read hbp env hfit arrs d (by rw [hlp]) hel n hlen).1
  obtain ⟨bs', rs', k1, k2, k3, k4⟩ := C35_partial hst hbp (bp.runBP env arrs n d) hrl hel hreg hstd
  rw [g2] at k1
  cases k1
  rw [g3] at k2
  cases k2
  rw [hlp] at g1 g5 hsc
  refine ⟨arrs, bs, rs, ha, g2, g3, g4, rcn_decoded hid hF h hst rfl hfr hb hs hin (fun x ρ hx => (hsc x ρ hx).1) ?_ g4 k4 ?_⟩
  · intro v hv
    obtain ⟨c, start, -, hM'⟩ := g1 v hv
    exact hM'.exists_map hv (hpos' v hv)
  · intro x ρ hx p hp v hv huniq
    refine g5 x ρ hx p hp v hv (f8 K hK hdiam v) fun x' ρ' hJ hne => ?_
    have hvv : v ∈ graphVars (vars.map (.arr : NDVarArray → VGroup κ)) :=
      mem_graphVars.2 ⟨p.1, by rw [← g4]; exact List.mem_map_of_mem (f := Prod.fst) hp, hv⟩
    rw [hvars] at hvv
    obtain ⟨idx, hidx, i, hi, rfl⟩ := (mem_cVgs v).1 hvv
    have h1 := rcn_map_gap hid hF h hst rfl hfr hb hs hin hg0 hgap (fun x ρ hx => (hsc x ρ hx).1) hx hidx hi huniq hJ hne
    have hM0 : 0 < cStates hps vps := Nat.mul_pos (by omega) (by omega)
    have hR0 : 0 ≤ R := by
      have := hR _ (hval idx hidx i hi 0 hM0) _ (hval idx hidx i hi 0 hM0)
      rwa [sub_self] at this
    have h2 := mul_le_mul_of_nonneg_right (rcn_around (hps := hps) (vps := vps) hid hok hloop hscopes hidx hi hR0
      (graphVars (vars.map (.arr : NDVarArray → VGroup κ)))) (lag_nonneg (d := d) ⟨hd.1, by linarith [hd.2]⟩ n K)
    have h3 := hrate (sizes.getD idx 0) (by
      rw [List.getD, List.getElem?_eq_getElem hidx]
      exact List.getElem_mem hidx)
    linarith

end

end PGMax
