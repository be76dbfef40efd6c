import Verif.Lemmas.RcnTree
import Verif.Props.C59

/-! # C77: the RCN program on networks that are trees -/

namespace PGMax

section
variable {κ α : Type} {idV : Nat → Nat} {idF : Nat → Nat → Nat} {hps vps : Nat} {sizes : List Nat} {edges : List (List (Nat × Nat × Nat))}

theorem read_mem [Zero α] {F H W : Nat} {bu : NDArr α} (hb : bu.WF) (hs : bu.shape = [F, H, W]) {p : Nat × Nat × Nat} (hp : RcnInside hps vps F H W p) {s : Nat}
    (hss : s < (2 * hps + 1) * (2 * vps + 1)) : bu.read [p.1, p.2.1 - hps + s / (2 * vps + 1), p.2.2 - vps + s % (2 * vps + 1)] ∈ bu.data := by
  obtain ⟨h1, h2, h3, h4, h5⟩ := hp
  have k1 : s / (2 * vps + 1) < 2 * hps + 1 := Nat.div_lt_of_lt_mul (by rw [Nat.mul_comm]; exact hss)
  have k2 : s % (2 * vps + 1) < 2 * vps + 1 := Nat.mod_lt _ (by omega)
  generalize s / (2 * vps + 1) = u at *
  generalize s % (2 * vps + 1) = w at *
  have hlt := rowMajor_lt [F, H, W] [p.1, p.2.1 - hps + u, p.2.2 - vps + w] (by
    refine .cons h1 (.cons (by omega) (.cons (by omega) .nil)))
  unfold NDArr.read
  rw [hs, List.getD, List.getElem?_eq_getElem (by rw [NDArr.WF] at hb; rw [hb, hs]; exact hlt), Option.getD_some]
  exact List.getElem_mem _

/-- The groups of the program. -/
theorem rcn_groups (hid : ∀ i < sizes.length, ∀ j < sizes.length, idV i % 2 ^ 32 = idV j % 2 ^ 32 → i = j) (hpos : ∀ n ∈ sizes, 1 ≤ n) (hM : 1 ≤ hps + vps) :
    (∀ g ∈ (cVars idV hps vps sizes).map (.arr : NDVarArray → VGroup κ), g.Regular) ∧ ∀ g ∈ (cVars idV hps vps sizes).map (.arr : NDVarArray → VGroup κ), g.Stated := by
  have hM2 : 2 ≤ cStates hps vps := by
    unfold cStates
    rcases Nat.eq_zero_or_pos hps with rfl | hp
    · omega
    · calc 2 ≤ (2 * hps + 1) * 1 := by omega
        _ ≤ _ := Nat.mul_le_mul_left _ (by omega)
  have key : ∀ g ∈ (cVars idV hps vps sizes).map (.arr : NDVarArray → VGroup κ), ∃ id n, 1 ≤ n ∧ g = .arr (uniArr id [n] (cStates hps vps)) := by
    intro g hg
    obtain ⟨g', hg', rfl⟩ := List.mem_map.1 hg
    obtain ⟨idx, hidx, rfl⟩ := List.mem_map.1 hg'
    refine ⟨_, _, hpos _ ?_, rfl⟩
    rw [List.getD, List.getElem?_eq_getElem (List.mem_range.1 hidx)]
    exact List.getElem_mem _
  constructor
  · intro g hg
    obtain ⟨id, n, hn, rfl⟩ := key g hg
    intro hsum
    simp only [uniArr, List.sum_replicate, List.length_replicate, List.prod_cons, List.prod_nil, Nat.mul_one, smul_eq_mul] at hsum
    have : n * cStates hps vps ≥ n * 2 := Nat.mul_le_mul_left _ hM2
    omega
  · intro g hg
    obtain ⟨id, n, hn, rfl⟩ := key g hg
    refine ⟨fun m hm => ?_, cStates hps vps, ?_, by omega⟩
    · have := (List.mem_replicate.1 hm).2
      omega
    · simp only [uniArr, List.prod_cons, List.prod_nil, Nat.mul_one]
      exact List.mem_replicate.2 ⟨by omega, rfl⟩

/-- The pieces of the program, put together. -/
theorem rcnInfer_eq [Field α] [LinearOrder α] [DecidableEq κ] {env : Env α} {garbage : Garbage} {stateId : Nat} {frcs : List (List (Nat × Nat × Nat))} (hfr : frcs.map List.length = sizes)
    {vars : List NDVarArray} {fg : FactorGraph κ α} (h : rcn idV idF hps vps sizes edges = .ok (vars, fg)) {st : FGState κ α} (hc : fg.fgState garbage = .ok st)
    {state : BPState α} (hstate : bpStateOf stateId st = .ok state) {bp : BPFun κ α} (hbp : BP.create st state 0 = .ok bp) {bu : NDArr α} {ups : List (EvidenceUpdate κ α)}
    (hu : rcnUpdates hps vps vars (frcs.map rcnInts) bu = .ok ups) {arrs : BPArrays α} (ha : bp.update none none none (some ups) = .ok arrs) {n : Nat} {d : α}
    {bs : List (VGroup κ × GroupBeliefs κ α)} (hbs : bp.getBeliefs (bp.runBP env arrs n d) = .ok bs) {rs : List (VGroup κ × GroupStates κ)} (hrs : decodeMapStates bs = .ok rs)
    {es : List (NDArr α)} (he : frcs.mapM (fun frc => rcnEvidence hps vps bu (rcnInts frc)) = .ok es) :
    rcnInfer κ env idV idF garbage stateId hps vps (frcs.map rcnInts) edges bu n d =
      .ok (rs.filterMap (fun p => p.2.arr?), rcnScores es (rs.filterMap (fun p => p.2.arr?)), rcnBestModel (rcnScores es (rs.filterMap (fun p => p.2.arr?)))) := by
  have e1 : (frcs.map rcnInts).map List.length = sizes := by
    rw [← hfr, List.map_map]
    refine List.map_congr_left fun frc _ => ?_
    simp [rcnInts]
  have e2 : (frcs.map rcnInts).mapM (rcnEvidence hps vps bu) = .ok es := by
    rw [List.mapM_map, ← he]
    rfl
  unfold rcnInfer
  rw [e1, h, py_ok_bind]
  simp only
  rw [hc, py_ok_bind, hstate, py_ok_bind, hbp, py_ok_bind, hu, py_ok_bind, ha, py_ok_bind, hbs, py_ok_bind, hrs, py_ok_bind, e2, py_ok_bind]
  rfl

/-- The graph of the program has no OR and AND factors, and `2 * M` states of edges for every edge of a network. -/
theorem rcn_fits [Field α] [LinearOrder α] (hid : ∀ i < sizes.length, ∀ j < sizes.length, idV i % 2 ^ 32 = idV j % 2 ^ 32 → i = j)
    (hF : ∀ a b c d, idF a b = idF c d → a = c ∧ b = d) {vars : List NDVarArray} {fg : FactorGraph κ α} (h : rcn idV idF hps vps sizes edges = .ok (vars, fg)) {env : Env α}
    (hw : env.wrapNeg = false ∨ (2 * (edges.map List.length).sum + 1) * ((2 * hps + 1) * (2 * vps + 1)) ≤ 100000) (T : α) : Fits env fg T := by
  obtain ⟨-, hist, st, hg, hst, -, hsc, -, hfac, -⟩ := rcn_build hid hF h (fun _ _ => 0)
  constructor
  · rcases hw with hw | hw
    · exact .inl hw
    right
    intro f i v he
    have hlen : (cEdges edges).length = (edges.map List.length).sum := by
      unfold cEdges
      rw [List.length_flatMap]
      congr 1
      refine List.ext_getElem? fun k => ?_
      rw [List.getElem?_map, List.getElem?_map]
      by_cases hk : k < edges.length
      · rw [List.getElem?_eq_getElem (by simpa using hk), List.getElem?_eq_getElem hk]
        simp [List.getD, List.getElem?_eq_getElem hk]
      · rw [List.getElem?_eq_none (by simpa using hk), List.getElem?_eq_none (by omega)]
        rfl
    rw [hsc] at he ⊢
    obtain ⟨vs, h1, h2⟩ := he
    obtain ⟨q, -, rfl⟩ := List.mem_map.1 (List.mem_of_getElem? h1)
    have hv : v.n = cStates hps vps := by
      have := List.mem_of_getElem? h2
      simp only [List.mem_cons, List.not_mem_nil, or_false] at this
      rcases this with rfl | rfl <;> rfl
    rw [List.map_map, List.map_congr_left (g := fun _ => 2 * cStates hps vps) (fun q _ => by simp [cCell, uniCell]; omega), List.map_const', List.sum_replicate, hlen, hv,
      smul_eq_mul]
    unfold cStates
    generalize (2 * hps + 1) * (2 * vps + 1) = M at *
    calc _ = (2 * (edges.map List.length).sum + 1) * M := by ring
      _ ≤ _ := hw
  · intro _
    have := congrArg List.length (hfac [])
    unfold FactorGraph.factors at this
    simp only [List.length_append, List.length_map] at this
    have h1 : fg.scopesOf .or = [] := List.eq_nil_of_length_eq_zero (by omega)
    have h2 : fg.scopesOf .and = [] := List.eq_nil_of_length_eq_zero (by omega)
    simp [FactorGraph.numParents, h1, h2]

/-- The steps of the program, without damping. -/
theorem rcn_tree_run [Field α] [LinearOrder α] [IsStrictOrderedRing α] [DecidableEq κ]
    (hid : ∀ i < sizes.length, ∀ j < sizes.length, idV i % 2 ^ 32 = idV j % 2 ^ 32 → i = j)
    (hF : ∀ a b c d, idF a b = idF c d → a = c ∧ b = d) {vars : List NDVarArray} {fg : FactorGraph κ α}
    (h : rcn idV idF hps vps sizes edges = .ok (vars, fg)) {hist : List (AddArg α)} {garbage : Garbage} {st : FGState κ α}
    (hst : Compiled (vars.map .arr) hist garbage st) (hg : graphOf (vars.map .arr) hist = fg)
    {frcs : List (List (Nat × Nat × Nat))} (hfr : frcs.map List.length = sizes) (hpos : ∀ n ∈ sizes, 1 ≤ n) {F H W : Nat} {bu : NDArr α} (hb : bu.WF)
    (hs : bu.shape = [F, H, W]) (hin : ∀ frc ∈ frcs, ∀ p ∈ frc, RcnInside hps vps F H W p)
    {stateId : Nat} {state : BPState α} {bp : BPFun κ α} (hstate : bpStateOf stateId st = .ok state) (hbp : BP.create st state 0 = .ok bp)
    (env : Env α) (hfit : Fits env fg (0 : α)) (hM : 1 ≤ hps + vps)
    (hloop : ∀ es ∈ edges, ∀ e ∈ es, e.1 ≠ e.2.1) (htree : ∀ es ∈ edges, (rcnNet es).IsAcyclic)
    (n : Nat) (hn : 0 < n) (hdiam : ∀ es ∈ edges, ∀ i j, (rcnNet es).dist i j ≤ n) {R B D : α}
    (hR : ∀ a ∈ bu.data, ∀ b ∈ bu.data, a - b ≤ R) (hsize : ∀ n ∈ sizes, n * R < 1000)
    (hB : ∀ a ∈ bu.data, |a| ≤ B) (hdeg : ∀ es ∈ edges, ∀ i, ((es.filter (fun e => e.1 = i ∨ e.2.1 = i)).length : α) ≤ D) (hnum : 2 * (B + 1000 * D) ≤ 97000) :
    ∃ ups, rcnUpdates hps vps vars (frcs.map rcnInts) bu = .ok ups ∧ ∀ ups', ups'.Perm ups →
      ∃ arrs bs rs, bp.update none none none (some ups') = .ok arrs ∧ bp.getBeliefs (bp.runBP env arrs n 0) = .ok bs ∧ decodeMapStates bs = .ok rs ∧
        rs.map (·.1) = vars.map .arr ∧
        ∃ es maps, frcs.mapM (fun frc => rcnEvidence hps vps bu (rcnInts frc)) = .ok es ∧ rs.map (·.2) = maps.map .arr ∧
          RcnExact hps vps bu frcs edges maps (rcnScores es maps) (rcnBestModel (rcnScores es maps)) := by
  have hvars := (rcn_build hid hF h garbage).1
  obtain ⟨hreg, hstd⟩ := rcn_groups (κ := κ) (hps := hps) (vps := vps) hid hpos hM
  rw [← hvars] at hreg hstd
  have hn' : frcs.length = sizes.length := by rw [← hfr, List.length_map]
  obtain ⟨ups, hu, hall⟩ := C75_model hid hF h hst hg (cell := fun idx => uniCell (idV idx) [sizes.getD idx 0] (cStates hps vps)) (by
      intro idx g hidx
      rw [hvars, List.getElem?_map] at hidx
      obtain ⟨i, hi, rfl⟩ := Option.map_eq_some_iff.1 hidx
      obtain ⟨h1, h2⟩ := List.getElem?_eq_some_iff.1 hi
      rw [List.getElem_range] at h2
      subst h2
      exact isArr_uniArr _ _ _ (by simp)) hfr hpos hb hs hin hstate hbp
  refine ⟨ups, hu, fun ups' hperm => ?_⟩
  obtain ⟨arrs, ha, hlp, hm, hel, hread, hsc⟩ := hall ups' hperm
  have hval : ∀ idx < sizes.length, ∀ i < sizes.getD idx 0, ∀ s < cStates hps vps,
      readEv st.varsToStarts arrs.evidence (cCell idV hps vps sizes idx i) s ∈ bu.data := by
    intro idx hidx i hi s hs'
    obtain ⟨frc, hf⟩ : ∃ frc, frcs[idx]? = some frc := ⟨_, List.getElem?_eq_getElem (by omega)⟩
    have hlen : frc.length = sizes.getD idx 0 := by
      rw [← hfr, List.getD, List.getElem?_map, hf]
      rfl
    obtain ⟨p, hp⟩ : ∃ p, frc[i]? = some p := ⟨_, List.getElem?_eq_getElem (by rw [hlen]; exact hi)⟩
    have := hread idx _ hf i _ hp s hs'
    rw [cCell, this]
    exact read_mem hb hs (hin _ (List.mem_of_getElem? hf) _ (List.mem_of_getElem? hp)) hs'
  obtain ⟨f1, f2, f3, f4, f5, f6, f7, f8⟩ := rcn_facts (B := B) (D := D) (R := R) (d := 0) hid hF h hst hg hloop htree
    (fun idx h1 i h2 s h3 t h4 => hR _ (hval idx h1 i h2 s h3) _ (hval idx h1 i h2 t h4)) hsize
    (fun idx h1 i h2 s h3 => hB _ (hval idx h1 i h2 s h3)) hdeg ⟨le_rfl, by norm_num⟩ hnum
  subst hg
  rw [← hlp] at f3 f6
  obtain ⟨g1, bs, rs, g2, g3, g4, g5⟩ := C76_decode_partial hst hbp env hfit arrs n (by rw [hlp]) hel hm f6 f7 f1 f2 (fun f F hF _ => (f3 f F hF).1)
    (fun _ => R) (fun _ => 0) f4 (fun f F hF => (f3 f F hF).2) f5 (f8 n hn hdiam) hreg hstd
  have hpos' := hst.states_pos hstd
  obtain ⟨-, hlen, -⟩ := hst.zero_msgs hm hpos'
  have hrl := (hst.run_read hbp env hfit arrs 0 (by rw [hlp]) hel n hlen).1
  obtain ⟨bs', rs', k1, k2, k3, k4⟩ := C35_partial hst hbp (bp.runBP env arrs n 0) hrl hel hreg hstd
  rw [g2] at k1
  cases k1
  rw [g3] at k2
  cases k2
  rw [hlp] at g1 g5 hsc
  refine ⟨arrs, bs, rs, ha, g2, g3, g4, rcn_decoded hid hF h hst rfl hfr hb hs hin (fun x ρ hx => (hsc x ρ hx).1) ?_ g4 k4 g5⟩
  intro v hv
  obtain ⟨c, start, -, hM'⟩ := g1 v hv
  exact hM'.exists_map hv (hpos' v hv)

end

section
variable {κ : Type} {idV : Nat → Nat} {idF : Nat → Nat → Nat} {hps vps : Nat} {sizes : List Nat} {edges : List (List (Nat × Nat × Nat))}

/-- The steps of the program, with damping. -/
theorem rcn_tree_run_damped [DecidableEq κ]
    (hid : ∀ i < sizes.length, ∀ j < sizes.length, idV i % 2 ^ 32 = idV j % 2 ^ 32 → i = j)
    (hF : ∀ a b c d, idF a b = idF c d → a = c ∧ b = d) {vars : List NDVarArray} {fg : FactorGraph κ ℝ}
    (h : rcn idV idF hps vps sizes edges = .ok (vars, fg)) {hist : List (AddArg ℝ)} {garbage : Garbage} {st : FGState κ ℝ}
    (hst : Compiled (vars.map .arr) hist garbage st) (hg : graphOf (vars.map .arr) hist = fg)
    {frcs : List (List (Nat × Nat × Nat))} (hfr : frcs.map List.length = sizes) (hpos : ∀ n ∈ sizes, 1 ≤ n) {F H W : Nat} {bu : NDArr ℝ} (hb : bu.WF)
    (hs : bu.shape = [F, H, W]) (hin : ∀ frc ∈ frcs, ∀ p ∈ frc, RcnInside hps vps F H W p)
    {stateId : Nat} {state : BPState ℝ} {bp : BPFun κ ℝ} (hstate : bpStateOf stateId st = .ok state) (hbp : BP.create st state 0 = .ok bp)
    (env : Env ℝ) (hfit : Fits env fg (0 : ℝ)) (hM : 1 ≤ hps + vps)
    (hloop : ∀ es ∈ edges, ∀ e ∈ es, e.1 ≠ e.2.1) (htree : ∀ es ∈ edges, (rcnNet es).IsAcyclic) {d : ℝ} (hd : 0 ≤ d ∧ d ≤ 1 / 2) {R B D : ℝ}
    (hR : ∀ a ∈ bu.data, ∀ b ∈ bu.data, a - b ≤ R) (hsize : ∀ n ∈ sizes, n * R < 1000)
    (hB : ∀ a ∈ bu.data, |a| ≤ B) (hdeg : ∀ es ∈ edges, ∀ i, ((es.filter (fun e => e.1 = i ∨ e.2.1 = i)).length : ℝ) ≤ D) (hnum : 2 * (B + 1000 * D) ≤ 97000) :
    ∃ ups, rcnUpdates hps vps vars (frcs.map rcnInts) bu = .ok ups ∧ ∀ ups', ups'.Perm ups → ∃ arrs, bp.update none none none (some ups') = .ok arrs ∧ ∃ N, ∀ n ≥ N,
      ∃ bs rs, bp.getBeliefs (bp.runBP env arrs n d) = .ok bs ∧ decodeMapStates bs = .ok rs ∧
        rs.map (·.1) = vars.map .arr ∧
        ∃ es maps, frcs.mapM (fun frc => rcnEvidence hps vps bu (rcnInts frc)) = .ok es ∧ rs.map (·.2) = maps.map .arr ∧
          RcnExact hps vps bu frcs edges maps (rcnScores es maps) (rcnBestModel (rcnScores es maps)) := by
  have hvars := (rcn_build hid hF h garbage).1
  obtain ⟨hreg, hstd⟩ := rcn_groups (κ := κ) (hps := hps) (vps := vps) hid hpos hM
  rw [← hvars] at hreg hstd
  have hn' : frcs.length = sizes.length := by rw [← hfr, List.length_map]
  obtain ⟨ups, hu, hall⟩ := C75_model hid hF h hst hg (cell := fun idx => uniCell (idV idx) [sizes.getD idx 0] (cStates hps vps)) (by
      intro idx g hidx
      rw [hvars, List.getElem?_map] at hidx
      obtain ⟨i, hi, rfl⟩ := Option.map_eq_some_iff.1 hidx
      obtain ⟨h1, h2⟩ := List.getElem?_eq_some_iff.1 hi
      rw [List.getElem_range] at h2
      subst h2
      exact isArr_uniArr _ _ _ (by simp)) hfr hpos hb hs hin hstate hbp
  refine ⟨ups, hu, fun ups' hperm => ?_⟩
  obtain ⟨arrs, ha, hlp, hm, hel, hread, hsc⟩ := hall ups' hperm
  have hval : ∀ idx < sizes.length, ∀ i < sizes.getD idx 0, ∀ s < cStates hps vps,
      readEv st.varsToStarts arrs.evidence (cCell idV hps vps sizes idx i) s ∈ bu.data := by
    intro idx hidx i hi s hs'
    obtain ⟨frc, hf⟩ : ∃ frc, frcs[idx]? = some frc := ⟨_, List.getElem?_eq_getElem (by omega)⟩
    have hlen : frc.length = sizes.getD idx 0 := by
      rw [← hfr, List.getD, List.getElem?_map, hf]
      rfl
    obtain ⟨p, hp⟩ : ∃ p, frc[i]? = some p := ⟨_, List.getElem?_eq_getElem (by rw [hlen]; exact hi)⟩
    have := hread idx _ hf i _ hp s hs'
    rw [cCell, this]
    exact read_mem hb hs (hin _ (List.mem_of_getElem? hf) _ (List.mem_of_getElem? hp)) hs'
  obtain ⟨f1, f2, f3, f4, f5, f6, f7, -⟩ := rcn_facts (B := B) (D := D) (R := R) (d := d) hid hF h hst hg hloop htree
    (fun idx h1 i h2 s h3 t h4 => hR _ (hval idx h1 i h2 s h3) _ (hval idx h1 i h2 t h4)) hsize
    (fun idx h1 i h2 s h3 => hB _ (hval idx h1 i h2 s h3)) hdeg hd hnum
  subst hg
  rw [← hlp] at f3 f6
  have hpos' := hst.states_pos hstd
  obtain ⟨hz, hlen, hinit⟩ := hst.zero_msgs hm hpos'
  let n' := (graphOf (vars.map (.arr : NDVarArray → VGroup κ)) hist).allScopes.length + 1
  have hdist := Compiled.dist_lt (vgs := vars.map (.arr : NDVarArray → VGroup κ)) (hist := hist) n' ⟨by omega, by omega⟩
  have g1 := (C76_decode_partial hst hbp env hfit arrs n' (by rw [hlp]) hel hm f6.undamped f7 f1 f2 (fun f F hF _ => (f3 f F hF).1)
    (fun _ => R) (fun _ => 0) f4 (fun f F hF => (f3 f F hF).2) f5 hdist hreg hstd).1
  have hclip : ∀ f i v s, IsEdge (graphOf (vars.map (.arr : NDVarArray → VGroup κ)) hist).allScopes f i v → s < v.n → -1000 <
      readMsgs (graphOf (vars.map (.arr : NDVarArray → VGroup κ)) hist).allScopes (bp.runBP env arrs n' 0).ftovMsgs f i s := by
    intro f i v s he hs'
    have hfull : ∀ (f : Nat) (F : SFac ℝ), ((graphOf (vars.map (.arr : NDVarArray → VGroup κ)) hist).factors arrs.logPotentials)[f]? = some F →
        f < (graphOf (vars.map (.arr : NDVarArray → VGroup κ)) hist).tables.length → F.Full := fun f F hF _ => (f3 f F hF).1
    have hP : ∀ (f : Nat) (F : SFac ℝ), ((graphOf (vars.map (.arr : NDVarArray → VGroup κ)) hist).factors arrs.logPotentials)[f]? = some F → F.Within 0 :=
      fun f F hF => (f3 f F hF).2
    have := (C76_partial hst hbp env hfit arrs n' 0 (by rw [hlp]) hel hlen f6.undamped f7 hinit f1 f2 hpos' hfull
      (fun _ => R) (fun _ => 0) f4 hP _ rfl (fun f i v he s hs t ht => by
        rw [hz, hz, sub_zero]
        exact totalBehind_nonneg (f4.nonneg hpos') (hst.within_nonneg hpos' hfull hP) _ _) f i v he s hs').1
    linarith [f5 f i v he]
  obtain ⟨N, hN⟩ := C59_decode_partial hst hbp env hfit arrs.logPotentials arrs.evidence arrs.ftovMsgs (show d < 1 by linarith [hd.2]) n' (by rw [hlp]) hel hlen f6 f7 hinit f1 f2
    hclip ⟨by omega, by omega⟩ hreg hstd
  refine ⟨arrs, ha, N, fun n hn => ?_⟩
  obtain ⟨bs, rs, g2, g3, g4, g5⟩ := hN n hn
  have hrl := (hst.run_read hbp env hfit arrs d (by rw [hlp]) hel n hlen).1
  obtain ⟨bs', rs', k1, k2, k3, k4⟩ := C35_partial hst hbp (bp.runBP env arrs n d) hrl hel hreg hstd
  have g2' : bp.getBeliefs (bp.runBP env arrs n d) = .ok bs := g2
  rw [g2'] at k1
  cases k1
  rw [g3] at k2
  cases k2
  rw [hlp] at g1 g5 hsc
  refine ⟨bs, rs, g2', g3, g4, rcn_decoded hid hF h hst rfl hfr hb hs hin (fun x ρ hx => (hsc x ρ hx).1) ?_ g4 k4 g5⟩
  intro v hv
  obtain ⟨c, start, -, hM'⟩ := g1 v hv
  exact hM'.exists_map hv (hpos' v hv)

end

/-- **C77, partial, without damping.** Let all networks be trees.  After as many iterations with damping 0 as the longest path in any network has edges, the states that
`decode_map_states` returns for a network are its best deformation, if there is only one, whatever the other networks are; its score is the largest score of any feasible
deformation.  If this holds for all networks, then the program predicts the first network whose best deformation has the largest score.
Missing: networks with loops, on which the program need not find the best deformation (`C77_loop`); networks for which there is more than one best deformation (`C77_tie`); bottom-up messages with so large a range that
messages are clipped; windows of one pixel. -/
theorem C77_partial {κ α : Type} [Field α] [LinearOrder α] [IsStrictOrderedRing α] [DecidableEq κ] (env : Env α) {idV : Nat → Nat} {idF : Nat → Nat → Nat} (garbage : Garbage)
    (stateId : Nat) {hps vps : Nat} {frcs edges : List (List (Nat × Nat × Nat))}
    (hid : ∀ i < frcs.length, ∀ j < frcs.length, idV i % 2 ^ 32 = idV j % 2 ^ 32 → i = j) (hF : ∀ a b c d, idF a b = idF c d → a = c ∧ b = d)
    (hok : RcnOk (frcs.map List.length) edges) (hne : ∃ es ∈ edges, es ≠ []) (hpos : ∀ frc ∈ frcs, frc ≠ []) {F H W : Nat} {bu : NDArr α} (hb : bu.WF)
    (hs : bu.shape = [F, H, W]) (hin : ∀ frc ∈ frcs, ∀ p ∈ frc, RcnInside hps vps F H W p) (hM : 1 ≤ hps + vps)
    (hw : env.wrapNeg = false ∨ (2 * (edges.map List.length).sum + 1) * ((2 * hps + 1) * (2 * vps + 1)) ≤ 100000)
    (hloop : ∀ es ∈ edges, ∀ e ∈ es, e.1 ≠ e.2.1) (htree : ∀ es ∈ edges, (rcnNet es).IsAcyclic)
    (n : Nat) (hn : 0 < n) (hdiam : ∀ es ∈ edges, ∀ i j, (rcnNet es).dist i j ≤ n) {R B D : α}
    (hR : ∀ a ∈ bu.data, ∀ b ∈ bu.data, a - b ≤ R) (hsize : ∀ frc ∈ frcs, frc.length * R < 1000) (hB : ∀ a ∈ bu.data, |a| ≤ B)
    (hdeg : ∀ es ∈ edges, ∀ i, ((es.filter (fun e => e.1 = i ∨ e.2.1 = i)).length : α) ≤ D) (hnum : 2 * (B + 1000 * D) ≤ 97000) :
    ∃ maps scores best, rcnInfer κ env idV idF garbage stateId hps vps (frcs.map rcnInts) edges bu n 0 = .ok (maps, scores, best) ∧
      RcnExact hps vps bu frcs edges maps scores best := by
  have hid' : ∀ i < (frcs.map List.length).length, ∀ j < (frcs.map List.length).length, idV i % 2 ^ 32 = idV j % 2 ^ 32 → i = j := by simpa using hid
  obtain ⟨⟨vars, fg⟩, h⟩ := (C71_inputs (κ := κ) (α := α) (idF := idF) (hps := hps) (vps := vps) (edges := edges) hid').1.2 hok
  obtain ⟨cell, hist, st, -, -, hst, hg, hbp, -⟩ := C71_model hid' hF h garbage
  have hs' : bpStateOf stateId st = .ok (⟨⟨stateId, st.logPotentials⟩, ⟨stateId, List.replicate st.totalFactorNumStates 0⟩, ⟨stateId, List.replicate st.numVarStates 0⟩⟩ : BPState α) := by
    simp [bpStateOf, LogPotentials.create, FToVMessages.create, Evidence.create, BPState.create, bind, Except.bind]
  obtain ⟨bp, hbp⟩ := (hbp (⟨⟨stateId, st.logPotentials⟩, ⟨stateId, List.replicate st.totalFactorNumStates 0⟩, ⟨stateId, List.replicate st.numVarStates 0⟩⟩ : BPState α) 0).2 hne
  have hc := hst.compiled
  rw [hg] at hc
  obtain ⟨ups, hu, hall⟩ := rcn_tree_run hid' hF h hst hg rfl (by
      intro n hn
      obtain ⟨frc, hf, rfl⟩ := List.mem_map.1 hn
      exact List.length_pos_iff.2 (hpos frc hf)) hb hs hin hs' hbp env (rcn_fits hid' hF h hw 0) hM hloop htree n hn hdiam hR (by
      intro n hn
      obtain ⟨frc, hf, rfl⟩ := List.mem_map.1 hn
      exact hsize frc hf) hB hdeg hnum
  obtain ⟨arrs, bs, rs, ha, g1, g2, -, es, maps, g4, g5, g6⟩ := hall ups (List.Perm.refl _)
  rw [rcnInfer_eq rfl h hc hs' hbp hu ha g1 g2 g4]
  have : rs.filterMap (fun p => p.2.arr?) = maps := by
    have e : rs.filterMap (fun p => p.2.arr?) = (rs.map (·.2)).filterMap GroupStates.arr? := by rw [List.filterMap_map]; rfl
    rw [e, g5, List.filterMap_map]
    exact List.filterMap_some
  rw [this]
  exact ⟨_, _, _, rfl, g6⟩

/-- **C77, partial, with damping.** The same holds, after sufficiently many iterations, with any damping up to the default 1/2 that the program uses.
Missing: as before, and the number of iterations, which is in C79. -/
theorem C77_damped_partial {κ : Type} [DecidableEq κ] (env : Env ℝ) {idV : Nat → Nat} {idF : Nat → Nat → Nat} (garbage : Garbage)
    (stateId : Nat) {hps vps : Nat} {frcs edges : List (List (Nat × Nat × Nat))}
    (hid : ∀ i < frcs.length, ∀ j < frcs.length, idV i % 2 ^ 32 = idV j % 2 ^ 32 → i = j) (hF : ∀ a b c d, idF a b = idF c d → a = c ∧ b = d)
    (hok : RcnOk (frcs.map List.length) edges) (hne : ∃ es ∈ edges, es ≠ []) (hpos : ∀ frc ∈ frcs, frc ≠ []) {F H W : Nat} {bu : NDArr ℝ} (hb : bu.WF)
    (hs : bu.shape = [F, H, W]) (hin : ∀ frc ∈ frcs, ∀ p ∈ frc, RcnInside hps vps F H W p) (hM : 1 ≤ hps + vps)
    (hw : env.wrapNeg = false ∨ (2 * (edges.map List.length).sum + 1) * ((2 * hps + 1) * (2 * vps + 1)) ≤ 100000)
    (hloop : ∀ es ∈ edges, ∀ e ∈ es, e.1 ≠ e.2.1) (htree : ∀ es ∈ edges, (rcnNet es).IsAcyclic)
    {d : ℝ} (hd : 0 ≤ d ∧ d ≤ 1 / 2) {R B D : ℝ}
    (hR : ∀ a ∈ bu.data, ∀ b ∈ bu.data, a - b ≤ R) (hsize : ∀ frc ∈ frcs, frc.length * R < 1000) (hB : ∀ a ∈ bu.data, |a| ≤ B)
    (hdeg : ∀ es ∈ edges, ∀ i, ((es.filter (fun e => e.1 = i ∨ e.2.1 = i)).length : ℝ) ≤ D) (hnum : 2 * (B + 1000 * D) ≤ 97000) :
    ∃ N, ∀ n ≥ N, ∃ maps scores best, rcnInfer κ env idV idF garbage stateId hps vps (frcs.map rcnInts) edges bu n d = .ok (maps, scores, best) ∧
      RcnExact hps vps bu frcs edges maps scores best := by
  have hid' : ∀ i < (frcs.map List.length).length, ∀ j < (frcs.map List.length).length, idV i % 2 ^ 32 = idV j % 2 ^ 32 → i = j := by simpa using hid
  obtain ⟨⟨vars, fg⟩, h⟩ := (C71_inputs (κ := κ) (α := ℝ) (idF := idF) (hps := hps) (vps := vps) (edges := edges) hid').1.2 hok
  obtain ⟨cell, hist, st, -, -, hst, hg, hbp, -⟩ := C71_model hid' hF h garbage
  have hs' : bpStateOf stateId st = .ok (⟨⟨stateId, st.logPotentials⟩, ⟨stateId, List.replicate st.totalFactorNumStates 0⟩, ⟨stateId, List.replicate st.numVarStates 0⟩⟩ : BPState ℝ) := by
    simp [bpStateOf, LogPotentials.create, FToVMessages.create, Evidence.create, BPState.create, bind, Except.bind]
  obtain ⟨bp, hbp⟩ := (hbp (⟨⟨stateId, st.logPotentials⟩, ⟨stateId, List.replicate st.totalFactorNumStates 0⟩, ⟨stateId, List.replicate st.numVarStates 0⟩⟩ : BPState ℝ) 0).2 hne
  have hc := hst.compiled
  rw [hg] at hc
  obtain ⟨ups, hu, hall⟩ := rcn_tree_run_damped hid' hF h hst hg rfl (by
      intro n hn
      obtain ⟨frc, hf, rfl⟩ := List.mem_map.1 hn
      exact List.length_pos_iff.2 (hpos frc hf)) hb hs hin hs' hbp env (rcn_fits hid' hF h hw 0) hM hloop htree hd hR (by
      intro n hn
      obtain ⟨frc, hf, rfl⟩ := List.mem_map.1 hn
      exact hsize frc hf) hB hdeg hnum
  obtain ⟨arrs, ha, N, hN⟩ := hall ups (List.Perm.refl _)
  refine ⟨N, fun n hn => ?_⟩
  obtain ⟨bs, rs, g1, g2, -, es, maps, g4, g5, g6⟩ := hN n hn
  rw [rcnInfer_eq rfl h hc hs' hbp hu ha g1 g2 g4]
  have : rs.filterMap (fun p => p.2.arr?) = maps := by
    have e : rs.filterMap (fun p => p.2.arr?) = (rs.map (·.2)).filterMap GroupStates.arr? := by rw [List.filterMap_map]; rfl
    rw [e, g5, List.filterMap_map]
    exact List.filterMap_some
  rw [this]
  exact ⟨_, _, _, rfl, g6⟩

/-- A path in a network has at most as many edges as the network. -/
theorem rcnNet_dist_le (es : List (Nat × Nat × Nat)) (i j : Nat) : (rcnNet es).dist i j ≤ es.length := by
  classical
  by_cases hr : (rcnNet es).Reachable i j
  swap
  · rw [SimpleGraph.dist_eq_zero_of_not_reachable hr]
    exact Nat.zero_le _
  obtain ⟨p, hp, hl⟩ := hr.exists_path_of_dist
  rw [← hl, ← p.length_edges, ← List.toFinset_card_of_nodup hp.isTrail.edges_nodup]
  refine le_trans (Finset.card_le_card (t := (es.map (fun e => s(e.1, e.2.1))).toFinset) ?_) (le_trans (List.toFinset_card_le _) (by simp))
  intro e he
  have := p.edges_subset_edgeSet (List.mem_toFinset.1 he)
  induction e using Sym2.ind with
  | _ x y =>
  rw [SimpleGraph.mem_edgeSet] at this
  obtain ⟨-, h | h⟩ := (SimpleGraph.fromRel_adj _ _ _).1 this <;> obtain ⟨r, hr⟩ := h
  · exact List.mem_toFinset.2 (List.mem_map.2 ⟨_, hr, rfl⟩)
  · exact List.mem_toFinset.2 (List.mem_map.2 ⟨_, hr, Sym2.eq_swap⟩)

/-- The bottom-up messages of the counterexample `C77_tie`. -/
def exTie : NDArr ℚ := ⟨[2, 3, 3], [-3, -3, 1, -1, -1, -1, -1, -1, -1, 1, -1, -1, -1, -1, -1, -1, -1, -1]⟩

set_option maxRecDepth 100000 in
/-- Where there is more than one best deformation, the decoded states need not be feasible, even on a tree: with two features and one edge of radius 1, in windows of 3 by 3 pixels, the decoded
states differ by 2 columns.  The score that the program computes from them, 2, is larger than the score of every feasible deformation. -/
theorem C77_tie : rcnInfer Nat exEnv id Nat.pair (fun _ _ => 0) 1 1 1 ([[(0, 1, 1), (1, 1, 1)]].map rcnInts) [[(0, 1, 1)]] exTie 1 0 = .ok ([⟨[2], [2, 0]⟩], [2], 0) ∧
    (∀ y, RcnFeasible 1 1 2 [(0, 1, 1)] y → ¬ (y 0 = 2 ∧ y 1 = 0) ∧ deformScore 1 1 exTie [(0, 1, 1), (1, 1, 1)] y ≤ 0) := by
  refine ⟨by decide +kernel, fun y hy => ?_⟩
  have h0 := hy.1 0 (by omega)
  have h1 := hy.1 1 (by omega)
  have h2 := hy.2 _ (List.mem_singleton.2 rfl)
  simp only [deformScore, List.length_cons, List.length_nil, Finset.sum_range_succ, Finset.sum_range_zero] at h0 h1 h2 ⊢
  generalize y 0 = a at *
  generalize y 1 = b at *
  have : ∀ a < 9, ∀ b < 9, WithinRadius 3 1 a b → ¬ (a = 2 ∧ b = 0) ∧
      exTie.read [0, 1 - 1 + a / 3, 1 - 1 + a % 3] + exTie.read [1, 1 - 1 + b / 3, 1 - 1 + b % 3] ≤ 0 := by
    unfold WithinRadius
    decide +kernel
  simpa using this a h0 b h1 h2

/-- The features, the edges and the bottom-up messages of the counterexample `C77_loop`. -/
def exLoopFrc : List (Nat × Nat × Nat) := [(0, 0, 1), (1, 0, 1), (2, 0, 1), (3, 0, 1), (4, 0, 1)]

@[inherit_doc exLoopFrc]
def exLoopEdges : List (Nat × Nat × Nat) := [(0, 2, 0), (0, 3, 0), (1, 3, 0), (0, 4, 1), (1, 2, 1), (2, 3, 1), (1, 4, 0), (3, 4, 1)]

@[inherit_doc exLoopFrc]
def exLoop : NDArr ℚ := ⟨[5, 1, 3], [-1, 1, 1, 1, -1, 1, -1, 1, 1, 1, -1, -1, 1, -1, 1]⟩

set_option maxRecDepth 100000 in
/-- On networks with loops, the program need not find the best deformation even if there is only one, with bottom-up messages -1 and 1 as in the program, and its
30 iterations and damping 1/2: it returns a feasible deformation with score 1, but the best one has score 3. -/
theorem C77_loop : rcnInfer Nat exEnv id Nat.pair (fun _ _ => 0) 1 0 1 ([exLoopFrc].map rcnInts) [exLoopEdges] exLoop 30 (1 / 2) = .ok ([⟨[5], [0, 0, 0, 0, 0]⟩], [1], 0) ∧
    RcnBest 0 1 exLoop exLoopFrc exLoopEdges (fun _ => 2) ∧ deformScore 0 1 exLoop exLoopFrc (fun _ => 2) = 3 := by
  have hsc : ∀ y, deformScore 0 1 exLoop exLoopFrc y = exLoop.read [0, y 0 / 3, y 0 % 3] + exLoop.read [1, y 1 / 3, y 1 % 3] + exLoop.read [2, y 2 / 3, y 2 % 3] +
      exLoop.read [3, y 3 / 3, y 3 % 3] + exLoop.read [4, y 4 / 3, y 4 % 3] := by
    intro y
    simp [deformScore, exLoopFrc, Finset.sum_range_succ]
  have hfe : ∀ y, RcnFeasible 0 1 exLoopFrc.length exLoopEdges y → ∃ c < 3, ∀ i < 5, y i = c := by
    intro y hy
    have hl : ∀ i < 5, y i < 3 := fun i hi => by simpa using hy.1 i (by simpa [exLoopFrc] using hi)
    have he : ∀ i j, (i, j, 0) ∈ exLoopEdges → i < 5 → j < 5 → y i = y j := by
      intro i j hm hi hj
      obtain ⟨-, -, h3, h4⟩ := hy.2 _ hm
      have := hl i hi
      have := hl j hj
      simp only at h3 h4
      omega
    refine ⟨y 0, hl 0 (by omega), fun i hi => ?_⟩
    have e2 := he 0 2 (by decide) (by omega) (by omega)
    have e3 := he 0 3 (by decide) (by omega) (by omega)
    have e1 := he 1 3 (by decide) (by omega) (by omega)
    have e4 := he 1 4 (by decide) (by omega) (by omega)
    interval_cases i <;> omega
  have hval : ∀ c < 3, ∀ y, (∀ i < 5, y i = c) → deformScore 0 1 exLoop exLoopFrc y = if c = 0 then 1 else if c = 1 then -1 else 3 := by
    intro c hc y hy
    rw [hsc, hy 0 (by omega), hy 1 (by omega), hy 2 (by omega), hy 3 (by omega), hy 4 (by omega)]
    revert c
    intro c hc _
    interval_cases c <;> decide +kernel
  have h3 : deformScore 0 1 exLoop exLoopFrc (fun _ => 2) = 3 := by
    rw [hval 2 (by omega) _ (fun _ _ => rfl)]
    rfl
  refine ⟨by decide +kernel, ⟨⟨fun i _ => by norm_num, ?_⟩, ?_, ?_⟩, h3⟩
  · exact fun e _ => ⟨Nat.le_add_right _ _, Nat.le_add_right _ _, Nat.le_add_right _ _, Nat.le_add_right _ _⟩
  · intro y hy
    obtain ⟨c, hc, hy⟩ := hfe y hy
    rw [h3, hval c hc y hy]
    split <;> [norm_num; split <;> norm_num]
  · intro y hy e i hi
    obtain ⟨c, hc, hy⟩ := hfe y hy
    rw [h3, hval c hc y hy] at e
    rw [hy i hi]
    interval_cases c
    · norm_num at e
    · norm_num at e
    · rfl

/-- The networks of the example. -/
def exNetFrcs : List (List (Nat × Nat × Nat)) := [[(0, 0, 1), (1, 0, 1), (2, 0, 1)], [(2, 0, 1), (0, 0, 1)]]

@[inherit_doc exNetFrcs]
def exNetEdges : List (List (Nat × Nat × Nat)) := [[(0, 1, 1), (1, 2, 0)], [(1, 0, 1)]]

theorem exNets : (RcnOk (exNetFrcs.map List.length) exNetEdges ∧ (∃ es ∈ exNetEdges, es ≠ []) ∧ (∀ frc ∈ exNetFrcs, frc ≠ []) ∧
    ∀ frc ∈ exNetFrcs, ∀ p ∈ frc, RcnInside 0 1 3 1 3 p) ∧ (∀ es ∈ exNetEdges, ∀ e ∈ es, e.1 ≠ e.2.1) ∧ (∀ es ∈ exNetEdges, (rcnNet es).IsAcyclic) ∧
    ∀ es ∈ exNetEdges, ∀ i, (es.filter (fun e => e.1 = i ∨ e.2.1 = i)).length ≤ 2 := by
  refine ⟨⟨⟨rfl, by decide, by decide, by decide⟩, by decide, by decide, by unfold RcnInside; decide⟩, by decide, ?_, ?_⟩
  · intro es hes
    refine acyclic_of_level id fun x y z hy hz h1 h2 => ?_
    simp only [exNetEdges, List.mem_cons, List.not_mem_nil, or_false] at hes
    rcases hes with rfl | rfl <;>
      · simp only [rcnNet, SimpleGraph.fromRel_adj, List.mem_cons, List.not_mem_nil, or_false, Prod.mk.injEq, exists_or, exists_and_left, exists_eq, and_true] at hy hz
        simp only [id] at h1 h2
        omega
  · intro es hes i
    refine le_trans (List.length_filter_le _ _) ?_
    revert es
    decide

/-- Non-vacuity of C77: two networks, a path of three features and an edge; every one has only one best deformation. -/
example : ∃ maps scores best, rcnInfer Nat exEnv id Nat.pair (fun _ _ => 0) 1 0 1 (exNetFrcs.map rcnInts) exNetEdges
      (⟨[3, 1, 3], [-1, -1, 1, 1, -1, 1, -1, -1, 1]⟩ : NDArr ℚ) 30 0 = .ok (maps, scores, best) ∧
    RcnExact 0 1 (⟨[3, 1, 3], [-1, -1, 1, 1, -1, 1, -1, -1, 1]⟩ : NDArr ℚ) exNetFrcs exNetEdges maps scores best ∧ maps[1]? = some ⟨[2], [2, 2]⟩ ∧ scores[1]? = some 2 := by
  obtain ⟨⟨h1, h2, h3, h4⟩, h5, h6, h7⟩ := exNets
  obtain ⟨maps, scores, best, k1, k2⟩ := C77_partial (κ := Nat) (bu := (⟨[3, 1, 3], [-1, -1, 1, 1, -1, 1, -1, -1, 1]⟩ : NDArr ℚ)) (R := 2) (B := 1) (D := 2)
    exEnv (idV := id) (idF := Nat.pair) (fun _ _ => 0) 1 (by decide) (fun a b c d => Nat.pair_eq_pair.1) h1 h2 h3 rfl rfl h4 (by norm_num) (.inl rfl) h5 h6 30 (by norm_num)
    (fun es hes i j => le_trans (rcnNet_dist_le es i j) (by revert es; decide)) (by decide +kernel) (by decide +kernel) (by decide +kernel)
    (fun es hes i => by exact_mod_cast h7 es hes i) (by norm_num)
  refine ⟨maps, scores, best, k1, k2, ?_⟩
  have key : RcnBest 0 1 (⟨[3, 1, 3], [-1, -1, 1, 1, -1, 1, -1, -1, 1]⟩ : NDArr ℚ) [(2, 0, 1), (0, 0, 1)] [(1, 0, 1)] (fun _ => 2) := by
    have hv : ∀ a < 3, ∀ b < 3, deformScore 0 1 (⟨[3, 1, 3], [-1, -1, 1, 1, -1, 1, -1, -1, 1]⟩ : NDArr ℚ) [(2, 0, 1), (0, 0, 1)] (fun i => if i = 0 then a else b) ≤ 2 ∧
        (deformScore 0 1 (⟨[3, 1, 3], [-1, -1, 1, 1, -1, 1, -1, -1, 1]⟩ : NDArr ℚ) [(2, 0, 1), (0, 0, 1)] (fun i => if i = 0 then a else b) = 2 → a = 2 ∧ b = 2) := by
      decide +kernel
    have hc : ∀ y : Nat → Nat, deformScore 0 1 (⟨[3, 1, 3], [-1, -1, 1, 1, -1, 1, -1, -1, 1]⟩ : NDArr ℚ) [(2, 0, 1), (0, 0, 1)] y =
        deformScore 0 1 (⟨[3, 1, 3], [-1, -1, 1, 1, -1, 1, -1, -1, 1]⟩ : NDArr ℚ) [(2, 0, 1), (0, 0, 1)] (fun i => if i = 0 then y 0 else y 1) := by
      intro y
      refine deformScore_congr fun i hi => ?_
      simp only [List.length_cons, List.length_nil] at hi
      interval_cases i <;> rfl
    have h2 : deformScore 0 1 (⟨[3, 1, 3], [-1, -1, 1, 1, -1, 1, -1, -1, 1]⟩ : NDArr ℚ) [(2, 0, 1), (0, 0, 1)] (fun _ => 2) = 2 := by decide +kernel
    refine ⟨⟨fun i _ => by norm_num, fun e _ => ⟨Nat.le_add_right _ _, Nat.le_add_right _ _, Nat.le_add_right _ _, Nat.le_add_right _ _⟩⟩, fun y hy => ?_, fun y hy e => ?_⟩
    · rw [h2, hc]
      exact (hv _ (hy.1 0 (by simp)) _ (hy.1 1 (by simp))).1
    · rw [h2, hc] at e
      obtain ⟨e0, e1⟩ := (hv _ (hy.1 0 (by simp)) _ (hy.1 1 (by simp))).2 e
      intro i hi
      simp only [List.length_cons, List.length_nil] at hi
      interval_cases i <;> assumption
  obtain ⟨k3, k4⟩ := k2.network 1 _ rfl _ key
  refine ⟨k3, ?_⟩
  rw [k4]
  decide +kernel

/-- Non-vacuity of C77 with damping: the same networks and the default damping. -/
example (env : Env ℝ) (hw : env.wrapNeg = true) : ∃ N, ∀ n ≥ N, ∃ maps scores best, rcnInfer Nat env id Nat.pair (fun _ _ => 0) 1 0 1 (exNetFrcs.map rcnInts) exNetEdges
      (⟨[3, 1, 3], [-1, -1, 1, 1, -1, 1, -1, -1, 1]⟩ : NDArr ℝ) n (1 / 2) = .ok (maps, scores, best) ∧
    RcnExact 0 1 (⟨[3, 1, 3], [-1, -1, 1, 1, -1, 1, -1, -1, 1]⟩ : NDArr ℝ) exNetFrcs exNetEdges maps scores best := by
  obtain ⟨⟨h1, h2, h3, h4⟩, h5, h6, h7⟩ := exNets
  have hval : ∀ a ∈ ([-1, -1, 1, 1, -1, 1, -1, -1, 1] : List ℝ), a = -1 ∨ a = 1 := by
    intro a ha
    simp only [List.mem_cons, List.not_mem_nil, or_false] at ha
    tauto
  refine C77_damped_partial (κ := Nat) (F := 3) (H := 1) (W := 3) (bu := (⟨[3, 1, 3], [-1, -1, 1, 1, -1, 1, -1, -1, 1]⟩ : NDArr ℝ)) (R := 2) (B := 1) (D := 2)
    env (idV := id) (idF := Nat.pair) (fun _ _ => 0) 1 (by decide) (fun a b c d => Nat.pair_eq_pair.1) h1 h2 h3 rfl rfl h4 (by norm_num) (.inr (by decide)) h5 h6 (by norm_num) ?_ ?_ ?_
    (fun es hes i => by exact_mod_cast h7 es hes i) (by norm_num)
  · intro a ha b hb
    rcases hval a ha with rfl | rfl <;> rcases hval b hb with rfl | rfl <;> norm_num
  · intro frc hf
    have : frc.length ≤ 3 := by revert frc; decide
    have : (frc.length : ℝ) ≤ 3 := by exact_mod_cast this
    linarith
  · intro a ha
    rcases hval a ha with rfl | rfl <;> norm_num


end PGMax
