import Verif.Lemmas.Shift
import Verif.Props.C29_C30_C45

/-! Helper lemmas: `run_bp` and textbook belief propagation. -/

namespace PGMax

variable {κ α : Type _} {vgs : List (VGroup κ)} {hist : List (AddArg α)} {garbage : Garbage} {st : FGState κ α}

section
variable [Field α] [LinearOrder α]

/-- The value that a message is normalised by. -/
theorem sup_eq {n : Nat} {x : Nat → WithBot α} {b : α} (h0 : ∃ s < n, x s = WithBot.some b) (h : ∀ s < n, x s ≤ WithBot.some b) :
    (Finset.range n).sup x = WithBot.some b := by
  obtain ⟨s, hs, he⟩ := h0
  apply le_antisymm
  · exact Finset.sup_le (fun s hs => h s (Finset.mem_range.1 hs))
  · rw [← he]; exact Finset.le_sup (Finset.mem_range.2 hs)

theorem tbNorm_coe {n : Nat} {x : Nat → WithBot α} {a b : α} (hb : (Finset.range n).sup x = WithBot.some b) {s : Nat} (ha : x s = WithBot.some a) :
    tbNorm n x s = max (a - b) (-1000) := by
  unfold tbNorm; rw [hb, ha]; rfl

theorem tbNorm_bot {n : Nat} {x : Nat → WithBot α} {s : Nat} (ha : x s = ⊥) : tbNorm n x s = -1000 := by
  unfold tbNorm; rw [ha]; rfl

theorem tbNorm_congr {n : Nat} {x y : Nat → WithBot α} (h : ∀ s < n, x s = y s) {s : Nat} (hs : s < n) : tbNorm n x s = tbNorm n y s := by
  unfold tbNorm
  rw [h s hs, Finset.sup_congr rfl (fun t ht => h t (Finset.mem_range.1 ht))]

theorem tbOut_eq (F : SFac α) (q : Nat → Nat → α) (i s : Nat) :
    tbOut F q i s = if F.rowsAt i s = [] then ⊥ else WithBot.some (maxOf 0 ((F.rowsAt i s).map (scoreBut F.scope.length q i))) := by
  unfold tbOut
  split
  · next h => rw [h]; rfl
  · next h =>
    obtain ⟨h1, h2⟩ := maxOf_spec 0 ((F.rowsAt i s).map (scoreBut F.scope.length q i)) (by simpa using h)
    exact List.maximum_eq_coe_iff.2 ⟨h1, h2⟩

theorem tbStep_at {factors : List (SFac α)} {f i : Nat} {F : SFac α} {v : Var} (hF : factors[f]? = some F) (hi : F.scope[i]? = some v)
    (ev : Var → Nat → α) (d : α) (m : Msgs α) (s : Nat) : tbStep factors ev d m f i s
      = tbNorm v.n (fun s => (tbOut F (tbIn factors ev m f F) i s).map (fun x => d * m f i s + (1 - d) * x)) s := by
  unfold tbStep; rw [hF]; simp only; rw [hi]

theorem tbInit_at {factors : List (SFac α)} {f i : Nat} {F : SFac α} {v : Var} (hF : factors[f]? = some F) (hi : F.scope[i]? = some v)
    (m : Msgs α) (s : Nat) : tbInit factors m f i s = tbNorm v.n (fun s => WithBot.some (m f i s)) s := by
  unfold tbInit; rw [hF]; simp only; rw [hi]

omit [LinearOrder α] in
theorem tbIn_at {factors : List (SFac α)} {F : SFac α} {j : Nat} {w : Var} (hj : F.scope[j]? = some w) (ev : Var → Nat → α) (m : Msgs α) (f t : Nat) :
    tbIn factors ev m f F j t = varToFac (factors.map (·.scope)) ev m w (f, j) t := by
  unfold tbIn; rw [hj]

omit [LinearOrder α] in
theorem scoreBut_congr {F : SFac α} {r : List Nat × α} (hrow : List.Forall₂ (fun s (v : Var) => s < v.n) r.1 F.scope) {q q' : Nat → Nat → α}
    (hq : ∀ (j : Nat) (v : Var) (s : Nat), F.scope[j]? = some v → s < v.n → q j s = q' j s) (i : Nat) :
    scoreBut F.scope.length q i r = scoreBut F.scope.length q' i r := by
  unfold scoreBut
  congr 2
  apply List.map_congr_left
  intro j hj
  have hj' : j < F.scope.length := by have := (List.mem_filter.1 hj).1; simpa using this
  have hl := hrow.length_eq
  obtain ⟨w, hw, hlt⟩ := forall₂_getElem? hrow (List.getElem?_eq_getElem (show j < r.1.length by omega))
  rw [getD_of_some (List.getElem?_eq_getElem (show j < r.1.length by omega))]
  exact hq j w _ hw hlt

theorem tbOut_congr {F : SFac α} (hrow : ∀ r ∈ F.rows, List.Forall₂ (fun s (v : Var) => s < v.n) r.1 F.scope) {q q' : Nat → Nat → α}
    (hq : ∀ (j : Nat) (v : Var) (s : Nat), F.scope[j]? = some v → s < v.n → q j s = q' j s) (i s : Nat) : tbOut F q i s = tbOut F q' i s := by
  unfold tbOut
  congr 1
  apply List.map_congr_left
  intro r hr
  exact scoreBut_congr (hrow r (List.mem_filter.1 hr).1) hq i

/-- The configurations of every factor have one state per variable. -/
theorem Compiled.rowsFit (h : Compiled vgs hist garbage st) (lp : List α) {f : Nat} {F : SFac α} (hF : ((graphOf vgs hist).factors lp)[f]? = some F) :
    ∀ r ∈ F.rows, List.Forall₂ (fun s (v : Var) => s < v.n) r.1 F.scope := by
  have hlg : ∀ (t : FType) (ht : t ≠ .enum) (vs : List Var) (hvs : vs ∈ (graphOf vgs hist).scopesOf t) (p : List Nat) (b : Nat), p ∈ bits (vs.length - 1) → b < 2 →
      List.Forall₂ (fun s (v : Var) => s < v.n) (p ++ [b]) vs := by
    intro t ht vs hvs p b hp hb
    obtain ⟨h1, h2⟩ := h.logicalScopes t ht _ hvs
    obtain ⟨l1, l2⟩ := (mem_bits _ _).1 hp
    rw [List.forall₂_iff_get]
    refine ⟨by simp; omega, ?_⟩
    intro i hi1 hi2
    have : (p ++ [b]).get ⟨i, hi1⟩ ∈ p ++ [b] := List.get_mem _ _
    rw [h2 _ (List.get_mem _ _)]
    rcases List.mem_append.1 this with h3 | h3
    · exact l2 _ h3
    · rw [List.mem_singleton.1 h3]; exact hb
  have hmem := List.mem_of_getElem? hF
  by_cases hf : f < (graphOf vgs hist).tables.length
  · have := h.facOk lp f F hF
    unfold FactorGraph.kind at this
    rw [if_pos hf] at this
    exact this
  · unfold FactorGraph.factors at hF
    rw [List.append_assoc, List.getElem?_append_right (by simpa using hf)] at hF
    rcases List.mem_append.1 (List.mem_of_getElem? hF) with hm | hm
    · obtain ⟨vs, hvs, rfl⟩ := List.mem_map.1 hm
      intro r hr
      obtain ⟨p, hp, rfl⟩ := List.mem_map.1 hr
      exact hlg .or (by decide) vs hvs p _ hp (by split <;> omega)
    · obtain ⟨vs, hvs, rfl⟩ := List.mem_map.1 hm
      intro r hr
      obtain ⟨p, hp, rfl⟩ := List.mem_map.1 hr
      exact hlg .and (by decide) vs hvs p _ hp (by split <;> omega)

theorem Compiled.tbStep_congr (h : Compiled vgs hist garbage st) (lp : List α) (ev : Var → Nat → α) (d : α) {m m' : Msgs α}
    (hm : AgreeOn (graphOf vgs hist).allScopes m m') :
    AgreeOn (graphOf vgs hist).allScopes (tbStep ((graphOf vgs hist).factors lp) ev d m) (tbStep ((graphOf vgs hist).factors lp) ev d m') := by
  intro f i v s he hs
  obtain ⟨F, hF, hi, hsc⟩ := (graphOf vgs hist).factors_edge lp he
  rw [tbStep_at hF hi, tbStep_at hF hi]
  refine tbNorm_congr ?_ hs
  intro s hs
  rw [tbOut_congr (h.rowsFit lp hF) (q' := tbIn ((graphOf vgs hist).factors lp) ev m' f F), hm f i v s he hs]
  intro j w t hj ht
  rw [tbIn_at hj, tbIn_at hj, FactorGraph.factors_scopes]
  exact varToFac_congr hm rfl _ ht

variable [IsStrictOrderedRing α]

/-- Normalisation of messages that differ by a constant. -/
theorem norm_eq_tb {x : Nat → α} {y : Nat → WithBot α} {n maxLen : Nat} (hn : n ≤ maxLen) (K : α) (hy : ∀ s < n, y s = WithBot.some (x s + K))
    (hx : ∃ s < n, NEG_INF ≤ x s) (s : Nat) (hs : s < n) : max (x s - segM x n maxLen) (-1000) = tbNorm n y s := by
  obtain ⟨k1, k2, -⟩ := segM_spec x n maxLen (by omega) hn
  have h2 : ∃ s < n, segM x n maxLen = x s := by
    rcases k2 with h | ⟨-, h, h'⟩
    · exact h
    · obtain ⟨s, hs, hle⟩ := hx
      exact ⟨s, hs, by rw [h]; exact le_antisymm hle (h' s hs)⟩
  obtain ⟨s1, hs1, e1⟩ := h2
  have hsup : (Finset.range n).sup y = WithBot.some (segM x n maxLen + K) := by
    refine sup_eq ⟨s1, hs1, by rw [hy s1 hs1, e1]⟩ ?_
    intro s hs
    rw [hy s hs]
    have := k1 s hs
    exact WithBot.coe_le_coe.2 (by linarith)
  rw [tbNorm_coe hsup (hy s hs)]
  congr 1
  ring

theorem suppNorm_eq_tb {F : SFac α} {i n : Nat} {x : Nat → α} (h0 : ∃ s < n, F.rowsAt i s ≠ []) (s : Nat) (hs : s < n) :
    suppNorm F i n x s = tbNorm n (fun s => if F.rowsAt i s = [] then ⊥ else WithBot.some (x s)) s := by
  obtain ⟨s0, hs0, hne0⟩ := h0
  obtain ⟨g1, g2⟩ := maxOf_spec 0 ((F.supp i n).map x) (by
    rw [Ne, List.map_eq_nil_iff]
    exact List.ne_nil_of_mem (SFac.mem_supp.2 ⟨hs0, hne0⟩))
  unfold suppNorm
  split
  · next h => rw [tbNorm_bot (by rw [if_pos h])]
  · next h =>
    refine (tbNorm_coe ?_ (if_neg h)).symm
    refine sup_eq ?_ ?_
    · obtain ⟨t, ht, he⟩ := List.mem_map.1 g1
      obtain ⟨t1, t2⟩ := SFac.mem_supp.1 ht
      exact ⟨t, t1, by rw [if_neg t2, he]⟩
    · intro t ht
      split
      · exact bot_le
      · next h => exact WithBot.coe_le_coe.2 (g2 _ (List.mem_map.2 ⟨t, SFac.mem_supp.2 ⟨ht, h⟩, rfl⟩))

/-- An iteration of the code is an iteration of the textbook. -/
theorem Compiled.step_textbook_tame (h : Compiled vgs hist garbage st) {state : BPState α} {bp : BPFun κ α}
    (hbp : BP.create st state 0 = .ok bp) (env : Env α) (hfit : Fits env (graphOf vgs hist) (0 : α)) (lp ev msgs : List α) (d : α)
    (hlp : lp.length = st.logPotentials.length) (hev : ev.length = st.numVarStates) (hm : msgs.length = st.totalFactorNumStates)
    {b : Nat → α} (hmod : Tame (graphOf vgs hist) lp (readEv st.varsToStarts ev) d b) (hlmod : LogicalTame (graphOf vgs hist) (readEv st.varsToStarts ev) b)
    (hb : Bounded (graphOf vgs hist).allScopes b (readMsgs (graphOf vgs hist).allScopes msgs))
    (hclip : Clipped (graphOf vgs hist).allScopes (readMsgs (graphOf vgs hist).allScopes msgs)) :
    AgreeOn (graphOf vgs hist).allScopes (readMsgs (graphOf vgs hist).allScopes (bp.step env lp ev d msgs))
      (tbStep ((graphOf vgs hist).factors lp) (readEv st.varsToStarts ev) d (readMsgs (graphOf vgs hist).allScopes msgs)) := by
  intro f i v s he hs
  obtain ⟨F, hF, hi, hsc⟩ := (graphOf vgs hist).factors_edge lp he
  have hmax := (h.maxMsgSize hbp).1
  rw [tbStep_at hF hi]
  by_cases hf : f < (graphOf vgs hist).tables.length
  · rw [(h.step_read hbp env hfit lp ev msgs d hlp hev hm).2 f i v s he hs,
      h.step_enum_tame env 0 (.inl rfl) hmax lp hlp _ d hmod _ hb hclip he hf hF s hs, suppNorm_eq_tb _ s hs]
    · refine tbNorm_congr ?_ hs
      intro s hs
      rw [tbOut_congr (h.rowsFit lp hF) (q' := vtofM (graphOf vgs hist).allScopes (readEv st.varsToStarts ev) (readMsgs (graphOf vgs hist).allScopes msgs) f), tbOut_eq]
      · split
        · rfl
        · simp only [softOut, if_true, WithBot.map_coe]
          congr 1
          ring
      · intro j w t hj ht
        rw [tbIn_at hj, FactorGraph.factors_scopes, vtofM_at ⟨_, hsc, hj⟩]
    · obtain ⟨r, hr⟩ := List.exists_mem_of_ne_nil _ (h.rows_ne lp hlp (by rw [← FactorGraph.factors_table _ _ hf]; exact hF))
      have hrow := h.rowsFit lp hF r hr
      have hlen := hrow.length_eq
      have hil := (List.getElem?_eq_some_iff.1 hi).1
      obtain ⟨w, hw, hlt⟩ := forall₂_getElem? hrow (List.getElem?_eq_getElem (show i < r.1.length by omega))
      rw [hi] at hw
      cases hw
      refine ⟨_, hlt, List.ne_nil_of_mem (a := r) (List.mem_filter.2 ⟨hr, ?_⟩)⟩
      simp [List.getElem?_eq_getElem (show i < r.1.length by omega)]
  · obtain ⟨hvl, hnl, hl, hr⟩ := h.step_norm hbp env hfit.seg lp ev msgs d hlp hm
    have hkind : (graphOf vgs hist).kind f = some ((graphOf vgs hist).restState f) := by unfold FactorGraph.kind; rw [if_neg hf]
    have hok := h.facOk lp f F hF
    rw [hkind] at hok
    obtain ⟨hrel, hlen, h2⟩ := hok
    have hvn : v.n = 2 := h2 v (List.mem_of_getElem? hi)
    have hq : ∀ (j : Nat) (w : Var) (t : Nat), F.scope[j]? = some w → t < w.n → readMsgs (graphOf vgs hist).allScopes (passVarToFac env msgs ev bp.varStatesForEdges) f j t
        = varToFac (graphOf vgs hist).allScopes (readEv st.varsToStarts ev) (readMsgs (graphOf vgs hist).allScopes msgs) w (f, j) t :=
      fun j w t hj ht => read_of_at (C26_var_to_fac h hbp env msgs ev hm hev f j _ w t hsc hj ht)
    have hthis : F.scope.length = 2 ∨ ∃ j < F.scope.length - 1, ∃ k < F.scope.length - 1, j ≠ k ∧
      -100000 < (graphOf vgs hist).pull (readMsgs (graphOf vgs hist).allScopes (passVarToFac env msgs ev bp.varStatesForEdges)) f j ∧
      -100000 < (graphOf vgs hist).pull (readMsgs (graphOf vgs hist).allScopes (passVarToFac env msgs ev bp.varStatesForEdges)) f k := by
      rcases hlmod f F.scope hsc (not_lt.1 hf) with h1 | ⟨j, hj, k, hk, hne, hall⟩
      · exact .inl h1
      · have hp : ∀ i, i = j ∨ i = k → -100000 < (graphOf vgs hist).pull (readMsgs (graphOf vgs hist).allScopes (passVarToFac env msgs ev bp.varStatesForEdges)) f i := by
          intro i hi
          have hil : i < F.scope.length := by rcases hi with rfl | rfl <;> omega
          have hw := List.getElem?_eq_getElem hil
          have hwn := h2 _ (List.getElem_mem hil)
          unfold FactorGraph.pull
          rw [hq i _ _ hw (by rw [hwn]; omega), hq i _ _ hw (by rw [hwn]; omega)]
          refine lt_of_lt_of_le (hall i hi _ hw) (hb.varToFac_diff (by rw [hwn]; omega) (by rw [hwn]; omega) _)
        exact .inr ⟨j, hj, k, hk, hne, hp j (.inl rfl), hp k (.inr rfl)⟩
    obtain ⟨c, hc⟩ := C29_partial h hbp env lp _ hlp hvl f i F hF (not_lt.1 hf) (List.getElem?_eq_some_iff.1 hi).1 (.inl (hfit.par rfl)) hthis
    rw [hr f i v s he hs, normM_at he]
    refine norm_eq_tb (x := fun s => readMsgs (graphOf vgs hist).allScopes msgs f i s + (1 - d) * (readMsgs (graphOf vgs hist).allScopes
      (BPFun.newMsgs env bp lp (passVarToFac env msgs ev bp.varStatesForEdges)) f i s - readMsgs (graphOf vgs hist).allScopes msgs f i s)) (hmax f i v he) ((1 - d) * c) ?_ ?_ s hs
    · intro s hs
      obtain ⟨z, hz, hg⟩ := hc s (by omega)
      rw [read_of_at hz]
      have hout : tbOut F (tbIn ((graphOf vgs hist).factors lp) (readEv st.varsToStarts ev) (readMsgs (graphOf vgs hist).allScopes msgs) f F) i s = WithBot.some (z + c) := by
        rw [tbOut_congr (h.rowsFit lp hF) (q' := readMsgs (graphOf vgs hist).allScopes (passVarToFac env msgs ev bp.varStatesForEdges) f)]
        · refine List.maximum_eq_coe_iff.2 ⟨?_, ?_⟩
          · obtain ⟨r, hr, he⟩ := hg.1
            rw [he]
            exact List.mem_map.2 ⟨r, hr, rfl⟩
          · intro a ha
            obtain ⟨r, hr, rfl⟩ := List.mem_map.1 ha
            exact hg.2 ⟨r, hr, rfl⟩
        · intro j w t hj ht
          rw [tbIn_at hj, FactorGraph.factors_scopes, hq j w t hj ht]
      rw [hout, WithBot.map_coe]
      congr 1
      ring
    · refine ⟨(graphOf vgs hist).restState f, by omega, ?_⟩
      obtain ⟨e1, -, -, e4, -⟩ := BP_create_ok hbp
      have hnat := h.newMsgs_local e1 env lp _ hlp hvl (by rw [e4]; exact hfit.par) f i ((graphOf vgs hist).restState f) F v hF hi (by omega)
      rw [read_of_at hnat, hkind]
      have h0 := hclip f i v ((graphOf vgs hist).restState f) he (by omega)
      have h1 := mul_le_mul_of_nonneg_left h0.1 hmod.damping.1
      have h3 : facOut env bp.temperature (some ((graphOf vgs hist).restState f)) F (readMsgs (graphOf vgs hist).allScopes (passVarToFac env msgs ev bp.varStatesForEdges) f) i
          ((graphOf vgs hist).restState f) = 0 := by simp [facOut, lgOut]
      rw [h3]
      have h4 : (NEG_INF : α) = -100000 := by norm_num [NEG_INF]
      rw [h4]
      linarith [hmod.damping.2]

theorem Compiled.step_textbook (h : Compiled vgs hist garbage st) {state : BPState α} {bp : BPFun κ α}
    (hbp : BP.create st state 0 = .ok bp) (env : Env α) (hfit : Fits env (graphOf vgs hist) (0 : α)) (lp ev msgs : List α) (d : α)
    (hlp : lp.length = st.logPotentials.length) (hev : ev.length = st.numVarStates) (hm : msgs.length = st.totalFactorNumStates)
    (hmod : Moderate (graphOf vgs hist) lp (readEv st.varsToStarts ev) d) (hlmod : LogicalModerate (graphOf vgs hist) (readEv st.varsToStarts ev))
    (hclip : Clipped (graphOf vgs hist).allScopes (readMsgs (graphOf vgs hist).allScopes msgs)) :
    AgreeOn (graphOf vgs hist).allScopes (readMsgs (graphOf vgs hist).allScopes (bp.step env lp ev d msgs))
      (tbStep ((graphOf vgs hist).factors lp) (readEv st.varsToStarts ev) d (readMsgs (graphOf vgs hist).allScopes msgs)) :=
  h.step_textbook_tame hbp env hfit lp ev msgs d hlp hev hm hmod.tame hlmod.tame hclip.bounded hclip

omit [LinearOrder α] [IsStrictOrderedRing α] in
theorem iterate_succ' (g : List α → List α) (n : Nat) (x : List α) : BPFun.iterate g (n + 1) x = g (BPFun.iterate g n x) := by
  induction n generalizing x with
  | zero => rfl
  | succ n ih => exact ih (g x)

end

end PGMax
