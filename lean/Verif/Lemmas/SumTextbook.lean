import Verif.Lemmas.SumTree
import Verif.Lemmas.Textbook
import Verif.Lemmas.Forest
import Verif.Props.C29_C30_C45

/-! Helper lemmas: iterations at positive temperatures. -/

namespace PGMax

section
variable {α : Type _} [Field α] [LinearOrder α] {factors : List (SFac α)} {up : Nat → Nat} {par : Var → Option (Nat × Nat)} {ht : Nat → Nat}

theorem sumStep_at (Φ : Nat → List α → α) {f i : Nat} {F : SFac α} {v : Var} (hF : factors[f]? = some F) (hi : F.scope[i]? = some v)
    (ev : Var → Nat → α) (d : α) (m : Msgs α) (s : Nat) :
    sumStep Φ factors ev d m f i s = tbNorm v.n (fun s => (sumOut (Φ f) F (tbIn factors ev m f F) i s).map (fun x => d * m f i s + (1 - d) * x)) s := by
  unfold sumStep; rw [hF]; simp only [hi]

theorem sumStep_undamped (Φ : Nat → List α → α) {f i : Nat} {F : SFac α} {v : Var} (hF : factors[f]? = some F) (hi : F.scope[i]? = some v)
    (ev : Var → Nat → α) (m : Msgs α) (s : Nat) : sumStep Φ factors ev 0 m f i s = tbNorm v.n (sumOut (Φ f) F (tbIn factors ev m f F) i) s := by
  rw [sumStep_at Φ hF hi]
  congr 1
  funext s
  cases sumOut (Φ f) F (tbIn factors ev m f F) i s with
  | bot => rfl
  | coe a => simp

theorem sumOut_congr (Φ : List α → α) {F : SFac α} {q q' : Nat → Nat → α} {i s : Nat}
    (h : ∀ r ∈ F.rowsAt i s, scoreBut F.scope.length q i r = scoreBut F.scope.length q' i r) : sumOut Φ F q i s = sumOut Φ F q' i s := by
  unfold sumOut
  rw [List.map_congr_left h]

theorem RootedForest.score_up_congr (hR : RootedForest (factors.map (·.scope)) up par ht)
    (hrow : ∀ (f : Nat) (F : SFac α), factors[f]? = some F → ∀ r ∈ F.rows, List.Forall₂ (fun s (v : Var) => s < v.n) r.1 F.scope)
    {ev : Var → Nat → α} {m m' : Msgs α} {f : Nat} {F : SFac α} (hF : factors[f]? = some F)
    (hm : ∀ g v s, ht g < ht f → IsEdge (factors.map (·.scope)) g (up g) v → s < v.n → m g (up g) s = m' g (up g) s) {r : List Nat × α} (hr : r ∈ F.rows) :
    scoreBut F.scope.length (tbIn factors ev m f F) (up f) r = scoreBut F.scope.length (tbIn factors ev m' f F) (up f) r := by
  rw [hR.scoreBut_eq hF, hR.scoreBut_eq hF]
  congr 1
  refine Finset.sum_congr rfl (fun j hj => ?_)
  obtain ⟨h1, h2⟩ := Finset.mem_filter.1 hj
  have hjl := Finset.mem_range.1 h1
  have he := isEdge_varOn (getElem?_scopes hF) hjl
  have hp := (hR.par_iff _ _ _).2 ⟨he, h2⟩
  apply upSum_congr
  intro g hg
  refine hm g _ _ (hR.height _ _ _ _ hp hg) hg ?_
  have hfit := hrow f F hF r hr
  have hlen := hfit.length_eq
  obtain ⟨w, hw, hlt⟩ := forall₂_getElem? hfit (List.getElem?_eq_getElem (show j < r.1.length by omega))
  obtain ⟨vs, k1, k2⟩ := he
  rw [getElem?_scopes hF] at k1
  cases k1
  rw [k2] at hw
  cases hw
  rw [getD_of_some (List.getElem?_eq_getElem (show j < r.1.length by omega))]
  exact hlt

/-- The messages upwards no longer change after as many iterations as the height, and do not depend on the initial messages. -/
theorem RootedForest.sum_converged (hR : RootedForest (factors.map (·.scope)) up par ht)
    (hrow : ∀ (f : Nat) (F : SFac α), factors[f]? = some F → ∀ r ∈ F.rows, List.Forall₂ (fun s (v : Var) => s < v.n) r.1 F.scope)
    (Φ : Nat → List α → α) (ev : Var → Nat → α) (m0 m1 : Msgs α) : ∀ (h f : Nat) (v : Var) (s a b : Nat), ht f ≤ h → h ≤ a → h ≤ b → IsEdge (factors.map (·.scope)) f (up f) v → s < v.n →
      sumRun Φ factors ev 0 (a + 1) m0 f (up f) s = sumRun Φ factors ev 0 (b + 1) m1 f (up f) s := by
  intro h
  induction h with
  | zero =>
    intro f v s a b hf ha hb he hs
    obtain ⟨vs, k1, k2⟩ := he
    rw [List.getElem?_map] at k1
    obtain ⟨F, hF, rfl⟩ := Option.map_eq_some_iff.1 k1
    show sumStep Φ factors ev 0 _ f (up f) s = sumStep Φ factors ev 0 _ f (up f) s
    rw [sumStep_undamped Φ hF k2, sumStep_undamped Φ hF k2]
    congr 1
    funext s
    exact sumOut_congr _ (fun r hr => hR.score_up_congr hrow hF (fun g _ _ hg => by omega) (List.mem_filter.1 hr).1)
  | succ h ih =>
    intro f v s a b hf ha hb he hs
    obtain ⟨vs, k1, k2⟩ := he
    rw [List.getElem?_map] at k1
    obtain ⟨F, hF, rfl⟩ := Option.map_eq_some_iff.1 k1
    show sumStep Φ factors ev 0 _ f (up f) s = sumStep Φ factors ev 0 _ f (up f) s
    rw [sumStep_undamped Φ hF k2, sumStep_undamped Φ hF k2]
    congr 1
    funext s
    refine sumOut_congr _ (fun r hr => hR.score_up_congr hrow hF (fun g v s hg he hs => ?_) (List.mem_filter.1 hr).1)
    obtain ⟨a, rfl⟩ := Nat.exists_eq_succ_of_ne_zero (show a ≠ 0 by omega)
    obtain ⟨b, rfl⟩ := Nat.exists_eq_succ_of_ne_zero (show b ≠ 0 by omega)
    exact ih g v s a b (by omega) (by omega) (by omega) he hs

variable [IsStrictOrderedRing α]

/-- After as many iterations as the height of the forest, unless messages are clipped, the messages upwards are the summaries of those from
below, up to a constant. -/
theorem RootedForest.sum_fixed (hR : RootedForest (factors.map (·.scope)) up par ht)
    (hrow : ∀ (f : Nat) (F : SFac α), factors[f]? = some F → ∀ r ∈ F.rows, List.Forall₂ (fun s (v : Var) => s < v.n) r.1 F.scope)
    (Φ : Nat → List α → α) (ev : Var → Nat → α) (m0 : Msgs α) (n : Nat) (hn : ∀ f < factors.length, ht f < n)
    (hclip : ∀ f v s, IsEdge (factors.map (·.scope)) f (up f) v → s < v.n → -1000 < sumRun Φ factors ev 0 n m0 f (up f) s) :
    ∃ K : Nat → α, ∀ (f : Nat) (F : SFac α) (v : Var), factors[f]? = some F → F.scope[up f]? = some v → ∀ s < v.n, F.rowsAt (up f) s ≠ [] ∧
      sumRun Φ factors ev 0 n m0 f (up f) s + K f = Φ f ((F.rowsAt (up f) s).map (fun r => r.2 + ∑ j ∈ Finset.range F.scope.length with j ≠ up f,
        upSum (factors.map (·.scope)) up ev (sumRun Φ factors ev 0 n m0) (varOn (factors.map (·.scope)) f j) (r.1.getD j 0))) := by
  have hK : ∀ f, ∃ K, ∀ (F : SFac α) (v : Var), factors[f]? = some F → F.scope[up f]? = some v → ∀ s < v.n,
      sumOut (Φ f) F (tbIn factors ev (sumRun Φ factors ev 0 n m0) f F) (up f) s = WithBot.some (sumRun Φ factors ev 0 n m0 f (up f) s + K) := by
    intro f
    cases hF : factors[f]? with
    | none => exact ⟨0, by rintro F v h; cases h⟩
    | some F =>
      have hup := hR.up_lt f _ (getElem?_scopes hF)
      have hv := List.getElem?_eq_getElem hup
      have hfn := hn f (List.getElem?_eq_some_iff.1 hF).1
      obtain ⟨n, rfl⟩ := Nat.exists_eq_succ_of_ne_zero (show n ≠ 0 by omega)
      have hrun : ∀ s, sumRun Φ factors ev 0 (n + 1) m0 f (up f) s
          = tbNorm (F.scope[up f]).n (sumOut (Φ f) F (tbIn factors ev (sumRun Φ factors ev 0 n m0) f F) (up f)) s := sumStep_undamped Φ hF hv ev _
      obtain ⟨K, hK⟩ := tbNorm_unclipped (n := (F.scope[up f]).n) (x := sumOut (Φ f) F (tbIn factors ev (sumRun Φ factors ev 0 n m0) f F) (up f)) (by
        intro s hs
        have := hclip f _ s ⟨_, getElem?_scopes hF, hv⟩ hs
        rw [Nat.succ_eq_add_one, hrun] at this
        exact this)
      refine ⟨K, ?_⟩
      rintro F' v h hv' s hs
      cases h
      rw [hv] at hv'
      cases hv'
      rw [Nat.succ_eq_add_one, hrun, ← hK s hs]
      refine sumOut_congr _ (fun r hr => hR.score_up_congr hrow hF (fun g w t hg he ht' => ?_) (List.mem_filter.1 hr).1)
      obtain ⟨n, rfl⟩ := Nat.exists_eq_succ_of_ne_zero (show n ≠ 0 by omega)
      exact hR.sum_converged hrow Φ ev m0 m0 (ht g) g w t (n + 1) n le_rfl (by omega) (by omega) he ht'
  choose K hK using hK
  refine ⟨K, ?_⟩
  intro f F v hF hv s hs
  have h1 := hK f F v hF hv s hs
  unfold sumOut at h1
  by_cases hne : F.rowsAt (up f) s = []
  · rw [if_pos hne] at h1; cases h1
  · rw [if_neg hne] at h1
    refine ⟨hne, ?_⟩
    rw [← WithBot.coe_injective h1]
    congr 1
    apply List.map_congr_left
    intro r _
    rw [hR.scoreBut_eq hF]

end

/-! ### The summaries of the code -/

/-- The code's log-sum for enumeration factors, with the offset `exp (-1e5)`. -/
noncomputable def regLse (T : ℝ) (l : List ℝ) : ℝ :=
  maxOf 0 l + T * Real.log (Real.exp (-100000) + (l.map (fun x => Real.exp ((x - maxOf 0 l) / T))).sum)

/-- Enumeration factors come first. -/
noncomputable def codeSummary (tables : Nat) (T : ℝ) (f : Nat) : List ℝ → ℝ := if f < tables then regLse T else lse T

theorem regLse_bounds {T : ℝ} (hT : 0 < T) {l : List ℝ} (hl : l ≠ []) : lse T l ≤ regLse T l ∧ regLse T l ≤ lse T l + T * Real.exp (-100000) := by
  obtain ⟨h1, h2⟩ := maxOf_spec 0 l hl
  unfold lse regLse
  generalize maxOf 0 l = M at h1 h2 ⊢
  have e : (l.map (fun x => Real.exp (x / T))).sum = Real.exp (M / T) * (l.map (fun x => Real.exp ((x - M) / T))).sum := by
    rw [mul_comm, mul_list_sum]
    congr 1
    apply List.map_congr_left
    intro x _
    rw [← Real.exp_add]
    congr 1
    ring
  have hS : 1 ≤ (l.map (fun x => Real.exp ((x - M) / T))).sum := by
    have : Real.exp ((M - M) / T) = 1 := by rw [sub_self, zero_div, Real.exp_zero]
    rw [← this]
    exact List.single_le_sum (by
      intro x hx
      obtain ⟨r, -, rfl⟩ := List.mem_map.1 hx
      exact (Real.exp_pos _).le) _ (List.mem_map.2 ⟨M, h1, rfl⟩)
  generalize (l.map (fun x => Real.exp ((x - M) / T))).sum = S at e hS
  have hδ := Real.exp_pos (-100000 : ℝ)
  rw [e, Real.log_mul (Real.exp_pos _).ne' (by linarith), Real.log_exp, mul_add, mul_div_cancel₀ _ hT.ne', add_assoc, ← mul_add]
  constructor
  · have := Real.log_le_log (show 0 < S by linarith) (show S ≤ Real.exp (-100000) + S by linarith)
    have := mul_le_mul_of_nonneg_left this hT.le
    linarith
  · have h3 : Real.log (Real.exp (-100000) + S) ≤ Real.log S + Real.exp (-100000) := by
      have h4 : Real.exp (-100000) + S ≤ S * (1 + Real.exp (-100000)) := by nlinarith
      have h5 := Real.log_le_log (show 0 < Real.exp (-100000) + S by linarith) h4
      rw [Real.log_mul (by linarith) (by linarith)] at h5
      have h6 := Real.log_le_sub_one_of_pos (show 0 < 1 + Real.exp (-100000) by linarith)
      linarith
    have := mul_le_mul_of_nonneg_left h3 hT.le
    linarith

theorem codeSummary_bounds (tables : Nat) {T : ℝ} (hT : 0 < T) (f : Nat) {l : List ℝ} (hl : l ≠ []) :
    lse T l ≤ codeSummary tables T f l ∧ codeSummary tables T f l ≤ lse T l + if f < tables then T * Real.exp (-100000) else 0 := by
  unfold codeSummary
  split
  · exact regLse_bounds hT hl
  · simp

theorem softOut_reg {env : Env ℝ} (hexp : env.exp = Real.exp) (hlog : env.log = Real.log) {T : ℝ} (hT : 0 < T) (F : SFac ℝ) (q : Nat → Nat → ℝ) (i s : Nat) :
    softOut env T F q i s = regLse T ((F.rowsAt i s).map (scoreBut F.scope.length q i)) := by
  unfold softOut regLse
  rw [if_neg hT.ne', hexp, hlog, List.map_map]
  simp only [Function.comp_def, NEG_INF]

theorem envOk_real {env : Env ℝ} (hexp : env.exp = Real.exp) (hlog : env.log = Real.log) : EnvOk env where
  exp_nonneg x := by rw [hexp]; exact (Real.exp_pos _).le
  exp_zero := by rw [hexp]; exact Real.exp_zero
  log_nonneg x hx := by rw [hlog]; exact Real.log_nonneg hx
  log_tiny := by rw [hexp, hlog, Real.log_exp]; norm_num

section
variable {κ : Type _} {vgs : List (VGroup κ)} {hist : List (AddArg ℝ)} {garbage : Garbage} {st : FGState κ ℝ}

theorem Compiled.sumStep_congr (h : Compiled vgs hist garbage st) (Φ : Nat → List ℝ → ℝ) (lp : List ℝ) (ev : Var → Nat → ℝ) (d : ℝ) {m m' : Msgs ℝ}
    (hm : AgreeOn (graphOf vgs hist).allScopes m m') : AgreeOn (graphOf vgs hist).allScopes (sumStep Φ ((graphOf vgs hist).factors lp) ev d m)
      (sumStep Φ ((graphOf vgs hist).factors lp) ev d m') := by
  intro f i v s he hs
  obtain ⟨F, hF, hi, -⟩ := (graphOf vgs hist).factors_edge lp he
  rw [sumStep_at Φ hF hi, sumStep_at Φ hF hi]
  refine tbNorm_congr ?_ hs
  intro s hs
  rw [hm f i v s he hs]
  congr 1
  refine sumOut_congr _ (fun r hr => scoreBut_congr (h.rowsFit lp hF r (List.mem_filter.1 hr).1) ?_ _)
  intro j w t hj ht
  rw [tbIn_at hj, tbIn_at hj, FactorGraph.factors_scopes]
  exact varToFac_congr hm rfl _ ht

/-- An iteration of the code at positive temperature is an iteration with the code's summaries. -/
theorem Compiled.step_sum_tame (h : Compiled vgs hist garbage st) {state : BPState ℝ} {bp : BPFun κ ℝ} {T : ℝ} (hT : 0 < T)
    (hbp : BP.create st state T = .ok bp) (env : Env ℝ) (hexp : env.exp = Real.exp) (hlog : env.log = Real.log)
    (hfit : Fits env (graphOf vgs hist) T) (lp ev msgs : List ℝ) (d : ℝ)
    (hlp : lp.length = st.logPotentials.length) (hev : ev.length = st.numVarStates) (hm : msgs.length = st.totalFactorNumStates)
    {b : Nat → ℝ} (hmod : Tame (graphOf vgs hist) lp (readEv st.varsToStarts ev) d b)
    (hb : Bounded (graphOf vgs hist).allScopes b (readMsgs (graphOf vgs hist).allScopes msgs))
    (hclip : Clipped (graphOf vgs hist).allScopes (readMsgs (graphOf vgs hist).allScopes msgs)) :
    AgreeOn (graphOf vgs hist).allScopes (readMsgs (graphOf vgs hist).allScopes (bp.step env lp ev d msgs))
      (sumStep (codeSummary (graphOf vgs hist).tables.length T) ((graphOf vgs hist).factors lp) (readEv st.varsToStarts ev) d (readMsgs (graphOf vgs hist).allScopes msgs)) := by
  intro f i v s he hs
  obtain ⟨F, hF, hi, hsc⟩ := (graphOf vgs hist).factors_edge lp he
  have hmax := (h.maxMsgSize hbp).1
  rw [sumStep_at _ hF hi]
  by_cases hf : f < (graphOf vgs hist).tables.length
  · rw [(h.step_read hbp env hfit lp ev msgs d hlp hev hm).2 f i v s he hs,
      h.step_enum_tame env T (.inr ⟨hT, envOk_real hexp hlog⟩) hmax lp hlp _ d hmod _ hb hclip he hf hF s hs, suppNorm_eq_tb _ s hs]
    · refine tbNorm_congr ?_ hs
      intro s hs
      rw [sumOut_congr (q' := vtofM (graphOf vgs hist).allScopes (readEv st.varsToStarts ev) (readMsgs (graphOf vgs hist).allScopes msgs) f) _
        (fun r hr => scoreBut_congr (h.rowsFit lp hF r (List.mem_filter.1 hr).1) (fun j w t hj ht => by
          rw [tbIn_at hj, FactorGraph.factors_scopes, vtofM_at ⟨_, hsc, hj⟩]) _)]
      unfold sumOut
      split
      · rfl
      · rw [WithBot.map_coe, softOut_reg hexp hlog hT]
        unfold codeSummary
        rw [if_pos hf]
        congr 1
        ring
    · obtain ⟨r, hr⟩ := List.exists_mem_of_ne_nil _ (h.rows_ne lp hlp (by rw [← FactorGraph.factors_table _ _ hf]; exact hF))
      have hrow := h.rowsFit lp hF r hr
      have hlen := hrow.length_eq
      have hil := (List.getElem?_eq_some_iff.1 hi).1
      obtain ⟨w, hw, hlt⟩ := forall₂_getElem? hrow (List.getElem?_eq_getElem (show i < r.1.length by omega))
      rw [hi] at hw
      cases hw
      refine ⟨_, hlt, List.ne_nil_of_mem (a := r) (List.mem_filter.2 ⟨hr, ?_⟩)⟩
      simp [List.getElem?_eq_getElem (show i < r.1.length by omega)]
  · obtain ⟨hvl, hnl, hl, hr⟩ := h.step_norm hbp env hfit.seg lp ev msgs d hlp hm
    have hkind : (graphOf vgs hist).kind f = some ((graphOf vgs hist).restState f) := by unfold FactorGraph.kind; rw [if_neg hf]
    have hok := h.facOk lp f F hF
    rw [hkind] at hok
    obtain ⟨hrel, hlen, h2⟩ := hok
    have hvn : v.n = 2 := h2 v (List.mem_of_getElem? hi)
    have hq : ∀ (j : Nat) (w : Var) (t : Nat), F.scope[j]? = some w → t < w.n → readMsgs (graphOf vgs hist).allScopes (passVarToFac env msgs ev bp.varStatesForEdges) f j t
        = varToFac (graphOf vgs hist).allScopes (readEv st.varsToStarts ev) (readMsgs (graphOf vgs hist).allScopes msgs) w (f, j) t :=
      fun j w t hj ht => read_of_at (C26_var_to_fac h hbp env msgs ev hm hev f j _ w t hsc hj ht)
    obtain ⟨c, hc⟩ := C30 h T hT hbp env hexp hlog lp _ hlp hvl f i F hF (not_lt.1 hf) (List.getElem?_eq_some_iff.1 hi).1
    rw [hr f i v s he hs, normM_at he]
    refine norm_eq_tb (x := fun s => readMsgs (graphOf vgs hist).allScopes msgs f i s + (1 - d) * (readMsgs (graphOf vgs hist).allScopes
      (BPFun.newMsgs env bp lp (passVarToFac env msgs ev bp.varStatesForEdges)) f i s - readMsgs (graphOf vgs hist).allScopes msgs f i s)) (hmax f i v he) ((1 - d) * c) ?_ ?_ s hs
    · intro s hs
      obtain ⟨hne, z, hz, hg⟩ := hc s (by omega)
      rw [read_of_at hz, sumOut_congr (q' := readMsgs (graphOf vgs hist).allScopes (passVarToFac env msgs ev bp.varStatesForEdges) f) _
        (fun r hr => scoreBut_congr (h.rowsFit lp hF r (List.mem_filter.1 hr).1) (fun j w t hj ht => by
          rw [tbIn_at hj, FactorGraph.factors_scopes, hq j w t hj ht]) _)]
      unfold sumOut codeSummary
      rw [if_neg hne, if_neg hf, WithBot.map_coe]
      congr 1
      unfold lse
      rw [List.map_map]
      simp only [Function.comp_def]
      rw [← hg]
      ring
    · refine ⟨(graphOf vgs hist).restState f, by omega, ?_⟩
      obtain ⟨e1, -, -, e4, -⟩ := BP_create_ok hbp
      have hnat := h.newMsgs_local e1 env lp _ hlp hvl (by rw [e4]; exact hfit.par) f i ((graphOf vgs hist).restState f) F v hF hi (by omega)
      rw [read_of_at hnat, hkind]
      have h0 := hclip f i v ((graphOf vgs hist).restState f) he (by omega)
      have h1 := mul_le_mul_of_nonneg_left h0.1 hmod.damping.1
      have h3 : facOut env bp.temperature (some ((graphOf vgs hist).restState f)) F (readMsgs (graphOf vgs hist).allScopes (passVarToFac env msgs ev bp.varStatesForEdges) f) i
          ((graphOf vgs hist).restState f) = 0 := by simp [facOut, lgOut]
      rw [h3]
      have h4 : (NEG_INF : ℝ) = -100000 := by norm_num [NEG_INF]
      rw [h4]
      linarith [hmod.damping.2]

theorem Compiled.step_sum (h : Compiled vgs hist garbage st) {state : BPState ℝ} {bp : BPFun κ ℝ} {T : ℝ} (hT : 0 < T)
    (hbp : BP.create st state T = .ok bp) (env : Env ℝ) (hexp : env.exp = Real.exp) (hlog : env.log = Real.log)
    (hfit : Fits env (graphOf vgs hist) T) (lp ev msgs : List ℝ) (d : ℝ)
    (hlp : lp.length = st.logPotentials.length) (hev : ev.length = st.numVarStates) (hm : msgs.length = st.totalFactorNumStates)
    (hmod : Moderate (graphOf vgs hist) lp (readEv st.varsToStarts ev) d)
    (hclip : Clipped (graphOf vgs hist).allScopes (readMsgs (graphOf vgs hist).allScopes msgs)) :
    AgreeOn (graphOf vgs hist).allScopes (readMsgs (graphOf vgs hist).allScopes (bp.step env lp ev d msgs))
      (sumStep (codeSummary (graphOf vgs hist).tables.length T) ((graphOf vgs hist).factors lp) (readEv st.varsToStarts ev) d (readMsgs (graphOf vgs hist).allScopes msgs)) :=
  h.step_sum_tame hT hbp env hexp hlog hfit lp ev msgs d hlp hev hm hmod.tame hclip.bounded hclip

/-- `run_bp` at positive temperature is an iteration with the code's summaries. -/
theorem Compiled.run_sum (h : Compiled vgs hist garbage st) {state : BPState ℝ} {bp : BPFun κ ℝ} {T : ℝ} (hT : 0 < T)
    (hbp : BP.create st state T = .ok bp) (env : Env ℝ) (hexp : env.exp = Real.exp) (hlog : env.log = Real.log)
    (hfit : Fits env (graphOf vgs hist) T) (a : BPArrays ℝ) (n : Nat) (d : ℝ)
    (hlp : a.logPotentials.length = st.logPotentials.length) (hev : a.evidence.length = st.numVarStates) (hm : a.ftovMsgs.length = st.totalFactorNumStates)
    (hmod : Moderate (graphOf vgs hist) a.logPotentials (readEv st.varsToStarts a.evidence) d)
    (hinit : ∀ f i v, IsEdge (graphOf vgs hist).allScopes f i v → ∃ s < v.n, -100000 ≤ readMsgs (graphOf vgs hist).allScopes a.ftovMsgs f i s) :
    AgreeOn (graphOf vgs hist).allScopes (readMsgs (graphOf vgs hist).allScopes (bp.runBP env a n d).ftovMsgs)
      (sumRun (codeSummary (graphOf vgs hist).tables.length T) ((graphOf vgs hist).factors a.logPotentials) (readEv st.varsToStarts a.evidence) d n
        (readMsgs (graphOf vgs hist).allScopes a.ftovMsgs)) := by
  have hmax := (h.maxMsgSize hbp).1
  have hl := h.normalize_length hbp env _ hm
  have hc : ∀ {x y : Msgs ℝ}, AgreeOn (graphOf vgs hist).allScopes x y → Clipped (graphOf vgs hist).allScopes y → Clipped (graphOf vgs hist).allScopes x := by
    intro x y hxy hy f i v s he hs
    rw [hxy f i v s he hs]
    exact hy f i v s he hs
  unfold BPFun.runBP
  induction n with
  | zero =>
    refine (h.norm_read hbp env hfit.seg a.ftovMsgs hm).trans ?_
    intro f i v s he hs
    obtain ⟨F, hF, hi, hsc⟩ := (graphOf vgs hist).factors_edge a.logPotentials he
    rw [normM_at he]
    refine (norm_eq_tb (hmax f i v he) 0 (fun s _ => rfl) ?_ s hs).trans ?_
    · obtain ⟨t, ht, hle⟩ := hinit f i v he
      exact ⟨t, ht, by norm_num [NEG_INF]; exact hle⟩
    · simp only [sumRun, add_zero]
      rw [tbInit_at hF hi]
  | succ n ih =>
    simp only [iterate_succ']
    have hlen := (h.iterate_read hbp env hfit a.logPotentials a.evidence d hlp hev n _ hl).1
    have hcl : Clipped (graphOf vgs hist).allScopes (readMsgs (graphOf vgs hist).allScopes
        (BPFun.iterate (bp.step env a.logPotentials a.evidence d) n (normalizeAndClip env a.ftovMsgs bp.edgesNumStates bp.maxMsgSize))) := by
      cases n with
      | zero => exact hc (h.norm_read hbp env hfit.seg a.ftovMsgs hm) (normM_clipped hmax _)
      | succ n =>
        rw [iterate_succ']
        exact hc (h.step_norm hbp env hfit.seg a.logPotentials a.evidence _ d hlp
          (h.iterate_read hbp env hfit a.logPotentials a.evidence d hlp hev n _ hl).1).2.2.2 (normM_clipped hmax _)
    exact (h.step_sum hT hbp env hexp hlog hfit a.logPotentials a.evidence _ d hlp hev hlen hmod hcl).trans (h.sumStep_congr _ a.logPotentials _ d ih)

end

/-! ### Distance between runs -/

/-- Normalisation of messages whose differences lie between `lo` and `hi`. -/
theorem tbNorm_close {n : Nat} {x y : Nat → WithBot ℝ} {lo hi : ℝ}
    (h : ∀ s < n, (x s = ⊥ ∧ y s = ⊥) ∨ ∃ a b : ℝ, x s = WithBot.some a ∧ y s = WithBot.some b ∧ lo ≤ b - a ∧ b - a ≤ hi) (hle : lo ≤ hi) (s : Nat) (hs : s < n) :
    |tbNorm n x s - tbNorm n y s| ≤ hi - lo := by
  rcases h s hs with ⟨h1, h2⟩ | ⟨a, b, h1, h2, h3, h4⟩
  · rw [tbNorm_bot h1, tbNorm_bot h2, sub_self, abs_zero]; linarith
  · have hX : ∃ X : ℝ, (Finset.range n).sup x = WithBot.some X ∧ (∃ t < n, x t = WithBot.some X) ∧ ∀ t < n, x t ≤ WithBot.some X := by
      obtain ⟨t, ht, he⟩ := Finset.exists_mem_eq_sup (Finset.range n) ⟨s, Finset.mem_range.2 hs⟩ x
      have hall : ∀ u < n, x u ≤ x t := by
        intro u hu
        rw [← he]
        exact Finset.le_sup (Finset.mem_range.2 hu)
      have := hall s hs
      rw [h1] at this
      cases hxt : x t with
      | bot => rw [hxt] at this; exact absurd (le_bot_iff.1 this) WithBot.coe_ne_bot
      | coe X => exact ⟨X, by rw [he, hxt], ⟨t, Finset.mem_range.1 ht, hxt⟩, fun u hu => by rw [← hxt]; exact hall u hu⟩
    have hY : ∃ Y : ℝ, (Finset.range n).sup y = WithBot.some Y ∧ (∃ t < n, y t = WithBot.some Y) ∧ ∀ t < n, y t ≤ WithBot.some Y := by
      obtain ⟨t, ht, he⟩ := Finset.exists_mem_eq_sup (Finset.range n) ⟨s, Finset.mem_range.2 hs⟩ y
      have hall : ∀ u < n, y u ≤ y t := by
        intro u hu
        rw [← he]
        exact Finset.le_sup (Finset.mem_range.2 hu)
      have := hall s hs
      rw [h2] at this
      cases hxt : y t with
      | bot => rw [hxt] at this; exact absurd (le_bot_iff.1 this) WithBot.coe_ne_bot
      | coe X => exact ⟨X, by rw [he, hxt], ⟨t, Finset.mem_range.1 ht, hxt⟩, fun u hu => by rw [← hxt]; exact hall u hu⟩
    obtain ⟨X, hX, ⟨t, ht, hxt⟩, hXle⟩ := hX
    obtain ⟨Y, hY, ⟨u, hu, hyu⟩, hYle⟩ := hY
    rw [tbNorm_coe hX h1, tbNorm_coe hY h2]
    have k1 : lo ≤ Y - X := by
      rcases h t ht with ⟨h5, -⟩ | ⟨a', b', h5, h6, h7, -⟩
      · rw [hxt] at h5; cases h5
      · rw [hxt] at h5
        have := WithBot.coe_injective h5
        have h8 := hYle t ht
        rw [h6] at h8
        have := WithBot.coe_le_coe.1 h8
        linarith
    have k2 : Y - X ≤ hi := by
      rcases h u hu with ⟨-, h5⟩ | ⟨a', b', h5, h6, -, h7⟩
      · rw [hyu] at h5; cases h5
      · rw [hyu] at h6
        have := WithBot.coe_injective h6
        have h8 := hXle u hu
        rw [h5] at h8
        have := WithBot.coe_le_coe.1 h8
        linarith
    refine le_trans (abs_max_sub_max_le_abs _ _ _) ?_
    rw [abs_le]
    constructor <;> linarith

/-- `lse` of scores that differ by at most `E`. -/
theorem lse_close {β : Type _} {T : ℝ} (hT : 0 < T) {l : List β} (hl : l ≠ []) {g g' : β → ℝ} {E : ℝ} (h : ∀ r ∈ l, |g r - g' r| ≤ E) :
    |lse T (l.map g) - lse T (l.map g')| ≤ E := by
  have key : ∀ g g' : β → ℝ, (∀ r ∈ l, g r ≤ g' r + E) → lse T (l.map g) ≤ lse T (l.map g') + E := by
    intro g g' h
    unfold lse
    rw [List.map_map, List.map_map]
    have h1 := sum_map_exp_pos hl (fun r => g r / T)
    have h2 := sum_map_exp_pos hl (fun r => g' r / T)
    have h3 : (l.map (fun r => Real.exp (g r / T))).sum ≤ (l.map (fun r => Real.exp (g' r / T))).sum * Real.exp (E / T) := by
      rw [mul_list_sum]
      refine List.sum_le_sum (fun r hr => ?_)
      rw [← Real.exp_add, ← add_div]
      exact Real.exp_le_exp.2 (div_le_div_of_nonneg_right (h r hr) hT.le)
    have h4 := Real.log_le_log h1 h3
    rw [Real.log_mul h2.ne' (Real.exp_pos _).ne', Real.log_exp] at h4
    have h5 := mul_le_mul_of_nonneg_left h4 hT.le
    rw [mul_add, mul_div_cancel₀ _ hT.ne'] at h5
    exact h5
  rw [abs_le]
  constructor
  · have := key g' g (fun r hr => by have := (abs_le.1 (h r hr)).1; linarith)
    linarith
  · have := key g g' (fun r hr => by have := (abs_le.1 (h r hr)).2; linarith)
    linarith

theorem varToFac_close {scopes : List (List Var)} {m m' : Msgs ℝ} {D : ℝ} (ev : Var → Nat → ℝ) {f i : Nat} {v : Var} (he : IsEdge scopes f i v) {s : Nat} (hs : s < v.n)
    (h : ∀ f i v s, IsEdge scopes f i v → s < v.n → |m f i s - m' f i s| ≤ D) :
    |varToFac scopes ev m v (f, i) s - varToFac scopes ev m' v (f, i) s| ≤ D * (((edgesOf scopes v).length - 1 : Nat) : ℝ) := by
  unfold varToFac
  rw [add_sub_add_left_eq_sub]
  have hlen : ((edgesOf scopes v).filter (fun e' => e' ≠ (f, i))).length = (edgesOf scopes v).length - 1 := by
    have h1 : ((edgesOf scopes v).filter (fun e' => e' ≠ (f, i))) = (edgesOf scopes v).erase (f, i) := by
      rw [(edgesOf_nodup scopes v).erase_eq_filter]
      congr 1
      funext e
      by_cases h : e = (f, i) <;> simp [h]
    rw [h1, List.length_erase_of_mem ((mem_edgesOf _ _ _ _).2 he)]
  rw [← hlen]
  have key : ∀ l : List (Nat × Nat), (l.map (fun e' => m e'.1 e'.2 s)).sum - (l.map (fun e' => m' e'.1 e'.2 s)).sum = (l.map (fun e' => m e'.1 e'.2 s - m' e'.1 e'.2 s)).sum := by
    intro l
    induction l with
    | nil => simp
    | cons a l ih => simp only [List.map_cons, List.sum_cons]; rw [← ih]; ring
  rw [key]
  refine abs_sum_le _ _ _ (fun e' he' => ?_)
  exact h _ _ v s ((mem_edgesOf _ _ _ _).1 (List.mem_filter.1 he').1) hs

theorem scoreBut_close {factors : List (SFac ℝ)} {f : Nat} {F : SFac ℝ} (hF : factors[f]? = some F) {m m' : Msgs ℝ} {D : ℝ} (ev : Var → Nat → ℝ)
    (h : ∀ f i v s, IsEdge (factors.map (·.scope)) f i v → s < v.n → |m f i s - m' f i s| ≤ D) (i : Nat) {r : List Nat × ℝ}
    (hfit : List.Forall₂ (fun s (v : Var) => s < v.n) r.1 F.scope) :
    |scoreBut F.scope.length (tbIn factors ev m f F) i r - scoreBut F.scope.length (tbIn factors ev m' f F) i r| ≤ D * (inputsBut (factors.map (·.scope)) F.scope i : ℝ) := by
  unfold scoreBut inputsBut
  rw [add_sub_add_left_eq_sub]
  have key : ∀ l : List Nat, (∀ j ∈ l, j < F.scope.length) → |(l.map (fun j => tbIn factors ev m f F j (r.1.getD j 0))).sum - (l.map (fun j => tbIn factors ev m' f F j (r.1.getD j 0))).sum|
      ≤ D * ((l.map (fun j => (edgesOf (factors.map (·.scope)) (F.scope.getD j ⟨0, 0⟩)).length - 1)).sum : Nat) := by
    intro l
    induction l with
    | nil => simp
    | cons j l ih =>
      intro hl
      have h1 := ih (fun k hk => hl k (by simp [hk]))
      have hj := hl j (by simp)
      have hlen := hfit.length_eq
      obtain ⟨w, hw, hlt⟩ := forall₂_getElem? hfit (List.getElem?_eq_getElem (show j < r.1.length by omega))
      have h2 := varToFac_close ev (f := f) (i := j) ⟨_, getElem?_scopes hF, hw⟩ hlt h
      simp only [List.map_cons, List.sum_cons]
      rw [getD_of_some hw, getD_of_some (List.getElem?_eq_getElem (show j < r.1.length by omega)), tbIn_at hw, tbIn_at hw]
      rw [Nat.cast_add, mul_add, add_sub_add_comm]
      exact le_trans (abs_add_le _ _) (add_le_add h2 h1)
  exact key _ (fun j hj => by have := (List.mem_filter.1 hj).1; simpa using this)

/-- Runs with nearly equal summaries stay close. -/
theorem sumRun_close {factors : List (SFac ℝ)} (hrow : ∀ F ∈ factors, ∀ r ∈ F.rows, List.Forall₂ (fun s (v : Var) => s < v.n) r.1 F.scope)
    {T : ℝ} (hT : 0 < T) (Φ : Nat → List ℝ → ℝ) {δ : ℝ} (hΦ : ∀ f l, l ≠ [] → lse T l ≤ Φ f l ∧ Φ f l ≤ lse T l + δ) (hδ : 0 ≤ δ) {L : ℝ} (hL1 : 1 ≤ L)
    (hL : ∀ F ∈ factors, ∀ i < F.scope.length, (inputsBut (factors.map (·.scope)) F.scope i : ℝ) ≤ L) (ev : Var → Nat → ℝ) {d : ℝ} (hd : 0 ≤ d ∧ d ≤ 1) (m : Msgs ℝ) (n : Nat) :
    ∀ f i v s, IsEdge (factors.map (·.scope)) f i v → s < v.n →
      |sumRun Φ factors ev d n m f i s - sumRun (fun _ => lse T) factors ev d n m f i s| ≤ δ * ∑ k ∈ Finset.range n, (2 * L) ^ k := by
  induction n with
  | zero => intro f i v s _ _; simp [sumRun]
  | succ n ih =>
    intro f i v s he hs
    obtain ⟨vs, h1, h2⟩ := he
    rw [List.getElem?_map] at h1
    obtain ⟨F, hF, rfl⟩ := Option.map_eq_some_iff.1 h1
    have hFm := List.mem_of_getElem? hF
    generalize hDe : δ * ∑ k ∈ Finset.range n, (2 * L) ^ k = D at ih
    have hD : 0 ≤ D := by
      rw [← hDe]
      exact mul_nonneg hδ (Finset.sum_nonneg (fun k _ => pow_nonneg (by linarith) _))
    have hgoal : δ * ∑ k ∈ Finset.range (n + 1), (2 * L) ^ k = δ + 2 * L * D := by
      rw [Finset.sum_range_succ', ← hDe]
      simp only [pow_succ, pow_zero]
      rw [← Finset.sum_mul]
      ring
    rw [hgoal]
    show |sumStep Φ factors ev d _ f i s - sumStep _ factors ev d _ f i s| ≤ _
    rw [sumStep_at _ hF h2, sumStep_at _ hF h2]
    generalize sumRun Φ factors ev d n m = mc at ih ⊢
    generalize sumRun (fun _ => lse T) factors ev d n m = mt at ih ⊢
    have hLD : 0 ≤ L * D := mul_nonneg (by linarith) hD
    have hres := tbNorm_close (n := v.n) (lo := -(L * D) - δ) (hi := L * D)
      (x := fun s => (sumOut (Φ f) F (tbIn factors ev mc f F) i s).map (fun x => d * mc f i s + (1 - d) * x))
      (y := fun s => (sumOut (lse T) F (tbIn factors ev mt f F) i s).map (fun x => d * mt f i s + (1 - d) * x)) (by
        intro s hs
        by_cases hne : F.rowsAt i s = []
        · left
          simp only [sumOut, if_pos hne]
          exact ⟨rfl, rfl⟩
        · right
          simp only [sumOut, if_neg hne, WithBot.map_coe]
          refine ⟨_, _, rfl, rfl, ?_⟩
          have hsc := lse_close (g := scoreBut F.scope.length (tbIn factors ev mc f F) i) (g' := scoreBut F.scope.length (tbIn factors ev mt f F) i) (E := L * D) hT hne (by
            intro r hr
            refine le_trans (scoreBut_close hF ev ih i (hrow F hFm r (List.mem_filter.1 hr).1)) ?_
            rw [mul_comm]
            exact mul_le_mul_of_nonneg_right (hL F hFm i (List.getElem?_eq_some_iff.1 h2).1) hD)
          obtain ⟨b1, b2⟩ := hΦ f ((F.rowsAt i s).map (scoreBut F.scope.length (tbIn factors ev mc f F) i)) (by simpa using hne)
          have hm := abs_le.1 (ih f i v s ⟨_, getElem?_scopes hF, h2⟩ hs)
          have hsc' := abs_le.1 hsc
          generalize Φ f ((F.rowsAt i s).map (scoreBut F.scope.length (tbIn factors ev mc f F) i)) = A at *
          generalize lse T ((F.rowsAt i s).map (scoreBut F.scope.length (tbIn factors ev mc f F) i)) = A' at *
          generalize lse T ((F.rowsAt i s).map (scoreBut F.scope.length (tbIn factors ev mt f F) i)) = B at *
          have hDL : D ≤ L * D := by nlinarith
          have e : d * mt f i s + (1 - d) * B - (d * mc f i s + (1 - d) * A) = d * (mt f i s - mc f i s) + (1 - d) * (B - A) := by ring
          rw [e]
          have e1 : -(L * D) ≤ mt f i s - mc f i s ∧ mt f i s - mc f i s ≤ L * D := ⟨by linarith, by linarith⟩
          have e2 : -(L * D) - δ ≤ B - A ∧ B - A ≤ L * D := ⟨by linarith, by linarith⟩
          constructor
          · nlinarith [mul_le_mul_of_nonneg_left e1.1 hd.1, mul_le_mul_of_nonneg_left e2.1 (sub_nonneg.2 hd.2)]
          · nlinarith [mul_le_mul_of_nonneg_left e1.2 hd.1, mul_le_mul_of_nonneg_left e2.2 (sub_nonneg.2 hd.2)]) (by linarith) s hs
    refine le_trans hres ?_
    linarith

end PGMax
