import Mathlib.Data.List.GetD
import Verif.Props.C60
import Verif.Props.C65

/-! # C66: on graphs with weak factors errors do not accumulate -/

namespace PGMax

open Filter Topology

variable {κ : Type _} {vgs : List (VGroup κ)} {hist : List (AddArg ℝ)} {garbage : Garbage} {st : FGState κ ℝ}

theorem Near.symm {ε : ℝ} {x y : List ℝ} (h : Near ε x y) : Near ε y x :=
  List.Forall₂.flip (h.imp (fun a b hab => by
    show |b - a| ≤ ε
    rw [abs_sub_comm]
    exact hab))

theorem Close.add_abs {scopes : List (List Var)} {D η : ℝ} {m m' x : Msgs ℝ} (h : Close scopes D m m') (hη : 0 ≤ η)
    (hx : ∀ f i v s, IsEdge scopes f i v → s < v.n → |x f i s - m f i s| ≤ η) : Close scopes (D + 2 * η) x m' := by
  obtain ⟨lo, hi, h⟩ := h
  refine ⟨fun f i => lo f i - η, fun f i => hi f i + η, fun f i v he => ?_⟩
  obtain ⟨h1, h2, h3, h4⟩ := h f i v he
  refine ⟨by linarith, by linarith, by linarith, fun s hs => ?_⟩
  have := h4 s hs
  have := _root_.abs_le.1 (hx f i v s he hs)
  constructor <;> (simp only; linarith)

theorem Close.congr {scopes : List (List Var)} {D : ℝ} {m m' x x' : Msgs ℝ} (h : Close scopes D m m') (hx : AgreeOn scopes x m) (hx' : AgreeOn scopes x' m') : Close scopes D x x' := by
  obtain ⟨lo, hi, h⟩ := h
  refine ⟨lo, hi, fun f i v he => ?_⟩
  obtain ⟨h1, h2, h3, h4⟩ := h f i v he
  refine ⟨h1, h2, h3, fun s hs => ?_⟩
  rw [hx f i v s he hs, hx' f i v s he hs]
  exact h4 s hs

/-- Every update by `run_bp` brings the messages of graphs with weak factors closer to each other. -/
theorem Compiled.step_close (h : Compiled vgs hist garbage st) {state : BPState ℝ} {bp : BPFun κ ℝ} {T : ℝ} (hT : 0 < T) (hbp : BP.create st state T = .ok bp)
    (env : Env ℝ) (hexp : env.exp = Real.exp) (hlog : env.log = Real.log) (hfit : Fits env (graphOf vgs hist) T) (lp ev : List ℝ)
    (hlp : lp.length = st.logPotentials.length) (hev : ev.length = st.numVarStates) (hmod : Moderate (graphOf vgs hist) lp (readEv st.varsToStarts ev) 0)
    {R : Nat → ℝ} (hR : ∀ f, 0 ≤ R f) {k : ℝ}
    (hc : ∀ (f : Nat) (F : SFac ℝ), ((graphOf vgs hist).factors lp)[f]? = some F → F.Complete ∧ F.Within (R f) ∧ ∀ i < F.scope.length,
      (1 - Real.exp (-2 * R f / T) / (1 + Real.exp (-100000))) * (inputsBut (graphOf vgs hist).allScopes F.scope i : ℝ) ≤ k)
    {d : ℝ} (hd : 0 ≤ d ∧ d ≤ 1) {x y : List ℝ} (hx : x.length = st.totalFactorNumStates) (hy : y.length = st.totalFactorNumStates)
    (hxc : Clipped (graphOf vgs hist).allScopes (readMsgs (graphOf vgs hist).allScopes x)) (hyc : Clipped (graphOf vgs hist).allScopes (readMsgs (graphOf vgs hist).allScopes y))
    {D : ℝ} (hD : 0 ≤ D) (hcl : Close (graphOf vgs hist).allScopes D (readMsgs (graphOf vgs hist).allScopes x) (readMsgs (graphOf vgs hist).allScopes y)) :
    Close (graphOf vgs hist).allScopes ((d + (1 - d) * k) * D) (readMsgs (graphOf vgs hist).allScopes (bp.step env lp ev d x))
      (readMsgs (graphOf vgs hist).allScopes (bp.step env lp ev d y)) := by
  have hsc := (graphOf vgs hist).factors_scopes lp
  have hrow : ∀ F ∈ (graphOf vgs hist).factors lp, ∀ r ∈ F.rows, List.Forall₂ (fun s (v : Var) => s < v.n) r.1 F.scope := by
    intro F hF
    obtain ⟨f, hf⟩ := List.mem_iff_getElem?.1 hF
    exact h.rowsFit lp hf
  have hrne := h.factors_rows_ne lp hlp
  have hcF : ∀ F ∈ (graphOf vgs hist).factors lp, F.Complete := by
    intro F hF
    obtain ⟨f, hf⟩ := List.mem_iff_getElem?.1 hF
    exact (hc f F hf).1
  have hfull : ∀ F ∈ tableFacs (graphOf vgs hist).tables lp, F.Full := by
    intro F hF i v s hi hs
    have hF' : F ∈ (graphOf vgs hist).factors lp := List.mem_append_left _ (List.mem_append_left _ hF)
    exact (hcF F hF').rowsAt_ne (hrow F hF') (hrne F hF') hi hs
  have hmd := hmod.damped hfull hd
  have hs := Close.step (factors := (graphOf vgs hist).factors lp) (Φ := codeSummary (graphOf vgs hist).tables.length T) (codeSummary_summary _ hT) hrow hrne (R := R)
    (c := fun f => contraction T (R f)) (fun f => contracts_codeSummary _ hT (hR f) f)
    (fun f => (contraction_mem hT (hR f)).1) (fun f F hF => ⟨(hc f F hF).1, (hc f F hF).2.1⟩) (ρ := k) (fun f F i v hF hi => by
      rw [hsc]
      exact (hc f F hF).2.2 i (List.getElem?_eq_some_iff.1 hi).1) (readEv st.varsToStarts ev) hd hD (by rw [hsc]; exact hcl)
  rw [hsc] at hs
  exact hs.congr (h.step_sum hT hbp env hexp hlog hfit lp ev x d hlp hev hx hmd hxc) (h.step_sum hT hbp env hexp hlog hfit lp ev y d hlp hev hy hmd hyc)

/-- Two sequences of messages, the second by exact updates, the first by updates with an error of at most `η`. -/
theorem Compiled.noisy (h : Compiled vgs hist garbage st) {state : BPState ℝ} {bp : BPFun κ ℝ} {T : ℝ} (hT : 0 < T) (hbp : BP.create st state T = .ok bp)
    (env : Env ℝ) (hexp : env.exp = Real.exp) (hlog : env.log = Real.log) (hfit : Fits env (graphOf vgs hist) T) (lp ev : List ℝ)
    (hlp : lp.length = st.logPotentials.length) (hev : ev.length = st.numVarStates) (hmod : Moderate (graphOf vgs hist) lp (readEv st.varsToStarts ev) 0)
    {R : Nat → ℝ} (hR : ∀ f, 0 ≤ R f) {k : ℝ} (hk : 0 ≤ k ∧ k < 1)
    (hc : ∀ (f : Nat) (F : SFac ℝ), ((graphOf vgs hist).factors lp)[f]? = some F → F.Complete ∧ F.Within (R f) ∧ ∀ i < F.scope.length,
      (1 - Real.exp (-2 * R f / T) / (1 + Real.exp (-100000))) * (inputsBut (graphOf vgs hist).allScopes F.scope i : ℝ) ≤ k)
    {d : ℝ} (hd0 : 0 ≤ d) (hd1 : d < 1) {x y : Nat → List ℝ} (hx : ∀ n, (x n).length = st.totalFactorNumStates) (hy : ∀ n, (y n).length = st.totalFactorNumStates)
    (hxc : ∀ n, Clipped (graphOf vgs hist).allScopes (readMsgs (graphOf vgs hist).allScopes (x n)))
    (hyc : ∀ n, Clipped (graphOf vgs hist).allScopes (readMsgs (graphOf vgs hist).allScopes (y n)))
    {δ η : ℝ} (hδ : 0 ≤ δ) (hη : 0 ≤ η)
    (h0 : ∀ f i v s, IsEdge (graphOf vgs hist).allScopes f i v → s < v.n →
      |readMsgs (graphOf vgs hist).allScopes (x 0) f i s - readMsgs (graphOf vgs hist).allScopes (y 0) f i s| ≤ δ)
    (hsx : ∀ n f i v s, IsEdge (graphOf vgs hist).allScopes f i v → s < v.n →
      |readMsgs (graphOf vgs hist).allScopes (x (n + 1)) f i s - readMsgs (graphOf vgs hist).allScopes (bp.step env lp ev d (x n)) f i s| ≤ η)
    (hsy : ∀ n, y (n + 1) = bp.step env lp ev d (y n)) (n : Nat) :
    ∀ f i v s, IsEdge (graphOf vgs hist).allScopes f i v → s < v.n →
      |readMsgs (graphOf vgs hist).allScopes (x n) f i s - readMsgs (graphOf vgs hist).allScopes (y n) f i s|
        ≤ 2 * δ * (d + (1 - d) * k) ^ n + 2 * η / (1 - (d + (1 - d) * k)) * (1 - (d + (1 - d) * k) ^ n) := by
  have hρ0 : 0 ≤ d + (1 - d) * k := add_nonneg hd0 (mul_nonneg (by linarith) hk.1)
  have hρ1 : 0 < 1 - (d + (1 - d) * k) := by
    have := mul_lt_mul_of_pos_left hk.2 (show 0 < 1 - d by linarith)
    linarith
  have key : Close (graphOf vgs hist).allScopes (2 * δ * (d + (1 - d) * k) ^ n + 2 * η / (1 - (d + (1 - d) * k)) * (1 - (d + (1 - d) * k) ^ n))
      (readMsgs (graphOf vgs hist).allScopes (x n)) (readMsgs (graphOf vgs hist).allScopes (y n)) := by
    induction n with
    | zero => simpa using Close.of_abs h0 hδ
    | succ n ih =>
      have hD : 0 ≤ 2 * δ * (d + (1 - d) * k) ^ n + 2 * η / (1 - (d + (1 - d) * k)) * (1 - (d + (1 - d) * k) ^ n) := by
        have h1 : (d + (1 - d) * k) ^ n ≤ 1 := pow_le_one₀ hρ0 (by linarith)
        have h2 : 0 ≤ (d + (1 - d) * k) ^ n := pow_nonneg hρ0 n
        exact add_nonneg (by positivity) (mul_nonneg (div_nonneg (by linarith) hρ1.le) (by linarith))
      have h1 := (h.step_close hT hbp env hexp hlog hfit lp ev hlp hev hmod hR hc ⟨hd0, hd1.le⟩ (hx n) (hy n) (hxc n) (hyc n) hD ih).add_abs hη (hsx n)
      rw [← hsy n] at h1
      convert h1 using 1
      rw [pow_succ]
      field_simp
      ring
  intro f i v s he hs
  exact key.abs_le he hs

theorem Compiled.run_clipped (h : Compiled vgs hist garbage st) {state : BPState ℝ} {bp : BPFun κ ℝ} {T : ℝ} (hbp : BP.create st state T = .ok bp)
    (env : Env ℝ) (hseg : SegFits env (graphOf vgs hist)) (a : BPArrays ℝ) (d : ℝ)
    (hlp : a.logPotentials.length = st.logPotentials.length) (hm : a.ftovMsgs.length = st.totalFactorNumStates) (n : Nat) :
    Clipped (graphOf vgs hist).allScopes (readMsgs (graphOf vgs hist).allScopes (bp.runBP env a n d).ftovMsgs) :=
  fun f i v s he hs => (C31_run_partial h hbp env hseg a d n hlp hm f i v he).1 s hs

/-- **C66, rounding.** Under the conditions of C60 (temperature `T > 0`, complete tables, and log potentials that are weak compared to the number of messages that go into a message, with factor `k < 1`),
with damping `0 ≤ d < 1`: if the initial normalisation and every update are computed with an error of at most `η` in every entry, and the results are in the range `[-1000, 0]` of normalised messages, then
after every number of iterations the messages are within `2 η / ((1 - d) (1 - k))` of those of `run_bp`, and the beliefs and decoded states accordingly. -/
theorem C66_rounding [DecidableEq κ] (h : Compiled vgs hist garbage st) {state : BPState ℝ} {bp : BPFun κ ℝ} {T : ℝ} (hT : 0 < T) (hbp : BP.create st state T = .ok bp)
    (env : Env ℝ) (hexp : env.exp = Real.exp) (hlog : env.log = Real.log) (hfit : Fits env (graphOf vgs hist) T) (a : BPArrays ℝ)
    (hlp : a.logPotentials.length = st.logPotentials.length) (hev : a.evidence.length = st.numVarStates) (hm : a.ftovMsgs.length = st.totalFactorNumStates)
    (hmod : Moderate (graphOf vgs hist) a.logPotentials (readEv st.varsToStarts a.evidence) 0)
    (R : Nat → ℝ) (hR : ∀ f, 0 ≤ R f) (k : ℝ) (hk : 0 ≤ k ∧ k < 1)
    (hc : ∀ (f : Nat) (F : SFac ℝ), ((graphOf vgs hist).factors a.logPotentials)[f]? = some F → F.Complete ∧ F.Within (R f) ∧ ∀ i < F.scope.length,
      (1 - Real.exp (-2 * R f / T) / (1 + Real.exp (-100000))) * (inputsBut (graphOf vgs hist).allScopes F.scope i : ℝ) ≤ k)
    {d : ℝ} (hd0 : 0 ≤ d) (hd1 : d < 1) {η : ℝ} (hη : 0 ≤ η) {x : Nat → List ℝ} (hx : Rounded bp env a d η x) (hrange : ∀ n, ∀ z ∈ x n, -1000 ≤ z ∧ z ≤ 0) (n : Nat) :
    StaysNear vgs hist st bp ⟨a.logPotentials, x n, a.evidence⟩ (bp.runBP env a n d) 0 (2 * η / ((1 - d) * (1 - k))) := by
  have hrl : ∀ n, (bp.runBP env a n d).ftovMsgs.length = st.totalFactorNumStates := fun n => (h.run_read hbp env hfit a d hlp hev n hm).1
  have hxl : ∀ n, (x n).length = st.totalFactorNumStates := by
    intro n
    induction n with
    | zero => rw [hx.init.length_eq, h.normalize_length hbp env _ hm]
    | succ n ih => rw [(hx.step n).length_eq, (h.step_norm hbp env hfit.seg a.logPotentials a.evidence (x n) d hlp ih).2.2.1]
  refine h.staysNear hbp le_rfl (hxl n) (hrl n) hev hev (List.forall₂_same.2 (fun _ _ => by simp)) ?_
  intro f i v s he hs
  refine (h.noisy hT hbp env hexp hlog hfit a.logPotentials a.evidence hlp hev hmod hR hk hc hd0 hd1 hxl hrl (fun k f i v s he hs => ?_)
    (h.run_clipped hbp env hfit.seg a d hlp hm) hη hη (fun f i v s he hs => hx.init.getD hη _) (fun n f i v s he hs => (hx.step n).getD hη _)
    (fun n => iterate_succ' _ _ _) n f i v s he hs).trans ?_
  · unfold readMsgs
    rw [List.getD_eq_getElem?_getD]
    cases hz : (x k)[edgeStart (graphOf vgs hist).allScopes f i + s]? with
    | none => norm_num
    | some z => exact hrange k z (List.mem_of_getElem? hz)
  · have e : 1 - (d + (1 - d) * k) = (1 - d) * (1 - k) := by ring
    have hρ0 : 0 ≤ d + (1 - d) * k := add_nonneg hd0 (mul_nonneg (by linarith) hk.1)
    have hp : 0 < (1 - d) * (1 - k) := mul_pos (by linarith) (by linarith [hk.2])
    have h1 : 0 ≤ (d + (1 - d) * k) ^ n := pow_nonneg hρ0 n
    rw [e]
    have h2 : 2 * η ≤ 2 * η / ((1 - d) * (1 - k)) := by
      rw [le_div_iff₀ hp]
      have : (1 - d) * (1 - k) ≤ 1 := by rw [← e]; linarith
      nlinarith
    nlinarith [mul_le_mul_of_nonneg_right h2 h1]

/-- The updates of two runs differ by little if their inputs do. -/
theorem Compiled.step_inputs (h : Compiled vgs hist garbage st) {state : BPState ℝ} {bp : BPFun κ ℝ} {T : ℝ} (hT : 0 < T) (hbp : BP.create st state T = .ok bp)
    (env : Env ℝ) (hexp : env.exp = Real.exp) (hlog : env.log = Real.log) (hseg : SegFits env (graphOf vgs hist)) {lp ev lp' ev' : List ℝ}
    (hlp : lp.length = st.logPotentials.length) (hev : ev.length = st.numVarStates) {d : ℝ} (hd : 0 ≤ d ∧ d ≤ 1)
    {ε L A : ℝ} (hε : 0 ≤ ε) (hnlp : Near ε lp lp') (hnev : Near ε ev ev') (hin : Inputs (graphOf vgs hist).allScopes L A) {x : List ℝ}
    (hx : x.length = st.totalFactorNumStates) : ∀ f i v s, IsEdge (graphOf vgs hist).allScopes f i v → s < v.n →
      |readMsgs (graphOf vgs hist).allScopes (bp.step env lp ev d x) f i s - readMsgs (graphOf vgs hist).allScopes (bp.step env lp' ev' d x) f i s| ≤ 4 * A * ε := by
  intro f i v s he hs
  have hlp' := hnlp.length_eq.symm.trans hlp
  have hev' := hnev.length_eq.symm.trans hev
  have hsc := (graphOf vgs hist).factors_scopes lp
  have h2 := flStep_near (ruleLip_sum hT (graphOf vgs hist)) (h.inNear hε hnlp hnev) (by rw [hsc]; exact hin) le_rfl
    (m := readMsgs (graphOf vgs hist).allScopes x) (m' := readMsgs (graphOf vgs hist).allScopes x) (fun _ _ _ _ _ _ => by simp) hd f i v s (by rw [hsc]; exact he) hs
  rw [← h.step_fl hbp env hseg lp ev x d hlp hev hx _ (h.ruleSum_congr T lp)
      (h.ruleSum hT hbp hexp hlog _ _ hlp (h.step_norm hbp env hseg lp ev x d hlp hx).1) (fun _ _ _ _ _ _ => rfl) f i v s he hs,
    ← h.step_fl hbp env hseg lp' ev' x d hlp' hev' hx _ (h.ruleSum_congr T lp')
      (h.ruleSum hT hbp hexp hlog _ _ hlp' (h.step_norm hbp env hseg lp' ev' x d hlp' hx).1) (fun _ _ _ _ _ _ => rfl) f i v s he hs] at h2
  refine h2.trans (le_of_eq (by ring))

/-- **C66, inputs.** Under the conditions of C60 for the run `a`, let the log potentials and evidence of another run `a'` on the same graph differ from those of `a` by at most `ε` in every entry and its
initial messages by at most `δ`. After `n` iterations the messages differ by at most `4 δ (d + (1 - d) k)^n + 8 A ε / ((1 - d) (1 - k))`, for factors of fewer than `A` variables: the effect of the initial
messages disappears, and the effect of the inputs does not grow with the number of iterations. -/
theorem C66_inputs [DecidableEq κ] (h : Compiled vgs hist garbage st) {state : BPState ℝ} {bp : BPFun κ ℝ} {T : ℝ} (hT : 0 < T) (hbp : BP.create st state T = .ok bp)
    (env : Env ℝ) (hexp : env.exp = Real.exp) (hlog : env.log = Real.log) (hfit : Fits env (graphOf vgs hist) T) (a a' : BPArrays ℝ)
    (hlp : a.logPotentials.length = st.logPotentials.length) (hev : a.evidence.length = st.numVarStates) (hm : a.ftovMsgs.length = st.totalFactorNumStates)
    (hmod : Moderate (graphOf vgs hist) a.logPotentials (readEv st.varsToStarts a.evidence) 0)
    (R : Nat → ℝ) (hR : ∀ f, 0 ≤ R f) (k : ℝ) (hk : 0 ≤ k ∧ k < 1)
    (hc : ∀ (f : Nat) (F : SFac ℝ), ((graphOf vgs hist).factors a.logPotentials)[f]? = some F → F.Complete ∧ F.Within (R f) ∧ ∀ i < F.scope.length,
      (1 - Real.exp (-2 * R f / T) / (1 + Real.exp (-100000))) * (inputsBut (graphOf vgs hist).allScopes F.scope i : ℝ) ≤ k)
    {d : ℝ} (hd0 : 0 ≤ d) (hd1 : d < 1) {ε δ L A : ℝ} (hε : 0 ≤ ε) (hδ : 0 ≤ δ) (hnlp : Near ε a.logPotentials a'.logPotentials) (hnev : Near ε a.evidence a'.evidence)
    (hnm : Near δ a.ftovMsgs a'.ftovMsgs) (hin : Inputs (graphOf vgs hist).allScopes L A) (n : Nat) :
    StaysNear vgs hist st bp (bp.runBP env a' n d) (bp.runBP env a n d) ε (4 * δ * (d + (1 - d) * k) ^ n + 8 * A * ε / ((1 - d) * (1 - k))) := by
  have hlp' := hnlp.length_eq.symm.trans hlp
  have hev' := hnev.length_eq.symm.trans hev
  have hm' := hnm.length_eq.symm.trans hm
  have hrl : ∀ n, (bp.runBP env a n d).ftovMsgs.length = st.totalFactorNumStates := fun n => (h.run_read hbp env hfit a d hlp hev n hm).1
  have hrl' : ∀ n, (bp.runBP env a' n d).ftovMsgs.length = st.totalFactorNumStates := fun n => (h.run_read hbp env hfit a' d hlp' hev' n hm').1
  refine h.staysNear hbp hε (hrl' n) (hrl n) hev' hev hnev.symm ?_
  intro f i v s he hs
  have hA : 0 ≤ A := by
    obtain ⟨vs, h1, -⟩ := he
    have := hin.arity vs (List.mem_of_getElem? h1)
    have h0 : (0 : ℝ) ≤ vs.length := Nat.cast_nonneg _
    linarith
  refine (h.noisy hT hbp env hexp hlog hfit a.logPotentials a.evidence hlp hev hmod hR hk hc hd0 hd1 (x := fun n => (bp.runBP env a' n d).ftovMsgs) hrl' hrl
    (h.run_clipped hbp env hfit.seg a' d hlp' hm') (h.run_clipped hbp env hfit.seg a d hlp hm) (δ := 2 * δ) (η := 4 * A * ε) (by linarith) (by positivity)
    (fun f i v s he hs => ?_) (fun n f i v s he hs => ?_) (fun n => iterate_succ' _ _ _) n f i v s he hs).trans ?_
  · have h1 := (C65_sum h hT hbp env hexp hlog hfit.seg a a' 0 ⟨hd0, hd1.le⟩ hlp hev hm hε hδ hnlp hnev hnm hin).1 f i v s he hs
    rw [abs_sub_comm]
    refine h1.trans (le_of_eq ?_)
    simp [spread]
  · have e : (bp.runBP env a' (n + 1) d).ftovMsgs = bp.step env a'.logPotentials a'.evidence d (bp.runBP env a' n d).ftovMsgs := iterate_succ' _ _ _
    rw [e]
    exact h.step_inputs hT hbp env hexp hlog hfit.seg hlp' hev' ⟨hd0, hd1.le⟩ hε hnlp.symm hnev.symm hin (hrl' n) f i v s he hs
  · have e : 1 - (d + (1 - d) * k) = (1 - d) * (1 - k) := by ring
    have hρ0 : 0 ≤ d + (1 - d) * k := add_nonneg hd0 (mul_nonneg (by linarith) hk.1)
    have hp : 0 < (1 - d) * (1 - k) := mul_pos (by linarith) (by linarith [hk.2])
    have h1 : 0 ≤ (d + (1 - d) * k) ^ n := pow_nonneg hρ0 n
    have h2 : 0 ≤ 8 * A * ε / ((1 - d) * (1 - k)) := by positivity
    rw [e, show 2 * (4 * A * ε) = 8 * A * ε by ring]
    nlinarith

/-- **C66, limits.** Under the conditions of C60 there is an array `L` of messages to which the messages of all runs converge, and which changes little with the inputs: with log potentials and evidence that
differ by at most `ε`, all messages that are not changed by `run_bp` with any damping `0 ≤ d < 1` are within `8 A ε / ((1 - d) (1 - k))` of `L`. -/
theorem C66_limit [DecidableEq κ] (h : Compiled vgs hist garbage st) {state : BPState ℝ} {bp : BPFun κ ℝ} {T : ℝ} (hT : 0 < T) (hbp : BP.create st state T = .ok bp)
    (env : Env ℝ) (hexp : env.exp = Real.exp) (hlog : env.log = Real.log) (hfit : Fits env (graphOf vgs hist) T) (lp ev : List ℝ)
    (hlp : lp.length = st.logPotentials.length) (hev : ev.length = st.numVarStates) (hmod : Moderate (graphOf vgs hist) lp (readEv st.varsToStarts ev) 0)
    (R : Nat → ℝ) (hR : ∀ f, 0 ≤ R f) (k : ℝ) (hk : 0 ≤ k ∧ k < 1)
    (hc : ∀ (f : Nat) (F : SFac ℝ), ((graphOf vgs hist).factors lp)[f]? = some F → F.Complete ∧ F.Within (R f) ∧ ∀ i < F.scope.length,
      (1 - Real.exp (-2 * R f / T) / (1 + Real.exp (-100000))) * (inputsBut (graphOf vgs hist).allScopes F.scope i : ℝ) ≤ k) {B A : ℝ} (hin : Inputs (graphOf vgs hist).allScopes B A) :
    ∃ L : List ℝ, L.length = st.totalFactorNumStates ∧ (∀ d, 0 ≤ d → d < 1 → ∀ n, (bp.runBP env ⟨lp, L, ev⟩ n d).ftovMsgs = L) ∧
      (∀ d, 0 ≤ d → d < 1 → ∀ η, 0 ≤ η → ∀ (ms : List ℝ) (x : Nat → List ℝ), ms.length = st.totalFactorNumStates →
        (∀ f i v, IsEdge (graphOf vgs hist).allScopes f i v → ∃ s < v.n, -100000 ≤ readMsgs (graphOf vgs hist).allScopes ms f i s) →
        Rounded bp env ⟨lp, ms, ev⟩ d η x → (∀ n, ∀ z ∈ x n, -1000 ≤ z ∧ z ≤ 0) → ∀ n p, p < st.totalFactorNumStates →
        |(x n).getD p 0 - L.getD p 0| ≤ 2000 * (d + (1 - d) * k) ^ n + 2 * η / ((1 - d) * (1 - k))) ∧
      ∀ d, 0 ≤ d → d < 1 → ∀ ε, 0 ≤ ε → ∀ lp' ev' L' : List ℝ, Near ε lp lp' → Near ε ev ev' → L'.length = st.totalFactorNumStates →
        (∀ n, (bp.runBP env ⟨lp', L', ev'⟩ n d).ftovMsgs = L') → ∀ p < st.totalFactorNumStates, |L'.getD p 0 - L.getD p 0| ≤ 8 * A * ε / ((1 - d) * (1 - k)) := by
  obtain ⟨L, hL, hrun⟩ := C60 h hT hbp env hexp hlog hfit lp ev hlp hev hmod R hR k hk hc
  refine ⟨L, hL, fun d hd0 hd1 => (hrun d hd0 hd1).2, fun d hd0 hd1 η hη ms x hms hinit hx hrange n p hp => ?_, ?_⟩
  · have h1 := (hrun d hd0 hd1).1 ms hms hinit n p hp
    have h2 := (C66_rounding h hT hbp env hexp hlog hfit ⟨lp, ms, ev⟩ hlp hev hms hmod R hR k hk hc hd0 hd1 hη hx hrange n).1
    rw [h.totalStates] at hp
    obtain ⟨f, i, vs, v, s, k1, k2, k3, rfl⟩ := exists_edgeStart _ p hp
    have h3 := h2 f i v s ⟨vs, k1, k2⟩ k3
    unfold readMsgs at h3
    have h4 := abs_le.1 h1
    have h5 := abs_le.1 h3
    rw [abs_le]
    constructor <;> linarith
  · intro d hd0 hd1 ε hε lp' ev' L' hnlp hnev hL' hfix p hp
    have hlp' := hnlp.length_eq.symm.trans hlp
    have hcl := h.run_clipped hbp env hfit.seg ⟨lp', L', ev'⟩ d hlp' hL' 0
    rw [hfix 0] at hcl
    have hpos : ∀ f i v, IsEdge (graphOf vgs hist).allScopes f i v → 0 < v.n := by
      intro f i v he
      obtain ⟨F, hF, hi, -⟩ := (graphOf vgs hist).factors_edge lp he
      obtain ⟨r, hr⟩ := List.exists_mem_of_ne_nil _ (h.factors_rows_ne lp hlp F (List.mem_of_getElem? hF))
      have hr' := h.rowsFit lp hF r hr
      have hlt : i < r.1.length := by
        rw [hr'.length_eq]
        exact (List.getElem?_eq_some_iff.1 hi).1
      obtain ⟨w, hw, hlt'⟩ := forall₂_getElem? hr' (List.getElem?_eq_getElem hlt)
      rw [hi] at hw
      cases hw
      omega
    have hinit : ∀ f i v, IsEdge (graphOf vgs hist).allScopes f i v → ∃ s < v.n, -100000 ≤ readMsgs (graphOf vgs hist).allScopes L' f i s :=
      fun f i v he => ⟨0, hpos f i v he, by linarith [(hcl f i v 0 he (hpos f i v he)).1]⟩
    have hρ0 : 0 ≤ d + (1 - d) * k := add_nonneg hd0 (mul_nonneg (by linarith) hk.1)
    have hρ1 : d + (1 - d) * k < 1 := by
      have := mul_lt_mul_of_pos_left hk.2 (show 0 < 1 - d by linarith)
      linarith
    have hlim : Tendsto (fun n => 2000 * (d + (1 - d) * k) ^ n + 8 * A * ε / ((1 - d) * (1 - k))) atTop (𝓝 (2000 * 0 + 8 * A * ε / ((1 - d) * (1 - k)))) :=
      ((tendsto_pow_atTop_nhds_zero_of_lt_one hρ0 hρ1).const_mul 2000).add_const _
    rw [mul_zero, zero_add] at hlim
    refine ge_of_tendsto' hlim (fun n => ?_)
    have h1 := (hrun d hd0 hd1).1 L' hL' hinit n p hp
    have h2 := (C66_inputs h hT hbp env hexp hlog hfit ⟨lp, L', ev⟩ ⟨lp', L', ev'⟩ hlp hev hL' hmod R hR k hk hc hd0 hd1 hε le_rfl hnlp hnev
      (List.forall₂_same.2 (fun _ _ => by simp)) hin n).1
    rw [hfix n, mul_zero, zero_mul, zero_add] at h2
    rw [h.totalStates] at hp
    obtain ⟨f, i, vs, v, s, k1, k2, k3, rfl⟩ := exists_edgeStart _ p hp
    have h3 := h2 f i v s ⟨vs, k1, k2⟩ k3
    unfold readMsgs at h3
    have h4 := abs_le.1 h1
    have h5 := abs_le.1 h3
    rw [abs_le]
    constructor <;> linarith

/-! ## Non-vacuity -/

theorem exWeakL : ∀ (f : Nat) (F : SFac ℝ), ((graphOf exVars exHistL).factors exLpL)[f]? = some F → F.Complete ∧ F.Within 1 ∧ ∀ i < F.scope.length,
    (1 - Real.exp (-2 * 1 / 1) / (1 + Real.exp (-100000))) * (inputsBut (graphOf exVars exHistL).allScopes F.scope i : ℝ) ≤ contraction 1 1 := by
  intro f F hF
  have hF' := List.mem_of_getElem? hF
  refine ⟨exCompleteL F hF', ?_, fun i hi => ?_⟩
  · have : ∀ F ∈ (graphOf exVars exHistL).factors exLpL, F.Within 1 := by
      rw [exFactorsL]
      simp only [SFac.Within, List.forall_mem_cons]
      norm_num
    exact this F hF'
  · have h1 : (inputsBut (graphOf exVars exHistL).allScopes F.scope i : ℝ) ≤ 1 := by
      exact_mod_cast exInputsL F.scope (by rw [← (graphOf exVars exHistL).factors_scopes exLpL]; exact List.mem_map.2 ⟨F, hF', rfl⟩) i hi
    exact (mul_le_mul_of_nonneg_left h1 (contraction_mem one_pos zero_le_one).1).trans (by rw [mul_one])

theorem exBoundsL : Inputs (graphOf exVars exHistL).allScopes 2 3 := by
  refine ⟨by norm_num, ?_, ?_⟩
  · have h3 : ∀ vs ∈ (graphOf exVars exHistL).allScopes, inputsBut (graphOf exVars exHistL).allScopes vs vs.length ≤ 2 := by
      rw [exScopesL]; decide +kernel
    intro vs hvs
    exact_mod_cast h3 vs hvs
  · have h3 : ∀ vs ∈ (graphOf exVars exHistL).allScopes, vs.length + 1 ≤ 3 := by
      rw [exScopesL]; decide +kernel
    intro vs hvs
    exact_mod_cast h3 vs hvs

/-- Non-vacuity of C66 for rounding: on the loop `exHistL`, every message is too small by 1/10 (but at least -1000) after every update. -/
example {env : Env ℝ} (hexp : env.exp = Real.exp) (hlog : env.log = Real.log) (hw : env.wrapNeg = false) : ∃ x : Nat → List ℝ,
    (∀ k, x (k + 1) = ((exBPL 1).step env exLpL exEvT (1 / 2) (x k)).map (fun z => max (z - 1 / 10) (-1000))) ∧
    ∀ n, StaysNear exVars exHistL exStateL (exBPL 1) ⟨exLpL, x n, exEvT⟩
      ((exBPL 1).runBP env ⟨exLpL, List.replicate 12 0, exEvT⟩ n (1 / 2)) 0 (2 * (1 / 10) / ((1 - 1 / 2) * (1 - contraction 1 1))) := by
  have hfit : Fits env (graphOf exVars exHistL) (1 : ℝ) := ⟨.inl hw, fun h => absurd h one_ne_zero⟩
  have hmax := (exStateL_compiled.maxMsgSize (exBPL_create 1)).1
  have hcl : ∀ l : List ℝ, l.length = exStateL.totalFactorNumStates → Clipped (graphOf exVars exHistL).allScopes (readMsgs (graphOf exVars exHistL).allScopes l) →
      ∀ z ∈ l, -1000 ≤ z ∧ z ≤ 0 := by
    intro l hl hc z hz
    obtain ⟨p, hp, rfl⟩ := List.getElem_of_mem hz
    have hp' := hp
    rw [hl, exStateL_compiled.totalStates] at hp'
    obtain ⟨f, i, vs, v, s, k1, k2, k3, rfl⟩ := exists_edgeStart _ p hp'
    have := hc f i v s ⟨vs, k1, k2⟩ k3
    unfold readMsgs at this
    rwa [List.getD_eq_getElem _ _ hp] at this
  have hnear : ∀ l : List ℝ, (∀ z ∈ l, -1000 ≤ z ∧ z ≤ 0) → Near (1 / 10) (l.map (fun z => max (z - 1 / 10) (-1000))) l := by
    intro l hl
    refine List.forall₂_map_left_iff.2 (List.forall₂_same.2 (fun z hz => ?_))
    have := hl z hz
    rw [abs_le]
    rcases max_cases (z - 1 / 10) (-1000) with h | h <;> rw [h.1] <;> constructor <;> linarith
  have hrange : ∀ l : List ℝ, (∀ z ∈ l, -1000 ≤ z ∧ z ≤ 0) → ∀ z ∈ l.map (fun z => max (z - 1 / 10) (-1000)), -1000 ≤ z ∧ z ≤ 0 := by
    intro l hl z hz
    obtain ⟨y, hy, rfl⟩ := List.mem_map.1 hz
    exact ⟨le_max_right _ _, max_le (by linarith [(hl y hy).2]) (by norm_num)⟩
  have h0 : ∀ l : List ℝ, l.length = exStateL.totalFactorNumStates →
      (normalizeAndClip env l (exBPL 1).edgesNumStates (exBPL 1).maxMsgSize).length = exStateL.totalFactorNumStates ∧
      ∀ z ∈ normalizeAndClip env l (exBPL 1).edgesNumStates (exBPL 1).maxMsgSize, -1000 ≤ z ∧ z ≤ 0 := by
    intro l hl
    refine ⟨exStateL_compiled.normalize_length (exBPL_create 1) env _ hl, hcl _ (exStateL_compiled.normalize_length (exBPL_create 1) env _ hl) (fun f i v s he hs => ?_)⟩
    rw [exStateL_compiled.norm_read (exBPL_create 1) env hfit.seg l hl f i v s he hs]
    exact normM_clipped hmax _ f i v s he hs
  have h1 : ∀ l : List ℝ, l.length = exStateL.totalFactorNumStates → ((exBPL 1).step env exLpL exEvT (1 / 2) l).length = exStateL.totalFactorNumStates ∧
      ∀ z ∈ (exBPL 1).step env exLpL exEvT (1 / 2) l, -1000 ≤ z ∧ z ≤ 0 := by
    intro l hl
    obtain ⟨-, -, h3, h4⟩ := exStateL_compiled.step_norm (exBPL_create 1) env hfit.seg exLpL exEvT l (1 / 2) rfl hl
    refine ⟨h3, hcl _ h3 (fun f i v s he hs => ?_)⟩
    rw [h4 f i v s he hs]
    exact normM_clipped hmax _ f i v s he hs
  let x : Nat → List ℝ := fun k => Nat.rec ((normalizeAndClip env (List.replicate 12 0) (exBPL 1).edgesNumStates (exBPL 1).maxMsgSize).map (fun z => max (z - 1 / 10) (-1000)))
    (fun _ y => ((exBPL 1).step env exLpL exEvT (1 / 2) y).map (fun z => max (z - 1 / 10) (-1000))) k
  have hlen : ∀ k, (x k).length = exStateL.totalFactorNumStates := by
    intro k
    induction k with
    | zero => exact (List.length_map _).trans (h0 _ rfl).1
    | succ k ih => exact (List.length_map _).trans (h1 _ ih).1
  have hx : Rounded (exBPL 1) env ⟨exLpL, List.replicate 12 0, exEvT⟩ (1 / 2) (1 / 10) x := ⟨hnear _ (h0 _ rfl).2, fun k => hnear _ (h1 _ (hlen k)).2⟩
  refine ⟨x, fun _ => rfl, fun n => ?_⟩
  refine C66_rounding exStateL_compiled one_pos (exBPL_create 1) env hexp hlog hfit ⟨exLpL, List.replicate 12 0, exEvT⟩ rfl rfl rfl exModerateL (fun _ => 1)
    (fun _ => zero_le_one) _ (contraction_mem one_pos zero_le_one) exWeakL (by norm_num) (by norm_num) (by norm_num) hx (fun k => ?_) n
  cases k with
  | zero => exact hrange _ (h0 _ rfl).2
  | succ k => exact hrange _ (h1 _ (hlen k)).2

/-- Non-vacuity of C66 for inputs: the evidence and the initial messages of the loop `exHistL` are changed. -/
example {env : Env ℝ} (hexp : env.exp = Real.exp) (hlog : env.log = Real.log) (hw : env.wrapNeg = false) (n : Nat) :
    StaysNear exVars exHistL exStateL (exBPL 1) ((exBPL 1).runBP env ⟨exLpL, List.replicate 12 (-5), exEvT.map (· + 1 / 10)⟩ n (1 / 2))
      ((exBPL 1).runBP env ⟨exLpL, List.replicate 12 0, exEvT⟩ n (1 / 2)) (1 / 10)
      (4 * 5 * (1 / 2 + (1 - 1 / 2) * contraction 1 1) ^ n + 8 * 3 * (1 / 10) / ((1 - 1 / 2) * (1 - contraction 1 1))) :=
  C66_inputs exStateL_compiled one_pos (exBPL_create 1) env hexp hlog ⟨.inl hw, fun h => absurd h one_ne_zero⟩ ⟨exLpL, List.replicate 12 0, exEvT⟩
    ⟨exLpL, List.replicate 12 (-5), exEvT.map (· + 1 / 10)⟩ rfl rfl rfl exModerateL (fun _ => 1)
    (fun _ => zero_le_one) _ (contraction_mem one_pos zero_le_one) exWeakL (by norm_num) (by norm_num) (by norm_num) (by norm_num)
    (List.forall₂_same.2 (fun _ _ => by simp)) (List.forall₂_map_right_iff.2 (List.forall₂_same.2 (fun z _ => by
      rw [show z - (z + 1 / 10) = -(1 / 10) by ring]
      norm_num))) (by unfold Near; norm_num [List.replicate]) exBoundsL n

end PGMax
