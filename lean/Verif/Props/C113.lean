import Verif.Spec.Separate
import Verif.Lemmas.GatesSame
import Verif.Props.C37_C54

/-!
# C113: factors that share no variables
-/

namespace PGMax

section
variable {α : Type _} [Field α] [LinearOrder α]

theorem fadedMsg_coe {d : α} {n N : Nat} {x : Nat → WithBot α} {a b : α} (hb : (Finset.range N).sup x = WithBot.some b) {s : Nat} (ha : x s = WithBot.some a) :
    fadedMsg d n N x s = max ((1 - d ^ n) * (a - b)) (-1000) := by
  unfold fadedMsg
  rw [ha, hb]
  rfl

theorem fadedMsg_bot {d : α} {n N : Nat} {x : Nat → WithBot α} {s : Nat} (ha : x s = ⊥) : fadedMsg d n N x s = -1000 := by
  unfold fadedMsg
  rw [ha]
  rfl

theorem exists_sup {N : Nat} {x : Nat → WithBot α} {s : Nat} (hs : s < N) {a : α} (ha : x s = WithBot.some a) :
    ∃ b, (Finset.range N).sup x = WithBot.some b ∧ (∃ t < N, x t = WithBot.some b) ∧ ∀ t < N, ∀ c, x t = WithBot.some c → c ≤ b := by
  have hle : ∀ t < N, x t ≤ (Finset.range N).sup x := fun t ht => Finset.le_sup (Finset.mem_range.2 ht)
  obtain ⟨t, ht, e⟩ := Finset.exists_mem_eq_sup (Finset.range N) ⟨s, Finset.mem_range.2 hs⟩ x
  cases hb : (Finset.range N).sup x with
  | bot =>
    have := hle s hs
    rw [hb, ha] at this
    exact absurd this (by simp)
  | coe b =>
    refine ⟨b, rfl, ⟨t, Finset.mem_range.1 ht, by rw [← e, hb]⟩, fun u hu c hc => ?_⟩
    have := hle u hu
    rw [hb, hc] at this
    exact WithBot.coe_le_coe.1 this

/-- One more iteration. -/
theorem faded_step [IsStrictOrderedRing α] {d : α} (hd : 0 ≤ d ∧ d ≤ 1) {n N : Nat} {x : Nat → WithBot α} {m : Nat → α}
    (hm : ∀ s < N, ∀ a b, x s = WithBot.some a → (Finset.range N).sup x = WithBot.some b → m s = max ((1 - d ^ n) * (a - b)) (-1000)) {s : Nat} (hs : s < N) :
    tbNorm N (fun s => (x s).map (fun y => d * m s + (1 - d) * y)) s = fadedMsg d (n + 1) N x s := by
  cases hx : x s with
  | bot => rw [fadedMsg_bot hx, tbNorm_bot (by rw [hx]; rfl)]
  | coe a =>
    obtain ⟨b, h1, ⟨t, ht, h2⟩, h3⟩ := exists_sup hs hx
    have hpow : 0 ≤ 1 - d ^ n := sub_nonneg.2 (pow_le_one₀ hd.1 hd.2)
    have hmax : ∀ u < N, ∀ c, x u = WithBot.some c → m u ≤ 0 := by
      intro u hu c hc
      rw [hm u hu c b hc h1]
      have := mul_nonneg hpow (sub_nonneg.2 (h3 u hu c hc))
      exact max_le (by nlinarith) (by norm_num)
    have hmt : m t = 0 := by
      rw [hm t ht b b h2 h1, sub_self, mul_zero]
      exact max_eq_left (by norm_num)
    have hsup : (Finset.range N).sup (fun s => (x s).map (fun y => d * m s + (1 - d) * y)) = WithBot.some ((1 - d) * b) := by
      apply le_antisymm
      · apply Finset.sup_le
        intro u hu
        have hu := Finset.mem_range.1 hu
        cases hxu : x u with
        | bot => exact bot_le
        | coe c =>
          refine WithBot.coe_le_coe.2 ?_
          have k1 := hmax u hu c hxu
          have k2 := h3 u hu c hxu
          have k3 := mul_nonneg hd.1 (sub_nonneg.2 k1)
          have k4 := mul_nonneg (sub_nonneg.2 hd.2) (sub_nonneg.2 k2)
          nlinarith
      · have := Finset.le_sup (f := fun s => (x s).map (fun y => d * m s + (1 - d) * y)) (Finset.mem_range.2 ht)
        refine le_trans (le_of_eq ?_) this
        rw [h2]
        show _ = WithBot.some (d * m t + (1 - d) * b)
        rw [hmt, mul_zero, zero_add]
    rw [fadedMsg_coe h1 hx, tbNorm_coe hsup (a := d * m s + (1 - d) * a) (by rw [hx]; rfl), hm s hs a b hx h1]
    have hab := sub_nonneg.2 (h3 s hs a hx)
    have e1 : (1 - d ^ (n + 1)) * (a - b) = d * ((1 - d ^ n) * (a - b)) + (1 - d) * (a - b) := by ring
    rcases le_total (-1000) ((1 - d ^ n) * (a - b)) with hc | hc
    · rw [max_eq_left hc, e1]
      congr 1
      ring
    · rw [max_eq_right hc]
      have hlow : (a - b) ≤ -1000 := by
        have : 0 ≤ d ^ n := pow_nonneg hd.1 n
        nlinarith
      rw [max_eq_right, max_eq_right]
      · rw [e1]
        nlinarith [mul_nonneg hd.1 (sub_nonneg.2 hc), mul_nonneg (sub_nonneg.2 hd.2) (sub_nonneg.2 hlow)]
      · nlinarith [mul_nonneg (sub_nonneg.2 hd.2) (sub_nonneg.2 hlow)]

theorem Separate.edges {scopes : List (List Var)} (hsep : Separate scopes) {f i : Nat} {v : Var} (he : IsEdge scopes f i v) : edgesOf scopes v = [(f, i)] := by
  have hmem := (mem_edgesOf scopes v f i).2 he
  have hl := hsep v
  rcases e : edgesOf scopes v with _ | ⟨x, _ | ⟨y, l⟩⟩
  · rw [e] at hmem; simp at hmem
  · rw [e] at hmem; rw [List.mem_singleton.1 hmem]
  · rw [e] at hl; simp at hl

theorem Separate.varToFac {scopes : List (List Var)} (hsep : Separate scopes) {f i : Nat} {v : Var} (he : IsEdge scopes f i v) (ev : Var → Nat → α) (m : Msgs α) (s : Nat) :
    varToFac scopes ev m v (f, i) s = ev v s := by
  unfold PGMax.varToFac
  rw [hsep.edges he]
  simp

theorem Separate.tbIn {factors : List (SFac α)} (hsep : Separate (factors.map (·.scope))) {f : Nat} {F : SFac α} (hF : factors[f]? = some F) (ev : Var → Nat → α) (m : Msgs α) :
    tbIn factors ev m f F = evidenceIn F ev := by
  funext j t
  unfold PGMax.tbIn evidenceIn
  cases hw : F.scope[j]? with
  | none => rfl
  | some w => exact hsep.varToFac ⟨F.scope, by rw [List.getElem?_map, hF]; rfl, hw⟩ ev m t

theorem tbInit_nothing [IsStrictOrderedRing α] {factors : List (SFac α)} {f i : Nat} {F : SFac α} {v : Var} (hF : factors[f]? = some F) (hv : F.scope[i]? = some v) {m : Msgs α}
    (hm : ∀ s < v.n, m f i s = 0) {s : Nat} (hs : s < v.n) : tbInit factors m f i s = 0 := by
  unfold tbInit
  simp only [hF, hv]
  rw [tbNorm_congr (y := fun _ => WithBot.some 0) (fun t ht => by rw [hm t ht]) hs]
  have hsup : (Finset.range v.n).sup (fun _ => (WithBot.some 0 : WithBot α)) = WithBot.some 0 := Finset.sup_const ⟨s, Finset.mem_range.2 hs⟩ _
  rw [tbNorm_coe hsup (a := 0) rfl, sub_self]
  exact max_eq_left (by norm_num)

/-- The messages of textbook max-product. -/
theorem Separate.tbRun [IsStrictOrderedRing α] {factors : List (SFac α)} (hsep : Separate (factors.map (·.scope))) (ev : Var → Nat → α) {d : α} (hd : 0 ≤ d ∧ d ≤ 1) {m : Msgs α}
    {f i : Nat} {F : SFac α} {v : Var} (hF : factors[f]? = some F) (hv : F.scope[i]? = some v) (hm : ∀ s < v.n, m f i s = 0) (n : Nat) {s : Nat} (hs : s < v.n) :
    tbRun factors ev d (n + 1) m f i s = fadedMsg d (n + 1) v.n (tbOut F (evidenceIn F ev) i) s := by
  induction n generalizing s with
  | zero =>
    show tbStep factors ev d (tbInit factors m) f i s = _
    unfold tbStep
    simp only [hF, hv, hsep.tbIn hF]
    refine faded_step hd (fun t ht a b _ _ => ?_) hs
    rw [tbInit_nothing hF hv hm ht, pow_zero, sub_self, zero_mul]
    exact (max_eq_left (by norm_num)).symm
  | succ n ih =>
    rw [PGMax.tbRun]
    unfold tbStep
    simp only [hF, hv, hsep.tbIn hF]
    refine faded_step hd (fun t ht a b ha hb => ?_) hs
    rw [ih ht, fadedMsg_coe hb ha]

/-- The messages of textbook sum-product. -/
theorem Separate.sumRun [IsStrictOrderedRing α] {factors : List (SFac α)} (hsep : Separate (factors.map (·.scope))) (Φ : Nat → List α → α) (ev : Var → Nat → α) {d : α} (hd : 0 ≤ d ∧ d ≤ 1)
    {m : Msgs α} {f i : Nat} {F : SFac α} {v : Var} (hF : factors[f]? = some F) (hv : F.scope[i]? = some v) (hm : ∀ s < v.n, m f i s = 0) (n : Nat) {s : Nat} (hs : s < v.n) :
    sumRun Φ factors ev d (n + 1) m f i s = fadedMsg d (n + 1) v.n (sumOut (Φ f) F (evidenceIn F ev) i) s := by
  induction n generalizing s with
  | zero =>
    show sumStep Φ factors ev d (tbInit factors m) f i s = _
    unfold sumStep
    simp only [hF, hv, hsep.tbIn hF]
    refine faded_step hd (fun t ht a b _ _ => ?_) hs
    rw [tbInit_nothing hF hv hm ht, pow_zero, sub_self, zero_mul]
    exact (max_eq_left (by norm_num)).symm
  | succ n ih =>
    rw [PGMax.sumRun]
    unfold sumStep
    simp only [hF, hv, hsep.tbIn hF]
    refine faded_step hd (fun t ht a b ha hb => ?_) hs
    rw [ih ht, fadedMsg_coe hb ha]

/-- The messages after `n` iterations are within `1000 d ^ n` of what they approach. -/
theorem fadedMsg_near [IsStrictOrderedRing α] {d : α} (hd : 0 ≤ d ∧ d ≤ 1) (n : Nat) {N : Nat} (x : Nat → WithBot α) {s : Nat} (hs : s < N) :
    |fadedMsg d n N x s - tbNorm N x s| ≤ 1000 * d ^ n := by
  have hp : 0 ≤ d ^ n := pow_nonneg hd.1 n
  cases hx : x s with
  | bot =>
    rw [fadedMsg_bot hx, tbNorm_bot hx, sub_self, abs_zero]
    positivity
  | coe a =>
    obtain ⟨b, h1, -, h3⟩ := exists_sup hs hx
    rw [fadedMsg_coe h1 hx, tbNorm_coe h1 hx]
    have hab : a - b ≤ 0 := sub_nonpos.2 (h3 s hs a hx)
    have hp1 : d ^ n ≤ 1 := pow_le_one₀ hd.1 hd.2
    rw [abs_le]
    rcases le_total (-1000) (a - b) with hc | hc
    · rw [max_eq_left hc]
      have : a - b ≤ (1 - d ^ n) * (a - b) := by nlinarith
      rw [max_eq_left (hc.trans this)]
      constructor <;> nlinarith
    · rw [max_eq_right hc]
      constructor
      · have := le_max_right ((1 - d ^ n) * (a - b)) (-1000)
        linarith [mul_nonneg (show (0 : α) ≤ 1000 by norm_num) hp]
      · have : max ((1 - d ^ n) * (a - b)) (-1000) ≤ -1000 + 1000 * d ^ n := max_le (by nlinarith) (by nlinarith)
        linarith

theorem Separate.belief {scopes : List (List Var)} (hsep : Separate scopes) {f i : Nat} {v : Var} (he : IsEdge scopes f i v) (ev : Var → Nat → α) (m : Msgs α) (s : Nat) :
    beliefOf scopes ev m v s = ev v s + m f i s := by
  unfold beliefOf
  rw [hsep.edges he]
  simp

end

section
variable {κ α : Type _} {vgs : List (VGroup κ)} {hist : List (AddArg α)} {garbage : Garbage} {st : FGState κ α} [Field α] [LinearOrder α] [IsStrictOrderedRing α]

/-- **C113 (max-product).**  If no two factors share a variable, the messages of `n + 1` iterations from zero messages are the part `1 - d ^ (n + 1)` of the messages that
the factor sends if it knows the evidence of its variables (the maximum over its configurations), with maximum 0 and clipped at -1000. -/
theorem C113 (h : Compiled vgs hist garbage st) {state : BPState α} {bp : BPFun κ α}
    (hbp : BP.create st state 0 = .ok bp) (env : Env α) (hfit : Fits env (graphOf vgs hist) (0 : α)) (a : BPArrays α) (n : Nat) (d : α)
    (hlp : a.logPotentials.length = st.logPotentials.length) (hev : a.evidence.length = st.numVarStates) (hm : a.ftovMsgs = List.replicate st.totalFactorNumStates 0)
    (hmod : Moderate (graphOf vgs hist) a.logPotentials (readEv st.varsToStarts a.evidence) d)
    (hlmod : LogicalModerate (graphOf vgs hist) (readEv st.varsToStarts a.evidence))
    (hsep : Separate (graphOf vgs hist).allScopes) (hpos : ∀ f i v, IsEdge (graphOf vgs hist).allScopes f i v → 0 < v.n)
    {f i : Nat} {F : SFac α} {v : Var} (hF : ((graphOf vgs hist).factors a.logPotentials)[f]? = some F) (hv : F.scope[i]? = some v) {s : Nat} (hs : s < v.n) :
    readMsgs (graphOf vgs hist).allScopes (bp.runBP env a (n + 1) d).ftovMsgs f i s
      = fadedMsg d (n + 1) v.n (tbOut F (evidenceIn F (readEv st.varsToStarts a.evidence)) i) s := by
  have hsc := (graphOf vgs hist).factors_scopes a.logPotentials
  have he : IsEdge (graphOf vgs hist).allScopes f i v := ⟨F.scope, by rw [← hsc, List.getElem?_map, hF]; rfl, hv⟩
  have hz : ∀ f i s, readMsgs (graphOf vgs hist).allScopes a.ftovMsgs f i s = 0 := fun f i s => by rw [hm, readMsgs_none]
  rw [C37_partial h hbp env hfit a (n + 1) d hlp hev (by rw [hm, List.length_replicate]) hmod hlmod (fun f i v he => ⟨0, hpos f i v he, by rw [hz]; norm_num⟩) f i v s he hs]
  exact Separate.tbRun (by rw [hsc]; exact hsep) _ hmod.damping hF hv (fun s _ => hz f i s) n hs

/-- **C113 (rate).**  So the beliefs are within `1000 d ^ (n + 1)` of the evidence plus the (clipped) message of the factor that the variable is in; variables in no factor have
their evidence as belief. -/
theorem C113_beliefs [DecidableEq κ] (h : Compiled vgs hist garbage st) {state : BPState α} {bp : BPFun κ α}
    (hbp : BP.create st state 0 = .ok bp) (env : Env α) (hfit : Fits env (graphOf vgs hist) (0 : α)) (a : BPArrays α) (n : Nat) (d : α)
    (hlp : a.logPotentials.length = st.logPotentials.length) (hev : a.evidence.length = st.numVarStates) (hm : a.ftovMsgs = List.replicate st.totalFactorNumStates 0)
    (hmod : Moderate (graphOf vgs hist) a.logPotentials (readEv st.varsToStarts a.evidence) d)
    (hlmod : LogicalModerate (graphOf vgs hist) (readEv st.varsToStarts a.evidence))
    (hsep : Separate (graphOf vgs hist).allScopes) (hpos : ∀ f i v, IsEdge (graphOf vgs hist).allScopes f i v → 0 < v.n)
    {v : Var} {start : Nat} (hst : st.varsToStarts v = some start) {s : Nat} (hs : s < v.n) :
    ∃ b, (bp.flatBeliefs (bp.runBP env a (n + 1) d))[start + s]? = some b ∧
      ((∀ f i, ¬ IsEdge (graphOf vgs hist).allScopes f i v) → b = readEv st.varsToStarts a.evidence v s) ∧
      ∀ (f i : Nat) (F : SFac α), ((graphOf vgs hist).factors a.logPotentials)[f]? = some F → F.scope[i]? = some v →
        |b - (readEv st.varsToStarts a.evidence v s + tbNorm v.n (tbOut F (evidenceIn F (readEv st.varsToStarts a.evidence)) i) s)| ≤ 1000 * d ^ (n + 1) := by
  have hsc := (graphOf vgs hist).factors_scopes a.logPotentials
  have hm' : a.ftovMsgs.length = st.totalFactorNumStates := by rw [hm, List.length_replicate]
  have hrl := h.run_length hbp env a (n + 1) d hlp hm'
  refine ⟨_, C34_flat h hbp _ hrl (by rw [runBP_evidence]; exact hev) v start hst s hs, fun hno => ?_, fun f i F hF hv => ?_⟩
  · unfold beliefOf
    have : edgesOf (graphOf vgs hist).allScopes v = [] := by
      rw [List.eq_nil_iff_forall_not_mem]
      rintro ⟨f, i⟩ hfi
      exact hno f i ((mem_edgesOf _ v f i).1 hfi)
    rw [this, runBP_evidence]
    simp
  · have he : IsEdge (graphOf vgs hist).allScopes f i v := ⟨F.scope, by rw [← hsc, List.getElem?_map, hF]; rfl, hv⟩
    rw [hsep.belief he, C113 h hbp env hfit a n d hlp hev hm hmod hlmod hsep hpos hF hv hs, runBP_evidence, add_sub_add_left_eq_sub]
    exact fadedMsg_near hmod.damping (n + 1) _ hs

end

section
variable {κ : Type _} {vgs : List (VGroup κ)} {hist : List (AddArg ℝ)} {garbage : Garbage} {st : FGState κ ℝ}

/-- **C113 (sum-product).**  The same at a temperature `T > 0`, up to `T e^-100000 Σ_{k ≤ n} 2^k`. -/
theorem C113_sum (h : Compiled vgs hist garbage st) {state : BPState ℝ} {bp : BPFun κ ℝ} {T : ℝ} (hT : 0 < T)
    (hbp : BP.create st state T = .ok bp) (env : Env ℝ) (hexp : env.exp = Real.exp) (hlog : env.log = Real.log) (hfit : Fits env (graphOf vgs hist) T) (a : BPArrays ℝ) (n : Nat) (d : ℝ)
    (hlp : a.logPotentials.length = st.logPotentials.length) (hev : a.evidence.length = st.numVarStates) (hm : a.ftovMsgs = List.replicate st.totalFactorNumStates 0)
    (hmod : Moderate (graphOf vgs hist) a.logPotentials (readEv st.varsToStarts a.evidence) d)
    (hsep : Separate (graphOf vgs hist).allScopes) (hpos : ∀ f i v, IsEdge (graphOf vgs hist).allScopes f i v → 0 < v.n)
    {f i : Nat} {F : SFac ℝ} {v : Var} (hF : ((graphOf vgs hist).factors a.logPotentials)[f]? = some F) (hv : F.scope[i]? = some v) {s : Nat} (hs : s < v.n) :
    |readMsgs (graphOf vgs hist).allScopes (bp.runBP env a (n + 1) d).ftovMsgs f i s
      - fadedMsg d (n + 1) v.n (sumOut (lse T) F (evidenceIn F (readEv st.varsToStarts a.evidence)) i) s| ≤ T * Real.exp (-100000) * ∑ k ∈ Finset.range (n + 1), 2 ^ k := by
  have hsc := (graphOf vgs hist).factors_scopes a.logPotentials
  have he : IsEdge (graphOf vgs hist).allScopes f i v := ⟨F.scope, by rw [← hsc, List.getElem?_map, hF]; rfl, hv⟩
  have hz : ∀ f i s, readMsgs (graphOf vgs hist).allScopes a.ftovMsgs f i s = 0 := fun f i s => by rw [hm, readMsgs_none]
  have := C54_partial h hT hbp env hexp hlog hfit a (n + 1) d hlp hev (by rw [hm, List.length_replicate]) hmod (fun f i v he => ⟨0, hpos f i v he, by rw [hz]; norm_num⟩)
    (L := 1) le_rfl (fun vs _ i _ => by
      have : inputsBut (graphOf vgs hist).allScopes vs i = 0 := by
        unfold inputsBut
        rw [List.sum_eq_zero]
        intro x hx
        obtain ⟨j, -, rfl⟩ := List.mem_map.1 hx
        have := hsep (vs.getD j ⟨0, 0⟩)
        omega
      rw [this]; norm_num) f i v s he hs
  rw [Separate.sumRun (by rw [hsc]; exact hsep) _ _ hmod.damping hF hv (fun s _ => hz f i s) n hs, mul_one] at this
  exact this

end

end PGMax
