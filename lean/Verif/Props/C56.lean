import Verif.Props.C55
import Verif.Lemmas.Complete

/-! # C56: messages of complete tables are bounded by the range of their log potentials -/

namespace PGMax

section
variable {κ α : Type _} [Field α] [LinearOrder α] [IsStrictOrderedRing α] {vgs : List (VGroup κ)} {hist : List (AddArg α)} {garbage : Garbage} {st : FGState κ α}

/-- **C56, partial, temperature 0.** On any graph, with damping `d`, if an enumeration factor has every configuration exactly once and any two of its log
potentials differ by at most `R`, then after `n` iterations its messages are at least `-(R + d^n (1000 - R))` (with damping 0: `-R`).
Missing: numbers that are not moderate (`C56_refuted`); the size limits `Fits`. -/
theorem C56_partial (h : Compiled vgs hist garbage st) {state : BPState α} {bp : BPFun κ α} (hbp : BP.create st state 0 = .ok bp)
    (env : Env α) (hfit : Fits env (graphOf vgs hist) (0 : α)) (a : BPArrays α) (n : Nat) (d : α)
    (hlp : a.logPotentials.length = st.logPotentials.length) (hev : a.evidence.length = st.numVarStates) (hm : a.ftovMsgs.length = st.totalFactorNumStates)
    (hmod : Moderate (graphOf vgs hist) a.logPotentials (readEv st.varsToStarts a.evidence) d) (f : Nat) (F : SFac α)
    (hF : ((graphOf vgs hist).factors a.logPotentials)[f]? = some F) (hf : f < (graphOf vgs hist).tables.length) (hc : F.Complete) (R : α) (hR : F.Within R)
    (i : Nat) (v : Var) (he : IsEdge (graphOf vgs hist).allScopes f i v) (s : Nat) (hs : s < v.n) :
    -(R + d ^ n * (1000 - R)) ≤ readMsgs (graphOf vgs hist).allScopes (bp.runBP env a n d).ftovMsgs f i s :=
  h.complete_bound hbp env (.inl rfl) hfit summary_max (fun F q i s => by simp [softOut]) a d hlp hev hm hmod hF hf hc hR n he hs

/-- **C56, partial, exact MAP decoding.** On a tree of complete tables whose log potentials differ by less than 1000 in each table, at temperature 0
and with damping 0, after as many iterations as there are factors, the beliefs are exact max-marginals up to a constant and `decode_map_states`
returns the state of every variable that has the same state in all MAP assignments: in C38, no message is clipped. Missing: as in C38. -/
theorem C56_decode_partial [DecidableEq κ] (h : Compiled vgs hist garbage st) {state : BPState α} {bp : BPFun κ α}
    (hbp : BP.create st state 0 = .ok bp) (env : Env α) (hfit : Fits env (graphOf vgs hist) (0 : α)) (a : BPArrays α) (n : Nat)
    (hlp : a.logPotentials.length = st.logPotentials.length) (hev : a.evidence.length = st.numVarStates) (hm : a.ftovMsgs.length = st.totalFactorNumStates)
    (hmod : Moderate (graphOf vgs hist) a.logPotentials (readEv st.varsToStarts a.evidence) 0)
    (hinit : ∀ f i v, IsEdge (graphOf vgs hist).allScopes f i v → ∃ s < v.n, -100000 ≤ readMsgs (graphOf vgs hist).allScopes a.ftovMsgs f i s)
    (htree : (bipartite (graphOf vgs hist).allScopes).IsAcyclic) (hnd : ∀ vs ∈ (graphOf vgs hist).allScopes, vs.Nodup)
    (htab : (graphOf vgs hist).allScopes.length = (graphOf vgs hist).tables.length)
    (hc : ∀ F ∈ (graphOf vgs hist).factors a.logPotentials, F.Complete ∧ ∃ R < 1000, F.Within R)
    (hn : 0 < n ∧ (graphOf vgs hist).allScopes.length ≤ n) (hreg : ∀ g ∈ vgs, g.Regular) (hst : ∀ g ∈ vgs, g.Stated) :
    (∀ v ∈ graphVars vgs, ∃ c start, st.varsToStarts v = some start ∧
      IsMaxMarginal (graphVars vgs) ((graphOf vgs hist).factors a.logPotentials) (readEv st.varsToStarts a.evidence) v
        (fun s => (bp.flatBeliefs (bp.runBP env a n 0)).getD (start + s) 0 + c)) ∧
    ∃ bs rs, bp.getBeliefs (bp.runBP env a n 0) = .ok bs ∧ decodeMapStates bs = .ok rs ∧ rs.map (·.1) = vgs ∧
      ∀ x ρ, IsMAP (graphVars vgs) ((graphOf vgs hist).factors a.logPotentials) (readEv st.varsToStarts a.evidence) x ρ → ∀ p ∈ rs, ∀ v ∈ p.1.variables,
        (∀ x' ρ', IsMAP (graphVars vgs) ((graphOf vgs hist).factors a.logPotentials) (readEv st.varsToStarts a.evidence) x' ρ' → x' v = x v) →
        p.1.StateIn v (x v) p.2 := by
  have hlt : ∀ {f i v}, IsEdge (graphOf vgs hist).allScopes f i v → f < (graphOf vgs hist).tables.length := by
    rintro f i v ⟨vs, h1, -⟩
    rw [← htab]
    exact (List.getElem?_eq_some_iff.1 h1).1
  refine C38_decode_partial h hbp env hfit a n hlp hev hm hmod ?_ hinit htree hnd ?_ hn hreg hst
  · intro f vs hvs hf
    have := (List.getElem?_eq_some_iff.1 hvs).1
    omega
  · intro f i v s he hs
    obtain ⟨F, hF, -⟩ := (graphOf vgs hist).factors_edge a.logPotentials he
    obtain ⟨h1, R, hR, h2⟩ := hc F (List.mem_of_getElem? hF)
    have := C56_partial h hbp env hfit a n 0 hlp hev hm hmod f F hF (hlt he) h1 R h2 i v he s hs
    rw [zero_pow (by omega), zero_mul, add_zero] at this
    linarith

end

section
variable {κ : Type _} {vgs : List (VGroup κ)} {hist : List (AddArg ℝ)} {garbage : Garbage} {st : FGState κ ℝ}

/-- **C56, partial, positive temperatures.** -/
theorem C56_sum_partial (h : Compiled vgs hist garbage st) {state : BPState ℝ} {bp : BPFun κ ℝ} {T : ℝ} (hT : 0 < T) (hbp : BP.create st state T = .ok bp)
    (env : Env ℝ) (hexp : env.exp = Real.exp) (hlog : env.log = Real.log) (hfit : Fits env (graphOf vgs hist) T) (a : BPArrays ℝ) (n : Nat) (d : ℝ)
    (hlp : a.logPotentials.length = st.logPotentials.length) (hev : a.evidence.length = st.numVarStates) (hm : a.ftovMsgs.length = st.totalFactorNumStates)
    (hmod : Moderate (graphOf vgs hist) a.logPotentials (readEv st.varsToStarts a.evidence) d) (f : Nat) (F : SFac ℝ)
    (hF : ((graphOf vgs hist).factors a.logPotentials)[f]? = some F) (hf : f < (graphOf vgs hist).tables.length) (hc : F.Complete) (R : ℝ) (hR : F.Within R)
    (i : Nat) (v : Var) (he : IsEdge (graphOf vgs hist).allScopes f i v) (s : Nat) (hs : s < v.n) :
    -(R + d ^ n * (1000 - R)) ≤ readMsgs (graphOf vgs hist).allScopes (bp.runBP env a n d).ftovMsgs f i s :=
  h.complete_bound hbp env (.inr ⟨hT, envOk_real hexp hlog⟩) hfit (summary_regLse hT) (fun F q i s => softOut_reg hexp hlog hT F q i s) a d hlp hev hm hmod hF hf hc hR n he hs

/-- **C56, partial, exact marginals.** On a tree of complete tables whose log potentials differ by less than 1000 in each table, at temperature 1 and with
damping 0, after as many iterations as there are factors, `get_marginals` reports the probabilities of all states of all variables as in C55,
where no message is clipped. Missing: as in C55. -/
theorem C56_marginals_partial [DecidableEq κ] (h : Compiled vgs hist garbage st) {state : BPState ℝ} {bp : BPFun κ ℝ}
    (hbp : BP.create st state 1 = .ok bp) (env : Env ℝ) (hexp : env.exp = Real.exp) (hlog : env.log = Real.log)
    (hfit : Fits env (graphOf vgs hist) (1 : ℝ)) (a : BPArrays ℝ) (n : Nat)
    (hlp : a.logPotentials.length = st.logPotentials.length) (hev : a.evidence.length = st.numVarStates) (hm : a.ftovMsgs.length = st.totalFactorNumStates)
    (hmod : Moderate (graphOf vgs hist) a.logPotentials (readEv st.varsToStarts a.evidence) 0)
    (hinit : ∀ f i v, IsEdge (graphOf vgs hist).allScopes f i v → ∃ s < v.n, -100000 ≤ readMsgs (graphOf vgs hist).allScopes a.ftovMsgs f i s)
    (htree : (bipartite (graphOf vgs hist).allScopes).IsAcyclic) (hnd : ∀ vs ∈ (graphOf vgs hist).allScopes, vs.Nodup)
    (htab : (graphOf vgs hist).allScopes.length = (graphOf vgs hist).tables.length)
    (hc : ∀ F ∈ (graphOf vgs hist).factors a.logPotentials, F.Complete ∧ ∃ R < 1000, F.Within R)
    (hn : 0 < n ∧ (graphOf vgs hist).allScopes.length ≤ n) (hreg : ∀ g ∈ vgs, g.Regular) (hst : ∀ g ∈ vgs, g.Stated)
    (P : Var → Nat → ℝ) (hP : ∀ v s, P v s = stateWeight 1 (graphVars vgs) ((graphOf vgs hist).factors a.logPotentials) (readEv st.varsToStarts a.evidence) v s
      / totalWeight 1 (graphVars vgs) ((graphOf vgs hist).factors a.logPotentials) (readEv st.varsToStarts a.evidence))
    (ε : ℝ) (hε : ε = (graphOf vgs hist).tables.length * Real.exp (-100000)) :
    ∃ bs rs B, bp.getBeliefs (bp.runBP env a n 0) = .ok bs ∧ getMarginals env bs = .ok rs ∧ rs.map (·.1) = vgs ∧
      (∀ p ∈ rs, p.1.HasMarginals B p.2) ∧ ∀ v ∈ graphVars vgs, ∀ s < v.n,
        0 < P v s ∧ Real.exp (-ε) * P v s ≤ gibbs (B v) v.n s ∧ gibbs (B v) v.n s ≤ Real.exp ε * P v s := by
  refine C55_marginals_partial h hbp env hexp hlog hfit a n hlp hev hm hmod hinit htree hnd ?_ hn hreg hst P hP ε hε
  intro f i v s he hs
  obtain ⟨F, hF, -⟩ := (graphOf vgs hist).factors_edge a.logPotentials he
  obtain ⟨h1, R, hR, h2⟩ := hc F (List.mem_of_getElem? hF)
  have hf : f < (graphOf vgs hist).tables.length := by
    obtain ⟨vs, h1, -⟩ := he
    rw [← htab]
    exact (List.getElem?_eq_some_iff.1 h1).1
  have := C56_sum_partial h one_pos hbp env hexp hlog hfit a n 0 hlp hev hm hmod f F hF hf h1 R h2 i v he s hs
  rw [zero_pow (by omega), zero_mul, add_zero] at this
  linarith

end

/-! ## Refutation and non-vacuity -/

/-- A complete table. -/
def exHistQ : List (AddArg ℚ) := [.one ⟨5, .enum, .enumGroup, [[exVar 0, exVar 1]], ⟨2, exAll⟩, [0, 0, 0, 0]⟩]

/-- Its compiled state. -/
def exStateQ : FGState Nat ℚ :=
  match (graphOf exVars exHistQ).fgState 0 with
  | .ok st => st
  | .error _ => ⟨[], fun _ => none, 0, 0, fun _ => (0, 0), fun _ => (0, 0), fun _ => none, [],
      ⟨⟨[], [], []⟩, ⟨[], [], [], [], 1⟩, ⟨[], [], [], [], 1⟩⟩⟩

/-- Max-product belief propagation on it. -/
def exBPQ : BPFun Nat ℚ :=
  match BP.create exStateQ exBPState 0 with
  | .ok bp => bp
  | .error _ => ⟨exStateQ, exBPState, [], 0, [], 0⟩

theorem exBPQ_create : BP.create exStateQ exBPState 0 = .ok exBPQ := rfl

/-- **C56 does not hold in general.** All log potentials are 0, so all messages should be 0. With evidence -2e5 for one state of the first variable, the
message to that variable after one iteration is -1000 in the other state. -/
theorem C56_refuted : (exBPQ.runBP exEnv ⟨[0, 0, 0, 0], [0, 0, 0, 0], [0, -200000, 0, 0, 0, 0]⟩ 1 0).ftovMsgs = [-1000, 0, 0, 0] := by
  decide +kernel

/-- The factors of the chain `exHistT` are complete, and their log potentials differ by at most 3. -/
theorem exCompleteT : ∀ F ∈ (graphOf exVars exHistT).factors exLpT, F.Complete ∧ ∃ R < 1000, F.Within R := by
  have e : (graphOf exVars exHistT).factors exLpT = [⟨[exVar 0, exVar 1], [([0, 0], 0), ([0, 1], 1), ([1, 0], 2), ([1, 1], 0)]⟩,
    ⟨[exVar 1, exVar 2], [([0, 0], 3), ([0, 1], 0), ([1, 0], 1), ([1, 1], 1)]⟩] := rfl
  have key : ∀ (v w : Var) (a b c d : ℝ), v.n = 2 → w.n = 2 → (∀ x ∈ [a, b, c, d], ∀ y ∈ [a, b, c, d], x - y ≤ 3) →
      SFac.Complete (⟨[v, w], [([0, 0], a), ([0, 1], b), ([1, 0], c), ([1, 1], d)]⟩ : SFac ℝ) ∧
      ∃ R < (1000 : ℝ), SFac.Within ⟨[v, w], [([0, 0], a), ([0, 1], b), ([1, 0], c), ([1, 1], d)]⟩ R := by
    intro v w a b c d hv hw h
    refine ⟨⟨by simp, ?_⟩, 3, by norm_num, ?_⟩
    · intro x hx
      cases hx with
      | cons h1 hx =>
        cases hx with
        | cons h2 hx =>
          cases hx
          rename_i p q
          have hp : p = 0 ∨ p = 1 := by omega
          have hq : q = 0 ∨ q = 1 := by omega
          rcases hp with rfl | rfl <;> rcases hq with rfl | rfl <;> simp
    · intro r hr r' hr'
      refine h r.2 ?_ r'.2 ?_
      · have := List.mem_map_of_mem (f := Prod.snd) hr
        simpa using this
      · have := List.mem_map_of_mem (f := Prod.snd) hr'
        simpa using this
  rw [e]
  simp only [List.forall_mem_cons]
  refine ⟨key _ _ _ _ _ _ rfl rfl ?_, key _ _ _ _ _ _ rfl rfl ?_, by simp⟩ <;> simp only [List.forall_mem_cons] <;> norm_num

theorem exStatedT : (∀ g ∈ exVars, g.Regular) ∧ ∀ g ∈ exVars, g.Stated := by
  have : ∀ g ∈ exVars, g.Regular ∧ g.Stated := by
    simp only [exVars, List.mem_cons, List.not_mem_nil, or_false, forall_eq, forall_eq_or_imp]
    simp [VGroup.Regular, VGroup.Stated]
  exact ⟨fun g hg => (this g hg).1, fun g hg => (this g hg).2⟩

/-- Non-vacuity of C55 and C56: the chain `exHistT`. -/
example {env : Env ℝ} (hexp : env.exp = Real.exp) (hlog : env.log = Real.log) (hw : env.wrapNeg = false)
    (P : Var → Nat → ℝ) (hP : ∀ v s, P v s = stateWeight 1 (graphVars exVars) ((graphOf exVars exHistT).factors exLpT) (readEv exStateT.varsToStarts exEvT) v s
      / totalWeight 1 (graphVars exVars) ((graphOf exVars exHistT).factors exLpT) (readEv exStateT.varsToStarts exEvT)) :
    ∃ bs rs B, (exBPT 1).getBeliefs ((exBPT 1).runBP env ⟨exLpT, List.replicate 8 0, exEvT⟩ 2 0) = .ok bs ∧ getMarginals env bs = .ok rs ∧ rs.map (·.1) = exVars ∧
      (∀ p ∈ rs, p.1.HasMarginals B p.2) ∧ ∀ v ∈ graphVars exVars, ∀ s < v.n,
        0 < P v s ∧ Real.exp (-(2 * Real.exp (-100000))) * P v s ≤ gibbs (B v) v.n s ∧ gibbs (B v) v.n s ≤ Real.exp (2 * Real.exp (-100000)) * P v s :=
  C56_marginals_partial exStateT_compiled (exBPT_create 1) env hexp hlog (exFitsT hw one_ne_zero) ⟨exLpT, List.replicate 8 0, exEvT⟩ 2 rfl rfl (by simp; rfl)
    (exModerateT (by norm_num)) exInitT exTreeT (by rw [exScopesT]; decide +kernel) rfl exCompleteT ⟨by omega, by rw [exScopesT]; decide⟩ exStatedT.1 exStatedT.2 P hP _
    (by rw [show (graphOf exVars exHistT).tables.length = 2 from rfl]; norm_num)

end PGMax
