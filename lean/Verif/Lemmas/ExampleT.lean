import Verif.Lemmas.Example
import Verif.Props.C38

/-! # A concrete chain with real log potentials: three binary variables and two complete tables -/

namespace PGMax

/-- All configurations of two binary variables. -/
def exAll : List (List Nat) := [[0, 0], [0, 1], [1, 0], [1, 1]]

/-- Two enumeration factors with all configurations. -/
def exHistT : List (AddArg ℝ) := [.one ⟨5, .enum, .enumGroup, [[exVar 0, exVar 1], [exVar 1, exVar 2]], ⟨2, exAll⟩, [0, 0, 0, 0, 0, 0, 0, 0]⟩]

/-- Its compiled state. -/
noncomputable def exStateT : FGState Nat ℝ :=
  match (graphOf exVars exHistT).fgState 0 with
  | .ok st => st
  | .error _ => ⟨[], fun _ => none, 0, 0, fun _ => (0, 0), fun _ => (0, 0), fun _ => none, [],
      ⟨⟨[], [], []⟩, ⟨[], [], [], [], 1⟩, ⟨[], [], [], [], 1⟩⟩⟩

theorem exStateT_compiled : Compiled exVars exHistT 0 exStateT where
  vgroups := exVars_ok
  valid := by
    simp only [exHistT, List.mem_cons, List.not_mem_nil, or_false, forall_eq, AddArg.flat]
    refine ⟨by decide, by decide, fun _ => ⟨by decide, by decide, by decide, ?_, by rfl⟩, fun h => absurd rfl h⟩
    intro vs hvs r hr
    simp only [exAll, List.mem_cons, List.not_mem_nil, or_false] at hvs hr
    rcases hvs with rfl | rfl <;> rcases hr with rfl | rfl | rfl | rfl <;> simp [exVar]
  ids := by
    have e : FType.all.flatMap (graphOf exVars exHistT).groups = [
      ⟨5, .enum, .enumGroup, [[exVar 0, exVar 1], [exVar 1, exVar 2]], ⟨2, exAll⟩, [0, 0, 0, 0, 0, 0, 0, 0]⟩] := by rfl
    rw [e]
    intro g hg k hk _
    simp only [List.mem_cons, List.not_mem_nil, or_false] at hg hk
    rw [hg, hk]
  compiled := rfl

/-- The default BP state of the graph. -/
noncomputable def exBPStateT : BPState ℝ :=
  match bpStateOf 1 exStateT with
  | .ok s => s
  | .error _ => ⟨⟨0, []⟩, ⟨0, []⟩, ⟨0, []⟩⟩

/-- Belief propagation at temperature `T` on it. -/
noncomputable def exBPT (T : ℝ) : BPFun Nat ℝ :=
  match BP.create exStateT exBPStateT T with
  | .ok bp => bp
  | .error _ => ⟨exStateT, exBPStateT, [], 0, [], 0⟩

theorem exBPT_create (T : ℝ) : BP.create exStateT exBPStateT T = .ok (exBPT T) := rfl

theorem exScopesT : (graphOf exVars exHistT).allScopes = [[exVar 0, exVar 1], [exVar 1, exVar 2]] := rfl

theorem exEdgeT {f i : Nat} {v : Var} (he : IsEdge (graphOf exVars exHistT).allScopes f i v) :
    (v, f) ∈ [(exVar 0, 0), (exVar 1, 0), (exVar 1, 1), (exVar 2, 1)] ∧ v.n = 2 ∧ edgeStart (graphOf exVars exHistT).allScopes f i + 2 ≤ 8 := by
  rw [exScopesT] at he ⊢
  obtain ⟨vs, h1, h2⟩ := he
  match f, h1 with
  | 0, h1 =>
    cases h1
    match i, h2 with
    | 0, h2 => cases h2; decide +kernel
    | 1, h2 => cases h2; decide +kernel
  | 1, h1 =>
    cases h1
    match i, h2 with
    | 0, h2 => cases h2; decide +kernel
    | 1, h2 => cases h2; decide +kernel

theorem exTreeT : (bipartite (graphOf exVars exHistT).allScopes).IsAcyclic :=
  acyclic_of_edges [(exVar 0, 0), (exVar 1, 0), (exVar 1, 1), (exVar 2, 1)] (fun _ _ _ he => (exEdgeT he).1)
    (fun v => if v = exVar 1 then 0 else 2) (fun _ => 1) (by decide +kernel) (by decide +kernel)

/-- Log potentials. -/
def exLpT : List ℝ := [0, 1, 2, 0, 3, 0, 1, 1]
/-- Evidence. -/
def exEvT : List ℝ := [1, 0, 0, 2, 0, 3]

theorem exModerateT {d : ℝ} (hd : 0 ≤ d ∧ d ≤ 1 / 2) : Moderate (graphOf exVars exHistT) exLpT (readEv exStateT.varsToStarts exEvT) d := by
  refine moderate_of_bounds (E := 3) (P := 3) (D := 2) (K := 2) hd ?_ ?_ (by norm_num) ?_ (by norm_num)
  · intro _ _ v s _ _
    unfold readEv List.getD
    cases e : exEvT[(exStateT.varsToStarts v).getD 0 + s]? with
    | none => norm_num
    | some x =>
      have hl : ∀ x ∈ exEvT, |x| ≤ 3 := by simp only [exEvT, List.forall_mem_cons]; norm_num
      exact hl x (List.mem_of_getElem? e)
  · intro f i v he
    have hd : ∀ v ∈ [exVar 0, exVar 1, exVar 2], (edgesOf [[exVar 0, exVar 1], [exVar 1, exVar 2]] v).length ≤ 2 := by decide +kernel
    have := (exEdgeT he).1
    rw [exScopesT]
    refine Nat.cast_le_ofNat.2 (hd v ?_)
    simp only [List.mem_cons, List.not_mem_nil, or_false, Prod.mk.injEq] at this ⊢
    tauto
  · have e : tableFacs (graphOf exVars exHistT).tables exLpT = [⟨[exVar 0, exVar 1], [([0, 0], 0), ([0, 1], 1), ([1, 0], 2), ([1, 1], 0)]⟩,
        ⟨[exVar 1, exVar 2], [([0, 0], 3), ([0, 1], 0), ([1, 0], 1), ([1, 1], 1)]⟩] := rfl
    rw [e]
    simp only [List.forall_mem_cons]
    norm_num

theorem exInitT : ∀ f i v, IsEdge (graphOf exVars exHistT).allScopes f i v →
    ∃ s < v.n, -100000 ≤ readMsgs (graphOf exVars exHistT).allScopes (List.replicate 8 (0 : ℝ)) f i s := by
  intro f i v he
  obtain ⟨-, h1, h2⟩ := exEdgeT he
  refine ⟨0, by omega, ?_⟩
  rw [readMsgs, List.getD, List.getElem?_replicate, if_pos (by omega)]
  norm_num

theorem exFitsT {env : Env ℝ} (hw : env.wrapNeg = false) {T : ℝ} (hT : T ≠ 0) : Fits env (graphOf exVars exHistT) T :=
  ⟨.inl hw, fun h => absurd h hT⟩

/-! ### One complete table -/

/-- One enumeration factor with all configurations. -/
def exHistS : List (AddArg ℝ) := [.one ⟨5, .enum, .enumGroup, [[exVar 0, exVar 1]], ⟨2, exAll⟩, [0, 0, 0, 0]⟩]

/-- Its compiled state. -/
noncomputable def exStateS : FGState Nat ℝ :=
  match (graphOf exVars exHistS).fgState 0 with
  | .ok st => st
  | .error _ => ⟨[], fun _ => none, 0, 0, fun _ => (0, 0), fun _ => (0, 0), fun _ => none, [],
      ⟨⟨[], [], []⟩, ⟨[], [], [], [], 1⟩, ⟨[], [], [], [], 1⟩⟩⟩

theorem exStateS_compiled : Compiled exVars exHistS 0 exStateS where
  vgroups := exVars_ok
  valid := by
    simp only [exHistS, List.mem_cons, List.not_mem_nil, or_false, forall_eq, AddArg.flat]
    refine ⟨by decide, by decide, fun _ => ⟨by decide, by decide, by decide, ?_, by rfl⟩, fun h => absurd rfl h⟩
    intro vs hvs r hr
    simp only [exAll, List.mem_cons, List.not_mem_nil, or_false] at hvs hr
    subst hvs
    rcases hr with rfl | rfl | rfl | rfl <;> simp [exVar]
  ids := by
    have e : FType.all.flatMap (graphOf exVars exHistS).groups = [⟨5, .enum, .enumGroup, [[exVar 0, exVar 1]], ⟨2, exAll⟩, [0, 0, 0, 0]⟩] := by rfl
    rw [e]
    intro g hg k hk _
    simp only [List.mem_cons, List.not_mem_nil, or_false] at hg hk
    rw [hg, hk]
  compiled := rfl

/-- The default BP state of the graph. -/
noncomputable def exBPStateS : BPState ℝ :=
  match bpStateOf 1 exStateS with
  | .ok s => s
  | .error _ => ⟨⟨0, []⟩, ⟨0, []⟩, ⟨0, []⟩⟩

/-- Belief propagation at temperature `T` on it. -/
noncomputable def exBPS (T : ℝ) : BPFun Nat ℝ :=
  match BP.create exStateS exBPStateS T with
  | .ok bp => bp
  | .error _ => ⟨exStateS, exBPStateS, [], 0, [], 0⟩

theorem exBPS_create (T : ℝ) : BP.create exStateS exBPStateS T = .ok (exBPS T) := rfl

theorem exScopesS : (graphOf exVars exHistS).allScopes = [[exVar 0, exVar 1]] := rfl

/-- The factor, with log potential 0 in the configurations with the first variable in state 0 and -500 in the others. -/
noncomputable def exFacS : SFac ℝ := ⟨[exVar 0, exVar 1], [([0, 0], 0), ([0, 1], 0), ([1, 0], -500), ([1, 1], -500)]⟩

theorem exFactorsS : (graphOf exVars exHistS).factors [0, 0, -500, -500] = [exFacS] := rfl

/-- The second variable has evidence -200000 in both states. -/
noncomputable def exEvS : List ℝ := [0, 0, -200000, -200000, 0, 0]

theorem exReadEvS (s : Nat) (hs : s < 2) : readEv exStateS.varsToStarts exEvS (exVar 0) s = 0 ∧ readEv exStateS.varsToStarts exEvS (exVar 1) s = -200000 := by
  have h : s = 0 ∨ s = 1 := by omega
  rcases h with rfl | rfl <;> exact ⟨rfl, rfl⟩

/-- After one iteration from zero messages, at temperature 1, the message of the factor to the first variable is at least -2 in both states. -/
theorem exMessageS {env : Env ℝ} (hexp : env.exp = Real.exp) (hlog : env.log = Real.log) (hw : env.wrapNeg = false) (s : Nat) (hs : s < 2) :
    -2 ≤ readMsgs (graphOf exVars exHistS).allScopes ((exBPS 1).runBP env ⟨[0, 0, -500, -500], [0, 0, 0, 0], exEvS⟩ 1 0).ftovMsgs 0 0 s := by
  have he : IsEdge (graphOf exVars exHistS).allScopes 0 0 (exVar 0) := ⟨_, rfl, rfl⟩
  have he1 : IsEdge (graphOf exVars exHistS).allScopes 0 1 (exVar 1) := ⟨_, rfl, rfl⟩
  have hfit : Fits env (graphOf exVars exHistS) (1 : ℝ) := ⟨.inl hw, fun h => absurd h one_ne_zero⟩
  have hm : (exBPS 1).maxMsgSize = 2 := rfl
  have hin : ∀ i v s, IsEdge (graphOf exVars exHistS).allScopes 0 i v → s < 2 → readMsgs (graphOf exVars exHistS).allScopes [0, 0, 0, (0 : ℝ)] 0 i s = 0 := by
    rintro i v s ⟨vs, h1, h2⟩ hs
    rw [exScopesS] at h1
    cases h1
    have h : s = 0 ∨ s = 1 := by omega
    match i, h2 with
    | 0, _ => rcases h with rfl | rfl <;> rfl
    | 1, _ => rcases h with rfl | rfl <;> rfl
  rw [(exStateS_compiled.run_read (exBPS_create 1) env hfit ⟨[0, 0, -500, -500], [0, 0, 0, 0], exEvS⟩ 0 rfl rfl 1 rfl).2 0 0 (exVar 0) s he hs, hm]
  have hz : ∀ (i : Nat) (v : Var) (s : Nat), IsEdge (graphOf exVars exHistS).allScopes 0 i v → s < 2 → v.n = 2 →
      normM (graphOf exVars exHistS).allScopes 2 (readMsgs (graphOf exVars exHistS).allScopes [0, 0, 0, (0 : ℝ)]) 0 i s = 0 := by
    intro i v s he hs hv
    rw [normM_at he, hin i v s he hs]
    obtain ⟨-, h2, -⟩ := segM_spec (readMsgs (graphOf exVars exHistS).allScopes [0, 0, 0, (0 : ℝ)] 0 i) v.n 2 (by omega) (by omega)
    rcases h2 with ⟨j, hj, e⟩ | ⟨h, -⟩
    · rw [e, hin i v j he (by omega)]
      norm_num
    · omega
  generalize hm0 : normM (graphOf exVars exHistS).allScopes 2 (readMsgs (graphOf exVars exHistS).allScopes [0, 0, 0, (0 : ℝ)]) = m0 at hz
  show -2 ≤ stepM env 1 (graphOf exVars exHistS) 2 [0, 0, -500, -500] (readEv exStateS.varsToStarts exEvS) 0
    m0 0 0 s
  unfold stepM
  rw [normM_at he]
  have hq0 : ∀ s < 2, vtofM (graphOf exVars exHistS).allScopes (readEv exStateS.varsToStarts exEvS) m0 0 0 s = 0 := by
    intro s hs
    rw [vtofM_at he]
    unfold varToFac
    rw [(exReadEvS s hs).1, exScopesS, show (edgesOf [[exVar 0, exVar 1]] (exVar 0)).filter (fun e' => e' ≠ (0, 0)) = [] from by decide +kernel]
    simp
  have hq1 : ∀ s < 2, vtofM (graphOf exVars exHistS).allScopes (readEv exStateS.varsToStarts exEvS) m0 0 1 s = -200000 := by
    intro s hs
    rw [vtofM_at he1]
    unfold varToFac
    rw [(exReadEvS s hs).2, exScopesS, show (edgesOf [[exVar 0, exVar 1]] (exVar 1)).filter (fun e' => e' ≠ (0, 1)) = [] from by decide +kernel]
    simp
  generalize hqe : vtofM (graphOf exVars exHistS).allScopes (readEv exStateS.varsToStarts exEvS) m0 0 = q at hq0 hq1
  have key : ∀ s < 2, -200000 ≤ enumOut env 1 exFacS q 0 s ∧ enumOut env 1 exFacS q 0 s ≤ -200000 + 2 := by
    have hgen : ∀ (x y : ℝ), x ≤ -200000 → y ≤ -200000 → -200000 ≤ ([x, y] : List ℝ).foldl max NEG_INF - 0 +
        1 * env.log (env.exp NEG_INF + (([x, y] : List ℝ).map (fun z => env.exp ((z - ([x, y] : List ℝ).foldl max NEG_INF) / 1))).sum) ∧
        ([x, y] : List ℝ).foldl max NEG_INF - 0 +
        1 * env.log (env.exp NEG_INF + (([x, y] : List ℝ).map (fun z => env.exp ((z - ([x, y] : List ℝ).foldl max NEG_INF) / 1))).sum) ≤ -200000 + 2 := by
      intro x y hx hy
      have hM : ([x, y] : List ℝ).foldl max NEG_INF = -100000 := by
        simp only [List.foldl_cons, List.foldl_nil, NEG_INF]
        rw [max_eq_left (show x ≤ -100000 by linarith), max_eq_left (show y ≤ -100000 by linarith)]
      have hN : (NEG_INF : ℝ) = -100000 := by norm_num [NEG_INF]
      rw [hM, hexp, hlog, hN]
      simp only [List.map_cons, List.map_nil, List.sum_cons, List.sum_nil, add_zero, div_one, one_mul, sub_zero]
      have h1 : Real.exp (x - -100000) ≤ Real.exp (-100000) := Real.exp_le_exp.2 (by linarith)
      have h2 : Real.exp (y - -100000) ≤ Real.exp (-100000) := Real.exp_le_exp.2 (by linarith)
      have h3 := Real.exp_pos (x - -100000)
      have h4 := Real.exp_pos (y - -100000)
      have h5 := Real.exp_pos (-100000 : ℝ)
      constructor
      · have := Real.log_le_log h5 (show Real.exp (-100000) ≤ Real.exp (-100000) + (Real.exp (x - -100000) + Real.exp (y - -100000)) by linarith)
        rw [Real.log_exp] at this
        linarith
      · have := Real.log_le_log (show 0 < Real.exp (-100000) + (Real.exp (x - -100000) + Real.exp (y - -100000)) by linarith)
          (show Real.exp (-100000) + (Real.exp (x - -100000) + Real.exp (y - -100000)) ≤ 3 * Real.exp (-100000) by linarith)
        rw [Real.log_mul (by norm_num) h5.ne', Real.log_exp] at this
        have := Real.log_le_sub_one_of_pos (show (0 : ℝ) < 3 by norm_num)
        linarith
    intro s hs
    have h : s = 0 ∨ s = 1 := by omega
    unfold enumOut
    rw [if_neg one_ne_zero, hq0 s hs]
    have hsc : ∀ (c : Nat) (x : ℝ) (t : Nat), t < 2 → scoreBut 2 q 0 ([c, t], x) = x + -200000 := by
      intro c x t ht
      simp only [scoreBut]
      rw [show (List.range 2).filter (fun j => j ≠ 0) = [1] from rfl]
      simp only [List.map_cons, List.map_nil, List.sum_cons, List.sum_nil, List.getD_cons_succ, List.getD_cons_zero]
      rw [hq1 t ht, add_zero]
    have e2 : exFacS.scope.length = 2 := rfl
    have e0 : exFacS.rowsAt 0 0 = [([0, 0], 0), ([0, 1], 0)] := by simp [SFac.rowsAt, exFacS]
    have e1 : exFacS.rowsAt 0 1 = [([1, 0], -500), ([1, 1], -500)] := by simp [SFac.rowsAt, exFacS]
    rw [e2]
    rcases h with rfl | rfl
    · rw [e0]
      simp only [List.map_cons, List.map_nil, hsc 0 0 0 (by omega), hsc 0 0 1 (by omega)]
      exact hgen (0 + -200000 + 0) (0 + -200000 + 0) (by norm_num) (by norm_num)
    · rw [e1]
      simp only [List.map_cons, List.map_nil, hsc 1 (-500) 0 (by omega), hsc 1 (-500) 1 (by omega)]
      exact hgen (-500 + -200000 + 0) (-500 + -200000 + 0) (by norm_num) (by norm_num)
  have hraw : ∀ s < 2, m0 0 0 s + (1 - 0) * (rawM env 1 (graphOf exVars exHistS) [0, 0, -500, -500] (readEv exStateS.varsToStarts exEvS) m0 0 0 s - m0 0 0 s)
      = enumOut env 1 exFacS (vtofM (graphOf exVars exHistS).allScopes (readEv exStateS.varsToStarts exEvS) m0 0) 0 s := by
    intro s hs
    rw [rawM_at env 1 (F := exFacS) rfl]
    have hk : (graphOf exVars exHistS).kind 0 = none := rfl
    rw [hk]
    simp only [facOut]
    ring
  refine le_trans ?_ (le_max_left _ _)
  obtain ⟨-, h2, -⟩ := segM_spec (fun s => m0 0 0 s + (1 - 0) * (rawM env 1 (graphOf exVars exHistS) [0, 0, -500, -500] (readEv exStateS.varsToStarts exEvS) m0 0 0 s - m0 0 0 s))
    (exVar 0).n 2 (by decide) (by decide)
  rcases h2 with ⟨j, hj, e⟩ | ⟨h, -⟩
  · rw [e, hraw s hs, hraw j hj, hqe]
    have := (key s hs).1
    have := (key j hj).2
    linarith
  · exact absurd h (by decide)

end PGMax
