import Verif.Lemmas.Shift
import Verif.Props.C34_C36

/-! # C39: constants in evidence.  C40: constants in log potentials -/

namespace PGMax

variable {κ α : Type _} {vgs : List (VGroup κ)} {hist : List (AddArg α)} {garbage : Garbage} {st : FGState κ α}

section
variable [Field α] [LinearOrder α] [IsStrictOrderedRing α]

/-- A simple sufficient condition for `Moderate`: damping at most 1/2; evidence at most `E`, log potentials at most `P`, degrees
at most `D` and scopes of at most `K` variables with `P + K * (E + 1000 * D) ≤ 97000`. -/
theorem moderate_of_bounds {fg : FactorGraph κ α} {lp : List α} {ev : Var → Nat → α} {d E P D K : α} (hd : 0 ≤ d ∧ d ≤ 1 / 2)
    (hE : ∀ f i v s, IsEdge fg.allScopes f i v → s < v.n → |ev v s| ≤ E)
    (hD : ∀ f i v, IsEdge fg.allScopes f i v → ((edgesOf fg.allScopes v).length : α) ≤ D) (hE0 : 0 ≤ E + 1000 * D)
    (hF : ∀ F ∈ tableFacs fg.tables lp, (F.scope.length : α) ≤ K ∧ ∀ r ∈ F.rows, |r.2| ≤ P) (hsum : P + K * (E + 1000 * D) ≤ 97000) :
    Moderate fg lp ev d := by
  refine ⟨⟨hd.1, by linarith [hd.2]⟩, fun _ => E + 1000 * D, ?_, ?_⟩
  · intro f i v s he hs
    have := hE f i v s he hs
    have := hD f i v he
    linarith
  · intro F hF'
    obtain ⟨h1, h2⟩ := hF F hF'
    refine ⟨97000, ?_, by norm_num, .inr ?_⟩
    · intro r hr
      have h3 := h2 r hr
      rw [List.map_const', List.sum_replicate, nsmul_eq_mul]
      have := mul_le_mul_of_nonneg_right h1 hE0
      linarith
    · nlinarith [hd.1, hd.2]

omit [Field α] [IsStrictOrderedRing α] in
theorem IsFirstMax.unique {f : Nat → α} {n j j' : Nat} (h : IsFirstMax f n j) (h' : IsFirstMax f n j') : j = j' := by
  obtain ⟨a1, a2, a3⟩ := h
  obtain ⟨b1, b2, b3⟩ := h'
  rcases lt_trichotomy j j' with hlt | he | hlt
  · exact absurd (b3 j hlt) (not_lt.2 (a2 j' b1))
  · exact he
  · exact absurd (a3 j' hlt) (not_lt.2 (b2 j a1))

theorem IsFirstMax.shift {f g : Nat → α} {n j : Nat} (c : α) (h : IsFirstMax f n j) (hg : ∀ s < n, g s = f s + c) : IsFirstMax g n j := by
  obtain ⟨a1, a2, a3⟩ := h
  refine ⟨a1, fun s hs => ?_, fun s hs => ?_⟩
  · rw [hg s hs, hg j a1]; linarith [a2 s hs]
  · rw [hg s (by omega), hg j a1]; linarith [a3 s hs]

omit [Field α] [IsStrictOrderedRing α] in
/-- The decoded states of a group are determined by its beliefs. -/
theorem VGroup.Decodes.unique {objId : Nat} {g : VGroup κ} (hb : VGroup.Built objId g) {B : Var → Nat → α} {r r' : GroupStates κ}
    (h : g.Decodes B r) (h' : g.Decodes B r') : r = r' := by
  obtain ⟨hlen, -⟩ := hb.vars
  cases hb with
  | arr hns hc =>
    rename_i shape ns g
    obtain ⟨-, hsh, hl, -⟩ := NDVarArray.create_ok hns hc
    rw [← hsh] at hl
    simp only [VGroup.numStates, VGroup.variables] at hlen
    cases r with
    | dict d => exact h.elim
    | arr a =>
      cases r' with
      | dict d => exact h'.elim
      | arr a' =>
        obtain ⟨s1, w1, d1⟩ := h
        obtain ⟨s2, w2, d2⟩ := h'
        have hd : a.data = a'.data := by
          apply List.ext_getElem?
          intro k
          by_cases hk : k < g.variables.length
          · obtain ⟨j, e1, e2⟩ := d1 k _ (List.getElem?_eq_getElem hk)
            obtain ⟨j', e3, e4⟩ := d2 k _ (List.getElem?_eq_getElem hk)
            rw [e1, e3, e2.unique e4]
          · unfold NDArr.WF at w1 w2
            rw [s1] at w1
            rw [s2] at w2
            rw [List.getElem?_eq_none (by omega), List.getElem?_eq_none (by omega)]
        cases a; cases a'
        simp only at s1 s2 hd
        rw [s1, s2, hd]
  | dict hns hle hc =>
    rename_i names ns g
    obtain ⟨-, hnm, hl⟩ := VarDict.create_ok hns hc
    rw [← hnm] at hl
    simp only [VGroup.numStates, VGroup.variables] at hlen
    cases r with
    | arr a => exact h.elim
    | dict d =>
      cases r' with
      | arr a => exact h'.elim
      | dict d' =>
        obtain ⟨k1, d1⟩ := h
        obtain ⟨k2, d2⟩ := h'
        congr 1
        have hl1 : d.length = g.names.length := by rw [← k1]; simp
        have hl2 : d'.length = g.names.length := by rw [← k2]; simp
        apply List.ext_getElem?
        intro k
        by_cases hk : k < g.variables.length
        · obtain ⟨x, j, e1, e2, e3⟩ := d1 k _ (List.getElem?_eq_getElem hk)
          obtain ⟨x', j', f1, f2, f3⟩ := d2 k _ (List.getElem?_eq_getElem hk)
          rw [e1, f1]
          have hx : x.1 = x'.1 := by
            have g1 : (d.map (·.1))[k]? = some x.1 := by rw [List.getElem?_map, e1]; rfl
            have g2 : (d'.map (·.1))[k]? = some x'.1 := by rw [List.getElem?_map, f1]; rfl
            rw [k1] at g1
            rw [k2, g1] at g2
            exact Option.some.inj g2
          congr 1
          refine Prod.ext hx ?_
          rw [e2, f2, e3.unique f3]
        · rw [List.getElem?_eq_none (by omega), List.getElem?_eq_none (by omega)]

theorem VGroup.Decodes.shift {g : VGroup κ} {B B' : Var → Nat → α} {r : GroupStates κ} (c : Var → α)
    (hc : ∀ v ∈ g.variables, ∀ s < v.n, B' v s = B v s + c v) (h : g.Decodes B r) : g.Decodes B' r := by
  cases g with
  | arr g =>
    cases r with
    | dict d => exact h.elim
    | arr a =>
      obtain ⟨s1, w1, d1⟩ := h
      refine ⟨s1, w1, fun k v hv => ?_⟩
      obtain ⟨j, e1, e2⟩ := d1 k v hv
      exact ⟨j, e1, e2.shift (c v) (hc v (List.mem_of_getElem? hv))⟩
  | dict g =>
    cases r with
    | arr a => exact h.elim
    | dict d =>
      obtain ⟨k1, d1⟩ := h
      refine ⟨k1, fun k v hv => ?_⟩
      obtain ⟨x, j, e1, e2, e3⟩ := d1 k v hv
      exact ⟨x, j, e1, e2, e3.shift (c v) (hc v (List.mem_of_getElem? hv))⟩

omit [IsStrictOrderedRing α] in
theorem Compiled.mem_starts (h : Compiled vgs hist garbage st) {g : VGroup κ} (hg : g ∈ vgs) {v : Var} (hv : v ∈ g.variables) :
    ∃ start, st.varsToStarts v = some start := by
  obtain ⟨i, hi⟩ := List.mem_iff_getElem?.1 (List.mem_flatMap.2 ⟨g, hg, hv⟩ : v ∈ allVars vgs)
  exact ⟨_, (h.starts_iff v _).2 ⟨i, hi, rfl⟩⟩

/-- Two lists of pairs with the same keys and values determined by the keys. -/
theorem eq_of_keys {β γ : Type _} {l l' : List (β × γ)} (hk : l.map (·.1) = l'.map (·.1)) (hu : ∀ b c c', (b, c) ∈ l → (b, c') ∈ l' → c = c') : l = l' := by
  induction l generalizing l' with
  | nil => cases l' with
    | nil => rfl
    | cons x l' => simp at hk
  | cons x l ih =>
    cases l' with
    | nil => simp at hk
    | cons y l' =>
      simp only [List.map_cons, List.cons.injEq] at hk
      obtain ⟨x1, x2⟩ := x
      obtain ⟨y1, y2⟩ := y
      simp only at hk
      obtain ⟨rfl, hk⟩ := hk
      rw [hu x1 x2 y2 (by simp) (by simp), ih hk (fun b c c' h1 h2 => hu b c c' (by simp [h1]) (by simp [h2]))]

/-- Shifted evidence and log potentials: messages after any number of iterations. -/
theorem Compiled.run_shift (h : Compiled vgs hist garbage st) {state : BPState α} {T : α} {bp : BPFun κ α}
    (hbp : BP.create st state T = .ok bp) (env : Env α) (hfit : Fits env (graphOf vgs hist) T) (hT : T = 0 ∨ (0 < T ∧ EnvOk env))
    (a : BPArrays α) (lp' ev' : List α) (n : Nat) (d : α)
    (hlp : a.logPotentials.length = st.logPotentials.length) (hev : a.evidence.length = st.numVarStates)
    (hm : a.ftovMsgs.length = st.totalFactorNumStates) (hlp' : lp'.length = st.logPotentials.length) (hev' : ev'.length = st.numVarStates)
    (k : Nat → α) (hk : PotShift (graphOf vgs hist) a.logPotentials lp' k) (c : Var → α) (hc : EvShift st.varsToStarts a.evidence ev' c)
    (hmod : Moderate (graphOf vgs hist) a.logPotentials (readEv st.varsToStarts a.evidence) d)
    (hmod' : Moderate (graphOf vgs hist) lp' (readEv st.varsToStarts ev') d) :
    (bp.runBP env ⟨lp', a.ftovMsgs, ev'⟩ n d).ftovMsgs = (bp.runBP env a n d).ftovMsgs := by
  obtain ⟨l1, r1⟩ := h.run_read hbp env hfit a d hlp hev n hm
  obtain ⟨l2, r2⟩ := h.run_read hbp env hfit ⟨lp', a.ftovMsgs, ev'⟩ d hlp' hev' n hm
  have hmax := (h.maxMsgSize hbp).1
  refine eq_of_read (l2.trans h.totalStates) (l1.trans h.totalStates) (r2.trans (AgreeOn.trans ?_ r1.symm))
  refine h.iterM_shift env T hT hmax _ _ hlp hlp' k hk _ _ c ?_ d hmod hmod' n _ (normM_clipped hmax _)
  rintro f i v s ⟨vs, h1, h2⟩ hs
  obtain ⟨t, ht⟩ := h.scopeVars vs (List.mem_of_getElem? h1) v (List.mem_of_getElem? h2)
  exact hc v t ht s hs

omit [LinearOrder α] [IsStrictOrderedRing α] in
theorem PotShift.refl (fg : FactorGraph κ α) (lp : List α) : PotShift fg lp lp (fun _ => 0) := by
  intro f
  cases (tableFacs fg.tables lp)[f]? with
  | none => rfl
  | some F => simp [SFac.shift]

omit [LinearOrder α] [IsStrictOrderedRing α] in
theorem EvShift.refl (starts : Var → Option Nat) (ev : List α) : EvShift starts ev ev (fun _ => 0) := by
  intro v start _ s _
  simp

/-- **C39, partial.** Let the evidence `ev'` differ from the evidence of `a` by a constant `c v` per variable `v`.  Then the
messages after any number of iterations are the same, the beliefs of every variable differ by `c v`, and the decoded states are
the same.  Any temperature, damping between 0 and 1.
Missing: graphs, log potentials and evidence that are not `Moderate` (before and after the shift), where the `-1e5` in the code
does not act as minus infinity (`C39_refuted`); the size limits `Fits`; groups on which decoding fails anyway (C35). -/
theorem C39_partial [DecidableEq κ] (h : Compiled vgs hist garbage st) {state : BPState α} {T : α} {bp : BPFun κ α}
    (hbp : BP.create st state T = .ok bp) (env : Env α) (hfit : Fits env (graphOf vgs hist) T) (hT : T = 0 ∨ (0 < T ∧ EnvOk env))
    (a : BPArrays α) (ev' : List α) (n : Nat) (d : α)
    (hlp : a.logPotentials.length = st.logPotentials.length) (hev : a.evidence.length = st.numVarStates)
    (hm : a.ftovMsgs.length = st.totalFactorNumStates) (hev' : ev'.length = st.numVarStates)
    (c : Var → α) (hc : EvShift st.varsToStarts a.evidence ev' c)
    (hmod : Moderate (graphOf vgs hist) a.logPotentials (readEv st.varsToStarts a.evidence) d)
    (hmod' : Moderate (graphOf vgs hist) a.logPotentials (readEv st.varsToStarts ev') d) :
    (bp.runBP env ⟨a.logPotentials, a.ftovMsgs, ev'⟩ n d).ftovMsgs = (bp.runBP env a n d).ftovMsgs ∧
    (∀ v start, st.varsToStarts v = some start → ∀ s < v.n,
      (bp.flatBeliefs (bp.runBP env ⟨a.logPotentials, a.ftovMsgs, ev'⟩ n d))[start + s]?
        = ((bp.flatBeliefs (bp.runBP env a n d))[start + s]?).map (· + c v)) ∧
    ((∀ g ∈ vgs, g.Regular) → (∀ g ∈ vgs, g.Stated) → ∃ bs bs' rs, bp.getBeliefs (bp.runBP env a n d) = .ok bs ∧
      bp.getBeliefs (bp.runBP env ⟨a.logPotentials, a.ftovMsgs, ev'⟩ n d) = .ok bs' ∧
      decodeMapStates bs = .ok rs ∧ decodeMapStates bs' = .ok rs) := by
  have hmsg := h.run_shift hbp env hfit hT a a.logPotentials ev' n d hlp hev hm hlp hev' _ (PotShift.refl _ _) c hc hmod hmod'
  obtain ⟨l1, -⟩ := h.run_read hbp env hfit a d hlp hev n hm
  obtain ⟨l2, -⟩ := h.run_read hbp env hfit ⟨a.logPotentials, a.ftovMsgs, ev'⟩ d hlp hev' n hm
  have hbel : ∀ v start, st.varsToStarts v = some start → ∀ s < v.n,
      beliefOf (graphOf vgs hist).allScopes (readEv st.varsToStarts ev') (readMsgs (graphOf vgs hist).allScopes (bp.runBP env ⟨a.logPotentials, a.ftovMsgs, ev'⟩ n d).ftovMsgs) v s
      = beliefOf (graphOf vgs hist).allScopes (readEv st.varsToStarts a.evidence) (readMsgs (graphOf vgs hist).allScopes (bp.runBP env a n d).ftovMsgs) v s + c v := by
    intro v start hv s hs
    unfold beliefOf
    rw [hmsg, hc v start hv s hs]
    ring
  refine ⟨hmsg, ?_, ?_⟩
  · intro v start hv s hs
    rw [C34_flat h hbp _ l1 hev v start hv s hs, C34_flat h hbp _ l2 hev' v start hv s hs]
    exact congrArg some (hbel v start hv s hs)
  · intro hreg hst
    obtain ⟨bs, rs, e1, e2, e3, e4⟩ := C35_partial h hbp _ l1 hev hreg hst
    obtain ⟨bs', rs', f1, f2, f3, f4⟩ := C35_partial h hbp _ l2 hev' hreg hst
    refine ⟨bs, bs', rs, e1, f1, e2, ?_⟩
    rw [f2]
    congr 1
    refine eq_of_keys (f3.trans e3.symm) ?_
    intro g r r' h1 h2
    have hg : g ∈ vgs := by rw [← e3]; exact List.mem_map_of_mem (f := Prod.fst) h2
    obtain ⟨objId, hb⟩ := h.vgroups.built g hg
    refine VGroup.Decodes.unique hb (f4 _ h1) ((e4 _ h2).shift c ?_)
    intro v hv s hs
    obtain ⟨start, hstart⟩ := h.mem_starts hg hv
    exact hbel v start hstart s hs

/-- **C40, partial.** Let the log potentials `lp'` differ from those of `a` by a constant `k f` per enumeration factor `f`.  Then the
messages and beliefs after any number of iterations are the same.  Any temperature, damping between 0 and 1.
Missing: graphs, log potentials and evidence that are not `Moderate` (before and after the shift), where the `-1e5` in the code
does not act as minus infinity (`C40_refuted`); the size limits `Fits`. -/
theorem C40_partial [DecidableEq κ] (h : Compiled vgs hist garbage st) {state : BPState α} {T : α} {bp : BPFun κ α}
    (hbp : BP.create st state T = .ok bp) (env : Env α) (hfit : Fits env (graphOf vgs hist) T) (hT : T = 0 ∨ (0 < T ∧ EnvOk env))
    (a : BPArrays α) (lp' : List α) (n : Nat) (d : α)
    (hlp : a.logPotentials.length = st.logPotentials.length) (hev : a.evidence.length = st.numVarStates)
    (hm : a.ftovMsgs.length = st.totalFactorNumStates) (hlp' : lp'.length = st.logPotentials.length)
    (k : Nat → α) (hk : PotShift (graphOf vgs hist) a.logPotentials lp' k)
    (hmod : Moderate (graphOf vgs hist) a.logPotentials (readEv st.varsToStarts a.evidence) d)
    (hmod' : Moderate (graphOf vgs hist) lp' (readEv st.varsToStarts a.evidence) d) :
    (bp.runBP env ⟨lp', a.ftovMsgs, a.evidence⟩ n d).ftovMsgs = (bp.runBP env a n d).ftovMsgs ∧
    bp.getBeliefs (bp.runBP env ⟨lp', a.ftovMsgs, a.evidence⟩ n d) = bp.getBeliefs (bp.runBP env a n d) := by
  have hmsg := h.run_shift hbp env hfit hT a lp' a.evidence n d hlp hev hm hlp' hev k hk _ (EvShift.refl _ _) hmod hmod'
  refine ⟨hmsg, ?_⟩
  have hfb : bp.flatBeliefs (bp.runBP env ⟨lp', a.ftovMsgs, a.evidence⟩ n d) = bp.flatBeliefs (bp.runBP env a n d) := by
    unfold BPFun.flatBeliefs
    rw [hmsg]
    rfl
  unfold BPFun.getBeliefs
  rw [hfb]

end

/-- What the code computes with satisfies `EnvOk`. -/
theorem envOk_real (env : Env ℝ) (hexp : env.exp = Real.exp) (hlog : env.log = Real.log) : EnvOk env where
  exp_nonneg := by rw [hexp]; exact fun x => (Real.exp_pos x).le
  exp_zero := by rw [hexp]; exact Real.exp_zero
  log_nonneg := by rw [hlog]; exact fun x => Real.log_nonneg
  log_tiny := by rw [hexp, hlog, Real.log_exp]; norm_num

/-- The marginals of a group are determined by its beliefs. -/
theorem VGroup.HasMarginals.unique {objId : Nat} {g : VGroup κ} (hb : VGroup.Built objId g) (hst : g.Stated) {B : Var → Nat → ℝ} {r r' : GroupMarginals κ ℝ}
    (h : g.HasMarginals B r) (h' : g.HasMarginals B r') : r = r' := by
  obtain ⟨hlen, -⟩ := hb.vars
  cases hb with
  | arr hns hc =>
    rename_i shape ns g
    obtain ⟨-, hsh, hl, -⟩ := NDVarArray.create_ok hns hc
    rw [← hsh] at hl
    simp only [VGroup.numStates, VGroup.variables] at hlen
    cases r with
    | dict d => exact h.elim
    | arr a =>
      cases r' with
      | dict d => exact h'.elim
      | arr a' =>
        obtain ⟨m, m1, w1, s1, d1⟩ := h
        obtain ⟨m', m2, w2, s2, d2⟩ := h'
        obtain ⟨-, n0, hn0, -⟩ := hst
        have hmm : m = m' := le_antisymm (m2.1 _ (m1.2 (List.ne_nil_of_mem hn0))) (m1.1 _ (m2.2 (List.ne_nil_of_mem hn0)))
        subst hmm
        unfold NDArr.WF at w1 w2
        rw [s1, List.prod_append, List.prod_singleton] at w1
        rw [s2, List.prod_append, List.prod_singleton] at w2
        have hd : a.data = a'.data := by
          apply List.ext_getElem?
          intro p
          by_cases hp : p < g.shape.prod * m
          · have hm0 : 0 < m := by
              rcases Nat.eq_zero_or_pos m with h0 | h0
              · rw [h0] at hp; simp at hp
              · exact h0
            have hk : p / m < g.variables.length := by
              rw [hlen, hl]; exact Nat.div_lt_of_lt_mul (by rwa [Nat.mul_comm] at hp)
            have e : p = p / m * m + p % m := by rw [Nat.mul_comm]; exact (Nat.div_add_mod p m).symm
            rw [e, d1 _ _ _ (List.getElem?_eq_getElem hk) (Nat.mod_lt _ hm0), d2 _ _ _ (List.getElem?_eq_getElem hk) (Nat.mod_lt _ hm0)]
          · rw [List.getElem?_eq_none (by omega), List.getElem?_eq_none (by omega)]
        cases a; cases a'
        simp only at s1 s2 hd
        rw [s1, s2, hd]
  | dict hns hle hc =>
    rename_i names ns g
    obtain ⟨-, hnm, hl⟩ := VarDict.create_ok hns hc
    rw [← hnm] at hl
    simp only [VGroup.numStates, VGroup.variables] at hlen
    cases r with
    | arr a => exact h.elim
    | dict d =>
      cases r' with
      | arr a => exact h'.elim
      | dict d' =>
        obtain ⟨k1, d1⟩ := h
        obtain ⟨k2, d2⟩ := h'
        congr 1
        have hl1 : d.length = g.names.length := by rw [← k1]; simp
        have hl2 : d'.length = g.names.length := by rw [← k2]; simp
        apply List.ext_getElem?
        intro k
        by_cases hk : k < g.variables.length
        · obtain ⟨x, e1, e2, e3⟩ := d1 k _ (List.getElem?_eq_getElem hk)
          obtain ⟨x', f1, f2, f3⟩ := d2 k _ (List.getElem?_eq_getElem hk)
          rw [e1, f1]
          have hx : x.1 = x'.1 := by
            have g1 : (d.map (·.1))[k]? = some x.1 := by rw [List.getElem?_map, e1]; rfl
            have g2 : (d'.map (·.1))[k]? = some x'.1 := by rw [List.getElem?_map, f1]; rfl
            rw [k1] at g1
            rw [k2, g1] at g2
            exact Option.some.inj g2
          obtain ⟨x1, ⟨xs, xd⟩⟩ := x
          obtain ⟨y1, ⟨ys, yd⟩⟩ := x'
          simp only at e2 e3 f2 f3 hx
          rw [e2, e3, f2, f3, hx]
        · rw [List.getElem?_eq_none (by omega), List.getElem?_eq_none (by omega)]

theorem gibbs_congr {f g : Nat → ℝ} {n : Nat} (c : ℝ) (hg : ∀ s < n, g s = f s + c) (hn : 0 < n) {s : Nat} (hs : s < n) : gibbs g n s = gibbs f n s := by
  rw [← (C36_gibbs f n hn).2.2.2 c s]
  unfold gibbs
  simp only
  rw [hg s hs]
  congr 2
  exact List.map_congr_left (fun t ht => by rw [hg t (List.mem_range.1 ht)])

theorem VGroup.HasMarginals.shift {g : VGroup κ} {B B' : Var → Nat → ℝ} {r : GroupMarginals κ ℝ} (c : Var → ℝ)
    (hc : ∀ v ∈ g.variables, ∀ s < v.n, B' v s = B v s + c v) (h : g.HasMarginals B r) : g.HasMarginals B' r := by
  cases g with
  | arr g =>
    cases r with
    | dict d => exact h.elim
    | arr a =>
      obtain ⟨m, m1, w1, s1, d1⟩ := h
      refine ⟨m, m1, w1, s1, fun k v s hv hs => ?_⟩
      rw [d1 k v s hv hs]
      by_cases hsn : s < v.n
      · rw [if_pos hsn, if_pos hsn, gibbs_congr (c v) (hc v (List.mem_of_getElem? hv)) (by omega) hsn]
      · rw [if_neg hsn, if_neg hsn]
  | dict g =>
    cases r with
    | arr a => exact h.elim
    | dict d =>
      obtain ⟨k1, d1⟩ := h
      refine ⟨k1, fun k v hv => ?_⟩
      obtain ⟨x, e1, e2, e3⟩ := d1 k v hv
      refine ⟨x, e1, e2, ?_⟩
      rw [e3]
      apply List.map_congr_left
      intro s hs
      have hs := List.mem_range.1 hs
      rw [gibbs_congr (c v) (hc v (List.mem_of_getElem? hv)) (by omega) hs]

/-- **C39 (marginals), partial.** Shifting the evidence by a constant per variable does not change the marginals.
Missing: as in `C39_partial`. -/
theorem C39_marginals_partial [DecidableEq κ] {hist : List (AddArg ℝ)} {st : FGState κ ℝ} (h : Compiled vgs hist garbage st) {state : BPState ℝ} {T : ℝ}
    {bp : BPFun κ ℝ} (hbp : BP.create st state T = .ok bp) (env : Env ℝ) (hexp : env.exp = Real.exp) (hlog : env.log = Real.log)
    (hfit : Fits env (graphOf vgs hist) T) (hT : 0 ≤ T)
    (a : BPArrays ℝ) (ev' : List ℝ) (n : Nat) (d : ℝ)
    (hlp : a.logPotentials.length = st.logPotentials.length) (hev : a.evidence.length = st.numVarStates)
    (hm : a.ftovMsgs.length = st.totalFactorNumStates) (hev' : ev'.length = st.numVarStates)
    (c : Var → ℝ) (hc : EvShift st.varsToStarts a.evidence ev' c)
    (hmod : Moderate (graphOf vgs hist) a.logPotentials (readEv st.varsToStarts a.evidence) d)
    (hmod' : Moderate (graphOf vgs hist) a.logPotentials (readEv st.varsToStarts ev') d)
    (hreg : ∀ g ∈ vgs, g.Regular) (hst : ∀ g ∈ vgs, g.Stated) :
    ∃ bs bs' rs, bp.getBeliefs (bp.runBP env a n d) = .ok bs ∧
      bp.getBeliefs (bp.runBP env ⟨a.logPotentials, a.ftovMsgs, ev'⟩ n d) = .ok bs' ∧
      getMarginals env bs = .ok rs ∧ getMarginals env bs' = .ok rs := by
  have hT' : T = 0 ∨ (0 < T ∧ EnvOk env) := by
    rcases hT.eq_or_lt with h0 | h0
    · exact .inl h0.symm
    · exact .inr ⟨h0, envOk_real env hexp hlog⟩
  have hmsg := h.run_shift hbp env hfit hT' a a.logPotentials ev' n d hlp hev hm hlp hev' _ (PotShift.refl _ _) c hc hmod hmod'
  obtain ⟨l1, -⟩ := h.run_read hbp env hfit a d hlp hev n hm
  obtain ⟨l2, -⟩ := h.run_read hbp env hfit ⟨a.logPotentials, a.ftovMsgs, ev'⟩ d hlp hev' n hm
  obtain ⟨bs, rs, e1, e2, e3, e4⟩ := C36_partial h hbp env hexp hlog _ l1 hev hreg hst
  obtain ⟨bs', rs', f1, f2, f3, f4⟩ := C36_partial h hbp env hexp hlog _ l2 hev' hreg hst
  refine ⟨bs, bs', rs, e1, f1, e2, ?_⟩
  rw [f2]
  congr 1
  refine eq_of_keys (f3.trans e3.symm) ?_
  intro g r r' h1 h2
  have hg : g ∈ vgs := by rw [← e3]; exact List.mem_map_of_mem (f := Prod.fst) h2
  obtain ⟨objId, hb⟩ := h.vgroups.built g hg
  refine VGroup.HasMarginals.unique hb (hst g hg) (f4 _ h1) ((e4 _ h2).shift c ?_)
  intro v hv s hs
  obtain ⟨start, hstart⟩ := h.mem_starts hg hv
  unfold beliefOf
  rw [hmsg]
  have := hc v start hstart s hs
  simp only [BPFun.runBP] at this ⊢
  rw [this]
  ring

/-- **C39 does not hold in general.** In the graph `exHist3`, subtracting 2e5 from the evidence of the second variable changes the
messages. -/
theorem C39_refuted : EvShift exState3.varsToStarts [0, 0, 0, 3, 1] [0, 0, -200000, -199997, -199999] (fun v => if v.n = 3 then (-200000 : ℚ) else 0) ∧
    (exBP3.runBP exEnv ⟨[0, 0, 0], [0, 0, 0, 0, 0], [0, 0, 0, 3, 1]⟩ 1 0).ftovMsgs = [-2, 0, 0, 0, 0] ∧
    (exBP3.runBP exEnv ⟨[0, 0, 0], [0, 0, 0, 0, 0], [0, 0, -200000, -199997, -199999]⟩ 1 0).ftovMsgs = [0, 0, 0, -3, -1] := by
  refine ⟨?_, by decide +kernel, by decide +kernel⟩
  intro v start hv
  obtain ⟨i, hi, rfl⟩ := (exState3_compiled.starts_iff v start).1 hv
  match i, hi with
  | 0, hi => cases hi; decide +kernel
  | 1, hi => cases hi; decide +kernel

/-- **C40 does not hold in general.** In the graph `exHist3`, subtracting 2e5 from all log potentials of the factor changes the messages. -/
theorem C40_refuted : PotShift (graphOf exVars3 exHist3) [1, 0, 4] [-199999, -200000, -199996] (fun _ => (-200000 : ℚ)) ∧
    (exBP3.runBP exEnv ⟨[1, 0, 4], [0, 0, 0, 0, 0], [1, 0, 0, 3, 1]⟩ 1 0).ftovMsgs = [-6, 0, -2, 0, -3] ∧
    (exBP3.runBP exEnv ⟨[-199999, -200000, -199996], [0, 0, 0, 0, 0], [1, 0, 0, 3, 1]⟩ 1 0).ftovMsgs = [-1, 0, 0, -3, -1] := by
  refine ⟨?_, by decide +kernel, by decide +kernel⟩
  have e : (graphOf exVars3 exHist3).tables = [([⟨1000000000, 2⟩, ⟨1000000001, 3⟩], ⟨2, [[0, 0], [0, 2], [1, 1]]⟩)] := rfl
  unfold PotShift
  rw [e]
  intro f
  match f with
  | 0 => simp [tableFacs, SFac.shift]; norm_num
  | f + 1 => rfl

theorem exEdge3 : ∀ f i v, IsEdge (graphOf exVars3 exHist3).allScopes f i v → (f = 0 ∧ i = 0 ∧ v = ⟨1000000000, 2⟩) ∨ (f = 0 ∧ i = 1 ∧ v = ⟨1000000001, 3⟩) := by
  have e3 : (graphOf exVars3 exHist3).allScopes = [[⟨1000000000, 2⟩, ⟨1000000001, 3⟩]] := rfl
  rintro f i v ⟨vs, h1, h2⟩
  rw [e3] at h1
  match f, h1 with
  | 0, h1 =>
    cases h1
    match i, h2 with
    | 0, h2 => cases h2; simp
    | 1, h2 => cases h2; simp

/-- Log potentials up to 200 and evidence up to 500 on the graph `exHist3` are moderate. -/
theorem exModerate3 (lp : List ℚ) (hlp : ∀ x ∈ lp, |x| ≤ 200) (ev : Var → Nat → ℚ) (hev : ∀ v s, |ev v s| ≤ 500) :
    Moderate (graphOf exVars3 exHist3) lp ev (1 / 2) := by
  refine moderate_of_bounds (E := 500) (P := 200) (D := 1) (K := 2) (by norm_num) (fun _ _ v s _ _ => hev v s) ?_ (by norm_num) ?_ (by norm_num)
  · intro f i v he
    have e3 : (graphOf exVars3 exHist3).allScopes = [[⟨1000000000, 2⟩, ⟨1000000001, 3⟩]] := rfl
    rcases exEdge3 f i v he with ⟨rfl, rfl, rfl⟩ | ⟨rfl, rfl, rfl⟩ <;> rw [e3] <;> decide +kernel
  · intro F hF
    have e : (graphOf exVars3 exHist3).tables = [([⟨1000000000, 2⟩, ⟨1000000001, 3⟩], ⟨2, [[0, 0], [0, 2], [1, 1]]⟩)] := rfl
    rw [e] at hF
    simp only [tableFacs, List.mem_singleton] at hF
    subst hF
    refine ⟨by norm_num, ?_⟩
    intro r hr
    exact hlp _ (List.of_mem_zip hr).2

/-- Non-vacuity of C39 and C40: three damped iterations on the graph `exHist3` with shifted evidence, and with shifted log potentials. -/
example : Moderate (graphOf exVars3 exHist3) [1, 0, 4] (readEv exState3.varsToStarts [1, 0, 0, 3, 1]) (1 / 2) ∧
    Moderate (graphOf exVars3 exHist3) [1, 0, 4] (readEv exState3.varsToStarts [8, 7, 100, 103, 101]) (1 / 2) ∧
    Moderate (graphOf exVars3 exHist3) [101, 100, 104] (readEv exState3.varsToStarts [1, 0, 0, 3, 1]) (1 / 2) ∧
    EvShift exState3.varsToStarts [1, 0, 0, 3, 1] [8, 7, 100, 103, 101] (fun v => if v.n = 3 then (100 : ℚ) else 7) ∧
    PotShift (graphOf exVars3 exHist3) [1, 0, 4] [101, 100, 104] (fun _ => (100 : ℚ)) ∧
    (exBP3.runBP exEnv ⟨[1, 0, 4], [0, 0, 0, 0, 0], [1, 0, 0, 3, 1]⟩ 3 (1 / 2)).ftovMsgs = [-21 / 4, 0, -7 / 4, 0, -21 / 8] ∧
    (exBP3.runBP exEnv ⟨[101, 100, 104], [0, 0, 0, 0, 0], [1, 0, 0, 3, 1]⟩ 3 (1 / 2)).ftovMsgs = [-21 / 4, 0, -7 / 4, 0, -21 / 8] := by
  have hev : ∀ l : List ℚ, (∀ x ∈ l, |x| ≤ 500) → ∀ v s, |readEv exState3.varsToStarts l v s| ≤ 500 := by
    intro l hl v s
    unfold readEv List.getD
    cases e : l[(exState3.varsToStarts v).getD 0 + s]? with
    | none => norm_num
    | some x => exact hl x (List.mem_of_getElem? e)
  refine ⟨exModerate3 _ (by decide +kernel) _ (hev _ (by decide +kernel)), exModerate3 _ (by decide +kernel) _ (hev _ (by decide +kernel)),
    exModerate3 _ (by decide +kernel) _ (hev _ (by decide +kernel)), ?_, ?_, by decide +kernel, by decide +kernel⟩
  · intro v start hv
    obtain ⟨i, hi, rfl⟩ := (exState3_compiled.starts_iff v start).1 hv
    match i, hi with
    | 0, hi => cases hi; decide +kernel
    | 1, hi => cases hi; decide +kernel
  · have e : (graphOf exVars3 exHist3).tables = [([⟨1000000000, 2⟩, ⟨1000000001, 3⟩], ⟨2, [[0, 0], [0, 2], [1, 1]]⟩)] := rfl
    unfold PotShift
    rw [e]
    intro f
    match f with
    | 0 => simp [tableFacs, SFac.shift]; norm_num
    | f + 1 => rfl

end PGMax
