import Verif.Props.C42_C46
import Verif.Lemmas.Normalize

/-! # C46: why the number of edge states matters under JAX 0.3.13

One variable with one state and two with 50000, each with a factor of its own: 100001 edge states.  When negative start indices of
`dynamic_slice` wrap around, the maximum of the first message is read from the message of another variable. -/

namespace PGMax

/-- One variable with 1 state, two with 50000. -/
def bigVars : List (VGroup Nat) := [.arr ⟨2000000000, [3], [1, 50000, 50000]⟩]

/-- A factor with one configuration on each of the variables. -/
def bigHist : List (AddArg ℚ) :=
  [.one ⟨5, .enum, .enumGroup, [[⟨2000000000, 1⟩], [⟨2000000001, 50000⟩], [⟨2000000002, 50000⟩]], ⟨1, [[0]]⟩, [0, 0, 0]⟩]

theorem big_groups : FType.all.flatMap (graphOf bigVars bigHist).groups =
    [⟨5, .enum, .enumGroup, [[⟨2000000000, 1⟩], [⟨2000000001, 50000⟩], [⟨2000000002, 50000⟩]], ⟨1, [[0]]⟩, [0, 0, 0]⟩] := rfl

theorem big_scopes : (graphOf bigVars bigHist).allScopes = [[⟨2000000000, 1⟩], [⟨2000000001, 50000⟩], [⟨2000000002, 50000⟩]] := rfl

theorem big_valid : ∀ a ∈ bigHist, ∀ g ∈ a.flat,
    g.Valid (fun v => ((FactorGraph.create bigVars : FactorGraph Nat ℚ).varsToStarts v).isSome) := by
  simp only [bigHist, List.mem_cons, List.not_mem_nil, or_false, forall_eq, AddArg.flat]
  refine ⟨by decide, by decide, fun _ => ⟨by decide, by decide, by decide, ?_, by rfl⟩, fun h => absurd rfl h⟩
  intro vs hvs r hr
  simp only [List.mem_cons, List.not_mem_nil, or_false] at hvs hr
  subst hr
  rcases hvs with rfl | rfl | rfl <;> simp

theorem big_compiled : ∃ st, Compiled bigVars bigHist 0 st := by
  have hv : (graphOf bigVars bigHist).Valid := by
    intro t g hg
    have hm : g ∈ FType.all.flatMap (graphOf bigVars bigHist).groups := by
      refine List.mem_flatMap.2 ⟨t, ?_, hg⟩
      cases t <;> decide
    rw [big_groups] at hm
    simp only [List.mem_cons, List.not_mem_nil, or_false] at hm
    have ht : g.ftype = t := by
      cases t
      · rw [hm]
      · cases hg
      · cases hg
    refine ⟨ht, ?_⟩
    subst hm
    exact big_valid _ List.mem_cons_self _ List.mem_cons_self
  have hw := wiring_ok 0 _ hv (by intro g hg; cases hg) (by intro g hg; cases hg)
  have hc : ∃ st, (graphOf bigVars bigHist).fgState 0 = .ok st := by
    unfold FactorGraph.fgState
    rw [hw]
    exact ⟨_, rfl⟩
  obtain ⟨st, hst⟩ := hc
  refine ⟨st, ?_, big_valid, ?_, hst⟩
  · refine ⟨?_, by simp [bigVars]⟩
    simp only [bigVars, List.mem_cons, List.not_mem_nil, or_false, forall_eq]
    exact ⟨2, .arr (ns := .array ⟨[3], [1, 50000, 50000]⟩) (shape := [3]) (by intro a h; cases h; rfl) (by decide)⟩
  · rw [big_groups]
    intro g hg k hk _
    simp only [List.mem_cons, List.not_mem_nil, or_false] at hg hk
    rw [hg, hk]

/-- The maximum of the first message is read from one of the other messages. -/
theorem big_normalize (env : Env ℚ) (hw : env.wrapNeg = true) (k : Nat) (hk : 50000 ≤ k + 1) (hk' : k + 1 < 100000) (x : ℚ)
    (hx : -1000 ≤ 5 - x) (hx' : -1000 ≤ x) :
    (normalizeAndClip env (5 :: List.replicate (2 * (k + 1)) x) [1, k + 1, k + 1] (k + 1))[0]? = some (5 - x) := by
  have hseg : (segmentMaxOpt env (5 :: List.replicate (2 * (k + 1)) x) [1, k + 1, k + 1] (k + 1))[0]? = some x := by
    unfold segmentMaxOpt
    rw [zip_at _ (segStartIndices_at _ 0 (by simp)) (show [1, k + 1, k + 1][0]? = some 1 by simp)]
    rw [if_pos rfl]
    unfold dynamicSlice
    have hl : ((5 : ℚ) :: List.replicate (2 * (k + 1)) x ++ List.replicate (k + 1) 0).length = 3 * k + 4 := by simp; omega
    simp only [hw, Bool.true_and, hl]
    rw [show decide ((-100000 : Int) < 0) = true from rfl, if_pos rfl]
    obtain ⟨p, hp, hst⟩ : ∃ p, p < 2 * (k + 1) ∧
        (max 0 (min ((-100000 : Int) + ((3 * k + 4 : Nat) : Int)) (((3 * k + 4 : Nat) : Int) - ((k + 1 : Nat) : Int)))).toNat = p + 1 :=
      ⟨3 * k + 3 - 100000, by omega, by omega⟩
    rw [hst]
    have hat : ((5 : ℚ) :: List.replicate (2 * (k + 1)) x ++ List.replicate (k + 1) 0)[p + 1 + 0]? = some x := by
      rw [Nat.add_zero, List.cons_append, List.getElem?_cons_succ, List.getElem?_append_left (by simpa using hp), List.getElem?_replicate,
        if_pos hp]
    have hsl : (slice ((5 : ℚ) :: List.replicate (2 * (k + 1)) x ++ List.replicate (k + 1) 0) (p + 1) (p + 1 + (k + 1)))[0]? = some x := by
      rw [slice_getElem?, if_pos (by omega), hat]
    generalize slice ((5 : ℚ) :: List.replicate (2 * (k + 1)) x ++ List.replicate (k + 1) 0) (p + 1) (p + 1 + (k + 1)) = sl at hsl
    rw [List.range_succ_eq_map, List.map_cons]
    unfold listMax
    congr 1
    rw [if_pos (by omega), List.getD, hsl]
    have : ∀ l : List ℚ, (∀ y ∈ l, y ≤ x) → l.foldl max x = x := by
      intro l
      induction l with
      | nil => intro _; rfl
      | cons y l ih =>
        intro h
        rw [List.foldl_cons, max_eq_left (h y List.mem_cons_self)]
        exact ih fun z hz => h z (List.mem_cons_of_mem _ hz)
    apply this
    intro y hy
    simp only [List.map_map, List.mem_map, List.mem_range, Function.comp] at hy
    obtain ⟨j, -, rfl⟩ := hy
    rw [if_neg (by omega)]
    unfold NEG_INF
    linarith
  have hrep : (repeatTo env.oob (segmentMaxOpt env (5 :: List.replicate (2 * (k + 1)) x) [1, k + 1, k + 1] (k + 1)) [1, k + 1, k + 1]
      (5 :: List.replicate (2 * (k + 1)) x).length)[0]? = some x := by
    have := repeatTo_at env.oob _ [1, k + 1, k + 1] 0 1 0 x (by simp) hseg (segmentMaxOpt_length _ _ _ _) (by omega)
    have e : (5 :: List.replicate (2 * (k + 1)) x).length = [1, k + 1, k + 1].sum := by simp; omega
    rw [e]
    exact this
  unfold normalizeAndClip
  refine (map_at (fun x => max x (-1000)) (zip_at _ (show (5 :: List.replicate (2 * (k + 1)) x)[0]? = some 5 from rfl) hrep)).trans ?_
  rw [max_eq_left hx]

/-- **C46 does not hold in general.** Under JAX 0.3.13 (`wrapNeg`) there is a graph of 100001 edge states and a variable that
shares no factor with any other, such that two runs (of no iteration at all) that differ only in the initial messages to the other
variables give different messages to it. -/
theorem C46_refuted (env : Env ℚ) (hw : env.wrapNeg = true) :
    ∃ (st : FGState Nat ℚ) (state : BPState ℚ) (bp : BPFun Nat ℚ) (S : Var → Prop) (a b : BPArrays ℚ),
      Compiled bigVars bigHist 0 st ∧ BP.create st state 0 = .ok bp ∧ Separated (graphOf bigVars bigHist).allScopes S ∧
      a.logPotentials = b.logPotentials ∧ a.evidence = b.evidence ∧ a.logPotentials.length = st.logPotentials.length ∧
      a.evidence.length = st.numVarStates ∧ a.ftovMsgs.length = st.totalFactorNumStates ∧ b.ftovMsgs.length = st.totalFactorNumStates ∧
      AgreeIn (graphOf bigVars bigHist).allScopes S (readMsgs (graphOf bigVars bigHist).allScopes a.ftovMsgs)
        (readMsgs (graphOf bigVars bigHist).allScopes b.ftovMsgs) ∧
      ¬ AgreeIn (graphOf bigVars bigHist).allScopes S (readMsgs (graphOf bigVars bigHist).allScopes (bp.runBP env a 0 0).ftovMsgs)
        (readMsgs (graphOf bigVars bigHist).allScopes (bp.runBP env b 0 0).ftovMsgs) := by
  obtain ⟨st, h⟩ := big_compiled
  obtain ⟨bp, hbp⟩ : ∃ bp, BP.create st ⟨⟨0, []⟩, ⟨0, []⟩, ⟨0, []⟩⟩ (0 : ℚ) = .ok bp := by
    unfold BP.create
    have e : FType.all.flatMap st.wiring.edgesNumStates = [1, 50000, 50000] := by
      rw [h.st_eq]; rfl
    rw [e]
    exact ⟨_, rfl⟩
  have hl : bp.edgesNumStates = [1, 50000, 50000] := by rw [h.bpLens hbp, big_scopes]; rfl
  have hm : bp.maxMsgSize = 50000 := by
    obtain ⟨-, -, -, -, -, e6⟩ := BP_create_ok hbp
    rw [hl] at e6
    exact (Except.ok.inj e6).symm
  have hrun : ∀ x : ℚ, -1000 ≤ 5 - x → -1000 ≤ x → ∀ lp ev,
      readMsgs (graphOf bigVars bigHist).allScopes (bp.runBP env ⟨lp, 5 :: List.replicate 100000 x, ev⟩ 0 0).ftovMsgs 0 0 0 = 5 - x := by
    intro x h1 h2 lp ev
    have e : (bp.runBP env ⟨lp, 5 :: List.replicate 100000 x, ev⟩ 0 0).ftovMsgs =
        normalizeAndClip env (5 :: List.replicate 100000 x) [1, 50000, 50000] 50000 := by
      unfold BPFun.runBP
      rw [hl, hm]
      rfl
    rw [e]
    unfold readMsgs
    have e0 : edgeStart (graphOf bigVars bigHist).allScopes 0 0 + 0 = 0 := rfl
    rw [e0, List.getD, big_normalize env hw 49999 (by omega) (by omega) x h1 h2]
    rfl
  have htot : st.totalFactorNumStates = 100001 := by rw [h.st_eq]; rfl
  refine ⟨st, _, bp, fun v => v.hash = 2000000000,
    ⟨st.logPotentials, 5 :: List.replicate 100000 0, List.replicate st.numVarStates 0⟩,
    ⟨st.logPotentials, 5 :: List.replicate 100000 5, List.replicate st.numVarStates 0⟩,
    h, hbp, ?_, rfl, rfl, rfl, by simp, by rw [htot, List.length_cons, List.length_replicate], by rw [htot, List.length_cons, List.length_replicate], ?_, ?_⟩
  · rw [big_scopes]
    unfold Separated
    decide
  · rw [big_scopes]
    rintro f i v s ⟨vs, hf, hi⟩ hv hs
    have hvs : vs = [⟨2000000000, 1⟩] ∧ f = 0 := by
      have hmv := List.mem_of_getElem? hi
      match f, hf with
      | 0, hf => simp at hf; exact ⟨hf.symm, rfl⟩
      | 1, hf => simp at hf; subst hf; simp at hmv; subst hmv; simp at hv
      | 2, hf => simp at hf; subst hf; simp at hmv; subst hmv; simp at hv
      | f + 3, hf => simp at hf
    obtain ⟨rfl, rfl⟩ := hvs
    have hi0 : i = 0 := by
      have := (List.getElem?_eq_some_iff.1 hi).1
      simpa using this
    subst hi0
    simp at hi
    subst hi
    have hs0 : s = 0 := by simpa using hs
    subst hs0
    rfl
  · intro hag
    have := hag 0 0 ⟨2000000000, 1⟩ 0 ⟨[⟨2000000000, 1⟩], by rw [big_scopes]; rfl, rfl⟩ rfl (by simp)
    rw [hrun 0 (by norm_num) (by norm_num), hrun 5 (by norm_num) (by norm_num)] at this
    norm_num at this

end PGMax
