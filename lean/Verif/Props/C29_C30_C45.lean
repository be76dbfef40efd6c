import Verif.Lemmas.LogicalPart
import Verif.Lemmas.LogicalSum
import Verif.Lemmas.Example

/-! # C29, C30, C45: messages of OR and AND factors -/

namespace PGMax

variable {κ α : Type _} {vgs : List (VGroup κ)} {hist : List (AddArg α)} {garbage : Garbage} {st : FGState κ α}

/-- **C29, partial.** At temperature 0 the messages of an OR or AND factor `F` with any number of parents are, up to a
constant per message, the maxima over all its configurations (`2^n`, child = OR / AND of the parents) of the incoming
messages of the other variables.
The incoming messages must favour the determining state by more than `-1e5` for two parents of the factor (nothing is
needed for a factor with one parent), and either the graph has at most 1e5 logical parents or every logical factor has a
parent with a difference of at least `-1e5`.
Missing: all other incoming messages, for which the statement fails (`C29_refuted`). -/
theorem C29_partial [Field α] [LinearOrder α] [IsStrictOrderedRing α] (h : Compiled vgs hist garbage st) {state : BPState α} {bp : BPFun κ α}
    (hbp : BP.create st state 0 = .ok bp) (env : Env α) (lp vtof : List α)
    (hlp : lp.length = st.logPotentials.length) (hv : vtof.length = st.totalFactorNumStates) (f i : Nat) (F : SFac α)
    (hF : ((graphOf vgs hist).factors lp)[f]? = some F) (hf : (graphOf vgs hist).tables.length ≤ f) (hi : i < F.scope.length)
    (hother : (graphOf vgs hist).numParents ≤ 100000 ∨ ∀ (g : Nat) (vs : List Var), (graphOf vgs hist).allScopes[g]? = some vs →
      (graphOf vgs hist).tables.length ≤ g →
      ∃ j < vs.length - 1, -100000 ≤ (graphOf vgs hist).pull (readMsgs (graphOf vgs hist).allScopes vtof) g j)
    (hthis : F.scope.length = 2 ∨ ∃ j < F.scope.length - 1, ∃ k < F.scope.length - 1, j ≠ k ∧
      -100000 < (graphOf vgs hist).pull (readMsgs (graphOf vgs hist).allScopes vtof) f j ∧
      -100000 < (graphOf vgs hist).pull (readMsgs (graphOf vgs hist).allScopes vtof) f k) :
    ∃ c, ∀ s < 2, ∃ z, (bp.newMsgs env lp vtof)[edgeStart (graphOf vgs hist).allScopes f i + s]? = some z ∧
      IsGreatest {x | ∃ r ∈ F.rowsAt i s, x = scoreBut F.scope.length (readMsgs (graphOf vgs hist).allScopes vtof f) i r} (z + c) := by
  obtain ⟨e1, -, -, e4, -⟩ := BP_create_ok hbp
  obtain ⟨rel, base, scopes, vt, hrel, hbf, hl, hvt, hsc, hrows, hcnt, hpart, hmsg, -⟩ := h.logical_part e1 env lp vtof hlp hv f F hF hf
  obtain ⟨g, rfl⟩ : ∃ g, f = base + g := ⟨f - base, by omega⟩
  rw [Nat.add_sub_cancel_left] at hsc
  have h2 := (hl _ (List.mem_of_getElem? hsc)).1
  have hpull : ∀ (g : Nat) (vs : List Var) (j : Nat), scopes[g]? = some vs → j < vs.length →
      (graphOf vgs hist).pull (readMsgs (graphOf vgs hist).allScopes vtof) (base + g) j = diffAt scopes vt rel g j := by
    intro g vs j hg hj
    unfold FactorGraph.pull diffAt
    rw [(hpart g vs hg).2.1, (hmsg g vs j _ hg hj (by omega)).2, (hmsg g vs j _ hg hj hrel).2]
  obtain ⟨n, hn⟩ : ∃ n, F.scope.length = n + 1 := ⟨F.scope.length - 1, by omega⟩
  have hnn : (parentCounts scopes).getD g 0 = n := by rw [parentCounts_getD hsc]; omega
  have hgl : g < (parentCounts scopes).length := by rw [parentCounts, List.length_map]; exact (List.getElem?_eq_some_iff.1 hsc).1
  -- the closed form
  have pdat : ∀ (g : Nat) (vs : List Var) (j : Nat), scopes[g]? = some vs → j < vs.length - 1 →
      (pdiffs env vt rel scopes).getD (blk (parentCounts scopes) g j) 0 = diffAt scopes vt rel g j :=
    fun g vs j hg hj => getD_of_some (pdiffs_at env vt hvt hl rel hrel g j vs hg hj)
  have hspec := logicalMax_spec (lLabels rel hl) env (pdiffs env vt rel scopes) (cdiffs env vt rel scopes) (pdiffs_length _ _ _ _)
    ((cdiffs_length _ _ _ _).trans (by simp [parentCounts])) (parentCounts_pos hl)
    (by
      intro g' hg'
      rcases hother with ho | ho
      · left; omega
      · right
        have hg'' : g' < scopes.length := by simpa [parentCounts] using hg'
        have hs' := List.getElem?_eq_getElem hg''
        obtain ⟨j, hj, hge⟩ := ho (base + g') _ (hpart g' _ hs').2.2 (hpart g' _ hs').1
        refine ⟨j, by rw [parentCounts_getD hs']; exact hj, ?_⟩
        rw [pdat g' _ j hs' hj, ← hpull g' _ j hs' (by omega)]
        exact hge)
    g hgl (fun j => diffAt scopes vt rel g j) (fun j hj => pdat g _ j hsc (by omega)) (diffAt scopes vt rel g n)
    (by rw [cdiffs_at env vt hvt hl rel hrel g _ hsc, hn]; rfl)
  have hthis' : (n = 1) ∨ ∃ j < n, ∃ k < n, j ≠ k ∧ NEG_INF < diffAt scopes vt rel g j ∧ NEG_INF < diffAt scopes vt rel g k := by
    rcases hthis with ht | ⟨j, hj, k, hk, hne, h3, h4⟩
    · left; omega
    · right
      rw [hpull g _ j hsc (by omega)] at h3
      rw [hpull g _ k hsc (by omega)] at h4
      exact ⟨j, by omega, k, by omega, hne, h3, h4⟩
  rw [hnn] at hspec
  obtain ⟨hchild, hparent⟩ := hspec
  obtain ⟨l1, l2⟩ := logicalMax_length (lLabels rel hl) env (pdiffs env vt rel scopes) (cdiffs env vt rel scopes) (pdiffs_length _ _ _ _)
    ((cdiffs_length _ _ _ _).trans (by simp [parentCounts]))
  have hpl := passLogical_at env 0 vt hvt hl rel hrel
    (logicalMax env (pdiffs env vt rel scopes) (cdiffs env vt rel scopes) ((lParents rel 0 0 scopes).map (·.1)) (parentCounts scopes).length).1
    (logicalMax env (pdiffs env vt rel scopes) (cdiffs env vt rel scopes) ((lParents rel 0 0 scopes).map (·.1)) (parentCounts scopes).length).2
    (if_pos rfl) l1 (l2.trans (by simp [parentCounts])) g i _ hsc hi
  rw [e4] at hmsg
  have hq : ∀ j s, j < n + 1 → s < 2 → readMsgs (graphOf vgs hist).allScopes vtof (base + g) j s = readMsgs scopes vt g j s :=
    fun j s hj hs => (hmsg g _ j s hsc (by omega) hs).2
  have hx : ∀ j < n, diffAt scopes vt rel g j = readMsgs (graphOf vgs hist).allScopes vtof (base + g) j (1 - rel)
      - readMsgs (graphOf vgs hist).allScopes vtof (base + g) j rel := by
    intro j hj
    rw [hq j _ (by omega) (by omega), hq j _ (by omega) hrel]; rfl
  have hy : diffAt scopes vt rel g n = readMsgs (graphOf vgs hist).allScopes vtof (base + g) n (1 - rel)
      - readMsgs (graphOf vgs hist).allScopes vtof (base + g) n rel := by
    rw [hq n _ (by omega) (by omega), hq n _ (by omega) hrel]; rfl
  have hrows' : F.rows = lRows rel n := by rw [hrows]; congr 1; omega
  rw [hn] at hpl hi ⊢
  simp only [Nat.add_sub_cancel] at hpl
  generalize readMsgs (graphOf vgs hist).allScopes vtof (base + g) = q at *
  -- both states from the two named ones
  have hstates : ∀ (c : α) (Z : Nat → α), (∀ s < 2, (bp.newMsgs env lp vtof)[edgeStart (graphOf vgs hist).allScopes (base + g) i + s]? = some (Z s)) →
      IsGreatest {x | ∃ r ∈ F.rowsAt i rel, x = scoreBut (n + 1) q i r} (Z rel + c) →
      IsGreatest {x | ∃ r ∈ F.rowsAt i (1 - rel), x = scoreBut (n + 1) q i r} (Z (1 - rel) + c) →
      ∃ c, ∀ s < 2, ∃ z, (bp.newMsgs env lp vtof)[edgeStart (graphOf vgs hist).allScopes (base + g) i + s]? = some z ∧
        IsGreatest {x | ∃ r ∈ F.rowsAt i s, x = scoreBut (n + 1) q i r} (z + c) := by
    intro c Z hZ hr1 hr2
    refine ⟨c, fun s hs => ⟨Z s, hZ s hs, ?_⟩⟩
    rcases (show s = rel ∨ s = 1 - rel by omega) with rfl | rfl
    · exact hr1
    · exact hr2
  have hat : ∀ s < 2, (bp.newMsgs env lp vtof)[edgeStart (graphOf vgs hist).allScopes (base + g) i + s]? = _ :=
    fun s hs => (hmsg g _ i s hsc (by omega) hs).1
  have hmk : ∀ M : α, (passLogical env 0 vt (lParents rel 0 0 scopes) (lChildren rel 0 scopes) (if rel = 0 then 1 else -1))[edgeStart scopes g i + (1 - rel)]? = some M →
      ∀ s < 2, (bp.newMsgs env lp vtof)[edgeStart (graphOf vgs hist).allScopes (base + g) i + s]? = some ((fun s => if s = rel then 0 else M) s) := by
    intro M hM s hs
    rw [hat s hs]
    rcases (show s = rel ∨ s = 1 - rel by omega) with rfl | rfl
    · rw [hpl.1]; simp
    · rw [hM]; simp only; rw [if_neg (by omega)]
  have hne : 1 - rel ≠ rel := by omega
  by_cases hin : i < n
  · rw [if_pos hin] at hpl
    obtain ⟨g1, g2, g3⟩ := lRows_parent rel n hrel F hrows' q (fun j => diffAt scopes vt rel g j) hx i hin
    by_cases hn1 : n = 1
    · have hi0 : i = 0 := by omega
      rw [if_pos hn1] at hpl
      refine hstates (q n rel) _ (hmk _ hpl.2) ?_ ?_
      · simp only [if_true, zero_add]; exact g2 hn1
      · simp only [if_neg hne]
        convert g1 using 1
        have : (List.range n).filter (fun j => j ≠ i) = [] := by rw [hn1, hi0]; rfl
        rw [this, hy]
        simp
    · rw [if_neg hn1] at hpl
      have hthis'' := hthis'.resolve_left hn1
      obtain ⟨m, hm, hmi, hmax, hval⟩ := hparent hthis'' i hin
      rw [hval] at hpl
      have hsplit := sum_range_but n i hin (fun j => max 0 (diffAt scopes vt rel g j))
      refine hstates ((((List.range n).filter (fun j => j ≠ i)).map (fun j => q j rel)).sum +
          max (q n rel) (q n (1 - rel) + (((List.range n).filter (fun j => j ≠ i)).map (fun j => max 0 (diffAt scopes vt rel g j))).sum + min 0 (diffAt scopes vt rel g m)))
          _ (hmk _ hpl.2) ?_ ?_
      · simp only [if_true, zero_add]
        exact g3 m hm hmi hmax
      · simp only [if_neg hne]
        convert g1 using 1
        rw [hsplit, hy]
        generalize (((List.range n).filter (fun j => j ≠ i)).map (fun j => max 0 (diffAt scopes vt rel g j))).sum = P
        generalize (((List.range n).filter (fun j => j ≠ i)).map (fun j => q j rel)).sum = Q
        generalize diffAt scopes vt rel g m = xm
        generalize max 0 (diffAt scopes vt rel g i) = xi
        have e5 : max 0 (-xm) = -(min 0 xm) := by rw [← max_neg_neg, neg_zero]
        rw [e5]
        generalize min 0 xm = u
        rcases le_total (q n rel) (q n (1 - rel) + P + u) with hle | hle
        · rw [max_eq_right hle, min_eq_right (by linarith)]; ring
        · rw [max_eq_left hle, min_eq_left (by linarith)]; ring
  · rw [if_neg hin] at hpl
    have hin' : i = n := by omega
    subst hin'
    obtain ⟨m, hm, hmax, hval⟩ := hchild (by
      rcases hthis' with ht | ⟨j, hj, k, hk, hne, h3, h4⟩
      · exact .inl ht
      · exact .inr ⟨j, hj, h3.le⟩)
    rw [hval] at hpl
    obtain ⟨g1, g2⟩ := lRows_child rel i hrel F hrows' q (fun j => diffAt scopes vt rel g j) hx m hm hmax
    refine hstates ((List.range i).map (fun j => q j rel)).sum _ (hmk _ hpl.2) ?_ ?_
    · simp only [if_true, zero_add]; exact g1
    · simp only [if_neg hne]
      rw [add_comm (_ + _) (List.sum _)]; exact g2

/-- The incoming messages of the counterexample: evidence `(-2e5, 0)` for `v0`, `(5, 0)` for `v2`, no factor messages. -/
def exLogicalIn : List ℚ := passVarToFac exEnv (List.replicate 18 0) [-200000, 0, 0, 0, 5, 0] exBP.varStatesForEdges

/-- **C29 does not hold in general.** With evidence `(-2e5, 0)` for `v0` and `(5, 0)` for `v2` the AND factor `v1 ∧ v0 = v2`
of the example graph sends `v1` no preference, although the maxima over its configurations differ by 5. -/
theorem C29_refuted : ∃ F : SFac ℚ, ((graphOf exVars exHist).factors [0, 0, 0, 0])[3]? = some F ∧
    F.scope = [exVar 1, exVar 0, exVar 2] ∧
    (∀ s < 2, (exBP.newMsgs exEnv [0, 0, 0, 0] exLogicalIn)[edgeStart (graphOf exVars exHist).allScopes 3 0 + s]? = some 0) ∧
    IsGreatest {x | ∃ r ∈ F.rowsAt 0 0, x = scoreBut 3 (readMsgs (graphOf exVars exHist).allScopes exLogicalIn 3) 0 r} 5 ∧
    IsGreatest {x | ∃ r ∈ F.rowsAt 0 1, x = scoreBut 3 (readMsgs (graphOf exVars exHist).allScopes exLogicalIn 3) 0 r} 0 := by
  refine ⟨⟨[exVar 1, exVar 0, exVar 2], andRows 2⟩, by rfl, rfl, by decide +kernel, ?_, ?_⟩
  · have e : SFac.rowsAt (⟨[exVar 1, exVar 0, exVar 2], andRows 2⟩ : SFac ℚ) 0 0 = [([0, 0, 0], 0), ([0, 1, 0], 0)] := by decide +kernel
    rw [e]
    refine ⟨⟨([0, 1, 0], 0), by simp, by decide +kernel⟩, ?_⟩
    rintro x ⟨r, hr, rfl⟩
    simp only [List.mem_cons, List.not_mem_nil, or_false] at hr
    rcases hr with rfl | rfl <;> decide +kernel
  · have e : SFac.rowsAt (⟨[exVar 1, exVar 0, exVar 2], andRows 2⟩ : SFac ℚ) 0 1 = [([1, 0, 0], 0), ([1, 1, 1], 0)] := by decide +kernel
    rw [e]
    refine ⟨⟨([1, 1, 1], 0), by simp, by decide +kernel⟩, ?_⟩
    rintro x ⟨r, hr, rfl⟩
    simp only [List.mem_cons, List.not_mem_nil, or_false] at hr
    rcases hr with rfl | rfl <;> decide +kernel

/-- Non-vacuity of C29: all hypotheses for the AND factor (factor 3, two parents) of the example graph, with incoming messages
0, 1, 4, 9, ..., and the messages it then sends to its first parent and its child. -/
example : (graphOf exVars exHist).tables.length ≤ 3 ∧
    (((List.range 18).map (fun (k : Nat) => ((k * k : Nat) : ℚ))).length = exState.totalFactorNumStates) ∧
    ((graphOf exVars exHist).factors [(0 : ℚ), 0, 0, 0])[3]? = some ⟨[exVar 1, exVar 0, exVar 2], andRows 2⟩ ∧
    (graphOf exVars exHist).numParents = 3 ∧
    (-100000 < (graphOf exVars exHist).pull (readMsgs (graphOf exVars exHist).allScopes ((List.range 18).map (fun (k : Nat) => ((k * k : Nat) : ℚ)))) 3 0) ∧
    (-100000 < (graphOf exVars exHist).pull (readMsgs (graphOf exVars exHist).allScopes ((List.range 18).map (fun (k : Nat) => ((k * k : Nat) : ℚ)))) 3 1) ∧
    (exBP.newMsgs exEnv [0, 0, 0, 0] ((List.range 18).map (fun (k : Nat) => ((k * k : Nat) : ℚ)))).drop 12 = [-33, 0, -33, 0, -25, 0] := by
  exact ⟨by decide, by rfl, by rfl, by decide, by decide +kernel, by decide +kernel, by decide +kernel⟩

set_option maxHeartbeats 1000000 in
/-- **C30.** At temperature `T > 0` the messages of an OR or AND factor `F` with any number of parents are, up to a constant
per message, `T` times the log of the sum over all its configurations (`2^n`, child = OR / AND of the parents) of the
exponential of the incoming messages of the other variables divided by `T`. -/
theorem C30 {hist : List (AddArg ℝ)} {st : FGState κ ℝ} (h : Compiled vgs hist garbage st) {state : BPState ℝ}
    {bp : BPFun κ ℝ} (T : ℝ) (hT : 0 < T) (hbp : BP.create st state T = .ok bp) (env : Env ℝ) (hexp : env.exp = Real.exp)
    (hlog : env.log = Real.log) (lp vtof : List ℝ)
    (hlp : lp.length = st.logPotentials.length) (hv : vtof.length = st.totalFactorNumStates) (f i : Nat) (F : SFac ℝ)
    (hF : ((graphOf vgs hist).factors lp)[f]? = some F) (hf : (graphOf vgs hist).tables.length ≤ f) (hi : i < F.scope.length) :
    ∃ c, ∀ s < 2, F.rowsAt i s ≠ [] ∧ ∃ z, (bp.newMsgs env lp vtof)[edgeStart (graphOf vgs hist).allScopes f i + s]? = some z ∧
      z + c = T * Real.log (((F.rowsAt i s).map (fun r =>
        Real.exp (scoreBut F.scope.length (readMsgs (graphOf vgs hist).allScopes vtof f) i r / T))).sum) := by
  obtain ⟨e1, -, -, e4, -⟩ := BP_create_ok hbp
  obtain ⟨rel, base, scopes, vt, hrel, hbf, hl, hvt, hsc, hrows, hcnt, hpart, hmsg, -⟩ := h.logical_part e1 env lp vtof hlp hv f F hF hf
  obtain ⟨g, rfl⟩ : ∃ g, f = base + g := ⟨f - base, by omega⟩
  rw [Nat.add_sub_cancel_left] at hsc
  have h2 := (hl _ (List.mem_of_getElem? hsc)).1
  obtain ⟨n, hn⟩ : ∃ n, F.scope.length = n + 1 := ⟨F.scope.length - 1, by omega⟩
  have hnn : (parentCounts scopes).getD g 0 = n := by rw [parentCounts_getD hsc]; omega
  have hgl : g < (parentCounts scopes).length := by rw [parentCounts, List.length_map]; exact (List.getElem?_eq_some_iff.1 hsc).1
  have hspec := logicalSum_spec (lLabels rel hl) env hexp hlog T hT (pdiffs env vt rel scopes) (cdiffs env vt rel scopes) (pdiffs_length _ _ _ _)
    ((cdiffs_length _ _ _ _).trans (by simp [parentCounts])) g hgl (fun j => diffAt scopes vt rel g j)
    (fun j hj => getD_of_some (pdiffs_at env vt hvt hl rel hrel g j _ hsc (by omega))) (diffAt scopes vt rel g n)
    (by rw [cdiffs_at env vt hvt hl rel hrel g _ hsc, hn]; rfl)
  rw [hnn] at hspec
  obtain ⟨hchild, hparent⟩ := hspec
  obtain ⟨l1, l2⟩ := logicalSum_length (lLabels rel hl) env T (pdiffs env vt rel scopes) (cdiffs env vt rel scopes) (pdiffs_length _ _ _ _)
  have hpl := passLogical_at env T vt hvt hl rel hrel
    (logicalSum env T (pdiffs env vt rel scopes) (cdiffs env vt rel scopes) ((lParents rel 0 0 scopes).map (·.1)) (parentCounts scopes).length).1
    (logicalSum env T (pdiffs env vt rel scopes) (cdiffs env vt rel scopes) ((lParents rel 0 0 scopes).map (·.1)) (parentCounts scopes).length).2
    (if_neg hT.ne') l1 (l2.trans (by simp [parentCounts])) g i _ hsc hi
  rw [e4] at hmsg
  have hq : ∀ j s, j < n + 1 → s < 2 → readMsgs (graphOf vgs hist).allScopes vtof (base + g) j s = readMsgs scopes vt g j s :=
    fun j s hj hs => (hmsg g _ j s hsc (by omega) hs).2
  have hx : ∀ j < n, diffAt scopes vt rel g j = readMsgs (graphOf vgs hist).allScopes vtof (base + g) j (1 - rel)
      - readMsgs (graphOf vgs hist).allScopes vtof (base + g) j rel := by
    intro j hj
    rw [hq j _ (by omega) (by omega), hq j _ (by omega) hrel]; rfl
  have hy : diffAt scopes vt rel g n = readMsgs (graphOf vgs hist).allScopes vtof (base + g) n (1 - rel)
      - readMsgs (graphOf vgs hist).allScopes vtof (base + g) n rel := by
    rw [hq n _ (by omega) (by omega), hq n _ (by omega) hrel]; rfl
  have hrows' : F.rows = lRows rel n := by rw [hrows]; congr 1; omega
  have hnpos : 0 < n := by omega
  rw [hn] at hpl hi ⊢
  simp only [Nat.add_sub_cancel] at hpl
  generalize readMsgs (graphOf vgs hist).allScopes vtof (base + g) = q at *
  have hat : ∀ s < 2, (bp.newMsgs env lp vtof)[edgeStart (graphOf vgs hist).allScopes (base + g) i + s]? = _ :=
    fun s hs => (hmsg g _ i s hsc (by omega) hs).1
  have hne : 1 - rel ≠ rel := by omega
  -- enough: the two sums and their ratio
  have hfin : ∀ (M A B : ℝ), (passLogical env T vt (lParents rel 0 0 scopes) (lChildren rel 0 scopes) (if rel = 0 then 1 else -1))[edgeStart scopes g i + (1 - rel)]? = some M →
      ((F.rowsAt i rel).map (fun r => Real.exp (scoreBut (n + 1) q i r / T))).sum = A →
      ((F.rowsAt i (1 - rel)).map (fun r => Real.exp (scoreBut (n + 1) q i r / T))).sum = B → 0 < A → 0 < B →
      M = T * (Real.log B - Real.log A) →
      ∃ c, ∀ s < 2, F.rowsAt i s ≠ [] ∧ ∃ z, (bp.newMsgs env lp vtof)[edgeStart (graphOf vgs hist).allScopes (base + g) i + s]? = some z ∧
        z + c = T * Real.log (((F.rowsAt i s).map (fun r => Real.exp (scoreBut (n + 1) q i r / T))).sum) := by
    intro M A B hM hA hB hA0 hB0 hMe
    refine ⟨T * Real.log A, fun s hs => ?_⟩
    rcases (show s = rel ∨ s = 1 - rel by omega) with rfl | rfl
    · refine ⟨fun he => ?_, 0, (hat s hs).trans hpl.1, by rw [hA, zero_add]⟩
      rw [he] at hA; exact hA0.ne hA
    · refine ⟨fun he => ?_, M, (hat _ hs).trans hM, by rw [hB, hMe]; ring⟩
      rw [he] at hB; exact hB0.ne hB
  have hpos : ∀ (l : List Nat) (a : Nat → ℝ), 0 < (l.map (fun j => Real.exp (a j / T))).prod := by
    intro l a
    apply List.prod_pos
    intro y hy
    obtain ⟨j, -, rfl⟩ := List.mem_map.1 hy
    exact Real.exp_pos _
  have hge1 : ∀ (l : List Nat) (a : Nat → ℝ), 1 ≤ (l.map (fun j => 1 + Real.exp (a j / T))).prod := by
    intro l a
    induction l with
    | nil => simp
    | cons b l ih =>
      rw [List.map_cons, List.prod_cons]
      have := Real.exp_pos (a b / T)
      nlinarith
  by_cases hin : i < n
  · rw [if_pos hin] at hpl
    obtain ⟨g1, g2⟩ := lRows_sum_parent rel n hrel F hrows' T q (fun j => diffAt scopes vt rel g j) hx i hin
    have hR := hpos ((List.range n).filter (fun j => j ≠ i)) (fun j => q j rel)
    have hP := hge1 ((List.range n).filter (fun j => j ≠ i)) (fun j => diffAt scopes vt rel g j)
    have hsplit := prod_range_but n i hin (fun j => 1 + Real.exp (diffAt scopes vt rel g j / T))
    have hempty : n = 1 → (((List.range n).filter (fun j => j ≠ i)).map (fun j => 1 + Real.exp (diffAt scopes vt rel g j / T))).prod = 1 := by
      intro hn1
      have hi0 : i = 0 := by omega
      have : (List.range n).filter (fun j => j ≠ i) = [] := by rw [hn1, hi0]; rfl
      rw [this]; rfl
    generalize (((List.range n).filter (fun j => j ≠ i)).map (fun j => Real.exp (q j rel / T))).prod = R at *
    generalize (((List.range n).filter (fun j => j ≠ i)).map (fun j => 1 + Real.exp (diffAt scopes vt rel g j / T))).prod = P at *
    have hc1 := Real.exp_pos (q n (1 - rel) / T)
    have hc0 := Real.exp_pos (q n rel / T)
    have hA0 : 0 < (P - 1) * Real.exp (q n (1 - rel) / T) + Real.exp (q n rel / T) := by nlinarith
    have hyT : Real.exp (-diffAt scopes vt rel g n / T) = Real.exp (q n rel / T) / Real.exp (q n (1 - rel) / T) := by
      rw [← Real.exp_sub, hy]; congr 1; ring
    by_cases hn1 : n = 1
    · rw [if_pos hn1] at hpl
      refine hfin _ _ _ hpl.2 g1 g2 (by positivity) (by positivity) ?_
      rw [hempty hn1, sub_self, zero_mul, zero_add, one_mul, Real.log_mul hR.ne' hc1.ne', Real.log_mul hR.ne' hc0.ne', Real.log_exp,
        Real.log_exp, hy]
      field_simp
      ring
    · rw [if_neg hn1, hparent (by omega) i hin P hsplit.symm] at hpl
      refine hfin _ _ _ hpl.2 g1 g2 (by positivity) (by positivity) ?_
      rw [hyT, ← Real.log_div (by positivity) (by positivity)]
      congr 2
      rw [mul_div_mul_left _ _ hR.ne']
      rw [div_eq_div_iff (by
        have : P - 1 + Real.exp (q n rel / T) / Real.exp (q n (1 - rel) / T) = ((P - 1) * Real.exp (q n (1 - rel) / T) + Real.exp (q n rel / T)) / Real.exp (q n (1 - rel) / T) := by
          field_simp
        rw [this]; positivity) hA0.ne']
      field_simp
  · rw [if_neg hin] at hpl
    have hin' : i = n := by omega
    subst hin'
    rw [hchild hnpos] at hpl
    obtain ⟨g1, g2⟩ := lRows_sum_child rel i hrel F hrows' T q (fun j => diffAt scopes vt rel g j) hx
    have hA := hpos (List.range i) (fun j => q j rel)
    have hP : 1 < ((List.range i).map (fun j => 1 + Real.exp (diffAt scopes vt rel g j / T))).prod := by
      rw [prod_range_but i 0 hnpos]
      have h3 := hge1 ((List.range i).filter (fun j => j ≠ 0)) (fun j => diffAt scopes vt rel g j)
      have := Real.exp_pos (diffAt scopes vt rel g 0 / T)
      nlinarith
    refine hfin _ _ _ hpl.2 g1 g2 hA (mul_pos hA (by linarith)) ?_
    rw [Real.log_mul hA.ne' (by linarith)]
    ring

/-- **C45.** AND is the dual of OR.  Take any two graphs `G₁` and `G₂` (or twice the same), where the OR factors of `G₁`
have the same numbers of variables as the AND factors of `G₂`, and incoming messages such that those of the `k`-th OR
factor of `G₁` are those of the `k`-th AND factor of `G₂` with states 0 and 1 exchanged.  Then so are the outgoing ones, at
every temperature. -/
theorem C45 [Field α] [LinearOrder α] {κ₁ κ₂ : Type} {vgs₁ : List (VGroup κ₁)} {vgs₂ : List (VGroup κ₂)} {hist₁ hist₂ : List (AddArg α)}
    {garbage₁ garbage₂ : Garbage} {st₁ : FGState κ₁ α} {st₂ : FGState κ₂ α} (h₁ : Compiled vgs₁ hist₁ garbage₁ st₁)
    (h₂ : Compiled vgs₂ hist₂ garbage₂ st₂) {state₁ state₂ : BPState α} {bp₁ : BPFun κ₁ α} {bp₂ : BPFun κ₂ α} (T : α)
    (hbp₁ : BP.create st₁ state₁ T = .ok bp₁) (hbp₂ : BP.create st₂ state₂ T = .ok bp₂) (env : Env α) (lp₁ lp₂ vtof₁ vtof₂ : List α)
    (hlp₁ : lp₁.length = st₁.logPotentials.length) (hv₁ : vtof₁.length = st₁.totalFactorNumStates)
    (hlp₂ : lp₂.length = st₂.logPotentials.length) (hv₂ : vtof₂.length = st₂.totalFactorNumStates)
    (G₁ : FactorGraph κ₁ α) (G₂ : FactorGraph κ₂ α) (hG₁ : G₁ = graphOf vgs₁ hist₁) (hG₂ : G₂ = graphOf vgs₂ hist₂)
    (hlen : (G₁.scopesOf .or).map List.length = (G₂.scopesOf .and).map List.length)
    (hin : ∀ (k : Nat) (vs : List Var) (i s : Nat), (G₁.scopesOf .or)[k]? = some vs → i < vs.length → s < 2 →
      readMsgs G₁.allScopes vtof₁ ((G₁.scopesOf .enum).length + k) i s =
        readMsgs G₂.allScopes vtof₂ ((G₂.scopesOf .enum).length + (G₂.scopesOf .or).length + k) i (1 - s))
    (k : Nat) (vs : List Var) (i s : Nat) (hk : (G₁.scopesOf .or)[k]? = some vs) (hi : i < vs.length) (hs : s < 2) :
    ∃ z, (bp₁.newMsgs env lp₁ vtof₁)[edgeStart G₁.allScopes ((G₁.scopesOf .enum).length + k) i + s]? = some z ∧
      (bp₂.newMsgs env lp₂ vtof₂)[edgeStart G₂.allScopes ((G₂.scopesOf .enum).length + (G₂.scopesOf .or).length + k) i + (1 - s)]? = some z := by
  subst hG₁ hG₂
  obtain ⟨e1, -, -, e4, -⟩ := BP_create_ok hbp₁
  obtain ⟨e1', -, -, e4', -⟩ := BP_create_ok hbp₂
  have hkl := (List.getElem?_eq_some_iff.1 hk).1
  have hlen' : ((graphOf vgs₁ hist₁).scopesOf .or).length = ((graphOf vgs₂ hist₂).scopesOf .and).length := by
    simpa using congrArg List.length hlen
  have ht1 : (graphOf vgs₁ hist₁).tables.length = ((graphOf vgs₁ hist₁).scopesOf .enum).length := by
    rw [← Compiled.tables_scopes (graphOf vgs₁ hist₁)]; simp
  have ht2 : (graphOf vgs₂ hist₂).tables.length = ((graphOf vgs₂ hist₂).scopesOf .enum).length := by
    rw [← Compiled.tables_scopes (graphOf vgs₂ hist₂)]; simp
  have hF1 : ∃ F, ((graphOf vgs₁ hist₁).factors lp₁)[((graphOf vgs₁ hist₁).scopesOf .enum).length + k]? = some F := by
    exact ⟨_, List.getElem?_eq_getElem (by simp [FactorGraph.factors, tableFacs_length]; omega)⟩
  have hF2 : ∃ F, ((graphOf vgs₂ hist₂).factors lp₂)[((graphOf vgs₂ hist₂).scopesOf .enum).length + ((graphOf vgs₂ hist₂).scopesOf .or).length + k]? = some F := by
    exact ⟨_, List.getElem?_eq_getElem (by simp [FactorGraph.factors, tableFacs_length]; omega)⟩
  obtain ⟨F1, hF1⟩ := hF1
  obtain ⟨F2, hF2⟩ := hF2
  obtain ⟨rel, base, scopes₁, vt₁, hrel, -, hl₁, hvt₁, -, -, -, -, hmsg₁, hw⟩ := h₁.logical_part e1 env lp₁ vtof₁ hlp₁ hv₁ _ F1 hF1 (by omega)
  rcases hw with ⟨-, rfl, rfl, rfl⟩ | ⟨hw, -⟩
  swap
  · omega
  obtain ⟨rel, base, scopes₂, vt₂, hrel', -, hl₂, hvt₂, -, -, -, -, hmsg₂, hw⟩ := h₂.logical_part e1' env lp₂ vtof₂ hlp₂ hv₂ _ F2 hF2 (by omega)
  rcases hw with ⟨hw, -⟩ | ⟨-, rfl, rfl, rfl⟩
  · omega
  rw [e4] at hmsg₁
  rw [e4'] at hmsg₂
  generalize (graphOf vgs₁ hist₁).scopesOf .or = S₁ at *
  generalize (graphOf vgs₂ hist₂).scopesOf .and = S₂ at *
  have hpc : parentCounts S₁ = parentCounts S₂ := by
    have := congrArg (List.map (fun n => n - 1)) hlen
    simpa [parentCounts, Function.comp_def] using this
  have hget : ∀ (g : Nat) (vs : List Var), S₁[g]? = some vs → ∃ vs', S₂[g]? = some vs' ∧ vs'.length = vs.length := by
    intro g vs hg
    have hgl := (List.getElem?_eq_some_iff.1 hg).1
    refine ⟨_, List.getElem?_eq_getElem (by omega), ?_⟩
    have := congrArg (fun l => l[g]?) hlen
    simp only [List.getElem?_map, hg, List.getElem?_eq_getElem (show g < S₂.length by omega), Option.map_some, Option.some.injEq] at this
    exact this.symm
  have hd : ∀ (g : Nat) (vs : List Var) (j : Nat), S₁[g]? = some vs → j < vs.length → diffAt S₁ vt₁ 0 g j = diffAt S₂ vt₂ 1 g j := by
    intro g vs j hg hj
    obtain ⟨vs', hg', hl'⟩ := hget g vs hg
    unfold diffAt
    rw [← (hmsg₁ g vs j 0 hg hj (by omega)).2, ← (hmsg₁ g vs j 1 hg hj (by omega)).2, hin g vs j 0 hg hj (by omega),
      hin g vs j 1 hg hj (by omega), (hmsg₂ g vs' j (1 - 0) hg' (by omega) (by omega)).2, (hmsg₂ g vs' j (1 - 1) hg' (by omega) (by omega)).2]
  have hpos := parentCounts_pos hl₁
  have hsome : ∀ f, f < (parentCounts S₁).length → ∃ vs, S₁[f]? = some vs ∧ (parentCounts S₁).getD f 0 = vs.length - 1 := by
    intro f hf
    have hf' : f < S₁.length := by simpa [parentCounts] using hf
    exact ⟨_, List.getElem?_eq_getElem hf', parentCounts_getD (List.getElem?_eq_getElem hf')⟩
  have hL1 := lLabels 0 hl₁
  have hL2 := lLabels 1 hl₂
  rw [← hpc] at hL2
  have hfidx : (lParents 0 0 0 S₁).map (·.1) = (lParents 1 0 0 S₂).map (·.1) :=
    eq_of_blk hL1.len hL2.len (fun f j hf hj => (hL1.lab f j hj).trans (hL2.lab f j hj).symm)
  have hpd : pdiffs env vt₁ 0 S₁ = pdiffs env vt₂ 1 S₂ := by
    apply eq_of_blk (pdiffs_length _ _ _ _) (by rw [pdiffs_length, ← hpc])
    intro f j hf hj
    obtain ⟨vs, hvs, hc⟩ := hsome f hf
    obtain ⟨vs', hg', hl'⟩ := hget f vs hvs
    rw [pdiffs_at env vt₁ hvt₁ hl₁ 0 (by omega) f j vs hvs (by omega), hpc, pdiffs_at env vt₂ hvt₂ hl₂ 1 (by omega) f j vs' hg' (by omega),
      hd f vs j hvs (by omega)]
  have hcd : cdiffs env vt₁ 0 S₁ = cdiffs env vt₂ 1 S₂ := by
    apply List.ext_getElem?
    intro f
    by_cases hf : f < S₁.length
    · have hvs := List.getElem?_eq_getElem hf
      obtain ⟨vs', hg', hl'⟩ := hget f _ hvs
      have h2 := (hl₁ _ (List.mem_of_getElem? hvs)).1
      rw [cdiffs_at env vt₁ hvt₁ hl₁ 0 (by omega) f _ hvs, cdiffs_at env vt₂ hvt₂ hl₂ 1 (by omega) f vs' hg', hl', hd f _ _ hvs (by omega)]
    · rw [List.getElem?_eq_none (by rw [cdiffs_length]; omega), List.getElem?_eq_none (by rw [cdiffs_length]; omega)]
  obtain ⟨pm, hpm⟩ : ∃ pm, pm = (if T = 0 then logicalMax env (pdiffs env vt₁ 0 S₁) (cdiffs env vt₁ 0 S₁) ((lParents 0 0 0 S₁).map (·.1)) (parentCounts S₁).length
      else logicalSum env T (pdiffs env vt₁ 0 S₁) (cdiffs env vt₁ 0 S₁) ((lParents 0 0 0 S₁).map (·.1)) (parentCounts S₁).length) := ⟨_, rfl⟩
  have hl12 : pm.1.length = (parentCounts S₁).sum ∧ pm.2.length = S₁.length := by
    rw [hpm]
    split
    · obtain ⟨a, b⟩ := logicalMax_length hL1 env (pdiffs env vt₁ 0 S₁) (cdiffs env vt₁ 0 S₁) (pdiffs_length _ _ _ _)
        ((cdiffs_length _ _ _ _).trans (by simp [parentCounts]))
      exact ⟨a, b.trans (by simp [parentCounts])⟩
    · obtain ⟨a, b⟩ := logicalSum_length hL1 env T (pdiffs env vt₁ 0 S₁) (cdiffs env vt₁ 0 S₁) (pdiffs_length _ _ _ _)
      exact ⟨a, b.trans (by simp [parentCounts])⟩
  obtain ⟨vs', hg', hl'⟩ := hget k vs hk
  have p1 := passLogical_at env T vt₁ hvt₁ hl₁ 0 (by omega) pm.1 pm.2 hpm.symm hl12.1 hl12.2 k i vs hk hi
  have p2 := passLogical_at env T vt₂ hvt₂ hl₂ 1 (by omega) pm.1 pm.2 (by rw [← hpd, ← hcd, ← hfidx, ← hpc, ← hpm])
    (by rw [← hpc]; exact hl12.1) (by rw [← hlen']; exact hl12.2) k i vs' hg' (by omega)
  have hchild : pm.2[k]? = some (pm.2.getD k 0) := by
    rw [List.getElem?_eq_getElem (by omega), getD_of_some (List.getElem?_eq_getElem (by omega))]
  have h2 := (hl₁ _ (List.mem_of_getElem? hk)).1
  have hkc : k < (parentCounts S₁).length := by simpa [parentCounts] using hkl
  have hex : ∃ z, (if i < vs.length - 1 then
        (if vs.length - 1 = 1 then some (diffAt S₁ vt₁ 0 k (vs.length - 1)) else pm.1[blk (parentCounts S₁) k i]?)
      else pm.2[k]?) = some z := by
    split
    · next hi' =>
      split
      · exact ⟨_, rfl⟩
      · have := blk_lt hkc (j := i) (by rw [parentCounts_getD hk]; exact hi')
        exact ⟨_, List.getElem?_eq_getElem (by omega)⟩
    · exact ⟨_, hchild⟩
  obtain ⟨z, hz⟩ := hex
  rcases (show s = 0 ∨ s = 1 by omega) with rfl | rfl
  · refine ⟨0, ?_, ?_⟩
    · rw [(hmsg₁ k vs i 0 hk hi hs).1]; exact p1.1
    · rw [(hmsg₂ k vs' i (1 - 0) hg' (by omega) (by omega)).1]; exact p2.1
  · refine ⟨z, ?_, ?_⟩
    · rw [(hmsg₁ k vs i 1 hk hi hs).1, ← hz]; exact p1.2
    · rw [(hmsg₂ k vs' i (1 - 1) hg' (by omega) (by omega)).1, ← hz, hd k vs _ hk (by omega), hpc, ← hl']; exact p2.2

/-- Non-vacuity of C30: the hypotheses for the child of the AND factor of the real example graph at temperature 1/2. -/
example : BP.create exStateR exBPStateR (1 / 2) = .ok (exBPR (1 / 2)) ∧ exStateR.logPotentials.length = 4 ∧ exStateR.totalFactorNumStates = 18 ∧
    ((graphOf exVars exHistR).factors [(1 : ℝ), 2, 3, 4])[3]? = some ⟨[exVar 1, exVar 0, exVar 2], andRows 2⟩ ∧
    (graphOf exVars exHistR).tables.length ≤ 3 := by
  exact ⟨by rfl, by rfl, by rfl, by rfl, by decide⟩

/-- Non-vacuity of C45: an OR and an AND factor of three variables, incoming messages with exchanged states and the messages
sent. -/
def exHist2 : List (AddArg ℚ) := [.one ⟨6, .or, .single, [[exVar 0, exVar 1, exVar 2]], ⟨0, []⟩, []⟩,
  .one ⟨7, .and, .single, [[exVar 1, exVar 0, exVar 2]], ⟨0, []⟩, []⟩]

/-- Its compiled state. -/
def exState2 : FGState Nat ℚ :=
  match (graphOf exVars exHist2).fgState 0 with
  | .ok st => st
  | .error _ => ⟨[], fun _ => none, 0, 0, fun _ => (0, 0), fun _ => (0, 0), fun _ => none, [],
      ⟨⟨[], [], []⟩, ⟨[], [], [], [], 1⟩, ⟨[], [], [], [], 1⟩⟩⟩

theorem exState2_compiled : Compiled exVars exHist2 0 exState2 where
  vgroups := exVars_ok
  valid := by
    simp only [exHist2, List.mem_cons, List.not_mem_nil, or_false, forall_eq_or_imp, forall_eq, AddArg.flat, AddArg.flatList]
    refine ⟨?_, ?_⟩
    · exact ⟨by decide, by decide, (fun h => by cases h), fun _ => ⟨rfl, by unfold LogicalScope; decide⟩⟩
    · exact ⟨by decide, by decide, (fun h => by cases h), fun _ => ⟨rfl, by unfold LogicalScope; decide⟩⟩
  ids := by
    have e : FType.all.flatMap (graphOf exVars exHist2).groups = [
      ⟨6, .or, .single, [[exVar 0, exVar 1, exVar 2]], ⟨0, []⟩, []⟩, ⟨7, .and, .single, [[exVar 1, exVar 0, exVar 2]], ⟨0, []⟩, []⟩] := by rfl
    rw [e]
    intro g hg k hk hid
    simp only [List.mem_cons, List.not_mem_nil, or_false] at hg hk
    rcases hg with rfl | rfl <;> rcases hk with rfl | rfl <;> first | rfl | (simp at hid)
  compiled := rfl

example : ∃ state bp, BP.create exState2 state 0 = .ok bp ∧
    ((graphOf exVars exHist2).scopesOf .or).map List.length = ((graphOf exVars exHist2).scopesOf .and).map List.length ∧
    (∀ (k : Nat) (vs : List Var) (i s : Nat), ((graphOf exVars exHist2).scopesOf .or)[k]? = some vs → i < vs.length → s < 2 →
      readMsgs (graphOf exVars exHist2).allScopes [(1 : ℚ), 2, 3, 5, 8, 0, 2, 1, 5, 3, 0, 8] (((graphOf exVars exHist2).scopesOf .enum).length + k) i s =
        readMsgs (graphOf exVars exHist2).allScopes [(1 : ℚ), 2, 3, 5, 8, 0, 2, 1, 5, 3, 0, 8]
          (((graphOf exVars exHist2).scopesOf .enum).length + ((graphOf exVars exHist2).scopesOf .or).length + k) i (1 - s)) ∧
    bp.newMsgs exEnv [] [1, 2, 3, 5, 8, 0, 2, 1, 5, 3, 0, 8] = [0, -6, 0, -7, 0, 3, -6, 0, -7, 0, 3, 0] := by
  refine ⟨⟨⟨0, []⟩, ⟨12, List.replicate 12 0⟩, ⟨6, List.replicate 6 0⟩⟩, _, rfl, by rfl, ?_, by decide +kernel⟩
  intro k vs i s hk hi hs
  have e : (graphOf exVars exHist2).scopesOf .or = [[exVar 0, exVar 1, exVar 2]] := by rfl
  rw [e] at hk
  match k, hk with
  | 0, hk =>
    cases hk
    have hi' : i < 3 := hi
    clear hi
    revert hs
    revert s
    revert hi'
    revert i
    decide +kernel

end PGMax
