import Verif.Props.C70
import Verif.Props.C34_C36
import Verif.Model.ExamplesGmrf
import Verif.Spec.Gmrf
import Verif.Lemmas.Rows

/-! Helper lemmas: marginals, predictions and losses of the GMRF program. -/

namespace PGMax

variable {κ : Type}

/-- The lengths of arrays of messages do not depend on sizes. -/
theorem Compiled.run_length {κ α : Type _} [DecidableEq κ] [Field α] [LinearOrder α] {vgs : List (VGroup κ)} {hist : List (AddArg α)} {garbage : Garbage} {st : FGState κ α}
    (h : Compiled vgs hist garbage st) {state : BPState α} {T : α} {bp : BPFun κ α} (hbp : BP.create st state T = .ok bp) (env : Env α) (a : BPArrays α) (n : Nat) (d : α)
    (hlp : a.logPotentials.length = st.logPotentials.length) (hm : a.ftovMsgs.length = st.totalFactorNumStates) :
    (bp.runBP env a n d).ftovMsgs.length = st.totalFactorNumStates := by
  have key : ∀ (n : Nat) (ms : List α), ms.length = st.totalFactorNumStates →
      (BPFun.iterate (bp.step env a.logPotentials a.evidence d) n ms).length = st.totalFactorNumStates := by
    intro n
    induction n with
    | zero => exact fun ms h => h
    | succ n ih =>
      intro ms hms
      obtain ⟨-, -, -, h3, -⟩ := h.step_eq hbp env a.logPotentials a.evidence ms d hlp hms
      exact ih _ h3
  exact key n _ (h.normalize_length hbp env _ hm)

theorem runBP_evidence {κ α : Type _} [Field α] [LinearOrder α] (env : Env α) (bp : BPFun κ α) (a : BPArrays α) (n : Nat) (d : α) : (bp.runBP env a n d).evidence = a.evidence := rfl

theorem npRepeat_three {β : Type _} (a b c : β) (k₀ k₁ k₂ : Nat) :
    npRepeat [a, b, c] [k₀, k₁, k₂] = .ok (List.replicate k₀ a ++ (List.replicate k₁ b ++ List.replicate k₂ c)) := by
  simp [npRepeat]

theorem repeat_eq {β : Type _} (f : Nat → β) (k₀ k₁ k₂ : Nat) :
    List.replicate k₀ (f 0) ++ (List.replicate k₁ (f 1) ++ List.replicate k₂ (f 2)) = (List.range (k₀ + k₁ + k₂)).map (fun s => f (cloneClass k₀ k₁ s)) := by
  apply List.ext_getElem?
  intro s
  by_cases hs : s < k₀ + k₁ + k₂
  · rw [List.getElem?_map, List.getElem?_range hs, Option.map_some, List.getElem?_append, List.length_replicate]
    unfold cloneClass
    split
    · rw [List.getElem?_replicate, if_pos (by omega)]
    · rw [List.getElem?_append, List.length_replicate, List.getElem?_replicate, List.getElem?_replicate]
      split
      · simp only [show s < k₀ + k₁ by omega, if_true]
      · simp only [show ¬ s < k₀ + k₁ by omega, if_false]
        rw [if_pos (by omega)]
  · rw [List.getElem?_eq_none (by simp; omega), List.getElem?_eq_none (by simp; omega)]

/-- The rows of `prototype_targets`. -/
theorem gmrfTargets_eq (k₀ k₁ k₂ : Nat) : gmrfTargets (α := ℝ) [k₀, k₁, k₂] =
    .ok ((List.range 3).map (fun y => (List.range (k₀ + k₁ + k₂)).map (fun s => if cloneClass k₀ k₁ s = y then 1 else 0))) := by
  have e : ∀ y : Nat, npRepeat [if 0 = y then (1 : ℝ) else 0, if 1 = y then 1 else 0, if 2 = y then 1 else 0] [k₀, k₁, k₂] =
      .ok ((List.range (k₀ + k₁ + k₂)).map (fun s => if cloneClass k₀ k₁ s = y then 1 else 0)) := by
    intro y
    rw [npRepeat_three, repeat_eq (fun c => if c = y then (1 : ℝ) else 0)]
  have e0 := e 0
  have e1 := e 1
  have e2 := e 2
  norm_num at e0 e1 e2
  unfold gmrfTargets
  rw [e0, py_ok_bind, e1, py_ok_bind, e2, py_ok_bind]
  rfl

theorem sumNan_map {β : Type _} (xs : List β) (f : β → ℝ) : sumNan (xs.map (fun x => some (f x))) = some ((xs.map f).sum) := by
  induction xs with
  | nil => rfl
  | cons x xs ih =>
    unfold sumNan at ih ⊢
    rw [List.map_cons, List.foldr_cons, ih]
    simp

theorem meanNan_map {β : Type _} (xs : List β) (hne : xs ≠ []) (f : β → ℝ) : meanNan (xs.map (fun x => some (f x))) = some ((xs.map f).sum / xs.length) := by
  unfold meanNan
  rw [if_neg (by simpa using hne), sumNan_map]
  simp

theorem argmaxNan_some (xs : List ℝ) : argmaxNan (xs.map some) = argmax xs := by
  have : (xs.map some).findIdx? Option.isNone = none := by simp
  unfold argmaxNan
  rw [this]
  simp

theorem HoldsPixels.rows_eq {M N K : Nat} {a : NDArr (Option ℝ)} {P : Nat → Nat → ℝ} (h : HoldsPixels M N K a P) :
    rows a.data (M * N) K = (List.range (M * N)).map (fun c => (List.range K).map (fun s => some (P c s))) := by
  obtain ⟨h1, h2, h3⟩ := h
  have hl : a.data.length = M * N * K := by rw [h2, h1]; simp [Nat.mul_assoc]
  refine List.map_congr_left fun c hc => ?_
  rw [List.mem_range] at hc
  have hcK : c * K + K ≤ M * N * K := by
    rw [← Nat.succ_mul]
    exact Nat.mul_le_mul_right K hc
  apply List.ext_getElem?
  intro s
  by_cases hs : s < K
  · rw [List.getElem?_map, List.getElem?_range hs, Option.map_some, ← h3 c hc s hs]
    simp only [slice, List.getElem?_take, List.getElem?_drop]
    rw [if_pos (by omega)]
  · rw [List.getElem?_eq_none (by rw [slice_length]; omega), List.getElem?_eq_none (by simpa using hs)]

/-- `pred_image`, from marginals without NaNs. -/
theorem gmrfPredict_eq {M N K : Nat} (hK : 2 ≤ K) {a : NDArr (Option ℝ)} {P : Nat → Nat → ℝ} (h : HoldsPixels M N K a P) :
    gmrfPredict a = .ok ⟨[M, N], (List.range (M * N)).map (fun c => argmax [∑ s ∈ Finset.range (K - 2), P c s, P c (K - 2), P c (K - 1)])⟩ := by
  unfold gmrfPredict
  have e1 : a.shape.dropLast = [M, N] := by rw [h.1]; rfl
  have e2 : a.shape.getLastD 0 = K := by rw [h.1]; rfl
  simp only [e1, e2, List.prod_cons, List.prod_nil, Nat.mul_one]
  rw [h.rows_eq, mapM_ok (g := fun row => argmaxNan [sumNan (row.take (row.length - 2)), row.getD (row.length - 2) none, row.getD (row.length - 1) none]), py_ok_bind]
  · rw [List.map_map]
    refine congrArg (fun l => Except.ok (NDArr.mk [M, N] l)) (List.map_congr_left fun c _ => ?_)
    simp only [Function.comp_apply, List.length_map, List.length_range]
    rw [← argmaxNan_some, ← List.map_take, List.take_range, min_eq_left (by omega), sumNan_map, range_sum]
    simp [List.getD, List.getElem?_range, show K - 2 < K by omega, show K - 1 < K by omega]
  · intro row hrow
    obtain ⟨c, -, rfl⟩ := List.mem_map.1 hrow
    unfold gmrfClass
    rw [if_neg (by simp; omega)]

theorem classProb_eq (k₀ k₁ K : Nat) (P : Nat → ℝ) (y : Nat) :
    ((List.range K).map (fun s => (if cloneClass k₀ k₁ s = y then (1 : ℝ) else 0) * P s)).sum = classProb k₀ k₁ K P y := by
  rw [range_sum, classProb, Finset.sum_filter]
  exact Finset.sum_congr rfl fun s _ => by split <;> simp

/-- The loss, from marginals without NaNs. -/
theorem gmrfLossOf_eq (env : Env ℝ) {M N k₀ k₁ k₂ : Nat} (hMN : 0 < M * N) {a : NDArr (Option ℝ)} {P : Nat → Nat → ℝ} (h : HoldsPixels M N (k₀ + k₁ + k₂) a P) (ys : List Nat) (hys : ys.length = M * N)
    (h3 : ∀ y ∈ ys, y < 3) (hpos : ∀ c < M * N, 0 < classProb k₀ k₁ (k₀ + k₁ + k₂) (P c) (ys.getD c 0)) {targets : List (List ℝ)} (ht : gmrfTargets [k₀, k₁, k₂] = .ok targets) :
    gmrfLossOf env targets ⟨[M, N], ys⟩ a = .ok (some (-((∑ c ∈ Finset.range (M * N), env.log (classProb k₀ k₁ (k₀ + k₁ + k₂) (P c) (ys.getD c 0))) / (M * N : ℝ)))) := by
  rw [gmrfTargets_eq] at ht
  obtain rfl := Except.ok.inj ht
  unfold gmrfLossOf
  have e1 : a.shape.dropLast = [M, N] := by rw [h.1]; rfl
  have e2 : a.shape.getLastD 0 = k₀ + k₁ + k₂ := by rw [h.1]; rfl
  simp only [e1, e2, List.prod_cons, List.prod_nil, Nat.mul_one, if_true]
  rw [h.rows_eq]
  have e3 : ys = (List.range (M * N)).map (fun c => ys.getD c 0) := by
    apply List.ext_getElem?
    intro c
    by_cases hc : c < M * N
    · rw [List.getElem?_map, List.getElem?_range hc, Option.map_some, List.getD, List.getElem?_eq_getElem (by omega)]
      rfl
    · rw [List.getElem?_eq_none (by omega), List.getElem?_eq_none (by simpa using hc)]
  conv_lhs => rw [e3]
  rw [List.zipWith_map, List.zipWith_self]
  rw [List.map_congr_left (g := fun c => some (env.log (classProb k₀ k₁ (k₀ + k₁ + k₂) (P c) (ys.getD c 0))))]
  · rw [meanNan_map _ (by rw [ne_eq, List.range_eq_nil]; omega), range_sum]
    simp
  · intro c hc
    rw [List.mem_range] at hc
    have hy : ys.getD c 0 < 3 := by
      rw [List.getD, List.getElem?_eq_getElem (by omega)]
      exact h3 _ (List.getElem_mem _)
    have e4 : ((List.range 3).map (fun y => (List.range (k₀ + k₁ + k₂)).map (fun s => if cloneClass k₀ k₁ s = y then (1 : ℝ) else 0))).getD
        (min (ys.getD c 0) (((List.range 3).map (fun y => (List.range (k₀ + k₁ + k₂)).map (fun s => if cloneClass k₀ k₁ s = y then (1 : ℝ) else 0))).length - 1)) [] =
        (List.range (k₀ + k₁ + k₂)).map (fun s => if cloneClass k₀ k₁ s = ys.getD c 0 then (1 : ℝ) else 0) := by
      rw [List.length_map, List.length_range, min_eq_left (by omega), List.getD, List.getElem?_map, List.getElem?_range hy]
      rfl
    rw [e4]
    unfold gmrfLogProb
    rw [List.zipWith_map, List.zipWith_self]
    simp only [Option.map_some]
    rw [sumNan_map, classProb_eq]
    unfold logNan
    rw [Option.bind_some, if_pos (hpos c hc)]


/-- The variable of pixel `c`. -/
abbrev gPix (idV K c : Nat) : Var := ⟨idV % 2 ^ 32 * 1000000000 + c, K⟩

theorem gPix_eq {idV M N K c : Nat} (hc : c < M * N) : gPix idV K c = gCell idV M N K (c / N) (c % N) ∧ c / N < M ∧ c % N < N := by
  have hN : 0 < N := Nat.pos_of_ne_zero fun h => by simp [h] at hc
  refine ⟨?_, by rwa [Nat.div_lt_iff_lt_mul hN], Nat.mod_lt _ hN⟩
  simp only [gPix, gCell, uniCell, rowMajor, List.prod_cons, List.prod_nil, Nat.mul_one, Nat.add_zero]
  rw [Nat.div_add_mod' c N]

theorem uniArr_getElem {idV M N K c : Nat} (hc : c < M * N) : (uniArr idV [M, N] K).variables[c]? = some (gPix idV K c) := by
  unfold NDVarArray.variables NDVarArray.variableHashes uniArr
  simp [hc]

/-- The variable groups of the program. -/
abbrev GmrfSetup.vgs (s : GmrfSetup κ ℝ) : List (VGroup κ) := [.arr s.net.vars]

/-- What the program knows after the arrays of a `BPFun` are made from potentials and an image. -/
structure GmrfRun (idV M N : Nat) (k : Nat × Nat × Nat) (p : Nat → ℝ) (env : Env ℝ) (s : GmrfSetup κ ℝ) (lps : GmrfPotentials ℝ) (noisy : NDArr ℝ) [DecidableEq κ]
    (hist : List (AddArg ℝ)) (garbage : Garbage) (st : FGState κ ℝ) (arrs : BPArrays ℝ) : Prop where
  vars : s.net.vars = uniArr idV [M, N] (k.1 + k.2.1 + k.2.2)
  compiled : Compiled s.vgs hist garbage st
  scopes : (graphOf s.vgs hist).allScopes = gScopes idV M N (k.1 + k.2.1 + k.2.2) (gD1 M N) ++ (gScopes idV M N (k.1 + k.2.1 + k.2.2) (gD2 M N) ++
    (gScopes idV M N (k.1 + k.2.1 + k.2.2) (gD3 M N) ++ gScopes idV M N (k.1 + k.2.1 + k.2.2) (gD4 M N)))
  tables : ∀ lp, (graphOf s.vgs hist).factors lp = tableFacs (graphOf s.vgs hist).tables lp
  bp : ∃ state, BP.create st state 1 = .ok s.bp
  update : s.bp.update none (some [(s.net.topDown, lps.topDown), (s.net.leftRight, lps.leftRight), (s.net.diagonal0, lps.diagonal0), (s.net.diagonal1, lps.diagonal1)]) none
    (some [.group (.arr s.net.vars) (.arr (gmrfEvidence env s.pContour noisy))]) = .ok arrs
  msgs : arrs.ftovMsgs = List.replicate st.totalFactorNumStates 0
  lp : arrs.logPotentials.length = st.logPotentials.length
  ev : arrs.evidence.length = st.numVarStates
  evidence : ∀ c < M * N, ∀ t < k.1 + k.2.1 + k.2.2, readEv st.varsToStarts arrs.evidence (gPix idV (k.1 + k.2.1 + k.2.2) c) t =
    env.log (observation p (noisy.data.getD c 0) (cloneClass k.1 k.2.1 t))
  factors : (graphOf s.vgs hist).factors arrs.logPotentials = gFacs idV M N (k.1 + k.2.1 + k.2.2) (gD1 M N) lps.topDown.data ++ (gFacs idV M N (k.1 + k.2.1 + k.2.2) (gD2 M N) lps.leftRight.data ++
    (gFacs idV M N (k.1 + k.2.1 + k.2.2) (gD3 M N) lps.diagonal0.data ++ gFacs idV M N (k.1 + k.2.1 + k.2.2) (gD4 M N) lps.diagonal1.data))

theorem GmrfRun.mem_factors [DecidableEq κ] {idV M N : Nat} {k : Nat × Nat × Nat} {p : Nat → ℝ} {env : Env ℝ} {s : GmrfSetup κ ℝ} {lps : GmrfPotentials ℝ} {noisy : NDArr ℝ} {hist : List (AddArg ℝ)} {garbage : Garbage}
    {st : FGState κ ℝ} {arrs : BPArrays ℝ} (h : GmrfRun idV M N k p env s lps noisy hist garbage st arrs) : ∀ F ∈ (graphOf s.vgs hist).factors arrs.logPotentials, ∃ v w Q, v.n = k.1 + k.2.1 + k.2.2 ∧ w.n = k.1 + k.2.1 + k.2.2 ∧
    Q ∈ [lps.topDown.data, lps.leftRight.data, lps.diagonal0.data, lps.diagonal1.data] ∧ F = ⟨[v, w], (mgridConfigs (k.1 + k.2.1 + k.2.2) (k.1 + k.2.1 + k.2.2)).rows.zip Q⟩ := by
  intro F hF
  rw [h.factors] at hF
  simp only [List.mem_append] at hF
  rcases hF with hF | hF | hF | hF <;>
  · obtain ⟨vs, hvs, rfl⟩ := List.mem_map.1 hF
    obtain ⟨q, -, rfl⟩ := List.mem_map.1 hvs
    exact ⟨_, _, _, rfl, rfl, by simp, rfl⟩

/-- The matrices have the right sizes. -/
def GmrfPotentials.Sized (lps : GmrfPotentials ℝ) (K : Nat) : Prop :=
  ∀ a ∈ [lps.topDown, lps.leftRight, lps.diagonal0, lps.diagonal1], a.shape = [K, K] ∧ a.data.length = K * K

theorem gmrf_setup [DecidableEq κ] {idV idT idL idD idE : Nat} (hids : [idT, idL, idD, idE].Nodup) (garbage : Garbage) (stateId : Nat) (p : Nat → ℝ) {k₀ k₁ k₂ M N : Nat} (hK : 1 ≤ k₀ + k₁ + k₂)
    (hM : 2 ≤ M) (hN : 2 ≤ N) (hs : M * N ≤ 1000000000) (env : Env ℝ) :
    ∃ s : GmrfSetup κ ℝ, gmrfSetup κ idV idT idL idD idE garbage stateId [p 0, p 1, p 2] [k₀, k₁, k₂] M N = .ok s ∧ gmrfTargets [k₀, k₁, k₂] = .ok s.targets ∧
      ∃ hist st, ∀ (lps : GmrfPotentials ℝ) (noisy : NDArr ℝ), lps.Sized (k₀ + k₁ + k₂) → noisy.shape = [M, N] → noisy.data.length = M * N →
        ∃ arrs, GmrfRun idV M N (k₀, k₁, k₂) p env s lps noisy hist garbage st arrs := by
  obtain ⟨r, e⟩ : ∃ r : Gmrf κ ℝ, gmrf idV idT idL idD idE M N (k₀ + k₁ + k₂) = .ok r := by
    obtain ⟨fg, -, e⟩ := gmrf_eq (κ := κ) (α := ℝ) idV idT idL idD idE (K := k₀ + k₁ + k₂) hM hN hs
    exact ⟨_, e⟩
  obtain ⟨hv, st, hst, hg, hsc, htab, hall⟩ := gmrf_arrays hK hids e garbage
  obtain ⟨state, bp, h1, h2, h3⟩ := hall stateId 1
  refine ⟨⟨r, bp, (List.range (k₀ + k₁ + k₂)).map (fun s => p (cloneClass k₀ k₁ s)), _⟩, ?_, gmrfTargets_eq k₀ k₁ k₂, [.list [.one r.topDown, .one r.leftRight, .one r.diagonal0, .one r.diagonal1]], st, fun lps noisy hl hn1 hn2 => ?_⟩
  · unfold gmrfSetup
    rw [npRepeat_three, repeat_eq, py_ok_bind, gmrfTargets_eq, py_ok_bind]
    rw [show [k₀, k₁, k₂].sum = k₀ + k₁ + k₂ by simp; omega, e, py_ok_bind]
    have h4 := hst.compiled
    rw [hg] at h4
    rw [h4, py_ok_bind, h1, py_ok_bind, h2, py_ok_bind]
    rfl
  obtain ⟨hA1, hA2⟩ := hl lps.topDown (by simp)
  obtain ⟨hB1, hB2⟩ := hl lps.leftRight (by simp)
  obtain ⟨hC1, hC2⟩ := hl lps.diagonal0 (by simp)
  obtain ⟨hD1, hD2⟩ := hl lps.diagonal1 (by simp)
  have hrow : ∀ y ∈ noisy.data, ((List.range (k₀ + k₁ + k₂)).map (fun s => env.log (if y = 0 then p (cloneClass k₀ k₁ s) else 1 - p (cloneClass k₀ k₁ s)))).length = k₀ + k₁ + k₂ := by simp
  obtain ⟨arrs, a1, a2, a3, a4, a5, a6, -⟩ := h3 lps.topDown.data lps.leftRight.data lps.diagonal0.data lps.diagonal1.data
    (noisy.data.flatMap (fun y => (List.range (k₀ + k₁ + k₂)).map (fun s => env.log (if y = 0 then p (cloneClass k₀ k₁ s) else 1 - p (cloneClass k₀ k₁ s)))))
    hA2 hB2 hC2 hD2 (by rw [List.length_flatMap, List.map_congr_left hrow]; simp [hn2]) _ (List.Perm.refl _)
  refine ⟨arrs, hv, hst, by rw [hg]; exact hsc, by rw [hg]; exact htab, ⟨state, h2⟩, ?_, a2, a3, a4, fun c hc t ht => ?_, by rw [hg]; exact a6⟩
  · rw [← a1]
    unfold gmrfEvidence
    simp only [List.map_map, List.length_map, List.length_range, hn1]
    rcases lps with ⟨⟨sA, A⟩, ⟨sB, B⟩, ⟨sC, C⟩, ⟨sD, D⟩⟩
    simp only at hA1 hB1 hC1 hD1
    subst hA1 hB1 hC1 hD1
    rfl
  · obtain ⟨g1, g2, g3⟩ := gPix_eq (idV := idV) (K := k₀ + k₁ + k₂) hc
    rw [g1, a5 _ g2 _ g3 t ht, Nat.div_add_mod' c N]
    rw [List.getD, flatMap_row _ _ _ _ _ hrow (List.getElem?_eq_getElem (by omega)) ht]
    rw [List.getElem?_map, List.getElem?_range ht, List.getD, List.getElem?_eq_getElem (by omega)]
    rfl

/-- The marginals that the program computes. -/
theorem GmrfRun.marginals [DecidableEq κ] {idV M N k₀ k₁ k₂ : Nat} {p : Nat → ℝ} {env : Env ℝ} {s : GmrfSetup κ ℝ} {lps : GmrfPotentials ℝ} {noisy : NDArr ℝ} {hist : List (AddArg ℝ)} {garbage : Garbage}
    {st : FGState κ ℝ} {arrs : BPArrays ℝ} (h : GmrfRun idV M N (k₀, k₁, k₂) p env s lps noisy hist garbage st arrs) (hK : 2 ≤ k₀ + k₁ + k₂) (hMN : 0 < M * N) (hexp : env.exp = Real.exp) (hlog : env.log = Real.log) :
    ∃ a, gmrfMarginals env s lps noisy = .ok a ∧ HoldsPixels M N (k₀ + k₁ + k₂) a (fun c => gibbs (beliefOf (graphOf s.vgs hist).allScopes (readEv st.varsToStarts arrs.evidence)
      (readMsgs (graphOf s.vgs hist).allScopes (s.bp.runBP env arrs 15 0).ftovMsgs) (gPix idV (k₀ + k₁ + k₂) c)) (k₀ + k₁ + k₂)) := by
  obtain ⟨state, hbp⟩ := h.bp
  have hns : s.net.vars.numStates = List.replicate (M * N) (k₀ + k₁ + k₂) := by
    rw [h.vars]
    simp [uniArr]
  have hall : ∀ n ∈ s.net.vars.numStates, n = k₀ + k₁ + k₂ := by
    intro n hn
    rw [hns] at hn
    exact List.eq_of_mem_replicate hn
  have hl := h.compiled.run_length hbp env arrs 15 0 h.lp (by rw [h.msgs, List.length_replicate])
  have hE := runBP_evidence env s.bp arrs 15 0
  have hev := h.ev
  rw [← hE] at hev
  rw [← hE]
  unfold gmrfMarginals
  rw [h.update, py_ok_bind]
  generalize s.bp.runBP env arrs 15 0 = a at *
  obtain ⟨bs, rs, e1, e2, e3, e4⟩ := C36_partial h.compiled hbp env hexp hlog a hl hev
    (by
      intro g hg
      rw [List.mem_singleton] at hg
      subst hg
      intro hsum n hn
      rw [hns, List.sum_replicate, List.length_replicate, smul_eq_mul] at hsum
      rw [hall n hn]
      exact Nat.eq_of_mul_eq_mul_left hMN (by omega))
    (by
      intro g hg
      rw [List.mem_singleton] at hg
      subst hg
      refine ⟨fun n hn => by rw [hall n hn]; omega, k₀ + k₁ + k₂, ?_, by omega⟩
      rw [hns, List.mem_replicate]
      exact ⟨by omega, rfl⟩)
  generalize beliefOf (graphOf s.vgs hist).allScopes (readEv st.varsToStarts a.evidence) (readMsgs (graphOf s.vgs hist).allScopes a.ftovMsgs) = B at e4 ⊢
  obtain ⟨r, rfl⟩ : ∃ r, rs = [r] := List.length_eq_one_iff.1 (by simpa using congrArg List.length e3)
  have e5 := e4 r (by simp)
  obtain ⟨g, b⟩ := r
  simp only [List.map_cons, List.map_nil, List.cons.injEq, and_true] at e3
  subst e3
  cases b with
  | dict d => exact absurd e5 (by simp [VGroup.HasMarginals])
  | arr a =>
    refine ⟨a, ?_, ?_⟩
    · rw [e1, py_ok_bind, e2, py_ok_bind]
      simp only [pure, Except.pure]
    · obtain ⟨m, w1, w2, w3, w4⟩ := e5
      have hm : m = k₀ + k₁ + k₂ := hall m (w1.2 (by rw [hns]; simp; rw [← not_or, ← Nat.mul_eq_zero]; omega))
      subst hm
      refine ⟨by rw [w3, h.vars]; rfl, w2, fun c hc t ht => ?_⟩
      have := w4 c (gPix idV (k₀ + k₁ + k₂) c) t (by rw [h.vars]; exact uniArr_getElem hc) ht
      rw [this, if_pos ht]

theorem gibbs_posDist (f : Nat → ℝ) (K : Nat) (hK : 0 < K) : IsPosDist K (gibbs f K) := by
  obtain ⟨h1, h2, -⟩ := C36_gibbs f K hK
  exact ⟨fun s _ => h1 s, by rw [← range_sum]; exact h2⟩

theorem IsPosDist.class_pos {k₀ k₁ k₂ : Nat} (h0 : 1 ≤ k₀) (h1 : 1 ≤ k₁) (h2 : 1 ≤ k₂) {P : Nat → ℝ} (h : IsPosDist (k₀ + k₁ + k₂) P) {y : Nat} (hy : y < 3) : 0 < classProb k₀ k₁ (k₀ + k₁ + k₂) P y := by
  unfold classProb
  refine Finset.sum_pos (fun s hs => h.1 s (Finset.mem_range.1 (Finset.mem_filter.1 hs).1)) ?_
  have hy' : y = 0 ∨ y = 1 ∨ y = 2 := by omega
  rcases hy' with rfl | rfl | rfl
  · exact ⟨0, by simp [cloneClass]; omega⟩
  · refine ⟨k₀, Finset.mem_filter.2 ⟨Finset.mem_range.2 (by omega), ?_⟩⟩
    rw [cloneClass, if_neg (by omega), if_pos (by omega)]
  · refine ⟨k₀ + k₁, Finset.mem_filter.2 ⟨Finset.mem_range.2 (by omega), ?_⟩⟩
    rw [cloneClass, if_neg (by omega), if_neg (by omega)]

theorem class_sum (k₀ k₁ K : Nat) (P : Nat → ℝ) : classProb k₀ k₁ K P 0 + classProb k₀ k₁ K P 1 + classProb k₀ k₁ K P 2 = ∑ s ∈ Finset.range K, P s := by
  unfold classProb
  rw [Finset.sum_filter, Finset.sum_filter, Finset.sum_filter, ← Finset.sum_add_distrib, ← Finset.sum_add_distrib]
  refine Finset.sum_congr rfl fun s _ => ?_
  unfold cloneClass
  split
  · simp
  · split <;> simp

/-- With one clone each for classes 1 and 2, the three numbers that are compared are the probabilities of the classes. -/
theorem class_last (k₀ : Nat) (P : Nat → ℝ) : classProb k₀ 1 (k₀ + 1 + 1) P 0 = ∑ s ∈ Finset.range k₀, P s ∧ classProb k₀ 1 (k₀ + 1 + 1) P 1 = P k₀ ∧
    classProb k₀ 1 (k₀ + 1 + 1) P 2 = P (k₀ + 1) := by
  have e : ∀ y, classProb k₀ 1 (k₀ + 1 + 1) P y = (∑ s ∈ Finset.range k₀, if 0 = y then P s else 0) + (if 1 = y then P k₀ else 0) + (if 2 = y then P (k₀ + 1) else 0) := by
    intro y
    unfold classProb
    rw [Finset.sum_filter, Finset.sum_range_succ, Finset.sum_range_succ]
    congr 1
    · congr 1
      · refine Finset.sum_congr rfl fun s hs => ?_
        rw [Finset.mem_range] at hs
        simp [cloneClass, hs]
      · simp [cloneClass]
    · simp [cloneClass]
  refine ⟨?_, ?_, ?_⟩ <;> rw [e] <;> simp

theorem filter_range_length (l : List Var) (v : Var) : ((List.range l.length).filter (fun i => l[i]? = some v)).length = l.count v := by
  induction l using List.reverseRecOn with
  | nil => rfl
  | append_singleton l a ih =>
    rw [List.length_append, List.length_singleton, List.range_succ, List.filter_append, List.length_append, List.count_append, ← ih]
    congr 1
    · congr 1
      refine List.filter_congr fun i hi => ?_
      rw [List.getElem?_append_left (by simpa using hi)]
    · by_cases h : a = v
      · simp [h]
      · simp [h]

theorem edgesOf_length (scopes : List (List Var)) (v : Var) : (edgesOf scopes v).length = (scopes.map (List.count v)).sum := by
  unfold edgesOf
  rw [List.length_flatMap]
  congr 1
  simp only [List.length_map, filter_range_length]
  apply List.ext_getElem
  · simp
  · intro f h1 h2
    have hf : f < scopes.length := by simpa using h1
    simp [List.getD, List.getElem?_eq_getElem hf]

theorem gScopes_count (idV M N K : Nat) (D : GDir) (hD : D.Fits M N) (v : Var) : ((gScopes idV M N K D).map (List.count v)).sum ≤ 2 := by
  have e : ((gScopes idV M N K D).map (List.count v)).sum = ((grid D.m D.n).map (fun p => gCell idV M N K (p.1 + D.a) (p.2 + D.b))).count v +
      ((grid D.m D.n).map (fun p => gCell idV M N K (p.1 + D.c) (p.2 + D.d))).count v := by
    unfold gScopes
    generalize grid D.m D.n = L
    induction L with
    | nil => rfl
    | cons p L ih =>
      simp only [List.map_cons, List.sum_cons, ih, List.count_cons, List.count_nil]
      omega
  have hg : (grid D.m D.n).Nodup := grid_nodup _ _
  have h1 : ((grid D.m D.n).map (fun p => gCell idV M N K (p.1 + D.a) (p.2 + D.b))).Nodup := by
    refine List.Nodup.map_on ?_ hg
    intro p hp q hq h
    obtain ⟨p1, p2⟩ := mem_grid.1 hp
    obtain ⟨q1, q2⟩ := mem_grid.1 hq
    obtain ⟨a1, a2, -⟩ := hD p.1 p1 p.2 p2
    obtain ⟨b1, b2, -⟩ := hD q.1 q1 q.2 q2
    obtain ⟨e1, e2⟩ := gCell_inj a1 a2 b1 b2 h
    exact Prod.ext (by omega) (by omega)
  have h2 : ((grid D.m D.n).map (fun p => gCell idV M N K (p.1 + D.c) (p.2 + D.d))).Nodup := by
    refine List.Nodup.map_on ?_ hg
    intro p hp q hq h
    obtain ⟨p1, p2⟩ := mem_grid.1 hp
    obtain ⟨q1, q2⟩ := mem_grid.1 hq
    obtain ⟨-, -, a1, a2⟩ := hD p.1 p1 p.2 p2
    obtain ⟨-, -, b1, b2⟩ := hD q.1 q1 q.2 q2
    obtain ⟨e1, e2⟩ := gCell_inj a1 a2 b1 b2 h
    exact Prod.ext (by omega) (by omega)
  have := List.nodup_iff_count_le_one.1 h1 v
  have := List.nodup_iff_count_le_one.1 h2 v
  omega

/-- A pixel has at most eight neighbours. -/
theorem GmrfRun.degree {κ : Type} [DecidableEq κ] {idV M N k₀ k₁ k₂ : Nat} {p : Nat → ℝ} {env : Env ℝ} {s : GmrfSetup κ ℝ} {lps : GmrfPotentials ℝ} {noisy : NDArr ℝ} {hist : List (AddArg ℝ)} {garbage : Garbage}
    {st : FGState κ ℝ} {arrs : BPArrays ℝ} (h : GmrfRun idV M N (k₀, k₁, k₂) p env s lps noisy hist garbage st arrs) (v : Var) : (edgesOf (graphOf s.vgs hist).allScopes v).length ≤ 8 := by
  rw [h.scopes, edgesOf_length]
  obtain ⟨f1, f2, f3, f4⟩ := gFits M N
  simp only [List.map_append, List.sum_append]
  have := gScopes_count idV M N (k₀ + k₁ + k₂) _ f1 v
  have := gScopes_count idV M N (k₀ + k₁ + k₂) _ f2 v
  have := gScopes_count idV M N (k₀ + k₁ + k₂) _ f3 v
  have := gScopes_count idV M N (k₀ + k₁ + k₂) _ f4 v
  omega

end PGMax
