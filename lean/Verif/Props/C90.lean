import Verif.Lemmas.IsingOut
import Verif.Props.C43
import Verif.Lemmas.Example

/-! # C90: inference in the Ising program -/

namespace PGMax

variable {κ α : Type} [Field α] [LinearOrder α] [IsStrictOrderedRing α] [DecidableEq κ] {idV idF m n : Nat} {J : α} {A : Nat → Nat → α} {E : List α}

theorem coupling_abs (J : α) : ∀ s < 2, ∀ t < 2, |coupling J s t| ≤ |J| := by
  intro s _ t _
  unfold coupling
  split
  · exact le_rfl
  · rw [abs_neg]

/-- **C90.** For tori of all sizes for which there is a graph (C67), the program makes its graph and `bp` without an exception, and for all evidence that is small enough and all numbers of
iterations, the image is that of the signs of the log odds of `Verif.Spec.Ising`. -/
theorem C90 (hm : 1 ≤ m) (hn : 1 ≤ n) (hs : m * n ≤ 1000000000) (hc : m ≠ 2 ∧ n ≠ 2 ∧ ¬ (m = 1 ∧ n = 1)) (garbage : Garbage) (stateId : Nat) {env : Env α}
    (hsize : env.wrapNeg = false ∨ 8 * (m * n) + 2 ≤ 100000) (hJ : |J| ≤ 500) :
    ∃ s, isingSetup κ idV idF garbage stateId m n J = .ok s ∧ ∀ (E : List α) (t : Nat), E.length = m * n * 2 → (∀ x ∈ E, |x| ≤ 45000) →
      isingImage env s ⟨[m, n, 2], E⟩ t = .ok ⟨[m, n], likelyImage m n (torusOdds m n (coupling J) (imageOdds n E) (1 / 2) t)⟩ := by
  obtain ⟨s, st, h1, h2⟩ := ising_setup (κ := κ) (idV := idV) (idF := idF) (J := J) hm hn hs hc garbage stateId
  refine ⟨s, h1, fun E t hE hle => ?_⟩
  obtain ⟨arrs, h3, h4⟩ := (h2.init hE).1
  obtain ⟨bs, h5, h6⟩ := h2.decode hsize h4 (coupling_abs J) hJ hle (d := 1 / 2) ⟨by norm_num, by norm_num⟩ t
  unfold isingImage isingRun
  rw [h3, py_ok_bind, pure_bind, h5, py_ok_bind, h6, py_ok_bind]
  rfl

/-- **C90, the loss.** It is the sum of the sizes of all messages minus the sum of the evidence: for the potentials of the program, and for any table given for the group of factors. -/
theorem C90_loss (hm : 1 ≤ m) (hn : 1 ≤ n) (hs : m * n ≤ 1000000000) (hc : m ≠ 2 ∧ n ≠ 2 ∧ ¬ (m = 1 ∧ n = 1)) (garbage : Garbage) (stateId : Nat) {env : Env α}
    (hsize : env.wrapNeg = false ∨ 8 * (m * n) + 2 ≤ 100000) (hJ : |J| ≤ 500) :
    ∃ s, isingSetup κ idV idF garbage stateId m n J = .ok s ∧ ∀ (E : List α) (t : Nat), E.length = m * n * 2 → (∀ x ∈ E, |x| ≤ 45000) →
      isingLoss env s none ⟨[m, n, 2], E⟩ t = .ok (some (totalOdds m n (torusMsgs m n (coupling J) (imageOdds n E) (1 / 2) t) - E.sum)) ∧
      ∀ A : Nat → Nat → α, (∀ s < 2, ∀ t < 2, |A s t| ≤ 500) → isingLoss env s (some [(s.group, ⟨[2, 2], [A 0 0, A 0 1, A 1 0, A 1 1]⟩)]) ⟨[m, n, 2], E⟩ t =
        .ok (some (totalOdds m n (torusMsgs m n A (imageOdds n E) (1 / 2) t) - E.sum)) := by
  obtain ⟨s, st, h1, h2⟩ := ising_setup (κ := κ) (idV := idV) (idF := idF) (J := J) hm hn hs hc garbage stateId
  refine ⟨s, h1, fun E t hE hle => ?_⟩
  have key : ∀ {lps : Option (List (FGroup α × NDArr α))} {arrs : BPArrays α} {A : Nat → Nat → α} {c : α},
      s.bp.update none lps none (some [.group (.arr s.vars) (.arr ⟨[m, n, 2], E⟩)]) = .ok arrs → IsingInit idV m n A E st arrs → (∀ s < 2, ∀ t < 2, |A s t| ≤ c) → c ≤ 500 →
      isingLoss env s lps ⟨[m, n, 2], E⟩ t = .ok (some (totalOdds m n (torusMsgs m n A (imageOdds n E) (1 / 2) t) - E.sum)) := by
    intro lps arrs A c h3 h4 hA hc
    obtain ⟨a, h5, h6⟩ := h2.loss hsize h4 hA hc hE hle (d := 1 / 2) ⟨by norm_num, by norm_num⟩ t
    unfold isingLoss isingRun
    rw [h3, py_ok_bind, pure_bind, h5, py_ok_bind]
    show (pure (negSum a) : Py (Option α)) = _
    rw [h6]
    rfl
  obtain ⟨arrs, h3, h4⟩ := (h2.init hE).1
  refine ⟨key h3 h4 (coupling_abs J) hJ, fun A hA => ?_⟩
  obtain ⟨arrs, h3, h4⟩ := (h2.init hE).2 A
  exact key h3 h4 hA le_rfl

omit [IsStrictOrderedRing α] in
/-- Messages depend on the evidence of the cells of the torus only. -/
theorem torusMsgs_congr {e e' : Nat → Nat → α} (h : ∀ i < m, ∀ j < n, e i j = e' i j) (d : α) (t : Nat) : (torusMsgs m n A e d t).Same m n (torusMsgs m n A e' d t) := by
  induction t with
  | zero => exact ⟨fun _ _ _ _ => rfl, fun _ _ _ _ => rfl, fun _ _ _ _ => rfl, fun _ _ _ _ => rfl⟩
  | succ t ih =>
    have ho : ∀ i < m, ∀ j < n, cellOdds m n e (torusMsgs m n A e d t) i j = cellOdds m n e' (torusMsgs m n A e' d t) i j := by
      intro i hi j hj
      rw [ih.odds e hi hj]
      unfold cellOdds
      rw [h i hi j hj]
    have hlt : ∀ {a b : Nat}, a < b → (a + 1) % b < b := fun h => Nat.mod_lt _ (by omega)
    constructor <;> intro i hi j hj <;> simp only [torusMsgs]
    · rw [ih.up i hi j hj, ho _ (hlt hi) j hj, ih.down i hi j hj]
    · rw [ih.up i hi j hj, ho i hi j hj, ih.down i hi j hj]
    · rw [ih.left i hi j hj, ho i hi _ (hlt hj), ih.right i hi j hj]
    · rw [ih.left i hi j hj, ho i hi j hj, ih.right i hi j hj]

omit [IsStrictOrderedRing α] in
theorem totalOdds_congr {M M' : TorusMsgs α} (h : M.Same m n M') : totalOdds m n M = totalOdds m n M' := by
  unfold totalOdds
  refine Finset.sum_congr rfl fun i hi => Finset.sum_congr rfl fun j hj => ?_
  rw [Finset.mem_range] at hi hj
  rw [h.up i hi j hj, h.down i hi j hj, h.left i hi j hj, h.right i hi j hj]

/-- **C90, batches.** The losses of a batch of `k` images are those of the images, rows `b * m ..` of the evidence. -/
theorem C90_batch (hm : 1 ≤ m) (hn : 1 ≤ n) (hs : m * n ≤ 1000000000) (hc : m ≠ 2 ∧ n ≠ 2 ∧ ¬ (m = 1 ∧ n = 1)) (garbage : Garbage) (stateId : Nat) {env : Env α}
    (hsize : env.wrapNeg = false ∨ 8 * (m * n) + 2 ≤ 100000) (hJ : |J| ≤ 500) :
    ∃ s, isingSetup κ idV idF garbage stateId m n J = .ok s ∧ ∀ (k : Nat) (E : List α) (t : Nat), E.length = k * (m * n * 2) → (∀ x ∈ E, |x| ≤ 45000) →
      isingBatchLoss env s ⟨[k, m, n, 2], E⟩ t = .ok ⟨[k], (List.range k).map (fun b => some
        (totalOdds m n (torusMsgs m n (coupling J) (fun i j => imageOdds n E (b * m + i) j) (1 / 2) t) - ∑ q ∈ Finset.range (m * n * 2), E.getD (b * (m * n * 2) + q) 0))⟩ := by
  obtain ⟨s, h1, h2⟩ := C90_loss (κ := κ) (idV := idV) (idF := idF) (J := J) hm hn hs hc garbage stateId hsize hJ
  refine ⟨s, h1, fun k E t hE hle => ?_⟩
  unfold isingBatchLoss
  simp only
  rw [mapM_ok _ (fun b => some (totalOdds m n (torusMsgs m n (coupling J) (fun i j => imageOdds n E (b * m + i) j) (1 / 2) t) -
    ∑ q ∈ Finset.range (m * n * 2), E.getD (b * (m * n * 2) + q) 0)) _ (fun b hb => ?_), py_ok_bind]
  · rfl
  rw [List.mem_range] at hb
  have hsl : (slice E (b * (m * n * 2)) (b * (m * n * 2) + m * n * 2)).length = m * n * 2 := by
    have : (b + 1) * (m * n * 2) ≤ k * (m * n * 2) := Nat.mul_le_mul_right _ hb
    rw [Nat.add_mul, Nat.one_mul] at this
    rw [slice_length, hE]
    omega
  have hget : ∀ q < m * n * 2, (slice E (b * (m * n * 2)) (b * (m * n * 2) + m * n * 2)).getD q 0 = E.getD (b * (m * n * 2) + q) 0 := by
    intro q hq
    simp only [List.getD, slice_getElem?]
    rw [if_pos (by omega)]
  have hsamp : (⟨[k, m, n, 2], E⟩ : NDArr α).sample b = ⟨[m, n, 2], slice E (b * (m * n * 2)) (b * (m * n * 2) + m * n * 2)⟩ := by
    simp only [NDArr.sample, List.tail_cons, List.prod_cons, List.prod_nil, Nat.mul_one, Nat.mul_assoc]
  rw [hsamp, (h2 _ t hsl (fun x hx => hle x (List.mem_of_mem_take (List.mem_of_mem_drop hx)))).1]
  congr 3
  · refine totalOdds_congr (torusMsgs_congr (fun i hi j hj => ?_) _ _)
    have hlt : i * n + j < m * n := by
      have := Nat.mul_le_mul_right n (show i + 1 ≤ m from hi)
      rw [Nat.add_mul] at this
      omega
    have e1 : b * (m * n * 2) + (i * n + j) * 2 = ((b * m + i) * n + j) * 2 := by ring
    unfold imageOdds
    rw [hget _ (by omega), hget _ (by omega), ← Nat.add_assoc, e1]
  · conv_lhs => rw [list_eq_range (slice E _ _) 0]
    rw [hsl, range_sum]
    exact Finset.sum_congr rfl fun q hq => hget q (Finset.mem_range.1 hq)

/-- **C90, evidence.** After belief propagation with evidence `E₀`, the program reads the entries of `E₀` for cell (0, 0), then what it has set for this cell, then the entries of the new evidence. -/
theorem C90_evidence (hm : 1 ≤ m) (hn : 1 ≤ n) (hs : m * n ≤ 1000000000) (hc : m ≠ 2 ∧ n ≠ 2 ∧ ¬ (m = 1 ∧ n = 1)) (garbage : Garbage) (stateId : Nat) (env : Env α) :
    ∃ s, isingSetup κ idV idF garbage stateId m n J = .ok s ∧ ∀ (E₀ E : List α) (t : Nat) (x₀ x₁ : α) (stateId' a b : Nat), E₀.length = m * n * 2 → E.length = m * n * 2 → a < m → b < n →
      ∃ arrs, isingRun env s none ⟨[m, n, 2], E₀⟩ t = .ok arrs ∧ isingEvidence s stateId' arrs ⟨[2], [x₀, x₁]⟩ ⟨[m, n, 2], E⟩ a b =
        .ok ([E₀.getD 0 0, E₀.getD 1 0], [x₀, x₁], [E.getD ((a * n + b) * 2) 0, E.getD ((a * n + b) * 2 + 1) 0]) := by
  obtain ⟨s, st, h1, h2⟩ := ising_setup (κ := κ) (idV := idV) (idF := idF) (J := J) hm hn hs hc garbage stateId
  refine ⟨s, h1, fun E₀ E t x₀ x₁ stateId' a b hE₀ hE ha hb => ?_⟩
  obtain ⟨arrs, h3, h4⟩ := (h2.init hE₀).1
  obtain ⟨state, hbp, -⟩ := h2.bp
  obtain ⟨b1, -⟩ := BP_create_ok hbp
  have hfit : BPArrays.Fit st arrs := ⟨by rw [h4.pots, h2.pots], by rw [h4.msgs]; simp, h4.len⟩
  obtain ⟨-, -, r⟩ := C43_run h2.compiled hbp env arrs hfit t (1 / 2) stateId'
  refine ⟨s.bp.runBP env arrs t (1 / 2), by unfold isingRun; rw [h3, py_ok_bind]; rfl, ?_⟩
  have hmem : ∀ i < m, ∀ j < n, ∃ g ∈ iVgs κ idV m n, isingCell idV m n i j ∈ g.variables := fun i hi j hj =>
    ⟨_, List.mem_singleton.2 rfl, ((isGrid_uniArr idV m n 2).vars _).2 ⟨i, hi, j, hj, rfl⟩⟩
  have hread : ∀ (ev : List α), ev.length = st.numVarStates → ∀ i < m, ∀ j < n, Evidence.getitem st ev (isingCell idV m n i j) =
      .ok [readEv st.varsToStarts ev (isingCell idV m n i j) 0, readEv st.varsToStarts ev (isingCell idV m n i j) 1] := by
    intro ev hev i hi j hj
    obtain ⟨q1, q2, -⟩ := h2.compiled.blocks
    obtain ⟨u, hu⟩ := (q1 _).2 (hmem i hi j hj)
    have hok : Evidence.getitem st ev (isingCell idV m n i j) = .ok (slice ev u (u + 2)) := by
      simp only [Evidence.getitem, StartMap.get, hu]
      rfl
    have hlen : (slice ev u (u + 2)).length = 2 := by
      have : u + 2 ≤ st.numVarStates := q2 _ _ hu
      rw [slice_length]
      omega
    have g0 := C26_evidence h2.compiled ev hev _ _ hok 0 (show 0 < 2 by omega)
    have g1 := C26_evidence h2.compiled ev hev _ _ hok 1 (show 1 < 2 by omega)
    rw [hok]
    congr 1
    match hsl : slice ev u (u + 2), hlen, g0, g1 with
    | [y, z], _, g0, g1 => simp_all
  have hv : ∀ i < m, ∀ j < n, s.vars.at [(i : Int), (j : Int)] = .ok (isingCell idV m n i j) := by
    intro i hi j hj
    rw [h2.vars]
    exact uniArr_at idV [m, n] 2 (by simp) (cs := [i, j]) (by simp [hi, hj])
  obtain ⟨ev1, v1, v2, v3, -⟩ := (C22_var h2.compiled arrs.evidence h4.len (isingCell idV m n 0 0) ⟨[2], [x₀, x₁]⟩ (by simp [NDArr.WF]) rfl).1 (hmem 0 hm 0 hn)
  obtain ⟨ev2, w1, w2, w3, -⟩ := uniArr_evidence h2.compiled ev1 (v2.trans h4.len) idV [m, n] 2 (by simp) (by simp; omega) E (by simpa using hE)
  have u1 : updateEvidence st arrs.evidence [.var (isingCell idV m n 0 0) ⟨[2], [x₀, x₁]⟩] = .ok ev1 := by
    unfold updateEvidence
    rw [List.foldlM_cons, v1]
    rfl
  have u2 : updateEvidence st ev1 [.group (.arr (uniArr idV [m, n] 2)) (.arr ⟨[m, n, 2], E⟩)] = .ok ev2 := by
    unfold updateEvidence
    rw [List.foldlM_cons, show (⟨[m, n, 2], E⟩ : NDArr α) = ⟨[m, n] ++ [2], E⟩ from rfl, w1]
    rfl
  have w3' : ∀ t < 2, readEv st.varsToStarts ev2 (isingCell idV m n a b) t = E.getD ((a * n + b) * 2 + t) 0 := by
    intro t ht
    rw [show isingCell idV m n a b = uniCell idV [m, n] 2 [a, b] from rfl, w3 [a, b] (by simp [ha, hb]) t ht]
    simp [rowMajor]
  unfold isingEvidence Evidence.setitem
  rw [r, py_ok_bind, show s.vars.at [0, 0] = .ok (isingCell idV m n 0 0) from hv 0 hm 0 hn, py_ok_bind, b1]
  simp only
  rw [hread _ h4.len 0 hm 0 hn, py_ok_bind, u1]
  simp only [Part.assign, Part.assigned]
  rw [py_ok_bind]
  simp only
  rw [v3, py_ok_bind, h2.vars, u2]
  simp only
  rw [py_ok_bind, ← h2.vars, hv a ha b hb, py_ok_bind]
  simp only
  rw [hread _ (w2.trans (v2.trans h4.len)) a ha b hb, py_ok_bind, h4.ev 0 hm 0 hn 0 (by omega), h4.ev 0 hm 0 hn 1 (by omega), w3' 0 (by omega), w3' 1 (by omega)]
  simp
  rfl

/-- Non-vacuity: a 3 by 3 torus meets the hypotheses; one of the two cells with evidence for state 0 is decoded as 1. -/
example : (1 ≤ 3 ∧ 3 * 3 ≤ 1000000000 ∧ (3 ≠ 2 ∧ 3 ≠ 2 ∧ ¬ (3 = 1 ∧ 3 = 1)) ∧ 8 * (3 * 3) + 2 ≤ 100000) ∧ |(4 / 5 : ℚ)| ≤ 500 ∧ (∀ x ∈ ([0, 3, 0, 2, 0, 1, 1, 0, 0, 3, 0, 1, 0, 4, 1, 2, 9, 0] : List ℚ), |x| ≤ 45000) ∧
    ((isingSetup Nat 2000000000 1 (fun _ _ => 0) 5 3 3 (4 / 5 : ℚ)).bind (fun s =>
      (isingImage exEnv s ⟨[3, 3, 2], [0, 3, 0, 2, 0, 1, 1, 0, 0, 3, 0, 1, 0, 4, 1, 2, 9, 0]⟩ 2).bind (fun r =>
      (isingLoss exEnv s none ⟨[3, 3, 2], [0, 3, 0, 2, 0, 1, 1, 0, 0, 3, 0, 1, 0, 4, 1, 2, 9, 0]⟩ 2).bind (fun l =>
      (isingLoss exEnv s (some [(s.group, ⟨[2, 2], [1, 0, 0, 1]⟩)]) ⟨[3, 3, 2], [0, 3, 0, 2, 0, 1, 1, 0, 0, 3, 0, 1, 0, 4, 1, 2, 9, 0]⟩ 2).map (fun k =>
        (r, l, k)))))).toOption = some (⟨[3, 3], [1, 1, 1, 1, 1, 1, 1, 1, 0]⟩, some (191 / 20), some (-7 / 2)) ∧
    likelyImage 3 3 (imageOdds 3 ([0, 3, 0, 2, 0, 1, 1, 0, 0, 3, 0, 1, 0, 4, 1, 2, 9, 0] : List ℚ)) = [1, 1, 1, 0, 1, 1, 1, 1, 0] := by
  refine ⟨by decide, by decide +kernel, by decide +kernel, by decide +kernel, by decide +kernel⟩

end PGMax
