import Verif.Lemmas.GmrfFlat

/-! # C85: marginals, loss and predictions of the GMRF program -/

namespace PGMax

variable {κ : Type}

/-- The program runs, and its marginals are distributions. -/
theorem gmrf_facts [DecidableEq κ] {idV idT idL idD idE : Nat} (hids : [idT, idL, idD, idE].Nodup) (garbage : Garbage) (stateId : Nat) (p : Nat → ℝ) {k₀ k₁ k₂ M N : Nat} (hK : 2 ≤ k₀ + k₁ + k₂)
    (hM : 2 ≤ M) (hN : 2 ≤ N) (hs : M * N ≤ 1000000000) (env : Env ℝ) (hexp : env.exp = Real.exp) (hlog : env.log = Real.log) :
    ∃ s : GmrfSetup κ ℝ, gmrfSetup κ idV idT idL idD idE garbage stateId [p 0, p 1, p 2] [k₀, k₁, k₂] M N = .ok s ∧ gmrfTargets [k₀, k₁, k₂] = .ok s.targets ∧
      ∀ (lps : GmrfPotentials ℝ) (noisy : NDArr ℝ), lps.Sized (k₀ + k₁ + k₂) → noisy.shape = [M, N] → noisy.data.length = M * N →
        ∃ a P, gmrfMarginals env s lps noisy = .ok a ∧ HoldsPixels M N (k₀ + k₁ + k₂) a P ∧ ∀ c < M * N, IsPosDist (k₀ + k₁ + k₂) (P c) := by
  obtain ⟨s, e1, e2, hist, st, hrun⟩ := gmrf_setup (κ := κ) (idV := idV) hids garbage stateId p (k₀ := k₀) (k₁ := k₁) (k₂ := k₂) (by omega) hM hN hs env
  refine ⟨s, e1, e2, fun lps noisy hl hn1 hn2 => ?_⟩
  obtain ⟨arrs, h⟩ := hrun lps noisy hl hn1 hn2
  obtain ⟨a, m1, m2⟩ := h.marginals hK (Nat.mul_pos (by omega) (by omega)) hexp hlog
  exact ⟨a, _, m1, m2, fun c _ => gibbs_posDist _ _ (by omega)⟩

theorem class_le_one {k₀ k₁ k₂ : Nat} {P : Nat → ℝ} (h : IsPosDist (k₀ + k₁ + k₂) P) (y : Nat) : classProb k₀ k₁ (k₀ + k₁ + k₂) P y ≤ 1 := by
  rw [← h.2]
  exact Finset.sum_le_sum_of_subset_of_nonneg (Finset.filter_subset _ _) fun s hs _ => (h.1 s (Finset.mem_range.1 hs)).le

theorem loss_facts {env : Env ℝ} (hlog : env.log = Real.log) {M N k₀ k₁ k₂ : Nat} (h0 : 1 ≤ k₀) (h1 : 1 ≤ k₁) (h2 : 1 ≤ k₂) (hMN : 0 < M * N) {a : NDArr (Option ℝ)} {P : Nat → Nat → ℝ}
    (h : HoldsPixels M N (k₀ + k₁ + k₂) a P) (hd : ∀ c < M * N, IsPosDist (k₀ + k₁ + k₂) (P c)) {targets : List (List ℝ)} (ht : gmrfTargets [k₀, k₁, k₂] = .ok targets)
    {ys : List Nat} (hy : ys.length = M * N) (hy3 : ∀ y ∈ ys, y < 3) :
    ∃ L, gmrfLossOf env targets ⟨[M, N], ys⟩ a = .ok (some L) ∧ L = (∑ c ∈ Finset.range (M * N), -Real.log (classProb k₀ k₁ (k₀ + k₁ + k₂) (P c) (ys.getD c 0))) / (M * N) ∧ 0 ≤ L := by
  have hyc : ∀ c < M * N, ys.getD c 0 < 3 := fun c hc => by
    rw [List.getD, List.getElem?_eq_getElem (by omega)]
    exact hy3 _ (List.getElem_mem _)
  have hpos : ∀ c < M * N, 0 < classProb k₀ k₁ (k₀ + k₁ + k₂) (P c) (ys.getD c 0) := fun c hc => (hd c hc).class_pos h0 h1 h2 (hyc c hc)
  refine ⟨_, gmrfLossOf_eq env hMN h ys hy hy3 hpos ht, ?_, ?_⟩
  · rw [hlog, Finset.sum_neg_distrib, neg_div]
  · rw [hlog, ← neg_div, ← Finset.sum_neg_distrib]
    refine div_nonneg (Finset.sum_nonneg fun c hc => ?_) (by positivity)
    rw [Finset.mem_range] at hc
    have := Real.log_nonpos (hpos c hc).le (class_le_one (hd c hc) _)
    linarith

/-- **C85, marginals and loss.** For images of at least 2 by 2 pixels, matrices of the right sizes and at least one state per class, the program computes a distribution on the states of every pixel, without zeros,
and the loss is the mean over the pixels of minus the logarithm of the probability of the right class.  It is finite and not negative. -/
theorem C85_loss [DecidableEq κ] {idV idT idL idD idE : Nat} (hids : [idT, idL, idD, idE].Nodup) (garbage : Garbage) (stateId : Nat) (p : Nat → ℝ) {k₀ k₁ k₂ M N : Nat} (h0 : 1 ≤ k₀) (h1 : 1 ≤ k₁) (h2 : 1 ≤ k₂)
    (hM : 2 ≤ M) (hN : 2 ≤ N) (hs : M * N ≤ 1000000000) (env : Env ℝ) (hexp : env.exp = Real.exp) (hlog : env.log = Real.log) :
    ∃ s : GmrfSetup κ ℝ, gmrfSetup κ idV idT idL idD idE garbage stateId [p 0, p 1, p 2] [k₀, k₁, k₂] M N = .ok s ∧
      ∀ (lps : GmrfPotentials ℝ) (noisy : NDArr ℝ), lps.Sized (k₀ + k₁ + k₂) → noisy.shape = [M, N] → noisy.data.length = M * N →
        ∃ a P, gmrfMarginals env s lps noisy = .ok a ∧ HoldsPixels M N (k₀ + k₁ + k₂) a P ∧ (∀ c < M * N, IsPosDist (k₀ + k₁ + k₂) (P c)) ∧
          ∀ ys : List Nat, ys.length = M * N → (∀ y ∈ ys, y < 3) → ∃ L, gmrfLoss env s lps noisy ⟨[M, N], ys⟩ = .ok (some L) ∧
            L = (∑ c ∈ Finset.range (M * N), -Real.log (classProb k₀ k₁ (k₀ + k₁ + k₂) (P c) (ys.getD c 0))) / (M * N) ∧ 0 ≤ L := by
  obtain ⟨s, e1, e2, hrun⟩ := gmrf_facts (κ := κ) (idV := idV) hids garbage stateId p (k₀ := k₀) (k₁ := k₁) (k₂ := k₂) (by omega) hM hN hs env hexp hlog
  refine ⟨s, e1, fun lps noisy hl hn1 hn2 => ?_⟩
  obtain ⟨a, P, m1, m2, m3⟩ := hrun lps noisy hl hn1 hn2
  refine ⟨a, P, m1, m2, m3, fun ys hy1 hy2 => ?_⟩
  obtain ⟨L, l1, l2, l3⟩ := loss_facts hlog h0 h1 h2 (Nat.mul_pos (by omega) (by omega)) m2 m3 e2 hy1 hy2
  refine ⟨L, ?_, l2, l3⟩
  unfold gmrfLoss
  rw [m1, py_ok_bind, l1]

/-- **C85, clones.** `np.repeat` with one number repeats every entry that many times, in place, like `np.repeat` with that number for every entry. -/
theorem C85_repeat {β : Type _} (xs : List β) (k : Nat) : ∃ ys, npRepeat xs [k] = .ok ys ∧ npRepeat xs (List.replicate xs.length k) = .ok ys ∧ ys.length = xs.length * k ∧
    ∀ i < xs.length, ∀ j < k, ys[i * k + j]? = xs[i]? := by
  have e : ∀ l : List β, (List.zipWith (fun n x => List.replicate n x) (List.replicate l.length k) l).flatten = l.flatMap (List.replicate k) := by
    intro l
    induction l with
    | nil => rfl
    | cons x l ih => simp [List.replicate_succ, ih]
  refine ⟨xs.flatMap (List.replicate k), ?_, ?_, by simp [List.length_flatMap], fun i hi j hj => ?_⟩
  · unfold npRepeat
    split
    · next h =>
      have := e xs
      rw [show xs.length = 1 from h] at this
      rw [← this]
      rfl
    · rfl
  · unfold npRepeat
    rw [if_pos (by simp), e]
  · rw [flatMap_row xs (List.replicate k) k i j (by simp) (List.getElem?_eq_getElem hi) hj, List.getElem?_replicate, if_pos hj, List.getElem?_eq_getElem hi]

/-- Non-vacuity of `C85_repeat`. -/
example : npRepeat [5, 6, 7] [2] = .ok [5, 5, 6, 6, 7, 7] := rfl

/-- **C85, batches.** The loss of a batch of such pairs of images is the mean of their losses. -/
theorem C85_batch [DecidableEq κ] {idV idT idL idD idE : Nat} (hids : [idT, idL, idD, idE].Nodup) (garbage : Garbage) (stateId : Nat) (p : Nat → ℝ) {k₀ k₁ k₂ M N : Nat} (h0 : 1 ≤ k₀) (h1 : 1 ≤ k₁) (h2 : 1 ≤ k₂)
    (hM : 2 ≤ M) (hN : 2 ≤ N) (hs : M * N ≤ 1000000000) (env : Env ℝ) (hexp : env.exp = Real.exp) (hlog : env.log = Real.log) :
    ∃ s : GmrfSetup κ ℝ, gmrfSetup κ idV idT idL idD idE garbage stateId [p 0, p 1, p 2] [k₀, k₁, k₂] M N = .ok s ∧
      ∀ (lps : GmrfPotentials ℝ) (images : List (NDArr ℝ × NDArr Nat)), lps.Sized (k₀ + k₁ + k₂) → images ≠ [] →
        (∀ i ∈ images, i.1.shape = [M, N] ∧ i.1.data.length = M * N ∧ i.2.shape = [M, N] ∧ i.2.data.length = M * N ∧ ∀ y ∈ i.2.data, y < 3) →
        ∃ L : NDArr ℝ × NDArr Nat → ℝ, (∀ i ∈ images, gmrfLoss env s lps i.1 i.2 = .ok (some (L i)) ∧ 0 ≤ L i) ∧
          gmrfBatchLoss env s lps images = .ok (some ((images.map L).sum / images.length)) := by
  obtain ⟨s, e1, hrun⟩ := C85_loss (κ := κ) (idV := idV) hids garbage stateId p (k₀ := k₀) (k₁ := k₁) (k₂ := k₂) h0 h1 h2 hM hN hs env hexp hlog
  refine ⟨s, e1, fun lps images hl hne himg => ?_⟩
  have key : ∀ i : NDArr ℝ × NDArr Nat, ∃ L, i ∈ images → gmrfLoss env s lps i.1 i.2 = .ok (some L) ∧ 0 ≤ L := by
    intro i
    by_cases hi : i ∈ images
    · obtain ⟨a1, a2, a3, a4, a5⟩ := himg i hi
      obtain ⟨_, _, -, -, -, hloss⟩ := hrun lps i.1 hl a1 a2
      obtain ⟨L, l1, -, l3⟩ := hloss i.2.data a4 a5
      refine ⟨L, fun _ => ⟨?_, l3⟩⟩
      rw [← l1, ← a3]
    · exact ⟨0, fun h => absurd h hi⟩
  choose L hL using key
  refine ⟨L, hL, ?_⟩
  unfold gmrfBatchLoss
  rw [mapM_ok _ (fun i => some (L i)) _ (fun i hi => (hL i hi).1), py_ok_bind, meanNan_map _ hne]
  rfl

theorem argmax_three (f : Nat → ℝ) : IsFirstMax f 3 (argmax [f 0, f 1, f 2]) := by
  obtain ⟨m, h1, h2, h3⟩ := argmax_spec [f 0, f 1, f 2] (by simp)
  have hlt : argmax [f 0, f 1, f 2] < 3 := (List.getElem?_eq_some_iff.1 h1).1
  have hget : ∀ s < 3, [f 0, f 1, f 2][s]? = some (f s) := by
    intro s hs
    have : s = 0 ∨ s = 1 ∨ s = 2 := by omega
    rcases this with rfl | rfl | rfl <;> rfl
  rw [hget _ hlt] at h1
  obtain rfl := Option.some.inj h1
  exact ⟨hlt, fun s hs => h2 _ (List.mem_of_getElem? (hget s hs)), fun s hs => h3 s _ hs (hget s (by omega))⟩

theorem two_classes {k₀ k₁ k₂ : Nat} {P : Nat → ℝ} (h : IsPosDist (k₀ + k₁ + k₂) P) {y j : Nat} (hne : j ≠ y) :
    classProb k₀ k₁ (k₀ + k₁ + k₂) P y + classProb k₀ k₁ (k₀ + k₁ + k₂) P j ≤ 1 := by
  rw [← h.2]
  unfold classProb
  rw [← Finset.sum_union (Finset.disjoint_filter.2 fun s _ h1 h2 => hne (h2.symm.trans h1))]
  exact Finset.sum_le_sum_of_subset_of_nonneg (Finset.union_subset (Finset.filter_subset _ _) (Finset.filter_subset _ _)) fun s hs _ => (h.1 s (Finset.mem_range.1 hs)).le

/-- **C85, prediction, partial.** If classes 1 and 2 have one state each, the predicted class of every pixel is the most probable class (the first one if several are), and the loss bounds the number of pixels that are
predicted wrongly: the loss times the number of pixels is at least `log 2` times the number of mistakes.
Missing: other numbers of clones, for which the program compares other sums of probabilities than those of the classes (`C85_refuted`). -/
theorem C85_partial [DecidableEq κ] {idV idT idL idD idE : Nat} (hids : [idT, idL, idD, idE].Nodup) (garbage : Garbage) (stateId : Nat) (p : Nat → ℝ) {k M N : Nat} (hk : 1 ≤ k)
    (hM : 2 ≤ M) (hN : 2 ≤ N) (hs : M * N ≤ 1000000000) (env : Env ℝ) (hexp : env.exp = Real.exp) (hlog : env.log = Real.log) :
    ∃ s : GmrfSetup κ ℝ, gmrfSetup κ idV idT idL idD idE garbage stateId [p 0, p 1, p 2] [k, 1, 1] M N = .ok s ∧
      ∀ (lps : GmrfPotentials ℝ) (noisy : NDArr ℝ), lps.Sized (k + 1 + 1) → noisy.shape = [M, N] → noisy.data.length = M * N →
        ∃ a P, gmrfMarginals env s lps noisy = .ok a ∧ HoldsPixels M N (k + 1 + 1) a P ∧
          ∃ pred : List Nat, gmrfPredict a = .ok ⟨[M, N], pred⟩ ∧ pred.length = M * N ∧ (∀ c < M * N, ∃ j, pred[c]? = some j ∧ IsFirstMax (classProb k 1 (k + 1 + 1) (P c)) 3 j) ∧
            ∀ ys : List Nat, ys.length = M * N → (∀ y ∈ ys, y < 3) → ∃ L, gmrfLoss env s lps noisy ⟨[M, N], ys⟩ = .ok (some L) ∧
              (((Finset.range (M * N)).filter (fun c => pred[c]? ≠ ys[c]?)).card : ℝ) * Real.log 2 ≤ M * N * L := by
  obtain ⟨s, e1, e2, hrun⟩ := gmrf_facts (κ := κ) (idV := idV) hids garbage stateId p (k₀ := k) (k₁ := 1) (k₂ := 1) (by omega) hM hN hs env hexp hlog
  have hMN : 0 < M * N := Nat.mul_pos (by omega) (by omega)
  refine ⟨s, e1, fun lps noisy hl hn1 hn2 => ?_⟩
  obtain ⟨a, P, m1, m2, m3⟩ := hrun lps noisy hl hn1 hn2
  have hp : ∀ c < M * N, ((List.range (M * N)).map (fun c => argmax [∑ s ∈ Finset.range (k + 1 + 1 - 2), P c s, P c (k + 1 + 1 - 2), P c (k + 1 + 1 - 1)]))[c]? =
      some (argmax [classProb k 1 (k + 1 + 1) (P c) 0, classProb k 1 (k + 1 + 1) (P c) 1, classProb k 1 (k + 1 + 1) (P c) 2]) := by
    intro c hc
    obtain ⟨c0, c1, c2⟩ := class_last k (P c)
    rw [List.getElem?_map, List.getElem?_range hc, c0, c1, c2]
    rfl
  refine ⟨a, P, m1, m2, _, gmrfPredict_eq (by omega) m2, by simp, fun c hc => ⟨_, hp c hc, argmax_three _⟩, fun ys hy1 hy2 => ?_⟩
  obtain ⟨L, l1, l2, -⟩ := loss_facts hlog hk le_rfl le_rfl hMN m2 m3 e2 hy1 hy2
  refine ⟨L, ?_, ?_⟩
  · unfold gmrfLoss
    rw [m1, py_ok_bind, l1]
  · have hMN' : (M * N : ℝ) ≠ 0 := by exact_mod_cast hMN.ne'
    rw [l2, mul_div_cancel₀ _ hMN', ← nsmul_eq_mul, ← Finset.sum_const, Finset.sum_filter]
    refine Finset.sum_le_sum fun c hc => ?_
    rw [Finset.mem_range] at hc
    have hy3 : ys.getD c 0 < 3 := by
      rw [List.getD, List.getElem?_eq_getElem (by omega)]
      exact hy2 _ (List.getElem_mem _)
    have hpos := (m3 c hc).class_pos hk le_rfl le_rfl hy3
    split
    · rename_i hne
      rw [hp c hc] at hne
      have hj := argmax_three (classProb k 1 (k + 1 + 1) (P c))
      have hjy : argmax [classProb k 1 (k + 1 + 1) (P c) 0, classProb k 1 (k + 1 + 1) (P c) 1, classProb k 1 (k + 1 + 1) (P c) 2] ≠ ys.getD c 0 := by
        intro he
        apply hne
        rw [he, List.getD, List.getElem?_eq_getElem (by omega)]
        rfl
      have b1 := two_classes (m3 c hc) hjy
      have b2 := hj.2.1 _ hy3
      rw [← Real.log_inv]
      apply Real.log_le_log (by norm_num)
      rw [le_inv_comm₀ (by norm_num) hpos]
      have e : (2 : ℝ)⁻¹ = 1 / 2 := by norm_num
      rw [e]
      linarith
    · have := Real.log_nonpos hpos.le (class_le_one (m3 c hc) _)
      linarith

/-- **C85, matrices without preferences.** If every matrix has the same number (at most 1000) in all its entries, the marginals of a pixel are the probabilities of its observation, normalised. -/
theorem C85_flat [DecidableEq κ] {idV idT idL idD idE : Nat} (hids : [idT, idL, idD, idE].Nodup) (garbage : Garbage) (stateId : Nat) (p : Nat → ℝ) (hp : ∀ c < 3, 0 < p c ∧ p c < 1)
    (hp' : ∀ c < 3, |Real.log (p c)| ≤ 1000 ∧ |Real.log (1 - p c)| ≤ 1000) {k₀ k₁ k₂ M N : Nat} (hK : 2 ≤ k₀ + k₁ + k₂)
    (hM : 2 ≤ M) (hN : 2 ≤ N) (hs : M * N ≤ 1000000000) (env : Env ℝ) (hexp : env.exp = Real.exp) (hlog : env.log = Real.log)
    (hsize : env.wrapNeg = false ∨ M * N * (8 * (k₀ + k₁ + k₂)) + (k₀ + k₁ + k₂) ≤ 100000) :
    ∃ s : GmrfSetup κ ℝ, gmrfSetup κ idV idT idL idD idE garbage stateId [p 0, p 1, p 2] [k₀, k₁, k₂] M N = .ok s ∧
      ∀ (lps : GmrfPotentials ℝ) (noisy : NDArr ℝ), lps.Sized (k₀ + k₁ + k₂) → noisy.shape = [M, N] → noisy.data.length = M * N →
        (∀ a ∈ [lps.topDown, lps.leftRight, lps.diagonal0, lps.diagonal1], ∃ x, |x| ≤ 1000 ∧ ∀ y ∈ a.data, y = x) →
        ∃ a, gmrfMarginals env s lps noisy = .ok a ∧ HoldsPixels M N (k₀ + k₁ + k₂) a (fun c t => observation p (noisy.data.getD c 0) (cloneClass k₀ k₁ t) /
          ∑ u ∈ Finset.range (k₀ + k₁ + k₂), observation p (noisy.data.getD c 0) (cloneClass k₀ k₁ u)) := by
  obtain ⟨s, e1, e2, hist, st, hrun⟩ := gmrf_setup (κ := κ) (idV := idV) hids garbage stateId p (k₀ := k₀) (k₁ := k₁) (k₂ := k₂) (by omega) hM hN hs env
  refine ⟨s, e1, fun lps noisy hl hn1 hn2 hflat => ?_⟩
  obtain ⟨arrs, h⟩ := hrun lps noisy hl hn1 hn2
  obtain ⟨a, m1, m2, m3, m4⟩ := h.marginals hK (Nat.mul_pos (by omega) (by omega)) hexp hlog
  have hc3 : ∀ t, cloneClass k₀ k₁ t < 3 := by
    intro t
    unfold cloneClass
    split
    · omega
    · split <;> omega
  have hobs := h.flat hl (by omega) hexp hlog hsize hflat (by
    intro y c hc
    unfold observation
    split
    · exact (hp' c hc).1
    · exact (hp' c hc).2) (n := 15) (by omega)
  refine ⟨a, m1, m2, m3, fun c hc t ht => ?_⟩
  obtain ⟨C, hC⟩ := hobs c hc
  rw [m4 c hc t ht]
  beta_reduce
  rw [gibbs_of_log _ (fun t => observation p (noisy.data.getD c 0) (cloneClass k₀ k₁ t)) _ (fun t _ => ?_) hC ht]
  unfold observation
  have := hp _ (hc3 t)
  split
  · exact this.1
  · linarith [this.2]

/-! ### Examples -/

/-- The real exponential function and logarithm. -/
noncomputable def realEnv : Env ℝ := ⟨Real.exp, Real.log, 0, true⟩

/-- Non-vacuity of C85: images of 28 by 28 pixels, as in the program, with 10 states of class 0 and one each of classes 1 and 2. -/
example (A : NDArr ℝ) (hA : A.shape = [12, 12] ∧ A.data.length = 12 * 12) (noisy : NDArr ℝ) (h1 : noisy.shape = [28, 28]) (h2 : noisy.data.length = 28 * 28) :
    ∃ (s : GmrfSetup Unit ℝ) (a : NDArr (Option ℝ)) (L : ℝ), gmrfSetup Unit 1 2 3 4 5 (fun _ _ => 0) 6 [9 / 10, 1 / 10, 1 / 2] [10, 1, 1] 28 28 = .ok s ∧
      gmrfMarginals realEnv s ⟨A, A, A, A⟩ noisy = .ok a ∧ gmrfLoss realEnv s ⟨A, A, A, A⟩ noisy ⟨[28, 28], List.replicate (28 * 28) 1⟩ = .ok (some L) ∧ 0 ≤ L := by
  obtain ⟨s, e1, hrun⟩ := C85_loss (κ := Unit) (idV := 1) (idT := 2) (idL := 3) (idD := 4) (idE := 5) (by decide) (fun _ _ => 0) 6 (fun c => [9 / 10, 1 / 10, 1 / 2].getD c 0) (k₀ := 10) (k₁ := 1) (k₂ := 1)
    (M := 28) (N := 28) (by norm_num) (by norm_num) (by norm_num) (by norm_num) (by norm_num) (by norm_num) realEnv rfl rfl
  obtain ⟨a, P, m1, -, -, hloss⟩ := hrun ⟨A, A, A, A⟩ noisy (by intro a ha; simp only [List.mem_cons, List.not_mem_nil, or_false, or_self] at ha; subst ha; exact hA) h1 h2
  obtain ⟨L, l1, -, l3⟩ := hloss (List.replicate (28 * 28) 1) List.length_replicate (by intro y hy; rw [List.eq_of_mem_replicate hy]; norm_num)
  exact ⟨s, a, L, e1, m1, l1, l3⟩

/-- Matrices with zeros. -/
def exZeroLps (K : Nat) : GmrfPotentials ℝ := ⟨⟨[K, K], List.replicate (K * K) 0⟩, ⟨[K, K], List.replicate (K * K) 0⟩, ⟨[K, K], List.replicate (K * K) 0⟩, ⟨[K, K], List.replicate (K * K) 0⟩⟩

theorem exZero_facts (K : Nat) : (exZeroLps K).Sized K ∧ ∀ a ∈ [(exZeroLps K).topDown, (exZeroLps K).leftRight, (exZeroLps K).diagonal0, (exZeroLps K).diagonal1], ∃ x, |x| ≤ 1000 ∧ ∀ y ∈ a.data, y = x := by
  constructor
  · intro a ha
    simp only [exZeroLps, List.mem_cons, List.not_mem_nil, or_false, or_self] at ha
    subst ha
    exact ⟨rfl, by simp⟩
  · intro a ha
    simp only [exZeroLps, List.mem_cons, List.not_mem_nil, or_false, or_self] at ha
    subst ha
    exact ⟨0, by norm_num, fun y hy => List.eq_of_mem_replicate hy⟩

theorem log_moderate {x : ℝ} (h : 1 / 10 ≤ x) (h1 : x ≤ 1) : |Real.log x| ≤ 1000 := by
  have hx : 0 < x := by linarith
  have a1 := Real.log_nonpos hx.le h1
  have a2 := Real.one_sub_inv_le_log_of_pos hx
  have a3 : x⁻¹ ≤ 10 := by
    rw [inv_le_comm₀ hx (by norm_num)]
    linarith
  rw [abs_le]
  constructor <;> linarith

/-- Non-vacuity of `C85_flat`, and **C85 refuted** without its condition on the numbers of clones: with two states of class 1, without preferences of the matrices, with the observation 0 at every pixel
that has probability 8/10 in class 1 and 1/10 in the others, class 1 has the probability 16/18 at every pixel, but class 0 is predicted everywhere. -/
theorem C85_refuted : ∃ (s : GmrfSetup Unit ℝ) (a : NDArr (Option ℝ)) (P : Nat → Nat → ℝ), gmrfSetup Unit 1 2 3 4 5 0 6 [1 / 10, 8 / 10, 1 / 10] [1, 2, 1] 2 2 = .ok s ∧
    gmrfMarginals realEnv s (exZeroLps 4) ⟨[2, 2], [0, 0, 0, 0]⟩ = .ok a ∧ HoldsPixels 2 2 4 a P ∧ (∀ c < 4, classProb 1 2 4 (P c) 1 = 16 / 18) ∧
    gmrfPredict a = .ok ⟨[2, 2], [0, 0, 0, 0]⟩ := by
  obtain ⟨s, e1, hrun⟩ := C85_flat (κ := Unit) (idV := 1) (idT := 2) (idL := 3) (idD := 4) (idE := 5) (by decide) 0 6 (fun c => if c = 1 then 8 / 10 else 1 / 10) (by
      intro c _
      split <;> norm_num) (by
      intro c _
      split <;> exact ⟨log_moderate (by norm_num) (by norm_num), log_moderate (by norm_num) (by norm_num)⟩)
    (k₀ := 1) (k₁ := 2) (k₂ := 1) (M := 2) (N := 2) (by norm_num) (by norm_num) (by norm_num) (by norm_num) realEnv rfl rfl (.inr (by norm_num))
  obtain ⟨a, m1, m2⟩ := hrun (exZeroLps 4) ⟨[2, 2], [0, 0, 0, 0]⟩ (exZero_facts 4).1 rfl rfl (exZero_facts 4).2
  have hobs : ∀ c < 4, ∀ t, observation (fun c => if c = 1 then (8 / 10 : ℝ) else 1 / 10) (([0, 0, 0, 0] : List ℝ).getD c 0) (cloneClass 1 2 t) = if cloneClass 1 2 t = 1 then 8 / 10 else 1 / 10 := by
    intro c hc t
    have : ([0, 0, 0, 0] : List ℝ).getD c 0 = 0 := by
      have : c = 0 ∨ c = 1 ∨ c = 2 ∨ c = 3 := by omega
      rcases this with rfl | rfl | rfl | rfl <;> rfl
    rw [this]
    simp [observation]
  have m2' : HoldsPixels 2 2 4 a (fun _ t => (if cloneClass 1 2 t = 1 then 8 / 10 else 1 / 10) / (18 / 10)) := by
    refine ⟨m2.1, m2.2.1, fun c hc t ht => ?_⟩
    rw [m2.2.2 c hc t ht]
    simp only [hobs c hc]
    norm_num [Finset.sum_range_succ, cloneClass]
  refine ⟨s, a, _, ?_, m1, m2', fun c hc => ?_, ?_⟩
  · rw [← e1]
    norm_num
  · unfold classProb
    rw [Finset.sum_filter]
    norm_num [Finset.sum_range_succ, cloneClass]
  · rw [gmrfPredict_eq (by norm_num) m2']
    norm_num [Finset.sum_range_succ, cloneClass, argmax, List.range_succ]

end PGMax
