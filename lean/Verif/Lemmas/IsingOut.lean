import Verif.Lemmas.IsingRun
import Verif.Lemmas.Gmrf

/-! # What the Ising program decodes, and its loss -/

namespace PGMax

variable {κ α : Type} [Field α] [LinearOrder α] {idV idF m n : Nat} {J : α} {s : IsingSetup κ α} {garbage : Garbage} {st : FGState κ α} {E : List α} {arrs : BPArrays α} {A : Nat → Nat → α}

theorem ising_groups (hm : 1 ≤ m) (hn : 1 ≤ n) : (∀ g ∈ iVgs κ idV m n, g.Regular) ∧ ∀ g ∈ iVgs κ idV m n, g.Stated := by
  have hp := Nat.mul_le_mul hm hn
  unfold iVgs
  simp only [List.mem_cons, List.not_mem_nil, or_false, forall_eq]
  constructor
  · intro hsum
    simp only [uniArr, List.sum_replicate, List.length_replicate, List.prod_cons, List.prod_nil, Nat.mul_one, smul_eq_mul] at hsum
    omega
  · refine ⟨fun k hk => ?_, 2, ?_, by omega⟩
    · have := (List.mem_replicate.1 hk).2
      omega
    · simp only [uniArr, List.prod_cons, List.prod_nil, Nat.mul_one]
      exact List.mem_replicate.2 ⟨by omega, rfl⟩

theorem withBot_sum {β : Type _} [AddCommMonoid β] (l : List β) : (l.map WithBot.some).sum = WithBot.some l.sum := by
  induction l with
  | nil => rfl
  | cons x l ih =>
    rw [List.map_cons, List.sum_cons, List.sum_cons, ih]
    rfl

theorem sum_pairs {β : Type _} [AddCommMonoid β] (k : Nat) (f : Nat → β) : ∑ q ∈ Finset.range (k * 2), f q = ∑ c ∈ Finset.range k, (f (c * 2) + f (c * 2 + 1)) := by
  induction k with
  | zero => simp
  | succ k ih => rw [Finset.sum_range_succ, ← ih, show (k + 1) * 2 = k * 2 + 1 + 1 by omega, Finset.sum_range_succ, Finset.sum_range_succ, add_assoc]

theorem sum_cells {β : Type _} [AddCommMonoid β] (m n : Nat) (f : Nat → β) : ∑ c ∈ Finset.range (m * n), f c = ∑ i ∈ Finset.range m, ∑ j ∈ Finset.range n, f (i * n + j) := by
  induction m with
  | zero => simp
  | succ k ih => rw [Finset.sum_range_succ, ← ih, Nat.add_mul, Nat.one_mul, Finset.sum_range_add]

theorem sum_rotate {β : Type _} [AddCommMonoid β] (m : Nat) (f : Nat → β) : ∑ i ∈ Finset.range m, f ((i + (m - 1)) % m) = ∑ i ∈ Finset.range m, f i := by
  refine Finset.sum_nbij' (fun i => (i + (m - 1)) % m) (fun i => (i + 1) % m) ?_ ?_ ?_ ?_ ?_
  · intro i hi
    rw [Finset.mem_range] at hi ⊢
    exact Nat.mod_lt _ (by omega)
  · intro i hi
    rw [Finset.mem_range] at hi ⊢
    exact Nat.mod_lt _ (by omega)
  · intro i hi
    exact mod_next (Finset.mem_range.1 hi)
  · intro i hi
    exact mod_prev (Finset.mem_range.1 hi)
  · intro i hi
    rfl

variable [IsStrictOrderedRing α] [DecidableEq κ]

theorem IsingBuilt.decode (h : IsingBuilt idV idF m n J s garbage st) {env : Env α} (hsize : env.wrapNeg = false ∨ 8 * (m * n) + 2 ≤ 100000)
    (hi : IsingInit idV m n A E st arrs) {c : α} (hA : ∀ s < 2, ∀ t < 2, |A s t| ≤ c) (hc : c ≤ 500)
    (hE : ∀ x ∈ E, |x| ≤ 45000) {d : α} (hd : 0 ≤ d ∧ d ≤ 1) (t : Nat) :
    ∃ bs, s.bp.getBeliefs (s.bp.runBP env arrs t d) = .ok bs ∧ decodeMapStates bs = .ok [(.arr s.vars, .arr ⟨[m, n], likelyImage m n (torusOdds m n A (imageOdds n E) d t)⟩)] := by
  obtain ⟨state, hbp, -⟩ := h.bp
  obtain ⟨b1, M, b2, -, b3⟩ := h.run hsize hi hA hc hE hd t
  have hre : (s.bp.runBP env arrs t d).evidence = arrs.evidence := runBP_evidence ..
  obtain ⟨bs, rs, e1, e2, e3, e4⟩ := C35_partial h.compiled hbp (s.bp.runBP env arrs t d) b1 (by rw [hre]; exact hi.len) (ising_groups h.rows h.cols).1 (ising_groups h.rows h.cols).2
  refine ⟨bs, e1, ?_⟩
  rw [e2]
  rw [hre] at e4
  match rs, e3, e4 with
  | [], e3, _ => simp [iVgs] at e3
  | _ :: _ :: _, e3, _ => simp [iVgs] at e3
  | [(g, r)], e3, e4 =>
    obtain rfl : g = .arr (uniArr idV [m, n] 2) := by simpa [iVgs] using e3
    rw [h.vars]
    have hr := e4 (.arr (uniArr idV [m, n] 2), r) (by simp)
    cases r with
    | dict => exact hr.elim
    | arr r =>
      obtain ⟨r1, r2, r3⟩ := hr
      obtain ⟨sh, dat⟩ := r
      have r1 : sh = [m, n] := r1
      subst r1
      have hl : dat.length = m * n := by simpa [NDArr.WF] using r2
      congr 5
      apply List.ext_getElem?
      intro k
      by_cases hk : k < m * n
      · obtain ⟨j, h1, h2⟩ := r3 k (gPix idV 2 k) (uniArr_getElem hk)
        obtain ⟨g1, g2, g3⟩ := gPix_eq (idV := idV) (K := 2) hk
        rw [g1] at h2
        rw [h1, firstMax_two (o := torusOdds m n A (imageOdds n E) d t (k / n) (k % n)) (by
          rw [show gCell idV m n 2 (k / n) (k % n) = isingCell idV m n (k / n) (k % n) from rfl, b3 _ g2 _ g3 1 (by omega), b3 _ g2 _ g3 0 (by omega)]
          unfold torusOdds
          rw [← b2.odds (imageOdds n E) g2 g3]
          simp only [cellOdds, torusOf, oddsOf, imageOdds, Nat.add_zero]
          ring) h2]
        simp [likelyImage, hk]
      · rw [List.getElem?_eq_none (by omega), List.getElem?_eq_none (by simp [likelyImage]; omega)]

theorem IsingBuilt.loss (h : IsingBuilt idV idF m n J s garbage st) {env : Env α} (hsize : env.wrapNeg = false ∨ 8 * (m * n) + 2 ≤ 100000)
    (hi : IsingInit idV m n A E st arrs) {c : α} (hA : ∀ s < 2, ∀ t < 2, |A s t| ≤ c) (hc : c ≤ 500)
    (hl : E.length = m * n * 2) (hE : ∀ x ∈ E, |x| ≤ 45000) {d : α} (hd : 0 ≤ d ∧ d ≤ 1) (t : Nat) :
    ∃ a, s.bp.getBeliefs (s.bp.runBP env arrs t d) = .ok [(.arr s.vars, .arr a)] ∧ negSum a = some (totalOdds m n (torusMsgs m n A (imageOdds n E) d t) - E.sum) := by
  obtain ⟨state, hbp, -⟩ := h.bp
  obtain ⟨b1, M, b2, b4, b3⟩ := h.run hsize hi hA hc hE hd t
  have hre : (s.bp.runBP env arrs t d).evidence = arrs.evidence := runBP_evidence ..
  obtain ⟨bs, e1, e2, e3⟩ := C34_partial h.compiled hbp (s.bp.runBP env arrs t d) b1 (by rw [hre]; exact hi.len) (ising_groups h.rows h.cols).1
  rw [hre] at e3
  rw [e1]
  match bs, e2, e3 with
  | [], e2, _ => simp [iVgs] at e2
  | _ :: _ :: _, e2, _ => simp [iVgs] at e2
  | [(g, r)], e2, e3 =>
    obtain rfl : g = .arr (uniArr idV [m, n] 2) := by simpa [iVgs] using e2
    rw [h.vars]
    have hr := e3 (.arr (uniArr idV [m, n] 2), r) (by simp)
    cases r with
    | dict => exact hr.elim
    | arr a =>
      refine ⟨a, rfl, ?_⟩
      obtain ⟨w, w1, w2, w3, w4⟩ := hr
      have hpos := Nat.mul_le_mul h.rows h.cols
      have hw : w = 2 := by
        have := w1.2 (by simp only [uniArr, ne_eq, List.replicate_eq_nil_iff, List.prod_cons, List.prod_nil, Nat.mul_one]; omega)
        exact (List.mem_replicate.1 this).2
      subst hw
      have w3 : a.shape = [m, n, 2] := by
        rcases w3 with w3 | ⟨-, w3⟩
        · exact w3
        · omega
      have hal : a.data.length = m * n * 2 := by
        have := w2
        unfold NDArr.WF at this
        rw [w3] at this
        simpa [Nat.mul_assoc] using this
      set B := beliefOf (graphOf (iVgs κ idV m n) [.one (isingGroup idV idF m n J)]).allScopes (readEv st.varsToStarts arrs.evidence)
        (readMsgs (graphOf (iVgs κ idV m n) [.one (isingGroup idV idF m n J)]).allScopes (s.bp.runBP env arrs t d).ftovMsgs) with hB
      have hdat : a.data = ((List.range (m * n * 2)).map (fun q => B (gPix idV 2 (q / 2)) (q % 2))).map WithBot.some := by
        apply List.ext_getElem?
        intro q
        by_cases hq : q < m * n * 2
        · have := w4 (q / 2) (gPix idV 2 (q / 2)) (q % 2) (uniArr_getElem (by omega)) (by omega)
          rw [Nat.div_add_mod' q 2, if_pos (by rw [(gPix_eq (idV := idV) (K := 2) (M := m) (N := n) (c := q / 2) (by omega)).1]; exact Nat.mod_lt _ (by omega))] at this
          rw [this]
          simp [hq]
        · rw [List.getElem?_eq_none (by omega), List.getElem?_eq_none (by simp; omega)]
      unfold negSum
      rw [hdat, withBot_sum, range_sum, sum_pairs, sum_cells]
      show some _ = some _
      congr 1
      have hEs : E.sum = ∑ i ∈ Finset.range m, ∑ j ∈ Finset.range n, (E.getD ((i * n + j) * 2) 0 + E.getD ((i * n + j) * 2 + 1) 0) := by
        conv_lhs => rw [list_eq_range E 0]
        rw [hl, range_sum, sum_pairs, sum_cells]
      have hBs : ∀ i ∈ Finset.range m, ∀ j ∈ Finset.range n, B (gPix idV 2 ((i * n + j) * 2 / 2)) ((i * n + j) * 2 % 2) + B (gPix idV 2 (((i * n + j) * 2 + 1) / 2)) (((i * n + j) * 2 + 1) % 2) =
          (E.getD ((i * n + j) * 2) 0 + E.getD ((i * n + j) * 2 + 1) 0) - (|(torusMsgs m n A (imageOdds n E) d t).up i j| + |(torusMsgs m n A (imageOdds n E) d t).left i j|
            + |(torusMsgs m n A (imageOdds n E) d t).down ((i + (m - 1)) % m) j| + |(torusMsgs m n A (imageOdds n E) d t).right i ((j + (n - 1)) % n)|) := by
        intro i hi j hj
        rw [Finset.mem_range] at hi hj
        have hlt : i * n + j < m * n := by
          have := Nat.mul_le_mul_right n (show i + 1 ≤ m from hi)
          rw [Nat.add_mul] at this
          omega
        have g1 : gPix idV 2 (i * n + j) = isingCell idV m n i j := by
          rw [(gPix_eq (idV := idV) (K := 2) hlt).1, Nat.add_comm (i * n), Nat.add_mul_div_right _ _ (by omega), Nat.add_mul_mod_self_right, Nat.div_eq_of_lt hj, Nat.mod_eq_of_lt hj, Nat.zero_add]
        have hi' : (i + (m - 1)) % m < m := Nat.mod_lt _ (by omega)
        have hj' : (j + (n - 1)) % n < n := Nat.mod_lt _ (by omega)
        rw [show (i * n + j) * 2 / 2 = i * n + j by omega, show ((i * n + j) * 2 + 1) / 2 = i * n + j by omega, show (i * n + j) * 2 % 2 = 0 by omega,
          show ((i * n + j) * 2 + 1) % 2 = 1 by omega, g1, b3 i hi j hj 0 (by omega), b3 i hi j hj 1 (by omega), ← b2.up i hi j hj, ← b2.left i hi j hj, ← b2.down _ hi' j hj, ← b2.right i hi _ hj']
        have t1 := (b4 i hi j hj 0 (by omega)).1
        have t2 := (b4 i hi j hj 0 (by omega)).2
        have t3 := (b4 _ hi' j hj 1 (by omega)).1
        have t4 := (b4 i hi _ hj' 1 (by omega)).2
        simp only [torusOf, Nat.add_zero]
        linear_combination t1 + t2 + t3 + t4
      rw [Finset.sum_congr rfl fun i hi => Finset.sum_congr rfl fun j hj => hBs i hi j hj, hEs]
      simp only [Finset.sum_sub_distrib, Finset.sum_add_distrib, totalOdds]
      rw [sum_rotate m (fun i => ∑ j ∈ Finset.range n, |(torusMsgs m n A (imageOdds n E) d t).down i j|),
        Finset.sum_congr rfl fun i _ => sum_rotate n (fun j => |(torusMsgs m n A (imageOdds n E) d t).right i j|)]
      ring

end PGMax
