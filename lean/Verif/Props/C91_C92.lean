import Verif.Props.C94 -- not used: evaluating the examples of both files at the same time needs much memory
import Verif.Lemmas.IsingSym

/-! # C91, C92: images of the Ising program for related evidence -/

namespace PGMax

variable {κ α : Type} [Field α] [LinearOrder α] [IsStrictOrderedRing α] [DecidableEq κ] {idV idF m n : Nat} {J : α}

omit [IsStrictOrderedRing α] in
theorem likelyImage_getD (o : Nat → Nat → α) {i j : Nat} (hi : i < m) (hj : j < n) : (likelyImage m n o).getD (i * n + j) 0 = if 0 < o i j then 1 else 0 := by
  have hlt : i * n + j < m * n := by
    have := Nat.mul_le_mul_right n (show i + 1 ≤ m from hi)
    rw [Nat.add_mul] at this
    omega
  unfold likelyImage
  rw [List.getD, List.getElem?_map, List.getElem?_range hlt, Nat.add_comm (i * n), Option.map_some, Option.getD_some, Nat.add_mul_div_right _ _ (by omega), Nat.add_mul_mod_self_right,
    Nat.div_eq_of_lt hj, Nat.mod_eq_of_lt hj, Nat.zero_add]

omit [IsStrictOrderedRing α] in
theorem torusOdds_congr {A : Nat → Nat → α} {e e' : Nat → Nat → α} (h : ∀ i < m, ∀ j < n, e i j = e' i j) (d : α) (t : Nat) :
    ∀ i < m, ∀ j < n, torusOdds m n A e d t i j = torusOdds m n A e' d t i j := by
  intro i hi j hj
  unfold torusOdds
  rw [(torusMsgs_congr h d t).odds e hi hj]
  unfold cellOdds
  rw [h i hi j hj]

/-- The sizes of the torus, the coupling and the float arithmetic for which the program runs. -/
def IsingOk (env : Env α) (m n : Nat) (J : α) : Prop :=
  1 ≤ m ∧ 1 ≤ n ∧ m * n ≤ 1000000000 ∧ (m ≠ 2 ∧ n ≠ 2 ∧ ¬ (m = 1 ∧ n = 1)) ∧ (env.wrapNeg = false ∨ 8 * (m * n) + 2 ≤ 100000) ∧ |J| ≤ 500

/-- Evidence for the cells of an `m` by `n` torus that is small enough. -/
def CellEvidence (m n : Nat) (E : List α) : Prop := E.length = m * n * 2 ∧ ∀ x ∈ E, |x| ≤ 45000

/-- The images of the program, cell by cell. -/
theorem ising_cells {env : Env α} (h : IsingOk env m n J) (garbage : Garbage) (stateId : Nat) :
    ∃ s, isingSetup κ idV idF garbage stateId m n J = .ok s ∧ ∀ (E : List α) (t : Nat), CellEvidence m n E → ∃ a, isingImage env s ⟨[m, n, 2], E⟩ t = .ok ⟨[m, n], a⟩ ∧
      ∀ i < m, ∀ j < n, a.getD (i * n + j) 0 = if 0 < torusOdds m n (coupling J) (imageOdds n E) (1 / 2) t i j then 1 else 0 := by
  obtain ⟨hm, hn, hs, hc, hsize, hJ⟩ := h
  obtain ⟨s, h1, h2⟩ := C90 (κ := κ) (idV := idV) (idF := idF) hm hn hs hc garbage stateId hsize hJ
  exact ⟨s, h1, fun E t hE => ⟨_, h2 E t hE.1 hE.2, fun i hi j hj => likelyImage_getD _ hi hj⟩⟩

theorem half_ok : (0 : α) ≤ 1 / 2 ∧ (1 / 2 : α) ≤ 1 := ⟨by norm_num, by norm_num⟩

/-- **C91.** If the coupling is not negative, more evidence for state 1 never turns a cell of the image off. -/
theorem C91 {env : Env α} (h : IsingOk env m n J) (hJ : 0 ≤ J) (garbage : Garbage) (stateId : Nat) :
    ∃ s, isingSetup κ idV idF garbage stateId m n J = .ok s ∧ ∀ (E E' : List α) (t : Nat), CellEvidence m n E → CellEvidence m n E' →
      (∀ i < m, ∀ j < n, imageOdds n E i j ≤ imageOdds n E' i j) → ∃ a a', isingImage env s ⟨[m, n, 2], E⟩ t = .ok ⟨[m, n], a⟩ ∧ isingImage env s ⟨[m, n, 2], E'⟩ t = .ok ⟨[m, n], a'⟩ ∧
        ∀ i < m, ∀ j < n, a.getD (i * n + j) 0 ≤ a'.getD (i * n + j) 0 := by
  obtain ⟨s, h1, h2⟩ := ising_cells (κ := κ) (idV := idV) (idF := idF) h garbage stateId
  refine ⟨s, h1, fun E E' t hE hE' hle => ?_⟩
  obtain ⟨a, h3, h4⟩ := h2 E t hE
  obtain ⟨a', h5, h6⟩ := h2 E' t hE'
  refine ⟨a, a', h3, h5, fun i hi j hj => ?_⟩
  have := torusOdds_mono hJ half_ok hle t i hi j hj
  rw [h4 i hi j hj, h6 i hi j hj]
  split_ifs with p q
  · exact le_rfl
  · exact absurd (p.trans_le this) q
  · exact Nat.zero_le _
  · exact le_rfl

/-- **C91, evidence for one state.** If no cell has evidence for state 0, the cells with evidence for state 1 are on; if no cell has evidence for state 1, all cells are off. -/
theorem C91_keep {env : Env α} (h : IsingOk env m n J) (hJ : 0 ≤ J) (garbage : Garbage) (stateId : Nat) :
    ∃ s, isingSetup κ idV idF garbage stateId m n J = .ok s ∧ ∀ (E : List α) (t : Nat), CellEvidence m n E → ∃ a, isingImage env s ⟨[m, n, 2], E⟩ t = .ok ⟨[m, n], a⟩ ∧
      ((∀ i < m, ∀ j < n, 0 ≤ imageOdds n E i j) → ∀ i < m, ∀ j < n, 0 < imageOdds n E i j → a.getD (i * n + j) 0 = 1) ∧
      ((∀ i < m, ∀ j < n, imageOdds n E i j ≤ 0) → ∀ i < m, ∀ j < n, a.getD (i * n + j) 0 = 0) := by
  obtain ⟨s, h1, h2⟩ := ising_cells (κ := κ) (idV := idV) (idF := idF) h garbage stateId
  refine ⟨s, h1, fun E t hE => ?_⟩
  obtain ⟨a, h3, h4⟩ := h2 E t hE
  have hz := torusMsgs_neg (m := m) (n := n) (J := J) (e := fun _ _ => 0) (1 / 2) t
  simp only [neg_zero] at hz
  have hself : ∀ x : α, x = -x → x = 0 := fun x hx => by linarith
  have z1 : ∀ i j, (torusMsgs m n (coupling J) (fun _ _ => 0) (1 / 2) t).up i j = 0 := fun i j => hself _ (congrFun (congrFun (congrArg TorusMsgs.up hz) i) j)
  have z2 : ∀ i j, (torusMsgs m n (coupling J) (fun _ _ => 0) (1 / 2) t).down i j = 0 := fun i j => hself _ (congrFun (congrFun (congrArg TorusMsgs.down hz) i) j)
  have z3 : ∀ i j, (torusMsgs m n (coupling J) (fun _ _ => 0) (1 / 2) t).left i j = 0 := fun i j => hself _ (congrFun (congrFun (congrArg TorusMsgs.left hz) i) j)
  have z4 : ∀ i j, (torusMsgs m n (coupling J) (fun _ _ => 0) (1 / 2) t).right i j = 0 := fun i j => hself _ (congrFun (congrFun (congrArg TorusMsgs.right hz) i) j)
  refine ⟨a, h3, fun hp i hi j hj hpos => ?_, fun hle i hi j hj => ?_⟩
  · have hM := torusMsgs_mono (e := fun _ _ => 0) hJ half_ok hp t
    have k1 := hM.up i hi j hj
    have k2 := hM.down ((i + (m - 1)) % m) (Nat.mod_lt _ (by omega)) j hj
    have k3 := hM.left i hi j hj
    have k4 := hM.right i hi ((j + (n - 1)) % n) (Nat.mod_lt _ (by omega))
    rw [z1] at k1
    rw [z2] at k2
    rw [z3] at k3
    rw [z4] at k4
    rw [h4 i hi j hj, if_pos]
    unfold torusOdds cellOdds
    linarith
  · have := torusOdds_mono (e' := fun _ _ => 0) hJ half_ok hle t i hi j hj
    rw [h4 i hi j hj, if_neg]
    refine not_lt.2 (this.trans ?_)
    unfold torusOdds cellOdds
    rw [z1, z2, z3, z4]
    simp

/-- **C91, strong evidence.** A cell with evidence of more than eight couplings for a state gets this state, for any coupling and any evidence of the others. -/
theorem C91_strong {env : Env α} (h : IsingOk env m n J) (garbage : Garbage) (stateId : Nat) :
    ∃ s, isingSetup κ idV idF garbage stateId m n J = .ok s ∧ ∀ (E : List α) (t : Nat), CellEvidence m n E → ∃ a, isingImage env s ⟨[m, n, 2], E⟩ t = .ok ⟨[m, n], a⟩ ∧
      ∀ i < m, ∀ j < n, (8 * |J| < imageOdds n E i j → a.getD (i * n + j) 0 = 1) ∧ (imageOdds n E i j ≤ -(8 * |J|) → a.getD (i * n + j) 0 = 0) := by
  obtain ⟨s, h1, h2⟩ := ising_cells (κ := κ) (idV := idV) (idF := idF) h garbage stateId
  refine ⟨s, h1, fun E t hE => ?_⟩
  obtain ⟨a, h3, h4⟩ := h2 E t hE
  refine ⟨a, h3, fun i hi j hj => ?_⟩
  have := abs_le.1 (torusOdds_near (m := m) (n := n) (J := J) (e := imageOdds n E) half_ok t i j)
  rw [h4 i hi j hj]
  exact ⟨fun hp => if_pos (by linarith [this.1]), fun hp => if_neg (by linarith [this.2])⟩

/-- **C92, states.** If the evidence for the two states is exchanged, no cell is on in both images, and a cell is off in both only if its log odds are zero. -/
theorem C92_states {env : Env α} (h : IsingOk env m n J) (garbage : Garbage) (stateId : Nat) :
    ∃ s, isingSetup κ idV idF garbage stateId m n J = .ok s ∧ ∀ (E E' : List α) (t : Nat), CellEvidence m n E → CellEvidence m n E' →
      (∀ i < m, ∀ j < n, imageOdds n E' i j = -imageOdds n E i j) → ∃ a a', isingImage env s ⟨[m, n, 2], E⟩ t = .ok ⟨[m, n], a⟩ ∧ isingImage env s ⟨[m, n, 2], E'⟩ t = .ok ⟨[m, n], a'⟩ ∧
        ∀ i < m, ∀ j < n, a.getD (i * n + j) 0 + a'.getD (i * n + j) 0 ≤ 1 ∧
          (torusOdds m n (coupling J) (imageOdds n E) (1 / 2) t i j ≠ 0 → a.getD (i * n + j) 0 + a'.getD (i * n + j) 0 = 1) := by
  obtain ⟨s, h1, h2⟩ := ising_cells (κ := κ) (idV := idV) (idF := idF) h garbage stateId
  refine ⟨s, h1, fun E E' t hE hE' heq => ?_⟩
  obtain ⟨a, h3, h4⟩ := h2 E t hE
  obtain ⟨a', h5, h6⟩ := h2 E' t hE'
  refine ⟨a, a', h3, h5, fun i hi j hj => ?_⟩
  rw [h4 i hi j hj, h6 i hi j hj, torusOdds_congr heq _ _ i hi j hj, torusOdds_neg]
  rcases lt_trichotomy (torusOdds m n (coupling J) (imageOdds n E) (1 / 2) t i j) 0 with h | h | h
  · rw [if_neg (not_lt.2 h.le), if_pos (by linarith)]
    exact ⟨by omega, fun _ => by omega⟩
  · rw [h, neg_zero, if_neg (lt_irrefl _)]
    exact ⟨by omega, fun h => absurd rfl h⟩
  · rw [if_pos h, if_neg (by linarith)]
    exact ⟨by omega, fun _ => by omega⟩

/-- **C92, shifts.** If the evidence is shifted along the torus, the image is shifted. -/
theorem C92_shift {env : Env α} (h : IsingOk env m n J) (garbage : Garbage) (stateId : Nat) :
    ∃ s, isingSetup κ idV idF garbage stateId m n J = .ok s ∧ ∀ (E E' : List α) (t p q : Nat), CellEvidence m n E → CellEvidence m n E' →
      (∀ i < m, ∀ j < n, imageOdds n E' i j = imageOdds n E ((i + p) % m) ((j + q) % n)) → ∃ a a', isingImage env s ⟨[m, n, 2], E⟩ t = .ok ⟨[m, n], a⟩ ∧
        isingImage env s ⟨[m, n, 2], E'⟩ t = .ok ⟨[m, n], a'⟩ ∧ ∀ i < m, ∀ j < n, a'.getD (i * n + j) 0 = a.getD ((i + p) % m * n + (j + q) % n) 0 := by
  obtain ⟨s, h1, h2⟩ := ising_cells (κ := κ) (idV := idV) (idF := idF) h garbage stateId
  refine ⟨s, h1, fun E E' t p q hE hE' heq => ?_⟩
  obtain ⟨a, h3, h4⟩ := h2 E t hE
  obtain ⟨a', h5, h6⟩ := h2 E' t hE'
  refine ⟨a, a', h3, h5, fun i hi j hj => ?_⟩
  rw [h6 i hi j hj, h4 _ (Nat.mod_lt _ (by omega)) _ (Nat.mod_lt _ (by omega)), torusOdds_congr heq _ _ i hi j hj, torusOdds_shift]

/-- **C92, transposition.** If rows and columns of the torus and of the evidence are exchanged, those of the image are. -/
theorem C92_transpose {env : Env α} (h : IsingOk env m n J) (garbage garbage' : Garbage) (stateId stateId' : Nat) {idV' idF' : Nat} :
    ∃ s s', isingSetup κ idV idF garbage stateId m n J = .ok s ∧ isingSetup κ idV' idF' garbage' stateId' n m J = .ok s' ∧ ∀ (E E' : List α) (t : Nat), CellEvidence m n E → CellEvidence n m E' →
      (∀ i < m, ∀ j < n, imageOdds m E' j i = imageOdds n E i j) → ∃ a a', isingImage env s ⟨[m, n, 2], E⟩ t = .ok ⟨[m, n], a⟩ ∧
        isingImage env s' ⟨[n, m, 2], E'⟩ t = .ok ⟨[n, m], a'⟩ ∧ ∀ i < m, ∀ j < n, a'.getD (j * m + i) 0 = a.getD (i * n + j) 0 := by
  obtain ⟨s, h1, h2⟩ := ising_cells (κ := κ) (idV := idV) (idF := idF) h garbage stateId
  have h' : IsingOk env n m J := by
    obtain ⟨q1, q2, q3, ⟨q4, q5, q6⟩, q7, q8⟩ := h
    rw [Nat.mul_comm m n] at q3 q7
    exact ⟨q2, q1, q3, ⟨q5, q4, by omega⟩, q7, q8⟩
  obtain ⟨s', h1', h2'⟩ := ising_cells (κ := κ) (idV := idV') (idF := idF') h' garbage' stateId'
  refine ⟨s, s', h1, h1', fun E E' t hE hE' heq => ?_⟩
  obtain ⟨a, h3, h4⟩ := h2 E t hE
  obtain ⟨a', h5, h6⟩ := h2' E' t hE'
  refine ⟨a, a', h3, h5, fun i hi j hj => ?_⟩
  rw [h6 j hj i hi, h4 i hi j hj, torusOdds_congr (e' := fun j i => imageOdds n E i j) (fun j hj i hi => heq i hi j hj) _ _ j hj i hi, torusOdds_transpose (e := imageOdds n E)]

/-- **C92, antiferromagnets.** On a torus with even numbers of rows and columns, the coupling `-J` with the evidence exchanged for every second cell gives the same image on the other cells, and the
image of the opposite states on these. -/
theorem C92_checker {env : Env α} (h : IsingOk env m n J) (hm : m % 2 = 0) (hn : n % 2 = 0) (garbage garbage' : Garbage) (stateId stateId' : Nat) {idV' idF' : Nat} :
    ∃ s s', isingSetup κ idV idF garbage stateId m n J = .ok s ∧ isingSetup κ idV' idF' garbage' stateId' m n (-J) = .ok s' ∧ ∀ (E E' : List α) (t : Nat), CellEvidence m n E → CellEvidence m n E' →
      (∀ i < m, ∀ j < n, imageOdds n E' i j = checker i j * imageOdds n E i j) → ∃ a a', isingImage env s ⟨[m, n, 2], E⟩ t = .ok ⟨[m, n], a⟩ ∧
        isingImage env s' ⟨[m, n, 2], E'⟩ t = .ok ⟨[m, n], a'⟩ ∧ ∀ i < m, ∀ j < n, ((i + j) % 2 = 0 → a'.getD (i * n + j) 0 = a.getD (i * n + j) 0) ∧
          ((i + j) % 2 = 1 → torusOdds m n (coupling J) (imageOdds n E) (1 / 2) t i j ≠ 0 → a'.getD (i * n + j) 0 + a.getD (i * n + j) 0 = 1) := by
  obtain ⟨s, h1, h2⟩ := ising_cells (κ := κ) (idV := idV) (idF := idF) h garbage stateId
  have h' : IsingOk env m n (-J) := by
    obtain ⟨q1, q2, q3, q4, q7, q8⟩ := h
    exact ⟨q1, q2, q3, q4, q7, by rwa [abs_neg]⟩
  obtain ⟨s', h1', h2'⟩ := ising_cells (κ := κ) (idV := idV') (idF := idF') h' garbage' stateId'
  refine ⟨s, s', h1, h1', fun E E' t hE hE' heq => ?_⟩
  obtain ⟨a, h3, h4⟩ := h2 E t hE
  obtain ⟨a', h5, h6⟩ := h2' E' t hE'
  refine ⟨a, a', h3, h5, fun i hi j hj => ?_⟩
  rw [h6 i hi j hj, h4 i hi j hj, torusOdds_congr heq _ _ i hi j hj, torusOdds_checker hm hn _ _ i hi j hj]
  refine ⟨fun hc => ?_, fun hc hne => ?_⟩
  · rw [show (checker i j : α) = 1 from if_pos hc, one_mul]
  · rw [show (checker i j : α) = -1 from if_neg (by omega)]
    rcases lt_or_gt_of_ne hne with h | h
    · rw [if_pos (by linarith), if_neg (not_lt.2 h.le)]
    · rw [if_neg (by linarith), if_pos h]

/-- Non-vacuity: the sizes and evidence of a 4 by 4 torus; the image for one strong cell, for the exchanged states, and for the antiferromagnet. -/
example : IsingOk exEnv 4 4 (1 : ℚ) ∧ CellEvidence 4 4 (0 :: 9 :: List.replicate 30 (0 : ℚ)) ∧ CellEvidence 4 4 (9 :: 0 :: List.replicate 30 (0 : ℚ)) ∧ (0 : ℚ) ≤ 1 ∧
    8 * |(1 : ℚ)| < imageOdds 4 (0 :: 9 :: List.replicate 30 (0 : ℚ)) 0 0 := by
  refine ⟨⟨by decide, by decide, by decide, by decide, .inr (by decide), by norm_num⟩, ⟨by decide, ?_⟩, ⟨by decide, ?_⟩, by norm_num, by decide +kernel⟩
  · decide +kernel
  · decide +kernel

/-- What is decoded for these inputs after two iterations; the last one has the other sign of the coupling. -/
example : ((isingSetup Nat 2000000000 1 (fun _ _ => 0) 5 4 4 (1 : ℚ)).bind (fun s => (isingImage exEnv s ⟨[4, 4, 2], 0 :: 9 :: List.replicate 30 0⟩ 2).map (fun a => a.data))).toOption =
    some [1, 1, 1, 1, 1, 1, 0, 1, 1, 0, 0, 0, 1, 1, 0, 1] := by
  decide +kernel

example : ((isingSetup Nat 2000000000 1 (fun _ _ => 0) 5 4 4 (1 : ℚ)).bind (fun s => (isingImage exEnv s ⟨[4, 4, 2], 9 :: 0 :: List.replicate 30 0⟩ 2).map (fun a => a.data))).toOption =
    some (List.replicate 16 0) := by
  decide +kernel

example : ((isingSetup Nat 2000000000 1 (fun _ _ => 0) 5 4 4 (-1 : ℚ)).bind (fun s => (isingImage exEnv s ⟨[4, 4, 2], 0 :: 9 :: List.replicate 30 0⟩ 2).map (fun a => a.data))).toOption =
    some [1, 0, 1, 0, 0, 1, 0, 1, 1, 0, 0, 0, 0, 1, 0, 1] := by
  decide +kernel

end PGMax
