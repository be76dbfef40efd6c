import Verif.Lemmas.CutsRun
import Verif.Spec.Dominant
import Mathlib.Tactic.IntervalCases

/-! # C101: the program that labels the cuts of a depth image -/

namespace PGMax

variable {α : Type}

/-- **C101.** The program runs exactly if the suppression diameter is smaller than both sides of the image (and there are at most `10 ^ 9` variables in the
array); otherwise it raises a ValueError. -/
theorem C101_inputs [Zero α] {idG idE : Nat} (idV idH : Nat) (idF : Nat → Nat) {M N D : Nat} (hid : idG % 2 ^ 32 ≠ idE % 2 ^ 32) (hM : 1 ≤ M) (hN : 1 ≤ N) (hD : 1 ≤ D) :
    ((∃ r : Cuts α, cuts idG idE idV idH idF M N D = .ok r) ↔ D < M ∧ D < N ∧ 2 * ((M - 1) * (N - 1)) ≤ 1000000000) ∧
    (¬ (D < M ∧ D < N ∧ 2 * ((M - 1) * (N - 1)) ≤ 1000000000) → (cuts idG idE idV idH idF M N D : Py (Cuts α)) = .error .valueError) := by
  have herr : ¬ (D < M ∧ D < N ∧ 2 * ((M - 1) * (N - 1)) ≤ 1000000000) → (cuts idG idE idV idH idF M N D : Py (Cuts α)) = .error .valueError :=
    fun h => cuts_error idG idE idV idH idF hD hM hN (fun hs => h hs.2)
  refine ⟨⟨fun ⟨r, hr⟩ => ?_, fun h => ?_⟩, herr⟩
  · by_contra hn
    rw [herr hn] at hr
    cases hr
  · obtain ⟨fg, -, e⟩ := cuts_inputs (α := α) (idV := idV) (idH := idH) (idF := idF) hid (show CutSizes M N D from ⟨hD, h⟩)
    exact ⟨_, e⟩

theorem cutVars_of {idG idE M N D : Nat} (hid : idG % 2 ^ 32 ≠ idE % 2 ^ 32) (hs : CutSizes M N D) :
    CutVars (uniArr idG [2, M - 1, N - 1] 3) (cutDict idE M N) M N (cutVar idG idE M N) where
  grid := fun i r c hi hr hc => cut_grid idG idE hi (by omega) (by omega)
  extra := fun q hq hn => by
    obtain ⟨-, h | ⟨h, -⟩⟩ := isCut_cases hq
    · exact absurd h (by omega)
    · exact cut_dict idG idE h
  states := fun q _ => cutVar_n _ _ _ _ q
  inj := fun p q hp hq e => cutVar_inj hid hs hp hq e
  vars := fun v => cut_mem (by have := hs.1; have := hs.2.1; omega) (by have := hs.1; have := hs.2.2.1; omega)

theorem cutFactors_zero [Zero α] {idG idE M N D : Nat} : ∀ F ∈ cutFactors α idG idE M N D, ∀ r ∈ F.rows, r.2 = 0 := by
  intro F hF r hr
  simp only [cutFactors, List.mem_append, List.mem_map] at hF
  rcases hF with ⟨p, -, rfl⟩ | ⟨p, -, rfl⟩ | ⟨p, -, rfl⟩ <;> exact (mem_cutTable.1 hr).2

/-- **C101.** The joint assignments of the program's graph are exactly the labellings in which at every point where four cuts meet there is no cut, a line that goes straight through with at most one line that ends there,
or a line that turns by a right angle, and in which parallel cuts less than the diameter apart are not both labelled; the score of a labelling is the sum of the evidence of its labels. -/
theorem C101_model [AddCommMonoid α] [LinearOrder α] {idG idE idV idH : Nat} {idF : Nat → Nat} {M N D : Nat} (hid : idG % 2 ^ 32 ≠ idE % 2 ^ 32)
    (hF : ((List.range ((M - 1) * (N - 1))).map idF ++ [idV, idH]).Nodup) (hD : 1 ≤ D) (hM : 1 ≤ M) (hN : 1 ≤ N) {r : Cuts α}
    (hr : cuts idG idE idV idH idF M N D = .ok r) (garbage : Garbage) :
    ∃ cut hist st, CutVars r.grid r.extra M N cut ∧ graphOf [.arr r.grid, .dict r.extra] hist = r.fg ∧ Compiled [.arr r.grid, .dict r.extra] hist garbage st ∧
      r.fg.allScopes.length = (M - 1) * (N - 1) + (N * (M - D) + M * (N - D)) ∧
      ∀ x : Var → Nat, ((∃ ρ, Joint (graphVars [.arr r.grid, .dict r.extra]) (r.fg.factors st.logPotentials) x ρ) ↔ CutLabelling M N D (fun q => x (cut q))) ∧
        ∀ ρ, Joint (graphVars [.arr r.grid, .dict r.extra]) (r.fg.factors st.logPotentials) x ρ → ∀ ev : Var → Nat → α,
          jointScore (graphVars [.arr r.grid, .dict r.extra]) (r.fg.factors st.logPotentials) ev x ρ = ∑ q ∈ allCuts M N, ev (cut q) (x (cut q)) := by
  have hs : CutSizes M N D := ⟨hD, ((C101_inputs idV idH idF hid hM hN hD).1.1 ⟨r, hr⟩)⟩
  obtain ⟨hg, he, hist, st, h1, h2, h3, -, -, -, h4⟩ := cuts_build hid hF hs hr garbage
  refine ⟨cutVar idG idE M N, hist, st, ?_, h1, h2, ?_, fun x => ⟨?_, fun ρ hρ ev => ?_⟩⟩
  · rw [hg, he]; exact cutVars_of hid hs
  · rw [h3]
    simp [cutScopes, grid, List.length_flatMap]
  · rw [joint_exists_iff, h4, hg, he]
    exact cut_tables hs x
  · rw [h4] at hρ ⊢
    rw [jointScore_zero hρ cutFactors_zero, hg, he]
    exact cut_sum hid hs _

/-! ### Crossings and depths -/

theorem label_lt [LT α] {w : Nat} {a b : α} (h : LabelOf w a b) : w < 3 := by
  rcases h with ⟨rfl, -⟩ | ⟨rfl, -⟩ | ⟨rfl, -⟩ <;> omega

/-- **C101.** The labels that the depths of four pixels give to the four cuts between them are allowed by the table of the program exactly if two neighbours among the four have equal depth, but never a depth strictly
between those of the other two. -/
theorem C101_crossing [LinearOrder α] {a b c d : α} {l t r e : Nat} (hl : LabelOf l a c) (ht : LabelOf t a b) (hr : LabelOf r b d) (he : LabelOf e c d) :
    CrossingOk l t r e ↔ PlainCorner a b c d := by
  unfold PlainCorner StrictlyBetween
  have k : ∀ {u v : α}, u < v → (u < v ∧ ¬ v < u) ∧ u ≠ v ∧ v ≠ u := fun h => ⟨⟨h, h.not_gt⟩, h.ne, h.ne'⟩
  rcases hl with ⟨rfl, hl⟩ | ⟨rfl, hl⟩ | ⟨rfl, hl⟩ <;> rcases ht with ⟨rfl, ht⟩ | ⟨rfl, ht⟩ | ⟨rfl, ht⟩ <;>
    rcases hr with ⟨rfl, hr⟩ | ⟨rfl, hr⟩ | ⟨rfl, hr⟩ <;> rcases he with ⟨rfl, he⟩ | ⟨rfl, he⟩ | ⟨rfl, he⟩
  all_goals simp only [CrossingOk]
  all_goals first
    | subst hl | replace hl := k hl
  all_goals first
    | subst ht | replace ht := k ht
  all_goals first
    | subst hr | replace hr := k hr
  all_goals first
    | subst he | replace he := k he | clear he
  all_goals simp_all

local instance (l t r e : Nat) : Decidable (CrossingOk l t r e) := by unfold CrossingOk; infer_instance

local instance (w a b : Nat) : Decidable (LabelOf w a b) := by unfold LabelOf; infer_instance

/-- **C101.** All labels that the table allows are those of some four depths. -/
theorem C101_crossing_all {l t r e : Nat} (hl : l < 3) (ht : t < 3) (hr : r < 3) (he : e < 3) (h : CrossingOk l t r e) :
    ∃ a b c d : Nat, LabelOf l a c ∧ LabelOf t a b ∧ LabelOf r b d ∧ LabelOf e c d := by
  have key : ∀ l t r e : Fin 3, CrossingOk l.1 t.1 r.1 e.1 →
      ∃ a b c d : Fin 3, LabelOf l.1 a.1 c.1 ∧ LabelOf t.1 a.1 b.1 ∧ LabelOf r.1 b.1 d.1 ∧ LabelOf e.1 c.1 d.1 := by
    decide +kernel
  obtain ⟨a, b, c, d, h⟩ := key ⟨l, hl⟩ ⟨t, ht⟩ ⟨r, hr⟩ ⟨e, he⟩ h
  exact ⟨a, b, c, d, h⟩

/-! ### The depth image -/

theorem cutLabel_of [AddCommGroup α] [LinearOrder α] [IsOrderedAddMonoid α] (a b : α) : LabelOf (cutLabel (a - b)) a b := by
  unfold LabelOf cutLabel
  rcases lt_trichotomy a b with h | h | h
  · rw [if_neg (by simpa using h.le), if_pos (by simpa using h)]
    exact .inr (.inl ⟨rfl, h⟩)
  · rw [if_neg (by simp [h]), if_neg (by simp [h])]
    exact .inl ⟨rfl, h⟩
  · rw [if_pos (by simpa using h)]
    exact .inr (.inr ⟨rfl, h⟩)

theorem label_zero [LinearOrder α] {w : Nat} {a b : α} (h : LabelOf w a b) : w = 0 ↔ a = b := by
  rcases h with ⟨rfl, h⟩ | ⟨rfl, h⟩ | ⟨rfl, h⟩
  · simp [h]
  · simp [h.ne]
  · simp [h.ne']

/-- **C101.** The program computes the label of every cut from the depths of its two pixels: 0 for equal depths, else 1 or 2 for the side of the nearer pixel.  These labels are a joint assignment exactly if the image is
plain: any four pixels that meet in a point are as in `C101_crossing`, and changes of depth along a row or a column are at least the diameter apart. -/
theorem C101_image [AddCommGroup α] [LinearOrder α] [IsOrderedAddMonoid α] (M N D : Nat) (depth : Nat → Nat → α) :
    TrueLabels M N depth (cutTruth M N depth) ∧
    ∀ truth, TrueLabels M N depth truth → (CutLabelling M N D truth ↔ PlainImage M N D depth) := by
  constructor
  · constructor
    · intro r c hr hc
      simp only [cutTruth, if_true]
      rw [if_pos (by omega)]
      exact cutLabel_of _ _
    · intro r c hr hc
      simp only [cutTruth, one_ne_zero, if_false]
      rw [if_pos (by omega)]
      exact cutLabel_of _ _
  · rintro truth ⟨h0, h1⟩
    have hc : ∀ r c, r + 1 < M → c + 1 < N → (CrossingOk (truth (0, r, c)) (truth (1, r, c)) (truth (0, r, c + 1)) (truth (1, r + 1, c)) ↔
        PlainCorner (depth r c) (depth r (c + 1)) (depth (r + 1) c) (depth (r + 1) (c + 1))) := fun r c hr hc =>
      C101_crossing (h0 r c hr (by omega)) (h1 r c (by omega) hc) (h0 r (c + 1) hr hc) (h1 (r + 1) c hr hc)
    constructor
    · rintro ⟨-, k1, k2, k3⟩
      refine ⟨fun r c hr hcc => (hc r c hr hcc).1 (k1 r c hr hcc), fun c r r' a b d e => ?_, fun r c c' a b d e => ?_⟩
      · exact (k2 c r r' a b d e).imp (label_zero (h0 r c (by omega) a)).1 (label_zero (h0 r' c e a)).1
      · exact (k3 r c c' a b d e).imp (label_zero (h1 r c a (by omega))).1 (label_zero (h1 r c' a e)).1
    · rintro ⟨k1, k2, k3⟩
      refine ⟨?_, fun r c hr hcc => (hc r c hr hcc).2 (k1 r c hr hcc), fun c r r' a b d e => ?_, fun r c c' a b d e => ?_⟩
      · rintro ⟨i, r, c⟩ (⟨rfl, h, h'⟩ | ⟨rfl, h, h'⟩)
        · exact label_lt (h0 r c h h')
        · exact label_lt (h1 r c h h')
      · exact (k2 c r r' a b d e).imp (label_zero (h0 r c (by omega) a)).2 (label_zero (h0 r' c e a)).2
      · exact (k3 r c c' a b d e).imp (label_zero (h1 r c a (by omega))).2 (label_zero (h1 r c' a e)).2

/-! ### Evidence and scores -/

theorem labelEvidence_eq [CommRing α] {w : Nat} (hw : w < 3) (noise : α × α) {t : Nat} (ht : t < 3) : (cutValues w noise).getD t 0 = labelEvidence w noise t := by
  interval_cases w <;> interval_cases t <;> simp [cutValues, labelEvidence]

theorem trueLabels_unique [LinearOrder α] {M N : Nat} {depth : Nat → Nat → α} {truth truth' : Nat × Nat × Nat → Nat} (h : TrueLabels M N depth truth) (h' : TrueLabels M N depth truth') {q : Nat × Nat × Nat}
    (hq : IsCut M N q) : truth q = truth' q := by
  have key : ∀ {w w' : Nat} {a b : α}, LabelOf w a b → LabelOf w' a b → w = w' := by
    intro w w' a b k k'
    rcases k with ⟨rfl, k⟩ | ⟨rfl, k⟩ | ⟨rfl, k⟩ <;> rcases k' with ⟨rfl, k'⟩ | ⟨rfl, k'⟩ | ⟨rfl, k'⟩ <;> first | rfl | (exfalso; order)
  obtain ⟨i, r, c⟩ := q
  rcases hq with ⟨rfl, h1, h2⟩ | ⟨rfl, h1, h2⟩
  · exact key (h.1 r c h1 h2) (h'.1 r c h1 h2)
  · exact key (h.2 r c h1 h2) (h'.2 r c h1 h2)

theorem trueLabels_lt [LinearOrder α] {M N : Nat} {depth : Nat → Nat → α} {truth : Nat × Nat × Nat → Nat} (h : TrueLabels M N depth truth) {q : Nat × Nat × Nat}
    (hq : IsCut M N q) : truth q < 3 := by
  obtain ⟨i, r, c⟩ := q
  rcases hq with ⟨rfl, h1, h2⟩ | ⟨rfl, h1, h2⟩
  · exact label_lt (h.1 r c h1 h2)
  · exact label_lt (h.2 r c h1 h2)

theorem CutsReady.evidence [Field α] [LinearOrder α] [IsStrictOrderedRing α] {idG idE M N D : Nat} {depth : Nat → Nat → α} {noise : CutName → α × α} {garbage : Garbage} {s : CutsSetup α}
    {hist : List (AddArg α)} {st : FGState CutName α} {state : BPState α} (h : CutsReady idG idE M N D (cutVals M N depth noise) garbage s hist st state)
    {truth : Nat × Nat × Nat → Nat} (ht : TrueLabels M N depth truth) {q : Nat × Nat × Nat} (hq : IsCut M N q) {t : Nat} (h3 : t < 3) :
    readEv st.varsToStarts s.arrays.evidence (cutVar idG idE M N q) t = labelEvidence (truth q) (noise q) t := by
  have hT := (C101_image M N D depth).1
  rw [h.ev q hq t h3, cutVals, labelEvidence_eq (trueLabels_lt hT hq) _ h3, trueLabels_unique hT ht hq]

/-- **C101.** With any depth image and noise the program sets up its graph and evidence: two for the label that the image says, less that for label 0, and noise for the labels 1 and 2.  Up to a constant the score of a
labelling is twice the number of cuts that have the label that the image says, plus the noise of its labels. -/
theorem C101_score [Field α] [LinearOrder α] [IsStrictOrderedRing α] {idG idE idV idH : Nat} {idF : Nat → Nat} {M N D : Nat} (hid : idG % 2 ^ 32 ≠ idE % 2 ^ 32)
    (hF : ((List.range ((M - 1) * (N - 1))).map idF ++ [idV, idH]).Nodup) (hD : 1 ≤ D) (hM : D < M) (hN : D < N) (hMN : 2 * ((M - 1) * (N - 1)) ≤ 1000000000) (garbage : Garbage) (stateId : Nat)
    (depth : Nat → Nat → α) (noise : CutName → α × α) {truth : Nat × Nat × Nat → Nat} (ht : TrueLabels M N depth truth) :
    ∃ s cut hist st, cutsSetup idG idE idV idH idF garbage stateId M N D depth noise = .ok s ∧ CutVars s.net.grid s.net.extra M N cut ∧
      graphOf [.arr s.net.grid, .dict s.net.extra] hist = s.net.fg ∧ Compiled [.arr s.net.grid, .dict s.net.extra] hist garbage st ∧
      (∀ q, IsCut M N q → ∀ t < 3, readEv st.varsToStarts s.arrays.evidence (cut q) t = labelEvidence (truth q) (noise q) t) ∧
      ∀ x ρ, Joint (graphVars [.arr s.net.grid, .dict s.net.extra]) (s.net.fg.factors s.arrays.logPotentials) x ρ → CutLabelling M N D (fun q => x (cut q)) ∧
        jointScore (graphVars [.arr s.net.grid, .dict s.net.extra]) (s.net.fg.factors s.arrays.logPotentials) (readEv st.varsToStarts s.arrays.evidence) x ρ =
          2 * (agreements M N truth (fun q => x (cut q)) : α) - 2 * (((allCuts M N).filter (fun q => truth q = 0)).card : α) +
            ∑ q ∈ allCuts M N, (if x (cut q) = 1 then (noise q).1 else if x (cut q) = 2 then (noise q).2 else 0) := by
  have hs : CutSizes M N D := ⟨hD, hM, hN, hMN⟩
  obtain ⟨s, hist, st, state, h1, h⟩ := cuts_ready hid hF hs garbage stateId depth noise
  refine ⟨s, cutVar idG idE M N, hist, st, h1, ?_, h.graph, h.compiled, fun q hq t h3 => h.evidence ht hq h3, fun x ρ hρ => ?_⟩
  · rw [h.grid, h.extra]; exact cutVars_of hid hs
  rw [h.pots, h.factors, h.grid, h.extra] at hρ ⊢
  have hl := (cut_tables hs x).1 (joint_exists_iff.1 ⟨ρ, hρ⟩)
  refine ⟨hl, ?_⟩
  rw [jointScore_zero hρ cutFactors_zero, cut_sum hid hs (fun v => readEv st.varsToStarts s.arrays.evidence v (x v))]
  rw [Finset.sum_congr rfl (fun q hq => h.evidence ht (mem_allCuts.1 hq) (hl.states q (mem_allCuts.1 hq)))]
  unfold labelEvidence agreements
  rw [Finset.sum_add_distrib, Finset.sum_sub_distrib, ← Finset.sum_filter, ← Finset.sum_filter]
  simp only [Finset.sum_const, nsmul_eq_mul]
  ring

/-- **C101.** If the image is plain and all noise is less than 1, the labels that the image says are the only best joint assignment. -/
theorem C101_best [Field α] [LinearOrder α] [IsStrictOrderedRing α] {idG idE idV idH : Nat} {idF : Nat → Nat} {M N D : Nat} (hid : idG % 2 ^ 32 ≠ idE % 2 ^ 32)
    (hF : ((List.range ((M - 1) * (N - 1))).map idF ++ [idV, idH]).Nodup) (hD : 1 ≤ D) (hM : D < M) (hN : D < N) (hMN : 2 * ((M - 1) * (N - 1)) ≤ 1000000000) (garbage : Garbage) (stateId : Nat)
    (depth : Nat → Nat → α) (hplain : PlainImage M N D depth) (noise : CutName → α × α) (hnoise : ∀ q, IsCut M N q → |(noise q).1| < 1 ∧ |(noise q).2| < 1) {truth : Nat × Nat × Nat → Nat}
    (ht : TrueLabels M N depth truth) :
    ∃ s cut hist st x ρ, cutsSetup idG idE idV idH idF garbage stateId M N D depth noise = .ok s ∧ CutVars s.net.grid s.net.extra M N cut ∧
      graphOf [.arr s.net.grid, .dict s.net.extra] hist = s.net.fg ∧ Compiled [.arr s.net.grid, .dict s.net.extra] hist garbage st ∧
      (∀ q, IsCut M N q → x (cut q) = truth q) ∧
      IsUniqueMAP (graphVars [.arr s.net.grid, .dict s.net.extra]) (s.net.fg.factors s.arrays.logPotentials) (readEv st.varsToStarts s.arrays.evidence) x ρ := by
  have hs : CutSizes M N D := ⟨hD, hM, hN, hMN⟩
  obtain ⟨s, hist, st, state, h1, h⟩ := cuts_ready hid hF hs garbage stateId depth noise
  have hinj := (cutVars_of hid hs).inj
  classical
  obtain ⟨x, hx⟩ : ∃ x : Var → Nat, ∀ q, IsCut M N q → x (cutVar idG idE M N q) = truth q := by
    refine ⟨fun v => if hv : ∃ q, IsCut M N q ∧ v = cutVar idG idE M N q then truth hv.choose else 0, fun q hq => ?_⟩
    have hv : ∃ q', IsCut M N q' ∧ cutVar idG idE M N q = cutVar idG idE M N q' := ⟨q, hq, rfl⟩
    dsimp only
    rw [dif_pos hv, ← hinj q hv.choose hq hv.choose_spec.1 hv.choose_spec.2]
  have hlab : CutLabelling M N D (fun q => x (cutVar idG idE M N q)) := by
    refine ((C101_image M N D depth).2 _ ⟨fun r c hr hc => ?_, fun r c hr hc => ?_⟩).2 hplain
    · rw [hx _ (.inl ⟨rfl, hr, hc⟩)]; exact ht.1 r c hr hc
    · rw [hx _ (.inr ⟨rfl, hr, hc⟩)]; exact ht.2 r c hr hc
  obtain ⟨ρ, hρ⟩ := joint_exists_iff.2 ((cut_tables (α := α) hs x).2 hlab)
  refine ⟨s, cutVar idG idE M N, hist, st, x, ρ, h1, ?_, h.graph, h.compiled, hx, ?_, ?_⟩
  · rw [h.grid, h.extra]; exact cutVars_of hid hs
  · rw [h.pots, h.factors, h.grid, h.extra]; exact hρ
  rw [h.pots, h.factors, h.grid, h.extra]
  rintro x' ρ' hρ' ⟨v, hv, hne⟩
  have hl' := (cut_tables hs x').1 (joint_exists_iff.1 ⟨ρ', hρ'⟩)
  rw [jointScore_zero hρ cutFactors_zero, cut_sum hid hs (fun v => readEv st.varsToStarts s.arrays.evidence v (x v)), jointScore_zero hρ' cutFactors_zero,
    cut_sum hid hs (fun v => readEv st.varsToStarts s.arrays.evidence v (x' v))]
  have key : ∀ {w t : Nat} {n : α × α}, w < 3 → t < 3 → |n.1| < 1 ∧ |n.2| < 1 → t ≠ w → labelEvidence w n t < labelEvidence w n w := by
    intro w t n hw ht ⟨n1, n2⟩ hne
    obtain ⟨a1, a2⟩ := abs_lt.1 n1
    obtain ⟨b1, b2⟩ := abs_lt.1 n2
    interval_cases w <;> interval_cases t <;> first | exact absurd rfl hne | (simp [labelEvidence]; linarith)
  have hval : ∀ q, IsCut M N q → ∀ y : Var → Nat, y (cutVar idG idE M N q) < 3 → readEv st.varsToStarts s.arrays.evidence (cutVar idG idE M N q) (y (cutVar idG idE M N q)) =
      labelEvidence (truth q) (noise q) (y (cutVar idG idE M N q)) := fun q hq y hy => h.evidence ht hq hy
  obtain ⟨q, hq, rfl⟩ := ((cutVars_of hid hs).vars v).1 hv
  refine Finset.sum_lt_sum (fun p hp => ?_) ⟨q, mem_allCuts.2 hq, ?_⟩
  · have hp := mem_allCuts.1 hp
    rw [hval p hp x' (hl'.states p hp), hval p hp x (hlab.states p hp), hx p hp]
    by_cases e : x' (cutVar idG idE M N p) = truth p
    · rw [e]
    · exact (key (trueLabels_lt ht hp) (hl'.states p hp) (hnoise p hp) e).le
  · rw [hval q hq x' (hl'.states q hq), hval q hq x (hlab.states q hq), hx q hq]
    rw [hx q hq] at hne
    exact key (trueLabels_lt ht hq) (hl'.states q hq) (hnoise q hq) hne

theorem cutVals_bound [Field α] [LinearOrder α] [IsStrictOrderedRing α] {M N : Nat} {depth : Nat → Nat → α} {noise : CutName → α × α} {B : α}
    (hnoise : ∀ q, IsCut M N q → |(noise q).1| ≤ B ∧ |(noise q).2| ≤ B) (q : CutName) (hq : IsCut M N q) (t : Nat) (ht : t < 3) :
    |(cutVals M N depth noise q).getD t 0| ≤ B + 2 := by
  have hw := trueLabels_lt (C101_image M N 0 depth).1 hq
  rw [cutVals, labelEvidence_eq hw _ ht]
  obtain ⟨n1, n2⟩ := hnoise q hq
  generalize cutTruth M N depth q = w at hw
  obtain ⟨a1, a2⟩ := abs_le.1 n1
  obtain ⟨b1, b2⟩ := abs_le.1 n2
  rw [abs_le]
  unfold labelEvidence
  interval_cases w <;> interval_cases t <;> simp <;> (try constructor) <;> linarith

/-- **C101.** `run_bp` does textbook max-product on this graph, from zero messages, for any number of iterations and damping up to a half (100 and one half in the program), if all noise is at most 1000, the diameter at most 8, and either
JAX clamps negative start indices or the graph has fewer than about 100000 edge states. -/
theorem C101_run [Field α] [LinearOrder α] [IsStrictOrderedRing α] {idG idE idV idH : Nat} {idF : Nat → Nat} {M N D : Nat} (hid : idG % 2 ^ 32 ≠ idE % 2 ^ 32)
    (hF : ((List.range ((M - 1) * (N - 1))).map idF ++ [idV, idH]).Nodup) (hD : 1 ≤ D) (hD8 : D ≤ 8) (hM : D < M) (hN : D < N) (hMN : 2 * ((M - 1) * (N - 1)) ≤ 1000000000) (garbage : Garbage) (stateId : Nat)
    (depth : Nat → Nat → α) (noise : CutName → α × α) (hnoise : ∀ q, IsCut M N q → |(noise q).1| ≤ 1000 ∧ |(noise q).2| ≤ 1000) (env : Env α)
    (hsize : env.wrapNeg = false ∨ 12 * ((M - 1) * (N - 1)) + 3 * D * (N * (M - D) + M * (N - D)) + 3 ≤ 100000) {d : α} (hd : 0 ≤ d ∧ d ≤ 1 / 2) :
    ∃ s hist st, cutsSetup idG idE idV idH idF garbage stateId M N D depth noise = .ok s ∧ graphOf [.arr s.net.grid, .dict s.net.extra] hist = s.net.fg ∧
      Compiled [.arr s.net.grid, .dict s.net.extra] hist garbage st ∧
      ∀ n, AgreeOn s.net.fg.allScopes (readMsgs s.net.fg.allScopes (s.bp.runBP env s.arrays n d).ftovMsgs)
        (tbRun (s.net.fg.factors s.arrays.logPotentials) (readEv st.varsToStarts s.arrays.evidence) d n (fun _ _ _ => 0)) := by
  have hs : CutSizes M N D := ⟨hD, hM, hN, hMN⟩
  obtain ⟨s, hist, st, state, h1, h⟩ := cuts_ready hid hF hs garbage stateId depth noise
  refine ⟨s, hist, st, h1, h.graph, h.compiled, ?_⟩
  exact (h.run hid hs hD8 (fun q hq t ht => by have := cutVals_bound (depth := depth) hnoise q hq t ht; norm_num at this; exact this) env hsize hd).2.2.2.2.2

/-! ### The image of the test -/

/-- The image of the test before it is smoothed: depth 1 on and below the diagonal, and 5 above. -/
def exDepth (r c : Nat) : ℚ := if c ≤ r then 1 else 5

theorem exDepth_plain (M N D : Nat) : PlainImage M N D exDepth where
  corner := fun r c _ _ => by
    unfold PlainCorner StrictlyBetween exDepth
    split_ifs <;> first | omega | norm_num
  column := fun c r r' _ h _ _ => by
    unfold exDepth
    split_ifs <;> first | omega | norm_num
  row := fun r c c' _ h _ _ => by
    unfold exDepth
    split_ifs <;> first | omega | norm_num

/-- Non-vacuity of C101: images of 3 by 3 pixels and diameter 2, as in the test (and none of 2 by 3 pixels); the image of the test before smoothing, with noise up to a half. -/
example : (∃ r : Cuts ℚ, cuts 1 2 3 4 (fun k => k + 5) 3 3 2 = .ok r) ∧ (cuts 1 2 3 4 (fun k => k + 5) 2 3 2 : Py (Cuts ℚ)) = .error .valueError ∧
    PlainImage 3 3 2 exDepth ∧ ((List.range 4).map (fun k => k + 5) ++ [3, 4]).Nodup ∧
    CutLabelling 3 3 2 (cutTruth 3 3 exDepth) ∧ (List.map (cutTruth 3 3 exDepth) [(0, 0, 0), (0, 0, 1), (1, 0, 0), (1, 1, 1), (0, 1, 2)] = [0, 2, 1, 1, 2]) ∧
    (∃ s cut hist st x ρ, cutsSetup 1 2 3 4 (fun k => k + 5) (fun _ _ => 0) 9 3 3 2 exDepth (fun q => (if q.1 = 0 then 1 / 2 else -1 / 2, 1 / 3)) = .ok s ∧ CutVars s.net.grid s.net.extra 3 3 cut ∧
      graphOf [.arr s.net.grid, .dict s.net.extra] hist = s.net.fg ∧ Compiled [.arr s.net.grid, .dict s.net.extra] hist (fun _ _ => 0) st ∧
      (∀ q, IsCut 3 3 q → x (cut q) = cutTruth 3 3 exDepth q) ∧
      IsUniqueMAP (graphVars [.arr s.net.grid, .dict s.net.extra]) (s.net.fg.factors s.arrays.logPotentials) (readEv st.varsToStarts s.arrays.evidence) x ρ) := by
  refine ⟨(C101_inputs (α := ℚ) 3 4 _ (by decide) (by decide) (by decide) (by decide)).1.2 (by decide), (C101_inputs (α := ℚ) 3 4 _ (by decide) (by decide) (by decide) (by decide)).2 (by decide),
    exDepth_plain 3 3 2, by decide, ((C101_image 3 3 2 exDepth).2 _ (C101_image 3 3 2 exDepth).1).2 (exDepth_plain 3 3 2), by decide +kernel,
    C101_best (by decide) (by decide) (by decide) (by decide) (by decide) (by decide) _ _ exDepth (exDepth_plain 3 3 2) _ ?_ (C101_image 3 3 2 exDepth).1⟩
  intro q _
  dsimp only
  split_ifs <;> norm_num [abs_lt]

/-- Non-vacuity of the other parts of C101, for the same image. -/
example : (∃ s cut hist st, cutsSetup 1 2 3 4 (fun k => k + 5) (fun _ _ => 0) 9 3 3 2 exDepth (fun _ => (0, 0)) = .ok s ∧ CutVars s.net.grid s.net.extra 3 3 cut ∧
      graphOf [.arr s.net.grid, .dict s.net.extra] hist = s.net.fg ∧ Compiled [.arr s.net.grid, .dict s.net.extra] hist (fun _ _ => 0) st) ∧
    (∃ s hist st, cutsSetup 1 2 3 4 (fun k => k + 5) (fun _ _ => 0) 9 3 3 2 exDepth (fun _ => (0, 0)) = .ok s ∧ graphOf [.arr s.net.grid, .dict s.net.extra] hist = s.net.fg ∧
      Compiled [.arr s.net.grid, .dict s.net.extra] hist (fun _ _ => 0) st ∧
      AgreeOn s.net.fg.allScopes (readMsgs s.net.fg.allScopes (s.bp.runBP exEnv s.arrays 100 (1 / 2)).ftovMsgs)
        (tbRun (s.net.fg.factors s.arrays.logPotentials) (readEv st.varsToStarts s.arrays.evidence) (1 / 2) 100 (fun _ _ _ => 0))) ∧
    CrossingOk 1 0 1 2 ∧ ¬ CrossingOk 1 1 1 1 := by
  refine ⟨?_, ?_, by decide, by decide⟩
  · obtain ⟨s, cut, hist, st, h1, h2, h3, h4, -⟩ := C101_score (idV := 3) (idH := 4) (idF := fun k => k + 5) (M := 3) (N := 3) (D := 2) (idG := 1) (idE := 2) (by decide) (by decide) (by decide) (by decide)
      (by decide) (by decide) (fun _ _ => 0) 9 exDepth (fun _ => (0, 0)) (C101_image 3 3 2 exDepth).1
    exact ⟨s, cut, hist, st, h1, h2, h3, h4⟩
  · obtain ⟨s, hist, st, h1, h2, h3, h4⟩ := C101_run (idV := 3) (idH := 4) (idF := fun k => k + 5) (M := 3) (N := 3) (D := 2) (idG := 1) (idE := 2) (by decide) (by decide) (by decide) (by decide) (by decide)
      (by decide) (by decide) (fun _ _ => 0) 9 exDepth (fun _ => (0, 0)) (by intro q _; norm_num) exEnv (.inr (by decide)) (d := 1 / 2) (by norm_num)
    exact ⟨s, hist, st, h1, h2, h3, h4 100⟩

end PGMax
