import Verif.Spec.Rate
import Verif.Lemmas.Damped
import Verif.Lemmas.Range

/-! Helper lemmas: how fast damped iterations approach a fixed point on forests. -/

namespace PGMax

section
variable {α : Type _} [Field α]

theorem lag_zero (d : α) (n : Nat) : lag d n 0 = 0 := by simp [lag]

theorem lag_start (d : α) (k : Nat) : lag d 0 (k + 1) = 1 := by
  unfold lag
  rw [Finset.sum_range_succ']
  simp

/-- The first trial fails or succeeds. -/
theorem lag_succ (d : α) (n k : Nat) : lag d (n + 1) (k + 1) = d * lag d n (k + 1) + (1 - d) * lag d n k := by
  unfold lag
  rw [Finset.sum_range_succ', Finset.sum_range_succ' (fun j => (n.choose j : α) * (1 - d) ^ j * d ^ (n - j)), mul_add, Finset.mul_sum, Finset.mul_sum,
    add_right_comm, ← Finset.sum_add_distrib]
  congr 1
  · refine Finset.sum_congr rfl fun i _ => ?_
    rw [Nat.choose_succ_succ, Nat.add_sub_add_right]
    rcases Nat.lt_or_ge i n with h | h
    · have : n - i = n - (i + 1) + 1 := by omega
      rw [this]
      push_cast
      ring
    · rw [Nat.choose_eq_zero_of_lt (show n < i + 1 by omega)]
      push_cast
      ring
  · simp
    ring

variable [LinearOrder α] [IsStrictOrderedRing α]

theorem lag_nonneg {d : α} (hd : 0 ≤ d ∧ d ≤ 1) (n k : Nat) : 0 ≤ lag d n k :=
  Finset.sum_nonneg fun j _ => mul_nonneg (mul_nonneg (Nat.cast_nonneg _) (pow_nonneg (sub_nonneg.2 hd.2) _)) (pow_nonneg hd.1 _)

theorem lag_mono {d : α} (hd : 0 ≤ d ∧ d ≤ 1) (n : Nat) {k k' : Nat} (h : k ≤ k') : lag d n k ≤ lag d n k' :=
  Finset.sum_le_sum_of_subset_of_nonneg (Finset.range_mono h)
    fun j _ _ => mul_nonneg (mul_nonneg (Nat.cast_nonneg _) (pow_nonneg (sub_nonneg.2 hd.2) _)) (pow_nonneg hd.1 _)

variable {factors : List (SFac α)}

/-- Damped iterations approach messages that do not change without damping: the error of a message of height `H` after `n` iterations is that of the start times `lag d n H`. -/
theorem sumRun_rate {Φ : Nat → List α → α} (hΦ : ∀ f, Summary (Φ f))
    (hrow : ∀ F ∈ factors, ∀ r ∈ F.rows, List.Forall₂ (fun s (v : Var) => s < v.n) r.1 F.scope) (ev : Var → Nat → α) {d : α} (hd : 0 ≤ d ∧ d ≤ 1) {W : Nat → Var → α}
    {H : Nat → Var → Nat} (hW : ∀ f F i v, factors[f]? = some F → F.scope[i]? = some v → 0 ≤ W f v ∧ inflow (factors.map (·.scope)) (fun _ => 0) (fun _ => 0) W f i F.scope ≤ W f v)
    (hH : ∀ f F i v, factors[f]? = some F → F.scope[i]? = some v → 0 < H f v ∧
      ∀ j w, F.scope[j]? = some w → j ≠ i → ∀ e ∈ edgesOf (factors.map (·.scope)) w, e ≠ (f, j) → H e.1 w < H f v) {m0 ms : Msgs α}
    (hfix : ∀ f F i v, factors[f]? = some F → F.scope[i]? = some v → ∀ s < v.n, ms f i s = tbNorm v.n (sumOut (Φ f) F (tbIn factors ev ms f F) i) s)
    (h0 : ∀ f i v, IsEdge (factors.map (·.scope)) f i v → ∃ lo hi, lo ≤ 0 ∧ 0 ≤ hi ∧ hi - lo ≤ W f v ∧
      ∀ s < v.n, lo ≤ tbInit factors m0 f i s - ms f i s ∧ tbInit factors m0 f i s - ms f i s ≤ hi) (n : Nat) :
    ∀ f i v, IsEdge (factors.map (·.scope)) f i v → ∃ lo hi, lo ≤ 0 ∧ 0 ≤ hi ∧ hi - lo ≤ W f v * lag d n (H f v) ∧
      ∀ s < v.n, lo ≤ sumRun Φ factors ev d n m0 f i s - ms f i s ∧ sumRun Φ factors ev d n m0 f i s - ms f i s ≤ hi := by
  have hedge : ∀ {f i v}, IsEdge (factors.map (·.scope)) f i v → ∃ F, factors[f]? = some F ∧ F.scope[i]? = some v := by
    rintro f i v ⟨vs, h1, h2⟩
    rw [List.getElem?_map] at h1
    obtain ⟨F, hF, rfl⟩ := Option.map_eq_some_iff.1 h1
    exact ⟨F, hF, h2⟩
  induction n with
  | zero =>
    intro f i v he
    obtain ⟨F, hF, hi⟩ := hedge he
    obtain ⟨k, hk⟩ := Nat.exists_eq_succ_of_ne_zero (hH f F i v hF hi).1.ne'
    rw [hk, lag_start, mul_one]
    exact h0 f i v he
  | succ n ih =>
    intro f i v he
    obtain ⟨F, hF, hi⟩ := hedge he
    have hmem := List.mem_of_getElem? hF
    obtain ⟨k, hk⟩ := Nat.exists_eq_succ_of_ne_zero (hH f F i v hF hi).1.ne'
    have hlower : ∀ j w, F.scope[j]? = some w → j ≠ i → ∀ e ∈ edgesOf (factors.map (·.scope)) w, e ≠ (f, j) → H e.1 w ≤ k :=
      fun j w h1 h2 e h3 h4 => by
        have := (hH f F i v hF hi).2 j w h1 h2 e h3 h4
        omega
    obtain ⟨lo, hi', h1, h2, h3, h4⟩ := ih f i v he
    simp only [sumRun]
    generalize hm : sumRun Φ factors ev d n m0 = m at ih h4
    have hall : ∀ g p w, ∃ lo hi : α, lo ≤ 0 ∧ 0 ≤ hi ∧ (IsEdge (factors.map (·.scope)) g p w → hi - lo ≤ W g w * lag d n (H g w) ∧
        ∀ s < w.n, lo ≤ m g p s - ms g p s ∧ m g p s - ms g p s ≤ hi) := by
      intro g p w
      by_cases hg : IsEdge (factors.map (·.scope)) g p w
      · obtain ⟨lo, hi, k1, k2, k3, k4⟩ := ih g p w hg
        exact ⟨lo, hi, k1, k2, fun _ => ⟨k3, k4⟩⟩
      · exact ⟨0, 0, le_rfl, le_rfl, fun h => absurd h hg⟩
    choose gl gh hg1 hg2 hg3 using hall
    let es : Nat → List (Nat × Nat) := fun j => (edgesOf (factors.map (·.scope)) (F.scope.getD j ⟨0, 0⟩)).filter (fun e => e ≠ (f, j))
    let js : List Nat := (List.range F.scope.length).filter (fun j => j ≠ i)
    let HI : α := (js.map (fun j => ((es j).map (fun e => gh e.1 e.2 (F.scope.getD j ⟨0, 0⟩))).sum)).sum
    let LO : α := (js.map (fun j => ((es j).map (fun e => -(gl e.1 e.2 (F.scope.getD j ⟨0, 0⟩)))).sum)).sum
    have hsum0 : ∀ (l : List α), (∀ x ∈ l, 0 ≤ x) → 0 ≤ l.sum := fun l hl => List.sum_nonneg hl
    have hHI : 0 ≤ HI := hsum0 _ (by
      intro x hx
      obtain ⟨j, -, rfl⟩ := List.mem_map.1 hx
      refine hsum0 _ (fun y hy => ?_)
      obtain ⟨e, -, rfl⟩ := List.mem_map.1 hy
      exact hg2 _ _ _)
    have hLO : 0 ≤ LO := hsum0 _ (by
      intro x hx
      obtain ⟨j, -, rfl⟩ := List.mem_map.1 hx
      refine hsum0 _ (fun y hy => ?_)
      obtain ⟨e, -, rfl⟩ := List.mem_map.1 hy
      exact neg_nonneg.2 (hg1 _ _ _))
    have hjs : ∀ j ∈ js, j ≠ i ∧ F.scope[j]? = some (F.scope.getD j ⟨0, 0⟩) := by
      intro j hj
      obtain ⟨k1, k2⟩ := List.mem_filter.1 hj
      refine ⟨by simpa using k2, ?_⟩
      rw [List.getD, List.getElem?_eq_getElem (List.mem_range.1 k1), Option.getD_some]
    have hes : ∀ j, ∀ e ∈ es j, IsEdge (factors.map (·.scope)) e.1 e.2 (F.scope.getD j ⟨0, 0⟩) := fun j e hme => (mem_edgesOf _ _ _ _).1 (List.mem_filter.1 hme).1
    have hw : HI + LO ≤ W f v * lag d n k := by
      have h5 : HI + LO ≤ inflow (factors.map (·.scope)) (fun _ => 0) (fun _ => 0) W f i F.scope * lag d n k := by
        unfold inflow
        rw [zero_add, ← List.sum_map_mul_right, ← List.sum_map_add]
        refine List.sum_le_sum fun j hj => ?_
        rw [zero_add, ← List.sum_map_mul_right, ← List.sum_map_add]
        refine List.sum_le_sum fun e hme => ?_
        have h6 := (hg3 e.1 e.2 _ (hes j e hme)).1
        have h7 := hlower j _ (hjs j hj).2 (hjs j hj).1 e (List.mem_filter.1 hme).1 (by simpa using (List.mem_filter.1 hme).2)
        obtain ⟨G, hG, hGi⟩ := hedge (hes j e hme)
        have h8 := mul_le_mul_of_nonneg_left (lag_mono hd n h7) (hW e.1 G e.2 _ hG hGi).1
        linarith
      exact h5.trans (mul_le_mul_of_nonneg_right (hW f F i v hF hi).2 (lag_nonneg hd _ _))
    have hscore : ∀ r ∈ F.rows, scoreBut F.scope.length (tbIn factors ev m f F) i r - scoreBut F.scope.length (tbIn factors ev ms f F) i r ≤ HI ∧
        scoreBut F.scope.length (tbIn factors ev ms f F) i r - scoreBut F.scope.length (tbIn factors ev m f F) i r ≤ LO := by
      intro r hr
      have hst : ∀ j ∈ js, r.1.getD j 0 < (F.scope.getD j ⟨0, 0⟩).n := by
        intro j hj
        have hrow' := hrow F hmem r hr
        have hjl : j < F.scope.length := (List.getElem?_eq_some_iff.1 (hjs j hj).2).1
        have hlt : j < r.1.length := by rw [hrow'.length_eq]; exact hjl
        obtain ⟨w, hw, hlt'⟩ := forall₂_getElem? hrow' (List.getElem?_eq_getElem hlt)
        rw [(hjs j hj).2] at hw
        cases hw
        rw [List.getD, List.getElem?_eq_getElem hlt, Option.getD_some]
        exact hlt'
      have hin : ∀ j ∈ js, tbIn factors ev m f F j (r.1.getD j 0) - tbIn factors ev ms f F j (r.1.getD j 0) ≤ ((es j).map (fun e => gh e.1 e.2 (F.scope.getD j ⟨0, 0⟩))).sum ∧
          tbIn factors ev ms f F j (r.1.getD j 0) - tbIn factors ev m f F j (r.1.getD j 0) ≤ ((es j).map (fun e => -(gl e.1 e.2 (F.scope.getD j ⟨0, 0⟩)))).sum := by
        intro j hj
        rw [tbIn_at (hjs j hj).2, tbIn_at (hjs j hj).2]
        unfold varToFac
        have k1 := list_sum_diff (es j) (fun e => m e.1 e.2 (r.1.getD j 0)) (fun e => ms e.1 e.2 (r.1.getD j 0)) (fun e => gh e.1 e.2 (F.scope.getD j ⟨0, 0⟩))
          (fun e hme => ((hg3 e.1 e.2 _ (hes j e hme)).2 _ (hst j hj)).2)
        have k2 := list_sum_diff (es j) (fun e => ms e.1 e.2 (r.1.getD j 0)) (fun e => m e.1 e.2 (r.1.getD j 0)) (fun e => -(gl e.1 e.2 (F.scope.getD j ⟨0, 0⟩)))
          (fun e hme => by
            have := ((hg3 e.1 e.2 _ (hes j e hme)).2 _ (hst j hj)).1
            linarith)
        simp only [es] at k1 k2 ⊢
        constructor <;> linarith
      have k1 := list_sum_diff js (fun j => tbIn factors ev m f F j (r.1.getD j 0)) (fun j => tbIn factors ev ms f F j (r.1.getD j 0)) _ (fun j hj => (hin j hj).1)
      have k2 := list_sum_diff js (fun j => tbIn factors ev ms f F j (r.1.getD j 0)) (fun j => tbIn factors ev m f F j (r.1.getD j 0)) _ (fun j hj => (hin j hj).2)
      unfold scoreBut
      simp only [HI, LO, js] at k1 k2 ⊢
      constructor <;> linarith
    have hd1 : 0 ≤ 1 - d := by linarith [hd.2]
    obtain ⟨lo', hi'', k1, k2, k3, k4⟩ := tbNorm_osc (n := v.n) (lo := d * lo + (1 - d) * -LO) (hi := d * hi' + (1 - d) * HI)
      (x := fun s => (sumOut (Φ f) F (tbIn factors ev m f F) i s).map (fun x => d * m f i s + (1 - d) * x))
      (y := fun s => (sumOut (Φ f) F (tbIn factors ev ms f F) i s).map (fun x => d * ms f i s + (1 - d) * x)) (by
        intro s hs
        unfold sumOut
        by_cases hrows : F.rowsAt i s = []
        · left
          rw [if_pos hrows, if_pos hrows]
          exact ⟨rfl, rfl⟩
        · right
          rw [if_neg hrows, if_neg hrows]
          refine ⟨_, _, rfl, rfl, ?_⟩
          have b1 := (hΦ f).mono (F.rowsAt i s) (scoreBut F.scope.length (tbIn factors ev m f F) i) (scoreBut F.scope.length (tbIn factors ev ms f F) i) HI hrows (fun r hr => by
            linarith [(hscore r (List.mem_filter.1 hr).1).1])
          have b2 := (hΦ f).mono (F.rowsAt i s) (scoreBut F.scope.length (tbIn factors ev ms f F) i) (scoreBut F.scope.length (tbIn factors ev m f F) i) LO hrows (fun r hr => by
            linarith [(hscore r (List.mem_filter.1 hr).1).2])
          generalize Φ f _ = X at b1 b2 ⊢
          generalize Φ f _ = Y at b1 b2 ⊢
          obtain ⟨c1, c2⟩ := h4 s hs
          have q1 := mul_le_mul_of_nonneg_left c1 hd.1
          have q2 := mul_le_mul_of_nonneg_left c2 hd.1
          have q3 := mul_le_mul_of_nonneg_left b1 hd1
          have q4 := mul_le_mul_of_nonneg_left b2 hd1
          constructor <;> nlinarith) (by
        have q1 := mul_le_mul_of_nonneg_left (h1.trans h2) hd.1
        have q2 := mul_nonneg hd1 hLO
        have q3 := mul_nonneg hd1 hHI
        linarith)
    refine ⟨lo', hi'', k1, k2, k3.trans ?_, fun s hs => ?_⟩
    · rw [hk, lag_succ]
      rw [hk] at h3
      have q1 := mul_le_mul_of_nonneg_left h3 hd.1
      have q2 := mul_le_mul_of_nonneg_left hw hd1
      nlinarith
    · have := k4 s hs
      rw [tbNorm_damped (m := ms f i) (fun s hs => hfix f F i v hF hi s hs) hd hs] at this
      rw [sumStep_at Φ hF hi]
      exact this

omit [IsStrictOrderedRing α] in
/-- Undamped iterations on forests stop. -/
theorem sumRun_stable (Φ : Nat → List α → α) (hG : (bipartite (factors.map (·.scope))).IsAcyclic) (hnd : ∀ F ∈ factors, F.scope.Nodup)
    (hne : ∀ F ∈ factors, F.scope ≠ []) (hrow : ∀ F ∈ factors, ∀ r ∈ F.rows, List.Forall₂ (fun s (v : Var) => s < v.n) r.1 F.scope)
    (ev : Var → Nat → α) (m0 m1 : Msgs α) (a b : Nat) (ha : factors.length ≤ a) (hb : factors.length ≤ b) {f i : Nat} {v : Var}
    (he : IsEdge (factors.map (·.scope)) f i v) {s : Nat} (hs : s < v.n) : sumRun Φ factors ev 0 a m0 f i s = sumRun Φ factors ev 0 b m1 f i s := by
  have hlt : f < factors.length := by
    obtain ⟨vs, h1, -⟩ := he
    simpa using (List.getElem?_eq_some_iff.1 h1).1
  have hdist : ∀ v f, (bipartite (factors.map (·.scope))).dist (.inl v) (.inr f) < 2 * factors.length := by
    intro v f
    have := dist_lt_factors (scopes := factors.map (·.scope)) v f (by simp; omega)
    simpa using this
  obtain ⟨hR, hroot, hht⟩ := rootedForest hG (by simpa using hnd) (by simpa using hne) v factors.length (hdist v) (fun w g _ => hdist w g)
  have hup : upOf (factors.map (·.scope)) v f = i := by
    by_contra hc
    have := (hR.par_iff v f i).2 ⟨he, fun h => hc h.symm⟩
    rw [hroot] at this
    cases this
  have hh := hht f (by simpa using hlt)
  obtain ⟨a, rfl⟩ := Nat.exists_eq_succ_of_ne_zero (show a ≠ 0 by omega)
  obtain ⟨b, rfl⟩ := Nat.exists_eq_succ_of_ne_zero (show b ≠ 0 by omega)
  have := hR.sum_converged (fun f F hF => hrow F (List.mem_of_getElem? hF)) Φ ev m0 m1 _ f v s a b le_rfl (by omega) (by omega) (by rw [hup]; exact he) hs
  rw [hup] at this
  exact this

end

section
variable {V α : Type _} {G : SimpleGraph V} [AddCommMonoid α] [PartialOrder α] [IsOrderedAddMonoid α]

open Classical in
/-- The sides of the edges at a vertex are disjoint. -/
theorem sides_sum (hG : G.IsAcyclic) (N : Finset V) (W : V → α) (hW : ∀ x ∈ N, 0 ≤ W x) {a : V} (S : Finset V) (hS : ∀ c ∈ S, G.Adj c a) :
    ∑ c ∈ S, ∑ x ∈ N with x ∈ side G c a, W x ≤ ∑ x ∈ N with x ≠ a ∧ G.Reachable x a, W x := by
  have hdis : (S : Set V).PairwiseDisjoint (fun c => N.filter (fun x => x ∈ side G c a)) := by
    intro c hc d hd hne
    rw [Function.onFun, Finset.disjoint_left]
    intro x hx hx'
    obtain ⟨-, h1, h2⟩ := Finset.mem_filter.1 hx
    obtain ⟨-, h3, h4⟩ := Finset.mem_filter.1 hx'
    exact hne (acyclic_closer_unique hG (h1.trans (hS c hc).reachable) (hS c hc).symm (hS d hd).symm h2 h4)
  rw [← Finset.sum_biUnion hdis]
  refine Finset.sum_le_sum_of_subset_of_nonneg ?_ (fun x hx _ => hW x (Finset.mem_filter.1 hx).1)
  intro x hx
  obtain ⟨c, hc, hx⟩ := Finset.mem_biUnion.1 hx
  obtain ⟨hN, h1, h2⟩ := Finset.mem_filter.1 hx
  refine Finset.mem_filter.2 ⟨hN, ?_, h1.trans (hS c hc).reachable⟩
  rintro rfl
  rw [SimpleGraph.dist_self] at h2
  omega

end

section
variable {α : Type _} [Field α] [LinearOrder α] [IsStrictOrderedRing α] {scopes : List (List Var)}

open Classical in
/-- The totals behind all messages to a variable are at most the total of all that is connected with it. -/
theorem totalBehind_sum (hG : (bipartite scopes).IsAcyclic) (hnd : ∀ vs ∈ scopes, vs.Nodup) {vars : Finset Var} {E : Var → α} {P : Nat → α} (hE : ∀ v ∈ vars, 0 ≤ E v)
    (hP : ∀ f < scopes.length, 0 ≤ P f) (v : Var) :
    ((edgesOf scopes v).map (fun e => totalBehind vars scopes E P e.1 v)).sum ≤ totalAround vars scopes E P v := by
  let N : Finset (Var ⊕ Nat) := vars.disjSum (Finset.range scopes.length)
  let W : Var ⊕ Nat → α := Sum.elim E P
  have hW : ∀ x ∈ N, 0 ≤ W x := by
    rintro (v | g) hx
    · exact hE v (Finset.inl_mem_disjSum.1 hx)
    · exact hP g (Finset.mem_range.1 (Finset.inr_mem_disjSum.1 hx))
  have htot : ∀ g w, totalBehind vars scopes E P g w = ∑ x ∈ N with x ∈ side (bipartite scopes) (.inr g) (.inl w), W x := by
    intro g w
    simp only [N, Finset.sum_filter, Finset.sum_disjSum, totalBehind]
    rfl
  have hfst : ((edgesOf scopes v).map (fun e => (.inr e.1 : Var ⊕ Nat))).Nodup := by
    refine List.Nodup.map_on ?_ (edgesOf_nodup _ _)
    rintro ⟨g, k⟩ he ⟨g', k'⟩ he' heq
    cases heq
    rw [isEdge_unique hnd ((mem_edgesOf _ _ _ _).1 he) ((mem_edgesOf _ _ _ _).1 he')]
  have := sides_sum hG N W hW (a := .inl v) ((edgesOf scopes v).map (fun e => (.inr e.1 : Var ⊕ Nat))).toFinset (by
    intro c hc
    obtain ⟨⟨g, k⟩, he, rfl⟩ := List.mem_map.1 (List.mem_toFinset.1 hc)
    exact bipartite_adj'.2 ⟨k, (mem_edgesOf _ _ _ _).1 he⟩)
  rw [List.sum_toFinset _ hfst, List.map_map] at this
  refine (le_of_eq ?_).trans (this.trans (le_of_eq ?_))
  · congr 1
    exact List.map_congr_left fun e _ => htot e.1 v
  · simp only [N, Finset.sum_filter, Finset.sum_disjSum, totalAround, ne_eq, Sum.inl.injEq, reduceCtorEq, not_false_eq_true, true_and]
    rfl

open Classical in
/-- What is connected with a variable is part of all. -/
theorem totalAround_le {vars : Finset Var} {E : Var → α} {P : Nat → α} (hE : ∀ v ∈ vars, 0 ≤ E v)
    (hP : ∀ f < scopes.length, 0 ≤ P f) (v : Var) : totalAround vars scopes E P v ≤ ∑ u ∈ vars.erase v, E u + ∑ g ∈ Finset.range scopes.length, P g := by
  refine add_le_add (Finset.sum_le_sum_of_subset_of_nonneg (fun u hu => ?_) fun u hu _ => hE u (Finset.mem_of_mem_erase hu))
    (Finset.sum_le_sum_of_subset_of_nonneg (Finset.filter_subset _ _) fun g hg _ => hP g (Finset.mem_range.1 hg))
  obtain ⟨h1, h2, -⟩ := Finset.mem_filter.1 hu
  exact Finset.mem_erase.2 ⟨h2, h1⟩

/-- Messages have more factors behind them than those they are computed from. -/
theorem factorsBehind_lt (hG : (bipartite scopes).IsAcyclic) (hnd : ∀ vs ∈ scopes, vs.Nodup) {f i : Nat} {vs : List Var} {v : Var} (hf : scopes[f]? = some vs)
    (hi : vs[i]? = some v) :
    0 < factorsBehind scopes f v ∧ ∀ j w, vs[j]? = some w → j ≠ i → ∀ e ∈ edgesOf scopes w, e ≠ (f, j) → factorsBehind scopes e.1 w < factorsBehind scopes f v := by
  classical
  have hfv : (bipartite scopes).Adj (.inr f) (.inl v) := bipartite_adj'.2 ⟨i, vs, hf, hi⟩
  have hle : ∀ g < scopes.length, Behind scopes f v (.inr g) → ((bipartite scopes).dist (.inl v) (.inr g) + 1) / 2 ≤ factorsBehind scopes f v := by
    intro g hg hb
    unfold factorsBehind
    exact Finset.le_sup (f := fun g => ((bipartite scopes).dist (.inl v) (.inr g) + 1) / 2) (Finset.mem_filter.2 ⟨Finset.mem_range.2 hg, hb⟩)
  have hpos : 0 < factorsBehind scopes f v := by
    have := hle f (List.getElem?_eq_some_iff.1 hf).1 ⟨SimpleGraph.Reachable.refl _, by
      rw [SimpleGraph.dist_self, SimpleGraph.dist_eq_one_iff_adj.2 hfv]
      omega⟩
    rw [SimpleGraph.dist_eq_one_iff_adj.2 hfv.symm] at this
    omega
  refine ⟨hpos, ?_⟩
  intro j w hj hji e he hne
  have he := (mem_edgesOf _ _ _ _).1 he
  have hwe : (bipartite scopes).Adj (.inl w) (.inr e.1) := bipartite_adj.2 ⟨e.2, he⟩
  have hwf : (bipartite scopes).Adj (.inl w) (.inr f) := bipartite_adj.2 ⟨j, vs, hf, hj⟩
  have hef : e.1 ≠ f := by
    intro h
    apply hne
    obtain ⟨g, k⟩ := e
    simp only at h
    subst h
    rw [show k = j from isEdge_unique hnd he ⟨vs, hf, hj⟩]
  have hwv : w ≠ v := by
    rintro rfl
    exact hji (isEdge_unique hnd ⟨vs, hf, hj⟩ ⟨vs, hf, hi⟩)
  show Finset.sup _ _ < _
  rw [Finset.sup_lt_iff hpos]
  intro g hg
  obtain ⟨hg, hr, hlt⟩ := Finset.mem_filter.1 hg
  have hrw := hr.trans hwe.symm.reachable
  have h1 : (bipartite scopes).dist (.inr g) (.inr f) = (bipartite scopes).dist (.inr g) (.inl w) + 1 := by
    rcases hG.dist_eq_dist_add_one_of_adj_of_reachable (.inr g) hwf hrw with h | h
    · have := acyclic_closer_unique hG hrw hwe hwf hlt (by omega)
      exact absurd (Sum.inr.inj this) hef
    · exact h
  have hrf := hrw.trans hwf.reachable
  have h2 : (bipartite scopes).dist (.inr g) (.inl v) = (bipartite scopes).dist (.inr g) (.inr f) + 1 := by
    rcases hG.dist_eq_dist_add_one_of_adj_of_reachable (.inr g) hfv hrf with h | h
    · have := acyclic_closer_unique hG hrf hwf.symm hfv (by omega) (by omega)
      exact absurd (Sum.inl.inj this) hwv
    · exact h
  have h3 := hle g (Finset.mem_range.1 hg) ⟨hrf, by omega⟩
  rw [SimpleGraph.dist_comm] at h3
  rw [SimpleGraph.dist_comm]
  omega

/-- An upper bound by distances. -/
theorem factorsBehind_le {f : Nat} {v : Var} {K : Nat} (hK : ∀ g, (bipartite scopes).dist (.inl v) (.inr g) < 2 * K) : factorsBehind scopes f v ≤ K := by
  classical
  refine Finset.sup_le fun g _ => ?_
  have := hK g
  omega

end
end PGMax
