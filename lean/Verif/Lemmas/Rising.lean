import Mathlib.Topology.Order.Lattice
import Mathlib.Topology.Order.MonotoneConvergence
import Verif.Lemmas.Attractive
import Verif.Lemmas.Contract
/-! Messages that favour higher states more with every iteration converge. -/
namespace PGMax

open Filter Topology

variable {factors : List (SFac ℝ)} {Φ : Nat → List ℝ → ℝ} {ev : Var → Nat → ℝ} {d : ℝ}

/-- One iteration depends continuously on the messages. -/
theorem sumStep_lip (hΦ : ∀ f, Summary (Φ f)) (hrow : ∀ F ∈ factors, ∀ r ∈ F.rows, List.Forall₂ (fun s (v : Var) => s < v.n) r.1 F.scope) (hd : 0 ≤ d ∧ d ≤ 1)
    {f i : Nat} {v : Var} (he : IsEdge (factors.map (·.scope)) f i v) : ∃ K, 0 ≤ K ∧ ∀ (m m' : Msgs ℝ) (D : ℝ), 0 ≤ D →
      (∀ f i v s, IsEdge (factors.map (·.scope)) f i v → s < v.n → |m f i s - m' f i s| ≤ D) → ∀ s < v.n, |sumStep Φ factors ev d m f i s - sumStep Φ factors ev d m' f i s| ≤ K * D := by
  obtain ⟨F, hF, hi⟩ := isEdge_factors he
  refine ⟨2 + 2 * (inputsBut (factors.map (·.scope)) F.scope i : ℝ), by positivity, fun m m' D hD h s hs => ?_⟩
  obtain ⟨LO, HI, hle, hsc⟩ := (Close.of_abs h hD).score hF ev i
  by_cases hne : ∃ r ∈ F.rows, True
  swap
  · have hempty : ∀ t, F.rowsAt i t = [] := by
      intro t
      refine List.eq_nil_iff_forall_not_mem.2 fun r hr => hne ⟨r, List.mem_of_mem_filter hr, trivial⟩
    rw [sumStep_at Φ hF hi, sumStep_at Φ hF hi, tbNorm_bot (by unfold sumOut; rw [if_pos (hempty s)]; rfl), tbNorm_bot (by unfold sumOut; rw [if_pos (hempty s)]; rfl), sub_self, abs_zero]
    positivity
  · obtain ⟨r0, hr0, -⟩ := hne
    have hLH : LO ≤ HI := by
      obtain ⟨k1, k2⟩ := hsc r0 (hrow F (List.mem_of_getElem? hF) r0 hr0)
      linarith
    obtain ⟨lo, hi', h1, h2, h3, h4⟩ := tbNorm_osc (n := v.n)
      (x := fun s => (sumOut (Φ f) F (tbIn factors ev m f F) i s).map (fun x => d * m f i s + (1 - d) * x))
      (y := fun s => (sumOut (Φ f) F (tbIn factors ev m' f F) i s).map (fun x => d * m' f i s + (1 - d) * x))
      (lo := d * (-D) + (1 - d) * LO) (hi := d * D + (1 - d) * HI) (fun t ht => by
        by_cases h0 : F.rowsAt i t = []
        · left
          unfold sumOut
          rw [if_pos h0, if_pos h0]
          exact ⟨rfl, rfl⟩
        · right
          unfold sumOut
          rw [if_neg h0, if_neg h0]
          refine ⟨_, _, rfl, rfl, ?_⟩
          have k1 := (hΦ f).mono (F.rowsAt i t) (scoreBut F.scope.length (tbIn factors ev m f F) i) (scoreBut F.scope.length (tbIn factors ev m' f F) i) HI h0 (by
            intro r hr
            have := (hsc r (hrow F (List.mem_of_getElem? hF) r (List.mem_of_mem_filter hr))).2
            linarith)
          have k2 := (hΦ f).mono (F.rowsAt i t) (scoreBut F.scope.length (tbIn factors ev m' f F) i) (scoreBut F.scope.length (tbIn factors ev m f F) i) (-LO) h0 (by
            intro r hr
            have := (hsc r (hrow F (List.mem_of_getElem? hF) r (List.mem_of_mem_filter hr))).1
            linarith)
          have k3 := abs_le.1 (h f i v t he ht)
          have j1 := mul_le_mul_of_nonneg_left k3.1 hd.1
          have j2 := mul_le_mul_of_nonneg_left k3.2 hd.1
          have j3 := mul_le_mul_of_nonneg_left k1 (by linarith [hd.2] : 0 ≤ 1 - d)
          have j4 := mul_le_mul_of_nonneg_left k2 (by linarith [hd.2] : 0 ≤ 1 - d)
          constructor <;> nlinarith)
      (by have := mul_le_mul_of_nonneg_left hLH (by linarith [hd.2] : 0 ≤ 1 - d); nlinarith [mul_nonneg hd.1 hD])
    obtain ⟨h5, h6⟩ := h4 s hs
    rw [sumStep_at Φ hF hi, sumStep_at Φ hF hi]
    have hw : d * D + (1 - d) * HI - (d * (-D) + (1 - d) * LO) ≤ (2 + 2 * (inputsBut (factors.map (·.scope)) F.scope i : ℝ)) * D := by
      have q1 : (1 - d) * (HI - LO) ≤ HI - LO := mul_le_of_le_one_left (by linarith) (by linarith [hd.1])
      have q2 : d * D ≤ D := mul_le_of_le_one_left hD hd.2
      nlinarith
    rw [abs_le]
    constructor <;> linarith

/-- Convergence on every edge is uniform. -/
theorem eventually_edges {M : Nat → Msgs ℝ} {L : Msgs ℝ} (h : ∀ f i v s, IsEdge (factors.map (·.scope)) f i v → s < v.n → Tendsto (fun n => M n f i s) atTop (𝓝 (L f i s))) {ε : ℝ} (hε : 0 < ε) :
    ∀ᶠ n in atTop, ∀ f i v s, IsEdge (factors.map (·.scope)) f i v → s < v.n → |M n f i s - L f i s| ≤ ε := by
  have key : ∀ f ∈ Finset.range factors.length, ∀ᶠ n in atTop, ∀ i v s, IsEdge (factors.map (·.scope)) f i v → s < v.n → |M n f i s - L f i s| ≤ ε := by
    intro f hf
    have hf := Finset.mem_range.1 hf
    have k2 : ∀ i ∈ Finset.range (factors[f]).scope.length, ∀ᶠ n in atTop, ∀ v s, IsEdge (factors.map (·.scope)) f i v → s < v.n → |M n f i s - L f i s| ≤ ε := by
      intro i hi
      have hi := Finset.mem_range.1 hi
      have k3 : ∀ s ∈ Finset.range ((factors[f]).scope[i]).n, ∀ᶠ n in atTop, |M n f i s - L f i s| ≤ ε := by
        intro s hs
        have he : IsEdge (factors.map (·.scope)) f i ((factors[f]).scope[i]) := ⟨_, by rw [List.getElem?_map, List.getElem?_eq_getElem hf]; rfl, List.getElem?_eq_getElem hi⟩
        have := (h f i _ s he (Finset.mem_range.1 hs)).eventually (Metric.closedBall_mem_nhds _ hε)
        filter_upwards [this] with n hn
        rwa [Real.dist_eq] at hn
      filter_upwards [(eventually_all_finset _).2 k3] with n hn v s he hs
      obtain ⟨F, hF, hv⟩ := isEdge_factors he
      have e1 : factors[f] = F := (List.getElem?_eq_some_iff.1 hF).2
      have e2 : (factors[f]).scope[i] = v := by
        have := (List.getElem?_eq_some_iff.1 (e1 ▸ hv : (factors[f]).scope[i]? = some v)).2
        exact this
      exact hn s (by rw [e2]; exact Finset.mem_range.2 hs)
    filter_upwards [(eventually_all_finset _).2 k2] with n hn i v s he hs
    refine hn i ?_ v s he hs
    obtain ⟨F, hF, hv⟩ := isEdge_factors he
    have e1 : factors[f] = F := (List.getElem?_eq_some_iff.1 hF).2
    rw [e1]
    exact Finset.mem_range.2 (List.getElem?_eq_some_iff.1 hv).1
  filter_upwards [(eventually_all_finset _).2 key] with n hn f i v s he hs
  obtain ⟨F, hF, hv⟩ := isEdge_factors he
  exact hn f (Finset.mem_range.2 (List.getElem?_eq_some_iff.1 hF).1) i v s he hs

/-- Limits of iterations are not changed by an iteration. -/
theorem sumRun_fixed (hΦ : ∀ f, Summary (Φ f)) (hrow : ∀ F ∈ factors, ∀ r ∈ F.rows, List.Forall₂ (fun s (v : Var) => s < v.n) r.1 F.scope) (hd : 0 ≤ d ∧ d ≤ 1) {m L : Msgs ℝ}
    (h : ∀ f i v s, IsEdge (factors.map (·.scope)) f i v → s < v.n → Tendsto (fun n => sumRun Φ factors ev d n m f i s) atTop (𝓝 (L f i s))) :
    AgreeOn (factors.map (·.scope)) (sumStep Φ factors ev d L) L := by
  intro f i v s he hs
  obtain ⟨K, hK, hlip⟩ := sumStep_lip (ev := ev) hΦ hrow hd he
  have h1 : Tendsto (fun n => sumRun Φ factors ev d (n + 1) m f i s) atTop (𝓝 (sumStep Φ factors ev d L f i s)) := by
    rw [Metric.tendsto_atTop']
    intro ε hε
    obtain ⟨N, hN⟩ := eventually_atTop.1 (eventually_edges (factors := factors) h (ε := ε / (2 * (K + 1))) (by positivity))
    refine ⟨N, fun n hn => ?_⟩
    rw [Real.dist_eq]
    have := hlip _ _ _ (by positivity) (hN n hn.le) s hs
    refine lt_of_le_of_lt this ?_
    rw [mul_div_assoc', div_lt_iff₀ (by positivity)]
    nlinarith
  exact tendsto_nhds_unique h1 ((tendsto_add_atTop_iff_nat 1).2 (h f i v s he hs))

/-- Values in `[-1000, 0]` with maximum 0. -/
def IsNormal (n : Nat) (x : Nat → ℝ) : Prop := (∀ s < n, -1000 ≤ x s ∧ x s ≤ 0) ∧ (0 < n → ∃ s < n, x s = 0)

theorem IsNormal.sup {n : Nat} {x : Nat → ℝ} (h : IsNormal n x) {s : Nat} (hne : (Finset.range n).Nonempty) : (Finset.range n).sup' hne (fun t => x t - x s) = -x s := by
  obtain ⟨u, hu⟩ := id hne
  obtain ⟨t, ht, he⟩ := h.2 (by have := Finset.mem_range.1 hu; omega)
  apply le_antisymm
  · refine Finset.sup'_le _ _ fun u hu => ?_
    have := (h.1 u (Finset.mem_range.1 hu)).2
    linarith
  · refine le_trans ?_ (Finset.le_sup' (fun t => x t - x s) (Finset.mem_range.2 ht))
    rw [he]
    simp

/-- Normalised messages converge if all differences of their entries do. -/
theorem normal_converges {n : Nat} {x : Nat → Nat → ℝ} (hx : ∀ k, IsNormal n (x k)) {D : Nat → Nat → ℝ} (hD : ∀ s < n, ∀ t < n, Tendsto (fun k => x k t - x k s) atTop (𝓝 (D s t))) {s : Nat} (hs : s < n) :
    Tendsto (fun k => x k s) atTop (𝓝 (-((Finset.range n).sup' ⟨s, Finset.mem_range.2 hs⟩ (D s)))) := by
  have hne : (Finset.range n).Nonempty := ⟨s, Finset.mem_range.2 hs⟩
  have h1 : Tendsto (fun k => (Finset.range n).sup' hne (fun t => x k t - x k s)) atTop (𝓝 ((Finset.range n).sup' hne (D s))) :=
    Tendsto.finset_sup'_nhds_apply hne (fun t ht => hD s hs t (Finset.mem_range.1 ht))
  exact h1.neg.congr fun k => by rw [(hx k).sup, neg_neg]

/-- A sequence of normalised messages of `n` states that favour higher states more and more converges. -/
theorem rising_converges {n : Nat} {x : Nat → Nat → ℝ} (hr : ∀ k, Rises n (x k) (x (k + 1))) (hx : ∀ k, IsNormal n (x k)) :
    ∃ l : Nat → ℝ, ∀ s < n, Tendsto (fun k => x k s) atTop (𝓝 (l s)) := by
  have hpair : ∀ s < n, ∀ t < n, ∃ l, Tendsto (fun k => x k t - x k s) atTop (𝓝 l) := by
    have hup : ∀ s t, s ≤ t → t < n → ∃ l, Tendsto (fun k => x k t - x k s) atTop (𝓝 l) := by
      intro s t hst ht
      have hmono : Monotone (fun k => x k t - x k s) := by
        refine monotone_nat_of_le_succ fun k => ?_
        have := hr k s t hst ht
        linarith
      refine ⟨_, tendsto_atTop_ciSup hmono ⟨1000, ?_⟩⟩
      rintro _ ⟨k, rfl⟩
      have := (hx k).1 t ht
      have := (hx k).1 s (by omega)
      simp only
      linarith
    intro s hs t ht
    rcases le_total s t with hst | hst
    · exact hup s t hst ht
    · obtain ⟨l, hl⟩ := hup t s hst hs
      refine ⟨-l, hl.neg.congr fun k => by ring⟩
  choose! D hD using hpair
  have : ∀ s, ∃ l, s < n → Tendsto (fun k => x k s) atTop (𝓝 l) := by
    intro s
    by_cases hs : s < n
    · exact ⟨_, fun _ => normal_converges hx hD hs⟩
    · exact ⟨0, fun h => absurd h hs⟩
  choose l hl using this
  exact ⟨l, fun s hs => hl s hs⟩

/-- The same with lower states. -/
theorem falling_converges {n : Nat} {x : Nat → Nat → ℝ} (hr : ∀ k, Rises n (x (k + 1)) (x k)) (hx : ∀ k, IsNormal n (x k)) :
    ∃ l : Nat → ℝ, ∀ s < n, Tendsto (fun k => x k s) atTop (𝓝 (l s)) := by
  obtain ⟨l, hl⟩ := rising_converges (n := n) (x := fun k s => x k (n - 1 - s)) (fun k s s' hle hs => by
    have := hr k (n - 1 - s') (n - 1 - s) (by omega) (by omega)
    linarith) (fun k => ⟨fun s hs => (hx k).1 _ (by omega), fun hn => by
      obtain ⟨s, hs, e⟩ := (hx k).2 hn
      exact ⟨n - 1 - s, by omega, by
        simp only
        rw [show n - 1 - (n - 1 - s) = s by omega]
        exact e⟩⟩)
  refine ⟨fun s => l (n - 1 - s), fun s hs => ?_⟩
  have := hl (n - 1 - s) (by omega)
  rwa [show n - 1 - (n - 1 - s) = s by omega] at this

/-- Between two sequences of normalised messages with the same limit. -/
theorem between_converges {n : Nat} {x y z : Nat → Nat → ℝ} {l : Nat → ℝ} (h1 : ∀ k, Rises n (x k) (y k)) (h2 : ∀ k, Rises n (y k) (z k)) (hy : ∀ k, IsNormal n (y k)) (hl : IsNormal n l)
    (hx : ∀ s < n, Tendsto (fun k => x k s) atTop (𝓝 (l s))) (hz : ∀ s < n, Tendsto (fun k => z k s) atTop (𝓝 (l s))) {s : Nat} (hs : s < n) : Tendsto (fun k => y k s) atTop (𝓝 (l s)) := by
  have hup : ∀ s t, s ≤ t → t < n → Tendsto (fun k => y k t - y k s) atTop (𝓝 (l t - l s)) := by
    intro s t hst ht
    refine tendsto_of_tendsto_of_tendsto_of_le_of_le ((hx t ht).sub (hx s (by omega))) ((hz t ht).sub (hz s (by omega))) (fun k => ?_) (fun k => ?_)
    · have := h1 k s t hst ht
      simp only
      linarith
    · have := h2 k s t hst ht
      simp only
      linarith
  have := normal_converges hy (D := fun s t => l t - l s) (fun s hs t ht => by
    rcases le_total s t with hst | hst
    · exact hup s t hst ht
    · exact (hup t s hst hs).neg.congr' (Eventually.of_forall fun k => by simp) |>.trans (by simp)) hs
  have hs' := hl.sup (s := s) ⟨s, Finset.mem_range.2 hs⟩
  rw [show (Finset.range n).sup' ⟨s, Finset.mem_range.2 hs⟩ (fun t => l t - l s) = -l s from hs', neg_neg] at this
  exact this

/-- Attractive factors, all of whose states occur, on binary variables or with messages that are not clipped. -/
structure Attracts (Φ : Nat → List ℝ → ℝ) (factors : List (SFac ℝ)) : Prop where
  rises : RisingFactors factors factors
  summary : ∀ f, Summary (Φ f)
  rows : ∀ F ∈ factors, ∀ r ∈ F.rows, List.Forall₂ (fun s (v : Var) => s < v.n) r.1 F.scope
  full : ∀ F ∈ factors, F.Full
  gentle : ∀ F ∈ factors, F.Gentle
  through : ∀ f F, factors[f]? = some F → RisesThrough (Φ f) F F

theorem Attracts.normal (h : Attracts Φ factors) (m : Msgs ℝ) (n : Nat) {f i : Nat} {v : Var} (he : IsEdge (factors.map (·.scope)) f i v) : IsNormal v.n (sumRun Φ factors ev d n m f i) := by
  refine ⟨fun s hs => sumRun_mem m n he hs, fun hn => ?_⟩
  obtain ⟨t, ht, hmax⟩ := Finset.exists_max_image (Finset.range v.n) (sumRun Φ factors ev d n m f i) ⟨0, Finset.mem_range.2 hn⟩
  have ht := Finset.mem_range.1 ht
  obtain ⟨F, hF, hi⟩ := isEdge_factors he
  have := sumRun_init (Φ := Φ) (ev := ev) (d := d) (fun F hF i v hi s hs => h.full F hF i v s hi hs) m n he ht
  rw [tbInit_at hF hi, tbNorm_coe (b := sumRun Φ factors ev d n m f i t) (sup_eq ⟨t, ht, rfl⟩ (fun u hu => WithBot.coe_le_coe.2 (hmax u (Finset.mem_range.2 hu)))) rfl, sub_self,
    max_eq_left (by norm_num)] at this
  exact ⟨t, ht, this.symm⟩

theorem Attracts.step (h : Attracts Φ factors) (hd : 0 ≤ d ∧ d ≤ 1) {m m' : Msgs ℝ} (hm : RisingMsgs (factors.map (·.scope)) m m') (hc : Clipped (factors.map (·.scope)) m)
    (hc' : Clipped (factors.map (·.scope)) m') : RisingMsgs (factors.map (·.scope)) (sumStep Φ factors ev d m) (sumStep Φ factors ev d m') :=
  h.rises.step (fun _ _ _ _ => fun _ _ _ _ => by simp) h.summary h.rows h.rows h.full h.full h.gentle h.gentle (fun f F F' hF hF' => by
    rw [hF] at hF'
    cases hF'
    exact h.through f F hF) hd hm hc hc'

theorem Attracts.compare (h : Attracts Φ factors) (hd : 0 ≤ d ∧ d ≤ 1) {m m' : Msgs ℝ} (j j' : Nat)
    (h0 : RisingMsgs (factors.map (·.scope)) (sumRun Φ factors ev d j m) (sumRun Φ factors ev d j' m')) (n : Nat) :
    RisingMsgs (factors.map (·.scope)) (sumRun Φ factors ev d (j + n) m) (sumRun Φ factors ev d (j' + n) m') := by
  induction n with
  | zero => exact h0
  | succ n ih => exact h.step hd ih (sumRun_clipped _ _ _ _ _ _) (sumRun_clipped _ _ _ _ _ _)

theorem Attracts.limit_up (h : Attracts Φ factors) (hd : 0 ≤ d ∧ d ≤ 1) {m : Msgs ℝ} (h0 : RisingMsgs (factors.map (·.scope)) (sumRun Φ factors ev d 0 m) (sumRun Φ factors ev d 1 m)) :
    (∀ n, RisingMsgs (factors.map (·.scope)) (sumRun Φ factors ev d n m) (sumRun Φ factors ev d (n + 1) m)) ∧
    ∃ L : Msgs ℝ, (∀ f i v s, IsEdge (factors.map (·.scope)) f i v → s < v.n → Tendsto (fun n => sumRun Φ factors ev d n m f i s) atTop (𝓝 (L f i s))) ∧
      AgreeOn (factors.map (·.scope)) (sumStep Φ factors ev d L) L := by
  have hr : ∀ n, RisingMsgs (factors.map (·.scope)) (sumRun Φ factors ev d n m) (sumRun Φ factors ev d (n + 1) m) := by
    intro n
    have := h.compare hd 0 1 h0 n
    rwa [Nat.zero_add, Nat.add_comm 1 n] at this
  refine ⟨hr, ?_⟩
  have : ∀ f i, ∃ l : Nat → ℝ, ∀ v, IsEdge (factors.map (·.scope)) f i v → ∀ s < v.n, Tendsto (fun n => sumRun Φ factors ev d n m f i s) atTop (𝓝 (l s)) := by
    intro f i
    by_cases hex : ∃ v, IsEdge (factors.map (·.scope)) f i v
    · obtain ⟨v, he⟩ := hex
      obtain ⟨l, hl⟩ := rising_converges (fun k => hr k f i v he) (fun k => h.normal m k he)
      refine ⟨l, fun v' he' => ?_⟩
      obtain rfl := he.unique he'
      exact hl
    · exact ⟨fun _ => 0, fun v he => absurd ⟨v, he⟩ hex⟩
  choose L hL using this
  exact ⟨L, fun f i v s he hs => hL f i v he s hs, sumRun_fixed h.summary h.rows hd (fun f i v s he hs => hL f i v he s hs)⟩

theorem Attracts.limit_down (h : Attracts Φ factors) (hd : 0 ≤ d ∧ d ≤ 1) {m : Msgs ℝ} (h0 : RisingMsgs (factors.map (·.scope)) (sumRun Φ factors ev d 1 m) (sumRun Φ factors ev d 0 m)) :
    (∀ n, RisingMsgs (factors.map (·.scope)) (sumRun Φ factors ev d (n + 1) m) (sumRun Φ factors ev d n m)) ∧
    ∃ L : Msgs ℝ, (∀ f i v s, IsEdge (factors.map (·.scope)) f i v → s < v.n → Tendsto (fun n => sumRun Φ factors ev d n m f i s) atTop (𝓝 (L f i s))) ∧
      AgreeOn (factors.map (·.scope)) (sumStep Φ factors ev d L) L := by
  have hr : ∀ n, RisingMsgs (factors.map (·.scope)) (sumRun Φ factors ev d (n + 1) m) (sumRun Φ factors ev d n m) := by
    intro n
    have := h.compare hd 1 0 h0 n
    rwa [Nat.zero_add, Nat.add_comm 1 n] at this
  refine ⟨hr, ?_⟩
  have : ∀ f i, ∃ l : Nat → ℝ, ∀ v, IsEdge (factors.map (·.scope)) f i v → ∀ s < v.n, Tendsto (fun n => sumRun Φ factors ev d n m f i s) atTop (𝓝 (l s)) := by
    intro f i
    by_cases hex : ∃ v, IsEdge (factors.map (·.scope)) f i v
    · obtain ⟨v, he⟩ := hex
      obtain ⟨l, hl⟩ := falling_converges (fun k => hr k f i v he) (fun k => h.normal m k he)
      refine ⟨l, fun v' he' => ?_⟩
      obtain rfl := he.unique he'
      exact hl
    · exact ⟨fun _ => 0, fun v he => absurd ⟨v, he⟩ hex⟩
  choose L hL using this
  exact ⟨L, fun f i v s he hs => hL f i v he s hs, sumRun_fixed h.summary h.rows hd (fun f i v s he hs => hL f i v he s hs)⟩

theorem IsLowest.least {lo m : Msgs ℝ} {scopes : List (List Var)} (hlo : IsLowest scopes lo) (hbin : ∀ f i v, IsEdge scopes f i v → v.n ≤ 2) (hc : Clipped scopes m) : RisingMsgs scopes lo m := by
  intro f i v he s s' hle hs
  have hb := hbin f i v he
  rcases hle.eq_or_lt with rfl | hlt
  · exact le_rfl
  · obtain ⟨rfl, rfl⟩ : s = 0 ∧ s' = 1 := by omega
    rw [hlo f i v 0 he (by omega), hlo f i v 1 he hs, if_pos rfl, if_neg (by decide)]
    have := hc f i v 0 he (by omega)
    have := hc f i v 1 he hs
    linarith

theorem IsHighest.greatest {hi m : Msgs ℝ} {scopes : List (List Var)} (hhi : IsHighest scopes hi) (hbin : ∀ f i v, IsEdge scopes f i v → v.n ≤ 2) (hc : Clipped scopes m) : RisingMsgs scopes m hi := by
  intro f i v he s s' hle hs
  have hb := hbin f i v he
  rcases hle.eq_or_lt with rfl | hlt
  · exact le_rfl
  · obtain ⟨rfl, rfl⟩ : s = 0 ∧ s' = 1 := by omega
    rw [hhi f i v 0 he (by omega), hhi f i v 1 he hs, if_neg (by omega), if_pos (by omega)]
    have := hc f i v 0 he (by omega)
    have := hc f i v 1 he hs
    linarith

theorem IsLowest.init {lo : Msgs ℝ} (hlo : IsLowest (factors.map (·.scope)) lo) : IsLowest (factors.map (·.scope)) (sumRun Φ factors ev d 0 lo) := by
  intro f i v s he hs
  obtain ⟨F, hF, hi⟩ := isEdge_factors he
  have h0 := hlo f i v 0 he (by omega)
  have hse := hlo f i v s he hs
  rw [if_pos rfl] at h0
  show tbInit factors lo f i s = _
  rw [tbInit_at hF hi, tbNorm_coe (b := (0 : ℝ)) (sup_eq ⟨0, by omega, by rw [h0]⟩ (fun u hu => by
    rw [hlo f i v u he hu]
    refine WithBot.coe_le_coe.2 ?_
    split <;> norm_num)) rfl, hse]
  split <;> norm_num

theorem IsHighest.init {hi : Msgs ℝ} (hhi : IsHighest (factors.map (·.scope)) hi) : IsHighest (factors.map (·.scope)) (sumRun Φ factors ev d 0 hi) := by
  intro f i v s he hs
  obtain ⟨F, hF, hj⟩ := isEdge_factors he
  have h0 := hhi f i v (v.n - 1) he (by omega)
  have hse := hhi f i v s he hs
  rw [if_pos (by omega)] at h0
  show tbInit factors hi f i s = _
  rw [tbInit_at hF hj, tbNorm_coe (b := (0 : ℝ)) (sup_eq ⟨v.n - 1, by omega, by rw [h0]⟩ (fun u hu => by
    rw [hhi f i v u he hu]
    refine WithBot.coe_le_coe.2 ?_
    split <;> norm_num)) rfl, hse]
  split <;> norm_num

theorem RisingMsgs.congr {scopes : List (List Var)} {m m' x x' : Msgs ℝ} (h : RisingMsgs scopes m m') (hx : AgreeOn scopes x m) (hx' : AgreeOn scopes x' m') : RisingMsgs scopes x x' := by
  intro f i v he s s' hle hs
  rw [hx f i v s he (by omega), hx f i v s' he hs, hx' f i v s he (by omega), hx' f i v s' he hs]
  exact h f i v he s s' hle hs

theorem RisingMsgs.limit {scopes : List (List Var)} {x y : Nat → Msgs ℝ} {l m : Msgs ℝ} (h : ∀ n, RisingMsgs scopes (x n) (y n))
    (hx : ∀ f i v s, IsEdge scopes f i v → s < v.n → Tendsto (fun n => x n f i s) atTop (𝓝 (l f i s))) (hy : ∀ f i v s, IsEdge scopes f i v → s < v.n → Tendsto (fun n => y n f i s) atTop (𝓝 (m f i s))) :
    RisingMsgs scopes l m := by
  intro f i v he s s' hle hs
  exact le_of_tendsto_of_tendsto' ((hy f i v s he (by omega)).sub (hx f i v s he (by omega))) ((hy f i v s' he hs).sub (hx f i v s' he hs)) (fun n => h n f i v he s s' hle hs)

/-- Messages at rest are normalised. -/
theorem Attracts.rest (h : Attracts Φ factors) {m : Msgs ℝ} (hm : AgreeOn (factors.map (·.scope)) (sumStep Φ factors ev d m) m) : AgreeOn (factors.map (·.scope)) (sumRun Φ factors ev d 0 m) m := by
  intro f i v s he hs
  obtain ⟨F, hF, hi⟩ := isEdge_factors he
  have e : ∀ t < v.n, m f i t = tbNorm v.n (fun s => (sumOut (Φ f) F (tbIn factors ev m f F) i s).map (fun x => d * m f i s + (1 - d) * x)) t := fun t ht => by
    rw [← hm f i v t he ht, sumStep_at Φ hF hi]
  show tbInit factors m f i s = m f i s
  rw [tbInit_at hF hi, tbNorm_congr (fun t ht => congrArg WithBot.some (e t ht)) hs, tbNorm_idem _ ⟨s, hs, ?_⟩ hs, ← e s hs]
  unfold sumOut
  rw [if_neg (h.full F (List.mem_of_getElem? hF) i v s hi hs)]
  exact WithBot.coe_ne_bot

theorem Attracts.rest_normal (h : Attracts Φ factors) {m : Msgs ℝ} (hm : AgreeOn (factors.map (·.scope)) (sumStep Φ factors ev d m) m) {f i : Nat} {v : Var} (he : IsEdge (factors.map (·.scope)) f i v) :
    IsNormal v.n (m f i) := by
  have h1 := h.normal (ev := ev) (d := d) m 0 he
  refine ⟨fun s hs => ?_, fun hn => ?_⟩
  · rw [← h.rest hm f i v s he hs]
    exact h1.1 s hs
  · obtain ⟨s, hs, e⟩ := h1.2 hn
    exact ⟨s, hs, by rw [← h.rest hm f i v s he hs, e]⟩

/-- Binary variables: the runs from the lowest and the highest messages bracket all others. -/
theorem Attracts.bracket (h : Attracts Φ factors) (hd : 0 ≤ d ∧ d ≤ 1) (hbin : ∀ f i v, IsEdge (factors.map (·.scope)) f i v → v.n ≤ 2) {lo hi : Msgs ℝ} (hlo : IsLowest (factors.map (·.scope)) lo)
    (hhi : IsHighest (factors.map (·.scope)) hi) :
    (∀ n, RisingMsgs (factors.map (·.scope)) (sumRun Φ factors ev d n lo) (sumRun Φ factors ev d (n + 1) lo)) ∧
    (∀ n, RisingMsgs (factors.map (·.scope)) (sumRun Φ factors ev d (n + 1) hi) (sumRun Φ factors ev d n hi)) ∧
    (∀ m n, RisingMsgs (factors.map (·.scope)) (sumRun Φ factors ev d n lo) (sumRun Φ factors ev d n m) ∧ RisingMsgs (factors.map (·.scope)) (sumRun Φ factors ev d n m) (sumRun Φ factors ev d n hi)) ∧
    ∃ L H : Msgs ℝ, (∀ f i v s, IsEdge (factors.map (·.scope)) f i v → s < v.n → Tendsto (fun n => sumRun Φ factors ev d n lo f i s) atTop (𝓝 (L f i s))) ∧
      (∀ f i v s, IsEdge (factors.map (·.scope)) f i v → s < v.n → Tendsto (fun n => sumRun Φ factors ev d n hi f i s) atTop (𝓝 (H f i s))) ∧
      AgreeOn (factors.map (·.scope)) (sumStep Φ factors ev d L) L ∧ AgreeOn (factors.map (·.scope)) (sumStep Φ factors ev d H) H ∧
      (∀ m, AgreeOn (factors.map (·.scope)) (sumStep Φ factors ev d m) m → RisingMsgs (factors.map (·.scope)) L m ∧ RisingMsgs (factors.map (·.scope)) m H) ∧
      (AgreeOn (factors.map (·.scope)) L H → ∀ m f i v s, IsEdge (factors.map (·.scope)) f i v → s < v.n → Tendsto (fun n => sumRun Φ factors ev d n m f i s) atTop (𝓝 (L f i s))) := by
  have hlo' := hlo.init (Φ := Φ) (ev := ev) (d := d)
  have hhi' := hhi.init (Φ := Φ) (ev := ev) (d := d)
  obtain ⟨a1, L, a2, a3⟩ := h.limit_up hd (hlo'.least hbin (sumRun_clipped Φ factors ev d 1 lo))
  obtain ⟨b1, H, b2, b3⟩ := h.limit_down hd (hhi'.greatest hbin (sumRun_clipped Φ factors ev d 1 hi))
  have key : ∀ m n, RisingMsgs (factors.map (·.scope)) (sumRun Φ factors ev d n lo) (sumRun Φ factors ev d n m) ∧ RisingMsgs (factors.map (·.scope)) (sumRun Φ factors ev d n m) (sumRun Φ factors ev d n hi) := by
    intro m n
    have c1 := h.compare hd 0 0 (hlo'.least hbin (sumRun_clipped Φ factors ev d 0 m)) n
    have c2 := h.compare hd 0 0 (hhi'.greatest hbin (sumRun_clipped Φ factors ev d 0 m)) n
    rw [Nat.zero_add] at c1 c2
    exact ⟨c1, c2⟩
  refine ⟨a1, b1, key, L, H, a2, b2, a3, b3, fun m hm => ?_, fun heq m f i v s he hs => ?_⟩
  · have hall : ∀ n, AgreeOn (factors.map (·.scope)) (sumRun Φ factors ev d n m) m := by
      intro n
      induction n with
      | zero => exact h.rest hm
      | succ n ih =>
        intro f i v s he hs
        obtain ⟨K, -, hK⟩ := sumStep_lip (ev := ev) h.summary h.rows hd he
        have := hK (sumRun Φ factors ev d n m) m 0 le_rfl (fun f i v s he hs => by rw [ih f i v s he hs, sub_self, abs_zero]) s hs
        rw [mul_zero] at this
        rw [← hm f i v s he hs]
        exact sub_eq_zero.1 (abs_eq_zero.1 (le_antisymm this (abs_nonneg _)))
    have hlim : ∀ f i v s, IsEdge (factors.map (·.scope)) f i v → s < v.n → Tendsto (fun n => sumRun Φ factors ev d n m f i s) atTop (𝓝 (m f i s)) := fun f i v s he hs =>
      tendsto_const_nhds.congr fun n => (hall n f i v s he hs).symm
    exact ⟨RisingMsgs.limit (fun n => (key m n).1) a2 hlim, RisingMsgs.limit (fun n => (key m n).2) hlim b2⟩
  · exact between_converges (fun n => (key m n).1 f i v he) (fun n => (key m n).2 f i v he) (fun n => h.normal m n he) (h.rest_normal a3 he) (fun s hs => a2 f i v s he hs) (fun s hs => by
      rw [heq f i v s he hs]
      exact b2 f i v s he hs) hs

end PGMax
