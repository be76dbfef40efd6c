import Verif.Lemmas.PatchesRun
import Verif.Props.C61
import Verif.Props.C99

/-! # C103: the program with hidden variables over patches of an image -/

namespace PGMax

variable {κ α : Type}

/-- **C103.** The program builds its graph exactly if there is a patch (and there are at most `10 ^ 9` pixels); otherwise it raises a ValueError. -/
theorem C103_inputs [Zero α] {idX idZ : Nat} (hid : idX % 2 ^ 32 ≠ idZ % 2 ^ 32) (idF : Nat → Nat) (h w Q P : Nat) (W : List α) :
    ((∃ r : Patches κ α, patches idX idZ idF h w Q P W = .ok r) ↔ PatchSizes h w) ∧
    (¬ PatchSizes h w → (patches idX idZ idF h w Q P W : Py (Patches κ α)) = .error .valueError) := by
  refine ⟨⟨fun ⟨r, hr⟩ => ?_, fun hs => ?_⟩, fun hs => patches_error idX idZ idF hs Q P W⟩
  · by_contra hn
    rw [patches_error idX idZ idF hn] at hr
    cases hr
  · obtain ⟨fg, -, e⟩ := patches_ok (κ := κ) hid idF hs Q P W
    exact ⟨_, e⟩

theorem sum_four {M : Type _} [AddCommMonoid M] (a b c d : Finset Nat) (F : Nat → Nat → Nat → Nat → M) :
    ∑ k ∈ a, ∑ l ∈ b, ∑ i ∈ c, ∑ j ∈ d, F k l i j = ∑ i ∈ c, ∑ j ∈ d, ∑ k ∈ a, ∑ l ∈ b, F k l i j := by
  rw [Finset.sum_congr rfl (fun k _ => Finset.sum_comm), Finset.sum_comm]
  refine Finset.sum_congr rfl fun i _ => ?_
  rw [Finset.sum_congr rfl (fun k _ => Finset.sum_comm), Finset.sum_comm]

/-- **C103.** The graph has nine factors for every patch, any states of the pixels and of the hidden variables are a joint assignment, and its score is its evidence and `patchScore`: the potentials of all hidden
states with the pixels of their patches. -/
theorem C103_model [AddCommMonoid α] {idX idZ : Nat} (hid : idX % 2 ^ 32 ≠ idZ % 2 ^ 32) {idF : Nat → Nat} (hF : ((List.range 9).map idF).Nodup) {h w Q P : Nat}
    (hQ : 1 ≤ Q) (hP : 1 ≤ P) {W : List α} {r : Patches κ α} (hr : patches idX idZ idF h w Q P W = .ok r) (garbage : Garbage) :
    ∃ pix hidden hist, ∃ st : FGState κ α, IsGrid r.pixel (h + 2) (w + 2) P pix ∧ IsGrid r.hidden h w Q hidden ∧ graphOf [.arr r.pixel, .arr r.hidden] hist = r.fg ∧
      Compiled [.arr r.pixel, .arr r.hidden] hist garbage st ∧ (∃ l, r.fg.allFactors = .ok l ∧ (l.flatMap (·.2)).length = 9 * (h * w)) ∧
      ∀ x : Var → Nat, ((∃ ρ, Joint (graphVars [(.arr r.pixel : VGroup κ), .arr r.hidden]) (r.fg.factors st.logPotentials) x ρ) ↔
          (∀ a < h + 2, ∀ b < w + 2, x (pix a b) < P) ∧ ∀ a < h, ∀ b < w, x (hidden a b) < Q) ∧
        ∀ ρ, Joint (graphVars [(.arr r.pixel : VGroup κ), .arr r.hidden]) (r.fg.factors st.logPotentials) x ρ → ∀ ev : Var → Nat → α,
          jointScore (graphVars [(.arr r.pixel : VGroup κ), .arr r.hidden]) (r.fg.factors st.logPotentials) ev x ρ =
            ∑ a ∈ Finset.range (h + 2), ∑ b ∈ Finset.range (w + 2), ev (pix a b) (x (pix a b)) + ∑ a ∈ Finset.range h, ∑ b ∈ Finset.range w, ev (hidden a b) (x (hidden a b)) +
              patchScore h w Q P W (fun a b => x (hidden a b)) (fun a b => x (pix a b)) := by
  have hs : PatchSizes h w := (C103_inputs (κ := κ) hid idF h w Q P W).1.1 ⟨r, hr⟩
  obtain ⟨hist, st, hb⟩ := patches_build hid hF hs hQ hP W hr garbage
  obtain ⟨l, hl1, hl2⟩ := C61_compiled hb.compiled
  have h1 := isGrid_uniArr idX (h + 2) (w + 2) P
  have h2 := isGrid_uniArr idZ h w Q
  refine ⟨pixCell idX h w P, hidCell idZ h w Q, hist, st, ?_, ?_, ?_, ?_, ⟨l, ?_, ?_⟩, fun x => ?_⟩
  · rw [hb.pixel]; exact h1
  · rw [hb.hidden]; exact h2
  · rw [hb.pixel, hb.hidden]; exact hb.graph
  · rw [hb.pixel, hb.hidden]; exact hb.compiled
  · rw [← hb.graph]; exact hl1
  · have := congrArg List.length hl2
    rw [hb.graph, hb.factors, List.length_map, List.length_map, patchPlaces_length] at this
    exact this
  rw [hb.pixel, hb.hidden]
  have hvars : (∀ v ∈ graphVars (patchVgs κ idX idZ h w Q P), x v < v.n) ↔ (∀ a < h + 2, ∀ b < w + 2, x (pixCell idX h w P a b) < P) ∧ ∀ a < h, ∀ b < w, x (hidCell idZ h w Q a b) < Q := by
    constructor
    · intro hx
      exact ⟨fun a ha b hb => hx _ ((mem_patchVgs _).2 (.inl ⟨a, ha, b, hb, rfl⟩)), fun a ha b hb => hx _ ((mem_patchVgs _).2 (.inr ⟨a, ha, b, hb, rfl⟩))⟩
    · rintro ⟨k1, k2⟩ v hv
      rcases (mem_patchVgs v).1 hv with ⟨a, ha, b, hb, rfl⟩ | ⟨a, ha, b, hb, rfl⟩
      · exact k1 a ha b hb
      · exact k2 a ha b hb
  have key : ∀ hx : ∀ v ∈ graphVars (patchVgs κ idX idZ h w Q P), x v < v.n, List.Forall₂ (fun F z => F.Weighs x z) (r.fg.factors st.logPotentials)
      ((patchPlaces h w).map (fun q => (⟨[Q, P, 3, 3], W⟩ : NDArr α).read [x (hidCell idZ h w Q q.2.1 q.2.2), x (pixCell idX h w P (q.2.1 + q.1.1) (q.2.2 + q.1.2)), q.1.1, q.1.2])) := by
    intro hx
    obtain ⟨k1, k2⟩ := hvars.1 hx
    rw [hb.factors, List.forall₂_map_left_iff, List.forall₂_map_right_iff, List.forall₂_same]
    intro q hq
    obtain ⟨⟨q1, q2⟩, q3, q4⟩ := mem_patchPlaces.1 hq
    have z1 := k2 _ q3 _ q4
    have z2 := k1 (q.2.1 + q.1.1) (by omega) (q.2.2 + q.1.2) (by omega)
    exact pair_weighs _ _ Q P _ (patchData_length Q P W q.1) x z1 z2 _ (patchData_read Q P W q.1 z1 z2)
  constructor
  · constructor
    · rintro ⟨ρ, hρ⟩
      exact hvars.1 hρ.states
    · intro hx
      have hx := hvars.2 hx
      exact (joint_weighs hx (key hx)).1
  · intro ρ hρ ev
    rw [(joint_weighs hρ.states (key hρ.states)).2 ev ρ hρ, sum_places, graphVars_sum (patchVgs_ok hid hs Q P)]
    have e : ∀ id m n k, ((VGroup.arr (uniArr id [m, n] k) : VGroup κ).variables.map (fun v => ev v (x v))).sum =
        ∑ a ∈ Finset.range m, ∑ b ∈ Finset.range n, ev (uniCell id [m, n] k [a, b]) (x (uniCell id [m, n] k [a, b])) := by
      intro id m n k
      rw [show VGroup.variables (.arr (uniArr id [m, n] k) : VGroup κ) = (uniArr id [m, n] k).variables from rfl, uniArr_variables, ← grid_sum m n (fun p => ev (uniCell id [m, n] k [p.1, p.2]) (x (uniCell id [m, n] k [p.1, p.2])))]
      simp only [allIndices, grid, List.map_flatMap, List.map_map]
      congr 1
      simp only [List.map_cons, List.map_nil, ← List.map_eq_flatMap, Function.comp_def]
    simp only [List.map_cons, List.map_nil, List.sum_cons, List.sum_nil, add_zero]
    rw [e, e]
    congr 1
    unfold patchScore
    exact sum_four _ _ _ _ _

/-! ### Running the program -/

theorem sum_map_close {β : Type _} (l : List β) (f g : β → ℝ) {δ : ℝ} (h : ∀ x ∈ l, |f x - g x| ≤ δ) : |(l.map f).sum - (l.map g).sum| ≤ l.length * δ := by
  induction l with
  | nil => simp
  | cons x l ih =>
    have h1 := h x (by simp)
    have h2 := ih fun y hy => h y (by simp [hy])
    rw [List.map_cons, List.map_cons, List.sum_cons, List.sum_cons, List.length_cons, add_sub_add_comm]
    refine (abs_add_le _ _).trans ?_
    push_cast
    linarith

theorem HoldsGrid.congr {M N K : Nat} {m : NDArr (Option ℝ)} {p q : Nat → Nat → Nat → ℝ} (h : HoldsGrid M N K m p) (hq : ∀ a < M, ∀ b < N, ∀ t < K, p a b t = q a b t) : HoldsGrid M N K m q :=
  ⟨h.1, h.2.1, fun a ha b hb t ht => by rw [h.2.2 a ha b hb t ht, hq a ha b hb t ht]⟩

theorem PatchesReady.marginals [DecidableEq κ] {idX idZ h w Q P : Nat} {W E e : List ℝ} {T : ℝ} {garbage : Garbage} {s : PatchesSetup κ ℝ} {hist : List (AddArg ℝ)} {st : FGState κ ℝ} {state : BPState ℝ}
    (hr : PatchesReady idX idZ h w Q P W E e T garbage s hist st state) (hs : PatchSizes h w) (hQ : 2 ≤ Q) (hP : 2 ≤ P) {env : Env ℝ} (hexp : env.exp = Real.exp) (hlog : env.log = Real.log)
    (hsize : env.wrapNeg = false ∨ 9 * (h * w) * (Q + P) + max Q P ≤ 100000) (n : Nat) (d : ℝ) :
    ∃ m₁ m₂, patchesMarginals env s n d = .ok [(.arr s.net.pixel, .arr m₁), (.arr s.net.hidden, .arr m₂)] ∧
      HoldsGrid (h + 2) (w + 2) P m₁ (fun a b t => gibbs (beliefOf s.net.fg.allScopes (readEv st.varsToStarts s.arrays.evidence) (readMsgs s.net.fg.allScopes (s.bp.runBP env s.arrays n d).ftovMsgs)
        (pixCell idX h w P a b)) P t) ∧
      HoldsGrid h w Q m₂ (fun a b t => gibbs (beliefOf s.net.fg.allScopes (readEv st.varsToStarts s.arrays.evidence) (readMsgs s.net.fg.allScopes (s.bp.runBP env s.arrays n d).ftovMsgs)
        (hidCell idZ h w Q a b)) Q t) := by
  have hfit := hr.fits env hsize
  rw [← hr.graph] at hfit
  have hl := (hr.compiled.run_read hr.bp env hfit s.arrays d (by rw [hr.pots]) hr.len n hr.msgLen).1
  obtain ⟨h1, h2⟩ := patch_groups (κ := κ) (idX := idX) (idZ := idZ) hs hQ hP
  obtain ⟨bs, rs, e1, e2, e3, e4⟩ := C36_partial hr.compiled hr.bp env hexp hlog (s.bp.runBP env s.arrays n d) hl hr.len h1 h2
  rw [hr.graph, show (s.bp.runBP env s.arrays n d).evidence = s.arrays.evidence from rfl] at e4
  obtain ⟨⟨g₁, r₁⟩, ⟨g₂, r₂⟩, rfl⟩ : ∃ x y, rs = [x, y] := List.length_eq_two.1 (by simpa using congrArg List.length e3)
  simp only [List.map_cons, List.map_nil, List.cons.injEq, and_true] at e3
  obtain ⟨rfl, rfl⟩ := e3
  obtain ⟨m₁, rfl, k1⟩ := marginals_grid idX (h + 2) (w + 2) P r₁ (by omega) (by omega) (e4 (_, r₁) (by simp))
  obtain ⟨m₂, rfl, k2⟩ := marginals_grid idZ h w Q r₂ hs.1 hs.2.1 (e4 (_, r₂) (by simp))
  refine ⟨m₁, m₂, ?_, k1, k2⟩
  unfold patchesMarginals
  rw [e1, py_ok_bind, e2, hr.pixel, hr.hidden]

/-- **C103.** After any number of iterations with any potentials, evidence, temperature and damping the program reports a distribution for every pixel and every hidden variable: positive numbers that add up to 1. -/
theorem C103_marginals [DecidableEq κ] {idX idZ : Nat} (hid : idX % 2 ^ 32 ≠ idZ % 2 ^ 32) {idF : Nat → Nat} (hF : ((List.range 9).map idF).Nodup) {h w Q P : Nat} (hs : PatchSizes h w)
    (hQ : 2 ≤ Q) (hP : 2 ≤ P) (garbage : Garbage) (stateId : Nat) (W E e : List ℝ) (hE : E.length = (h + 2) * (w + 2) * P) (he : e.length = P) (T : ℝ) {env : Env ℝ} (hexp : env.exp = Real.exp)
    (hlog : env.log = Real.log) (hsize : env.wrapNeg = false ∨ 9 * (h * w) * (Q + P) + max Q P ≤ 100000) (n : Nat) (d : ℝ) :
    ∃ s m₁ m₂ p₁ p₂, (patchesSetup idX idZ idF garbage stateId h w Q P W ⟨[h + 2, w + 2, P], E⟩ ⟨[P], e⟩ T : Py (PatchesSetup κ ℝ)) = .ok s ∧
      patchesMarginals env s n d = .ok [(.arr s.net.pixel, .arr m₁), (.arr s.net.hidden, .arr m₂)] ∧
      HoldsGrid (h + 2) (w + 2) P m₁ p₁ ∧ (∀ a < h + 2, ∀ b < w + 2, IsPosDist P (p₁ a b)) ∧ HoldsGrid h w Q m₂ p₂ ∧ ∀ a < h, ∀ b < w, IsPosDist Q (p₂ a b) := by
  obtain ⟨s, hist, st, state, h1, hr⟩ := patches_ready (κ := κ) hid hF hs (by omega : 1 ≤ Q) (by omega : 1 ≤ P) garbage stateId W E e hE he T
  obtain ⟨m₁, m₂, h2, h3, h4⟩ := hr.marginals hs hQ hP hexp hlog hsize n d
  exact ⟨s, m₁, m₂, _, _, h1, h2, h3, fun a _ b _ => gibbs_posDist _ P (by omega), h4, fun a _ b _ => gibbs_posDist _ Q (by omega)⟩

/-- **C103.** With a positive temperature every belief of the program differs from that of textbook sum-product messages by at most `9 T e ^ (-100000) (1 + 16 + ... + 16 ^ (n - 1))`. -/
theorem C103_textbook_partial [DecidableEq κ] {idX idZ : Nat} (hid : idX % 2 ^ 32 ≠ idZ % 2 ^ 32) {idF : Nat → Nat} (hF : ((List.range 9).map idF).Nodup) {h w Q P : Nat} (hs : PatchSizes h w)
    (hQ : 2 ≤ Q) (hP : 2 ≤ P) (garbage : Garbage) (stateId : Nat) (W E e : List ℝ) (hE : E.length = (h + 2) * (w + 2) * P) (he : e.length = P) {T : ℝ} (hT : 0 < T)
    (hW : ∀ z < Q, ∀ y < P, ∀ k < 3, ∀ l < 3, |(⟨[Q, P, 3, 3], W⟩ : NDArr ℝ).read [z, y, k, l]| ≤ 1000) (hev : ∀ a < h + 2, ∀ b < w + 2, ∀ t < P, |patchEv h w P E e a b t| ≤ 39000)
    {env : Env ℝ} (hexp : env.exp = Real.exp) (hlog : env.log = Real.log) (hsize : env.wrapNeg = false ∨ 9 * (h * w) * (Q + P) + max Q P ≤ 100000) (n : Nat) {d : ℝ} (hd : 0 ≤ d ∧ d ≤ 1 / 2) :
    ∃ s pix hidden hist, ∃ st : FGState κ ℝ, ∃ m₁ m₂, ∃ B : Var → Nat → ℝ, (patchesSetup idX idZ idF garbage stateId h w Q P W ⟨[h + 2, w + 2, P], E⟩ ⟨[P], e⟩ T : Py (PatchesSetup κ ℝ)) = .ok s ∧
      IsGrid s.net.pixel (h + 2) (w + 2) P pix ∧ IsGrid s.net.hidden h w Q hidden ∧ graphOf [.arr s.net.pixel, .arr s.net.hidden] hist = s.net.fg ∧
      Compiled [.arr s.net.pixel, .arr s.net.hidden] hist garbage st ∧
      patchesMarginals env s n d = .ok [(.arr s.net.pixel, .arr m₁), (.arr s.net.hidden, .arr m₂)] ∧
      HoldsGrid (h + 2) (w + 2) P m₁ (fun a b => gibbs (B (pix a b)) P) ∧ HoldsGrid h w Q m₂ (fun a b => gibbs (B (hidden a b)) Q) ∧
      ∀ v ∈ graphVars [(.arr s.net.pixel : VGroup κ), .arr s.net.hidden], ∀ t < v.n,
        |B v t - beliefOf s.net.fg.allScopes (readEv st.varsToStarts s.arrays.evidence)
          (sumRun (fun _ => lse T) (s.net.fg.factors s.arrays.logPotentials) (readEv st.varsToStarts s.arrays.evidence) d n (fun _ _ _ => 0)) v t| ≤
            9 * (T * Real.exp (-100000) * ∑ k ∈ Finset.range n, 16 ^ k) := by
  obtain ⟨s, hist, st, state, h1, hr⟩ := patches_ready (κ := κ) hid hF hs (by omega : 1 ≤ Q) (by omega : 1 ≤ P) garbage stateId W E e hE he T
  obtain ⟨m₁, m₂, h2, h3, h4⟩ := hr.marginals hs hQ hP hexp hlog hsize n d
  refine ⟨s, pixCell idX h w P, hidCell idZ h w Q, hist, st, m₁, m₂, _, h1, ?_, ?_, ?_, ?_, h2, h3, h4, fun v hv t ht => ?_⟩
  · rw [hr.pixel]; exact isGrid_uniArr idX (h + 2) (w + 2) P
  · rw [hr.hidden]; exact isGrid_uniArr idZ h w Q
  · rw [hr.pixel, hr.hidden]; exact hr.graph
  · rw [hr.pixel, hr.hidden]; exact hr.compiled
  have hfit := hr.fits env hsize
  have hmod := hr.moderate hid hs hW hev hd
  have hinit := hr.init (by omega) (by omega)
  have hz : readMsgs s.net.fg.allScopes s.arrays.ftovMsgs = fun _ _ _ => 0 := by
    funext f i t
    exact hr.zero f i t
  have hcl : ∀ f i, IsEdge s.net.fg.allScopes f i v → |readMsgs s.net.fg.allScopes (s.bp.runBP env s.arrays n d).ftovMsgs f i t -
      sumRun (fun _ => lse T) (s.net.fg.factors s.arrays.logPotentials) (readEv st.varsToStarts s.arrays.evidence) d n (fun _ _ _ => 0) f i t| ≤ T * Real.exp (-100000) * ∑ k ∈ Finset.range n, 16 ^ k := by
    intro f i hei
    have hfit' := hfit
    have hmod' := hmod
    have hinit' := hinit
    rw [← hr.graph] at hfit' hmod' hinit'
    have := C54_partial hr.compiled hT hr.bp env hexp hlog hfit' s.arrays n d (by rw [hr.pots]) hr.len hr.msgLen hmod' hinit' (L := 8) (by norm_num) (by
      rw [hr.graph, hr.scopes]
      intro vs hvs i hi
      exact_mod_cast patch_inputs hid hs hvs i hi) f i v t (by rw [hr.graph]; exact hei) ht
    rw [hr.graph, hz, show (2 * 8 : ℝ) = 16 by norm_num] at this
    exact this
  have hdeg : (edgesOf s.net.fg.allScopes v).length ≤ 9 := by
    by_cases hne : ∃ f i, IsEdge s.net.fg.allScopes f i v
    · obtain ⟨f, i, hei⟩ := hne
      obtain ⟨q, hq, hvq⟩ := hr.edge hei
      rw [hr.scopes]
      exact patch_degree hid hs hq hvq
    · have : edgesOf s.net.fg.allScopes v = [] := List.eq_nil_iff_forall_not_mem.2 fun x hx => hne ⟨x.1, x.2, (mem_edgesOf _ _ _ _).1 hx⟩
      simp [this]
  have h0 : 0 ≤ T * Real.exp (-100000) * ∑ k ∈ Finset.range n, (16 : ℝ) ^ k :=
    mul_nonneg (mul_nonneg hT.le (Real.exp_pos _).le) (Finset.sum_nonneg fun k _ => by positivity)
  unfold beliefOf
  rw [add_sub_add_left_eq_sub]
  refine (sum_map_close _ _ _ (fun x hx => hcl x.1 x.2 ((mem_edgesOf _ _ _ _).1 hx))).trans ?_
  exact mul_le_mul_of_nonneg_right (by exact_mod_cast hdeg) h0

/-- **C103.** If every potential is a term for the hidden state plus a term for the state of the pixel, the program's marginals after `n` iterations with damping `d` are those of the evidence and `1 - d ^ n` times these
terms, at any temperature. -/
theorem C103_independent_partial [DecidableEq κ] {idX idZ : Nat} (hid : idX % 2 ^ 32 ≠ idZ % 2 ^ 32) {idF : Nat → Nat} (hF : ((List.range 9).map idF).Nodup) {h w Q P : Nat} (hs : PatchSizes h w)
    (hQ : 2 ≤ Q) (hP : 2 ≤ P) (garbage : Garbage) (stateId : Nat) (W E e : List ℝ) (hE : E.length = (h + 2) * (w + 2) * P) (he : e.length = P) {T : ℝ} (hT : 0 ≤ T)
    (A B : Nat → Nat → Nat → ℝ) (hAB : ∀ z < Q, ∀ y < P, ∀ k < 3, ∀ l < 3, (⟨[Q, P, 3, 3], W⟩ : NDArr ℝ).read [z, y, k, l] = A k l z + B k l y)
    (hA : ∀ k l z, |A k l z| ≤ 500) (hB : ∀ k l y, |B k l y| ≤ 500) (hev : ∀ a < h + 2, ∀ b < w + 2, ∀ t < P, |patchEv h w P E e a b t| ≤ 39000)
    {env : Env ℝ} (hexp : env.exp = Real.exp) (hlog : env.log = Real.log) (hsize : env.wrapNeg = false ∨ 9 * (h * w) * (Q + P) + max Q P ≤ 100000) (n : Nat) {d : ℝ} (hd : 0 ≤ d ∧ d ≤ 1 / 2) :
    ∃ s m₁ m₂, (patchesSetup idX idZ idF garbage stateId h w Q P W ⟨[h + 2, w + 2, P], E⟩ ⟨[P], e⟩ T : Py (PatchesSetup κ ℝ)) = .ok s ∧
      patchesMarginals env s n d = .ok [(.arr s.net.pixel, .arr m₁), (.arr s.net.hidden, .arr m₂)] ∧
      HoldsGrid (h + 2) (w + 2) P m₁ (fun a b => gibbs (fun t => patchEv h w P E e a b t + (1 - d ^ n) * pixelTerms h w B a b t) P) ∧
      HoldsGrid h w Q m₂ (fun _ _ => gibbs (fun t => (1 - d ^ n) * hiddenTerms A t) Q) := by
  obtain ⟨s, hist, st, state, h1, hr⟩ := patches_ready (κ := κ) hid hF hs (by omega : 1 ≤ Q) (by omega : 1 ≤ P) garbage stateId W E e hE he T
  obtain ⟨m₁, m₂, h2, h3, h4⟩ := hr.marginals hs hQ hP hexp hlog hsize n d
  have hW : ∀ z < Q, ∀ y < P, ∀ k < 3, ∀ l < 3, |(⟨[Q, P, 3, 3], W⟩ : NDArr ℝ).read [z, y, k, l]| ≤ 1000 := by
    intro z hz y hy k hk l hl
    rw [hAB z hz y hy k hk l hl]
    exact (abs_add_le _ _).trans (by linarith [hA k l z, hB k l y])
  have hfit := hr.fits env hsize
  have hmod := hr.moderate hid hs hW hev hd
  have hinit := hr.init (by omega) (by omega)
  have hg : Independent (patchTerms h w A B) (s.net.fg.factors s.arrays.logPotentials) := by
    rw [hr.pots, hr.factors]
    intro f F hf
    rw [List.getElem?_map, Option.map_eq_some_iff] at hf
    obtain ⟨q, hq, rfl⟩ := hf
    obtain ⟨⟨q1, q2⟩, -⟩ := mem_patchPlaces.1 (List.mem_of_getElem? hq)
    have hl : ((mgridConfigs Q P).rows.zip (patchData Q P W q.1)).length = Q * P := by
      rw [List.length_zip, mgrid_rows_length, patchData_length, min_self]
    refine ⟨mgrid_complete (hidCell idZ h w Q q.2.1 q.2.2) (pixCell idX h w P (q.2.1 + q.1.1) (q.2.2 + q.1.2)) _ (patchData_length Q P W q.1), ?_, ⟨0, fun r hrow => ?_⟩, fun i v _ a _ b _ => ?_⟩
    · intro h0
      have : Q * P = 0 := by rw [← hl]; exact congrArg List.length h0
      rcases Nat.mul_eq_zero.1 this with h | h <;> omega
    · obtain ⟨z, hz, y, hy, rfl⟩ := patchFac_row hrow
      rw [hAB z hz y hy _ q1 _ q2]
      simp [termsOf, patchTerms, hq, Finset.sum_range_succ, patchScope]
    · simp only [patchTerms, hq]
      split
      · have := abs_le.1 (hA q.1.1 q.1.2 a); have := abs_le.1 (hA q.1.1 q.1.2 b); linarith
      · have := abs_le.1 (hB q.1.1 q.1.2 a); have := abs_le.1 (hB q.1.1 q.1.2 b); linarith
  have key : ∀ v, ∃ C, ∀ t < v.n, beliefOf s.net.fg.allScopes (readEv st.varsToStarts s.arrays.evidence) (readMsgs s.net.fg.allScopes (s.bp.runBP env s.arrays n d).ftovMsgs) v t =
      readEv st.varsToStarts s.arrays.evidence v t + (1 - d ^ n) * ((edgesOf s.net.fg.allScopes v).map (fun e => patchTerms h w A B e.1 e.2 t)).sum + C := by
    intro v
    have hfit' := hfit
    have hmod' := hmod
    have hinit' := hinit
    have hlm := hr.logical
    rw [← hr.graph] at hfit' hmod' hinit' hg hlm
    obtain ⟨C, hC⟩ := separable_any hr.compiled hr.bp env (by
      rcases hT.eq_or_lt with rfl | hT
      · exact .inl ⟨rfl, hlm⟩
      · exact .inr ⟨hT, hexp, hlog⟩) hfit' s.arrays n d (by rw [hr.pots]) hr.len hr.msgLen hmod' hinit' hg v
    rw [hr.graph] at hC
    refine ⟨C, fun t ht => ?_⟩
    rw [hC t ht]
    have h0 : ((edgesOf s.net.fg.allScopes v).map (fun e => readMsgs s.net.fg.allScopes (s.bp.runBP env s.arrays 0 d).ftovMsgs e.1 e.2 t)).sum = 0 := by
      refine List.sum_eq_zero fun y hy => ?_
      obtain ⟨x, hx, rfl⟩ := List.mem_map.1 hy
      have hei := (mem_edgesOf _ _ _ _).1 hx
      have hrun := (hr.compiled.run_read hr.bp env hfit' s.arrays d (by rw [hr.pots]) hr.len 0 hr.msgLen).2
      rw [hr.graph] at hrun
      rw [hrun x.1 x.2 v t hei ht]
      exact normM_zeros hei (by have := (hr.compiled.maxMsgSize hr.bp).1; rw [hr.graph] at this; exact this _ _ _ hei) (fun _ _ => hr.zero _ _ _) t ht
    rw [h0]
    ring
  refine ⟨s, m₁, m₂, h1, h2, h3.congr fun a ha b hb t ht => ?_, h4.congr fun a ha b hb t ht => ?_⟩
  · obtain ⟨C, hC⟩ := key (pixCell idX h w P a b)
    refine gibbs_congr C (fun u hu => ?_) (by omega) ht
    rw [hC u hu, hr.pixEv a ha b hb u hu, hr.scopes, pixel_sum hid hs Q P A B ha hb u]
  · obtain ⟨C, hC⟩ := key (hidCell idZ h w Q a b)
    refine gibbs_congr C (fun u hu => ?_) (by omega) ht
    rw [hC u hu, hr.hidEv a ha b hb u hu, hr.scopes, hidden_sum hid hs Q P A B ha hb u]
    ring

theorem gibbs_zero (n s : Nat) : gibbs (fun _ => 0) n s = 1 / n := by
  simp [gibbs]

theorem read_zeros (sh : List Nat) (N : Nat) (cs : List Nat) : (⟨sh, List.replicate N 0⟩ : NDArr ℝ).read cs = 0 := by
  rw [NDArr.read, List.getD_eq_getElem?_getD, List.getElem?_replicate]
  split <;> rfl

/-- **C103.** As the test runs it, with potentials and evidence 0, the program reports that all states of a pixel, and all states of a hidden variable, are equally likely; for images of any size, at any temperature and
after any number of iterations. -/
theorem C103_uniform_partial [DecidableEq κ] {idX idZ : Nat} (hid : idX % 2 ^ 32 ≠ idZ % 2 ^ 32) {idF : Nat → Nat} (hF : ((List.range 9).map idF).Nodup) {h w Q P : Nat} (hs : PatchSizes h w)
    (hQ : 2 ≤ Q) (hP : 2 ≤ P) (garbage : Garbage) (stateId : Nat) {T : ℝ} (hT : 0 ≤ T) {env : Env ℝ} (hexp : env.exp = Real.exp) (hlog : env.log = Real.log)
    (hsize : env.wrapNeg = false ∨ 9 * (h * w) * (Q + P) + max Q P ≤ 100000) (n : Nat) {d : ℝ} (hd : 0 ≤ d ∧ d ≤ 1 / 2) :
    ∃ s m₁ m₂, (patchesSetup idX idZ idF garbage stateId h w Q P (List.replicate (Q * P * 3 * 3) 0) ⟨[h + 2, w + 2, P], List.replicate ((h + 2) * (w + 2) * P) 0⟩ ⟨[P], List.replicate P 0⟩ T :
        Py (PatchesSetup κ ℝ)) = .ok s ∧
      patchesMarginals env s n d = .ok [(.arr s.net.pixel, .arr m₁), (.arr s.net.hidden, .arr m₂)] ∧
      HoldsGrid (h + 2) (w + 2) P m₁ (fun _ _ _ => 1 / P) ∧ HoldsGrid h w Q m₂ (fun _ _ _ => 1 / Q) := by
  have hev : ∀ a b t, patchEv h w P (List.replicate ((h + 2) * (w + 2) * P) (0 : ℝ)) (List.replicate P 0) a b t = 0 := by
    intro a b t
    unfold patchEv
    split
    · rw [List.getD_eq_getElem?_getD, List.getElem?_replicate]
      split <;> rfl
    · exact read_zeros _ _ _
  obtain ⟨s, m₁, m₂, h1, h2, h3, h4⟩ := C103_independent_partial (κ := κ) hid hF hs hQ hP garbage stateId (List.replicate (Q * P * 3 * 3) 0) (List.replicate ((h + 2) * (w + 2) * P) 0)
    (List.replicate P 0) (by simp) (by simp) hT (fun _ _ _ => 0) (fun _ _ _ => 0) (by
      intro z _ y _ k _ l _
      rw [read_zeros, add_zero]) (by simp) (by simp) (by
      intro a _ b _ t _
      rw [hev, abs_zero]
      norm_num) hexp hlog hsize n hd
  refine ⟨s, m₁, m₂, h1, h2, h3.congr fun a _ b _ t _ => ?_, h4.congr fun a _ b _ t _ => ?_⟩
  · rw [← gibbs_zero]
    congr 1
    funext u
    simp [hev, pixelTerms]
  · rw [← gibbs_zero]
    congr 1
    funext u
    simp [hiddenTerms]

/-! ### Examples -/

/-- A graph with 3 by 4 pixels and 2 patches. -/
example : ∃ r : Patches Nat ℚ, patches 1 2 id 1 2 2 3 (List.replicate 54 1) = .ok r :=
  (C103_inputs (κ := Nat) (by decide) id 1 2 2 3 _).1.2 (by decide)

/-- The score of states of 3 by 4 pixels and 2 hidden variables. -/
example : patchScore 1 2 2 3 ((List.range 54).map (fun (i : Nat) => (i : Int))) (fun _ c => c) (fun a b => (a + b) % 3) = 477 := by
  decide +kernel

/-- As in the test: 30 by 30 pixels with 3 states and 28 by 28 hidden variables with 17 states. -/
example {env : Env ℝ} (hexp : env.exp = Real.exp) (hlog : env.log = Real.log) (hw : env.wrapNeg = false) :
    ∃ s m₁ m₂, (patchesSetup 1 2 id (fun _ _ => 0) 3 28 28 17 3 (List.replicate (17 * 3 * 3 * 3) 0) ⟨[30, 30, 3], List.replicate (30 * 30 * 3) 0⟩ ⟨[3], List.replicate 3 0⟩ 1 :
        Py (PatchesSetup Nat ℝ)) = .ok s ∧
      patchesMarginals env s 1 (1 / 2) = .ok [(.arr s.net.pixel, .arr m₁), (.arr s.net.hidden, .arr m₂)] ∧
      HoldsGrid 30 30 3 m₁ (fun _ _ _ => 1 / (3 : Nat)) ∧ HoldsGrid 28 28 17 m₂ (fun _ _ _ => 1 / (17 : Nat)) :=
  C103_uniform_partial (by decide) (by decide) (by decide) (by norm_num) (by norm_num) _ _ (by norm_num) hexp hlog (.inl hw) 1 (by norm_num)

/-- One patch of 3 by 3 pixels with two states; the potential of hidden state `z` and state `y` of a pixel is `z + 2 y`.  At any temperature, after two iterations with damping 1/4, state 1 of every pixel has the odds
`exp (2 * 15 / 16)` and state 1 of the hidden variable has the odds `exp (9 * 15 / 16)`. -/
example {env : Env ℝ} (hexp : env.exp = Real.exp) (hlog : env.log = Real.log) {T : ℝ} (hT : 0 ≤ T) :
    ∃ s m₁ m₂, (patchesSetup 1 2 id (fun _ _ => 0) 3 1 1 2 2 (List.replicate 9 0 ++ List.replicate 9 2 ++ List.replicate 9 1 ++ List.replicate 9 3) ⟨[3, 3, 2], List.replicate 18 0⟩ ⟨[2], [0, 0]⟩ T :
        Py (PatchesSetup Nat ℝ)) = .ok s ∧
      patchesMarginals env s 2 (1 / 4) = .ok [(.arr s.net.pixel, .arr m₁), (.arr s.net.hidden, .arr m₂)] ∧
      HoldsGrid 3 3 2 m₁ (fun _ _ => gibbs (fun t => 2 * t * (15 / 16)) 2) ∧ HoldsGrid 1 1 2 m₂ (fun _ _ => gibbs (fun t => 9 * t * (15 / 16)) 2) := by
  have hev : ∀ a b t, patchEv 1 1 2 (List.replicate 18 (0 : ℝ)) [0, 0] a b t = 0 := by
    intro a b t
    unfold patchEv
    split
    · rcases t with _ | _ | t <;> simp
    · exact read_zeros _ _ _
  have hb : ∀ z : Nat, |(if z = 1 then 1 else 0 : ℝ)| ≤ 500 := by
    intro z
    split <;> norm_num
  obtain ⟨s, m₁, m₂, h1, h2, h3, h4⟩ := C103_independent_partial (κ := Nat) (idX := 1) (idZ := 2) (by decide) (idF := id) (by decide) (h := 1) (w := 1) (by decide) (Q := 2) (P := 2) le_rfl le_rfl (fun _ _ => 0) 3
    (List.replicate 9 0 ++ List.replicate 9 2 ++ List.replicate 9 1 ++ List.replicate 9 3) (List.replicate 18 0) [0, 0] (by simp) rfl hT (fun _ _ z => if z = 1 then 1 else 0)
    (fun _ _ y => 2 * if y = 1 then 1 else 0) (by
      intro z hz y hy k hk l hl
      interval_cases z <;> interval_cases y <;> interval_cases k <;> interval_cases l <;> simp [NDArr.read, rowMajor, List.replicate] <;> norm_num) (fun _ _ z => hb z)
    (fun _ _ y => by split <;> norm_num) (by
      intro a _ b _ t _
      rw [hev, abs_zero]
      norm_num) hexp hlog (.inr (by norm_num)) 2 (d := 1 / 4) (by norm_num)
  refine ⟨s, m₁, m₂, h1, h2, h3.congr fun a ha b hb t ht => ?_, h4.congr fun a _ b _ t ht => ?_⟩
  · refine gibbs_congr 0 (fun u hu => ?_) (by norm_num) ht
    have hp : pixelTerms 1 1 (fun _ _ y => 2 * (if y = 1 then 1 else 0 : ℝ)) a b u = 2 * u := by
      interval_cases a <;> interval_cases b <;> interval_cases u <;> simp [pixelTerms, Finset.sum_range_succ]
    rw [hev, hp]
    norm_num
    ring
  · refine gibbs_congr 0 (fun u hu => ?_) (by norm_num) ht
    have hp : hiddenTerms (fun _ _ z => (if z = 1 then 1 else 0 : ℝ)) u = 9 * u := by
      interval_cases u <;> simp [hiddenTerms, Finset.sum_range_succ]
      norm_num
    rw [hp]
    norm_num
    ring

end PGMax
