import Verif.Lemmas.Tree
import Verif.Lemmas.SumTextbook
import Verif.Props.C59
/-! Log potentials, evidence and messages in another unit: everything multiplied by `c`. -/
namespace PGMax

variable {κ : Type _} {α : Type _} [Field α] [LinearOrder α] [IsStrictOrderedRing α]

/-- A factor with its log potentials multiplied by `c`. -/
def SFac.scale (c : α) (F : SFac α) : SFac α := ⟨F.scope, F.rows.map (fun r => (r.1, c * r.2))⟩

omit [LinearOrder α] [IsStrictOrderedRing α] in
theorem SFac.rowsAt_scale (c : α) (F : SFac α) (i s : Nat) : (F.scale c).rowsAt i s = (F.rowsAt i s).map (fun r => (r.1, c * r.2)) := by
  unfold SFac.rowsAt SFac.scale
  rw [List.filter_map]
  rfl

omit [LinearOrder α] [IsStrictOrderedRing α] in
theorem tableFacs_scale (c : α) (L : List (List Var × Configs)) (lp : List α) :
    tableFacs L (lp.map (c * ·)) = (tableFacs L lp).map (SFac.scale c) := by
  induction L generalizing lp with
  | nil => rfl
  | cons x L ih =>
    obtain ⟨vs, cf⟩ := x
    rw [tableFacs, tableFacs, List.map_cons, ← List.map_drop, ih, SFac.scale, List.zip_map_right]
    rfl

omit [LinearOrder α] [IsStrictOrderedRing α] in
theorem rows_scale_zero (c : α) (rows : List (List Nat × α)) (h : ∀ r ∈ rows, r.2 = 0) : rows.map (fun r => (r.1, c * r.2)) = rows := by
  conv_rhs => rw [← List.map_id rows]
  apply List.map_congr_left
  intro r hr
  rw [h r hr, mul_zero, ← h r hr]
  rfl

omit [LinearOrder α] [IsStrictOrderedRing α] in
theorem FactorGraph.factors_scale (c : α) (fg : FactorGraph κ α) (lp : List α) : fg.factors (lp.map (c * ·)) = (fg.factors lp).map (SFac.scale c) := by
  unfold FactorGraph.factors
  rw [List.map_append, List.map_append, tableFacs_scale, List.map_map, List.map_map]
  congr 1
  · congr 1
    apply List.map_congr_left
    intro vs _
    simp only [Function.comp, SFac.scale]
    rw [rows_scale_zero c]
    intro r hr
    simp only [orRows, List.mem_map] at hr
    obtain ⟨x, -, rfl⟩ := hr
    rfl
  · apply List.map_congr_left
    intro vs _
    simp only [Function.comp, SFac.scale]
    rw [rows_scale_zero c]
    intro r hr
    simp only [andRows, List.mem_map] at hr
    obtain ⟨x, -, rfl⟩ := hr
    rfl

omit [LinearOrder α] [IsStrictOrderedRing α] in
theorem getD_scale (c : α) (l : List α) (k : Nat) : (l.map (c * ·)).getD k 0 = c * l.getD k 0 := by
  unfold List.getD
  rw [List.getElem?_map]
  cases l[k]? with
  | none => simp
  | some x => rfl

omit [LinearOrder α] [IsStrictOrderedRing α] in
theorem readEv_scale (c : α) (starts : Var → Option Nat) (l : List α) : readEv starts (l.map (c * ·)) = fun v s => c * readEv starts l v s := by
  funext v s
  exact getD_scale c l _

omit [LinearOrder α] [IsStrictOrderedRing α] in
theorem readMsgs_scale (c : α) (scopes : List (List Var)) (l : List α) : readMsgs scopes (l.map (c * ·)) = fun f i s => c * readMsgs scopes l f i s := by
  funext f i s
  exact getD_scale c l _

omit [LinearOrder α] [IsStrictOrderedRing α] in
theorem sum_scale {β : Type _} (c : α) (l : List β) (g : β → α) : (l.map (fun x => c * g x)).sum = c * (l.map g).sum := by
  induction l with
  | nil => simp
  | cons x l ih => rw [List.map_cons, List.map_cons, List.sum_cons, List.sum_cons, ih, mul_add]

theorem tbNorm_scale {n : Nat} {x x' : Nat → WithBot α} {c : α} (hc : 0 < c) (h : ∀ s < n, x' s = (x s).map (c * ·)) {s : Nat} (hs : s < n)
    (h1 : -1000 < tbNorm n x s) (h2 : -1000 < c * tbNorm n x s) : tbNorm n x' s = c * tbNorm n x s := by
  cases hxs : x s with
  | bot => rw [tbNorm_bot hxs] at h1; exact absurd h1 (lt_irrefl _)
  | coe a =>
    obtain ⟨t, ht, he⟩ := Finset.exists_mem_eq_sup (Finset.range n) ⟨s, Finset.mem_range.2 hs⟩ x
    have ht := Finset.mem_range.1 ht
    have hall : ∀ u < n, x u ≤ x t := by
      intro u hu
      rw [← he]
      exact Finset.le_sup (Finset.mem_range.2 hu)
    obtain ⟨X, hX⟩ : ∃ X : α, x t = WithBot.some X := by
      have := hall s hs
      cases hxt : x t with
      | bot => rw [hxt, hxs] at this; exact absurd (le_bot_iff.1 this) WithBot.coe_ne_bot
      | coe X => exact ⟨X, rfl⟩
    have hsup : (Finset.range n).sup x' = WithBot.some (c * X) := by
      refine sup_eq ⟨t, ht, by rw [h t ht, hX]; rfl⟩ (fun u hu => ?_)
      rw [h u hu]
      have := hall u hu
      rw [hX] at this
      cases hxu : x u with
      | bot => exact bot_le
      | coe y =>
        rw [hxu] at this
        exact WithBot.coe_le_coe.2 (mul_le_mul_of_nonneg_left (WithBot.coe_le_coe.1 this) hc.le)
    have e1 := tbNorm_coe (he.trans hX) hxs
    have e2 := tbNorm_coe (x := x') (a := c * a) hsup (s := s) (by rw [h s hs, hxs]; rfl)
    rw [e1] at h1 h2 ⊢
    rw [e2]
    rcases max_choice (a - X) (-1000) with hm | hm
    · rw [hm] at h2 ⊢
      rw [max_eq_left (by linarith), mul_sub]
    · rw [hm] at h1; exact absurd h1 (lt_irrefl _)

theorem beliefOf_scale {scopes : List (List Var)} {c : α} {ev : Var → Nat → α} {m m' : Msgs α}
    (hm : ∀ f i v s, IsEdge scopes f i v → s < v.n → m' f i s = c * m f i s) (v : Var) (s : Nat) (hs : s < v.n) :
    beliefOf scopes (fun v s => c * ev v s) m' v s = c * beliefOf scopes ev m v s := by
  unfold beliefOf
  rw [mul_add, ← sum_scale]
  congr 2
  apply List.map_congr_left
  intro e he
  exact hm e.1 e.2 v s ((mem_edgesOf scopes v e.1 e.2).1 he) hs

/-- Messages in another unit, as long as none is clipped. -/
theorem sumRun_scale {factors : List (SFac α)} {Φ Φ' : Nat → List α → α} {c : α} (hc : 0 < c)
    (hΦ : ∀ f l, l ≠ [] → Φ' f (l.map (c * ·)) = c * Φ f l)
    (hrow : ∀ F ∈ factors, ∀ r ∈ F.rows, List.Forall₂ (fun s (v : Var) => s < v.n) r.1 F.scope)
    (ev : Var → Nat → α) (d : α) (m : Msgs α) (n : Nat)
    (hclip : ∀ k ≤ n, ∀ f i v s, IsEdge (factors.map (·.scope)) f i v → s < v.n → -1000 < sumRun Φ factors ev d k m f i s ∧ -1000 < c * sumRun Φ factors ev d k m f i s) :
    ∀ f i v s, IsEdge (factors.map (·.scope)) f i v → s < v.n →
      sumRun Φ' (factors.map (SFac.scale c)) (fun v s => c * ev v s) d n (fun f i s => c * m f i s) f i s = c * sumRun Φ factors ev d n m f i s := by
  have hsc : (factors.map (SFac.scale c)).map (·.scope) = factors.map (·.scope) := by rw [List.map_map]; rfl
  induction n with
  | zero =>
    intro f i v s he hs
    obtain ⟨c1, c2⟩ := hclip 0 le_rfl f i v s he hs
    obtain ⟨vs, hf, hi⟩ := he
    rw [List.getElem?_map] at hf
    cases hF : factors[f]? with
    | none => rw [hF] at hf; cases hf
    | some F =>
      rw [hF] at hf
      obtain rfl := Option.some.inj hf
      have e : sumRun Φ factors ev d 0 m f i = tbNorm v.n (fun s => WithBot.some (m f i s)) := by
        simp only [sumRun, tbInit, hF, hi]
      have e' : sumRun Φ' (factors.map (SFac.scale c)) (fun v s => c * ev v s) d 0 (fun f i s => c * m f i s) f i = tbNorm v.n (fun s => WithBot.some (c * m f i s)) := by
        simp only [sumRun, tbInit, List.getElem?_map, hF, Option.map_some, SFac.scale, hi]
      rw [e] at c1 c2 ⊢
      rw [e']
      exact tbNorm_scale hc (fun s _ => rfl) hs c1 c2
  | succ n ih =>
    have ih := ih (fun k hk => hclip k (by omega))
    intro f i v s he hs
    obtain ⟨c1, c2⟩ := hclip (n + 1) le_rfl f i v s he hs
    have he0 := he
    obtain ⟨vs, hf, hi⟩ := he
    rw [List.getElem?_map] at hf
    cases hF : factors[f]? with
    | none => rw [hF] at hf; cases hf
    | some F =>
      rw [hF] at hf
      obtain rfl := Option.some.inj hf
      set M := sumRun Φ factors ev d n m with hM
      set M' := sumRun Φ' (factors.map (SFac.scale c)) (fun v s => c * ev v s) d n (fun f i s => c * m f i s) with hM'
      have e : sumRun Φ factors ev d (n + 1) m f i = tbNorm v.n (fun s => (sumOut (Φ f) F (tbIn factors ev M f F) i s).map (fun x => d * M f i s + (1 - d) * x)) := by
        simp only [sumRun, sumStep, hF, hi, hM]
      have e' : sumRun Φ' (factors.map (SFac.scale c)) (fun v s => c * ev v s) d (n + 1) (fun f i s => c * m f i s) f i
          = tbNorm v.n (fun s => (sumOut (Φ' f) (F.scale c) (tbIn (factors.map (SFac.scale c)) (fun v s => c * ev v s) M' f (F.scale c)) i s).map (fun x => d * M' f i s + (1 - d) * x)) := by
        simp only [sumRun, sumStep, List.getElem?_map, hF, Option.map_some, hM']
        rw [show (SFac.scale c F).scope[i]? = some v from hi]
      rw [e] at c1 c2 ⊢
      rw [e']
      refine tbNorm_scale hc (fun t ht => ?_) hs c1 c2
      have hrows := F.rowsAt_scale c i t
      unfold sumOut
      rw [hrows]
      by_cases h0 : F.rowsAt i t = []
      · rw [h0]; rfl
      · rw [if_neg (by simpa using h0), if_neg h0]
        have hsum : ((F.rowsAt i t).map (fun r => (r.1, c * r.2))).map (scoreBut (F.scale c).scope.length (tbIn (factors.map (SFac.scale c)) (fun v s => c * ev v s) M' f (F.scale c)) i)
            = ((F.rowsAt i t).map (scoreBut F.scope.length (tbIn factors ev M f F) i)).map (c * ·) := by
          rw [List.map_map, List.map_map]
          apply List.map_congr_left
          intro r hr
          simp only [Function.comp, scoreBut, mul_add]
          congr 1
          rw [← sum_scale]
          congr 1
          apply List.map_congr_left
          intro j hj
          have hj : j < F.scope.length := by
            have := List.mem_of_mem_filter hj
            exact List.mem_range.1 this
          have hfit := hrow F (List.mem_of_getElem? hF) r (List.mem_of_mem_filter hr)
          have hjr : j < r.1.length := by rw [hfit.length_eq]; exact hj
          have hst : r.1.getD j 0 < (F.scope[j]).n := by
            rw [getD_of_some (List.getElem?_eq_getElem hjr)]
            exact List.Forall₂.get hfit hjr hj
          have hw : F.scope[j]? = some F.scope[j] := List.getElem?_eq_getElem hj
          unfold tbIn
          rw [show (SFac.scale c F).scope[j]? = some F.scope[j] from hw, hw]
          simp only [hsc]
          unfold varToFac
          rw [mul_add, ← sum_scale]
          congr 2
          apply List.map_congr_left
          intro g hg
          exact ih g.1 g.2 _ _ ((mem_edgesOf _ _ g.1 g.2).1 (List.mem_of_mem_filter hg)) hst
        rw [hsum, hΦ f _ (by simpa using h0), ih f i v t he0 ht]
        simp only [WithBot.map_coe]
        congr 1
        ring

/-- Smaller log potentials and evidence are moderate too. -/
theorem Moderate.shrink {fg : FactorGraph κ α} {lp : List α} {ev : Var → Nat → α} {d c : α} (hc : 0 ≤ c) (hc1 : c ≤ 1) (h : Moderate fg lp ev d) :
    Moderate fg (lp.map (c * ·)) (fun v s => c * ev v s) d where
  damping := h.damping
  bounds := by
    have hle : ∀ x : α, |c * x| ≤ |x| := by
      intro x
      rw [abs_mul, abs_of_nonneg hc]
      exact mul_le_of_le_one_left (abs_nonneg x) hc1
    obtain ⟨R, h1, h2⟩ := h.bounds
    refine ⟨R, fun f i v s he hs => ?_, fun F hF => ?_⟩
    · have := h1 f i v s he hs
      have := hle (ev v s)
      linarith
    · rw [tableFacs_scale] at hF
      obtain ⟨G, hG, rfl⟩ := List.mem_map.1 hF
      obtain ⟨W, w1, w2, w3⟩ := h2 G hG
      refine ⟨W, ?_, w2, w3.imp_left ?_⟩
      · intro r hr
        obtain ⟨q, hq, rfl⟩ := List.mem_map.1 hr
        have := w1 q hq
        have := hle q.2
        simp only [SFac.scale]
        linarith
      · intro hfull i v s hi hs
        rw [SFac.rowsAt_scale]
        simpa using hfull i v s hi hs

theorem maxOf_scale {c : α} (hc : 0 < c) {l : List α} (hl : l ≠ []) : maxOf 0 (l.map (c * ·)) = c * maxOf 0 l := by
  obtain ⟨h1, h2⟩ := maxOf_spec 0 l hl
  obtain ⟨h3, h4⟩ := maxOf_spec 0 (l.map (c * ·)) (by simpa using hl)
  apply le_antisymm
  · obtain ⟨x, hx, e⟩ := List.mem_map.1 h3
    rw [← e]
    exact mul_le_mul_of_nonneg_left (h2 x hx) hc.le
  · exact h4 _ (List.mem_map_of_mem h1)

theorem lse_scale {c T : ℝ} (hc : 0 < c) (l : List ℝ) : lse (c * T) (l.map (c * ·)) = c * lse T l := by
  unfold lse
  rw [List.map_map]
  have : ∀ x, ((fun x => Real.exp (x / (c * T))) ∘ (c * ·)) x = Real.exp (x / T) := by
    intro x
    simp only [Function.comp]
    rw [mul_div_mul_left _ _ hc.ne']
  rw [List.map_congr_left (fun x _ => this x)]
  ring

theorem regLse_scale {c T : ℝ} (hc : 0 < c) {l : List ℝ} (hl : l ≠ []) : regLse (c * T) (l.map (c * ·)) = c * regLse T l := by
  unfold regLse
  rw [List.map_map, maxOf_scale hc hl]
  have : ∀ x, ((fun x => Real.exp ((x - c * maxOf 0 l) / (c * T))) ∘ (c * ·)) x = Real.exp ((x - maxOf 0 l) / T) := by
    intro x
    simp only [Function.comp]
    rw [← mul_sub, mul_div_mul_left _ _ hc.ne']
  rw [List.map_congr_left (fun x _ => this x)]
  ring

theorem codeSummary_scale {c T : ℝ} (hc : 0 < c) (tables f : Nat) {l : List ℝ} (hl : l ≠ []) :
    codeSummary tables (c * T) f (l.map (c * ·)) = c * codeSummary tables T f l := by
  unfold codeSummary
  split
  · exact regLse_scale hc hl
  · exact lse_scale hc l

theorem IsFirstMax.scale {f g : Nat → α} {n j : Nat} {c : α} (hc : 0 < c) (h : IsFirstMax f n j) (hg : ∀ s < n, g s = c * f s) : IsFirstMax g n j := by
  obtain ⟨a1, a2, a3⟩ := h
  refine ⟨a1, fun s hs => ?_, fun s hs => ?_⟩
  · rw [hg s hs, hg j a1]; exact mul_le_mul_of_nonneg_left (a2 s hs) hc.le
  · rw [hg s (by omega), hg j a1]; exact mul_lt_mul_of_pos_left (a3 s hs) hc

theorem VGroup.Decodes.scale {g : VGroup κ} {B B' : Var → Nat → α} {r : GroupStates κ} {c : α} (hc0 : 0 < c)
    (hc : ∀ v ∈ g.variables, ∀ s < v.n, B' v s = c * B v s) (h : g.Decodes B r) : g.Decodes B' r := by
  cases g with
  | arr g =>
    cases r with
    | dict d => exact h.elim
    | arr a =>
      obtain ⟨s1, w1, d1⟩ := h
      refine ⟨s1, w1, fun k v hv => ?_⟩
      obtain ⟨j, e1, e2⟩ := d1 k v hv
      exact ⟨j, e1, e2.scale hc0 (hc v (List.mem_of_getElem? hv))⟩
  | dict g =>
    cases r with
    | arr a => exact h.elim
    | dict d =>
      obtain ⟨k1, d1⟩ := h
      refine ⟨k1, fun k v hv => ?_⟩
      obtain ⟨x, j, e1, e2, e3⟩ := d1 k v hv
      exact ⟨x, j, e1, e2, e3.scale hc0 (hc v (List.mem_of_getElem? hv))⟩

end PGMax
