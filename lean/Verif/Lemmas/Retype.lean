import Verif.Spec.Retype
import Verif.Lemmas.Iso
import Verif.Lemmas.Moved
import Verif.Lemmas.Stability

/-! Helper lemmas: belief propagation on two descriptions of the same model. -/

namespace PGMax

variable {κ κ' α : Type _}

section
variable [Field α] [LinearOrder α] {R : Renaming} {Fs Fs' : List (SFac α)} {k : Nat → α} {vars vars' : Finset Var}

/-! ## Edges -/

omit [LinearOrder α] in
theorem Renaming.Models.at (h : R.Models Fs Fs' k) {f : Nat} {F : SFac α} (hF : Fs[f]? = some F) : ∃ F', Fs'[R.fac f]? = some F' :=
  ⟨_, List.getElem?_eq_getElem ((h.facs f).1 (List.getElem?_eq_some_iff.1 hF).1)⟩

theorem isEdge_facs {f i : Nat} {F : SFac α} {v : Var} (hF : Fs[f]? = some F) (hi : F.scope[i]? = some v) : IsEdge (Fs.map (·.scope)) f i v :=
  ⟨F.scope, by rw [List.getElem?_map, hF]; rfl, hi⟩

theorem IsEdge.facs {f i : Nat} {v : Var} (he : IsEdge (Fs.map (·.scope)) f i v) : ∃ F, Fs[f]? = some F ∧ F.scope[i]? = some v := by
  obtain ⟨vs, h1, h2⟩ := he
  rw [List.getElem?_map] at h1
  obtain ⟨F, hF, rfl⟩ := Option.map_eq_some_iff.1 h1
  exact ⟨F, hF, h2⟩

theorem Renaming.Models.scope (h : R.Models Fs Fs' k) {f i : Nat} {F F' : SFac α} {v : Var} (hF : Fs[f]? = some F) (hF' : Fs'[R.fac f]? = some F')
    (hi : F.scope[i]? = some v) : F'.scope[R.pos f i]? = some (R.var v) := by
  obtain ⟨G, hG, hGi⟩ := (h.scopes f i v (isEdge_facs hF hi)).facs
  rw [hF'] at hG
  cases hG
  exact hGi

theorem Renaming.Models.pos_lt (h : R.Models Fs Fs' k) {f : Nat} {F : SFac α} (hF : Fs[f]? = some F) (i : Nat) (hi : i < F.scope.length) :
    R.pos f i < F.scope.length := by
  obtain ⟨F', hF'⟩ := h.at hF
  have h1 := (List.getElem?_eq_some_iff.1 (h.scope hF hF' (List.getElem?_eq_getElem hi))).1
  rwa [h.lengths f F F' hF hF'] at h1

theorem Renaming.Models.edge_surj (h : R.Models Fs Fs' k) {f' i' : Nat} {w : Var} (he : IsEdge (Fs'.map (·.scope)) f' i' w) :
    ∃ f i v, IsEdge (Fs.map (·.scope)) f i v ∧ f' = R.fac f ∧ i' = R.pos f i ∧ w = R.var v := by
  obtain ⟨F', hF', hi'⟩ := he.facs
  have hf : R.fac.symm f' < Fs.length := (h.facs _).2 (by rw [Equiv.apply_symm_apply]; exact (List.getElem?_eq_some_iff.1 hF').1)
  generalize hfe : R.fac.symm f' = f at hf
  have hff : f' = R.fac f := by rw [← hfe, Equiv.apply_symm_apply]
  subst hff
  have hF := List.getElem?_eq_getElem hf
  have hl := h.lengths f _ F' hF hF'
  obtain ⟨i, hi, hie⟩ := perm_range_surj (R.pos f) _ (h.pos_lt hF) i' (by have := (List.getElem?_eq_some_iff.1 hi').1; omega)
  refine ⟨f, i, _, isEdge_facs hF (List.getElem?_eq_getElem hi), rfl, hie.symm, ?_⟩
  have h1 := h.scope hF hF' (List.getElem?_eq_getElem hi)
  rw [hie, hi'] at h1
  exact Option.some.inj h1

theorem Renaming.Models.edges (h : R.Models Fs Fs' k) (hv : R.VarsOk vars vars') (hin : ∀ f i v, IsEdge (Fs.map (·.scope)) f i v → v ∈ vars) (v : Var) (hvv : v ∈ vars) :
    ((edgesOf (Fs.map (·.scope)) v).map (fun e => (R.fac e.1, R.pos e.1 e.2))).Perm (edgesOf (Fs'.map (·.scope)) (R.var v)) := by
  have hinj : Function.Injective (fun e : Nat × Nat => (R.fac e.1, R.pos e.1 e.2)) := by
    rintro ⟨a, b⟩ ⟨c, d⟩ hh
    simp only [Prod.mk.injEq, EmbeddingLike.apply_eq_iff_eq] at hh
    obtain ⟨rfl, h2⟩ := hh
    rw [(R.pos a).injective h2]
  rw [List.perm_ext_iff_of_nodup ((edgesOf_nodup _ _).map hinj) (edgesOf_nodup _ _)]
  rintro ⟨f', i'⟩
  rw [List.mem_map, mem_edgesOf]
  constructor
  · rintro ⟨⟨f, i⟩, he, heq⟩
    simp only [Prod.mk.injEq] at heq
    obtain ⟨rfl, rfl⟩ := heq
    exact h.scopes f i v ((mem_edgesOf _ _ _ _).1 he)
  · intro he
    obtain ⟨f, i, w, hw, rfl, rfl, hvw⟩ := h.edge_surj he
    have : v = w := hv.inj v hvv w (hin _ _ _ hw) hvw
    subst this
    exact ⟨(f, i), (mem_edgesOf _ _ _ _).2 hw, rfl⟩

theorem Renaming.Models.beliefOf (h : R.Models Fs Fs' k) (hv : R.VarsOk vars vars') (hin : ∀ f i v, IsEdge (Fs.map (·.scope)) f i v → v ∈ vars)
    {ev ev' : Var → Nat → α} (hev : R.SameVals vars ev ev') {m m' : Msgs α} (hm : R.SameMsgs (Fs.map (·.scope)) m m') :
    R.SameVals vars (PGMax.beliefOf (Fs.map (·.scope)) ev m) (PGMax.beliefOf (Fs'.map (·.scope)) ev' m') := by
  intro v hvv s hs
  unfold PGMax.beliefOf
  rw [hev v hvv s hs, ← ((h.edges hv hin v hvv).map (fun e => m' e.1 e.2 (R.state v s))).sum_eq, List.map_map]
  congr 2
  apply List.map_congr_left
  rintro ⟨f, i⟩ he
  exact hm f i v s ((mem_edgesOf _ _ _ _).1 he) hs

theorem Renaming.Models.varToFac (h : R.Models Fs Fs' k) (hv : R.VarsOk vars vars') (hin : ∀ f i v, IsEdge (Fs.map (·.scope)) f i v → v ∈ vars)
    {ev ev' : Var → Nat → α} (hev : R.SameVals vars ev ev') {m m' : Msgs α} (hm : R.SameMsgs (Fs.map (·.scope)) m m') (v : Var) (hvv : v ∈ vars)
    (f i s : Nat) (hs : s < v.n) :
    varToFac (Fs'.map (·.scope)) ev' m' (R.var v) (R.fac f, R.pos f i) (R.state v s) = varToFac (Fs.map (·.scope)) ev m v (f, i) s := by
  unfold PGMax.varToFac
  rw [hev v hvv s hs, ← (((h.edges hv hin v hvv).filter (fun e' => e' ≠ (R.fac f, R.pos f i))).map (fun e => m' e.1 e.2 (R.state v s))).sum_eq,
    List.filter_map, List.map_map]
  congr 2
  have : (edgesOf (Fs.map (·.scope)) v).filter ((fun e' => decide (e' ≠ (R.fac f, R.pos f i))) ∘ fun e => (R.fac e.1, R.pos e.1 e.2)) =
      (edgesOf (Fs.map (·.scope)) v).filter (fun e' => e' ≠ (f, i)) := by
    apply List.filter_congr
    rintro ⟨a, b⟩ -
    simp only [Function.comp_apply, ne_eq, Prod.mk.injEq, EmbeddingLike.apply_eq_iff_eq, decide_not]
    congr 1
    rw [decide_eq_decide]
    constructor
    · rintro ⟨rfl, h2⟩; exact ⟨rfl, (R.pos a).injective h2⟩
    · rintro ⟨rfl, rfl⟩; exact ⟨rfl, rfl⟩
  rw [this]
  apply List.map_congr_left
  rintro ⟨f', i'⟩ he
  exact hm f' i' v s ((mem_edgesOf _ _ _ _).1 (List.mem_filter.1 he).1) hs

/-- As many messages go into corresponding messages. -/
theorem Renaming.Models.inputsBut (h : R.Models Fs Fs' k) (hv : R.VarsOk vars vars') (hin : ∀ f i v, IsEdge (Fs.map (·.scope)) f i v → v ∈ vars)
    {f : Nat} {F F' : SFac α} (hF : Fs[f]? = some F) (hF' : Fs'[R.fac f]? = some F') (i : Nat) :
    PGMax.inputsBut (Fs'.map (·.scope)) F'.scope (R.pos f i) = PGMax.inputsBut (Fs.map (·.scope)) F.scope i := by
  unfold PGMax.inputsBut
  have hl := h.lengths f F F' hF hF'
  rw [hl]
  have hp := (perm_range (R.pos f) F.scope.length (h.pos_lt hF)).filter (fun j => j ≠ R.pos f i)
  rw [← (hp.map (fun j => (edgesOf (Fs'.map (·.scope)) (F'.scope.getD j ⟨0, 0⟩)).length - 1)).sum_eq, List.filter_map, List.map_map]
  have e : (List.range F.scope.length).filter ((fun j => decide (j ≠ R.pos f i)) ∘ R.pos f) = (List.range F.scope.length).filter (fun j => j ≠ i) := by
    apply List.filter_congr
    intro j _
    simp
  rw [e]
  congr 1
  apply List.map_congr_left
  intro j hj
  have hj' : j < F.scope.length := by have := (List.mem_filter.1 hj).1; simpa using this
  have hjs := List.getElem?_eq_getElem hj'
  simp only [Function.comp_apply]
  rw [getD_of_some (h.scope hF hF' hjs), getD_of_some hjs, ← (h.edges hv hin _ (hin _ _ _ (isEdge_facs hF hjs))).length_eq, List.length_map]

/-! ## Messages -/

theorem sumOut_models (Φ : List α → α) (hperm : ∀ l l' : List α, l.Perm l' → Φ l = Φ l') (hshift : ∀ l : List α, l ≠ [] → ∀ c, Φ (l.map (· + c)) = Φ l + c)
    {f : Nat} {F F' : SFac α} {c : α} (hlen : F'.scope.length = F.scope.length)
    (hpos : ∀ i < F.scope.length, R.pos f i < F.scope.length)
    (hrow : ∀ r ∈ F.rows, List.Forall₂ (fun s (v : Var) => s < v.n) r.1 F.scope)
    (hl : ∃ l, l.Perm F'.rows ∧ List.Forall₂ (R.Row f F.scope) (F.shift c).rows l) {q q' : Nat → Nat → α}
    (hq : ∀ (i : Nat) (v : Var) (s : Nat), F.scope[i]? = some v → s < v.n → q' (R.pos f i) (R.state v s) = q i s)
    (i s : Nat) (v : Var) (hi : F.scope[i]? = some v) :
    sumOut Φ F' q' (R.pos f i) (R.state v s) = (sumOut Φ F q i s).map (· + c) := by
  obtain ⟨l, hp, hf⟩ := hl
  have hil := (List.getElem?_eq_some_iff.1 hi).1
  have hrow' : ∀ r ∈ (F.shift c).rows, List.Forall₂ (fun s (v : Var) => s < v.n) r.1 F.scope := by
    intro r hr
    obtain ⟨r0, hr0, rfl⟩ := List.mem_map.1 hr
    exact hrow r0 hr0
  have hrows : List.Forall₂ (R.Row f F.scope) ((F.shift c).rowsAt i s) (l.filter (fun r => r.1[R.pos f i]? = some (R.state v s))) := by
    unfold SFac.rowsAt
    apply forall₂_filter hf
    rintro r r' hr ⟨h1, h2, h3⟩
    have hll := (hrow' r hr).length_eq
    have hir := List.getElem?_eq_getElem (show i < r.1.length by omega)
    rw [h3 i v _ hi hir, hir]
    simp
  have e1 : ((F.shift c).rowsAt i s).map (scoreBut F.scope.length q i) = (l.filter (fun r => r.1[R.pos f i]? = some (R.state v s))).map (scoreBut F'.scope.length q' (R.pos f i)) := by
    refine forall₂_map_eq hrows ?_
    rintro r r' hr ⟨h1, h2, h3⟩
    have hr' := hrow' r (List.mem_filter.1 hr).1
    have hll := hr'.length_eq
    rw [hlen]
    refine (scoreBut_perm hpos h2 (fun j hj => ?_)).symm
    obtain ⟨w, hw, hlt⟩ := forall₂_getElem? hr' (List.getElem?_eq_getElem (show j < r.1.length by omega))
    have hjr := List.getElem?_eq_getElem (show j < r.1.length by omega)
    rw [getD_of_some (h3 j w _ hw hjr), getD_of_some hjr]
    exact hq j w _ hw hlt
  have e2 : (F.shift c).rowsAt i s = (F.rowsAt i s).map (fun r => (r.1, r.2 + c)) := by
    unfold SFac.rowsAt SFac.shift
    rw [List.filter_map]
    rfl
  have e3 : ((F.shift c).rowsAt i s).map (scoreBut F.scope.length q i) = ((F.rowsAt i s).map (scoreBut F.scope.length q i)).map (· + c) := by
    rw [e2, List.map_map, List.map_map]
    apply List.map_congr_left
    intro r _
    simp only [Function.comp_apply, scoreBut]
    ring
  have hp' : (l.filter (fun r => r.1[R.pos f i]? = some (R.state v s))).Perm (F'.rowsAt (R.pos f i) (R.state v s)) := hp.filter _
  have hnil : F'.rowsAt (R.pos f i) (R.state v s) = [] ↔ F.rowsAt i s = [] := by
    rw [← List.length_eq_zero_iff, ← List.length_eq_zero_iff, ← hp'.length_eq, ← hrows.length_eq, e2, List.length_map]
  unfold sumOut
  by_cases hn : F.rowsAt i s = []
  · rw [if_pos hn, if_pos (hnil.2 hn)]
    rfl
  · rw [if_neg hn, if_neg (fun h => hn (hnil.1 h)), ← hperm _ _ (hp'.map _), ← e1, e3, hshift _ (by simpa using hn)]
    rfl

theorem tbNorm_perm {n : Nat} {x x' : Nat → WithBot α} (σ : Equiv.Perm Nat) (hσ : ∀ s, s < n ↔ σ s < n) (h : ∀ s < n, x' (σ s) = x s) {s : Nat} (hs : s < n) :
    tbNorm n x' (σ s) = tbNorm n x s := by
  have : (Finset.range n).sup x' = (Finset.range n).sup x := by
    apply le_antisymm
    · refine Finset.sup_le fun j hj => ?_
      obtain ⟨i, hi, rfl⟩ := perm_range_surj σ n (fun i hi => (hσ i).1 hi) j (Finset.mem_range.1 hj)
      rw [h i hi]
      exact Finset.le_sup (f := x) (Finset.mem_range.2 hi)
    · refine Finset.sup_le fun j hj => ?_
      have hj := Finset.mem_range.1 hj
      rw [← h j hj]
      exact Finset.le_sup (f := x') (Finset.mem_range.2 ((hσ j).1 hj))
  unfold tbNorm
  rw [this, h s hs]

variable [IsStrictOrderedRing α]

/-- Corresponding messages stay so. -/
theorem Renaming.Models.sumRun (h : R.Models Fs Fs' k) (hv : R.VarsOk vars vars') (hin : ∀ f i v, IsEdge (Fs.map (·.scope)) f i v → v ∈ vars)
    (hrow : ∀ F ∈ Fs, ∀ r ∈ F.rows, List.Forall₂ (fun s (v : Var) => s < v.n) r.1 F.scope)
    (Φ : List α → α) (hperm : ∀ l l' : List α, l.Perm l' → Φ l = Φ l') (hshift : ∀ l : List α, l ≠ [] → ∀ c, Φ (l.map (· + c)) = Φ l + c)
    {ev ev' : Var → Nat → α} (hev : R.SameVals vars ev ev') (d : α) (n : Nat) {m m' : Msgs α} (hm : R.SameMsgs (Fs.map (·.scope)) m m') :
    R.SameMsgs (Fs.map (·.scope)) (PGMax.sumRun (fun _ => Φ) Fs ev d n m) (PGMax.sumRun (fun _ => Φ) Fs' ev' d n m') := by
  induction n with
  | zero =>
    intro f i v s he hs
    obtain ⟨F, hF, hi⟩ := he.facs
    obtain ⟨F', hF'⟩ := h.at hF
    have hvv := hin f i v he
    simp only [PGMax.sumRun]
    rw [tbInit_at hF hi, tbInit_at hF' (h.scope hF hF' hi), hv.size v hvv]
    exact tbNorm_perm (R.state v) (hv.states v hvv) (fun t ht => by rw [hm f i v t he ht]) hs
  | succ n ih =>
    intro f i v s he hs
    obtain ⟨F, hF, hi⟩ := he.facs
    obtain ⟨F', hF'⟩ := h.at hF
    have hvv := hin f i v he
    simp only [PGMax.sumRun]
    rw [sumStep_at _ hF hi, sumStep_at _ hF' (h.scope hF hF' hi), hv.size v hvv]
    refine (tbNorm_perm (x := fun t => ((sumOut Φ F (tbIn Fs ev (PGMax.sumRun (fun _ => Φ) Fs ev d n m) f F) i t).map
      (fun x => d * PGMax.sumRun (fun _ => Φ) Fs ev d n m f i t + (1 - d) * x)).map (· + (1 - d) * k f)) (R.state v) (hv.states v hvv) (fun t ht => ?_) hs).trans
      (tbNorm_add (C := (1 - d) * k f) (fun t _ => rfl) hs)
    rw [sumOut_models Φ hperm hshift (h.lengths f F F' hF hF') (h.pos_lt hF) (hrow F (List.mem_of_getElem? hF)) (h.rows f F F' hF hF')
      (q := tbIn Fs ev (PGMax.sumRun (fun _ => Φ) Fs ev d n m) f F) (fun j w u hj hu => ?_) i t v hi, ih f i v t he ht]
    · cases sumOut Φ F (tbIn Fs ev (PGMax.sumRun (fun _ => Φ) Fs ev d n m) f F) i t with
      | bot => rfl
      | coe x =>
        simp only [WithBot.map_coe]
        congr 1
        ring
    · rw [tbIn_at hj, tbIn_at (h.scope hF hF' hj)]
      exact h.varToFac hv hin hev ih w (hin _ _ _ (isEdge_facs hF hj)) f j u hu

end

/-! ## Small numbers -/

theorem forall₂_mem_right {β γ : Type _} {P : β → γ → Prop} {l : List β} {l' : List γ} (h : List.Forall₂ P l l') {b : γ} (hb : b ∈ l') : ∃ a ∈ l, P a b := by
  induction h with
  | nil => simp at hb
  | cons hab _ ih =>
    rcases List.mem_cons.1 hb with rfl | hb
    · exact ⟨_, by simp, hab⟩
    · obtain ⟨a, ha, hP⟩ := ih hb
      exact ⟨a, by simp [ha], hP⟩

section
variable [Field α] [LinearOrder α] [IsStrictOrderedRing α] {vgs : List (VGroup κ)} {hist : List (AddArg α)} {garbage : Garbage} {st : FGState κ α}
  {lp : List α} {ev : Var → Nat → α} {d E P : α} {D K : Nat}

theorem SmallNumbers.tame (h : Compiled vgs hist garbage st) (hs : SmallNumbers ((graphOf vgs hist).factors lp) ev d E P D K) :
    Moderate (graphOf vgs hist) lp ev d ∧ LogicalModerate (graphOf vgs hist) ev := by
  have hsc := (graphOf vgs hist).factors_scopes lp
  have hd := hs.damping
  have hr := hs.room
  have hdeg := hs.degree
  rw [hsc] at hdeg
  have hW : P + K * (E + 1000 * D) ≤ 99000 := by
    by_contra hc
    push Not at hc
    nlinarith
  have hedge : ∀ f i v, IsEdge (graphOf vgs hist).allScopes f i v → ∀ s < v.n, |ev v s| ≤ E := by
    intro f i v he s hs'
    rw [← hsc] at he
    obtain ⟨F, hF, hi⟩ := he.facs
    exact hs.evidence F (List.mem_of_getElem? hF) v (List.mem_of_getElem? hi) s hs'
  refine ⟨⟨⟨hd.1, hd.2.le⟩, fun _ => E + 1000 * D, fun f i v s he hs' => ?_, fun F hF => ?_⟩, fun f vs hf hl => ?_⟩
  · have h1 := hedge f i v he s hs'
    have h2 : ((edgesOf (graphOf vgs hist).allScopes v).length : α) ≤ D := by exact_mod_cast hdeg v
    linarith
  · have hF' : F ∈ (graphOf vgs hist).factors lp := by
      unfold FactorGraph.factors
      simp [hF]
    refine ⟨P + K * (E + 1000 * D), fun r hr => ?_, by linarith, .inr hr⟩
    rw [List.map_const', List.sum_replicate, nsmul_eq_mul]
    have h1 := hs.pots F hF' r hr
    have h2 : (F.scope.length : α) ≤ K := by exact_mod_cast hs.size F hF'
    have h3 : 0 ≤ E + 1000 * (D : α) := by have := hs.nonneg.1; positivity
    nlinarith
  · by_cases h2 : vs.length = 2
    · exact .inl h2
    right
    have hfl : f < ((graphOf vgs hist).factors lp).length := by
      rw [← List.length_map (f := SFac.scope), hsc]
      exact (List.getElem?_eq_some_iff.1 hf).1
    obtain ⟨F, hF⟩ : ∃ F, ((graphOf vgs hist).factors lp)[f]? = some F := ⟨_, List.getElem?_eq_getElem hfl⟩
    have hFs : F.scope = vs := by
      have := hf
      rw [← hsc, List.getElem?_map, hF] at this
      exact Option.some.inj this
    have hLS : LogicalScope vs := by
      unfold FactorGraph.factors at hF
      rw [List.append_assoc, List.getElem?_append_right (by simpa using hl)] at hF
      rw [← hFs]
      rcases List.mem_append.1 (List.mem_of_getElem? hF) with hm | hm
      · obtain ⟨ws, hws, rfl⟩ := List.mem_map.1 hm
        exact h.logicalScopes .or (by decide) ws hws
      · obtain ⟨ws, hws, rfl⟩ := List.mem_map.1 hm
        exact h.logicalScopes .and (by decide) ws hws
    have h3 : 3 ≤ vs.length := by have := hLS.1; omega
    have hK : (3 : α) ≤ K := by
      have := hs.size F (List.mem_of_getElem? hF)
      rw [hFs] at this
      exact_mod_cast le_trans h3 this
    refine ⟨0, by omega, 1, by omega, by omega, fun i _ v hv => ?_⟩
    have he : IsEdge (graphOf vgs hist).allScopes f i v := ⟨vs, hf, hv⟩
    have hn := hLS.2 v (List.mem_of_getElem? hv)
    have hrest : (graphOf vgs hist).restState f < 2 := Renaming.Iso.restLt _ f
    have e1 := abs_le.1 (hedge f i v he (1 - (graphOf vgs hist).restState f) (by omega))
    have e2 := abs_le.1 (hedge f i v he ((graphOf vgs hist).restState f) (by omega))
    have h2 : ((edgesOf (graphOf vgs hist).allScopes v).length : α) ≤ D := by exact_mod_cast hdeg v
    have h0 : 0 ≤ (D : α) := by positivity
    have hE := hs.nonneg
    nlinarith

/-- Small numbers in one description are small in the other. -/
theorem Renaming.Models.small {R : Renaming} {Fs Fs' : List (SFac α)} (h : R.Models Fs Fs' (fun _ => 0)) {vars vars' : Finset Var} (hv : R.VarsOk vars vars')
    (hin : ∀ f i v, IsEdge (Fs.map (·.scope)) f i v → v ∈ vars) {ev' : Var → Nat → α} (hev : R.SameVals vars ev ev')
    (hs : SmallNumbers Fs ev d E P D K) : SmallNumbers Fs' ev' d E P D K := by
  have hfac : ∀ F' ∈ Fs', ∃ f F, Fs[f]? = some F ∧ Fs'[R.fac f]? = some F' := by
    intro F' hF'
    obtain ⟨f', hf'⟩ := List.mem_iff_getElem?.1 hF'
    have hf : R.fac.symm f' < Fs.length := (h.facs _).2 (by rw [Equiv.apply_symm_apply]; exact (List.getElem?_eq_some_iff.1 hf').1)
    exact ⟨R.fac.symm f', _, List.getElem?_eq_getElem hf, by rw [Equiv.apply_symm_apply]; exact hf'⟩
  refine ⟨hs.damping, hs.nonneg, fun F' hF' w hw s hs' => ?_, fun F' hF' r hr => ?_, fun w => ?_, fun F' hF' => ?_, hs.room⟩
  · obtain ⟨f', hf'⟩ := List.mem_iff_getElem?.1 hF'
    obtain ⟨i', hi'⟩ := List.mem_iff_getElem?.1 hw
    obtain ⟨f, i, v, he, -, -, rfl⟩ := h.edge_surj (isEdge_facs hf' hi')
    have hvv := hin f i v he
    rw [hv.size v hvv] at hs'
    obtain ⟨t, ht, rfl⟩ := perm_range_surj (R.state v) v.n (fun t ht => (hv.states v hvv t).1 ht) s hs'
    rw [hev v hvv t ht]
    obtain ⟨F, hF, hi⟩ := he.facs
    exact hs.evidence F (List.mem_of_getElem? hF) v (List.mem_of_getElem? hi) t ht
  · obtain ⟨f, F, hF, hF2⟩ := hfac F' hF'
    obtain ⟨l, hp, hf⟩ := h.rows f F F' hF hF2
    obtain ⟨r0, hr0, hrr⟩ := forall₂_mem_right hf (hp.mem_iff.2 hr)
    obtain ⟨r1, hr1, rfl⟩ := List.mem_map.1 hr0
    rw [hrr.2.1]
    simpa using hs.pots F (List.mem_of_getElem? hF) r1 hr1
  · by_cases hw : edgesOf (Fs'.map (·.scope)) w = []
    · rw [hw]; simp
    · obtain ⟨⟨f', i'⟩, he'⟩ := List.exists_mem_of_ne_nil _ hw
      obtain ⟨f, i, v, he, -, -, rfl⟩ := h.edge_surj ((mem_edgesOf _ _ _ _).1 he')
      rw [← (h.edges hv hin v (hin f i v he)).length_eq, List.length_map]
      exact hs.degree v
  · obtain ⟨f, F, hF, hF2⟩ := hfac F' hF'
    rw [h.lengths f F F' hF hF2]
    exact hs.size F (List.mem_of_getElem? hF)

end

end PGMax
