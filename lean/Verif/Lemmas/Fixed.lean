import Verif.Spec.Fixed
import Verif.Lemmas.Dominant
import Verif.Lemmas.Forest
import Mathlib.Combinatorics.Hall.Basic
import Mathlib.Data.List.GetD

/-! # Fixed points of max-product belief propagation -/

namespace PGMax

theorem FewLoops.mono {scopes : List (List Var)} {S S' : Var → Prop} (h : FewLoops scopes S) (hS : ∀ v, S' v → S v) : FewLoops scopes S' :=
  fun E hE => h E fun e he => ⟨(hE e he).1, hS _ (hE e he).2⟩

/-- The edges can be given to their ends, at most one to each. -/
theorem FewLoops.own {scopes : List (List Var)} {S : Var → Prop} (h : FewLoops scopes S) :
    ∃ own : {e : Nat × Nat × Var // IsEdge scopes e.1 e.2.1 e.2.2 ∧ S e.2.2} → Var ⊕ Nat, Function.Injective own ∧ ∀ e, own e = .inl e.1.2.2 ∨ own e = .inr e.1.1 := by
  classical
  obtain ⟨own, h1, h2⟩ := (Finset.all_card_le_biUnion_card_iff_exists_injective
    (fun e : {e : Nat × Nat × Var // IsEdge scopes e.1 e.2.1 e.2.2 ∧ S e.2.2} => ({.inl e.1.2.2, .inr e.1.1} : Finset (Var ⊕ Nat)))).1 (fun s => by
      have h3 := h (s.map (Function.Embedding.subtype _)) (fun e he => by
        obtain ⟨e', -, rfl⟩ := Finset.mem_map.1 he
        exact e'.2)
      rw [Finset.card_map] at h3
      have h4 : s.biUnion (fun e => ({.inl e.1.2.2, .inr e.1.1} : Finset (Var ⊕ Nat))) =
          Finset.disjSum ((s.map (Function.Embedding.subtype _)).image (fun e => e.2.2)) ((s.map (Function.Embedding.subtype _)).image (fun e => e.1)) := by
        ext y
        cases y with
        | inl v =>
          rw [Finset.inl_mem_disjSum]
          simp only [Finset.mem_biUnion, Finset.mem_insert, Finset.mem_singleton, Sum.inl.injEq, reduceCtorEq, or_false, Finset.mem_image, Finset.mem_map]
          constructor
          · rintro ⟨e, he, rfl⟩
            exact ⟨e.1, ⟨e, he, rfl⟩, rfl⟩
          · rintro ⟨_, ⟨e, he, rfl⟩, rfl⟩
            exact ⟨e, he, rfl⟩
        | inr f =>
          rw [Finset.inr_mem_disjSum]
          simp only [Finset.mem_biUnion, Finset.mem_insert, Finset.mem_singleton, Sum.inr.injEq, reduceCtorEq, false_or, Finset.mem_image, Finset.mem_map]
          constructor
          · rintro ⟨e, he, rfl⟩
            exact ⟨e.1, ⟨e, he, rfl⟩, rfl⟩
          · rintro ⟨_, ⟨e, he, rfl⟩, rfl⟩
            exact ⟨e, he, rfl⟩
      rw [h4, Finset.card_disjSum]
      omega)
  exact ⟨own, h1, fun e => by simpa using h2 e⟩

/-- If the edges can be given to their ends, at most one to each, there are few loops. -/
theorem fewLoops_of_own {scopes : List (List Var)} {S : Var → Prop} (own : Nat × Nat × Var → Var ⊕ Nat)
    (hown : ∀ e, IsEdge scopes e.1 e.2.1 e.2.2 → S e.2.2 → own e = .inl e.2.2 ∨ own e = .inr e.1)
    (hinj : ∀ e e', IsEdge scopes e.1 e.2.1 e.2.2 → S e.2.2 → IsEdge scopes e'.1 e'.2.1 e'.2.2 → S e'.2.2 → own e = own e' → e = e') : FewLoops scopes S := by
  classical
  intro E hE
  have h1 : (E.image own).card = E.card := Finset.card_image_of_injOn fun e he e' he' h =>
    hinj e e' (hE e he).1 (hE e he).2 (hE e' he').1 (hE e' he').2 h
  have h2 : E.image own ⊆ (E.image (fun e => e.2.2)).disjSum (E.image (fun e => e.1)) := by
    intro y hy
    obtain ⟨e, he, rfl⟩ := Finset.mem_image.1 hy
    rcases hown e (hE e he).1 (hE e he).2 with h | h
    · rw [h, Finset.inl_mem_disjSum]; exact Finset.mem_image_of_mem _ he
    · rw [h, Finset.inr_mem_disjSum]; exact Finset.mem_image_of_mem _ he
  have h3 := Finset.card_le_card h2
  rw [h1, Finset.card_disjSum] at h3
  omega

/-- A graph without loops has few loops. -/
theorem fewLoops_of_acyclic {scopes : List (List Var)} (hG : (bipartite scopes).IsAcyclic) (hnd : ∀ vs ∈ scopes, vs.Nodup) (S : Var → Prop) : FewLoops scopes S := by
  have hinj : ∀ {f i f' i' : Nat} {v v' : Var}, IsEdge scopes f i v → IsEdge scopes f' i' v' → f = f' → v = v' → (f, i, v) = (f', i', v') := by
    rintro f i f' i' v v' h h' rfl rfl
    rw [isEdge_unique hnd h h']
  by_cases hr : ∃ r : Var, True
  · obtain ⟨r, -⟩ := hr
    refine fewLoops_of_own (fun e => if depth scopes r (.inr e.1) < depth scopes r (.inl e.2.2) then .inl e.2.2 else .inr e.1) (fun e _ _ => ?_) ?_
    · split
      · exact .inl rfl
      · exact .inr rfl
    · rintro ⟨f, i, v⟩ ⟨f', i', v'⟩ he - he' - h
      have hadj : (bipartite scopes).Adj (.inl v) (.inr f) := ⟨i, he⟩
      have hadj' : (bipartite scopes).Adj (.inl v') (.inr f') := ⟨i', he'⟩
      simp only at h
      split at h
      · next h1 =>
        split at h
        · next h2 =>
          cases h
          have := depth_closer_unique hG r ⟨v, SimpleGraph.Reachable.refl _⟩ hadj hadj' h1 h2
          exact hinj he he' (Sum.inr.inj this) rfl
        · cases h
      · next h1 =>
        split at h
        · cases h
        · next h2 =>
          cases h
          have hx : ∃ v, (bipartite scopes).Reachable (.inl v) (.inr f) := ⟨v, hadj.reachable⟩
          have d1 := depth_adj hG r hx hadj.symm
          have d2 := depth_adj hG r hx hadj'.symm
          have := depth_closer_unique hG r hx hadj.symm hadj'.symm (by omega) (by omega)
          exact hinj he he' rfl (Sum.inl.inj this)
  · exact absurd ⟨⟨0, 0⟩, trivial⟩ hr

/-- Loops without chords: variables of at most two factors, factors of at most two variables. -/
theorem fewLoops_of_degree {scopes : List (List Var)} {S : Var → Prop} (hv : ∀ v, S v → (edgesOf scopes v).length ≤ 2) (hf : ∀ vs ∈ scopes, vs.length ≤ 2) : FewLoops scopes S := by
  classical
  intro E hE
  have h1 : E.card ≤ 2 * (E.image (fun e => e.1)).card := by
    refine Finset.card_le_mul_card_image E 2 fun f hfE => ?_
    refine (Finset.card_le_card_of_injOn (t := Finset.range 2) (fun e => e.2.1) ?_ ?_).trans_eq (Finset.card_range 2)
    · intro e he
      obtain ⟨he, -⟩ := Finset.mem_filter.1 he
      obtain ⟨vs, h1, h2⟩ := (hE e he).1
      have := hf vs (List.mem_of_getElem? h1)
      have := (List.getElem?_eq_some_iff.1 h2).1
      exact Finset.mem_coe.2 (Finset.mem_range.2 (show e.2.1 < 2 by omega))
    · rintro ⟨f1, i, v⟩ he ⟨f2, i', v'⟩ he' h
      obtain ⟨hm, e1⟩ := Finset.mem_filter.1 he
      obtain ⟨hm', e2⟩ := Finset.mem_filter.1 he'
      simp only at e1 e2 h
      subst e1 e2 h
      obtain ⟨vs, h1, h2⟩ := (hE _ hm).1
      obtain ⟨vs', h1', h2'⟩ := (hE _ hm').1
      simp only at h1 h2 h1' h2'
      rw [h1] at h1'
      cases h1'
      rw [h2] at h2'
      cases h2'
      rfl
  have h2 : E.card ≤ 2 * (E.image (fun e => e.2.2)).card := by
    refine Finset.card_le_mul_card_image E 2 fun v hvE => ?_
    obtain ⟨e0, he0, rfl⟩ := Finset.mem_image.1 hvE
    refine (Finset.card_le_card_of_injOn (t := (edgesOf scopes e0.2.2).toFinset) (fun e => (e.1, e.2.1)) ?_ ?_).trans ((List.toFinset_card_le _).trans (hv _ (hE e0 he0).2))
    · intro e he
      obtain ⟨he, h⟩ := Finset.mem_filter.1 he
      refine Finset.mem_coe.2 (List.mem_toFinset.2 ?_)
      rw [← h]
      exact (mem_edgesOf _ _ _ _).2 (hE e he).1
    · rintro ⟨f1, i, v⟩ he ⟨f2, i', v'⟩ he' h
      obtain ⟨he, e1⟩ := Finset.mem_filter.1 he
      obtain ⟨he', e2⟩ := Finset.mem_filter.1 he'
      simp only [Prod.mk.injEq] at e1 e2 h
      rw [h.1, h.2, e1, e2]
  omega

/-- One variable that is not twice in a factor. -/
theorem fewLoops_single {scopes : List (List Var)} (hnd : ∀ vs ∈ scopes, vs.Nodup) (v : Var) : FewLoops scopes (fun w => w = v) := by
  refine fewLoops_of_own (fun e => .inr e.1) (fun e _ _ => .inr rfl) ?_
  rintro ⟨f, i, w⟩ ⟨f', i', w'⟩ he hw he' hw' h
  cases h
  simp only at hw hw'
  subst hw hw'
  have := isEdge_unique hnd he he'
  simp only at this
  rw [this]

section
variable {α : Type _} [Field α] [LinearOrder α] [IsStrictOrderedRing α]

/-- What a message says about the maxima it was computed from, if it does not change any more: clipping only makes it larger. -/
theorem fixed_message {n : Nat} {out : Nat → WithBot α} {m : Nat → α} {d : α} (hd : d < 1)
    (hfix : ∀ s < n, tbNorm n (fun s => (out s).map (fun x => d * m s + (1 - d) * x)) s = m s) {x : Nat} (hx : x < n) (hclip : -1000 < m x) :
    ∃ c, (∀ s < n, out s ≤ WithBot.some (m s + c)) ∧ out x = WithBot.some (m x + c) := by
  have hd' : 0 < 1 - d := by linarith
  obtain ⟨o, ho⟩ : ∃ o, out x = WithBot.some o := by
    cases e : out x with
    | bot =>
      have := hfix x hx
      rw [tbNorm_bot (by simp only [e]; rfl)] at this
      rw [← this] at hclip
      exact absurd hclip (lt_irrefl _)
    | coe o => exact ⟨o, rfl⟩
  obtain ⟨t, ht, hsup⟩ := Finset.exists_mem_eq_sup (Finset.range n) ⟨x, Finset.mem_range.2 hx⟩ (fun s => (out s).map (fun x => d * m s + (1 - d) * x))
  obtain ⟨b, hb⟩ : ∃ b, (Finset.range n).sup (fun s => (out s).map (fun x => d * m s + (1 - d) * x)) = WithBot.some b := by
    rw [hsup]
    cases e : out t with
    | bot =>
      exfalso
      have h1 := Finset.le_sup (f := fun s => (out s).map (fun x => d * m s + (1 - d) * x)) (Finset.mem_range.2 hx)
      rw [hsup] at h1
      simp only [e, ho] at h1
      exact absurd h1 (by rw [WithBot.map_coe, WithBot.map_bot, le_bot_iff]; exact WithBot.coe_ne_bot)
    | coe o' => exact ⟨_, rfl⟩
  have hat : ∀ s < n, ∀ o, out s = WithBot.some o → m s = max (d * m s + (1 - d) * o - b) (-1000) := by
    intro s hs o ho
    have h1 := hfix s hs
    rw [tbNorm_coe hb (a := d * m s + (1 - d) * o) (by simp only [ho]; rfl)] at h1
    exact h1.symm
  refine ⟨b / (1 - d), fun s hs => ?_, ?_⟩
  · cases e : out s with
    | bot => exact bot_le
    | coe o =>
      refine WithBot.coe_le_coe.2 ?_
      have h1 := (le_max_left _ _).trans_eq (hat s hs o e).symm
      have h2 : (o - m s) * (1 - d) ≤ b := by nlinarith
      have h3 := (le_div_iff₀ hd').2 h2
      linarith
  · rw [ho]
    congr 1
    have h1 := hat x hx o ho
    rcases max_cases (d * m x + (1 - d) * o - b) (-1000) with ⟨h2, -⟩ | ⟨h2, -⟩
    · rw [h2] at h1
      have h3 : (o - m x) * (1 - d) = b := by linarith
      have h4 := (eq_div_iff hd'.ne').2 h3
      linarith
    · rw [h2] at h1
      rw [h1] at hclip
      exact absurd hclip (lt_irrefl _)

/-- Log potential of a configuration plus all incoming messages. -/
def scoreAll (n : Nat) (q : Nat → Nat → α) (row : List Nat × α) : α := row.2 + ∑ j ∈ Finset.range n, q j (row.1.getD j 0)

omit [LinearOrder α] [IsStrictOrderedRing α] in
theorem scoreAll_eq {n i : Nat} (hi : i < n) (q : Nat → Nat → α) (row : List Nat × α) : scoreAll n q row = scoreBut n q i row + q i (row.1.getD i 0) := by
  unfold scoreAll scoreBut
  have h1 : (((List.range n).filter (fun j => j ≠ i)).map (fun j => q j (row.1.getD j 0))).sum = ∑ j ∈ (Finset.range n).erase i, q j (row.1.getD j 0) := by
    rw [← List.sum_toFinset _ (List.nodup_range.filter _)]
    refine Finset.sum_congr ?_ fun _ _ => rfl
    ext j
    simp [and_comm]
  rw [h1, ← Finset.sum_erase_add _ _ (Finset.mem_range.2 hi)]
  ring

omit [IsStrictOrderedRing α] in
theorem belief_eq {scopes : List (List Var)} (ev : Var → Nat → α) (m : Msgs α) {f i : Nat} {v : Var} (he : IsEdge scopes f i v) (s : Nat) :
    beliefOf scopes ev m v s = varToFac scopes ev m v (f, i) s + m f i s := by
  unfold beliefOf varToFac
  rw [sum_edges_but scopes he]
  ring

/-- At a fixed point, if every variable of a factor has a unique state of maximal belief, these states are the best configuration of the factor. -/
theorem fixed_factor {factors : List (SFac α)} {ev : Var → Nat → α} {d : α} (hd : d < 1) {m : Msgs α} {f : Nat} {F : SFac α} (hF : factors[f]? = some F) (hne : F.scope ≠ [])
    (hrow : ∀ r ∈ F.rows, List.Forall₂ (fun s (v : Var) => s < v.n) r.1 F.scope)
    (hfix : ∀ i v, F.scope[i]? = some v → ∀ s < v.n, tbStep factors ev d m f i s = m f i s) {x : Var → Nat}
    (hx : ∀ v ∈ F.scope, x v < v.n ∧ ∀ s < v.n, s ≠ x v → beliefOf (factors.map (·.scope)) ev m v s < beliefOf (factors.map (·.scope)) ev m v (x v))
    (hclip : ∀ i v, F.scope[i]? = some v → -1000 < m f i (x v)) :
    ∃ ρ ∈ F.rows, ρ.1 = F.scope.map x ∧ ∀ r ∈ F.rows, ∀ i v, F.scope[i]? = some v →
      scoreAll F.scope.length (tbIn factors ev m f F) r - scoreAll F.scope.length (tbIn factors ev m f F) ρ ≤
        beliefOf (factors.map (·.scope)) ev m v (r.1.getD i 0) - beliefOf (factors.map (·.scope)) ev m v (x v) := by
  have hedge : ∀ i v, F.scope[i]? = some v → IsEdge (factors.map (·.scope)) f i v := fun i v hi => ⟨F.scope, by rw [List.getElem?_map, hF]; rfl, hi⟩
  have hmsg : ∀ i v, F.scope[i]? = some v → ∃ c, (∀ s < v.n, tbOut F (tbIn factors ev m f F) i s ≤ WithBot.some (m f i s + c)) ∧
      tbOut F (tbIn factors ev m f F) i (x v) = WithBot.some (m f i (x v) + c) := by
    intro i v hi
    refine fixed_message hd (fun s hs => ?_) (hx v (List.mem_of_getElem? hi)).1 (hclip i v hi)
    rw [← tbStep_at hF hi]
    exact hfix i v hi s hs
  have hat : ∀ r ∈ F.rows, ∀ i v, F.scope[i]? = some v → r.1[i]? = some (r.1.getD i 0) ∧ r.1.getD i 0 < v.n := by
    intro r hr i v hi
    have hl := (hrow r hr).length_eq
    have hil := (List.getElem?_eq_some_iff.1 hi).1
    obtain ⟨w, hw, hlt⟩ := forall₂_getElem? (hrow r hr) (List.getElem?_eq_getElem (by rw [hl]; exact hil))
    rw [hi] at hw
    cases hw
    rw [List.getD, List.getElem?_eq_getElem (by rw [hl]; exact hil)]
    exact ⟨rfl, hlt⟩
  have hall : ∀ i v, F.scope[i]? = some v → ∀ r ∈ F.rows, scoreAll F.scope.length (tbIn factors ev m f F) r =
      scoreBut F.scope.length (tbIn factors ev m f F) i r + (beliefOf (factors.map (·.scope)) ev m v (r.1.getD i 0) - m f i (r.1.getD i 0)) := by
    intro i v hi r hr
    rw [scoreAll_eq (List.getElem?_eq_some_iff.1 hi).1, tbIn_at hi, belief_eq ev m (hedge i v hi)]
    ring
  choose! c hc1 hc2 using hmsg
  have hup : ∀ i v, F.scope[i]? = some v → ∀ r ∈ F.rows, scoreAll F.scope.length (tbIn factors ev m f F) r ≤ beliefOf (factors.map (·.scope)) ev m v (r.1.getD i 0) + c i v := by
    intro i v hi r hr
    have h1 := List.le_maximum_of_mem' (List.mem_map.2 ⟨r, List.mem_filter.2 ⟨hr, by simpa using (hat r hr i v hi).1⟩, rfl⟩ :
      scoreBut F.scope.length (tbIn factors ev m f F) i r ∈ (F.rowsAt i (r.1.getD i 0)).map (scoreBut F.scope.length (tbIn factors ev m f F) i))
    have h2 := WithBot.coe_le_coe.1 (h1.trans (hc1 i v hi _ (hat r hr i v hi).2))
    rw [hall i v hi r hr]
    linarith
  have hbest : ∀ i v, F.scope[i]? = some v → ∃ r ∈ F.rows, r.1.getD i 0 = x v ∧ scoreAll F.scope.length (tbIn factors ev m f F) r = beliefOf (factors.map (·.scope)) ev m v (x v) + c i v := by
    intro i v hi
    have h1 := List.maximum_mem (hc2 i v hi)
    obtain ⟨r, hr, h2⟩ := List.mem_map.1 h1
    obtain ⟨hr, h3⟩ := List.mem_filter.1 hr
    have h3 : r.1[i]? = some (x v) := by simpa using h3
    have h4 : r.1.getD i 0 = x v := by rw [List.getD, h3]; rfl
    refine ⟨r, hr, h4, ?_⟩
    rw [hall i v hi r hr, h4, h2]
    ring
  have hmax : ∀ v ∈ F.scope, ∀ s < v.n, beliefOf (factors.map (·.scope)) ev m v s ≤ beliefOf (factors.map (·.scope)) ev m v (x v) := by
    intro v hv s hs
    by_cases e : s = x v
    · rw [e]
    · exact ((hx v hv).2 s hs e).le
  have hle : ∀ i v j w, F.scope[i]? = some v → F.scope[j]? = some w →
      beliefOf (factors.map (·.scope)) ev m v (x v) + c i v ≤ beliefOf (factors.map (·.scope)) ev m w (x w) + c j w := by
    intro i v j w hi hj
    obtain ⟨r, hr, -, h2⟩ := hbest i v hi
    rw [← h2]
    have := hmax w (List.mem_of_getElem? hj) _ (hat r hr j w hj).2
    linarith [hup j w hj r hr]
  obtain ⟨v0, hv0⟩ : ∃ v0, F.scope[0]? = some v0 := by
    cases e : F.scope with
    | nil => exact absurd e hne
    | cons v _ => exact ⟨v, rfl⟩
  obtain ⟨ρ, hρ, -, h2⟩ := hbest 0 v0 hv0
  refine ⟨ρ, hρ, ?_, fun r hr i v hi => ?_⟩
  · apply List.ext_getElem?
    intro j
    rw [List.getElem?_map]
    cases hj : F.scope[j]? with
    | none =>
      rw [List.getElem?_eq_none_iff] at hj
      rw [List.getElem?_eq_none (by rw [(hrow ρ hρ).length_eq]; exact hj)]
      rfl
    | some w =>
      rw [(hat ρ hρ j w hj).1]
      by_contra hne'
      have h3 := (hx w (List.mem_of_getElem? hj)).2 _ (hat ρ hρ j w hj).2 (fun e => hne' (by rw [e]; rfl))
      linarith [hup j w hj ρ hρ, hle 0 v0 j w hv0 hj, hle j w 0 v0 hj hv0]
  · linarith [hup i v hi r hr, hle i v 0 v0 hi hv0]

omit [LinearOrder α] [IsStrictOrderedRing α] in
/-- Sums over all edges, by variables and by factors. -/
theorem sum_by_factors (scopes : List (List Var)) (vars : Finset Var) (hvars : ∀ vs ∈ scopes, ∀ v ∈ vs, v ∈ vars) (h : Nat → Nat → Var → α) :
    ∑ v ∈ vars, ((edgesOf scopes v).map (fun e => h e.1 e.2 v)).sum =
      ∑ f ∈ Finset.range scopes.length, ∑ i ∈ Finset.range (scopes.getD f []).length, h f i ((scopes.getD f []).getD i ⟨0, 0⟩) := by
  have e : ∀ v, ((edgesOf scopes v).map (fun e => h e.1 e.2 v)).sum =
      ∑ f ∈ Finset.range scopes.length, ∑ i ∈ Finset.range (scopes.getD f []).length, if (scopes.getD f []).getD i ⟨0, 0⟩ = v then h f i v else 0 := by
    intro v
    unfold edgesOf
    rw [List.map_flatMap, List.flatMap_def, List.sum_flatten, List.map_map, ← List.sum_toFinset _ List.nodup_range, List.toFinset_range]
    refine Finset.sum_congr rfl fun f _ => ?_
    simp only [List.map_map, Function.comp_def]
    rw [← List.sum_toFinset _ (List.nodup_range.filter _), ← Finset.sum_filter]
    refine Finset.sum_congr ?_ fun _ _ => rfl
    ext i
    simp only [List.mem_toFinset, List.mem_filter, List.mem_range, decide_eq_true_eq, Finset.mem_filter, Finset.mem_range]
    refine and_congr_right fun hi => ?_
    rw [List.getElem?_eq_getElem hi, List.getD_eq_getElem _ _ hi]
    simp
  rw [Finset.sum_congr rfl fun v _ => e v, Finset.sum_comm]
  refine Finset.sum_congr rfl fun f hf => ?_
  rw [Finset.sum_comm]
  refine Finset.sum_congr rfl fun i hi => ?_
  rw [Finset.sum_ite_eq, if_pos]
  have hi := Finset.mem_range.1 hi
  have hf := Finset.mem_range.1 hf
  rw [List.getD_eq_getElem _ _ hi]
  refine hvars (scopes.getD f []) ?_ _ (List.getElem_mem hi)
  rw [List.getD_eq_getElem _ _ hf]
  exact List.getElem_mem hf

omit [IsStrictOrderedRing α] in
/-- Whatever the messages, the score of a joint assignment is the sum of the beliefs of variables and factors, less that of the variables once per edge. -/
theorem jointScore_eq {factors : List (SFac α)} {vars : Finset Var} (hvars : ∀ F ∈ factors, ∀ v ∈ F.scope, v ∈ vars) (ev : Var → Nat → α) (m : Msgs α)
    {x : Var → Nat} {ρ : Nat → List Nat × α} (hJ : Joint vars factors x ρ) :
    jointScore vars factors ev x ρ = ∑ v ∈ vars, beliefOf (factors.map (·.scope)) ev m v (x v)
      + ∑ f ∈ Finset.range factors.length, scoreAll (factors.getD f ⟨[], []⟩).scope.length (tbIn factors ev m f (factors.getD f ⟨[], []⟩)) (ρ f)
      - ∑ v ∈ vars, ((edgesOf (factors.map (·.scope)) v).map (fun _ => beliefOf (factors.map (·.scope)) ev m v (x v))).sum := by
  have hvars' : ∀ vs ∈ factors.map (·.scope), ∀ v ∈ vs, v ∈ vars := by
    intro vs hvs v hv
    obtain ⟨F, hF, rfl⟩ := List.mem_map.1 hvs
    exact hvars F hF v hv
  have h1 : ∑ v ∈ vars, beliefOf (factors.map (·.scope)) ev m v (x v) = ∑ v ∈ vars, ev v (x v) +
      ∑ v ∈ vars, ((edgesOf (factors.map (·.scope)) v).map (fun e => m e.1 e.2 (x v))).sum := by
    rw [← Finset.sum_add_distrib]
    rfl
  have h2 : ∑ f ∈ Finset.range factors.length, scoreAll (factors.getD f ⟨[], []⟩).scope.length (tbIn factors ev m f (factors.getD f ⟨[], []⟩)) (ρ f) =
      ∑ f ∈ Finset.range factors.length, (ρ f).2 + ∑ v ∈ vars, ((edgesOf (factors.map (·.scope)) v).map (fun e => varToFac (factors.map (·.scope)) ev m v (e.1, e.2) (x v))).sum := by
    rw [sum_by_factors _ vars hvars' (fun f i v => varToFac (factors.map (·.scope)) ev m v (f, i) (x v)), List.length_map, ← Finset.sum_add_distrib]
    refine Finset.sum_congr rfl fun f hf => ?_
    unfold scoreAll
    congr 1
    obtain ⟨F, hF⟩ : ∃ F, factors[f]? = some F := ⟨_, List.getElem?_eq_getElem (Finset.mem_range.1 hf)⟩
    have e1 : factors.getD f ⟨[], []⟩ = F := by rw [List.getD, hF]; rfl
    have e2 : (factors.map (·.scope)).getD f [] = F.scope := by rw [List.getD, List.getElem?_map, hF]; rfl
    rw [e1, e2]
    refine Finset.sum_congr rfl fun i hi => ?_
    have hi := Finset.mem_range.1 hi
    rw [tbIn_at (List.getElem?_eq_getElem hi), List.getD_eq_getElem _ _ hi]
    congr 1
    rw [(hJ.rows f F hF).2, List.getD, List.getElem?_map, List.getElem?_eq_getElem hi]
    rfl
  have h3 : ∑ v ∈ vars, ((edgesOf (factors.map (·.scope)) v).map (fun _ => beliefOf (factors.map (·.scope)) ev m v (x v))).sum =
      ∑ v ∈ vars, ((edgesOf (factors.map (·.scope)) v).map (fun e => varToFac (factors.map (·.scope)) ev m v (e.1, e.2) (x v))).sum +
      ∑ v ∈ vars, ((edgesOf (factors.map (·.scope)) v).map (fun e => m e.1 e.2 (x v))).sum := by
    rw [← Finset.sum_add_distrib]
    refine Finset.sum_congr rfl fun v _ => ?_
    rw [← List.sum_map_add]
    congr 1
    refine List.map_congr_left fun e he => ?_
    exact belief_eq ev m ((mem_edgesOf _ _ _ _).1 he) _
  rw [h1, h2, h3]
  unfold jointScore
  ring

/-- At a fixed point, states of unique maximal beliefs are at least as good as any other states that differ on a part of the graph with at most one loop in each component. -/
theorem fixed_optimal {factors : List (SFac α)} {ev : Var → Nat → α} {d : α} (hd : d < 1) {m : Msgs α} (hne : ∀ F ∈ factors, F.scope ≠ [])
    (hrow : ∀ F ∈ factors, ∀ r ∈ F.rows, List.Forall₂ (fun s (v : Var) => s < v.n) r.1 F.scope) {vars : Finset Var} (hvars : ∀ F ∈ factors, ∀ v ∈ F.scope, v ∈ vars)
    (hfix : AgreeOn (factors.map (·.scope)) (tbStep factors ev d m) m) {x : Var → Nat}
    (hx : ∀ v ∈ vars, x v < v.n ∧ ∀ s < v.n, s ≠ x v → beliefOf (factors.map (·.scope)) ev m v s < beliefOf (factors.map (·.scope)) ev m v (x v))
    (hclip : ∀ f i v, IsEdge (factors.map (·.scope)) f i v → -1000 < m f i (x v)) :
    ∃ ρ, Joint vars factors x ρ ∧ ∀ x' ρ', Joint vars factors x' ρ' → FewLoops (factors.map (·.scope)) (fun v => x' v ≠ x v) →
      jointScore vars factors ev x' ρ' ≤ jointScore vars factors ev x ρ := by
  classical
  have hex : ∀ f : Nat, ∃ ρ : List Nat × α, ∀ F, factors[f]? = some F → ρ ∈ F.rows ∧ ρ.1 = F.scope.map x ∧ ∀ r ∈ F.rows, ∀ i v, F.scope[i]? = some v →
      scoreAll F.scope.length (tbIn factors ev m f F) r - scoreAll F.scope.length (tbIn factors ev m f F) ρ ≤
        beliefOf (factors.map (·.scope)) ev m v (r.1.getD i 0) - beliefOf (factors.map (·.scope)) ev m v (x v) := by
    intro f
    cases hF : factors[f]? with
    | none => exact ⟨([], 0), fun F h => by cases h⟩
    | some F =>
      have hF' := List.mem_of_getElem? hF
      have hedge : ∀ i v, F.scope[i]? = some v → IsEdge (factors.map (·.scope)) f i v := fun i v hi => ⟨F.scope, by rw [List.getElem?_map, hF]; rfl, hi⟩
      obtain ⟨ρ, h1, h2, h3⟩ := fixed_factor hd hF (hne F hF') (hrow F hF') (fun i v hi s hs => hfix f i v s (hedge i v hi) hs)
        (fun v hv => hx v (hvars F hF' v hv)) (fun i v hi => hclip f i v (hedge i v hi))
      exact ⟨ρ, fun F' h => by cases h; exact ⟨h1, h2, h3⟩⟩
  choose ρ hρ using hex
  have hJ : Joint vars factors x ρ := ⟨fun v hv => (hx v hv).1, fun f F hF => ⟨(hρ f F hF).1, (hρ f F hF).2.1⟩⟩
  refine ⟨ρ, hJ, fun x' ρ' hJ' hloops => ?_⟩
  have hvars' : ∀ vs ∈ factors.map (·.scope), ∀ v ∈ vs, v ∈ vars := by
    intro vs hvs v hv
    obtain ⟨F, hF, rfl⟩ := List.mem_map.1 hvs
    exact hvars F hF v hv
  -- the gains, none of which is positive
  let g : Var ⊕ Nat → α := fun y => match y with
    | .inl v => beliefOf (factors.map (·.scope)) ev m v (x' v) - beliefOf (factors.map (·.scope)) ev m v (x v)
    | .inr f => scoreAll (factors.getD f ⟨[], []⟩).scope.length (tbIn factors ev m f (factors.getD f ⟨[], []⟩)) (ρ' f) -
        scoreAll (factors.getD f ⟨[], []⟩).scope.length (tbIn factors ev m f (factors.getD f ⟨[], []⟩)) (ρ f)
  have hgv : ∀ v ∈ vars, g (.inl v) ≤ 0 := by
    intro v hv
    simp only [g]
    by_cases e : x' v = x v
    · rw [e]; linarith
    · linarith [(hx v hv).2 _ (hJ'.states v hv) e]
  have hgf : ∀ f i v, IsEdge (factors.map (·.scope)) f i v → g (.inr f) ≤ g (.inl v) := by
    intro f i v he
    obtain ⟨F, hF, hi⟩ : ∃ F, factors[f]? = some F ∧ F.scope[i]? = some v := by
      obtain ⟨vs, h1, h2⟩ := he
      rw [List.getElem?_map, Option.map_eq_some_iff] at h1
      obtain ⟨F, hF, rfl⟩ := h1
      exact ⟨F, hF, h2⟩
    have e1 : factors.getD f ⟨[], []⟩ = F := by rw [List.getD, hF]; rfl
    have h1 := (hρ f F hF).2.2 (ρ' f) (hJ'.rows f F hF).1 i v hi
    have h2 : (ρ' f).1.getD i 0 = x' v := by rw [(hJ'.rows f F hF).2, List.getD, List.getElem?_map, hi]; rfl
    rw [h2] at h1
    simp only [g, e1]
    exact h1
  have hg : ∀ y ∈ vars.disjSum (Finset.range factors.length), g y ≤ 0 := by
    intro y hy
    cases y with
    | inl v => exact hgv v (Finset.inl_mem_disjSum.1 hy)
    | inr f =>
      have hf := Finset.mem_range.1 (Finset.inr_mem_disjSum.1 hy)
      obtain ⟨F, hF⟩ : ∃ F, factors[f]? = some F := ⟨_, List.getElem?_eq_getElem hf⟩
      obtain ⟨v, hv⟩ : ∃ v, F.scope[0]? = some v := by
        cases e : F.scope with
        | nil => exact absurd e (hne F (List.mem_of_getElem? hF))
        | cons v _ => exact ⟨v, rfl⟩
      exact (hgf f 0 v ⟨F.scope, by rw [List.getElem?_map, hF]; rfl, hv⟩).trans (hgv v (hvars F (List.mem_of_getElem? hF) v (List.mem_of_getElem? hv)))
  -- the edges at which the states differ
  let E : Finset (Nat × Nat × Var) := vars.biUnion (fun v => ((edgesOf (factors.map (·.scope)) v).toFinset).image (fun e => (e.1, e.2, v)))
  have hE : ∀ e, e ∈ E ↔ IsEdge (factors.map (·.scope)) e.1 e.2.1 e.2.2 := by
    rintro ⟨f, i, v⟩
    simp only [E, Finset.mem_biUnion, Finset.mem_image, List.mem_toFinset, Prod.mk.injEq, Prod.exists]
    constructor
    · rintro ⟨v', -, f', i', h, rfl, rfl, rfl⟩
      exact (mem_edgesOf _ _ _ _).1 h
    · intro h
      obtain ⟨vs, h1, h2⟩ := id h
      exact ⟨v, hvars' vs (List.mem_of_getElem? h1) v (List.mem_of_getElem? h2), f, i, (mem_edgesOf _ _ _ _).2 h, rfl, rfl, rfl⟩
  have hsum : ∑ v ∈ vars, ((edgesOf (factors.map (·.scope)) v).map (fun _ => g (.inl v))).sum = ∑ e ∈ E, g (.inl e.2.2) := by
    rw [Finset.sum_biUnion]
    · refine Finset.sum_congr rfl fun v _ => ?_
      rw [Finset.sum_image (by
        rintro ⟨a, b⟩ - ⟨a', b'⟩ - h
        simpa using h), List.sum_toFinset _ (edgesOf_nodup _ _)]
    · intro v _ w _ hvw
      rw [Function.onFun, Finset.disjoint_left]
      intro e he he'
      obtain ⟨_, _, rfl⟩ := Finset.mem_image.1 he
      obtain ⟨_, _, h⟩ := Finset.mem_image.1 he'
      simp only [Prod.mk.injEq] at h
      exact hvw h.2.2.symm
  have hEs : ∑ e ∈ E, g (.inl e.2.2) = ∑ e ∈ E.filter (fun e => x' e.2.2 ≠ x e.2.2), g (.inl e.2.2) := by
    rw [Finset.sum_filter]
    refine Finset.sum_congr rfl fun e _ => ?_
    by_cases h : x' e.2.2 = x e.2.2
    · rw [if_neg (by simpa using h)]
      simp only [g, h, sub_self]
    · rw [if_pos h]
  obtain ⟨own, hinj, hown⟩ := hloops.own
  have hsub : ∀ e ∈ E.filter (fun e => x' e.2.2 ≠ x e.2.2), IsEdge (factors.map (·.scope)) e.1 e.2.1 e.2.2 ∧ x' e.2.2 ≠ x e.2.2 := by
    intro e he
    obtain ⟨h1, h2⟩ := Finset.mem_filter.1 he
    exact ⟨(hE e).1 h1, h2⟩
  have hkey : ∑ y ∈ vars.disjSum (Finset.range factors.length), g y ≤ ∑ e ∈ E.filter (fun e => x' e.2.2 ≠ x e.2.2), g (.inl e.2.2) := by
    rw [← Finset.sum_attach]
    rw [← Finset.sum_attach (E.filter _)]
    have h1 : ∑ e ∈ (E.filter (fun e => x' e.2.2 ≠ x e.2.2)).attach, g (own ⟨e.1, hsub e.1 e.2⟩) ≤ ∑ e ∈ (E.filter (fun e => x' e.2.2 ≠ x e.2.2)).attach, g (.inl e.1.2.2) := by
      refine Finset.sum_le_sum fun e _ => ?_
      rcases hown ⟨e.1, hsub e.1 e.2⟩ with h | h
      · rw [h]
      · rw [h]
        exact hgf _ _ _ (hsub e.1 e.2).1
    refine le_trans ?_ h1
    rw [Finset.sum_attach (vars.disjSum (Finset.range factors.length)) g,
      ← Finset.sum_image (s := (E.filter (fun e => x' e.2.2 ≠ x e.2.2)).attach) (g := fun e => own ⟨e.1, hsub e.1 e.2⟩) (f := g) (by
        intro a _ b _ hab
        have := hinj hab
        simp only [Subtype.mk.injEq] at this
        exact Subtype.ext this)]
    have hss : (E.filter (fun e => x' e.2.2 ≠ x e.2.2)).attach.image (fun e => own ⟨e.1, hsub e.1 e.2⟩) ⊆ vars.disjSum (Finset.range factors.length) := by
      intro y hy
      obtain ⟨e, -, rfl⟩ := Finset.mem_image.1 hy
      obtain ⟨vs, h1, h2⟩ := (hsub e.1 e.2).1
      rcases hown ⟨e.1, hsub e.1 e.2⟩ with h | h
      · rw [h, Finset.inl_mem_disjSum]
        exact hvars' vs (List.mem_of_getElem? h1) _ (List.mem_of_getElem? h2)
      · rw [h, Finset.inr_mem_disjSum, Finset.mem_range]
        simpa using (List.getElem?_eq_some_iff.1 h1).1
    rw [← Finset.sum_sdiff hss]
    have : ∑ y ∈ vars.disjSum (Finset.range factors.length) \ (E.filter (fun e => x' e.2.2 ≠ x e.2.2)).attach.image (fun e => own ⟨e.1, hsub e.1 e.2⟩), g y ≤ 0 :=
      Finset.sum_nonpos fun y hy => hg y (Finset.mem_sdiff.1 hy).1
    linarith
  rw [Finset.sum_disjSum] at hkey
  have hdiff : ∑ v ∈ vars, ((edgesOf (factors.map (·.scope)) v).map (fun _ => g (.inl v))).sum =
      ∑ v ∈ vars, ((edgesOf (factors.map (·.scope)) v).map (fun _ => beliefOf (factors.map (·.scope)) ev m v (x' v))).sum -
      ∑ v ∈ vars, ((edgesOf (factors.map (·.scope)) v).map (fun _ => beliefOf (factors.map (·.scope)) ev m v (x v))).sum := by
    rw [← Finset.sum_sub_distrib]
    refine Finset.sum_congr rfl fun v _ => ?_
    simp only [g, List.map_const', List.sum_replicate, nsmul_eq_mul]
    ring
  rw [jointScore_eq hvars ev m hJ', jointScore_eq hvars ev m hJ]
  simp only [g, Finset.sum_sub_distrib] at hkey hsum hEs hdiff
  linarith

end

end PGMax
