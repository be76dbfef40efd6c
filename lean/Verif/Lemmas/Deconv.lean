import Verif.Lemmas.Grid
import Verif.Lemmas.LogicalRows

/-! Helper lemmas: loops and dictionaries of the deconvolution program, and joint assignments of graphs of logical factors. -/

namespace PGMax

variable {κ α : Type _}

theorem isArr_uniArr (objId : Nat) (shape : List Nat) (k : Nat) (hs : shape ≠ []) : IsArr (uniArr objId shape k) shape k (uniCell objId shape k) where
  getitem _ h := uniArr_getitem objId shape k hs h
  states _ _ := rfl
  inj _ _ h h' e := uniCell_inj h h' e
  vars v := mem_uniArr objId shape k v

theorem py_ok_bind {β γ : Type _} (a : β) (f : β → Py γ) : ((Except.ok a : Py β) >>= f) = f a := by
  simp [bind, Except.bind]

theorem py_error_bind {β γ : Type _} (e : PyErr) (f : β → Py γ) : ((Except.error e : Py β) >>= f) = .error e := by
  simp [bind, Except.bind]

theorem foldlM_ok {σ π : Type _} (f : σ → π → Py σ) (g : σ → π → σ) (l : List π) (h : ∀ s, ∀ p ∈ l, f s p = .ok (g s p)) (s : σ) :
    l.foldlM f s = .ok (l.foldl g s) := by
  induction l generalizing s with
  | nil => rfl
  | cons p l ih =>
    rw [List.foldlM_cons, h s p (by simp)]
    simp only [bind, Except.bind, List.foldl_cons]
    exact ih (fun s q hq => h s q (by simp [hq])) _

theorem mem_places {nImg nChan sH sW nFeat fH fW : Nat} {p : Place} : p ∈ places nImg nChan sH sW nFeat fH fW ↔
    p.img < nImg ∧ p.chan < nChan ∧ p.sh < sH ∧ p.sw < sW ∧ p.feat < nFeat ∧ p.fh < fH ∧ p.fw < fW := by
  unfold places
  simp only [List.mem_flatMap, List.mem_range, List.mem_map]
  constructor
  · rintro ⟨i, hi, c, hc, a, ha, b, hb, f, hf, u, hu, w, hw, rfl⟩
    exact ⟨hi, hc, ha, hb, hf, hu, hw⟩
  · rintro ⟨hi, hc, ha, hb, hf, hu, hw⟩
    exact ⟨_, hi, _, hc, _, ha, _, hb, _, hf, _, hu, _, hw, rfl⟩

theorem allIndices_nodup (shape : List Nat) : (allIndices shape).Nodup := by
  apply List.Nodup.of_map (rowMajor shape)
  rw [allIndices_map_rowMajor]
  exact List.nodup_range

theorem places_nodup (nImg nChan sH sW nFeat fH fW : Nat) : (places nImg nChan sH sW nFeat fH fW).Nodup := by
  apply List.Nodup.of_map (fun p => [p.img, p.chan, p.sh, p.sw, p.feat, p.fh, p.fw])
  have : (places nImg nChan sH sW nFeat fH fW).map (fun p => [p.img, p.chan, p.sh, p.sw, p.feat, p.fh, p.fw]) =
      allIndices [nImg, nChan, sH, sW, nFeat, fH, fW] := by
    simp [places, allIndices, List.map_flatMap, List.flatMap_map, Function.comp_def, ← List.map_eq_flatMap]
  rw [this]
  exact allIndices_nodup _

/-- What a dictionary of lists contains after a loop of `d[key].append(value)`. -/
theorem dictAppend_foldl {β γ π : Type _} [DecidableEq β] (key : π → β) (val : π → γ) (l : List π) :
    let d := l.foldl (fun d p => dictAppend d (key p) (val p)) ([] : List (β × List γ))
    (d.map (·.1)).Nodup ∧ (∀ k, k ∈ d.map (·.1) ↔ ∃ p ∈ l, key p = k) ∧ ∀ e ∈ d, ∀ v, v ∈ e.2 ↔ ∃ p ∈ l, key p = e.1 ∧ val p = v := by
  induction l using List.reverseRecOn with
  | nil => simp
  | append_singleton l q ih =>
    simp only [List.foldl_append, List.foldl_cons, List.foldl_nil]
    generalize l.foldl (fun d p => dictAppend d (key p) (val p)) ([] : List (β × List γ)) = d at ih ⊢
    obtain ⟨h1, h2, h3⟩ := ih
    unfold dictAppend
    split
    · rename_i hk
      have e1 : (d.map (fun p => if p.1 = key q then (p.1, p.2 ++ [val q]) else p)).map (·.1) = d.map (·.1) := by
        rw [List.map_map]
        refine List.map_congr_left fun p _ => ?_
        simp only [Function.comp]
        split <;> rfl
      rw [e1]
      refine ⟨h1, fun k => ?_, ?_⟩
      · rw [h2]
        constructor
        · rintro ⟨p, hp, rfl⟩; exact ⟨p, by simp [hp], rfl⟩
        · rintro ⟨p, hp, rfl⟩
          rcases List.mem_append.1 hp with hp | hp
          · exact ⟨p, hp, rfl⟩
          · rw [List.mem_singleton] at hp; subst hp; exact (h2 _).1 hk
      · intro e he v
        obtain ⟨p, hp, rfl⟩ := List.mem_map.1 he
        by_cases hpk : p.1 = key q
        · simp only [hpk, if_true, List.mem_append, List.mem_singleton]
          rw [h3 p hp v, hpk]
          constructor
          · rintro (⟨a, ha, hb⟩ | rfl)
            · exact ⟨a, .inl ha, hb⟩
            · exact ⟨q, .inr rfl, rfl, rfl⟩
          · rintro ⟨a, ha | rfl, hb⟩
            · exact .inl ⟨a, ha, hb⟩
            · exact .inr hb.2.symm
        · simp only [hpk, if_false, List.mem_append, List.mem_singleton]
          rw [h3 p hp v]
          constructor
          · rintro ⟨a, ha, hb⟩; exact ⟨a, .inl ha, hb⟩
          · rintro ⟨a, ha | rfl, hb⟩
            · exact ⟨a, ha, hb⟩
            · exact absurd hb.1.symm hpk
    · rename_i hk
      have hnew : ∀ p ∈ l, key p ≠ key q := fun p hp e => hk ((h2 _).2 ⟨p, hp, e⟩)
      refine ⟨?_, fun k => ?_, ?_⟩
      · rw [List.map_append, List.nodup_append]
        refine ⟨h1, by simp, ?_⟩
        intro a ha b hb e
        simp only [List.map_cons, List.map_nil, List.mem_singleton] at hb
        subst hb; subst e; exact hk ha
      · rw [List.map_append, List.mem_append, h2]
        simp only [List.map_cons, List.map_nil, List.mem_singleton, List.mem_append]
        constructor
        · rintro (⟨p, hp, rfl⟩ | rfl)
          · exact ⟨p, .inl hp, rfl⟩
          · exact ⟨q, .inr rfl, rfl⟩
        · rintro ⟨p, hp | rfl, rfl⟩
          · exact .inl ⟨p, hp, rfl⟩
          · exact .inr rfl
      · intro e he v
        simp only [List.mem_append, List.mem_singleton] at he ⊢
        rcases he with he | rfl
        · rw [h3 e he v]
          have hne : e.1 ≠ key q := fun hc => hk (hc ▸ List.mem_map_of_mem (f := (·.1)) he)
          constructor
          · rintro ⟨a, ha, hb⟩; exact ⟨a, .inl ha, hb⟩
          · rintro ⟨a, ha | rfl, hb⟩
            · exact ⟨a, ha, hb⟩
            · exact absurd hb.1.symm hne
        · simp only [List.mem_singleton]
          constructor
          · rintro rfl; exact ⟨q, .inr rfl, rfl, rfl⟩
          · rintro ⟨a, ha | rfl, hb⟩
            · exact absurd hb.1 (hnew a ha)
            · exact hb.2.symm

theorem logical_create_ok (id : Nat) (scopes : List (List Var)) (isAnd : Bool) (h : scopes ≠ []) :
    (LogicalFactorGroup.create id scopes isAnd : Py (FGroup α)) = .ok
      { objId := id, ftype := if isAnd then .and else .or, kind := .logicalGroup, varsForFactors := scopes, configs := ⟨0, []⟩, logPotentials := [] } := by
  have h0 : ¬ scopes.length = 0 := by simpa using h
  unfold LogicalFactorGroup.create
  rw [if_neg h0]
  rfl

theorem addAll_append (fg : FactorGraph κ α) (l l' : List (AddArg α)) :
    fg.addAll (l ++ l') = match fg.addAll l with
      | .ok fg' => fg'.addAll l'
      | .error e => .error e := by
  induction l generalizing fg with
  | nil => rfl
  | cons a l ih =>
    simp only [List.cons_append, FactorGraph.addAll]
    cases fg.addFactors a with
    | mk fg' e =>
      cases e with
      | none => exact ih fg'
      | some e => rfl

/-- States are a joint assignment if every factor has the configuration. -/
theorem joint_exists_iff [Zero α] {vars : Finset Var} {factors : List (SFac α)} {x : Var → Nat} :
    (∃ ρ, Joint vars factors x ρ) ↔ (∀ v ∈ vars, x v < v.n) ∧ ∀ F ∈ factors, ∃ w, (F.scope.map x, w) ∈ F.rows := by
  constructor
  · rintro ⟨ρ, h⟩
    refine ⟨h.states, fun F hF => ?_⟩
    obtain ⟨f, hf⟩ := List.mem_iff_getElem?.1 hF
    obtain ⟨h1, h2⟩ := h.rows f F hf
    exact ⟨(ρ f).2, by rw [← h2]; exact h1⟩
  · rintro ⟨h1, h2⟩
    choose! w hw using h2
    refine ⟨fun f => match factors[f]? with
      | some F => (F.scope.map x, w F)
      | none => ([], 0), h1, fun f F hF => ?_⟩
    simp only [hF]
    exact ⟨hw F (List.mem_of_getElem? hF), trivial⟩

theorem jointScore_zero [AddCommMonoid α] {vars : Finset Var} {factors : List (SFac α)} {x : Var → Nat} {ρ : Nat → List Nat × α} {ev : Var → Nat → α}
    (h : Joint vars factors x ρ) (h0 : ∀ F ∈ factors, ∀ r ∈ F.rows, r.2 = 0) : jointScore vars factors ev x ρ = ∑ v ∈ vars, ev v (x v) := by
  unfold jointScore
  have : ∑ f ∈ Finset.range factors.length, (ρ f).2 = 0 := Finset.sum_eq_zero fun f hf => by
    have hf := Finset.mem_range.1 hf
    exact h0 _ (List.getElem_mem hf) _ (h.rows f _ (List.getElem?_eq_getElem hf)).1
  rw [this, add_zero]

theorem or_allows [Zero α] (ps : List Var) (c : Var) (x : Var → Nat) :
    (∃ w : α, ((ps ++ [c]).map x, w) ∈ (orRows ((ps ++ [c]).length - 1) : List (List Nat × α))) ↔
      (∀ v ∈ ps, x v < 2) ∧ x c = if ∃ v ∈ ps, x v = 1 then 1 else 0 := by
  unfold orRows
  simp only [List.length_append, List.length_cons, List.length_nil, Nat.zero_add, Nat.add_sub_cancel, List.map_append, List.map_cons, List.map_nil,
    List.mem_map, Prod.mk.injEq, mem_bits]
  have hiff : (1 ∈ ps.map x) ↔ ∃ v ∈ ps, x v = 1 := by simp
  constructor
  · rintro ⟨w, p, ⟨h1, h2⟩, h3, -⟩
    obtain ⟨rfl, h4⟩ := List.append_inj' h3 rfl
    refine ⟨fun v hv => h2 _ (List.mem_map_of_mem hv), ?_⟩
    simp only [hiff, List.cons.injEq, and_true] at h4
    exact h4.symm
  · rintro ⟨h1, h2⟩
    refine ⟨0, ps.map x, ⟨by simp, ?_⟩, ?_, rfl⟩
    · intro b hb
      obtain ⟨v, hv, rfl⟩ := List.mem_map.1 hb
      exact h1 v hv
    · simp only [hiff, h2]

theorem and_allows [Zero α] (ps : List Var) (c : Var) (x : Var → Nat) :
    (∃ w : α, ((ps ++ [c]).map x, w) ∈ (andRows ((ps ++ [c]).length - 1) : List (List Nat × α))) ↔
      (∀ v ∈ ps, x v < 2) ∧ x c = if ∃ v ∈ ps, x v = 0 then 0 else 1 := by
  unfold andRows
  simp only [List.length_append, List.length_cons, List.length_nil, Nat.zero_add, Nat.add_sub_cancel, List.map_append, List.map_cons, List.map_nil,
    List.mem_map, Prod.mk.injEq, mem_bits]
  have hiff : (0 ∈ ps.map x) ↔ ∃ v ∈ ps, x v = 0 := by simp
  constructor
  · rintro ⟨w, p, ⟨h1, h2⟩, h3, -⟩
    obtain ⟨rfl, h4⟩ := List.append_inj' h3 rfl
    refine ⟨fun v hv => h2 _ (List.mem_map_of_mem hv), ?_⟩
    simp only [hiff, List.cons.injEq, and_true] at h4
    exact h4.symm
  · rintro ⟨h1, h2⟩
    refine ⟨0, ps.map x, ⟨by simp, ?_⟩, ?_, rfl⟩
    · intro b hb
      obtain ⟨v, hv, rfl⟩ := List.mem_map.1 hb
      exact h1 v hv
    · simp only [hiff, h2]

end PGMax
