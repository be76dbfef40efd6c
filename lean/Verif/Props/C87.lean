import Verif.Lemmas.Batch
import Verif.Props.C34_C36
import Verif.Lemmas.Example

/-! # C87: batches -/

namespace PGMax

variable {κ α β γ : Type _}

/-! ## Beliefs of the same graph have the same structure -/

theorem dictSet_lengths [DecidableEq κ] (d : List (κ × List α)) (k : κ) (v : List α) :
    (dictSet d k v).map (fun p => (p.1, p.2.length)) = dictSet (d.map (fun p => (p.1, p.2.length))) k v.length := by
  induction d with
  | nil => rfl
  | cons p d ih =>
    obtain ⟨k', v'⟩ := p
    simp only [dictSet, List.map_cons]
    split
    · rfl
    · rw [List.map_cons, ih]

theorem unflattenLoop_lengths [DecidableEq κ] (g : VarDict κ) (flat flat' : List α) (hl : flat.length = flat'.length) (b : Bool) (rest : List κ) (start : Nat)
    (acc acc' : List (κ × List α)) (ha : acc.map (fun p => (p.1, p.2.length)) = acc'.map (fun p => (p.1, p.2.length))) :
    (g.unflattenLoop flat b rest start acc).map (fun p => (p.1, p.2.length)) = (g.unflattenLoop flat' b rest start acc').map (fun p => (p.1, p.2.length)) := by
  induction rest generalizing start acc acc' with
  | nil => exact ha
  | cons name rest ih =>
    simp only [VarDict.unflattenLoop]
    split
    · exact ih _ _ _ (by rw [dictSet_lengths, dictSet_lengths, ha, slice_length, slice_length, hl])
    · exact ih _ _ _ (by rw [dictSet_lengths, dictSet_lengths, ha, slice_length, slice_length, hl])

theorem dict_alike (g : VGroup κ) {d d' : List (κ × List α)} (h : d.map (fun p => (p.1, p.2.length)) = d'.map (fun p => (p.1, p.2.length))) :
    Alike (beliefsTree [(g, .dict d)]) (beliefsTree [(g, .dict d')]) where
  treedef := by
    have := congrArg (List.map Prod.fst) h
    rw [List.map_map, List.map_map] at this
    simpa [beliefsTree] using (show d.map (fun q => q.1) = d'.map (fun q => q.1) from this)
  shapes := by
    have := congrArg (List.map (fun p => [p.2])) h
    rw [List.map_map, List.map_map] at this
    simp only [beliefsTree, List.flatMap_cons, List.flatMap_nil, List.append_nil, List.map_map]
    exact this

/-- Arrays of the same length have beliefs of the same structure. -/
theorem VGroup.unflatten_alike [DecidableEq κ] (g : VGroup κ) {flat flat' : List α} (hl : flat.length = flat'.length) {b : GroupBeliefs κ α} (hb : g.unflatten flat = .ok b) :
    ∃ b', g.unflatten flat' = .ok b' ∧ Alike (beliefsTree [(g, b)]) (beliefsTree [(g, b')]) := by
  cases g with
  | arr g =>
    simp only [VGroup.unflatten, NDVarArray.unflatten] at hb ⊢
    simp only [List.length_cons, List.length_nil, Nat.zero_add, ne_eq, not_true_eq_false, if_false] at hb ⊢
    rw [← hl]
    split at hb
    · next h1 =>
      cases hb
      exact ⟨_, by rw [if_pos h1]; rfl, by simp [beliefsTree], by simp [beliefsTree]⟩
    · next h1 =>
      rw [if_neg h1]
      split at hb
      · next h2 =>
        rw [if_pos h2]
        cases e : npMax g.numStates with
        | error e' => rw [e] at hb; cases hb
        | ok m =>
          rw [e] at hb
          cases hb
          exact ⟨_, rfl, by simp [beliefsTree], by simp [beliefsTree]⟩
      · cases hb
  | dict g =>
    simp only [VGroup.unflatten, VarDict.unflatten] at hb ⊢
    simp only [List.length_cons, List.length_nil, Nat.zero_add, ne_eq, not_true_eq_false, if_false] at hb ⊢
    rw [← hl]
    split at hb
    · next h1 =>
      cases hb
      exact ⟨_, by rw [if_pos h1]; rfl, dict_alike _ (unflattenLoop_lengths g _ _ hl _ _ _ _ _ rfl)⟩
    · next h1 =>
      rw [if_neg h1]
      split at hb
      · next h2 =>
        rw [if_pos h2]
        cases hb
        exact ⟨_, rfl, dict_alike _ (unflattenLoop_lengths g _ _ hl _ _ _ _ _ rfl)⟩
      · cases hb

theorem VGroup.unflatten_wf [DecidableEq κ] (g : VGroup κ) {flat : List α} {b : GroupBeliefs κ α} (hb : g.unflatten flat = .ok b) :
    ∀ a ∈ (beliefsTree [(g, b)]).leaves, a.WF := by
  cases g with
  | arr g =>
    simp only [VGroup.unflatten, NDVarArray.unflatten] at hb
    simp only [List.length_cons, List.length_nil, Nat.zero_add, ne_eq, not_true_eq_false, if_false] at hb
    split at hb
    · next h1 =>
      cases hb
      simpa [beliefsTree, NDArr.WF] using h1
    · split at hb
      · cases e : npMax g.numStates with
        | error e' => rw [e] at hb; cases hb
        | ok m =>
          rw [e] at hb
          cases hb
          simp [beliefsTree, NDArr.WF]
      · cases hb
  | dict g =>
    obtain ⟨d, rfl⟩ : ∃ d, b = .dict d := by
      simp only [VGroup.unflatten] at hb
      cases e : g.unflatten ⟨[flat.length], flat⟩ with
      | error e' => rw [e] at hb; cases hb
      | ok d => rw [e] at hb; cases hb; exact ⟨d, rfl⟩
    intro a ha
    simp only [beliefsTree, List.flatMap_cons, List.flatMap_nil, List.append_nil] at ha
    obtain ⟨q, -, rfl⟩ := List.mem_map.1 ha
    simp [NDArr.WF]

theorem beliefsTree_cons (p : VGroup κ × GroupBeliefs κ α) (bs : List (VGroup κ × GroupBeliefs κ α)) :
    (beliefsTree (p :: bs)).treedef = (beliefsTree [p]).treedef ++ (beliefsTree bs).treedef ∧
    (beliefsTree (p :: bs)).leaves = (beliefsTree [p]).leaves ++ (beliefsTree bs).leaves := by
  simp [beliefsTree]

theorem unflattenBeliefs_alike [DecidableEq κ] (vgs : List (VGroup κ)) {flat flat' : List α} (hl : flat.length = flat'.length) (start : Nat)
    {bs : List (VGroup κ × GroupBeliefs κ α)} (hb : unflattenBeliefs flat vgs start = .ok bs) :
    ∃ bs', unflattenBeliefs flat' vgs start = .ok bs' ∧ Alike (beliefsTree bs) (beliefsTree bs') ∧ ∀ a ∈ (beliefsTree bs').leaves, a.WF := by
  induction vgs generalizing start bs with
  | nil => cases hb; exact ⟨[], rfl, ⟨rfl, rfl⟩, by simp [beliefsTree]⟩
  | cons g vgs ih =>
    simp only [unflattenBeliefs] at hb ⊢
    cases e1 : g.unflatten (slice flat start (start + g.numStates.sum)) with
    | error e => rw [e1] at hb; cases hb
    | ok b =>
    cases e2 : unflattenBeliefs flat vgs (start + g.numStates.sum) with
    | error e => rw [e1, e2] at hb; cases hb
    | ok rest =>
    rw [e1, e2] at hb
    cases hb
    obtain ⟨b', h1, h2⟩ := g.unflatten_alike (flat' := slice flat' start (start + g.numStates.sum)) (by rw [slice_length, slice_length, hl]) e1
    obtain ⟨rest', h3, h4, h5⟩ := ih _ e2
    refine ⟨(g, b') :: rest', by rw [h1, h3]; rfl, ⟨?_, ?_⟩, ?_⟩
    · rw [(beliefsTree_cons _ _).1, (beliefsTree_cons (g, b') _).1, h2.treedef, h4.treedef]
    · rw [(beliefsTree_cons _ _).2, (beliefsTree_cons (g, b') _).2, List.map_append, List.map_append, h2.shapes, h4.shapes]
    · intro a ha
      rw [(beliefsTree_cons _ _).2, List.mem_append] at ha
      rcases ha with ha | ha
      · exact g.unflatten_wf h1 a ha
      · exact h5 a ha

/-! ## Decoding and marginals of single samples -/

theorem idxOf_map_inj {β γ : Type _} [DecidableEq β] [DecidableEq γ] (f : β → γ) (hf : Function.Injective f) (l : List β) (a : β) : (l.map f).idxOf (f a) = l.idxOf a := by
  induction l with
  | nil => rfl
  | cons x l ih =>
    by_cases h : x = a
    · simp [h]
    · rw [List.map_cons, List.idxOf_cons_ne _ (fun e => h (hf e)), List.idxOf_cons_ne _ h, ih]

theorem argmax_some [LinearOrder α] (xs : List α) : argmax (xs.map (WithBot.some : α → WithBot α)) = argmax xs := by
  cases xs with
  | nil => rfl
  | cons x xs =>
    have h : ∀ (l : List α) (a : α), (l.map (WithBot.some : α → WithBot α)).foldl max (WithBot.some a) = WithBot.some (l.foldl max a) := by
      intro l
      induction l with
      | nil => exact fun _ => rfl
      | cons y l ih =>
        intro a
        rw [List.map_cons, List.foldl_cons, List.foldl_cons, ← ih]
        rfl
    unfold argmax
    simp only [List.map_cons, h, WithBot.some_eq_coe, WithBot.coe_inj]
    rw [idxOf_map_inj _ WithBot.coe_injective]

theorem argmaxLast_row [LinearOrder α] (l : List α) : argmaxLast (⟨[l.length], l.map (WithBot.some : α → WithBot α)⟩ : NDArr (WithBot α)) = argmaxLast ⟨[l.length], l⟩ := by
  simp only [argmaxLast, List.getLast?_singleton, List.dropLast_singleton, List.prod_nil, rows, List.range_one, List.map_cons, List.map_nil]
  have : slice (l.map (WithBot.some : α → WithBot α)) (0 * l.length) (0 * l.length + l.length) = (slice l (0 * l.length) (0 * l.length + l.length)).map WithBot.some := by
    simp [slice]
  rw [this, argmax_some]

theorem mapM_append' {β γ : Type _} (f : β → Py γ) (l₁ l₂ : List β) : (l₁ ++ l₂).mapM f = (l₁.mapM f).bind (fun a => (l₂.mapM f).map (fun b => a ++ b)) := by
  induction l₁ with
  | nil =>
    rw [List.nil_append]
    cases h : l₂.mapM f <;> simp [pure, Except.pure, Except.bind, Except.map]
  | cons x l₁ ih =>
    rw [List.cons_append, List.mapM_cons, List.mapM_cons, ih]
    cases f x with
    | error e => rfl
    | ok y =>
      cases l₁.mapM f with
      | error e => rfl
      | ok z => cases l₂.mapM f <;> rfl

/-- `decode_map_states` maps the arrays of beliefs one by one. -/
theorem decodeTree_beliefs [LinearOrder α] (bs : List (VGroup κ × GroupBeliefs κ α)) : decodeTree (beliefsTree bs) = (decodeMapStates bs).map statesTree := by
  unfold decodeTree PyTree.mapM decodeMapStates
  have one : ∀ p : VGroup κ × GroupBeliefs κ α, (beliefsTree [p]).leaves.mapM argmaxLast = (decodeGroup p.2).map (fun x => (statesTree [(p.1, x)]).leaves) ∧
      ∀ x, decodeGroup p.2 = .ok x → (statesTree [(p.1, x)]).treedef = (beliefsTree [p]).treedef := by
    rintro ⟨g, b⟩
    cases b with
    | arr a =>
      simp only [beliefsTree, decodeGroup, List.flatMap_cons, List.flatMap_nil, List.append_nil, List.mapM_cons, List.mapM_nil]
      cases h : argmaxLast a with
      | error e => exact ⟨rfl, fun x hx => by cases hx⟩
      | ok y => exact ⟨rfl, fun x hx => by cases hx; rfl⟩
    | dict d =>
      simp only [beliefsTree, decodeGroup, List.flatMap_cons, List.flatMap_nil, List.append_nil]
      have : ∀ d : List (κ × List α), (d.map (fun q => (⟨[q.2.length], q.2.map WithBot.some⟩ : NDArr (WithBot α)))).mapM argmaxLast =
          (d.mapM (fun p => (argmaxLast ⟨[p.2.length], p.2⟩).map (fun x => (p.1, x)))).map (fun l => l.map (fun q => q.2)) ∧
          ∀ l, d.mapM (fun p => (argmaxLast ⟨[p.2.length], p.2⟩).map (fun x => (p.1, x))) = .ok l → l.map (fun q => q.1) = d.map (fun q => q.1) := by
        intro d
        induction d with
        | nil => exact ⟨rfl, fun l hl => by cases hl; rfl⟩
        | cons q d ih =>
          rw [List.map_cons, List.mapM_cons, List.mapM_cons, ih.1, argmaxLast_row]
          cases e1 : argmaxLast ⟨[q.2.length], q.2⟩ with
          | error e => exact ⟨rfl, fun l hl => by cases hl⟩
          | ok y =>
            have ih2 := ih.2
            cases e2 : d.mapM (fun p => (argmaxLast ⟨[p.2.length], p.2⟩).map (fun x => (p.1, x))) with
            | error e => exact ⟨rfl, fun l hl => by cases hl⟩
            | ok z =>
              rw [e2] at ih2
              refine ⟨rfl, fun l hl => ?_⟩
              cases hl
              rw [List.map_cons, List.map_cons, ih2 z rfl]
      rw [(this d).1]
      cases e : d.mapM (fun p => (argmaxLast ⟨[p.2.length], p.2⟩).map (fun x => (p.1, x))) with
      | error e => exact ⟨rfl, fun x hx => by cases hx⟩
      | ok l =>
        refine ⟨by simp [statesTree, Except.map], fun x hx => ?_⟩
        cases hx
        simp [statesTree, (this d).2 l e]
  have all : ∀ bs : List (VGroup κ × GroupBeliefs κ α), (beliefsTree bs).leaves.mapM argmaxLast =
      (bs.mapM (fun p => (decodeGroup p.2).map (fun x => (p.1, x)))).map (fun ss => (statesTree ss).leaves) ∧
      ∀ ss, bs.mapM (fun p => (decodeGroup p.2).map (fun x => (p.1, x))) = .ok ss → (statesTree ss).treedef = (beliefsTree bs).treedef := by
    intro bs
    induction bs with
    | nil => exact ⟨rfl, fun ss h => by cases h; rfl⟩
    | cons p bs ih =>
      rw [(beliefsTree_cons p bs).2, mapM_append', (one p).1, ih.1, List.mapM_cons]
      have h1 := (one p).2
      have h2 := ih.2
      cases e1 : decodeGroup p.2 with
      | error e => exact ⟨rfl, fun ss h => by cases h⟩
      | ok x =>
        cases e2 : bs.mapM (fun p => (decodeGroup p.2).map (fun x => (p.1, x))) with
        | error e => exact ⟨rfl, fun ss h => by cases h⟩
        | ok ss =>
          rw [e1] at h1
          rw [e2] at h2
          have h1 := h1 x rfl
          have h2 := h2 ss rfl
          refine ⟨by simp [Except.map, Except.bind, statesTree, bind, pure, Except.pure], fun ss' h => ?_⟩
          cases h
          rw [(beliefsTree_cons p bs).1, ← h1, ← h2]
          simp [statesTree]
  rw [(all bs).1]
  have h2 := (all bs).2
  cases e : bs.mapM (fun p => (decodeGroup p.2).map (fun x => (p.1, x))) with
  | error e => rfl
  | ok ss =>
    rw [e] at h2
    have := h2 ss rfl
    simp only [Except.map, bind, Except.bind, pure, Except.pure]
    rw [← this]

/-- `get_marginals` maps the arrays of beliefs one by one. -/
theorem marginalTree_beliefs [Field α] [LinearOrder α] (env : Env α) (bs : List (VGroup κ × GroupBeliefs κ α)) : marginalTree env (beliefsTree bs) = (getMarginals env bs).map marginalsTree := by
  unfold marginalTree PyTree.mapM getMarginals
  have one : ∀ p : VGroup κ × GroupBeliefs κ α, (beliefsTree [p]).leaves.mapM (marginalsLast env) = (marginalsGroup env p.2).map (fun x => (marginalsTree [(p.1, x)]).leaves) ∧
      ∀ x, marginalsGroup env p.2 = .ok x → (marginalsTree [(p.1, x)]).treedef = (beliefsTree [p]).treedef := by
    rintro ⟨g, b⟩
    cases b with
    | arr a =>
      simp only [beliefsTree, marginalsGroup, List.flatMap_cons, List.flatMap_nil, List.append_nil, List.mapM_cons, List.mapM_nil]
      cases h : marginalsLast env a with
      | error e => exact ⟨rfl, fun x hx => by cases hx⟩
      | ok y => exact ⟨rfl, fun x hx => by cases hx; rfl⟩
    | dict d =>
      simp only [beliefsTree, marginalsGroup, List.flatMap_cons, List.flatMap_nil, List.append_nil]
      have : ∀ d : List (κ × List α), (d.map (fun q => (⟨[q.2.length], q.2.map WithBot.some⟩ : NDArr (WithBot α)))).mapM (marginalsLast env) =
          (d.mapM (fun p => (marginalsLast env ⟨[p.2.length], p.2.map WithBot.some⟩).map (fun x => (p.1, x)))).map (fun l => l.map (fun q => q.2)) ∧
          ∀ l, d.mapM (fun p => (marginalsLast env ⟨[p.2.length], p.2.map WithBot.some⟩).map (fun x => (p.1, x))) = .ok l → l.map (fun q => q.1) = d.map (fun q => q.1) := by
        intro d
        induction d with
        | nil => exact ⟨rfl, fun l hl => by cases hl; rfl⟩
        | cons q d ih =>
          rw [List.map_cons, List.mapM_cons, List.mapM_cons, ih.1]
          cases e1 : marginalsLast env ⟨[q.2.length], q.2.map WithBot.some⟩ with
          | error e => exact ⟨rfl, fun l hl => by cases hl⟩
          | ok y =>
            have ih2 := ih.2
            cases e2 : d.mapM (fun p => (marginalsLast env ⟨[p.2.length], p.2.map WithBot.some⟩).map (fun x => (p.1, x))) with
            | error e => exact ⟨rfl, fun l hl => by cases hl⟩
            | ok z =>
              rw [e2] at ih2
              refine ⟨rfl, fun l hl => ?_⟩
              cases hl
              rw [List.map_cons, List.map_cons, ih2 z rfl]
      rw [(this d).1]
      cases e : d.mapM (fun p => (marginalsLast env ⟨[p.2.length], p.2.map WithBot.some⟩).map (fun x => (p.1, x))) with
      | error e => exact ⟨rfl, fun x hx => by cases hx⟩
      | ok l =>
        refine ⟨by simp [marginalsTree, Except.map], fun x hx => ?_⟩
        cases hx
        simp [marginalsTree, (this d).2 l e]
  have all : ∀ bs : List (VGroup κ × GroupBeliefs κ α), (beliefsTree bs).leaves.mapM (marginalsLast env) =
      (bs.mapM (fun p => (marginalsGroup env p.2).map (fun x => (p.1, x)))).map (fun ss => (marginalsTree ss).leaves) ∧
      ∀ ss, bs.mapM (fun p => (marginalsGroup env p.2).map (fun x => (p.1, x))) = .ok ss → (marginalsTree ss).treedef = (beliefsTree bs).treedef := by
    intro bs
    induction bs with
    | nil => exact ⟨rfl, fun ss h => by cases h; rfl⟩
    | cons p bs ih =>
      rw [(beliefsTree_cons p bs).2, mapM_append', (one p).1, ih.1, List.mapM_cons]
      have h1 := (one p).2
      have h2 := ih.2
      cases e1 : marginalsGroup env p.2 with
      | error e => exact ⟨rfl, fun ss h => by cases h⟩
      | ok x =>
        cases e2 : bs.mapM (fun p => (marginalsGroup env p.2).map (fun x => (p.1, x))) with
        | error e => exact ⟨rfl, fun ss h => by cases h⟩
        | ok ss =>
          rw [e1] at h1
          rw [e2] at h2
          have h1 := h1 x rfl
          have h2 := h2 ss rfl
          refine ⟨by simp [Except.map, Except.bind, marginalsTree, bind, pure, Except.pure], fun ss' h => ?_⟩
          cases h
          rw [(beliefsTree_cons p bs).1, ← h1, ← h2]
          simp [marginalsTree]
  rw [(all bs).1]
  have h2 := (all bs).2
  cases e : bs.mapM (fun p => (marginalsGroup env p.2).map (fun x => (p.1, x))) with
  | error e => rfl
  | ok ss =>
    rw [e] at h2
    have := h2 ss rfl
    simp only [Except.map, bind, Except.bind, pure, Except.pure]
    rw [← this]

/-! ## Batches -/

theorem IsBatchTree.dims {ts : List (PyTree κ β)} {X : PyTree κ β} (h : IsBatchTree ts X) (hdim : ∀ A ∈ X.leaves, 2 ≤ A.shape.length) : ∀ t ∈ ts, ∀ a ∈ t.leaves, a.shape ≠ [] := by
  intro t ht a ha
  obtain ⟨j, hj, rfl⟩ := List.mem_iff_getElem.1 ha
  have hj' : j < X.leaves.length := by rw [← h.length t ht]; exact hj
  obtain ⟨s, hs⟩ := h.leaf j _ (List.getElem?_eq_getElem hj')
  have h1 := hs.shape (t.leaves.getD j ⟨[], []⟩) (List.mem_map.2 ⟨t, ht, rfl⟩)
  rw [List.getD, List.getElem?_eq_getElem hj, Option.getD_some] at h1
  have h2 := hdim _ (List.getElem_mem hj')
  rw [hs.eq] at h2
  rw [h1]
  rintro rfl
  simp at h2

/-- The batch of beliefs. -/
theorem vmapBeliefs_batch [DecidableEq κ] [Field α] [LinearOrder α] {vgs : List (VGroup κ)} {hist : List (AddArg α)} {garbage : Garbage} {st : FGState κ α}
    (h : Compiled vgs hist garbage st) {state : BPState α} {T : α} {bp : BPFun κ α} (hbp : BP.create st state T = .ok bp) (batch : List (BPArrays α)) (hne : batch ≠ [])
    (hm : ∀ a ∈ batch, a.ftovMsgs.length = st.totalFactorNumStates ∧ a.evidence.length = st.numVarStates) (hreg : ∀ g ∈ vgs, g.Regular) :
    ∃ (X : PyTree κ (WithBot α)) (b : BPArrays α → List (VGroup κ × GroupBeliefs κ α)), bp.vmapBeliefs batch = .ok X ∧ (∀ a ∈ batch, bp.getBeliefs a = .ok (b a)) ∧
      IsBatchTree (batch.map (fun a => beliefsTree (b a))) X := by
  have hb : ∀ a, ∃ bs, a ∈ batch → bp.getBeliefs a = .ok bs := by
    intro a
    by_cases ha : a ∈ batch
    · obtain ⟨bs, e, -⟩ := C34_partial h hbp a (hm a ha).1 (hm a ha).2 hreg
      exact ⟨bs, fun _ => e⟩
    · exact ⟨[], fun h => absurd h ha⟩
  choose b hb using hb
  have hlen : ∀ a ∈ batch, (bp.flatBeliefs a).length = st.numVarStates := by
    intro a ha
    rw [← (hm a ha).2]
    simp [BPFun.flatBeliefs, scatterAdd_length]
  have halike : ∀ a ∈ batch, ∀ a' ∈ batch, Alike (beliefsTree (b a)) (beliefsTree (b a')) ∧ ∀ x ∈ (beliefsTree (b a')).leaves, x.WF := by
    intro a ha a' ha'
    obtain ⟨bs, e, h1, h2⟩ := unflattenBeliefs_alike bp.st.varGroups (flat := bp.flatBeliefs a) (flat' := bp.flatBeliefs a') (by rw [hlen a ha, hlen a' ha']) 0 (hb a ha)
    have : bs = b a' := by
      have := hb a' ha'
      unfold BPFun.getBeliefs at this
      rw [e] at this
      exact Except.ok.inj this
    subst this
    exact ⟨h1, h2⟩
  obtain ⟨X, hX, hX'⟩ := stackTrees_ok (ts := batch.map (fun a => beliefsTree (b a))) (by simpa using hne) (by
    rintro _ ht _ hu
    obtain ⟨a, ha, rfl⟩ := List.mem_map.1 ht
    obtain ⟨a', ha', rfl⟩ := List.mem_map.1 hu
    exact (halike a ha a' ha').1) (by
    rintro _ ht
    obtain ⟨a, ha, rfl⟩ := List.mem_map.1 ht
    exact (halike a ha a ha).2)
  refine ⟨X, b, ?_, hb, hX'⟩
  unfold BPFun.vmapBeliefs
  rw [mapM_ok _ (fun a => beliefsTree (b a)) _ (fun a ha => by rw [hb a ha]; rfl), py_ok_bind, hX]

section
variable [DecidableEq κ] [Field α] [LinearOrder α] {vgs : List (VGroup κ)} {hist : List (AddArg α)} {garbage : Garbage} {st : FGState κ α}

/-- **C87, beliefs.** `jax.vmap(bp.get_beliefs)` returns, for every sample of the batch, the beliefs that `get_beliefs` returns for it. -/
theorem C87_beliefs (h : Compiled vgs hist garbage st) {state : BPState α} {T : α} {bp : BPFun κ α} (hbp : BP.create st state T = .ok bp) (batch : List (BPArrays α)) (hne : batch ≠ [])
    (hm : ∀ a ∈ batch, a.ftovMsgs.length = st.totalFactorNumStates ∧ a.evidence.length = st.numVarStates) (hreg : ∀ g ∈ vgs, g.Regular) :
    ∃ X, bp.vmapBeliefs batch = .ok X ∧ (∀ A ∈ X.leaves, A.shape.head? = some batch.length) ∧
      ∀ i a, batch[i]? = some a → ∃ bs, bp.getBeliefs a = .ok bs ∧ X.sample i = beliefsTree bs := by
  obtain ⟨X, b, h1, h2, h3⟩ := vmapBeliefs_batch h hbp batch hne hm hreg
  refine ⟨X, h1, fun A hA => ?_, fun i a ha => ⟨b a, h2 a (List.mem_of_getElem? ha), h3.sample (by rw [List.getElem?_map, ha]; rfl)⟩⟩
  obtain ⟨j, hj⟩ := List.mem_iff_getElem?.1 hA
  obtain ⟨s, hs⟩ := h3.leaf j A hj
  rw [hs.eq]
  simp

/-- **C87, decoding.** `decode_map_states` of a batch of beliefs that have an axis for the states gives, for every sample, the decoded states of this sample; it raises an exception exactly
if it does for the samples. -/
theorem C87_decode (h : Compiled vgs hist garbage st) {state : BPState α} {T : α} {bp : BPFun κ α} (hbp : BP.create st state T = .ok bp) (batch : List (BPArrays α)) (hne : batch ≠ [])
    (hm : ∀ a ∈ batch, a.ftovMsgs.length = st.totalFactorNumStates ∧ a.evidence.length = st.numVarStates) (hreg : ∀ g ∈ vgs, g.Regular)
    {X : PyTree κ (WithBot α)} (hX : bp.vmapBeliefs batch = .ok X) (hdim : ∀ A ∈ X.leaves, 2 ≤ A.shape.length) :
    (decodeTree X = .error .valueError ∧ ∀ a ∈ batch, ∃ bs, bp.getBeliefs a = .ok bs ∧ decodeMapStates bs = .error .valueError) ∨
    ∃ Y, decodeTree X = .ok Y ∧ ∀ i a, batch[i]? = some a → ∃ bs ss, bp.getBeliefs a = .ok bs ∧ decodeMapStates bs = .ok ss ∧ Y.sample i = statesTree ss := by
  obtain ⟨X', b, h1, h2, h3⟩ := vmapBeliefs_batch h hbp batch hne hm hreg
  obtain rfl : X' = X := Except.ok.inj (h1.symm.trans hX)
  rcases argmaxRowwise.batchTree h3 (by simpa using hne) (h3.dims hdim) with ⟨e1, e2⟩ | ⟨Y, y, e1, e2, e3⟩
  · refine .inl ⟨e1, fun a ha => ⟨b a, h2 a ha, ?_⟩⟩
    have : decodeTree (beliefsTree (b a)) = .error .valueError := e2 _ (List.mem_map.2 ⟨a, ha, rfl⟩)
    rw [decodeTree_beliefs] at this
    cases e : decodeMapStates (b a) with
    | error e' => rw [e] at this; cases this; rfl
    | ok => rw [e] at this; cases this
  · refine .inr ⟨Y, e1, fun i a ha => ?_⟩
    have hmem := List.mem_of_getElem? ha
    have : decodeTree (beliefsTree (b a)) = .ok (y (beliefsTree (b a))) := e2 _ (List.mem_map.2 ⟨a, hmem, rfl⟩)
    rw [decodeTree_beliefs] at this
    cases e : decodeMapStates (b a) with
    | error e' => rw [e] at this; cases this
    | ok ss =>
      rw [e] at this
      refine ⟨b a, ss, h2 a hmem, e, ?_⟩
      rw [e3.sample (i := i) (t := y (beliefsTree (b a))) (by rw [List.getElem?_map, List.getElem?_map, ha]; rfl)]
      exact (Except.ok.inj this).symm

/-- **C87, marginals.** `get_marginals` of a batch of beliefs that have an axis for the states gives, for every sample, the marginals of this sample. -/
theorem C87_marginals (env : Env α) (h : Compiled vgs hist garbage st) {state : BPState α} {T : α} {bp : BPFun κ α} (hbp : BP.create st state T = .ok bp) (batch : List (BPArrays α))
    (hne : batch ≠ []) (hm : ∀ a ∈ batch, a.ftovMsgs.length = st.totalFactorNumStates ∧ a.evidence.length = st.numVarStates) (hreg : ∀ g ∈ vgs, g.Regular)
    {X : PyTree κ (WithBot α)} (hX : bp.vmapBeliefs batch = .ok X) (hdim : ∀ A ∈ X.leaves, 2 ≤ A.shape.length) :
    ∃ Y, marginalTree env X = .ok Y ∧ ∀ i a, batch[i]? = some a → ∃ bs ms, bp.getBeliefs a = .ok bs ∧ getMarginals env bs = .ok ms ∧ Y.sample i = marginalsTree ms := by
  obtain ⟨X', b, h1, h2, h3⟩ := vmapBeliefs_batch h hbp batch hne hm hreg
  obtain rfl : X' = X := Except.ok.inj (h1.symm.trans hX)
  rcases (marginalsRowwise env).batchTree h3 (by simpa using hne) (h3.dims hdim) with ⟨e1, -⟩ | ⟨Y, y, e1, e2, e3⟩
  · exfalso
    have : ∀ l : List (NDArr (WithBot α)), (∀ A ∈ l, 2 ≤ A.shape.length) → ∃ ys, l.mapM (marginalsLast env) = .ok ys := by
      intro l
      induction l with
      | nil => exact fun _ => ⟨[], rfl⟩
      | cons A l ih =>
        intro hl
        obtain ⟨ys, hys⟩ := ih (fun B hB => hl B (by simp [hB]))
        rw [List.mapM_cons, hys]
        unfold marginalsLast
        cases e : A.shape.getLast? with
        | none =>
          have := hl A (by simp)
          rw [List.getLast?_eq_none_iff.1 e] at this
          simp at this
        | some m => exact ⟨_, rfl⟩
    obtain ⟨ys, hys⟩ := this X'.leaves hdim
    unfold PyTree.mapM at e1
    rw [hys] at e1
    cases e1
  · refine ⟨Y, e1, fun i a ha => ?_⟩
    have hmem := List.mem_of_getElem? ha
    have : marginalTree env (beliefsTree (b a)) = .ok (y (beliefsTree (b a))) := e2 _ (List.mem_map.2 ⟨a, hmem, rfl⟩)
    rw [marginalTree_beliefs] at this
    cases e : getMarginals env (b a) with
    | error e' => rw [e] at this; cases this
    | ok ss =>
      rw [e] at this
      refine ⟨b a, ss, h2 a hmem, e, ?_⟩
      rw [e3.sample (i := i) (t := y (beliefsTree (b a))) (by rw [List.getElem?_map, List.getElem?_map, ha]; rfl)]
      exact (Except.ok.inj this).symm

end

/-- **C87**, stacking: arrays are stacked exactly if there are some and all have the same shape; everything else is a ValueError. -/
theorem C87_stack {β : Type _} (xs : List (NDArr β)) :
    (xs ≠ [] ∧ (∀ x ∈ xs, ∀ y ∈ xs, x.shape = y.shape) → ∃ X, stackArrs xs = .ok X ∧ X.data = xs.flatMap (fun y => y.data) ∧ ∀ x ∈ xs, X.shape = xs.length :: x.shape) ∧
    (¬ (xs ≠ [] ∧ ∀ x ∈ xs, ∀ y ∈ xs, x.shape = y.shape) → stackArrs xs = .error .valueError) := by
  cases xs with
  | nil => exact ⟨fun h => absurd rfl h.1, fun _ => rfl⟩
  | cons x xs =>
    constructor
    · rintro ⟨-, h⟩
      refine ⟨_, if_pos ?_, rfl, fun y hy => ?_⟩
      · rw [List.all_eq_true]
        exact fun y hy => decide_eq_true (h y hy x (by simp))
      · show _ :: x.shape = _ :: y.shape
        rw [h x (by simp) y hy]
    · intro h
      refine if_neg fun hall => h ⟨by simp, fun y hy z hz => ?_⟩
      rw [List.all_eq_true] at hall
      exact (of_decide_eq_true (hall y hy)).trans (of_decide_eq_true (hall z hz)).symm

/-- Non-vacuity: both cases of stacking occur; two arrays with as many axes but different shapes are refused. -/
example : (stackArrs [⟨[2], [1, 2]⟩, ⟨[2], [3, 4]⟩] : Py (NDArr ℚ)) = .ok ⟨[2, 2], [1, 2, 3, 4]⟩ ∧
    (stackArrs [⟨[2, 1], [1, 2]⟩, ⟨[1, 2], [3, 4]⟩] : Py (NDArr ℚ)) = .error .valueError := ⟨rfl, rfl⟩

/-- The condition on the axes is needed: the beliefs of a single variable with one state in an array without axes are a number, which cannot be decoded; in a batch of two samples,
their argmax is taken over the samples. -/
theorem C87_refuted_scalar : VGroup.unflatten (.arr ⟨1000000000, [], [1]⟩ : VGroup Nat) ([5] : List ℚ) = .ok (.arr ⟨[], [WithBot.some 5]⟩) ∧
    (argmaxLast (⟨[], [WithBot.some 5]⟩ : NDArr (WithBot ℚ))).toOption = none ∧
    ((stackArrs [⟨[], [WithBot.some 5]⟩, ⟨[], [WithBot.some 7]⟩]).bind (fun a => argmaxLast (a : NDArr (WithBot ℚ)))).toOption = some ⟨[], [1]⟩ := by
  refine ⟨rfl, rfl, ?_⟩
  decide +kernel

/-- Two samples for the example graph. -/
def exBatch : List (BPArrays ℚ) := [⟨[], List.replicate 18 0, [0, 1, 2, 0, 0, 3]⟩, ⟨[], 1 :: List.replicate 17 0, [5, 0, 0, 1, 0, 0]⟩]

/-- Non-vacuity: the hypotheses hold for a batch of two samples, and states are decoded. -/
example : exBatch ≠ [] ∧ (∀ a ∈ exBatch, a.ftovMsgs.length = exState.totalFactorNumStates ∧ a.evidence.length = exState.numVarStates) ∧ (∀ g ∈ exVars, g.Regular) ∧
    (exBP.vmapBeliefs exBatch).toOption.map (fun X => X.leaves.map (fun A => A.shape)) = some [[2, 3, 2]] ∧
    ((exBP.vmapBeliefs exBatch).bind decodeTree).toOption.map (fun X => X.leaves) = some [⟨[2, 3], [1, 0, 1, 0, 1, 0]⟩] := by
  refine ⟨by simp [exBatch], by decide +kernel, ?_, by decide +kernel, by decide +kernel⟩
  intro g hg
  simp [exVars] at hg
  subst hg
  simp [VGroup.Regular]

end PGMax
