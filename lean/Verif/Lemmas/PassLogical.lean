import Verif.Lemmas.Logical2

/-! Helper lemmas: `passLogical` on the wiring of a list of logical factors. -/

namespace PGMax

variable {α : Type _}

/-- The numbers of parents of logical factors. -/
def parentCounts (scopes : List (List Var)) : List Nat := scopes.map (fun vs => vs.length - 1)

theorem parentCounts_getD {scopes : List (List Var)} {f : Nat} {vs : List Var} (hf : scopes[f]? = some vs) :
    (parentCounts scopes).getD f 0 = vs.length - 1 := by
  simp [parentCounts, List.getD, hf]

theorem lParents_length' (rel fb eb : Nat) (scopes : List (List Var)) : (lParents rel fb eb scopes).length = (parentCounts scopes).sum :=
  lParents_length rel fb eb scopes

variable {scopes : List (List Var)}

theorem lParents_at (rel : Nat) (hl : ∀ vs ∈ scopes, LogicalScope vs) (f j : Nat) (vs : List Var) (hf : scopes[f]? = some vs)
    (hj : j < vs.length - 1) : (lParents rel 0 0 scopes)[blk (parentCounts scopes) f j]? = some (f, edgeStart scopes f j + rel) := by
  have := lParents_getElem? rel 0 0 scopes (fun vs h => (hl vs h).2) f j vs hf hj
  rw [List.map_take, Nat.zero_add, Nat.zero_add] at this
  exact this

theorem lLabels (rel : Nat) (hl : ∀ vs ∈ scopes, LogicalScope vs) : Labels ((lParents rel 0 0 scopes).map (·.1)) (parentCounts scopes) where
  len := by rw [List.length_map, lParents_length']
  lab := by
    intro f j hj
    cases hf : scopes[f]? with
    | none => simp [parentCounts, List.getD, hf] at hj
    | some vs =>
      rw [parentCounts_getD hf] at hj
      exact map_at _ (lParents_at rel hl f j vs hf hj)

theorem parentCounts_pos (hl : ∀ vs ∈ scopes, LogicalScope vs) : ∀ f < (parentCounts scopes).length, 0 < (parentCounts scopes).getD f 0 := by
  intro f hf
  have hf' : f < scopes.length := by simpa [parentCounts] using hf
  have h := List.getElem?_eq_getElem hf'
  rw [parentCounts_getD h]
  have := (hl _ (List.getElem_mem hf')).1
  omega

section
variable [Field α] [LinearOrder α]

/-- The difference between the two states of an edge. -/
def diffAt (scopes : List (List Var)) (vtof : List α) (rel f i : Nat) : α :=
  readMsgs scopes vtof f i (1 - rel) - readMsgs scopes vtof f i rel

theorem wrapIdx_add (n p : Nat) (rel : Nat) (hrel : rel < 2) :
    wrapIdx n (((p + rel : Nat) : Int) + (if rel = 0 then 1 else -1)) = p + (1 - rel) := by
  unfold wrapIdx
  rcases (show rel = 0 ∨ rel = 1 by omega) with rfl | rfl
  · rw [if_pos (by simp; omega)]; simp
  · rw [if_pos (by simp)]; simp

theorem edgeDiffs_at (env : Env α) (vtof : List α) (hv : vtof.length = statesOf scopes) (hl : ∀ vs ∈ scopes, LogicalScope vs)
    (rel : Nat) (hrel : rel < 2) (idx : List Nat) (p f i : Nat) (vs : List Var) (hf : scopes[f]? = some vs) (hi : i < vs.length)
    (hidx : idx[p]? = some (edgeStart scopes f i + rel)) :
    (edgeDiffs env vtof idx (if rel = 0 then 1 else -1))[p]? = some (diffAt scopes vtof rel f i) := by
  have hn : (vs[i]).n = 2 := (hl vs (List.mem_of_getElem? hf)).2 _ (List.getElem_mem hi)
  have hlt : ∀ s < 2, edgeStart scopes f i + s < vtof.length := by
    intro s hs
    rw [hv]
    exact edgeStart_lt scopes f i vs vs[i] s hf (List.getElem?_eq_getElem hi) (by omega)
  have hat : ∀ s < 2, vtof[edgeStart scopes f i + s]? = some (readMsgs scopes vtof f i s) := by
    intro s hs
    rw [readMsgs, List.getElem?_eq_getElem (hlt s hs), getD_of_some (List.getElem?_eq_getElem (hlt s hs))]
  refine zip_at (· - ·) ?_ (gather_at _ _ _ _ _ _ hidx (hat rel hrel))
  refine gather_at _ _ _ _ (edgeStart scopes f i + (1 - rel)) _ ?_ (hat (1 - rel) (by omega))
  refine (map_at _ (map_at (fun (i : Nat) => (i : Int) + _) hidx)).trans ?_
  rw [wrapIdx_add _ _ _ hrel]

/-- The differences of the parents and of the children, as `passLogical` computes them. -/
def pdiffs (env : Env α) (vtof : List α) (rel : Nat) (scopes : List (List Var)) : List α :=
  edgeDiffs env vtof ((lParents rel 0 0 scopes).map (·.2)) (if rel = 0 then 1 else -1)
def cdiffs (env : Env α) (vtof : List α) (rel : Nat) (scopes : List (List Var)) : List α :=
  edgeDiffs env vtof (lChildren rel 0 scopes) (if rel = 0 then 1 else -1)

theorem pdiffs_length (env : Env α) (vtof : List α) (rel : Nat) (scopes : List (List Var)) :
    (pdiffs env vtof rel scopes).length = (parentCounts scopes).sum := by
  simp [pdiffs, edgeDiffs, zipOp, gatherI, lParents_length']

theorem cdiffs_length (env : Env α) (vtof : List α) (rel : Nat) (scopes : List (List Var)) :
    (cdiffs env vtof rel scopes).length = scopes.length := by
  simp [cdiffs, edgeDiffs, zipOp, gatherI]

theorem pdiffs_at (env : Env α) (vtof : List α) (hv : vtof.length = statesOf scopes) (hl : ∀ vs ∈ scopes, LogicalScope vs)
    (rel : Nat) (hrel : rel < 2) (f j : Nat) (vs : List Var) (hf : scopes[f]? = some vs) (hj : j < vs.length - 1) :
    (pdiffs env vtof rel scopes)[blk (parentCounts scopes) f j]? = some (diffAt scopes vtof rel f j) :=
  edgeDiffs_at env vtof hv hl rel hrel _ _ f j vs hf (by omega) (map_at _ (lParents_at rel hl f j vs hf hj))

theorem cdiffs_at (env : Env α) (vtof : List α) (hv : vtof.length = statesOf scopes) (hl : ∀ vs ∈ scopes, LogicalScope vs)
    (rel : Nat) (hrel : rel < 2) (f : Nat) (vs : List Var) (hf : scopes[f]? = some vs) :
    (cdiffs env vtof rel scopes)[f]? = some (diffAt scopes vtof rel f (vs.length - 1)) := by
  have := (hl vs (List.mem_of_getElem? hf)).1
  refine edgeDiffs_at env vtof hv hl rel hrel _ _ f (vs.length - 1) vs hf (by omega) ?_
  rw [lChildren_getElem? rel 0 scopes (fun vs h => (hl vs h).2) f vs hf, Nat.zero_add]

/-- The results of `passLogical`: 0 at the relevant state of every edge, the computed message at the other one. -/
theorem passLogical_at (env : Env α) (T : α) (vtof : List α) (hv : vtof.length = statesOf scopes)
    (hl : ∀ vs ∈ scopes, LogicalScope vs) (rel : Nat) (hrel : rel < 2) (pm cm : List α)
    (hpc : (if T = 0 then logicalMax env (pdiffs env vtof rel scopes) (cdiffs env vtof rel scopes) ((lParents rel 0 0 scopes).map (·.1)) (parentCounts scopes).length
      else logicalSum env T (pdiffs env vtof rel scopes) (cdiffs env vtof rel scopes) ((lParents rel 0 0 scopes).map (·.1)) (parentCounts scopes).length) = (pm, cm))
    (hpm : pm.length = (parentCounts scopes).sum) (hcm : cm.length = scopes.length)
    (f i : Nat) (vs : List Var) (hf : scopes[f]? = some vs) (hi : i < vs.length) :
    (passLogical env T vtof (lParents rel 0 0 scopes) (lChildren rel 0 scopes) (if rel = 0 then 1 else -1))[edgeStart scopes f i + rel]? = some 0 ∧
    (passLogical env T vtof (lParents rel 0 0 scopes) (lChildren rel 0 scopes) (if rel = 0 then 1 else -1))[edgeStart scopes f i + (1 - rel)]? =
      if i < vs.length - 1 then
        (if vs.length - 1 = 1 then some (diffAt scopes vtof rel f (vs.length - 1)) else pm[blk (parentCounts scopes) f i]?)
      else cm[f]? := by
  have hnf : (lChildren rel 0 scopes).length = (parentCounts scopes).length := by simp [parentCounts]
  have hnfs : (parentCounts scopes).length = scopes.length := by simp [parentCounts]
  have hlt : ∀ f i vs, scopes[f]? = some vs → i < vs.length → ∀ s < 2, edgeStart scopes f i + s < vtof.length := by
    intro f i vs hf hi s hs
    have hn : (vs[i]).n = 2 := (hl vs (List.mem_of_getElem? hf)).2 _ (List.getElem_mem hi)
    rw [hv]
    exact edgeStart_lt scopes f i vs vs[i] s hf (List.getElem?_eq_getElem hi) (by omega)
  have hinj : ∀ f i vs s f' i' vs' s', scopes[f]? = some vs → i < vs.length → s < 2 → scopes[f']? = some vs' → i' < vs'.length → s' < 2 →
      edgeStart scopes f i + s = edgeStart scopes f' i' + s' → f = f' ∧ i = i' ∧ s = s' := by
    intro f i vs s f' i' vs' s' hf hi hs hf' hi' hs' he
    have hn : (vs[i]).n = 2 := (hl vs (List.mem_of_getElem? hf)).2 _ (List.getElem_mem hi)
    have hn' : (vs'[i']).n = 2 := (hl vs' (List.mem_of_getElem? hf')).2 _ (List.getElem_mem hi')
    exact edgeStart_inj scopes f i f' i' vs vs' vs[i] vs'[i'] s s' hf (List.getElem?_eq_getElem hi) (by omega) hf'
      (List.getElem?_eq_getElem hi') (by omega) he
  have h1rel : 1 - rel < 2 := by omega
  have h1ne : 1 - rel ≠ rel := by omega
  unfold passLogical
  simp only
  rw [hnf]
  rw [show edgeDiffs env vtof ((lParents rel 0 0 scopes).map (·.2)) (if rel = 0 then 1 else -1) = pdiffs env vtof rel scopes from rfl,
    show edgeDiffs env vtof (lChildren rel 0 scopes) (if rel = 0 then 1 else -1) = cdiffs env vtof rel scopes from rfl, hpc]
  simp only
  have hfix : ∀ f i vs, scopes[f]? = some vs → i < vs.length - 1 →
      (singleParentFix env pm (cdiffs env vtof rel scopes) ((lParents rel 0 0 scopes).map (·.1)) (parentCounts scopes).length)[blk (parentCounts scopes) f i]?
      = if vs.length - 1 = 1 then some (diffAt scopes vtof rel f (vs.length - 1)) else pm[blk (parentCounts scopes) f i]? := by
    intro f i vs hf hi
    have hfl : f < (parentCounts scopes).length := by rw [hnfs]; exact (List.getElem?_eq_some_iff.1 hf).1
    rw [singleParentFix_spec (lLabels rel hl) env pm _ hpm ((cdiffs_length _ _ _ _).trans hnfs.symm) (parentCounts_pos hl) f i hfl
      (by rw [parentCounts_getD hf]; exact hi), parentCounts_getD hf, cdiffs_at env vtof hv hl rel hrel f vs hf]
  generalize singleParentFix env pm (cdiffs env vtof rel scopes) ((lParents rel 0 0 scopes).map (·.1)) (parentCounts scopes).length = pm' at hfix
  -- index arrays
  have hpidx : ∀ n, (((lParents rel 0 0 scopes).map (·.2)).map (fun (i : Nat) => (i : Int) + (if rel = 0 then 1 else -1))).map (wrapIdx n)
      = (lParents rel 0 0 scopes).map (fun p => p.2 - rel + (1 - rel)) := by
    intro n
    rw [List.map_map, List.map_map]
    apply List.map_congr_left
    intro p hp
    obtain ⟨f, vs, i, -, -, rfl⟩ := (lParents_mem rel 0 0 scopes (fun vs h => (hl vs h).2) p).1 hp
    have := wrapIdx_add n (0 + edgeStart scopes f i) rel hrel
    simp only [Function.comp_apply]
    rw [this]; omega
  have hcidx : ∀ n, ((lChildren rel 0 scopes).map (fun (i : Nat) => (i : Int) + (if rel = 0 then 1 else -1))).map (wrapIdx n)
      = (List.range scopes.length).map (fun f => edgeStart scopes f ((scopes.getD f []).length - 1) + (1 - rel)) := by
    intro n
    apply List.ext_getElem?
    intro f
    by_cases hf : f < scopes.length
    · have h := List.getElem?_eq_getElem hf
      rw [List.getElem?_map, List.getElem?_map, lChildren_getElem? rel 0 scopes (fun vs h => (hl vs h).2) f _ h, List.getElem?_map,
        List.getElem?_range hf]
      simp only [Option.map_some, Option.some.injEq, getD_of_some h, Nat.zero_add]
      exact wrapIdx_add n _ rel hrel
    · rw [List.getElem?_eq_none (by simp; omega), List.getElem?_eq_none (by simp; omega)]
  unfold scatterSetI
  rw [hpidx, hcidx]
  have hpmem : ∀ p, p ∈ (lParents rel 0 0 scopes).map (fun p => p.2 - rel + (1 - rel)) ↔
      ∃ f vs i, scopes[f]? = some vs ∧ i < vs.length - 1 ∧ p = edgeStart scopes f i + (1 - rel) := by
    intro p
    rw [List.mem_map]
    constructor
    · rintro ⟨p, hp, rfl⟩
      obtain ⟨f, vs, i, h1, h2, rfl⟩ := (lParents_mem rel 0 0 scopes (fun vs h => (hl vs h).2) p).1 hp
      exact ⟨f, vs, i, h1, h2, by simp⟩
    · rintro ⟨f, vs, i, h1, h2, rfl⟩
      exact ⟨_, (lParents_mem rel 0 0 scopes (fun vs h => (hl vs h).2) _).2 ⟨f, vs, i, h1, h2, rfl⟩, by simp⟩
  have hcmem : ∀ p, p ∈ (List.range scopes.length).map (fun f => edgeStart scopes f ((scopes.getD f []).length - 1) + (1 - rel)) ↔
      ∃ f vs, scopes[f]? = some vs ∧ p = edgeStart scopes f (vs.length - 1) + (1 - rel) := by
    intro p
    rw [List.mem_map]
    constructor
    · rintro ⟨f, hf, rfl⟩
      rw [List.mem_range] at hf
      exact ⟨f, scopes[f], List.getElem?_eq_getElem hf, by rw [getD_of_some (List.getElem?_eq_getElem hf)]⟩
    · rintro ⟨f, vs, hf, rfl⟩
      exact ⟨f, List.mem_range.2 (List.getElem?_eq_some_iff.1 hf).1, by rw [getD_of_some hf]⟩
  have h2 : ∀ (f : Nat) (vs : List Var), scopes[f]? = some vs → 2 ≤ vs.length := fun f vs hf => (hl vs (List.mem_of_getElem? hf)).1
  have hcnd : ((List.range scopes.length).map (fun f => edgeStart scopes f ((scopes.getD f []).length - 1) + (1 - rel))).Nodup := by
    rw [List.nodup_map_iff_inj_on List.nodup_range]
    intro f hf g hg he
    rw [List.mem_range] at hf hg
    have hf' := List.getElem?_eq_getElem hf
    have hg' := List.getElem?_eq_getElem hg
    rw [getD_of_some hf', getD_of_some hg'] at he
    have := h2 f _ hf'
    have := h2 g _ hg'
    exact (hinj _ _ _ _ _ _ _ _ hf' (by omega) h1rel hg' (by omega) h1rel he).1
  have hpnd : ((lParents rel 0 0 scopes).map (fun p => p.2 - rel + (1 - rel))).Nodup := by
    rw [List.nodup_iff_injective_getElem]
    rintro ⟨a, ha⟩ ⟨b, hb⟩ hab
    simp only [List.length_map, lParents_length'] at ha hb
    obtain ⟨fa, ja, hfa, hja, ea⟩ := exists_block _ a ha
    obtain ⟨fb, jb, hfb, hjb, eb⟩ := exists_block _ b hb
    rw [hnfs] at hfa hfb
    have hfa' := List.getElem?_eq_getElem hfa
    have hfb' := List.getElem?_eq_getElem hfb
    rw [parentCounts_getD hfa'] at hja
    rw [parentCounts_getD hfb'] at hjb
    have ga := lParents_at rel hl fa ja _ hfa' hja
    have gb := lParents_at rel hl fb jb _ hfb' hjb
    rw [blk, ← ea, List.getElem?_eq_some_iff] at ga
    rw [blk, ← eb, List.getElem?_eq_some_iff] at gb
    obtain ⟨_, ga⟩ := ga
    obtain ⟨_, gb⟩ := gb
    simp only [List.getElem_map, ga, gb] at hab
    obtain ⟨r1, r2, -⟩ := hinj fa ja _ (1 - rel) fb jb _ (1 - rel) hfa' (by omega) h1rel hfb' (by omega) h1rel (by omega)
    simp only [Fin.mk.injEq]
    rw [ea, eb, r1, r2]
  have hlt' := hlt f i vs hf hi
  have hl2 := h2 f vs hf
  constructor
  · rw [scatterSet_getElem?_miss, scatterSet_getElem?_miss, List.getElem?_replicate, if_pos (hlt' rel hrel)]
    · rw [hpmem]
      rintro ⟨g, ws, j, hg, hj, he⟩
      exact h1ne (hinj _ _ _ _ _ _ _ _ hf hi hrel hg (by omega) h1rel he).2.2.symm
    · rw [hcmem]
      rintro ⟨g, ws, hg, he⟩
      have := h2 g ws hg
      exact h1ne (hinj _ _ _ _ _ _ _ _ hf hi hrel hg (by omega) h1rel he).2.2.symm
  · split
    · rename_i hi'
      rw [scatterSet_getElem?_miss, ← hfix f i vs hf hi']
      · have hgp := lParents_at rel hl f i vs hf hi'
        have hpl : blk (parentCounts scopes) f i < pm'.length := by
          have hfl : f < (parentCounts scopes).length := by rw [hnfs]; exact (List.getElem?_eq_some_iff.1 hf).1
          by_contra hcon
          have h3 := hfix f i vs hf hi'
          rw [List.getElem?_eq_none (by omega)] at h3
          split at h3
          · cases h3
          · rw [List.getElem?_eq_getElem (by rw [hpm]; exact blk_lt hfl (by rw [parentCounts_getD hf]; exact hi'))] at h3
            cases h3
        rw [List.getElem?_eq_getElem hpl]
        refine scatterSet_getElem?_hit _ _ _ hpnd (blk (parentCounts scopes) f i) _ _ ?_ (List.getElem?_eq_getElem hpl) (by simpa using hlt' (1 - rel) h1rel)
        rw [map_at (fun p : Nat × Nat => p.2 - rel + (1 - rel)) hgp]
        simp
      · rw [hcmem]
        rintro ⟨g, ws, hg, he⟩
        have := h2 g ws hg
        obtain ⟨rfl, r2, -⟩ := hinj _ _ _ _ _ _ _ _ hf hi h1rel hg (by omega) h1rel he
        rw [hf] at hg
        cases hg
        omega
    · rename_i hi'
      have hie : i = vs.length - 1 := by omega
      have hfl : f < scopes.length := (List.getElem?_eq_some_iff.1 hf).1
      rw [List.getElem?_eq_getElem (by omega : f < cm.length)]
      refine scatterSet_getElem?_hit _ _ _ hcnd f _ _ ?_ (List.getElem?_eq_getElem (by omega)) (by simpa using hlt' (1 - rel) h1rel)
      rw [List.getElem?_map, List.getElem?_range hfl, Option.map_some, getD_of_some hf, hie]

theorem logicalMax_length {fidx ns : List Nat} (L : Labels fidx ns) (env : Env α) (ptof ctof : List α) (hd : ptof.length = ns.sum)
    (hc : ctof.length = ns.length) :
    (logicalMax env ptof ctof fidx ns.length).1.length = ns.sum ∧ (logicalMax env ptof ctof fidx ns.length).2.length = ns.length := by
  constructor
  · unfold logicalMax scatterSetI
    simp [zipOp, L.len, hd]
  · unfold logicalMax
    simp [zipOp, gatherI, labelArgmaxes]

theorem logicalSum_length {fidx ns : List Nat} (L : Labels fidx ns) (env : Env α) (T : α) (ptof ctof : List α) (hd : ptof.length = ns.sum) :
    (logicalSum env T ptof ctof fidx ns.length).1.length = ns.sum ∧ (logicalSum env T ptof ctof fidx ns.length).2.length = ns.length := by
  constructor
  · unfold logicalSum
    simp [zipOp, L.len, hd]
  · unfold logicalSum
    simp

end

theorem eq_of_blk {β : Type _} {ns : List Nat} {xs ys : List β} (hx : xs.length = ns.sum) (hy : ys.length = ns.sum)
    (h : ∀ f j, f < ns.length → j < ns.getD f 0 → xs[blk ns f j]? = ys[blk ns f j]?) : xs = ys := by
  apply List.ext_getElem?
  intro p
  by_cases hp : p < ns.sum
  · obtain ⟨k, s, hk, hs, rfl⟩ := exists_block ns p hp
    exact h k s hk hs
  · rw [List.getElem?_eq_none (by omega), List.getElem?_eq_none (by omega)]

end PGMax
