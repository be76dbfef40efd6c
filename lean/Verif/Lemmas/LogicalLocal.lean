import Verif.Lemmas.Logical2

/-! Helper lemmas: the messages of an OR / AND factor as a function of its own incoming messages. -/

namespace PGMax

variable {α : Type _}

section
variable [Field α] [LinearOrder α]

/-- The position that the code takes for the maximum of `xs`. -/
def LocalArg (xs : List α) (J : Nat) : Prop :=
  J < xs.length ∧ ((xs[J]? = some (xs.foldl max NEG_INF) ∧ ∀ j : Nat, xs[j]? = some (xs.foldl max NEG_INF) → j ≤ J) ∨
    (xs.foldl max NEG_INF ∉ xs ∧ J + 1 = xs.length))

theorem LocalArg.unique {xs : List α} {J K : Nat} (hJ : LocalArg xs J) (hK : LocalArg xs K) : J = K := by
  obtain ⟨_, h1 | h1⟩ := hJ
  · obtain ⟨_, h2 | h2⟩ := hK
    · exact le_antisymm (h2.2 J h1.1) (h1.2 K h2.1)
    · exact absurd (List.mem_of_getElem? h1.1) h2.1
  · obtain ⟨_, h2 | h2⟩ := hK
    · exact absurd (List.mem_of_getElem? h2.1) h1.1
    · omega

/-- The position that the code takes for the maximum of `xs`. -/
noncomputable def argL (xs : List α) : Nat := Classical.epsilon (LocalArg xs)

theorem LocalArg.eq {xs : List α} {J : Nat} (h : LocalArg xs J) : argL xs = J :=
  LocalArg.unique (Classical.epsilon_spec (p := LocalArg xs) ⟨J, h⟩) h

/-- The block of a factor. -/
def block (ns : List Nat) (data : List α) (f : Nat) : List α := (List.range (ns.getD f 0)).map (fun j => data.getD (blk ns f j) 0)

@[simp] theorem block_length (ns : List Nat) (data : List α) (f : Nat) : (block ns data f).length = ns.getD f 0 := by simp [block]

theorem block_at (ns : List Nat) (data : List α) (f j : Nat) (hj : j < ns.getD f 0) : (block ns data f)[j]? = some (data.getD (blk ns f j) 0) := by
  rw [block, List.getElem?_map, List.getElem?_range hj]; rfl

theorem labelArgmaxes_local {fidx ns : List Nat} (L : Labels fidx ns) (env : Env α) (data : List α) (hd : data.length = ns.sum)
    (hN : ns.sum ≤ 100000) (f : Nat) (hf : f < ns.length) (hpos : 0 < ns.getD f 0) :
    LocalArg (block ns data f) (argL (block ns data f)) ∧
    ((labelArgmaxes env data fidx ns.length).map (wrapIdx ns.sum))[f]? = some (blk ns f (argL (block ns data f))) := by
  suffices h : ∃ J, LocalArg (block ns data f) J ∧ ((labelArgmaxes env data fidx ns.length).map (wrapIdx ns.sum))[f]? = some (blk ns f J) by
    obtain ⟨J, h1, h2⟩ := h
    rw [h1.eq]
    exact ⟨h1, h2⟩
  have hM : (labelMaxes data fidx ns.length)[f]? = some ((block ns data f).foldl max NEG_INF) := by
    rw [labelMaxes, scatterMax, scatterWith_getElem?, List.getElem?_replicate, if_pos hf, L.hits hf data 0 hd]
    rfl
  unfold LocalArg
  generalize hMM : (block ns data f).foldl max NEG_INF = M at hM
  rw [block_length]
  unfold labelArgmaxes
  simp only
  generalize hpv : (List.range data.length).map (fun (i : Nat) => (i : Int) - (data.length : Int) *
      (if data.getD i 0 ≠ (gather env.oob (labelMaxes data fidx ns.length) fidx).getD i 0 then 1 else 0)) = pos
  have hpl : pos.length = ns.sum := by rw [← hpv]; simpa using hd
  have hpg : ∀ j < ns.getD f 0, pos.getD (blk ns f j) 0 =
      (blk ns f j : Int) - (ns.sum : Int) * (if data.getD (blk ns f j) 0 ≠ M then 1 else 0) := by
    intro j hj
    apply getD_of_some
    have hlt := blk_lt hf hj
    rw [← hpv, List.getElem?_map, List.getElem?_range (by omega), Option.map_some, hd]
    have hat : (gather env.oob (labelMaxes data fidx ns.length) fidx).getD (blk ns f j) 0 = M := by
      apply getD_of_some
      have := L.lab f j hj
      rw [gather_getElem?, show fidx[blk ns f j]? = some f from this, Option.map_some, getD_of_some hM]
    rw [hat]
  rw [scatterMax, List.getElem?_map, scatterWith_getElem?, List.getElem?_replicate, if_pos hf, L.hits hf pos 0 hpl, Option.map_some, Option.map_some]
  obtain ⟨a1, a2, a3⟩ := foldl_max_eq ((List.range (ns.getD f 0)).map (fun j => pos.getD (blk ns f j) 0)) (-100000 : Int)
  generalize hA : ((List.range (ns.getD f 0)).map (fun j => pos.getD (blk ns f j) 0)).foldl max (-100000 : Int) = A at a1 a2 a3
  have a2' : ∀ j < ns.getD f 0, pos.getD (blk ns f j) 0 ≤ A := fun j hj => a2 _ (List.mem_map.2 ⟨j, List.mem_range.2 hj, rfl⟩)
  have amem : A ∈ (List.range (ns.getD f 0)).map (fun j => pos.getD (blk ns f j) 0) := by
    rcases a3 with a3 | a3
    · have h0 := a2' 0 hpos
      have h1 := hpg 0 hpos
      have hlt := blk_lt hf hpos
      refine List.mem_map.2 ⟨0, List.mem_range.2 hpos, ?_⟩
      apply le_antisymm h0
      rw [h1, a3]
      split <;> omega
    · exact a3
  obtain ⟨j, hj, hjA⟩ := List.mem_map.1 amem
  have hj' := List.mem_range.1 hj
  have hlt := blk_lt hf hj'
  have hjp := hpg j hj'
  refine ⟨j, ⟨hj', ?_⟩, ?_⟩
  · by_cases he : data.getD (blk ns f j) 0 = M
    · left
      rw [block_at _ _ _ _ hj', he]
      refine ⟨rfl, ?_⟩
      intro k hk
      have hkl : k < ns.getD f 0 := by
        have := (List.getElem?_eq_some_iff.1 hk).1
        simpa using this
      rw [block_at _ _ _ _ hkl] at hk
      have h1 := hpg k hkl
      rw [if_neg (by simpa using Option.some.inj hk)] at h1
      rw [if_neg (by simpa using he)] at hjp
      have h2 := a2' k hkl
      unfold blk at *
      omega
    · right
      rw [if_pos he] at hjp
      constructor
      · intro hm
        obtain ⟨k, hk, hkM⟩ := List.mem_map.1 hm
        rw [List.mem_range] at hk
        have h1 := hpg k hk
        rw [if_neg (by simpa using hkM)] at h1
        have h2 := a2' k hk
        omega
      · have hkl : ns.getD f 0 - 1 < ns.getD f 0 := by omega
        have h1 := hpg (ns.getD f 0 - 1) hkl
        have h2 := a2' (ns.getD f 0 - 1) hkl
        unfold blk at *
        split at h1 <;> omega
  · congr 1
    rw [← hjA, hjp]
    unfold wrapIdx
    by_cases he : data.getD (blk ns f j) 0 ≠ M
    · rw [if_pos he, if_neg (by omega), if_pos (by omega)]; omega
    · rw [if_neg he, if_pos (by omega)]; omega

/-- The max-product message of a factor to parent `i`. -/
noncomputable def maxP (xs : List α) (y : α) (i : Nat) : α :=
  if i = argL xs then
    min (y + (xs.map (fun x => max 0 x)).sum - max 0 (xs.getD (argL xs) 0)) (max 0 (-(xs.getD (argL (xs.set (argL xs) NEG_INF)) 0)))
  else min (y + (xs.map (fun x => max 0 x)).sum - max 0 (xs.getD i 0)) (max 0 (-(xs.getD (argL xs) 0)))

/-- The max-product message of a factor to its child. -/
noncomputable def maxC (xs : List α) : α := (xs.map (fun x => max 0 x)).sum + min 0 (xs.getD (argL xs) 0)

/-- The message of a factor to parent `i` at positive temperature. -/
def sumP (env : Env α) (T : α) (xs : List α) (y : α) (i : Nat) : α :=
  (fun x => -T * env.log (sigmoid env (x / T) + sigmoid env (-x / T) * env.exp (-y / T)))
    (logicalG env T ((xs.map (fun x => -T * logSigmoid env (-x / T))).sum - -T * logSigmoid env (-(xs.getD i 0) / T)))

/-- The message of a factor to its child at positive temperature. -/
def sumC (env : Env α) (T : α) (xs : List α) : α := logicalG env T (xs.map (fun x => -T * logSigmoid env (-x / T))).sum

/-- The message of an OR / AND factor with `xs.length` parents to its position `i`: difference between the determining and
the other state.  `xs` and `y` are the same differences of the incoming messages of parents and child. -/
noncomputable def logicalOut (env : Env α) (T : α) (xs : List α) (y : α) (i : Nat) : α :=
  if i < xs.length then (if xs.length = 1 then y else if T = 0 then maxP xs y i else sumP env T xs y i)
  else if T = 0 then maxC xs else sumC env T xs

variable [IsStrictOrderedRing α]

theorem scatterAdd_block {fidx ns : List Nat} (L : Labels fidx ns) (data : List α) (hd : data.length = ns.sum) (g : α → α) (f : Nat) (hf : f < ns.length) :
    (scatterAdd (List.replicate ns.length 0) fidx (data.map g))[f]? = some (((block ns data f).map g).sum) := by
  rw [scatterAdd_labels L _ (by simpa using hd) f hf, block, List.map_map]
  congr 2
  apply List.map_congr_left
  intro j hj
  have hlt := blk_lt hf (List.mem_range.1 hj)
  rw [getD_of_some (map_at g (List.getElem?_eq_getElem (show blk ns f j < data.length by omega)))]
  simp only [Function.comp_apply]
  rw [getD_of_some (List.getElem?_eq_getElem (show blk ns f j < data.length by omega))]

theorem logicalSum_local {fidx ns : List Nat} (L : Labels fidx ns) (env : Env α) (T : α) (ptof ctof : List α) (hd : ptof.length = ns.sum)
    (f : Nat) (hf : f < ns.length) (y : α) (hy : ctof[f]? = some y) :
    (logicalSum env T ptof ctof fidx ns.length).2[f]? = some (sumC env T (block ns ptof f)) ∧
    ∀ k < ns.getD f 0, (logicalSum env T ptof ctof fidx ns.length).1[blk ns f k]? = some (sumP env T (block ns ptof f) y k) := by
  have hsum := scatterAdd_block L ptof hd (fun x => -T * logSigmoid env (-x / T)) f hf
  constructor
  · exact map_at _ hsum
  · intro k hk
    have hlt := blk_lt hf hk
    have hlab : fidx[blk ns f k]? = some f := L.lab f k hk
    have hp : ptof[blk ns f k]? = some ((block ns ptof f).getD k 0) := by
      rw [getD_of_some (block_at ns ptof f k hk), List.getElem?_eq_getElem (by omega), getD_of_some (List.getElem?_eq_getElem (by omega))]
    exact zip_at _ (map_at _ (zip_at _ (gather_at _ _ _ _ _ _ hlab hsum) (map_at _ hp))) (gather_at _ _ _ _ _ _ hlab hy)

theorem logicalMax_local {fidx ns : List Nat} (L : Labels fidx ns) (env : Env α) (ptof ctof : List α) (hd : ptof.length = ns.sum)
    (hcl : ctof.length = ns.length) (hpos : ∀ f < ns.length, 0 < ns.getD f 0) (hN : ns.sum ≤ 100000)
    (f : Nat) (hf : f < ns.length) (y : α) (hy : ctof[f]? = some y) :
    (logicalMax env ptof ctof fidx ns.length).2[f]? = some (maxC (block ns ptof f)) ∧
    ∀ k < ns.getD f 0, (logicalMax env ptof ctof fidx ns.length).1[blk ns f k]? = some (maxP (block ns ptof f) y k) := by
  have hloc : ∀ (data : List α), data.length = ns.sum → ∀ f < ns.length, argL (block ns data f) < ns.getD f 0 ∧
      ((labelArgmaxes env data fidx ns.length).map (wrapIdx ns.sum))[f]? = some (blk ns f (argL (block ns data f))) := by
    intro data hd f hf
    obtain ⟨h1, h2⟩ := labelArgmaxes_local L env data hd hN f hf (hpos f hf)
    exact ⟨by simpa using h1.1, h2⟩
  have hJlt : ∀ f < ns.length, argL (block ns ptof f) < ns.getD f 0 := fun f hf => (hloc ptof hd f hf).1
  have hJ1 : (labelArgmaxes env ptof fidx ns.length).map (wrapIdx ns.sum) = (List.range ns.length).map (fun f => blk ns f (argL (block ns ptof f))) := by
    apply List.ext_getElem?
    intro f
    by_cases hf : f < ns.length
    · rw [(hloc ptof hd f hf).2, List.getElem?_map, List.getElem?_range hf]; rfl
    · rw [List.getElem?_eq_none (by simp [labelArgmaxes]; omega), List.getElem?_eq_none (by simp; omega)]
  have ptat : ∀ j < ns.getD f 0, ptof[blk ns f j]? = some ((block ns ptof f).getD j 0) := by
    intro j hj
    have hlt := blk_lt hf hj
    rw [getD_of_some (block_at ns ptof f j hj), List.getElem?_eq_getElem (by omega), getD_of_some (List.getElem?_eq_getElem (by omega))]
  have hsum := scatterAdd_block L ptof hd (fun x => max 0 x) f hf
  have a1 : ((labelArgmaxes env ptof fidx ns.length).map (wrapIdx ptof.length))[f]? = some (blk ns f (argL (block ns ptof f))) := by
    rw [hd]; exact (hloc ptof hd f hf).2
  have hg1 : (gatherI env ptof (labelArgmaxes env ptof fidx ns.length))[f]? = some ((block ns ptof f).getD (argL (block ns ptof f)) 0) :=
    gather_at _ _ _ _ _ _ a1 (ptat _ (hJlt f hf))
  constructor
  · exact zip_at _ hsum (map_at (fun x => min 0 x) hg1)
  · intro k hk
    have harglen : (labelArgmaxes env ptof fidx ns.length).length = ns.length := by simp [labelArgmaxes]
    have hd2 : (scatterSetI ptof (labelArgmaxes env ptof fidx ns.length) (List.replicate (labelArgmaxes env ptof fidx ns.length).length NEG_INF)).length = ns.sum := by
      simp [scatterSetI, hd]
    have hd2g : block ns (scatterSetI ptof (labelArgmaxes env ptof fidx ns.length) (List.replicate (labelArgmaxes env ptof fidx ns.length).length NEG_INF)) f
        = (block ns ptof f).set (argL (block ns ptof f)) NEG_INF := by
      apply List.ext_getElem?
      intro j
      by_cases hj : j < ns.getD f 0
      · rw [block_at _ _ _ _ hj, List.getElem?_set, block_length]
        have : (scatterSetI ptof (labelArgmaxes env ptof fidx ns.length) (List.replicate (labelArgmaxes env ptof fidx ns.length).length NEG_INF)).getD (blk ns f j) 0
            = if j = argL (block ns ptof f) then NEG_INF else (block ns ptof f).getD j 0 := by
          apply getD_of_some
          rw [scatterSetI, hd, hJ1, scatterSet_blkJ hJlt ptof _ hd (by simp [harglen]) f j hf hj, harglen, List.getElem?_replicate, if_pos hf, ptat j hj]
          split <;> rfl
        rw [this]
        by_cases hja : j = argL (block ns ptof f)
        · rw [if_pos hja, if_pos hja.symm, if_pos (hJlt f hf)]
        · rw [if_neg hja, if_neg (fun h => hja h.symm), List.getElem?_eq_getElem (by rw [block_length]; exact hj),
            getD_of_some (List.getElem?_eq_getElem (by rw [block_length]; exact hj))]
      · rw [List.getElem?_eq_none (by rw [block_length]; omega), List.getElem?_eq_none (by rw [List.length_set, block_length]; omega)]
    generalize hdd : scatterSetI ptof (labelArgmaxes env ptof fidx ns.length) (List.replicate (labelArgmaxes env ptof fidx ns.length).length NEG_INF) = data2 at hd2 hd2g
    obtain ⟨h2, h3⟩ := hloc data2 hd2 f hf
    rw [hd2g] at h2 h3
    have hg2 : (gatherI env ptof (labelArgmaxes env data2 fidx ns.length))[f]? = some ((block ns ptof f).getD (argL ((block ns ptof f).set (argL (block ns ptof f)) NEG_INF)) 0) :=
      gather_at _ _ _ _ _ _ (by rw [hd]; exact h3) (ptat _ h2)
    have hlab : fidx[blk ns f k]? = some f := L.lab f k hk
    have hpm : (zipOp min
        (zipOp (· - ·) (zipOp (· + ·) (gather env.oob ctof fidx) (gather env.oob (scatterAdd (List.replicate ns.length 0) fidx (ptof.map (fun x => max 0 x))) fidx)) (ptof.map (fun x => max 0 x)))
        ((gather env.oob (gatherI env ptof (labelArgmaxes env ptof fidx ns.length)) fidx).map (fun x => max 0 (-x))))[blk ns f k]?
        = some (min (y + ((block ns ptof f).map (fun x => max 0 x)).sum - max 0 ((block ns ptof f).getD k 0)) (max 0 (-((block ns ptof f).getD (argL (block ns ptof f)) 0)))) := by
      refine zip_at _ (zip_at _ (zip_at _ (gather_at _ _ _ _ _ _ hlab hy) (gather_at _ _ _ _ _ _ hlab hsum)) (map_at (fun x => max 0 x) (ptat k hk)))
        (map_at (fun x => max 0 (-x)) (gather_at _ _ _ _ _ _ hlab hg1))
    have hpm2 : (zipOp min
        (zipOp (· - ·) (zipOp (· + ·) ctof (scatterAdd (List.replicate ns.length 0) fidx (ptof.map (fun x => max 0 x)))) (gatherI env (ptof.map (fun x => max 0 x)) (labelArgmaxes env ptof fidx ns.length)))
        ((gatherI env ptof (labelArgmaxes env data2 fidx ns.length)).map (fun x => max 0 (-x))))[f]?
        = some (min (y + ((block ns ptof f).map (fun x => max 0 x)).sum - max 0 ((block ns ptof f).getD (argL (block ns ptof f)) 0))
            (max 0 (-((block ns ptof f).getD (argL ((block ns ptof f).set (argL (block ns ptof f)) NEG_INF)) 0)))) := by
      refine zip_at _ (zip_at _ (zip_at _ hy hsum) ?_) (map_at (fun x => max 0 (-x)) hg2)
      refine gather_at _ _ _ _ (blk ns f (argL (block ns ptof f))) _ (by rw [List.length_map]; exact a1) (map_at (fun x => max 0 x) (ptat _ (hJlt f hf)))
    have hpml : (zipOp min
        (zipOp (· - ·) (zipOp (· + ·) (gather env.oob ctof fidx) (gather env.oob (scatterAdd (List.replicate ns.length 0) fidx (ptof.map (fun x => max 0 x))) fidx)) (ptof.map (fun x => max 0 x)))
        ((gather env.oob (gatherI env ptof (labelArgmaxes env ptof fidx ns.length)) fidx).map (fun x => max 0 (-x)))).length = ns.sum := by
      simp [zipOp, L.len, hd]
    have hpm2l : (zipOp min
        (zipOp (· - ·) (zipOp (· + ·) ctof (scatterAdd (List.replicate ns.length 0) fidx (ptof.map (fun x => max 0 x)))) (gatherI env (ptof.map (fun x => max 0 x)) (labelArgmaxes env ptof fidx ns.length)))
        ((gatherI env ptof (labelArgmaxes env data2 fidx ns.length)).map (fun x => max 0 (-x)))).length = ns.length := by
      simp [zipOp, hcl, gatherI, labelArgmaxes]
    unfold logicalMax maxP
    simp only
    rw [hdd, scatterSetI, hpml, hJ1, scatterSet_blkJ hJlt _ _ hpml hpm2l f k hf hk, hpm2, hpm]
    split <;> rfl

end

end PGMax
