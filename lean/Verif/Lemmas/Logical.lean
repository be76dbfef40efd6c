import Verif.Lemmas.Factors
import Verif.Lemmas.Slice
import Mathlib.Tactic.Linarith
import Mathlib.Tactic.Ring

/-! Helper lemmas: the array operations of the OR / AND messages, factor by factor.

`ns` lists the number of parents of each factor; parent `j` of factor `f` is at position `(ns.take f).sum + j`. -/

namespace PGMax

variable {α : Type _}

/-- `fidx` labels the parents with their factors. -/
structure Labels (fidx ns : List Nat) : Prop where
  len : fidx.length = ns.sum
  lab : ∀ f j, j < ns.getD f 0 → fidx[(ns.take f).sum + j]? = some f

/-- Parent `j` of factor `f`. -/
def blk (ns : List Nat) (f j : Nat) : Nat := (ns.take f).sum + j

namespace Labels
variable {fidx ns : List Nat} (L : Labels fidx ns)
include L

theorem nonzeroEq {f : Nat} (hf : f < ns.length) :
    PGMax.nonzeroEq fidx f = (List.range (ns.getD f 0)).map (blk ns f) := by
  apply eq_of_sorted_mem
  · exact filter_range_sorted _ _
  · rw [List.pairwise_map]
    exact List.pairwise_lt_range.imp (fun h => by unfold blk; omega)
  · intro p
    rw [mem_nonzeroEq, List.mem_map]
    constructor
    · intro h
      have hp : p < ns.sum := by rw [← L.len]; exact (List.getElem?_eq_some_iff.1 h).1
      obtain ⟨k, s, hk, hs, rfl⟩ := exists_block ns p hp
      rw [L.lab k s hs] at h
      cases h
      exact ⟨s, List.mem_range.2 hs, rfl⟩
    · rintro ⟨j, hj, rfl⟩
      exact L.lab f j (List.mem_range.1 hj)

theorem hits {β : Type _} {f : Nat} (hf : f < ns.length) (vals : List β) (d : β) (hv : vals.length = ns.sum) :
    PGMax.hits fidx vals f = (List.range (ns.getD f 0)).map (fun j => vals.getD (blk ns f j) d) := by
  rw [hits_nonzeroEq fidx vals d (hv.trans L.len.symm), L.nonzeroEq hf, List.map_map]
  rfl

end Labels

theorem blk_lt {ns : List Nat} {f j : Nat} (hf : f < ns.length) (hj : j < ns.getD f 0) : blk ns f j < ns.sum := block_lt ns f j hf hj

section
variable [Field α] [LinearOrder α]

/-- What `labelArgmaxes` returns for a factor whose parents reach `-1e5`, or if there are at most 1e5 parents. -/
theorem labelArgmaxes_spec {fidx ns : List Nat} (L : Labels fidx ns) (env : Env α) (data : List α) (hd : data.length = ns.sum)
    (f : Nat) (hf : f < ns.length) (hpos : 0 < ns.getD f 0)
    (hc : ns.sum ≤ 100000 ∨ ∃ j < ns.getD f 0, NEG_INF ≤ data.getD (blk ns f j) 0) :
    ∃ a j, (labelArgmaxes env data fidx ns.length)[f]? = some a ∧ j < ns.getD f 0 ∧ wrapIdx ns.sum a = blk ns f j ∧
      ((∃ j < ns.getD f 0, NEG_INF ≤ data.getD (blk ns f j) 0) →
        NEG_INF ≤ data.getD (blk ns f j) 0 ∧ ∀ j' < ns.getD f 0, data.getD (blk ns f j') 0 ≤ data.getD (blk ns f j) 0) := by
  have hM : (labelMaxes data fidx ns.length)[f]? = some (((List.range (ns.getD f 0)).map (fun j => data.getD (blk ns f j) 0)).foldl max NEG_INF) := by
    rw [labelMaxes, scatterMax, scatterWith_getElem?, List.getElem?_replicate, if_pos hf, L.hits hf data 0 hd]
    rfl
  obtain ⟨m1, m2, m3⟩ := foldl_max_eq ((List.range (ns.getD f 0)).map (fun j => data.getD (blk ns f j) 0)) (NEG_INF : α)
  generalize ((List.range (ns.getD f 0)).map (fun j => data.getD (blk ns f j) 0)).foldl max NEG_INF = M at hM m1 m2 m3
  unfold labelArgmaxes
  simp only
  generalize hpv : (List.range data.length).map (fun (i : Nat) => (i : Int) - (data.length : Int) *
      (if data.getD i 0 ≠ (gather env.oob (labelMaxes data fidx ns.length) fidx).getD i 0 then 1 else 0)) = pos
  have hpl : pos.length = ns.sum := by rw [← hpv]; simpa using hd
  have hpg : ∀ j < ns.getD f 0, pos.getD (blk ns f j) 0 =
      (blk ns f j : Int) - (ns.sum : Int) * (if data.getD (blk ns f j) 0 ≠ M then 1 else 0) := by
    intro j hj
    apply getD_of_some
    have hlt := blk_lt hf hj
    rw [← hpv, List.getElem?_map, List.getElem?_range (by omega), Option.map_some, hd]
    have hat : (gather env.oob (labelMaxes data fidx ns.length) fidx).getD (blk ns f j) 0 = M := by
      apply getD_of_some
      have := L.lab f j hj
      rw [gather_getElem?, show fidx[blk ns f j]? = some f from this, Option.map_some, getD_of_some hM]
    rw [hat]
  rw [scatterMax, scatterWith_getElem?, List.getElem?_replicate, if_pos hf, L.hits hf pos 0 hpl, Option.map_some]
  obtain ⟨a1, a2, a3⟩ := foldl_max_eq ((List.range (ns.getD f 0)).map (fun j => pos.getD (blk ns f j) 0)) (-100000 : Int)
  generalize hA : ((List.range (ns.getD f 0)).map (fun j => pos.getD (blk ns f j) 0)).foldl max (-100000 : Int) = A at a1 a2 a3
  have amem : A ∈ (List.range (ns.getD f 0)).map (fun j => pos.getD (blk ns f j) 0) := by
    rcases a3 with a3 | a3
    · rcases hc with hc | ⟨j0, hj0, hge⟩
      · have h0 := a2 _ (List.mem_map.2 ⟨0, List.mem_range.2 hpos, rfl⟩)
        have h1 := hpg 0 hpos
        have hlt := blk_lt hf hpos
        refine List.mem_map.2 ⟨0, List.mem_range.2 hpos, ?_⟩
        apply le_antisymm h0
        rw [h1, a3]
        split <;> omega
      · exfalso
        have hMm : M ∈ (List.range (ns.getD f 0)).map (fun j => data.getD (blk ns f j) 0) := by
          rcases m3 with m3 | m3
          · refine List.mem_map.2 ⟨j0, List.mem_range.2 hj0, le_antisymm (m2 _ (List.mem_map.2 ⟨j0, List.mem_range.2 hj0, rfl⟩)) (by rw [m3]; exact hge)⟩
          · exact m3
        obtain ⟨j, hj, hjM⟩ := List.mem_map.1 hMm
        have h0 := a2 _ (List.mem_map.2 ⟨j, hj, rfl⟩)
        have h1 := hpg j (List.mem_range.1 hj)
        rw [if_neg (by simpa using hjM)] at h1
        omega
    · exact a3
  obtain ⟨j, hj, hjA⟩ := List.mem_map.1 amem
  have hj' := List.mem_range.1 hj
  have hlt := blk_lt hf hj'
  have hjp := hpg j hj'
  refine ⟨A, j, rfl, hj', ?_, ?_⟩
  · rw [← hjA, hjp]
    unfold wrapIdx
    by_cases he : data.getD (blk ns f j) 0 ≠ M
    · rw [if_pos he, if_neg (by omega), if_pos (by omega)]; omega
    · rw [if_neg he, if_pos (by omega)]; omega
  · rintro ⟨j0, hj0, hge⟩
    have hMm : M ∈ (List.range (ns.getD f 0)).map (fun j => data.getD (blk ns f j) 0) := by
      rcases m3 with m3 | m3
      · refine List.mem_map.2 ⟨j0, List.mem_range.2 hj0, le_antisymm (m2 _ (List.mem_map.2 ⟨j0, List.mem_range.2 hj0, rfl⟩)) (by rw [m3]; exact hge)⟩
      · exact m3
    obtain ⟨jm, hjm, hjM⟩ := List.mem_map.1 hMm
    have h0 := a2 _ (List.mem_map.2 ⟨jm, hjm, rfl⟩)
    have h1 := hpg jm (List.mem_range.1 hjm)
    rw [if_neg (by simpa using hjM)] at h1
    have he : data.getD (blk ns f j) 0 = M := by
      by_contra he
      rw [if_pos he] at hjp
      omega
    rw [he]
    exact ⟨m1, fun j' hj' => m2 _ (List.mem_map.2 ⟨j', List.mem_range.2 hj', rfl⟩)⟩


/-- The positions of the argmaxes of all factors. -/
theorem argmaxes_idx {fidx ns : List Nat} (L : Labels fidx ns) (env : Env α) (data : List α) (hd : data.length = ns.sum)
    (hpos : ∀ f < ns.length, 0 < ns.getD f 0)
    (hc : ∀ f < ns.length, ns.sum ≤ 100000 ∨ ∃ j < ns.getD f 0, NEG_INF ≤ data.getD (blk ns f j) 0) :
    ∃ J : Nat → Nat, ((labelArgmaxes env data fidx ns.length).map (wrapIdx ns.sum)) = (List.range ns.length).map (fun f => blk ns f (J f)) ∧
      ∀ f < ns.length, J f < ns.getD f 0 ∧ ((∃ j < ns.getD f 0, NEG_INF ≤ data.getD (blk ns f j) 0) →
        NEG_INF ≤ data.getD (blk ns f (J f)) 0 ∧ ∀ j' < ns.getD f 0, data.getD (blk ns f j') 0 ≤ data.getD (blk ns f (J f)) 0) := by
  have key : ∀ f, ∃ j, f < ns.length → (((labelArgmaxes env data fidx ns.length).map (wrapIdx ns.sum))[f]? = some (blk ns f j) ∧
      j < ns.getD f 0 ∧ ((∃ j < ns.getD f 0, NEG_INF ≤ data.getD (blk ns f j) 0) →
        NEG_INF ≤ data.getD (blk ns f j) 0 ∧ ∀ j' < ns.getD f 0, data.getD (blk ns f j') 0 ≤ data.getD (blk ns f j) 0)) := by
    intro f
    by_cases hf : f < ns.length
    · obtain ⟨a, j, h1, h2, h3, h4⟩ := labelArgmaxes_spec L env data hd f hf (hpos f hf) (hc f hf)
      refine ⟨j, fun _ => ⟨by rw [List.getElem?_map, h1, Option.map_some, h3], h2, h4⟩⟩
    · exact ⟨0, fun h => absurd h hf⟩
  choose J hJ using key
  refine ⟨J, ?_, fun f hf => (hJ f hf).2⟩
  apply List.ext_getElem?
  intro f
  by_cases hf : f < ns.length
  · rw [(hJ f hf).1, List.getElem?_map, List.getElem?_range hf]; rfl
  · rw [List.getElem?_eq_none (by simp [labelArgmaxes]; omega), List.getElem?_eq_none (by simp; omega)]

theorem blkJ_nodup {ns : List Nat} {J : Nat → Nat} (hJ : ∀ f < ns.length, J f < ns.getD f 0) :
    ((List.range ns.length).map (fun f => blk ns f (J f))).Nodup := by
  rw [List.nodup_map_iff_inj_on List.nodup_range]
  intro f hf g hg h
  rw [List.mem_range] at hf hg
  exact (block_inj ns f g _ _ hf hg (hJ f hf) (hJ g hg) h).1

/-- Writing one value per factor at the positions `J`. -/
theorem scatterSet_blkJ {ns : List Nat} {J : Nat → Nat} (hJ : ∀ f < ns.length, J f < ns.getD f 0) (xs vals : List α)
    (hx : xs.length = ns.sum) (hv : vals.length = ns.length) (f j : Nat) (hf : f < ns.length) (hj : j < ns.getD f 0) :
    (scatterSet xs ((List.range ns.length).map (fun f => blk ns f (J f))) vals)[blk ns f j]? =
      if j = J f then vals[f]? else xs[blk ns f j]? := by
  split
  · rename_i h
    subst h
    rw [List.getElem?_eq_getElem (by omega : f < vals.length)]
    apply scatterSet_getElem?_hit _ _ _ (blkJ_nodup hJ) f
    · rw [List.getElem?_map, List.getElem?_range hf]; rfl
    · exact List.getElem?_eq_getElem _
    · rw [hx]; exact blk_lt hf hj
  · rename_i h
    apply scatterSet_getElem?_miss
    intro hm
    obtain ⟨g, hg, e⟩ := List.mem_map.1 hm
    rw [List.mem_range] at hg
    obtain ⟨rfl, h2⟩ := block_inj ns g f _ _ hg hf (hJ g hg) hj e
    exact h h2.symm

theorem gather_at {β : Type _} (oob : β) (xs : List β) (idx : List Nat) (p i : Nat) (x : β) (h : idx[p]? = some i) (hx : xs[i]? = some x) :
    (gather oob xs idx)[p]? = some x := by
  rw [gather_getElem?, h, Option.map_some, getD_of_some hx]

theorem zip_at {β γ δ : Type _} (f : β → γ → δ) {xs : List β} {ys : List γ} {p : Nat} {x : β} {y : γ} (hx : xs[p]? = some x)
    (hy : ys[p]? = some y) : (List.zipWith f xs ys)[p]? = some (f x y) := by
  rw [List.getElem?_zipWith, hx, hy]

theorem map_at {β γ : Type _} (f : β → γ) {xs : List β} {p : Nat} {x : β} (hx : xs[p]? = some x) : (xs.map f)[p]? = some (f x) := by
  rw [List.getElem?_map, hx]; rfl

variable [IsStrictOrderedRing α]

theorem scatterAdd_labels {fidx ns : List Nat} (L : Labels fidx ns) (vals : List α) (hv : vals.length = ns.sum) (f : Nat) (hf : f < ns.length) :
    (scatterAdd (List.replicate ns.length 0) fidx vals)[f]? = some (((List.range (ns.getD f 0)).map (fun j => vals.getD (blk ns f j) 0)).sum) := by
  rw [scatterAdd_getElem?, List.getElem?_replicate, if_pos hf, L.hits hf vals 0 hv, Option.map_some, zero_add]

/-- The max-product messages of a factor in closed form: `x j` is the difference of parent `j`, `y` of the child. -/
theorem logicalMax_spec {fidx ns : List Nat} (L : Labels fidx ns) (env : Env α) (ptof ctof : List α) (hd : ptof.length = ns.sum)
    (hcl : ctof.length = ns.length) (hpos : ∀ f < ns.length, 0 < ns.getD f 0)
    (hc : ∀ f < ns.length, ns.sum ≤ 100000 ∨ ∃ j < ns.getD f 0, NEG_INF ≤ ptof.getD (blk ns f j) 0)
    (f : Nat) (hf : f < ns.length) (x : Nat → α) (hx : ∀ j < ns.getD f 0, ptof.getD (blk ns f j) 0 = x j) (y : α)
    (hy : ctof[f]? = some y) :
    ((ns.getD f 0 = 1 ∨ ∃ j < ns.getD f 0, NEG_INF ≤ x j) → ∃ m < ns.getD f 0, (∀ j < ns.getD f 0, x j ≤ x m) ∧
      (logicalMax env ptof ctof fidx ns.length).2[f]? = some (((List.range (ns.getD f 0)).map (fun j => max 0 (x j))).sum + min 0 (x m))) ∧
    ((∃ j < ns.getD f 0, ∃ k < ns.getD f 0, j ≠ k ∧ NEG_INF < x j ∧ NEG_INF < x k) → ∀ k < ns.getD f 0, ∃ m < ns.getD f 0, m ≠ k ∧
      (∀ j < ns.getD f 0, j ≠ k → x j ≤ x m) ∧
      (logicalMax env ptof ctof fidx ns.length).1[blk ns f k]? =
        some (min (y + ((List.range (ns.getD f 0)).map (fun j => max 0 (x j))).sum - max 0 (x k)) (max 0 (-(x m))))) := by
  obtain ⟨J, hJ1, hJ2⟩ := argmaxes_idx L env ptof hd hpos hc
  have hJlt : ∀ f < ns.length, J f < ns.getD f 0 := fun f hf => (hJ2 f hf).1
  have ptat : ∀ j < ns.getD f 0, ptof[blk ns f j]? = some (x j) := by
    intro j hj
    have hlt := blk_lt hf hj
    rw [← hx j hj, List.getElem?_eq_getElem (by omega), getD_of_some (List.getElem?_eq_getElem (by omega))]
  have a1 : ((labelArgmaxes env ptof fidx ns.length).map (wrapIdx ptof.length))[f]? = some (blk ns f (J f)) := by
    rw [hd, hJ1, List.getElem?_map, List.getElem?_range hf]; rfl
  have hposl : (ptof.map (fun x => max 0 x)).length = ns.sum := by simpa using hd
  have hsum : (scatterAdd (List.replicate ns.length 0) fidx (ptof.map (fun x => max 0 x)))[f]? =
      some (((List.range (ns.getD f 0)).map (fun j => max 0 (x j))).sum) := by
    rw [scatterAdd_labels L _ hposl f hf]
    congr 2
    apply List.map_congr_left
    intro j hj
    exact getD_of_some (map_at (fun x => max 0 x) (ptat j (List.mem_range.1 hj)))
  have hg1 : (gatherI env ptof (labelArgmaxes env ptof fidx ns.length))[f]? = some (x (J f)) :=
    gather_at _ _ _ _ _ _ a1 (ptat _ (hJlt f hf))
  have hcond : (∃ j < ns.getD f 0, NEG_INF ≤ x j) → NEG_INF ≤ x (J f) ∧ ∀ j < ns.getD f 0, x j ≤ x (J f) := by
    rintro ⟨j, hj, hge⟩
    have := (hJ2 f hf).2 ⟨j, hj, by rw [hx j hj]; exact hge⟩
    rw [hx _ (hJlt f hf)] at this
    exact ⟨this.1, fun j hj => by have := this.2 j hj; rwa [hx j hj] at this⟩
  constructor
  · intro hex
    refine ⟨J f, hJlt f hf, ?_, ?_⟩
    · rcases hex with hex | hex
      · intro j hj
        have := hJlt f hf
        rw [show j = J f by omega]
      · exact (hcond hex).2
    exact zip_at _ hsum (map_at (fun x => min 0 x) hg1)
  · rintro ⟨j1, hj1, j2, hj2, hne, hg11, hg22⟩ k hk
    obtain ⟨hJge, hJmax⟩ := hcond ⟨j1, hj1, hg11.le⟩
    -- the second maxima
    have harglen : (labelArgmaxes env ptof fidx ns.length).length = ns.length := by simp [labelArgmaxes]
    have hd2 : (scatterSetI ptof (labelArgmaxes env ptof fidx ns.length) (List.replicate (labelArgmaxes env ptof fidx ns.length).length NEG_INF)).length = ns.sum := by
      simp [scatterSetI, hd]
    have hd2g : ∀ j < ns.getD f 0, (scatterSetI ptof (labelArgmaxes env ptof fidx ns.length) (List.replicate (labelArgmaxes env ptof fidx ns.length).length NEG_INF)).getD (blk ns f j) 0
        = if j = J f then NEG_INF else x j := by
      intro j hj
      apply getD_of_some
      rw [scatterSetI, hd, hJ1, scatterSet_blkJ hJlt ptof _ hd (by simp [harglen]) f j hf hj, harglen, List.getElem?_replicate, if_pos hf, ptat j hj]
      split <;> rfl
    have hex2 : ∃ j < ns.getD f 0, j ≠ J f ∧ NEG_INF < x j := by
      by_cases h : j1 = J f
      · exact ⟨j2, hj2, fun h' => hne (h.trans h'.symm), hg22⟩
      · exact ⟨j1, hj1, h, hg11⟩
    obtain ⟨j3, hj3, hne3, hg3⟩ := hex2
    generalize hdd : scatterSetI ptof (labelArgmaxes env ptof fidx ns.length) (List.replicate (labelArgmaxes env ptof fidx ns.length).length NEG_INF) = data2 at hd2 hd2g
    have hex3 : ∃ j < ns.getD f 0, NEG_INF ≤ data2.getD (blk ns f j) 0 := ⟨j3, hj3, by rw [hd2g j3 hj3, if_neg hne3]; exact hg3.le⟩
    obtain ⟨a, J2, h1, h2, h3, h4⟩ := labelArgmaxes_spec L env data2 hd2 f hf (hpos f hf) (.inr hex3)
    obtain ⟨-, h4⟩ := h4 hex3
    have hJ2ne : J2 ≠ J f := by
      intro he
      have := h4 j3 hj3
      rw [hd2g j3 hj3, hd2g J2 h2, if_neg hne3, if_pos he] at this
      exact absurd this (not_le.2 hg3)
    have hJ2max : ∀ j < ns.getD f 0, j ≠ J f → x j ≤ x J2 := by
      intro j hj hne
      have := h4 j hj
      rwa [hd2g j hj, hd2g J2 h2, if_neg hne, if_neg hJ2ne] at this
    have a2 : ((labelArgmaxes env data2 fidx ns.length).map (wrapIdx ptof.length))[f]? = some (blk ns f J2) := by
      rw [List.getElem?_map, h1, hd, Option.map_some, h3]
    have hg2 : (gatherI env ptof (labelArgmaxes env data2 fidx ns.length))[f]? = some (x J2) :=
      gather_at _ _ _ _ _ _ a2 (ptat _ h2)
    have hlab : fidx[blk ns f k]? = some f := L.lab f k hk
    have hposat : (ptof.map (fun x => max 0 x))[blk ns f k]? = some (max 0 (x k)) := map_at (fun x => max 0 x) (ptat k hk)
    have hpm : (zipOp min
        (zipOp (· - ·) (zipOp (· + ·) (gather env.oob ctof fidx) (gather env.oob (scatterAdd (List.replicate ns.length 0) fidx (ptof.map (fun x => max 0 x))) fidx)) (ptof.map (fun x => max 0 x)))
        ((gather env.oob (gatherI env ptof (labelArgmaxes env ptof fidx ns.length)) fidx).map (fun x => max 0 (-x))))[blk ns f k]?
        = some (min (y + ((List.range (ns.getD f 0)).map (fun j => max 0 (x j))).sum - max 0 (x k)) (max 0 (-(x (J f))))) := by
      refine zip_at _ (zip_at _ (zip_at _ (gather_at _ _ _ _ _ _ hlab hy) (gather_at _ _ _ _ _ _ hlab hsum)) hposat)
        (map_at (fun x => max 0 (-x)) (gather_at _ _ _ _ _ _ hlab hg1))
    have hpm2 : (zipOp min
        (zipOp (· - ·) (zipOp (· + ·) ctof (scatterAdd (List.replicate ns.length 0) fidx (ptof.map (fun x => max 0 x)))) (gatherI env (ptof.map (fun x => max 0 x)) (labelArgmaxes env ptof fidx ns.length)))
        ((gatherI env ptof (labelArgmaxes env data2 fidx ns.length)).map (fun x => max 0 (-x))))[f]?
        = some (min (y + ((List.range (ns.getD f 0)).map (fun j => max 0 (x j))).sum - max 0 (x (J f))) (max 0 (-(x J2)))) := by
      refine zip_at _ (zip_at _ (zip_at _ hy hsum) ?_) (map_at (fun x => max 0 (-x)) hg2)
      refine gather_at _ _ _ _ (blk ns f (J f)) _ (by rw [List.length_map]; exact a1) (map_at (fun x => max 0 x) (ptat _ (hJlt f hf)))
    have hpml : (zipOp min
        (zipOp (· - ·) (zipOp (· + ·) (gather env.oob ctof fidx) (gather env.oob (scatterAdd (List.replicate ns.length 0) fidx (ptof.map (fun x => max 0 x))) fidx)) (ptof.map (fun x => max 0 x)))
        ((gather env.oob (gatherI env ptof (labelArgmaxes env ptof fidx ns.length)) fidx).map (fun x => max 0 (-x)))).length = ns.sum := by
      simp [zipOp, L.len, hd]
    have hpm2l : (zipOp min
        (zipOp (· - ·) (zipOp (· + ·) ctof (scatterAdd (List.replicate ns.length 0) fidx (ptof.map (fun x => max 0 x)))) (gatherI env (ptof.map (fun x => max 0 x)) (labelArgmaxes env ptof fidx ns.length)))
        ((gatherI env ptof (labelArgmaxes env data2 fidx ns.length)).map (fun x => max 0 (-x)))).length = ns.length := by
      simp [zipOp, hcl, gatherI, labelArgmaxes]
    have hfin : (logicalMax env ptof ctof fidx ns.length).1[blk ns f k]? =
        if k = J f then some (min (y + ((List.range (ns.getD f 0)).map (fun j => max 0 (x j))).sum - max 0 (x (J f))) (max 0 (-(x J2))))
        else some (min (y + ((List.range (ns.getD f 0)).map (fun j => max 0 (x j))).sum - max 0 (x k)) (max 0 (-(x (J f))))) := by
      unfold logicalMax
      simp only
      rw [hdd, scatterSetI, hpml, hJ1, scatterSet_blkJ hJlt _ _ hpml hpm2l f k hf hk, hpm2, hpm]
    rw [hfin]
    by_cases hkJ : k = J f
    · rw [if_pos hkJ, ← hkJ]
      exact ⟨J2, h2, fun h => hJ2ne (h.trans hkJ), fun j hj hjk => hJ2max j hj (fun h => hjk (h.trans hkJ.symm)), rfl⟩
    · rw [if_neg hkJ]
      exact ⟨J f, hJlt f hf, fun h => hkJ h.symm, fun j hj _ => hJmax j hj, rfl⟩

end

end PGMax
