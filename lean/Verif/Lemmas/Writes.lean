import Verif.Props.C21_C22
import Verif.Props.C23_C25
import Verif.Props.C26
import Verif.Lemmas.Cells
import Verif.Spec.Programs

/-! Helper lemmas: replacing the log potentials of all groups. -/

namespace PGMax

variable {κ α : Type _} {vgs : List (VGroup κ)} {hist : List (AddArg α)} {garbage : Garbage} {st : FGState κ α}

theorem mem_allGroups {fg : FactorGraph κ α} {g : FGroup α} : g ∈ fg.allGroups ↔ ∃ t, g ∈ fg.groups t := by
  unfold FactorGraph.allGroups
  rw [List.mem_flatMap]
  exact ⟨fun ⟨t, _, h⟩ => ⟨t, h⟩, fun ⟨t, h⟩ => ⟨t, by cases t <;> simp [FType.all], h⟩⟩

theorem update_some (h : Compiled vgs hist garbage st) (x : FGroup α → List α)
    (hl : ∀ g ∈ (graphOf vgs hist).allGroups, (x g).length = g.logPotentials.length) (ups : List (FGroup α × NDArr α))
    (hm : ∀ p ∈ ups, p.1 ∈ (graphOf vgs hist).allGroups) (hn : (ups.map (·.1)).Nodup) (hx : ∀ p ∈ ups, p.1.flatten p.2 = .ok (x p.1))
    (lp : List α) (hlp : lp.length = st.logPotentials.length) :
    ∃ lp', updateLogPotentials st lp ups = .ok lp' ∧ lp'.length = st.logPotentials.length ∧
      (∀ p ∈ ups, LogPotentials.getitem st lp' p.1 = .ok (x p.1)) ∧
      ∀ g ∈ (graphOf vgs hist).allGroups, g ∉ ups.map (·.1) → LogPotentials.getitem st lp' g = LogPotentials.getitem st lp g := by
  induction ups generalizing lp with
  | nil => exact ⟨lp, rfl, hlp, by simp, fun _ _ _ => rfl⟩
  | cons p ups ih =>
    rw [List.map_cons, List.nodup_cons] at hn
    obtain ⟨t, ht⟩ := mem_allGroups.1 (hm p (by simp))
    obtain ⟨lp1, e1, l1, g1, o1, -⟩ := (C21_update h p.1 t ht p.2 lp hlp).1 _ (hx p (by simp)) (hl _ (hm p (by simp)))
    obtain ⟨lp2, e2, l2, g2, o2⟩ := ih (fun q hq => hm q (by simp [hq])) hn.2 (fun q hq => hx q (by simp [hq])) lp1 (by rw [l1, hlp])
    refine ⟨lp2, ?_, l2, ?_, ?_⟩
    · unfold updateLogPotentials at e2 ⊢
      rw [List.foldlM_cons, e1]
      exact e2
    · intro q hq
      rw [List.mem_cons] at hq
      rcases hq with rfl | hq
      · rw [o2 _ (hm q (by simp)) hn.1, g1]
      · exact g2 q hq
    · intro g hg hng
      rw [List.map_cons, List.mem_cons, not_or] at hng
      obtain ⟨u, hu⟩ := mem_allGroups.1 hg
      rw [o2 g hg hng.2, o1 u g hu hng.1]

/-- Writing the log potentials of all groups, in any order, gives the concatenation of what was written. -/
theorem update_all (h : Compiled vgs hist garbage st) (x : FGroup α → List α)
    (hl : ∀ g ∈ (graphOf vgs hist).allGroups, (x g).length = g.logPotentials.length) (ups : List (FGroup α × NDArr α))
    (hp : (ups.map (·.1)).Perm (graphOf vgs hist).allGroups) (hx : ∀ p ∈ ups, p.1.flatten p.2 = .ok (x p.1))
    (lp : List α) (hlp : lp.length = st.logPotentials.length) :
    updateLogPotentials st lp ups = .ok ((graphOf vgs hist).allGroups.flatMap x) := by
  obtain ⟨lp', e, l, g, -⟩ := update_some h x hl ups (fun p hp' => hp.mem_iff.1 (List.mem_map_of_mem hp'))
    (hp.nodup_iff.2 (List.Nodup.of_map _ h.idsNodup)) hx lp hlp
  have hg : ∀ k ∈ (graphOf vgs hist).allGroups, LogPotentials.getitem st lp' k = .ok (x k) := by
    intro k hk
    obtain ⟨p, hp', rfl⟩ := List.mem_map.1 (hp.mem_iff.2 hk)
    exact g p hp'
  rw [e]
  congr 1
  have key : ∀ k ≤ (graphOf vgs hist).allGroups.length,
      lp'.take (potsOf ((graphOf vgs hist).allGroups.take k)) = ((graphOf vgs hist).allGroups.take k).flatMap x := by
    intro k
    induction k with
    | zero => intro _; simp [potsOf]
    | succ k ih =>
      intro hk
      obtain ⟨a, ha⟩ : ∃ a, (graphOf vgs hist).allGroups[k]? = some a := ⟨_, List.getElem?_eq_getElem (by omega)⟩
      have hmem := List.mem_of_getElem? ha
      obtain ⟨h1, h2⟩ := h.potsStart k a ha
      have h3 := hg a hmem
      unfold LogPotentials.getitem at h3
      rw [h1] at h3
      simp only [Except.ok.injEq, slice] at h3
      rw [List.take_add_one, ha, Option.toList_some, List.flatMap_append, ← ih (by omega), List.flatMap_cons, List.flatMap_nil, List.append_nil,
        ← h3, List.drop_take, Nat.add_sub_cancel_left, ← List.take_add]
      simp [potsOf_append, potsOf]
  have := key _ le_rfl
  rw [List.take_length, ← h.totalPots, ← l, List.take_length] at this
  exact this

/-- Giving evidence for all variables of an array. -/
theorem uniArr_evidence [DecidableEq κ] [Zero α] (h : Compiled vgs hist garbage st) (ev : List α) (hev : ev.length = st.numVarStates) (idV : Nat)
    (shape : List Nat) (k : Nat) (hg : .arr (uniArr idV shape k) ∈ vgs) (hp : 0 < shape.prod) (E : List α) (hE : E.length = shape.prod * k) :
    ∃ ev', updateEvidence1 st ev (.group (.arr (uniArr idV shape k)) (.arr ⟨shape ++ [k], E⟩)) = .ok ev' ∧ ev'.length = ev.length ∧
      (∀ cs, List.Forall₂ (fun c d => c < d) cs shape → ∀ s < k,
        readEv st.varsToStarts ev' (uniCell idV shape k cs) s = E.getD (rowMajor shape cs * k + s) 0) ∧
      ∀ w t, st.varsToStarts w = some t → w ∉ (uniArr idV shape k).variables → ∀ s < w.n, readEv st.varsToStarts ev' w s = readEv st.varsToStarts ev w s := by
  have hm : npMax (uniArr idV shape k).numStates = .ok k := by
    obtain ⟨m, hm⟩ := Nat.exists_eq_succ_of_ne_zero (Nat.pos_iff_ne_zero.1 hp)
    simp only [uniArr, hm, List.replicate_succ, npMax, Except.ok.injEq]
    clear hm
    induction m with
    | zero => rfl
    | succ m ih => rw [List.replicate_succ, List.foldl_cons, Nat.max_self, ih]
  obtain ⟨flat, e1, e2, e3⟩ := NDVarArray.flatten_states (uniArr idV shape k) (by simp [uniArr]) k hm ⟨shape ++ [k], E⟩
    (by simp [NDArr.WF, hE]) rfl
  have hne : (VGroup.arr (uniArr idV shape k) : VGroup κ).variables ≠ [] := by
    show (uniArr idV shape k).variables ≠ []
    intro hc
    have hl : (uniArr idV shape k).variables.length = shape.prod := by simp [NDVarArray.variables, NDVarArray.variableHashes, uniArr]
    rw [hc, List.length_nil] at hl
    omega
  obtain ⟨ev', u1, u2, u3, u4⟩ := C22_group h ev hev (.arr (uniArr idV shape k)) hg hne (.arr ⟨shape ++ [k], E⟩) flat e1 e2
  refine ⟨ev', u1, u2, ?_, ?_⟩
  · intro cs hcs s hs
    have hlt : rowMajor shape cs < shape.prod := rowMajor_lt shape cs hcs
    have hv : (VGroup.arr (uniArr idV shape k) : VGroup κ).variables[rowMajor shape cs]? = some (uniCell idV shape k cs) := by
      show (uniArr idV shape k).variables[rowMajor shape cs]? = _
      simp only [NDVarArray.variables, NDVarArray.variableHashes, uniArr, List.getElem?_zipWith, List.getElem?_map, List.getElem?_range hlt,
        List.getElem?_replicate, if_pos hlt, Option.map_some]
      rfl
    obtain ⟨y, y1, y2, y3⟩ := u3 _ _ hv
    have hs' : s < (uniCell idV shape k cs).n := hs
    have r1 := C26_evidence h ev' (by rw [u2, hev]) _ y y1 s hs'
    have r2 := e3 (rowMajor shape cs) s (by simpa [uniArr] using hlt) (by simpa [uniArr, List.getD, List.getElem?_replicate, hlt] using hs)
    rw [y3 s hs', show (VGroup.arr (uniArr idV shape k) : VGroup κ).numStates = (uniArr idV shape k).numStates from rfl, r2] at r1
    rw [List.getD, r1, Option.getD_some]
  · intro w t hv hw s hs
    have := u4 w hw
    unfold Evidence.getitem StartMap.get at this
    rw [hv] at this
    simp only [bind, Except.bind, pure, Except.pure, Except.ok.injEq] at this
    have := congrArg (fun l => l[s]?) this
    simp only [slice_getElem?, if_pos (show t + s < t + w.n by omega)] at this
    unfold readEv
    simp only [hv, Option.getD_some, List.getD, this]

/-- Giving evidence for an array in an array of the same shape, without an axis for the states: its values go to the first states of the array. -/
theorem uniArr_evidence_short [DecidableEq κ] [Zero α] (h : Compiled vgs hist garbage st) (ev : List α) (hev : ev.length = st.numVarStates)
    (idV : Nat) (shape : List Nat) (k : Nat) (hk : 1 ≤ k) (hg : .arr (uniArr idV shape k) ∈ vgs) (hp : 0 < shape.prod) (E : List α)
    (hE : E.length = shape.prod) :
    ∃ ev', updateEvidence1 st ev (.group (.arr (uniArr idV shape k)) (.arr ⟨shape, E⟩)) = .ok ev' ∧ ev'.length = ev.length ∧
      (∀ cs, List.Forall₂ (fun c d => c < d) cs shape → ∀ s < k,
        readEv st.varsToStarts ev' (uniCell idV shape k cs) s =
          if rowMajor shape cs * k + s < shape.prod then E.getD (rowMajor shape cs * k + s) 0
          else readEv st.varsToStarts ev (uniCell idV shape k cs) s) ∧
      ∀ w t, st.varsToStarts w = some t → w ∉ (uniArr idV shape k).variables → ∀ s < w.n, readEv st.varsToStarts ev' w s = readEv st.varsToStarts ev w s := by
  have hne : (VGroup.arr (uniArr idV shape k) : VGroup κ).variables ≠ [] := by
    show (uniArr idV shape k).variables ≠ []
    intro hc
    have hl : (uniArr idV shape k).variables.length = shape.prod := by simp [NDVarArray.variables, NDVarArray.variableHashes, uniArr]
    rw [hc, List.length_nil] at hl
    omega
  obtain ⟨s, h1, h2, h3, h4⟩ := updateEvidence_group h (.arr (uniArr idV shape k)) hg hne ev (.arr ⟨shape, E⟩)
  have hfl : (VGroup.arr (uniArr idV shape k) : VGroup κ).flatten (.arr ⟨shape, E⟩) = .ok E := by
    simp [VGroup.flatten, NDVarArray.flatten, uniArr, pure, Except.pure]
  have hsum : (VGroup.arr (uniArr idV shape k) : VGroup κ).numStates.sum = shape.prod * k := by
    show (uniArr idV shape k).numStates.sum = _
    simp [uniArr]
  have hle : shape.prod ≤ shape.prod * k := Nat.le_mul_of_pos_right _ hk
  rw [hsum] at h1 h3
  rw [hfl] at h4
  simp only [bind, Except.bind] at h4
  rw [sliceAssign_ok ev s E.length E (by rw [hE, hev]; omega) rfl] at h4
  have hin : s + E.length ≤ ev.length := by rw [hE, hev]; omega
  refine ⟨_, h4, writeBlock_length _ _ _ hin, ?_, ?_⟩
  · intro cs hcs t ht
    have hlt : rowMajor shape cs < shape.prod := rowMajor_lt shape cs hcs
    have hv : (VGroup.arr (uniArr idV shape k) : VGroup κ).variables[rowMajor shape cs]? = some (uniCell idV shape k cs) := by
      show (uniArr idV shape k).variables[rowMajor shape cs]? = _
      simp only [NDVarArray.variables, NDVarArray.variableHashes, uniArr, List.getElem?_zipWith, List.getElem?_map, List.getElem?_range hlt,
        List.getElem?_replicate, if_pos hlt, Option.map_some]
      rfl
    have hst := h2 _ _ hv
    have htake : ((VGroup.arr (uniArr idV shape k) : VGroup κ).numStates.take (rowMajor shape cs)).sum = rowMajor shape cs * k := by
      show ((uniArr idV shape k).numStates.take _).sum = _
      simp [uniArr, List.take_replicate, Nat.min_eq_left hlt.le]
    rw [htake] at hst
    unfold readEv
    simp only [hst, Option.getD_some, List.getD, writeBlock_getElem? _ _ _ hin, hE]
    by_cases hc : rowMajor shape cs * k + t < shape.prod
    · rw [if_pos (by omega), if_pos hc]
      congr 2
      omega
    · rw [if_neg (by omega), if_neg hc]
  · intro w t hw hnot u hu
    have := h3 w t hw hnot
    unfold readEv
    simp only [hw, Option.getD_some, List.getD, writeBlock_getElem? _ _ _ hin]
    rw [if_neg (by omega)]

/-- Giving evidence for all variables of several arrays. -/
theorem uniArrs_evidence [DecidableEq κ] [Zero α] (h : Compiled vgs hist garbage st) (k : Nat) (L : List (Nat × List Nat × List α))
    (hg : ∀ q ∈ L, .arr (uniArr q.1 q.2.1 k) ∈ vgs) (hp : ∀ q ∈ L, 0 < q.2.1.prod) (hE : ∀ q ∈ L, q.2.2.length = q.2.1.prod * k)
    (hd : L.Pairwise (fun a b => (uniArr a.1 a.2.1 k).variables.Disjoint (uniArr b.1 b.2.1 k).variables)) (ev : List α) (hev : ev.length = st.numVarStates) :
    ∃ ev', updateEvidence st ev (L.map (fun q => .group (.arr (uniArr q.1 q.2.1 k)) (.arr ⟨q.2.1 ++ [k], q.2.2⟩))) = .ok ev' ∧ ev'.length = ev.length ∧
      (∀ q ∈ L, ∀ cs, List.Forall₂ (fun c d => c < d) cs q.2.1 → ∀ s < k,
        readEv st.varsToStarts ev' (uniCell q.1 q.2.1 k cs) s = q.2.2.getD (rowMajor q.2.1 cs * k + s) 0) ∧
      ∀ w t, st.varsToStarts w = some t → (∀ q ∈ L, w ∉ (uniArr q.1 q.2.1 k).variables) → ∀ s < w.n,
        readEv st.varsToStarts ev' w s = readEv st.varsToStarts ev w s := by
  induction L generalizing ev with
  | nil => exact ⟨ev, rfl, rfl, by simp, fun _ _ _ _ _ _ => rfl⟩
  | cons q L ih =>
    rw [List.pairwise_cons] at hd
    obtain ⟨e1, u1, l1, c1, o1⟩ := uniArr_evidence h ev hev q.1 q.2.1 k (hg q (by simp)) (hp q (by simp)) q.2.2 (hE q (by simp))
    obtain ⟨e2, u2, l2, c2, o2⟩ := ih (fun q hq => hg q (by simp [hq])) (fun q hq => hp q (by simp [hq])) (fun q hq => hE q (by simp [hq])) hd.2 e1 (by rw [l1, hev])
    refine ⟨e2, ?_, by rw [l2, l1], ?_, ?_⟩
    · unfold updateEvidence at u2 ⊢
      rw [List.map_cons, List.foldlM_cons, u1]
      exact u2
    · intro p hpm cs hcs s hs
      rw [List.mem_cons] at hpm
      rcases hpm with rfl | hpm
      · have hmem : uniCell p.1 p.2.1 k cs ∈ (uniArr p.1 p.2.1 k).variables := (mem_uniArr _ _ _ _).2 ⟨cs, hcs, rfl⟩
        obtain ⟨i, hi⟩ := List.mem_iff_getElem?.1 (show uniCell p.1 p.2.1 k cs ∈ allVars vgs from List.mem_flatMap.2 ⟨_, hg p (by simp), hmem⟩)
        rw [o2 _ _ ((h.starts_iff _ _).2 ⟨i, hi, rfl⟩) (fun q hq hc => hd.1 q hq hmem hc) s hs, c1 cs hcs s hs]
      · exact c2 p hpm cs hcs s hs
    · intro w t hw hn s hs
      rw [o2 w t hw (fun q hq => hn q (by simp [hq])) s hs, o1 w t hw (hn q (by simp)) s hs]

theorem uniArr_evidence_ok [DecidableEq κ] {vgs : List (VGroup κ)} (h : VGroupsOk vgs) (idV : Nat) (shape : List Nat) (k : Nat) (hk : 1 ≤ k)
    (hg : .arr (uniArr idV shape k) ∈ vgs) (a : NDArr α) (ha : a.WF) : (EvidenceUpdate.group (.arr (uniArr idV shape k)) (.arr a)).Ok vgs := by
  refine ⟨.inl hg, fun x hx => ?_⟩
  obtain ⟨objId, hb⟩ := h.built _ hg
  refine flatten_length_le (data := .arr a) _ hb trivial ?_ ha x hx
  intro n hn
  have : n ∈ (uniArr idV shape k).numStates := hn
  simp only [uniArr, List.mem_replicate] at this
  omega

/-- The sum over the variables of a graph is the sum over the variables of the groups. -/
theorem graphVars_sum {M : Type _} [AddCommMonoid M] {vgs : List (VGroup κ)} (h : VGroupsOk vgs) (f : Var → M) :
    ∑ v ∈ graphVars vgs, f v = (vgs.map (fun g => (g.variables.map f).sum)).sum := by
  have hnd : (vgs.flatMap VGroup.variables).Nodup := h.nodup
  unfold graphVars
  rw [List.sum_toFinset _ hnd, List.map_flatMap, List.flatMap_def, List.sum_flatten, List.map_map]
  rfl

theorem isArr_unique {g : NDVarArray} {shape : List Nat} {k : Nat} {c d : List Nat → Var} (h : IsArr g shape k c) (h' : IsArr g shape k d)
    (cs : List Nat) (hcs : List.Forall₂ (fun c d => c < d) cs shape) : c cs = d cs := by
  have := (h.getitem cs hcs).symm.trans (h'.getitem cs hcs)
  simpa using this

end PGMax
