import Verif.Lemmas.Compiled
import Verif.Props.C05_C07
import Verif.Props.C19_C20_C44

/-! # C21, C22: updates of log potentials and evidence -/

namespace PGMax

variable {κ α : Type _} {vgs : List (VGroup κ)} {hist : List (AddArg α)} {garbage : Garbage} {st : FGState κ α}

/-! ## C21 -/

/-- The block of a group of the graph. -/
theorem Compiled.potsBlock (h : Compiled vgs hist garbage st) (g : FGroup α) (hg : g ∈ (graphOf vgs hist).allGroups) :
    ∃ p, st.groupToPotsStart g.objId = some p ∧ p + g.logPotentials.length ≤ st.logPotentials.length ∧
      ∀ k ∈ (graphOf vgs hist).allGroups, k ≠ g → ∃ q, st.groupToPotsStart k.objId = some q ∧
        (p + g.logPotentials.length ≤ q ∨ q + k.logPotentials.length ≤ p) := by
  obtain ⟨i, hi⟩ := List.mem_iff_getElem?.1 hg
  obtain ⟨h1, h2⟩ := h.potsStart i g hi
  refine ⟨_, h1, ?_, ?_⟩
  · rw [h2, h.totalPots]; exact Compiled.potsOf_take_le _ _
  · intro k hk hne
    obtain ⟨j, hj⟩ := List.mem_iff_getElem?.1 hk
    obtain ⟨h3, h4⟩ := h.potsStart j k hj
    refine ⟨_, h3, ?_⟩
    rcases Nat.lt_trichotomy i j with hij | hij | hij
    · left; rw [h2]; exact Compiled.potsOf_take_mono _ hij
    · subst hij; rw [hi] at hj; exact absurd (Option.some.inj hj).symm hne
    · right; rw [h4]; exact Compiled.potsOf_take_mono _ hij

/-- **C21.** In every compiled graph, for every group `g` in it, every data array and every prior array of the right
length: the update succeeds iff `g.flatten` accepts the data and yields as many numbers as the group has log
potentials; then the length is preserved, the group's log potentials read back as the flattened data, and those of all
other groups are unchanged — as is every position outside the group's block. -/
theorem C21_update (h : Compiled vgs hist garbage st) (g : FGroup α) (t : FType) (hg : g ∈ (graphOf vgs hist).groups t)
    (data : NDArr α) (lp : List α) (hlp : lp.length = st.logPotentials.length) :
    (∀ x, g.flatten data = .ok x → x.length = g.logPotentials.length →
      ∃ lp', updateLogPotential st lp g data = .ok lp' ∧ lp'.length = lp.length ∧
        LogPotentials.getitem st lp' g = .ok x ∧
        (∀ u, ∀ k ∈ (graphOf vgs hist).groups u, k ≠ g → LogPotentials.getitem st lp' k = LogPotentials.getitem st lp k) ∧
        ∃ s, st.groupToPotsStart g.objId = some s ∧
          ∀ p, p < s ∨ s + g.logPotentials.length ≤ p → lp'[p]? = lp[p]?) ∧
    (∀ x, g.flatten data = .ok x → x.length ≠ g.logPotentials.length →
      updateLogPotential st lp g data = .error .valueError) ∧
    (∀ e, g.flatten data = .error e → updateLogPotential st lp g data = .error e) := by
  have hmem : ∀ u, ∀ k ∈ (graphOf vgs hist).groups u, k ∈ (graphOf vgs hist).allGroups := by
    intro u k hk; exact List.mem_flatMap.2 ⟨u, by cases u <;> simp [FType.all], hk⟩
  obtain ⟨p, h1, h2, h3⟩ := h.potsBlock g (hmem t g hg)
  refine ⟨?_, ?_, ?_⟩
  · intro x hx hl
    have hle : p + x.length ≤ lp.length := by rw [hl, hlp]; exact h2
    refine ⟨writeBlock lp p x, ?_, writeBlock_length _ _ _ hle, ?_, ?_, p, h1, ?_⟩
    · unfold updateLogPotential
      rw [h1]
      simp only [hx, bind, Except.bind, throw, throwThe, MonadExceptOf.throw, pure, Except.pure]
      rw [if_neg (by simpa using hl)]
      exact sliceAssign_ok lp p x.length x hle rfl
    · unfold LogPotentials.getitem
      rw [h1]
      simp only
      rw [← hl, slice_writeBlock lp p x hle]
    · intro u k hk hne
      obtain ⟨q, h4, h5⟩ := h3 k (hmem u k hk) hne
      unfold LogPotentials.getitem
      rw [h4]
      simp only
      rw [slice_writeBlock_disjoint lp p x hle q _ (by rw [hl]; omega)]
    · intro q hq
      rw [writeBlock_getElem? _ _ _ hle, if_neg (by rw [hl]; omega)]
  · intro x hx hl
    unfold updateLogPotential
    rw [h1]
    simp only [hx, bind, Except.bind, throw, throwThe, MonadExceptOf.throw, pure, Except.pure]
    rw [if_pos hl]
  · intro e he
    unfold updateLogPotential
    rw [h1]
    simp only [he, bind, Except.bind]

/-- **C21**, groups that are not in the graph are rejected. -/
theorem C21_unknown (h : Compiled vgs hist garbage st) (g : FGroup α)
    (hg : ∀ t, ∀ k ∈ (graphOf vgs hist).groups t, k.objId ≠ g.objId) (data : NDArr α) (lp : List α) :
    updateLogPotential st lp g data = .error .valueError ∧ LogPotentials.getitem st lp g = .error .valueError := by
  have : st.groupToPotsStart g.objId = none := h.potsStart_none g.objId (by
    intro k hk
    obtain ⟨t, -, hk⟩ := List.mem_flatMap.1 hk
    exact hg t k hk)
  unfold updateLogPotential LogPotentials.getitem
  rw [this]
  exact ⟨rfl, rfl⟩

/-- **C21 / C19**: updating an enumeration group in the graph with per-factor log potentials writes each factor's row. -/
theorem C21_enum_rows (h : Compiled vgs hist garbage st) (g : FGroup α) (hg : g ∈ (graphOf vgs hist).groups .enum)
    (hk : g.kind = .enumGroup) (data : NDArr α) (hd : data.WF)
    (hs : data.shape = [g.varsForFactors.length, g.configs.rows.length]) (lp : List α)
    (hlp : lp.length = st.logPotentials.length) :
    ∃ lp', updateLogPotential st lp g data = .ok lp' ∧ LogPotentials.getitem st lp' g = .ok data.data := by
  obtain ⟨h1, h2⟩ := h.fgValid .enum g hg
  have hT := h2.enumOk h1
  have hnd : (g.varsForFactors.map List.toFinset).Nodup := by
    have := ((h.reachable).scopeInv .enum).1
    unfold FactorGraph.scopes at this
    rw [List.nodup_flatMap] at this
    exact this.1 g hg
  obtain ⟨fs, hfs, hlen⟩ := factors_length_enum h1 hT.width hT.inRange hnd
  have hx : g.flatten data = .ok data.data := by
    unfold FGroup.flatten
    rw [hk]
    simp only [hfs, bind, Except.bind, pure, Except.pure, throw, throwThe, MonadExceptOf.throw, hlen]
    rw [if_neg (by rw [hs]; simp), if_neg (by rw [hs]; simp)]
  obtain ⟨lp', a1, -, a3, -⟩ := (C21_update h g .enum hg data lp hlp).1 data.data hx (by
    rw [hT.pots, hd, hs]; simp)
  exact ⟨lp', a1, a3⟩

/-! ## C22 -/

/-- **C22, single variables.** -/
theorem C22_var [DecidableEq κ] (h : Compiled vgs hist garbage st) (ev : List α) (hev : ev.length = st.numVarStates)
    (v : Var) (data : NDArr α) (hd : data.WF) (hs : data.shape = [v.n]) :
    ((∃ g ∈ vgs, v ∈ g.variables) → ∃ ev', updateEvidence1 st ev (.var v data) = .ok ev' ∧ ev'.length = ev.length ∧
      Evidence.getitem st ev' v = .ok data.data ∧
      ∀ w, w ≠ v → Evidence.getitem st ev' w = Evidence.getitem st ev w) ∧
    ((¬ ∃ g ∈ vgs, v ∈ g.variables) → updateEvidence1 st ev (.var v data) = .error .valueError) := by
  obtain ⟨b1, b2, b3, -⟩ := h.blocks
  have hdl : data.data.length = v.n := by rw [hd, hs]; simp
  refine ⟨?_, ?_⟩
  · intro hv
    obtain ⟨s, hs'⟩ := (b1 v).2 hv
    have hle : s + data.data.length ≤ ev.length := by rw [hdl, hev]; exact b2 v s hs'
    refine ⟨writeBlock ev s data.data, ?_, writeBlock_length _ _ _ hle, ?_, ?_⟩
    · simp only [updateEvidence1, hs', hs, List.length_singleton, if_true]
      rw [sliceAssign_ok ev s v.n data.data (by omega) hdl]
    · simp only [Evidence.getitem, StartMap.get, hs', bind, Except.bind, pure, Except.pure]
      rw [← hdl, slice_writeBlock ev s _ hle]
    · intro w hw
      simp only [Evidence.getitem, StartMap.get]
      cases hw' : st.varsToStarts w with
      | none => rfl
      | some t =>
        simp only [bind, Except.bind, pure, Except.pure]
        rw [slice_writeBlock_disjoint ev s _ hle t w.n]
        rcases b3 w v t s hw' hs' hw with hh | hh
        · left; exact hh
        · right; left; rw [hdl]; exact hh
  · intro hv
    have : st.varsToStarts v = none := by
      cases hv' : st.varsToStarts v with
      | none => rfl
      | some s => exact absurd ((b1 v).1 ⟨s, hv'⟩) hv
    simp only [updateEvidence1, this]

/-- The block of a variable group. -/
theorem Compiled.groupBlock (h : Compiled vgs hist garbage st) (g : VGroup κ) (hg : g ∈ vgs) :
    ∃ s, s + g.numStates.sum ≤ st.numVarStates ∧
      (∀ (i : Nat) v, g.variables[i]? = some v → st.varsToStarts v = some (s + (g.numStates.take i).sum)) ∧
      (∀ v t, st.varsToStarts v = some t → v ∉ g.variables → t + v.n ≤ s ∨ s + g.numStates.sum ≤ t) := by
  have hok : GroupOk g := h.vgroups.groupOk g hg
  obtain ⟨k, hk⟩ := List.mem_iff_getElem?.1 hg
  have hsplit : vgs = vgs.take k ++ g :: vgs.drop (k + 1) := by
    obtain ⟨hlt, hge⟩ := List.getElem?_eq_some_iff.1 hk
    subst hge
    simp
  have hall : allVars vgs = allVars (vgs.take k) ++ (g.variables ++ allVars (vgs.drop (k + 1))) := by
    conv_lhs => rw [hsplit]
    unfold allVars
    rw [List.flatMap_append, List.flatMap_cons]
  rw [h.numVarStates]
  simp only [h.starts_iff]
  clear hsplit
  generalize allVars (vgs.take k) = A at hall ⊢
  generalize allVars (vgs.drop (k + 1)) = B at hall
  refine ⟨(A.map (·.n)).sum, ?_, ?_, ?_⟩
  · rw [hall, List.map_append, List.map_append, List.sum_append, List.sum_append, hok]; omega
  · intro i v hv
    have hi := (List.getElem?_eq_some_iff.1 hv).1
    refine ⟨A.length + i, ?_, ?_⟩
    · rw [hall, List.getElem?_append_right (by omega), Nat.add_sub_cancel_left, List.getElem?_append_left hi, hv]
    · rw [hall, List.map_append, List.take_append, List.length_map,
        List.take_of_length_le (l := A.map (·.n)) (by rw [List.length_map]; omega), List.sum_append, Nat.add_sub_cancel_left,
        List.map_append, List.take_append_of_le_length (by rw [List.length_map]; omega), hok]
  · rintro v t ⟨j, hj, rfl⟩ hnot
    rw [hall] at hj ⊢
    have hstep : (((allVars vgs).map (·.n)).take (j + 1)).sum = (((allVars vgs).map (·.n)).take j).sum + v.n := by
      rw [← hall] at hj
      rw [sum_take_succ_getD _ _ (by rw [List.length_map]; exact (List.getElem?_eq_some_iff.1 hj).1),
        List.getD_eq_getElem?_getD, List.getElem?_map, hj]
      rfl
    rw [hall] at hstep
    rw [← hstep]
    by_cases h1 : j < A.length
    · left
      rw [List.map_append, List.take_append_of_le_length (by rw [List.length_map]; omega)]
      exact sum_take_le _ _
    · by_cases h2 : j < A.length + g.variables.length
      · exfalso
        rw [List.getElem?_append_right (by omega), List.getElem?_append_left (by omega)] at hj
        exact hnot (List.mem_of_getElem? hj)
      · right
        rw [← List.append_assoc, List.map_append, List.take_append, List.sum_append,
          List.take_of_length_le (by rw [List.length_map, List.length_append]; omega), List.map_append,
          List.sum_append, hok]
        omega

/-- What one evidence update for a variable group does. -/
theorem updateEvidence_group [DecidableEq κ] (h : Compiled vgs hist garbage st) (g : VGroup κ) (hg : g ∈ vgs)
    (hne : g.variables ≠ []) (ev : List α) (data : GroupData κ α) :
    ∃ s, s + g.numStates.sum ≤ st.numVarStates ∧
      (∀ (i : Nat) v, g.variables[i]? = some v → st.varsToStarts v = some (s + (g.numStates.take i).sum)) ∧
      (∀ v t, st.varsToStarts v = some t → v ∉ g.variables → t + v.n ≤ s ∨ s + g.numStates.sum ≤ t) ∧
      updateEvidence1 st ev (.group g data) = (do
        let flat ← g.flatten data
        sliceAssign ev s (s + flat.length) flat) := by
  obtain ⟨s, h1, h2, h3⟩ := h.groupBlock g hg
  refine ⟨s, h1, h2, h3, ?_⟩
  have hany : st.varGroups.any (fun k => k.pyEq g) = true := by
    rw [h.varGroups, List.any_eq_true]
    exact ⟨g, hg, by simp [VGroup.pyEq]⟩
  simp only [updateEvidence1]
  rw [if_pos hany]
  match hv : g.variables with
  | [] => exact absurd hv hne
  | v :: l =>
    have := h2 0 v (by rw [hv]; rfl)
    simp only [bind, Except.bind, StartMap.get, this, List.take_zero, List.sum_nil, Nat.add_zero]

/-- **C22, variable groups**, for data whose flattened form has one value per state. -/
theorem C22_group [DecidableEq κ] (h : Compiled vgs hist garbage st) (ev : List α) (hev : ev.length = st.numVarStates)
    (g : VGroup κ) (hg : g ∈ vgs) (hne : g.variables ≠ []) (data : GroupData κ α) (x : List α)
    (hx : g.flatten data = .ok x) (hl : x.length = g.numStates.sum) :
    ∃ ev', updateEvidence1 st ev (.group g data) = .ok ev' ∧ ev'.length = ev.length ∧
      (∀ (i : Nat) v, g.variables[i]? = some v → ∃ y, Evidence.getitem st ev' v = .ok y ∧ y.length = v.n ∧
        ∀ s, s < v.n → y[s]? = x[(g.numStates.take i).sum + s]?) ∧
      ∀ w, w ∉ g.variables → Evidence.getitem st ev' w = Evidence.getitem st ev w := by
  obtain ⟨s, h1, h2, h3, h4⟩ := updateEvidence_group h g hg hne ev data
  have hle : s + x.length ≤ ev.length := by rw [hl, hev]; exact h1
  have hok : GroupOk g := h.vgroups.groupOk g hg
  refine ⟨writeBlock ev s x, ?_, writeBlock_length _ _ _ hle, ?_, ?_⟩
  · rw [h4, hx]
    exact sliceAssign_ok ev s x.length x hle rfl
  · intro i v hv
    simp only [Evidence.getitem, StartMap.get, h2 i v hv, bind, Except.bind, pure, Except.pure]
    have hi : i < g.numStates.length := by
      rw [← hok, List.length_map]; exact (List.getElem?_eq_some_iff.1 hv).1
    have hn : g.numStates.getD i 0 = v.n := by
      rw [← hok, List.getD_eq_getElem?_getD, List.getElem?_map, hv]; rfl
    have hb : (g.numStates.take i).sum + v.n ≤ g.numStates.sum := by
      rw [← hn, ← sum_take_succ_getD _ _ hi]; exact sum_take_le _ _
    refine ⟨_, rfl, ?_, ?_⟩
    · rw [slice_length, writeBlock_length _ _ _ hle]; omega
    · intro p hp
      rw [slice_getElem?, if_pos (by omega), writeBlock_getElem? _ _ _ hle, if_pos (by omega)]
      congr 1
      omega
  · intro w hw
    simp only [Evidence.getitem, StartMap.get]
    cases hw' : st.varsToStarts w with
    | none => rfl
    | some t =>
      simp only [bind, Except.bind, pure, Except.pure]
      rw [slice_writeBlock_disjoint ev s _ hle t w.n]
      rcases h3 w t hw' hw with hh | hh
      · left; exact hh
      · right; left; rw [hl]; exact hh

/-- **C22, arrays of variables**, data of the documented shape `shape + (max num_states,)`: state `p` of the variable at
row-major position `k` reads back as entry `[k, p]` of the data; other variables are unchanged. -/
theorem C22_array [DecidableEq κ] (h : Compiled vgs hist garbage st) (ev : List α) (hev : ev.length = st.numVarStates)
    (a : NDVarArray) (hg : (.arr a : VGroup κ) ∈ vgs) (m : Nat) (hm : npMax a.numStates = .ok m)
    (hnl : a.numStates.length = a.shape.prod) (data : NDArr α) (hd : data.WF) (hs : data.shape = a.shape ++ [m]) :
    ∃ ev', updateEvidence1 st ev (.group (.arr a) (.arr data)) = .ok ev' ∧ ev'.length = ev.length ∧
      (∀ (k : Nat) v, a.variables[k]? = some v → ∃ y, Evidence.getitem st ev' v = .ok y ∧ y.length = v.n ∧
        ∀ p, p < v.n → y[p]? = data.data[k * m + p]?) ∧
      ∀ w, w ∉ a.variables → Evidence.getitem st ev' w = Evidence.getitem st ev w := by
  obtain ⟨flat, f1, f2, f3⟩ := NDVarArray.flatten_states a hnl m hm data hd hs
  have hok : GroupOk (.arr a : VGroup κ) := h.vgroups.groupOk _ hg
  have hne : (VGroup.arr a : VGroup κ).variables ≠ [] := by
    intro hc
    have : a.numStates = [] := by
      have := hok
      unfold GroupOk at this
      rw [hc] at this
      exact this.symm
    rw [this] at hm
    cases hm
  obtain ⟨ev', e1, e2, e3, e4⟩ := C22_group h ev hev (.arr a) hg hne (.arr data) flat f1 f2
  refine ⟨ev', e1, e2, ?_, e4⟩
  intro k v hv
  obtain ⟨y, y1, y2, y3⟩ := e3 k v hv
  refine ⟨y, y1, y2, ?_⟩
  intro p hp
  have hk : k < a.numStates.length := by
    have := hok
    unfold GroupOk at this
    have h' := congrArg List.length this
    rw [List.length_map] at h'
    have h'' := (List.getElem?_eq_some_iff.1 hv).1
    simp only [VGroup.variables, VGroup.numStates] at h' h''
    omega
  have hn : a.numStates.getD k 0 = v.n := by
    have := hok
    unfold GroupOk at this
    simp only [VGroup.variables, VGroup.numStates] at this hv
    rw [← this, List.getD_eq_getElem?_getD, List.getElem?_map, hv]; rfl
  rw [y3 p hp]
  exact f3 k p hk (by omega)

/-- **C22, dictionaries of variables**, data giving all states of every variable: the variable named `k` reads back as
`data[k]`; other variables are unchanged. -/
theorem C22_dict [DecidableEq κ] (h : Compiled vgs hist garbage st) (ev : List α) (hev : ev.length = st.numVarStates)
    (d : VarDict κ) (hg : (.dict d : VGroup κ) ∈ vgs) (hnd : d.names.Nodup) (hne : d.names ≠ [])
    (hnl : d.numStates.length = d.names.length) (data : List (κ × NDArr α)) (hkeys : (data.map (·.1)).Nodup)
    (hset : ∀ k, k ∈ data.map (·.1) ↔ k ∈ d.names)
    (hshape : ∀ (i : Nat) k arr, d.names[i]? = some k → data.lookup k = some arr →
      arr.WF ∧ arr.shape = [d.numStates.getD i 0]) :
    ∃ ev', updateEvidence1 st ev (.group (.dict d) (.dict data)) = .ok ev' ∧ ev'.length = ev.length ∧
      (∀ k ∈ d.names, ∃ v arr, d.getitem k = .ok v ∧ data.lookup k = some arr ∧
        Evidence.getitem st ev' v = .ok arr.data) ∧
      ∀ w, w ∉ d.variables → Evidence.getitem st ev' w = Evidence.getitem st ev w := by
  have hex : ∀ k ∈ d.names, ∃ arr, data.lookup k = some arr := fun k hk => (lookup_isSome data k).2 ((hset k).2 hk)
  have hidx : ∀ k ∈ d.names, d.names[d.names.idxOf k]? = some k := by
    intro k hk
    have h := List.idxOf_lt_length_iff.2 hk
    rw [List.getElem?_eq_getElem h]; simp
  set f : κ → List α := fun k => ((data.lookup k).map (·.data)).getD [] with hfdef
  have hflat : d.flatten data = .ok (d.names.map f).flatten := by
    apply VarDict.flatten_ok d hne
    · intro p hp
      have hk : p.1 ∈ d.names := (hset p.1).1 (List.mem_map.2 ⟨p, hp, rfl⟩)
      have hlk := lookup_of_mem_nodup data hkeys p.1 p.2 hp
      obtain ⟨-, hsh⟩ := hshape _ p.1 p.2 (hidx p.1 hk) hlk
      unfold VarDict.flattenRejects
      rw [if_pos hk, hsh]
      simp
    · intro k hk
      obtain ⟨arr, ha⟩ := hex k hk
      rw [hfdef]; simp [ha]
  have hlens : (d.names.map f).map List.length = d.numStates := by
    apply List.ext_getElem?
    intro i
    by_cases hi : i < d.names.length
    · simp only [List.getElem?_map, List.getElem?_eq_getElem hi, List.getElem?_eq_getElem (hnl ▸ hi : i < d.numStates.length), Option.map_some]
      obtain ⟨arr, ha⟩ := hex _ (List.getElem_mem hi)
      obtain ⟨w, hsh⟩ := hshape i _ arr (List.getElem?_eq_getElem hi) ha
      simp only [hfdef, ha, Option.map_some, Option.getD_some]
      rw [w, hsh]
      simp [List.getD, List.getElem?_eq_getElem (hnl ▸ hi : i < d.numStates.length)]
    · rw [List.getElem?_eq_none (by simpa using hi), List.getElem?_eq_none (by omega)]
  have hok : d.variables.map (·.n) = d.numStates := h.vgroups.groupOk _ hg
  have hvl : d.variables.length = d.names.length := by
    have := congrArg List.length hok
    rw [List.length_map] at this
    omega
  have hvne : (VGroup.dict d : VGroup κ).variables ≠ [] := by
    intro hc
    have : d.variables.length = 0 := by
      have : d.variables = [] := hc
      rw [this]; rfl
    exact hne (List.length_eq_zero_iff.1 (by omega))
  obtain ⟨ev', e1, e2, e3, e4⟩ := C22_group h ev hev (.dict d) hg hvne (.dict data) _ hflat (by
    rw [List.length_flatten, hlens]; rfl)
  refine ⟨ev', e1, e2, ?_, e4⟩
  intro k hk
  obtain ⟨v, hv1, hv2⟩ := (C07_getitem d hnl k).1 hk
  obtain ⟨arr, ha⟩ := hex k hk
  refine ⟨v, arr, hv1, ha, ?_⟩
  obtain ⟨y, y1, y2, y3⟩ := e3 _ v hv2
  rw [y1]
  congr 1
  have hn : d.numStates.getD (d.names.idxOf k) 0 = v.n := by
    rw [← hok, List.getD_eq_getElem?_getD, List.getElem?_map, hv2]; rfl
  have hal : arr.data.length = v.n := by
    obtain ⟨w, hsh⟩ := hshape _ k arr (hidx k hk) ha
    rw [w, hsh, ← hn]; simp
  have hgetD : (d.names.map f).getD (d.names.idxOf k) [] = arr.data := by
    rw [List.getD_eq_getElem?_getD, List.getElem?_map, hidx k hk]
    simp [hfdef, ha]
  apply List.ext_getElem?
  intro p
  by_cases hp : p < v.n
  · rw [y3 p hp]
    have := flatten_getElem?_block (d.names.map f) (d.names.idxOf k) p (by rw [hgetD]; omega)
    rw [hlens, hgetD] at this
    exact this
  · rw [List.getElem?_eq_none (by omega), List.getElem?_eq_none (by omega)]

/-- **C22**, groups that are not in the graph are rejected. -/
theorem C22_unknown [DecidableEq κ] (h : Compiled vgs hist garbage st) (ev : List α) (g : VGroup κ)
    (hg : ∀ k ∈ vgs, k.hash ≠ g.hash) (data : GroupData κ α) :
    updateEvidence1 st ev (.group g data) = .error .valueError := by
  simp only [updateEvidence1]
  rw [if_neg]
  rw [h.varGroups, List.any_eq_true]
  rintro ⟨k, hk, he⟩
  exact hg k hk (by simpa [VGroup.pyEq] using he)

end PGMax
