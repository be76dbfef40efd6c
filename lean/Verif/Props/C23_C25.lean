import Verif.Props.C21_C22
import Verif.Lemmas.Ftov
import Mathlib.Tactic.FieldSimp

/-! # C23–C25: evidence of a wrong shape, spreading of messages, order of updates -/

namespace PGMax

variable {κ α : Type _} {vgs : List (VGroup κ)} {hist : List (AddArg α)} {garbage : Garbage} {st : FGState κ α}

/-! ## C23 -/

/-- The arrays in the data given for a group are genuine arrays. -/
def GroupData.WF : GroupData κ α → Prop
  | .arr a => a.WF
  | .dict d => ∀ p ∈ d, p.2.WF

/-- The names of a dictionary of variables are distinct. -/
def VGroup.NamesOk : VGroup κ → Prop
  | .arr _ => True
  | .dict d => d.names.Nodup

theorem length_le_sum (ns : List Nat) (h : ∀ n ∈ ns, 1 ≤ n) : ns.length ≤ ns.sum := by
  induction ns with
  | nil => simp
  | cons a ns ih =>
    have := h a (by simp)
    have := ih (fun x hx => h x (by simp [hx]))
    simp only [List.length_cons, List.sum_cons]; omega

theorem sum_le_sum_of_forall₂ (a b : List Nat) (h : List.Forall₂ (· ≤ ·) a b) : a.sum ≤ b.sum := by
  induction h with
  | nil => rfl
  | cons h _ ih => simp only [List.sum_cons]; omega

/-- Accepted data never yields more values than the group has states, when every variable has a state. -/
theorem flatten_length_le [DecidableEq κ] {objId : Nat} (g : VGroup κ) (hb : VGroup.Built objId g) (hn : g.NamesOk)
    (hpos : ∀ n ∈ g.numStates, 1 ≤ n) (data : GroupData κ α) (hd : data.WF) (x : List α)
    (hx : g.flatten data = .ok x) : x.length ≤ g.numStates.sum := by
  match g, data, hx with
  | .arr a, .arr d, hx =>
    have hnl : a.numStates.length = a.shape.prod := by
      cases hb with
      | arr hns hc =>
        obtain ⟨-, h2, h3, -⟩ := NDVarArray.create_ok hns hc
        rw [h2, h3]
    replace hx : a.flatten d = .ok x := hx
    replace hpos : ∀ n ∈ a.numStates, 1 ≤ n := hpos
    by_cases hs : d.shape = a.shape
    · rw [NDVarArray.flatten_vars a d hs] at hx
      cases hx
      have : d.data.length = a.shape.prod := by rw [← hs]; exact hd
      rw [this, ← hnl]
      exact length_le_sum _ hpos
    · cases hm : npMax a.numStates with
      | error e =>
        obtain ⟨h0, -⟩ := npMax_error hm
        unfold NDVarArray.flatten at hx
        rw [if_neg hs, hm] at hx
        cases hx
      | ok m =>
        by_cases hs2 : d.shape = a.shape ++ [m]
        · obtain ⟨flat, f1, f2, -⟩ := NDVarArray.flatten_states a hnl m hm d hd hs2
          rw [hx] at f1
          cases f1
          exact f2.le
        · unfold NDVarArray.flatten at hx
          rw [if_neg hs, hm] at hx
          simp only [bind, Except.bind] at hx
          rw [if_neg hs2] at hx
          cases hx
  | .dict g, .dict d, hx =>
    have hnl : g.numStates.length = g.names.length := by
      cases hb with
      | dict hns _ hc =>
        obtain ⟨-, h2, h3⟩ := VarDict.create_ok hns hc
        rw [h2, h3]
    replace hx : g.flatten d = .ok x := hx
    obtain ⟨hne, ha, hk⟩ := (C07_flatten_accepts g d).1.1 ⟨x, hx⟩
    have hidx : ∀ (i : Nat) k, g.names[i]? = some k → g.names.idxOf k = i := by
      intro i k hi
      obtain ⟨hlt, he⟩ := List.getElem?_eq_some_iff.1 hi
      subst he
      exact hn.idxOf_getElem i hlt
    have hf := VarDict.flatten_ok g hne d (by
      intro p hp
      obtain ⟨h1, h2⟩ := ha p hp
      unfold VarDict.flattenRejects
      rw [if_pos h1]
      rcases h2 with h2 | h2 <;> rw [h2] <;> simp) (fun k => ((d.lookup k).map (·.data)).getD []) (by
      intro k hk'
      obtain ⟨arr, he⟩ := (lookup_isSome d k).2 (hk k hk')
      simp [he])
    rw [hx] at hf
    cases hf
    rw [List.length_flatten]
    apply sum_le_sum_of_forall₂
    rw [List.forall₂_iff_get]
    refine ⟨by simp [VGroup.numStates, hnl], ?_⟩
    intro i h1 h2
    simp only [List.length_map] at h1
    simp only [VGroup.numStates] at h2
    have hni := hidx i _ (List.getElem?_eq_getElem h1)
    obtain ⟨arr, he⟩ := (lookup_isSome d g.names[i]).2 (hk _ (List.getElem_mem h1))
    have hm := mem_of_lookup d _ _ he
    have hwf : arr.WF := hd _ hm
    have hp1 : 1 ≤ g.numStates[i] := hpos _ (List.getElem_mem (l := g.numStates) h2)
    simp only [List.get_eq_getElem, List.getElem_map, he, Option.map_some, Option.getD_some, VGroup.numStates]
    obtain ⟨-, hsh⟩ := ha _ hm
    simp only [hni] at hsh
    rw [hwf]
    rcases hsh with hsh | hsh
    · rw [hsh]; simpa using hp1
    · rw [hsh]; simp [List.getD, List.getElem?_eq_getElem h2]
  | .arr a, .dict d, hx => cases hx
  | .dict g, .arr d, hx => cases hx

/-- An evidence update whose flattened data fits into the group is a block write inside the group's block. -/
theorem updateEvidence_group_fits [DecidableEq κ] (h : Compiled vgs hist garbage st) (g : VGroup κ) (hg : g ∈ vgs)
    (hne : g.variables ≠ []) (data : GroupData κ α) (x : List α) (hx : g.flatten data = .ok x)
    (hl : x.length ≤ g.numStates.sum) :
    ∃ s, s + x.length ≤ st.numVarStates ∧
      (∀ v t, st.varsToStarts v = some t → v ∉ g.variables → t + v.n ≤ s ∨ s + x.length ≤ t) ∧
      ∀ ev : List α, ev.length = st.numVarStates → updateEvidence1 st ev (.group g data) = .ok (writeBlock ev s x) := by
  obtain ⟨s, h1, h2, h3⟩ := h.groupBlock g hg
  refine ⟨s, by omega, ?_, ?_⟩
  · intro v t hv hnot
    rcases h3 v t hv hnot with hh | hh
    · exact .inl hh
    · right; omega
  · intro ev hev
    obtain ⟨s', h1', h2', h3', h4⟩ := updateEvidence_group h g hg hne ev data
    have hs : s' = s := by
      match hv : g.variables with
      | [] => exact absurd hv hne
      | v :: l =>
        have e1 := h2 0 v (by rw [hv]; rfl)
        have e2 := h2' 0 v (by rw [hv]; rfl)
        rw [e1] at e2
        simpa using (Option.some.inj e2).symm
    subst hs
    rw [h4, hx]
    exact sliceAssign_ok ev s' x.length x (by omega) rfl

/-- **C23, partial.** Data that the group's `flatten` rejects is rejected, and (when every variable has at least one
state) data it accepts is never written outside the group: the evidence of all other variables is unchanged.
Missing: rejection of data that gives one value per variable instead of one per state, which is accepted and written to
wrong states and variables of the group (`C23_array_refuted`, `C23_dict_refuted`). -/
theorem C23_partial [DecidableEq κ] (h : Compiled vgs hist garbage st) (ev : List α) (hev : ev.length = st.numVarStates)
    (g : VGroup κ) (hg : g ∈ vgs) (hne : g.variables ≠ []) (data : GroupData κ α) :
    (∀ e, g.flatten data = .error e → updateEvidence1 st ev (.group g data) = .error e) ∧
    (g.NamesOk → (∀ n ∈ g.numStates, 1 ≤ n) → data.WF → ∀ x, g.flatten data = .ok x →
      ∃ ev', updateEvidence1 st ev (.group g data) = .ok ev' ∧ ev'.length = ev.length ∧
        ∀ w, w ∉ g.variables → Evidence.getitem st ev' w = Evidence.getitem st ev w) := by
  refine ⟨?_, ?_⟩
  · intro e he
    obtain ⟨s, -, -, -, h4⟩ := updateEvidence_group h g hg hne ev data
    rw [h4, he]
    rfl
  · intro hn hpos hd x hx
    obtain ⟨i, hb⟩ := h.vgroups.built g hg
    have hl := flatten_length_le g hb hn hpos data hd x hx
    obtain ⟨s, s1, s2, s3⟩ := updateEvidence_group_fits h g hg hne data x hx hl
    refine ⟨_, s3 ev hev, writeBlock_length _ _ _ (by omega), ?_⟩
    intro w hw
    simp only [Evidence.getitem, StartMap.get]
    cases hw' : st.varsToStarts w with
    | none => rfl
    | some t =>
      simp only [bind, Except.bind, pure, Except.pure]
      rw [slice_writeBlock_disjoint ev s _ (by omega) t w.n]
      rcases s2 w t hw' hw with hh | hh
      · exact .inl hh
      · exact .inr (.inl hh)

/-- A state over two 3-state variables in an array, and a dictionary. -/
def exEvVars : List (VGroup Nat) := [.arr ⟨1000000000, [2], [3, 3]⟩, .dict ⟨2000000000, [0, 1], [2, 3]⟩]
/-- Its compiled state without factors. -/
def exEvState : FGState Nat ℚ :=
  match (FactorGraph.create exEvVars : FactorGraph Nat ℚ).fgState 0 with
  | .ok st => st
  | .error _ => ⟨[], fun _ => none, 0, 0, fun _ => (0, 0), fun _ => (0, 0), fun _ => none, [],
      ⟨⟨[], [], []⟩, ⟨[], [], [], [], 1⟩, ⟨[], [], [], [], 1⟩⟩⟩

theorem exEv_compiled : Compiled exEvVars ([] : List (AddArg ℚ)) 0 exEvState where
  vgroups :=
    { built := by
        simp only [exEvVars, List.mem_cons, List.not_mem_nil, or_false, forall_eq_or_imp, forall_eq]
        exact ⟨⟨1, .arr (ns := .scalar 3) (shape := [2]) (by simp) (by decide)⟩,
          ⟨2, .dict (ns := .array ⟨[2], [2, 3]⟩) (names := [0, 1]) (by intro x hx; cases hx; rfl) (by simp) (by decide)⟩⟩
      distinct := by simp [exEvVars, VGroup.pyEq, VGroup.hash] }
  valid := by simp
  ids := by intro g hg; simp [graphOf, FactorGraph.addHistory, FactorGraph.create, FType.all] at hg
  compiled := rfl

/-- **C23 is false for arrays:** one value per variable is accepted; the value meant for the second variable is written to
state 1 of the first. -/
theorem C23_array_refuted : ∃ (ev ev' : List ℚ) (v : Var),
    Compiled exEvVars ([] : List (AddArg ℚ)) 0 exEvState ∧ ev.length = exEvState.numVarStates ∧
    updateEvidence1 exEvState ev (.group (.arr ⟨1000000000, [2], [3, 3]⟩) (.arr ⟨[2], [7, 8]⟩)) = .ok ev' ∧
    (VGroup.arr ⟨1000000000, [2], [3, 3]⟩ : VGroup Nat).variables[0]? = some v ∧
    Evidence.getitem exEvState ev' v = .ok [7, 8, 0] :=
  ⟨List.replicate 11 0, [7, 8, 0, 0, 0, 0, 0, 0, 0, 0, 0], ⟨1000000000, 3⟩, exEv_compiled, rfl, rfl, rfl, rfl⟩

/-- **C23 is false for dictionaries:** one value for a 2-state variable and all three for the next is accepted; the second
variable's evidence is written shifted by one. -/
theorem C23_dict_refuted : ∃ (ev ev' : List ℚ) (v w : Var),
    ev.length = exEvState.numVarStates ∧
    updateEvidence1 exEvState ev (.group (.dict ⟨2000000000, [0, 1], [2, 3]⟩)
      (.dict [(0, ⟨[1], [5]⟩), (1, ⟨[3], [1, 2, 3]⟩)])) = .ok ev' ∧
    VarDict.getitem ⟨2000000000, [0, 1], [2, 3]⟩ 0 = .ok v ∧ VarDict.getitem ⟨2000000000, [0, 1], [2, 3]⟩ 1 = .ok w ∧
    Evidence.getitem exEvState ev' v = .ok [5, 1] ∧ Evidence.getitem exEvState ev' w = .ok [2, 3, 0] :=
  ⟨List.replicate 11 0, [0, 0, 0, 0, 0, 0, 5, 1, 2, 3, 0], ⟨2000000000, 2⟩, ⟨2000000001, 3⟩, rfl, rfl, rfl, rfl, rfl, rfl⟩

/-- Non-vacuity of C22 and C23: the array and the dictionary of this graph, with data of the documented shapes. -/
example : (VGroup.arr ⟨1000000000, [2], [3, 3]⟩ : VGroup Nat) ∈ exEvVars ∧
    npMax [3, 3] = .ok 3 ∧ (⟨[2, 3], [1, 2, 3, 4, 5, 6]⟩ : NDArr ℚ).WF ∧
    updateEvidence1 exEvState (List.replicate 11 0) (.group (.arr ⟨1000000000, [2], [3, 3]⟩) (.arr ⟨[2, 3], [1, 2, 3, 4, 5, 6]⟩))
      = .ok [1, 2, 3, 4, 5, 6, 0, 0, 0, 0, 0] := ⟨by decide, rfl, rfl, rfl⟩

/-! ## C24 -/

/-- **C24.** In every compiled graph, for every known variable `v`, every data of shape `(n,)` and every message array of the
right length, `update_ftov_msgs` succeeds and keeps the length; with `k` the number of edges of `v`, every edge of `v`
carries `data / k`; the messages of every edge of every other variable are unchanged; if `k = 0` nothing changes; and
if `k ≠ 0` the messages to `v` add up to the data, state by state. -/
theorem C24_spread [Field α] [CharZero α] (h : Compiled vgs hist garbage st) (v : Var) (hv : ∃ g ∈ vgs, v ∈ g.variables)
    (data : NDArr α) (hd : data.WF) (hsh : data.shape = [v.n]) (msgs : List α)
    (hm : msgs.length = st.totalFactorNumStates) :
    ∃ z, updateFtovMsg st msgs v data = .ok z ∧ z.length = msgs.length ∧
      (∀ f i vs, (graphOf vgs hist).allScopes[f]? = some vs → vs[i]? = some v → ∀ s x, data.data[s]? = some x →
        z[edgeStart (graphOf vgs hist).allScopes f i + s]?
          = some (x / ((edgesOf (graphOf vgs hist).allScopes v).length : α))) ∧
      (∀ f i vs w, (graphOf vgs hist).allScopes[f]? = some vs → vs[i]? = some w → w ≠ v → ∀ s, s < w.n →
        z[edgeStart (graphOf vgs hist).allScopes f i + s]? = msgs[edgeStart (graphOf vgs hist).allScopes f i + s]?) ∧
      ((∀ vs ∈ (graphOf vgs hist).allScopes, v ∉ vs) → z = msgs) ∧
      ((∃ vs ∈ (graphOf vgs hist).allScopes, v ∈ vs) → ∀ (s : Nat) x, data.data[s]? = some x →
        ((edgesOf (graphOf vgs hist).allScopes v).map
          (fun e => z.getD (edgeStart (graphOf vgs hist).allScopes e.1 e.2 + s) 0)).sum = x) := by
  obtain ⟨b1, -⟩ := h.blocks
  obtain ⟨s0, hs0⟩ := (b1 v).2 hv
  have hlen : data.data.length = v.n := by rw [hd, hsh]; simp
  obtain ⟨ov, o1, o2, o3⟩ := h.updateFtov v s0 hs0 data hd hsh
  obtain ⟨z, z1, z2, z3⟩ := o1 msgs hm
  have hown : ∀ f i vs, (graphOf vgs hist).allScopes[f]? = some vs → vs[i]? = some v → ∀ s x, data.data[s]? = some x →
        z[edgeStart (graphOf vgs hist).allScopes f i + s]?
          = some (x / ((edgesOf (graphOf vgs hist).allScopes v).length : α)) := by
    intro f i vs hf hi s x hx
    have hs := (List.getElem?_eq_some_iff.1 hx).1
    rw [z3, o2 (f, i) ((mem_edgesOf _ _ _ _).2 ⟨vs, hf, hi⟩) s x (by omega) hx]
    rfl
  refine ⟨z, z1, z2, hown, ?_, ?_, ?_⟩
  · intro f i vs w hf hi hne s hs
    rw [z3]
    have : ov (edgeStart (graphOf vgs hist).allScopes f i + s) = none := by
      by_contra hc
      obtain ⟨⟨f', i'⟩, he, j, hj, heq⟩ := o3 _ hc
      obtain ⟨vs', hf', hi'⟩ := (mem_edgesOf _ _ _ _).1 he
      obtain ⟨h1, h2, -⟩ := edgeStart_inj _ f i f' i' vs vs' w v s j hf hi hs hf' hi' hj heq
      subst h1; subst h2
      rw [hf] at hf'
      cases hf'
      rw [hi] at hi'
      exact hne (Option.some.inj hi')
    rw [this]; rfl
  · intro hun
    apply List.ext_getElem?
    intro p
    rw [z3]
    have : ov p = none := by
      by_contra hc
      obtain ⟨⟨f', i'⟩, he, j, hj, heq⟩ := o3 _ hc
      obtain ⟨vs', hf', hi'⟩ := (mem_edgesOf _ _ _ _).1 he
      exact hun vs' (List.mem_iff_getElem?.2 ⟨_, hf'⟩) (List.mem_iff_getElem?.2 ⟨_, hi'⟩)
    rw [this]; rfl
  · rintro ⟨vs, hvs, hvv⟩ s x hx
    obtain ⟨f, hf⟩ := List.mem_iff_getElem?.1 hvs
    obtain ⟨i, hi⟩ := List.mem_iff_getElem?.1 hvv
    have hmem := (mem_edgesOf (graphOf vgs hist).allScopes v f i).2 ⟨vs, hf, hi⟩
    have hk : ((edgesOf (graphOf vgs hist).allScopes v).length : α) ≠ 0 := by
      rw [Nat.cast_ne_zero]
      exact fun hc => by rw [List.length_eq_zero_iff.1 hc] at hmem; simp at hmem
    have : (edgesOf (graphOf vgs hist).allScopes v).map
          (fun e => z.getD (edgeStart (graphOf vgs hist).allScopes e.1 e.2 + s) 0)
        = (edgesOf (graphOf vgs hist).allScopes v).map
          (fun _ => x / ((edgesOf (graphOf vgs hist).allScopes v).length : α)) := by
      apply List.map_congr_left
      rintro ⟨f, i⟩ he
      obtain ⟨vs, hf, hi⟩ := (mem_edgesOf _ _ _ _).1 he
      simp [List.getD, hown f i vs hf hi s x hx]
    rw [this, List.map_const', List.sum_replicate, nsmul_eq_mul]
    field_simp

/-- **C24.** Unknown variables and data of another shape are rejected. -/
theorem C24_rejects [Field α] (h : Compiled vgs hist garbage st) (v : Var) (data : NDArr α) (msgs : List α)
    (hbad : (¬ ∃ g ∈ vgs, v ∈ g.variables) ∨ data.shape ≠ [v.n]) :
    updateFtovMsg st msgs v data = .error .valueError := by
  obtain ⟨b1, -⟩ := h.blocks
  unfold updateFtovMsg
  cases hs : st.varsToStarts v with
  | none => rfl
  | some s =>
    rcases hbad with hbad | hbad
    · exact absurd ((b1 v).1 ⟨s, hs⟩) hbad
    · simp only [bind, Except.bind, throw, throwThe, MonadExceptOf.throw]
      rw [if_pos hbad]

/-! ## C25 -/

theorem Py.bind_ok {β γ : Type _} (m : Py β) (k : β → Py γ) (z : γ) : (m >>= k) = .ok z ↔ ∃ y, m = .ok y ∧ k y = .ok z := by
  cases m with
  | error e => simp [bind, Except.bind]
  | ok y => simp [bind, Except.bind]

/-- **C25, messages.** The result of `update_ftov_msgs` for an update dictionary (distinct variables) does not depend on the
order in which its entries are processed. -/
theorem C25_msgs [Field α] (h : Compiled vgs hist garbage st) (ups ups' : List (Var × NDArr α)) (hp : ups.Perm ups')
    (hkeys : (ups.map (·.1)).Nodup) (hwf : ∀ p ∈ ups, p.2.WF) (msgs : List α)
    (hm : msgs.length = st.totalFactorNumStates) (z : List α) :
    updateFtovMsgs st msgs ups = .ok z ↔ updateFtovMsgs st msgs ups' = .ok z := by
  obtain ⟨b1, -⟩ := h.blocks
  have key : ∀ (v : Var) (d : NDArr α), d.WF → ((∀ m, updateFtovMsg st m v d = .error .valueError) ∨
      ∃ s, st.varsToStarts v = some s ∧ d.shape = [v.n]) := by
    intro v d _
    by_cases hb : (¬ ∃ g ∈ vgs, v ∈ g.variables) ∨ d.shape ≠ [v.n]
    · exact .inl fun m => C24_rejects h v d m hb
    · push Not at hb
      obtain ⟨s, hs⟩ := (b1 v).2 hb.1
      exact .inr ⟨s, hs, hb.2⟩
  refine foldlM_perm _ (fun a b => a.1 ≠ b.1 ∧ a.2.WF ∧ b.2.WF) (fun a b hh => ⟨hh.1.symm, hh.2.2, hh.2.1⟩)
    (fun m => m.length = st.totalFactorNumStates) ?_ ?_ ups ups' hp ?_ msgs hm z
  · rintro m ⟨v, d⟩ y hml hy
    simp only at hy
    by_cases hd : d.shape = [v.n]
    · cases hs : st.varsToStarts v with
      | none => unfold updateFtovMsg at hy; rw [hs] at hy; cases hy
      | some s =>
        -- lengths are preserved by every slice assignment
        have hlen : ∀ (l : List Nat) (m y : List α) (n : Nat) (vals : List α),
            l.foldlM (fun m s => sliceAssign m s (s + n) vals) m = .ok y → y.length = m.length := by
          intro l
          induction l with
          | nil => intro m y n vals hh; cases hh; rfl
          | cons s l ih =>
            intro m y n vals hh
            rw [List.foldlM_cons, Py.bind_ok] at hh
            obtain ⟨w, h1, h2⟩ := hh
            rw [ih w y n vals h2]
            exact sliceAssign_length m s (s + n) vals w h1
        unfold updateFtovMsg at hy
        rw [hs] at hy
        simp only [hd, ne_eq, not_true_eq_false, if_false, bind, Except.bind, pure, Except.pure] at hy
        rw [hlen _ _ _ _ _ hy]; exact hml
    · rw [C24_rejects h v d m (.inr hd)] at hy; cases hy
  · rintro m ⟨v, d⟩ ⟨w, d'⟩ hml ⟨hne, hwf1, hwf2⟩ z hz
    simp only at hne hwf1 hwf2 hz ⊢
    rw [Py.bind_ok] at hz ⊢
    obtain ⟨y, y1, y2⟩ := hz
    rcases key v d hwf1 with hk | ⟨s, hs, hd⟩
    · rw [hk] at y1; cases y1
    rcases key w d' hwf2 with hk' | ⟨t, ht, hd'⟩
    · rw [hk'] at y2; cases y2
    obtain ⟨ov, o1, -, o3⟩ := h.updateFtov v s hs d hwf1 hd
    obtain ⟨ov', o1', -, o3'⟩ := h.updateFtov w t ht d' hwf2 hd'
    obtain ⟨ya, a1, a2, a3⟩ := o1 m hml
    obtain ⟨yb, c1, c2, c3⟩ := o1' m hml
    rw [y1] at a1
    cases a1
    obtain ⟨za, d1, d2, d3⟩ := o1' y (a2.trans hml)
    obtain ⟨zb, e1, e2, e3⟩ := o1 yb (c2.trans hml)
    rw [y2] at d1
    cases d1
    refine ⟨yb, c1, ?_⟩
    rw [e1]
    congr 1
    apply List.ext_getElem?
    intro p
    rw [e3, c3, d3, a3]
    by_cases hv : ov p = none
    · rw [hv]; rfl
    · by_cases hw : ov' p = none
      · rw [hw]; rfl
      · exfalso
        obtain ⟨⟨f, i⟩, he, j, hj, heq⟩ := o3 p hv
        obtain ⟨⟨f', i'⟩, he', j', hj', heq'⟩ := o3' p hw
        obtain ⟨vs, hf, hi⟩ := (mem_edgesOf _ _ _ _).1 he
        obtain ⟨vs', hf', hi'⟩ := (mem_edgesOf _ _ _ _).1 he'
        obtain ⟨h1, h2, -⟩ := edgeStart_inj _ f i f' i' vs vs' v w j j' hf hi hj hf' hi' hj' (heq ▸ heq')
        subst h1; subst h2
        rw [hf] at hf'
        cases hf'
        rw [hi] at hi'
        exact hne (Option.some.inj hi')
  · rw [List.Nodup, List.pairwise_map] at hkeys
    exact (List.pairwise_iff_forall_sublist.2 fun {a b} hab =>
      ⟨(List.pairwise_iff_forall_sublist.1 hkeys) hab, hwf a (hab.subset (by simp)), hwf b (hab.subset (by simp))⟩)

/-- Block writes to places that do not overlap can be done in any order. -/
theorem foldlM_blocks_perm {γ : Type _} (upd : List α → γ → Py (List α)) (N : Nat) (R : γ → γ → Prop)
    (hsym : ∀ a b, R a b → R b a) (ok : γ → Prop) (blk : γ → Nat → List α → Prop)
    (hshape : ∀ u, ok u → (∀ xs : List α, xs.length = N → ∃ e, upd xs u = .error e) ∨
      ∃ s vals, blk u s vals ∧ s + vals.length ≤ N ∧ ∀ xs : List α, xs.length = N → upd xs u = .ok (writeBlock xs s vals))
    (hdisj : ∀ u w, R u w → ∀ s vals t vals', blk u s vals → blk w t vals' →
      s + vals.length ≤ t ∨ t + vals'.length ≤ s ∨ vals = [] ∨ vals' = [])
    (ups ups' : List γ) (hp : ups.Perm ups') (hok : ∀ u ∈ ups, ok u) (hR : ups.Pairwise R) (xs : List α)
    (hxs : xs.length = N) (z : List α) : ups.foldlM upd xs = .ok z ↔ ups'.foldlM upd xs = .ok z := by
  have hlenP : ∀ (x : List α) a y, x.length = N → ok a → upd x a = .ok y → y.length = N := by
    intro x a y hx ha hy
    rcases hshape a ha with he | ⟨s, vals, -, h1, h2⟩
    · obtain ⟨e, he⟩ := he x hx
      rw [he] at hy; cases hy
    · rw [h2 x hx] at hy
      cases hy
      rw [writeBlock_length _ _ _ (by omega), hx]
  have hcomm : ∀ (x : List α) a b, x.length = N → (R a b ∧ ok a ∧ ok b) → ∀ z, (upd x a >>= fun y => upd y b) = .ok z →
      (upd x b >>= fun y => upd y a) = .ok z := by
    rintro x a b hx ⟨hab, ha, hb⟩ z hz
    rw [Py.bind_ok] at hz ⊢
    obtain ⟨y, y1, y2⟩ := hz
    rcases hshape a ha with he | ⟨s, vals, a0, a1, a2⟩
    · obtain ⟨e, he⟩ := he x hx; rw [he] at y1; cases y1
    rcases hshape b hb with he | ⟨t, vals', b0, b1, b2⟩
    · obtain ⟨e, he⟩ := he y (hlenP x a y hx ha y1); rw [he] at y2; cases y2
    have hyl := hlenP x a y hx ha y1
    rw [a2 x hx] at y1
    cases y1
    rw [b2 _ hyl] at y2
    cases y2
    refine ⟨_, b2 x hx, ?_⟩
    rw [a2 _ (by rw [writeBlock_length _ _ _ (by omega), hx])]
    congr 1
    refine (writeBlock_comm x s t vals vals' (by omega) (by omega) ?_).symm
    exact hdisj a b hab s vals t vals' a0 b0
  -- work with the entries that are acceptable
  have hsub : ∀ (l l' : List {u // ok u}), l.Perm l' → (l.map (·.1)).Pairwise R → ∀ x : List α, x.length = N →
      ((l.map (·.1)).foldlM upd x = .ok z ↔ (l'.map (·.1)).foldlM upd x = .ok z) := by
    intro l l' hll hRl x hx
    have := foldlM_perm (fun x (u : {u // ok u}) => upd x u.1) (fun a b => R a.1 b.1) (fun a b => hsym a.1 b.1)
      (fun x => x.length = N) (fun x a y hx hy => hlenP x a.1 y hx a.2 hy)
      (fun x a b hx hab => hcomm x a.1 b.1 hx ⟨hab, a.2, b.2⟩) l l' hll (by rwa [List.pairwise_map] at hRl) x hx z
    rw [List.foldlM_map, List.foldlM_map]
    exact this
  have e1 : ups = (ups.attach.map (fun u => (⟨u.1, hok u.1 u.2⟩ : {u // ok u}))).map (·.1) := by
    rw [List.map_map]; simp [Function.comp_def]
  have hok' : ∀ u ∈ ups', ok u := fun u hu => hok u (hp.mem_iff.2 hu)
  have e2 : ups' = (ups'.attach.map (fun u => (⟨u.1, hok' u.1 u.2⟩ : {u // ok u}))).map (·.1) := by
    rw [List.map_map]; simp [Function.comp_def]
  have hperm : (ups.attach.map (fun u => (⟨u.1, hok u.1 u.2⟩ : {u // ok u}))).Perm
      (ups'.attach.map (fun u => (⟨u.1, hok' u.1 u.2⟩ : {u // ok u}))) := by
    have : ((ups.attach.map (fun u => (⟨u.1, hok u.1 u.2⟩ : {u // ok u}))).map (·.1)).Perm
        ((ups'.attach.map (fun u => (⟨u.1, hok' u.1 u.2⟩ : {u // ok u}))).map (·.1)) := by rw [← e1, ← e2]; exact hp
    exact (List.map_perm_map_iff Subtype.val_injective).1 this
  rw [e1, e2]
  exact hsub _ _ hperm (by rw [← e1]; exact hR) xs hxs

/-- **C25, log potentials.** The result of `update_log_potentials` for an update dictionary (distinct group objects) does not
depend on the order in which its entries are processed. -/
theorem C25_logPotentials (h : Compiled vgs hist garbage st) (ups ups' : List (FGroup α × NDArr α)) (hp : ups.Perm ups')
    (hkeys : (ups.map (·.1.objId)).Nodup)
    (hids : ∀ p ∈ ups, ∀ k ∈ (graphOf vgs hist).allGroups, k.objId = p.1.objId → k = p.1)
    (lp : List α) (hlp : lp.length = st.logPotentials.length) (z : List α) :
    updateLogPotentials st lp ups = .ok z ↔ updateLogPotentials st lp ups' = .ok z := by
  have key : ∀ u : FGroup α × NDArr α, (∀ k ∈ (graphOf vgs hist).allGroups, k.objId = u.1.objId → k = u.1) →
      (∀ xs : List α, xs.length = st.logPotentials.length → ∃ e, updateLogPotential st xs u.1 u.2 = .error e) ∨
      (u.1 ∈ (graphOf vgs hist).allGroups ∧ ∃ s vals, st.groupToPotsStart u.1.objId = some s ∧
        vals.length = u.1.logPotentials.length ∧ s + vals.length ≤ st.logPotentials.length ∧
        ∀ xs : List α, xs.length = st.logPotentials.length → updateLogPotential st xs u.1 u.2 = .ok (writeBlock xs s vals)) := by
    intro u hu
    by_cases hg : u.1 ∈ (graphOf vgs hist).allGroups
    · obtain ⟨s, s1, s2, -⟩ := h.potsBlock u.1 hg
      cases hf : u.1.flatten u.2 with
      | error e =>
        left; intro xs _; refine ⟨e, ?_⟩
        unfold updateLogPotential
        rw [s1]
        simp only [hf, bind, Except.bind]
      | ok x =>
        by_cases hl : x.length = u.1.logPotentials.length
        · right
          refine ⟨hg, s, x, s1, hl, by rw [hl]; exact s2, ?_⟩
          intro xs hxs
          unfold updateLogPotential
          rw [s1]
          simp only [hf, bind, Except.bind, throw, throwThe, MonadExceptOf.throw, pure, Except.pure]
          rw [if_neg (by simpa using hl)]
          exact sliceAssign_ok xs s x.length x (by omega) rfl
        · left; intro xs _; refine ⟨.valueError, ?_⟩
          unfold updateLogPotential
          rw [s1]
          simp only [hf, bind, Except.bind, throw, throwThe, MonadExceptOf.throw, pure, Except.pure]
          rw [if_pos (by simpa using hl)]
    · left; intro xs _; refine ⟨.valueError, ?_⟩
      unfold updateLogPotential
      rw [h.potsStart_none u.1.objId (fun k hk he => hg (by rw [← hu k hk he]; exact hk))]
      rfl
  refine foldlM_blocks_perm (fun lp (p : FGroup α × NDArr α) => updateLogPotential st lp p.1 p.2) st.logPotentials.length
    (fun a b => a.1.objId ≠ b.1.objId) (fun a b hab => hab.symm)
    (fun u => ∀ k ∈ (graphOf vgs hist).allGroups, k.objId = u.1.objId → k = u.1)
    (fun u s vals => u.1 ∈ (graphOf vgs hist).allGroups ∧ st.groupToPotsStart u.1.objId = some s ∧
        vals.length = u.1.logPotentials.length) ?_ ?_ ups ups' hp hids ?_ lp hlp z
  · intro u hu
    rcases key u hu with he | ⟨h0, s, vals, h1, h2, h3, h4⟩
    · exact .inl he
    · exact .inr ⟨s, vals, ⟨h0, h1, h2⟩, h3, h4⟩
  · rintro u w hne s vals t vals' ⟨hu, hs, hl⟩ ⟨hw, ht, hl'⟩
    obtain ⟨s', s1, -, s3⟩ := h.potsBlock u.1 hu
    obtain ⟨t', t1, t2⟩ := s3 w.1 hw (fun he => hne (by rw [he]))
    rw [hs] at s1
    rw [ht] at t1
    cases s1; cases t1
    rw [hl, hl']
    rcases t2 with t2 | t2
    · exact .inl t2
    · exact .inr (.inl t2)
  · rw [List.Nodup, List.pairwise_map] at hkeys
    exact hkeys

/-- The variables an evidence update names. -/
def EvidenceUpdate.targets : EvidenceUpdate κ α → List Var
  | .group g _ => g.variables
  | .var v _ => [v]

/-- An acceptable entry of an evidence update dictionary: the group is one of the graph's or has another hash than all of
them, and accepted data for a group fits into the group (it does when it has one value per state, and always when every
variable has a state, `flatten_length_le`). -/
def EvidenceUpdate.Ok [DecidableEq κ] (vgs : List (VGroup κ)) : EvidenceUpdate κ α → Prop
  | .group g data => (g ∈ vgs ∨ ∀ k ∈ vgs, k.hash ≠ g.hash) ∧ ∀ x, g.flatten data = .ok x → x.length ≤ g.numStates.sum
  | .var _ _ => True

/-- **C25, evidence, partial.** The result of `update_evidence` for an update dictionary over pairwise disjoint sets of
variables does not depend on the order in which its entries are processed, when accepted data fits into the group.
Missing: groups with variables of no states at all, whose accepted data can spill into the next group
(`C25_zero_states_refuted`); `C25_evidence` has no such restriction for graphs whose variables have states. -/
theorem C25_evidence_partial [DecidableEq κ] (h : Compiled vgs hist garbage st) (ups ups' : List (EvidenceUpdate κ α))
    (hp : ups.Perm ups') (hdis : ups.Pairwise (fun a b => a.targets.Disjoint b.targets)) (hok : ∀ u ∈ ups, u.Ok vgs)
    (ev : List α) (hev : ev.length = st.numVarStates) (z : List α) :
    updateEvidence st ev ups = .ok z ↔ updateEvidence st ev ups' = .ok z := by
  obtain ⟨b1, b2, b3, b4⟩ := h.blocks
  refine foldlM_blocks_perm (updateEvidence1 st) st.numVarStates (fun a b => a.targets.Disjoint b.targets)
    (fun a b hab => hab.symm) (fun u => u.Ok vgs)
    (fun u s vals => s + vals.length ≤ st.numVarStates ∧
      ∀ v t, st.varsToStarts v = some t → v ∉ u.targets → t + v.n ≤ s ∨ s + vals.length ≤ t) ?_ ?_ ups ups' hp hok hdis
    ev hev z
  · intro u hu
    cases u with
    | group g data =>
      obtain ⟨hg, hfit⟩ := hu
      rcases hg with hg | hg
      · by_cases hne : g.variables = []
        · left
          intro xs _
          refine ⟨.indexError, ?_⟩
          simp only [updateEvidence1]
          rw [if_pos (by rw [h.varGroups, List.any_eq_true]; exact ⟨g, hg, by simp [VGroup.pyEq]⟩), hne]
          rfl
        · cases hf : g.flatten data with
          | error e =>
            left
            intro xs _
            obtain ⟨s, -, -, -, h4⟩ := updateEvidence_group h g hg hne xs data
            exact ⟨e, by rw [h4, hf]; rfl⟩
          | ok x =>
            right
            obtain ⟨s, s1, s2, s3⟩ := updateEvidence_group_fits h g hg hne data x hf (hfit x hf)
            exact ⟨s, x, ⟨s1, s2⟩, s1, s3⟩
      · left
        intro xs _
        exact ⟨_, C22_unknown h xs g hg data⟩
    | var v data =>
      cases hs : st.varsToStarts v with
      | none =>
        left; intro xs _
        exact ⟨.valueError, by simp only [updateEvidence1, hs]⟩
      | some s =>
        have hle := b2 v s hs
        have hd : ∀ (vals : List α), vals.length = v.n → ∀ w t, st.varsToStarts w = some t →
            w ∉ (EvidenceUpdate.var v data : EvidenceUpdate κ α).targets → t + w.n ≤ s ∨ s + vals.length ≤ t := by
          intro vals hvals w t hw hnot
          rw [hvals]
          exact b3 w v t s hw hs (by simpa [EvidenceUpdate.targets] using hnot)
        by_cases h1 : data.shape.length = 1
        · have hupd : ∀ xs : List α, updateEvidence1 st xs (.var v data) = sliceAssign xs s (s + v.n) data.data := by
            intro xs
            simp only [updateEvidence1, hs, if_pos h1]
          by_cases hl : data.data.length = v.n
          · right
            refine ⟨s, data.data, ⟨by omega, hd _ hl⟩, by omega, ?_⟩
            intro xs hxs
            rw [hupd, sliceAssign_ok xs s v.n _ (by omega) hl]
          · match hdd : data.data with
            | [] =>
              left; intro xs hxs; rw [hupd, sliceAssign_block xs s v.n _ (by omega), if_neg hl, hdd]; exact ⟨_, rfl⟩
            | [a] =>
              right
              refine ⟨s, List.replicate v.n a, ⟨by simp; omega, hd _ (by simp)⟩, by simp; omega, ?_⟩
              intro xs hxs
              rw [hupd, sliceAssign_block xs s v.n _ (by omega), if_neg hl, hdd]
            | _ :: _ :: _ =>
              left; intro xs hxs; rw [hupd, sliceAssign_block xs s v.n _ (by omega), if_neg hl, hdd]; exact ⟨_, rfl⟩
        · left; intro xs _
          exact ⟨.valueError, by simp only [updateEvidence1, hs, if_neg h1]⟩
  · rintro u w huw s vals t vals' ⟨hs, hu⟩ ⟨ht, hw⟩
    by_contra hc
    push Not at hc
    obtain ⟨c1, c2, c3, c4⟩ := hc
    have l1 := List.length_pos_iff.2 c3
    have l2 := List.length_pos_iff.2 c4
    obtain ⟨v, r, hv, hv1, hv2⟩ := b4 (max s t) (by omega)
    have m1 : v ∈ u.targets := by
      by_contra hn
      rcases hu v r hv hn with hh | hh <;> omega
    have m2 : v ∈ w.targets := by
      by_contra hn
      rcases hw v r hv hn with hh | hh <;> omega
    exact huw m1 m2

/-- **C25, evidence.** For graphs in which every variable has at least one state: the result of `update_evidence` for an
update dictionary over pairwise disjoint sets of variables does not depend on the order in which its entries are
processed, whatever the shapes of the data. -/
theorem C25_evidence [DecidableEq κ] (h : Compiled vgs hist garbage st) (ups ups' : List (EvidenceUpdate κ α))
    (hp : ups.Perm ups') (hdis : ups.Pairwise (fun a b => a.targets.Disjoint b.targets))
    (hvg : ∀ g ∈ vgs, g.NamesOk ∧ ∀ n ∈ g.numStates, 1 ≤ n)
    (hok : ∀ g data, EvidenceUpdate.group g data ∈ ups → data.WF ∧ (g ∈ vgs ∨ ∀ k ∈ vgs, k.hash ≠ g.hash))
    (ev : List α) (hev : ev.length = st.numVarStates) (z : List α) :
    updateEvidence st ev ups = .ok z ↔ updateEvidence st ev ups' = .ok z := by
  by_cases hall : ∀ g data, EvidenceUpdate.group g data ∈ ups → g ∈ vgs
  · refine C25_evidence_partial h ups ups' hp hdis ?_ ev hev z
    intro u hu
    cases u with
    | group g data =>
      obtain ⟨i, hb⟩ := h.vgroups.built g (hall g data hu)
      obtain ⟨hn, hpos⟩ := hvg g (hall g data hu)
      exact ⟨.inl (hall g data hu), flatten_length_le g hb hn hpos data (hok g data hu).1⟩
    | var v data => trivial
  · -- an unknown group: both orders raise
    push Not at hall
    obtain ⟨g, data, hin, hg⟩ := hall
    have hunk := ((hok g data hin).2).resolve_left hg
    have hno : ∀ (l : List (EvidenceUpdate κ α)) (xs : List α), EvidenceUpdate.group g data ∈ l →
        ¬ updateEvidence st xs l = .ok z := by
      intro l
      induction l with
      | nil => intro xs hh; simp at hh
      | cons a l ih =>
        intro xs hh hz
        rw [updateEvidence, List.foldlM_cons, Py.bind_ok] at hz
        obtain ⟨y, y1, y2⟩ := hz
        rcases List.mem_cons.1 hh with rfl | hh
        · rw [C22_unknown h xs g hunk data] at y1; cases y1
        · exact ih y hh y2
    exact ⟨fun hz => absurd hz (hno _ _ hin), fun hz => absurd hz (hno _ _ (hp.mem_iff.1 hin))⟩

/-- A dictionary with a variable of no states, followed by an array of one 2-state variable. -/
def exZeroVars : List (VGroup Nat) := [.dict ⟨1000000000, [0], [0]⟩, .arr ⟨2000000000, [1], [2]⟩]
/-- Its compiled state without factors. -/
def exZeroState : FGState Nat ℚ :=
  match (FactorGraph.create exZeroVars : FactorGraph Nat ℚ).fgState 0 with
  | .ok st => st
  | .error _ => exEvState

theorem exZero_compiled : Compiled exZeroVars ([] : List (AddArg ℚ)) 0 exZeroState where
  vgroups :=
    { built := by
        simp only [exZeroVars, List.mem_cons, List.not_mem_nil, or_false, forall_eq_or_imp, forall_eq]
        exact ⟨⟨1, .dict (ns := .scalar 0) (names := [0]) (by simp) (by simp) (by decide)⟩,
          ⟨2, .arr (ns := .scalar 2) (shape := [1]) (by simp) (by decide)⟩⟩
      distinct := by simp [exZeroVars, VGroup.pyEq, VGroup.hash] }
  valid := by simp
  ids := by intro g hg; simp [graphOf, FactorGraph.addHistory, FactorGraph.create, FType.all] at hg
  compiled := rfl

/-- **C25 is false for evidence in the presence of a variable without states:** a single value given for it is accepted and
written over the first state of the next group, before or after the value meant for that state. -/
theorem C25_zero_states_refuted : ∃ (u w : EvidenceUpdate Nat ℚ) (ev : List ℚ),
    Compiled exZeroVars ([] : List (AddArg ℚ)) 0 exZeroState ∧ u.targets.Disjoint w.targets ∧
    ev.length = exZeroState.numVarStates ∧
    updateEvidence exZeroState ev [u, w] = .ok [7, 8] ∧ updateEvidence exZeroState ev [w, u] = .ok [5, 8] :=
  ⟨.group (.dict ⟨1000000000, [0], [0]⟩) (.dict [(0, ⟨[1], [5]⟩)]),
    .group (.arr ⟨2000000000, [1], [2]⟩) (.arr ⟨[1, 2], [7, 8]⟩), [0, 0], exZero_compiled, by
      simp [EvidenceUpdate.targets, VGroup.variables, VarDict.variables, VarDict.variableHashes, NDVarArray.variables,
        NDVarArray.variableHashes], rfl, rfl, rfl⟩

/-! ### A concrete graph for the hypotheses of C21, C22, C24 and C25 -/

/-- A history: an enumeration group over two pairs of variables of `exVars`, then an OR and an AND of two of them. -/
def exHist : List (AddArg ℚ) := [.one (exGroup 5 [[exVar 0, exVar 1], [exVar 1, exVar 2]]), .one (exOr 6 0 1),
  .list [.one ⟨7, .and, .single, [[exVar 1, exVar 0, exVar 2]], ⟨0, []⟩, []⟩]]
/-- Its compiled state. -/
def exState : FGState Nat ℚ :=
  match (graphOf exVars exHist).fgState 0 with
  | .ok st => st
  | .error _ => exEvState

theorem exVars_ok : VGroupsOk exVars where
  built := by
    simp only [exVars, List.mem_cons, List.not_mem_nil, or_false, forall_eq]
    exact ⟨1, .arr (ns := .scalar 2) (shape := [3]) (by simp) (by decide)⟩
  distinct := by simp [exVars]

theorem exState_compiled : Compiled exVars exHist 0 exState where
  vgroups := exVars_ok
  valid := by
    simp only [exHist, List.mem_cons, List.not_mem_nil, or_false, forall_eq_or_imp, forall_eq, AddArg.flat, AddArg.flatList,
      List.append_nil]
    refine ⟨?_, ?_, ?_⟩
    · refine ⟨by decide, by decide, fun _ => ⟨by decide, by decide, by decide, ?_, by rfl⟩, fun h => absurd rfl h⟩
      intro vs hvs r hr
      simp only [exGroup, List.mem_cons, List.not_mem_nil, or_false] at hvs hr
      rcases hvs with rfl | rfl <;> rcases hr with rfl | rfl <;> simp [exVar]
    · exact ⟨by decide, by decide, (fun h => by cases h), fun _ => ⟨rfl, by unfold LogicalScope; decide⟩⟩
    · exact ⟨by decide, by decide, (fun h => by cases h), fun _ => ⟨rfl, by unfold LogicalScope; decide⟩⟩
  ids := by
    have e : FType.all.flatMap (graphOf exVars exHist).groups = [exGroup 5 [[exVar 0, exVar 1], [exVar 1, exVar 2]],
      exOr 6 0 1, ⟨7, .and, .single, [[exVar 1, exVar 0, exVar 2]], ⟨0, []⟩, []⟩] := by rfl
    rw [e]
    intro g hg k hk hid
    simp only [List.mem_cons, List.not_mem_nil, or_false] at hg hk
    rcases hg with rfl | rfl | rfl <;> rcases hk with rfl | rfl | rfl <;> first | rfl | (simp [exGroup, exOr] at hid)
  compiled := rfl

/-- Non-vacuity of C21, C24 and C25: a group of this graph with new data, a variable with four edges, two variables. -/
example : exGroup 5 [[exVar 0, exVar 1], [exVar 1, exVar 2]] ∈ (graphOf exVars exHist).groups .enum ∧
    updateLogPotential exState [0, 0, 0, 0] (exGroup 5 [[exVar 0, exVar 1], [exVar 1, exVar 2]]) ⟨[2, 2], [1, 2, 3, 4]⟩
      = .ok [1, 2, 3, 4] ∧
    edgesOf (graphOf exVars exHist).allScopes (exVar 1) = [(0, 1), (1, 0), (2, 1), (3, 0)] ∧
    exState.totalFactorNumStates = 18 ∧
    (updateFtovMsg exState (List.replicate 18 0) (exVar 1) ⟨[2], [4, 8]⟩).toOption
      = some [0, 0, 1, 2, 1, 2, 0, 0, 0, 0, 1, 2, 1, 2, 0, 0, 0, 0] ∧
    (updateFtovMsgs exState (List.replicate 18 0) [(exVar 1, ⟨[2], [4, 8]⟩), (exVar 2, ⟨[2], [2, 4]⟩)]).toOption
      = some [0, 0, 1, 2, 1, 2, 1, 2, 0, 0, 1, 2, 1, 2, 0, 0, 1, 2] := by
  refine ⟨?_, by rfl, by rfl, by rfl, by decide +kernel, by decide +kernel⟩
  have e : (graphOf exVars exHist).groups .enum = [exGroup 5 [[exVar 0, exVar 1], [exVar 1, exVar 2]]] := by rfl
  rw [e]; simp

end PGMax
