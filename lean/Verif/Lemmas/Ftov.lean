import Verif.Lemmas.Compiled
import Mathlib.Algebra.CharZero.Defs
import Mathlib.Data.List.Nodup

/-! Helper lemmas for updates of factor-to-variable messages. -/

namespace PGMax

variable {κ α : Type _} {vgs : List (VGroup κ)} {hist : List (AddArg α)} {garbage : Garbage} {st : FGState κ α}

theorem mem_edgesOf (scopes : List (List Var)) (v : Var) (f i : Nat) :
    (f, i) ∈ edgesOf scopes v ↔ ∃ vs, scopes[f]? = some vs ∧ vs[i]? = some v := by
  unfold edgesOf
  simp only [List.mem_flatMap, List.mem_range, List.mem_map, List.mem_filter, decide_eq_true_eq, Prod.mk.injEq]
  constructor
  · rintro ⟨f', hf, i', ⟨hi, he⟩, rfl, rfl⟩
    exact ⟨scopes[f'], List.getElem?_eq_getElem hf, by simpa [List.getD, List.getElem?_eq_getElem hf] using he⟩
  · rintro ⟨vs, hf, hi⟩
    have hd : scopes.getD f [] = vs := by simp [List.getD, hf]
    exact ⟨f, (List.getElem?_eq_some_iff.1 hf).1, i, ⟨by rw [hd]; exact (List.getElem?_eq_some_iff.1 hi).1, by rw [hd]; exact hi⟩,
      rfl, rfl⟩

theorem edgesOf_nodup (scopes : List (List Var)) (v : Var) : (edgesOf scopes v).Nodup := by
  unfold edgesOf
  rw [List.nodup_flatMap]
  constructor
  · intro f _
    exact ((List.nodup_range).filter _).map (fun a b h => by simpa using h)
  · refine List.Pairwise.imp ?_ List.nodup_range
    intro f f' hne
    rw [Function.onFun, List.disjoint_left]
    intro p hp hp'
    obtain ⟨_, _, rfl⟩ := List.mem_map.1 hp
    obtain ⟨_, _, h⟩ := List.mem_map.1 hp'
    exact hne (Prod.mk.inj h).1.symm

theorem mem_nonzeroEq (xs : List Nat) (x p : Nat) : p ∈ nonzeroEq xs x ↔ xs[p]? = some x := by
  unfold nonzeroEq
  simp only [List.mem_filter, List.mem_range, Bool.and_eq_true, beq_iff_eq, decide_eq_true_eq]
  constructor
  · rintro ⟨h1, h2, -⟩
    rw [List.getElem?_eq_getElem h1]
    rw [List.getD, List.getElem?_eq_getElem h1] at h2
    simpa using h2
  · intro h
    obtain ⟨h1, h2⟩ := List.getElem?_eq_some_iff.1 h
    exact ⟨h1, by simp [List.getD, h], h1⟩

theorem nonzeroEq_nodup (xs : List Nat) (x : Nat) : (nonzeroEq xs x).Nodup := List.nodup_range.filter _

/-- Writing the same block at several disjoint places. -/
theorem foldlM_writes (n : Nat) (vals : List α) (hv : vals.length = n) (starts : List Nat)
    (hd : starts.Pairwise (fun s t => s + n ≤ t ∨ t + n ≤ s)) (msgs : List α)
    (hb : ∀ s ∈ starts, s + n ≤ msgs.length) :
    ∃ z, starts.foldlM (fun m s => sliceAssign m s (s + n) vals) msgs = .ok z ∧ z.length = msgs.length ∧
      (∀ s ∈ starts, ∀ j, j < n → z[s + j]? = vals[j]?) ∧
      (∀ p, (∀ s ∈ starts, ¬ (s ≤ p ∧ p < s + n)) → z[p]? = msgs[p]?) := by
  induction starts generalizing msgs with
  | nil => exact ⟨msgs, rfl, rfl, by simp, by simp⟩
  | cons s starts ih =>
    rw [List.pairwise_cons] at hd
    have hs := hb s (by simp)
    have hw := writeBlock_length msgs s vals (by omega)
    obtain ⟨z, h1, h2, h3, h4⟩ := ih hd.2 (writeBlock msgs s vals) (by
      intro t ht; rw [hw]; exact hb t (by simp [ht]))
    refine ⟨z, ?_, h2.trans hw, ?_, ?_⟩
    · rw [List.foldlM_cons, sliceAssign_ok msgs s n vals hs hv]
      exact h1
    · intro t ht j hj
      rcases List.mem_cons.1 ht with rfl | ht
      · rw [h4 (t + j), writeBlock_getElem? _ _ _ (by omega), if_pos (by omega), Nat.add_sub_cancel_left]
        intro u hu
        rcases hd.1 u hu with h | h <;> omega
      · exact h3 t ht j hj
    · intro p hp
      rw [h4 p (fun t ht => hp t (by simp [ht])), writeBlock_getElem? _ _ _ (by omega), if_neg]
      have := hp s (by simp)
      rw [hv]; exact this

/-- The places found by `update_ftov_msgs` are the edges of the variable. -/
theorem Compiled.nonzeroEq_perm (h : Compiled vgs hist garbage st) (v : Var) (hn : 0 < v.n) (s : Nat)
    (hs : st.varsToStarts v = some s) :
    (nonzeroEq st.allVarStates s).Perm
      ((edgesOf (graphOf vgs hist).allScopes v).map (fun e => edgeStart (graphOf vgs hist).allScopes e.1 e.2)) := by
  obtain ⟨-, -, b3, -⟩ := h.blocks
  set scopes := (graphOf vgs hist).allScopes with hsc
  rw [List.perm_ext_iff_of_nodup (nonzeroEq_nodup _ _)]
  · intro p
    rw [mem_nonzeroEq, h.allVarStates, ← hsc, List.mem_map]
    constructor
    · intro hp
      have hl := (List.getElem?_eq_some_iff.1 hp).1
      rw [vsEntries_length] at hl
      obtain ⟨f, i, vs, w, j, hf, hi, hj, rfl⟩ := exists_edgeStart scopes p hl
      rw [vsEntries_getElem? _ scopes f i vs w j hf hi hj] at hp
      obtain ⟨t, ht⟩ := h.scopeVars vs (List.mem_iff_getElem?.2 ⟨f, hf⟩) w (List.mem_iff_getElem?.2 ⟨i, hi⟩)
      rw [ht, Option.getD_some, Option.some.injEq] at hp
      by_cases hwv : w = v
      · subst hwv
        rw [ht, Option.some.injEq] at hs
        have : j = 0 := by omega
        subst this
        exact ⟨(f, i), (mem_edgesOf _ _ _ _).2 ⟨vs, hf, hi⟩, rfl⟩
      · rcases b3 w v t s ht hs hwv with h' | h' <;> omega
    · rintro ⟨⟨f, i⟩, he, rfl⟩
      obtain ⟨vs, hf, hi⟩ := (mem_edgesOf _ _ _ _).1 he
      have := vsEntries_getElem? st.varsToStarts scopes f i vs v 0 hf hi hn
      rw [hs] at this
      simpa using this
  · refine List.Nodup.map_on ?_ (edgesOf_nodup _ _)
    rintro ⟨f, i⟩ he ⟨f', i'⟩ he' heq
    obtain ⟨vs, hf, hi⟩ := (mem_edgesOf _ _ _ _).1 he
    obtain ⟨vs', hf', hi'⟩ := (mem_edgesOf _ _ _ _).1 he'
    obtain ⟨h1, h2, -⟩ := edgeStart_inj scopes f i f' i' vs vs' v v 0 0 hf hi hn hf' hi' hn (by simpa using heq)
    rw [h1, h2]

theorem Compiled.edgeStart_lt (h : Compiled vgs hist garbage st) {f i : Nat} {vs : List Var} {v : Var} {s : Nat}
    (hf : (graphOf vgs hist).allScopes[f]? = some vs) (hi : vs[i]? = some v) (hs : s < v.n) :
    edgeStart (graphOf vgs hist).allScopes f i + s < st.totalFactorNumStates := by
  rw [h.totalStates]
  exact PGMax.edgeStart_lt _ f i vs v s hf hi hs

/-- What a message update does, position by position: `ov` are the values written. -/
theorem Compiled.updateFtov [Field α] (h : Compiled vgs hist garbage st) (v : Var) (s : Nat)
    (hs : st.varsToStarts v = some s) (data : NDArr α) (hd : data.WF) (hsh : data.shape = [v.n]) :
    ∃ ov : Nat → Option α,
      (∀ msgs : List α, msgs.length = st.totalFactorNumStates → ∃ z, updateFtovMsg st msgs v data = .ok z ∧
        z.length = msgs.length ∧ ∀ p, z[p]? = (ov p).or msgs[p]?) ∧
      (∀ e ∈ edgesOf (graphOf vgs hist).allScopes v, ∀ j x, j < v.n → data.data[j]? = some x →
        ov (edgeStart (graphOf vgs hist).allScopes e.1 e.2 + j)
          = some (x / ((edgesOf (graphOf vgs hist).allScopes v).length : α))) ∧
      (∀ p, ov p ≠ none → ∃ e ∈ edgesOf (graphOf vgs hist).allScopes v, ∃ j, j < v.n ∧
        p = edgeStart (graphOf vgs hist).allScopes e.1 e.2 + j) := by
  have hlen : data.data.length = v.n := by rw [hd, hsh]; simp
  have hupd : ∀ msgs : List α, updateFtovMsg st msgs v data
      = (nonzeroEq st.allVarStates s).foldlM (fun m p => sliceAssign m p (p + v.n)
          (data.data.map (· / ((nonzeroEq st.allVarStates s).length : α)))) msgs := by
    intro msgs
    unfold updateFtovMsg
    rw [hs]
    simp only [hsh, ne_eq, not_true_eq_false, if_false, bind, Except.bind, pure, Except.pure]
  have hmemlt : ∀ p ∈ nonzeroEq st.allVarStates s, p < st.totalFactorNumStates := by
    intro p hp
    rw [mem_nonzeroEq] at hp
    have hl := (List.getElem?_eq_some_iff.1 hp).1
    rw [h.allVarStates, vsEntries_length] at hl
    rw [h.totalStates]; exact hl
  by_cases hn : v.n = 0
  · refine ⟨fun _ => none, ?_, ?_, by simp⟩
    · intro msgs hm
      have : ∀ l : List Nat, (∀ p ∈ l, p < msgs.length) → l.foldlM (fun m p => sliceAssign m p (p + v.n)
          (data.data.map (· / ((nonzeroEq st.allVarStates s).length : α)))) msgs = .ok msgs := by
        intro l
        induction l with
        | nil => intro _; rfl
        | cons p l ih =>
          intro hl
          have hp := hl p (by simp)
          rw [List.foldlM_cons, sliceAssign_ok msgs p v.n _ (by omega) (by simp [hlen])]
          have hw : writeBlock msgs p (data.data.map (· / ((nonzeroEq st.allVarStates s).length : α))) = msgs := by
            have : data.data = [] := List.length_eq_zero_iff.1 (by omega)
            simp [writeBlock, this]
          rw [hw]
          exact ih (fun q hq => hl q (by simp [hq]))
      refine ⟨msgs, ?_, rfl, by simp⟩
      rw [hupd]
      exact this _ (by rw [hm]; exact hmemlt)
    · intro e _ j x hj; omega
  · have hn' : 0 < v.n := by omega
    have hperm := h.nonzeroEq_perm v hn' s hs
    set scopes := (graphOf vgs hist).allScopes with hsc
    set k := (edgesOf scopes v).length with hk
    have hklen : (nonzeroEq st.allVarStates s).length = k := by rw [hperm.length_eq]; simp [hk]
    set starts := nonzeroEq st.allVarStates s with hst
    have hmem : ∀ p, p ∈ starts ↔ ∃ e ∈ edgesOf scopes v, p = edgeStart scopes e.1 e.2 := by
      intro p
      rw [hperm.mem_iff, List.mem_map]
      constructor
      · rintro ⟨e, he, rfl⟩; exact ⟨e, he, rfl⟩
      · rintro ⟨e, he, rfl⟩; exact ⟨e, he, rfl⟩
    have hinj : ∀ p ∈ starts, ∀ q ∈ starts, ∀ a b, a < v.n → b < v.n → p + a = q + b → p = q ∧ a = b := by
      intro p hp q hq a b ha hb hab
      obtain ⟨⟨f, i⟩, he, rfl⟩ := (hmem p).1 hp
      obtain ⟨⟨f', i'⟩, he', rfl⟩ := (hmem q).1 hq
      obtain ⟨vs, hf, hi⟩ := (mem_edgesOf _ _ _ _).1 he
      obtain ⟨vs', hf', hi'⟩ := (mem_edgesOf _ _ _ _).1 he'
      obtain ⟨h1, h2, h3⟩ := edgeStart_inj scopes f i f' i' vs vs' v v a b hf hi ha hf' hi' hb hab
      subst h1; subst h2; exact ⟨rfl, h3⟩
    have hdisj : starts.Pairwise (fun p q => p + v.n ≤ q ∨ q + v.n ≤ p) := by
      refine (nonzeroEq_nodup _ _).pairwise_of_forall_ne ?_
      intro p hp q hq hne
      by_contra hc
      rcases Nat.le_total p q with hpq | hpq
      · exact hne (hinj p hp q hq (q - p) 0 (by omega) hn' (by omega)).1
      · exact hne (hinj p hp q hq 0 (p - q) hn' (by omega) (by omega)).1
    classical
    refine ⟨fun p => if hp : ∃ q ∈ starts, q ≤ p ∧ p < q + v.n then (data.data[p - hp.choose]?).map (· / (k : α)) else none, ?_, ?_, ?_⟩
    · intro msgs hm
      obtain ⟨z, z1, z2, z3, z4⟩ := foldlM_writes v.n (data.data.map (· / (k : α))) (by simp [hlen]) starts hdisj msgs (by
        intro p hp
        obtain ⟨⟨f, i⟩, he, rfl⟩ := (hmem p).1 hp
        obtain ⟨vs, hf, hi⟩ := (mem_edgesOf _ _ _ _).1 he
        have := h.edgeStart_lt hf hi (show v.n - 1 < v.n by omega)
        rw [← hsc] at this
        simp only
        omega)
      refine ⟨z, ?_, z2, ?_⟩
      · rw [hupd, hklen]; exact z1
      · intro p
        by_cases hp : ∃ q ∈ starts, q ≤ p ∧ p < q + v.n
        · simp only [dif_pos hp]
          obtain ⟨hq1, hq2, hq3⟩ := hp.choose_spec
          have := z3 _ hq1 (p - hp.choose) (by omega)
          rw [Nat.add_sub_cancel' hq2, List.getElem?_map] at this
          rw [this]
          rw [List.getElem?_eq_getElem (show p - hp.choose < data.data.length by omega)]
          rfl
        · simp only [dif_neg hp]
          push Not at hp
          rw [z4 p (fun q hq hh => absurd hh.2 (by have := hp q hq hh.1; omega))]
          rfl
    · rintro e he j x hj hx
      have hin : edgeStart scopes e.1 e.2 ∈ starts := (hmem _).2 ⟨e, he, rfl⟩
      have hp : ∃ q ∈ starts, q ≤ edgeStart scopes e.1 e.2 + j ∧ edgeStart scopes e.1 e.2 + j < q + v.n :=
        ⟨_, hin, by omega, by omega⟩
      simp only [dif_pos hp]
      obtain ⟨hq1, hq2, hq3⟩ := hp.choose_spec
      obtain ⟨e1, e2⟩ := hinj _ hin _ hq1 j (edgeStart scopes e.1 e.2 + j - hp.choose) hj (by omega) (by omega)
      rw [← e2, hx]
      rfl
    · intro p hov
      by_cases hp : ∃ q ∈ starts, q ≤ p ∧ p < q + v.n
      · obtain ⟨q, hq, h1, h2⟩ := hp
        obtain ⟨e, he, rfl⟩ := (hmem q).1 hq
        exact ⟨e, he, p - edgeStart scopes e.1 e.2, by omega, by omega⟩
      · simp only [dif_neg hp, ne_eq, not_true_eq_false] at hov

end PGMax
