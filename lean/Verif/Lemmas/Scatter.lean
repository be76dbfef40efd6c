import Verif.Lemmas.Ftov
import Verif.Model.BP
import Verif.Spec.BP

/-! Helper lemmas: scatters and gathers as sums and maxima over edges. -/

namespace PGMax

variable {κ α : Type _} {vgs : List (VGroup κ)} {hist : List (AddArg α)} {garbage : Garbage} {st : FGState κ α}

theorem getD_of_some {β : Type _} {xs : List β} {i : Nat} {x d : β} (h : xs[i]? = some x) : xs.getD i d = x := by
  simp [List.getD, h]

theorem hits_map {β γ : Type _} (E : List γ) (a : γ → Nat) (F : γ → β) (k : Nat) :
    hits (E.map a) (E.map F) k = (E.filter (fun e => a e == k)).map F := by
  unfold hits
  induction E with
  | nil => rfl
  | cons e E ih =>
    simp only [List.map_cons, List.zip_cons_cons, List.filter_cons]
    by_cases h : a e == k
    · simp only [h, if_true, List.map_cons, ih]
    · simp only [h]; exact ih

/-- Values sent to position `k`, by position of the index array. -/
theorem hits_nonzeroEq {β : Type _} (idx : List Nat) (vals : List β) (d : β) (h : vals.length = idx.length) (k : Nat) :
    hits idx vals k = (nonzeroEq idx k).map (fun p => vals.getD p d) := by
  have h1 : idx = (List.range idx.length).map (fun p => idx.getD p 0) := by
    apply List.ext_getElem?
    intro i
    rw [List.getElem?_map]
    by_cases hi : i < idx.length
    · rw [List.getElem?_range hi]; simp [List.getElem?_eq_getElem hi]
    · rw [List.getElem?_eq_none (by omega), List.getElem?_eq_none (by simpa using hi)]; rfl
  have h2 : vals = (List.range idx.length).map (fun p => vals.getD p d) := by
    apply List.ext_getElem?
    intro i
    rw [List.getElem?_map]
    by_cases hi : i < idx.length
    · rw [List.getElem?_range hi]; simp [List.getElem?_eq_getElem (show i < vals.length by omega)]
    · rw [List.getElem?_eq_none (by omega), List.getElem?_eq_none (by simpa using hi)]; rfl
  have h3 : hits idx vals k = hits ((List.range idx.length).map (fun p => idx.getD p 0))
      ((List.range idx.length).map (fun p => vals.getD p d)) k := by rw [← h1, ← h2]
  rw [h3, hits_map]
  unfold nonzeroEq
  congr 1
  apply List.filter_congr
  intro p hp
  simp [List.mem_range.1 hp]

theorem scatterAdd_getElem? [AddCommMonoid α] (xs : List α) (idx : List Nat) (vals : List α) (k : Nat) :
    (scatterAdd xs idx vals)[k]? = xs[k]?.map (fun x => x + (hits idx vals k).sum) := by
  rw [scatterAdd, scatterWith_getElem?]
  congr 1
  funext x
  exact foldl_add_sum _ _

/-- The places of a variable state in the concatenated `var_states_for_edges` are the edges of the variable. -/
theorem Compiled.nonzeroEq_perm' (h : Compiled vgs hist garbage st) (v : Var) (j : Nat) (hn : j < v.n) (s : Nat)
    (hs : st.varsToStarts v = some s) :
    (nonzeroEq st.allVarStates (s + j)).Perm
      ((edgesOf (graphOf vgs hist).allScopes v).map (fun e => edgeStart (graphOf vgs hist).allScopes e.1 e.2 + j)) := by
  obtain ⟨-, -, b3, -⟩ := h.blocks
  set scopes := (graphOf vgs hist).allScopes with hsc
  rw [List.perm_ext_iff_of_nodup (nonzeroEq_nodup _ _)]
  · intro p
    rw [mem_nonzeroEq, h.allVarStates, ← hsc, List.mem_map]
    constructor
    · intro hp
      have hl := (List.getElem?_eq_some_iff.1 hp).1
      rw [vsEntries_length] at hl
      obtain ⟨f, i, vs, w, k, hf, hi, hk, rfl⟩ := exists_edgeStart scopes p hl
      rw [vsEntries_getElem? _ scopes f i vs w k hf hi hk] at hp
      obtain ⟨t, ht⟩ := h.scopeVars vs (List.mem_iff_getElem?.2 ⟨f, hf⟩) w (List.mem_iff_getElem?.2 ⟨i, hi⟩)
      rw [ht, Option.getD_some, Option.some.injEq] at hp
      by_cases hwv : w = v
      · subst hwv
        rw [ht, Option.some.injEq] at hs
        have : k = j := by omega
        subst this
        exact ⟨(f, i), (mem_edgesOf _ _ _ _).2 ⟨vs, hf, hi⟩, rfl⟩
      · rcases b3 w v t s ht hs hwv with h' | h' <;> omega
    · rintro ⟨⟨f, i⟩, he, rfl⟩
      obtain ⟨vs, hf, hi⟩ := (mem_edgesOf _ _ _ _).1 he
      have := vsEntries_getElem? st.varsToStarts scopes f i vs v j hf hi hn
      rw [hs] at this
      simpa using this
  · refine List.Nodup.map_on ?_ (edgesOf_nodup _ _)
    rintro ⟨f, i⟩ he ⟨f', i'⟩ he' heq
    obtain ⟨vs, hf, hi⟩ := (mem_edgesOf _ _ _ _).1 he
    obtain ⟨vs', hf', hi'⟩ := (mem_edgesOf _ _ _ _).1 he'
    obtain ⟨h1, h2, -⟩ := edgeStart_inj scopes f i f' i' vs vs' v v j j hf hi hn hf' hi' hn (by simpa using heq)
    rw [h1, h2]

theorem Compiled.allVarStates_length (h : Compiled vgs hist garbage st) :
    st.allVarStates.length = st.totalFactorNumStates := by
  rw [h.allVarStates, vsEntries_length, h.totalStates]; rfl

/-- The sums of `evidence.at[var_states_for_edges].add(msgs)` are the beliefs. -/
theorem Compiled.scatter_beliefs [AddCommMonoid α] (h : Compiled vgs hist garbage st) (msgs ev : List α)
    (hm : msgs.length = st.totalFactorNumStates) (hev : ev.length = st.numVarStates) (v : Var) (j : Nat) (hn : j < v.n)
    (s : Nat) (hs : st.varsToStarts v = some s) :
    (scatterAdd ev st.allVarStates msgs)[s + j]? = some (beliefOf (graphOf vgs hist).allScopes (readEv st.varsToStarts ev)
      (readMsgs (graphOf vgs hist).allScopes msgs) v j) := by
  obtain ⟨-, b2, -, -⟩ := h.blocks
  have hlt : s + j < ev.length := by have := b2 v s hs; omega
  rw [scatterAdd_getElem?, hits_nonzeroEq _ _ 0 (by rw [hm, h.allVarStates_length])]
  rw [((h.nonzeroEq_perm' v j hn s hs).map _).sum_eq, List.map_map, List.getElem?_eq_getElem hlt]
  simp only [Option.map_some, beliefOf, readEv, hs, Option.getD_some, readMsgs, List.getD, List.getElem?_eq_getElem hlt,
    Option.some.injEq, Function.comp_def]

theorem sum_filter_ne [AddCommGroup α] {β : Type _} [DecidableEq β] (l : List β) (hnd : l.Nodup) (e : β) (he : e ∈ l) (f : β → α) :
    (l.map f).sum = f e + ((l.filter (fun x => x ≠ e)).map f).sum := by
  induction l with
  | nil => simp at he
  | cons a l ih =>
    rw [List.nodup_cons] at hnd
    by_cases hae : a = e
    · subst hae
      have : l.filter (fun x => x ≠ a) = l := by
        rw [List.filter_eq_self]
        intro x hx
        simp only [decide_eq_true_eq]
        rintro rfl
        exact hnd.1 hx
      rw [List.filter_cons, if_neg (by simp), this]
      simp
    · rw [List.filter_cons, if_pos (by simpa using hae), List.map_cons, List.map_cons, List.sum_cons, List.sum_cons,
        ih hnd.2 (by rcases List.mem_cons.1 he with h | h; exact absurd h.symm hae; exact h)]
      exact add_left_comm _ _ _

theorem foldl_max_eq [LinearOrder α] (l : List α) (b : α) : b ≤ l.foldl max b ∧ (∀ x ∈ l, x ≤ l.foldl max b) ∧ (l.foldl max b = b ∨ l.foldl max b ∈ l) := by
  induction l generalizing b with
  | nil => simp
  | cons a l ih =>
    obtain ⟨h1, h2, h3⟩ := ih (max b a)
    simp only [List.foldl_cons, List.mem_cons, forall_eq_or_imp]
    refine ⟨le_trans (le_max_left _ _) h1, ⟨le_trans (le_max_right _ _) h1, h2⟩, ?_⟩
    rcases h3 with h3 | h3
    · rcases max_choice b a with h | h
      · exact .inl (h3.trans h)
      · exact .inr (.inl (h3.trans h))
    · exact .inr (.inr h3)

end PGMax
