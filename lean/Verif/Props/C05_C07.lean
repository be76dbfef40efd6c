import Verif.Lemmas.VarDict

/-! # C05–C07: flatten / unflatten of variable groups -/

namespace PGMax

/-! ## C05 -/

/-- **C05 (1).** Data of the array's shape survives `unflatten ∘ flatten` exactly. -/
theorem C05_round_trip_vars {α : Type _} (g : NDVarArray) (data : NDArr α) (hw : data.WF)
    (hs : data.shape = g.shape) :
    ∃ flat, g.flatten data = .ok flat ∧
      g.unflatten ⟨[flat.length], flat⟩ = .ok ⟨data.shape, data.data.map WithBot.some⟩ := by
  refine ⟨data.data, NDVarArray.flatten_vars g data hs, ?_⟩
  rw [NDVarArray.unflatten_vars g data.data (by rw [hw, hs]), hs]

/-- **C05 (2, partial).** Data of shape `shape + (max num_states,)`: every valid entry survives, every padding entry becomes
`-inf` — unless the total number of states coincides with the number of variables (`C05_refuted`). -/
theorem C05_round_trip_states_partial {α : Type _} (g : NDVarArray) (hl : g.numStates.length = g.shape.prod) (m : Nat)
    (hm : npMax g.numStates = .ok m) (hne : g.numStates.sum ≠ g.shape.prod) (data : NDArr α) (hw : data.WF)
    (hs : data.shape = g.shape ++ [m]) :
    ∃ flat r, g.flatten data = .ok flat ∧ g.unflatten ⟨[flat.length], flat⟩ = .ok r ∧ r.shape = data.shape ∧ r.WF ∧
      ∀ k s, k < g.shape.prod → s < m →
        r.data[k * m + s]? = if s < g.numStates.getD k 0 then data.data[k * m + s]?.map WithBot.some else some ⊥ := by
  obtain ⟨flat, h1, h2, h3⟩ := NDVarArray.flatten_states g hl m hm data hw hs
  obtain ⟨r, e1, e2, e3, e4⟩ := NDVarArray.unflatten_states g hl m hm flat (by rw [h2]; exact hne) h2
  refine ⟨flat, r, h1, e1, by rw [e2, hs], e3, ?_⟩
  intro k s hk hs'
  rw [e4 k s (by omega) hs']
  split
  · rename_i hlt; rw [h3 k s (by omega) hlt]
  · rfl

/-- **C05 is false as stated:** for an array of one-state variables, data of shape `shape + (1,)` comes back with shape
`shape`. -/
theorem C05_refuted : ∃ (g : NDVarArray) (data : NDArr Int) (flat : List Int) (r : NDArr (WithBot Int)),
    NDVarArray.create 4096 [2] (.scalar 1) = .ok g ∧ data.WF ∧ data.shape = g.shape ++ [1] ∧
    g.flatten data = .ok flat ∧ g.unflatten ⟨[flat.length], flat⟩ = .ok r ∧ r.shape ≠ data.shape :=
  ⟨⟨4096000000000, [2], [1, 1]⟩, ⟨[2, 1], [7, 8]⟩, [7, 8], ⟨[2], [some 7, some 8]⟩,
    by decide, by decide, by decide, by rfl, by rfl, by decide⟩

/-- The exact characterisation: with positive state counts, the coincidence happens iff all variables have one state. -/
theorem C05_coincidence (g : NDVarArray) (hl : g.numStates.length = g.shape.prod) (hpos : ∀ n ∈ g.numStates, 1 ≤ n) :
    g.numStates.sum = g.shape.prod ↔ ∀ n ∈ g.numStates, n = 1 := by
  rw [← hl]
  generalize g.numStates = ns at hpos
  induction ns with
  | nil => simp
  | cons n ns ih =>
    have h1 := hpos n (by simp)
    have h2 := ih (fun x hx => hpos x (by simp [hx]))
    have h3 : ns.length ≤ ns.sum := by
      clear ih h2
      have hp : ∀ x ∈ ns, 1 ≤ x := fun x hx => hpos x (by simp [hx])
      clear hpos
      induction ns with
      | nil => simp
      | cons a ns ih =>
        have := hp a (by simp)
        have := ih (fun x hx => hp x (by simp [hx]))
        simp only [List.length_cons, List.sum_cons]; omega
    simp only [List.sum_cons, List.length_cons, List.mem_cons, forall_eq_or_imp]
    constructor
    · intro h
      have hn : n = 1 := by omega
      exact ⟨hn, h2.1 (by omega)⟩
    · rintro ⟨rfl, h⟩
      have := h2.2 h
      omega

example : ∃ g : NDVarArray, NDVarArray.create 4096 [2] (.array ⟨[2], [2, 3]⟩) = .ok g ∧
    g.numStates.length = g.shape.prod ∧ npMax g.numStates = .ok 3 ∧ g.numStates.sum ≠ g.shape.prod ∧
    (⟨[2, 3], [1, 2, 99, 4, 5, 6]⟩ : NDArr Int).WF :=
  ⟨⟨4096000000000, [2], [2, 3]⟩, by decide, by decide, by decide, by decide, by decide⟩

/-! ## C06 -/

/-- **C06 (1).** `unflatten` accepts a flat array iff its length is the number of variables or the total number of states;
everything else (including arrays that are not one-dimensional) raises ValueError. -/
theorem C06_unflatten_accepts {α : Type _} (g : NDVarArray) (hl : g.numStates.length = g.shape.prod)
    (flat : NDArr α) :
    ((∃ r, g.unflatten flat = .ok r) ↔
      flat.shape.length = 1 ∧ (flat.data.length = g.shape.prod ∨ flat.data.length = g.numStates.sum)) ∧
    ((¬ ∃ r, g.unflatten flat = .ok r) → g.unflatten flat = .error .valueError) := by
  rw [NDVarArray.unflatten_eq]
  by_cases h1 : flat.shape.length = 1
  · by_cases h2 : flat.data.length = g.shape.prod
    · simp [h1, h2]
    · by_cases h3 : flat.data.length = g.numStates.sum
      · cases h4 : npMax g.numStates with
        | error e =>
          obtain ⟨h5, -⟩ := npMax_error h4
          rw [h5] at h3 hl
          simp at h3 hl
          simp [h3, ← hl] at h2
        | ok m => rw [if_neg (by simpa using h1), if_neg h2, if_pos h3]; simp [h1, h3]
      · simp [h1, h2, h3]
  · simp [h1]

/-- **C06 (2).** `flatten` accepts data iff it has shape `shape` or `shape + (max num_states,)`; everything else raises
ValueError. -/
theorem C06_flatten_accepts {α : Type _} (g : NDVarArray) (data : NDArr α) :
    ((∃ r, g.flatten data = .ok r) ↔
      data.shape = g.shape ∨ ∃ m, npMax g.numStates = .ok m ∧ data.shape = g.shape ++ [m]) ∧
    ((¬ ∃ r, g.flatten data = .ok r) → g.flatten data = .error .valueError) := by
  unfold NDVarArray.flatten
  by_cases h1 : data.shape = g.shape
  · simp [h1, pure, Except.pure]
  · cases hm : npMax g.numStates with
    | error e =>
      have he : e = .valueError := by
        cases hn : g.numStates with
        | nil => rw [hn] at hm; simp [npMax] at hm; exact hm.symm
        | cons a l => rw [hn] at hm; simp [npMax] at hm
      simp [h1, bind, Except.bind, he]
    | ok m =>
      by_cases h2 : data.shape = g.shape ++ [m]
      · simp [h2, pure, Except.pure, bind, Except.bind]
      · simp [h1, h2, bind, Except.bind, throw, throwThe, MonadExceptOf.throw]

/-- **C06 (3).** Every accepted flat array survives `flatten ∘ unflatten`. -/
theorem C06_round_trip {α : Type _} (g : NDVarArray) (hl : g.numStates.length = g.shape.prod) (flat : List α)
    (h : flat.length = g.shape.prod ∨ flat.length = g.numStates.sum) :
    ∃ r, g.unflatten ⟨[flat.length], flat⟩ = .ok r ∧ g.flatten r = .ok (flat.map WithBot.some) := by
  by_cases h1 : flat.length = g.shape.prod
  · refine ⟨_, NDVarArray.unflatten_vars g flat h1, ?_⟩
    exact NDVarArray.flatten_vars g _ rfl
  · have h2 := h.resolve_left h1
    have hne : g.numStates ≠ [] := by
      intro h'
      rw [h'] at h2 hl
      simp at h2 hl
      simp [h2, ← hl] at h1
    obtain ⟨m, hm⟩ := npMax_of_ne_nil hne
    obtain ⟨r, e1, e2, e3, e4⟩ := NDVarArray.unflatten_states g hl m hm flat h1 h2
    obtain ⟨flat', f1, f2, f3⟩ := NDVarArray.flatten_states g hl m hm r e3 e2
    refine ⟨r, e1, ?_⟩
    rw [f1]
    congr 1
    apply List.ext_getElem?
    intro j
    by_cases hj : j < g.numStates.sum
    · obtain ⟨k, s, hk, hs, rfl⟩ := exists_block g.numStates j hj
      have := getD_le (npMax_ok hm).2 k
      rw [f3 k s hk hs, e4 k s hk (by omega), if_pos hs]
      simp
    · rw [List.getElem?_eq_none (by omega), List.getElem?_eq_none (by simp; omega)]

example : NDVarArray.flatten ⟨0, [2], [2, 3]⟩ (⟨[2, 3], [1, 2, 99, 4, 5, 6]⟩ : NDArr Int) = .ok [1, 2, 4, 5, 6] := by
  rfl

/-! ## C07 -/

/-- A flat array as the one-dimensional array that `flatten` expects in a mapping. -/
def asArr {κ α : Type _} (p : κ × List α) : κ × NDArr α := (p.1, ⟨[p.2.length], p.2⟩)

/-- **C07 (1).** For a dictionary with at least one variable: every flat array of one of the two lengths is accepted by `unflatten`, which returns one entry per name in
the order of the names, and survives `flatten ∘ unflatten`. -/
theorem C07_flatten_unflatten {κ α : Type _} [DecidableEq κ] (g : VarDict κ) (hl : g.numStates.length = g.names.length)
    (hnd : g.names.Nodup) (hne : g.names ≠ []) (flat : List α)
    (h : flat.length = g.names.length ∨ flat.length = g.numStates.sum) :
    ∃ r, g.unflatten ⟨[flat.length], flat⟩ = .ok r ∧ r.map (·.1) = g.names ∧
      g.flatten (r.map asArr) = .ok flat := by
  obtain ⟨b, hb, hsum⟩ : ∃ b : Bool, g.unflatten ⟨[flat.length], flat⟩ = .ok (g.unflattenLoop flat b g.names 0 []) ∧
      (g.names.map (fun k => if b then g.numStates.getD (g.names.idxOf k) 0 else 1)).sum = flat.length := by
    unfold VarDict.unflatten
    by_cases h1 : flat.length = g.names.length
    · refine ⟨false, ?_, ?_⟩
      · simp [h1, pure, Except.pure, bind, Except.bind]
      · simp [h1]
    · have h2 := h.resolve_left h1
      refine ⟨true, ?_, ?_⟩
      · have : ¬ g.numStates.sum = g.names.length := by rw [← h2]; exact h1
        simp [h2, this, pure, Except.pure, bind, Except.bind]
      · simp only [if_true]
        rw [idxOf_map_getD g.names g.numStates hnd hl, h2]
  rw [unflattenLoop_eq g flat b g.names 0 [] hnd (by simp)] at hb
  simp only [List.nil_append] at hb
  set spec := g.names.map (fun k => (k, if b then g.numStates.getD (g.names.idxOf k) 0 else 1)) with hspec
  have hfst : (namedSlices flat 0 spec).map (·.1) = g.names := by
    rw [namedSlices_map_fst, hspec, List.map_map]
    conv_rhs => rw [← List.map_id g.names]
    rfl
  have hsnd : spec.map (·.2) = g.names.map (fun k => if b then g.numStates.getD (g.names.idxOf k) 0 else 1) := by
    rw [hspec, List.map_map]; rfl
  refine ⟨_, hb, hfst, ?_⟩
  have hlook : ∀ p ∈ namedSlices flat 0 spec, (((namedSlices flat 0 spec).map asArr).lookup p.1).map (·.data) = some p.2 := by
    intro p hp
    rw [lookup_of_mem_nodup _ _ p.1 (asArr p).2]
    · rfl
    · exact List.mem_map.2 ⟨p, hp, rfl⟩
    · rw [List.map_map]
      have : ((fun x : κ × NDArr α => x.1) ∘ asArr) = (fun p : κ × List α => p.1) := rfl
      rw [this, hfst]; exact hnd
  have key := VarDict.flatten_ok g hne ((namedSlices flat 0 spec).map asArr) ?_
    (fun k => (((namedSlices flat 0 spec).lookup k).getD [])) ?_
  · rw [key]
    congr 1
    have e : g.names.map (fun k => ((namedSlices flat 0 spec).lookup k).getD []) = (namedSlices flat 0 spec).map (·.2) := by
      conv_lhs => rw [← hfst]
      rw [List.map_map]
      apply List.map_congr_left
      intro p hp
      simp only [Function.comp]
      rw [lookup_of_mem_nodup _ (by rw [hfst]; exact hnd) p.1 p.2 hp]
      rfl
    rw [e, namedSlices_flatten, hsnd, hsum, zero_add, slice_full]
  · intro q hq
    rw [List.mem_map] at hq
    obtain ⟨p, hp, rfl⟩ := hq
    obtain ⟨i, hi⟩ := List.mem_iff_getElem?.1 hp
    rw [namedSlices_getElem?, Option.map_eq_some_iff] at hi
    obtain ⟨q, hq, rfl⟩ := hi
    have hq' := hq
    rw [hspec, List.getElem?_map, Option.map_eq_some_iff] at hq'
    obtain ⟨k, hk, rfl⟩ := hq'
    have hmem : k ∈ g.names := List.mem_of_getElem? hk
    have hil : i < g.names.length := by
      by_contra hc; rw [List.getElem?_eq_none (by omega)] at hk; cases hk
    have hle : ((spec.map (·.2)).take (i + 1)).sum ≤ flat.length := by
      rw [← hsum, ← hsnd]; exact sum_take_le _ _
    have hstep := sum_take_succ_getD (spec.map (·.2)) i (by simpa [hspec] using hil)
    have hd : (spec.map (·.2)).getD i 0 = (if b then g.numStates.getD (g.names.idxOf k) 0 else 1) := by
      rw [List.getD, List.getElem?_map, hq]; rfl
    simp only [VarDict.flattenRejects, asArr, hmem, if_true, slice_length]
    have hlen : ∀ a n : Nat, a + n ≤ flat.length → min (a + n) flat.length - a = n := by intro a n h; omega
    cases b with
    | true =>
      simp only [if_true] at hd ⊢
      rw [hlen _ _ (by omega)]
      simp
    | false =>
      simp only [Bool.false_eq_true, if_false] at hd ⊢
      rw [hlen _ _ (by omega)]
      simp
  · intro k hk
    rw [← hfst, List.mem_map] at hk
    obtain ⟨p, hp, rfl⟩ := hk
    rw [hlook p hp, lookup_of_mem_nodup _ (by rw [hfst]; exact hnd) p.1 p.2 hp]
    rfl

theorem namedSlices_of_blocks {κ α : Type _} (l : List (κ × List α)) (pre : List α) :
    namedSlices (pre ++ (l.map (·.2)).flatten) pre.length (l.map (fun p => (p.1, p.2.length))) = l := by
  induction l generalizing pre with
  | nil => rfl
  | cons p l ih =>
    simp only [List.map_cons, namedSlices, List.flatten_cons]
    have h1 := slice_append_mid pre p.2 ((l.map (·.2)).flatten)
    have h2 := ih (pre ++ p.2)
    rw [List.length_append] at h2
    rw [List.append_assoc] at h1 h2
    rw [h1, h2]

/-- **C07 (2).** For a dictionary with at least one variable: a mapping with distinct keys that gives one value per variable (`single = true`), or all states of every
variable, survives `unflatten ∘ flatten`: every name maps to the data that was given for it.  Variables have at least one
state. -/
theorem C07_unflatten_flatten {κ α : Type _} [DecidableEq κ] (g : VarDict κ) (hl : g.numStates.length = g.names.length)
    (hnd : g.names.Nodup) (hne : g.names ≠ []) (hpos : ∀ n ∈ g.numStates, 1 ≤ n) (data : List (κ × NDArr α))
    (hkeys : (data.map (·.1)).Nodup) (hset : ∀ k, k ∈ data.map (·.1) ↔ k ∈ g.names) (single : Bool)
    (hshape : ∀ i k arr, g.names[i]? = some k → data.lookup k = some arr →
      arr.WF ∧ arr.shape = [if single then 1 else g.numStates.getD i 0]) :
    ∃ flat r, g.flatten data = .ok flat ∧ g.unflatten ⟨[flat.length], flat⟩ = .ok r ∧ r.map (·.1) = g.names ∧
      ∀ k ∈ g.names, r.lookup k = (data.lookup k).map (·.data) := by
  have hex : ∀ k ∈ g.names, ∃ arr, data.lookup k = some arr := fun k hk => (lookup_isSome data k).2 ((hset k).2 hk)
  have hidx : ∀ k ∈ g.names, g.names[g.names.idxOf k]? = some k := by
    intro k hk
    have h := List.idxOf_lt_length_iff.2 hk
    rw [List.getElem?_eq_getElem h]; simp
  have hflat := VarDict.flatten_ok g hne data ?_ (fun k => ((data.lookup k).map (·.data)).getD []) ?_
  · refine ⟨_, g.names.map (fun k => (k, ((data.lookup k).map (·.data)).getD [])), hflat, ?_, ?_, ?_⟩
    · set blocks := g.names.map (fun k => (k, ((data.lookup k).map (·.data)).getD [])) with hblocks
      have hbl : g.names.map (fun k => ((data.lookup k).map (·.data)).getD []) = blocks.map (·.2) := by
        rw [hblocks, List.map_map]; rfl
      rw [hbl]
      have hns := namedSlices_of_blocks blocks ([] : List α)
      simp only [List.nil_append, List.length_nil] at hns
      have hlens : blocks.map (fun p => (p.1, p.2.length))
          = g.names.map (fun k => (k, if single then 1 else g.numStates.getD (g.names.idxOf k) 0)) := by
        rw [hblocks, List.map_map]
        apply List.map_congr_left
        intro k hk
        obtain ⟨arr, ha⟩ := hex k hk
        obtain ⟨h1, h2⟩ := hshape _ k arr (hidx k hk) ha
        simp only [Function.comp, ha, Option.map_some, Option.getD_some]
        rw [h1, h2]; simp
      have hlen : (blocks.map (·.2)).flatten.length
          = (g.names.map (fun k => if single then 1 else g.numStates.getD (g.names.idxOf k) 0)).sum := by
        rw [List.length_flatten, List.map_map]
        have := congrArg (List.map (fun p : κ × Nat => p.2)) hlens
        have e1 : (blocks.map (fun p => (p.1, p.2.length))).map (fun p : κ × Nat => p.2)
            = blocks.map (List.length ∘ fun x => x.2) := by rw [List.map_map]; rfl
        have e2 : (g.names.map (fun k => (k, if single then 1 else g.numStates.getD (g.names.idxOf k) 0))).map
            (fun p : κ × Nat => p.2)
            = g.names.map (fun k => if single then 1 else g.numStates.getD (g.names.idxOf k) 0) := by
          rw [List.map_map]; rfl
        rw [e1, e2] at this
        exact congrArg List.sum this
      rw [hlens] at hns
      have hfin : ∀ b : Bool, (∀ k ∈ g.names, (if b then g.numStates.getD (g.names.idxOf k) 0 else 1)
            = (if single then 1 else g.numStates.getD (g.names.idxOf k) 0)) →
          g.unflattenLoop (blocks.map (·.2)).flatten b g.names 0 [] = blocks := by
        intro b hb
        rw [unflattenLoop_eq g _ b g.names 0 [] hnd (by simp), List.nil_append]
        rw [show g.names.map (fun k => (k, if b then g.numStates.getD (g.names.idxOf k) 0 else 1))
          = g.names.map (fun k => (k, if single then 1 else g.numStates.getD (g.names.idxOf k) 0)) from
          List.map_congr_left (fun k hk => by rw [hb k hk])]
        exact hns
      unfold VarDict.unflatten
      cases single with
      | true =>
        simp only [if_true] at hlen hfin
        have : (blocks.map (·.2)).flatten.length = g.names.length := by rw [hlen]; simp
        have hf := hfin false (by simp)
        simp only [this, List.length_singleton, ne_eq, not_true_eq_false, if_false, if_true, pure, Except.pure]
        rw [hf]
      | false =>
        simp only [Bool.false_eq_true, if_false] at hlen hfin
        rw [idxOf_map_getD g.names g.numStates hnd hl] at hlen
        by_cases hc : g.numStates.sum = g.names.length
        · have hone : ∀ n ∈ g.numStates, n = 1 := by
            rw [← hl] at hc
            clear hlen hfin hns hlens hbl hflat hex hidx hshape hl
            generalize g.numStates = ns at hpos hc
            have hge : ∀ ns : List Nat, (∀ n ∈ ns, 1 ≤ n) → ns.length ≤ ns.sum := by
              intro ns hp
              induction ns with
              | nil => simp
              | cons a ns ih =>
                have := hp a (by simp)
                have := ih (fun x hx => hp x (by simp [hx]))
                simp only [List.length_cons, List.sum_cons]; omega
            induction ns with
            | nil => simp
            | cons a ns ih =>
              have h1 := hpos a (by simp)
              have h2 := hge ns (fun x hx => hpos x (by simp [hx]))
              simp only [List.sum_cons, List.length_cons] at hc
              intro n hn
              rcases List.mem_cons.1 hn with rfl | hn
              · omega
              · exact ih (fun x hx => hpos x (by simp [hx])) (by omega) n hn
          have hf := hfin false (by
            intro k hk
            have hi := List.idxOf_lt_length_iff.2 hk
            simp only [Bool.false_eq_true, if_false, List.getD,
              List.getElem?_eq_getElem (show g.names.idxOf k < g.numStates.length by omega), Option.getD_some]
            exact (hone _ (List.getElem_mem _)).symm)
          simp only [hlen, hc, List.length_singleton, ne_eq, not_true_eq_false, if_false, if_true, pure, Except.pure]
          rw [hf]
        · have hf := hfin true (by simp)
          simp only [hlen, hc, List.length_singleton, ne_eq, not_true_eq_false, if_false, if_true, pure, Except.pure]
          rw [hf]
    · rw [List.map_map]; conv_rhs => rw [← List.map_id g.names]
      rfl
    · intro k hk
      obtain ⟨arr, ha⟩ := hex k hk
      rw [lookup_of_mem_nodup _ _ k (((data.lookup k).map (·.data)).getD [])]
      · simp [ha]
      · exact List.mem_map.2 ⟨k, hk, rfl⟩
      · rw [List.map_map]
        have : ((fun x : κ × List α => x.1) ∘ fun k => (k, ((data.lookup k).map (·.data)).getD [])) = id := rfl
        rw [this, List.map_id]; exact hnd
  · rintro ⟨k, arr⟩ hp
    have hk : k ∈ g.names := (hset k).1 (List.mem_map.2 ⟨_, hp, rfl⟩)
    have ha := lookup_of_mem_nodup data hkeys k arr hp
    obtain ⟨h1, h2⟩ := hshape _ k arr (hidx k hk) ha
    simp only [VarDict.flattenRejects, hk, if_true, h2]
    cases single <;> simp
  · intro k hk
    obtain ⟨arr, ha⟩ := hex k hk
    simp [ha]

/-- **C07 (3).** Exact acceptance of `flatten`: every key names a variable and comes with an array of shape `(1,)` or
`(num_states,)`, and no variable is missing; there is at least one variable.  Foreign names and wrong shapes raise
ValueError, and so does every mapping if there is no variable. -/
theorem C07_flatten_accepts {κ α : Type _} [DecidableEq κ] (g : VarDict κ) (data : List (κ × NDArr α)) :
    ((∃ flat, g.flatten data = .ok flat) ↔ g.names ≠ [] ∧
      (∀ p ∈ data, p.1 ∈ g.names ∧ (p.2.shape = [1] ∨ p.2.shape = [g.numStates.getD (g.names.idxOf p.1) 0])) ∧
      ∀ k ∈ g.names, k ∈ data.map (·.1)) ∧
    ((∃ p ∈ data, p.1 ∉ g.names ∨ (p.2.shape ≠ [1] ∧ p.2.shape ≠ [g.numStates.getD (g.names.idxOf p.1) 0])) →
      g.flatten data = .error .valueError) ∧ (g.names = [] → g.flatten data = .error .valueError) := by
  have hrej : ∀ p : κ × NDArr α, g.flattenRejects p.1 p.2 = true ↔
      ¬ (p.1 ∈ g.names ∧ (p.2.shape = [1] ∨ p.2.shape = [g.numStates.getD (g.names.idxOf p.1) 0])) := by
    intro p
    unfold VarDict.flattenRejects
    by_cases h : p.1 ∈ g.names
    · simp only [h, if_true, true_and, not_or, Bool.and_eq_true, bne_iff_ne, ne_eq]
      tauto
    · simp [h]
  refine ⟨?_, ?_, ?_⟩
  · rw [VarDict.flatten_eq]
    by_cases hany : data.any (fun p => g.flattenRejects p.1 p.2) = true
    · rw [if_pos hany]
      simp only [List.any_eq_true] at hany
      obtain ⟨p, hp, hr⟩ := hany
      constructor
      · rintro ⟨_, h⟩; cases h
      · rintro ⟨-, h, -⟩
        exact absurd (h p hp) ((hrej p).1 hr)
    · rw [if_neg hany]
      have hall : ∀ p ∈ data, p.1 ∈ g.names ∧
          (p.2.shape = [1] ∨ p.2.shape = [g.numStates.getD (g.names.idxOf p.1) 0]) := by
        intro p hp
        by_contra hc
        exact hany (List.any_eq_true.2 ⟨p, hp, (hrej p).2 hc⟩)
      constructor
      · rintro ⟨flat, hf⟩
        refine ⟨?_, hall, ?_⟩
        · intro hn
          rw [hn] at hf
          cases hf
        intro k hk
        rw [← lookup_isSome]
        by_contra hc
        simp only [not_exists] at hc
        have hn : data.lookup k = none := by
          cases h : data.lookup k with
          | none => rfl
          | some v => exact absurd h (hc v)
        obtain ⟨e, he⟩ := mapM_error (fun name => (dictGet data name).map (·.data)) g.names k hk .keyError
          (by rw [dictGet_none hn]; rfl)
        rw [he] at hf; cases hf
      · rintro ⟨hne, -, h⟩
        refine ⟨(g.names.map (fun k => ((data.lookup k).map (·.data)).getD [])).flatten, ?_⟩
        rw [mapM_ok _ (fun k => ((data.lookup k).map (·.data)).getD [])]
        · exact concatArrays_ok (by simpa using hne)
        · intro k hk
          obtain ⟨v, hv⟩ := (lookup_isSome data k).2 (h k hk)
          rw [dictGet_some hv, hv]; rfl
  · rintro ⟨p, hp, h⟩
    rw [VarDict.flatten_eq, if_pos]
    refine List.any_eq_true.2 ⟨p, hp, (hrej p).2 ?_⟩
    tauto
  · intro hn
    rw [VarDict.flatten_eq, hn]
    split <;> rfl

/-- `unflatten` accepts exactly the two lengths. -/
theorem C07_unflatten_accepts {κ α : Type _} [DecidableEq κ] (g : VarDict κ) (flat : NDArr α) :
    ((∃ r, g.unflatten flat = .ok r) ↔
      flat.shape.length = 1 ∧ (flat.data.length = g.names.length ∨ flat.data.length = g.numStates.sum)) ∧
    ((¬ ∃ r, g.unflatten flat = .ok r) → g.unflatten flat = .error .valueError) := by
  unfold VarDict.unflatten
  by_cases h1 : flat.shape.length = 1
  · by_cases h2 : flat.data.length = g.names.length
    · simp [h1, h2, pure, Except.pure, bind, Except.bind]
    · by_cases h3 : flat.data.length = g.numStates.sum
      · simp only [h1, h2, h3, pure, Except.pure, bind, Except.bind]
        by_cases h4 : g.numStates.sum = g.names.length <;> simp [h4]
      · simp [h1, h2, h3, bind, Except.bind, throw, throwThe, MonadExceptOf.throw]
  · simp [h1, bind, Except.bind, throw, throwThe, MonadExceptOf.throw]

/-- `group[name]` returns the variable of that name, distinct names get distinct variables, foreign names raise
ValueError. -/
theorem C07_getitem {κ : Type _} [DecidableEq κ] (g : VarDict κ) (hl : g.numStates.length = g.names.length) (k : κ) :
    (k ∈ g.names → ∃ v, g.getitem k = .ok v ∧ g.variables[g.names.idxOf k]? = some v) ∧
    (k ∉ g.names → g.getitem k = .error .valueError) := by
  constructor
  · intro hk
    have hi := List.idxOf_lt_length_iff.2 hk
    refine ⟨⟨g.hash + g.names.idxOf k, g.numStates[g.names.idxOf k]⟩, ?_, ?_⟩
    · simp [VarDict.getitem, hk, VarDict.variableHashes, List.getElem?_range hi,
        List.getElem?_eq_getElem (show g.names.idxOf k < g.numStates.length by omega)]
    · rw [VarDict.variables_getElem? g hl, List.getElem?_eq_getElem (by omega)]; rfl
  · intro hk; simp [VarDict.getitem, hk]

/-- Beyond C07: with a zero-state variable the two lengths can coincide, and the states come back distributed one per
name. -/
theorem C07_zero_states_refuted : ∃ (g : VarDict Nat) (data : List (Nat × NDArr Int)) (flat : List Int),
    g.names.Nodup ∧ g.numStates.length = g.names.length ∧ g.flatten data = .ok flat ∧
    data.lookup 0 = some ⟨[0], []⟩ ∧ g.unflatten ⟨[flat.length], flat⟩ = .ok [(0, [7]), (1, [8])] :=
  ⟨⟨0, [0, 1], [0, 2]⟩, [(0, ⟨[0], []⟩), (1, ⟨[2], [7, 8]⟩)], [7, 8], by decide, by decide, by rfl, by rfl, by rfl⟩

/-- Beyond C07: in a dictionary without variables `unflatten` accepts the empty array, but `flatten` does not accept what it
returns, because there is nothing to concatenate. -/
theorem C07_empty_refuted : ∃ g : VarDict Nat, g.names.Nodup ∧ g.numStates.length = g.names.length ∧
    g.unflatten (⟨[0], []⟩ : NDArr Int) = .ok [] ∧ g.flatten ([] : List (Nat × NDArr Int)) = .error .valueError :=
  ⟨⟨0, [], []⟩, by decide, by decide, by rfl, by rfl⟩

example : VarDict.unflatten ⟨0, ["a", "b"], [2, 3]⟩ (⟨[5], [1, 2, 3, 4, 5]⟩ : NDArr Int)
    = .ok [("a", [1, 2]), ("b", [3, 4, 5])] := by rfl

example : ∃ (g : VarDict Nat) (data : List (Nat × NDArr Int)), g.numStates.length = g.names.length ∧ g.names.Nodup ∧ g.names ≠ [] ∧
    (∀ n ∈ g.numStates, 1 ≤ n) ∧ (data.map (·.1)).Nodup ∧ (∀ k, k ∈ data.map (·.1) ↔ k ∈ g.names) ∧
    (∀ i k arr, g.names[i]? = some k → data.lookup k = some arr →
      arr.WF ∧ arr.shape = [if false then 1 else g.numStates.getD i 0]) := by
  refine ⟨⟨0, [10, 11], [2, 1]⟩, [(11, ⟨[1], [7]⟩), (10, ⟨[2], [8, 9]⟩)], by decide, by decide, by decide, by decide, by decide, ?_, ?_⟩
  · intro k; simp; tauto
  · intro i k arr h1 h2
    rcases i with _ | _ | i
    · simp at h1; subst h1; simp [List.lookup] at h2; subst h2; decide
    · simp at h1; subst h1; simp [List.lookup] at h2; subst h2; decide
    · simp at h1

end PGMax
