import Verif.Lemmas.Cuts
import Verif.Props.C43
import Verif.Props.C26

/-! Helper lemmas: the evidence of the program that labels the cuts of a depth image. -/

namespace PGMax

theorem mem_cutPlaces {M N : Nat} {q : CutName} : q ∈ cutPlaces M N ↔ q.1 < 2 ∧ q.2.1 < M ∧ q.2.2 < N := by
  obtain ⟨i, r, c⟩ := q
  simp only [cutPlaces, List.mem_flatMap, List.mem_range, List.mem_map, Prod.mk.injEq, Prod.exists, mem_grid]
  constructor
  · rintro ⟨a, h, b, d, h', rfl, rfl, rfl⟩; exact ⟨h, h'⟩
  · rintro ⟨h, h'⟩; exact ⟨i, h, r, c, h', rfl, rfl, rfl⟩

theorem cutPlaces_nodup (M N : Nat) : (cutPlaces M N).Nodup := by
  unfold cutPlaces
  rw [List.nodup_flatMap]
  refine ⟨fun i _ => (grid_nodup M N).map (fun a b h => ?_), List.nodup_range.imp_of_mem fun {a b} _ _ hne => ?_⟩
  · simp only [Prod.mk.injEq] at h
    exact Prod.ext h.2.1 h.2.2
  · intro q h1 h2
    obtain ⟨p, -, rfl⟩ := List.mem_map.1 h1
    obtain ⟨p', -, e⟩ := List.mem_map.1 h2
    exact hne (congrArg Prod.fst e).symm

theorem foldl_set_other {ι β : Type _} (l : List ι) (P : ι → Bool) (idx : ι → Nat) (val : ι → β) (s : List β) (k : Nat) (h : ∀ q ∈ l, P q = true → idx q ≠ k) :
    (l.foldl (fun s q => if P q then s.set (idx q) (val q) else s) s)[k]? = s[k]? := by
  induction l generalizing s with
  | nil => rfl
  | cons a l ih =>
    rw [List.foldl_cons, ih _ (fun q hq => h q (by simp [hq]))]
    by_cases hP : P a = true
    · rw [if_pos hP, List.getElem?_set_ne (h a (by simp) hP)]
    · rw [if_neg hP]

theorem foldl_set_length {ι β : Type _} (l : List ι) (P : ι → Bool) (idx : ι → Nat) (val : ι → β) (s : List β) :
    (l.foldl (fun s q => if P q then s.set (idx q) (val q) else s) s).length = s.length := by
  induction l generalizing s with
  | nil => rfl
  | cons a l ih =>
    rw [List.foldl_cons, ih]
    split
    · rw [List.length_set]
    · rfl

theorem foldl_set_mem {ι β : Type _} (l : List ι) (P : ι → Bool) (idx : ι → Nat) (val : ι → β) (s : List β)
    (hinj : ∀ p ∈ l, ∀ q ∈ l, P p = true → P q = true → idx p = idx q → p = q) {q : ι} (hq : q ∈ l) (hP : P q = true) (hlt : idx q < s.length) :
    (l.foldl (fun s q => if P q then s.set (idx q) (val q) else s) s)[idx q]? = some (val q) := by
  induction l generalizing s with
  | nil => cases hq
  | cons a l ih =>
    rw [List.foldl_cons]
    by_cases hl : q ∈ l
    · refine ih _ (fun p hp q hq => hinj p (by simp [hp]) q (by simp [hq])) hl ?_
      split
      · rwa [List.length_set]
      · exact hlt
    · have e : q = a := by
        rw [List.mem_cons] at hq
        exact hq.resolve_right hl
      subst e
      rw [foldl_set_other, if_pos hP, List.getElem?_set_self hlt]
      intro p hp hPp e
      exact hl (hinj p (by simp [hp]) q (by simp) hPp hP e ▸ hp)

theorem foldl_pair {ι σ τ : Type _} (l : List ι) (f : σ → ι → σ) (g : τ → ι → τ) (s : σ × τ) :
    l.foldl (fun s q => (f s.1 q, g s.2 q)) s = (l.foldl f s.1, l.foldl g s.2) := by
  induction l generalizing s with
  | nil => rfl
  | cons a l ih => rw [List.foldl_cons, ih]; rfl

theorem foldl_if {ι σ : Type _} (l : List ι) (P : ι → Bool) (g : σ → ι → σ) (s : σ) :
    l.foldl (fun s q => if P q then g s q else s) s = (l.filter P).foldl g s := by
  rw [List.foldl_filter]

variable {α : Type}

/-- The evidence of a cut. -/
abbrev cutVals [Ring α] [LinearOrder α] (M N : Nat) (depth : Nat → Nat → α) (noise : CutName → α × α) (q : CutName) : List α :=
  cutValues (cutTruth M N depth q) (noise q)

theorem cutEvidence_eq [Ring α] [LinearOrder α] (idG idE : Nat) {M N : Nat} (hM : 1 ≤ M) (hN : 1 ≤ N) (depth : Nat → Nat → α) (noise : CutName → α × α) :
    ∃ (E : List (List α)) (L : List CutName), cutEvidence (uniArr idG [2, M - 1, N - 1] 3) (cutDict idE M N) M N depth noise =
        .ok (E, L.map (fun q => (q, ⟨[3], cutVals M N depth noise q⟩))) ∧
      E.length = 2 * ((M - 1) * (N - 1)) ∧ (∀ e ∈ E, e.length = 3) ∧
      (∀ i r c, i < 2 → r < M - 1 → c < N - 1 → E[i * ((M - 1) * (N - 1)) + (r * (N - 1) + c)]? = some (cutVals M N depth noise (i, r, c))) ∧
      L.Nodup ∧ ∀ q, q ∈ L ↔ q ∈ cutNames M N := by
  set P : CutName → Bool := fun q => decide (q.2.1 < M - 1 ∧ q.2.2 < N - 1) with hP
  set Q : CutName → Bool := fun q => decide (q ∈ cutNames M N) with hQ
  set idx : CutName → Nat := fun q => q.1 * ((M - 1) * (N - 1)) + (q.2.1 * (N - 1) + q.2.2) with hidx
  set v := cutVals M N depth noise with hv
  have hstep : cutEvidence (uniArr idG [2, M - 1, N - 1] 3) (cutDict idE M N) M N depth noise =
      .ok ((cutPlaces M N).foldl (fun s q => ((if P q then s.1.set (idx q) (v q) else s.1), (if Q q then dictSet s.2 q ⟨[3], v q⟩ else s.2)))
        (List.replicate (2 * ((M - 1) * (N - 1))) [0, 0, 0], [])) := by
    unfold cutEvidence
    refine foldlM_ok _ _ _ (fun s q hq => ?_) _
    obtain ⟨h1, -, -⟩ := mem_cutPlaces.1 hq
    by_cases hp : q.2.1 < M - 1 ∧ q.2.2 < N - 1
    · have hnq : q ∉ cutNames M N := by rw [mem_cutNames]; omega
      rw [cut_grid idG idE h1 hp.1 hp.2]
      simp only [hP, hQ, hp, hnq]
      simp
      rfl
    · rw [cut_grid_out idG hp]
      dsimp only
      by_cases hn : q ∈ cutNames M N
      · rw [cut_dict idG idE hn]
        simp only [hP, hQ, hp, hn]
        simp
        rfl
      · rw [cut_dict_out idE hn]
        simp only [hP, hQ, hp, hn]
        simp
  rw [foldl_pair (cutPlaces M N) (fun (s : List (List α)) q => if P q then s.set (idx q) (v q) else s) (fun d q => if Q q then dictSet d q (⟨[3], v q⟩ : NDArr α) else d)] at hstep
  dsimp only at hstep
  have hdict : (cutPlaces M N).foldl (fun d q => if Q q then dictSet d q (⟨[3], v q⟩ : NDArr α) else d) [] =
      ((cutPlaces M N).filter Q).map (fun q => (q, ⟨[3], v q⟩)) := by
    rw [foldl_if]
    have := foldl_dictSet (((cutPlaces M N).filter Q).map (fun q => (q, (⟨[3], v q⟩ : NDArr α)))) [] (by
      rw [List.nil_append, List.map_map]
      exact ((cutPlaces_nodup M N).filter _).map (fun a b h => h))
    rw [List.foldl_map, List.nil_append] at this
    exact this
  rw [hdict] at hstep
  have hlen : ∀ i r c, i < 2 → r < M - 1 → c < N - 1 → i * ((M - 1) * (N - 1)) + (r * (N - 1) + c) < 2 * ((M - 1) * (N - 1)) := by
    intro i r c hi hr hc
    have : r * (N - 1) + c < (M - 1) * (N - 1) := by
      calc r * (N - 1) + c < r * (N - 1) + (N - 1) := by omega
        _ = (r + 1) * (N - 1) := by ring
        _ ≤ (M - 1) * (N - 1) := Nat.mul_le_mul_right _ (by omega)
    have hi' : i = 0 ∨ i = 1 := by omega
    rcases hi' with rfl | rfl <;> omega
  have hinj : ∀ p ∈ cutPlaces M N, ∀ q ∈ cutPlaces M N, P p = true → P q = true → idx p = idx q → p = q := by
    intro p hp q hq hPp hPq e
    simp only [hP, decide_eq_true_eq] at hPp hPq
    obtain ⟨p1, -, -⟩ := mem_cutPlaces.1 hp
    obtain ⟨q1, -, -⟩ := mem_cutPlaces.1 hq
    have key : ∀ r c, r < M - 1 → c < N - 1 → r * (N - 1) + c < (M - 1) * (N - 1) := by
      intro r c hr hc
      calc r * (N - 1) + c < r * (N - 1) + (N - 1) := by omega
        _ = (r + 1) * (N - 1) := by ring
        _ ≤ (M - 1) * (N - 1) := Nat.mul_le_mul_right _ (by omega)
    have kp := key _ _ hPp.1 hPp.2
    have kq := key _ _ hPq.1 hPq.2
    obtain ⟨pi, pr, pc⟩ := p
    obtain ⟨qi, qr, qc⟩ := q
    simp only [hidx] at e kp kq p1 q1 hPp hPq
    have ei : pi = qi := by
      have hi : pi = 0 ∨ pi = 1 := by omega
      have hj : qi = 0 ∨ qi = 1 := by omega
      rcases hi with rfl | rfl <;> rcases hj with rfl | rfl <;> first | rfl | omega
    subst ei
    have e2 : pr * (N - 1) + pc = qr * (N - 1) + qc := by omega
    have e3 : pr = qr := by
      have a : (pr * (N - 1) + pc) / (N - 1) = (qr * (N - 1) + qc) / (N - 1) := by rw [e2]
      rwa [Nat.mul_comm pr, Nat.mul_comm qr, Nat.mul_add_div (by omega), Nat.mul_add_div (by omega), Nat.div_eq_of_lt hPp.2, Nat.div_eq_of_lt hPq.2, Nat.add_zero, Nat.add_zero] at a
    subst e3
    rw [Nat.add_left_cancel e2]
  have hget : ∀ i r c, i < 2 → r < M - 1 → c < N - 1 → ((cutPlaces M N).foldl (fun s q => if P q then s.set (idx q) (v q) else s)
      (List.replicate (2 * ((M - 1) * (N - 1))) [0, 0, 0]))[i * ((M - 1) * (N - 1)) + (r * (N - 1) + c)]? = some (v (i, r, c)) := by
    intro i r c hi hr hc
    refine foldl_set_mem (cutPlaces M N) P idx v _ hinj (q := (i, r, c)) (mem_cutPlaces.2 ⟨hi, by simp only; omega, by simp only; omega⟩) (by simp [hP, hr, hc]) ?_
    rw [List.length_replicate]
    exact hlen i r c hi hr hc
  refine ⟨_, _, hstep, ?_, ?_, hget, (cutPlaces_nodup M N).filter _, ?_⟩
  · rw [foldl_set_length, List.length_replicate]
  · have : ∀ (l : List CutName) (s : List (List α)), (∀ e ∈ s, e.length = 3) → ∀ e ∈ l.foldl (fun s q => if P q then s.set (idx q) (v q) else s) s, e.length = 3 := by
      intro l
      induction l with
      | nil => exact fun s h => h
      | cons a l ih =>
        intro s h
        refine ih _ ?_
        dsimp only
        split
        · intro e he
          rcases List.mem_or_eq_of_mem_set he with h' | rfl
          · exact h e h'
          · rfl
        · exact h
    refine this _ _ ?_
    intro e he
    rw [List.eq_of_mem_replicate he]
    rfl
  · intro q
    rw [List.mem_filter]
    simp only [hQ, decide_eq_true_eq]
    refine ⟨fun h => h.2, fun h => ⟨?_, h⟩⟩
    rw [mem_cutNames] at h
    rw [mem_cutPlaces]
    omega

theorem getD_flatten_three (E : List (List α)) (h : ∀ e ∈ E, e.length = 3) {k s : Nat} {x : List α} (hk : E[k]? = some x) (hs : s < 3) (d : α) :
    E.flatten.getD (k * 3 + s) d = x.getD s d := by
  induction E generalizing k with
  | nil => simp at hk
  | cons e E ih =>
    have he := h e (by simp)
    rw [List.flatten_cons]
    cases k with
    | zero =>
      simp only [List.getElem?_cons_zero, Option.some.injEq] at hk
      subst hk
      rw [List.getD_append _ _ _ _ (by omega), Nat.zero_mul, Nat.zero_add]
    | succ k =>
      rw [List.getElem?_cons_succ] at hk
      rw [List.getD_append_right _ _ _ _ (by omega), he, ← ih (fun e he => h e (by simp [he])) hk]
      congr 1
      omega

theorem flatten_length_three (E : List (List α)) (h : ∀ e ∈ E, e.length = 3) : E.flatten.length = E.length * 3 := by
  rw [List.length_flatten]
  induction E with
  | nil => rfl
  | cons e E ih =>
    rw [List.map_cons, List.sum_cons, ih (fun e he => h e (by simp [he])), h e (by simp), List.length_cons]
    ring

/-- What the program has set up. -/
structure CutsReady [Field α] [LinearOrder α] (idG idE M N D : Nat) (val : CutName → List α) (garbage : Garbage) (s : CutsSetup α)
    (hist : List (AddArg α)) (st : FGState CutName α) (state : BPState α) : Prop where
  grid : s.net.grid = uniArr idG [2, M - 1, N - 1] 3
  extra : s.net.extra = cutDict idE M N
  graph : graphOf [.arr s.net.grid, .dict s.net.extra] hist = s.net.fg
  compiled : Compiled [.arr s.net.grid, .dict s.net.extra] hist garbage st
  scopes : s.net.fg.allScopes = (cutScopes M N D).map (fun L => L.map (cutVar idG idE M N))
  tables : s.net.fg.tables.map (·.1) = (cutScopes M N D).map (fun L => L.map (cutVar idG idE M N))
  others : ∀ t, t ≠ .enum → s.net.fg.scopesOf t = []
  facs : ∀ lp, s.net.fg.factors lp = tableFacs s.net.fg.tables lp
  factors : s.net.fg.factors st.logPotentials = cutFactors α idG idE M N D
  bp : BP.create st state 0 = .ok s.bp
  pots : s.arrays.logPotentials = st.logPotentials
  msgs : s.arrays.ftovMsgs = List.replicate st.totalFactorNumStates 0
  len : s.arrays.evidence.length = st.numVarStates
  ev : ∀ q, IsCut M N q → ∀ t < 3, readEv st.varsToStarts s.arrays.evidence (cutVar idG idE M N q) t = (val q).getD t 0

theorem cuts_ready [Field α] [LinearOrder α] {idG idE idV idH : Nat} {idF : Nat → Nat} {M N D : Nat} (hid : idG % 2 ^ 32 ≠ idE % 2 ^ 32)
    (hF : ((List.range ((M - 1) * (N - 1))).map idF ++ [idV, idH]).Nodup) (hs : CutSizes M N D) (garbage : Garbage) (stateId : Nat)
    (depth : Nat → Nat → α) (noise : CutName → α × α) :
    ∃ s hist st state, cutsSetup idG idE idV idH idF garbage stateId M N D depth noise = .ok s ∧
      CutsReady idG idE M N D (cutVals M N depth noise) garbage s hist st state := by
  obtain ⟨fg, -, hr⟩ := cuts_inputs (α := α) (idV := idV) (idH := idH) (idF := idF) hid hs
  obtain ⟨-, -, hist, st, hg, hst, hsc, htab, hoth, htf, hfac⟩ := cuts_build hid hF hs hr garbage
  dsimp only at hg hst hsc htab hoth htf hfac
  have hM : 1 < M := by have := hs.1; have := hs.2.1; omega
  have hN : 1 < N := by have := hs.1; have := hs.2.2.1; omega
  obtain ⟨E, L, hE, el, e3, eg, ln, lm⟩ := cutEvidence_eq (α := α) idG idE (M := M) (N := N) (by omega) (by omega) depth noise
  obtain ⟨ev1, v1, v2, v3, -⟩ := uniArr_evidence hst (List.replicate st.numVarStates (0 : α)) (by simp) idG [2, M - 1, N - 1] 3 (by simp)
    (by simp; omega) E.flatten (by rw [flatten_length_three E e3, el]; simp)
  have hnames : cutNames M N ≠ [] := List.ne_nil_of_mem (mem_cutNames.2 (.inl ⟨rfl, show 0 < M - 1 by omega, rfl⟩) : ((0, 0, N - 1) : CutName) ∈ cutNames M N)
  obtain ⟨ev2, w1, w2, w3, w4⟩ := C22_dict hst ev1 (by rw [v2]; simp) (cutDict idE M N) (by simp) (cutNames_nodup M N) hnames (by simp [cutDict])
    (L.map (fun q => (q, ⟨[3], cutVals M N depth noise q⟩))) (by rw [List.map_map]; exact ln.map (fun a b h => h))
    (by intro k; rw [List.map_map, show ((fun p : CutName × NDArr α => p.1) ∘ fun q => (q, (⟨[3], cutVals M N depth noise q⟩ : NDArr α))) = id from rfl, List.map_id]; exact lm k)
    (by
      intro i k arr hi hk
      have hmem : k ∈ cutNames M N := List.mem_of_getElem? hi
      have := lookup_of_mem_nodup (L.map (fun q => (q, (⟨[3], cutVals M N depth noise q⟩ : NDArr α)))) (by rw [List.map_map]; exact ln.map (fun a b h => h)) k
        ⟨[3], cutVals M N depth noise k⟩ (List.mem_map.2 ⟨k, (lm k).2 hmem, rfl⟩)
      rw [this, Option.some.injEq] at hk
      subst hk
      refine ⟨rfl, ?_⟩
      show [3] = [(List.replicate (cutNames M N).length 3).getD i 0]
      have hi' : i < (cutNames M N).length := (List.getElem?_eq_some_iff.1 hi).1
      rw [List.getD_eq_getElem?_getD, List.getElem?_replicate, if_pos hi']
      rfl)
  have u1 : updateEvidence st (List.replicate st.numVarStates (0 : α)) [.group (.arr (uniArr idG [2, M - 1, N - 1] 3)) (.arr ⟨[2, M - 1, N - 1, 3], E.flatten⟩)] = .ok ev1 := by
    unfold updateEvidence
    rw [List.foldlM_cons, show (⟨[2, M - 1, N - 1, 3], E.flatten⟩ : NDArr α) = ⟨[2, M - 1, N - 1] ++ [3], E.flatten⟩ from rfl, v1]
    rfl
  have u2 : updateEvidence st ev1 [.group (.dict (cutDict idE M N)) (.dict (L.map (fun q => (q, ⟨[3], cutVals M N depth noise q⟩))))] = .ok ev2 := by
    unfold updateEvidence
    rw [List.foldlM_cons, w1]
    rfl
  have hlen2 : ev2.length = st.numVarStates := by rw [w2, v2]; simp
  obtain ⟨bp, hbp⟩ := (C51_partial hst (⟨⟨stateId, st.logPotentials⟩, ⟨stateId, List.replicate st.totalFactorNumStates 0⟩, ⟨stateId, ev2⟩⟩ : BPState α) 0).1.2 (by
    rw [hg, hsc]
    have := grid_ne (m := M - 1) (n := N - 1) (by omega) (by omega)
    simp [cutScopes, this])
  have hread : ∀ (ev : List α) v x, ev.length = st.numVarStates → Evidence.getitem st ev v = .ok x → ∀ t < v.n, readEv st.varsToStarts ev v t = x.getD t 0 := by
    intro ev v x hl hx t ht
    have := C26_evidence hst ev hl v x hx t ht
    rw [List.getD_eq_getElem?_getD, this]
    rfl
  refine ⟨⟨⟨uniArr idG [2, M - 1, N - 1] 3, cutDict idE M N, fg⟩, bp, ⟨st.logPotentials, List.replicate st.totalFactorNumStates 0, ev2⟩⟩, hist, st, _, ?_,
    rfl, rfl, hg, hst, hsc, htab, hoth, htf, hfac, hbp, rfl, rfl, hlen2, ?_⟩
  · unfold cutsSetup
    rw [hr, py_ok_bind]
    dsimp only
    have h4 := hst.compiled
    rw [hg] at h4
    rw [hE, py_ok_bind, h4, py_ok_bind, show bpStateOf stateId st = .ok (⟨⟨stateId, st.logPotentials⟩, ⟨stateId, List.replicate st.totalFactorNumStates 0⟩,
      ⟨stateId, List.replicate st.numVarStates 0⟩⟩ : BPState α) by
      simp [bpStateOf, LogPotentials.create, FToVMessages.create, Evidence.create, BPState.create, bind, Except.bind], py_ok_bind]
    dsimp only
    unfold Evidence.setitem
    rw [u1]
    simp only [Part.assign, Part.assigned]
    rw [py_ok_bind, u2]
    simp only [py_ok_bind, hbp]
    rw [C43_init hbp]
    rfl
  · intro q hq t ht
    obtain ⟨h1, h2 | ⟨h2, h3⟩⟩ := isCut_cases hq
    · have hcell : cutVar idG idE M N q = uniCell idG [2, M - 1, N - 1] 3 [q.1, q.2.1, q.2.2] := by unfold cutVar; rw [if_pos h2]
      have hnot : cutVar idG idE M N q ∉ (cutDict idE M N).variables := by
        rw [mem_cutDict idG]
        rintro ⟨q', hq', e⟩
        have hc' : IsCut M N q' := by rw [mem_cutNames] at hq'; unfold IsCut; omega
        have e' := cutVar_inj hid hs hq hc' e
        subst e'
        rw [mem_cutNames] at hq'
        omega
      have hsome : ∃ x, Evidence.getitem st ev1 (cutVar idG idE M N q) = .ok x := by
        obtain ⟨b1, -⟩ := hst.blocks
        obtain ⟨u, hu⟩ := (b1 (cutVar idG idE M N q)).2 ⟨_, List.mem_cons_self, by
          rw [hcell]
          exact (mem_uniArr _ _ _ _).2 ⟨_, by simp [h1, h2], rfl⟩⟩
        simp only [Evidence.getitem, StartMap.get, hu, bind, Except.bind, pure, Except.pure]
        exact ⟨_, rfl⟩
      obtain ⟨x, hx⟩ := hsome
      have hx2 := (w4 _ hnot).trans hx
      have hl1 : ev1.length = st.numVarStates := by rw [v2]; simp
      rw [hread ev2 _ _ hlen2 hx2 t (by rw [cutVar_n]; exact ht), ← hread ev1 _ _ hl1 hx t (by rw [cutVar_n]; exact ht), hcell,
        v3 [q.1, q.2.1, q.2.2] (by simp [h1, h2]) t ht]
      refine Eq.trans ?_ (getD_flatten_three E e3 (eg q.1 q.2.1 q.2.2 h1 h2.1 h2.2) ht 0)
      congr 2
      simp [rowMajor]
    · obtain ⟨v, arr, a1, a2, a3⟩ := w3 q h2
      rw [cut_dict idG idE h2, Except.ok.injEq] at a1
      subst a1
      have := lookup_of_mem_nodup (L.map (fun q => (q, (⟨[3], cutVals M N depth noise q⟩ : NDArr α)))) (by rw [List.map_map]; exact ln.map (fun a b h => h)) q
        ⟨[3], cutVals M N depth noise q⟩ (List.mem_map.2 ⟨q, (lm q).2 h2, rfl⟩)
      rw [this, Option.some.injEq] at a2
      subst a2
      exact hread ev2 _ _ hlen2 a3 t (by rw [cutVar_n]; exact ht)

end PGMax
