import Verif.Lemmas.CutsSetup
import Verif.Lemmas.Gmrf
import Verif.Props.C37
import Verif.Props.C39_C40

/-! Helper lemmas: sizes of the graph of the program that labels the cuts of a depth image. -/

namespace PGMax

theorem count_map_inj {β γ : Type _} [BEq β] [LawfulBEq β] [BEq γ] [LawfulBEq γ] (f : β → γ) (L : List β) (q : β) (h : ∀ p ∈ L, f p = f q → p = q) : (L.map f).count (f q) = L.count q := by
  induction L with
  | nil => rfl
  | cons a L ih =>
    rw [List.map_cons, List.count_cons, List.count_cons, ih (fun p hp => h p (by simp [hp]))]
    congr 1
    by_cases e : a = q
    · simp [e]
    · have : f a ≠ f q := fun e' => e (h a (by simp) e')
      simp [e, this]

theorem sum_count_le {β γ : Type _} [BEq β] [LawfulBEq β] [DecidableEq β] [DecidableEq γ] (G : List γ) (hG : G.Nodup) (f : γ → List β) (hf : ∀ p ∈ G, (f p).Nodup) (q : β) (S : List γ)
    (hS : ∀ p ∈ G, q ∈ f p → p ∈ S) : (G.map (fun p => (f p).count q)).sum ≤ S.length := by
  have e : (G.map (fun p => (f p).count q)).sum = (G.filter (fun p => q ∈ f p)).length := by
    clear hG hS
    induction G with
    | nil => rfl
    | cons a G ih =>
      rw [List.map_cons, List.sum_cons, ih (fun p hp => hf p (by simp [hp]))]
      by_cases h : q ∈ f a
      · rw [List.filter_cons_of_pos (by simpa using h), List.count_eq_one_of_mem (hf a (by simp)) h, List.length_cons]
        omega
      · rw [List.filter_cons_of_neg (by simpa using h), List.count_eq_zero_of_not_mem h]
        omega
  rw [e]
  refine ((hG.filter _).subperm fun p hp => ?_).length_le
  obtain ⟨h1, h2⟩ := List.mem_filter.1 hp
  exact hS p h1 (by simpa using h2)

theorem cut_counts (M N D : Nat) (q : CutName) : ((cutScopes M N D).map (List.count q)).sum ≤ D + 2 := by
  obtain ⟨i, r, c⟩ := q
  simp only [cutScopes, List.map_append, List.sum_append, List.map_map]
  have hv : ∀ p ∈ grid N (M - D), (vertNames D p).Nodup := fun p _ => (List.nodup_range' ).map (fun a b h => by simpa using h)
  have hh : ∀ p ∈ grid M (N - D), (horzNames D p).Nodup := fun p _ => (List.nodup_range' ).map (fun a b h => by simpa using h)
  have hcr : ∀ p ∈ grid (M - 1) (N - 1), (crossNames p).Nodup := by
    rintro ⟨a, b⟩ _
    simp [crossNames]
  have h0 : ∀ (G : List (Nat × Nat)) (f : Nat × Nat → List CutName), (∀ p ∈ G, (i, r, c) ∉ f p) → (G.map (List.count (i, r, c) ∘ f)).sum = 0 := by
    intro G f h
    rw [List.map_congr_left (f := List.count (i, r, c) ∘ f) (g := fun _ => 0) (fun p hp => List.count_eq_zero_of_not_mem (h p hp))]
    simp
  have h1 := sum_count_le (grid (M - 1) (N - 1)) (grid_nodup _ _) crossNames hcr (i, r, c)
    (if i = 0 then [(r, c), (r, c - 1)] else [(r, c), (r - 1, c)]) (by
      rintro ⟨a, b⟩ - h
      simp only [crossNames, List.mem_cons, Prod.mk.injEq, List.not_mem_nil, or_false] at h
      rcases h with ⟨rfl, rfl, rfl⟩ | ⟨rfl, rfl, rfl⟩ | ⟨rfl, rfl, rfl⟩ | ⟨rfl, rfl, rfl⟩ <;> simp)
  have h2 : (if i = 0 then [(r, c), (r, c - 1)] else [(r, c), (r - 1, c)]).length = 2 := by split <;> rfl
  rw [h2] at h1
  rw [show (grid (M - 1) (N - 1)).map (List.count (i, r, c) ∘ crossNames) = (grid (M - 1) (N - 1)).map (fun p => (crossNames p).count (i, r, c)) from rfl]
  by_cases hi : i = 0
  · rw [h0 (grid M (N - D)) (horzNames D) (by
      intro p _ h
      simp only [horzNames, List.mem_map, Prod.mk.injEq] at h
      obtain ⟨k, -, e, -⟩ := h
      omega)]
    have h3 := sum_count_le (grid N (M - D)) (grid_nodup _ _) (vertNames D) hv (i, r, c) ((List.range D).map (fun k => (c, r - k))) (by
      rintro ⟨a, b⟩ - h
      simp only [vertNames, List.mem_map, Prod.mk.injEq, List.mem_range'_1] at h
      obtain ⟨k, hk, -, rfl, rfl⟩ := h
      exact List.mem_map.2 ⟨k - b, List.mem_range.2 (by omega), by simp only [Prod.mk.injEq, true_and]; omega⟩)
    rw [List.length_map, List.length_range] at h3
    rw [show (grid N (M - D)).map (List.count (i, r, c) ∘ vertNames D) = (grid N (M - D)).map (fun p => (vertNames D p).count (i, r, c)) from rfl]
    omega
  · rw [h0 (grid N (M - D)) (vertNames D) (by
      intro p _ h
      simp only [vertNames, List.mem_map, Prod.mk.injEq] at h
      obtain ⟨k, -, e, -⟩ := h
      omega)]
    have h3 := sum_count_le (grid M (N - D)) (grid_nodup _ _) (horzNames D) hh (i, r, c) ((List.range D).map (fun k => (r, c - k))) (by
      rintro ⟨a, b⟩ - h
      simp only [horzNames, List.mem_map, Prod.mk.injEq, List.mem_range'_1] at h
      obtain ⟨k, hk, -, rfl, rfl⟩ := h
      exact List.mem_map.2 ⟨k - b, List.mem_range.2 (by omega), by simp only [Prod.mk.injEq, true_and]; omega⟩)
    rw [List.length_map, List.length_range] at h3
    rw [show (grid M (N - D)).map (List.count (i, r, c) ∘ horzNames D) = (grid M (N - D)).map (fun p => (horzNames D p).count (i, r, c)) from rfl]
    omega

variable {α : Type}

theorem CutsReady.edge [Field α] [LinearOrder α] {idG idE M N D : Nat} {val : CutName → List α} {garbage : Garbage} {s : CutsSetup α}
    {hist : List (AddArg α)} {st : FGState CutName α} {state : BPState α} (h : CutsReady idG idE M N D val garbage s hist st state) {f i : Nat} {v : Var}
    (he : IsEdge s.net.fg.allScopes f i v) : ∃ q, IsCut M N q ∧ v = cutVar idG idE M N q := by
  obtain ⟨vs, h1, h2⟩ := he
  rw [h.scopes] at h1
  obtain ⟨L, hL, rfl⟩ := List.mem_map.1 (List.mem_of_getElem? h1)
  obtain ⟨q, hq, rfl⟩ := List.mem_map.1 (List.mem_of_getElem? h2)
  exact ⟨q, cutScopes_cut L hL q hq, rfl⟩

theorem CutsReady.degree [Field α] [LinearOrder α] {idG idE M N D : Nat} (hid : idG % 2 ^ 32 ≠ idE % 2 ^ 32) (hs : CutSizes M N D) {val : CutName → List α} {garbage : Garbage} {s : CutsSetup α}
    {hist : List (AddArg α)} {st : FGState CutName α} {state : BPState α} (h : CutsReady idG idE M N D val garbage s hist st state) {q : CutName} (hq : IsCut M N q) :
    (edgesOf s.net.fg.allScopes (cutVar idG idE M N q)).length ≤ D + 2 := by
  rw [h.scopes, edgesOf_length, List.map_map]
  refine le_trans (le_of_eq ?_) (cut_counts M N D q)
  congr 1
  refine List.map_congr_left fun L hL => ?_
  exact count_map_inj _ _ _ fun p hp e => cutVar_inj hid hs (cutScopes_cut L hL p hp) hq e

theorem CutsReady.states [Field α] [LinearOrder α] {idG idE M N D : Nat} {val : CutName → List α} {garbage : Garbage} {s : CutsSetup α}
    {hist : List (AddArg α)} {st : FGState CutName α} {state : BPState α} (h : CutsReady idG idE M N D val garbage s hist st state) :
    (s.net.fg.allScopes.map (fun vs => (vs.map (·.n)).sum)).sum = 12 * ((M - 1) * (N - 1)) + 3 * D * (N * (M - D) + M * (N - D)) := by
  rw [h.scopes, List.map_map]
  have e : ((fun vs : List Var => (vs.map (·.n)).sum) ∘ fun L : List CutName => L.map (cutVar idG idE M N)) = fun L => 3 * L.length := by
    funext L
    simp only [Function.comp_apply, List.map_map]
    rw [List.map_congr_left (f := (fun x : Var => x.n) ∘ cutVar idG idE M N) (g := fun _ => 3) (fun q _ => cutVar_n idG idE M N q)]
    simp [Nat.mul_comm]
  have hl : ∀ m n, (PGMax.grid m n).length = m * n := by intro m n; simp [PGMax.grid, List.length_flatMap]
  rw [e]
  simp only [cutScopes, List.map_append, List.sum_append, List.map_map, Function.comp_def, List.length_map, List.length_range', List.length_cons, List.length_nil, List.map_const', List.sum_replicate, hl, smul_eq_mul]
  ring

theorem CutsReady.run [Field α] [LinearOrder α] [IsStrictOrderedRing α] {idG idE M N D : Nat} (hid : idG % 2 ^ 32 ≠ idE % 2 ^ 32) (hs : CutSizes M N D) {val : CutName → List α}
    {garbage : Garbage} {s : CutsSetup α} {hist : List (AddArg α)} {st : FGState CutName α} {state : BPState α} (h : CutsReady idG idE M N D val garbage s hist st state)
    (hD : D ≤ 8) (hval : ∀ q, IsCut M N q → ∀ t < 3, |(val q).getD t 0| ≤ 1002) (env : Env α)
    (hsize : env.wrapNeg = false ∨ 12 * ((M - 1) * (N - 1)) + 3 * D * (N * (M - D) + M * (N - D)) + 3 ≤ 100000) {d : α} (hd : 0 ≤ d ∧ d ≤ 1 / 2) :
    Fits env s.net.fg (0 : α) ∧ Moderate s.net.fg s.arrays.logPotentials (readEv st.varsToStarts s.arrays.evidence) d ∧
      LogicalModerate s.net.fg (readEv st.varsToStarts s.arrays.evidence) ∧ s.arrays.ftovMsgs.length = st.totalFactorNumStates ∧
      (∀ f i t, readMsgs s.net.fg.allScopes s.arrays.ftovMsgs f i t = 0) ∧
      ∀ n, AgreeOn s.net.fg.allScopes (readMsgs s.net.fg.allScopes (s.bp.runBP env s.arrays n d).ftovMsgs)
        (tbRun (s.net.fg.factors s.arrays.logPotentials) (readEv st.varsToStarts s.arrays.evidence) d n (fun _ _ _ => 0)) := by
  have hz : ∀ f i t, readMsgs s.net.fg.allScopes s.arrays.ftovMsgs f i t = 0 := by
    intro f i t
    rw [h.msgs]
    unfold readMsgs
    rw [List.getD_eq_getElem?_getD, List.getElem?_replicate]
    split <;> rfl
  have hz' : readMsgs s.net.fg.allScopes s.arrays.ftovMsgs = fun _ _ _ => 0 := by
    funext f i t
    exact hz f i t
  have hfit : Fits env s.net.fg (0 : α) := by
    refine ⟨hsize.imp_right fun hsz f i v he => ?_, fun _ => ?_⟩
    · obtain ⟨q, -, rfl⟩ := h.edge he
      rw [h.states, cutVar_n]
      exact hsz
    · unfold FactorGraph.numParents
      rw [h.others .or (by decide), h.others .and (by decide)]
      simp
  have hmod : Moderate s.net.fg s.arrays.logPotentials (readEv st.varsToStarts s.arrays.evidence) d := by
    refine moderate_of_bounds (E := 1002) (P := 0) (D := 10) (K := 8) hd ?_ ?_ (by norm_num) ?_ (by norm_num)
    · intro f i v t he ht
      obtain ⟨q, hq, rfl⟩ := h.edge he
      rw [cutVar_n] at ht
      rw [h.ev q hq t ht]
      exact hval q hq t ht
    · intro f i v he
      obtain ⟨q, hq, rfl⟩ := h.edge he
      have : (edgesOf s.net.fg.allScopes (cutVar idG idE M N q)).length ≤ 10 := le_trans (h.degree hid hs hq) (by omega)
      exact_mod_cast this
    · rw [← h.facs, h.pots, h.factors]
      intro F hF
      simp only [cutFactors, List.mem_append, List.mem_map] at hF
      rcases hF with ⟨p, -, rfl⟩ | ⟨p, -, rfl⟩ | ⟨p, -, rfl⟩ <;>
        refine ⟨?_, fun r hr => by rw [(mem_cutTable.1 hr).2, abs_zero]⟩ <;> simp <;>
        first | exact hD | norm_num
  have hlog : LogicalModerate s.net.fg (readEv st.varsToStarts s.arrays.evidence) := by
    intro f vs hf hlt
    have := (List.getElem?_eq_some_iff.1 hf).1
    have h1 := congrArg List.length h.scopes
    have h2 := congrArg List.length h.tables
    rw [List.length_map] at h1 h2
    rw [List.length_map] at h2
    omega
  have hlen : s.arrays.ftovMsgs.length = st.totalFactorNumStates := by rw [h.msgs]; simp
  refine ⟨hfit, hmod, hlog, hlen, hz, fun n => ?_⟩
  have hfit' := hfit
  have hmod' := hmod
  have hlog' := hlog
  rw [← h.graph] at hfit' hmod' hlog'
  have := C37_partial h.compiled h.bp env hfit' s.arrays n d (by rw [h.pots]) h.len hlen hmod' hlog' (by
    intro f i v he
    rw [h.graph] at he
    obtain ⟨q, -, rfl⟩ := h.edge he
    exact ⟨0, by rw [cutVar_n]; norm_num, by rw [h.graph, hz]; norm_num⟩)
  rw [h.graph, hz'] at this
  exact this

end PGMax
