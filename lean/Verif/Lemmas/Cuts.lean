import Verif.Spec.Cuts
import Verif.Lemmas.Enums
import Verif.Lemmas.Writes

/-! Helper lemmas: the graph of the program that labels the cuts of a depth image. -/

namespace PGMax

variable {α : Type _}

/-! ### Tables -/

theorem mem_crossingConfigs {l t r b : Nat} (hl : l < 3) (ht : t < 3) (hr : r < 3) (hb : b < 3) : [l, t, r, b] ∈ crossingConfigs ↔ CrossingOk l t r b := by
  have key : ∀ l < 3, ∀ t < 3, ∀ r < 3, ∀ b < 3, [l, t, r, b] ∈ crossingConfigs ↔ CrossingOk l t r b := by
    intro l hl t ht r hr b hb
    unfold CrossingOk
    have c : ∀ n < 3, n = 0 ∨ n = 1 ∨ n = 2 := by omega
    rcases c l hl with rfl | rfl | rfl <;> rcases c t ht with rfl | rfl | rfl <;> rcases c r hr with rfl | rfl | rfl <;> rcases c b hb with rfl | rfl | rfl <;> decide
  exact key l hl t ht r hr b hb

theorem crossingConfigs_rows : ∀ row ∈ crossingConfigs, ∃ l t r b, row = [l, t, r, b] ∧ l < 3 ∧ t < 3 ∧ r < 3 ∧ b < 3 := by
  intro row hrow
  have : ∀ row ∈ crossingConfigs, row.length = 4 ∧ ∀ s ∈ row, s < 3 := by decide
  obtain ⟨h1, h2⟩ := this row hrow
  match row, h1 with
  | [l, t, r, b], _ => exact ⟨l, t, r, b, rfl, by simpa using h2⟩

theorem mem_suppressionConfigs (d : Nat) (row : List Nat) :
    row ∈ suppressionConfigs d ↔ row.length = d ∧ (∀ s ∈ row, s < 3) ∧ ∀ (i j a b : Nat), i < j → row[i]? = some a → row[j]? = some b → a = 0 ∨ b = 0 := by
  unfold suppressionConfigs
  simp only [List.mem_cons, List.mem_flatMap, List.mem_range, List.not_mem_nil, or_false]
  have hrep : ∀ (k : Nat) a, (List.replicate d 0)[k]? = some a → a = 0 := fun k a h => List.eq_of_mem_replicate (List.mem_of_getElem? h)
  have hset : ∀ w, w < 3 → ∀ i, i < d → ((List.replicate d 0).set i w).length = d ∧ (∀ s ∈ (List.replicate d 0).set i w, s < 3) ∧
      ∀ (j k a b : Nat), j < k → ((List.replicate d 0).set i w)[j]? = some a → ((List.replicate d 0).set i w)[k]? = some b → a = 0 ∨ b = 0 := by
    intro w hw i hi
    refine ⟨by simp, ?_, ?_⟩
    · intro s hs
      rcases List.mem_or_eq_of_mem_set hs with h | rfl
      · rw [List.eq_of_mem_replicate h]; omega
      · exact hw
    · intro j k a b hjk ha hb
      by_cases hj : i = j
      · subst hj
        rw [List.getElem?_set_ne (by omega)] at hb
        exact .inr (hrep k b hb)
      · rw [List.getElem?_set_ne hj] at ha
        exact .inl (hrep j a ha)
  constructor
  · rintro (rfl | ⟨i, hi, rfl | rfl⟩)
    · refine ⟨by simp, fun s hs => by rw [List.eq_of_mem_replicate hs]; omega, fun i j a b _ ha _ => .inl (hrep i a ha)⟩
    · exact hset 1 (by omega) i hi
    · exact hset 2 (by omega) i hi
  · rintro ⟨hl, h3, hp⟩
    by_cases h0 : ∀ s ∈ row, s = 0
    · exact .inl (List.eq_replicate_iff.2 ⟨hl, h0⟩)
    · push Not at h0
      obtain ⟨s, hs, hne⟩ := h0
      obtain ⟨i, hi⟩ := List.mem_iff_getElem?.1 hs
      have hil : i < d := by rw [← hl]; exact (List.getElem?_eq_some_iff.1 hi).1
      have e : row = (List.replicate d 0).set i s := by
        refine List.ext_getElem? fun j => ?_
        by_cases hj : i = j
        · subst hj
          rw [hi, List.getElem?_set_self (by simpa using hil)]
        · rw [List.getElem?_set_ne hj]
          by_cases hjd : j < d
          · have hjl : j < row.length := by omega
            rw [List.getElem?_replicate, if_pos hjd, List.getElem?_eq_getElem hjl]
            congr 1
            rcases Nat.lt_or_gt_of_ne hj with h | h
            · exact (hp i j s _ h hi (List.getElem?_eq_getElem hjl)).resolve_left hne
            · exact (hp j i _ s h (List.getElem?_eq_getElem hjl) hi).resolve_right hne
          · rw [List.getElem?_eq_none (by omega), List.getElem?_eq_none (by simpa using hjd)]
      refine .inr ⟨i, hil, ?_⟩
      have := h3 s hs
      have : s = 1 ∨ s = 2 := by omega
      rcases this with rfl | rfl
      · exact .inl e
      · exact .inr e

theorem suppressionConfigs_length (d : Nat) : (suppressionConfigs d).length = 2 * d + 1 := by
  unfold suppressionConfigs
  rw [List.length_cons, List.length_flatMap]
  simp [Nat.mul_comm]

/-! ### Variables -/

/-- The variables of the program. -/
def cutVar (idG idE M N : Nat) (q : CutName) : Var :=
  if q.2.1 < M - 1 ∧ q.2.2 < N - 1 then uniCell idG [2, M - 1, N - 1] 3 [q.1, q.2.1, q.2.2]
  else ⟨idE % 2 ^ 32 * 1000000000 + (if q.1 = 0 then q.2.1 else M - 1 + q.2.2), 3⟩

/-- The dictionary of the program. -/
def cutDict (idE M N : Nat) : VarDict CutName := ⟨idE % 2 ^ 32 * 1000000000, cutNames M N, List.replicate (cutNames M N).length 3⟩

theorem cutDict_create (idE M N : Nat) : VarDict.create idE (cutNames M N) (.scalar 3) = .ok (cutDict idE M N) := by
  unfold VarDict.create
  rw [vgPostInit_ok]
  rfl

theorem cutNames_length (M N : Nat) : (cutNames M N).length = (M - 1) + (N - 1) := by simp [cutNames]

theorem mem_cutNames {M N : Nat} {q : CutName} : q ∈ cutNames M N ↔ q.1 = 0 ∧ q.2.1 < M - 1 ∧ q.2.2 = N - 1 ∨ q.1 = 1 ∧ q.2.1 = M - 1 ∧ q.2.2 < N - 1 := by
  obtain ⟨i, r, c⟩ := q
  simp only [cutNames, List.mem_append, List.mem_map, List.mem_range, Prod.mk.injEq]
  constructor
  · rintro (⟨a, h, rfl, rfl, rfl⟩ | ⟨a, h, rfl, rfl, rfl⟩)
    · exact .inl ⟨rfl, h, rfl⟩
    · exact .inr ⟨rfl, rfl, h⟩
  · rintro (⟨rfl, h, rfl⟩ | ⟨rfl, rfl, h⟩)
    · exact .inl ⟨r, h, rfl, rfl, rfl⟩
    · exact .inr ⟨c, h, rfl, rfl, rfl⟩

theorem cutNames_nodup (M N : Nat) : (cutNames M N).Nodup := by
  unfold cutNames
  rw [List.nodup_append]
  refine ⟨List.nodup_range.map (fun a b h => by simpa using h), List.nodup_range.map (fun a b h => by simpa using h), ?_⟩
  intro a ha b hb e
  obtain ⟨i, -, rfl⟩ := List.mem_map.1 ha
  obtain ⟨j, -, rfl⟩ := List.mem_map.1 hb
  simp at e

theorem cutNames_getElem {M N k : Nat} {q : CutName} : (cutNames M N)[k]? = some q ↔
    q.1 = 0 ∧ q.2.1 < M - 1 ∧ q.2.2 = N - 1 ∧ k = q.2.1 ∨ q.1 = 1 ∧ q.2.1 = M - 1 ∧ q.2.2 < N - 1 ∧ k = M - 1 + q.2.2 := by
  obtain ⟨i, r, c⟩ := q
  unfold cutNames
  by_cases hk : k < M - 1
  · rw [List.getElem?_append_left (by simpa using hk), List.getElem?_map, List.getElem?_range hk]
    simp only [Option.map_some, Option.some.injEq, Prod.mk.injEq]
    constructor
    · rintro ⟨rfl, rfl, rfl⟩; exact .inl ⟨rfl, hk, rfl, rfl⟩
    · rintro (⟨rfl, -, rfl, rfl⟩ | ⟨-, -, -, h⟩)
      · exact ⟨rfl, rfl, rfl⟩
      · omega
  · rw [List.getElem?_append_right (by simpa using hk), List.length_map, List.length_range, List.getElem?_map]
    by_cases hk2 : k - (M - 1) < N - 1
    · rw [List.getElem?_range hk2]
      simp only [Option.map_some, Option.some.injEq, Prod.mk.injEq]
      constructor
      · rintro ⟨rfl, rfl, rfl⟩; exact .inr ⟨rfl, rfl, hk2, by omega⟩
      · rintro (⟨-, h, -, rfl⟩ | ⟨rfl, rfl, h, rfl⟩)
        · omega
        · exact ⟨rfl, rfl, by omega⟩
    · rw [List.getElem?_eq_none (by simpa using hk2)]
      simp only [Option.map_none, reduceCtorEq, false_iff]
      rintro (⟨-, h, -, rfl⟩ | ⟨rfl, rfl, h, rfl⟩) <;> omega

theorem cut_grid (idG idE : Nat) {M N i r c : Nat} (hi : i < 2) (hr : r < M - 1) (hc : c < N - 1) :
    (uniArr idG [2, M - 1, N - 1] 3).at [(i : Int), (r : Int), (c : Int)] = .ok (cutVar idG idE M N (i, r, c)) := by
  have := uniArr_at idG [2, M - 1, N - 1] 3 (by simp) (cs := [i, r, c]) (by simp [hi, hr, hc])
  simp only [List.map_cons, List.map_nil] at this
  rw [this]
  unfold cutVar
  rw [if_pos ⟨hr, hc⟩]

theorem cut_grid0 (idG idE : Nat) {M N r c : Nat} (hr : r < M - 1) (hc : c < N - 1) :
    (uniArr idG [2, M - 1, N - 1] 3).at [0, (r : Int), (c : Int)] = .ok (cutVar idG idE M N (0, r, c)) := cut_grid idG idE (i := 0) (by omega) hr hc

theorem cut_grid1 (idG idE : Nat) {M N r c : Nat} (hr : r < M - 1) (hc : c < N - 1) :
    (uniArr idG [2, M - 1, N - 1] 3).at [1, (r : Int), (c : Int)] = .ok (cutVar idG idE M N (1, r, c)) := cut_grid idG idE (i := 1) (by omega) hr hc

theorem cut_grid_out (idG : Nat) {M N i r c : Nat} (h : ¬ (r < M - 1 ∧ c < N - 1)) :
    (uniArr idG [2, M - 1, N - 1] 3).at [(i : Int), (r : Int), (c : Int)] = .error .indexError := by
  have : (uniArr idG [2, M - 1, N - 1] 3).getitem ([(i : Int), (r : Int), (c : Int)].map .int) = .error .indexError := by
    refine (C03_out_of_range _ _).1 (by simp [uniArr]) ?_
    by_cases hr : r < M - 1
    · exact ⟨(N - 1, (c : Int)), by simp [uniArr], by simp only; omega⟩
    · exact ⟨(M - 1, (r : Int)), by simp [uniArr], by simp only; omega⟩
  unfold NDVarArray.at
  rw [this]

theorem getitem_index {κ : Type _} [DecidableEq κ] (d : VarDict κ) {q : κ} (hq : q ∈ d.names) {h n : Nat} : ∃ i : Nat, d.names[i]? = some q ∧
    (d.variableHashes[i]? = some h → d.numStates[i]? = some n → d.getitem q = .ok ⟨h, n⟩) := by
  have hlt := List.idxOf_lt_length_iff.2 hq
  refine ⟨d.names.idxOf q, ?_, fun e1 e2 => ?_⟩
  · rw [List.getElem?_eq_getElem hlt]; simp
  · unfold VarDict.getitem
    rw [if_pos hq]
    dsimp only
    rw [e1, e2]

theorem cut_dict (idG idE : Nat) {M N : Nat} {q : CutName} (hq : q ∈ cutNames M N) : (cutDict idE M N).getitem q = .ok (cutVar idG idE M N q) := by
  obtain ⟨i, hg, hv⟩ := getitem_index (cutDict idE M N) (q := q) (h := (cutVar idG idE M N q).hash) (n := 3) hq
  have hlt : i < (cutNames M N).length := (List.getElem?_eq_some_iff.1 hg).1
  have e1 : (cutDict idE M N).variableHashes[i]? = some (idE % 2 ^ 32 * 1000000000 + i) := by
    show ((List.range (cutNames M N).length).map (fun i => idE % 2 ^ 32 * 1000000000 + i))[i]? = _
    rw [List.getElem?_map, List.getElem?_range hlt]
    rfl
  have e2 : (cutDict idE M N).numStates[i]? = some 3 := by
    show (List.replicate (cutNames M N).length 3)[i]? = some 3
    rw [List.getElem?_replicate, if_pos hlt]
  have ev : cutVar idG idE M N q = ⟨idE % 2 ^ 32 * 1000000000 + i, 3⟩ := by
    unfold cutVar
    rcases cutNames_getElem.1 hg with ⟨h1, h2, h3, h4⟩ | ⟨h1, h2, h3, h4⟩
    · rw [if_neg (by omega), if_pos h1, h4]
    · rw [if_neg (by omega), if_neg (by omega), h4]
  have := hv (by rw [e1, ev]) e2
  rw [this, ev]

theorem cut_dict_out (idE : Nat) {M N : Nat} {q : CutName} (hq : q ∉ cutNames M N) : (cutDict idE M N).getitem q = .error .valueError := by
  unfold VarDict.getitem
  rw [if_neg (show q ∉ (cutDict idE M N).names from hq)]

theorem mem_cutDict (idG idE : Nat) {M N : Nat} {v : Var} : v ∈ (cutDict idE M N).variables ↔ ∃ q ∈ cutNames M N, v = cutVar idG idE M N q := by
  have e : (cutDict idE M N).variables = (cutNames M N).map (cutVar idG idE M N) := by
    refine List.ext_getElem? fun k => ?_
    unfold VarDict.variables VarDict.variableHashes
    rw [List.getElem?_map]
    by_cases hk : k < (cutNames M N).length
    · have hg := List.getElem?_eq_getElem hk
      rw [hg, Option.map_some, List.getElem?_zipWith, List.getElem?_map, List.getElem?_range (show k < (cutDict idE M N).names.length from hk)]
      rw [show (cutDict idE M N).numStates[k]? = some 3 by
        show (List.replicate (cutNames M N).length 3)[k]? = some 3
        rw [List.getElem?_replicate, if_pos hk]]
      simp only [Option.map_some]
      unfold cutVar
      rcases cutNames_getElem.1 hg with ⟨h1, h2, h3, h4⟩ | ⟨h1, h2, h3, h4⟩
      · rw [if_neg (by omega), if_pos h1, ← h4]; rfl
      · rw [if_neg (by omega), if_neg (by omega), ← h4]; rfl
    · have h1 : (cutNames M N)[k]? = none := List.getElem?_eq_none (by omega)
      rw [h1, List.getElem?_eq_none (by simp [cutDict]; omega)]
      rfl
  rw [e, List.mem_map]
  exact ⟨fun ⟨q, h, e⟩ => ⟨q, h, e.symm⟩, fun ⟨q, h, e⟩ => ⟨q, h, e.symm⟩⟩

/-- The variable groups of the program. -/
abbrev cutVgs (idG idE M N : Nat) : List (VGroup CutName) := [.arr (uniArr idG [2, M - 1, N - 1] 3), .dict (cutDict idE M N)]

theorem isCut_cases {M N : Nat} {q : CutName} (h : IsCut M N q) : q.1 < 2 ∧ (q.2.1 < M - 1 ∧ q.2.2 < N - 1 ∨ q ∈ cutNames M N ∧ ¬ (q.2.1 < M - 1 ∧ q.2.2 < N - 1)) := by
  rw [mem_cutNames]
  unfold IsCut at h
  omega

theorem cut_mem {idG idE M N : Nat} (hM : 1 ≤ M) (hN : 1 ≤ N) {v : Var} : v ∈ graphVars (cutVgs idG idE M N) ↔ ∃ q, IsCut M N q ∧ v = cutVar idG idE M N q := by
  have h0 : v ∈ graphVars (cutVgs idG idE M N) ↔ v ∈ (uniArr idG [2, M - 1, N - 1] 3).variables ∨ v ∈ (cutDict idE M N).variables := by
    simp [graphVars, VGroup.variables]
  rw [h0, mem_uniArr, mem_cutDict idG]
  constructor
  · rintro (⟨cs, h, rfl⟩ | ⟨q, hq, rfl⟩)
    · match cs, h with
      | [i, r, c], h =>
        simp only [List.forall₂_cons, List.forall₂_nil_left_iff, and_true] at h
        refine ⟨(i, r, c), ?_, ?_⟩
        · unfold IsCut; simp only; omega
        · unfold cutVar; rw [if_pos h.2]
    · refine ⟨q, ?_, rfl⟩
      rw [mem_cutNames] at hq
      unfold IsCut; omega
  · rintro ⟨q, hq, rfl⟩
    obtain ⟨h1, h2 | h2⟩ := isCut_cases hq
    · refine .inl ⟨[q.1, q.2.1, q.2.2], by simp [h1, h2], ?_⟩
      unfold cutVar; rw [if_pos h2]
    · exact .inr ⟨q, h2.1, rfl⟩

theorem cutVar_n (idG idE M N : Nat) (q : CutName) : (cutVar idG idE M N q).n = 3 := by
  unfold cutVar
  split <;> rfl

/-- The sizes of images for which the program works. -/
def CutSizes (M N D : Nat) : Prop := 1 ≤ D ∧ D < M ∧ D < N ∧ 2 * ((M - 1) * (N - 1)) ≤ 1000000000

theorem CutSizes.names {M N D : Nat} (h : CutSizes M N D) : (cutNames M N).length ≤ 1000000000 := by
  obtain ⟨h1, h2, h3, h4⟩ := h
  rw [cutNames_length]
  obtain ⟨a, ha⟩ : ∃ a, M - 1 = a + 1 := ⟨M - 2, by omega⟩
  obtain ⟨b, hb⟩ : ∃ b, N - 1 = b + 1 := ⟨N - 2, by omega⟩
  rw [ha, hb] at h4 ⊢
  have : (a + 1) * (b + 1) = a * b + a + b + 1 := by ring
  rw [this] at h4
  omega

theorem cutVar_inj {idG idE M N D : Nat} (hid : idG % 2 ^ 32 ≠ idE % 2 ^ 32) (hs : CutSizes M N D) {p q : CutName} (hp : IsCut M N p) (hq : IsCut M N q)
    (e : cutVar idG idE M N p = cutVar idG idE M N q) : p = q := by
  have hdis := (C02_groups_distinct_partial (κ := CutName) idG idE _ _ (uniArr_built idG [2, M - 1, N - 1] 3 (by simpa using hs.2.2.2))
    (.dict (by intro x hx; cases hx) hs.names (cutDict_create idE M N)) hid).2
  have hA : ∀ q : CutName, q.1 < 2 → q.2.1 < M - 1 ∧ q.2.2 < N - 1 → cutVar idG idE M N q = uniCell idG [2, M - 1, N - 1] 3 [q.1, q.2.1, q.2.2] := by
    intro q _ h; unfold cutVar; rw [if_pos h]
  have hmA : ∀ q : CutName, q.1 < 2 → q.2.1 < M - 1 ∧ q.2.2 < N - 1 → cutVar idG idE M N q ∈ (uniArr idG [2, M - 1, N - 1] 3).variables := by
    intro q h1 h2
    rw [mem_uniArr, hA q h1 h2]
    exact ⟨_, by simp [h1, h2], rfl⟩
  have hmB : ∀ q ∈ cutNames M N, cutVar idG idE M N q ∈ (cutDict idE M N).variables := fun q h => (mem_cutDict idG idE).2 ⟨q, h, rfl⟩
  obtain ⟨p1, p2 | p2⟩ := isCut_cases hp <;> obtain ⟨q1, q2 | q2⟩ := isCut_cases hq
  · rw [hA p p1 p2, hA q q1 q2] at e
    have := uniCell_inj (by simp [p1, p2]) (by simp [q1, q2]) e
    simp only [List.cons.injEq, and_true] at this
    exact Prod.ext this.1 (Prod.ext this.2.1 this.2.2)
  · exact absurd (congrArg Var.hash e) (hdis _ (hmA p p1 p2) _ (hmB q q2.1))
  · exact absurd (congrArg Var.hash e.symm) (hdis _ (hmA q q1 q2) _ (hmB p p2.1))
  · obtain ⟨q2, q3⟩ := q2
    obtain ⟨p2, p3⟩ := p2
    unfold cutVar at e
    rw [if_neg p3, if_neg q3, Var.mk.injEq] at e
    rw [mem_cutNames] at p2 q2
    have e := e.1
    obtain ⟨pi, pr, pc⟩ := p
    obtain ⟨qi, qr, qc⟩ := q
    simp only at e p2 q2
    simp only [Prod.mk.injEq]
    rcases p2 with ⟨rfl, h2, h3⟩ | ⟨rfl, h2, h3⟩ <;> rcases q2 with ⟨rfl, k2, k3⟩ | ⟨rfl, k2, k3⟩ <;> simp at e <;> omega

/-! ### Scopes -/

/-- The four cuts that meet in a point. -/
abbrev crossNames (p : Nat × Nat) : List CutName := [(0, p.1, p.2), (1, p.1, p.2), (0, p.1, p.2 + 1), (1, p.1 + 1, p.2)]

/-- `D` cuts above each other. -/
abbrev vertNames (D : Nat) (p : Nat × Nat) : List CutName := (List.range' p.2 D).map (fun r => (0, r, p.1))

/-- `D` cuts beside each other. -/
abbrev horzNames (D : Nat) (p : Nat × Nat) : List CutName := (List.range' p.2 D).map (fun c => (1, p.1, c))

theorem crossNames_cut {M N : Nat} {p : Nat × Nat} (hp : p ∈ grid (M - 1) (N - 1)) : ∀ q ∈ crossNames p, IsCut M N q := by
  obtain ⟨h1, h2⟩ := mem_grid.1 hp
  simp only [List.mem_cons, List.not_mem_nil, or_false, forall_eq_or_imp, forall_eq]
  exact ⟨.inl ⟨rfl, by simp only; omega, by simp only; omega⟩, .inr ⟨rfl, by simp only; omega, by simp only; omega⟩,
    .inl ⟨rfl, by simp only; omega, by simp only; omega⟩, .inr ⟨rfl, by simp only; omega, by simp only; omega⟩⟩

theorem vertNames_cut {M N D : Nat} {p : Nat × Nat} (hp : p ∈ grid N (M - D)) : ∀ q ∈ vertNames D p, IsCut M N q := by
  obtain ⟨h1, h2⟩ := mem_grid.1 hp
  intro q hq
  obtain ⟨r, hr, rfl⟩ := List.mem_map.1 hq
  rw [List.mem_range'_1] at hr
  exact .inl ⟨rfl, by simp only; omega, by simp only; omega⟩

theorem horzNames_cut {M N D : Nat} {p : Nat × Nat} (hp : p ∈ grid M (N - D)) : ∀ q ∈ horzNames D p, IsCut M N q := by
  obtain ⟨h1, h2⟩ := mem_grid.1 hp
  intro q hq
  obtain ⟨r, hr, rfl⟩ := List.mem_map.1 hq
  rw [List.mem_range'_1] at hr
  exact .inr ⟨rfl, by simp only; omega, by simp only; omega⟩

theorem crossingVars_eq (idG idE : Nat) {M N : Nat} {p : Nat × Nat} (hp : p ∈ grid (M - 1) (N - 1)) :
    crossingVars (uniArr idG [2, M - 1, N - 1] 3) (cutDict idE M N) M N p.1 p.2 = .ok ((crossNames p).map (cutVar idG idE M N)) := by
  obtain ⟨h1, h2⟩ := mem_grid.1 hp
  unfold crossingVars
  have a := cut_grid0 idG idE h1 h2
  have b := cut_grid1 idG idE h1 h2
  have c : p.2 ≠ N - 2 → (uniArr idG [2, M - 1, N - 1] 3).at [0, (p.1 : Int), ((p.2 + 1 : Nat) : Int)] = .ok (cutVar idG idE M N (0, p.1, p.2 + 1)) :=
    fun h => cut_grid0 idG idE h1 (by omega)
  have d : p.1 ≠ M - 2 → (uniArr idG [2, M - 1, N - 1] 3).at [1, ((p.1 + 1 : Nat) : Int), (p.2 : Int)] = .ok (cutVar idG idE M N (1, p.1 + 1, p.2)) :=
    fun h => cut_grid1 idG idE (by omega) h2
  have c' : p.2 = N - 2 → (cutDict idE M N).getitem (0, p.1, p.2 + 1) = .ok (cutVar idG idE M N (0, p.1, p.2 + 1)) :=
    fun h => cut_dict idG idE (mem_cutNames.2 (.inl ⟨rfl, h1, by simp only; omega⟩))
  have d' : p.1 = M - 2 → (cutDict idE M N).getitem (1, p.1 + 1, p.2) = .ok (cutVar idG idE M N (1, p.1 + 1, p.2)) :=
    fun h => cut_dict idG idE (mem_cutNames.2 (.inr ⟨rfl, by simp only; omega, h2⟩))
  by_cases hr : p.1 = M - 2 <;> by_cases hc : p.2 = N - 2
  · rw [if_neg (fun h => h.1 hr), if_neg (fun h => h hr), if_neg (fun h => h hc), a, py_ok_bind, b, py_ok_bind, c' hc, py_ok_bind, d' hr, py_ok_bind]; rfl
  · rw [if_neg (fun h => h.1 hr), if_neg (fun h => h hr), if_pos hc, a, py_ok_bind, b, py_ok_bind, c hc, py_ok_bind, d' hr, py_ok_bind]; rfl
  · rw [if_neg (fun h => h.2 hc), if_pos hr, a, py_ok_bind, b, py_ok_bind, c' hc, py_ok_bind, d hr, py_ok_bind]; rfl
  · rw [if_pos ⟨hr, hc⟩, a, py_ok_bind, b, py_ok_bind, c hc, py_ok_bind, d hr, py_ok_bind]; rfl

theorem verticalVars_eq (idG idE M N D : Nat) : verticalVars (uniArr idG [2, M - 1, N - 1] 3) (cutDict idE M N) M N D =
    .ok ((grid N (M - D)).map (fun p => (vertNames D p).map (cutVar idG idE M N))) := by
  unfold verticalVars
  refine mapM_ok _ _ _ fun p hp => ?_
  obtain ⟨h1, h2⟩ := mem_grid.1 hp
  rw [List.map_map]
  refine mapM_ok _ _ _ fun r hr => ?_
  rw [List.mem_range'_1] at hr
  by_cases hc : p.1 = N - 1
  · rw [if_neg (fun h => h hc)]
    exact cut_dict idG idE (mem_cutNames.2 (.inl ⟨rfl, by simp only; omega, hc⟩))
  · rw [if_pos hc]
    exact cut_grid0 idG idE (by omega) (by omega)

theorem horizontalVars_eq (idG idE M N D : Nat) : horizontalVars (uniArr idG [2, M - 1, N - 1] 3) (cutDict idE M N) M N D =
    .ok ((grid M (N - D)).map (fun p => (horzNames D p).map (cutVar idG idE M N))) := by
  unfold horizontalVars
  refine mapM_ok _ _ _ fun p hp => ?_
  obtain ⟨h1, h2⟩ := mem_grid.1 hp
  rw [List.map_map]
  refine mapM_ok _ _ _ fun r hr => ?_
  rw [List.mem_range'_1] at hr
  by_cases hc : p.1 = M - 1
  · rw [if_neg (fun h => h hc)]
    exact cut_dict idG idE (mem_cutNames.2 (.inr ⟨rfl, hc, by simp only; omega⟩))
  · rw [if_pos hc]
    exact cut_grid1 idG idE (by omega) (by omega)

/-- The factors of the program, given by the names of their variables. -/
abbrev cutScopes (M N D : Nat) : List (List CutName) :=
  (grid (M - 1) (N - 1)).map crossNames ++ ((grid N (M - D)).map (vertNames D) ++ (grid M (N - D)).map (horzNames D))

theorem cutScopes_cut {M N D : Nat} : ∀ L ∈ cutScopes M N D, ∀ q ∈ L, IsCut M N q := by
  intro L hL
  simp only [cutScopes, List.mem_append, List.mem_map] at hL
  rcases hL with ⟨p, hp, rfl⟩ | ⟨p, hp, rfl⟩ | ⟨p, hp, rfl⟩
  · exact crossNames_cut hp
  · exact vertNames_cut hp
  · exact horzNames_cut hp

theorem names_nodup {M N D : Nat} (hD : 1 ≤ D) : ((cutScopes M N D).map List.toFinset).Nodup := by
  have hv : ∀ p i r c, (i, r, c) ∈ (vertNames D p).toFinset ↔ i = 0 ∧ c = p.1 ∧ p.2 ≤ r ∧ r < p.2 + D := by
    intro p i r c
    simp only [List.mem_toFinset, List.mem_map, List.mem_range'_1, Prod.mk.injEq]
    constructor
    · rintro ⟨a, h, rfl, rfl, rfl⟩; exact ⟨rfl, rfl, h⟩
    · rintro ⟨rfl, rfl, h⟩; exact ⟨r, h, rfl, rfl, rfl⟩
  have hh : ∀ p i r c, (i, r, c) ∈ (horzNames D p).toFinset ↔ i = 1 ∧ r = p.1 ∧ p.2 ≤ c ∧ c < p.2 + D := by
    intro p i r c
    simp only [List.mem_toFinset, List.mem_map, List.mem_range'_1, Prod.mk.injEq]
    constructor
    · rintro ⟨a, h, rfl, rfl, rfl⟩; exact ⟨rfl, rfl, h⟩
    · rintro ⟨rfl, rfl, h⟩; exact ⟨c, h, rfl, rfl, rfl⟩
  have hc : ∀ p i r c, (i, r, c) ∈ (crossNames p).toFinset ↔ i = 0 ∧ r = p.1 ∧ (c = p.2 ∨ c = p.2 + 1) ∨ i = 1 ∧ c = p.2 ∧ (r = p.1 ∨ r = p.1 + 1) := by
    intro p i r c
    simp only [List.mem_toFinset, List.mem_cons, List.not_mem_nil, or_false, Prod.mk.injEq]
    omega
  simp only [cutScopes, List.map_append, List.map_map]
  rw [List.nodup_append, List.nodup_append]
  refine ⟨?_, ⟨?_, ?_, ?_⟩, ?_⟩
  · refine List.Nodup.map_on (fun p hp q hq e => ?_) (grid_nodup _ _)
    simp only [Function.comp_apply] at e
    have e1 := (hc q 0 p.1 p.2).1 (e ▸ (hc p 0 p.1 p.2).2 (by simp))
    have e2 := (hc p 0 q.1 q.2).1 (e ▸ (hc q 0 q.1 q.2).2 (by simp))
    exact Prod.ext (by omega) (by omega)
  · refine List.Nodup.map_on (fun p hp q hq e => ?_) (grid_nodup _ _)
    simp only [Function.comp_apply] at e
    have e1 := (hv q 0 p.2 p.1).1 (e ▸ (hv p 0 p.2 p.1).2 ⟨rfl, rfl, by omega, by omega⟩)
    have e2 := (hv p 0 q.2 q.1).1 (e ▸ (hv q 0 q.2 q.1).2 ⟨rfl, rfl, by omega, by omega⟩)
    exact Prod.ext (by omega) (by omega)
  · refine List.Nodup.map_on (fun p hp q hq e => ?_) (grid_nodup _ _)
    simp only [Function.comp_apply] at e
    have e1 := (hh q 1 p.1 p.2).1 (e ▸ (hh p 1 p.1 p.2).2 ⟨rfl, rfl, by omega, by omega⟩)
    have e2 := (hh p 1 q.1 q.2).1 (e ▸ (hh q 1 q.1 q.2).2 ⟨rfl, rfl, by omega, by omega⟩)
    exact Prod.ext (by omega) (by omega)
  · intro a ha b hb e
    obtain ⟨p, hp, rfl⟩ := List.mem_map.1 ha
    obtain ⟨q, hq, rfl⟩ := List.mem_map.1 hb
    simp only [Function.comp_apply] at e
    have := (hh q 0 p.2 p.1).1 (e ▸ (hv p 0 p.2 p.1).2 ⟨rfl, rfl, by omega, by omega⟩)
    omega
  · intro a ha b hb e
    obtain ⟨p, hp, rfl⟩ := List.mem_map.1 ha
    simp only [Function.comp_apply] at e
    rw [List.mem_append] at hb
    rcases hb with hb | hb <;> obtain ⟨q, hq, rfl⟩ := List.mem_map.1 hb <;> simp only [Function.comp_apply] at e
    · have := (hv q 1 p.1 p.2).1 (e ▸ (hc p 1 p.1 p.2).2 (by simp))
      omega
    · have := (hh q 0 p.1 p.2).1 (e ▸ (hc p 0 p.1 p.2).2 (by simp))
      omega

theorem scopes_nodup {idG idE M N D : Nat} (hid : idG % 2 ^ 32 ≠ idE % 2 ^ 32) (hs : CutSizes M N D) :
    (((cutScopes M N D).map (fun L => L.map (cutVar idG idE M N))).map List.toFinset).Nodup := by
  have h := names_nodup (M := M) (N := N) hs.1
  rw [List.map_map]
  refine List.Nodup.map_on (fun L hL L' hL' e => ?_) (List.Nodup.of_map _ h)
  simp only [Function.comp_apply] at e
  have key : ∀ L ∈ cutScopes M N D, ∀ L' ∈ cutScopes M N D, (L.map (cutVar idG idE M N)).toFinset = (L'.map (cutVar idG idE M N)).toFinset → ∀ q ∈ L, q ∈ L' := by
    intro L hL L' hL' e q hq
    have : cutVar idG idE M N q ∈ (L'.map (cutVar idG idE M N)).toFinset := by
      rw [← e, List.mem_toFinset]
      exact List.mem_map_of_mem hq
    rw [List.mem_toFinset, List.mem_map] at this
    obtain ⟨q', hq', e'⟩ := this
    rw [← cutVar_inj hid hs (cutScopes_cut L' hL' q' hq') (cutScopes_cut L hL q hq) e']
    exact hq'
  have e2 : L.toFinset = L'.toFinset := by
    ext q
    rw [List.mem_toFinset, List.mem_toFinset]
    exact ⟨key L hL L' hL' e q, key L' hL' L hL e.symm q⟩
  exact List.inj_on_of_nodup_map h hL hL' e2

/-! ### The graph -/

/-- The group of the single factor at a crossing. -/
abbrev crossGroup [Zero α] (idG idE : Nat) (idF : Nat → Nat) (M N : Nat) (p : Nat × Nat) : FGroup α :=
  enumGroup (idF (p.1 * (N - 1) + p.2)) .single ⟨4, crossingConfigs⟩ [((crossNames p).map (cutVar idG idE M N), List.replicate 29 0)]

/-- A group of suppression factors. -/
abbrev suppGroup [Zero α] (idG idE idV M N D : Nat) (scopes : List (List CutName)) : FGroup α :=
  enumGroup idV .enumGroup ⟨D, suppressionConfigs D⟩ (scopes.map (fun L => (L.map (cutVar idG idE M N), List.replicate (suppressionConfigs D).length 0)))

/-- The factor groups. -/
abbrev cutGroups [Zero α] (idG idE idV idH : Nat) (idF : Nat → Nat) (M N D : Nat) : List (FGroup α) :=
  (grid (M - 1) (N - 1)).map (crossGroup idG idE idF M N) ++
    [suppGroup idG idE idV M N D ((grid N (M - D)).map (vertNames D)), suppGroup idG idE idH M N D ((grid M (N - D)).map (horzNames D))]

theorem addCross [Zero α] {κ : Type _} (idF : Nat → Nat) (fg : FactorGraph κ α) (k : Nat) (a b c d : Var) (ha : a.n = 3) (hb : b.n = 3) (hc : c.n = 3) (hd : d.n = 3) :
    addEnumFactor idF fg k [a, b, c, d] ⟨[29, 4], crossingConfigs.flatten.map (fun (s : Nat) => (s : Int))⟩ ⟨[29], List.replicate 29 0⟩ =
      fg.addAll [.one (enumGroup (idF k) .single ⟨4, crossingConfigs⟩ [([a, b, c, d], List.replicate 29 (0 : α))])] := by
  have hrows : rows (crossingConfigs.flatten.map (fun (s : Nat) => (s : Int))) 29 4 = crossingConfigs.map (fun r => r.map (fun (s : Nat) => (s : Int))) := by decide
  have hall : (crossingConfigs.map (fun r => r.map (fun (s : Nat) => (s : Int)))).all
      (fun r => (r.zip [a, b, c, d]).all (fun p => decide (0 ≤ p.1) && decide (p.1 < p.2.n))) = true := by
    rw [List.all_eq_true]
    intro r hr
    obtain ⟨r', hr', rfl⟩ := List.mem_map.1 hr
    obtain ⟨l, t, r, b', rfl, h1, h2, h3, h4⟩ := crossingConfigs_rows r' hr'
    simp only [List.map_cons, List.map_nil, List.zip_cons_cons, List.zip_nil_right, List.all_cons, List.all_nil, Bool.and_true, Bool.and_eq_true, decide_eq_true_eq, ha, hb, hc, hd]
    omega
  have hback : (crossingConfigs.map (fun r => r.map (fun (s : Nat) => (s : Int)))).map (·.map Int.toNat) = crossingConfigs := by
    rw [List.map_map]
    conv_rhs => rw [← List.map_id crossingConfigs]
    refine List.map_congr_left fun r _ => ?_
    simp [List.map_map, Function.comp_def]
  have : EnumFactor.create [a, b, c, d] ⟨[29, 4], crossingConfigs.flatten.map (fun (s : Nat) => (s : Int))⟩ true ⟨[29], List.replicate 29 (0 : α)⟩ true =
      .ok ⟨[a, b, c, d], ⟨4, crossingConfigs⟩, List.replicate 29 0⟩ := by
    unfold EnumFactor.create
    simp only [hrows, hall, hback]
    rfl
  unfold addEnumFactor
  rw [this, py_ok_bind]
  rfl

theorem tile_replicate (n k : Nat) (a : α) : tile (List.replicate n a) k = List.replicate (k * n) a := by
  unfold tile
  rw [List.flatten_replicate_replicate]

theorem flatMap_replicate {β : Type _} (L : List β) (n : Nat) (a : α) : L.flatMap (fun _ => List.replicate n a) = List.replicate (L.length * n) a := by
  rw [← List.flatten_replicate_replicate, List.flatMap_def, List.map_const']

/-- Either way of giving zeros makes the same group. -/
theorem supp_create [Zero α] (idG idE idV M N D : Nat) (scopes : List (List CutName)) (hne : scopes ≠ []) :
    EnumFactorGroup.create idV (scopes.map (fun L => L.map (cutVar idG idE M N))) ⟨D, suppressionConfigs D⟩ none true =
      .ok (suppGroup (α := α) idG idE idV M N D scopes) ∧
    EnumFactorGroup.create idV (scopes.map (fun L => L.map (cutVar idG idE M N))) ⟨D, suppressionConfigs D⟩
        (some ⟨[(suppressionConfigs D).length], List.replicate (suppressionConfigs D).length 0⟩) true =
      .ok (suppGroup (α := α) idG idE idV M N D scopes) := by
  have e : suppGroup (α := α) idG idE idV M N D scopes = ⟨idV, .enum, .enumGroup, scopes.map (fun L => L.map (cutVar idG idE M N)),
      ⟨D, suppressionConfigs D⟩, List.replicate (scopes.length * (suppressionConfigs D).length) 0⟩ := by
    unfold suppGroup enumGroup
    rw [List.map_map, List.flatMap_map, flatMap_replicate]
    rfl
  have h0 : ¬ scopes.length = 0 := by simpa using hne
  constructor
  · rw [enum_create_none _ _ _ _ (by simpa using hne), e, List.length_map]
  · rw [e]
    unfold EnumFactorGroup.create
    simp [h0, bind, Except.bind, pure, Except.pure, tile_replicate]

theorem supp_create_nil [Zero α] (idV : Nat) (cf : Configs) (lp : Option (NDArr α)) : EnumFactorGroup.create idV [] cf lp true = .error .valueError := rfl

theorem addAll_one_append {κ : Type _} (fg : FactorGraph κ α) (l : List (AddArg α)) (a b : AddArg α) : fg.addAll (l ++ [a, b]) =
    fg.addAll l >>= fun fg => fg.addAll [a] >>= fun fg => fg.addAll [b] := by
  rw [addAll_append]
  cases fg.addAll l with
  | error e => rfl
  | ok fg =>
    simp only [py_ok_bind]
    rw [show [a, b] = [a] ++ [b] from rfl, addAll_append]
    cases fg.addAll [a] with
    | error e => rfl
    | ok fg => rfl

theorem crossLoop [Zero α] (idG idE : Nat) (idF : Nat → Nat) (M N : Nat) (fg : FactorGraph CutName α) :
    (grid (M - 1) (N - 1)).foldlM (fun fg p => do
      let vars ← crossingVars (uniArr idG [2, M - 1, N - 1] 3) (cutDict idE M N) M N p.1 p.2
      addEnumFactor idF fg (p.1 * (N - 1) + p.2) vars ⟨[29, 4], crossingConfigs.flatten.map (fun (s : Nat) => (s : Int))⟩ ⟨[29], List.replicate 29 0⟩) fg =
    fg.addAll (((grid (M - 1) (N - 1)).map (crossGroup idG idE idF M N)).map .one) := by
  refine foldlM_addAll _ _ _ (fun fg p hp => ?_) fg
  rw [crossingVars_eq idG idE hp, py_ok_bind]
  exact addCross idF fg _ _ _ _ _ (cutVar_n ..) (cutVar_n ..) (cutVar_n ..) (cutVar_n ..)

theorem grid_ne {m n : Nat} (hm : 1 ≤ m) (hn : 1 ≤ n) : grid m n ≠ [] := List.ne_nil_of_mem (mem_grid.2 (show (0, 0).1 < m ∧ (0, 0).2 < n from ⟨hm, hn⟩))

/-- What the program does if images and diameter have the right sizes. -/
theorem cuts_eq [Zero α] (idG idE idV idH : Nat) (idF : Nat → Nat) {M N D : Nat} (hs : CutSizes M N D) : (cuts idG idE idV idH idF M N D : Py (Cuts α)) =
    (FactorGraph.create (cutVgs idG idE M N)).addAll ((cutGroups idG idE idV idH idF M N D).map .one) >>=
      fun fg => .ok ⟨uniArr idG [2, M - 1, N - 1] 3, cutDict idE M N, fg⟩ := by
  obtain ⟨h1, h2, h3, h4⟩ := hs
  unfold cuts
  rw [create_scalar idG _ 3 (by simpa using h4), py_ok_bind, cutDict_create, py_ok_bind]
  dsimp only
  rw [crossLoop, verticalVars_eq, horizontalVars_eq]
  have hv := supp_create (α := α) idG idE idV M N D ((grid N (M - D)).map (vertNames D)) (by simpa using grid_ne (m := N) (n := M - D) (by omega) (by omega))
  have hh := supp_create (α := α) idG idE idH M N D ((grid M (N - D)).map (horzNames D)) (by simpa using grid_ne (m := M) (n := N - D) (by omega) (by omega))
  rw [List.map_map] at hv hh
  have e1 := hv.1
  have e2 := hh.2
  simp only [Function.comp_def] at e1 e2
  simp only [py_ok_bind, e1, e2]
  rw [cutGroups, List.map_append]
  simp only [List.map_cons, List.map_nil]
  rw [addAll_one_append]
  simp only [bind_assoc]
  rfl

theorem addAll_error [Zero α] {κ : Type _} (vgs : List (VGroup κ)) (l : List (AddArg α)) :
    (∃ fg, (FactorGraph.create vgs : FactorGraph κ α).addAll l = .ok fg) ∨ (FactorGraph.create vgs : FactorGraph κ α).addAll l = .error .valueError := by
  obtain ⟨a, b⟩ := addAll_create (κ := κ) vgs l
  by_cases h : ∀ t, (setsOf (AddArg.flatList l) t).Nodup
  · exact .inl (a h)
  · exact .inr (b h)

/-- What it does otherwise. -/
theorem cuts_error [Zero α] (idG idE idV idH : Nat) (idF : Nat → Nat) {M N D : Nat} (hD : 1 ≤ D) (hM : 1 ≤ M) (hN : 1 ≤ N) (hs : ¬ CutSizes M N D) :
    (cuts idG idE idV idH idF M N D : Py (Cuts α)) = .error .valueError := by
  unfold cuts
  by_cases h4 : 2 * ((M - 1) * (N - 1)) ≤ 1000000000
  swap
  · rw [create_scalar_large idG _ 3 (by simpa using h4), py_error_bind]
  rw [create_scalar idG _ 3 (by simpa using h4), py_ok_bind, cutDict_create, py_ok_bind]
  dsimp only
  rw [crossLoop, verticalVars_eq, horizontalVars_eq]
  rcases addAll_error (α := α) (cutVgs idG idE M N) (((grid (M - 1) (N - 1)).map (crossGroup idG idE idF M N)).map .one) with ⟨fg, h⟩ | h
  swap
  · rw [h, py_error_bind]
  rw [h]
  simp only [py_ok_bind]
  have gnil : ∀ n, grid n 0 = [] := fun n => by simp [grid]
  by_cases h2 : D < M
  swap
  · rw [show M - D = 0 by omega, gnil, List.map_nil, supp_create_nil, py_error_bind]
  have h3 : ¬ D < N := fun h3 => hs ⟨hD, h2, h3, h4⟩
  have hv := (supp_create (α := α) idG idE idV M N D ((grid N (M - D)).map (vertNames D)) (by simpa using grid_ne (m := N) (n := M - D) (by omega) (by omega))).1
  rw [List.map_map] at hv
  simp only [Function.comp_def] at hv
  rw [hv, py_ok_bind, show N - D = 0 by omega, gnil, List.map_nil, supp_create_nil]
  have e := addAll_append (FactorGraph.create (cutVgs idG idE M N)) (((grid (M - 1) (N - 1)).map (crossGroup (α := α) idG idE idF M N)).map .one)
    [.one (suppGroup idG idE idV M N D ((grid N (M - D)).map (vertNames D)))]
  rw [h] at e
  simp only at e
  rw [← e]
  rcases addAll_error (α := α) (cutVgs idG idE M N) (((grid (M - 1) (N - 1)).map (crossGroup idG idE idF M N)).map .one ++
    [.one (suppGroup idG idE idV M N D ((grid N (M - D)).map (vertNames D)))]) with ⟨fg', h'⟩ | h'
  · rw [h', py_ok_bind, py_error_bind]
  · rw [h', py_error_bind]

theorem cutGroups_scopes [Zero α] (idG idE idV idH : Nat) (idF : Nat → Nat) (M N D : Nat) :
    (cutGroups (α := α) idG idE idV idH idF M N D).flatMap (·.varsForFactors) = (cutScopes M N D).map (fun L => L.map (cutVar idG idE M N)) := by
  rw [cutGroups, List.flatMap_append, List.flatMap_map, cutScopes, List.map_append, List.map_append, List.map_map]
  congr 1
  · rw [List.map_eq_flatMap]
    rfl
  · simp only [List.flatMap_cons, List.flatMap_nil, List.append_nil, enumGroup, List.map_map]
    rfl

theorem cutGroups_enum [Zero α] (idG idE idV idH : Nat) (idF : Nat → Nat) (M N D : Nat) :
    ∀ g ∈ cutGroups (α := α) idG idE idV idH idF M N D, g.ftype = .enum := by
  intro g hg
  rw [cutGroups, List.mem_append, List.mem_map] at hg
  rcases hg with ⟨p, -, rfl⟩ | hg
  · rfl
  · simp only [List.mem_cons, List.not_mem_nil, or_false] at hg
    rcases hg with rfl | rfl <;> rfl

theorem supp_valid [Zero α] {idG idE M N D : Nat} (hM : 1 ≤ M) (hN : 1 ≤ N) (hD : 1 ≤ D) (idV : Nat) (scopes : List (List CutName)) (hne : scopes ≠ [])
    (hc : ∀ L ∈ scopes, ∀ q ∈ L, IsCut M N q) (hl : ∀ L ∈ scopes, L.length = D) :
    (suppGroup (α := α) idG idE idV M N D scopes).Valid (fun v => v ∈ graphVars (cutVgs idG idE M N)) := by
  refine enumGroup_valid _ _ _ _ (by simpa using hne) hD (by simp [suppressionConfigs]) ?_ ?_ ?_ ?_
  · intro p hp v hv
    obtain ⟨L, hL, rfl⟩ := List.mem_map.1 hp
    obtain ⟨q, hq, rfl⟩ := List.mem_map.1 hv
    exact (cut_mem hM hN).2 ⟨q, hc L hL q hq, rfl⟩
  · intro p hp
    obtain ⟨L, hL, rfl⟩ := List.mem_map.1 hp
    rw [List.length_map]
    exact hl L hL
  · intro p hp r hr
    obtain ⟨L, hL, rfl⟩ := List.mem_map.1 hp
    obtain ⟨h1, h2, -⟩ := (mem_suppressionConfigs D r).1 hr
    rw [List.forall₂_iff_get]
    refine ⟨by rw [h1, List.length_map, hl L hL], fun i hi hi' => ?_⟩
    simp only [List.get_eq_getElem, List.getElem_map, cutVar_n]
    exact h2 _ (List.getElem_mem _)
  · intro p hp
    obtain ⟨L, hL, rfl⟩ := List.mem_map.1 hp
    rw [List.length_replicate]

theorem cutGroups_valid [Zero α] {idG idE idV idH : Nat} {idF : Nat → Nat} {M N D : Nat} (hs : CutSizes M N D) : ∀ g ∈ cutGroups (α := α) idG idE idV idH idF M N D,
    g.Valid (fun v => v ∈ graphVars (cutVgs idG idE M N)) := by
  obtain ⟨h1, h2, h3, h4⟩ := hs
  intro g hg
  rw [cutGroups, List.mem_append, List.mem_map] at hg
  rcases hg with ⟨p, hp, rfl⟩ | hg
  · refine enumGroup_valid _ _ _ _ (by simp) (by simp) (by simp [crossingConfigs]) ?_ (by simp) ?_ ?_
    · intro p' hp' v hv
      rw [List.mem_singleton] at hp'
      subst hp'
      obtain ⟨q, hq, rfl⟩ := List.mem_map.1 hv
      exact (cut_mem (by omega) (by omega)).2 ⟨q, crossNames_cut hp q hq, rfl⟩
    · intro p' hp' r hr
      rw [List.mem_singleton] at hp'
      subst hp'
      obtain ⟨l, t, r, b, rfl, k1, k2, k3, k4⟩ := crossingConfigs_rows r hr
      simp [cutVar_n, k1, k2, k3, k4]
    · intro p' hp'
      rw [List.mem_singleton] at hp'
      subst hp'
      rfl
  · simp only [List.mem_cons, List.not_mem_nil, or_false] at hg
    rcases hg with rfl | rfl
    · refine supp_valid (by omega) (by omega) h1 _ _ (by simpa using grid_ne (m := N) (n := M - D) (by omega) (by omega)) ?_ ?_
      · rw [List.forall_mem_map]; exact fun p hp => vertNames_cut hp
      · rw [List.forall_mem_map]; intro p _; simp
    · refine supp_valid (by omega) (by omega) h1 _ _ (by simpa using grid_ne (m := M) (n := N - D) (by omega) (by omega)) ?_ ?_
      · rw [List.forall_mem_map]; exact fun p hp => horzNames_cut hp
      · rw [List.forall_mem_map]; intro p _; simp

/-- The tables of the factors. -/
def cutTable [Zero α] (rws : List (List Nat)) : List (List Nat × α) := rws.zip (List.replicate rws.length 0)

theorem mem_cutTable [Zero α] {rws : List (List Nat)} {r : List Nat × α} : r ∈ cutTable rws ↔ r.1 ∈ rws ∧ r.2 = 0 := by
  unfold cutTable
  constructor
  · intro h
    obtain ⟨h1, h2⟩ := List.of_mem_zip (a := r.1) (b := r.2) h
    exact ⟨h1, List.eq_of_mem_replicate h2⟩
  · rintro ⟨h1, h2⟩
    obtain ⟨i, hi⟩ := List.mem_iff_getElem?.1 h1
    refine List.mem_iff_getElem?.2 ⟨i, ?_⟩
    rw [List.getElem?_zip_eq_some]
    refine ⟨hi, ?_⟩
    rw [h2, List.getElem?_replicate, if_pos (List.getElem?_eq_some_iff.1 hi).1]

/-- The factors of the program. -/
abbrev cutFactors (α : Type _) [Zero α] (idG idE M N D : Nat) : List (SFac α) :=
  (grid (M - 1) (N - 1)).map (fun p => ⟨(crossNames p).map (cutVar idG idE M N), cutTable crossingConfigs⟩) ++
    ((grid N (M - D)).map (fun p => ⟨(vertNames D p).map (cutVar idG idE M N), cutTable (suppressionConfigs D)⟩) ++
      (grid M (N - D)).map (fun p => ⟨(horzNames D p).map (cutVar idG idE M N), cutTable (suppressionConfigs D)⟩))

theorem cutVgs_ok {idG idE M N D : Nat} (hid : idG % 2 ^ 32 ≠ idE % 2 ^ 32) (hs : CutSizes M N D) : VGroupsOk (cutVgs idG idE M N) :=
  vgroupsOk_of [(idG, .arr (uniArr idG [2, M - 1, N - 1] 3)), (idE, .dict (cutDict idE M N))]
    (by
      intro q hq
      simp only [List.mem_cons, List.not_mem_nil, or_false] at hq
      rcases hq with rfl | rfl
      · exact uniArr_built _ _ _ (by simpa using hs.2.2.2)
      · exact .dict (by intro x hx; cases hx) hs.names (cutDict_create idE M N))
    (by simpa using hid)

theorem cuts_inputs [Zero α] {idG idE idV idH : Nat} {idF : Nat → Nat} {M N D : Nat} (hid : idG % 2 ^ 32 ≠ idE % 2 ^ 32) (hs : CutSizes M N D) :
    ∃ fg, (FactorGraph.create (cutVgs idG idE M N)).addAll ((cutGroups (α := α) idG idE idV idH idF M N D).map .one) = .ok fg ∧
      (cuts idG idE idV idH idF M N D : Py (Cuts α)) = .ok ⟨uniArr idG [2, M - 1, N - 1] 3, cutDict idE M N, fg⟩ := by
  obtain ⟨fg, hfg⟩ := (addAll_create (cutVgs idG idE M N) ((cutGroups (α := α) idG idE idV idH idF M N D).map .one)).1 (by
    rw [flatList_ones, setsOf_enum (cutGroups_enum idG idE idV idH idF M N D), cutGroups_scopes]
    exact scopes_nodup hid hs)
  refine ⟨fg, hfg, ?_⟩
  rw [cuts_eq _ _ _ _ _ hs, hfg, py_ok_bind]

/-- The graph that the program builds. -/
theorem cuts_build [Zero α] {idG idE idV idH : Nat} {idF : Nat → Nat} {M N D : Nat} (hid : idG % 2 ^ 32 ≠ idE % 2 ^ 32)
    (hF : ((List.range ((M - 1) * (N - 1))).map idF ++ [idV, idH]).Nodup) (hs : CutSizes M N D) {r : Cuts α}
    (h : cuts idG idE idV idH idF M N D = .ok r) (garbage : Garbage) :
    r.grid = uniArr idG [2, M - 1, N - 1] 3 ∧ r.extra = cutDict idE M N ∧ ∃ (hist : List (AddArg α)) (st : FGState CutName α),
      graphOf [.arr r.grid, .dict r.extra] hist = r.fg ∧ Compiled [.arr r.grid, .dict r.extra] hist garbage st ∧
      r.fg.allScopes = (cutScopes M N D).map (fun L => L.map (cutVar idG idE M N)) ∧
      r.fg.tables.map (·.1) = (cutScopes M N D).map (fun L => L.map (cutVar idG idE M N)) ∧
      (∀ t, t ≠ .enum → r.fg.scopesOf t = []) ∧ (∀ lp, r.fg.factors lp = tableFacs r.fg.tables lp) ∧
      r.fg.factors st.logPotentials = cutFactors α idG idE M N D := by
  obtain ⟨fg, hfg, e⟩ := cuts_inputs (α := α) (idV := idV) (idH := idH) (idF := idF) hid hs
  rw [e] at h
  cases h
  obtain ⟨hg, st, hst, hsc, htab, hoth, -, htf, hfac⟩ := enum_build (cutVgs_ok hid hs) hfg (by rw [flatList_ones]; exact cutGroups_valid hs)
    (by
      rw [flatList_ones, cutGroups, List.map_append, List.map_map]
      rw [← grid_index, List.map_map] at hF
      exact hF)
    (by rw [flatList_ones]; exact cutGroups_enum idG idE idV idH idF M N D) garbage
  rw [flatList_ones] at hsc hfac htab
  refine ⟨rfl, rfl, _, st, hg, hst, ?_, ?_, hoth, htf, ?_⟩
  · rw [hsc, cutGroups_scopes]
  · rw [htab, ← cutGroups_scopes (α := α) idG idE idV idH idF, List.map_flatMap]
    congr 1
    funext g
    rw [List.map_map]
    conv_rhs => rw [← List.map_id g.varsForFactors]
    rfl
  · rw [hfac, cutGroups, List.flatMap_append, List.flatMap_map, cutFactors]
    congr 1
    · rw [List.map_eq_flatMap]
      refine List.flatMap_congr fun p _ => ?_
      rw [show (crossGroup (α := α) idG idE idF M N p).configs = ⟨4, crossingConfigs⟩ from rfl, enumGroup_facs _ _ _ _ (by simp [crossingConfigs])]
      rfl
    · simp only [List.flatMap_cons, List.flatMap_nil, List.append_nil]
      rw [show (suppGroup (α := α) idG idE idV M N D ((grid N (M - D)).map (vertNames D))).configs = ⟨D, suppressionConfigs D⟩ from rfl,
        show (suppGroup (α := α) idG idE idH M N D ((grid M (N - D)).map (horzNames D))).configs = ⟨D, suppressionConfigs D⟩ from rfl,
        enumGroup_facs _ _ _ _ (by intro p hp; obtain ⟨L, -, rfl⟩ := List.mem_map.1 hp; simp), enumGroup_facs _ _ _ _ (by intro p hp; obtain ⟨L, -, rfl⟩ := List.mem_map.1 hp; simp)]
      congr 1 <;> rw [List.map_map, List.map_map] <;> rfl

/-! ### Joint assignments -/

theorem range'_map_getElem {β : Type _} (a D : Nat) (f : Nat → β) (i : Nat) (b : β) : ((List.range' a D).map f)[i]? = some b ↔ i < D ∧ b = f (a + i) := by
  rw [List.getElem?_map]
  by_cases h : i < D
  · rw [List.getElem?_range' h]
    simp [h, eq_comm]
  · rw [List.getElem?_eq_none (by simpa using h)]
    simp [h]

/-- The tables of all factors hold exactly for consistent labels. -/
theorem cut_tables [Zero α] {idG idE M N D : Nat} (hs : CutSizes M N D) (x : Var → Nat) :
    ((∀ v ∈ graphVars (cutVgs idG idE M N), x v < v.n) ∧ ∀ F ∈ cutFactors α idG idE M N D, ∃ w, (F.scope.map x, w) ∈ F.rows) ↔
      CutLabelling M N D (fun q => x (cutVar idG idE M N q)) := by
  have hx : (∀ v ∈ graphVars (cutVgs idG idE M N), x v < v.n) ↔ ∀ q, IsCut M N q → x (cutVar idG idE M N q) < 3 := by
    have hmem := fun v => cut_mem (idG := idG) (idE := idE) (M := M) (N := N) (by have := hs.1; have := hs.2.1; omega) (by have := hs.1; have := hs.2.2.1; omega) (v := v)
    constructor
    · intro h q hq
      have := h _ ((hmem _).2 ⟨q, hq, rfl⟩)
      rwa [cutVar_n] at this
    · intro h v hv
      obtain ⟨q, hq, rfl⟩ := (hmem v).1 hv
      rw [cutVar_n]
      exact h q hq
  have hw : ∀ rws row, (∃ w : α, (row, w) ∈ cutTable rws) ↔ row ∈ rws := by
    intro rws row
    constructor
    · rintro ⟨w, h⟩; exact (mem_cutTable.1 h).1
    · intro h; exact ⟨0, mem_cutTable.2 ⟨h, rfl⟩⟩
  rw [hx]
  simp only [cutFactors, List.mem_append, or_imp, forall_and, List.forall_mem_map, hw]
  obtain ⟨h1, h2, h3, h4⟩ := hs
  set y : CutName → Nat := fun q => x (cutVar idG idE M N q) with hy
  have hsup : ∀ L : List CutName, (∀ q ∈ L, y q < 3) → L.length = D →
      (((L.map (cutVar idG idE M N)).map x) ∈ suppressionConfigs D ↔ ∀ (i j : Nat) (p q : CutName), i < j → L[i]? = some p → L[j]? = some q → y p = 0 ∨ y q = 0) := by
    intro L hL hlen
    rw [mem_suppressionConfigs, List.map_map]
    constructor
    · rintro ⟨-, -, h⟩ i j p q hij hp hq
      exact h i j _ _ hij (by rw [List.getElem?_map, hp]; rfl) (by rw [List.getElem?_map, hq]; rfl)
    · intro h
      refine ⟨by simpa using hlen, ?_, ?_⟩
      · rw [List.forall_mem_map]; exact hL
      · intro i j a b hij ha hb
        rw [List.getElem?_map] at ha hb
        obtain ⟨p, hp, rfl⟩ := Option.map_eq_some_iff.1 ha
        obtain ⟨q, hq, rfl⟩ := Option.map_eq_some_iff.1 hb
        exact h i j p q hij hp hq
  constructor
  · rintro ⟨hst, hc, hv, hh⟩
    refine ⟨hst, fun r c hr hc' => ?_, fun c r r' hc' hr hr' hM => ?_, fun r c c' hr hc' hc'' hN => ?_⟩
    · have hm : (r, c) ∈ grid (M - 1) (N - 1) := mem_grid.2 ⟨by simp only; omega, by simp only; omega⟩
      have := hc (r, c) hm
      have hb := crossNames_cut hm
      simp only [List.mem_cons, List.not_mem_nil, or_false, forall_eq_or_imp, forall_eq] at hb
      exact (mem_crossingConfigs (hst _ hb.1) (hst _ hb.2.1) (hst _ hb.2.2.1) (hst _ hb.2.2.2)).1 this
    · have hm : (c, min r (M - D - 1)) ∈ grid N (M - D) := mem_grid.2 ⟨hc', by simp only; omega⟩
      have := (hsup _ (fun q hq => hst q (vertNames_cut hm q hq)) (by simp)).1 (hv _ hm)
      exact this (r - min r (M - D - 1)) (r' - min r (M - D - 1)) (0, r, c) (0, r', c) (by omega)
        ((range'_map_getElem _ _ _ _ _).2 ⟨by omega, by simp [show min r (M - D - 1) + (r - min r (M - D - 1)) = r by omega]⟩) ((range'_map_getElem _ _ _ _ _).2 ⟨by omega, by simp [show min r (M - D - 1) + (r' - min r (M - D - 1)) = r' by omega]⟩)
    · have hm : (r, min c (N - D - 1)) ∈ grid M (N - D) := mem_grid.2 ⟨hr, by simp only; omega⟩
      have := (hsup _ (fun q hq => hst q (horzNames_cut hm q hq)) (by simp)).1 (hh _ hm)
      exact this (c - min c (N - D - 1)) (c' - min c (N - D - 1)) (1, r, c) (1, r, c') (by omega)
        ((range'_map_getElem _ _ _ _ _).2 ⟨by omega, by simp [show min c (N - D - 1) + (c - min c (N - D - 1)) = c by omega]⟩) ((range'_map_getElem _ _ _ _ _).2 ⟨by omega, by simp [show min c (N - D - 1) + (c' - min c (N - D - 1)) = c' by omega]⟩)
  · rintro ⟨hst, hc, hv, hh⟩
    refine ⟨hst, fun p hp => ?_, fun p hp => ?_, fun p hp => ?_⟩
    · obtain ⟨k1, k2⟩ := mem_grid.1 hp
      have hb := crossNames_cut hp
      simp only [List.mem_cons, List.not_mem_nil, or_false, forall_eq_or_imp, forall_eq] at hb
      exact (mem_crossingConfigs (hst _ hb.1) (hst _ hb.2.1) (hst _ hb.2.2.1) (hst _ hb.2.2.2)).2 (hc p.1 p.2 (by omega) (by omega))
    · obtain ⟨k1, k2⟩ := mem_grid.1 hp
      refine (hsup _ (fun q hq => hst q (vertNames_cut hp q hq)) (by simp)).2 ?_
      intro i j a b hij ha hb
      obtain ⟨i1, rfl⟩ := (range'_map_getElem _ _ _ _ _).1 ha
      obtain ⟨j1, rfl⟩ := (range'_map_getElem _ _ _ _ _).1 hb
      exact hv p.1 (p.2 + i) (p.2 + j) k1 (by omega) (by omega) (by omega)
    · obtain ⟨k1, k2⟩ := mem_grid.1 hp
      refine (hsup _ (fun q hq => hst q (horzNames_cut hp q hq)) (by simp)).2 ?_
      intro i j a b hij ha hb
      obtain ⟨i1, rfl⟩ := (range'_map_getElem _ _ _ _ _).1 ha
      obtain ⟨j1, rfl⟩ := (range'_map_getElem _ _ _ _ _).1 hb
      exact hh p.1 (p.2 + i) (p.2 + j) k1 (by omega) (by omega) (by omega)

theorem mem_allCuts {M N : Nat} {q : Nat × Nat × Nat} : q ∈ allCuts M N ↔ IsCut M N q := by
  obtain ⟨i, r, c⟩ := q
  simp only [allCuts, Finset.mem_union, Finset.mem_image, Finset.mem_product, Finset.mem_range, Prod.mk.injEq, Prod.exists, IsCut]
  constructor
  · rintro (⟨a, b, h, rfl, rfl, rfl⟩ | ⟨a, b, h, rfl, rfl, rfl⟩)
    · exact .inl ⟨rfl, by omega, h.2⟩
    · exact .inr ⟨rfl, h.1, by omega⟩
  · rintro (⟨rfl, h⟩ | ⟨rfl, h⟩)
    · exact .inl ⟨r, c, ⟨by omega, h.2⟩, rfl, rfl, rfl⟩
    · exact .inr ⟨r, c, ⟨h.1, by omega⟩, rfl, rfl, rfl⟩

theorem cut_sum [AddCommMonoid α] {idG idE M N D : Nat} (hid : idG % 2 ^ 32 ≠ idE % 2 ^ 32) (hs : CutSizes M N D) (f : Var → α) :
    ∑ v ∈ graphVars (cutVgs idG idE M N), f v = ∑ q ∈ allCuts M N, f (cutVar idG idE M N q) := by
  have e : graphVars (cutVgs idG idE M N) = (allCuts M N).image (cutVar idG idE M N) := by
    ext v
    rw [cut_mem (by have := hs.1; have := hs.2.1; omega) (by have := hs.1; have := hs.2.2.1; omega), Finset.mem_image]
    exact ⟨fun ⟨q, h, e⟩ => ⟨q, mem_allCuts.2 h, e.symm⟩, fun ⟨q, h, e⟩ => ⟨q, mem_allCuts.1 h, e.symm⟩⟩
  rw [e, Finset.sum_image]
  intro p hp q hq e
  exact cutVar_inj hid hs (mem_allCuts.1 hp) (mem_allCuts.1 hq) e

end PGMax
