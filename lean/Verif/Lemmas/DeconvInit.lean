import Verif.Lemmas.DeconvRun
import Verif.Lemmas.LogicalRun

/-! Helper lemmas: runs of the deconvolution program from messages that are zero. -/

namespace PGMax

section
variable {α : Type _} [Field α] [LinearOrder α] [IsStrictOrderedRing α]
variable {N : DeconvNet α} {factors : List (SFac α)} {nOr : Nat} {P : List Place} {S W SW X : List Nat → Var} {key : Nat → List Nat} {par : Nat → List Place}
variable {M : Msgs α} {D : DeconvMsgs α} {ev : Var → Nat → α}

theorem tbInit_odds {f k : Nat} {F : SFac α} {v : Var} (hF : factors[f]? = some F) (hk : F.scope[k]? = some v) (hn : v.n = 2) {m : Msgs α} (h0 : ∀ f i s, m f i s = 0) :
    oddsOf (tbInit factors m) f k = 0 := by
  show tbInit factors m f k 1 - tbInit factors m f k 0 = _
  rw [tbInit_at hF hk, tbInit_at hF hk, hn, tbNorm_two (a := m f k 0) (b := m f k 1) rfl rfl, h0, h0]
  norm_num

theorem DeconvGraph.init (h : DeconvGraph N factors nOr P S W SW X key par) {m : Msgs α} (h0 : ∀ f i s, m f i s = 0) (d : α) :
    DeconvGraph.Matches nOr P key par (tbInit factors m) (N.run d 0) where
  toS p hp := tbInit_odds (h.facAnd hp) (v := S p.onS) rfl (h.two _).1 h0
  toW p hp := tbInit_odds (h.facAnd hp) (v := W p.onW) rfl (h.two _).2.1 h0
  toSW p hp := tbInit_odds (h.facAnd hp) (v := SW p.spot) rfl (h.two _).2.2.1 h0
  toX g hg := tbInit_odds (h.or g hg) (DeconvGraph.scopeX g) (h.two _).2.2.2 h0
  up g hg p hp := tbInit_odds (h.or g hg) (DeconvGraph.scopeUp (getElem?_idxOf' hp)) (h.two _).2.2.1 h0

theorem DeconvGraph.run (h : DeconvGraph N factors nOr P S W SW X key par) (he : DeconvEvidence N S W SW X ev) {m : Msgs α} (h0 : ∀ f i s, m f i s = 0) (d : α) (t : Nat) :
    DeconvGraph.Matches nOr P key par (tbRun factors ev d t m) (N.run d t) := by
  induction t with
  | zero => exact h.init h0 d
  | succ t ih => exact h.step ih he d

theorem DeconvNet.run_toSW (N : DeconvNet α) (d : α) (t : Nat) (p : Place) : -1000 ≤ (N.run d t).toSW p := by
  cases t with
  | zero => show (-1000 : α) ≤ 0; norm_num
  | succ t => exact le_max_left _ _

theorem DeconvGraph.place (h : DeconvGraph N factors nOr P S W SW X key par) {p : Place} : p ∈ P ↔ N.IsPlace p := h.mem p

/-- Conjunctions that hear less than 100000 are not in conflict with the literals of the code. -/
theorem DeconvGraph.parentsOpen {κ : Type _} (h : DeconvGraph N factors nOr P S W SW X key par) (he : DeconvEvidence N S W SW X ev)
    {fg : FactorGraph κ α} (hs : fg.allScopes = factors.map (·.scope)) (hr : ∀ g, fg.restState g = if g < nOr then 0 else 1) (hM : DeconvGraph.Matches nOr P key par M D)
    (hsw : ∀ p, -1000 ≤ D.toSW p) (hq : ∀ p, N.IsPlace p → N.fromS D p < 100000 ∧ N.fromW D p < 100000) : ParentsOpen fg ev M := by
  intro g vs hg j w hj hw
  rw [hs] at hg ⊢
  have hlen : vs.length = if g < nOr then (par g).length + 1 else 3 := by
    rw [List.getElem?_map, Option.map_eq_some_iff] at hg
    obtain ⟨F, hF, rfl⟩ := hg
    split
    · rename_i hlt
      rw [h.or g hlt] at hF
      cases hF
      simp
    · rename_i hlt
      have h1 := (List.getElem?_eq_some_iff.1 hF).1
      rw [h.len] at h1
      have := h.and (g - nOr) _ (List.getElem?_eq_getElem (by omega))
      rw [show nOr + (g - nOr) = g by omega, hF] at this
      rw [Option.some.inj this]
      rfl
  rcases h.edge_cases ⟨vs, hg, hw⟩ with ⟨hf, p, hp, rfl, rfl⟩ | ⟨hf, rfl, -⟩ | ⟨p, hp, rfl, ⟨rfl, rfl⟩ | ⟨rfl, rfl⟩ | ⟨rfl, -⟩⟩
  · rw [hr, if_pos hf, h.in_up hM he hf hp]
    have := hsw p
    linarith
  · rw [hlen, if_pos hf] at hj
    omega
  · rw [hr, if_neg (by omega)]
    have h1 := h.in_S hM he hp
    have h2 := (hq p (h.place.1 hp)).1
    show -100000 < varToFac _ ev M _ _ 0 - varToFac _ ev M _ _ 1
    linarith
  · rw [hr, if_neg (by omega)]
    have h1 := h.in_W hM he hp
    have h2 := (hq p (h.place.1 hp)).2
    show -100000 < varToFac _ ev M _ _ 0 - varToFac _ ev M _ _ 1
    linarith
  · rw [hlen, if_neg (show ¬ nOr + P.idxOf p < nOr by omega)] at hj
    omega

end

/-- What a dictionary of lists contains after a loop of `d[key].append(value)`, in order. -/
theorem dictAppend_filter {β γ π : Type _} [DecidableEq β] (key : π → β) (val : π → γ) (l : List π) :
    let d := l.foldl (fun d p => dictAppend d (key p) (val p)) ([] : List (β × List γ))
    ∀ e ∈ d, e.2 = (l.filter (fun p => key p = e.1)).map val := by
  induction l using List.reverseRecOn with
  | nil => simp
  | append_singleton l q ih =>
    obtain ⟨-, h2, -⟩ := dictAppend_foldl key val l
    simp only [List.foldl_append, List.foldl_cons, List.foldl_nil]
    generalize l.foldl (fun d p => dictAppend d (key p) (val p)) ([] : List (β × List γ)) = d at ih h2 ⊢
    unfold dictAppend
    split
    · intro e he
      obtain ⟨p, hp, rfl⟩ := List.mem_map.1 he
      by_cases hpk : p.1 = key q
      · simp only [hpk, if_true]
        rw [ih p hp, hpk, List.filter_append, List.map_append]
        simp
      · simp only [hpk, if_false]
        rw [ih p hp, List.filter_append, List.map_append]
        simp [Ne.symm hpk]
    · rename_i hk
      intro e he
      simp only [List.mem_append, List.mem_singleton] at he
      rcases he with he | rfl
      · rw [ih e he, List.filter_append, List.map_append]
        have : key q ≠ e.1 := fun hc => hk (hc ▸ List.mem_map_of_mem (f := (·.1)) he)
        simp [this]
      · have : l.filter (fun p => key p = key q) = [] := by
          rw [List.filter_eq_nil_iff]
          intro p hp
          simpa using fun hc => hk ((h2 _).2 ⟨p, hp, hc⟩)
        rw [List.filter_append, this]
        simp

theorem dictAppend_total {β γ π : Type _} [DecidableEq β] (key : π → β) (val : π → γ) (l : List π) :
    ((l.foldl (fun d p => dictAppend d (key p) (val p)) ([] : List (β × List γ))).map (fun e => e.2.length)).sum = l.length := by
  induction l using List.reverseRecOn with
  | nil => rfl
  | append_singleton l q ih =>
    obtain ⟨h1, -, -⟩ := dictAppend_foldl key val l
    simp only [List.foldl_append, List.foldl_cons, List.foldl_nil]
    generalize l.foldl (fun d p => dictAppend d (key p) (val p)) ([] : List (β × List γ)) = d at ih h1 ⊢
    rw [List.length_append, List.length_singleton, ← ih]
    clear ih
    unfold dictAppend
    split
    · rename_i hk
      induction d with
      | nil => simp at hk
      | cons e d ih =>
        rw [List.map_cons, List.nodup_cons] at h1
        rw [List.map_cons, List.map_cons, List.map_cons, List.sum_cons, List.sum_cons]
        by_cases he : e.1 = key q
        · have : d.map (fun p => if p.1 = key q then (p.1, p.2 ++ [val q]) else p) = d := by
            rw [List.map_congr_left (g := id), List.map_id]
            intro p hp
            rw [if_neg]
            · rfl
            · intro hc
              exact h1.1 (by rw [he, ← hc]; exact List.mem_map_of_mem hp)
          rw [this, if_pos he]
          simp only [List.length_append, List.length_singleton]
          omega
        · rw [if_neg he, ih h1.2 (by simpa [Ne.symm he] using hk)]
          omega
    · simp

end PGMax
