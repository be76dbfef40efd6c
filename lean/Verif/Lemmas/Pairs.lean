import Verif.Lemmas.Iso
import Verif.Lemmas.Order
import Verif.Lemmas.Grid

/-! Helper lemmas: symmetries of graphs of pairwise factors with the same symmetric table. -/

namespace PGMax

variable {κ α : Type _}

section
variable [Field α]

theorem pairs_perm {L : List (List Var)} (hL : (L.map List.toFinset).Nodup) {φ : Var → Var}
    (hinj : ∀ vs ∈ L, ∀ ws ∈ L, (vs.map φ).toFinset = (ws.map φ).toFinset → vs.toFinset = ws.toFinset)
    (hφ : ∀ vs ∈ L, ∃ ws ∈ L, ws.toFinset = (vs.map φ).toFinset) :
    ∃ σ : Equiv.Perm Nat, ∀ f : Nat, (L[f]?).map (fun vs => (vs.map φ).toFinset) = (L[σ f]?).map List.toFinset := by
  have hnd : (L.map (fun vs => (vs.map φ).toFinset)).Nodup := by
    rw [List.nodup_iff_injective_get] at hL ⊢
    intro i j hij
    simp only [List.get_eq_getElem, List.getElem_map] at hij
    have hi : i.1 < L.length := by simpa using i.2
    have hj : j.1 < L.length := by simpa using j.2
    have h1 := hinj _ (List.getElem_mem hi) _ (List.getElem_mem hj) hij
    have h2 := @hL ⟨i.1, by simpa using hi⟩ ⟨j.1, by simpa using hj⟩ (by simpa using h1)
    exact Fin.ext (by simpa using h2)
  have hsub : L.map (fun vs => (vs.map φ).toFinset) ⊆ L.map List.toFinset := by
    intro s hs
    obtain ⟨vs, hvs, rfl⟩ := List.mem_map.1 hs
    obtain ⟨ws, hws, e⟩ := hφ vs hvs
    exact List.mem_map.2 ⟨ws, hws, e⟩
  have hp := (List.subperm_of_subset hnd hsub).perm_of_length_le (by simp)
  obtain ⟨σ, hσ⟩ := perm_positions hp
  exact ⟨σ, fun f => by simpa using hσ f⟩

theorem pairIso {fg : FactorGraph κ α} {lp : List α} {L : List (List Var)} {rows : List (List Nat × α)}
    (hF : fg.factors lp = L.map (fun vs => ⟨vs, rows⟩)) (hor : fg.scopesOf .or = []) (hand : fg.scopesOf .and = [])
    (hpairs : ∀ vs ∈ L, ∃ a b, vs = [a, b]) (hL : (L.map List.toFinset).Nodup) {φ : Var → Var}
    (hinj : ∀ vs ∈ L, ∀ ws ∈ L, (vs.map φ).toFinset = (ws.map φ).toFinset → vs.toFinset = ws.toFinset)
    (hφ : ∀ vs ∈ L, ∃ ws ∈ L, ws.toFinset = (vs.map φ).toFinset) (τ : Equiv.Perm Nat)
    (hlen : ∀ r ∈ rows, ∃ a b, r.1 = [a, b]) (hflip : (rows.map (fun r => (r.1.map τ, r.2))).Perm rows)
    (hswap : (rows.map (fun r => (r.1.reverse, r.2))).Perm rows) :
    ∃ R : Renaming, R.var = φ ∧ R.state = (fun _ => τ) ∧ R.Iso fg fg lp lp := by
  obtain ⟨σ, hσ⟩ := pairs_perm hL hinj hφ
  have hsc : fg.allScopes = L := by
    rw [← fg.factors_scopes lp, hF, List.map_map]
    simp [Function.comp_def]
  have hen : fg.scopesOf .enum = L := by
    rw [← hsc]
    simp [FactorGraph.allScopes, FType.all, hor, hand]
  have hlt : ∀ f, f < L.length ↔ σ f < L.length := lt_of_positions (fun f => by
    have := congrArg Option.isSome (hσ f)
    simpa using this)
  have hat : ∀ (f : Nat) (vs : List Var), L[f]? = some vs → ∃ a b c d, vs = [a, b] ∧ L[σ f]? = some [c, d] ∧
      ((c = φ a ∧ d = φ b) ∨ (c = φ b ∧ d = φ a)) := by
    intro f vs hf
    have h1 := (hlt f).1 (List.getElem?_eq_some_iff.1 hf).1
    obtain ⟨a, b, rfl⟩ := hpairs vs (List.mem_of_getElem? hf)
    obtain ⟨c, d, hcd⟩ := hpairs _ (List.getElem_mem h1)
    have h2 := List.getElem?_eq_getElem h1
    rw [hcd] at h2
    have h3 := hσ f
    rw [hf, h2] at h3
    refine ⟨a, b, c, d, rfl, h2, ?_⟩
    have h4 := pair_toFinset_eq (Option.some.inj h3)
    rcases h4 with ⟨e1, e2⟩ | ⟨e1, e2⟩
    · exact .inl ⟨e1.symm, e2.symm⟩
    · exact .inr ⟨e2.symm, e1.symm⟩
  let R : Renaming := ⟨σ, fun f => if (L[f]?).map (fun vs => vs.map φ) = L[σ f]? then Equiv.refl _ else Equiv.swap 0 1, φ, fun _ => τ⟩
  have hpos : ∀ (f : Nat) (vs : List Var), L[f]? = some vs → ∃ a b, vs = [a, b] ∧
      ((R.pos f = Equiv.refl _ ∧ L[σ f]? = some [φ a, φ b]) ∨ (R.pos f = Equiv.swap 0 1 ∧ L[σ f]? = some [φ b, φ a])) := by
    intro f vs hf
    obtain ⟨a, b, c, d, rfl, h2, h3⟩ := hat f vs hf
    refine ⟨a, b, rfl, ?_⟩
    by_cases hc : (L[f]?).map (fun vs => vs.map φ) = L[σ f]?
    · left
      refine ⟨if_pos hc, ?_⟩
      rw [← hc, hf]; rfl
    · right
      refine ⟨if_neg hc, ?_⟩
      rcases h3 with ⟨rfl, rfl⟩ | ⟨rfl, rfl⟩
      · exact absurd (by rw [hf, h2]; rfl) hc
      · exact h2
  refine ⟨R, rfl, rfl, ?_⟩
  constructor
  · intro f; rw [hsc]; exact hlt f
  · intro f; rw [hen]; exact hlt f
  · intro f vs vs' h1 h2
    rw [hsc] at h1 h2
    obtain ⟨a, b, rfl, ⟨-, h3⟩ | ⟨-, h3⟩⟩ := hpos f vs h1
    · rw [show R.fac f = σ f from rfl, h3] at h2; cases h2; rfl
    · rw [show R.fac f = σ f from rfl, h3] at h2; cases h2; rfl
  · rintro f i v ⟨vs, h1, h2⟩
    rw [hsc] at h1 ⊢
    obtain ⟨a, b, rfl, ⟨h3, h4⟩ | ⟨h3, h4⟩⟩ := hpos f vs h1
    · refine ⟨_, h4, ?_⟩
      rw [h3]
      rcases i with _ | _ | i
      · cases h2; rfl
      · cases h2; rfl
      · simp at h2
    · refine ⟨_, h4, ?_⟩
      rw [h3]
      rcases i with _ | _ | i
      · cases h2; rfl
      · cases h2; rfl
      · simp at h2
  · intro f F F' hf h1 h2
    rw [hF, List.getElem?_map] at h1 h2
    obtain ⟨vs, hvs, rfl⟩ := Option.map_eq_some_iff.1 h1
    obtain ⟨ws, hws, rfl⟩ := Option.map_eq_some_iff.1 h2
    obtain ⟨a, b, rfl, ⟨h3, h4⟩ | ⟨h3, h4⟩⟩ := hpos f vs hvs
    · refine ⟨_, hflip, ?_⟩
      rw [List.forall₂_map_right_iff, List.forall₂_same]
      intro r hr
      refine ⟨by simp, rfl, ?_⟩
      intro i v s hi hs
      rw [h3]
      simp only [Equiv.refl_apply, List.getElem?_map, hs]
      rfl
    · refine ⟨(rows.map (fun r => (r.1.map τ, r.2))).map (fun r => (r.1.reverse, r.2)), (hflip.map _).trans hswap, ?_⟩
      rw [List.map_map, List.forall₂_map_right_iff, List.forall₂_same]
      intro r hr
      refine ⟨by simp, rfl, ?_⟩
      obtain ⟨x, y, hxy⟩ := hlen r hr
      intro i v s hi hs
      rw [h3]
      rw [hxy] at hs
      simp only [Function.comp_apply, hxy]
      rcases i with _ | _ | i
      · cases hs; rfl
      · cases hs; rfl
      · simp at hs
  · intro f vs hf h1
    rw [hsc] at h1
    rw [hen] at hf
    have := (List.getElem?_eq_some_iff.1 h1).1
    omega

end

end PGMax
