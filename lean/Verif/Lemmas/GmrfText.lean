import Verif.Lemmas.GmrfFlat
import Verif.Props.C55

/-! Helper lemmas: the GMRF program and textbook sum-product on the field of pixels. -/

namespace PGMax

/-- Messages depend only on the evidence of states that exist, of variables with factors. -/
theorem sumRun_ev {α : Type _} [Field α] [LinearOrder α] (Φ : Nat → List α → α) {factors : List (SFac α)} (hrow : ∀ F ∈ factors, ∀ r ∈ F.rows, List.Forall₂ (fun s (v : Var) => s < v.n) r.1 F.scope)
    {ev ev' : Var → Nat → α} (h : ∀ F ∈ factors, ∀ v ∈ F.scope, ∀ t < v.n, ev v t = ev' v t) (d : α) (n : Nat) (m : Msgs α) :
    sumRun Φ factors ev d n m = sumRun Φ factors ev' d n m := by
  induction n with
  | zero => rfl
  | succ n ih =>
    simp only [sumRun, ih]
    funext f i s
    unfold sumStep
    cases hF : factors[f]? with
    | none => rfl
    | some F =>
      simp only
      cases hi : F.scope[i]? with
      | none => rfl
      | some v =>
        simp only
        have hFm := List.mem_of_getElem? hF
        refine congrArg (fun x => tbNorm v.n x s) (funext fun t => ?_)
        refine congrArg _ ?_
        unfold sumOut
        congr 3
        refine List.map_congr_left fun r hr => scoreBut_congr (hrow F hFm r (List.mem_filter.1 hr).1) (fun j w u hj hu => ?_) i
        rw [tbIn_at hj, tbIn_at hj]
        unfold varToFac
        rw [h F hFm w (List.mem_of_getElem? hj) u hu]

theorem zip_matrix (K : Nat) (A : List ℝ) (hA : A.length = K * K) :
    (mgridConfigs K K).rows.zip A = (List.range K).flatMap (fun s => (List.range K).map (fun t => ([s, t], A.getD (s * K + t) 0))) := by
  have hlen : ∀ s ∈ List.range K, ((List.range K).map (fun t => ([s, t], A.getD (s * K + t) 0))).length = K := by simp
  have hlen' : ∀ s ∈ List.range K, ((List.range K).map (fun t => [s, t])).length = K := by simp
  apply List.ext_getElem?
  intro c
  by_cases hc : c < K * K
  · have hK : 0 < K := Nat.pos_of_ne_zero fun h => by simp [h] at hc
    have h1 : c / K < K := by rwa [Nat.div_lt_iff_lt_mul hK]
    have h2 : c % K < K := Nat.mod_lt _ hK
    have e : c = c / K * K + c % K := (Nat.div_add_mod' c K).symm
    rw [e]
    rw [flatMap_row _ _ K _ _ hlen (List.getElem?_range h1) h2, List.getElem?_map, List.getElem?_range h2]
    refine List.getElem?_zip_eq_some.2 ⟨?_, ?_⟩
    · show ((List.range K).flatMap (fun i => (List.range K).map (fun j => [i, j])))[c / K * K + c % K]? = _
      rw [flatMap_row _ _ K _ _ hlen' (List.getElem?_range h1) h2, List.getElem?_map, List.getElem?_range h2]
      rfl
    · show A[c / K * K + c % K]? = some (A.getD (c / K * K + c % K) 0)
      rw [← e, List.getD, List.getElem?_eq_getElem (by omega)]
      rfl
  · rw [List.getElem?_eq_none (by rw [List.length_zip, mgrid_rows_length]; omega), List.getElem?_eq_none]
    rw [List.length_flatMap, List.map_congr_left hlen]
    simp
    omega

theorem gFacs_eq (idV M N K : Nat) (D : GDir) (A : List ℝ) (hA : A.length = K * K) :
    gFacs idV M N K D A = (pairsOf D.m D.n).map (fun p => pairFac K A (gPix idV K ((p.1 + D.a) * N + (p.2 + D.b))) (gPix idV K ((p.1 + D.c) * N + (p.2 + D.d)))) := by
  unfold gFacs gScopes
  rw [List.map_map, zip_matrix K A hA]
  refine List.map_congr_left fun p _ => ?_
  simp [pairFac, gCell, uniCell, rowMajor]

theorem field_eq (idV M N K : Nat) (A B C D : List ℝ) (hA : A.length = K * K) (hB : B.length = K * K) (hC : C.length = K * K) (hD : D.length = K * K) :
    gFacs idV M N K (gD1 M N) A ++ (gFacs idV M N K (gD2 M N) B ++ (gFacs idV M N K (gD3 M N) C ++ gFacs idV M N K (gD4 M N) D)) = fieldFactors (gPix idV K) M N K A B C D := by
  rw [gFacs_eq _ _ _ _ _ _ hA, gFacs_eq _ _ _ _ _ _ hB, gFacs_eq _ _ _ _ _ _ hC, gFacs_eq _ _ _ _ _ _ hD]
  rfl

end PGMax
