import Verif.Lemmas.Logical
import Mathlib.Analysis.SpecialFunctions.Log.Basic

/-! Helper lemmas: OR / AND messages at positive temperature, single parents, and places of the results. -/

namespace PGMax

variable {α : Type _}

theorem Labels.bincount {fidx ns : List Nat} (L : Labels fidx ns) : PGMax.bincount fidx ns.length = ns := by
  unfold PGMax.bincount
  apply List.ext_getElem?
  intro f
  rw [List.getElem?_map]
  by_cases hf : f < ns.length
  · rw [List.getElem?_range hf, Option.map_some, List.getElem?_eq_getElem hf]
    have h1 : fidx = (List.range fidx.length).map (fun p => fidx.getD p 0) := by
      apply List.ext_getElem?
      intro i
      rw [List.getElem?_map]
      by_cases hi : i < fidx.length
      · rw [List.getElem?_range hi]; simp [List.getElem?_eq_getElem hi]
      · rw [List.getElem?_eq_none (by omega), List.getElem?_eq_none (by simpa using hi)]; rfl
    have h2 : fidx.count f = (PGMax.nonzeroEq fidx f).length := by
      conv_lhs => rw [h1]
      rw [List.count_eq_countP, List.countP_map, List.countP_eq_length_filter]
      unfold PGMax.nonzeroEq
      congr 1
      apply List.filter_congr
      intro p hp
      simp [List.mem_range.1 hp]
    rw [h2, L.nonzeroEq hf]
    simp [List.getElem?_eq_getElem hf]
  · rw [List.getElem?_eq_none (by simpa using hf), List.getElem?_eq_none (by omega)]; rfl

section
variable [Field α] [LinearOrder α]

theorem singleParentFix_spec {fidx ns : List Nat} (L : Labels fidx ns) (env : Env α) (pm ctof : List α) (hpm : pm.length = ns.sum)
    (hcl : ctof.length = ns.length) (hpos : ∀ f < ns.length, 0 < ns.getD f 0) (f j : Nat) (hf : f < ns.length) (hj : j < ns.getD f 0) :
    (singleParentFix env pm ctof fidx ns.length)[blk ns f j]? = if ns.getD f 0 = 1 then ctof[f]? else pm[blk ns f j]? := by
  have hfirst : (cumsum0 ns).dropLast = (List.range ns.length).map (fun f => blk ns f ((fun _ => 0) f)) := by
    rw [cumsum0_dropLast]; rfl
  unfold singleParentFix
  simp only
  rw [L.bincount, hfirst, scatterSet_blkJ hpos pm _ hpm (by simp [hcl]) f j hf hj]
  have hv : (List.zipWith (fun (n : Nat) (p : α × α) => if n = 1 then p.1 else p.2) ns
      (ctof.zip (gather env.oob pm ((List.range ns.length).map (fun f => blk ns f ((fun _ => 0) f))))))[f]?
      = some (if ns.getD f 0 = 1 then ctof.getD f 0 else pm.getD (blk ns f 0) env.oob) := by
    refine zip_at _ (?_ : _ = some (ns.getD f 0)) (zip_at Prod.mk (?_ : _ = some (ctof.getD f 0)) (?_ : _ = some (pm.getD (blk ns f 0) env.oob)))
    · rw [List.getElem?_eq_getElem hf, getD_of_some (List.getElem?_eq_getElem hf)]
    · rw [List.getElem?_eq_getElem (by omega), getD_of_some (List.getElem?_eq_getElem (by omega))]
    · rw [gather_getElem?, List.getElem?_map, List.getElem?_range hf]; rfl
  rw [hv]
  have hlt := blk_lt hf (hpos f hf)
  by_cases h1 : ns.getD f 0 = 1
  · have hj0 : j = 0 := by omega
    rw [if_pos hj0, if_pos h1, if_pos h1, List.getElem?_eq_getElem (by omega), getD_of_some (List.getElem?_eq_getElem (by omega))]
  · rw [if_neg h1, if_neg h1]
    by_cases hj0 : j = 0
    · rw [if_pos hj0, hj0, List.getElem?_eq_getElem (by omega), getD_of_some (List.getElem?_eq_getElem (by omega))]
    · rw [if_neg hj0]

end

/-- The closed form of the messages at positive temperature. -/
theorem logicalSum_spec {fidx ns : List Nat} (L : Labels fidx ns) (env : Env ℝ) (hexp : env.exp = Real.exp) (hlog : env.log = Real.log)
    (T : ℝ) (hT : 0 < T) (ptof ctof : List ℝ) (hd : ptof.length = ns.sum) (hcl : ctof.length = ns.length)
    (f : Nat) (hf : f < ns.length) (x : Nat → ℝ) (hx : ∀ j < ns.getD f 0, ptof.getD (blk ns f j) 0 = x j) (y : ℝ)
    (hy : ctof[f]? = some y) :
    (0 < ns.getD f 0 → (logicalSum env T ptof ctof fidx ns.length).2[f]? =
      some (T * Real.log (((List.range (ns.getD f 0)).map (fun j => 1 + Real.exp (x j / T))).prod - 1))) ∧
    (1 < ns.getD f 0 → ∀ k < ns.getD f 0, ∀ P, P * (1 + Real.exp (x k / T)) = ((List.range (ns.getD f 0)).map (fun j => 1 + Real.exp (x j / T))).prod →
      (logicalSum env T ptof ctof fidx ns.length).1[blk ns f k]? = some (T * Real.log (P / (P - 1 + Real.exp (-y / T))))) := by
  have hTne := hT.ne'
  have ptat : ∀ j < ns.getD f 0, ptof[blk ns f j]? = some (x j) := by
    intro j hj
    have hlt := blk_lt hf hj
    rw [← hx j hj, List.getElem?_eq_getElem (by omega), getD_of_some (List.getElem?_eq_getElem (by omega))]
  have hls : ∀ z : ℝ, -T * logSigmoid env (-z / T) = T * Real.log (1 + Real.exp (z / T)) := by
    intro z
    rw [logSigmoid, hexp, hlog, Real.exp_zero]
    rw [show -(-z / T) = z / T by ring, add_comm]
    ring
  have hlsat : ∀ j < ns.getD f 0, (ptof.map (fun x => -T * logSigmoid env (-x / T)))[blk ns f j]? = some (T * Real.log (1 + Real.exp (x j / T))) := by
    intro j hj
    rw [map_at (fun x => -T * logSigmoid env (-x / T)) (ptat j hj), hls]
  have hsumlog : ∀ n : Nat, ((List.range n).map (fun j => T * Real.log (1 + Real.exp (x j / T)))).sum
      = T * Real.log (((List.range n).map (fun j => 1 + Real.exp (x j / T))).prod) ∧ 0 < ((List.range n).map (fun j => 1 + Real.exp (x j / T))).prod
      ∧ (0 < n → 1 < ((List.range n).map (fun j => 1 + Real.exp (x j / T))).prod) := by
    intro n
    induction n with
    | zero => simp
    | succ n ih =>
      obtain ⟨i1, i2, i3⟩ := ih
      have hE := Real.exp_pos (x n / T)
      rw [List.range_succ, List.map_append, List.map_append, List.sum_append, List.prod_append, i1]
      simp only [List.map_cons, List.map_nil, List.sum_cons, List.sum_nil, List.prod_cons, List.prod_nil, mul_one, add_zero]
      rw [Real.log_mul i2.ne' (by positivity)]
      refine ⟨by ring, by positivity, fun _ => ?_⟩
      rcases Nat.eq_zero_or_pos n with h0 | h0
      · subst h0; simp [hE]
      · nlinarith [i3 h0]
  obtain ⟨s1, s2, s3⟩ := hsumlog (ns.getD f 0)
  have hsum : (scatterAdd (List.replicate ns.length 0) fidx (ptof.map (fun x => -T * logSigmoid env (-x / T))))[f]? =
      some (T * Real.log (((List.range (ns.getD f 0)).map (fun j => 1 + Real.exp (x j / T))).prod)) := by
    rw [scatterAdd_labels L _ (by simpa using hd) f hf, ← s1]
    congr 2
    apply List.map_congr_left
    intro j hj
    exact getD_of_some (hlsat j (List.mem_range.1 hj))
  have hg : ∀ P : ℝ, 1 < P → logicalG env T (T * Real.log P) = T * Real.log (P - 1) := by
    intro P hP
    have hlogP := Real.log_pos hP
    unfold logicalG
    rw [if_neg (by positivity), hexp, hlog, show -(T * Real.log P) / T = -Real.log P by field_simp,
      Real.exp_neg, Real.exp_log (by linarith), ← mul_add, ← Real.log_mul (by linarith)]
    · congr 2
      have : P ≠ 0 := by linarith
      field_simp
    · have : P⁻¹ < 1 := inv_lt_one_of_one_lt₀ hP
      linarith
  constructor
  · intro hn
    have := map_at (logicalG env T) hsum
    rw [hg _ (s3 hn)] at this
    exact this
  · intro hn k hk P hP
    have hE := Real.exp_pos (x k / T)
    have hPpos : 0 < P := by
      by_contra h
      have : P * (1 + Real.exp (x k / T)) ≤ 0 := mul_nonpos_of_nonpos_of_nonneg (not_lt.1 h) (by positivity)
      linarith
    have hdiff : T * Real.log (((List.range (ns.getD f 0)).map (fun j => 1 + Real.exp (x j / T))).prod) - T * Real.log (1 + Real.exp (x k / T))
        = T * Real.log P := by
      rw [← hP, Real.log_mul hPpos.ne' (by positivity)]; ring
    have hP1 : 1 < P := by
      have h2 : ((List.range (ns.getD f 0)).map (fun j => 1 + Real.exp (x j / T))).prod =
          (((List.range (ns.getD f 0)).filter (fun j => j ≠ k)).map (fun j => 1 + Real.exp (x j / T))).prod * (1 + Real.exp (x k / T)) := by
        have hperm : (List.range (ns.getD f 0)).Perm (k :: (List.range (ns.getD f 0)).filter (fun j => j ≠ k)) := by
          rw [List.perm_ext_iff_of_nodup List.nodup_range]
          · intro a
            simp only [List.mem_range, List.mem_cons, List.mem_filter, decide_eq_true_eq]
            constructor
            · intro h
              by_cases hak : a = k
              · exact .inl hak
              · exact .inr ⟨h, hak⟩
            · rintro (rfl | h)
              · exact hk
              · exact h.1
          · refine List.nodup_cons.2 ⟨by simp, List.nodup_range.filter _⟩
        rw [(hperm.map _).prod_eq, List.map_cons, List.prod_cons, mul_comm]
      have h3 : P = (((List.range (ns.getD f 0)).filter (fun j => j ≠ k)).map (fun j => 1 + Real.exp (x j / T))).prod := by
        rw [h2] at hP
        exact mul_right_cancel₀ (by positivity) hP
      have h4 : ∀ l : List Nat, 1 ≤ (l.map (fun j => 1 + Real.exp (x j / T))).prod ∧ (l ≠ [] → 1 < (l.map (fun j => 1 + Real.exp (x j / T))).prod) := by
        intro l
        induction l with
        | nil => simp
        | cons j l ih =>
          have hEj := Real.exp_pos (x j / T)
          simp only [List.map_cons, List.prod_cons]
          constructor
          · nlinarith [ih.1]
          · intro _; nlinarith [ih.1]
      rw [h3]
      apply (h4 _).2
      intro he
      have : (if k = 0 then 1 else 0) ∈ (List.range (ns.getD f 0)).filter (fun j => j ≠ k) := by
        rw [List.mem_filter, List.mem_range]
        split
        · exact ⟨by omega, by simp; omega⟩
        · exact ⟨by omega, by simp; omega⟩
      rw [he] at this
      cases this
    have hlab : fidx[blk ns f k]? = some f := L.lab f k hk
    have hgm := map_at (logicalG env T) (zip_at (· - ·) (gather_at env.oob _ _ _ _ _ hlab hsum) (hlsat k hk))
    rw [hdiff, hg P hP1] at hgm
    have hfin := zip_at (fun x c => -T * env.log (sigmoid env (x / T) + sigmoid env (-x / T) * env.exp (-c / T))) hgm
      (gather_at env.oob _ _ _ _ _ hlab hy)
    refine hfin.trans ?_
    congr 1
    have hEy := Real.exp_pos (-y / T)
    have hA : 0 < P - 1 := by linarith
    unfold sigmoid
    rw [hexp, hlog, show -(T * Real.log (P - 1) / T) = -Real.log (P - 1) by field_simp,
      show -(-(T * Real.log (P - 1)) / T) = Real.log (P - 1) by field_simp, Real.exp_neg, Real.exp_log hA]
    have e : 1 / (1 + (P - 1)⁻¹) + 1 / (1 + (P - 1)) * Real.exp (-y / T) = (P / (P - 1 + Real.exp (-y / T)))⁻¹ := by
      field_simp
      ring
    rw [e, Real.log_inv]
    ring

end PGMax
