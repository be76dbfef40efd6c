import Verif.Lemmas.TiesRun
import Mathlib.Algebra.Order.Archimedean.Basic

/-!
# C114: variables that a factor ties to the same state
-/

namespace PGMax

section
variable {κ α : Type} {idD idA : Nat} {idF : Nat → Nat} {names : List κ} {ns : List Nat} [Field α] [LinearOrder α] [IsStrictOrderedRing α] {x y : Nat → Nat → α}

/-- **C114.**  For any number `n` of iterations, the program passes iff all the evidence is non-zero and each tied pair of variables is decoded to one and the same state, where the belief of
a variable is its own evidence plus the part `1 - 2 ^ -n` of the other one's; otherwise an assertion fails. -/
theorem C114 [DecidableEq κ] (h : TieInputs idD idA idF names ns x y) (env : Env α) (hw : env.wrapNeg = false ∨ 2 * ns.sum + ns.foldr max 0 ≤ 100000) (garbage : Garbage) (stateId n : Nat) :
    (tiesTest env idD idA idF garbage stateId names ns x y n = .ok () ↔
      ∀ i < ns.length, (∀ s < ns.getD i 0, x i s ≠ 0 ∧ y i s ≠ 0) ∧ ∃ j, TieDecodes n (ns.getD i 0) (x i) (y i) j) ∧
    (tiesTest env idD idA idF garbage stateId names ns x y n ≠ .ok () → tiesTest env idD idA idF garbage stateId names ns x y n = .error .assertionError) := by
  obtain ⟨fg, st, bp, arrs, hb, hr, e⟩ := tie_ready h env garbage stateId n
  rw [e]
  by_cases hz : arrs.evidence.any (fun e => decide (e = 0)) = true
  · rw [if_pos hz]
    refine ⟨⟨fun hc => ?_, fun hc => ?_⟩, fun _ => rfl⟩
    · cases hc
    · obtain ⟨i, hi, s, hs, h0⟩ := (hr.zeros hb.compiled h.lengths).1 hz
      exact absurd h0 (not_or.2 ((hc i hi).1 s hs))
  · rw [if_neg hz]
    have hnz : ∀ i < ns.length, ∀ s < ns.getD i 0, x i s ≠ 0 ∧ y i s ≠ 0 := by
      intro i hi s hs
      rw [← not_or]
      exact fun h0 => hz ((hr.zeros hb.compiled h.lengths).2 ⟨i, hi, s, hs, h0⟩)
    obtain ⟨state, hbp⟩ := hr.bp
    obtain ⟨bs, rs, e1, e2, e3, e4⟩ := C35_partial hb.compiled hbp (bp.runBP env arrs n (1 / 2)) (hb.compiled.run_length hbp env arrs n (1 / 2) (by rw [hr.pots]) (by rw [hr.msgs]; simp))
      (by rw [runBP_evidence]; exact hr.len)
      (by
        simp only [tVgs, List.mem_cons, List.not_mem_nil, or_false, forall_eq_or_imp, forall_eq]
        exact ⟨⟨h.nodup, (all_ones h.pos).2⟩, (all_ones h.pos).2⟩)
      (by
        simp only [tVgs, List.mem_cons, List.not_mem_nil, or_false, forall_eq_or_imp, forall_eq]
        exact ⟨h.pos, h.pos, h.more⟩)
    rw [hb.graph, runBP_evidence] at e4
    have hfin := tie_check e3 e4 h.nodup h.lengths (u := tVar idD ns) (w := tVar idA ns)
      (fun i hi => by rw [tDict_variables h.lengths, List.getElem?_map, List.getElem?_range hi]; rfl)
      (fun i hi => by rw [tArr_variables, List.getElem?_map, List.getElem?_range hi]; rfl)
    have hall : (∀ i < ns.length, ∃ j, IsFirstMax (beliefOf fg.allScopes (readEv st.varsToStarts arrs.evidence) (readMsgs fg.allScopes (bp.runBP env arrs n (1 / 2)).ftovMsgs) (tVar idD ns i))
          (tVar idD ns i).n j ∧
        IsFirstMax (beliefOf fg.allScopes (readEv st.varsToStarts arrs.evidence) (readMsgs fg.allScopes (bp.runBP env arrs n (1 / 2)).ftovMsgs) (tVar idA ns i)) (tVar idA ns i).n j) ↔
        ∀ i < ns.length, ∃ j, TieDecodes n (ns.getD i 0) (x i) (y i) j := by
      constructor
      · intro hd i hi
        obtain ⟨j, j1, j2⟩ := hd i hi
        exact ⟨j, j1.congr fun s hs => (tie_beliefs h hb hr env hw n hi hs).1.symm, j2.congr fun s hs => (tie_beliefs h hb hr env hw n hi hs).2.symm⟩
      · intro hd i hi
        obtain ⟨j, j1, j2⟩ := hd i hi
        exact ⟨j, IsFirstMax.congr j1 fun s hs => (tie_beliefs h hb hr env hw n hi hs).1, IsFirstMax.congr j2 fun s hs => (tie_beliefs h hb hr env hw n hi hs).2⟩
    rw [e1, py_ok_bind, e2, py_ok_bind]
    rw [show (tDict idD names ns).names = names from rfl] at hfin
    rw [hfin]
    by_cases hd : ∀ i < ns.length, ∃ j, TieDecodes n (ns.getD i 0) (x i) (y i) j
    · rw [if_pos (hall.2 hd)]
      exact ⟨⟨fun _ i hi => ⟨hnz i hi, hd i hi⟩, fun _ => rfl⟩, fun hc => absurd rfl hc⟩
    · rw [if_neg (fun hc => hd (hall.1 hc))]
      refine ⟨⟨fun hc => ?_, fun hc => absurd (fun i hi => (hc i hi).2) hd⟩, fun _ => rfl⟩
      cases hc

end

section
variable {α : Type _} [Field α] [LinearOrder α] [IsStrictOrderedRing α] {x y : Nat → α} {N : Nat}

/-- Without clipping, a variable of a tied pair is decoded by its evidence plus the part `1 - 2 ^ -n` of the evidence of the other one. -/
theorem tied_iff (hy : ∀ s < N, |y s| ≤ 500) (n j : Nat) :
    IsFirstMax (tiedBelief n N x y) N j ↔ j < N ∧ (∀ s < N, x s + (1 - (1 / 2) ^ n) * y s ≤ x j + (1 - (1 / 2) ^ n) * y j) ∧ ∀ s < j, x s + (1 - (1 / 2) ^ n) * y s < x j + (1 - (1 / 2) ^ n) * y j := by
  by_cases hj : j < N
  · obtain ⟨M, h1, ⟨t, ht, h2⟩, h3⟩ := exists_sup (x := fun t => WithBot.some (y t)) hj rfl
    have h2 : y t = M := WithBot.coe_injective h2
    have hc : 0 ≤ 1 - (1 / 2 : α) ^ n ∧ 1 - (1 / 2 : α) ^ n ≤ 1 := ⟨sub_nonneg.2 (pow_le_one₀ (by norm_num) (by norm_num)), by
      have : (0 : α) ≤ (1 / 2) ^ n := by positivity
      linarith⟩
    have key : ∀ s < N, tiedBelief n N x y s = x s + (1 - (1 / 2) ^ n) * y s - (1 - (1 / 2) ^ n) * M := by
      intro s hs
      unfold tiedBelief
      rw [fadedMsg_coe h1 rfl, max_eq_left]
      · ring
      · have e1 := abs_le.1 (hy s hs)
        have e2 := abs_le.1 (hy t ht)
        have e3 : y s - M ≤ 0 := sub_nonpos.2 (h3 s hs _ rfl)
        nlinarith
    unfold IsFirstMax
    constructor
    · rintro ⟨k1, k2, k3⟩
      refine ⟨k1, fun s hs => ?_, fun s hs => ?_⟩
      · have := k2 s hs
        rw [key s hs, key j hj] at this
        linarith
      · have := k3 s hs
        rw [key s (hs.trans hj), key j hj] at this
        linarith
    · rintro ⟨k1, k2, k3⟩
      refine ⟨k1, fun s hs => ?_, fun s hs => ?_⟩
      · rw [key s hs, key j hj]
        linarith [k2 s hs]
      · rw [key s (hs.trans hj), key j hj]
        linarith [k3 s hs]
  · exact ⟨fun h => absurd h.1 hj, fun h => absurd h.1 hj⟩

/-- **C114 (joint).**  If, without clipping, both variables of a tied pair are decoded to state `j`, after any number of iterations, then `j` is the first of the states with the largest
total evidence, and the evidence of all of these is the same for each of the variables. -/
theorem C114_joint (hx : ∀ s < N, |x s| ≤ 500) (hy : ∀ s < N, |y s| ≤ 500) {n j : Nat} (h : TieDecodes n N x y j) : TieClear N x y j := by
  obtain ⟨h1, h2⟩ := h
  obtain ⟨hj, a1, a2⟩ := (tied_iff hy n j).1 h1
  obtain ⟨-, b1, b2⟩ := (tied_iff hx n j).1 h2
  have hp : (0 : α) < (1 / 2) ^ n := by positivity
  have hp1 : (1 / 2 : α) ^ n ≤ 1 := pow_le_one₀ (by norm_num) (by norm_num)
  generalize (1 / 2 : α) ^ n = p at *
  refine ⟨hj, fun s hs hne => ?_⟩
  have c1 := a1 s hs
  have c2 := b1 s hs
  by_cases hlt : s < j
  · have d1 := a2 s hlt
    left
    nlinarith
  · have hjs : j < s := by omega
    by_cases he : x s + y s < x j + y j
    · exact .inl he
    · right
      push Not at he
      have e1 : x s + y s ≤ x j + y j := by nlinarith
      have e2 : x s + y s = x j + y j := le_antisymm e1 he
      have e3 : p * y j ≤ p * y s := by nlinarith
      have e4 : p * x j ≤ p * x s := by nlinarith
      have e5 := le_of_mul_le_mul_left e3 hp
      have e6 := le_of_mul_le_mul_left e4 hp
      exact ⟨hjs, by linarith, by linarith⟩

/-- **C114 (more iterations).**  Then they are decoded to the same state after any larger number of iterations. -/
theorem C114_more (hx : ∀ s < N, |x s| ≤ 500) (hy : ∀ s < N, |y s| ≤ 500) {n m j : Nat} (h : TieDecodes n N x y j) (hm : n ≤ m) : TieDecodes m N x y j := by
  have hcl := C114_joint hx hy h
  obtain ⟨h1, h2⟩ := h
  obtain ⟨hj, a1, a2⟩ := (tied_iff hy n j).1 h1
  obtain ⟨-, b1, b2⟩ := (tied_iff hx n j).1 h2
  have hp : (0 : α) < (1 / 2) ^ m := by positivity
  have hp1 : (1 / 2 : α) ^ n ≤ 1 := pow_le_one₀ (by norm_num) (by norm_num)
  have hpm : (1 / 2 : α) ^ m ≤ (1 / 2) ^ n := pow_le_pow_of_le_one (by norm_num) (by norm_num) hm
  refine ⟨(tied_iff hy m j).2 ?_, (tied_iff hx m j).2 ?_⟩ <;> generalize (1 / 2 : α) ^ n = p at * <;> generalize (1 / 2 : α) ^ m = q at * <;>
    refine ⟨hj, fun s hs => ?_, fun s hs => ?_⟩
  · have c1 := a1 s hs
    have c3 : x s + y s ≤ x j + y j := by
      by_cases e : s = j
      · rw [e]
      · rcases hcl.2 s hs e with e | ⟨-, e1, e2⟩
        · exact e.le
        · rw [e1, e2]
    rcases le_total (y s) (y j) with e | e <;> nlinarith
  · have c1 := a2 s hs
    have c3 : x s + y s < x j + y j := (hcl.2 s (hs.trans hj) (by omega)).resolve_right (by omega)
    rcases le_total (y s) (y j) with e | e <;> nlinarith
  · have c1 := b1 s hs
    have c3 : x s + y s ≤ x j + y j := by
      by_cases e : s = j
      · rw [e]
      · rcases hcl.2 s hs e with e | ⟨-, e1, e2⟩
        · exact e.le
        · rw [e1, e2]
    rcases le_total (x s) (x j) with e | e <;> nlinarith
  · have c1 := b2 s hs
    have c3 : x s + y s < x j + y j := (hcl.2 s (hs.trans hj) (by omega)).resolve_right (by omega)
    rcases le_total (x s) (x j) with e | e <;> nlinarith

/-- **C114 (enough iterations).**  Conversely, if `j` is the first of the states with the largest total evidence, and the evidence of all of these is the same for each of the variables, then
both are decoded to `j` once `1000 / 2 ^ n` is less than the distance to the total evidence of the other states. -/
theorem C114_enough (hx : ∀ s < N, |x s| ≤ 500) (hy : ∀ s < N, |y s| ≤ 500) {n j : Nat} (h : TieClear N x y j)
    (hn : ∀ s < N, x s + y s < x j + y j → 1000 * (1 / 2) ^ n < x j + y j - (x s + y s)) : TieDecodes n N x y j := by
  obtain ⟨hj, hs⟩ := h
  have hp : (0 : α) < (1 / 2) ^ n := by positivity
  have key : ∀ s < N, s ≠ j → (x s + (1 - (1 / 2) ^ n) * y s < x j + (1 - (1 / 2) ^ n) * y j ∧ y s + (1 - (1 / 2) ^ n) * x s < y j + (1 - (1 / 2) ^ n) * x j) ∨ j < s ∧ x s = x j ∧ y s = y j := by
    intro s hsN hne
    rcases hs s hsN hne with e | e
    · left
      have e1 := hn s hsN e
      have := abs_le.1 (hx s hsN)
      have := abs_le.1 (hy s hsN)
      have := abs_le.1 (hx j hj)
      have := abs_le.1 (hy j hj)
      constructor <;> nlinarith
    · exact .inr e
  refine ⟨(tied_iff hy n j).2 ⟨hj, fun s hs => ?_, fun s hs => ?_⟩, (tied_iff hx n j).2 ⟨hj, fun s hs => ?_, fun s hs => ?_⟩⟩
  · by_cases e : s = j
    · rw [e]
    · rcases key s hs e with ⟨k, -⟩ | ⟨-, k1, k2⟩
      · exact k.le
      · rw [k1, k2]
  · exact ((key s (hs.trans hj) (by omega)).resolve_right (by omega)).1
  · by_cases e : s = j
    · rw [e]
    · rcases key s hs e with ⟨-, k⟩ | ⟨-, k1, k2⟩
      · exact k.le
      · rw [k1, k2]
  · exact ((key s (hs.trans hj) (by omega)).resolve_right (by omega)).2

/-- Then there is a number of iterations that is enough. -/
theorem C114_limit [Archimedean α] (hx : ∀ s < N, |x s| ≤ 500) (hy : ∀ s < N, |y s| ≤ 500) {j : Nat} (h : TieClear N x y j) : ∃ n, TieDecodes n N x y j := by
  have hone : ∀ s, ∃ n : Nat, x s + y s < x j + y j → 1000 * (1 / 2) ^ n < x j + y j - (x s + y s) := by
    intro s
    by_cases hlt : x s + y s < x j + y j
    · obtain ⟨n, hn⟩ := exists_pow_lt_of_lt_one (show (0 : α) < (x j + y j - (x s + y s)) / 1000 from div_pos (sub_pos.2 hlt) (by norm_num)) (show (1 / 2 : α) < 1 by norm_num)
      refine ⟨n, fun _ => ?_⟩
      rw [lt_div_iff₀ (by norm_num)] at hn
      linarith
    · exact ⟨0, fun hc => absurd hc hlt⟩
  choose f hf using hone
  refine ⟨(Finset.range N).sup f, C114_enough hx hy h fun s hs hlt => lt_of_le_of_lt ?_ (hf s hlt)⟩
  have : (1 / 2 : α) ^ ((Finset.range N).sup f) ≤ (1 / 2) ^ f s := pow_le_pow_of_le_one (by norm_num) (by norm_num) (Finset.le_sup (f := f) (Finset.mem_range.2 hs))
  linarith

end

section
variable {κ α : Type} {idD idA : Nat} {idF : Nat → Nat} {names : List κ} {ns : List Nat} [Field α] [LinearOrder α] [IsStrictOrderedRing α] {x y : Nat → Nat → α}

/-- **C114 (program).**  Without clipping: the program passes with some number of iterations iff all the evidence is non-zero and for every tied pair the best joint states all have the same
evidence; and if it passes with `n` iterations, it passes with more. -/
theorem C114_program [DecidableEq κ] [Archimedean α] (h : TieInputs idD idA idF names ns x y) (hx : ∀ i s, |x i s| ≤ 500 ∧ |y i s| ≤ 500) (env : Env α)
    (hw : env.wrapNeg = false ∨ 2 * ns.sum + ns.foldr max 0 ≤ 100000) (garbage : Garbage) (stateId : Nat) :
    ((∃ n, tiesTest env idD idA idF garbage stateId names ns x y n = .ok ()) ↔
      ∀ i < ns.length, (∀ s < ns.getD i 0, x i s ≠ 0 ∧ y i s ≠ 0) ∧ ∃ j, TieClear (ns.getD i 0) (x i) (y i) j) ∧
    ∀ n m, n ≤ m → tiesTest env idD idA idF garbage stateId names ns x y n = .ok () → tiesTest env idD idA idF garbage stateId names ns x y m = .ok () := by
  have hmore : ∀ n m, n ≤ m → tiesTest env idD idA idF garbage stateId names ns x y n = .ok () → tiesTest env idD idA idF garbage stateId names ns x y m = .ok () := by
    intro n m hnm hn
    rw [(C114 h env hw garbage stateId n).1] at hn
    rw [(C114 h env hw garbage stateId m).1]
    intro i hi
    obtain ⟨h1, j, h2⟩ := hn i hi
    exact ⟨h1, j, C114_more (fun s _ => (hx i s).1) (fun s _ => (hx i s).2) h2 hnm⟩
  refine ⟨⟨fun ⟨n, hn⟩ => ?_, fun hc => ?_⟩, hmore⟩
  · rw [(C114 h env hw garbage stateId n).1] at hn
    intro i hi
    obtain ⟨h1, j, h2⟩ := hn i hi
    exact ⟨h1, j, C114_joint (fun s _ => (hx i s).1) (fun s _ => (hx i s).2) h2⟩
  · have hone : ∀ i, ∃ n, i < ns.length → ∃ j, TieDecodes n (ns.getD i 0) (x i) (y i) j := by
      intro i
      by_cases hi : i < ns.length
      · obtain ⟨j, hj⟩ := (hc i hi).2
        obtain ⟨n, hn⟩ := C114_limit (fun s _ => (hx i s).1) (fun s _ => (hx i s).2) hj
        exact ⟨n, fun _ => ⟨j, hn⟩⟩
      · exact ⟨0, fun h => absurd h hi⟩
    choose f hf using hone
    refine ⟨(Finset.range ns.length).sup f, ?_⟩
    rw [(C114 h env hw garbage stateId _).1]
    intro i hi
    obtain ⟨j, hj⟩ := hf i hi
    exact ⟨(hc i hi).1, j, C114_more (fun s _ => (hx i s).1) (fun s _ => (hx i s).2) hj (Finset.le_sup (f := f) (Finset.mem_range.2 hi))⟩

end

/-- The names and numbers of states of the test, with evidence that prefers state 0 for the dictionary and (more) state 1 for the array. -/
example : TieInputs 1 2 (fun i => i) ["a", "b", "c"] [2, 3, 4] (fun _ s => if s = 0 then (2 : ℚ) else 1) (fun _ s => if s = 1 then (3 : ℚ) else 1) ∧
    (∀ i s, |(fun _ s => if s = 0 then (2 : ℚ) else 1 : Nat → Nat → ℚ) i s| ≤ 500 ∧ |(fun _ s => if s = 1 then (3 : ℚ) else 1 : Nat → Nat → ℚ) i s| ≤ 500) ∧
    ∀ i < 3, (∀ s < [2, 3, 4].getD i 0, (if s = 0 then (2 : ℚ) else 1) ≠ 0 ∧ (if s = 1 then (3 : ℚ) else 1) ≠ 0) ∧
      TieClear ([2, 3, 4].getD i 0) (fun s => if s = 0 then (2 : ℚ) else 1) (fun s => if s = 1 then (3 : ℚ) else 1) 1 := by
  have hb : ∀ s : Nat, |if s = 0 then (2 : ℚ) else 1| ≤ 2 ∧ |if s = 1 then (3 : ℚ) else 1| ≤ 3 := by
    intro s
    constructor <;> split_ifs <;> norm_num
  refine ⟨⟨by norm_num, fun i _ j _ h => h, by decide, rfl, by decide, by decide, by decide, fun i s => ⟨(hb s).1.trans (by norm_num), (hb s).2.trans (by norm_num)⟩⟩,
    fun i s => ⟨(hb s).1.trans (by norm_num), (hb s).2.trans (by norm_num)⟩, fun i hi => ⟨fun s _ => ?_, ?_, fun s _ hne => .inl ?_⟩⟩
  · constructor <;> split_ifs <;> norm_num
  · interval_cases i <;> decide
  · have h1 : (if s = 0 then (2 : ℚ) else 1) ≤ 2 := by split_ifs <;> norm_num
    simp only [hne, if_false, if_true, one_ne_zero]
    linarith

/-- The evidence `(1, 2)` and `(2, 1)`. -/
def oddEvidence (first : Bool) : Nat → Nat → ℚ := fun _ s => if (s = 0 ↔ first = true) then 1 else 2

/-- **C114 (refuted without conditions).**  Evidence without zeros does not suffice: for `(1, 2)` and `(2, 1)` the assertion on the decoded states fails with any number of iterations. -/
theorem C114_refuted (env : Env ℚ) (garbage : Garbage) (stateId n : Nat) :
    (∀ first i s, oddEvidence first i s ≠ 0) ∧
    tiesTest env 1 2 (fun i => i) garbage stateId ["a"] [2] (oddEvidence true) (oddEvidence false) n = .error .assertionError := by
  have hv : ∀ first i s, 1 ≤ oddEvidence first i s ∧ oddEvidence first i s ≤ 2 := by
    intro first i s
    unfold oddEvidence
    split_ifs <;> norm_num
  have hb : ∀ first i s, |oddEvidence first i s| ≤ 500 := by
    intro first i s
    have := hv first i s
    rw [abs_le]
    constructor <;> linarith
  refine ⟨fun first i s => by have := (hv first i s).1; linarith, ?_⟩
  have hin : TieInputs 1 2 (fun i => i) ["a"] [2] (oddEvidence true) (oddEvidence false) :=
    ⟨by norm_num, fun i _ j _ h => h, by decide, rfl, by decide, by decide, by decide, fun i s => ⟨(hb _ i s).trans (by norm_num), (hb _ i s).trans (by norm_num)⟩⟩
  obtain ⟨h1, h2⟩ := C114 hin env (.inr (by norm_num)) garbage stateId n
  refine h2 fun hc => ?_
  obtain ⟨-, j, hj⟩ := h1.1 hc 0 (by decide)
  obtain ⟨k1, k2⟩ := C114_joint (fun s _ => hb _ 0 s) (fun s _ => hb _ 0 s) hj
  have k1 : j < 2 := k1
  have h3 := k2 (1 - j) (show 1 - j < 2 by omega) (by omega)
  interval_cases j
  · norm_num [oddEvidence] at h3
  · norm_num [oddEvidence] at h3

end PGMax
