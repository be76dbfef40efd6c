import Verif.Lemmas.FGroupData
import Verif.Props.C13_C18

/-! # C19, C20, C44: the data of factor groups -/

namespace PGMax

variable {α : Type _}

/-! ## C19 -/

/-- An entry of a tiled array. -/
theorem tile_getElem? (xs : List α) (n f c : Nat) (hf : f < n) (hc : c < xs.length) :
    ((List.replicate n xs).flatten)[f * xs.length + c]? = xs[c]? := by
  have hg : (List.replicate n xs).getD f [] = xs := by simp [List.getD, List.getElem?_replicate, hf]
  have := flatten_getElem?_block (List.replicate n xs) f c (by rw [hg]; exact hc)
  rw [List.map_replicate, sum_replicate_take _ _ _ (by omega), hg] at this
  exact this

/-- The table of a pairwise group is valid for its scopes. -/
theorem pairwise_table (a b : Nat) (scopes : List (List Var))
    (hs : ∀ vs ∈ scopes, ∃ v0 v1, vs = [v0, v1] ∧ v0.n = a ∧ v1.n = b) :
    (∀ vs ∈ scopes, vs.length = (mgridConfigs a b).ncols) ∧
    (∀ vs ∈ scopes, ∀ r ∈ (mgridConfigs a b).rows, List.Forall₂ (fun s v => s < v.n) r vs) := by
  refine ⟨?_, ?_⟩
  · intro vs hvs
    obtain ⟨v0, v1, rfl, -, -⟩ := hs vs hvs
    rfl
  · intro vs hvs r hr
    obtain ⟨v0, v1, rfl, rfl, rfl⟩ := hs vs hvs
    obtain ⟨i, j, hi, hj, rfl⟩ := (mgrid_mem _ _ _).1 hr
    exact .cons hi (.cons hj .nil)

/-- **C19.** In every pairwise group that the constructor accepts, the table has one row for every pair of states — at
position `i*b + j`, no row twice, no other rows — and the log potential of factor `f` at the row of `(i, j)` is entry
`[i, j]` of a shared matrix, entry `[f, i, j]` of a per-factor matrix. -/
theorem C19_pairwise [Zero α] (id : Nat) (scopes : List (List Var)) (m : NDArr α) (hm : m.WF) (mFloat : Bool)
    (g : FGroup α) (h : PairwiseFactorGroup.create id scopes (some m) mFloat = .ok g) :
    ∃ a b, (m.shape = [a, b] ∨ m.shape = [scopes.length, a, b]) ∧
      (∀ vs ∈ scopes, ∃ v0 v1, vs = [v0, v1] ∧ v0.n = a ∧ v1.n = b) ∧
      g.varsForFactors = scopes ∧ g.ftype = .enum ∧
      g.configs.rows.length = a * b ∧ g.configs.rows.Nodup ∧ g.configs.ncols = 2 ∧
      (∀ r, r ∈ g.configs.rows ↔ ∃ i j, i < a ∧ j < b ∧ r = [i, j]) ∧
      g.logPotentials.length = scopes.length * (a * b) ∧
      (∀ f i j, f < scopes.length → i < a → j < b → ∃ c, g.configs.rows[c]? = some [i, j] ∧
        ∃ x, g.logPotentials[f * g.configs.rows.length + c]? = some x ∧
          (m.shape = [a, b] → m.data[rowMajor m.shape [i, j]]? = some x) ∧
          (m.shape = [scopes.length, a, b] → m.data[rowMajor m.shape [f, i, j]]? = some x)) := by
  obtain ⟨a, b, hne, hsh, hsc, h1, h2, h3, h4, h5, h6⟩ := pairwise_create_facts id scopes m hm mFloat g h
  have hlen : g.logPotentials.length = scopes.length * (a * b) := by
    rw [h6]
    rw [NDArr.WF] at hm
    rcases hsh with hsh | hsh
    · rw [if_neg (by rw [hsh]; simp)]
      simp [hm, hsh]
    · rw [if_pos (by rw [hsh]; rfl), hm, hsh]
      simp
  refine ⟨a, b, hsh, hsc, h4, h1, ?_, ?_, ?_, ?_, hlen, ?_⟩
  · rw [h5, mgrid_rows_length]
  · rw [h5]; exact mgrid_nodup a b
  · rw [h5]; rfl
  · rw [h5]; exact mgrid_mem a b
  · intro f i j hf hi hj
    refine ⟨i * b + j, by rw [h5, mgrid_getElem? a b i j hi hj], ?_⟩
    rw [h5, mgrid_rows_length]
    have hij : i * b + j < a * b := by
      calc i * b + j < i * b + b := by omega
        _ = (i + 1) * b := by ring
        _ ≤ _ := Nat.mul_le_mul_right _ hi
    have hlt : f * (a * b) + (i * b + j) < g.logPotentials.length := by
      rw [hlen]
      calc f * (a * b) + (i * b + j) < f * (a * b) + a * b := by omega
        _ = (f + 1) * (a * b) := by ring
        _ ≤ _ := Nat.mul_le_mul_right _ hf
    refine ⟨g.logPotentials[f * (a * b) + (i * b + j)], List.getElem?_eq_getElem hlt, ?_, ?_⟩
    · intro hs2
      rw [← List.getElem?_eq_getElem hlt, h6, if_neg (by rw [hs2]; simp), hs2]
      have hd : m.data.length = a * b := by rw [NDArr.WF, hs2] at hm; simpa using hm
      have := tile_getElem? m.data scopes.length f (i * b + j) hf (by rw [hd]; exact hij)
      rw [hd] at this
      rw [this]
      simp [rowMajor]
    · intro hs3
      rw [← List.getElem?_eq_getElem hlt, h6, if_pos (by rw [hs3]; rfl), hs3]
      simp [rowMajor]

/-- **C19**, default argument: all log potentials are zero. -/
theorem C19_default [Zero α] (id : Nat) (scopes : List (List Var)) (mFloat : Bool) (g : FGroup α)
    (h : PairwiseFactorGroup.create id scopes none mFloat = .ok g) : ∀ x ∈ g.logPotentials, x = 0 := by
  unfold PairwiseFactorGroup.create at h
  match scopes, h with
  | [], h => cases h
  | [] :: _, h => cases h
  | [_] :: _, h => cases h
  | (v0 :: v1 :: rest) :: rest', h =>
    simp only [bind, Except.bind, pure, Except.pure, throw, throwThe, MonadExceptOf.throw, Option.isSome_none,
      Bool.false_and, Bool.false_eq_true, if_false, List.length_cons, Nat.add_eq_zero_iff, one_ne_zero, and_false,
      List.length_nil, Nat.reduceAdd, ne_eq, not_true_eq_false, false_and, Nat.reduceEqDiff] at h
    split at h
    · cases h
    · cases h
      intro x hx
      simp only [computeLogPotentials, List.mem_flatMap, List.mem_replicate, List.mem_filterMap] at hx
      obtain ⟨mm, ⟨-, rfl⟩, r, -, hx⟩ := hx
      rw [List.getElem?_replicate] at hx
      split at hx
      · exact (Option.some.inj hx).symm
      · cases hx

/-- What `factors` of an accepted pairwise group without repeated scopes is, as far as `flatten` is concerned. -/
theorem pairwise_factors (g : FGroup α) (a b : Nat) (scopes : List (List Var)) (h1 : g.ftype = .enum)
    (h4 : g.varsForFactors = scopes) (h5 : g.configs = mgridConfigs a b)
    (hsc : ∀ vs ∈ scopes, ∃ v0 v1, vs = [v0, v1] ∧ v0.n = a ∧ v1.n = b) (hnd : (scopes.map List.toFinset).Nodup) :
    ∃ fs, g.factors = .ok fs ∧ fs.length = scopes.length := by
  obtain ⟨t1, t2⟩ := pairwise_table a b scopes hsc
  rw [← h4] at t1 t2 hnd ⊢
  rw [← h5] at t1 t2
  exact factors_length_enum h1 t1 t2 hnd

/-- **C19**, updates: setting the potentials of a pairwise group with a matrix `m` writes the same flat array as building
the group with `m`, whatever matrix it was built with. -/
theorem C19_update [Zero α] (id id' : Nat) (scopes : List (List Var)) (m0 m : NDArr α) (hm0 : m0.WF) (hm : m.WF)
    (f0 f1 : Bool) (g g' : FGroup α) (hnd : (scopes.map List.toFinset).Nodup)
    (h : PairwiseFactorGroup.create id scopes (some m0) f0 = .ok g)
    (h' : PairwiseFactorGroup.create id' scopes (some m) f1 = .ok g') : g.flatten m = .ok g'.logPotentials := by
  obtain ⟨a, b, hne, -, hsc, h1, h2, h3, h4, h5, -⟩ := pairwise_create_facts id scopes m0 hm0 f0 g h
  obtain ⟨a', b', -, hsh, hsc', -, -, -, -, -, h6⟩ := pairwise_create_facts id' scopes m hm f1 g' h'
  obtain ⟨vs, hvs⟩ := List.exists_mem_of_ne_nil _ hne
  obtain ⟨v0, v1, e, ra, rb⟩ := hsc vs hvs
  obtain ⟨w0, w1, e', ra', rb'⟩ := hsc' vs hvs
  rw [e] at e'
  cases e'
  rw [ra] at ra'; rw [rb] at rb'
  subst ra' rb'
  obtain ⟨fs, hfs, hlen⟩ := pairwise_factors g a b scopes h1 h4 h5 hsc hnd
  unfold FGroup.flatten
  rw [h2]
  simp only [hfs, bind, Except.bind, pure, Except.pure, throw, throwThe, MonadExceptOf.throw, hlen]
  rw [h6]
  rcases hsh with hsh | hsh
  · rw [if_neg (by rw [hsh]; simp), if_pos hsh, if_neg (by rw [hsh]; simp)]; rfl
  · rw [if_neg (by rw [hsh]; simp), if_neg (by rw [hsh]; simp), if_pos (by rw [hsh]; simp)]

/-- Two scopes over a 2-state and a 3-state variable. -/
def exPairScopes : List (List Var) := [[⟨10, 2⟩, ⟨11, 3⟩], [⟨12, 2⟩, ⟨11, 3⟩]]
/-- Non-vacuity: a per-factor and a shared matrix. -/
example : (exPairScopes.map List.toFinset).Nodup ∧
    (∃ g, PairwiseFactorGroup.create 1 exPairScopes (some (⟨[2, 3], [1, 2, 3, 4, 5, 6]⟩ : NDArr ℚ)) true = .ok g) ∧
    (∃ g, PairwiseFactorGroup.create 2 exPairScopes
      (some (⟨[2, 2, 3], [1, 2, 3, 4, 5, 6, 7, 8, 9, 10, 11, 12]⟩ : NDArr ℚ)) true = .ok g) :=
  ⟨by decide, ⟨_, rfl⟩, ⟨_, rfl⟩⟩

/-! ## C20 -/

/-- **C20, enumeration groups.** For every group accepted by the constructor whose table fits its scopes and which
repeats no scope, with `nf` factors, `nc` configurations and `es` edge states per factor: per-factor log potentials and
messages survive flatten and unflatten, shared log potentials are copied once per factor, and all other shapes raise. -/
theorem C20_enum [Zero α] (id : Nat) (scopes : List (List Var)) (cfg : Configs) (lp : Option (NDArr α)) (lpFloat : Bool)
    (g : FGroup α) (h : EnumFactorGroup.create id scopes cfg lp lpFloat = .ok g)
    (hw : ∀ vs ∈ scopes, vs.length = cfg.ncols)
    (hr : ∀ vs ∈ scopes, ∀ r ∈ cfg.rows, List.Forall₂ (fun s v => s < v.n) r vs)
    (hnd : (scopes.map List.toFinset).Nodup) :
    let nf := scopes.length
    let nc := cfg.rows.length
    let es := ((scopes.headD []).map (·.n)).sum
    (∀ d : NDArr α, d.WF → d.shape = [nf, nc] ∨ d.shape = [nf, es] →
      ∃ x, g.flatten d = .ok x ∧ g.unflatten ⟨[x.length], x⟩ = .ok d) ∧
    (∀ d : NDArr α, d.WF → d.shape = [nc] →
      ∃ x, g.flatten d = .ok x ∧ x.length = nf * nc ∧ (∀ f c, f < nf → c < nc → x[f * nc + c]? = d.data[c]?) ∧
        g.unflatten ⟨[x.length], x⟩ = .ok ⟨[nf, nc], x⟩) ∧
    (∀ d : NDArr α, d.shape ≠ [nf, nc] → d.shape ≠ [nf, es] → d.shape ≠ [nc] → g.flatten d = .error .valueError) ∧
    (∀ x : NDArr α, x.WF → (∀ d, g.unflatten x = .ok d → d.WF ∧ g.flatten d = .ok x.data)) ∧
    (∀ x : NDArr α, x.WF → ((∃ d, g.unflatten x = .ok d) ↔
      x.shape.length = 1 ∧ (x.data.length = nf * nc ∨ x.data.length = nf * es))) := by
  intro nf nc es
  have hf : g.kind = .enumGroup ∧ g.ftype = .enum ∧ g.varsForFactors = scopes ∧ g.configs = cfg ∧ scopes.length ≠ 0 := by
    unfold EnumFactorGroup.create at h
    simp only [bind, Except.bind, pure, Except.pure, throw, throwThe, MonadExceptOf.throw] at h
    by_cases h0 : scopes.length = 0
    · rw [if_pos h0] at h; cases h
    rw [if_neg h0] at h
    repeat' split at h
    all_goals first | (cases h; done) | (cases h; exact ⟨rfl, rfl, rfl, rfl, h0⟩)
  obtain ⟨hk, ht, hv, hc, h0⟩ := hf
  obtain ⟨fs, hfs, hlen⟩ := factors_length_enum (g := g) ht (by rw [hv, hc]; exact hw) (by rw [hv, hc]; exact hr)
    (by rw [hv]; exact hnd)
  rw [hv] at hlen
  have hes : g.firstEdgeStates = es := by unfold FGroup.firstEdgeStates; rw [hv]
  have hflat : ∀ d : NDArr α, g.flatten d =
      if d.shape ≠ [nf, nc] ∧ d.shape ≠ [nf, es] ∧ d.shape ≠ [nc] then .error .valueError
      else if d.shape = [nc] then .ok (tile d.data nf) else .ok d.data := by
    intro d
    unfold FGroup.flatten
    rw [hk]
    simp only [hfs, bind, Except.bind, pure, Except.pure, throw, throwThe, MonadExceptOf.throw, hlen, hes, hc]
    split_ifs <;> rfl
  have hun : ∀ x : NDArr α, g.unflatten x =
      if x.shape.length ≠ 1 then .error .valueError
      else if x.data.length = nf * nc then .ok ⟨[nf, nc], x.data⟩
      else if x.data.length = nf * es then .ok ⟨[nf, es], x.data⟩ else .error .valueError := by
    intro x
    unfold FGroup.unflatten
    rw [hk]
    simp only [hfs, bind, Except.bind, pure, Except.pure, throw, throwThe, MonadExceptOf.throw, hlen, hes, hc]
    split_ifs <;> rfl
  have hpos : 0 < nf := Nat.pos_of_ne_zero h0
  have htl : ∀ xs : List α, (tile xs nf).length = nf * xs.length := by intro xs; simp [tile]
  refine ⟨?_, ?_, ?_, ?_, ?_⟩
  · intro d hd hs
    rw [NDArr.WF] at hd
    refine ⟨d.data, ?_, ?_⟩
    · rw [hflat, if_neg, if_neg]
      · rcases hs with hs | hs <;> rw [hs] <;> simp
      · rcases hs with hs | hs <;> rw [hs] <;> simp
    · rw [hun, if_neg (by simp)]
      rcases hs with hs | hs
      · rw [hs] at hd
        rw [if_pos (by simpa using hd), ← hs]
      · rw [hs] at hd
        by_cases he : d.data.length = nf * nc
        · rw [if_pos he]
          have : es = nc := by
            have h2 : nf * es = nf * nc := by rw [← he, hd]; simp
            exact Nat.eq_of_mul_eq_mul_left hpos h2
          rw [← this, ← hs]
        · rw [if_neg he, if_pos (by simpa using hd), ← hs]
  · intro d hd hs
    rw [NDArr.WF, hs] at hd
    have hd' : d.data.length = nc := by simpa using hd
    refine ⟨tile d.data nf, ?_, ?_, ?_, ?_⟩
    · rw [hflat, if_neg (by rw [hs]; simp), if_pos hs]
    · rw [htl, hd']
    · intro f c hf' hc'
      have := tile_getElem? d.data nf f c hf' (by rw [hd']; exact hc')
      rw [hd'] at this
      exact this
    · rw [hun, if_neg (by simp), if_pos (by rw [htl, hd'])]
  · intro d h1 h2 h3
    rw [hflat, if_pos ⟨h1, h2, h3⟩]
  · intro x hx d hd
    rw [hun] at hd
    split_ifs at hd with h1 h2 h3
    · cases hd
      refine ⟨by simp [NDArr.WF, h2], ?_⟩
      rw [hflat, if_neg (by simp), if_neg (by simp)]
    · cases hd
      refine ⟨by simp [NDArr.WF, h3], ?_⟩
      rw [hflat, if_neg (by simp), if_neg (by simp)]
  · intro x hx
    rw [hun]
    by_cases h1 : x.shape.length = 1
    · rw [if_neg (by simpa using h1)]
      by_cases h2 : x.data.length = nf * nc
      · simp [h1, h2]
      · by_cases h3 : x.data.length = nf * es
        · rw [if_neg h2, if_pos h3]; simp [h1, h3]
        · rw [if_neg h2, if_neg h3]; simp [h2, h3]
    · rw [if_pos h1]; simp [h1]

/-- Non-vacuity: two ternary scopes with three configurations. -/
example : (∃ g, EnumFactorGroup.create 1 exTernary.varsForFactors exTernary.configs
      (some (⟨[2, 3], [1, 2, 3, 4, 5, 6]⟩ : NDArr ℚ)) true = .ok g) ∧
    (∀ vs ∈ exTernary.varsForFactors, vs.length = exTernary.configs.ncols) ∧
    (exTernary.varsForFactors.map List.toFinset).length = 2 := ⟨⟨_, rfl⟩, by decide, by decide⟩
/-- Non-vacuity of all hypotheses of `C20_enum`. -/
example : (∃ g, EnumFactorGroup.create 1 exPairScopes ⟨2, [[0, 2], [1, 1]]⟩
      (some (⟨[2], [1, 2]⟩ : NDArr ℚ)) true = .ok g) ∧
    (∀ vs ∈ exPairScopes, vs.length = 2) ∧
    (∀ vs ∈ exPairScopes, ∀ r ∈ [[0, 2], [1, 1]], List.Forall₂ (fun (s : Nat) (v : Var) => s < v.n) r vs) ∧
    (exPairScopes.map List.toFinset).Nodup := by
  refine ⟨⟨_, rfl⟩, by decide, ?_, by decide⟩
  simp [exPairScopes]

/-- **C20, pairwise groups.**  For every accepted pairwise group of `a`- and `b`-state variables that repeats no scope:
per-factor matrices survive the round trip, a shared matrix is copied once per factor, all other shapes raise, and
messages survive the round trip unless both variables are binary (`a = b = 2`).
Missing from C20: messages of binary pairwise groups, for which the property is false (`C20_pairwise_refuted`). -/
theorem C20_pairwise_partial [Zero α] (id : Nat) (scopes : List (List Var)) (m : NDArr α) (hm : m.WF) (mFloat : Bool)
    (g : FGroup α) (h : PairwiseFactorGroup.create id scopes (some m) mFloat = .ok g)
    (hnd : (scopes.map List.toFinset).Nodup) (a b : Nat) (v0 v1 : Var) (hmem : [v0, v1] ∈ scopes) (ha : v0.n = a)
    (hb : v1.n = b) :
    let nf := scopes.length
    (∀ d : NDArr α, d.WF → d.shape = [nf, a, b] →
      ∃ x, g.flatten d = .ok x ∧ g.unflatten ⟨[x.length], x⟩ = .ok d) ∧
    (∀ d : NDArr α, d.WF → d.shape = [nf, a + b] → 0 < a → ¬ (a = 2 ∧ b = 2) →
      ∃ x, g.flatten d = .ok x ∧ g.unflatten ⟨[x.length], x⟩ = .ok d) ∧
    (∀ d : NDArr α, d.WF → d.shape = [a, b] →
      ∃ x, g.flatten d = .ok x ∧ x.length = nf * (a * b) ∧
        (∀ f i, f < nf → i < a * b → x[f * (a * b) + i]? = d.data[i]?) ∧
        g.unflatten ⟨[x.length], x⟩ = .ok ⟨[nf, a, b], x⟩) ∧
    (∀ d : NDArr α, d.shape ≠ [nf, a, b] → d.shape ≠ [nf, a + b] → d.shape ≠ [a, b] →
      g.flatten d = .error .valueError) ∧
    (∀ x : NDArr α, ((∃ d, g.unflatten x = .ok d) ↔
      x.shape.length = 1 ∧ (x.data.length = nf * (a * b) ∨ x.data.length = nf * (a + b)))) := by
  intro nf
  obtain ⟨a', b', hne, -, hsc, h1, h2, h3, h4, h5, -⟩ := pairwise_create_facts id scopes m hm mFloat g h
  obtain ⟨w0, w1, e, ra, rb⟩ := hsc _ hmem
  cases e
  rw [ha] at ra; rw [hb] at rb
  subst ra rb
  obtain ⟨fs, hfs, hlen⟩ := pairwise_factors g a b scopes h1 h4 h5 hsc hnd
  have hpos : 0 < nf := by
    rcases Nat.eq_zero_or_pos nf with h0 | h0
    · exact absurd (List.length_eq_zero_iff.1 h0) hne
    · exact h0
  have hflat : ∀ d : NDArr α, g.flatten d =
      if d.shape ≠ [nf, a, b] ∧ d.shape ≠ [nf, a + b] ∧ d.shape ≠ [a, b] then .error .valueError
      else if d.shape = [a, b] then .ok (tile d.data nf) else .ok d.data := by
    intro d
    unfold FGroup.flatten
    rw [h2]
    simp only [hfs, bind, Except.bind, pure, Except.pure, throw, throwThe, MonadExceptOf.throw, hlen]
    split_ifs <;> rfl
  have hun : ∀ x : NDArr α, g.unflatten x =
      if x.shape.length ≠ 1 then .error .valueError
      else if x.data.length = nf * (a * b) then .ok ⟨[nf, a, b], x.data⟩
      else if x.data.length = nf * (a + b) then .ok ⟨[nf, a + b], x.data⟩ else .error .valueError := by
    intro x
    unfold FGroup.unflatten
    rw [h2]
    simp only [hfs, bind, Except.bind, pure, Except.pure, throw, throwThe, MonadExceptOf.throw, hlen]
    split_ifs <;> rfl
  have htl : ∀ xs : List α, (tile xs nf).length = nf * xs.length := by intro xs; simp [tile]
  refine ⟨?_, ?_, ?_, ?_, ?_⟩
  · intro d hd hs
    rw [NDArr.WF, hs] at hd
    refine ⟨d.data, ?_, ?_⟩
    · rw [hflat, if_neg (by rw [hs]; simp), if_neg (by rw [hs]; simp)]
    · rw [hun, if_neg (by simp), if_pos (by simpa using hd), ← hs]
  · intro d hd hs ha0 h22
    rw [NDArr.WF, hs] at hd
    have hd' : d.data.length = nf * (a + b) := by simpa using hd
    have hab : a * b ≠ a + b := by
      intro hab
      apply h22
      rcases a with _ | _ | _ | a
      · omega
      · omega
      · omega
      · exfalso
        rcases b with _ | _ | b
        · omega
        · omega
        · have h7 : (a + 1 + 1 + 1) * (b + 1 + 1) = a * b + 2 * a + 3 * b + 6 := by ring
          rw [h7] at hab
          have := Nat.zero_le (a * b)
          omega
    by_cases hsab : [nf, a + b] = [a, b]
    · -- then the message array would have the shape of a shared matrix
      simp only [List.cons.injEq, and_true] at hsab
      omega
    refine ⟨d.data, ?_, ?_⟩
    · rw [hflat, if_neg (by rw [hs]; simp), if_neg (by rw [hs]; exact hsab)]
    · rw [hun, if_neg (by simp), if_neg, if_pos hd', ← hs]
      intro hc
      rw [hd'] at hc
      exact hab (Nat.eq_of_mul_eq_mul_left hpos hc).symm
  · intro d hd hs
    rw [NDArr.WF, hs] at hd
    have hd' : d.data.length = a * b := by simpa using hd
    refine ⟨tile d.data nf, ?_, by rw [htl, hd'], ?_, ?_⟩
    · rw [hflat, if_neg (by rw [hs]; simp), if_pos hs]
    · intro f i hf' hi
      have := tile_getElem? d.data nf f i hf' (by rw [hd']; exact hi)
      rw [hd'] at this
      exact this
    · rw [hun, if_neg (by simp), if_pos (by rw [htl, hd'])]
  · intro d g1 g2 g3
    rw [hflat, if_pos ⟨g1, g2, g3⟩]
  · intro x
    rw [hun]
    by_cases g1 : x.shape.length = 1
    · rw [if_neg (by simpa using g1)]
      by_cases g2 : x.data.length = nf * (a * b)
      · simp [g1, g2]
      · by_cases g3 : x.data.length = nf * (a + b)
        · rw [if_neg g2, if_pos g3]; simp [g1, g3]
        · rw [if_neg g2, if_neg g3]; simp [g2, g3]
    · rw [if_pos g1]; simp [g1]

/-- Non-vacuity. -/
example : (∃ g, PairwiseFactorGroup.create 1 exPairScopes (some (⟨[2, 3], [1, 2, 3, 4, 5, 6]⟩ : NDArr ℚ)) true = .ok g) ∧
    (exPairScopes.map List.toFinset).Nodup ∧ [⟨10, 2⟩, ⟨11, 3⟩] ∈ exPairScopes := ⟨⟨_, rfl⟩, by decide, by decide⟩

/-- **C20 is false for messages of binary pairwise groups:** an array of messages (2 + 2 edge states per factor) comes
back as a log-potential matrix (2 × 2) with a different shape. -/
theorem C20_pairwise_refuted : ∃ (g : FGroup ℚ) (d d' : NDArr ℚ) (x : List ℚ),
    PairwiseFactorGroup.create 1 [[⟨10, 2⟩, ⟨11, 2⟩]] (some ⟨[2, 2], [0, 0, 0, 0]⟩) true = .ok g ∧
    d.shape = [1, 2 + 2] ∧ d.WF ∧ g.flatten d = .ok x ∧ g.unflatten ⟨[x.length], x⟩ = .ok d' ∧ d'.shape ≠ d.shape := by
  refine ⟨_, ⟨[1, 4], [1, 2, 3, 4]⟩, ⟨[1, 2, 2], [1, 2, 3, 4]⟩, [1, 2, 3, 4], rfl, rfl, rfl, ?_, ?_, by decide⟩
  · rfl
  · rfl

/-! ## C44 -/

/-- A dictionary lookup in a table indexed by position. -/
theorem lookup_range {β γ : Type _} [DecidableEq β] (n : Nat) (k : Nat → β) (F : Nat → γ) (key : β)
    (hnd : ((List.range n).map k).Nodup) :
    (∀ f, f < n → k f = key → ((List.range n).map (fun i => (k i, F i))).lookup key = some (F f)) ∧
    ((∀ f, f < n → k f ≠ key) → ((List.range n).map (fun i => (k i, F i))).lookup key = none) := by
  refine ⟨?_, ?_⟩
  · intro f hf hk
    have : ∀ (l : List Nat), f ∈ l → (l.map k).Nodup → (l.map (fun i => (k i, F i))).lookup key = some (F f) := by
      intro l
      induction l with
      | nil => intro h; cases h
      | cons x l ih =>
        intro hm hnd
        rw [List.map_cons, List.nodup_cons] at hnd
        rw [List.map_cons, List.lookup_cons]
        by_cases hx : key = k x
        · have : (key == k x) = true := by simpa using hx
          rw [this]
          simp only [Option.some.injEq]
          rcases List.mem_cons.1 hm with rfl | hm
          · rfl
          · exact absurd (List.mem_map.2 ⟨f, hm, hk.trans hx⟩) hnd.1
        · have h' : (key == k x) = false := by simpa using hx
          rw [h']
          rcases List.mem_cons.1 hm with rfl | hm
          · exact absurd hk.symm hx
          · exact ih hm hnd.2
    exact this _ (List.mem_range.2 hf) hnd
  · intro h
    rw [List.lookup_eq_none_iff]
    intro p hp
    obtain ⟨i, hi, rfl⟩ := List.mem_map.1 hp
    rw [List.mem_range] at hi
    simpa using (h i hi).symm

/-- `getitem` of a group whose factors can be built. -/
theorem getitem_eq (g : FGroup α) (F : Nat → AnyFactor α)
    (hb : ∀ ii vs, g.varsForFactors[ii]? = some vs → g.buildFactor ii vs = .ok (F ii))
    (hnd : (g.varsForFactors.map List.toFinset).Nodup) (ws : List Var) :
    (∀ (f : Nat) vs, g.varsForFactors[f]? = some vs → (∀ v, v ∈ ws ↔ v ∈ vs) → g.getitem ws = .ok (F f)) ∧
    ((∀ vs ∈ g.varsForFactors, ¬ ∀ v, v ∈ ws ↔ v ∈ vs) → g.getitem ws = .error .valueError) := by
  have hk : (List.range g.varsForFactors.length).map (fun ii => (g.varsForFactors.getD ii []).toFinset)
      = g.varsForFactors.map List.toFinset := by
    apply List.ext_getElem?
    intro i
    simp only [List.getElem?_map]
    by_cases hi : i < g.varsForFactors.length
    · rw [List.getElem?_range hi]; simp [List.getD, List.getElem?_eq_getElem hi]
    · rw [List.getElem?_eq_none (by simpa using hi), List.getElem?_eq_none (by simpa using hi)]; rfl
  have hl := lookup_range g.varsForFactors.length (fun ii => (g.varsForFactors.getD ii []).toFinset) F ws.toFinset
    (by rw [hk]; exact hnd)
  unfold FGroup.getitem
  rw [variablesToFactors_eq g F hb hnd]
  simp only [bind, Except.bind]
  refine ⟨?_, ?_⟩
  · intro f vs hf hws
    have hlt : f < g.varsForFactors.length := (List.getElem?_eq_some_iff.1 hf).1
    rw [hl.1 f hlt (by
      simp only [List.getD, hf, Option.getD_some]
      ext v
      simp [hws v])]
    rfl
  · intro h
    rw [hl.2]
    · rfl
    · intro f hf hc
      refine h _ (List.getElem_mem hf) ?_
      intro v
      have := Finset.ext_iff.1 hc v
      simpa [List.getD, List.getElem?_eq_getElem hf, eq_comm, iff_comm] using this

/-- **C44, enumeration and pairwise groups** (valid table, no repeated scopes): `group[ws]` returns factor `f` — its
scope, the table, its own row of log potentials — when `ws` lists exactly the variables of scope `f`, in any order and
with any repetition, and raises ValueError when `ws` is the set of variables of no factor. -/
theorem C44_enum (g : FGroup α) (ht : g.ftype = .enum) (hw : ∀ vs ∈ g.varsForFactors, vs.length = g.configs.ncols)
    (hr : ∀ vs ∈ g.varsForFactors, ∀ r ∈ g.configs.rows, List.Forall₂ (fun s v => s < v.n) r vs)
    (hp : g.logPotentials.length = g.varsForFactors.length * g.configs.rows.length)
    (hnd : (g.varsForFactors.map List.toFinset).Nodup) (ws : List Var) :
    (∀ (f : Nat) vs, g.varsForFactors[f]? = some vs → (∀ v, v ∈ ws ↔ v ∈ vs) →
      ∃ lp, g.getitem ws = .ok (.enum ⟨vs, g.configs, lp⟩) ∧ lp.length = g.configs.rows.length ∧
        ∀ c, c < g.configs.rows.length → lp[c]? = g.logPotentials[f * g.configs.rows.length + c]?) ∧
    ((∀ vs ∈ g.varsForFactors, ¬ ∀ v, v ∈ ws ↔ v ∈ vs) → g.getitem ws = .error .valueError) := by
  have := getitem_eq g (fun ii => .enum ⟨g.varsForFactors.getD ii [], g.configs,
      slice g.logPotentials (ii * g.configs.rows.length) (ii * g.configs.rows.length + g.configs.rows.length)⟩)
    (fun ii vs h => (buildFactor_enum ht hw hr ii vs h).trans (by
      rw [show vs = g.varsForFactors.getD ii [] by simp [List.getD, h]])) hnd ws
  refine ⟨?_, this.2⟩
  intro f vs hf hws
  refine ⟨_, (this.1 f vs hf hws).trans (by rw [show g.varsForFactors.getD f [] = vs by simp [List.getD, hf]]), ?_, ?_⟩
  · have hlt : f < g.varsForFactors.length := (List.getElem?_eq_some_iff.1 hf).1
    have : f * g.configs.rows.length + g.configs.rows.length ≤ g.logPotentials.length := by
      rw [hp]
      calc f * g.configs.rows.length + g.configs.rows.length = (f + 1) * g.configs.rows.length := by ring
        _ ≤ _ := Nat.mul_le_mul_right _ hlt
    rw [slice_length]; omega
  · intro c hc
    rw [slice_getElem?, if_pos (by omega)]

/-- **C44, OR and AND groups.** -/
theorem C44_logical (g : FGroup α) (isAnd : Bool) (ht : g.ftype = if isAnd then .and else .or)
    (hs : ∀ vs ∈ g.varsForFactors, LogicalScope vs) (hnd : (g.varsForFactors.map List.toFinset).Nodup) (ws : List Var) :
    (∀ (f : Nat) vs, g.varsForFactors[f]? = some vs → (∀ v, v ∈ ws ↔ v ∈ vs) → g.getitem ws = .ok (.logical ⟨vs, isAnd⟩)) ∧
    ((∀ vs ∈ g.varsForFactors, ¬ ∀ v, v ∈ ws ↔ v ∈ vs) → g.getitem ws = .error .valueError) := by
  have := getitem_eq g (fun ii => .logical ⟨g.varsForFactors.getD ii [], isAnd⟩)
    (fun ii vs h => (buildFactor_logical isAnd ht ii vs (hs vs (List.mem_of_getElem? h))).trans (by
      rw [show vs = g.varsForFactors.getD ii [] by simp [List.getD, h]])) hnd ws
  refine ⟨?_, this.2⟩
  intro f vs hf hws
  exact (this.1 f vs hf hws).trans (by rw [show g.varsForFactors.getD f [] = vs by simp [List.getD, hf]])

/-- Non-vacuity of `C44_enum` (ternary scopes over the same set are excluded, so one of them) and `C44_logical`. -/
example : EnumTableOk (exGroup 3 [[exVar 1, exVar 2], [exVar 0, exVar 2]]) ∧
    ((exGroup 3 [[exVar 1, exVar 2], [exVar 0, exVar 2]]).varsForFactors.map List.toFinset).Nodup ∧
    (exOr2.varsForFactors.map List.toFinset).Nodup ∧ ∀ vs ∈ exOr2.varsForFactors, LogicalScope vs := by
  refine ⟨⟨by decide, by decide, by decide, ?_, by decide⟩, by decide, by decide, ?_⟩
  · simp [exGroup, exVar]
  · unfold LogicalScope; decide

end PGMax
