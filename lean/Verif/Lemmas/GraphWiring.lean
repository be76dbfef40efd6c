import Verif.Lemmas.Wiring
import Verif.Spec.FGraph

/-! The wiring of a whole graph of valid groups. -/

namespace PGMax
variable {κ α : Type _}

theorem sfs_ne {g : FGroup α} (h : EnumTableOk g) (hne : g.varsForFactors ≠ []) :
    g.sfs ≠ [] ∧ ∀ p ∈ g.sfs, SFNe p := by
  refine ⟨by simpa [FGroup.sfs] using hne, ?_⟩
  intro p hp
  obtain ⟨vs, -, rfl⟩ := List.mem_map.1 hp
  exact ⟨h.rowsNe, h.cols⟩

theorem offset_eq (g : FGroup α) : g.offset = edgeStatesOffset (g.ftype == .and) := rfl

/-- The closed form of the wirings of a graph. -/
def mkWirings (fg : FactorGraph κ α) : Wirings where
  enum := mkEnumW fg.varsToStarts ((fg.groups .enum).flatMap (·.sfs))
  or := mkLogicalW fg.varsToStarts 1 ((fg.groups .or).flatMap (·.varsForFactors))
  and := mkLogicalW fg.varsToStarts (if fg.groups .and = [] then 1 else -1) ((fg.groups .and).flatMap (·.varsForFactors))

theorem enum_type_wiring (garbage : Garbage) (fg : FactorGraph κ α) (hv : fg.Valid) :
    ((fg.groups .enum).mapM (fun g => g.compileEnum garbage fg.varsToStarts))
      = .ok ((fg.groups .enum).map (fun g => mkEnumW fg.varsToStarts g.sfs)) ∧
    EnumFactor.concatenateWirings ((fg.groups .enum).map (fun g => mkEnumW fg.varsToStarts g.sfs))
      = .ok (mkWirings fg).enum := by
  constructor
  · apply mapM_ok
    intro g hg
    obtain ⟨ht, hV⟩ := hv .enum g hg
    exact compileEnum_eq garbage g _ (fun vs hvs v hv' => hV.vars vs hvs v hv') (hV.enumOk ht).width
  · have := concatEnum_eq fg.varsToStarts ((fg.groups .enum).map (·.sfs)) (by
      intro L hL
      obtain ⟨g, hg, rfl⟩ := List.mem_map.1 hL
      obtain ⟨ht, hV⟩ := hv .enum g hg
      exact sfs_ne (hV.enumOk ht) hV.ne)
    rw [List.map_map] at this
    exact this

theorem logical_type_compile (garbage : Garbage) (fg : FactorGraph κ α) (hv : fg.Valid) (t : FType) (ht : t ≠ .enum) :
    ((fg.groups t).mapM (fun g => g.compileLogical garbage fg.varsToStarts))
      = .ok ((fg.groups t).map (fun g => mkLogicalW fg.varsToStarts (edgeStatesOffset (t == .and)) g.varsForFactors)) := by
  apply mapM_ok
  intro g hg
  obtain ⟨ht', hV⟩ := hv t g hg
  refine compileLogical_eq garbage g (t == .and) ?_ _ (fun vs hvs v hv' => hV.vars vs hvs v hv') ?_
  · rw [offset_eq, ht']
  · exact (hV.logicalOk (by rw [ht']; exact ht)).2

theorem logical_type_concat (fg : FactorGraph κ α) (hv : fg.Valid) (t : FType) (ht : t ≠ .enum)
    (h1 : fg.SinglesButLast t) (hne : fg.groups t ≠ []) :
    LogicalFactor.concatenateWirings
      ((fg.groups t).map (fun g => mkLogicalW fg.varsToStarts (edgeStatesOffset (t == .and)) g.varsForFactors))
      = .ok (mkLogicalW fg.varsToStarts (edgeStatesOffset (t == .and)) ((fg.groups t).flatMap (·.varsForFactors))) := by
  have := concatLogical_ok fg.varsToStarts (t == .and) ((fg.groups t).map (·.varsForFactors)) (by simpa using hne) (by
    intro L hL
    obtain ⟨g, hg, rfl⟩ := List.mem_map.1 hL
    obtain ⟨ht', hV⟩ := hv t g hg
    exact (hV.logicalOk (by rw [ht']; exact ht)).2) (by
    intro L hL
    rw [← List.map_dropLast] at hL
    obtain ⟨g, hg, rfl⟩ := List.mem_map.1 hL
    exact h1 g hg)
  rw [List.map_map] at this
  exact this

theorem logical_type_concat_err (fg : FactorGraph κ α) (hv : fg.Valid) (t : FType) (ht : t ≠ .enum)
    (h1 : ¬ fg.SinglesButLast t) :
    LogicalFactor.concatenateWirings
      ((fg.groups t).map (fun g => mkLogicalW fg.varsToStarts (edgeStatesOffset (t == .and)) g.varsForFactors))
      = .error .valueError := by
  have := concatLogical_err fg.varsToStarts (edgeStatesOffset (t == .and)) ((fg.groups t).map (·.varsForFactors)) (by
    intro L hL
    obtain ⟨g, hg, rfl⟩ := List.mem_map.1 hL
    exact (hv t g hg).2.ne) (by
    intro L hL
    obtain ⟨g, hg, rfl⟩ := List.mem_map.1 hL
    obtain ⟨ht', hV⟩ := hv t g hg
    exact (hV.logicalOk (by rw [ht']; exact ht)).2) (by
    unfold FactorGraph.SinglesButLast at h1
    simp only [not_forall] at h1
    obtain ⟨g, hg, hl⟩ := h1
    refine ⟨g.varsForFactors, ?_, hl⟩
    rw [← List.map_dropLast]
    exact List.mem_map.2 ⟨g, hg, rfl⟩)
  rw [List.map_map] at this
  exact this

theorem concatLogical_nil :
    LogicalFactor.concatenateWirings [] = .ok (mkLogicalW (fun _ => none) 1 []) := by rfl

theorem mkLogicalW_nil (st st' : StartMap) (off : Int) : mkLogicalW st off [] = mkLogicalW st' off [] := rfl

/-- The wiring of a graph of valid groups. -/
theorem wiring_ok (garbage : Garbage) (fg : FactorGraph κ α) (hv : fg.Valid)
    (ho : fg.SinglesButLast .or) (ha : fg.SinglesButLast .and) : fg.wiring garbage = .ok (mkWirings fg) := by
  unfold FactorGraph.wiring
  obtain ⟨e1, e2⟩ := enum_type_wiring garbage fg hv
  rw [e1, logical_type_compile garbage fg hv .or (by decide), logical_type_compile garbage fg hv .and (by decide)]
  simp only [bind, Except.bind]
  rw [e2]
  simp only
  have h1 : LogicalFactor.concatenateWirings ((fg.groups .or).map (fun g => mkLogicalW fg.varsToStarts
      (edgeStatesOffset (FType.or == FType.and)) g.varsForFactors)) = .ok (mkWirings fg).or := by
    by_cases h : fg.groups .or = []
    · simp only [mkWirings, h]; rfl
    · exact logical_type_concat fg hv .or (by decide) ho h
  have h2 : LogicalFactor.concatenateWirings ((fg.groups .and).map (fun g => mkLogicalW fg.varsToStarts
      (edgeStatesOffset (FType.and == FType.and)) g.varsForFactors)) = .ok (mkWirings fg).and := by
    by_cases h : fg.groups .and = []
    · simp only [mkWirings, h]; rfl
    · rw [logical_type_concat fg hv .and (by decide) ha h]
      simp [mkWirings, h, edgeStatesOffset]
  rw [h1]
  simp only
  rw [h2]
  rfl

theorem wiring_err (garbage : Garbage) (fg : FactorGraph κ α) (hv : fg.Valid)
    (h : ¬ (fg.SinglesButLast .or ∧ fg.SinglesButLast .and)) : fg.wiring garbage = .error .valueError := by
  unfold FactorGraph.wiring
  obtain ⟨e1, e2⟩ := enum_type_wiring garbage fg hv
  rw [e1, logical_type_compile garbage fg hv .or (by decide), logical_type_compile garbage fg hv .and (by decide)]
  simp only [bind, Except.bind]
  rw [e2]
  simp only
  by_cases ho : fg.SinglesButLast .or
  · have ha : ¬ fg.SinglesButLast .and := fun h' => h ⟨ho, h'⟩
    cases hc : LogicalFactor.concatenateWirings ((fg.groups .or).map (fun g => mkLogicalW fg.varsToStarts
      (edgeStatesOffset (FType.or == FType.and)) g.varsForFactors)) with
    | ok w => simp only; rw [logical_type_concat_err fg hv .and (by decide) ha]
    | error e =>
      exfalso
      by_cases h : fg.groups .or = []
      · rw [h] at hc; cases hc
      · rw [logical_type_concat fg hv .or (by decide) ho h] at hc; cases hc
  · rw [logical_type_concat_err fg hv .or (by decide) ho]

theorem edgeStart_cons_succ (vs : List Var) (scopes : List (List Var)) (f i : Nat) :
    edgeStart (vs :: scopes) (f + 1) i = (vs.map (·.n)).sum + edgeStart scopes f i := by
  simp [edgeStart, Nat.add_assoc]

theorem edgeStart_cons_zero (vs : List Var) (scopes : List (List Var)) (i : Nat) :
    edgeStart (vs :: scopes) 0 i = ((vs.take i).map (·.n)).sum := by
  simp [edgeStart]

theorem edgeStart_append_left (a b : List (List Var)) (f i : Nat) (hf : f < a.length) :
    edgeStart (a ++ b) f i = edgeStart a f i := by
  unfold edgeStart
  rw [List.take_append_of_le_length (by omega), List.getD_eq_getElem?_getD, List.getElem?_append_left hf,
    ← List.getD_eq_getElem?_getD]

theorem edgeStart_append_right (a b : List (List Var)) (f i : Nat) :
    edgeStart (a ++ b) (a.length + f) i = (a.map (fun vs => (vs.map (·.n)).sum)).sum + edgeStart b f i := by
  unfold edgeStart
  rw [List.take_length_add_append, List.map_append, List.sum_append, List.getD_eq_getElem?_getD,
    List.getElem?_append_right (by omega), Nat.add_sub_cancel_left, ← List.getD_eq_getElem?_getD, Nat.add_assoc]

/-- Position of a message inside the total. -/
theorem edgeStart_lt (scopes : List (List Var)) (f i : Nat) (vs : List Var) (v : Var) (s : Nat)
    (hf : scopes[f]? = some vs) (hi : vs[i]? = some v) (hs : s < v.n) :
    edgeStart scopes f i + s < (scopes.map (fun vs => (vs.map (·.n)).sum)).sum := by
  induction scopes generalizing f with
  | nil => simp at hf
  | cons ws scopes ih =>
    cases f with
    | zero =>
      simp at hf; subst hf
      rw [edgeStart_cons_zero]
      have hl : i < ws.length := (List.getElem?_eq_some_iff.1 hi).1
      have := block_lt (ws.map (·.n)) i s (by simpa using hl) (by simp [List.getD, hi, hs])
      rw [← List.map_take] at this
      simp only [List.map_cons, List.sum_cons]
      omega
    | succ f =>
      simp at hf
      rw [edgeStart_cons_succ]
      have := ih f hf
      simp only [List.map_cons, List.sum_cons]
      omega

/-- Evidence position of a message. -/
theorem vsEntries_getElem? (st : StartMap) (scopes : List (List Var)) (f i : Nat) (vs : List Var) (v : Var) (s : Nat)
    (hf : scopes[f]? = some vs) (hi : vs[i]? = some v) (hs : s < v.n) :
    (vsEntries st scopes)[edgeStart scopes f i + s]? = some ((st v).getD 0 + s) := by
  induction scopes generalizing f with
  | nil => simp at hf
  | cons ws scopes ih =>
    have hcons : vsEntries st (ws :: scopes) = ws.flatMap (fun v => (List.range v.n).map (fun k => (st v).getD 0 + k))
        ++ vsEntries st scopes := by simp [vsEntries]
    have hlen : (ws.flatMap (fun v => (List.range v.n).map (fun k => (st v).getD 0 + k))).length
        = (ws.map (·.n)).sum := by
      rw [List.length_flatMap]; simp
    rw [hcons]
    cases f with
    | zero =>
      simp at hf; subst hf
      rw [edgeStart_cons_zero]
      have hl : i < ws.length := (List.getElem?_eq_some_iff.1 hi).1
      have hlt := block_lt (ws.map (·.n)) i s (by simpa using hl) (by simp [List.getD, hi, hs])
      rw [← List.map_take] at hlt
      rw [List.getElem?_append_left (by omega)]
      have := flatMap_getElem?_block ws (fun v => (List.range v.n).map (fun k => (st v).getD 0 + k)) i s v hi (by simpa)
      simp only [List.length_map, List.length_range] at this
      rw [List.map_take, this]
      simp [List.getElem?_range hs]
    | succ f =>
      simp at hf
      rw [edgeStart_cons_succ, List.getElem?_append_right (by omega), hlen]
      rw [← ih f hf]
      congr 1
      omega

theorem vsEntries_length (st : StartMap) (scopes : List (List Var)) :
    (vsEntries st scopes).length = (scopes.map (fun vs => (vs.map (·.n)).sum)).sum := by
  induction scopes with
  | nil => rfl
  | cons ws scopes ih =>
    have hcons : vsEntries st (ws :: scopes) = ws.flatMap (fun v => (List.range v.n).map (fun k => (st v).getD 0 + k))
        ++ vsEntries st scopes := by simp [vsEntries]
    rw [hcons, List.length_append, ih, List.length_flatMap]
    simp

/-- Every flat message position belongs to one edge state. -/
theorem exists_edgeStart (scopes : List (List Var)) (p : Nat)
    (hp : p < (scopes.map (fun vs => (vs.map (·.n)).sum)).sum) :
    ∃ f i vs v s, scopes[f]? = some vs ∧ vs[i]? = some v ∧ s < v.n ∧ p = edgeStart scopes f i + s := by
  induction scopes generalizing p with
  | nil => simp at hp
  | cons ws scopes ih =>
    simp only [List.map_cons, List.sum_cons] at hp
    by_cases h : p < (ws.map (·.n)).sum
    · obtain ⟨i, s, h1, h2, h3⟩ := exists_block _ p h
      rw [List.length_map] at h1
      refine ⟨0, i, ws, ws[i], s, rfl, List.getElem?_eq_getElem h1, ?_, ?_⟩
      · simpa [List.getD, List.getElem?_eq_getElem h1] using h2
      · rw [edgeStart_cons_zero, List.map_take]; exact h3
    · obtain ⟨f, i, vs, v, s, h1, h2, h3, h4⟩ := ih (p - (ws.map (·.n)).sum) (by omega)
      refine ⟨f + 1, i, vs, v, s, by simpa using h1, h2, h3, ?_⟩
      rw [edgeStart_cons_succ]; omega

/-- … and to only one. -/
theorem edgeStart_inj (scopes : List (List Var)) (f i f' i' : Nat) (vs vs' : List Var) (v v' : Var) (s s' : Nat)
    (hf : scopes[f]? = some vs) (hi : vs[i]? = some v) (hs : s < v.n)
    (hf' : scopes[f']? = some vs') (hi' : vs'[i']? = some v') (hs' : s' < v'.n)
    (h : edgeStart scopes f i + s = edgeStart scopes f' i' + s') : f = f' ∧ i = i' ∧ s = s' := by
  induction scopes generalizing f f' with
  | nil => simp at hf
  | cons ws scopes ih =>
    have hlt0 : ∀ (i : Nat) (v : Var) (s : Nat), ws[i]? = some v → s < v.n →
        ((ws.take i).map (·.n)).sum + s < (ws.map (·.n)).sum := by
      intro i v s hi hs
      have hl : i < ws.length := (List.getElem?_eq_some_iff.1 hi).1
      have hlt := block_lt (ws.map (·.n)) i s (by simpa using hl) (by simp [List.getD, hi, hs])
      rwa [← List.map_take] at hlt
    cases f with
    | zero =>
      simp at hf; subst hf
      rw [edgeStart_cons_zero] at h
      have h1 := hlt0 i v s hi hs
      cases f' with
      | zero =>
        simp at hf'; subst hf'
        rw [edgeStart_cons_zero] at h
        have hl : i < ws.length := (List.getElem?_eq_some_iff.1 hi).1
        have hl' : i' < ws.length := (List.getElem?_eq_some_iff.1 hi').1
        rw [List.map_take, List.map_take] at h
        obtain ⟨a, b⟩ := block_inj (ws.map (·.n)) i i' s s' (by simpa) (by simpa) (by simp [List.getD, hi, hs])
          (by simp [List.getD, hi', hs']) h
        exact ⟨rfl, a, b⟩
      | succ f' =>
        rw [edgeStart_cons_succ] at h
        omega
    | succ f =>
      rw [edgeStart_cons_succ] at h
      cases f' with
      | zero =>
        simp at hf'; subst hf'
        rw [edgeStart_cons_zero] at h
        have h1 := hlt0 i' v' s' hi' hs'
        omega
      | succ f' =>
        rw [edgeStart_cons_succ] at h
        simp at hf hf'
        obtain ⟨a, b, c⟩ := ih f f' hf hf' (by omega)
        exact ⟨by omega, b, c⟩

/-- The index of the first configuration of factor `k`. -/
def cfgStart (L : List (List Var × Configs)) (k : Nat) : Nat := ((L.take k).map (fun p => p.2.rows.length)).sum

theorem enumEntries_mem (cb eb : Nat) (L : List (List Var × Configs)) (p : Nat × Nat) :
    p ∈ enumEntries cb eb L ↔ ∃ k vs cf c i, L[k]? = some (vs, cf) ∧ c < cf.rows.length ∧ i < cf.ncols ∧
      p = (cb + cfgStart L k + c, eb + edgeStart (L.map (·.1)) k i + (cf.rows.getD c []).getD i 0) := by
  induction L generalizing cb eb with
  | nil => simp [enumEntries]
  | cons q L ih =>
    obtain ⟨vs, cf⟩ := q
    rw [enumEntries, List.mem_append, ih]
    constructor
    · rintro (h | ⟨k, vs', cf', c, i, h1, h2, h3, h4⟩)
      · obtain ⟨c, hc, h⟩ := List.mem_flatMap.1 h
        obtain ⟨i, hi, rfl⟩ := List.mem_map.1 h
        rw [List.mem_range] at hc hi
        refine ⟨0, vs, cf, c, i, rfl, hc, hi, ?_⟩
        simp [cfgStart, edgeStart_cons_zero, scopeNs, List.map_take]
      · refine ⟨k + 1, vs', cf', c, i, by simpa using h1, h2, h3, ?_⟩
        rw [h4, List.map_cons, edgeStart_cons_succ]
        simp only [cfgStart, List.take_succ_cons, List.map_cons, List.sum_cons, Prod.mk.injEq, scopeNs]
        omega
    · rintro ⟨k, vs', cf', c, i, h1, h2, h3, h4⟩
      cases k with
      | zero =>
        simp only [List.getElem?_cons_zero, Option.some.injEq, Prod.mk.injEq] at h1
        obtain ⟨rfl, rfl⟩ := h1
        left
        refine List.mem_flatMap.2 ⟨c, List.mem_range.2 h2, List.mem_map.2 ⟨i, List.mem_range.2 h3, ?_⟩⟩
        rw [h4, List.map_cons, edgeStart_cons_zero]
        simp [cfgStart, scopeNs, List.map_take]
      | succ k =>
        right
        refine ⟨k, vs', cf', c, i, by simpa using h1, h2, h3, ?_⟩
        rw [h4, List.map_cons, edgeStart_cons_succ]
        simp only [cfgStart, List.take_succ_cons, List.map_cons, List.sum_cons, Prod.mk.injEq, scopeNs]
        omega

theorem cfgStart_lt (L : List (List Var × Configs)) (k c : Nat) (vs : List Var) (cf : Configs)
    (hk : L[k]? = some (vs, cf)) (hc : c < cf.rows.length) :
    cfgStart L k + c < (L.map (fun p => p.2.rows.length)).sum := by
  have hl : k < L.length := (List.getElem?_eq_some_iff.1 hk).1
  have := block_lt (L.map (fun p => p.2.rows.length)) k c (by simpa using hl) (by simp [List.getD, hk, hc])
  rwa [← List.map_take] at this

theorem lParents_mem (rel fb eb : Nat) (scopes : List (List Var)) (hv : ∀ vs ∈ scopes, ∀ v ∈ vs, v.n = 2) (p : Nat × Nat) :
    p ∈ lParents rel fb eb scopes ↔ ∃ f vs i, scopes[f]? = some vs ∧ i < vs.length - 1 ∧
      p = (fb + f, eb + edgeStart scopes f i + rel) := by
  have two : ∀ (vs : List Var), (∀ v ∈ vs, v.n = 2) → (vs.map (·.n)).sum = 2 * vs.length := by
    intro vs h
    have : vs.map (·.n) = List.replicate vs.length 2 := by
      rw [List.eq_replicate_iff]
      refine ⟨by simp, ?_⟩
      intro b hb
      obtain ⟨v, hv, rfl⟩ := List.mem_map.1 hb
      exact h v hv
    rw [this]; simp [Nat.mul_comm]
  induction scopes generalizing fb eb with
  | nil => simp [lParents]
  | cons ws scopes ih =>
    have hw := hv ws (by simp)
    have ih' := fun fb eb => ih fb eb (fun vs h => hv vs (by simp [h]))
    rw [lParents, List.mem_append]
    refine (or_congr_right (ih' _ _)).trans ?_
    constructor
    · rintro (h | ⟨f, vs, i, h1, h2, h3⟩)
      · obtain ⟨i, hi, rfl⟩ := List.mem_map.1 h
        rw [List.mem_range] at hi
        refine ⟨0, ws, i, rfl, hi, ?_⟩
        rw [edgeStart_cons_zero, two _ (fun v h => hw v (List.mem_of_mem_take h)), List.length_take,
          Nat.min_eq_left (by omega)]
        simp only [Prod.mk.injEq]; omega
      · refine ⟨f + 1, vs, i, by simpa using h1, h2, ?_⟩
        rw [h3, edgeStart_cons_succ, two ws hw]
        simp only [Prod.mk.injEq]; omega
    · rintro ⟨f, vs, i, h1, h2, h3⟩
      cases f with
      | zero =>
        simp only [List.getElem?_cons_zero, Option.some.injEq] at h1
        subst h1
        left
        refine List.mem_map.2 ⟨i, List.mem_range.2 h2, ?_⟩
        rw [h3, edgeStart_cons_zero, two _ (fun v h => hw v (List.mem_of_mem_take h)), List.length_take,
          Nat.min_eq_left (by omega)]
        simp only [Prod.mk.injEq]; omega
      | succ f =>
        right
        refine ⟨f, vs, i, by simpa using h1, h2, ?_⟩
        rw [h3, edgeStart_cons_succ, two ws hw]
        simp only [Prod.mk.injEq]; omega

theorem lChildren_getElem? (rel eb : Nat) (scopes : List (List Var)) (hv : ∀ vs ∈ scopes, ∀ v ∈ vs, v.n = 2) (f : Nat)
    (vs : List Var) (hf : scopes[f]? = some vs) :
    (lChildren rel eb scopes)[f]? = some (eb + edgeStart scopes f (vs.length - 1) + rel) := by
  have two : ∀ (vs : List Var), (∀ v ∈ vs, v.n = 2) → (vs.map (·.n)).sum = 2 * vs.length := by
    intro vs h
    have : vs.map (·.n) = List.replicate vs.length 2 := by
      rw [List.eq_replicate_iff]
      refine ⟨by simp, ?_⟩
      intro b hb
      obtain ⟨v, hv, rfl⟩ := List.mem_map.1 hb
      exact h v hv
    rw [this]; simp [Nat.mul_comm]
  induction scopes generalizing eb f with
  | nil => simp at hf
  | cons ws scopes ih =>
    have hw := hv ws (by simp)
    cases f with
    | zero =>
      simp only [List.getElem?_cons_zero, Option.some.injEq] at hf
      subst hf
      rw [lChildren, edgeStart_cons_zero, two _ (fun v h => hw v (List.mem_of_mem_take h)), List.length_take,
        Nat.min_eq_left (by omega)]
      simp
    | succ f =>
      simp only [List.getElem?_cons_succ] at hf
      rw [lChildren, List.getElem?_cons_succ, ih _ (fun vs h => hv vs (by simp [h])) f hf, edgeStart_cons_succ, two ws hw]
      congr 1; omega

theorem lParents_getElem? (rel fb eb : Nat) (scopes : List (List Var)) (hv : ∀ vs ∈ scopes, ∀ v ∈ vs, v.n = 2) (f i : Nat)
    (vs : List Var) (hf : scopes[f]? = some vs) (hi : i < vs.length - 1) :
    (lParents rel fb eb scopes)[((scopes.take f).map (fun vs => vs.length - 1)).sum + i]?
      = some (fb + f, eb + edgeStart scopes f i + rel) := by
  have two : ∀ (vs : List Var), (∀ v ∈ vs, v.n = 2) → (vs.map (·.n)).sum = 2 * vs.length := by
    intro vs h
    have : vs.map (·.n) = List.replicate vs.length 2 := by
      rw [List.eq_replicate_iff]
      refine ⟨by simp, ?_⟩
      intro b hb
      obtain ⟨v, hv, rfl⟩ := List.mem_map.1 hb
      exact h v hv
    rw [this]; simp [Nat.mul_comm]
  induction scopes generalizing fb eb f with
  | nil => simp at hf
  | cons ws scopes ih =>
    have hw := hv ws (by simp)
    cases f with
    | zero =>
      simp only [List.getElem?_cons_zero, Option.some.injEq] at hf
      subst hf
      rw [lParents, edgeStart_cons_zero, two _ (fun v h => hw v (List.mem_of_mem_take h)), List.length_take,
        Nat.min_eq_left (by omega), List.getElem?_append_left (by simp; omega)]
      simp only [List.take_zero, List.map_nil, List.sum_nil, Nat.zero_add, List.getElem?_map,
        List.getElem?_range hi, Option.map_some]
      simp only [Option.some.injEq, Prod.mk.injEq]; omega
    | succ f =>
      simp only [List.getElem?_cons_succ] at hf
      rw [lParents, edgeStart_cons_succ, two ws hw, List.getElem?_append_right (by simp; omega)]
      simp only [List.length_map, List.length_range, List.take_succ_cons, List.map_cons, List.sum_cons]
      rw [show ws.length - 1 + (List.map (fun vs => vs.length - 1) (List.take f scopes)).sum + i - (ws.length - 1)
        = (List.map (fun vs => vs.length - 1) (List.take f scopes)).sum + i by omega]
      rw [ih _ _ (fun vs h => hv vs (by simp [h])) f hf]
      simp only [Option.some.injEq, Prod.mk.injEq]; omega


/-- Positions of the entries of a group sharing one configuration table. -/
theorem enumEntries_getElem? (cb eb : Nat) (scopes : List (List Var)) (cf : Configs) (f c i : Nat)
    (hf : f < scopes.length) (hc : c < cf.rows.length) (hi : i < cf.ncols) :
    (enumEntries cb eb (scopes.map (fun vs => (vs, cf))))[(f * cf.rows.length + c) * cf.ncols + i]?
      = some (cb + f * cf.rows.length + c, eb + edgeStart scopes f i + (cf.rows.getD c []).getD i 0) := by
  induction scopes generalizing cb eb f with
  | nil => simp at hf
  | cons vs scopes ih =>
    rw [List.map_cons, enumEntries]
    have hlen : ∀ (n : Nat) (h : Nat → Nat → Nat × Nat), ((List.range n).flatMap (fun c =>
        (List.range cf.ncols).map (h c))).length = n * cf.ncols := by
      intro n h; simp [List.length_flatMap]
    cases f with
    | zero =>
      have hlt : c * cf.ncols + i < cf.rows.length * cf.ncols := by
        calc c * cf.ncols + i < c * cf.ncols + cf.ncols := by omega
          _ = (c + 1) * cf.ncols := by ring
          _ ≤ _ := Nat.mul_le_mul_right _ hc
      rw [Nat.zero_mul, Nat.zero_add, List.getElem?_append_left (by rw [hlen]; exact hlt)]
      have := flatMap_getElem?_block (List.range cf.rows.length) (fun c => (List.range cf.ncols).map (fun i =>
        (cb + c, eb + ((scopeNs vs).take i).sum + (cf.rows.getD c []).getD i 0))) c i c (List.getElem?_range hc)
        (by simpa using hi)
      rw [show ((List.range cf.rows.length).map (fun y => ((List.range cf.ncols).map (fun i =>
        (cb + y, eb + ((scopeNs vs).take i).sum + (cf.rows.getD y []).getD i 0))).length)) =
          List.replicate cf.rows.length cf.ncols by simp [List.map_const'], sum_replicate_take _ _ _ (by omega)] at this
      rw [this, List.getElem?_map, List.getElem?_range hi, edgeStart_cons_zero]
      simp [scopeNs, List.map_take]
    | succ f =>
      have e : ((f + 1) * cf.rows.length + c) * cf.ncols + i
          = cf.rows.length * cf.ncols + ((f * cf.rows.length + c) * cf.ncols + i) := by ring
      rw [e, List.getElem?_append_right (by rw [hlen]; omega), hlen, Nat.add_sub_cancel_left,
        ih _ _ f (by simpa using hf), edgeStart_cons_succ]
      simp only [Option.some.injEq, Prod.mk.injEq, scopeNs]
      constructor
      · ring
      · omega

theorem enumEntries_length (cb eb : Nat) (L : List (List Var × Configs)) :
    (enumEntries cb eb L).length = (L.map (fun p => p.2.rows.length * p.2.ncols)).sum := by
  induction L generalizing cb eb with
  | nil => rfl
  | cons p L ih =>
    obtain ⟨vs, cf⟩ := p
    rw [enumEntries, List.length_append, ih]
    simp [List.length_flatMap]

theorem lParents_length (rel fb eb : Nat) (l : List (List Var)) :
    (lParents rel fb eb l).length = (l.map (fun vs => vs.length - 1)).sum := by
  induction l generalizing fb eb with
  | nil => rfl
  | cons vs l ih => rw [lParents, List.length_append, ih]; simp

end PGMax
