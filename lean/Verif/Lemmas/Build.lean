import Verif.Model.Examples
import Verif.Spec.Tree
import Verif.Props.C48_C51
import Verif.Props.C52
import Verif.Props.C61
import Verif.Props.C19_C20_C44

/-! Helper lemmas: graphs built by a sequence of `add_factors` calls that raise nothing. -/

namespace PGMax

variable {κ α : Type _}

/-- The variable sets of the factors of type `t` in a list of groups. -/
def setsOf (gs : List (FGroup α)) (t : FType) : List (Finset Var) :=
  (gs.filter (fun g => decide (g.ftype = t))).flatMap (fun g => g.varsForFactors.map List.toFinset)

theorem addGroup_nodup_iff (fg : FactorGraph κ α) (g : FGroup α) (hs : ∀ t, (fg.seen t).Nodup) :
    (fg.addGroup g).2 = none ↔ (fg.seen g.ftype ++ g.varsForFactors.map List.toFinset).Nodup := by
  rw [addGroup_none_iff, (addScopes_ok _ _).1, List.nodup_append]
  constructor
  · rintro ⟨h1, h2⟩
    exact ⟨hs _, h1, fun a ha b hb e => h2 b hb (e ▸ ha)⟩
  · rintro ⟨_, h1, h2⟩
    exact ⟨h1, fun s hs' hse => h2 s hse s hs' rfl⟩

theorem addList_none_iff (gs : List (FGroup α)) (fg : FactorGraph κ α) (hs : ∀ t, (fg.seen t).Nodup) :
    (fg.addList (gs.map .one)).2 = none ↔ ∀ t, (fg.seen t ++ setsOf gs t).Nodup := by
  induction gs generalizing fg with
  | nil => simpa [FactorGraph.addList, setsOf] using hs
  | cons g gs ih =>
    simp only [List.map_cons, FactorGraph.addList, FactorGraph.addFactors]
    have e0 : ∀ t, fg.seen t ++ setsOf (g :: gs) t =
        (if t = g.ftype then fg.seen t ++ g.varsForFactors.map List.toFinset else fg.seen t) ++ setsOf gs t := by
      intro t
      by_cases ht : t = g.ftype
      · subst ht; simp [setsOf, List.filter_cons]
      · simp [setsOf, List.filter_cons, ht, Ne.symm ht]
    cases hr : (fg.addGroup g).2 with
    | some e =>
      have he : fg.addGroup g = ((fg.addGroup g).1, some e) := Prod.ext rfl hr
      rw [he]
      simp only [reduceCtorEq, false_iff, not_forall]
      refine ⟨g.ftype, fun hn => ?_⟩
      rw [e0, if_pos rfl] at hn
      have := (addGroup_nodup_iff fg g hs).2 (List.nodup_append.1 hn).1
      rw [hr] at this
      cases this
    | none =>
      have he : fg.addGroup g = ((fg.addGroup g).1, none) := Prod.ext rfl hr
      obtain ⟨-, h2⟩ := addGroup_eq_ok fg g hr
      have hn := (addGroup_nodup_iff fg g hs).1 hr
      rw [he]
      simp only
      have e1 : ∀ t, (fg.addGroup g).1.seen t = if t = g.ftype then fg.seen t ++ g.varsForFactors.map List.toFinset else fg.seen t := by
        intro t
        rw [h2]
        by_cases ht : t = g.ftype
        · subst ht; simp
        · simp [ht]
      rw [ih _ (fun t => by
        rw [e1]
        split
        · rename_i ht; subst ht; exact hn
        · exact hs t)]
      exact forall_congr' fun t => by rw [e0, e1]

theorem addAll_eq (fg : FactorGraph κ α) (hist : List (AddArg α)) :
    fg.addAll hist = match fg.addList hist with
      | (fg', none) => .ok fg'
      | (_, some e) => .error e := by
  induction hist generalizing fg with
  | nil => rfl
  | cons a l ih =>
    simp only [FactorGraph.addAll, FactorGraph.addList]
    cases h : fg.addFactors a with
    | mk fg' e =>
      cases e with
      | none => exact ih fg'
      | some e => rfl

theorem addAll_history {fg fg' : FactorGraph κ α} {hist : List (AddArg α)} (h : fg.addAll hist = .ok fg') :
    fg' = fg.addHistory hist := by
  induction hist generalizing fg with
  | nil => cases h; rfl
  | cons a l ih =>
    simp only [FactorGraph.addAll] at h
    cases hf : fg.addFactors a with
    | mk fg1 e =>
      rw [hf] at h
      cases e with
      | none =>
        rw [ih h]
        simp [FactorGraph.addHistory, hf]
      | some e => cases h

theorem addAll_groups {fg fg' : FactorGraph κ α} {hist : List (AddArg α)} (h : fg.addAll hist = .ok fg') (t : FType) :
    fg'.groups t = fg.groups t ++ (AddArg.flatList hist).filter (fun g => decide (g.ftype = t)) := by
  rw [addAll_eq, addList_flat] at h
  obtain ⟨k, -, k2, k3, -⟩ := addList_groups (AddArg.flatList hist) fg
  cases hr : fg.addList ((AddArg.flatList hist).map .one) with
  | mk fg1 e =>
    rw [hr] at h k2 k3
    cases e with
    | some e => cases h
    | none =>
      cases h
      rw [k2 t, k3.1 rfl, List.take_length]

/-- The calls raise nothing exactly if no two factors of one type have the same variables; otherwise a `ValueError` is raised. -/
theorem addAll_create (vgs : List (VGroup κ)) (hist : List (AddArg α)) :
    ((∀ t, (setsOf (AddArg.flatList hist) t).Nodup) → ∃ fg, (FactorGraph.create vgs : FactorGraph κ α).addAll hist = .ok fg) ∧
    ((¬ ∀ t, (setsOf (AddArg.flatList hist) t).Nodup) → (FactorGraph.create vgs : FactorGraph κ α).addAll hist = .error .valueError) := by
  have hiff := addList_none_iff (AddArg.flatList hist) (FactorGraph.create vgs : FactorGraph κ α) (fun t => by simp [FactorGraph.create])
  obtain ⟨k, -, -, -, k4⟩ := addList_groups (AddArg.flatList hist) (FactorGraph.create vgs : FactorGraph κ α)
  have hseen : ∀ t, (FactorGraph.create vgs : FactorGraph κ α).seen t = [] := fun _ => rfl
  simp only [hseen, List.nil_append] at hiff
  rw [addAll_eq, addList_flat]
  cases hr : (FactorGraph.create vgs : FactorGraph κ α).addList ((AddArg.flatList hist).map .one) with
  | mk fg1 e =>
    rw [hr] at hiff k4
    cases e with
    | none => exact ⟨fun _ => ⟨_, rfl⟩, fun hc => absurd (hiff.1 rfl) hc⟩
    | some e =>
      refine ⟨fun hc => (by cases hiff.2 hc), fun _ => ?_⟩
      rw [(k4 e rfl).1]

theorem flatList_mem {hist : List (AddArg α)} {a : AddArg α} (ha : a ∈ hist) {g : FGroup α} (hg : g ∈ a.flat) :
    g ∈ AddArg.flatList hist := by
  induction hist with
  | nil => cases ha
  | cons b l ih =>
    simp only [AddArg.flatList, List.mem_append]
    rcases List.mem_cons.1 ha with rfl | ha
    · exact .inl hg
    · exact .inr (ih ha)

/-- A graph built without exceptions from valid groups with at most one OR group and one AND group compiles. -/
theorem compiled_build {vgs : List (VGroup κ)} (hv : VGroupsOk vgs) {hist : List (AddArg α)} {fg : FactorGraph κ α}
    (h : (FactorGraph.create vgs).addAll hist = .ok fg)
    (valid : ∀ g ∈ AddArg.flatList hist, g.Valid (fun v => v ∈ graphVars vgs))
    (ids : ((AddArg.flatList hist).map (·.objId)).Nodup)
    (hor : ((AddArg.flatList hist).filter (fun g => decide (g.ftype = .or))).length ≤ 1)
    (hand : ((AddArg.flatList hist).filter (fun g => decide (g.ftype = .and))).length ≤ 1) (garbage : Garbage) :
    graphOf vgs hist = fg ∧ ∃ st, Compiled vgs hist garbage st ∧
      (∀ t, fg.groups t = (AddArg.flatList hist).filter (fun g => decide (g.ftype = t))) ∧
      st.logPotentials = (fg.groups .enum).flatMap (·.logPotentials) := by
  have hg : graphOf vgs hist = fg := (addAll_history h).symm
  have hgr : ∀ t, fg.groups t = (AddArg.flatList hist).filter (fun g => decide (g.ftype = t)) := fun t => by
    rw [addAll_groups h t]; rfl
  have hknown : ∀ v, v ∈ graphVars vgs → ((FactorGraph.create vgs : FactorGraph κ α).varsToStarts v).isSome := by
    intro v hvv
    have := (C08_blocks_partition (α := α) vgs hv []).1 v
    simp only [graphVars, List.mem_toFinset, List.mem_flatMap] at hvv
    obtain ⟨s, hs⟩ := this.2 hvv
    exact Option.isSome_iff_exists.2 ⟨s, hs⟩
  have hvalid : ∀ a ∈ hist, ∀ g ∈ a.flat,
      g.Valid (fun v => ((FactorGraph.create vgs : FactorGraph κ α).varsToStarts v).isSome) := by
    intro a ha g hga
    have := valid g (flatList_mem ha hga)
    exact ⟨this.ne, fun vs hvs v hvv => hknown v (this.vars vs hvs v hvv), this.enumOk, this.logicalOk⟩
  have hsing : ∀ t, ((AddArg.flatList hist).filter (fun g => decide (g.ftype = t))).length ≤ 1 → fg.SinglesButLast t := by
    intro t ht g hgm
    rw [hgr t] at hgm
    have : ((AddArg.flatList hist).filter (fun g => decide (g.ftype = t))).dropLast = [] := by
      apply List.eq_nil_of_length_eq_zero
      rw [List.length_dropLast]; omega
    rw [this] at hgm
    cases hgm
  have hids : IdsOk (FType.all.flatMap fg.groups) := by
    intro g hgm k hk hid
    have hmem : ∀ x, x ∈ FType.all.flatMap fg.groups → x ∈ AddArg.flatList hist := by
      intro x hx
      obtain ⟨t, -, hx⟩ := List.mem_flatMap.1 hx
      rw [hgr t] at hx
      exact (List.mem_filter.1 hx).1
    exact List.inj_on_of_nodup_map ids (hmem g hgm) (hmem k hk) hid
  obtain ⟨st, hst⟩ := ((C16_compiles_partial garbage vgs hist hvalid).1).2 (by
    have e : (FactorGraph.create vgs : FactorGraph κ α).addHistory hist = fg := hg
    rw [e]
    exact ⟨hsing _ hor, hsing _ hand⟩)
  have hc : Compiled vgs hist garbage st := ⟨hv, hvalid, by rw [hg]; exact hids, hst⟩
  refine ⟨hg, st, hc, hgr, ?_⟩
  rw [hc.st_eq, hg]
  have hnil : ∀ t, t ≠ .enum → fg.logPotentialsOf t = [] := by
    intro t ht
    unfold FactorGraph.logPotentialsOf
    rw [List.flatMap_eq_nil_iff]
    intro g hgm
    rw [hgr t] at hgm
    obtain ⟨h1, h2⟩ := List.mem_filter.1 hgm
    simp only [decide_eq_true_eq] at h2
    exact ((valid g h1).logicalOk (by rw [h2]; exact ht)).1
  simp only [FType.all, List.flatMap_cons, List.flatMap_nil, hnil .or (by decide), hnil .and (by decide), List.append_nil]
  rfl

/-- The factors of a list of enumeration groups, group by group. -/
theorem tableFacs_groups (gs : List (FGroup α)) (h : ∀ g ∈ gs, EnumTableOk g) :
    tableFacs (gs.flatMap (fun g => g.varsForFactors.map (fun vs => (vs, g.configs)))) (gs.flatMap (·.logPotentials)) =
      gs.flatMap (fun g => tableFacs (g.varsForFactors.map (fun vs => (vs, g.configs))) g.logPotentials) := by
  induction gs with
  | nil => rfl
  | cons g gs ih =>
    simp only [List.flatMap_cons]
    rw [tableFacs_append _ _ _ _ (by
      rw [(h g (by simp)).pots]
      simp [Function.comp_def, List.map_const']), ih (fun k hk => h k (by simp [hk]))]

/-- The factors of an enumeration group whose log potentials are listed factor by factor. -/
theorem tableFacs_blocks (L : List (List Var × List α)) (cf : Configs) (h : ∀ p ∈ L, p.2.length = cf.rows.length) :
    tableFacs (L.map (fun p => (p.1, cf))) (L.flatMap (·.2)) = L.map (fun p => ⟨p.1, cf.rows.zip p.2⟩) := by
  induction L with
  | nil => rfl
  | cons p L ih =>
    have hp := h p (by simp)
    simp only [List.map_cons, List.flatMap_cons, tableFacs]
    rw [List.drop_append_of_le_length (by omega), List.drop_of_length_le (by omega), List.nil_append,
      ih (fun q hq => h q (by simp [hq])), zip_append_of_le _ _ _ (by omega)]

/-- A factor gives the states `x` the log potential `w`: it has this configuration, with this log potential only. -/
structure SFac.Weighs (F : SFac α) (x : Var → Nat) (w : α) : Prop where
  mem : (F.scope.map x, w) ∈ F.rows
  only : ∀ r ∈ F.rows, r.1 = F.scope.map x → r.2 = w

theorem sum_range_getD [AddCommMonoid α] (l : List α) : ∑ f ∈ Finset.range l.length, l.getD f 0 = l.sum := by
  induction l with
  | nil => rfl
  | cons a l ih => rw [List.length_cons, Finset.sum_range_succ', List.sum_cons, ← ih, add_comm]; rfl

/-- If every factor gives the states a log potential, the score is the evidence plus these. -/
theorem joint_weighs [AddCommMonoid α] {vars : Finset Var} {factors : List (SFac α)} {ws : List α} {x : Var → Nat}
    (hx : ∀ v ∈ vars, x v < v.n) (h : List.Forall₂ (fun F w => F.Weighs x w) factors ws) :
    (∃ ρ, Joint vars factors x ρ) ∧ ∀ ev ρ, Joint vars factors x ρ → jointScore vars factors ev x ρ = ∑ v ∈ vars, ev v (x v) + ws.sum := by
  have hlen := h.length_eq
  constructor
  · refine ⟨fun f => ((factors[f]?.map (fun F => F.scope.map x)).getD [], ws.getD f 0), hx, fun f F hF => ?_⟩
    obtain ⟨hf, e⟩ := List.getElem?_eq_some_iff.1 hF
    have hw : f < ws.length := by omega
    have := (List.forall₂_iff_get.1 h).2 f hf hw
    simp only [hF, Option.map_some, Option.getD_some, and_true, List.getD, List.getElem?_eq_getElem hw]
    simp only [List.get_eq_getElem, e] at this
    exact this.mem
  · intro ev ρ hρ
    unfold jointScore
    congr 1
    rw [show ws.sum = ∑ f ∈ Finset.range factors.length, ws.getD f 0 by
      rw [hlen, sum_range_getD ws]]
    refine Finset.sum_congr rfl fun f hf => ?_
    have hf := Finset.mem_range.1 hf
    have hw : f < ws.length := by omega
    have h1 := (List.forall₂_iff_get.1 h).2 f hf hw
    have h2 := hρ.rows f _ (List.getElem?_eq_getElem hf)
    rw [h1.only _ h2.1 h2.2]
    simp [List.getD, List.getElem?_eq_getElem hw]

end PGMax
