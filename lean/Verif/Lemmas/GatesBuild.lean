import Verif.Lemmas.Gates
import Verif.Lemmas.Enums
import Verif.Lemmas.Writes
import Verif.Lemmas.Gmrf
import Verif.Props.C48_C51

/-! # Helper lemmas: the graphs of the programs that test OR and AND factors -/

namespace PGMax

section
variable {κ α : Type}

theorem rows_of_flatten {β : Type _} (L : List (List β)) (b : Nat) (h : ∀ r ∈ L, r.length = b) : rows L.flatten L.length b = L := by
  have hl : L.flatten.length = L.length * b := by
    rw [List.length_flatten, List.map_congr_left h, List.map_const', List.sum_replicate, smul_eq_mul]
  rw [List.eq_iff_flatten_eq]
  refine ⟨rows_flatten _ _ _ hl, ?_⟩
  rw [List.map_congr_left h, List.map_congr_left (rows_length_each _ _ _ hl), List.map_const', List.map_const']
  simp [rows]

/-- The group that wraps the enumeration factor of gate `k`. -/
def gTable [Zero α] (isAnd : Bool) (idP idC : Nat) (idF : Nat → Nat) (ps : List Nat) (k : Nat) : FGroup α :=
  enumGroup (idF k) .single ⟨ps.getD k 0 + 1, gateConfigs isAnd (ps.getD k 0)⟩ [(gScope idP idC ps k, List.replicate (gateConfigs isAnd (ps.getD k 0)).length 0)]

/-- The type of the logical factors. -/
def gType (isAnd : Bool) : FType := if isAnd then .and else .or

/-- The group of the logical factors of the gates in `L`. -/
def lGroup (isAnd : Bool) (idP idC idG : Nat) (ps : List Nat) (L : List Nat) : FGroup α :=
  { objId := idG, ftype := gType isAnd, kind := .logicalGroup, varsForFactors := L.map (gScope idP idC ps), configs := ⟨0, []⟩, logPotentials := [] }

theorem addGateTable_eq [Zero α] (isAnd : Bool) (idP idC : Nat) (idF : Nat → Nat) {ps : List Nat} {k : Nat} (hp : 1 ≤ ps.getD k 0) (fg : FactorGraph κ α) :
    addGateTable isAnd idF fg k (gScope idP idC ps k) (ps.getD k 0) = fg.addAll [.one (gTable isAnd idP idC idF ps k)] := by
  have hr := fun r hr => gateConfigs_row isAnd hp (r := r) hr
  have hrows : rows ((gateConfigs isAnd (ps.getD k 0)).flatten.map (fun (s : Nat) => (s : Int))) (gateConfigs isAnd (ps.getD k 0)).length (ps.getD k 0 + 1) =
      (gateConfigs isAnd (ps.getD k 0)).map (fun r => r.map (fun (s : Nat) => (s : Int))) := by
    rw [List.map_flatten]
    have := rows_of_flatten ((gateConfigs isAnd (ps.getD k 0)).map (fun r => r.map (fun (s : Nat) => (s : Int)))) (ps.getD k 0 + 1) (by
      intro r hr'
      obtain ⟨q, hq, rfl⟩ := List.mem_map.1 hr'
      rw [List.length_map]
      exact (hr q hq).1)
    rwa [List.length_map] at this
  have hall : ((gateConfigs isAnd (ps.getD k 0)).map (fun r => r.map (fun (s : Nat) => (s : Int)))).all
      (fun r => (r.zip (gScope idP idC ps k)).all (fun p => decide (0 ≤ p.1) && decide (p.1 < p.2.n))) = true := by
    rw [List.all_eq_true]
    intro r hr'
    obtain ⟨q, hq, rfl⟩ := List.mem_map.1 hr'
    rw [List.all_eq_true]
    rintro ⟨s, v⟩ hsv
    have hm := List.of_mem_zip hsv
    obtain ⟨s', hs', rfl⟩ := List.mem_map.1 hm.1
    have := (hr q hq).2 s' hs'
    have hn := gScope_n hm.2
    simp only [Bool.and_eq_true, decide_eq_true_eq]
    omega
  have hback : ((gateConfigs isAnd (ps.getD k 0)).map (fun r => r.map (fun (s : Nat) => (s : Int)))).map (·.map Int.toNat) = gateConfigs isAnd (ps.getD k 0) := by
    rw [List.map_map]
    conv_rhs => rw [← List.map_id (gateConfigs isAnd (ps.getD k 0))]
    refine List.map_congr_left fun r _ => ?_
    simp [List.map_map, Function.comp_def]
  have hc : EnumFactor.create (gScope idP idC ps k) ⟨[(gateConfigs isAnd (ps.getD k 0)).length, ps.getD k 0 + 1],
      (gateConfigs isAnd (ps.getD k 0)).flatten.map (fun (s : Nat) => (s : Int))⟩ true
      ⟨[(gateConfigs isAnd (ps.getD k 0)).length], List.replicate (gateConfigs isAnd (ps.getD k 0)).length (0 : α)⟩ true =
      .ok ⟨gScope idP idC ps k, ⟨ps.getD k 0 + 1, gateConfigs isAnd (ps.getD k 0)⟩, List.replicate (gateConfigs isAnd (ps.getD k 0)).length 0⟩ := by
    unfold EnumFactor.create
    simp only [hrows, hall, hback, gScope_length, Bool.not_true, Bool.false_eq_true, if_false, ne_eq, not_true_eq_false, if_true]
    rfl
  unfold addGateTable
  dsimp only
  rw [if_neg (by rw [gateConfigs_length isAnd hp]; simp)]
  unfold addEnumFactor
  rw [hc]
  show fg.addAll _ = _
  simp [gTable, enumGroup, SingleFactorGroup.ofEnum]

/-- The groups of a graph in which the gates `E` are listed and the gates `L` are logical factors. -/
def lGroups [Zero α] (isAnd : Bool) (idP idC : Nat) (idF : Nat → Nat) (idG : Nat) (ps E L : List Nat) : List (FGroup α) :=
  E.map (gTable isAnd idP idC idF ps) ++ (if L = [] then [] else [lGroup isAnd idP idC idG ps L])

/-- The table of configurations of a gate. -/
def gFac [Zero α] (isAnd : Bool) (idP idC : Nat) (ps : List Nat) (k : Nat) : SFac α :=
  ⟨gScope idP idC ps k, (gateConfigs isAnd (ps.getD k 0)).map (fun r => (r, 0))⟩

/-- The logical factor of a gate. -/
def lFac [Zero α] (isAnd : Bool) (idP idC : Nat) (ps : List Nat) (k : Nat) : SFac α :=
  ⟨gScope idP idC ps k, (bits (ps.getD k 0)).map (fun q => (gateRow isAnd q, 0))⟩

theorem lFac_eq [Zero α] (isAnd : Bool) (idP idC : Nat) (ps : List Nat) (k : Nat) :
    (lFac isAnd idP idC ps k : SFac α) = ⟨gScope idP idC ps k, if isAnd then andRows ((gScope idP idC ps k).length - 1) else orRows ((gScope idP idC ps k).length - 1)⟩ := by
  unfold lFac gateRow
  rw [gScope_length, Nat.add_sub_cancel]
  cases isAnd <;> rfl

/-- The sizes within which the program works. -/
structure GateSizes (idP idC : Nat) (idF : Nat → Nat) (idG : Nat) (ps : List Nat) : Prop where
  distinct : idP % 2 ^ 32 ≠ idC % 2 ^ 32
  parents : ps.sum ≤ 1000000000
  children : ps.length ≤ 1000000000
  pos : ∀ k < ps.length, 1 ≤ ps.getD k 0
  ids : ∀ k < ps.length, ∀ l < ps.length, idF k = idF l → k = l
  group : ∀ k < ps.length, idF k ≠ idG

variable {isAnd : Bool} {idP idC : Nat} {idF : Nat → Nat} {idG : Nat} {ps : List Nat}

theorem gScope_set_inj (hs : GateSizes idP idC idF idG ps) {k l : Nat} (hk : k < ps.length) (hl : l < ps.length) (h : (gScope idP idC ps k).toFinset = (gScope idP idC ps l).toFinset) :
    k = l := by
  have hm : rHid idC ps.length k ∈ gScope idP idC ps k := by simp [gScope]
  have hm' : rHid idC ps.length k ∈ gScope idP idC ps l := by
    have : rHid idC ps.length k ∈ (gScope idP idC ps l).toFinset := by rw [← h]; exact List.mem_toFinset.2 hm
    exact List.mem_toFinset.1 this
  obtain ⟨i, hi⟩ := List.getElem?_of_mem hm
  obtain ⟨j, hj⟩ := List.getElem?_of_mem hm'
  exact (gScope_unique hs.distinct hs.parents hs.children hk hl hi hj).1

theorem gType_ne (isAnd : Bool) : gType isAnd ≠ .enum := by cases isAnd <;> decide

theorem lGroups_filter_enum [Zero α] (E L : List Nat) : (lGroups isAnd idP idC idF idG ps E L : List (FGroup α)).filter (fun g => decide (g.ftype = .enum)) =
    E.map (gTable isAnd idP idC idF ps) := by
  unfold lGroups
  rw [List.filter_append, List.filter_eq_self.2 (by
    intro g hg; obtain ⟨k, -, rfl⟩ := List.mem_map.1 hg; simp [gTable, enumGroup])]
  rw [List.filter_eq_nil_iff.2 (by
    intro g hg
    split at hg
    · cases hg
    · rw [List.mem_singleton] at hg
      subst hg
      simp only [lGroup, gType_ne isAnd, decide_false, Bool.false_eq_true, not_false_eq_true]), List.append_nil]

theorem lGroups_filter_type [Zero α] (E L : List Nat) : (lGroups isAnd idP idC idF idG ps E L : List (FGroup α)).filter (fun g => decide (g.ftype = gType isAnd)) =
    if L = [] then [] else [lGroup isAnd idP idC idG ps L] := by
  unfold lGroups
  rw [List.filter_append, List.filter_eq_nil_iff.2 (by
    intro g hg; obtain ⟨k, -, rfl⟩ := List.mem_map.1 hg
    simpa [gTable, enumGroup] using (gType_ne isAnd).symm), List.nil_append, List.filter_eq_self.2 (by
    intro g hg
    split at hg
    · cases hg
    · rw [List.mem_singleton] at hg
      subst hg
      simp [lGroup])]

theorem lGroups_filter_other [Zero α] (E L : List Nat) {t : FType} (h1 : t ≠ .enum) (h2 : t ≠ gType isAnd) :
    (lGroups isAnd idP idC idF idG ps E L : List (FGroup α)).filter (fun g => decide (g.ftype = t)) = [] := by
  rw [List.filter_eq_nil_iff]
  intro g hg
  unfold lGroups at hg
  rw [List.mem_append] at hg
  rcases hg with hg | hg
  · obtain ⟨k, -, rfl⟩ := List.mem_map.1 hg
    simpa [gTable, enumGroup] using h1.symm
  · split at hg
    · cases hg
    · rw [List.mem_singleton] at hg
      subst hg
      simp only [lGroup, h2.symm, decide_false, Bool.false_eq_true, not_false_eq_true]

theorem lGroups_addAll [Zero α] (hs : GateSizes idP idC idF idG ps) {E L : List Nat} (hn : (E ++ L).Nodup) (hlt : ∀ k ∈ E ++ L, k < ps.length) :
    ∃ fg, (FactorGraph.create (rVgs κ idP idC ps.sum ps.length) : FactorGraph κ α).addAll ((lGroups isAnd idP idC idF idG ps E L).map .one) = .ok fg := by
  refine (addAll_create _ _).1 fun t => ?_
  rw [flatList_ones]
  unfold setsOf
  have hnd : ∀ S : List Nat, S.Nodup → (∀ k ∈ S, k < ps.length) → (S.map (fun k => (gScope idP idC ps k).toFinset)).Nodup := by
    intro S h1 h2
    exact h1.map_on fun a ha b hb e => gScope_set_inj hs (h2 a ha) (h2 b hb) e
  have hn' := List.nodup_append.1 hn
  by_cases h1 : t = .enum
  · subst h1
    rw [lGroups_filter_enum]
    have : (E.map (gTable isAnd idP idC idF ps)).flatMap (fun g : FGroup α => g.varsForFactors.map List.toFinset) = E.map (fun k => (gScope idP idC ps k).toFinset) := by
      rw [List.flatMap_map]
      simp [gTable, enumGroup, ← List.map_eq_flatMap]
    rw [this]
    exact hnd E hn'.1 (fun k hk => hlt k (by simp [hk]))
  · by_cases h2 : t = gType isAnd
    · subst h2
      rw [lGroups_filter_type]
      split
      · simp
      · simp only [List.flatMap_cons, List.flatMap_nil, List.append_nil, lGroup, List.map_map]
        exact hnd L hn'.2.1 (fun k hk => hlt k (by simp [hk]))
    · rw [lGroups_filter_other _ _ h1 h2]
      simp

theorem gTable_valid [Zero α] (hs : GateSizes idP idC idF idG ps) {k : Nat} (hk : k < ps.length) :
    (gTable isAnd idP idC idF ps k : FGroup α).Valid (fun v => v ∈ graphVars (rVgs κ idP idC ps.sum ps.length)) := by
  have hr := fun r hr => gateConfigs_row isAnd (hs.pos k hk) (r := r) hr
  refine enumGroup_valid _ _ _ _ (by simp) (by simp) ?_ ?_ ?_ ?_ ?_
  · intro h
    have := congrArg List.length h
    rw [gateConfigs_length isAnd (hs.pos k hk)] at this
    simp at this
  · rintro p hp v hv
    rw [List.mem_singleton] at hp
    subst hp
    exact gScope_mem hk hv
  · intro p hp
    rw [List.mem_singleton] at hp
    subst hp
    exact gScope_length ..
  · intro p hp r hr'
    rw [List.mem_singleton] at hp
    subst hp
    rw [List.forall₂_iff_get]
    refine ⟨by rw [(hr r hr').1]; exact (gScope_length ..).symm, fun i h1 h2 => ?_⟩
    rw [gScope_n (List.get_mem _ _)]
    exact (hr r hr').2 _ (List.get_mem _ _)
  · intro p hp
    rw [List.mem_singleton] at hp
    subst hp
    simp

theorem lGroup_valid (hs : GateSizes idP idC idF idG ps) {L : List Nat} (hL : L ≠ []) (hlt : ∀ k ∈ L, k < ps.length) :
    (lGroup isAnd idP idC idG ps L : FGroup α).Valid (fun v => v ∈ graphVars (rVgs κ idP idC ps.sum ps.length)) where
  ne := by simpa [lGroup] using hL
  vars vs hvs v hv := by
    obtain ⟨k, hk, rfl⟩ := List.mem_map.1 hvs
    exact gScope_mem (hlt k hk) hv
  enumOk h := absurd h (gType_ne isAnd)
  logicalOk _ := by
    refine ⟨rfl, fun vs hvs => ?_⟩
    obtain ⟨k, hk, rfl⟩ := List.mem_map.1 hvs
    exact ⟨by rw [gScope_length]; have := hs.pos k (hlt k hk); omega, fun v hv => gScope_n hv⟩

/-- What the program has made of one graph. -/
structure GateBuilt [Zero α] (isAnd : Bool) (idP idC : Nat) (ps E L : List Nat) (hist : List (AddArg α)) (fg : FactorGraph κ α) (garbage : Garbage) (st : FGState κ α) : Prop where
  graph : graphOf (rVgs κ idP idC ps.sum ps.length) hist = fg
  compiled : Compiled (rVgs κ idP idC ps.sum ps.length) hist garbage st
  factors : fg.factors st.logPotentials = E.map (gFac isAnd idP idC ps) ++ L.map (lFac isAnd idP idC ps)
  parents : fg.numParents = (L.map (fun k => ps.getD k 0)).sum

theorem gate_build [Zero α] (hs : GateSizes idP idC idF idG ps) {E L : List Nat} (hn : (E ++ L).Nodup) (hlt : ∀ k ∈ E ++ L, k < ps.length) (garbage : Garbage) {fg : FactorGraph κ α}
    (h : (FactorGraph.create (rVgs κ idP idC ps.sum ps.length) : FactorGraph κ α).addAll ((lGroups isAnd idP idC idF idG ps E L).map .one) = .ok fg) :
    ∃ st, GateBuilt isAnd idP idC ps E L ((lGroups isAnd idP idC idF idG ps E L).map .one) fg garbage st := by
  have hn' := List.nodup_append.1 hn
  have hE : ∀ k ∈ E, k < ps.length := fun k hk => hlt k (by simp [hk])
  have hL : ∀ k ∈ L, k < ps.length := fun k hk => hlt k (by simp [hk])
  have hvalid : ∀ g ∈ lGroups isAnd idP idC idF idG ps E L, (g : FGroup α).Valid (fun v => v ∈ graphVars (rVgs κ idP idC ps.sum ps.length)) := by
    intro g hg
    unfold lGroups at hg
    rw [List.mem_append] at hg
    rcases hg with hg | hg
    · obtain ⟨k, hk, rfl⟩ := List.mem_map.1 hg
      exact gTable_valid hs (hE k hk)
    · split at hg
      · cases hg
      · rename_i hne
        rw [List.mem_singleton] at hg
        subst hg
        exact lGroup_valid hs hne hL
  have hids : ((lGroups isAnd idP idC idF idG ps E L : List (FGroup α)).map (·.objId)).Nodup := by
    unfold lGroups
    rw [List.map_append, List.nodup_append, List.map_map]
    refine ⟨hn'.1.map_on fun a ha b hb e => hs.ids a (hE a ha) b (hE b hb) e, by split <;> simp, ?_⟩
    intro a ha b hb
    obtain ⟨k, hk, rfl⟩ := List.mem_map.1 ha
    split at hb
    · simp at hb
    · simp only [List.map_cons, List.map_nil, List.mem_singleton] at hb
      subst hb
      exact hs.group k (hE k hk)
  have hle : ∀ t, t ≠ .enum → ((lGroups isAnd idP idC idF idG ps E L : List (FGroup α)).filter (fun g => decide (g.ftype = t))).length ≤ 1 := by
    intro t ht
    by_cases h2 : t = gType isAnd
    · subst h2
      rw [lGroups_filter_type]
      split <;> simp
    · rw [lGroups_filter_other _ _ ht h2]; simp
  obtain ⟨hg, st, hst, hgr, hlp⟩ := compiled_build (rVgs_ok hs.distinct hs.parents hs.children) h (by rw [flatList_ones]; exact hvalid) (by rw [flatList_ones]; exact hids)
    (by rw [flatList_ones]; exact hle _ (by decide)) (by rw [flatList_ones]; exact hle _ (by decide)) garbage
  rw [flatList_ones] at hgr
  have he : fg.groups .enum = E.map (gTable isAnd idP idC idF ps) := by rw [hgr, lGroups_filter_enum]
  have hty : fg.scopesOf (gType isAnd) = L.map (gScope idP idC ps) := by
    unfold FactorGraph.scopesOf
    rw [hgr, lGroups_filter_type]
    split
    · rename_i h0; rw [h0]; rfl
    · simp [lGroup]
  have hot : ∀ t, t ≠ .enum → t ≠ gType isAnd → fg.scopesOf t = [] := by
    intro t h1 h2
    unfold FactorGraph.scopesOf
    rw [hgr, lGroups_filter_other _ _ h1 h2]
    rfl
  have htab : tableFacs fg.tables st.logPotentials = E.map (gFac isAnd idP idC ps) := by
    unfold FactorGraph.tables
    rw [hlp, he, tableFacs_groups _ (by
      intro g hg'
      obtain ⟨k, hk, rfl⟩ := List.mem_map.1 hg'
      exact (gTable_valid (κ := κ) hs (hE k hk)).enumOk rfl), List.flatMap_map]
    have : ∀ k ∈ E, tableFacs ((gTable isAnd idP idC idF ps k : FGroup α).varsForFactors.map (fun vs => (vs, (gTable isAnd idP idC idF ps k : FGroup α).configs)))
        (gTable isAnd idP idC idF ps k : FGroup α).logPotentials = [gFac isAnd idP idC ps k] := by
      intro k hk
      have := enumGroup_facs (idF k) .single ⟨ps.getD k 0 + 1, gateConfigs isAnd (ps.getD k 0)⟩
        [(gScope idP idC ps k, List.replicate (gateConfigs isAnd (ps.getD k 0)).length (0 : α))] (by simp)
      rw [show (gTable isAnd idP idC idF ps k : FGroup α) = _ from rfl]
      refine this.trans ?_
      simp only [List.map_cons, List.map_nil, gFac]
      congr 2
      rw [← List.map_const']
      exact List.map_prod_left_eq_zip.symm
    rw [List.flatMap_congr this, ← List.map_eq_flatMap]
  refine ⟨st, hg, hst, ?_, ?_⟩
  · unfold FactorGraph.factors
    rw [htab]
    cases isAnd with
    | false =>
      rw [show fg.scopesOf .or = _ from hty, hot .and (by decide) (by decide), List.map_map, List.map_nil, List.append_nil]
      congr 1
      exact List.map_congr_left fun k _ => (lFac_eq false idP idC ps k).symm
    | true =>
      rw [show fg.scopesOf .and = _ from hty, hot .or (by decide) (by decide), List.map_map, List.map_nil, List.append_nil]
      congr 1
      exact List.map_congr_left fun k _ => (lFac_eq true idP idC ps k).symm
  · unfold FactorGraph.numParents
    have : ∀ S : List Nat, (S.map (gScope idP idC ps)).map (fun vs => vs.length - 1) = S.map (fun k => ps.getD k 0) := by
      intro S
      rw [List.map_map]
      exact List.map_congr_left fun k _ => by simp [gScope_length]
    cases isAnd with
    | false => rw [show fg.scopesOf .or = _ from hty, hot .and (by decide) (by decide), List.append_nil, this]
    | true => rw [show fg.scopesOf .and = _ from hty, hot .or (by decide) (by decide), List.nil_append, this]

end

end PGMax
