import Verif.Spec.Cache
import Verif.Lemmas.FGraph

/-! Helper lemmas for C12: the memoisation tables. -/

namespace PGMax

variable {κ α : Type _}

/-! ### What has been built -/

/-- The effect of one call on what has been built. -/
def buildStep (bs : List (Built κ α)) : Call κ α → List (Built κ α)
  | .new vgs => bs ++ [⟨vgs, []⟩]
  | .add i a => bs.modify i (fun b => { b with hist := b.hist ++ [a] })
  | _ => bs

theorem builtBy_eq (calls : List (Call κ α)) : builtBy calls = calls.foldl buildStep [] := by
  unfold builtBy
  congr 1

theorem builtBy_snoc (p : List (Call κ α)) (c : Call κ α) : builtBy (p ++ [c]) = buildStep (builtBy p) c := by
  rw [builtBy_eq, builtBy_eq, List.foldl_append]; rfl

theorem buildStep_persist (bs : List (Built κ α)) (c : Call κ α) (i : Nat) (b : Built κ α) (h : bs[i]? = some b) :
    ∃ b', (buildStep bs c)[i]? = some b' ∧ b'.vgs = b.vgs ∧ b.hist <+: b'.hist := by
  have h0 : ∃ b', bs[i]? = some b' ∧ b'.vgs = b.vgs ∧ b.hist <+: b'.hist := ⟨b, h, rfl, List.prefix_refl _⟩
  cases c with
  | new vgs =>
    refine ⟨b, ?_, rfl, List.prefix_refl _⟩
    simp only [buildStep]
    rw [List.getElem?_append_left (by
      by_contra hc
      rw [List.getElem?_eq_none (by omega)] at h
      cases h)]
    exact h
  | add j a =>
    simp only [buildStep, List.getElem?_modify, h, Option.map_eq_map, Option.map_some]
    by_cases hj : j = i
    · exact ⟨{ b with hist := b.hist ++ [a] }, by simp [hj], rfl, List.prefix_append _ _⟩
    · exact ⟨_, by simp [hj], rfl, List.prefix_refl _⟩
  | computeOffsets j => exact h0
  | logPotentials j => exact h0
  | wiring j => exact h0
  | factors j => exact h0
  | fgState j => exact h0
  | bpState j => exact h0

theorem builtBy_persist {p q : List (Call κ α)} (hpq : p <+: q) (i : Nat) (b : Built κ α)
    (h : (builtBy p)[i]? = some b) :
    ∃ b', (builtBy q)[i]? = some b' ∧ b'.vgs = b.vgs ∧ b.hist <+: b'.hist := by
  obtain ⟨r, rfl⟩ := hpq
  induction r using List.reverseRecOn with
  | nil => exact ⟨b, by simpa using h, rfl, List.prefix_refl _⟩
  | append_singleton r c ih =>
    obtain ⟨b1, h1, v1, p1⟩ := ih
    obtain ⟨b2, h2, v2, p2⟩ := buildStep_persist _ c i b1 h1
    rw [← List.append_assoc, builtBy_snoc]
    exact ⟨b2, h2, v2.trans v1, p1.trans p2⟩

theorem occurs_of {p q : List (Call κ α)} (hpq : p <+: q) {i : Nat} {b : Built κ α} (h : (builtBy p)[i]? = some b) :
    Occurs q b := ⟨p, hpq, List.mem_of_getElem? h⟩

/-! ### Graphs with the same contents -/

/-- The graph without the scopes met so far, which no compiled property reads. -/
def FactorGraph.contents (fg : FactorGraph κ α) : FactorGraph κ α := { fg with seen := fun _ => [] }

theorem contents_computeOffsets (fg : FactorGraph κ α) : fg.contents.computeOffsets = fg.computeOffsets := rfl
theorem contents_pots (fg : FactorGraph κ α) : fg.contents.logPotentialsOf = fg.logPotentialsOf := rfl
theorem contents_wiring (garbage : Garbage) (fg : FactorGraph κ α) : fg.contents.wiring garbage = fg.wiring garbage := rfl
theorem contents_fgState (garbage : Garbage) (fg : FactorGraph κ α) : fg.contents.fgState garbage = fg.fgState garbage := rfl

theorem Built.reachable (b : Built κ α) : Reachable b.graph := ⟨b.vgs, b.hist, rfl⟩

theorem graphOf_varGroups (vgs : List (VGroup κ)) (hist : List (AddArg α)) : (graphOf vgs hist).varGroups = vgs := by
  have key : ∀ (hist : List (AddArg α)) (fg : FactorGraph κ α), (fg.addHistory hist).varGroups = fg.varGroups := by
    intro hist
    induction hist with
    | nil => intro fg; rfl
    | cons a hist ih =>
      intro fg
      show ((fg.addFactors a).1.addHistory hist).varGroups = _
      rw [ih]
      refine addFactors_inv (fun fg' => fg'.varGroups = fg.varGroups) ?_ a fg rfl
      intro fg' g h
      cases hr : (fg'.addGroup g).2 with
      | some e => rw [(addGroup_eq_fail fg' g e hr).2]; exact h
      | none => rw [(addGroup_eq_ok fg' g hr).2]; exact h
  exact key hist _

theorem graph_groups_filter (b : Built κ α) (t : FType) :
    b.graph.groups t = (FType.all.flatMap b.graph.groups).filter (fun g => g.ftype = t) := by
  have h := fun u => (b.reachable.scopeInv u).2.2
  have f1 : ∀ u, (b.graph.groups u).filter (fun g => g.ftype = u) = b.graph.groups u := by
    intro u
    rw [List.filter_eq_self]
    intro g hg
    simpa using h u g hg
  have f2 : ∀ u v, u ≠ v → (b.graph.groups u).filter (fun g => g.ftype = v) = [] := by
    intro u v huv
    rw [List.filter_eq_nil_iff]
    intro g hg
    simpa [h u g hg] using huv
  have e := f1 .enum
  have o := f1 .or
  have a := f1 .and
  cases t <;> simp [FType.all, f2, e, o, a]

theorem map_objId_inj {l m : List (FGroup α)} (hinj : ∀ g ∈ l, ∀ h ∈ m, g.objId = h.objId → g = h)
    (h : l.map (·.objId) = m.map (·.objId)) : l = m := by
  induction l generalizing m with
  | nil => cases m with
    | nil => rfl
    | cons a m => simp at h
  | cons a l ih => cases m with
    | nil => simp at h
    | cons c m =>
      simp only [List.map_cons, List.cons.injEq] at h
      rw [hinj a (by simp) c (by simp) h.1, ih (fun g hg k hk => hinj g (by simp [hg]) k (by simp [hk])) h.2]

variable {H : List Nat → Nat} {garbage : Garbage} {full : List (Call κ α)}

theorem Faithful.contents_eq (hF : Faithful H full) {b c : Built κ α} (hb : Occurs full b) (hc : Occurs full c)
    (hk : b.graph.cacheKey H = c.graph.cacheKey H) : b.graph.contents = c.graph.contents := by
  unfold FactorGraph.cacheKey at hk
  obtain ⟨k1, k2⟩ := CacheKey.mk.inj hk
  have i1 := hF.tuples b c hb hc k1
  have e1 : b.vgs = c.vgs := hF.vgroups b c hb hc (by
    unfold Built.vgHashes
    simpa only [Built.graph, graphOf_varGroups] using k2)
  have e2 : FType.all.flatMap b.graph.groups = FType.all.flatMap c.graph.groups := by
    refine map_objId_inj ?_ i1
    intro g hg h hh hid
    obtain ⟨t, -, hg⟩ := List.mem_flatMap.1 hg
    obtain ⟨u, -, hh⟩ := List.mem_flatMap.1 hh
    exact hF.groups b c hb hc t u g hg h hh hid
  have e3 : b.graph.groups = c.graph.groups := by
    funext t
    rw [graph_groups_filter, graph_groups_filter, e2]
  have v1 : b.graph.varGroups = c.graph.varGroups := by
    simp only [Built.graph, graphOf_varGroups, e1]
  obtain ⟨b1, b2⟩ := b.reachable.vars
  obtain ⟨c1, c2⟩ := c.reachable.vars
  have s1 : b.graph.varsToStarts = c.graph.varsToStarts := by rw [b1, c1, v1]
  have s2 : b.graph.numVarStates = c.graph.numVarStates := by rw [b2, c2, v1]
  unfold FactorGraph.contents
  cases hbg : b.graph
  cases hcg : c.graph
  rw [hbg, hcg] at v1 s1 s2 e3
  simp_all

/-! ### Growth -/

theorem addHistory_prefix (hist : List (AddArg α)) (fg : FactorGraph κ α) (t : FType) :
    fg.groups t <+: (fg.addHistory hist).groups t := by
  induction hist generalizing fg with
  | nil => exact List.prefix_refl _
  | cons a hist ih =>
    refine List.IsPrefix.trans ?_ (ih (fg.addFactors a).1)
    refine addFactors_inv (fun fg' => fg.groups t <+: fg'.groups t) ?_ a fg (List.prefix_refl _)
    intro fg' g h
    cases hr : (fg'.addGroup g).2 with
    | some e => rw [(addGroup_eq_fail fg' g e hr).2]; exact h
    | none =>
      rw [(addGroup_eq_ok fg' g hr).2]
      by_cases ht : t = g.ftype
      · subst ht
        simp only [Function.update_self]
        exact h.trans (List.prefix_append _ _)
      · simpa [Function.update_of_ne ht] using h

theorem graph_groups_prefix {b c : Built κ α} (hv : b.vgs = c.vgs) (hh : b.hist <+: c.hist) (t : FType) :
    b.graph.groups t <+: c.graph.groups t := by
  obtain ⟨r, hr⟩ := hh
  unfold Built.graph graphOf
  rw [← hr, hv]
  have : (FactorGraph.create c.vgs : FactorGraph κ α).addHistory (b.hist ++ r) =
      ((FactorGraph.create c.vgs).addHistory b.hist).addHistory r := by
    simp [FactorGraph.addHistory, List.foldl_append]
  rw [this]
  exact addHistory_prefix r _ t

/-- A graph between two moments at which it holds the same ids holds them throughout. -/
theorem ids_between {a b c : Built κ α} (v1 : a.vgs = b.vgs) (h1 : a.hist <+: b.hist) (v2 : b.vgs = c.vgs)
    (h2 : b.hist <+: c.hist) (h : a.ids = c.ids) : b.graph.groups = c.graph.groups := by
  have p1 := fun t => (graph_groups_prefix v1 h1 t).length_le
  have p2 := fun t => graph_groups_prefix v2 h2 t
  have len : a.ids.length = c.ids.length := by rw [h]
  simp only [Built.ids, FType.all, List.flatMap_cons, List.flatMap_nil, List.append_nil, List.map_append,
    List.length_append, List.length_map] at len
  have q := fun t => (p2 t).length_le
  have a1 := p1 .enum; have a2 := p1 .or; have a3 := p1 .and
  have b1 := q .enum; have b2 := q .or; have b3 := q .and
  funext t
  refine (p2 t).eq_of_length ?_
  cases t <;> omega

/-! ### Tables -/

theorem cache_lookup_mem {β : Type _} {l : List (CacheKey × β)} {k : CacheKey} {v : β} (h : l.lookup k = some v) :
    (k, v) ∈ l := by
  induction l with
  | nil => simp at h
  | cons e l ih =>
    obtain ⟨k', v'⟩ := e
    simp only [List.lookup_cons] at h
    by_cases hk : k = k'
    · simp [hk] at h; simp [hk, h]
    · have : (k == k') = false := by simpa using hk
      rw [this] at h
      exact List.mem_cons_of_mem _ (ih h)

theorem cache_lookup_isSome {β : Type _} {l : List (CacheKey × β)} {k : CacheKey} {v : β} (h : (k, v) ∈ l) :
    ∃ v', l.lookup k = some v' := by
  induction l with
  | nil => simp at h
  | cons e l ih =>
    obtain ⟨k', v'⟩ := e
    simp only [List.lookup_cons]
    by_cases hk : k = k'
    · simp [hk]
    · have : (k == k') = false := by simpa using hk
      rw [this]
      simp only [List.mem_cons, Prod.mk.injEq, hk, false_and, false_or] at h
      exact ih h

/-! ### The process -/

/-- The key under which a graph is looked up. -/
def Built.key (H : List Nat → Nat) (b : Built κ α) : CacheKey := b.graph.cacheKey H

theorem Built.key_vgs (b : Built κ α) : (b.key H).vgs = b.vgHashes := by
  simp [Built.key, FactorGraph.cacheKey, Built.graph, graphOf_varGroups, Built.vgHashes]

/-- Every table entry is right for the graph it was made for. -/
structure Base (H : List Nat → Nat) (garbage : Garbage) (full p : List (Call κ α)) (w : World κ α) : Prop where
  graphs : w.graphs.map (·.fg) = (builtBy p).map Built.graph
  pots : ∀ e ∈ w.potsC, ∃ b, Occurs full b ∧ e.1 = b.key H ∧ e.2 = b.graph.logPotentialsOf
  wir : ∀ e ∈ w.wirC, ∃ b, Occurs full b ∧ e.1 = b.key H ∧ b.graph.wiring garbage = .ok e.2
  fg : ∀ e ∈ w.fgC, ∃ b, Occurs full b ∧ e.1 = b.key H ∧ b.graph.fgState garbage = .ok e.2.2
  offs : ∀ k ∈ w.offsC, ∃ q, q <+: p ∧ ∃ (j : Nat) (b : Built κ α), (builtBy q)[j]? = some b ∧ k = b.key H

/-- If `compute_offsets` would do nothing for graph `i`, then `fg_state` has a table entry or the attributes are right. -/
def Ready (H : List Nat → Nat) (w : World κ α) (i : Nat) (b : Built κ α) : Prop :=
  b.key H ∈ w.offsC → (∃ s, (b.key H, s) ∈ w.fgC) ∨
    ∃ o, w.graphs[i]? = some o ∧ o.offs = some b.graph.computeOffsets

theorem Base.get {p : List (Call κ α)} {w : World κ α} (hB : Base H garbage full p w) {i : Nat} {b : Built κ α}
    (hb : (builtBy p)[i]? = some b) : ∃ o, w.graphs[i]? = some o ∧ o.fg = b.graph := by
  have := congrArg (fun l => l[i]?) hB.graphs
  simp only [List.getElem?_map, hb, Option.map_some] at this
  cases h : w.graphs[i]? with
  | none => simp [h] at this
  | some o => exact ⟨o, rfl, by simpa [h] using this⟩

/-- The changes a query on graph `i` may make. -/
structure Eff (H : List Nat → Nat) (w w' : World κ α) (i : Nat) (b : Built κ α) : Prop where
  others : ∀ j, j ≠ i → w'.graphs[j]? = w.graphs[j]?
  offs : ∀ k ∈ w'.offsC, k = b.key H ∨ k ∈ w.offsC
  fg : ∀ e ∈ w.fgC, e ∈ w'.fgC

theorem Eff.refl (w : World κ α) (i : Nat) (b : Built κ α) : Eff H w w i b :=
  ⟨fun _ _ => rfl, fun _ h => Or.inr h, fun _ h => h⟩

theorem Eff.trans {w w' w'' : World κ α} {i : Nat} {b : Built κ α} (h : Eff H w w' i b) (h' : Eff H w' w'' i b) :
    Eff H w w'' i b :=
  ⟨fun j hj => (h'.others j hj).trans (h.others j hj),
    fun k hk => (h'.offs k hk).elim Or.inl (fun hk => h.offs k hk), fun e he => h'.fg e (h.fg e he)⟩

theorem computeOffsets_spec' {p : List (Call κ α)} {w : World κ α} (hB : Base H garbage full p w)
    {i : Nat} {b : Built κ α} (hb : (builtBy p)[i]? = some b) (hR : Ready H w i b) :
    Base H garbage full p (w.computeOffsets H i) ∧ Eff H w (w.computeOffsets H i) i b ∧
    Ready H (w.computeOffsets H i) i b ∧ b.key H ∈ (w.computeOffsets H i).offsC ∧
    (w.computeOffsets H i).fgC = w.fgC := by
  obtain ⟨o, ho, hfg⟩ := hB.get hb
  have hi : i < w.graphs.length := by
    by_contra hc
    rw [List.getElem?_eq_none (by omega)] at ho
    cases ho
  have hk : o.fg.cacheKey H = b.key H := by rw [hfg]; rfl
  unfold World.computeOffsets
  simp only [ho, hk]
  by_cases hmem : b.key H ∈ w.offsC
  · simp only [if_pos hmem]
    exact ⟨hB, Eff.refl _ _ _, hR, hmem, trivial⟩
  · simp only [if_neg hmem]
    refine ⟨⟨?_, hB.pots, hB.wir, hB.fg, ?_⟩, ⟨?_, ?_, fun _ h => h⟩, ?_, by simp, trivial⟩
    · rw [← hB.graphs, List.map_set]
      refine List.ext_getElem? fun j => ?_
      by_cases hj : i = j
      · subst hj
        have hoi : w.graphs[i] = o := by
          rw [List.getElem?_eq_getElem hi] at ho
          exact Option.some.inj ho
        simp [hi, hoi]
      · simp [List.getElem?_set_ne hj]
    · intro k hk
      rcases List.mem_cons.1 hk with rfl | hk
      · exact ⟨p, List.prefix_refl _, i, b, hb, rfl⟩
      · exact hB.offs k hk
    · intro j hj
      simp [List.getElem?_set_ne (Ne.symm hj)]
    · intro k hk
      rcases List.mem_cons.1 hk with rfl | hk
      · exact Or.inl rfl
      · exact Or.inr hk
    · intro _
      exact Or.inr ⟨{ o with offs := some o.fg.computeOffsets }, by simp [hi], by rw [hfg]⟩

theorem logPotentials_spec {p : List (Call κ α)} {w : World κ α} (hF : Faithful H full) (hp : p <+: full)
    (hB : Base H garbage full p w) {i : Nat} {b : Built κ α} (hb : (builtBy p)[i]? = some b) {o : GraphObj κ α}
    (hfg : o.fg = b.graph) :
    Base H garbage full p (w.logPotentials H o).1 ∧ (w.logPotentials H o).2 = b.graph.logPotentialsOf ∧
    (w.logPotentials H o).1.graphs = w.graphs ∧ (w.logPotentials H o).1.offsC = w.offsC ∧
    (w.logPotentials H o).1.fgC = w.fgC := by
  have hk : o.fg.cacheKey H = b.key H := by rw [hfg]; rfl
  unfold World.logPotentials
  rw [hk, hfg]
  cases hl : w.potsC.lookup (b.key H) with
  | some v =>
    obtain ⟨c, hc, e1, e2⟩ := hB.pots _ (cache_lookup_mem hl)
    refine ⟨hB, ?_, rfl, rfl, rfl⟩
    have := hF.contents_eq (occurs_of hp hb) hc e1
    simp only at e2 ⊢
    rw [e2, ← contents_pots c.graph, ← this, contents_pots]
  | none =>
    refine ⟨⟨hB.graphs, ?_, hB.wir, hB.fg, hB.offs⟩, rfl, rfl, rfl, rfl⟩
    intro e he
    rcases List.mem_cons.1 he with rfl | he
    · exact ⟨b, occurs_of hp hb, rfl, rfl⟩
    · exact hB.pots e he

theorem wiring_spec {p : List (Call κ α)} {w : World κ α} (hF : Faithful H full) (hp : p <+: full)
    (hB : Base H garbage full p w) {i : Nat} {b : Built κ α} (hb : (builtBy p)[i]? = some b) {o : GraphObj κ α}
    (hfg : o.fg = b.graph) :
    Base H garbage full p (w.wiring H garbage o).1 ∧ (w.wiring H garbage o).2 = b.graph.wiring garbage ∧
    (w.wiring H garbage o).1.graphs = w.graphs ∧ (w.wiring H garbage o).1.offsC = w.offsC ∧
    (w.wiring H garbage o).1.fgC = w.fgC := by
  have hk : o.fg.cacheKey H = b.key H := by rw [hfg]; rfl
  unfold World.wiring
  rw [hk, hfg]
  cases hl : w.wirC.lookup (b.key H) with
  | some v =>
    obtain ⟨c, hc, e1, e2⟩ := hB.wir _ (cache_lookup_mem hl)
    refine ⟨hB, ?_, rfl, rfl, rfl⟩
    have := hF.contents_eq (occurs_of hp hb) hc e1
    simp only at e2 ⊢
    rw [← e2, ← contents_wiring garbage c.graph, ← this, contents_wiring]
  | none =>
    cases hw : b.graph.wiring garbage with
    | error e => exact ⟨hB, rfl, rfl, rfl, rfl⟩
    | ok x =>
      refine ⟨⟨hB.graphs, hB.pots, ?_, hB.fg, hB.offs⟩, rfl, rfl, rfl, rfl⟩
      intro e he
      rcases List.mem_cons.1 he with rfl | he
      · exact ⟨b, occurs_of hp hb, rfl, hw⟩
      · exact hB.wir e he

theorem Ready.mono {w w' : World κ α} {i : Nat} {b : Built κ α} (h : Ready H w i b) (h1 : w'.graphs = w.graphs)
    (h2 : w'.offsC = w.offsC) (h3 : w'.fgC = w.fgC) : Ready H w' i b := by
  unfold Ready at h ⊢
  rw [h1, h2, h3]
  exact h

theorem fgState_spec {p : List (Call κ α)} {w : World κ α} (hF : Faithful H full) (hp : p <+: full)
    (hB : Base H garbage full p w) {i : Nat} {b : Built κ α} (hb : (builtBy p)[i]? = some b) (hR : Ready H w i b) :
    Base H garbage full p (w.fgState H garbage i).1 ∧ Eff H w (w.fgState H garbage i).1 i b ∧
    Ready H (w.fgState H garbage i).1 i b ∧
    ((∃ e, b.graph.fgState garbage = .error e ∧ (w.fgState H garbage i).2 = .error e) ∨
      ∃ st id, b.graph.fgState garbage = .ok st ∧ (w.fgState H garbage i).2 = .ok (id, st) ∧
        (w.fgState H garbage i).1.fgC.lookup (b.key H) = some (id, st)) := by
  obtain ⟨o, ho, hfg⟩ := hB.get hb
  have hk : o.fg.cacheKey H = b.key H := by rw [hfg]; rfl
  unfold World.fgState
  simp only [ho, hk]
  cases hl : w.fgC.lookup (b.key H) with
  | some v =>
    obtain ⟨id, st⟩ := v
    obtain ⟨c, hc, e1, e2⟩ := hB.fg _ (cache_lookup_mem hl)
    refine ⟨hB, Eff.refl _ _ _, hR, Or.inr ⟨st, id, ?_, rfl, hl⟩⟩
    have := hF.contents_eq (occurs_of hp hb) hc e1
    rw [← contents_fgState, this, contents_fgState]
    exact e2
  | none =>
    have hnone : ∀ s, (b.key H, s) ∉ w.fgC := by
      intro s hs
      obtain ⟨v, hv⟩ := cache_lookup_isSome hs
      rw [hl] at hv
      cases hv
    obtain ⟨B1, E1, R1, M1, F1⟩ := computeOffsets_spec' hB hb hR
    obtain ⟨o1, ho1, hoffs⟩ := (R1 M1).resolve_left (by
      rintro ⟨s, hs⟩
      rw [F1] at hs
      exact hnone s hs)
    obtain ⟨o1', ho1', hfg1⟩ := B1.get hb
    obtain rfl : o1' = o1 := by rw [ho1] at ho1'; exact (Option.some.inj ho1').symm
    have hk1 : o1'.fg.cacheKey H = b.key H := by rw [hfg1]; rfl
    obtain ⟨B2, P2, G2, O2, F2⟩ := logPotentials_spec hF hp B1 hb hfg1
    obtain ⟨B3, W3, G3, O3, F3⟩ := wiring_spec hF hp B2 hb hfg1
    simp only [ho1, hoffs]
    generalize hr : World.wiring H garbage ((w.computeOffsets H i).logPotentials H o1').1 o1' = r at *
    obtain ⟨w3, res⟩ := r
    simp only at B3 W3 G3 O3 F3
    have E3 : Eff H w w3 i b := by
      refine ⟨?_, ?_, ?_⟩
      · intro j hj; rw [G3, G2]; exact E1.others j hj
      · intro k hk; rw [O3, O2] at hk; exact E1.offs k hk
      · intro e he; rw [F3, F2]; exact E1.fg e he
    have R3 : Ready H w3 i b := R1.mono (G3.trans G2) (O3.trans O2) (F3.trans F2)
    cases hw : b.graph.wiring garbage with
    | error e =>
      rw [hw] at W3
      subst W3
      refine ⟨B3, E3, R3, Or.inl ⟨e, ?_, rfl⟩⟩
      unfold FactorGraph.fgState
      rw [hw]; rfl
    | ok x =>
      rw [hw] at W3
      subst W3
      have hst : b.graph.fgState garbage = .ok
          { varGroups := o1'.fg.varGroups, varsToStarts := o1'.fg.varsToStarts
            numVarStates := o1'.fg.numVarStates
            totalFactorNumStates := b.graph.computeOffsets.totalNumStates
            typeToMsgsRange := b.graph.computeOffsets.typeToMsgsRange
            typeToPotsRange := b.graph.computeOffsets.typeToPotsRange
            groupToPotsStart := b.graph.computeOffsets.groupToPotsStart
            logPotentials := FType.all.flatMap ((w.computeOffsets H i).logPotentials H o1').2, wiring := x } := by
        unfold FactorGraph.fgState
        rw [hw, P2, hfg1]; rfl
      refine ⟨⟨B3.graphs, B3.pots, B3.wir, ?_, B3.offs⟩, ⟨E3.others, E3.offs, ?_⟩, ?_, Or.inr ⟨_, w3.fgC.length, hst, rfl, ?_⟩⟩
      · intro e he
        rcases List.mem_cons.1 he with rfl | he
        · exact ⟨b, occurs_of hp hb, hk1, hst⟩
        · exact B3.fg e he
      · intro e he
        exact List.mem_cons_of_mem _ (E3.fg e he)
      · intro _
        exact Or.inl ⟨_, by rw [← hk1]; exact List.mem_cons_self⟩
      · simp [hk1]

/-- A second read finds the first one's entry. -/
theorem fgState_again {p : List (Call κ α)} {w : World κ α} (hB : Base H garbage full p w) {i : Nat} {b : Built κ α}
    (hb : (builtBy p)[i]? = some b) {s : Nat × FGState κ α} (hl : w.fgC.lookup (b.key H) = some s) :
    w.fgState H garbage i = (w, .ok s) := by
  obtain ⟨o, ho, hfg⟩ := hB.get hb
  have hk : o.fg.cacheKey H = b.key H := by rw [hfg]; rfl
  unfold World.fgState
  simp only [ho, hk, hl]

theorem bpState_spec [Field α] [LinearOrder α] {p : List (Call κ α)} {w : World κ α} (hF : Faithful H full)
    (hp : p <+: full)
    (hB : Base H garbage full p w) {i : Nat} {b : Built κ α} (hb : (builtBy p)[i]? = some b) (hR : Ready H w i b) :
    Base H garbage full p (w.bpState H garbage i).1 ∧ Eff H w (w.bpState H garbage i).1 i b ∧
    Ready H (w.bpState H garbage i).1 i b ∧
    ((∃ e, b.graph.fgState garbage = .error e ∧ (w.bpState H garbage i).2 = .error e) ∨
      ∃ st id, b.graph.fgState garbage = .ok st ∧ (w.bpState H garbage i).2 = bpStateOf id st ∧
        (w.bpState H garbage i).1.fgC.lookup (b.key H) = some (id, st)) := by
  obtain ⟨B1, E1, R1, M1, F1⟩ := computeOffsets_spec' hB hb hR
  obtain ⟨B2, E2, R2, h2⟩ := fgState_spec hF hp B1 hb R1
  unfold World.bpState
  generalize hr : World.fgState H garbage (w.computeOffsets H i) i = r at *
  obtain ⟨w1, res⟩ := r
  simp only at B2 E2 R2 h2
  rcases h2 with ⟨e, he, rfl⟩ | ⟨st, id, hst, rfl, hl⟩
  · exact ⟨B2, E1.trans E2, R2, Or.inl ⟨e, he, rfl⟩⟩
  · have hag := fgState_again B2 hb hl
    simp only [LogPotentials.create, FToVMessages.create, Evidence.create, hag]
    exact ⟨B2, E1.trans E2, R2, Or.inr ⟨st, id, hst, rfl, hl⟩⟩

/-- The invariant of the process. -/
structure Inv (H : List Nat → Nat) (garbage : Garbage) (P : List Nat → Prop) (full p : List (Call κ α)) (w : World κ α) :
    Prop where
  base : Base H garbage full p w
  ready : ∀ (i : Nat) (b : Built κ α), (builtBy p)[i]? = some b → Ready H w i b
  shared : ∀ k ∈ w.offsC, ¬ P k.vgs → ∃ s, (k, s) ∈ w.fgC

variable {P : List Nat → Prop}

theorem Disciplined.exclusive (hD : Disciplined garbage P full) {q r : List (Call κ α)} (hq : q <+: full)
    (hr : r <+: full) {i j : Nat} {b c : Built κ α} (hb : (builtBy q)[i]? = some b) (hc : (builtBy r)[j]? = some c)
    (hv : b.vgHashes = c.vgHashes) (hP : P b.vgHashes) : i = j := by
  obtain ⟨b', hb', vb, -⟩ := builtBy_persist hq i b hb
  obtain ⟨c', hc', vc, -⟩ := builtBy_persist hr j c hc
  have e1 : b'.vgHashes = b.vgHashes := by simp [Built.vgHashes, vb]
  have e2 : c'.vgHashes = c.vgHashes := by simp [Built.vgHashes, vc]
  exact hD.1 i j b' c' hb' hc' (by rw [e1, e2, hv]) (by rw [e1]; exact hP)

/-- A query on graph `i` that has the allowed effects keeps the invariant. -/
theorem Inv.of_eff (hD : Disciplined garbage P full) {p : List (Call κ α)} {w w' : World κ α} (hp : p <+: full)
    (hI : Inv H garbage P full p w) {i : Nat} {b : Built κ α} (hb : (builtBy p)[i]? = some b)
    (hB : Base H garbage full p w') (hE : Eff H w w' i b) (hR : Ready H w' i b)
    (hS : ¬ P b.vgHashes → ∃ s, (b.key H, s) ∈ w'.fgC) : Inv H garbage P full p w' := by
  refine ⟨hB, ?_, ?_⟩
  · intro j c hc
    by_cases hj : j = i
    · subst hj
      obtain rfl : b = c := by rw [hb] at hc; exact Option.some.inj hc
      exact hR
    · intro hm
      rcases hE.offs _ hm with hk | hk
      · have hv : c.vgHashes = b.vgHashes := by rw [← Built.key_vgs (H := H), hk, Built.key_vgs]
        by_cases hP : P c.vgHashes
        · exact absurd (hD.exclusive hp hp hc hb hv hP) hj
        · left
          rw [hk]
          exact hS (by rwa [← hv])
      · rcases hI.ready j c hc hk with ⟨s, hs⟩ | ⟨o, ho, h2⟩
        · exact Or.inl ⟨s, hE.fg _ hs⟩
        · exact Or.inr ⟨o, by rw [hE.others j hj]; exact ho, h2⟩
  · intro k hk hP
    rcases hE.offs k hk with rfl | hk
    · exact hS (by rwa [Built.key_vgs] at hP)
    · obtain ⟨s, hs⟩ := hI.shared k hk hP
      exact ⟨s, hE.fg _ hs⟩

theorem Base.none {p : List (Call κ α)} {w : World κ α} (hB : Base H garbage full p w) {i : Nat}
    (hb : (builtBy p)[i]? = none) : w.graphs[i]? = none := by
  have := congrArg (fun l => l[i]?) hB.graphs
  simpa [hb] using this

/-- Queries do not build anything. -/
theorem Inv.snoc {p : List (Call κ α)} {w : World κ α} (c : Call κ α) (hc : builtBy (p ++ [c]) = builtBy p)
    (hI : Inv H garbage P full p w) : Inv H garbage P full (p ++ [c]) w := by
  refine ⟨⟨?_, hI.base.pots, hI.base.wir, hI.base.fg, ?_⟩, ?_, hI.shared⟩
  · rw [hc]; exact hI.base.graphs
  · intro k hk
    obtain ⟨q, hq, r⟩ := hI.base.offs k hk
    exact ⟨q, hq.trans (List.prefix_append _ _), r⟩
  · rw [hc]; exact hI.ready

theorem computeOffsets_congr {a b : FactorGraph κ α} (h : a.groups = b.groups) : a.computeOffsets = b.computeOffsets := by
  unfold FactorGraph.computeOffsets
  congr 1
  funext o t
  unfold FactorGraph.offsetsTypeStep
  rw [h]

theorem inv_exec [Field α] [LinearOrder α] (hF : Faithful H full) (hD : Disciplined garbage P full)
    {p : List (Call κ α)} {w : World κ α} (c : Call κ α) (hp : p ++ [c] <+: full)
    (hI : Inv H garbage P full p w) : Inv H garbage P full (p ++ [c]) (w.exec H garbage c) := by
  have hpp : p <+: full := (List.prefix_append _ _).trans hp
  have hs := builtBy_snoc p c
  cases c with
  | new vgs =>
    simp only [buildStep] at hs
    simp only [World.exec, World.new]
    have hlen : w.graphs.length = (builtBy p).length := by
      have := congrArg List.length hI.base.graphs
      simpa using this
    refine ⟨⟨?_, hI.base.pots, hI.base.wir, hI.base.fg, ?_⟩, ?_, hI.shared⟩
    · rw [hs]
      simp only [List.map_append, List.map_cons, List.map_nil, hI.base.graphs]
      rfl
    · intro k hk
      obtain ⟨q, hq, r⟩ := hI.base.offs k hk
      exact ⟨q, hq.trans (List.prefix_append _ _), r⟩
    · intro i b hb hm
      rw [hs] at hb
      by_cases hi : i < (builtBy p).length
      · rw [List.getElem?_append_left hi] at hb
        rcases hI.ready i b hb hm with h1 | ⟨o, ho, h2⟩
        · exact Or.inl h1
        · refine Or.inr ⟨o, ?_, h2⟩
          simp only
          rw [List.getElem?_append_left (by omega)]
          exact ho
      · obtain ⟨q, hq, j, c, hc, hk⟩ := hI.base.offs _ hm
        by_cases hP : P b.vgHashes
        · exfalso
          have hv : b.vgHashes = c.vgHashes := by
            rw [← Built.key_vgs (H := H), hk, Built.key_vgs]
          have := hD.exclusive hp (hq.trans hpp) (by rw [hs]; exact hb) hc hv hP
          obtain ⟨c', hc', -⟩ := builtBy_persist hq j c hc
          have : j < (builtBy p).length := by
            by_contra hcon
            rw [List.getElem?_eq_none (by omega)] at hc'
            cases hc'
          omega
        · exact Or.inl (hI.shared _ hm (by rwa [Built.key_vgs]))
  | add i a =>
    simp only [buildStep] at hs
    simp only [World.exec, World.add]
    cases hb : (builtBy p)[i]? with
    | none =>
      simp only [hI.base.none hb]
      refine hI.snoc _ ?_
      rw [hs]
      refine List.ext_getElem? fun j => ?_
      rw [List.getElem?_modify]
      by_cases hj : i = j
      · subst hj; simp [hb]
      · simp [hj]
    | some b =>
      obtain ⟨o, ho, hfg⟩ := hI.base.get hb
      have hi : i < w.graphs.length := by
        by_contra hc
        rw [List.getElem?_eq_none (by omega)] at ho
        cases ho
      simp only [ho]
      have hb' : (builtBy (p ++ [.add i a]))[i]? = some { b with hist := b.hist ++ [a] } := by
        rw [hs, List.getElem?_modify, hb]; simp
      have hgr : ({ b with hist := b.hist ++ [a] } : Built κ α).graph = (b.graph.addFactors a).1 := by
        simp [Built.graph, graphOf, FactorGraph.addHistory, List.foldl_append]
      have hother : ∀ j, j ≠ i → (builtBy (p ++ [.add i a]))[j]? = (builtBy p)[j]? := by
        intro j hj
        rw [hs, List.getElem?_modify]
        simp [Ne.symm hj]
      refine ⟨⟨?_, hI.base.pots, hI.base.wir, hI.base.fg, ?_⟩, ?_, hI.shared⟩
      · refine List.ext_getElem? fun j => ?_
        by_cases hj : j = i
        · subst hj
          simp only [List.getElem?_map, hb', Option.map_some, hgr, List.getElem?_set_self hi, hfg]
        · have := congrArg (fun l => l[j]?) hI.base.graphs
          simp only [List.getElem?_map] at this
          simp only [List.getElem?_map, hother j hj, List.getElem?_set_ne (Ne.symm hj), this]
      · intro k hk
        obtain ⟨q, hq, r⟩ := hI.base.offs k hk
        exact ⟨q, hq.trans (List.prefix_append _ _), r⟩
      · intro j c hc hm
        by_cases hj : j = i
        · subst hj
          rw [hb'] at hc
          obtain rfl := Option.some.inj hc
          by_cases hP : P b.vgHashes
          · obtain ⟨q, hq, l, d, hd, hk⟩ := hI.base.offs _ hm
            have hv : b.vgHashes = d.vgHashes := by
              have := congrArg CacheKey.vgs hk
              rw [Built.key_vgs, Built.key_vgs] at this
              exact this
            obtain rfl : j = l := hD.exclusive hpp (hq.trans hpp) hb hd hv hP
            obtain ⟨b1, hb1, v1, h1⟩ := builtBy_persist hq j d hd
            obtain rfl : b = b1 := by rw [hb] at hb1; exact Option.some.inj hb1
            have hids : d.ids = ({ b with hist := b.hist ++ [a] } : Built κ α).ids := by
              refine hF.tuples _ _ (occurs_of (hq.trans hpp) hd) (occurs_of hp hb') ?_
              have := congrArg CacheKey.hash hk
              exact this.symm
            have hg : b.graph.groups = ({ b with hist := b.hist ++ [a] } : Built κ α).graph.groups :=
              ids_between v1.symm h1 rfl (List.prefix_append _ _) hids
            have hkey : ({ b with hist := b.hist ++ [a] } : Built κ α).key H = b.key H := by
              unfold Built.key FactorGraph.cacheKey
              rw [← hg]
              simp [Built.graph, graphOf_varGroups]
            have hoff : ({ b with hist := b.hist ++ [a] } : Built κ α).graph.computeOffsets = b.graph.computeOffsets :=
              computeOffsets_congr hg.symm
            rw [hkey] at hm ⊢
            rw [hoff]
            rcases hI.ready j b hb hm with h1 | ⟨o', ho', h2⟩
            · exact Or.inl h1
            · refine Or.inr ⟨_, List.getElem?_set_self hi, ?_⟩
              rw [ho] at ho'
              obtain rfl := Option.some.inj ho'
              exact h2
          · refine Or.inl (hI.shared _ hm ?_)
            rw [Built.key_vgs]
            exact hP
        · rw [hother j hj] at hc
          rcases hI.ready j c hc hm with h1 | ⟨o', ho', h2⟩
          · exact Or.inl h1
          · exact Or.inr ⟨o', by simp only; rw [List.getElem?_set_ne (Ne.symm hj)]; exact ho', h2⟩
  | computeOffsets i =>
    refine Inv.snoc _ hs ?_
    simp only [World.exec]
    cases hb : (builtBy p)[i]? with
    | none =>
      unfold World.computeOffsets
      simp only [hI.base.none hb]
      exact hI
    | some b =>
      obtain ⟨B1, E1, R1, -⟩ := computeOffsets_spec' hI.base hb (hI.ready i b hb)
      refine hI.of_eff hD hpp hb B1 E1 R1 ?_
      intro hP
      exact absurd rfl (hD.2 p _ hp i b hb hP).1
  | logPotentials i =>
    refine Inv.snoc _ hs ?_
    simp only [World.exec]
    cases hb : (builtBy p)[i]? with
    | none =>
      simp only [hI.base.none hb]
      exact hI
    | some b =>
      obtain ⟨o, ho, hfg⟩ := hI.base.get hb
      simp only [ho]
      obtain ⟨B2, -, G2, O2, F2⟩ := logPotentials_spec hF hpp hI.base hb hfg
      exact ⟨B2, fun j c hc => (hI.ready j c hc).mono G2 O2 F2, by rw [O2, F2]; exact hI.shared⟩
  | wiring i =>
    refine Inv.snoc _ hs ?_
    simp only [World.exec]
    cases hb : (builtBy p)[i]? with
    | none =>
      simp only [hI.base.none hb]
      exact hI
    | some b =>
      obtain ⟨o, ho, hfg⟩ := hI.base.get hb
      simp only [ho]
      obtain ⟨B2, -, G2, O2, F2⟩ := wiring_spec hF hpp hI.base hb hfg
      exact ⟨B2, fun j c hc => (hI.ready j c hc).mono G2 O2 F2, by rw [O2, F2]; exact hI.shared⟩
  | factors i =>
    refine Inv.snoc _ hs ?_
    simp only [World.exec]
    cases hb : (builtBy p)[i]? with
    | none =>
      simp only [hI.base.none hb]
      exact hI
    | some b =>
      obtain ⟨o, ho, hfg⟩ := hI.base.get hb
      simp only [ho]
      unfold World.factors
      split
      · exact hI
      · split
        · exact hI
        · exact ⟨⟨hI.base.graphs, hI.base.pots, hI.base.wir, hI.base.fg, hI.base.offs⟩, hI.ready, hI.shared⟩
  | fgState i =>
    refine Inv.snoc _ hs ?_
    simp only [World.exec]
    cases hb : (builtBy p)[i]? with
    | none =>
      unfold World.fgState
      simp only [hI.base.none hb]
      exact hI
    | some b =>
      obtain ⟨B1, E1, R1, h⟩ := fgState_spec hF hpp hI.base hb (hI.ready i b hb)
      refine hI.of_eff hD hpp hb B1 E1 R1 ?_
      intro hP
      obtain ⟨st, hst⟩ := (hD.2 p _ hp i b hb hP).2 (Or.inl rfl)
      rcases h with ⟨e, he, -⟩ | ⟨st', id, -, -, hl⟩
      · rw [hst] at he; cases he
      · exact ⟨_, cache_lookup_mem hl⟩
  | bpState i =>
    refine Inv.snoc _ hs ?_
    simp only [World.exec]
    cases hb : (builtBy p)[i]? with
    | none =>
      have hn := hI.base.none hb
      unfold World.bpState World.computeOffsets
      simp only [hn]
      unfold World.fgState
      simp only [hn]
      exact hI
    | some b =>
      obtain ⟨B1, E1, R1, h⟩ := bpState_spec hF hpp hI.base hb (hI.ready i b hb)
      refine hI.of_eff hD hpp hb B1 E1 R1 ?_
      intro hP
      obtain ⟨st, hst⟩ := (hD.2 p _ hp i b hb hP).2 (Or.inr rfl)
      rcases h with ⟨e, he, -⟩ | ⟨st', id, -, -, hl⟩
      · rw [hst] at he; cases he
      · exact ⟨_, cache_lookup_mem hl⟩

theorem inv_after [Field α] [LinearOrder α] (hF : Faithful H full) (hD : Disciplined garbage P full)
    (p : List (Call κ α)) (hp : p <+: full) : Inv H garbage P full p (World.after H garbage p) := by
  induction p using List.reverseRecOn with
  | nil =>
    refine ⟨⟨rfl, ?_, ?_, ?_, ?_⟩, ?_, ?_⟩ <;> simp [World.after, World.empty, builtBy]
  | append_singleton p c ih =>
    have := inv_exec hF hD c hp (ih ((List.prefix_append _ _).trans hp))
    simpa [World.after, List.foldl_append] using this

end PGMax
