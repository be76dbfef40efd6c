import Verif.Spec.Factors
import Verif.Spec.Cache
import Verif.Lemmas.Cache
import Verif.Lemmas.Factors
import Verif.Props.C12
import Verif.Lemmas.Example5

/-! # C61: `FactorGraph.factors` lists the factors that inference uses, and is never stale -/

namespace PGMax

variable {κ α : Type _}

/-! ### Lists of factors -/

theorem zip_append_of_le {β γ : Type _} (l : List β) (x y : List γ) (h : l.length ≤ x.length) : l.zip (x ++ y) = l.zip x := by
  induction l generalizing x with
  | nil => rfl
  | cons a l ih => cases x with
    | nil => simp at h
    | cons b x => simp [ih x (by simpa using h)]

theorem zip_take {β γ : Type _} (l : List β) (x : List γ) : l.zip (x.take l.length) = l.zip x := by
  induction l generalizing x with
  | nil => rfl
  | cons a l ih => cases x with
    | nil => rfl
    | cons b x => simp [ih x]

theorem tableFacs_append (L M : List (List Var × Configs)) (x y : List α) (hx : x.length = (L.map (fun t => t.2.rows.length)).sum) :
    tableFacs (L ++ M) (x ++ y) = tableFacs L x ++ tableFacs M y := by
  induction L generalizing x with
  | nil =>
    have : x = [] := List.eq_nil_of_length_eq_zero (by simpa using hx)
    simp [this, tableFacs]
  | cons t L ih =>
    obtain ⟨vs, cf⟩ := t
    simp only [List.map_cons, List.sum_cons] at hx
    rw [List.cons_append, tableFacs, tableFacs, List.cons_append, List.drop_append_of_le_length (by omega), ih (x.drop cf.rows.length) (by simp; omega)]
    congr 2
    exact zip_append_of_le _ _ _ (by omega)

theorem FGroup.enum_factors {g : FGroup α} (ht : g.ftype = .enum) (hok : EnumTableOk g) (hnd : (g.varsForFactors.map List.toFinset).Nodup) :
    g.factors = .ok (g.enumFactors.map (fun t => .enum ⟨t.1, t.2.1, t.2.2⟩)) := by
  unfold FGroup.factors
  rw [variablesToFactors_eq g _ (fun ii vs h => (buildFactor_enum ht hok.width hok.inRange ii vs h).trans (by
    rw [show vs = g.varsForFactors.getD ii [] by simp [List.getD, h]])) hnd]
  simp [Except.map, FGroup.enumFactors]

theorem FGroup.logical_factors {g : FGroup α} (isAnd : Bool) (ht : g.ftype = if isAnd then .and else .or) (hok : ∀ vs ∈ g.varsForFactors, LogicalScope vs)
    (hnd : (g.varsForFactors.map List.toFinset).Nodup) : g.factors = .ok (g.varsForFactors.map (fun vs => .logical ⟨vs, isAnd⟩)) := by
  unfold FGroup.factors
  rw [variablesToFactors_eq g (fun ii => .logical ⟨g.varsForFactors.getD ii [], isAnd⟩)
    (fun ii vs h => (buildFactor_logical isAnd ht ii vs (hok vs (List.mem_of_getElem? h))).trans (by
      rw [show vs = g.varsForFactors.getD ii [] by simp [List.getD, h]])) hnd]
  simp only [Except.map, List.map_map, Function.comp_def]
  congr 1
  refine List.ext_getElem? fun i => ?_
  simp only [List.getElem?_map]
  by_cases hi : i < g.varsForFactors.length
  · rw [List.getElem?_range hi]; simp [List.getD, List.getElem?_eq_getElem hi]
  · rw [List.getElem?_eq_none (by simpa using hi), List.getElem?_eq_none (by simpa using hi)]; rfl

theorem FGroup.enum_describes [Zero α] (g : FGroup α) :
    (g.enumFactors.map (fun t => (.enum ⟨t.1, t.2.1, t.2.2⟩ : AnyFactor α))).map AnyFactor.describes
      = tableFacs (g.varsForFactors.map (fun vs => (vs, g.configs))) g.logPotentials := by
  refine List.ext_getElem? fun i => ?_
  rw [tableFacs_getElem?]
  by_cases hi : i < g.varsForFactors.length
  · simp only [FGroup.enumFactors, List.map_map, List.getElem?_map, List.getElem?_range hi, Option.map_some, Function.comp_def,
      List.getElem?_eq_getElem hi, AnyFactor.describes, List.getD, Option.getD_some]
    congr 2
    have hc : cfgStart (g.varsForFactors.map (fun vs => (vs, g.configs))) i = i * g.configs.rows.length := by
      unfold cfgStart
      rw [← List.map_take, List.map_map]
      simp [Function.comp_def, Nat.min_eq_left hi.le]
    rw [hc, ← zip_take g.configs.rows (g.logPotentials.drop _)]
    congr 1
    unfold slice
    rw [List.drop_take]
    congr 1
    omega
  · rw [List.getElem?_eq_none (by simpa [FGroup.enumFactors] using hi), List.getElem?_eq_none (by simpa using hi)]
    rfl

theorem mapM_factors {gs : List (FGroup α)} (F : FGroup α → List (AnyFactor α)) (h : ∀ g ∈ gs, g.factors = .ok (F g)) :
    gs.mapM FGroup.factors = .ok (gs.map F) := mapM_ok _ _ _ h

theorem groups_enum_describes [Zero α] (gs : List (FGroup α)) (hok : ∀ g ∈ gs, EnumTableOk g) :
    (gs.flatMap (fun g => g.enumFactors.map (fun t => (.enum ⟨t.1, t.2.1, t.2.2⟩ : AnyFactor α)))).map AnyFactor.describes
      = tableFacs (gs.flatMap (fun g => g.varsForFactors.map (fun vs => (vs, g.configs)))) (gs.flatMap (·.logPotentials)) := by
  induction gs with
  | nil => rfl
  | cons g gs ih =>
    simp only [List.flatMap_cons, List.map_append]
    rw [tableFacs_append, ih (fun g hg => hok g (by simp [hg])), FGroup.enum_describes]
    rw [(hok g (by simp)).pots, List.map_map]
    simp [Function.comp_def]

/-! ### The property -/

/-- **C61.** For a graph of valid groups `FactorGraph.factors` returns, whether or not the graph compiles, one entry for
each factor type in the order of the types, whose factors are of that type.  Together the listed factors are exactly those of
the model that inference uses: same order, same variables, same valid configurations, same log potentials. -/
theorem C61 [Zero α] (vgs : List (VGroup κ)) (hist : List (AddArg α))
    (hvalid : ∀ a ∈ hist, ∀ g ∈ a.flat, g.Valid (fun v => ((FactorGraph.create vgs : FactorGraph κ α).varsToStarts v).isSome)) :
    ∃ fe fo fa : List (AnyFactor α), (graphOf vgs hist).allFactors = .ok [(.enum, fe), (.or, fo), (.and, fa)] ∧
      (∀ f ∈ fe, f.typeOf = .enum) ∧ (∀ f ∈ fo, f.typeOf = .or) ∧ (∀ f ∈ fa, f.typeOf = .and) ∧
      (fe ++ fo ++ fa).map AnyFactor.describes
        = (graphOf vgs hist).factors (FType.all.flatMap (graphOf vgs hist).logPotentialsOf) := by
  have hV : (graphOf vgs hist).Valid := addHistory_valid vgs hist hvalid
  have hnd : ∀ t, ∀ g ∈ (graphOf vgs hist).groups t, (g.varsForFactors.map List.toFinset).Nodup := by
    intro t g hg
    have h := (C09_no_duplicates vgs hist).1 t
    unfold FactorGraph.scopeSets at h
    exact (List.nodup_flatMap.1 h).1 g hg
  generalize graphOf vgs hist = fg at *
  have he : (fg.groups .enum).mapM FGroup.factors = .ok ((fg.groups .enum).map (fun g => g.enumFactors.map (fun t => .enum ⟨t.1, t.2.1, t.2.2⟩))) :=
    mapM_factors _ fun g hg => FGroup.enum_factors (hV .enum g hg).1 ((hV .enum g hg).2.enumOk (hV .enum g hg).1) (hnd .enum g hg)
  have hl : ∀ isAnd : Bool, (fg.groups (if isAnd then .and else .or)).mapM FGroup.factors
      = .ok ((fg.groups (if isAnd then .and else .or)).map (fun g => g.varsForFactors.map (fun vs => .logical ⟨vs, isAnd⟩))) := by
    intro isAnd
    refine mapM_factors _ fun g hg => ?_
    have hv := hV _ g hg
    exact FGroup.logical_factors isAnd hv.1 (hv.2.logicalOk (by rw [hv.1]; cases isAnd <;> simp)).2 (hnd _ g hg)
  have ho := hl false
  have ha := hl true
  simp only [Bool.false_eq_true, if_false, if_true] at ho ha
  refine ⟨((fg.groups .enum).map (fun g => g.enumFactors.map (fun t => .enum ⟨t.1, t.2.1, t.2.2⟩))).flatten,
    ((fg.groups .or).map (fun g => g.varsForFactors.map (fun vs => .logical ⟨vs, false⟩))).flatten,
    ((fg.groups .and).map (fun g => g.varsForFactors.map (fun vs => .logical ⟨vs, true⟩))).flatten, ?_, ?_, ?_, ?_, ?_⟩
  · unfold FactorGraph.allFactors FType.all
    simp only [List.mapM_cons, List.mapM_nil, he, ho, ha, Except.map, bind, Except.bind, pure, Except.pure]
  · intro f hf
    simp only [List.mem_flatten, List.mem_map] at hf
    obtain ⟨_, ⟨g, -, rfl⟩, hf⟩ := hf
    obtain ⟨t, -, rfl⟩ := List.mem_map.1 hf
    rfl
  · intro f hf
    simp only [List.mem_flatten, List.mem_map] at hf
    obtain ⟨_, ⟨g, -, rfl⟩, hf⟩ := hf
    obtain ⟨t, -, rfl⟩ := List.mem_map.1 hf
    rfl
  · intro f hf
    simp only [List.mem_flatten, List.mem_map] at hf
    obtain ⟨_, ⟨g, -, rfl⟩, hf⟩ := hf
    obtain ⟨t, -, rfl⟩ := List.mem_map.1 hf
    rfl
  · have hp : FType.all.flatMap fg.logPotentialsOf = (fg.groups .enum).flatMap (·.logPotentials) := by
      have z : ∀ t, t ≠ .enum → fg.logPotentialsOf t = [] := by
        intro t ht
        unfold FactorGraph.logPotentialsOf
        rw [List.flatMap_eq_nil_iff]
        intro g hg
        exact ((hV t g hg).2.logicalOk (by rw [(hV t g hg).1]; exact ht)).1
      simp only [FType.all, List.flatMap_cons, List.flatMap_nil, z .or (by simp), z .and (by simp), List.append_nil]
      rfl
    rw [hp]
    unfold FactorGraph.factors FactorGraph.tables FactorGraph.scopesOf
    rw [List.map_append, List.map_append, ← List.flatMap_def, groups_enum_describes _ (fun g hg => (hV .enum g hg).2.enumOk (hV .enum g hg).1)]
    simp only [List.map_flatten, List.map_map, Function.comp_def, AnyFactor.describes, ← List.flatMap_def, List.map_flatMap]
    simp

/-- **C61, compiled.** When the graph compiles, the listed factors are those whose log potentials are in the compiled state. -/
theorem C61_compiled [Zero α] {vgs : List (VGroup κ)} {hist : List (AddArg α)} {garbage : Garbage} {st : FGState κ α}
    (h : Compiled vgs hist garbage st) :
    ∃ l, (graphOf vgs hist).allFactors = .ok l ∧ (l.flatMap (·.2)).map AnyFactor.describes = (graphOf vgs hist).factors st.logPotentials := by
  obtain ⟨fe, fo, fa, e, -, -, -, hd⟩ := C61 vgs hist h.valid
  refine ⟨_, e, ?_⟩
  rw [h.st_eq]
  simpa using hd

/-! ### Caching -/

/-- Every entry of the tables of `log_potentials`, `wiring` and `factors` is right for the graph it was made for. -/
structure CacheOk (H : List Nat → Nat) (garbage : Garbage) (full p : List (Call κ α)) (w : World κ α) : Prop where
  graphs : w.graphs.map (·.fg) = (builtBy p).map Built.graph
  pots : ∀ e ∈ w.potsC, ∃ b, Occurs full b ∧ e.1 = b.key H ∧ e.2 = b.graph.logPotentialsOf
  wir : ∀ e ∈ w.wirC, ∃ b, Occurs full b ∧ e.1 = b.key H ∧ b.graph.wiring garbage = .ok e.2
  fac : ∀ e ∈ w.facC, ∃ b, Occurs full b ∧ e.1 = b.key H ∧ b.graph.allFactors = .ok e.2

variable {H : List Nat → Nat} {garbage : Garbage} {full p : List (Call κ α)} {w : World κ α}

theorem CacheOk.get (hB : CacheOk H garbage full p w) {i : Nat} {o : GraphObj κ α} (ho : w.graphs[i]? = some o) :
    ∃ b, (builtBy p)[i]? = some b ∧ o.fg = b.graph := by
  have := congrArg (fun l => l[i]?) hB.graphs
  simp only [List.getElem?_map, ho, Option.map_some] at this
  cases h : (builtBy p)[i]? with
  | none => simp [h] at this
  | some b => exact ⟨b, rfl, by simpa [h] using this⟩

theorem CacheOk.get' (hB : CacheOk H garbage full p w) {i : Nat} {b : Built κ α} (hb : (builtBy p)[i]? = some b) :
    ∃ o, w.graphs[i]? = some o ∧ o.fg = b.graph := by
  have := congrArg (fun l => l[i]?) hB.graphs
  simp only [List.getElem?_map, hb, Option.map_some] at this
  cases h : w.graphs[i]? with
  | none => simp [h] at this
  | some o => exact ⟨o, rfl, by simpa [h] using this⟩

theorem CacheOk.computeOffsets (hB : CacheOk H garbage full p w) (i : Nat) : CacheOk H garbage full p (w.computeOffsets H i) := by
  unfold World.computeOffsets
  cases ho : w.graphs[i]? with
  | none => exact hB
  | some o =>
    simp only
    split
    · exact hB
    · refine ⟨?_, hB.pots, hB.wir, hB.fac⟩
      rw [← hB.graphs, List.map_set]
      obtain ⟨hi, ho⟩ := List.getElem?_eq_some_iff.1 ho
      refine List.ext_getElem? fun j => ?_
      by_cases hj : i = j
      · subst hj; simp [hi, ho]
      · simp [List.getElem?_set_ne hj]

theorem CacheOk.logPotentials (hB : CacheOk H garbage full p w) (hF : Faithful H full) (hp : p <+: full) {i : Nat} {b : Built κ α}
    (hb : (builtBy p)[i]? = some b) {o : GraphObj κ α} (hfg : o.fg = b.graph) :
    CacheOk H garbage full p (w.logPotentials H o).1 ∧ (w.logPotentials H o).2 = b.graph.logPotentialsOf := by
  have hk : o.fg.cacheKey H = b.key H := by rw [hfg]; rfl
  unfold World.logPotentials
  rw [hk, hfg]
  cases hl : w.potsC.lookup (b.key H) with
  | some v =>
    obtain ⟨c, hc, e1, e2⟩ := hB.pots _ (cache_lookup_mem hl)
    refine ⟨hB, ?_⟩
    have := hF.contents_eq (occurs_of hp hb) hc e1
    simp only at e2 ⊢
    rw [e2, ← contents_pots c.graph, ← this, contents_pots]
  | none =>
    refine ⟨⟨hB.graphs, ?_, hB.wir, hB.fac⟩, rfl⟩
    intro e he
    rcases List.mem_cons.1 he with rfl | he
    · exact ⟨b, occurs_of hp hb, rfl, rfl⟩
    · exact hB.pots e he

theorem CacheOk.wiring (hB : CacheOk H garbage full p w) (hF : Faithful H full) (hp : p <+: full) {i : Nat} {b : Built κ α}
    (hb : (builtBy p)[i]? = some b) {o : GraphObj κ α} (hfg : o.fg = b.graph) :
    CacheOk H garbage full p (w.wiring H garbage o).1 ∧ (w.wiring H garbage o).2 = b.graph.wiring garbage := by
  have hk : o.fg.cacheKey H = b.key H := by rw [hfg]; rfl
  unfold World.wiring
  rw [hk, hfg]
  cases hl : w.wirC.lookup (b.key H) with
  | some v =>
    obtain ⟨c, hc, e1, e2⟩ := hB.wir _ (cache_lookup_mem hl)
    refine ⟨hB, ?_⟩
    have := hF.contents_eq (occurs_of hp hb) hc e1
    simp only at e2 ⊢
    rw [← e2, ← contents_wiring garbage c.graph, ← this, contents_wiring]
  | none =>
    cases hw : b.graph.wiring garbage with
    | error e => exact ⟨hB, rfl⟩
    | ok x =>
      refine ⟨⟨hB.graphs, hB.pots, ?_, hB.fac⟩, rfl⟩
      intro e he
      rcases List.mem_cons.1 he with rfl | he
      · exact ⟨b, occurs_of hp hb, rfl, hw⟩
      · exact hB.wir e he

theorem contents_allFactors (fg : FactorGraph κ α) : fg.contents.allFactors = fg.allFactors := rfl

theorem CacheOk.factors (hB : CacheOk H garbage full p w) (hF : Faithful H full) (hp : p <+: full) {i : Nat} {b : Built κ α}
    (hb : (builtBy p)[i]? = some b) {o : GraphObj κ α} (hfg : o.fg = b.graph) :
    CacheOk H garbage full p (w.factors H o).1 ∧ (w.factors H o).2 = b.graph.allFactors := by
  have hk : o.fg.cacheKey H = b.key H := by rw [hfg]; rfl
  unfold World.factors
  rw [hk, hfg]
  cases hl : w.facC.lookup (b.key H) with
  | some v =>
    obtain ⟨c, hc, e1, e2⟩ := hB.fac _ (cache_lookup_mem hl)
    refine ⟨hB, ?_⟩
    have := hF.contents_eq (occurs_of hp hb) hc e1
    simp only at e2 ⊢
    rw [← e2, ← contents_allFactors c.graph, ← this, contents_allFactors]
  | none =>
    cases hw : b.graph.allFactors with
    | error e => exact ⟨hB, rfl⟩
    | ok x =>
      refine ⟨⟨hB.graphs, hB.pots, hB.wir, ?_⟩, rfl⟩
      intro e he
      rcases List.mem_cons.1 he with rfl | he
      · exact ⟨b, occurs_of hp hb, rfl, hw⟩
      · exact hB.fac e he

theorem CacheOk.fgState (hB : CacheOk H garbage full p w) (hF : Faithful H full) (hp : p <+: full) (i : Nat) :
    CacheOk H garbage full p (w.fgState H garbage i).1 := by
  unfold World.fgState
  cases ho : w.graphs[i]? with
  | none => exact hB
  | some o =>
    simp only
    cases hl : w.fgC.lookup (o.fg.cacheKey H) with
    | some s => exact hB
    | none =>
      simp only
      have h1 := hB.computeOffsets i
      cases ho1 : (w.computeOffsets H i).graphs[i]? with
      | none => exact h1
      | some o1 =>
        obtain ⟨b, hb, hfg⟩ := h1.get ho1
        have h2 := (h1.logPotentials hF hp hb hfg).1
        have h3 := (h2.wiring hF hp hb hfg).1
        simp only
        cases o1.offs with
        | none => exact h2
        | some off =>
          simp only
          generalize World.wiring H garbage ((w.computeOffsets H i).logPotentials H o1).1 o1 = r at *
          obtain ⟨w3, res⟩ := r
          cases res with
          | error e => exact h3
          | ok x => exact ⟨h3.graphs, h3.pots, h3.wir, h3.fac⟩

variable [Field α] [LinearOrder α]

theorem CacheOk.bpState (hB : CacheOk H garbage full p w) (hF : Faithful H full) (hp : p <+: full) (i : Nat) :
    CacheOk H garbage full p (w.bpState H garbage i).1 := by
  have h1 := (hB.computeOffsets i).fgState hF hp i
  unfold World.bpState
  generalize World.fgState H garbage (w.computeOffsets H i) i = r1 at *
  obtain ⟨w1, r1⟩ := r1
  cases r1 with
  | error e => exact h1
  | ok s1 =>
    have h2 := h1.fgState hF hp i
    simp only [LogPotentials.create]
    generalize World.fgState H garbage w1 i = r2 at *
    obtain ⟨w2, r2⟩ := r2
    cases r2 with
    | error e => exact h2
    | ok s2 =>
      have h3 := h2.fgState hF hp i
      simp only [FToVMessages.create]
      generalize World.fgState H garbage w2 i = r3 at *
      obtain ⟨w3, r3⟩ := r3
      cases r3 with
      | error e => exact h3
      | ok s3 => simpa only [Evidence.create] using h3

theorem CacheOk.after (hF : Faithful H full) (p : List (Call κ α)) (hp : p <+: full) :
    CacheOk H garbage full p (World.after H garbage p) := by
  induction p using List.reverseRecOn with
  | nil => exact ⟨rfl, by simp [World.after, World.empty], by simp [World.after, World.empty], by simp [World.after, World.empty]⟩
  | append_singleton p c ih =>
    have hp' : p <+: full := (List.prefix_append _ _).trans hp
    have hI := ih hp'
    have e : World.after H garbage (p ++ [c]) = (World.after H garbage p).exec H garbage c := by
      simp [World.after, List.foldl_append]
    rw [e]
    generalize World.after H garbage p = w at *
    have same : ∀ {w' : World κ α}, builtBy (p ++ [c]) = builtBy p → CacheOk H garbage full p w' → CacheOk H garbage full (p ++ [c]) w' :=
      fun hb h => ⟨by rw [hb]; exact h.graphs, h.pots, h.wir, h.fac⟩
    have hs := builtBy_snoc p c
    cases c with
    | new vgs => exact ⟨by rw [hs]; simp [buildStep, World.exec, World.new, hI.graphs, Built.graph, graphOf, FactorGraph.addHistory], hI.pots, hI.wir, hI.fac⟩
    | add i a =>
      simp only [World.exec, World.add]
      cases ho : w.graphs[i]? with
      | none =>
        have hn : (builtBy p).length ≤ i := by
          have := congrArg List.length hI.graphs
          simp only [List.length_map] at this
          rw [← this]
          exact List.getElem?_eq_none_iff.1 ho
        refine same ?_ hI
        rw [hs]
        refine List.ext_getElem? fun j => ?_
        simp only [buildStep, List.getElem?_modify]
        by_cases hj : i = j
        · subst hj; simp [List.getElem?_eq_none hn]
        · simp [hj]
      | some o =>
        obtain ⟨b, hb, hfg⟩ := hI.get ho
        refine ⟨?_, hI.pots, hI.wir, hI.fac⟩
        have hg := hI.graphs
        rw [hs]
        refine List.ext_getElem? fun j => ?_
        have hgj := congrArg (fun l => l[j]?) hg
        simp only [List.getElem?_map] at hgj
        simp only [buildStep, List.getElem?_map, List.getElem?_modify]
        by_cases hj : i = j
        · subst hj
          obtain ⟨hi, -⟩ := List.getElem?_eq_some_iff.1 ho
          simp [hi, hb, hfg, Built.graph, graphOf, FactorGraph.addHistory, List.foldl_append]
        · simp [List.getElem?_set_ne hj, hgj, hj]
    | computeOffsets i => exact same hs (hI.computeOffsets i)
    | logPotentials i =>
      refine same hs ?_
      simp only [World.exec]
      cases ho : w.graphs[i]? with
      | none => exact hI
      | some o => obtain ⟨b, hb, hfg⟩ := hI.get ho; exact (hI.logPotentials hF hp' hb hfg).1
    | wiring i =>
      refine same hs ?_
      simp only [World.exec]
      cases ho : w.graphs[i]? with
      | none => exact hI
      | some o => obtain ⟨b, hb, hfg⟩ := hI.get ho; exact (hI.wiring hF hp' hb hfg).1
    | factors i =>
      refine same hs ?_
      simp only [World.exec]
      cases ho : w.graphs[i]? with
      | none => exact hI
      | some o => obtain ⟨b, hb, hfg⟩ := hI.get ho; exact (hI.factors hF hp' hb hfg).1
    | fgState i => exact same hs (hI.fgState hF hp' i)
    | bpState i => exact same hs (hI.bpState hF hp' i)

/-- **C61, never stale.** Whatever was called before, on this graph or on any other of the process, the memoised properties
`factors`, `log_potentials` and `wiring` return what computing them from scratch for the present graph returns — unlike
`compute_offsets`, `fg_state` and `bp_state`, no discipline is needed (compare `C12_refuted_stale`). -/
theorem C61_fresh (H : List Nat → Nat) (garbage : Garbage) (calls : List (Call κ α)) (hF : Faithful H calls) (i : Nat) (b : Built κ α)
    (hb : (builtBy calls)[i]? = some b) :
    ∃ o, (World.after H garbage calls).graphs[i]? = some o ∧
      ((World.after H garbage calls).factors H o).2 = b.graph.allFactors ∧
      ((World.after H garbage calls).logPotentials H o).2 = b.graph.logPotentialsOf ∧
      ((World.after H garbage calls).wiring H garbage o).2 = b.graph.wiring garbage := by
  have hI := CacheOk.after (garbage := garbage) hF calls (List.prefix_refl _)
  obtain ⟨o, ho, hfg⟩ := hI.get' hb
  exact ⟨o, ho, (hI.factors hF (List.prefix_refl _) hb hfg).2, (hI.logPotentials hF (List.prefix_refl _) hb hfg).2,
    (hI.wiring hF (List.prefix_refl _) hb hfg).2⟩

/-! ### Examples -/

/-- The calls of `C12_refuted_stale`, with reads of `factors` in between. -/
def exCalls6 : List (Call Nat ℚ) := [.new exVars, .new exVars, .add 1 (.one exG1), .factors 1, .fgState 1, .add 1 (.one exG2),
  .add 0 (.one exG1), .factors 0, .add 0 (.one exG2), .computeOffsets 0, .fgState 1]

theorem exCalls6_faithful : Faithful exH exCalls6 := by
  refine faithful_of_exBuilt _ fun b hb => ?_
  rw [occurs_iff] at hb
  simp [exCalls6, builtBy] at hb
  have : b = ⟨exVars, []⟩ ∨ b = ⟨exVars, [.one exG1]⟩ ∨ b = ⟨exVars, [.one exG1, .one exG2]⟩ := by tauto
  rcases this with rfl | rfl | rfl <;> simp [exBuilt]

/-- Non-vacuity of `C61_fresh`: two graphs share variables and groups, the table holds an entry for an older version of both graphs, and
`compute_offsets` has been used so that `fg_state` is stale; `factors` lists both factors nevertheless. -/
example : Faithful exH exCalls6 ∧ (builtBy exCalls6)[1]? = some ⟨exVars, [.one exG1, .one exG2]⟩ ∧
    (World.after exH 0 exCalls6).facC.length = 1 ∧
    ((World.after exH 0 exCalls6).fgState exH 0 1).2.map (·.2.totalFactorNumStates) = .ok 4 ∧
    (Built.graph ⟨exVars, [.one exG1, .one exG2]⟩ : FactorGraph Nat ℚ).allFactors.map (·.map (fun p => p.2.length)) = .ok [2, 0, 0] :=
  ⟨exCalls6_faithful, rfl, rfl, rfl, by decide +kernel⟩

/-- Non-vacuity of `C61`: an enumeration and an OR factor. -/
example : (∀ a ∈ exHist5, ∀ g ∈ a.flat, g.Valid (fun v => ((FactorGraph.create exVars5 : FactorGraph Nat ℚ).varsToStarts v).isSome)) ∧
    ∃ fe fo, (graphOf exVars5 exHist5).allFactors = .ok [(.enum, [fe]), (.or, [fo]), (.and, [])] ∧
      fe.describes = ⟨[exVar5 0, exVar5 1], [([0, 0], 0), ([0, 1], 0), ([1, 1], 0)]⟩ ∧
      fo.describes = ⟨[exVar5 1, exVar5 2, exVar5 3], [([0, 0, 0], 0), ([1, 0, 1], 0), ([0, 1, 1], 0), ([1, 1, 1], 0)]⟩ :=
  ⟨exState5_compiled.valid, _, _, rfl, rfl, rfl⟩

end PGMax
