import Verif.Spec.Order
import Verif.Lemmas.Step
import Verif.Props.C34_C36
import Mathlib.Logic.Equiv.Basic
import Mathlib.Logic.Equiv.Nat

/-! Helper lemmas: belief propagation does not depend on the order of the factors. -/

namespace PGMax

variable {κ α : Type _} {vgs : List (VGroup κ)} {hist hist' : List (AddArg α)} {garbage garbage' : Garbage} {st st' : FGState κ α}

/-! ## Permutations of lists as permutations of positions -/

/-- Extend a permutation of positions to a list with a new head. -/
def consPerm (σ : Equiv.Perm Nat) : Equiv.Perm Nat where
  toFun n := match n with | 0 => 0 | n + 1 => σ n + 1
  invFun n := match n with | 0 => 0 | n + 1 => σ.symm n + 1
  left_inv n := by cases n <;> simp
  right_inv n := by cases n <;> simp

theorem perm_positions {β : Type _} {l l' : List β} (h : l.Perm l') : ∃ σ : Equiv.Perm Nat, ∀ f : Nat, l[f]? = l'[σ f]? := by
  induction h with
  | nil => exact ⟨Equiv.refl _, fun f => rfl⟩
  | cons a _ ih =>
    obtain ⟨σ, hσ⟩ := ih
    refine ⟨consPerm σ, fun f => ?_⟩
    cases f with
    | zero => rfl
    | succ f => simpa [consPerm] using hσ f
  | swap a b l =>
    refine ⟨Equiv.swap 0 1, fun f => ?_⟩
    match f with
    | 0 => simp
    | 1 => simp
    | f + 2 => rw [Equiv.swap_apply_of_ne_of_ne (by omega) (by omega)]; simp
  | trans _ _ ih ih' =>
    obtain ⟨σ, hσ⟩ := ih
    obtain ⟨σ', hσ'⟩ := ih'
    exact ⟨σ.trans σ', fun f => by rw [hσ, hσ']; rfl⟩

theorem lt_of_positions {β γ : Type _} {l : List β} {l' : List γ} {σ : Equiv.Perm Nat} (h : ∀ f : Nat, l[f]?.isSome = l'[σ f]?.isSome) (f : Nat) :
    f < l.length ↔ σ f < l'.length := by
  have := h f
  by_cases h1 : f < l.length <;> by_cases h2 : σ f < l'.length <;> simp [h1, h2] at this ⊢

theorem perm_of_positions {β : Type _} {l l' : List β} {σ : Equiv.Perm Nat} (h : ∀ f : Nat, l[f]? = l'[σ f]?) : l.Perm l' := by
  have hlt := lt_of_positions (l := l) (l' := l') (σ := σ) (fun f => by rw [h f])
  have hp : ((List.range l.length).map σ).Perm (List.range l'.length) := by
    rw [List.perm_ext_iff_of_nodup (List.nodup_range.map σ.injective) List.nodup_range]
    intro p
    rw [List.mem_map, List.mem_range]
    constructor
    · rintro ⟨f, hf, rfl⟩
      exact (hlt f).1 (List.mem_range.1 hf)
    · intro hp
      refine ⟨σ.symm p, List.mem_range.2 ((hlt _).2 (by simpa using hp)), by simp⟩
  have e : ∀ (m : List β), m.map some = (List.range m.length).map (fun f => m[f]?) := by
    intro m
    apply List.ext_getElem?
    intro i
    by_cases hi : i < m.length
    · simp [hi]
    · simp [hi]
  have h2 : (l.map some).Perm (l'.map some) := by
    rw [e l, e l']
    have := hp.map (fun f => l'[f]?)
    rw [List.map_map] at this
    refine List.Perm.trans (List.Perm.of_eq ?_) this
    exact List.map_congr_left fun f _ => h f
  have := h2.filterMap id
  simpa using this

/-! ## The factors of a graph -/

section
variable [Zero α]

theorem load_append (H1 H2 : List Header) (lp ms : List α) :
    load (H1 ++ H2) lp ms = load H1 lp ms ++ load H2 (lp.drop ((H1.map numPots).sum)) (ms.drop ((H1.map numMsgs).sum)) := by
  induction H1 generalizing lp ms with
  | nil => simp [load]
  | cons h H1 ih => simp [load, ih, List.drop_drop]

theorem zip_take_right' {β γ : Type _} (xs : List β) (ys : List γ) (n : Nat) (h : xs.length ≤ n) : xs.zip (ys.take n) = xs.zip ys := by
  induction xs generalizing ys n with
  | nil => simp
  | cons x xs ih =>
    cases n with
    | zero => simp at h
    | succ n =>
      cases ys with
      | nil => simp
      | cons y ys => simp [ih ys n (by simpa using h)]

theorem load_take (H : List Header) (lp ms : List α) (a b : Nat) (ha : (H.map numPots).sum ≤ a) (hb : (H.map numMsgs).sum ≤ b) :
    load H (lp.take a) (ms.take b) = load H lp ms := by
  induction H generalizing lp ms a b with
  | nil => rfl
  | cons h H ih =>
    simp only [List.map_cons, List.sum_cons] at ha hb
    simp only [load]
    rw [List.drop_take, List.drop_take, ih _ _ _ _ (by omega) (by omega), List.take_take, min_eq_left (by omega)]
    congr 3
    obtain ⟨t, vs, cf⟩ := h
    cases t with
    | enum =>
      simp only [Header.fac]
      rw [zip_take_right' _ _ _ (by simp only [numPots] at ha; omega)]
    | or => rfl
    | and => rfl

theorem load_groups (gs : List (FGroup α)) (hp : ∀ g ∈ gs, g.logPotentials.length = (g.headers.map numPots).sum) (lp ms : List α) :
    load (gs.flatMap FGroup.headers) lp ms = (groupBlocks gs lp ms).flatMap (fun b => load b.1.headers b.2.1 b.2.2) := by
  induction gs generalizing lp ms with
  | nil => rfl
  | cons g gs ih =>
    have h1 := hp g (by simp)
    have h2 : g.numEdgeStates = (g.headers.map numMsgs).sum := by
      simp [FGroup.numEdgeStates, FGroup.headers, numMsgs, Function.comp_def]
    simp only [List.flatMap_cons, groupBlocks, load_append]
    rw [load_take _ _ _ _ _ (le_of_eq h1.symm) (le_of_eq h2.symm), ← ih (fun g hg => hp g (by simp [hg])), h1, h2]

theorem load_getElem? (H : List Header) (lp ms : List α) (f : Nat) :
    (load H lp ms)[f]? = H[f]?.map (fun h => (h.1, h.fac (lp.drop (((H.take f).map numPots).sum)),
      (ms.drop (((H.take f).map numMsgs).sum)).take (numMsgs h))) := by
  induction H generalizing lp ms f with
  | nil => simp [load]
  | cons h H ih =>
    cases f with
    | zero => simp [load]
    | succ f => simp [load, ih, List.drop_drop]

theorem Header.fac_scope (h : Header) (lp : List α) : (h.fac lp).scope = h.2.1 := by
  obtain ⟨t, vs, cf⟩ := h
  cases t <;> rfl

theorem load_enum (gs : List (FGroup α)) (hg : ∀ g ∈ gs, g.ftype = .enum) (lp ms : List α) :
    (load (gs.flatMap FGroup.headers) lp ms).map (·.2.1) = tableFacs (gs.flatMap (fun g => g.varsForFactors.map (fun vs => (vs, g.configs)))) lp := by
  have key : ∀ (H : List Header) (lp ms : List α), (∀ h ∈ H, h.1 = .enum) → (load H lp ms).map (·.2.1) = tableFacs (H.map (·.2)) lp := by
    intro H
    induction H with
    | nil => intro lp ms _; rfl
    | cons h H ih =>
      intro lp ms hh
      obtain ⟨t, vs, cf⟩ := h
      have : t = .enum := hh (t, vs, cf) (by simp)
      subst this
      simp only [load, List.map_cons, tableFacs]
      rw [ih _ _ (fun h hm => hh h (by simp [hm]))]
      rfl
  rw [key]
  · congr 1
    rw [List.map_flatMap]
    congr 1
    funext g
    simp [FGroup.headers]
  · intro h hh
    obtain ⟨g, hg', hh⟩ := List.mem_flatMap.1 hh
    obtain ⟨vs, -, rfl⟩ := List.mem_map.1 hh
    exact hg g hg'

theorem load_logical (t : FType) (gs : List (FGroup α)) (hg : ∀ g ∈ gs, g.ftype = t) (F : List Var → SFac α)
    (hF : ∀ vs cf lp, Header.fac (t, vs, cf) lp = F vs) (lp ms : List α) :
    (load (gs.flatMap FGroup.headers) lp ms).map (·.2.1) = (gs.flatMap (·.varsForFactors)).map F := by
  have key : ∀ (H : List Header) (lp ms : List α), (∀ h ∈ H, h.1 = t) → (load H lp ms).map (·.2.1) = H.map (fun h => F h.2.1) := by
    intro H
    induction H with
    | nil => intro lp ms _; rfl
    | cons h H ih =>
      intro lp ms hh
      obtain ⟨t', vs, cf⟩ := h
      have : t' = t := hh (t', vs, cf) (by simp)
      subst this
      simp only [load, List.map_cons]
      rw [ih _ _ (fun h hm => hh h (by simp [hm])), hF]
  rw [key]
  · rw [List.map_flatMap, List.map_flatMap]
    congr 1
    funext g
    simp [FGroup.headers]
  · intro h hh
    obtain ⟨g, hg', hh⟩ := List.mem_flatMap.1 hh
    obtain ⟨vs, -, rfl⟩ := List.mem_map.1 hh
    exact hg g hg'

theorem FactorGraph.loaded_factors (fg : FactorGraph κ α) (hv : fg.Valid) (lp ms : List α) :
    (fg.loaded lp ms).map (·.2.1) = fg.factors lp := by
  unfold FactorGraph.loaded FactorGraph.factors
  simp only [FType.all, List.flatMap_cons, List.flatMap_nil, List.append_nil, List.flatMap_append, load_append, List.map_append]
  rw [load_enum _ (fun g hg => (hv _ g hg).1), load_logical .or _ (fun g hg => (hv _ g hg).1) (fun vs => ⟨vs, orRows (vs.length - 1)⟩) (fun _ _ _ => rfl),
    load_logical .and _ (fun g hg => (hv _ g hg).1) (fun vs => ⟨vs, andRows (vs.length - 1)⟩) (fun _ _ _ => rfl), List.append_assoc]
  rfl

theorem FactorGraph.headers_scopes (fg : FactorGraph κ α) :
    ((FType.all.flatMap fg.groups).flatMap FGroup.headers).map (·.2.1) = fg.allScopes := by
  unfold FactorGraph.allScopes FactorGraph.scopesOf
  rw [List.map_flatMap, List.flatMap_assoc]
  congr 1
  funext t
  congr 1
  funext g
  simp [FGroup.headers, Function.comp_def]

/-- The messages of a factor. -/
theorem FactorGraph.loaded_msgs (fg : FactorGraph κ α) (lp ms : List α) {f i s : Nat} {v : Var} {t : FType} {F : SFac α} {b : List α}
    (hf : (fg.loaded lp ms)[f]? = some (t, F, b)) (he : IsEdge fg.allScopes f i v) (hs : s < v.n) :
    fg.allScopes[f]? = some F.scope ∧ readMsgs fg.allScopes ms f i s = b.getD (((F.scope.take i).map (·.n)).sum + s) 0 := by
  unfold FactorGraph.loaded at hf
  rw [load_getElem?] at hf
  obtain ⟨h, hh, heq⟩ := Option.map_eq_some_iff.1 hf
  simp only [Prod.mk.injEq] at heq
  obtain ⟨-, rfl, rfl⟩ := heq
  have hsc : fg.allScopes[f]? = some h.2.1 := by rw [← fg.headers_scopes, List.getElem?_map, hh]; rfl
  obtain ⟨vs, hvs, hi⟩ := he
  rw [hsc] at hvs
  cases hvs
  rw [Header.fac_scope]
  refine ⟨hsc, ?_⟩
  have hlen := numMsgs h
  have hst : edgeStart fg.allScopes f i = ((((FType.all.flatMap fg.groups).flatMap FGroup.headers).take f).map numMsgs).sum + ((h.2.1.take i).map (·.n)).sum := by
    unfold edgeStart
    rw [getD_of_some hsc, ← fg.headers_scopes, ← List.map_take, List.map_map]
    rfl
  have hlt : ((h.2.1.take i).map (·.n)).sum + s < numMsgs h := by
    have := sum_take_le (h.2.1.map (·.n)) (i + 1)
    rw [List.take_add_one, List.getElem?_map, hi] at this
    simp only [Option.map_some, Option.toList_some, List.sum_append, List.sum_singleton] at this
    unfold numMsgs
    rw [← List.map_take] at this
    omega
  unfold readMsgs
  rw [hst]
  simp only [List.getD]
  rw [List.getElem?_take, if_pos hlt, List.getElem?_drop, Nat.add_assoc]

end

/-! ## Corresponding graphs -/

section
variable [Field α] [LinearOrder α]

/-- The factors of two graphs are the same up to the permutation `σ` of their numbers. -/
structure Matched (fg fg' : FactorGraph κ α) (lp lp' : List α) (σ : Equiv.Perm Nat) : Prop where
  facs : ∀ f : Nat, (fg.factors lp)[f]? = (fg'.factors lp')[σ f]?
  kinds : ∀ f F, (fg.factors lp)[f]? = some F → fg.kind f = fg'.kind (σ f)

/-- Messages of two graphs that correspond. -/
def Corr (scopes : List (List Var)) (σ : Equiv.Perm Nat) (m m' : Msgs α) : Prop :=
  ∀ f i v s, IsEdge scopes f i v → s < v.n → m f i s = m' (σ f) i s

variable {fg fg' : FactorGraph κ α} {lp lp' : List α} {σ : Equiv.Perm Nat}

theorem Matched.scopes (h : Matched fg fg' lp lp' σ) (f : Nat) : fg.allScopes[f]? = fg'.allScopes[σ f]? := by
  rw [← fg.factors_scopes lp, ← fg'.factors_scopes lp', List.getElem?_map, List.getElem?_map, h.facs]

theorem Matched.edge (h : Matched fg fg' lp lp' σ) (f i : Nat) (v : Var) : IsEdge fg.allScopes f i v ↔ IsEdge fg'.allScopes (σ f) i v := by
  unfold IsEdge; rw [h.scopes]

theorem Matched.edges (h : Matched fg fg' lp lp' σ) (v : Var) :
    ((edgesOf fg.allScopes v).map (fun e => (σ e.1, e.2))).Perm (edgesOf fg'.allScopes v) := by
  have hinj : Function.Injective (fun e : Nat × Nat => (σ e.1, e.2)) := by
    rintro ⟨a, b⟩ ⟨c, d⟩ hh
    simp only [Prod.mk.injEq, EmbeddingLike.apply_eq_iff_eq] at hh
    rw [hh.1, hh.2]
  rw [List.perm_ext_iff_of_nodup ((edgesOf_nodup _ _).map hinj) (edgesOf_nodup _ _)]
  rintro ⟨f', i⟩
  rw [List.mem_map, mem_edgesOf]
  constructor
  · rintro ⟨⟨f, j⟩, he, heq⟩
    simp only [Prod.mk.injEq] at heq
    obtain ⟨rfl, rfl⟩ := heq
    exact (h.edge f j v).1 ((mem_edgesOf _ _ _ _).1 he)
  · intro he
    refine ⟨(σ.symm f', i), (mem_edgesOf _ _ _ _).2 ((h.edge _ i v).2 (by rw [Equiv.apply_symm_apply]; exact he)), by simp⟩

theorem Matched.beliefOf (h : Matched fg fg' lp lp' σ) (ev : Var → Nat → α) {m m' : Msgs α} (hm : Corr fg.allScopes σ m m') (v : Var) (s : Nat) (hs : s < v.n) :
    beliefOf fg.allScopes ev m v s = beliefOf fg'.allScopes ev m' v s := by
  unfold PGMax.beliefOf
  rw [← ((h.edges v).map (fun e => m' e.1 e.2 s)).sum_eq, List.map_map]
  congr 2
  apply List.map_congr_left
  rintro ⟨f, i⟩ he
  exact hm f i v s ((mem_edgesOf _ _ _ _).1 he) hs

theorem Matched.varToFac (h : Matched fg fg' lp lp' σ) (ev : Var → Nat → α) {m m' : Msgs α} (hm : Corr fg.allScopes σ m m') (v : Var) (f i s : Nat) (hs : s < v.n) :
    varToFac fg.allScopes ev m v (f, i) s = varToFac fg'.allScopes ev m' v (σ f, i) s := by
  unfold PGMax.varToFac
  rw [← (((h.edges v).filter (fun e' => e' ≠ (σ f, i))).map (fun e => m' e.1 e.2 s)).sum_eq, List.filter_map, List.map_map]
  congr 2
  have : (edgesOf fg.allScopes v).filter ((fun e' => decide (e' ≠ (σ f, i))) ∘ fun e => (σ e.1, e.2)) = (edgesOf fg.allScopes v).filter (fun e' => e' ≠ (f, i)) := by
    apply List.filter_congr
    rintro ⟨a, b⟩ -
    simp
  rw [this]
  apply List.map_congr_left
  rintro ⟨f', i'⟩ he
  exact hm f' i' v s ((mem_edgesOf _ _ _ _).1 (List.mem_filter.1 he).1) hs

theorem Matched.normM (h : Matched fg fg' lp lp' σ) (maxLen : Nat) {m m' : Msgs α} (hm : Corr fg.allScopes σ m m') :
    Corr fg.allScopes σ (normM fg.allScopes maxLen m) (normM fg'.allScopes maxLen m') := by
  intro f i v s he hs
  rw [normM_at he, normM_at ((h.edge f i v).1 he), hm f i v s he hs, segM_congr (fun j hj => hm f i v j he hj)]

theorem Matched.stepM (h : Matched fg fg' lp lp' σ) (hok : ∀ f F, (fg.factors lp)[f]? = some F → FacOk (fg.kind f) F)
    (env : Env α) (T : α) (maxLen : Nat) (ev : Var → Nat → α) (d : α) {m m' : Msgs α} (hm : Corr fg.allScopes σ m m') :
    Corr fg.allScopes σ (stepM env T fg maxLen lp ev d m) (stepM env T fg' maxLen lp' ev d m') := by
  apply h.normM
  intro f i v s he hs
  obtain ⟨F, hF, hi, hsc⟩ := fg.factors_edge lp he
  have hF' := h.facs f
  rw [hF] at hF'
  simp only
  rw [hm f i v s he hs, rawM_at _ _ hF, rawM_at _ _ hF'.symm, ← h.kinds f F hF]
  congr 3
  refine facOut_congr env T (hok f F hF) ?_ i s v hi hs
  intro j w t hj ht
  have he' : IsEdge fg.allScopes f j w := ⟨_, hsc, hj⟩
  rw [vtofM_at he', vtofM_at ((h.edge f j w).1 he')]
  exact h.varToFac ev hm w f j t ht

theorem Matched.iterM (h : Matched fg fg' lp lp' σ) (hok : ∀ f F, (fg.factors lp)[f]? = some F → FacOk (fg.kind f) F)
    (env : Env α) (T : α) (maxLen : Nat) (ev : Var → Nat → α) (d : α) (n : Nat) {m m' : Msgs α} (hm : Corr fg.allScopes σ m m') :
    Corr fg.allScopes σ (iterM (PGMax.stepM env T fg maxLen lp ev d) n m) (iterM (PGMax.stepM env T fg' maxLen lp' ev d) n m') := by
  induction n generalizing m m' with
  | zero => exact hm
  | succ n ih => exact ih (h.stepM hok env T maxLen ev d hm)

/-! ## From lists of factors to corresponding graphs -/

/-- The kind of a factor of type `t`. -/
def kindOf : FType → Option Nat
  | .enum => none
  | .or => some 0
  | .and => some 1

theorem groups_headers_length (gs : List (FGroup α)) : (gs.flatMap FGroup.headers).length = (gs.flatMap (·.varsForFactors)).length := by
  simp [FGroup.headers, List.length_flatMap]

theorem FactorGraph.header_kind (fg : FactorGraph κ α) (hv : fg.Valid) {f : Nat} {h : Header}
    (hf : ((FType.all.flatMap fg.groups).flatMap FGroup.headers)[f]? = some h) : fg.kind f = kindOf h.1 := by
  have hts := Compiled.tables_scopes fg
  have htl : fg.tables.length = (fg.scopesOf .enum).length := by rw [← hts]; simp
  have hty : ∀ t, ∀ h ∈ (fg.groups t).flatMap FGroup.headers, h.1 = t := by
    intro t h hh
    obtain ⟨g, hg, hh⟩ := List.mem_flatMap.1 hh
    obtain ⟨vs, -, rfl⟩ := List.mem_map.1 hh
    exact (hv t g hg).1
  have hl : ∀ t, ((fg.groups t).flatMap FGroup.headers).length = (fg.scopesOf t).length := fun t => groups_headers_length _
  simp only [FType.all, List.flatMap_cons, List.flatMap_nil, List.append_nil, List.flatMap_append] at hf
  unfold FactorGraph.kind FactorGraph.restState
  rw [htl]
  by_cases h1 : f < (fg.scopesOf .enum).length
  · rw [List.getElem?_append_left (by rw [hl]; exact h1)] at hf
    rw [if_pos h1, hty .enum h (List.mem_of_getElem? hf)]; rfl
  · rw [List.getElem?_append_right (by rw [hl]; omega), hl] at hf
    rw [if_neg h1]
    by_cases h2 : f < (fg.scopesOf .enum).length + (fg.scopesOf .or).length
    · rw [List.getElem?_append_left (by rw [hl]; omega)] at hf
      rw [if_pos h2, hty .or h (List.mem_of_getElem? hf)]; rfl
    · rw [List.getElem?_append_right (by rw [hl]; omega)] at hf
      rw [if_neg h2, hty .and h (List.mem_of_getElem? hf)]; rfl

theorem loaded_match (hv : fg.Valid) (hv' : fg'.Valid) {ms ms' : List α} (h : ∀ f : Nat, (fg.loaded lp ms)[f]? = (fg'.loaded lp' ms')[σ f]?) :
    Matched fg fg' lp lp' σ := by
  refine ⟨?_, ?_⟩
  · intro f
    rw [← fg.loaded_factors hv lp ms, ← fg'.loaded_factors hv' lp' ms', List.getElem?_map, List.getElem?_map, h]
  · intro f F hF
    rw [← fg.loaded_factors hv lp ms, List.getElem?_map] at hF
    obtain ⟨⟨t, F', b⟩, hx, -⟩ := Option.map_eq_some_iff.1 hF
    have hx' := hx
    rw [h] at hx'
    unfold FactorGraph.loaded at hx hx'
    rw [load_getElem?] at hx hx'
    obtain ⟨a, ha, hae⟩ := Option.map_eq_some_iff.1 hx
    obtain ⟨c, hc, hce⟩ := Option.map_eq_some_iff.1 hx'
    rw [fg.header_kind hv ha, fg'.header_kind hv' hc]
    simp only [Prod.mk.injEq] at hae hce
    rw [hae.1, hce.1]

theorem loaded_corr {ms ms' : List α} (h : ∀ f : Nat, (fg.loaded lp ms)[f]? = (fg'.loaded lp' ms')[σ f]?) (hM : Matched fg fg' lp lp' σ) :
    Corr fg.allScopes σ (readMsgs fg.allScopes ms) (readMsgs fg'.allScopes ms') := by
  intro f i v s he hs
  have hl : f < (fg.loaded lp ms).length := by
    obtain ⟨vs, h1, -⟩ := he
    have h2 := (List.getElem?_eq_some_iff.1 h1).1
    have h3 := congrArg List.length fg.headers_scopes
    rw [List.length_map] at h3
    by_contra hc
    have := load_getElem? ((FType.all.flatMap fg.groups).flatMap FGroup.headers) lp ms f
    rw [List.getElem?_eq_getElem (show f < ((FType.all.flatMap fg.groups).flatMap FGroup.headers).length by omega), List.getElem?_eq_none (by unfold FactorGraph.loaded at hc; omega)] at this
    cases this
  obtain ⟨⟨t, F, b⟩, hx⟩ : ∃ p, (fg.loaded lp ms)[f]? = some p := ⟨_, List.getElem?_eq_getElem hl⟩
  have hx' := hx
  rw [h] at hx'
  rw [(fg.loaded_msgs lp ms hx he hs).2, (fg'.loaded_msgs lp' ms' hx' ((hM.edge f i v).1 he) hs).2]

/-- Conversely, corresponding messages make the lists of factors correspond. -/
theorem loaded_of_corr {ms ms' ns ns' : List α} (h : ∀ f : Nat, (fg.loaded lp ms)[f]? = (fg'.loaded lp' ms')[σ f]?) (hM : Matched fg fg' lp lp' σ)
    (hn : ns.length = statesOf fg.allScopes) (hn' : ns'.length = statesOf fg'.allScopes)
    (hc : Corr fg.allScopes σ (readMsgs fg.allScopes ns) (readMsgs fg'.allScopes ns')) (f : Nat) :
    (fg.loaded lp ns)[f]? = (fg'.loaded lp' ns')[σ f]? := by
  have hf := h f
  unfold FactorGraph.loaded at hf ⊢
  rw [load_getElem?, load_getElem?] at hf ⊢
  have hst : ∀ (fg : FactorGraph κ α) (f : Nat), ((((FType.all.flatMap fg.groups).flatMap FGroup.headers).take f).map numMsgs).sum = edgeStart fg.allScopes f 0 := by
    intro fg f
    unfold edgeStart
    rw [← fg.headers_scopes, ← List.map_take, List.map_map]
    simp [← List.map_take, Function.comp_def]
    rfl
  have hle : ∀ (fg : FactorGraph κ α) (f : Nat) (h : Header), ((FType.all.flatMap fg.groups).flatMap FGroup.headers)[f]? = some h →
      edgeStart fg.allScopes f 0 + numMsgs h ≤ statesOf fg.allScopes := by
    intro fg f h hh
    rw [← hst]
    have := sum_take_le (((FType.all.flatMap fg.groups).flatMap FGroup.headers).map numMsgs) (f + 1)
    rw [List.take_add_one, List.getElem?_map, hh] at this
    simp only [Option.map_some, Option.toList_some, List.sum_append, List.sum_singleton, ← List.map_take] at this
    refine le_trans this (le_of_eq ?_)
    unfold statesOf
    rw [← fg.headers_scopes, List.map_map]
    rfl
  cases ha : ((FType.all.flatMap fg.groups).flatMap FGroup.headers)[f]? with
  | none =>
    rw [ha] at hf
    cases hb : ((FType.all.flatMap fg'.groups).flatMap FGroup.headers)[σ f]? with
    | none => rfl
    | some b => rw [hb] at hf; cases hf
  | some a =>
    rw [ha] at hf
    cases hb : ((FType.all.flatMap fg'.groups).flatMap FGroup.headers)[σ f]? with
    | none => rw [hb] at hf; cases hf
    | some b =>
      rw [hb] at hf
      simp only [Option.map_some, Option.some.injEq, Prod.mk.injEq] at hf ⊢
      refine ⟨hf.1, hf.2.1, ?_⟩
      have hsc : a.2.1 = b.2.1 := (Header.fac_scope a _).symm.trans ((congrArg SFac.scope hf.2.1).trans (Header.fac_scope b _))
      have hnm : numMsgs a = numMsgs b := by unfold numMsgs; rw [hsc]
      have hsa : fg.allScopes[f]? = some a.2.1 := by rw [← fg.headers_scopes, List.getElem?_map, ha]; rfl
      have hsb : fg'.allScopes[σ f]? = some a.2.1 := by rw [← fg'.headers_scopes, List.getElem?_map, hb, hsc]; rfl
      have hla := hle fg f a ha
      have hlb := hle fg' (σ f) b hb
      rw [hst, hst, ← hnm]
      apply List.ext_getElem?
      intro k
      by_cases hk : k < numMsgs a
      · rw [List.getElem?_take, if_pos hk, List.getElem?_take, if_pos hk, List.getElem?_drop, List.getElem?_drop]
        obtain ⟨f0, i, vs, v, s, h1, h2, h3, rfl⟩ := exists_edgeStart [a.2.1] k (by simpa [statesOf, numMsgs] using hk)
        cases f0 with
        | succ f0 => simp at h1
        | zero =>
          simp only [List.getElem?_cons_zero, Option.some.injEq] at h1
          subst h1
          have e1 : edgeStart fg.allScopes f 0 + (edgeStart [a.2.1] 0 i + s) = edgeStart fg.allScopes f i + s := by
            simp [edgeStart, List.getD, hsa, Nat.add_assoc]
          have e2 : edgeStart fg'.allScopes (σ f) 0 + (edgeStart [a.2.1] 0 i + s) = edgeStart fg'.allScopes (σ f) i + s := by
            simp [edgeStart, List.getD, hsb, Nat.add_assoc]
          rw [e1, e2, read_at hn ⟨_, hsa, h2⟩ h3, read_at hn' ⟨_, hsb, h2⟩ h3, hc f i v s ⟨_, hsa, h2⟩ h3]
      · rw [List.getElem?_take, if_neg hk, List.getElem?_take, if_neg hk]

theorem Matched.scopes_perm (h : Matched fg fg' lp lp' σ) : fg.allScopes.Perm fg'.allScopes := perm_of_positions h.scopes

theorem Matched.segFits (h : Matched fg fg' lp lp' σ) {env : Env α} (hs : SegFits env fg) : SegFits env fg' := by
  rcases hs with hs | hs
  · exact .inl hs
  · right
    intro f i v he
    rw [← (h.scopes_perm.map (fun vs => (vs.map (·.n)).sum)).sum_eq]
    refine hs (σ.symm f) i v ((h.edge _ i v).2 ?_)
    rw [Equiv.apply_symm_apply]; exact he

/-- The number of parents of a factor. -/
def parentsOf (p : FType × SFac α × List α) : Nat :=
  match p.1 with
  | .enum => 0
  | .or => p.2.1.scope.length - 1
  | .and => p.2.1.scope.length - 1

theorem FactorGraph.loaded_parents (fg : FactorGraph κ α) (hv : fg.Valid) (lp ms : List α) : ((fg.loaded lp ms).map parentsOf).sum = fg.numParents := by
  have key : ∀ (H : List Header) (lp ms : List α), (load H lp ms).map parentsOf =
      H.map (fun h => match h.1 with | .enum => 0 | .or => h.2.1.length - 1 | .and => h.2.1.length - 1) := by
    intro H
    induction H with
    | nil => intro _ _; rfl
    | cons h H ih =>
      intro lp ms
      simp only [load, List.map_cons, ih]
      congr 1
      unfold parentsOf
      obtain ⟨t, vs, cf⟩ := h
      cases t <;> rfl
  have hty : ∀ t, ∀ h ∈ (fg.groups t).flatMap FGroup.headers, h.1 = t := by
    intro t h hh
    obtain ⟨g, hg, hh⟩ := List.mem_flatMap.1 hh
    obtain ⟨vs, -, rfl⟩ := List.mem_map.1 hh
    exact (hv t g hg).1
  have hsc : ∀ t, ((fg.groups t).flatMap FGroup.headers).map (·.2.1) = fg.scopesOf t := by
    intro t
    unfold FactorGraph.scopesOf
    rw [List.map_flatMap]
    congr 1
    funext g
    simp [FGroup.headers, Function.comp_def]
  unfold FactorGraph.loaded
  rw [key]
  simp only [FType.all, List.flatMap_cons, List.flatMap_nil, List.append_nil, List.flatMap_append, List.map_append, List.sum_append]
  unfold FactorGraph.numParents
  rw [List.map_append, List.sum_append, ← hsc .or, ← hsc .and, List.map_map, List.map_map]
  have e1 : ((fg.groups .enum).flatMap FGroup.headers).map (fun h => match h.1 with | .enum => 0 | .or => h.2.1.length - 1 | .and => h.2.1.length - 1)
      = ((fg.groups .enum).flatMap FGroup.headers).map (fun _ => 0) := by
    apply List.map_congr_left; intro h hh; rw [hty _ h hh]
  have e2 : ((fg.groups .or).flatMap FGroup.headers).map (fun h => match h.1 with | .enum => 0 | .or => h.2.1.length - 1 | .and => h.2.1.length - 1)
      = ((fg.groups .or).flatMap FGroup.headers).map ((fun vs => vs.length - 1) ∘ fun x => x.2.1) := by
    apply List.map_congr_left; intro h hh; rw [hty _ h hh]; rfl
  have e3 : ((fg.groups .and).flatMap FGroup.headers).map (fun h => match h.1 with | .enum => 0 | .or => h.2.1.length - 1 | .and => h.2.1.length - 1)
      = ((fg.groups .and).flatMap FGroup.headers).map ((fun vs => vs.length - 1) ∘ fun x => x.2.1) := by
    apply List.map_congr_left; intro h hh; rw [hty _ h hh]; rfl
  rw [e1, e2, e3]
  simp

/-- Valid groups have as many log potentials as their factors need. -/
theorem FGroup.Valid.numPots {known : Var → Prop} {g : FGroup α} (h : g.Valid known) : g.logPotentials.length = (g.headers.map numPots).sum := by
  cases ht : g.ftype with
  | enum =>
    rw [(h.enumOk ht).pots]
    simp [FGroup.headers, Function.comp_def, PGMax.numPots, ht]
  | or =>
    rw [(h.logicalOk (by rw [ht]; decide)).1]
    simp [FGroup.headers, Function.comp_def, PGMax.numPots, ht]
  | and =>
    rw [(h.logicalOk (by rw [ht]; decide)).1]
    simp [FGroup.headers, Function.comp_def, PGMax.numPots, ht]

end

end PGMax
