import Verif.Spec.Reparam
import Verif.Props.C64

/-! # C82: bounds for the best score, and how good decoded states are, on graphs with loops -/

namespace PGMax

/-- Whatever the messages and the shares, the score of a joint assignment is the sum of the beliefs of its states that are left for the variables, and of the reweighted factors. -/
theorem jointScore_reweighted {α : Type _} [Field α] {factors : List (SFac α)} {vars : Finset Var} (hvars : ∀ F ∈ factors, ∀ v ∈ F.scope, v ∈ vars) (ev : Var → Nat → α) (m : Msgs α)
    (w : Nat → Nat → α) {x : Var → Nat} {ρ : Nat → List Nat × α} (hJ : Joint vars factors x ρ) :
    jointScore vars factors ev x ρ = ∑ v ∈ vars, shareLeft (factors.map (·.scope)) w v * beliefOf (factors.map (·.scope)) ev m v (x v)
      + ∑ f ∈ Finset.range factors.length, reweighted m (beliefOf (factors.map (·.scope)) ev m) w f (factors.getD f ⟨[], []⟩).scope (ρ f) := by
  have hvars' : ∀ vs ∈ factors.map (·.scope), ∀ v ∈ vs, v ∈ vars := by
    intro vs hvs v hv
    obtain ⟨F, hF, rfl⟩ := List.mem_map.1 hvs
    exact hvars F hF v hv
  set B := beliefOf (factors.map (·.scope)) ev m with hB
  have h1 : ∑ v ∈ vars, shareLeft (factors.map (·.scope)) w v * B v (x v) = ∑ v ∈ vars, ev v (x v) -
      ∑ v ∈ vars, ((edgesOf (factors.map (·.scope)) v).map (fun e => w e.1 e.2 * B v (x v) - m e.1 e.2 (x v))).sum := by
    rw [← Finset.sum_sub_distrib]
    refine Finset.sum_congr rfl fun v _ => ?_
    have e1 : ((edgesOf (factors.map (·.scope)) v).map (fun e => w e.1 e.2 * B v (x v) - m e.1 e.2 (x v))).sum =
        ((edgesOf (factors.map (·.scope)) v).map (fun e => w e.1 e.2)).sum * B v (x v) - ((edgesOf (factors.map (·.scope)) v).map (fun e => m e.1 e.2 (x v))).sum := by
      induction edgesOf (factors.map (·.scope)) v with
      | nil => simp
      | cons e l ih =>
        simp only [List.map_cons, List.sum_cons, ih]
        ring
    have e2 : B v (x v) = ev v (x v) + ((edgesOf (factors.map (·.scope)) v).map (fun e => m e.1 e.2 (x v))).sum := rfl
    rw [e1]
    unfold shareLeft
    linear_combination e2
  have h2 : ∑ f ∈ Finset.range factors.length, reweighted m B w f (factors.getD f ⟨[], []⟩).scope (ρ f) =
      ∑ f ∈ Finset.range factors.length, (ρ f).2 + ∑ v ∈ vars, ((edgesOf (factors.map (·.scope)) v).map (fun e => w e.1 e.2 * B v (x v) - m e.1 e.2 (x v))).sum := by
    rw [sum_by_factors _ vars hvars' (fun f i v => w f i * B v (x v) - m f i (x v)), List.length_map, ← Finset.sum_add_distrib]
    refine Finset.sum_congr rfl fun f hf => ?_
    unfold reweighted
    congr 1
    obtain ⟨F, hF⟩ : ∃ F, factors[f]? = some F := ⟨_, List.getElem?_eq_getElem (Finset.mem_range.1 hf)⟩
    have e1 : factors.getD f ⟨[], []⟩ = F := by rw [List.getD, hF]; rfl
    have e2 : (factors.map (·.scope)).getD f [] = F.scope := by rw [List.getD, List.getElem?_map, hF]; rfl
    rw [e1, e2]
    refine Finset.sum_congr rfl fun i hi => ?_
    have hi := Finset.mem_range.1 hi
    rw [(hJ.rows f F hF).2, List.getD_eq_getElem _ _ hi, List.getD, List.getElem?_map, List.getElem?_eq_getElem hi]
    rfl
  rw [h1, h2]
  unfold jointScore
  ring

section
variable {κ α : Type _} [Field α] [LinearOrder α] [IsStrictOrderedRing α] {vgs : List (VGroup κ)} {hist : List (AddArg α)} {garbage : Garbage} {st : FGState κ α}

theorem Compiled.factors_vars (h : Compiled vgs hist garbage st) (lp : List α) : ∀ F ∈ (graphOf vgs hist).factors lp, ∀ v ∈ F.scope, v ∈ graphVars vgs := by
  intro F hF v hv
  obtain ⟨s, hs⟩ := h.scopeVars F.scope (by rw [← (graphOf vgs hist).factors_scopes lp]; exact List.mem_map.2 ⟨F, hF, rfl⟩) v hv
  obtain ⟨i, hi, -⟩ := (h.starts_iff v s).1 hs
  exact List.mem_toFinset.2 (List.mem_of_getElem? hi)

/-- **C82, the bound.** For all graphs, log potentials, evidence, messages and shares that leave nothing negative: no joint assignment has a larger score than the largest beliefs of all variables,
as far as left, and the largest values of all reweighted factors together. -/
theorem C82_bound (h : Compiled vgs hist garbage st) {state : BPState α} {T : α} {bp : BPFun κ α} (hbp : BP.create st state T = .ok bp) (a : BPArrays α)
    (hm : a.ftovMsgs.length = st.totalFactorNumStates) (hev : a.evidence.length = st.numVarStates) (w : Nat → Nat → α) (hw : ∀ v ∈ graphVars vgs, 0 ≤ shareLeft (graphOf vgs hist).allScopes w v) (U : Var → α)
    (hU : ∀ v start, st.varsToStarts v = some start → ∀ s < v.n, (bp.flatBeliefs a).getD (start + s) 0 ≤ U v) (V : Nat → α)
    (hV : ∀ f F, ((graphOf vgs hist).factors a.logPotentials)[f]? = some F → ∀ r ∈ F.rows,
      reweighted (readMsgs (graphOf vgs hist).allScopes a.ftovMsgs) (beliefOf (graphOf vgs hist).allScopes (readEv st.varsToStarts a.evidence) (readMsgs (graphOf vgs hist).allScopes a.ftovMsgs)) w f F.scope r ≤ V f)
    (x : Var → Nat) (ρ : Nat → List Nat × α) (hJ : Joint (graphVars vgs) ((graphOf vgs hist).factors a.logPotentials) x ρ) :
    jointScore (graphVars vgs) ((graphOf vgs hist).factors a.logPotentials) (readEv st.varsToStarts a.evidence) x ρ ≤
      ∑ v ∈ graphVars vgs, shareLeft (graphOf vgs hist).allScopes w v * U v + ∑ f ∈ Finset.range (graphOf vgs hist).allScopes.length, V f := by
  have hsc := (graphOf vgs hist).factors_scopes a.logPotentials
  have hlen : ((graphOf vgs hist).factors a.logPotentials).length = (graphOf vgs hist).allScopes.length := by rw [← hsc, List.length_map]
  rw [jointScore_reweighted (h.factors_vars _) _ (readMsgs (graphOf vgs hist).allScopes a.ftovMsgs) w hJ, hsc, hlen]
  refine add_le_add (Finset.sum_le_sum fun v hv => ?_) (Finset.sum_le_sum fun f hf => ?_)
  · obtain ⟨i, hi⟩ := List.mem_iff_getElem?.1 (List.mem_toFinset.1 hv)
    obtain ⟨start, hs⟩ : ∃ start, st.varsToStarts v = some start := ⟨_, (h.starts_iff v _).2 ⟨i, hi, rfl⟩⟩
    have := C34_flat h hbp a hm hev v start hs (x v) (hJ.states v hv)
    have h2 := hU v start hs (x v) (hJ.states v hv)
    rw [List.getD, this] at h2
    exact mul_le_mul_of_nonneg_left h2 (hw v hv)
  · have hf : f < ((graphOf vgs hist).factors a.logPotentials).length := by rw [hlen]; exact Finset.mem_range.1 hf
    have e := List.getElem?_eq_getElem hf
    rw [List.getD, e]
    exact hV f _ e _ (hJ.rows f _ e).1

/-- **C82, the gap.** For all graphs, log potentials, evidence, messages and shares that leave nothing negative: let `x` be states of largest belief, which satisfy all factors. If for every factor `f`
the reweighted value of the configuration of `x` is at most `ε f` less than that of any other configuration, then the score of `x` is at most the sum of all `ε f` less than the best score. -/
theorem C82_gap (h : Compiled vgs hist garbage st) (a : BPArrays α) (w : Nat → Nat → α) (hw : ∀ v ∈ graphVars vgs, 0 ≤ shareLeft (graphOf vgs hist).allScopes w v)
    {x : Var → Nat} {ρ : Nat → List Nat × α} (hJ : Joint (graphVars vgs) ((graphOf vgs hist).factors a.logPotentials) x ρ)
    (hx : ∀ v ∈ graphVars vgs, ∀ s < v.n,
      beliefOf (graphOf vgs hist).allScopes (readEv st.varsToStarts a.evidence) (readMsgs (graphOf vgs hist).allScopes a.ftovMsgs) v s ≤
        beliefOf (graphOf vgs hist).allScopes (readEv st.varsToStarts a.evidence) (readMsgs (graphOf vgs hist).allScopes a.ftovMsgs) v (x v)) (ε : Nat → α)
    (hε : ∀ f F, ((graphOf vgs hist).factors a.logPotentials)[f]? = some F → ∀ r ∈ F.rows,
      reweighted (readMsgs (graphOf vgs hist).allScopes a.ftovMsgs) (beliefOf (graphOf vgs hist).allScopes (readEv st.varsToStarts a.evidence) (readMsgs (graphOf vgs hist).allScopes a.ftovMsgs)) w f F.scope r ≤
        reweighted (readMsgs (graphOf vgs hist).allScopes a.ftovMsgs) (beliefOf (graphOf vgs hist).allScopes (readEv st.varsToStarts a.evidence) (readMsgs (graphOf vgs hist).allScopes a.ftovMsgs)) w f F.scope (ρ f) + ε f)
    (x' : Var → Nat) (ρ' : Nat → List Nat × α) (hJ' : Joint (graphVars vgs) ((graphOf vgs hist).factors a.logPotentials) x' ρ') :
    jointScore (graphVars vgs) ((graphOf vgs hist).factors a.logPotentials) (readEv st.varsToStarts a.evidence) x' ρ' ≤
      jointScore (graphVars vgs) ((graphOf vgs hist).factors a.logPotentials) (readEv st.varsToStarts a.evidence) x ρ +
        ∑ f ∈ Finset.range (graphOf vgs hist).allScopes.length, ε f := by
  have hsc := (graphOf vgs hist).factors_scopes a.logPotentials
  have hlen : ((graphOf vgs hist).factors a.logPotentials).length = (graphOf vgs hist).allScopes.length := by rw [← hsc, List.length_map]
  have hvars := h.factors_vars a.logPotentials
  rw [jointScore_reweighted hvars _ (readMsgs (graphOf vgs hist).allScopes a.ftovMsgs) w hJ, jointScore_reweighted hvars _ (readMsgs (graphOf vgs hist).allScopes a.ftovMsgs) w hJ', hsc, hlen, add_assoc,
    ← Finset.sum_add_distrib]
  refine add_le_add (Finset.sum_le_sum fun v hv => mul_le_mul_of_nonneg_left (hx v hv _ (hJ'.states v hv)) (hw v hv)) (Finset.sum_le_sum fun f hf => ?_)
  have hf : f < ((graphOf vgs hist).factors a.logPotentials).length := by rw [hlen]; exact Finset.mem_range.1 hf
  have e := List.getElem?_eq_getElem hf
  rw [List.getD, e]
  exact hε f _ e _ (hJ'.rows f _ e).1

/-- **C82, the certificate.** For all graphs, log potentials, evidence and messages, at any temperature, there are states `x` that are decoded, and if for some shares that leave nothing negative the
configurations of `x` have the largest reweighted values, for every factor, then `x` is a MAP assignment. -/
theorem C82 [DecidableEq κ] (h : Compiled vgs hist garbage st) {state : BPState α} {T : α} {bp : BPFun κ α} (hbp : BP.create st state T = .ok bp) (a : BPArrays α)
    (hm : a.ftovMsgs.length = st.totalFactorNumStates) (hev : a.evidence.length = st.numVarStates) (hreg : ∀ g ∈ vgs, g.Regular) (hst : ∀ g ∈ vgs, g.Stated) :
    ∃ bs rs x, bp.getBeliefs a = .ok bs ∧ decodeMapStates bs = .ok rs ∧ rs.map (·.1) = vgs ∧ (∀ p ∈ rs, ∀ v ∈ p.1.variables, p.1.StateIn v (x v) p.2) ∧
      ∀ w ρ, (∀ v ∈ graphVars vgs, 0 ≤ shareLeft (graphOf vgs hist).allScopes w v) →
        (∀ f F, ((graphOf vgs hist).factors a.logPotentials)[f]? = some F → ρ f ∈ F.rows ∧ (ρ f).1 = F.scope.map x ∧ ∀ r ∈ F.rows,
          reweighted (readMsgs (graphOf vgs hist).allScopes a.ftovMsgs) (beliefOf (graphOf vgs hist).allScopes (readEv st.varsToStarts a.evidence) (readMsgs (graphOf vgs hist).allScopes a.ftovMsgs)) w f F.scope r ≤
            reweighted (readMsgs (graphOf vgs hist).allScopes a.ftovMsgs) (beliefOf (graphOf vgs hist).allScopes (readEv st.varsToStarts a.evidence) (readMsgs (graphOf vgs hist).allScopes a.ftovMsgs)) w f F.scope (ρ f)) →
        IsMAP (graphVars vgs) ((graphOf vgs hist).factors a.logPotentials) (readEv st.varsToStarts a.evidence) x ρ := by
  have hpos : ∀ v ∈ graphVars vgs, 0 < v.n := by
    intro v hv
    obtain ⟨g, hg, hv⟩ := mem_graphVars.1 hv
    obtain ⟨objId, hb⟩ := h.vgroups.built g hg
    obtain ⟨k, hk⟩ := List.mem_iff_getElem?.1 hv
    have hn := List.mem_of_getElem? (hb.vars.2 k v hk)
    have hs := hst g hg
    cases g with
    | arr g => exact hs.1 _ hn
    | dict g => exact hs _ hn
  have key : ∀ v : Var, ∃ j, v ∈ graphVars vgs → IsFirstMax (beliefOf (graphOf vgs hist).allScopes (readEv st.varsToStarts a.evidence) (readMsgs (graphOf vgs hist).allScopes a.ftovMsgs) v) v.n j := by
    intro v
    by_cases hv : v ∈ graphVars vgs
    · have hne : (List.range v.n).map (beliefOf (graphOf vgs hist).allScopes (readEv st.varsToStarts a.evidence) (readMsgs (graphOf vgs hist).allScopes a.ftovMsgs) v) ≠ [] := by
        simpa using (hpos v hv).ne'
      obtain ⟨b, h1, h2, h3⟩ := argmax_spec _ hne
      obtain ⟨hlt, hb⟩ := List.getElem?_eq_some_iff.1 h1
      rw [List.length_map, List.length_range] at hlt
      rw [List.getElem_map, List.getElem_range] at hb
      refine ⟨_, fun _ => ⟨hlt, fun s hs => ?_, fun s hs => ?_⟩⟩
      · rw [hb]
        exact h2 _ (List.mem_map.2 ⟨s, List.mem_range.2 hs, rfl⟩)
      · rw [hb]
        refine h3 s _ hs ?_
        rw [List.getElem?_map, List.getElem?_range (hs.trans hlt)]
        rfl
    · exact ⟨0, fun h => absurd h hv⟩
  choose x hx using key
  obtain ⟨bs, rs, e1, e2, e3, e4⟩ := h.decode_states hbp a hm hev hreg hst hx
  refine ⟨bs, rs, x, e1, e2, e3, e4, fun w ρ hw hρ => ?_⟩
  have hJ : Joint (graphVars vgs) ((graphOf vgs hist).factors a.logPotentials) x ρ := ⟨fun v hv => (hx v hv).1, fun f F hF => ⟨(hρ f F hF).1, (hρ f F hF).2.1⟩⟩
  refine ⟨hJ, fun x' ρ' hJ' => ?_⟩
  have := C82_gap h a w hw hJ (fun v hv => (hx v hv).2.1) (fun _ => 0) (fun f F hF r hr => by rw [add_zero]; exact (hρ f F hF).2.2 r hr) x' ρ' hJ'
  rwa [Finset.sum_const_zero, add_zero] at this

end

/-! ## Non-vacuity: a graph with two loops, after three iterations -/

/-- Log potentials, messages and evidence. -/
def exArrG : BPArrays ℚ := exBPC.runBP exEnv ⟨exArrC.logPotentials, exArrC.ftovMsgs, [0, 1, 0, 1, 1, 0, 0, 1]⟩ 3 0

/-- Equal shares for the factors of each variable. -/
def exShare (f i : Nat) : ℚ := ([[1/3, 1/2], [1/2, 1/3], [1/3, 1/2], [1/2, 1/3], [1/3, 1/3]].getD f []).getD i 0

/-- The configurations of the states 1, 1, 0, 1. -/
def exRowsG (f : Nat) : List Nat × ℚ := [([1, 1], 2), ([1, 0], 2), ([0, 1], 3), ([1, 1], 0), ([1, 0], 3)].getD f ([], 0)

theorem exShare_left : ∀ v ∈ graphVars exVars5, 0 ≤ shareLeft (graphOf exVars5 exHistC).allScopes exShare v := by decide +kernel

theorem exJointG : Joint (graphVars exVars5) ((graphOf exVars5 exHistC).factors exArrG.logPotentials) exBestC exRowsG := by
  refine ⟨fun v hv => ?_, fun f F hF => ?_⟩
  · rcases exVarsC v hv with rfl | rfl | rfl | rfl <;> decide
  · change ((graphOf exVars5 exHistC).factors exArrC.logPotentials)[f]? = some F at hF
    rw [exFactorsC] at hF
    match f, hF with
    | 0, hF => cases hF; exact ⟨by simp [exRowsG], by decide⟩
    | 1, hF => cases hF; exact ⟨by simp [exRowsG], by decide⟩
    | 2, hF => cases hF; exact ⟨by simp [exRowsG], by decide⟩
    | 3, hF => cases hF; exact ⟨by simp [exRowsG], by decide⟩
    | 4, hF => cases hF; exact ⟨by simp [exRowsG], by decide⟩
    | n + 5, hF => cases hF

theorem exBeliefsG : ∀ v ∈ graphVars exVars5, ∀ s < v.n,
    beliefOf (graphOf exVars5 exHistC).allScopes (readEv exStateC.varsToStarts exArrG.evidence) (readMsgs (graphOf exVars5 exHistC).allScopes exArrG.ftovMsgs) v s ≤
      beliefOf (graphOf exVars5 exHistC).allScopes (readEv exStateC.varsToStarts exArrG.evidence) (readMsgs (graphOf exVars5 exHistC).allScopes exArrG.ftovMsgs) v (exBestC v) := by
  decide +kernel

theorem exCertG : ∀ p ∈ ((graphOf exVars5 exHistC).factors exArrG.logPotentials).zipIdx, ∀ r ∈ p.1.rows,
    reweighted (readMsgs (graphOf exVars5 exHistC).allScopes exArrG.ftovMsgs)
      (beliefOf (graphOf exVars5 exHistC).allScopes (readEv exStateC.varsToStarts exArrG.evidence) (readMsgs (graphOf exVars5 exHistC).allScopes exArrG.ftovMsgs)) exShare p.2 p.1.scope r ≤
    reweighted (readMsgs (graphOf exVars5 exHistC).allScopes exArrG.ftovMsgs)
      (beliefOf (graphOf exVars5 exHistC).allScopes (readEv exStateC.varsToStarts exArrG.evidence) (readMsgs (graphOf exVars5 exHistC).allScopes exArrG.ftovMsgs)) exShare p.2 p.1.scope (exRowsG p.2) := by
  decide +kernel

/-- The states 1, 1, 0, 1 are a MAP assignment. -/
example (x' : Var → Nat) (ρ' : Nat → List Nat × ℚ) (hJ' : Joint (graphVars exVars5) ((graphOf exVars5 exHistC).factors exArrG.logPotentials) x' ρ') :=
  C82_gap exStateC_compiled exArrG exShare exShare_left exJointG exBeliefsG (fun _ => 0)
    (fun f F hF r hr => by rw [add_zero]; exact exCertG (F, f) (List.mem_zipIdx_iff_getElem?.2 hF) r hr) x' ρ' hJ'

example := C82 exStateC_compiled exBPC_create exArrG (by decide +kernel) (by decide +kernel) (by simp [exVars5, VGroup.Regular]) (by simp [exVars5, VGroup.Stated])

end PGMax
