import Verif.Spec.Cover
import Verif.Lemmas.Step
import Verif.Lemmas.Same

/-! Helper lemmas: the messages to a variable after `n` iterations depend on what is within `n` steps. -/

namespace PGMax

variable {κ κ' α : Type _} {vgs : List (VGroup κ)} {hist : List (AddArg α)} {garbage : Garbage} {st : FGState κ α}
  {vgs' : List (VGroup κ')} {hist' : List (AddArg α)} {garbage' : Garbage} {st' : FGState κ' α}

theorem Within.refl (scopes : List (List Var)) (n : Nat) (w : Var) : Within scopes n w w := by
  cases n with
  | zero => rfl
  | succ n => exact .inl rfl

theorem Within.mono {scopes : List (List Var)} {n : Nat} {w u : Var} (h : Within scopes n w u) : Within scopes (n + 1) w u := by
  induction n generalizing w with
  | zero => exact .inl h
  | succ n ih =>
    rcases h with h | ⟨vs, h1, h2, x, h3, h4⟩
    · exact .inl h
    · exact .inr ⟨vs, h1, h2, x, h3, ih h4⟩

theorem Within.le {scopes : List (List Var)} {n k : Nat} (hk : n ≤ k) {w u : Var} (h : Within scopes n w u) : Within scopes k w u := by
  induction hk with
  | refl => exact h
  | step _ ih => exact ih.mono

section
variable [Field α] [LinearOrder α]

theorem iterM_end (g : Msgs α → Msgs α) (n : Nat) (m : Msgs α) : iterM g (n + 1) m = g (iterM g n m) := by
  induction n generalizing m with
  | zero => rfl
  | succ n ih => exact ih (g m)

theorem facOut_image (env : Env α) (T : α) (kind : Option Nat) {F F' : SFac α} {ψ : Var → Var} (hs : F'.scope = F.scope.map ψ)
    (hr : F'.rows.Perm F.rows) (q : Nat → Nat → α) (i s : Nat) : facOut env T kind F' q i s = facOut env T kind F q i s := by
  have hl : F'.scope.length = F.scope.length := by rw [hs, List.length_map]
  have h1 : SFac.Same F' (⟨F'.scope, F.rows⟩ : SFac α) := ⟨rfl, hr⟩
  rw [facOut_same env T kind h1]
  cases kind with
  | none => simp only [facOut, enumOut, SFac.rowsAt, hl]
  | some rel => simp only [facOut, hl]

variable {fg : FactorGraph κ α} {fg' : FactorGraph κ' α} {lp lp' : List α} {φ : Nat → Nat} {ψ : Var → Var}

omit [LinearOrder α] in
theorem SameAround.beliefOf {w : Var} (h : SameAround fg fg' lp lp' φ ψ w) {ev ev' : Var → Nat → α} (hev : SameEvidence ev ev' ψ w)
    {m m' : Msgs α} (hm : SameTo fg.allScopes m m' φ w) (s : Nat) (hs : s < w.n) :
    beliefOf fg'.allScopes ev' m' (ψ w) s = beliefOf fg.allScopes ev m w s := by
  unfold PGMax.beliefOf
  rw [hev.2 s hs, ← (h.places.map (fun e => m' e.1 e.2 s)).sum_eq, List.map_map]
  congr 2
  exact List.map_congr_left (fun e he => hm e he s hs)

omit [LinearOrder α] in
theorem SameAround.varToFac {w : Var} (h : SameAround fg fg' lp lp' φ ψ w) {ev ev' : Var → Nat → α} (hev : SameEvidence ev ev' ψ w)
    {m m' : Msgs α} (hm : SameTo fg.allScopes m m' φ w) (e : Nat × Nat) (he : e ∈ edgesOf fg.allScopes w) (s : Nat) (hs : s < w.n) :
    varToFac fg'.allScopes ev' m' (ψ w) (φ e.1, e.2) s = varToFac fg.allScopes ev m w e s := by
  unfold PGMax.varToFac
  rw [hev.2 s hs, ← ((h.places.filter (fun e' => e' ≠ (φ e.1, e.2))).map (fun e => m' e.1 e.2 s)).sum_eq,
    List.filter_map, List.map_map]
  have hnd : ((edgesOf fg.allScopes w).map (fun e => (φ e.1, e.2))).Nodup := h.places.nodup_iff.2 (edgesOf_nodup _ _)
  have hinj := List.inj_on_of_nodup_map hnd
  congr 2
  have : (edgesOf fg.allScopes w).filter ((fun e' => decide (e' ≠ (φ e.1, e.2))) ∘ fun e => (φ e.1, e.2)) =
      (edgesOf fg.allScopes w).filter (fun e' => e' ≠ e) := by
    apply List.filter_congr
    intro e' he'
    simp only [Function.comp_apply, ne_eq, decide_not]
    congr 1
    rw [decide_eq_decide]
    exact ⟨fun h' => hinj he' he h', fun h' => by rw [h']⟩
  rw [this]
  exact List.map_congr_left (fun e' he' => hm e' (List.mem_filter.1 he').1 s hs)

theorem SameAround.normM {w : Var} (h : SameAround fg fg' lp lp' φ ψ w) (hn : (ψ w).n = w.n) (maxLen : Nat) {m m' : Msgs α}
    (hm : SameTo fg.allScopes m m' φ w) : SameTo fg.allScopes (PGMax.normM fg.allScopes maxLen m) (PGMax.normM fg'.allScopes maxLen m') φ w := by
  rintro ⟨f, i⟩ he s hs
  have he' : (φ f, i) ∈ edgesOf fg'.allScopes (ψ w) := h.places.subset (List.mem_map.2 ⟨_, he, rfl⟩)
  rw [normM_at ((mem_edgesOf _ _ _ _).1 he), normM_at ((mem_edgesOf _ _ _ _).1 he'), hn]
  rw [hm _ he s hs, segM_congr (fun j hj => hm _ he j hj)]

/-- One iteration: the messages to `w` depend on the messages to `w` and what the variables of its factors send. -/
theorem SameAround.stepM {w : Var} (h : SameAround fg fg' lp lp' φ ψ w) (hn : (ψ w).n = w.n)
    (hok : ∀ f F, (fg.factors lp)[f]? = some F → FacOk (fg.kind f) F) (env : Env α) (T : α) (maxLen : Nat) {ev ev' : Var → Nat → α} (d : α)
    {m m' : Msgs α} (hm : SameTo fg.allScopes m m' φ w)
    (hq : ∀ (f : Nat) (vs : List Var), fg.allScopes[f]? = some vs → w ∈ vs → ∀ (j : Nat) (u : Var) (t : Nat), vs[j]? = some u → t < u.n →
      PGMax.varToFac fg'.allScopes ev' m' (ψ u) (φ f, j) t = PGMax.varToFac fg.allScopes ev m u (f, j) t) :
    SameTo fg.allScopes (PGMax.stepM env T fg maxLen lp ev d m) (PGMax.stepM env T fg' maxLen lp' ev' d m') φ w := by
  apply h.normM hn
  rintro ⟨f, i⟩ he s hs
  obtain ⟨k1, k2, F, F', hF, hF', hsc, hrows⟩ := h.facs _ he
  have hfs := fg.factors_scope lp hF
  have hfs' := fg'.factors_scope lp' hF'
  have hi : F.scope[i]? = some w := by
    obtain ⟨vs, a, b⟩ := (mem_edgesOf _ _ _ _).1 he
    rw [hfs] at a
    rw [Option.some.inj a]; exact b
  simp only at k1 k2 hF hF' hfs hfs' ⊢
  rw [show m' (φ f) i s = m f i s from hm _ he s hs, rawM_at _ _ hF, rawM_at _ _ hF']
  have hk : fg'.kind (φ f) = fg.kind f := by
    unfold FactorGraph.kind
    rw [tables_length, tables_length]
    by_cases hf : f < (fg.scopesOf .enum).length
    · rw [if_pos hf, if_pos (k1.1 hf)]
    · rw [if_neg hf, if_neg (fun h' => hf (k1.2 h')), k2 (by omega)]
  rw [hk, facOut_image env T _ hsc hrows, facOut_congr env T (hok f F hF) _ i s w hi hs]
  intro j u t hj ht
  have hej : IsEdge fg.allScopes f j u := ⟨_, hfs, hj⟩
  have hej' : IsEdge fg'.allScopes (φ f) j (ψ u) := ⟨_, hfs', by rw [hsc, List.getElem?_map, hj]; rfl⟩
  rw [vtofM_at hej, vtofM_at hej']
  exact hq f _ hfs (List.mem_of_getElem? hi) j u t hj ht

/-- `n` iterations. `Inner`: variables around which the graphs are the same; `hB`: what the variables at distance `n` send at first. -/
theorem iterM_near (hok : ∀ f F, (fg.factors lp)[f]? = some F → FacOk (fg.kind f) F) (env : Env α) (T : α) (maxLen : Nat)
    {ev ev' : Var → Nat → α} (d : α) {m m' : Msgs α} (Inner : Var → Prop)
    (hI : ∀ u, Inner u → SameAround fg fg' lp lp' φ ψ u ∧ SameEvidence ev ev' ψ u ∧ SameTo fg.allScopes m m' φ u) (n : Nat) :
    ∀ w, (∀ k < n, ∀ u, Within fg.allScopes k w u → Inner u) →
      (∀ u, Within fg.allScopes n w u → ∀ e ∈ edgesOf fg.allScopes u, ∀ s < u.n,
        varToFac fg'.allScopes ev' m' (ψ u) (φ e.1, e.2) s = varToFac fg.allScopes ev m u e s) →
      (Inner w → SameTo fg.allScopes (iterM (PGMax.stepM env T fg maxLen lp ev d) n m) (iterM (PGMax.stepM env T fg' maxLen lp' ev' d) n m') φ w) ∧
      ∀ e ∈ edgesOf fg.allScopes w, ∀ s < w.n,
        varToFac fg'.allScopes ev' (iterM (PGMax.stepM env T fg' maxLen lp' ev' d) n m') (ψ w) (φ e.1, e.2) s =
          varToFac fg.allScopes ev (iterM (PGMax.stepM env T fg maxLen lp ev d) n m) w e s := by
  induction n with
  | zero => exact fun w _ hB => ⟨fun hw => (hI w hw).2.2, hB w rfl⟩
  | succ n ih =>
    intro w hin hB
    have hw := hin 0 (by omega) w rfl
    obtain ⟨a1, a2, a3⟩ := hI w hw
    have hC : SameTo fg.allScopes (iterM (PGMax.stepM env T fg maxLen lp ev d) (n + 1) m)
        (iterM (PGMax.stepM env T fg' maxLen lp' ev' d) (n + 1) m') φ w := by
      rw [iterM_end, iterM_end]
      refine a1.stepM a2.1 hok env T maxLen d ((ih w (fun k hk => hin k (by omega)) (fun u hu => hB u hu.mono)).1 hw) ?_
      intro f vs hf hwv j u t hj ht
      have hvs := List.mem_of_getElem? hf
      have hu := List.mem_of_getElem? hj
      exact (ih u (fun k hk x hx => hin (k + 1) (by omega) x (.inr ⟨vs, hvs, hwv, u, hu, hx⟩))
        (fun x hx => hB x (.inr ⟨vs, hvs, hwv, u, hu, hx⟩))).2 (f, j) ((mem_edgesOf _ _ _ _).2 ⟨vs, hf, hj⟩) t ht
    exact ⟨fun _ => hC, fun e he s hs => a1.varToFac a2 hC e he s hs⟩

end

end PGMax
