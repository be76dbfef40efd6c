import Verif.Lemmas.GatesRun
import Verif.Props.C98

/-! # Helper lemmas: the two graphs of the programs that test OR and AND factors are the same up to names, order and types of factors -/

namespace PGMax

/-- Blocks of `a` and `b` numbers change places. -/
def blockSwap (a b : Nat) : Equiv.Perm Nat where
  toFun k := if k < a then k + b else if k < a + b then k - a else k
  invFun k := if k < b then k + a else if k < a + b then k - b else k
  left_inv k := by dsimp only; split_ifs <;> omega
  right_inv k := by dsimp only; split_ifs <;> omega

theorem blockSwap_lt (a b k : Nat) : k < a + b ↔ blockSwap a b k < b + a := by
  simp only [blockSwap, Equiv.coe_fn_mk]
  split_ifs <;> omega

section
variable {κ α : Type} {isAnd first : Bool} {idF : Nat → Nat} {ps : List Nat} {idP1 idC1 idP2 idC2 idG1 idG2 : Nat}

/-- The variable of the second graph in the place of a variable of the first graph. -/
def gVar (idP1 idC1 idP2 idC2 : Nat) (ps : List Nat) (v : Var) : Var :=
  if v ∈ (uniArr idP1 [ps.sum] 2).variables then ⟨idP2 % 2 ^ 32 * 1000000000 + (v.hash - idP1 % 2 ^ 32 * 1000000000), v.n⟩
  else ⟨idC2 % 2 ^ 32 * 1000000000 + (v.hash - idC1 % 2 ^ 32 * 1000000000), v.n⟩

theorem gVar_parent {i : Nat} (hi : i < ps.sum) : gVar idP1 idC1 idP2 idC2 ps (rHid idP1 ps.sum i) = rHid idP2 ps.sum i := by
  unfold gVar
  rw [if_pos ((mem_uniArr _ _ _ _).2 ⟨[i], by simp [hi], rfl⟩)]
  simp [rHid, uniCell]

theorem gVar_child (hs : GateSizes idP1 idC1 idF idG1 ps) {j : Nat} (hj : j < ps.length) : gVar idP1 idC1 idP2 idC2 ps (rHid idC1 ps.length j) = rHid idC2 ps.length j := by
  unfold gVar
  rw [if_neg ?_]
  · simp [rHid, uniCell]
  · intro h
    obtain ⟨cs, c1, e⟩ := (mem_uniArr _ _ _ _).1 h
    exact uniCell_ne hs.distinct (by simpa using hs.parents) (by simpa using hs.children) c1 (show List.Forall₂ (fun c d => c < d) [j] [ps.length] by simp [hj]) e.symm

theorem gScope_map (hs : GateSizes idP1 idC1 idF idG1 ps) {k : Nat} (hk : k < ps.length) :
    (gScope idP1 idC1 ps k).map (gVar idP1 idC1 idP2 idC2 ps) = gScope idP2 idC2 ps k := by
  unfold gScope
  rw [List.map_append, List.map_map, List.map_cons, List.map_nil, gVar_child hs hk]
  congr 1
  exact List.map_congr_left fun i hi => gVar_parent (gBlock_lt hi)

/-- How the first graph becomes the second one. -/
def gRen (first : Bool) (idP1 idC1 idP2 idC2 : Nat) (ps : List Nat) : Renaming :=
  ⟨blockSwap (gFirst first ps.length).length (gSecond first ps.length).length, fun _ => Equiv.refl _, gVar idP1 idC1 idP2 idC2 ps, fun _ => Equiv.refl _⟩

/-- Corresponding factors are the same gate, listed in one graph and logical in the other. -/
theorem gates_pick [Zero α] {A B : List Nat} {f : Nat} {F : SFac α} (hF : (A.map (gFac isAnd idP1 idC1 ps) ++ B.map (lFac isAnd idP1 idC1 ps))[f]? = some F) :
    ∃ F' : SFac α, (B.map (gFac isAnd idP2 idC2 ps) ++ A.map (lFac isAnd idP2 idC2 ps))[blockSwap A.length B.length f]? = some F' ∧
      ∃ k ∈ A ++ B, (F = gFac isAnd idP1 idC1 ps k ∧ F' = lFac isAnd idP2 idC2 ps k) ∨ (F = lFac isAnd idP1 idC1 ps k ∧ F' = gFac isAnd idP2 idC2 ps k) := by
  have hlt : f < A.length + B.length := by simpa using (List.getElem?_eq_some_iff.1 hF).1
  by_cases h : f < A.length
  · rw [List.getElem?_append_left (by simpa using h), List.getElem?_map, List.getElem?_eq_getElem h] at hF
    refine ⟨lFac isAnd idP2 idC2 ps A[f], ?_, A[f], by simp, .inl ⟨by simpa using hF.symm, rfl⟩⟩
    simp only [blockSwap, Equiv.coe_fn_mk, if_pos h]
    rw [List.getElem?_append_right (by simp), List.getElem?_map]
    simp [h]
  · have h' : f - A.length < B.length := by omega
    rw [List.getElem?_append_right (by simpa using h), List.length_map, List.getElem?_map, List.getElem?_eq_getElem h'] at hF
    refine ⟨gFac isAnd idP2 idC2 ps B[f - A.length], ?_, B[f - A.length], by simp, .inr ⟨by simpa using hF.symm, rfl⟩⟩
    simp only [blockSwap, Equiv.coe_fn_mk, if_neg h, if_pos hlt]
    rw [List.getElem?_append_left (by simpa using h'), List.getElem?_map, List.getElem?_eq_getElem h']
    rfl

theorem gRen_models [Field α] [LinearOrder α] (hs : GateSizes idP1 idC1 idF idG1 ps) : (gRen first idP1 idC1 idP2 idC2 ps).Models
    ((gFirst first ps.length).map (gFac isAnd idP1 idC1 ps) ++ (gSecond first ps.length).map (lFac isAnd idP1 idC1 ps) : List (SFac α))
    ((gSecond first ps.length).map (gFac isAnd idP2 idC2 ps) ++ (gFirst first ps.length).map (lFac isAnd idP2 idC2 ps)) (fun _ => 0) where
  facs f := by
    simp only [List.length_append, List.length_map]
    exact blockSwap_lt _ _ _
  lengths f F F' hF hF' := by
    obtain ⟨F1, h1, k, -, h2⟩ := gates_pick (idP2 := idP2) (idC2 := idC2) hF
    rw [show (gRen first idP1 idC1 idP2 idC2 ps).fac f = blockSwap _ _ f from rfl, h1] at hF'
    cases hF'
    rcases h2 with ⟨rfl, rfl⟩ | ⟨rfl, rfl⟩ <;> simp [gFac, lFac, gScope_length]
  scopes f i v he := by
    obtain ⟨F, hF, hi⟩ := he.facs
    obtain ⟨F1, h1, k, hk, h2⟩ := gates_pick (idP2 := idP2) (idC2 := idC2) hF
    have hk' : k < ps.length := gParts_lt hk
    have hsc : F.scope = gScope idP1 idC1 ps k ∧ F1.scope = gScope idP2 idC2 ps k := by
      rcases h2 with ⟨rfl, rfl⟩ | ⟨rfl, rfl⟩ <;> exact ⟨rfl, rfl⟩
    refine ⟨F1.scope, ?_, ?_⟩
    · rw [List.getElem?_map, show (gRen first idP1 idC1 idP2 idC2 ps).fac f = blockSwap _ _ f from rfl, h1]
      rfl
    · rw [hsc.2, ← gScope_map (idP2 := idP2) (idC2 := idC2) hs hk', List.getElem?_map]
      rw [hsc.1] at hi
      show (gScope idP1 idC1 ps k)[i]?.map _ = _
      rw [hi]
      rfl
  rows f F F' hF hF' := by
    obtain ⟨F1, h1, k, hk, h2⟩ := gates_pick (idP2 := idP2) (idC2 := idC2) hF
    rw [show (gRen first idP1 idC1 idP2 idC2 ps).fac f = blockSwap _ _ f from rfl, h1] at hF'
    cases hF'
    have hid : ∀ (scope : List Var) (l : List (List Nat × α)), List.Forall₂ ((gRen first idP1 idC1 idP2 idC2 ps).Row f scope) l l := by
      intro scope l
      rw [List.forall₂_same]
      intro r _
      exact ⟨rfl, rfl, fun i v s _ h => h⟩
    have h0 : (F.shift 0).rows = F.rows := by
      simp [SFac.shift]
    rw [h0]
    refine ⟨F.rows, ?_, hid _ _⟩
    have hp := (gateConfigs_perm isAnd (hs.pos k (gParts_lt hk))).map (fun r => ((r, 0) : List Nat × α))
    rw [List.map_map] at hp
    rcases h2 with ⟨rfl, rfl⟩ | ⟨rfl, rfl⟩
    · exact hp
    · exact hp.symm

theorem gRen_vars (hs : GateSizes idP1 idC1 idF idG1 ps) (hs' : GateSizes idP2 idC2 idF idG2 ps) :
    (gRen first idP1 idC1 idP2 idC2 ps).VarsOk (graphVars (rVgs κ idP1 idC1 ps.sum ps.length)) (graphVars (rVgs κ idP2 idC2 ps.sum ps.length)) where
  known v hv := by
    rw [mem_rVgs] at hv ⊢
    rcases hv with ⟨i, hi, rfl⟩ | ⟨j, hj, rfl⟩
    · exact .inl ⟨i, hi, gVar_parent hi⟩
    · exact .inr ⟨j, hj, gVar_child hs hj⟩
  inj v hv w hw e := by
    replace e : gVar idP1 idC1 idP2 idC2 ps v = gVar idP1 idC1 idP2 idC2 ps w := e
    rw [mem_rVgs] at hv hw
    rcases hv with ⟨i, hi, rfl⟩ | ⟨j, hj, rfl⟩ <;> rcases hw with ⟨k, hk, rfl⟩ | ⟨l, hl, rfl⟩
    · rw [gVar_parent hi, gVar_parent hk] at e
      rw [rHid_inj hi hk e]
    · rw [gVar_parent hi, gVar_child hs hl] at e
      exact absurd e (rHid_ne hs'.distinct hs'.parents hs'.children hi hl)
    · rw [gVar_child hs hj, gVar_parent hk] at e
      exact absurd e.symm (rHid_ne hs'.distinct hs'.parents hs'.children hk hj)
    · rw [gVar_child hs hj, gVar_child hs hl] at e
      rw [rHid_inj hj hl e]
  size v _ := by
    show (gVar idP1 idC1 idP2 idC2 ps v).n = v.n
    unfold gVar
    split <;> rfl
  states _ _ _ := Iff.rfl

theorem gRen_evidence [Field α] [LinearOrder α] (hs : GateSizes idP1 idC1 idF idG1 ps) {EP EC : List α} {T : α} {st st' : FGState κ α} {bp bp' : BPFun κ α} {a a' : BPArrays α}
    (h : GateReady idP1 idC1 ps EP EC T st bp a) (h' : GateReady idP2 idC2 ps EP EC T st' bp' a') :
    (gRen first idP1 idC1 idP2 idC2 ps).SameVals (graphVars (rVgs κ idP1 idC1 ps.sum ps.length)) (readEv st.varsToStarts a.evidence) (readEv st'.varsToStarts a'.evidence) := by
  intro v hv s hlt
  show readEv st'.varsToStarts a'.evidence (gVar idP1 idC1 idP2 idC2 ps v) s = _
  rw [mem_rVgs] at hv
  rcases hv with ⟨i, hi, rfl⟩ | ⟨j, hj, rfl⟩
  · rw [gVar_parent hi, h.evP i hi s hlt, h'.evP i hi s hlt]
  · rw [gVar_child hs hj, h.evC j hj s hlt, h'.evC j hj s hlt]

theorem readMsgs_none [Zero α] (k : Nat) (scopes : List (List Var)) (f i s : Nat) : readMsgs scopes (List.replicate k (0 : α)) f i s = 0 := by
  unfold readMsgs
  rw [List.getD_eq_getElem?_getD, List.getElem?_replicate]
  split <;> rfl

/-- Every variable is in at most one factor. -/
theorem gates_degree (hs : GateSizes idP1 idC1 idF idG1 ps) {A : List Nat} (hn : A.Nodup) (hlt : ∀ k ∈ A, k < ps.length) (v : Var) : (edgesOf (A.map (gScope idP1 idC1 ps)) v).length ≤ 1 := by
  by_contra hc
  have hnd := edgesOf_nodup (A.map (gScope idP1 idC1 ps)) v
  match he : edgesOf (A.map (gScope idP1 idC1 ps)) v with
  | [] => simp [he] at hc
  | [_] => simp [he] at hc
  | (f, i) :: (g, j) :: l =>
    rw [he] at hnd
    obtain ⟨vs, h1, h2⟩ := (mem_edgesOf _ _ _ _).1 (by rw [he]; simp : (f, i) ∈ edgesOf (A.map (gScope idP1 idC1 ps)) v)
    obtain ⟨ws, h3, h4⟩ := (mem_edgesOf _ _ _ _).1 (by rw [he]; simp : (g, j) ∈ edgesOf (A.map (gScope idP1 idC1 ps)) v)
    rw [List.getElem?_map, Option.map_eq_some_iff] at h1 h3
    obtain ⟨k, h1, rfl⟩ := h1
    obtain ⟨l, h3, rfl⟩ := h3
    obtain ⟨rfl, rfl⟩ := gScope_unique hs.distinct hs.parents hs.children (hlt k (List.mem_of_getElem? h1)) (hlt l (List.mem_of_getElem? h3)) h2 h4
    have hfg : f = g := by
      obtain ⟨hf, e1⟩ := List.getElem?_eq_some_iff.1 h1
      obtain ⟨hg, e2⟩ := List.getElem?_eq_some_iff.1 h3
      exact (hn.getElem_inj_iff).1 (e1.trans e2.symm)
    subst hfg
    simp at hnd

end

end PGMax
