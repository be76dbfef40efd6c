import Verif.Lemmas.DeconvOdds

/-! Helper lemmas: the run of the textbook in the graph of the deconvolution program, on log odds. -/

namespace PGMax

section
variable {α : Type _} [Field α] [LinearOrder α]

/-- The indices of the cells of `S`, `W` and `SW` for a place. -/
def Place.onS (p : Place) : List Nat := [p.img, p.feat, p.sh, p.sw]
def Place.onW (p : Place) : List Nat := [p.chan, p.feat, p.fh, p.fw]
def Place.spot (p : Place) : List Nat := [p.img, p.chan, p.fh + p.sh, p.fw + p.sw, p.feat, p.fh, p.fw]

variable {N : DeconvNet α}

theorem DeconvNet.mem_atS {i f a b : Nat} {p : Place} : p ∈ N.atS i f a b ↔
    p.img = i ∧ p.feat = f ∧ p.sh = a ∧ p.sw = b ∧ p.chan < N.nChan ∧ p.fh < N.fH ∧ p.fw < N.fW := by
  unfold DeconvNet.atS
  simp only [Finset.mem_image, Finset.mem_product, Finset.mem_range, Prod.exists]
  constructor
  · rintro ⟨c, u, w, ⟨h1, h2, h3⟩, rfl⟩
    exact ⟨rfl, rfl, rfl, rfl, h1, h2, h3⟩
  · rintro ⟨rfl, rfl, rfl, rfl, h1, h2, h3⟩
    exact ⟨_, _, _, ⟨h1, h2, h3⟩, rfl⟩

theorem DeconvNet.mem_atW {c f u w : Nat} {p : Place} : p ∈ N.atW c f u w ↔
    p.chan = c ∧ p.feat = f ∧ p.fh = u ∧ p.fw = w ∧ p.img < N.nImg ∧ p.sh < N.rows ∧ p.sw < N.cols := by
  unfold DeconvNet.atW
  simp only [Finset.mem_image, Finset.mem_product, Finset.mem_range, Prod.exists]
  constructor
  · rintro ⟨c, u, w, ⟨h1, h2, h3⟩, rfl⟩
    exact ⟨rfl, rfl, rfl, rfl, h1, h2, h3⟩
  · rintro ⟨rfl, rfl, rfl, rfl, h1, h2, h3⟩
    exact ⟨_, _, _, ⟨h1, h2, h3⟩, rfl⟩

theorem DeconvNet.mem_atX {i c y z : Nat} {p : Place} : p ∈ N.atX i c y z ↔
    p.img = i ∧ p.chan = c ∧ p.fh + p.sh = y ∧ p.fw + p.sw = z ∧ p.sh < N.rows ∧ p.sw < N.cols ∧ p.feat < N.nFeat ∧ p.fh < N.fH ∧ p.fw < N.fW := by
  unfold DeconvNet.atX
  simp only [Finset.mem_image, Finset.mem_filter, Finset.mem_product, Finset.mem_range, Prod.exists]
  constructor
  · rintro ⟨f, u, w, ⟨⟨h1, h2, h3⟩, h4, h5, h6, h7⟩, rfl⟩
    refine ⟨rfl, rfl, ?_, ?_, ?_, ?_, h1, h2, h3⟩ <;> dsimp only <;> omega
  · rintro ⟨rfl, rfl, rfl, rfl, h1, h2, h3, h4, h5⟩
    refine ⟨p.feat, p.fh, p.fw, ⟨⟨h3, h4, h5⟩, by omega, by omega, by omega, by omega⟩, ?_⟩
    rw [Nat.add_sub_cancel_left, Nat.add_sub_cancel_left]

/-- Indices within a shape. -/
abbrev InShape (shape cs : List Nat) : Prop := List.Forall₂ (fun c d => c < d) cs shape

/-- The factors of the program: a disjunction for every pixel `key g` with the places `par g` that cover it, and a conjunction for every place. -/
structure DeconvGraph (N : DeconvNet α) (factors : List (SFac α)) (nOr : Nat) (P : List Place) (S W SW X : List Nat → Var) (key : Nat → List Nat) (par : Nat → List Place) : Prop where
  hh : N.fH ≤ N.imH
  hw : N.fW ≤ N.imW
  mem : ∀ p, p ∈ P ↔ p.img < N.nImg ∧ p.chan < N.nChan ∧ p.sh < N.rows ∧ p.sw < N.cols ∧ p.feat < N.nFeat ∧ p.fh < N.fH ∧ p.fw < N.fW
  nodup : P.Nodup
  len : factors.length = nOr + P.length
  or : ∀ g < nOr, factors[g]? = some ⟨(par g).map (fun p => SW p.spot) ++ [X (key g)], orRows (par g).length⟩
  and : ∀ k p, P[k]? = some p → factors[nOr + k]? = some ⟨[S p.onS, W p.onW, SW p.spot], andRows 2⟩
  parNodup : ∀ g < nOr, (par g).Nodup
  parMem : ∀ g < nOr, ∀ p, p ∈ par g ↔ p ∈ P ∧ p.pixel = key g
  keyInj : ∀ g < nOr, ∀ g' < nOr, key g = key g' → g = g'
  keyEx : ∀ p ∈ P, ∃ g < nOr, key g = p.pixel
  keyPar : ∀ g < nOr, ∃ p ∈ P, p.pixel = key g
  two : ∀ cs, (S cs).n = 2 ∧ (W cs).n = 2 ∧ (SW cs).n = 2 ∧ (X cs).n = 2
  sInj : ∀ cs cs', InShape [N.nImg, N.nFeat, N.rows, N.cols] cs → InShape [N.nImg, N.nFeat, N.rows, N.cols] cs' → S cs = S cs' → cs = cs'
  wInj : ∀ cs cs', InShape [N.nChan, N.nFeat, N.fH, N.fW] cs → InShape [N.nChan, N.nFeat, N.fH, N.fW] cs' → W cs = W cs' → cs = cs'
  swInj : ∀ cs cs', InShape [N.nImg, N.nChan, N.imH, N.imW, N.nFeat, N.fH, N.fW] cs → InShape [N.nImg, N.nChan, N.imH, N.imW, N.nFeat, N.fH, N.fW] cs' →
    SW cs = SW cs' → cs = cs'
  xInj : ∀ cs cs', InShape [N.nImg, N.nChan, N.imH, N.imW] cs → InShape [N.nImg, N.nChan, N.imH, N.imW] cs' → X cs = X cs' → cs = cs'
  sw : ∀ cs cs', InShape [N.nImg, N.nFeat, N.rows, N.cols] cs → InShape [N.nChan, N.nFeat, N.fH, N.fW] cs' → S cs ≠ W cs'
  ssw : ∀ cs cs', InShape [N.nImg, N.nFeat, N.rows, N.cols] cs → InShape [N.nImg, N.nChan, N.imH, N.imW, N.nFeat, N.fH, N.fW] cs' → S cs ≠ SW cs'
  sx : ∀ cs cs', InShape [N.nImg, N.nFeat, N.rows, N.cols] cs → InShape [N.nImg, N.nChan, N.imH, N.imW] cs' → S cs ≠ X cs'
  wsw : ∀ cs cs', InShape [N.nChan, N.nFeat, N.fH, N.fW] cs → InShape [N.nImg, N.nChan, N.imH, N.imW, N.nFeat, N.fH, N.fW] cs' → W cs ≠ SW cs'
  wx : ∀ cs cs', InShape [N.nChan, N.nFeat, N.fH, N.fW] cs → InShape [N.nImg, N.nChan, N.imH, N.imW] cs' → W cs ≠ X cs'
  swx : ∀ cs cs', InShape [N.nImg, N.nChan, N.imH, N.imW, N.nFeat, N.fH, N.fW] cs → InShape [N.nImg, N.nChan, N.imH, N.imW] cs' → SW cs ≠ X cs'

variable {factors : List (SFac α)} {nOr : Nat} {P : List Place} {S W SW X : List Nat → Var} {key : Nat → List Nat} {par : Nat → List Place}

theorem DeconvGraph.inS (h : DeconvGraph N factors nOr P S W SW X key par) {p : Place} (hp : p ∈ P) : InShape [N.nImg, N.nFeat, N.rows, N.cols] p.onS := by
  have := (h.mem p).1 hp
  simp [InShape, Place.onS, this]

theorem DeconvGraph.inW (h : DeconvGraph N factors nOr P S W SW X key par) {p : Place} (hp : p ∈ P) : InShape [N.nChan, N.nFeat, N.fH, N.fW] p.onW := by
  have := (h.mem p).1 hp
  simp [InShape, Place.onW, this]

theorem DeconvGraph.inSW (h : DeconvGraph N factors nOr P S W SW X key par) {p : Place} (hp : p ∈ P) :
    InShape [N.nImg, N.nChan, N.imH, N.imW, N.nFeat, N.fH, N.fW] p.spot := by
  have := (h.mem p).1 hp
  have := h.hh
  have := h.hw
  simp only [DeconvNet.rows, DeconvNet.cols] at *
  simp [InShape, Place.spot, *]
  omega

theorem DeconvGraph.inX (h : DeconvGraph N factors nOr P S W SW X key par) {p : Place} (hp : p ∈ P) : InShape [N.nImg, N.nChan, N.imH, N.imW] p.pixel := by
  have := (h.mem p).1 hp
  have := h.hh
  have := h.hw
  simp only [DeconvNet.rows, DeconvNet.cols] at *
  simp [InShape, Place.pixel, *]
  omega

theorem DeconvGraph.inKey (h : DeconvGraph N factors nOr P S W SW X key par) {g : Nat} (hg : g < nOr) : InShape [N.nImg, N.nChan, N.imH, N.imW] (key g) := by
  obtain ⟨p, hp, e⟩ := h.keyPar g hg
  rw [← e]
  exact h.inX hp

theorem Place.spot_inj {p q : Place} (h : p.spot = q.spot) : p = q := by
  obtain ⟨a1, a2, a3, a4, a5, a6, a7⟩ := p
  obtain ⟨b1, b2, b3, b4, b5, b6, b7⟩ := q
  simp only [Place.spot, List.cons.injEq, and_true, Place.mk.injEq] at h ⊢
  omega

theorem Place.spot_pixel {p q : Place} (h : p.onS = q.onS) (h' : p.onW = q.onW) : p = q := by
  obtain ⟨a1, a2, a3, a4, a5, a6, a7⟩ := p
  obtain ⟨b1, b2, b3, b4, b5, b6, b7⟩ := q
  simp only [Place.onS, Place.onW, List.cons.injEq, and_true, Place.mk.injEq] at h h' ⊢
  omega

theorem getElem?_idxOf' {β : Type _} [DecidableEq β] {l : List β} {a : β} (h : a ∈ l) : l[l.idxOf a]? = some a := by
  rw [List.getElem?_eq_getElem (List.idxOf_lt_length_iff.2 h), List.getElem_idxOf]

theorem idxOf_of_getElem? {β : Type _} [DecidableEq β] {l : List β} (hl : l.Nodup) {a : β} {k : Nat} (h : l[k]? = some a) : l.idxOf a = k := by
  obtain ⟨hk, e⟩ := List.getElem?_eq_some_iff.1 h
  rw [← e]
  exact hl.idxOf_getElem k hk

/-- The edges of the graph. -/
theorem DeconvGraph.edge_cases (h : DeconvGraph N factors nOr P S W SW X key par) {f i : Nat} {v : Var} (he : IsEdge (factors.map (·.scope)) f i v) :
    (f < nOr ∧ ∃ p ∈ par f, i = (par f).idxOf p ∧ v = SW p.spot) ∨ (f < nOr ∧ i = (par f).length ∧ v = X (key f)) ∨
    ∃ p ∈ P, f = nOr + P.idxOf p ∧ (i = 0 ∧ v = S p.onS ∨ i = 1 ∧ v = W p.onW ∨ i = 2 ∧ v = SW p.spot) := by
  obtain ⟨vs, h1, h2⟩ := he
  rw [List.getElem?_map, Option.map_eq_some_iff] at h1
  obtain ⟨F, hF, rfl⟩ := h1
  by_cases hf : f < nOr
  · rw [h.or f hf] at hF
    cases hF
    dsimp only at h2
    by_cases hi : i < (par f).length
    · rw [List.getElem?_append_left (by simpa using hi), List.getElem?_map, List.getElem?_eq_getElem hi, Option.map_some, Option.some.injEq] at h2
      exact .inl ⟨hf, (par f)[i], List.getElem_mem hi, (idxOf_of_getElem? (h.parNodup f hf) (List.getElem?_eq_getElem hi)).symm, h2.symm⟩
    · rw [List.getElem?_append_right (by simpa using hi), List.length_map] at h2
      have h3 := (List.getElem?_eq_some_iff.1 h2).1
      simp only [List.length_cons, List.length_nil] at h3
      obtain rfl : i = (par f).length := by omega
      simp only [Nat.sub_self, List.getElem?_cons_zero, Option.some.injEq] at h2
      exact .inr (.inl ⟨hf, rfl, h2.symm⟩)
  · have hlt := (List.getElem?_eq_some_iff.1 hF).1
    rw [h.len] at hlt
    have hk := List.getElem?_eq_getElem (show f - nOr < P.length by omega)
    have hF' := h.and _ _ hk
    rw [show nOr + (f - nOr) = f by omega, hF] at hF'
    cases hF'
    refine .inr (.inr ⟨P[f - nOr], List.getElem_mem (show f - nOr < P.length by omega), ?_, ?_⟩)
    · rw [idxOf_of_getElem? h.nodup hk]; omega
    · have h3 := (List.getElem?_eq_some_iff.1 h2).1
      simp only [List.length_cons, List.length_nil] at h3
      rcases (show i = 0 ∨ i = 1 ∨ i = 2 by omega) with rfl | rfl | rfl <;> simpa using h2.symm

theorem DeconvGraph.facAnd (h : DeconvGraph N factors nOr P S W SW X key par) {p : Place} (hp : p ∈ P) :
    factors[nOr + P.idxOf p]? = some ⟨[S p.onS, W p.onW, SW p.spot], andRows 2⟩ := h.and _ _ (getElem?_idxOf' hp)

theorem DeconvGraph.scope (F : SFac α) {f : Nat} (hF : factors[f]? = some F) : (factors.map (·.scope))[f]? = some F.scope := by
  rw [List.getElem?_map, hF]; rfl

theorem DeconvGraph.edgeS (h : DeconvGraph N factors nOr P S W SW X key par) {p : Place} (hp : p ∈ P) : IsEdge (factors.map (·.scope)) (nOr + P.idxOf p) 0 (S p.onS) :=
  ⟨_, DeconvGraph.scope _ (h.facAnd hp), rfl⟩
theorem DeconvGraph.edgeW (h : DeconvGraph N factors nOr P S W SW X key par) {p : Place} (hp : p ∈ P) : IsEdge (factors.map (·.scope)) (nOr + P.idxOf p) 1 (W p.onW) :=
  ⟨_, DeconvGraph.scope _ (h.facAnd hp), rfl⟩
theorem DeconvGraph.edgeSW (h : DeconvGraph N factors nOr P S W SW X key par) {p : Place} (hp : p ∈ P) : IsEdge (factors.map (·.scope)) (nOr + P.idxOf p) 2 (SW p.spot) :=
  ⟨_, DeconvGraph.scope _ (h.facAnd hp), rfl⟩

theorem DeconvGraph.scopeUp {g j : Nat} {p : Place} (hj : (par g)[j]? = some p) : ((par g).map (fun p => SW p.spot) ++ [X (key g)])[j]? = some (SW p.spot) := by
  rw [List.getElem?_append_left (by simpa using (List.getElem?_eq_some_iff.1 hj).1), List.getElem?_map, hj]; rfl

theorem DeconvGraph.scopeX (g : Nat) : ((par g).map (fun p => SW p.spot) ++ [X (key g)])[(par g).length]? = some (X (key g)) := by
  rw [List.getElem?_append_right (by simp), List.length_map]; simp

theorem DeconvGraph.edgeUp (h : DeconvGraph N factors nOr P S W SW X key par) {g : Nat} (hg : g < nOr) {p : Place} (hp : p ∈ par g) :
    IsEdge (factors.map (·.scope)) g ((par g).idxOf p) (SW p.spot) :=
  ⟨_, DeconvGraph.scope _ (h.or g hg), DeconvGraph.scopeUp (getElem?_idxOf' hp)⟩

theorem DeconvGraph.edgeX (h : DeconvGraph N factors nOr P S W SW X key par) {g : Nat} (hg : g < nOr) : IsEdge (factors.map (·.scope)) g (par g).length (X (key g)) :=
  ⟨_, DeconvGraph.scope _ (h.or g hg), DeconvGraph.scopeX g⟩

/-- The messages of the graph and those of the specification. -/
structure DeconvGraph.Matches (nOr : Nat) (P : List Place) (key : Nat → List Nat) (par : Nat → List Place) (M : Msgs α) (D : DeconvMsgs α) : Prop where
  toS : ∀ p ∈ P, oddsOf M (nOr + P.idxOf p) 0 = D.toS p
  toW : ∀ p ∈ P, oddsOf M (nOr + P.idxOf p) 1 = D.toW p
  toSW : ∀ p ∈ P, oddsOf M (nOr + P.idxOf p) 2 = D.toSW p
  toX : ∀ g < nOr, oddsOf M g (par g).length = D.toX (key g)
  up : ∀ g < nOr, ∀ p ∈ par g, oddsOf M g ((par g).idxOf p) = D.up p

/-- The log odds of the belief of a variable. -/
theorem belief_odds (scopes : List (List Var)) (ev : Var → Nat → α) (m : Msgs α) (v : Var) :
    beliefOf scopes ev m v 1 - beliefOf scopes ev m v 0 = (ev v 1 - ev v 0) + ∑ e ∈ (edgesOf scopes v).toFinset, oddsOf m e.1 e.2 := by
  unfold beliefOf
  rw [← List.sum_toFinset _ (edgesOf_nodup scopes v), ← List.sum_toFinset _ (edgesOf_nodup scopes v)]
  simp only [oddsOf, Finset.sum_sub_distrib]
  ring

variable {M : Msgs α} {D : DeconvMsgs α}

theorem DeconvGraph.belief_S (h : DeconvGraph N factors nOr P S W SW X key par) (hM : DeconvGraph.Matches nOr P key par M D) (ev : Var → Nat → α)
    {i f a b : Nat} (hc : InShape [N.nImg, N.nFeat, N.rows, N.cols] [i, f, a, b]) (he : ev (S [i, f, a, b]) 1 - ev (S [i, f, a, b]) 0 = N.eS [i, f, a, b]) :
    beliefOf (factors.map (·.scope)) ev M (S [i, f, a, b]) 1 - beliefOf (factors.map (·.scope)) ev M (S [i, f, a, b]) 0 = N.oddsS D i f a b := by
  rw [belief_odds, he, DeconvNet.oddsS]
  congr 1
  have hP : ∀ p, p ∈ N.atS i f a b ↔ p ∈ P ∧ p.onS = [i, f, a, b] := by
    intro p
    rw [DeconvNet.mem_atS, h.mem]
    simp only [InShape, List.forall₂_cons, List.Forall₂.nil, and_true] at hc
    simp only [Place.onS, List.cons.injEq, and_true]
    constructor
    · rintro ⟨rfl, rfl, rfl, rfl, h1⟩; tauto
    · tauto
  symm
  refine Finset.sum_nbij (fun p => (nOr + P.idxOf p, 0)) ?_ ?_ ?_ ?_
  · intro p hp
    obtain ⟨h1, h2⟩ := (hP p).1 hp
    rw [List.mem_toFinset, mem_edgesOf, ← h2]
    exact h.edgeS h1
  · intro p hp q hq e
    have e := (Prod.mk.inj e).1
    exact (List.idxOf_inj ((hP p).1 hp).1).1 (by omega)
  · rintro ⟨f', k⟩ he
    rw [Finset.mem_coe, List.mem_toFinset, mem_edgesOf] at he
    rcases h.edge_cases he with ⟨hf, p, hp, -, e⟩ | ⟨hf, -, e⟩ | ⟨p, hp, rfl, ⟨rfl, e⟩ | ⟨rfl, e⟩ | ⟨rfl, e⟩⟩
    · exact absurd e (h.ssw _ _ hc (h.inSW ((h.parMem _ hf p).1 hp).1))
    · exact absurd e (h.sx _ _ hc (h.inKey hf))
    · exact ⟨p, Finset.mem_coe.2 ((hP p).2 ⟨hp, (h.sInj _ _ hc (h.inS hp) e).symm⟩), rfl⟩
    · exact absurd e (h.sw _ _ hc (h.inW hp))
    · exact absurd e (h.ssw _ _ hc (h.inSW hp))
  · intro p hp
    exact (hM.toS p ((hP p).1 hp).1).symm

theorem DeconvGraph.belief_W (h : DeconvGraph N factors nOr P S W SW X key par) (hM : DeconvGraph.Matches nOr P key par M D) (ev : Var → Nat → α)
    {c f u w : Nat} (hc : InShape [N.nChan, N.nFeat, N.fH, N.fW] [c, f, u, w]) (he : ev (W [c, f, u, w]) 1 - ev (W [c, f, u, w]) 0 = N.eW [c, f, u, w]) :
    beliefOf (factors.map (·.scope)) ev M (W [c, f, u, w]) 1 - beliefOf (factors.map (·.scope)) ev M (W [c, f, u, w]) 0 = N.oddsW D c f u w := by
  rw [belief_odds, he, DeconvNet.oddsW]
  congr 1
  have hP : ∀ p, p ∈ N.atW c f u w ↔ p ∈ P ∧ p.onW = [c, f, u, w] := by
    intro p
    rw [DeconvNet.mem_atW, h.mem]
    simp only [InShape, List.forall₂_cons, List.Forall₂.nil, and_true] at hc
    simp only [Place.onW, List.cons.injEq, and_true]
    constructor
    · rintro ⟨rfl, rfl, rfl, rfl, h1⟩; tauto
    · tauto
  symm
  refine Finset.sum_nbij (fun p => (nOr + P.idxOf p, 1)) ?_ ?_ ?_ ?_
  · intro p hp
    obtain ⟨h1, h2⟩ := (hP p).1 hp
    rw [List.mem_toFinset, mem_edgesOf, ← h2]
    exact h.edgeW h1
  · intro p hp q hq e
    have e := (Prod.mk.inj e).1
    exact (List.idxOf_inj ((hP p).1 hp).1).1 (by omega)
  · rintro ⟨f', k⟩ he
    rw [Finset.mem_coe, List.mem_toFinset, mem_edgesOf] at he
    rcases h.edge_cases he with ⟨hf, p, hp, -, e⟩ | ⟨hf, -, e⟩ | ⟨p, hp, rfl, ⟨rfl, e⟩ | ⟨rfl, e⟩ | ⟨rfl, e⟩⟩
    · exact absurd e (h.wsw _ _ hc (h.inSW ((h.parMem _ hf p).1 hp).1))
    · exact absurd e (h.wx _ _ hc (h.inKey hf))
    · exact absurd e.symm (h.sw _ _ (h.inS hp) hc)
    · exact ⟨p, Finset.mem_coe.2 ((hP p).2 ⟨hp, (h.wInj _ _ hc (h.inW hp) e).symm⟩), rfl⟩
    · exact absurd e (h.wsw _ _ hc (h.inSW hp))
  · intro p hp
    exact (hM.toW p ((hP p).1 hp).1).symm

theorem DeconvGraph.belief_SW (h : DeconvGraph N factors nOr P S W SW X key par) (hM : DeconvGraph.Matches nOr P key par M D) (ev : Var → Nat → α)
    {p : Place} (hp : p ∈ P) (he : ev (SW p.spot) 1 - ev (SW p.spot) 0 = 0) :
    beliefOf (factors.map (·.scope)) ev M (SW p.spot) 1 - beliefOf (factors.map (·.scope)) ev M (SW p.spot) 0 = D.toSW p + D.up p := by
  obtain ⟨g, hg, e⟩ := h.keyEx p hp
  have hpg := (h.parMem g hg p).2 ⟨hp, e.symm⟩
  have hE : (edgesOf (factors.map (·.scope)) (SW p.spot)).toFinset = {(nOr + P.idxOf p, 2), (g, (par g).idxOf p)} := by
    ext ⟨f', k⟩
    rw [List.mem_toFinset, mem_edgesOf, Finset.mem_insert, Finset.mem_singleton]
    constructor
    · intro he
      rcases h.edge_cases he with ⟨hf, q, hq, hk, e'⟩ | ⟨hf, -, e'⟩ | ⟨q, hq, rfl, ⟨rfl, e'⟩ | ⟨rfl, e'⟩ | ⟨rfl, e'⟩⟩
      · obtain ⟨q1, q2⟩ := (h.parMem _ hf q).1 hq
        obtain rfl := Place.spot_inj (h.swInj _ _ (h.inSW hp) (h.inSW q1) e')
        obtain rfl := h.keyInj _ hf _ hg (by rw [e, q2])
        exact .inr (by rw [hk])
      · exact absurd e' (h.swx _ _ (h.inSW hp) (h.inKey hf))
      · exact absurd e'.symm (h.ssw _ _ (h.inS hq) (h.inSW hp))
      · exact absurd e'.symm (h.wsw _ _ (h.inW hq) (h.inSW hp))
      · obtain rfl := Place.spot_inj (h.swInj _ _ (h.inSW hp) (h.inSW hq) e')
        exact .inl rfl
    · rintro (e' | e')
      · cases e'; exact h.edgeSW hp
      · cases e'; exact h.edgeUp hg hpg
  rw [belief_odds, he, hE, Finset.sum_pair (by intro hc; have := (Prod.mk.inj hc).1; omega), hM.toSW p hp, hM.up g hg p hpg, zero_add]

theorem DeconvGraph.belief_SW_none (h : DeconvGraph N factors nOr P S W SW X key par) (ev : Var → Nat → α)
    {cs : List Nat} (hc : InShape [N.nImg, N.nChan, N.imH, N.imW, N.nFeat, N.fH, N.fW] cs) (hn : ∀ p ∈ P, p.spot ≠ cs) (he : ev (SW cs) 1 - ev (SW cs) 0 = 0) :
    beliefOf (factors.map (·.scope)) ev M (SW cs) 1 - beliefOf (factors.map (·.scope)) ev M (SW cs) 0 = 0 := by
  have hE : (edgesOf (factors.map (·.scope)) (SW cs)).toFinset = ∅ := by
    refine Finset.eq_empty_of_forall_notMem ?_
    rintro ⟨f', k⟩ hm
    rw [List.mem_toFinset, mem_edgesOf] at hm
    rcases h.edge_cases hm with ⟨hf, q, hq, hk, e'⟩ | ⟨hf, -, e'⟩ | ⟨q, hq, rfl, ⟨rfl, e'⟩ | ⟨rfl, e'⟩ | ⟨rfl, e'⟩⟩
    · have q1 := ((h.parMem _ hf q).1 hq).1
      exact hn q q1 (h.swInj _ _ hc (h.inSW q1) e').symm
    · exact absurd e' (h.swx _ _ hc (h.inKey hf))
    · exact absurd e'.symm (h.ssw _ _ (h.inS hq) hc)
    · exact absurd e'.symm (h.wsw _ _ (h.inW hq) hc)
    · exact hn q hq (h.swInj _ _ hc (h.inSW hq) e').symm
  rw [belief_odds, he, hE, Finset.sum_empty, zero_add]

theorem DeconvGraph.belief_X (h : DeconvGraph N factors nOr P S W SW X key par) (hM : DeconvGraph.Matches nOr P key par M D) (ev : Var → Nat → α)
    {g : Nat} (hg : g < nOr) (he : ev (X (key g)) 1 - ev (X (key g)) 0 = N.eX (key g)) :
    beliefOf (factors.map (·.scope)) ev M (X (key g)) 1 - beliefOf (factors.map (·.scope)) ev M (X (key g)) 0 = N.eX (key g) + D.toX (key g) := by
  have hE : (edgesOf (factors.map (·.scope)) (X (key g))).toFinset = {(g, (par g).length)} := by
    ext ⟨f', k⟩
    rw [List.mem_toFinset, mem_edgesOf, Finset.mem_singleton]
    constructor
    · intro he
      rcases h.edge_cases he with ⟨hf, q, hq, hk, e'⟩ | ⟨hf, hk, e'⟩ | ⟨q, hq, rfl, ⟨rfl, e'⟩ | ⟨rfl, e'⟩ | ⟨rfl, e'⟩⟩
      · exact absurd e'.symm (h.swx _ _ (h.inSW ((h.parMem _ hf q).1 hq).1) (h.inKey hg))
      · obtain rfl := h.keyInj _ hg _ hf (h.xInj _ _ (h.inKey hg) (h.inKey hf) e')
        rw [hk]
      · exact absurd e'.symm (h.sx _ _ (h.inS hq) (h.inKey hg))
      · exact absurd e'.symm (h.wx _ _ (h.inW hq) (h.inKey hg))
      · exact absurd e'.symm (h.swx _ _ (h.inSW hq) (h.inKey hg))
    · intro e'
      cases e'
      exact h.edgeX hg
  rw [belief_odds, he, hE, Finset.sum_singleton, hM.toX g hg]

/-- The evidence of the variables, as log odds. -/
structure DeconvEvidence (N : DeconvNet α) (S W SW X : List Nat → Var) (ev : Var → Nat → α) : Prop where
  s : ∀ cs, InShape [N.nImg, N.nFeat, N.rows, N.cols] cs → ev (S cs) 1 - ev (S cs) 0 = N.eS cs
  w : ∀ cs, InShape [N.nChan, N.nFeat, N.fH, N.fW] cs → ev (W cs) 1 - ev (W cs) 0 = N.eW cs
  sw : ∀ cs, InShape [N.nImg, N.nChan, N.imH, N.imW, N.nFeat, N.fH, N.fW] cs → ev (SW cs) 1 - ev (SW cs) 0 = 0
  x : ∀ cs, InShape [N.nImg, N.nChan, N.imH, N.imW] cs → ev (X cs) 1 - ev (X cs) 0 = N.eX cs

variable {ev : Var → Nat → α}

theorem DeconvGraph.in_S (h : DeconvGraph N factors nOr P S W SW X key par) (hM : DeconvGraph.Matches nOr P key par M D) (he : DeconvEvidence N S W SW X ev) {p : Place} (hp : p ∈ P) :
    varToFac (factors.map (·.scope)) ev M (S p.onS) (nOr + P.idxOf p, 0) 1 - varToFac (factors.map (·.scope)) ev M (S p.onS) (nOr + P.idxOf p, 0) 0 = N.fromS D p := by
  rw [varToFac_odds ev M (h.edgeS hp), hM.toS p hp, show p.onS = [p.img, p.feat, p.sh, p.sw] from rfl, h.belief_S hM ev (h.inS hp) (he.s _ (h.inS hp))]
  rfl

theorem DeconvGraph.in_W (h : DeconvGraph N factors nOr P S W SW X key par) (hM : DeconvGraph.Matches nOr P key par M D) (he : DeconvEvidence N S W SW X ev) {p : Place} (hp : p ∈ P) :
    varToFac (factors.map (·.scope)) ev M (W p.onW) (nOr + P.idxOf p, 1) 1 - varToFac (factors.map (·.scope)) ev M (W p.onW) (nOr + P.idxOf p, 1) 0 = N.fromW D p := by
  rw [varToFac_odds ev M (h.edgeW hp), hM.toW p hp, show p.onW = [p.chan, p.feat, p.fh, p.fw] from rfl, h.belief_W hM ev (h.inW hp) (he.w _ (h.inW hp))]
  rfl

theorem DeconvGraph.in_SW (h : DeconvGraph N factors nOr P S W SW X key par) (hM : DeconvGraph.Matches nOr P key par M D) (he : DeconvEvidence N S W SW X ev) {p : Place} (hp : p ∈ P) :
    varToFac (factors.map (·.scope)) ev M (SW p.spot) (nOr + P.idxOf p, 2) 1 - varToFac (factors.map (·.scope)) ev M (SW p.spot) (nOr + P.idxOf p, 2) 0 = D.up p := by
  rw [varToFac_odds ev M (h.edgeSW hp), hM.toSW p hp, h.belief_SW hM ev hp (he.sw _ (h.inSW hp))]
  ring

theorem DeconvGraph.in_up (h : DeconvGraph N factors nOr P S W SW X key par) (hM : DeconvGraph.Matches nOr P key par M D) (he : DeconvEvidence N S W SW X ev) {g : Nat} (hg : g < nOr)
    {p : Place} (hp : p ∈ par g) :
    varToFac (factors.map (·.scope)) ev M (SW p.spot) (g, (par g).idxOf p) 1 - varToFac (factors.map (·.scope)) ev M (SW p.spot) (g, (par g).idxOf p) 0 = D.toSW p := by
  have hpP := ((h.parMem g hg p).1 hp).1
  rw [varToFac_odds ev M (h.edgeUp hg hp), hM.up g hg p hp, h.belief_SW hM ev hpP (he.sw _ (h.inSW hpP))]
  ring

theorem DeconvGraph.in_X (h : DeconvGraph N factors nOr P S W SW X key par) (hM : DeconvGraph.Matches nOr P key par M D) (he : DeconvEvidence N S W SW X ev) {g : Nat} (hg : g < nOr) :
    varToFac (factors.map (·.scope)) ev M (X (key g)) (g, (par g).length) 1 - varToFac (factors.map (·.scope)) ev M (X (key g)) (g, (par g).length) 0 = N.eX (key g) := by
  rw [varToFac_odds ev M (h.edgeX hg), hM.toX g hg, h.belief_X hM ev hg (he.x _ (h.inKey hg))]
  ring

variable [IsStrictOrderedRing α]

theorem tbStep_odds {f k : Nat} {F : SFac α} {v : Var} (hF : factors[f]? = some F) (hk : F.scope[k]? = some v) (hn : v.n = 2) (ev : Var → Nat → α) (d : α) (m : Msgs α) {o : α}
    (ho : ∃ a b, tbOut F (tbIn factors ev m f F) k 0 = WithBot.some a ∧ tbOut F (tbIn factors ev m f F) k 1 = WithBot.some b ∧ b - a = o) :
    oddsOf (tbStep factors ev d m) f k = damped d (oddsOf m f k) o := by
  obtain ⟨a, b, ha, hb, rfl⟩ := ho
  show tbStep factors ev d m f k 1 - tbStep factors ev d m f k 0 = _
  rw [tbStep_at hF hk, tbStep_at hF hk, hn, tbNorm_two (a := d * m f k 0 + (1 - d) * a) (b := d * m f k 1 + (1 - d) * b) (by rw [ha]; rfl) (by rw [hb]; rfl), damped, oddsOf]
  congr 2
  ring

theorem DeconvGraph.step (h : DeconvGraph N factors nOr P S W SW X key par) (hM : DeconvGraph.Matches nOr P key par M D) (he : DeconvEvidence N S W SW X ev) (d : α) :
    DeconvGraph.Matches nOr P key par (tbStep factors ev d M) (N.step d D) := by
  have hand : ∀ p ∈ P, ∀ F : SFac α, F = ⟨[S p.onS, W p.onW, SW p.spot], andRows 2⟩ →
      tbIn factors ev M (nOr + P.idxOf p) F 0 1 - tbIn factors ev M (nOr + P.idxOf p) F 0 0 = N.fromS D p ∧
      tbIn factors ev M (nOr + P.idxOf p) F 1 1 - tbIn factors ev M (nOr + P.idxOf p) F 1 0 = N.fromW D p ∧
      tbIn factors ev M (nOr + P.idxOf p) F 2 1 - tbIn factors ev M (nOr + P.idxOf p) F 2 0 = D.up p := by
    rintro p hp F rfl
    exact ⟨h.in_S hM he hp, h.in_W hM he hp, h.in_SW hM he hp⟩
  have hor : ∀ g < nOr, ∀ F : SFac α, F = ⟨(par g).map (fun p => SW p.spot) ++ [X (key g)], orRows (par g).length⟩ →
      (∀ p ∈ par g, tbIn factors ev M g F ((par g).idxOf p) 1 - tbIn factors ev M g F ((par g).idxOf p) 0 = D.toSW p) ∧
      tbIn factors ev M g F (par g).length 1 - tbIn factors ev M g F (par g).length 0 = N.eX (key g) := by
    rintro g hg F rfl
    refine ⟨fun p hp => ?_, ?_⟩
    · rw [tbIn_at (DeconvGraph.scopeUp (getElem?_idxOf' hp)), tbIn_at (DeconvGraph.scopeUp (getElem?_idxOf' hp))]
      exact h.in_up hM he hg hp
    · rw [tbIn_at (DeconvGraph.scopeX g), tbIn_at (DeconvGraph.scopeX g)]
      exact h.in_X hM he hg
  have hpos : ∀ g < nOr, 0 < (par g).length := by
    intro g hg
    obtain ⟨p, hp, e⟩ := h.keyPar g hg
    exact List.length_pos_of_mem ((h.parMem g hg p).2 ⟨hp, e⟩)
  have hset : ∀ g < nOr, ∀ i c y z, key g = [i, c, y, z] → (par g).toFinset = N.atX i c y z := by
    intro g hg i c y z e
    have hk := h.inKey hg
    ext p
    rw [List.mem_toFinset, h.parMem g hg, h.mem, DeconvNet.mem_atX, e]
    rw [e] at hk
    simp only [InShape, List.forall₂_cons, List.Forall₂.nil, and_true] at hk
    simp only [Place.pixel, List.cons.injEq, and_true]
    constructor
    · tauto
    · rintro ⟨rfl, rfl, h1⟩; tauto
  have hidx : ∀ g < nOr, ∀ j ∈ Finset.range (par g).length, ∀ d, (par g).getD j d ∈ par g ∧ (par g).idxOf ((par g).getD j d) = j := by
    intro g hg j hj d
    have hj := Finset.mem_range.1 hj
    rw [List.getD, List.getElem?_eq_getElem hj, Option.getD_some]
    exact ⟨List.getElem_mem hj, idxOf_of_getElem? (h.parNodup g hg) (List.getElem?_eq_getElem hj)⟩
  constructor
  · intro p hp
    obtain ⟨x1, x2, x3⟩ := hand p hp _ rfl
    rw [tbStep_odds (h.facAnd hp) (v := S p.onS) rfl (h.two _).1 ev d M (and_two rfl rfl _).1, hM.toS p hp, x2, x3]
    rfl
  · intro p hp
    obtain ⟨x1, x2, x3⟩ := hand p hp _ rfl
    rw [tbStep_odds (h.facAnd hp) (v := W p.onW) rfl (h.two _).2.1 ev d M (and_two rfl rfl _).2.1, hM.toW p hp, x1, x3]
    rfl
  · intro p hp
    obtain ⟨x1, x2, x3⟩ := hand p hp _ rfl
    rw [tbStep_odds (h.facAnd hp) (v := SW p.spot) rfl (h.two _).2.2.1 ev d M (and_two rfl rfl _).2.2, hM.toSW p hp, x1, x2]
    rfl
  · intro g hg
    obtain ⟨x1, x2⟩ := hor g hg _ rfl
    rw [tbStep_odds (h.or g hg) (DeconvGraph.scopeX g) (h.two _).2.2.2 ev d M (or_child rfl (by simp) (hpos g hg) _), hM.toX g hg]
    have hk := h.inKey hg
    obtain ⟨i, c, y, z, e⟩ : ∃ i c y z, key g = [i, c, y, z] := by
      obtain ⟨p, hp, e⟩ := h.keyPar g hg
      exact ⟨_, _, _, _, e.symm⟩
    show damped d (D.toX (key g)) _ = damped d (D.toX (key g)) _
    congr 1
    rw [show N.atX ((key g).getD 0 0) ((key g).getD 1 0) ((key g).getD 2 0) ((key g).getD 3 0) = N.atX i c y z by rw [e]; rfl, ← hset g hg i c y z e, toFinset_image ⟨0, 0, 0, 0, 0, 0, 0⟩, orOdds_image (getD_injOn (h.parNodup g hg) _)]
    refine orOdds_congr fun j hj => ?_
    obtain ⟨j1, j2⟩ := hidx g hg j hj ⟨0, 0, 0, 0, 0, 0, 0⟩
    have := x1 _ j1
    rw [j2] at this
    exact this
  · intro g hg p hp
    obtain ⟨x1, x2⟩ := hor g hg _ rfl
    have hpl : (par g).idxOf p < (par g).length := List.idxOf_lt_length_iff.2 hp
    rw [tbStep_odds (h.or g hg) (DeconvGraph.scopeUp (getElem?_idxOf' hp)) (h.two _).2.2.1 ev d M (or_parent rfl (by simp) hpl _), hM.up g hg p hp, x2]
    have e := ((h.parMem g hg p).1 hp).2.symm
    show damped d (D.up p) _ = damped d (D.up p) _
    congr 1
    rw [show N.eX (key g) = N.eX p.pixel by rw [e], ← hset g hg p.img p.chan (p.fh + p.sh) (p.fw + p.sw) e, toFinset_image ⟨0, 0, 0, 0, 0, 0, 0⟩]
    have hp' : (par g).getD ((par g).idxOf p) ⟨0, 0, 0, 0, 0, 0, 0⟩ = p := by rw [List.getD, getElem?_idxOf' hp]; rfl
    have hb := orBack_image (getD_injOn (h.parNodup g hg) ⟨0, 0, 0, 0, 0, 0, 0⟩) D.toSW (N.eX p.pixel) (Finset.mem_range.2 hpl)
    rw [hp'] at hb
    rw [hb]
    refine orBack_congr _ fun j hj _ => ?_
    obtain ⟨j1, j2⟩ := hidx g hg j hj ⟨0, 0, 0, 0, 0, 0, 0⟩
    have := x1 _ j1
    rw [j2] at this
    exact this

end

end PGMax
