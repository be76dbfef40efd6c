import Verif.Spec.DeconvSym
import Verif.Lemmas.DeconvInit

/-! Helper lemmas: renumbering images, channels, features, rows and columns in the deconvolution program. -/

namespace PGMax

variable {α : Type _} [Field α] [LinearOrder α]

theorem Renumbers.lt {f : Nat → Nat} {n m i : Nat} (h : Renumbers f n m) (hi : i < n) : f i < m := h.mapsTo hi
theorem Renumbers.inj {f : Nat → Nat} {n m i j : Nat} (h : Renumbers f n m) (hi : i < n) (hj : j < n) (e : f i = f j) : i = j := h.injOn hi hj e
theorem Renumbers.surj {f : Nat → Nat} {n m k : Nat} (h : Renumbers f n m) (hk : k < m) : ∃ i < n, f i = k := by
  obtain ⟨i, h1, h2⟩ := h.surjOn hk
  exact ⟨i, h1, h2⟩
theorem Renumbers.id (n : Nat) : Renumbers id n n := Set.bijOn_id _
theorem Renumbers.mirror (n : Nat) (v : Bool) : Renumbers (fun i => if v then n - 1 - i else i) n n := by
  cases v
  · exact Set.bijOn_id _
  · refine ⟨fun i hi => ?_, fun i hi j hj e => ?_, fun i hi => ⟨n - 1 - i, ?_, ?_⟩⟩ <;> simp only [Set.mem_Iio, if_true] at * <;> omega

section
variable {σ : DeconvSym} {N N' : DeconvNet α} (h : σ.Maps N N')
include h

theorem DeconvSym.Maps.isPlace {p : Place} (hp : N.IsPlace p) : N'.IsPlace (σ.place p) := by
  obtain ⟨h1, h2, h3, h4, h5, h6, h7⟩ := hp
  exact ⟨h.img.lt h1, h.chan.lt h2, h.sh.lt h3, h.sw.lt h4, h.feat.lt h5, h.fh.lt h6, h.fw.lt h7⟩

theorem DeconvSym.Maps.inj {p q : Place} (hp : N.IsPlace p) (hq : N.IsPlace q) (e : σ.place p = σ.place q) : p = q := by
  obtain ⟨h1, h2, h3, h4, h5, h6, h7⟩ := hp
  obtain ⟨k1, k2, k3, k4, k5, k6, k7⟩ := hq
  obtain ⟨p1, p2, p3, p4, p5, p6, p7⟩ := p
  obtain ⟨q1, q2, q3, q4, q5, q6, q7⟩ := q
  simp only [DeconvSym.place, Place.mk.injEq] at e
  obtain ⟨e1, e2, e3, e4, e5, e6, e7⟩ := e
  rw [Place.mk.injEq]
  exact ⟨h.img.inj h1 k1 e1, h.chan.inj h2 k2 e2, h.sh.inj h3 k3 e3, h.sw.inj h4 k4 e4, h.feat.inj h5 k5 e5, h.fh.inj h6 k6 e6, h.fw.inj h7 k7 e7⟩

theorem DeconvSym.Maps.surj {p : Place} (hp : N'.IsPlace p) : ∃ q, N.IsPlace q ∧ σ.place q = p := by
  obtain ⟨p1, p2, p3, p4, p5, p6, p7⟩ := p
  obtain ⟨h1, h2, h3, h4, h5, h6, h7⟩ := hp
  obtain ⟨i, i1, rfl⟩ := h.img.surj h1
  obtain ⟨c, c1, rfl⟩ := h.chan.surj h2
  obtain ⟨a, a1, rfl⟩ := h.sh.surj h3
  obtain ⟨b, b1, rfl⟩ := h.sw.surj h4
  obtain ⟨f, f1, rfl⟩ := h.feat.surj h5
  obtain ⟨u, u1, rfl⟩ := h.fh.surj h6
  obtain ⟨w, w1, rfl⟩ := h.fw.surj h7
  exact ⟨⟨i, c, a, b, f, u, w⟩, ⟨i1, c1, a1, b1, f1, u1, w1⟩, rfl⟩

theorem DeconvSym.Maps.atS {i f a b : Nat} (hi : i < N.nImg) (hf : f < N.nFeat) (ha : a < N.rows) (hb : b < N.cols) :
    N'.atS (σ.img i) (σ.feat f) (σ.sh a) (σ.sw b) = (N.atS i f a b).image σ.place := by
  ext p
  rw [Finset.mem_image, DeconvNet.mem_atS]
  constructor
  · rintro ⟨e1, e2, e3, e4, h1, h2, h3⟩
    obtain ⟨q, ⟨q1, q2, q3, q4, q5, q6, q7⟩, rfl⟩ := h.surj (p := p) ⟨by rw [e1]; exact h.img.lt hi, h1, by rw [e3]; exact h.sh.lt ha, by rw [e4]; exact h.sw.lt hb, by rw [e2]; exact h.feat.lt hf, h2, h3⟩
    exact ⟨q, DeconvNet.mem_atS.2 ⟨h.img.inj q1 hi e1, h.feat.inj q5 hf e2, h.sh.inj q3 ha e3, h.sw.inj q4 hb e4, q2, q6, q7⟩, rfl⟩
  · rintro ⟨q, hq, rfl⟩
    obtain ⟨rfl, rfl, rfl, rfl, h1, h2, h3⟩ := DeconvNet.mem_atS.1 hq
    exact ⟨rfl, rfl, rfl, rfl, h.chan.lt h1, h.fh.lt h2, h.fw.lt h3⟩

theorem DeconvSym.Maps.atW {c f u w : Nat} (hc : c < N.nChan) (hf : f < N.nFeat) (hu : u < N.fH) (hw : w < N.fW) :
    N'.atW (σ.chan c) (σ.feat f) (σ.fh u) (σ.fw w) = (N.atW c f u w).image σ.place := by
  ext p
  rw [Finset.mem_image, DeconvNet.mem_atW]
  constructor
  · rintro ⟨e1, e2, e3, e4, h1, h2, h3⟩
    obtain ⟨q, ⟨q1, q2, q3, q4, q5, q6, q7⟩, rfl⟩ := h.surj (p := p) ⟨h1, by rw [e1]; exact h.chan.lt hc, h2, h3, by rw [e2]; exact h.feat.lt hf, by rw [e3]; exact h.fh.lt hu, by rw [e4]; exact h.fw.lt hw⟩
    exact ⟨q, DeconvNet.mem_atW.2 ⟨h.chan.inj q2 hc e1, h.feat.inj q5 hf e2, h.fh.inj q6 hu e3, h.fw.inj q7 hw e4, q1, q3, q4⟩, rfl⟩
  · rintro ⟨q, hq, rfl⟩
    obtain ⟨rfl, rfl, rfl, rfl, h1, h2, h3⟩ := DeconvNet.mem_atW.1 hq
    exact ⟨rfl, rfl, rfl, rfl, h.img.lt h1, h.sh.lt h2, h.sw.lt h3⟩

theorem DeconvSym.Maps.atX (hH : N.fH ≤ N.imH) (hW : N.fW ≤ N.imW) {i c y z : Nat} (hi : i < N.nImg) (hc : c < N.nChan) (hy : y < N.imH) (hz : z < N.imW) :
    N'.atX (σ.img i) (σ.chan c) (σ.y y) (σ.z z) = (N.atX i c y z).image σ.place := by
  ext p
  rw [Finset.mem_image, DeconvNet.mem_atX]
  constructor
  · rintro ⟨e1, e2, e3, e4, h1, h2, h3, h4, h5⟩
    obtain ⟨q, ⟨q1, q2, q3, q4, q5, q6, q7⟩, rfl⟩ := h.surj (p := p) ⟨by rw [e1]; exact h.img.lt hi, by rw [e2]; exact h.chan.lt hc, h1, h2, h3, h4, h5⟩
    simp only [DeconvSym.place] at e3 e4
    rw [← h.sumY _ q6 _ q3] at e3
    rw [← h.sumZ _ q7 _ q4] at e4
    refine ⟨q, DeconvNet.mem_atX.2 ⟨h.img.inj q1 hi e1, h.chan.inj q2 hc e2, h.y.inj ?_ hy e3, h.z.inj ?_ hz e4, q3, q4, q5, q6, q7⟩, rfl⟩
    · unfold DeconvNet.rows at q3; omega
    · unfold DeconvNet.cols at q4; omega
  · rintro ⟨q, hq, rfl⟩
    obtain ⟨rfl, rfl, rfl, rfl, h1, h2, h3, h4, h5⟩ := DeconvNet.mem_atX.1 hq
    exact ⟨rfl, rfl, (h.sumY _ h4 _ h1).symm, (h.sumZ _ h5 _ h2).symm, h.sh.lt h1, h.sw.lt h2, h.feat.lt h3, h.fh.lt h4, h.fw.lt h5⟩

end

/-- The messages `m'` are the messages `m` with the new numbers. -/
structure DeconvSym.Moves (σ : DeconvSym) (N : DeconvNet α) (m m' : DeconvMsgs α) : Prop where
  toS : ∀ p, N.IsPlace p → m'.toS (σ.place p) = m.toS p
  toW : ∀ p, N.IsPlace p → m'.toW (σ.place p) = m.toW p
  toSW : ∀ p, N.IsPlace p → m'.toSW (σ.place p) = m.toSW p
  up : ∀ p, N.IsPlace p → m'.up (σ.place p) = m.up p
  toX : ∀ i < N.nImg, ∀ c < N.nChan, ∀ y < N.imH, ∀ z < N.imW, m'.toX [σ.img i, σ.chan c, σ.y y, σ.z z] = m.toX [i, c, y, z]

section
variable {σ : DeconvSym} {N N' : DeconvNet α} (h : σ.Maps N N') {m m' : DeconvMsgs α} (hm : σ.Moves N m m')
include h hm

theorem DeconvSym.Maps.oddsS {i f a b : Nat} (hi : i < N.nImg) (hf : f < N.nFeat) (ha : a < N.rows) (hb : b < N.cols) :
    N'.oddsS m' (σ.img i) (σ.feat f) (σ.sh a) (σ.sw b) = N.oddsS m i f a b := by
  have hp : ∀ p ∈ N.atS i f a b, N.IsPlace p := by
    intro p hp
    obtain ⟨rfl, rfl, rfl, rfl, h1, h2, h3⟩ := DeconvNet.mem_atS.1 hp
    exact ⟨hi, h1, ha, hb, hf, h2, h3⟩
  unfold DeconvNet.oddsS
  rw [h.eS _ hi _ hf _ ha _ hb, h.atS hi hf ha hb, Finset.sum_image (fun p hp' q hq' e => h.inj (hp p hp') (hp q hq') e), Finset.sum_congr rfl fun p hp' => hm.toS p (hp p hp')]

theorem DeconvSym.Maps.oddsW {c f u w : Nat} (hc : c < N.nChan) (hf : f < N.nFeat) (hu : u < N.fH) (hw : w < N.fW) :
    N'.oddsW m' (σ.chan c) (σ.feat f) (σ.fh u) (σ.fw w) = N.oddsW m c f u w := by
  have hp : ∀ p ∈ N.atW c f u w, N.IsPlace p := by
    intro p hp
    obtain ⟨rfl, rfl, rfl, rfl, h1, h2, h3⟩ := DeconvNet.mem_atW.1 hp
    exact ⟨h1, hc, h2, h3, hf, hu, hw⟩
  unfold DeconvNet.oddsW
  rw [h.eW _ hc _ hf _ hu _ hw, h.atW hc hf hu hw, Finset.sum_image (fun p hp' q hq' e => h.inj (hp p hp') (hp q hq') e), Finset.sum_congr rfl fun p hp' => hm.toW p (hp p hp')]

theorem DeconvSym.Maps.fromS {p : Place} (hp : N.IsPlace p) : N'.fromS m' (σ.place p) = N.fromS m p := by
  unfold DeconvNet.fromS
  rw [hm.toS p hp]
  obtain ⟨h1, h2, h3, h4, h5, h6, h7⟩ := hp
  rw [← h.oddsS hm h1 h5 h3 h4]
  rfl

theorem DeconvSym.Maps.fromW {p : Place} (hp : N.IsPlace p) : N'.fromW m' (σ.place p) = N.fromW m p := by
  unfold DeconvNet.fromW
  rw [hm.toW p hp]
  obtain ⟨h1, h2, h3, h4, h5, h6, h7⟩ := hp
  rw [← h.oddsW hm h2 h5 h6 h7]
  rfl

theorem DeconvSym.Maps.oddsX {i c y z : Nat} (hi : i < N.nImg) (hc : c < N.nChan) (hy : y < N.imH) (hz : z < N.imW) :
    N'.oddsX m' (σ.img i) (σ.chan c) (σ.y y) (σ.z z) = N.oddsX m i c y z := by
  unfold DeconvNet.oddsX
  rw [h.eX _ hi _ hc _ hy _ hz, hm.toX _ hi _ hc _ hy _ hz]

theorem DeconvSym.Maps.oddsSW (hH : N.fH ≤ N.imH) (hW : N.fW ≤ N.imW) {i c y z f u w : Nat} (hi : i < N.nImg) (hc : c < N.nChan) (hy : y < N.imH) (hz : z < N.imW) (hf : f < N.nFeat) (hu : u < N.fH)
    (hw : w < N.fW) : N'.oddsSW m' (σ.img i) (σ.chan c) (σ.y y) (σ.z z) (σ.feat f) (σ.fh u) (σ.fw w) = N.oddsSW m i c y z f u w := by
  unfold DeconvNet.oddsSW
  by_cases hp : u ≤ y ∧ y < N.rows + u ∧ w ≤ z ∧ z < N.cols + w
  · obtain ⟨a, rfl⟩ : ∃ a, y = u + a := ⟨y - u, by omega⟩
    obtain ⟨b, rfl⟩ : ∃ b, z = w + b := ⟨z - w, by omega⟩
    have h3 : a < N.rows := by omega
    have h4 : b < N.cols := by omega
    have k3 := h.sh.lt h3
    have k4 := h.sw.lt h4
    have hp' : N.IsPlace ⟨i, c, a, b, f, u, w⟩ := ⟨hi, hc, h3, h4, hf, hu, hw⟩
    rw [h.sumY _ hu _ h3, h.sumZ _ hw _ h4, if_pos (by omega), if_pos hp]
    simp only [Nat.add_sub_cancel_left]
    exact congrArg₂ (· + ·) (hm.toSW _ hp') (hm.up _ hp')
  · rw [if_neg hp, if_neg]
    rintro ⟨p1, p2, p3, p4⟩
    obtain ⟨a, h3, ea⟩ := h.sh.surj (k := σ.y y - σ.fh u) (by omega)
    obtain ⟨b, h4, eb⟩ := h.sw.surj (k := σ.z z - σ.fw w) (by omega)
    have e1 := h.sumY _ hu _ h3
    have e2 := h.sumZ _ hw _ h4
    have e3 := h.y.inj (by unfold DeconvNet.rows at h3; omega) hy (e1.trans (by omega : _ = σ.y y))
    have e4 := h.z.inj (by unfold DeconvNet.cols at h4; omega) hz (e2.trans (by omega : _ = σ.z z))
    omega

theorem DeconvSym.Maps.step (hH : N.fH ≤ N.imH) (hW : N.fW ≤ N.imW) (d : α) : σ.Moves N (N.step d m) (N'.step d m') := by
  have hX : ∀ i c y z, i < N.nImg → c < N.nChan → ∀ p ∈ N.atX i c y z, N.IsPlace p := by
    intro i c y z hi hc p hp
    obtain ⟨rfl, rfl, rfl, rfl, h1, h2, h3, h4, h5⟩ := DeconvNet.mem_atX.1 hp
    exact ⟨hi, hc, h1, h2, h3, h4, h5⟩
  refine ⟨fun p hp => ?_, fun p hp => ?_, fun p hp => ?_, fun p hp => ?_, fun i hi c hc y hy z hz => ?_⟩
  · simp only [DeconvNet.step]
    rw [hm.toS p hp, hm.up p hp, h.fromW hm hp]
  · simp only [DeconvNet.step]
    rw [hm.toW p hp, hm.up p hp, h.fromS hm hp]
  · simp only [DeconvNet.step]
    rw [hm.toSW p hp, h.fromS hm hp, h.fromW hm hp]
  · simp only [DeconvNet.step]
    rw [hm.up p hp]
    obtain ⟨h1, h2, h3, h4, h5, h6, h7⟩ := id hp
    have hy : p.fh + p.sh < N.imH := by unfold DeconvNet.rows at h3; omega
    have hz : p.fw + p.sw < N.imW := by unfold DeconvNet.cols at h4; omega
    have e1 : N'.atX (σ.place p).img (σ.place p).chan ((σ.place p).fh + (σ.place p).sh) ((σ.place p).fw + (σ.place p).sw) = (N.atX p.img p.chan (p.fh + p.sh) (p.fw + p.sw)).image σ.place := by
      rw [← h.atX hH hW h1 h2 hy hz, h.sumY _ h6 _ h3, h.sumZ _ h7 _ h4]
      rfl
    have e2 : N'.eX (σ.place p).pixel = N.eX p.pixel := by
      unfold Place.pixel
      rw [← h.eX _ h1 _ h2 _ hy _ hz, h.sumY _ h6 _ h3, h.sumZ _ h7 _ h4]
      rfl
    rw [e1, e2, orBack_image (fun q hq r hr e => h.inj (hX _ _ _ _ h1 h2 q hq) (hX _ _ _ _ h1 h2 r hr) e) _ _ (DeconvNet.mem_atX.2 ⟨rfl, rfl, rfl, rfl, h3, h4, h5, h6, h7⟩)]
    congr 1
    exact orBack_congr _ fun q hq _ => hm.toSW q (hX _ _ _ _ h1 h2 q hq)
  · simp only [DeconvNet.step, List.getD_cons_zero, List.getD_cons_succ]
    rw [hm.toX _ hi _ hc _ hy _ hz, h.atX hH hW hi hc hy hz, orOdds_image (fun q hq r hr e => h.inj (hX _ _ _ _ hi hc q hq) (hX _ _ _ _ hi hc r hr) e)]
    congr 1
    exact orOdds_congr fun q hq => hm.toSW q (hX _ _ _ _ hi hc q hq)

end

section
variable {σ : DeconvSym} {N N' : DeconvNet α} (h : σ.Maps N N')
include h

theorem DeconvSym.Maps.run (hH : N.fH ≤ N.imH) (hW : N.fW ≤ N.imW) (d : α) (t : Nat) : σ.Moves N (N.run d t) (N'.run d t) := by
  induction t with
  | zero => exact ⟨fun _ _ => rfl, fun _ _ => rfl, fun _ _ => rfl, fun _ _ => rfl, fun _ _ _ _ _ _ _ _ => rfl⟩
  | succ t ih => exact h.step ih hH hW d

theorem DeconvSym.Maps.quiet (hH : N.fH ≤ N.imH) (hW : N.fW ≤ N.imW) {d : α} {n : Nat} (hq : N.Quiet d n) : N'.Quiet d n := by
  intro t ht p hp
  obtain ⟨q, hq', rfl⟩ := h.surj hp
  rw [h.fromS (h.run hH hW d t) hq', h.fromW (h.run hH hW d t) hq']
  exact hq t ht q hq'

end

/-- The cell of an array of more likely states. -/
theorem likelyCells_at {shape cs : List Nat} (h : List.Forall₂ (fun c d => c < d) cs shape) (odds : List Nat → α) :
    (likelyCells shape odds)[rowMajor shape cs]? = some (if 0 < odds cs then 1 else 0) := by
  have hm := (mem_allIndices shape cs).2 h
  obtain ⟨k, hk, e⟩ := List.mem_iff_getElem.1 hm
  have hl : (allIndices shape).length = shape.prod := by simpa using congrArg List.length (allIndices_map_rowMajor shape)
  have e2 : ((allIndices shape).map (rowMajor shape))[k]? = some (rowMajor shape cs) := by rw [List.getElem?_map, List.getElem?_eq_getElem hk, e]; rfl
  rw [allIndices_map_rowMajor, List.getElem?_range (by rw [← hl]; exact hk)] at e2
  unfold likelyCells
  rw [← Option.some.inj e2, List.getElem?_map, List.getElem?_eq_getElem hk, e]
  rfl

end PGMax
