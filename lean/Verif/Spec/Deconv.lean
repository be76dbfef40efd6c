import Verif.Model.Examples
import Verif.Spec.VGroup
import Verif.Spec.Rbm
import Mathlib.Algebra.BigOperators.Group.Finset.Basic
import Mathlib.Data.Finset.Lattice.Fold
import Mathlib.Data.Finset.Prod

/-!
# What inference in the deconvolution program computes

Max-product on log odds, for the coordinates of the images and features.  There are no factors, edges and arrays here: a `Place` is a feature pixel at a position of an image
(seven numbers), and the messages are functions of places and pixels.
-/

namespace PGMax

variable {α : Type _} [Field α] [LinearOrder α] {ι : Type _} [DecidableEq ι]

/-- The largest of the values of `x` on `s`. -/
def peak (s : Finset ι) (x : ι → α) : α := if h : s.Nonempty then s.sup' h x else 0

/-- Log odds that some `p ∈ s` is on, if `x p` are the log odds of the `p` and if a state of all is as likely as its likeliest configuration. -/
def orOdds (s : Finset ι) (x : ι → α) : α := ∑ p ∈ s, max 0 (x p) + min 0 (peak s x)

/-- Log odds of `p ∈ s`, given log odds `x` of the others and log odds `c` that some element of `s` is on. -/
def orBack (s : Finset ι) (x : ι → α) (c : α) (p : ι) : α :=
  c + ∑ q ∈ s.erase p, max 0 (x q) - if s.erase p = ∅ then 0 else max 0 (c + orOdds (s.erase p) x)

/-- Log odds that two are on, given the log odds of either. -/
def andOdds (a b : α) : α := a + b - max 0 (max a b)

/-- Images, features and the log odds in the evidence of `S`, `W` and `X`. -/
structure DeconvNet (α : Type _) where
  nImg : Nat
  nChan : Nat
  imH : Nat
  imW : Nat
  nFeat : Nat
  fH : Nat
  fW : Nat
  eS : List Nat → α
  eW : List Nat → α
  eX : List Nat → α

/-- Rows and columns at which a feature fits into an image. -/
def DeconvNet.rows (N : DeconvNet α) : Nat := N.imH - N.fH + 1
def DeconvNet.cols (N : DeconvNet α) : Nat := N.imW - N.fW + 1

/-- The places of image `i` at which feature `f` is put at row `a` and column `b`. -/
def DeconvNet.atS (N : DeconvNet α) (i f a b : Nat) : Finset Place :=
  (Finset.range N.nChan ×ˢ Finset.range N.fH ×ˢ Finset.range N.fW).image (fun t => ⟨i, t.1, a, b, f, t.2.1, t.2.2⟩)

/-- The places that show pixel `(u, w)` of channel `c` of feature `f`. -/
def DeconvNet.atW (N : DeconvNet α) (c f u w : Nat) : Finset Place :=
  (Finset.range N.nImg ×ˢ Finset.range N.rows ×ˢ Finset.range N.cols).image (fun t => ⟨t.1, c, t.2.1, t.2.2, f, u, w⟩)

/-- The places that cover pixel `(y, z)` of channel `c` of image `i`. -/
def DeconvNet.atX (N : DeconvNet α) (i c y z : Nat) : Finset Place :=
  ((Finset.range N.nFeat ×ˢ Finset.range N.fH ×ˢ Finset.range N.fW).filter
    (fun t => t.2.1 ≤ y ∧ y < N.rows + t.2.1 ∧ t.2.2 ≤ z ∧ z < N.cols + t.2.2)).image (fun t => ⟨i, c, y - t.2.1, z - t.2.2, t.1, t.2.1, t.2.2⟩)

/-- The log odds of the messages: from the conjunction at a place to `S`, to `W` and to `SW`; from the disjunction at a pixel to `X` and to the `SW` of a place. -/
structure DeconvMsgs (α : Type _) where
  toS : Place → α
  toW : Place → α
  toSW : Place → α
  toX : List Nat → α
  up : Place → α

/-- Log odds of `S[i, f, a, b]`. -/
def DeconvNet.oddsS (N : DeconvNet α) (m : DeconvMsgs α) (i f a b : Nat) : α := N.eS [i, f, a, b] + ∑ p ∈ N.atS i f a b, m.toS p

/-- Log odds of `W[c, f, u, w]`. -/
def DeconvNet.oddsW (N : DeconvNet α) (m : DeconvMsgs α) (c f u w : Nat) : α := N.eW [c, f, u, w] + ∑ p ∈ N.atW c f u w, m.toW p

/-- What the conjunction at a place hears from `S` and from `W`. -/
def DeconvNet.fromS (N : DeconvNet α) (m : DeconvMsgs α) (p : Place) : α := N.oddsS m p.img p.feat p.sh p.sw - m.toS p
def DeconvNet.fromW (N : DeconvNet α) (m : DeconvMsgs α) (p : Place) : α := N.oddsW m p.chan p.feat p.fh p.fw - m.toW p

/-- The pixel that a place covers. -/
def Place.pixel (p : Place) : List Nat := [p.img, p.chan, p.fh + p.sh, p.fw + p.sw]

/-- A message with damping `d`, whose log odds are clipped to 1000. -/
def damped (d old new : α) : α := max (-1000) (min 1000 (d * old + (1 - d) * new))

/-- One iteration. -/
def DeconvNet.step (N : DeconvNet α) (d : α) (m : DeconvMsgs α) : DeconvMsgs α where
  toS p := damped d (m.toS p) (maxBump (m.up p) (N.fromW m p))
  toW p := damped d (m.toW p) (maxBump (m.up p) (N.fromS m p))
  toSW p := damped d (m.toSW p) (andOdds (N.fromS m p) (N.fromW m p))
  toX cs := damped d (m.toX cs) (orOdds (N.atX (cs.getD 0 0) (cs.getD 1 0) (cs.getD 2 0) (cs.getD 3 0)) m.toSW)
  up p := damped d (m.up p) (orBack (N.atX p.img p.chan (p.fh + p.sh) (p.fw + p.sw)) m.toSW (N.eX p.pixel) p)

/-- The messages after `t` iterations, from messages that are zero. -/
def DeconvNet.run (N : DeconvNet α) (d : α) : Nat → DeconvMsgs α
  | 0 => ⟨fun _ => 0, fun _ => 0, fun _ => 0, fun _ => 0, fun _ => 0⟩
  | t + 1 => N.step d (N.run d t)

/-- The log odds of `SW[i, c, y, z, f, u, w]`; cells that belong to no place have none. -/
def DeconvNet.oddsSW (N : DeconvNet α) (m : DeconvMsgs α) (i c y z f u w : Nat) : α :=
  if u ≤ y ∧ y < N.rows + u ∧ w ≤ z ∧ z < N.cols + w then m.toSW ⟨i, c, y - u, z - w, f, u, w⟩ + m.up ⟨i, c, y - u, z - w, f, u, w⟩ else 0

/-- The log odds of `X[i, c, y, z]`. -/
def DeconvNet.oddsX (N : DeconvNet α) (m : DeconvMsgs α) (i c y z : Nat) : α := N.eX [i, c, y, z] + m.toX [i, c, y, z]

/-- A feature that lies within the image. -/
def DeconvNet.IsPlace (N : DeconvNet α) (p : Place) : Prop :=
  p.img < N.nImg ∧ p.chan < N.nChan ∧ p.sh < N.rows ∧ p.sw < N.cols ∧ p.feat < N.nFeat ∧ p.fh < N.fH ∧ p.fw < N.fW

/-- Before none of the first `n` iterations does a conjunction hear log odds of 100000 or more. -/
def DeconvNet.Quiet (N : DeconvNet α) (d : α) (n : Nat) : Prop :=
  ∀ t < n, ∀ p, N.IsPlace p → N.fromS (N.run d t) p < 100000 ∧ N.fromW (N.run d t) p < 100000

/-- The net for the priors `lS`, `lW`, `lX` (log odds), the noise and the images of the program, all in row-major order. -/
def DeconvNet.ofLists (nImg nChan imH imW nFeat fH fW : Nat) (lS lW lX : α) (noiseS noiseW xGt : List α) : DeconvNet α where
  nImg := nImg
  nChan := nChan
  imH := imH
  imW := imW
  nFeat := nFeat
  fH := fH
  fW := fW
  eS cs := lS + pairOdds noiseS (rowMajor [nImg, nFeat, imH - fH + 1, imW - fW + 1] cs)
  eW cs := lW + pairOdds noiseW (rowMajor [nChan, nFeat, fH, fW] cs)
  eX cs := (1 - 2 * xGt.getD (rowMajor [nImg, nChan, imH, imW] cs) 0) * lX

/-- The more likely states of the cells of an array with these log odds; 0 if the log odds are 0. -/
def likelyCells (shape : List Nat) (odds : List Nat → α) : List Nat := (allIndices shape).map (fun cs => if 0 < odds cs then 1 else 0)

/-- What is decoded from the messages `m`: the states of `S`, `W`, `SW` and `X`. -/
def DeconvNet.statesS (N : DeconvNet α) (m : DeconvMsgs α) : List Nat :=
  likelyCells [N.nImg, N.nFeat, N.rows, N.cols] (fun cs => N.oddsS m (cs.getD 0 0) (cs.getD 1 0) (cs.getD 2 0) (cs.getD 3 0))
def DeconvNet.statesW (N : DeconvNet α) (m : DeconvMsgs α) : List Nat :=
  likelyCells [N.nChan, N.nFeat, N.fH, N.fW] (fun cs => N.oddsW m (cs.getD 0 0) (cs.getD 1 0) (cs.getD 2 0) (cs.getD 3 0))
def DeconvNet.statesSW (N : DeconvNet α) (m : DeconvMsgs α) : List Nat :=
  likelyCells [N.nImg, N.nChan, N.imH, N.imW, N.nFeat, N.fH, N.fW]
    (fun cs => N.oddsSW m (cs.getD 0 0) (cs.getD 1 0) (cs.getD 2 0) (cs.getD 3 0) (cs.getD 4 0) (cs.getD 5 0) (cs.getD 6 0))
def DeconvNet.statesX (N : DeconvNet α) (m : DeconvMsgs α) : List Nat :=
  likelyCells [N.nImg, N.nChan, N.imH, N.imW] (fun cs => N.oddsX m (cs.getD 0 0) (cs.getD 1 0) (cs.getD 2 0) (cs.getD 3 0))

end PGMax
