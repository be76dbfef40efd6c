import Verif.Spec.Deconv
import Mathlib.Data.Set.Function

/-!
# Symmetries of the deconvolution program

Images, channels and features can be listed in another order, and images and features can be mirrored.
-/

namespace PGMax

/-- New numbers for images, channels and features, and for the rows and columns of positions (`sh`, `sw`), of features (`fh`, `fw`) and of images (`y`, `z`). -/
structure DeconvSym where
  img : Nat → Nat
  chan : Nat → Nat
  feat : Nat → Nat
  sh : Nat → Nat
  fh : Nat → Nat
  y : Nat → Nat
  sw : Nat → Nat
  fw : Nat → Nat
  z : Nat → Nat

def DeconvSym.place (σ : DeconvSym) (p : Place) : Place := ⟨σ.img p.img, σ.chan p.chan, σ.sh p.sh, σ.sw p.sw, σ.feat p.feat, σ.fh p.fh, σ.fw p.fw⟩

/-- The numbers below `n` are renumbered as the numbers below `m`. -/
def Renumbers (f : Nat → Nat) (n m : Nat) : Prop := Set.BijOn f (Set.Iio n) (Set.Iio m)

variable {α : Type _} [Field α] [LinearOrder α]

/-- `N'` is `N` with the new numbers. -/
structure DeconvSym.Maps (σ : DeconvSym) (N N' : DeconvNet α) : Prop where
  img : Renumbers σ.img N.nImg N'.nImg
  chan : Renumbers σ.chan N.nChan N'.nChan
  feat : Renumbers σ.feat N.nFeat N'.nFeat
  sh : Renumbers σ.sh N.rows N'.rows
  fh : Renumbers σ.fh N.fH N'.fH
  y : Renumbers σ.y N.imH N'.imH
  sw : Renumbers σ.sw N.cols N'.cols
  fw : Renumbers σ.fw N.fW N'.fW
  z : Renumbers σ.z N.imW N'.imW
  sumY : ∀ u < N.fH, ∀ a < N.rows, σ.y (u + a) = σ.fh u + σ.sh a
  sumZ : ∀ w < N.fW, ∀ b < N.cols, σ.z (w + b) = σ.fw w + σ.sw b
  eS : ∀ i < N.nImg, ∀ f < N.nFeat, ∀ a < N.rows, ∀ b < N.cols, N'.eS [σ.img i, σ.feat f, σ.sh a, σ.sw b] = N.eS [i, f, a, b]
  eW : ∀ c < N.nChan, ∀ f < N.nFeat, ∀ u < N.fH, ∀ w < N.fW, N'.eW [σ.chan c, σ.feat f, σ.fh u, σ.fw w] = N.eW [c, f, u, w]
  eX : ∀ i < N.nImg, ∀ c < N.nChan, ∀ y < N.imH, ∀ z < N.imW, N'.eX [σ.img i, σ.chan c, σ.y y, σ.z z] = N.eX [i, c, y, z]

/-- Everything keeps its number except for images, channels and features. -/
def DeconvSym.relabel (img chan feat : Nat → Nat) : DeconvSym := ⟨img, chan, feat, id, id, id, id, id, id⟩

/-- Images and features are mirrored: top to bottom if `v`, left to right if `h`. -/
def DeconvSym.mirror (imH imW fH fW : Nat) (v h : Bool) : DeconvSym where
  img := id
  chan := id
  feat := id
  sh a := if v then imH - fH - a else a
  fh u := if v then fH - 1 - u else u
  y y := if v then imH - 1 - y else y
  sw b := if h then imW - fW - b else b
  fw w := if h then fW - 1 - w else w
  z z := if h then imW - 1 - z else z

end PGMax
