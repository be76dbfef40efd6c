import Verif.Model.ProgramCuts
import Verif.Spec.Tree
import Verif.Spec.BP

/-! # Specification for the program that labels the cuts of a depth image -/

namespace PGMax

variable {α : Type _}

/-- A place between two neighbouring pixels of an `M` by `N` image: `(0, r, c)` is that between `(r, c)` and the pixel below it, `(1, r, c)` that between
`(r, c)` and the pixel to its right. -/
def IsCut (M N : Nat) (q : Nat × Nat × Nat) : Prop := q.1 = 0 ∧ q.2.1 + 1 < M ∧ q.2.2 < N ∨ q.1 = 1 ∧ q.2.1 < M ∧ q.2.2 + 1 < N

/-- The cuts of an `M` by `N` image. -/
def allCuts (M N : Nat) : Finset (Nat × Nat × Nat) :=
  (Finset.range (M - 1) ×ˢ Finset.range N).image (fun p => (0, p.1, p.2)) ∪ (Finset.range M ×ˢ Finset.range (N - 1)).image (fun p => (1, p.1, p.2))

/-- The labels of the four cuts that meet in a point, in the order left, above, right, below: there is no cut; or a line goes straight through, and
at most one other line ends there; or a line turns by a right angle.  Lines keep the side of the nearer pixel. -/
def CrossingOk (l t r b : Nat) : Prop :=
  l = 0 ∧ t = 0 ∧ r = 0 ∧ b = 0 ∨
  l ≠ 0 ∧ r = l ∧ (t = 0 ∨ b = 0) ∨
  t ≠ 0 ∧ b = t ∧ (l = 0 ∨ r = 0) ∨
  l ≠ 0 ∧ t = l ∧ r = 0 ∧ b = 0 ∨
  r ≠ 0 ∧ b = r ∧ l = 0 ∧ t = 0 ∨
  l ≠ 0 ∧ b ≠ 0 ∧ b ≠ l ∧ t = 0 ∧ r = 0 ∨
  t ≠ 0 ∧ r ≠ 0 ∧ r ≠ t ∧ l = 0 ∧ b = 0

/-- `w` is the label of a cut between pixels with the depths `a` and `b`: 0 for equal depths, 1 if the first is smaller, 2 if the second is smaller. -/
def LabelOf [LT α] (w : Nat) (a b : α) : Prop := w = 0 ∧ a = b ∨ w = 1 ∧ a < b ∨ w = 2 ∧ b < a

/-- `a` lies strictly between `b` and `c`. -/
def StrictlyBetween [LT α] (a b c : α) : Prop := b < a ∧ a < c ∨ c < a ∧ a < b

/-- Four pixels `a`, `b` above `c`, `d` of which two neighbours have equal depth, but never a depth strictly between those of the other two. -/
def PlainCorner [LT α] (a b c d : α) : Prop :=
  (a = b ∨ c = d ∨ a = c ∨ b = d) ∧
  (a = b → ¬ StrictlyBetween a c d) ∧ (c = d → ¬ StrictlyBetween c a b) ∧ (a = c → ¬ StrictlyBetween a b d) ∧ (b = d → ¬ StrictlyBetween b a c)

/-- Labels of all cuts of an `M` by `N` image: as above wherever four cuts meet, and parallel cuts less than `D` apart are not both labelled. -/
structure CutLabelling (M N D : Nat) (y : Nat × Nat × Nat → Nat) : Prop where
  states : ∀ q, IsCut M N q → y q < 3
  crossing : ∀ r c, r + 1 < M → c + 1 < N → CrossingOk (y (0, r, c)) (y (1, r, c)) (y (0, r, c + 1)) (y (1, r + 1, c))
  vertical : ∀ c r r', c < N → r < r' → r' < r + D → r' + 1 < M → y (0, r, c) = 0 ∨ y (0, r', c) = 0
  horizontal : ∀ r c c', r < M → c < c' → c' < c + D → c' + 1 < N → y (1, r, c) = 0 ∨ y (1, r, c') = 0

/-- The variables `cut q` of the program, found in its array or else in its dictionary. -/
structure CutVars (g : NDVarArray) (e : VarDict CutName) (M N : Nat) (cut : Nat × Nat × Nat → Var) : Prop where
  grid : ∀ i r c : Nat, i < 2 → r + 1 < M → c + 1 < N → g.at [(i : Int), (r : Int), (c : Int)] = .ok (cut (i, r, c))
  extra : ∀ q, IsCut M N q → ¬ (q.2.1 + 1 < M ∧ q.2.2 + 1 < N) → e.getitem q = .ok (cut q)
  states : ∀ q, IsCut M N q → (cut q).n = 3
  inj : ∀ p q, IsCut M N p → IsCut M N q → cut p = cut q → p = q
  vars : ∀ v, v ∈ graphVars [.arr g, .dict e] ↔ ∃ q, IsCut M N q ∧ v = cut q

/-- The labels that the depth image says. -/
def TrueLabels [LT α] (M N : Nat) (depth : Nat → Nat → α) (truth : Nat × Nat × Nat → Nat) : Prop :=
  (∀ r c, r + 1 < M → c < N → LabelOf (truth (0, r, c)) (depth r c) (depth (r + 1) c)) ∧
  ∀ r c, r < M → c + 1 < N → LabelOf (truth (1, r, c)) (depth r c) (depth r (c + 1))

/-- Four pixels that meet in a point are always as in `PlainCorner`, and changes of depth along a row or a column are at least `D` apart. -/
structure PlainImage [LT α] (M N D : Nat) (depth : Nat → Nat → α) : Prop where
  corner : ∀ r c, r + 1 < M → c + 1 < N → PlainCorner (depth r c) (depth r (c + 1)) (depth (r + 1) c) (depth (r + 1) (c + 1))
  column : ∀ c r r', c < N → r < r' → r' < r + D → r' + 1 < M → depth r c = depth (r + 1) c ∨ depth r' c = depth (r' + 1) c
  row : ∀ r c c', r < M → c < c' → c' < c + D → c' + 1 < N → depth r c = depth r (c + 1) ∨ depth r c' = depth r (c' + 1)

/-- The evidence for label `s` of a cut whose true label is `w`: two for the true label, less that for label 0, and noise for the labels 1 and 2. -/
def labelEvidence [Ring α] (w : Nat) (noise : α × α) (s : Nat) : α :=
  (if s = w then 2 else 0) - (if w = 0 then 2 else 0) + (if s = 1 then noise.1 else if s = 2 then noise.2 else 0)

/-- How many of the cuts have the label that the depth image says. -/
def agreements (M N : Nat) (truth y : Nat × Nat × Nat → Nat) : Nat := ((allCuts M N).filter (fun q => y q = truth q)).card

end PGMax
