import Verif.Spec.Tree
import Verif.Model.BPState

/-! Specifications for the programs in `examples/`. -/

namespace PGMax

variable {κ α : Type _}

/-- The spin of a binary state: up (`1`) for state 0, down (`-1`) for state 1. -/
def spin [Ring α] (s : Nat) : α := if s = 0 then 1 else -1

/-- `cell` names the variables of an `m` by `n` array of variables with `k` states each: `variables[i, j]` is `cell i j`, different cells
are different variables, and there are no others. -/
structure IsGrid (g : NDVarArray) (m n k : Nat) (cell : Nat → Nat → Var) : Prop where
  getitem : ∀ i < m, ∀ j < n, g.getitem [.int i, .int j] = .ok (.one (cell i j))
  states : ∀ i < m, ∀ j < n, (cell i j).n = k
  inj : ∀ i < m, ∀ j < n, ∀ i' < m, ∀ j' < n, cell i j = cell i' j' → i = i' ∧ j = j'
  vars : ∀ v, v ∈ g.variables ↔ ∃ i < m, ∃ j < n, v = cell i j

/-- Cell `q` is the neighbour below or to the right of cell `p` on an `m` by `n` torus. -/
def TorusNext (m n : Nat) (p q : Nat × Nat) : Prop := q = ((p.1 + 1) % m, p.2) ∨ q = (p.1, (p.2 + 1) % n)

/-- A symmetry of the `m` by `n` torus: it maps different cells to different cells and neighbours to neighbours. -/
structure TorusSym (m n : Nat) (φ : Nat × Nat → Nat × Nat) : Prop where
  cells : ∀ p, p.1 < m → p.2 < n → (φ p).1 < m ∧ (φ p).2 < n
  inj : ∀ p q, p.1 < m → p.2 < n → q.1 < m → q.2 < n → φ p = φ q → p = q
  next : ∀ p q, p.1 < m → p.2 < n → TorusNext m n p q → TorusNext m n (φ p) (φ q) ∨ TorusNext m n (φ q) (φ p)

/-- `cell` names the variables of an array of variables with `k` states each by their coordinates. -/
structure IsArr (g : NDVarArray) (shape : List Nat) (k : Nat) (cell : List Nat → Var) : Prop where
  getitem : ∀ cs, List.Forall₂ (fun c d => c < d) cs shape → g.getitem (cs.map (fun (c : Nat) => .int (c : Int))) = .ok (.one (cell cs))
  states : ∀ cs, List.Forall₂ (fun c d => c < d) cs shape → (cell cs).n = k
  inj : ∀ cs ds, List.Forall₂ (fun c d => c < d) cs shape → List.Forall₂ (fun c d => c < d) ds shape → cell cs = cell ds → cs = ds
  vars : ∀ v, v ∈ g.variables ↔ ∃ cs, List.Forall₂ (fun c d => c < d) cs shape ∧ v = cell cs

/-- Sizes of images and features for which features fit into the images and there is at least one of everything, and at most `10 ^ 9`
combinations of a pixel and a pixel of a feature. -/
def DeconvSizes (nImg nChan imH imW nFeat fH fW : Nat) : Prop :=
  1 ≤ nImg ∧ 1 ≤ nChan ∧ 1 ≤ nFeat ∧ 1 ≤ fH ∧ fH ≤ imH ∧ 1 ≤ fW ∧ fW ≤ imW ∧ nImg * nChan * imH * imW * nFeat * fH * fW ≤ 1000000000

/-- Sizes of the parameters of a restricted Boltzmann machine: at least one hidden and one visible variable, at most `10 ^ 9` of each, and one
weight for every pair. -/
def RbmSizes (bh bv : List α) (W : NDArr α) : Prop :=
  1 ≤ bh.length ∧ bh.length ≤ 1000000000 ∧ 1 ≤ bv.length ∧ bv.length ≤ 1000000000 ∧ W.data.length = bh.length * bv.length

/-- The states `s` and `t`, read as positions in an array with rows of length `w`, differ by at most `r` in both coordinates. -/
def WithinRadius (w r s t : Nat) : Prop := s / w ≤ t / w + r ∧ t / w ≤ s / w + r ∧ s % w ≤ t % w + r ∧ t % w ≤ s % w + r

/-- Edges of recursive cortical networks of the given sizes: one list of edges for every network, of at most `10 ^ 9` variables, between
variables of the network and with radius below 22, and no two of them between the same variables. -/
structure RcnOk (sizes : List Nat) (edges : List (List (Nat × Nat × Nat))) : Prop where
  len : sizes.length = edges.length
  small : ∀ idx < sizes.length, sizes.getD idx 0 ≤ 1000000000
  ends : ∀ idx < edges.length, ∀ e ∈ edges.getD idx [], e.1 < sizes.getD idx 0 ∧ e.2.1 < sizes.getD idx 0 ∧ e.2.2 < 22
  simple : ∀ idx < edges.length, ((edges.getD idx []).map (fun e => ({e.1, e.2.1} : Finset Nat))).Nodup

/-- The entry of an array at the coordinates `cs`. -/
def NDArr.read [Zero α] (a : NDArr α) (cs : List Nat) : α := a.data.getD (rowMajor a.shape cs) 0

/-- The window of radius `hps` and `vps` around the position of a feature `p = (f, r, c)` lies inside images of `F` channels and `H` by `W`
pixels. -/
def RcnInside (hps vps F H W : Nat) (p : Nat × Nat × Nat) : Prop :=
  p.1 < F ∧ hps ≤ p.2.1 ∧ p.2.1 + hps < H ∧ vps ≤ p.2.2 ∧ p.2.2 + vps < W

/-- The sum of the entries of `bu` at the displaced positions of the features of a network: feature `i`, with `(f, r, c) = frc[i]`, is displaced to the
position `y i` of its window, whose rows have `2 * vps + 1` pixels. -/
def deformScore [AddCommMonoid α] (hps vps : Nat) (bu : NDArr α) (frc : List (Nat × Nat × Nat)) (y : Nat → Nat) : α :=
  ∑ i ∈ Finset.range frc.length,
    bu.read [(frc.getD i (0, 0, 0)).1, (frc.getD i (0, 0, 0)).2.1 - hps + y i / (2 * vps + 1), (frc.getD i (0, 0, 0)).2.2 - vps + y i % (2 * vps + 1)]

/-- The graph of a network with edges `es`, without their radius. -/
def rcnNet (es : List (Nat × Nat × Nat)) : SimpleGraph Nat := SimpleGraph.fromRel (fun i j => ∃ r, (i, j, r) ∈ es)

/-- `y` displaces all `n` features of a network inside their windows such that the displacements of the ends of every edge differ at most by its radius. -/
def RcnFeasible (hps vps n : Nat) (es : List (Nat × Nat × Nat)) (y : Nat → Nat) : Prop :=
  (∀ i < n, y i < (2 * hps + 1) * (2 * vps + 1)) ∧ ∀ e ∈ es, WithinRadius (2 * vps + 1) e.2.2 (y e.1) (y e.2.1)

/-- `y` is the only feasible deformation with the largest score. -/
structure RcnBest [AddCommMonoid α] [LE α] (hps vps : Nat) (bu : NDArr α) (frc : List (Nat × Nat × Nat)) (es : List (Nat × Nat × Nat)) (y : Nat → Nat) : Prop where
  feasible : RcnFeasible hps vps frc.length es y
  best : ∀ y', RcnFeasible hps vps frc.length es y' → deformScore hps vps bu frc y' ≤ deformScore hps vps bu frc y
  unique : ∀ y', RcnFeasible hps vps frc.length es y' → deformScore hps vps bu frc y' = deformScore hps vps bu frc y → ∀ i < frc.length, y' i = y i

/-- What the program has to return for networks with features `frcs` and edges `edges`: the best deformation of every network that has only one, with its score;
and, if all networks have only one best deformation, the first network for which its score is largest. -/
structure RcnExact [AddCommMonoid α] [LinearOrder α] (hps vps : Nat) (bu : NDArr α) (frcs edges : List (List (Nat × Nat × Nat))) (maps : List (NDArr Nat)) (scores : List α)
    (best : Nat) : Prop where
  network : ∀ (idx : Nat) frc, frcs[idx]? = some frc → ∀ y, RcnBest hps vps bu frc (edges.getD idx []) y →
    maps[idx]? = some ⟨[frc.length], (List.range frc.length).map y⟩ ∧ scores[idx]? = some (deformScore hps vps bu frc y)
  prediction : ∀ y : Nat → Nat → Nat, frcs ≠ [] → (∀ idx < frcs.length, RcnBest hps vps bu (frcs.getD idx []) (edges.getD idx []) (y idx)) →
    IsFirstMax (fun idx => deformScore hps vps bu (frcs.getD idx []) (y idx)) frcs.length best

end PGMax
