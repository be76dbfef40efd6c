import Verif.Spec.FGraph
import Verif.Model.Cache

/-! Independent specification for C12: what the user has built, and what compiling it from scratch gives. -/

namespace PGMax

variable {κ α : Type _}

/-- A graph as the user built it: the variable groups and the arguments of all `add_factors` calls so far. -/
structure Built (κ α : Type _) where
  vgs : List (VGroup κ)
  hist : List (AddArg α)

/-- The graph itself. -/
def Built.graph (b : Built κ α) : FactorGraph κ α := graphOf b.vgs b.hist

/-- All graphs after a sequence of calls; calls that only query build nothing. -/
def builtBy : List (Call κ α) → List (Built κ α) :=
  List.foldl (fun bs c => match c with
    | .new vgs => bs ++ [⟨vgs, []⟩]
    | .add i a => bs.modify i (fun b => { b with hist := b.hist ++ [a] })
    | _ => bs) []

/-- The process after a sequence of calls. -/
def World.after [Field α] [LinearOrder α] (H : List Nat → Nat) (garbage : Garbage) (calls : List (Call κ α)) : World κ α :=
  calls.foldl (World.exec H garbage) World.empty

/-- The ids of the factor groups in a graph, in the order of `__hash__`. -/
def Built.ids (b : Built κ α) : List Nat := (FType.all.flatMap b.graph.groups).map (·.objId)

/-- The hashes of the variable groups of a graph. -/
def Built.vgHashes (b : Built κ α) : List Nat := b.vgs.map VGroup.hash

/-- `b` is a graph of the process at some time during the calls. -/
def Occurs (calls : List (Call κ α)) (b : Built κ α) : Prop := ∃ p, p <+: calls ∧ b ∈ builtBy p

/-- Hashes and ids identify what they stand for, among the graphs that occur: no collision of the hashes of tuples of
factor groups, no collision of the hashes of variable groups, and factor groups with the same id are the same object. -/
structure Faithful (H : List Nat → Nat) (calls : List (Call κ α)) : Prop where
  tuples : ∀ b c, Occurs calls b → Occurs calls c → H b.ids = H c.ids → b.ids = c.ids
  vgroups : ∀ b c, Occurs calls b → Occurs calls c → b.vgHashes = c.vgHashes → b.vgs = c.vgs
  groups : ∀ b c, Occurs calls b → Occurs calls c → ∀ t u, ∀ g ∈ b.graph.groups t, ∀ h ∈ c.graph.groups u,
    g.objId = h.objId → g = h

/-- Discipline in the use of `compute_offsets`.  Lists of variable groups are divided into exclusive ones (`P`) and
others.  At most one graph is made from an exclusive list.  On graphs made from the others `compute_offsets` is not
called directly, and `fg_state` / `bp_state` only when the graph compiles. -/
def Disciplined (garbage : Garbage) (P : List Nat → Prop) (calls : List (Call κ α)) : Prop :=
  (∀ (i j : Nat) (b c : Built κ α), (builtBy calls)[i]? = some b → (builtBy calls)[j]? = some c → b.vgHashes = c.vgHashes →
    P b.vgHashes → i = j) ∧
  ∀ p c, p ++ [c] <+: calls → ∀ (i : Nat) (b : Built κ α), (builtBy p)[i]? = some b → ¬ P b.vgHashes →
    (c ≠ .computeOffsets i) ∧
    (c = .fgState i ∨ c = .bpState i → ∃ st, b.graph.fgState garbage = .ok st)

end PGMax
