import Verif.Spec.SumProduct

/-!
# Specification: factors that share no variables
-/

namespace PGMax

variable {α : Type _}

/-- No variable is in two factors, or twice in one. -/
def Separate (scopes : List (List Var)) : Prop := ∀ v, (edgesOf scopes v).length ≤ 1

/-- What the variables of factor `F` say without any messages: their evidence. -/
def evidenceIn [Zero α] (F : SFac α) (ev : Var → Nat → α) : Nat → Nat → α := fun j t =>
  match F.scope[j]? with
  | some w => ev w t
  | none => 0

/-- The message that approaches `x` (a value for each of `N` states, `⊥` for minus infinity) from nothing and has come the part `1 - d ^ n` of the way, with maximum 0 and
clipped at -1000. -/
def fadedMsg [Field α] [LinearOrder α] (d : α) (n N : Nat) (x : Nat → WithBot α) (s : Nat) : α :=
  ((x s).map₂ (fun a b => max ((1 - d ^ n) * (a - b)) (-1000)) ((Finset.range N).sup x)).unbotD (-1000)

end PGMax
