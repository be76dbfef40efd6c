import Verif.Spec.SumProduct

/-!
# Specification: belief propagation with the constant `-1e5` made explicit

The same messages on functions (factor, position, state) as in `Spec/Textbook.lean` and `Spec/SumProduct.lean`, for numbers of any
size.  Wherever the code uses the constant `-1e5` as minus infinity, it occurs here as that number.
-/

namespace PGMax

variable {κ α : Type _}

section
variable [Field α] [LinearOrder α]

/-- The largest of `-1e5` and the elements of a list. -/
def maxFloor (l : List α) : α := l.foldl max (-100000)

/-- The message of an enumeration factor, max-product: scores include the incoming message of the receiving variable, are replaced
by `-1e5` if all are smaller, and the incoming message is subtracted again. -/
def flEnum (F : SFac α) (q : Nat → Nat → α) (i s : Nat) : α :=
  maxFloor ((F.rowsAt i s).map (fun r => scoreBut F.scope.length q i r + q i s)) - q i s

/-- The last position of the largest element of `xs` if that is at least `-1e5`, otherwise the last position. -/
def lastTop (xs : List α) : Nat := ((List.range xs.length).filter (fun j => xs.getD j 0 = maxFloor xs)).getLastD (xs.length - 1)

/-- The last position of the largest element of `xs` when the one at `lastTop xs` is replaced by `-1e5`. -/
def secondTop (xs : List α) : Nat := lastTop (xs.set (lastTop xs) (-100000))

/-- The message of a logical factor to position `i` in the determining state (relative to the other state), max-product. `xs` are the
parents' and `y` is the child's preference for the determining state. -/
def flLogical (xs : List α) (y : α) (i : Nat) : α :=
  if i = xs.length then (xs.map (fun x => max 0 x)).sum + min 0 (xs.getD (lastTop xs) 0)
  else if xs.length = 1 then y
  else min (y + (xs.map (fun x => max 0 x)).sum - max 0 (xs.getD i 0))
    (max 0 (-(xs.getD (if i = lastTop xs then secondTop xs else lastTop xs) 0)))

/-- The preferences of the incoming messages of the first `n` positions for the determining state `1 - rest`. -/
def prefs (rest n : Nat) (q : Nat → Nat → α) : List α := (List.range n).map (fun j => q j (1 - rest) - q j rest)

/-- The messages of factor `f`, max-product. -/
def flOut (fg : FactorGraph κ α) (f : Nat) (F : SFac α) (q : Nat → Nat → α) (i s : Nat) : α :=
  if f < fg.tables.length then flEnum F q i s
  else if s = fg.restState f then 0
  else flLogical (prefs (fg.restState f) (F.scope.length - 1) q) (q (F.scope.length - 1) (1 - fg.restState f) - q (F.scope.length - 1) (fg.restState f)) i

/-- The messages of factor `f`, max-product, if only enumeration factors have a floor: a logical factor sends the maximum over its
configurations, with value 0 in the state that is not determining. -/
def flOutLimit (fg : FactorGraph κ α) (f : Nat) (F : SFac α) (q : Nat → Nat → α) (i s : Nat) : α :=
  if f < fg.tables.length then flEnum F q i s
  else maxOf 0 ((F.rowsAt i s).map (scoreBut F.scope.length q i)) - maxOf 0 ((F.rowsAt i (fg.restState f)).map (scoreBut F.scope.length q i))

/-- Some variable in a factor has more than `n` states. -/
def Exceeded (scopes : List (List Var)) (n : Nat) : Prop := ∃ vs ∈ scopes, ∃ v ∈ vs, n < v.n

instance (scopes : List (List Var)) (n : Nat) : Decidable (Exceeded scopes n) := by unfold Exceeded; infer_instance

/-- Normalisation of a message of `n` states: subtract the maximum, of the message and `-1e5` if some variable has more states, and
clip at -1000. -/
def flNorm (scopes : List (List Var)) (n : Nat) (x : Nat → α) (s : Nat) : α :=
  max (x s - maxOf 0 ((List.range n).map x ++ if Exceeded scopes n then [-100000] else [])) (-1000)

/-- One synchronous iteration with damping `d`, for any rule `out` for the messages of the factors. -/
def flStep (out : Nat → SFac α → (Nat → Nat → α) → Nat → Nat → α) (factors : List (SFac α)) (ev : Var → Nat → α) (d : α) (m : Msgs α) :
    Msgs α := fun f i =>
  match factors[f]? with
  | none => fun _ => 0
  | some F =>
    match F.scope[i]? with
    | none => fun _ => 0
    | some v => flNorm (factors.map (·.scope)) v.n (fun s => d * m f i s + (1 - d) * out f F (tbIn factors ev m f F) i s)

/-- Normalisation of the initial messages. -/
def flInit (factors : List (SFac α)) (m : Msgs α) : Msgs α := fun f i =>
  match factors[f]? with
  | none => fun _ => 0
  | some F =>
    match F.scope[i]? with
    | none => fun _ => 0
    | some v => flNorm (factors.map (·.scope)) v.n (m f i)

/-- `n` iterations from the messages `m`. -/
def flRun (out : Nat → SFac α → (Nat → Nat → α) → Nat → Nat → α) (factors : List (SFac α)) (ev : Var → Nat → α) (d : α) : Nat → Msgs α → Msgs α
  | 0, m => flInit factors m
  | n + 1, m => flStep out factors ev d (flRun out factors ev d n m)

end

/-- The message of an enumeration factor at temperature `T > 0`: as for max-product with `T log Σ exp (· / T)` instead of the maximum;
the sum has one more summand, `exp (-1e5)` times the exponential of the floored maximum. -/
noncomputable def flEnumSum (T : ℝ) (F : SFac ℝ) (q : Nat → Nat → ℝ) (i s : Nat) : ℝ :=
  lse T ((maxFloor ((F.rowsAt i s).map (fun r => scoreBut F.scope.length q i r + q i s)) - T * 100000)
    :: (F.rowsAt i s).map (fun r => scoreBut F.scope.length q i r + q i s)) - q i s

/-- The messages of factor `f` at temperature `T > 0`. A logical factor sends textbook sum-product messages, with value 0 in the state
that is not determining; there is no floor. -/
noncomputable def flOutSum (T : ℝ) (fg : FactorGraph κ ℝ) (f : Nat) (F : SFac ℝ) (q : Nat → Nat → ℝ) (i s : Nat) : ℝ :=
  if f < fg.tables.length then flEnumSum T F q i s
  else lse T ((F.rowsAt i s).map (scoreBut F.scope.length q i)) - lse T ((F.rowsAt i (fg.restState f)).map (scoreBut F.scope.length q i))

end PGMax
