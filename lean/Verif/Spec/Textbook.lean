import Verif.Spec.BP
import Mathlib.Algebra.Order.Group.Unbundled.Abs
import Mathlib.Data.List.MinMax
import Mathlib.Data.Finset.Lattice.Fold

/-!
# Specification: textbook belief propagation, and how large the numbers may be
-/

namespace PGMax

variable {κ α : Type _}

/-- Every state of every variable of the factor occurs in some configuration. -/
def SFac.Full (F : SFac α) : Prop := ∀ (i : Nat) (v : Var) (s : Nat), F.scope[i]? = some v → s < v.n → F.rowsAt i s ≠ []

/-- The table has every configuration of states exactly once. -/
def SFac.Complete (F : SFac α) : Prop :=
  (F.rows.map (·.1)).Nodup ∧ ∀ c, List.Forall₂ (fun s (v : Var) => s < v.n) c F.scope → ∃ x, (c, x) ∈ F.rows

/-- Any two log potentials of the table differ by at most `R`. -/
def SFac.Within [Sub α] [LE α] (F : SFac α) (R : α) : Prop := ∀ r ∈ F.rows, ∀ r' ∈ F.rows, r.2 - r'.2 ≤ R

/-- The log potentials, evidence and degrees are so small that the constant `-1e5` of the code acts as minus infinity:
`R v` bounds the messages that a variable can send, and for every enumeration factor the total size `W` of a configuration
is at most `1e5`; if some state occurs in no configuration, `W` leaves room for clipping its message at `-1000` (with
damping 0: `W ≤ 99000`). -/
structure Moderate [Field α] [LinearOrder α] (fg : FactorGraph κ α) (lp : List α) (ev : Var → Nat → α) (d : α) : Prop where
  damping : 0 ≤ d ∧ d ≤ 1
  bounds : ∃ R : Var → α,
    (∀ f i v s, IsEdge fg.allScopes f i v → s < v.n → |ev v s| + 1000 * ((edgesOf fg.allScopes v).length : α) ≤ R v) ∧
    ∀ F ∈ tableFacs fg.tables lp, ∃ W, (∀ r ∈ F.rows, |r.2| + (F.scope.map R).sum ≤ W) ∧ W ≤ 100000 ∧
      (F.Full ∨ 1000 * (1 + d) ≤ (1 - d) * (100000 - W))

/-- `b f` bounds how far the entries of a message of factor `f` can lie apart: 1000, where the code clips, or, for a table with all
configurations, the range of its log potentials. -/
def FactorGraph.Spread [Field α] [LinearOrder α] (fg : FactorGraph κ α) (lp : List α) (b : Nat → α) : Prop :=
  ∀ f F, (fg.factors lp)[f]? = some F → b f = 1000 ∨ f < fg.tables.length ∧ F.Complete ∧ F.Within (b f)

/-- As `Moderate`, with messages of factor `f` bounded by `b f` instead of 1000. -/
structure Tame [Field α] [LinearOrder α] (fg : FactorGraph κ α) (lp : List α) (ev : Var → Nat → α) (d : α) (b : Nat → α) : Prop where
  damping : 0 ≤ d ∧ d ≤ 1
  spread : fg.Spread lp b
  bounds : ∃ R : Var → α,
    (∀ f i v s, IsEdge fg.allScopes f i v → s < v.n → |ev v s| + ((edgesOf fg.allScopes v).map (fun e => b e.1)).sum ≤ R v) ∧
    ∀ F ∈ tableFacs fg.tables lp, ∃ W, (∀ r ∈ F.rows, |r.2| + (F.scope.map R).sum ≤ W) ∧ W ≤ 100000 ∧
      (F.Full ∨ 1000 * (1 + d) ≤ (1 - d) * (100000 - W))

/-- What is needed of `exp` and `log` at positive temperatures. -/
structure EnvOk [Field α] [LinearOrder α] (env : Env α) : Prop where
  exp_nonneg : ∀ x, 0 ≤ env.exp x
  exp_zero : env.exp 0 = 1
  log_nonneg : ∀ x, 1 ≤ x → 0 ≤ env.log x
  log_tiny : env.log (env.exp (-100000)) ≤ 0

/-- A factor with the constant `k` added to all its log potentials. -/
def SFac.shift [Add α] (F : SFac α) (k : α) : SFac α := ⟨F.scope, F.rows.map (fun r => (r.1, r.2 + k))⟩

/-- The log potentials `lp'` are `lp` with a constant `k f` added to all log potentials of enumeration factor `f`. -/
def PotShift [Add α] (fg : FactorGraph κ α) (lp lp' : List α) (k : Nat → α) : Prop :=
  ∀ f : Nat, (tableFacs fg.tables lp')[f]? = ((tableFacs fg.tables lp)[f]?).map (fun F : SFac α => F.shift (k f))

/-- The evidence array `ev'` is `ev` with a constant `c v` added to all states of every variable `v`. -/
def EvShift [Add α] [Zero α] (starts : Var → Option Nat) (ev ev' : List α) (c : Var → α) : Prop :=
  ∀ v start, starts v = some start → ∀ s < v.n, readEv starts ev' v s = readEv starts ev v s + c v

/-! ## Textbook max-product belief propagation

A graph is a list of factors; `⊥` is minus infinity. -/

/-- The messages of the variables of factor `f` to it: position in its scope, state. -/
def tbIn [Add α] [Zero α] (factors : List (SFac α)) (ev : Var → Nat → α) (m : Msgs α) (f : Nat) (F : SFac α) : Nat → Nat → α := fun j t =>
  match F.scope[j]? with
  | some w => varToFac (factors.map (·.scope)) ev m w (f, j) t
  | none => 0

/-- The message of a factor to its `i`-th variable in state `s`: the maximum over all configurations with `c[i] = s` of log
potential plus the other variables' messages. -/
def tbOut [Add α] [Zero α] [LinearOrder α] (F : SFac α) (q : Nat → Nat → α) (i s : Nat) : WithBot α :=
  ((F.rowsAt i s).map (scoreBut F.scope.length q i)).maximum

/-- Normalisation of a message of `n` states to maximum 0, and clipping at -1000. -/
def tbNorm [Field α] [LinearOrder α] (n : Nat) (x : Nat → WithBot α) (s : Nat) : α :=
  ((x s).map₂ (fun a b => max (a - b) (-1000)) ((Finset.range n).sup x)).unbotD (-1000)

/-- One synchronous iteration with damping `d`: all new messages from the messages `m`. -/
def tbStep [Field α] [LinearOrder α] (factors : List (SFac α)) (ev : Var → Nat → α) (d : α) (m : Msgs α) : Msgs α := fun f i =>
  match factors[f]? with
  | none => fun _ => 0
  | some F =>
    match F.scope[i]? with
    | none => fun _ => 0
    | some v => tbNorm v.n (fun s => (tbOut F (tbIn factors ev m f F) i s).map (fun x => d * m f i s + (1 - d) * x))

/-- Normalisation of the initial messages. -/
def tbInit [Field α] [LinearOrder α] (factors : List (SFac α)) (m : Msgs α) : Msgs α := fun f i =>
  match factors[f]? with
  | none => fun _ => 0
  | some F =>
    match F.scope[i]? with
    | none => fun _ => 0
    | some v => tbNorm v.n (fun s => (m f i s : WithBot α))

/-- `n` iterations from the messages `m`. -/
def tbRun [Field α] [LinearOrder α] (factors : List (SFac α)) (ev : Var → Nat → α) (d : α) : Nat → Msgs α → Msgs α
  | 0, m => tbInit factors m
  | n + 1, m => tbStep factors ev d (tbRun factors ev d n m)

/-- Two parents of every logical factor with more than one parent have evidence and degrees that are so small that the code's
constant `-1e5` acts as minus infinity. -/
def LogicalModerate [Field α] [LinearOrder α] (fg : FactorGraph κ α) (ev : Var → Nat → α) : Prop :=
  ∀ (f : Nat) (vs : List Var), fg.allScopes[f]? = some vs → fg.tables.length ≤ f → vs.length = 2 ∨
    ∃ j < vs.length - 1, ∃ k < vs.length - 1, j ≠ k ∧ ∀ i, i = j ∨ i = k → ∀ v, vs[i]? = some v →
      -100000 < ev v (1 - fg.restState f) - ev v (fg.restState f) - 1000 * ((edgesOf fg.allScopes v).length : α)

/-- As `LogicalModerate`, with messages of factor `f` bounded by `b f` instead of 1000. -/
def LogicalTame [Field α] [LinearOrder α] (fg : FactorGraph κ α) (ev : Var → Nat → α) (b : Nat → α) : Prop :=
  ∀ (f : Nat) (vs : List Var), fg.allScopes[f]? = some vs → fg.tables.length ≤ f → vs.length = 2 ∨
    ∃ j < vs.length - 1, ∃ k < vs.length - 1, j ≠ k ∧ ∀ i, i = j ∨ i = k → ∀ v, vs[i]? = some v →
      -100000 < ev v (1 - fg.restState f) - ev v (fg.restState f) - ((edgesOf fg.allScopes v).map (fun e => b e.1)).sum

/-- The entries of every initial message of factor `f` lie at most `b f` apart, unless `b f` is 1000. -/
def Mild [Field α] [LinearOrder α] (scopes : List (List Var)) (b : Nat → α) (m : Msgs α) : Prop :=
  ∀ f i v, IsEdge scopes f i v → b f = 1000 ∨ ∀ s < v.n, ∀ t < v.n, m f i s - m f i t ≤ b f

end PGMax
