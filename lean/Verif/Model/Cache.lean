import Verif.Model.BP

/-!
# Model of the process-global memoisation of `FactorGraph`

`compute_offsets` is decorated with `functools.lru_cache(None)` (fgraph.py:160) and `wiring`, `log_potentials`, `factors` and
`fg_state` with `property(functools.lru_cache(None)(func))` (utils.py:11-20): one unbounded table per function, shared
by all graphs of the process, which stores results of calls that return and nothing for calls that raise.

The table of a function of one argument is a Python dict keyed by the tuple `(graph,)`.  A dict remembers the hash a key
had when it was inserted and reports a hit iff that hash equals the present hash of the argument and the keys are the
same object or compare equal.

* The hash of a graph is the hash of the tuple of its factor groups *at that moment* (fgraph.py:109-117); the hash of
  a factor group is its id (fgroup.py:53-54).  The hash of a tuple of ids is a parameter `H`.
* `FactorGraph` is a `@dataclass` with one field, so two graphs compare equal iff their lists `variable_groups` do
  (fgraph.py:66,75), i.e. iff the lists of hashes of their variable groups are equal (vgroup.py:35-39).  The field is
  never reassigned after construction, so the model keeps it in the key.

`compute_offsets` returns nothing and works by assigning attributes of the graph it is called on: on a hit the attributes
are left as they are, absent or old.

Not modelled: user code that assigns to `variable_groups` or to private attributes.
-/

namespace PGMax

variable {κ α : Type _}

/-- What a cache entry remembers of the graph it was made for. Code: `pgmax/fgraph/fgraph.py:66`, `75`, `109-117`. -/
structure CacheKey where
  hash : Nat
  vgs : List Nat
  deriving DecidableEq, Repr

/-- `pgmax/fgraph/fgraph.py:109-117`, `FactorGraph.__hash__`, with the field compared by the dataclass `__eq__`. -/
def FactorGraph.cacheKey (H : List Nat → Nat) (fg : FactorGraph κ α) : CacheKey :=
  ⟨H ((FType.all.flatMap fg.groups).map (·.objId)), fg.varGroups.map VGroup.hash⟩

/-- A `FactorGraph` object: the graph and the attributes assigned by `compute_offsets` (fgraph.py:171-206), if any. -/
structure GraphObj (κ α : Type _) where
  fg : FactorGraph κ α
  offs : Option FactorGraph.Offsets

/-- The Python process: all graph objects (an object is its number) and the five tables.  A compiled state carries the
identity of the Python object (a number), because `BPState` compares states by identity. Code: `pgmax/fgraph/fgraph.py:160`, `pgmax/utils.py:11-20`. -/
structure World (κ α : Type _) where
  graphs : List (GraphObj κ α)
  offsC : List CacheKey
  potsC : List (CacheKey × (FType → List α))
  wirC : List (CacheKey × Wirings)
  fgC : List (CacheKey × Nat × FGState κ α)
  facC : List (CacheKey × List (FType × List (AnyFactor α)))

namespace World

/-- No graph yet, all tables empty. Code: `pgmax/fgraph/fgraph.py:160`, `pgmax/utils.py:11-20`. -/
def empty : World κ α := ⟨[], [], [], [], [], []⟩

/-- `pgmax/fgraph/fgraph.py:77-107`: `FactorGraph(variable_groups)`. -/
def new (w : World κ α) (vgs : List (VGroup κ)) : World κ α :=
  { w with graphs := w.graphs ++ [⟨FactorGraph.create vgs, none⟩] }

/-- `pgmax/fgraph/fgraph.py:119-158`: `graph.add_factors(a)`. -/
def add (w : World κ α) (i : Nat) (a : AddArg α) : World κ α × Option PyErr :=
  match w.graphs[i]? with
  | none => (w, some .keyError)
  | some o =>
      let r := o.fg.addFactors a
      ({ w with graphs := w.graphs.set i { o with fg := r.1 } }, r.2)

/-- `pgmax/fgraph/fgraph.py:160-206`: `graph.compute_offsets()`. -/
def computeOffsets (H : List Nat → Nat) (w : World κ α) (i : Nat) : World κ α :=
  match w.graphs[i]? with
  | none => w
  | some o =>
      if o.fg.cacheKey H ∈ w.offsC then w
      else { w with graphs := w.graphs.set i { o with offs := some o.fg.computeOffsets }
                    offsC := o.fg.cacheKey H :: w.offsC }

/-- `pgmax/fgraph/fgraph.py:237-259`: `graph.log_potentials`. -/
def logPotentials (H : List Nat → Nat) (w : World κ α) (o : GraphObj κ α) : World κ α × (FType → List α) :=
  match w.potsC.lookup (o.fg.cacheKey H) with
  | some p => (w, p)
  | none => ({ w with potsC := (o.fg.cacheKey H, o.fg.logPotentialsOf) :: w.potsC }, o.fg.logPotentialsOf)

/-- `pgmax/fgraph/fgraph.py:208-235`: `graph.wiring`. -/
def wiring (H : List Nat → Nat) (garbage : Garbage) (w : World κ α) (o : GraphObj κ α) : World κ α × Py Wirings :=
  match w.wirC.lookup (o.fg.cacheKey H) with
  | some x => (w, .ok x)
  | none =>
      match o.fg.wiring garbage with
      | .error e => (w, .error e)
      | .ok x => ({ w with wirC := (o.fg.cacheKey H, x) :: w.wirC }, .ok x)

/-- `pgmax/fgraph/fgraph.py:261-286`: `graph.factors`. -/
def factors (H : List Nat → Nat) (w : World κ α) (o : GraphObj κ α) : World κ α × Py (List (FType × List (AnyFactor α))) :=
  match w.facC.lookup (o.fg.cacheKey H) with
  | some x => (w, .ok x)
  | none =>
      match o.fg.allFactors with
      | .error e => (w, .error e)
      | .ok x => ({ w with facC := (o.fg.cacheKey H, x) :: w.facC }, .ok x)

/-- `pgmax/fgraph/fgraph.py:293-317`: `graph.fg_state`.  The body calls `compute_offsets` (line 297) and reads
`log_potentials` (lines 298-300), then evaluates the arguments of `FactorGraphState` in order: the attributes left by
`compute_offsets` (lines 307-314) and, last, `wiring`. -/
def fgState (H : List Nat → Nat) (garbage : Garbage) (w : World κ α) (i : Nat) : World κ α × Py (Nat × FGState κ α) :=
  match w.graphs[i]? with
  | none => (w, .error .keyError)
  | some o =>
      match w.fgC.lookup (o.fg.cacheKey H) with
      | some s => (w, .ok s)
      | none =>
          let w1 := w.computeOffsets H i
          match w1.graphs[i]? with
          | none => (w1, .error .keyError)
          | some o1 =>
              let r := w1.logPotentials H o1
              match o1.offs with
              | none => (r.1, .error .attributeError)
              | some off =>
                  match r.1.wiring H garbage o1 with
                  | (w3, .error e) => (w3, .error e)
                  | (w3, .ok x) =>
                      let s : FGState κ α :=
                        { varGroups := o1.fg.varGroups, varsToStarts := o1.fg.varsToStarts
                          numVarStates := o1.fg.numVarStates
                          totalFactorNumStates := off.totalNumStates, typeToMsgsRange := off.typeToMsgsRange
                          typeToPotsRange := off.typeToPotsRange, groupToPotsStart := off.groupToPotsStart
                          logPotentials := FType.all.flatMap r.2, wiring := x }
                      ({ w3 with fgC := (o1.fg.cacheKey H, w3.fgC.length, s) :: w3.fgC }, .ok (w3.fgC.length, s))

/-- `pgmax/fgraph/fgraph.py:319-331`: `graph.bp_state`; `fg_state` is read three times. -/
def bpState [Field α] [LinearOrder α] (H : List Nat → Nat) (garbage : Garbage) (w : World κ α) (i : Nat) :
    World κ α × Py (BPState α) :=
  match (w.computeOffsets H i).fgState H garbage i with
  | (w1, .error e) => (w1, .error e)
  | (w1, .ok s1) =>
      match LogPotentials.create s1.1 s1.2 none with
      | .error e => (w1, .error e)
      | .ok lp =>
          match w1.fgState H garbage i with
          | (w2, .error e) => (w2, .error e)
          | (w2, .ok s2) =>
              match FToVMessages.create s2.1 s2.2 none with
              | .error e => (w2, .error e)
              | .ok ft =>
                  match w2.fgState H garbage i with
                  | (w3, .error e) => (w3, .error e)
                  | (w3, .ok s3) =>
                      match Evidence.create s3.1 s3.2 none with
                      | .error e => (w3, .error e)
                      | .ok ev => (w3, BPState.create lp ft ev)

end World

/-- A call made by the user on one of the graphs of the process. Code: `pgmax/fgraph/fgraph.py:77-331`. -/
inductive Call (κ α : Type _)
  | new (vgs : List (VGroup κ))
  | add (i : Nat) (a : AddArg α)
  | computeOffsets (i : Nat)
  | logPotentials (i : Nat)
  | wiring (i : Nat)
  | factors (i : Nat)
  | fgState (i : Nat)
  | bpState (i : Nat)

/-- The process after a call, exceptions being caught. Code: `pgmax/fgraph/fgraph.py:77-331`. -/
def World.exec [Field α] [LinearOrder α] (H : List Nat → Nat) (garbage : Garbage) (w : World κ α) : Call κ α → World κ α
  | .new vgs => w.new vgs
  | .add i a => (w.add i a).1
  | .computeOffsets i => w.computeOffsets H i
  | .logPotentials i => match w.graphs[i]? with
      | none => w
      | some o => (w.logPotentials H o).1
  | .wiring i => match w.graphs[i]? with
      | none => w
      | some o => (w.wiring H garbage o).1
  | .factors i => match w.graphs[i]? with
      | none => w
      | some o => (w.factors H o).1
  | .fgState i => (w.fgState H garbage i).1
  | .bpState i => (w.bpState H garbage i).1

end PGMax
