import Verif.Spec.BP

/-!
# Specification: neighbourhoods, and graphs that look alike from near a variable

A factor graph is described by the lists of variables of its factors (`scopes`). A map `φ` of factors and a map `ψ` of variables relate a
graph to another one. Nothing is said about the graphs as a whole: several variables may have the same image.
-/

namespace PGMax

variable {κ κ' α : Type _}

/-- Variable `u` can be reached from `w` in at most `n` steps, where a step goes from a variable to a variable of the same factor. -/
def Within (scopes : List (List Var)) : Nat → Var → Var → Prop
  | 0, w, u => u = w
  | n + 1, w, u => u = w ∨ ∃ vs ∈ scopes, w ∈ vs ∧ ∃ x ∈ vs, Within scopes n x u

/-- Factor `f` and its image are of the same type, with the image variables at the same positions, and with the same configurations and
log potentials (in some order). -/
def SameFactor [Zero α] (fg : FactorGraph κ α) (fg' : FactorGraph κ' α) (lp lp' : List α) (φ : Nat → Nat) (ψ : Var → Var) (f : Nat) : Prop :=
  (f < (fg.scopesOf .enum).length ↔ φ f < (fg'.scopesOf .enum).length) ∧
  ((fg.scopesOf .enum).length ≤ f → fg'.restState (φ f) = fg.restState f) ∧
  ∃ F F', (fg.factors lp)[f]? = some F ∧ (fg'.factors lp')[φ f]? = some F' ∧ F'.scope = F.scope.map ψ ∧ F'.rows.Perm F.rows

/-- Variable `w` and its image occur in the same way in factors that are the same. -/
structure SameAround [Zero α] (fg : FactorGraph κ α) (fg' : FactorGraph κ' α) (lp lp' : List α) (φ : Nat → Nat) (ψ : Var → Var) (w : Var) : Prop where
  /-- the places of `w` in factors correspond one to one to the places of its image -/
  places : ((edgesOf fg.allScopes w).map (fun e => (φ e.1, e.2))).Perm (edgesOf fg'.allScopes (ψ w))
  /-- the factors of `w` are the same as the factors of its image -/
  facs : ∀ e ∈ edgesOf fg.allScopes w, SameFactor fg fg' lp lp' φ ψ e.1

/-- Variable `w` and its image have as many states, with the same evidence. -/
def SameEvidence (ev ev' : Var → Nat → α) (ψ : Var → Var) (w : Var) : Prop :=
  (ψ w).n = w.n ∧ ∀ s < w.n, ev' (ψ w) s = ev w s

/-- The messages to `w` are those to its image. -/
def SameTo (scopes : List (List Var)) (m m' : Msgs α) (φ : Nat → Nat) (w : Var) : Prop :=
  ∀ e ∈ edgesOf scopes w, ∀ s < w.n, m' (φ e.1) e.2 s = m e.1 e.2 s

/-- The largest variables in factors have as many states in both graphs. -/
def SameLargest (scopes scopes' : List (List Var)) : Prop :=
  ∀ N : Nat, (∃ vs ∈ scopes, ∃ v ∈ vs, N ≤ v.n) ↔ ∃ vs ∈ scopes', ∃ v ∈ vs, N ≤ v.n

end PGMax
