import Verif.Spec.BP

/-! # Specification: two descriptions of the same factors -/

namespace PGMax

variable {κ κ' α : Type _}

/-- The same factor, up to the order in which its configurations are listed. -/
def SFac.Same (F F' : SFac α) : Prop := F.scope = F'.scope ∧ F.rows.Perm F'.rows

/-- Two graphs with the same factors of each type, in the same order, up to the order of the configurations; `lp`, `lp'` are their
log potentials.  Nothing is said about how factors are grouped, nor about the variable groups. -/
structure SameFactors [Zero α] (fg : FactorGraph κ α) (fg' : FactorGraph κ' α) (lp lp' : List α) : Prop where
  facs : List.Forall₂ SFac.Same (fg.factors lp) (fg'.factors lp')
  types : ∀ t, (fg.scopesOf t).length = (fg'.scopesOf t).length

end PGMax
