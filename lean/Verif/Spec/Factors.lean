import Verif.Spec.BP

/-! Specification for C61: what a factor object describes. -/

namespace PGMax

variable {α : Type _}

/-- The variables, configurations and log potentials of a factor object. -/
def AnyFactor.describes [Zero α] : AnyFactor α → SFac α
  | .enum f => ⟨f.vars, f.configs.rows.zip f.logPotentials⟩
  | .logical f => ⟨f.vars, if f.isAnd then andRows (f.vars.length - 1) else orRows (f.vars.length - 1)⟩

/-- The type of a factor object. -/
def AnyFactor.typeOf : AnyFactor α → FType
  | .enum _ => .enum
  | .logical f => if f.isAnd then .and else .or

end PGMax
