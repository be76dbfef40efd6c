import Verif.Model.Pytree

/-! Independent descriptions for C116. -/

namespace PGMax

variable {α : Type _}

/-- A batch of `BPArrays`: every part is the list of the parts of the samples. -/
def IsBatchOf (as : List (BPArrays α)) (b : BPArrays (List α)) : Prop :=
  b.logPotentials = as.map BPArrays.logPotentials ∧ b.ftovMsgs = as.map BPArrays.ftovMsgs ∧ b.evidence = as.map BPArrays.evidence

end PGMax
