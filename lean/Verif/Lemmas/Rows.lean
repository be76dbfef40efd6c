import Verif.Lemmas.Block

/-! Helper lemmas: lists made of rows of the same length. -/

namespace PGMax

theorem flatMap_row {β γ : Type _} (l : List β) (f : β → List γ) (K c s : Nat) (hK : ∀ y ∈ l, (f y).length = K) {y : β} (hc : l[c]? = some y) (hs : s < K) :
    (l.flatMap f)[c * K + s]? = (f y)[s]? := by
  have hlt := (List.getElem?_eq_some_iff.1 hc).1
  have := flatMap_getElem?_block l f c s y hc (by rw [hK y (List.mem_of_getElem? hc)]; exact hs)
  rwa [show l.map (fun y => (f y).length) = List.replicate l.length K from List.eq_replicate_iff.2 ⟨by simp, by simpa using hK⟩, sum_replicate_take _ _ _ (by omega)] at this

end PGMax
