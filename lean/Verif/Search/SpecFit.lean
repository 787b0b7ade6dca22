/-
Specification for C179.
-/
import Verif.Search.SpecDist

namespace Verif.Search

variable {n : ℕ}

/-- The points lie in a common hyperplane. -/
def InHyperplane (points : List (Vec n)) : Prop :=
  ∃ x : Vec n, x ≠ 0 ∧ ∀ p ∈ points, ∀ q ∈ points, ∑ j, x j * p j = ∑ j, x j * q j

end Verif.Search
