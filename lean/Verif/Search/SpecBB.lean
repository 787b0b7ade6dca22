/-
Specification for the black-box optimizers (C97, C98) and their vectorised use (C99).
-/
import Verif.Search.ModelBB
import Verif.Search.SpecDist
import Verif.Search.SpecPG

namespace Verif.Search

open Matrix

variable {n : ℕ}

/-- `q` is a probability distribution over the episodes. -/
def IsProb (q : List ℝ) : Prop := (∀ x ∈ q, 0 ≤ x) ∧ q.sum = 1

/-- The divergence of a distribution over the episodes from the uniform one. -/
noncomputable def klUniform (q : List ℝ) : ℝ := (q.map (fun x => x * Real.log (q.length * x))).sum

/-- The weights divided by their sum. -/
noncomputable def normalise (w : List ℝ) : List ℝ := w.map (fun x => x / w.sum)

/-- The expected return. -/
noncomputable def expectedJ (q J : List ℝ) : ℝ := (List.zipWith (fun a x => a * x) q J).sum

/-- The value of the quadratic model of the returns. -/
def surrogateAt (R : Matrix (Fin n) (Fin n) ℝ) (r : Vec n) (r0 : ℝ) (x : Vec n) : ℝ := x ⬝ᵥ (R *ᵥ x) + x ⬝ᵥ r + r0

/-- Its expectation under a distribution with mean `m` and covariance `s`. -/
noncomputable def surrogateMean (R : Matrix (Fin n) (Fin n) ℝ) (r : Vec n) (r0 : ℝ) (m : Vec n) (s : Matrix (Fin n) (Fin n) ℝ) : ℝ :=
  (R * s).trace + m ⬝ᵥ (R *ᵥ m) + m ⬝ᵥ r + r0

/-- The objective of MORE for given multipliers: the expected surrogate, with a bound `eps` on the divergence of the new distribution
from the old one (mean `b`, covariance `Q`), and a bound `beta` from below on its entropy. -/
noncomputable def moreObjective (Q : Matrix (Fin n) (Fin n) ℝ) (b : Vec n) (R : Matrix (Fin n) (Fin n) ℝ) (r : Vec n)
    (r0 eps beta eta omg : ℝ) (m : Vec n) (s : Matrix (Fin n) (Fin n) ℝ) : ℝ :=
  surrogateMean R r r0 m s + eta * (eps - gaussKL m s b Q) + omg * (gaussEntropy s - beta)

end Verif.Search
