/-
Specification vocabulary for the sampling of the prioritized replay memory (C158).
-/
import Verif.Memory.ModelPER
import Mathlib.MeasureTheory.Measure.Lebesgue.Basic

namespace Verif.Memory

open MeasureTheory

variable {X A P : Type}

/-- The probability that a value drawn uniformly from `[a, b)` leads to the transition in slot `i`, for given results
of the random choices made on the way down. -/
noncomputable def slotProb (t : STree X A ℝ P) (choose : Nat → Bool) (a b : ℝ) (i : Nat) : ℝ :=
  volume.real {s | s ∈ Set.Ico a b ∧ (t.getInd choose s).2.2 = i} / (b - a)

/-- The results of the random choices at the first `n` nodes. -/
def coinsAt {n : Nat} (c : Fin n → Bool) (k : Nat) : Bool := if h : k < n then c ⟨k, h⟩ else false

/-- The same probability when a fair coin is tossed at each of the `n` internal nodes. -/
noncomputable def slotProbCoins (t : STree X A ℝ P) (n : Nat) (a b : ℝ) (i : Nat) : ℝ :=
  (∑ c : Fin n → Bool, slotProb t (coinsAt c) a b i) / 2 ^ n

end Verif.Memory
