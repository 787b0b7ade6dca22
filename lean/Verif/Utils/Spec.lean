/-
Specification of the utilities.
-/
import Verif.Utils.Model

namespace Verif.Utils

noncomputable section

open Real

/-- Two angles describe the same rotation. -/
def SameRotation (a b : ℝ) : Prop := ∃ k : ℤ, a = b + k * (2 * π)

/-- `f` is a polynomial of degree at most two in component `i` around `w`, with first-order coefficient `d`. -/
def QuadraticIn {n : ℕ} (f : (Fin n → ℝ) → ℝ) (w : Fin n → ℝ) (i : Fin n) (d : ℝ) : Prop :=
  ∃ c q, ∀ h, f (fun j => w j + if j = i then h else 0) = c + d * h + q * h ^ 2

/-- Reading back gives what was written, and writing twice leaves only the second value. -/
structure Pol.Lawful {P : Type} {n : ℕ} (pol : Pol P n) : Prop where
  get_set : ∀ p w, pol.get (pol.set p w) = w
  set_get : ∀ p, pol.set p (pol.get p) = p
  set_set : ∀ p w w', pol.set (pol.set p w) w' = pol.set p w'

end

end Verif.Utils
