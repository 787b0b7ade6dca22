/-
Specification of the continuous environments.
-/
import Verif.Envs.Model

namespace Verif.Envs

noncomputable section

open Real

/-- The states visited by a sequence of inputs. -/
def visited {S I : Type} (next : S → I → S) : S → List I → List S
  | _, [] => []
  | s, i :: is => next s i :: visited next (next s i) is

/-- The unit square. -/
def UnitSquare (s : ℝ × ℝ) : Prop := 0 ≤ s.1 ∧ s.1 ≤ 1 ∧ 0 ≤ s.2 ∧ s.2 ≤ 1

/-- The observation space of the ship. -/
def ShipSpace (size : ℝ) (s : Ship) : Prop :=
  0 ≤ s.x ∧ s.x ≤ size ∧ 0 ≤ s.y ∧ s.y ≤ size ∧ -π ≤ s.heading ∧ s.heading ≤ π ∧ -(π / 12) ≤ s.rate ∧ s.rate ≤ π / 12

/-- The segments from `a` to `b` and from `c` to `d` have a common point. -/
def Meet (a b c d : ℝ × ℝ) : Prop :=
  ∃ t u : ℝ, 0 ≤ t ∧ t ≤ 1 ∧ 0 ≤ u ∧ u ≤ 1 ∧
    a.1 + t * (b.1 - a.1) = c.1 + u * (d.1 - c.1) ∧ a.2 + t * (b.2 - a.2) = c.2 + u * (d.2 - c.2)

/-- The directions of the two segments are parallel. -/
def Parallel (a b c d : ℝ × ℝ) : Prop := (b.1 - a.1) * (d.2 - c.2) = (b.2 - a.2) * (d.1 - c.1)

/-- Free motion of the ship during one interval of 0.2 with speed 3: the heading changes with the turning rate, which follows
the commanded rate `r` with time constant 5. -/
def Sails (r : ℝ) (s s' : Ship) : Prop :=
  s'.x = s.x + 0.2 * (3 * cos s.heading) ∧ s'.y = s.y + 0.2 * (3 * sin s.heading) ∧
  (∃ k : ℤ, s'.heading = s.heading + 0.2 * s.rate + k * (2 * π)) ∧ -π < s'.heading ∧ s'.heading ≤ π ∧
  s'.rate = s.rate + 0.2 * ((r - s.rate) / 5)

/-- The ship is outside the field. -/
def Outside (f : Field) (s : Ship) : Prop := s.x > f.size ∨ s.y > f.size ∨ s.x < 0 ∨ s.y < 0

/-- The components of `x` are within `±c`; `none` is infinity. -/
def WithinBox {k : ℕ} (c : Option ℝ) (x : Fin k → ℝ) : Prop := ∀ c', c = some c' → ∀ i, -c' ≤ x i ∧ x i ≤ c'

/-- The hill of Ernst et al. 2005. -/
def hill (p : ℝ) : ℝ := if p < 0 then p ^ 2 + p else p / √(1 + 5 * p ^ 2)

end

end Verif.Envs
