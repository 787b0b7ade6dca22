/-
What the air hockey environments should do, without reference to the model.

Lengths are metres; the table is centred at the origin, the agent defends the side of negative x.
-/
import Mathlib.Analysis.SpecialFunctions.Trigonometric.Basic

namespace Verif.Hockey.Spec

/-- The two geometries are in contact. -/
def Touch (contacts : List (String × String)) (a b : String) : Prop := (a, b) ∈ contacts ∨ (b, a) ∈ contacts

/-- The geometries of the short sides of the table. -/
def shortSides : List String := ["rim_home_l", "rim_home_r", "rim_away_l", "rim_away_r"]

/-- The point is on the table. -/
def OnTable (p : ℝ × ℝ) : Prop := |p.1| ≤ 0.98 ∧ |p.2| ≤ 0.51

/-- The puck is in the goal of the opponent. -/
def Scored (p : ℝ × ℝ) : Prop := 0.98 < p.1 ∧ |p.2| < 0.25

/-- The puck is in the goal of the agent. -/
def Conceded (p : ℝ × ℝ) : Prop := p.1 < -0.98 ∧ |p.2| < 0.25

/-- A point given in a frame with axes turned by the angle and origin `t` is the given point of the world. -/
def SamePoint (angle : ℝ) (t inFrame inWorld : ℝ × ℝ) : Prop :=
  Real.cos angle * inFrame.1 - Real.sin angle * inFrame.2 + t.1 = inWorld.1 ∧
  Real.sin angle * inFrame.1 + Real.cos angle * inFrame.2 + t.2 = inWorld.2

/-- A planar velocity given in a frame with axes turned by the angle is the given velocity of the world. -/
def SameVelocity (angle : ℝ) (inFrame inWorld : ℝ × ℝ) : Prop := SamePoint angle (0, 0) inFrame inWorld

/-- Every joint is within its limits. -/
def Within (lower upper q : List ℝ) : Prop :=
  ∀ i, i < q.length → lower.getD i 0 ≤ q.getD i 0 ∧ q.getD i 0 ≤ upper.getD i 0

/-- All constraints hold: a constraint is satisfied when it is not positive. -/
def Satisfied (c : List ℝ) : Prop := ∀ x ∈ c, x ≤ 0

/-- Law of reflection: a puck that goes from `p` straight to the point `b` of a wall parallel to the long side and then straight on to `g` leaves the
wall at the angle at which it came. -/
def Reflects (p b g : ℝ × ℝ) : Prop := (b.2 - p.2) * (g.1 - b.1) = (b.2 - g.2) * (b.1 - p.1)

/-- The point lies in the rectangle. -/
def Inside (range : (ℝ × ℝ) × (ℝ × ℝ)) (p : ℝ × ℝ) : Prop :=
  range.1.1 ≤ p.1 ∧ p.1 ≤ range.1.2 ∧ range.2.1 ≤ p.2 ∧ p.2 ≤ range.2.2

end Verif.Hockey.Spec
