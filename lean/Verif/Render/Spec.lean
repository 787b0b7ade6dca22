/-
Specification of what a picture of an environment has to show.
-/
import Mathlib.Analysis.SpecialFunctions.Trigonometric.Basic

namespace Verif.Render.Spec

/-- The pixel `px` is the one that contains the point `p` of a world of the size `W` × `H`, with the vertical axis pointing up,
in a window of `w` × `h` pixels whose rows are counted from the top. -/
def Shows (W H : ℝ) (w h : ℕ) (p : ℝ × ℝ) (px : ℤ × ℤ) : Prop :=
  ((px.1 : ℝ) ≤ p.1 / W * w ∧ p.1 / W * w < px.1 + 1) ∧ ((px.2 : ℝ) ≤ (1 - p.2 / H) * h ∧ (1 - p.2 / H) * h < px.2 + 1)

/-- The point lies in the world. -/
def InWorld (W H : ℝ) (p : ℝ × ℝ) : Prop := (0 ≤ p.1 ∧ p.1 ≤ W) ∧ (0 ≤ p.2 ∧ p.2 ≤ H)

/-- The corners of the cell in row `r`, counted from the top, and column `c` of a grid with `h` rows of unit cells. -/
def corners (h : ℕ) (cell : ℕ × ℕ) : List (ℝ × ℝ) :=
  [(cell.2 + 1, h - cell.1), (cell.2 + 1, h - cell.1 - 1), (cell.2, h - cell.1 - 1), (cell.2, h - cell.1)]

/-- The middle of that cell. -/
noncomputable def middle (h : ℕ) (cell : ℕ × ℕ) : ℝ × ℝ := (cell.2 + 1 / 2, h - cell.1 - 1 / 2)

/-- Euclidean distance. -/
noncomputable def dist2 (p q : ℝ × ℝ) : ℝ := √((p.1 - q.1) ^ 2 + (p.2 - q.2) ^ 2)

end Verif.Render.Spec
