/-
Specification of the approximators.
-/
import Verif.Approx.Model

namespace Verif.Approx

open Verif.Features

noncomputable section

/-- The weights have the declared shape. -/
def Linear.Shaped (l : Linear) : Prop := l.w.length = l.rows ∧ ∀ r ∈ l.w, r.length = l.cols

/-- All the models are linear approximators of one shape. -/
def Alike (rows cols : ℕ) (ms : List Linear) : Prop := ∀ m ∈ ms, m.Shaped ∧ m.rows = rows ∧ m.cols = cols

/-- Entrywise sum of two vectors. -/
def plus (a b : List ℝ) : List ℝ := List.zipWith (· + ·) a b

/-- Moore-Penrose conditions used: `A B A = A` and `A B` is symmetric. -/
def IsPinv {n d : ℕ} (A : Matrix (Fin n) (Fin d) ℝ) (B : Matrix (Fin d) (Fin n) ℝ) : Prop :=
  A * B * A = A ∧ (A * B).transpose = A * B

/-- Sum of the squared errors of weights `w` for one output. -/
def squaredError {n d : ℕ} (A : Matrix (Fin n) (Fin d) ℝ) (y : Fin n → ℝ) (w : Fin d → ℝ) : ℝ :=
  ∑ i, (y i - A.mulVec w i) ^ 2

end

end Verif.Approx
