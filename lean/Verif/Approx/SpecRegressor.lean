/-
Specification of regressors: approximators that treat the rows of a batch independently, and what a table holds.
-/
import Verif.Approx.ModelRegressor

namespace Verif.Approx.Reg

noncomputable section

/-- Inputs of the given shape. -/
def Fits (sh : List ℕ) (x : List ℝ) : Prop := x.length = sh.prod

/-- The approximator computes `f` on every row of a batch. -/
def Rowwise (inSh outSh : List ℕ) (m : Predictor) (f : List ℝ → List ℝ) : Prop :=
  (∀ x, Fits inSh x → Fits outSh (f x)) ∧
  ∀ xs, xs ≠ [] → (∀ x ∈ xs, Fits inSh x) → m (stack inSh xs) = .ok (.arr (stack outSh (xs.map f)))

/-- The entries of several vectors of length `n`, combined position by position. -/
def pointwise (c : List ℝ → ℝ) (n : ℕ) (vs : List (List ℝ)) : List ℝ := (List.range n).map fun j => c (vs.map fun v => v.getD j 0)

/-- A table of `n` states and `k` actions that holds the values `q`. -/
def Holds (t : Arr ℝ) (n k : ℕ) (q : ℕ → ℕ → ℝ) : Prop :=
  t.shape = [n, k] ∧ t.data = ((List.range n).map fun s => (List.range k).map fun a => q s a).flatten

end

end Verif.Approx.Reg
