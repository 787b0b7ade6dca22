/-
Specification of the finite environments.
-/
import Verif.Finite.Model

namespace Verif.Finite

noncomputable section

/-- `f` is a probability distribution over `0, ..., n - 1`. -/
def IsDist (n : ℕ) (f : ℕ → ℝ) : Prop :=
  (∀ k, 0 ≤ f k) ∧ (∀ k, n ≤ k → f k = 0) ∧ ∑ k ∈ Finset.range n, f k = 1

/-- The character at row `i` and column `j` of the map. -/
def CellAt (rows : List (List Char)) (x : Cell) (ch : Char) : Prop :=
  ∃ (i j : ℕ) (row : List Char), rows[i]? = some row ∧ row[j]? = some ch ∧ x = ((i : ℤ), (j : ℤ))

/-- Every line ends with a newline. -/
def textOf (rows : List (List Char)) : List Char := rows.flatMap (fun r => r ++ ['\n'])

/-- The rows have the same length and contain only the markers. -/
structure IsMap (special : Char) (rows : List (List Char)) : Prop where
  markers : ∀ row ∈ rows, ∀ ch ∈ row, ch ∈ ['#', '.', 'S', 'G', special]
  rectangular : ∀ row ∈ rows, ∀ row' ∈ rows, row.length = row'.length

/-- The cell reached by up, down, left and right. -/
def move : ℕ → Cell → Cell
  | 0, (r, c) => (r - 1, c)
  | 1, (r, c) => (r + 1, c)
  | 2, (r, c) => (r, c - 1)
  | _, (r, c) => (r, c + 1)

/-- The cells reached when the action slips: right and left of a vertical move, below and above a horizontal one. -/
def slips : ℕ → Cell → Cell × Cell
  | 0, (r, c) => ((r, c + 1), (r, c - 1))
  | 1, (r, c) => ((r, c + 1), (r, c - 1))
  | _, (r, c) => ((r + 1, c), (r - 1, c))

/-- `x` is a cell that is not a wall. -/
def Free (rows : List (List Char)) (x : Cell) : Prop := ∃ ch, ch ≠ '#' ∧ CellAt rows x ch

/-- `cells` numbers the cells that are not walls. -/
structure Numbering (rows : List (List Char)) (cells : List Cell) : Prop where
  nodup : cells.Nodup
  mem : ∀ x, x ∈ cells ↔ Free rows x

/-- `loads` numbers the vectors of `k` bits. -/
structure Loads (k : ℕ) (loads : List (List ℕ)) : Prop where
  nodup : loads.Nodup
  mem : ∀ v, v ∈ loads ↔ v.length = k ∧ ∀ b ∈ v, b = 0 ∨ b = 1

/-- The passengers on board after visiting cell `y`. -/
def pickUp (passengers : List Cell) (y : Cell) (v : List ℕ) : List ℕ :=
  List.zipWith (fun p b => if p = y then 1 else b) passengers v

open Classical in
/-- Where a taxi at `x` with passengers `v` is after trying to enter `y`. -/
def enter (rows : List (List Char)) (passengers : List Cell) (x : Cell) (v : List ℕ) (y : Cell) : Cell × List ℕ :=
  if Free rows y then (y, pickUp passengers y v) else (x, v)

end

end Verif.Finite
