/-
Model of /repo/mushroom_rl/features: tilings, state-action features, Fourier and polynomial bases, and of
utils/features.py. Floating point numbers are real numbers.
-/
import Mathlib.Data.Real.Basic
import Mathlib.Data.Real.Archimedean
import Mathlib.Algebra.Order.Floor.Ring
import Mathlib.Algebra.Order.Floor.Semiring

namespace Verif.Features

noncomputable section

/-! ### tiles/tiles.py -/

/-- One dimension of a tiling: its range and its number of tiles. tiles.py L26-36. -/
structure Dim where
  lo : ℝ
  hi : ℝ
  n : ℕ

/-- The loop of `Tiles.__call__`. A point with too few components, which raises IndexError in the code, gives `none`.
tiles.py L50-61. -/
def tileLoop : List Dim → List ℝ → ℕ → ℕ → Option ℕ
  | [], _, _, index => some index
  | d :: ds, x :: xs, multiplier, index =>
      if d.lo ≤ x ∧ x < d.hi then
        let width := d.hi - d.lo
        let component := ⌊(d.n : ℝ) * (x - d.lo) / width⌋₊
        tileLoop ds xs (multiplier * d.n) (index + component * multiplier)
      else none
  | _ :: _, [], _, _ => none

/-- `Tiles.__call__` without `state_components`. tiles.py L46-63. -/
def tileIndex (ds : List Dim) (x : List ℝ) : Option ℕ := tileLoop ds x 1 0

/-- `Tiles.__call__` with `state_components`: the listed components of the point. A component that does not exist, which
raises IndexError in the code, gives `none`; negative components are not modelled. tiles.py L47-48. -/
def tileIndexSel (ds : List Dim) (components : List ℕ) (x : List ℝ) : Option ℕ :=
  (components.mapM (fun c => x[c]?)).bind (tileIndex ds)

/-- `Tiles.size`. tiles.py L41-44, L126-128. -/
def tilesSize (ds : List Dim) : ℕ := ds.foldl (fun s d => s * d.n) 1

/-- The range of dimension `k` of tiling `i` of `Tiles.generate`. tiles.py L97-121. -/
def genDim (nTilings : ℕ) (uniform : Bool) (i k : ℕ) (n : ℕ) (low high : ℝ) : Dim :=
  let L := high - low
  let shift := if uniform then 1 else 2 * k + 1
  let be : ℝ := ((nTilings : ℝ) - 1) / nTilings
  let l := L / ((n : ℝ) - be)
  let v := (i * shift) % nTilings
  let xMin := low + (-(nTilings : ℝ) + 1 + v) / nTilings * l
  ⟨xMin, xMin + l * n, n⟩

/-- `Tiles.generate` for a given number of tilings; `box` lists the number of tiles, low and high of each dimension. The
automatic number of tilings (`n_tilings = -1`) is computed from logarithms and not modelled. tiles.py L65-124. -/
def generate (nTilings : ℕ) (uniform : Bool) (box : List (ℕ × ℝ × ℝ)) : List (List Dim) :=
  (List.range nTilings).map (fun i => box.mapIdx (fun k b => genDim nTilings uniform i k b.1 b.2.1 b.2.2))

/-! ### _implementations/tiles_features.py. A tiling is its size and its index function. -/

structure Tiling (X : Type) where
  size : ℕ
  index : X → Option ℕ

/-- `TilesFeatures.size`. tiles_features.py L13-16, L70-72. -/
def featuresSize {X : Type} (ts : List (Tiling X)) : ℕ := ts.foldl (fun s t => s + t.size) 0

/-- One round of the loop over the tilings: `out[index + offset] = 1`; `offset += tiling.size`.
tiles_features.py L27-34. -/
def featStep {X : Type} (x : X) (st : List ℝ × ℕ) (t : Tiling X) : List ℝ × ℕ :=
  (match t.index x with
    | some j => st.1.set (j + st.2) 1
    | none => st.1, st.2 + t.size)

/-- Feature vector of one point. tiles_features.py L24-36. -/
def tilesFeatures {X : Type} (ts : List (Tiling X)) (x : X) : List ℝ :=
  (ts.foldl (featStep x) (List.replicate (featuresSize ts) 0, 0)).1

/-- One round of the loop of `compute_indexes`. tiles_features.py L55-59. -/
def indexStep {X : Type} (x : X) (st : List ℕ × ℕ) (t : Tiling X) : List ℕ × ℕ :=
  (match t.index x with
    | some j => st.1 ++ [j + st.2]
    | none => st.1, st.2 + t.size)

/-- `compute_indexes` for one point. tiles_features.py L51-61. -/
def computeIndexes {X : Type} (ts : List (Tiling X)) (x : X) : List ℕ := (ts.foldl (indexStep x) ([], 0)).1

/-! ### tiles/voronoi.py -/

/-- `np.argmin`: the first index of the smallest entry. -/
def argmin : List ℝ → ℕ
  | [] => 0
  | [_] => 0
  | a :: b :: l => let j := argmin (b :: l); if a ≤ (b :: l).getD j 0 then 0 else j + 1

/-- `VoronoiTiles.__call__`; `dist` is the distance of the point to a prototype. voronoi.py L20-23. -/
def voronoi {X : Type} (dist : X → X → ℝ) (prototypes : List X) (x : X) : ℕ := argmin (prototypes.map (fun p => dist p x))

/-! ### features.py -/

/-- `array[start:stop] = values` for an array and a slice of the same length as the values; otherwise numpy raises
ValueError (`none`). -/
def setSlice {α : Type} (l : List α) (start : ℕ) (values : List α) : Option (List α) :=
  if start + values.length ≤ l.length then some (l.take start ++ values ++ l.drop (start + values.length)) else none

/-- `get_action_features` for one state; the action is not negative. features.py L88-93. -/
def actionFeatures {α : Type} [Zero α] (phi : List α) (action nActions : ℕ) : Option (List α) :=
  setSlice (List.replicate (nActions * phi.length) 0) (phi.length * action) phi

/-- `get_action_features` for a batch. features.py L73-87. -/
def actionFeaturesBatch {α : Type} [Zero α] (phis : List (List α)) (actions : List ℕ) (nActions : ℕ) :
    Option (List (List α)) :=
  if phis.length = actions.length then
    (phis.zip actions).mapM (fun pa => actionFeatures pa.1 pa.2 nActions)
  else none

/-! ### basis/fourier.py -/

/-- Coefficients of the basis function with the given index. fourier.py L69-74. -/
def fourierCoeffs (n : ℕ) : ℕ → ℕ → List ℕ
  | 0, _ => []
  | size + 1, value => value % (n + 1) :: fourierCoeffs n size (value / (n + 1))

/-- `FourierBasis.generate`: the list of the coefficient vectors. fourier.py L63-78. -/
def fourierGenerate (n inputSize : ℕ) : List (List ℕ) :=
  (List.range ((n + 1) ^ inputSize)).map (fourierCoeffs n inputSize)

/-! ### basis/polynomial.py -/

/-- One round of the `while` loop: the new pattern. The `for` loop looks for the smallest `i` in `2, ..., n` with
`pattern[n - i] > 0`. polynomial.py L90-98. -/
def nextPattern (p : List ℕ) : List ℕ :=
  let n := p.length
  match (List.range' 2 (n - 1)).find? (fun i => decide (0 < p.getD (n - i) 0)) with
  | none => p
  | some i =>
      let p := p.set (n - i) (p.getD (n - i) 0 - 1)
      if 2 < i then
        let p := p.set (n - i + 1) (1 + p.getD (n - 1) 0)
        p.set (n - 1) 0
      else p.set (n - 1) (p.getD (n - 1) 0 + 1)

/-- The `while` loop for one value of `current_sum`: started with a pattern it yields a list of patterns and ends with a
pattern. polynomial.py L89-99. -/
inductive WhileYields (sum : ℕ) : List ℕ → List (List ℕ) → List ℕ → Prop
  | done (p : List ℕ) (h : ¬ p.getD (p.length - 1) 0 < sum) : WhileYields sum p [] p
  | step (p : List ℕ) (ys : List (List ℕ)) (q : List ℕ) (h : p.getD (p.length - 1) 0 < sum)
      (hy : WhileYields sum (nextPattern p) ys q) : WhileYields sum p (nextPattern p :: ys) q

/-- `PolynomialBasis._compute_exponents(order, n_variables)` yields the patterns `ys` and leaves a pattern. The yielded array
is reused by the code; its only user copies what it needs before asking for the next one. polynomial.py L71-100. -/
inductive ComputeExponents (nVariables : ℕ) : ℕ → List (List ℕ) → List ℕ → Prop
  | zero : ComputeExponents nVariables 0 [] (List.replicate nVariables 0)
  | succ (order : ℕ) (ys zs : List (List ℕ)) (p q : List ℕ) (h : ComputeExponents nVariables order ys p)
      (hz : WhileYields (order + 1) (p.set 0 (order + 1)) zs q) :
      ComputeExponents nVariables (order + 1) (ys ++ p.set 0 (order + 1) :: zs) (q.set (q.length - 1) 0)

/-- A polynomial basis function: dimensions and degrees, or the constant. polynomial.py L15-37. -/
structure PolyBasis where
  dims : Option (List ℕ × List ℕ)

/-- The basis function that `generate` makes of an exponent. polynomial.py L126-129. -/
def PolyBasis.ofExponent (e : List ℕ) : PolyBasis :=
  ⟨some ((List.range e.length).filter (fun i => decide (e.getD i 0 ≠ 0)), e.filter (fun d => decide (d ≠ 0)))⟩

/-- `PolynomialBasis.generate(max_degree, input_size)` returns the list. polynomial.py L120-131. -/
def PolyGenerate (maxDegree inputSize : ℕ) (bs : List PolyBasis) : Prop :=
  ∃ ys q, ComputeExponents inputSize maxDegree ys q ∧ bs = ⟨none⟩ :: ys.map PolyBasis.ofExponent

/-- `_normalize`; the bounds are given for every component or not at all. polynomial.py L37-39, L55-58. -/
def polyNormalize (bounds : Option ((ℕ → ℝ) × (ℕ → ℝ))) (x : ℕ → ℝ) : ℕ → ℝ :=
  match bounds with
  | none => x
  | some (low, high) => fun i => (x i - (low i + high i) / 2) / ((high i - low i) / 2)

/-- `PolynomialBasis.__call__`. polynomial.py L43-53. -/
def PolyBasis.call (b : PolyBasis) (bounds : Option ((ℕ → ℝ) × (ℕ → ℝ))) (x : ℕ → ℝ) : ℝ :=
  match b.dims with
  | none => 1
  | some (dims, degs) => (dims.zip degs).foldl (fun out id => out * polyNormalize bounds x id.1 ^ id.2) 1

/-! ### utils/features.py -/

/-- `np.linspace(start, stop, n)` for `n ≥ 2`. -/
def linspace (start stop : ℝ) (n : ℕ) : List ℝ := (List.range n).map (fun i : ℕ => start + (i : ℝ) * ((stop - start) / ((n : ℝ) - 1)))

/-- Centers along one dimension. utils/features.py L28-44. -/
def centers (cyclic : Bool) (n : ℕ) (start stop : ℝ) : List ℝ :=
  if n = 1 then [(start + stop) / 2]
  else linspace start (if cyclic then stop - |stop - start| / n else stop) n

/-- The width along one dimension. utils/features.py L28-44. -/
def width (eta : ℝ) (cyclic : Bool) (n : ℕ) (start stop : ℝ) : ℝ :=
  if n = 1 then |stop - start| / 2
  else (1 + eta) * |(if cyclic then stop - |stop - start| / n else stop) - start| / n

/-- The loop that fills the grid, one dimension at a time: the rows filled so far are repeated once for every center of the
next dimension. The model builds the rows as lists instead of writing them into a preallocated array.
utils/features.py L46-65. -/
def uniformGrid (cs : List (List ℝ)) : List (List ℝ) :=
  cs.foldl (fun rows values => values.flatMap (fun v => rows.map (fun r => r ++ [v]))) [[]]

end

end Verif.Features
