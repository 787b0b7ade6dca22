/-
Model of /repo/mushroom_rl/features/basis/fourier.py (values of the basis functions) and of the factory of
/repo/mushroom_rl/features/tiles/voronoi.py.
-/
import Verif.Features.Model
import Mathlib.Analysis.SpecialFunctions.Trigonometric.Basic
import Mathlib.Analysis.SpecialFunctions.Log.Basic

namespace Verif.Features

noncomputable section

/-- `FourierBasis`. fourier.py L27-31. -/
structure FourierFun where
  low : List ℝ
  delta : List ℝ
  c : List ℕ
  dims : Option (List ℕ)

/-- `FourierBasis.__call__`; `none` is an error. Negative dimensions are not modelled, and inputs of length one, which numpy repeats, are errors here.
fourier.py L33-39. -/
def FourierFun.call (b : FourierFun) (x : List ℝ) : Option ℝ :=
  let x := match b.dims with
    | none => some x
    | some dims => dims.mapM (x[·]?)
  x.bind fun x =>
    if x.length = b.low.length then
      let s := List.zipWith (· / ·) (List.zipWith (· - ·) x b.low) b.delta
      some (Real.cos (Real.pi * (List.zipWith (fun (s : ℝ) (c : ℕ) => s * (c : ℝ)) s b.c).sum))
    else none

/-- `FourierBasis.generate`; `none` is a failed assertion or arrays of different lengths. fourier.py L60-78. -/
def fourierFactory (low high : List ℝ) (n : ℕ) (dims : Option (List ℕ)) : Option (List FourierFun) :=
  if (dims.all fun d => low.length = d.length) && low.length = high.length then
    some ((fourierGenerate n low.length).map fun c => ⟨low, List.zipWith (· - ·) high low, c, dims⟩)
  else none

/-- The number of tilings that `VoronoiTiles.generate` makes. `low` is `None` for Gaussian prototypes, and `np.size(None)` is one; `dim` is the length of
`low` or `mu`; `none` is a failed assertion. voronoi.py L57-70. -/
def voronoiCount (uniform : Bool) (dim nPrototypes : ℕ) (nTilings : ℤ) : Option ℕ :=
  if 0 < nTilings ∨ nTilings = -1 then
    if nTilings = -1 then
      let d : ℕ := if uniform then dim else 1
      let m : ℤ := max ⌈Real.log (4 * d) / Real.log 2⌉ ⌈Real.log nPrototypes / Real.log 2⌉
      some (m ^ 2).toNat
    else some nTilings.toNat
  else none

/-- `VoronoiTiles.generate` with `low` and `high`; `u i j k` is the number in `[0, 1)` drawn for the coordinate `k` of the prototype `j` of the tiling `i`.
voronoi.py L52-87. -/
def voronoiUniform (low high : List ℝ) (nPrototypes : ℕ) (nTilings : ℤ) (u : ℕ → ℕ → ℕ → ℝ) : Option (List (List (List ℝ))) :=
  if low.length = high.length then
    (voronoiCount true low.length nPrototypes nTilings).map fun m =>
      (List.range m).map fun i => (List.range nPrototypes).map fun j => (List.range low.length).map fun k : ℕ =>
        low.getD k 0 + (high.getD k 0 - low.getD k 0) * u i j k
  else none

end

end Verif.Features
