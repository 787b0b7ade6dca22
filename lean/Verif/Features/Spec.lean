/-
Specification of the features.
-/
import Verif.Features.Model
import Mathlib.Algebra.BigOperators.Group.List.Basic

namespace Verif.Features

noncomputable section

/-- The point lies in the half-open box of the tiling. -/
def Covers (ds : List Dim) (x : List ℝ) : Prop := List.Forall₂ (fun d v => d.lo ≤ v ∧ v < d.hi) ds x

/-- Along one dimension the value lies in tile `k` of `n` equal tiles. -/
def InTile (d : Dim) (v : ℝ) (k : ℕ) : Prop :=
  d.lo + k * ((d.hi - d.lo) / d.n) ≤ v ∧ v < d.lo + (k + 1) * ((d.hi - d.lo) / d.n)

/-- The point lies in the tile with the given coordinates. -/
inductive Coordinates : List Dim → List ℝ → List ℕ → Prop
  | nil : Coordinates [] [] []
  | cons {d v k ds xs ks} (hk : k < d.n) (h : InTile d v k) (hs : Coordinates ds xs ks) :
      Coordinates (d :: ds) (v :: xs) (k :: ks)

/-- Number of tiles of a tiling. -/
def tileCount (ds : List Dim) : ℕ := (ds.map Dim.n).prod

/-- Sum of the products of the entries. -/
def dot (a b : List ℝ) : ℝ := (List.zipWith (· * ·) a b).sum

/-- Sum of the entries. -/
def degree (p : List ℕ) : ℕ := p.sum

end

end Verif.Features
