/-
Small specifications for the deep actor-critic agents.
-/
import Verif.ActorCritic.Model

namespace Verif.ActorCritic

open Verif.TD (Trans)
open Verif.Policy (Param)

/-- `x` lies between `a` and `b`, in whichever order they are. -/
def Between (a b x : ℝ) : Prop := min a b ≤ x ∧ x ≤ max a b

/-- The value a scheduled parameter returns on its `k`-th call (`k = 0`: its value before any call). -/
noncomputable def valueAt (tau : Param) (k : ℕ) : ℝ := ((fun p => (p.call []).1)^[k] tau).getValue []

/-- A coefficient that always lies in [0, 1]. -/
def Coefficient (tau : Param) : Prop := ∀ k, 0 ≤ valueAt tau k ∧ valueAt tau k ≤ 1

/-- Every weight of every model lies in its interval. -/
def Within {ι : Type} (lo hi : ι → ℝ) (ws : List (ι → ℝ)) : Prop := ∀ w ∈ ws, ∀ i, lo i ≤ w i ∧ w i ≤ hi i

/-- `v` is the least element of the list. -/
def IsLeast' (l : List ℝ) (v : ℝ) : Prop := v ∈ l ∧ ∀ x ∈ l, v ≤ x

/-- `y` is the target of a critic for a transition whose next state has value `v`. -/
def IsCriticTarget {S A : Type} (γ : ℝ) (t : Trans S A) (v y : ℝ) : Prop :=
  (t.absorbing = true → y = t.reward) ∧ (t.absorbing = false → y = t.reward + γ * v)

open Matrix in
/-- Symmetric positive definite matrix. -/
def SPD {n : ℕ} (F : Matrix (Fin n) (Fin n) ℝ) : Prop := Fᵀ = F ∧ ∀ v : Fin n → ℝ, v ≠ 0 → 0 < v ⬝ᵥ (F *ᵥ v)

open Matrix in
/-- The conjugate-gradient iterates of the system `F x = b`, from zero: solution, residual and direction after `k`
iterations (Hestenes and Stiefel). -/
noncomputable def textbook {n : ℕ} (F : Matrix (Fin n) (Fin n) ℝ) (b : Fin n → ℝ) :
    ℕ → (Fin n → ℝ) × (Fin n → ℝ) × (Fin n → ℝ)
  | 0 => (0, b, b)
  | k + 1 =>
    let (x, r, p) := textbook F b k
    let a := (r ⬝ᵥ r) / (p ⬝ᵥ (F *ᵥ p))
    let r' := r - a • (F *ᵥ p)
    (x + a • p, r', r' + ((r' ⬝ᵥ r') / (r ⬝ᵥ r)) • p)

end Verif.ActorCritic
