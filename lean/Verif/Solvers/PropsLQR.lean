/-
Property C43: the LQR solver.
-/
import Verif.Solvers.Spec
import Mathlib.Tactic.Ring
import Mathlib.Tactic.Abel
import Mathlib.Tactic.Linarith
import Mathlib.Tactic.FieldSimp
import Mathlib.Tactic.NormNum
import Mathlib.Tactic.NoncommRing
import Mathlib.LinearAlgebra.Matrix.ToLin

namespace Verif.Solvers

noncomputable section

open Matrix Kronecker

variable {n m : ℕ}

/-! ### Quadratic forms -/

/-- `x · P y`. -/
def bil {j k : Type} [Fintype j] [Fintype k] (P : Matrix j k ℝ) (x : j → ℝ) (y : k → ℝ) : ℝ := x ⬝ᵥ P.mulVec y

section
variable {j k h : Type} [Fintype j] [Fintype k] [Fintype h]

theorem quad_eq (P : Matrix k k ℝ) (x : k → ℝ) : quad P x = bil P x x := rfl

theorem bil_add (P N : Matrix j k ℝ) (x y) : bil (P + N) x y = bil P x y + bil N x y := by
  simp [bil, add_mulVec, dotProduct_add]
theorem bil_sub (P N : Matrix j k ℝ) (x y) : bil (P - N) x y = bil P x y - bil N x y := by
  simp [bil, sub_mulVec, dotProduct_sub]
theorem bil_smul (c : ℝ) (P : Matrix j k ℝ) (x y) : bil (c • P) x y = c * bil P x y := by
  simp [bil, smul_mulVec, dotProduct_smul]
theorem bil_add_left (P : Matrix j k ℝ) (x x' y) : bil P (x + x') y = bil P x y + bil P x' y := by
  simp [bil, add_dotProduct]
theorem bil_add_right (P : Matrix j k ℝ) (x y y') : bil P x (y + y') = bil P x y + bil P x y' := by
  simp [bil, mulVec_add, dotProduct_add]
theorem bil_neg_left (P : Matrix j k ℝ) (x y) : bil P (-x) y = -bil P x y := by simp [bil]
theorem bil_neg_right (P : Matrix j k ℝ) (x y) : bil P x (-y) = -bil P x y := by simp [bil, mulVec_neg]
theorem bil_mul_right (P : Matrix j k ℝ) (C : Matrix k h ℝ) (x y) : bil (P * C) x y = bil P x (C.mulVec y) := by
  simp [bil, mulVec_mulVec]
theorem bil_mul_left (P : Matrix j k ℝ) (C : Matrix j h ℝ) (x y) : bil (Cᵀ * P) x y = bil P (C.mulVec x) y := by
  unfold bil
  rw [← mulVec_mulVec, dotProduct_mulVec, vecMul_transpose]
theorem bil_tr (P : Matrix j k ℝ) (C : Matrix j h ℝ) (x y) : bil Cᵀ x (P.mulVec y) = bil P (C.mulVec x) y := by
  rw [← bil_mul_right, bil_mul_left]
theorem bil_symm (P : Matrix j k ℝ) (x y) : bil Pᵀ y x = bil P x y := by
  unfold bil
  rw [mulVec_transpose, dotProduct_comm, dotProduct_mulVec]
end

/-! ### Lyapunov equation -/

theorem kron_vec (C D P : Matrix (Fin n) (Fin n) ℝ) : (C ⊗ₖ D).mulVec (vec P) = vec (C * P * Dᵀ) := by
  funext ij
  obtain ⟨i, j⟩ := ij
  simp only [mulVec, dotProduct, vec, kroneckerMap_apply, Fintype.sum_prod_type, mul_apply, transpose_apply,
    Finset.sum_mul]
  rw [Finset.sum_comm]
  apply Finset.sum_congr rfl
  intro b _
  apply Finset.sum_congr rfl
  intro a _
  ring

theorem vec_injective {P N : Matrix (Fin n) (Fin n) ℝ} (h : vec P = vec N) : P = N := by
  ext i j; exact congrFun h (i, j)

theorem lqrM_vec (l : LQR n m) (K : Matrix (Fin m) (Fin n) ℝ) (P : Matrix (Fin n) (Fin n) ℝ) :
    (lqrM l K).mulVec (vec P) = vec (P - l.gamma • ((l.A - l.B * K)ᵀ * P * (l.A - l.B * K))) := by
  unfold lqrM
  rw [sub_mulVec, one_mulVec, smul_mulVec, add_mulVec, sub_mulVec, sub_mulVec, kron_vec, kron_vec, kron_vec, kron_vec]
  have e : (l.A - l.B * K)ᵀ * P * (l.A - l.B * K) =
      l.Aᵀ * P * l.Aᵀᵀ - l.Aᵀ * P * (Kᵀ * l.Bᵀ)ᵀ - Kᵀ * l.Bᵀ * P * l.Aᵀᵀ + Kᵀ * l.Bᵀ * P * (Kᵀ * l.Bᵀ)ᵀ := by
    simp only [transpose_sub, transpose_mul, transpose_transpose, Matrix.sub_mul, Matrix.mul_sub, Matrix.mul_assoc]
    abel
  rw [e]
  funext ij
  simp only [vec, Pi.sub_apply, Pi.smul_apply, Pi.add_apply, Matrix.sub_apply, Matrix.smul_apply, Matrix.add_apply]

/-- C43. The matrix of the value function is exactly the solution of the Lyapunov equation of the closed loop. -/
theorem C43_lyapunov (l : LQR n m) (K : Matrix (Fin m) (Fin n) ℝ) (P : Matrix (Fin n) (Fin n) ℝ) :
    IsLqrP l K P ↔ P = l.Q + Kᵀ * l.R * K + l.gamma • ((l.A - l.B * K)ᵀ * P * (l.A - l.B * K)) := by
  unfold IsLqrP
  rw [lqrM_vec]
  constructor
  · intro h
    have := vec_injective h
    rw [lqrL, sub_eq_iff_eq_add] at this
    exact this
  · intro h
    congr 1
    rw [lqrL, sub_eq_iff_eq_add]
    exact h

theorem next_feedback (l : LQR n m) (K : Matrix (Fin m) (Fin n) ℝ) (s : Fin n → ℝ) :
    lqrNext l s (-(K.mulVec s)) = (l.A - l.B * K).mulVec s := by
  rw [lqrNext, sub_mulVec, mulVec_neg, mulVec_mulVec, sub_eq_add_neg]

theorem quad_closed (l : LQR n m) (K : Matrix (Fin m) (Fin n) ℝ) (P : Matrix (Fin n) (Fin n) ℝ) (s : Fin n → ℝ) :
    quad (l.Q + Kᵀ * l.R * K + l.gamma • ((l.A - l.B * K)ᵀ * P * (l.A - l.B * K))) s =
      -(lqrReward l s (-(K.mulVec s))) + l.gamma * quad P (lqrNext l s (-(K.mulVec s))) := by
  rw [next_feedback]
  simp only [quad_eq, lqrReward, bil_add, bil_smul, bil_mul_right, bil_tr, bil_neg_left, bil_neg_right]
  ring

/-- C43. The value function satisfies the Bellman equation of the feedback `a = -K s`. -/
theorem C43_bellman (l : LQR n m) (K : Matrix (Fin m) (Fin n) ℝ) (P : Matrix (Fin n) (Fin n) ℝ) (hP : IsLqrP l K P)
    (s : Fin n → ℝ) :
    lqrV P s = lqrReward l s (-(K.mulVec s)) + l.gamma * lqrV P (lqrNext l s (-(K.mulVec s))) := by
  rw [C43_lyapunov] at hP
  have h := quad_closed l K P s
  rw [← hP] at h
  unfold lqrV
  linarith

theorem lqrQ_expand (l : LQR n m) (P : Matrix (Fin n) (Fin n) ℝ) (s : Fin n → ℝ) (a : Fin m → ℝ) :
    lqrQ l P s a = -(bil (l.Q + l.gamma • (l.Aᵀ * P * l.A)) s s + bil (l.gamma • (l.Aᵀ * P * l.B)) s a +
      bil (l.gamma • (l.Bᵀ * P * l.A)) a s + bil (l.R + l.gamma • (l.Bᵀ * P * l.B)) a a) := by
  unfold lqrQ quad lqrQMatrix bil
  rw [fromBlocks_mulVec, sumElim_dotProduct_sumElim, dotProduct_add, dotProduct_add]
  simp only [Sum.elim_comp_inl, Sum.elim_comp_inr]
  ring

/-- C43. The action value is the reward plus the discounted value of the next state, and at the action of the feedback it is
the value of the state. -/
theorem C43_action_value (l : LQR n m) (K : Matrix (Fin m) (Fin n) ℝ) (P : Matrix (Fin n) (Fin n) ℝ) (s : Fin n → ℝ) :
    (∀ a, lqrQ l P s a = lqrReward l s a + l.gamma * lqrV P (lqrNext l s a)) ∧
    (IsLqrP l K P → lqrQ l P s (-(K.mulVec s)) = lqrV P s) := by
  have h : ∀ a, lqrQ l P s a = lqrReward l s a + l.gamma * lqrV P (lqrNext l s a) := by
    intro a
    rw [lqrQ_expand]
    simp only [lqrReward, lqrV, lqrNext, quad_eq, bil_add, bil_smul, bil_mul_right, bil_tr, bil_add_left, bil_add_right]
    ring
  exact ⟨h, fun hP => by rw [h, ← C43_bellman l K P hP s]⟩

/-- The matrix of the quadratic part in the action is positive definite. -/
def GainOk (l : LQR n m) (P : Matrix (Fin n) (Fin n) ℝ) : Prop :=
  ∀ a : Fin m → ℝ, a ≠ 0 → 0 < quad (l.R + l.gamma • (l.Bᵀ * P * l.B)) a

theorem gain_eq (l : LQR n m) (P : Matrix (Fin n) (Fin n) ℝ) (hG : GainOk l P) :
    (l.R + l.gamma • (l.Bᵀ * P * l.B)) * riccatiGain l P = l.gamma • (l.Bᵀ * P * l.A) := by
  have hu : IsUnit (l.R + l.gamma • (l.Bᵀ * P * l.B)) := by
    rw [← mulVec_injective_iff_isUnit]
    intro x y hxy
    by_contra hne
    have := hG (x - y) (sub_ne_zero.mpr hne)
    rw [quad, mulVec_sub, hxy, sub_self, dotProduct_zero] at this
    exact lt_irrefl _ this
  have hd := (isUnit_iff_isUnit_det _).mp hu
  unfold riccatiGain
  rw [Matrix.smul_mul, Matrix.smul_mul, Matrix.smul_mul, Matrix.mul_smul, ← Matrix.mul_assoc, ← Matrix.mul_assoc, ← Matrix.mul_assoc,
    mul_nonsing_inv _ hd, Matrix.one_mul]

/-- C43. The gain computed from `P` gives in every state the one action with the largest action value. -/
theorem C43_gain_is_greedy (l : LQR n m) (P : Matrix (Fin n) (Fin n) ℝ) (hP : Pᵀ = P) (hR : l.Rᵀ = l.R) (hG : GainOk l P)
    (s : Fin n → ℝ) (a : Fin m → ℝ) :
    lqrQ l P s a ≤ lqrQ l P s (-((riccatiGain l P).mulVec s)) ∧
    (a ≠ -((riccatiGain l P).mulVec s) → lqrQ l P s a < lqrQ l P s (-((riccatiGain l P).mulVec s))) := by
  set G := l.R + l.gamma • (l.Bᵀ * P * l.B) with hGdef
  set K := riccatiGain l P with hK
  have hGs : Gᵀ = G := by
    rw [hGdef, transpose_add, transpose_smul, transpose_mul, transpose_mul, transpose_transpose, hP, hR, Matrix.mul_assoc]
  have hN : G * K = l.gamma • (l.Bᵀ * P * l.A) := gain_eq l P hG
  have hNt : l.gamma • (l.Aᵀ * P * l.B) = (G * K)ᵀ := by
    rw [hN, transpose_smul, transpose_mul, transpose_mul, transpose_transpose, hP, Matrix.mul_assoc]
  have key : lqrQ l P s (-(K.mulVec s)) - lqrQ l P s a = quad G (a + K.mulVec s) := by
    rw [lqrQ_expand, lqrQ_expand, ← hN, hNt, ← hGdef]
    simp only [bil_symm, bil_mul_right, bil_neg_left, bil_neg_right, quad_eq, bil_add_left, bil_add_right]
    have : bil G (K.mulVec s) a = bil G a (K.mulVec s) := by
      conv_lhs => rw [← hGs]
      exact bil_symm G a (K.mulVec s)
    rw [this]
    ring
  by_cases ha : a = -(K.mulVec s)
  · subst ha
    exact ⟨le_refl _, fun h => absurd rfl h⟩
  · have hpos := hG (a + K.mulVec s) (fun h0 => ha (eq_neg_of_add_eq_zero_left h0))
    rw [← hGdef] at hpos
    exact ⟨by linarith, fun _ => by linarith⟩

/-! ### The Riccati recursion -/

theorem riccatiRhs_eq (l : LQR n m) (K : Matrix (Fin m) (Fin n) ℝ) (P : Matrix (Fin n) (Fin n) ℝ) :
    riccatiRhs l K P = l.Q + Kᵀ * l.R * K + l.gamma • ((l.A - l.B * K)ᵀ * P * (l.A - l.B * K)) := by
  have e : (l.A - l.B * K)ᵀ * P * (l.A - l.B * K) =
      l.Aᵀ * P * l.A - Kᵀ * l.Bᵀ * P * l.A - l.Aᵀ * P * l.B * K + Kᵀ * l.Bᵀ * P * l.B * K := by
    simp only [transpose_sub, transpose_mul, Matrix.sub_mul, Matrix.mul_sub, Matrix.mul_assoc]
    abel
  rw [riccatiRhs, e]
  abel

/-- The weights of the cost: symmetric, no negative cost of a state and positive cost of an action. -/
structure CostOk (l : LQR n m) : Prop where
  symmQ : l.Qᵀ = l.Q
  symmR : l.Rᵀ = l.R
  posQ : ∀ s, 0 ≤ quad l.Q s
  posR : ∀ a, a ≠ 0 → 0 < quad l.R a
  gamma : 0 ≤ l.gamma

theorem riccatiP_ok (l : LQR n m) (hl : CostOk l) (k : ℕ) :
    (riccatiP l k)ᵀ = riccatiP l k ∧ (∀ s, 0 ≤ quad (riccatiP l k) s) ∧ GainOk l (riccatiP l k) := by
  have hgain : ∀ P : Matrix (Fin n) (Fin n) ℝ, (∀ s, 0 ≤ quad P s) → GainOk l P := by
    intro P hP a ha
    have h1 := hl.posR a ha
    have h2 := mul_nonneg hl.gamma (hP (l.B.mulVec a))
    simp only [quad_eq, bil_add, bil_smul, bil_mul_right, bil_tr] at *
    linarith
  induction k with
  | zero =>
      have : ∀ s : Fin n → ℝ, 0 ≤ quad (1 : Matrix (Fin n) (Fin n) ℝ) s := by
        intro s
        rw [quad, one_mulVec]
        exact Finset.sum_nonneg (fun i _ => mul_self_nonneg _)
      exact ⟨transpose_one, this, hgain 1 this⟩
  | succ k ih =>
      obtain ⟨h1, h2, h3⟩ := ih
      have hnn : ∀ s, 0 ≤ quad (riccatiP l (k + 1)) s := by
        intro s
        rw [riccatiP, riccatiRhs_eq, quad_closed]
        have := mul_nonneg hl.gamma (h2 (lqrNext l s (-((riccatiGain l (riccatiP l k)).mulVec s))))
        have ha : 0 ≤ quad l.R (-((riccatiGain l (riccatiP l k)).mulVec s)) := by
          by_cases h0 : -((riccatiGain l (riccatiP l k)).mulVec s) = 0
          · rw [h0]; simp [quad]
          · exact (hl.posR _ h0).le
        have := hl.posQ s
        simp only [lqrReward]
        linarith
      refine ⟨?_, hnn, hgain _ hnn⟩
      rw [riccatiP, riccatiRhs_eq]
      simp only [transpose_add, transpose_smul, transpose_mul, transpose_transpose, h1, hl.symmQ, hl.symmR, Matrix.mul_assoc]

/-- C43. After `k` rounds of the Riccati recursion `P` gives the best return of `k` steps followed by the final penalty: no
sequence of `k` actions does better, and one reaches it. -/
theorem C43_riccati (l : LQR n m) (hl : CostOk l) (k : ℕ) (s : Fin n → ℝ) :
    (∀ as : List (Fin m → ℝ), as.length = k → lqrReturn l s as ≤ lqrV (riccatiP l k) s) ∧
    ∃ as : List (Fin m → ℝ), as.length = k ∧ lqrReturn l s as = lqrV (riccatiP l k) s := by
  induction k generalizing s with
  | zero =>
      have h0 : lqrV (riccatiP l 0) s = -(s ⬝ᵥ s) := by simp [lqrV, riccatiP, quad]
      constructor
      · intro as has
        rw [List.length_eq_zero_iff] at has
        subst has
        rw [h0]; exact le_refl _
      · exact ⟨[], rfl, by rw [h0]; rfl⟩
  | succ k ih =>
      obtain ⟨h1, h2, h3⟩ := riccatiP_ok l hl k
      set K := riccatiGain l (riccatiP l k) with hK
      have hV : lqrV (riccatiP l (k + 1)) s = lqrQ l (riccatiP l k) s (-(K.mulVec s)) := by
        rw [(C43_action_value l K (riccatiP l k) s).1, lqrV, riccatiP, riccatiRhs_eq, quad_closed]
        unfold lqrV
        ring
      constructor
      · intro as has
        cases as with
        | nil => simp at has
        | cons a as =>
            have e1 := (ih (lqrNext l s a)).1 as (by simpa using has)
            have e2 := mul_le_mul_of_nonneg_left e1 hl.gamma
            have e3 := (C43_gain_is_greedy l (riccatiP l k) h1 hl.symmR h3 s a).1
            rw [(C43_action_value l K (riccatiP l k) s).1 a, ← hK, ← hV] at e3
            rw [lqrReturn]
            linarith
      · obtain ⟨as, e1, e2⟩ := (ih (lqrNext l s (-(K.mulVec s)))).2
        refine ⟨-(K.mulVec s) :: as, by simp [e1], ?_⟩
        rw [lqrReturn, e2, hV, (C43_action_value l K (riccatiP l k) s).1]

/-- C43. If the Riccati recursion has converged, the value of the feedback gain satisfies the Bellman optimality equation:
no action does better than the feedback, in any state. -/
theorem C43_converged (l : LQR n m) (hl : CostOk l) (k : ℕ) (h : riccatiP l (k + 1) = riccatiP l k) (s : Fin n → ℝ) :
    IsLqrP l (feedbackGain l k) (riccatiP l k) ∧
    (∀ a, lqrReward l s a + l.gamma * lqrV (riccatiP l k) (lqrNext l s a) ≤ lqrV (riccatiP l k) s) ∧
    lqrReward l s (-((feedbackGain l k).mulVec s)) +
      l.gamma * lqrV (riccatiP l k) (lqrNext l s (-((feedbackGain l k).mulVec s))) = lqrV (riccatiP l k) s := by
  obtain ⟨h1, h2, h3⟩ := riccatiP_ok l hl k
  have hP : IsLqrP l (feedbackGain l k) (riccatiP l k) := by
    rw [C43_lyapunov, ← riccatiRhs_eq]
    exact h.symm
  refine ⟨hP, ?_, (C43_bellman l _ _ hP s).symm⟩
  intro a
  have e1 := (C43_gain_is_greedy l (riccatiP l k) h1 hl.symmR h3 s a).1
  rw [(C43_action_value l (feedbackGain l k) (riccatiP l k) s).1 a] at e1
  have e2 := (C43_action_value l (feedbackGain l k) (riccatiP l k) s).2 hP
  unfold feedbackGain at e2
  linarith

/-! ### Gaussian policies -/

theorem IsExpectation.zero {E : ((Fin m → ℝ) → ℝ) → ℝ} {mean Sigma} (hE : IsExpectation E mean Sigma) : E (fun _ => 0) = 0 := by
  have := hE.smul 0 (fun _ => 0)
  simpa using this

theorem IsExpectation.const {E : ((Fin m → ℝ) → ℝ) → ℝ} {mean Sigma} (hE : IsExpectation E mean Sigma) (c : ℝ) :
    E (fun _ => c) = c := by
  have := hE.smul c (fun _ => 1)
  simpa [hE.one] using this

theorem IsExpectation.sum {E : ((Fin m → ℝ) → ℝ) → ℝ} {mean Sigma} (hE : IsExpectation E mean Sigma) {ι : Type}
    (t : Finset ι) (f : ι → (Fin m → ℝ) → ℝ) : E (fun a => ∑ i ∈ t, f i a) = ∑ i ∈ t, E (f i) := by
  classical
  induction t using Finset.induction_on with
  | empty => simpa using hE.zero
  | insert i t hi ih =>
      have : (fun a => ∑ j ∈ insert i t, f j a) = fun a => f i a + ∑ j ∈ t, f j a := by
        funext a; rw [Finset.sum_insert hi]
      rw [this, hE.add, ih, Finset.sum_insert hi]

theorem expect_linear {E : ((Fin m → ℝ) → ℝ) → ℝ} {mean Sigma} (hE : IsExpectation E mean Sigma) (v : Fin m → ℝ) :
    E (fun a => v ⬝ᵥ a) = v ⬝ᵥ mean := by
  simp only [dotProduct]
  rw [hE.sum]
  apply Finset.sum_congr rfl
  intro i _
  rw [hE.smul, hE.first]

theorem expect_quad {E : ((Fin m → ℝ) → ℝ) → ℝ} {mean Sigma} (hE : IsExpectation E mean Sigma)
    (G : Matrix (Fin m) (Fin m) ℝ) (hS : Sigmaᵀ = Sigma) :
    E (fun a => bil G a a) = (Sigma * G).trace + bil G mean mean := by
  have e : ∀ a : Fin m → ℝ, bil G a a = ∑ i, ∑ j, G i j * (a i * a j) := by
    intro a
    simp only [bil, dotProduct, mulVec, Finset.mul_sum]
    apply Finset.sum_congr rfl
    intro i _
    apply Finset.sum_congr rfl
    intro j _
    ring
  simp only [e]
  rw [hE.sum]
  simp only [hE.sum, hE.smul, hE.second]
  simp only [trace, diag_apply, mul_apply]
  rw [Finset.sum_comm (f := fun i j => Sigma i j * G j i), ← Finset.sum_add_distrib]
  apply Finset.sum_congr rfl
  intro i _
  rw [← Finset.sum_add_distrib]
  apply Finset.sum_congr rfl
  intro j _
  have : Sigma j i = Sigma i j := congrFun (congrFun hS i) j
  rw [this]
  ring

/-- C43. With actions drawn with mean `-K s` and covariance `Sigma`, the value functions of the gaussian policy satisfy its
Bellman equations. -/
theorem C43_gaussian (l : LQR n m) (K : Matrix (Fin m) (Fin n) ℝ) (P : Matrix (Fin n) (Fin n) ℝ) (hP : IsLqrP l K P)
    (Sigma : Matrix (Fin m) (Fin m) ℝ) (hS : Sigmaᵀ = Sigma) (hg : l.gamma < 1) (s : Fin n → ℝ)
    (E : ((Fin m → ℝ) → ℝ) → ℝ) (hE : IsExpectation E (-(K.mulVec s)) Sigma) :
    (∀ a, lqrQGauss l P Sigma s a = lqrReward l s a + l.gamma * lqrVGauss l P Sigma (lqrNext l s a)) ∧
    lqrVGauss l P Sigma s = E (fun a => lqrQGauss l P Sigma s a) ∧
    lqrVGauss l P Sigma s = E (fun a => lqrReward l s a + l.gamma * lqrVGauss l P Sigma (lqrNext l s a)) := by
  have h1 : 1 - l.gamma ≠ 0 := by linarith
  have hq : ∀ a, lqrQGauss l P Sigma s a = lqrReward l s a + l.gamma * lqrVGauss l P Sigma (lqrNext l s a) := by
    intro a
    rw [lqrQGauss, (C43_action_value l K P s).1, lqrVGauss]
    field_simp
    ring
  have hv : lqrVGauss l P Sigma s = E (fun a => lqrQGauss l P Sigma s a) := by
    set c := l.gamma / (1 - l.gamma) * (Sigma * (l.R + l.gamma • (l.Bᵀ * P * l.B))).trace with hc
    have e : (fun a => lqrQGauss l P Sigma s a) = fun a =>
        (-(bil (l.Q + l.gamma • (l.Aᵀ * P * l.A)) s s) - c) +
        (-1 * ((l.gamma • (l.Aᵀ * P * l.B))ᵀ.mulVec s ⬝ᵥ a) +
        (-1 * ((l.gamma • (l.Bᵀ * P * l.A)).mulVec s ⬝ᵥ a) +
          -1 * bil (l.R + l.gamma • (l.Bᵀ * P * l.B)) a a)) := by
      funext a
      have e1 : (l.gamma • (l.Aᵀ * P * l.B))ᵀ.mulVec s ⬝ᵥ a = bil (l.gamma • (l.Aᵀ * P * l.B)) s a := by
        rw [← bil_symm, bil, dotProduct_comm]
      have e2 : (l.gamma • (l.Bᵀ * P * l.A)).mulVec s ⬝ᵥ a = bil (l.gamma • (l.Bᵀ * P * l.A)) a s := by
        rw [bil, dotProduct_comm]
      rw [e1, e2, lqrQGauss, lqrQ_expand, ← hc]
      ring
    rw [e, hE.add, hE.const, hE.add, hE.smul, hE.add, hE.smul, hE.smul, expect_linear hE, expect_linear hE, expect_quad hE _ hS]
    have e1 : (l.gamma • (l.Aᵀ * P * l.B))ᵀ.mulVec s ⬝ᵥ (-(K.mulVec s)) =
        bil (l.gamma • (l.Aᵀ * P * l.B)) s (-(K.mulVec s)) := by
      rw [← bil_symm, bil, dotProduct_comm]
    have e2 : (l.gamma • (l.Bᵀ * P * l.A)).mulVec s ⬝ᵥ (-(K.mulVec s)) =
        bil (l.gamma • (l.Bᵀ * P * l.A)) (-(K.mulVec s)) s := by
      rw [bil, dotProduct_comm]
    rw [e1, e2]
    have h2 := (C43_action_value l K P s).2 hP
    rw [lqrQ_expand] at h2
    rw [lqrVGauss, ← h2, hc]
    field_simp
    ring
  refine ⟨hq, hv, ?_⟩
  rw [hv]
  congr 1
  funext a
  exact hq a

/-! ### A system that meets the hypotheses: scalar state and action -/

def exampleLQR : LQR 1 1 := ⟨1, 1, 1, 1, 0.5⟩

theorem example_cost : CostOk exampleLQR where
  symmQ := transpose_one
  symmR := transpose_one
  posQ := fun s => by simp [exampleLQR, quad, dotProduct]; exact mul_self_nonneg _
  posR := fun a ha => by
    simp only [exampleLQR, quad, one_mulVec, dotProduct, Finset.univ_unique, Finset.sum_singleton]
    apply mul_self_pos.mpr
    intro h0; apply ha; funext i; rw [Subsingleton.elim i default]; exact h0
  gamma := by norm_num [exampleLQR]

/-- With gain 1 the closed loop is `s' = 0` and `P = 2`. -/
example : IsLqrP exampleLQR 1 ((2 : ℝ) • 1) := by
  rw [C43_lyapunov]
  ext i j
  rw [Subsingleton.elim i j]
  norm_num [exampleLQR, Matrix.smul_apply, Matrix.ofNat_apply]

/-- A distribution with mean 0 and variance 1: plus or minus one with equal probability. -/
example : IsExpectation (fun f : (Fin 1 → ℝ) → ℝ => (f (fun _ => 1) + f (fun _ => -1)) / 2) (fun _ => 0) 1 where
  add := by intro f g; ring
  smul := by intro c f; ring
  one := by norm_num
  first := by intro i; norm_num
  second := by intro i j; rw [Subsingleton.elim i j]; norm_num

end

end Verif.Solvers
