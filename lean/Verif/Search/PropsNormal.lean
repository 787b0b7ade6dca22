/-
The densities of the search distributions and of the Gaussian policies are densities of normal distributions (C58), and the formulas for
entropy and divergence in the constrained update are those of these densities (C96).
-/
import Verif.Search.Normal

namespace Verif.Search

open Matrix MeasureTheory

variable {n : ℕ}

/-- `p` is a positive probability density with mean `m` and covariance `s`. -/
def IsDensity (p : Vec n → ℝ) (m : Vec n) (s : Matrix (Fin n) (Fin n) ℝ) : Prop :=
  (∀ x, 0 < p x) ∧ Integrable p ∧ ∫ x, p x = 1 ∧ (∀ i, ∫ x, p x * x i = m i) ∧ ∀ i j, ∫ x, p x * ((x i - m i) * (x j - m j)) = s i j

/-- The differential entropy of a density. -/
noncomputable def differentialEntropy (p : Vec n → ℝ) : ℝ := -∫ x, p x * Real.log (p x)

/-- The Kullback-Leibler divergence of two densities. -/
noncomputable def divergence (p q : Vec n → ℝ) : ℝ := ∫ x, p x * Real.log (p x / q x)

theorem isDensity_logPdf (m : Vec n) (s : Matrix (Fin n) (Fin n) ℝ) (hs : s.PosDef) :
    IsDensity (fun x => Real.exp (logPdf x m s)) m s := by
  obtain ⟨a1, a2⟩ := normal_one m s hs 1
  refine ⟨fun x => Real.exp_pos _, ?_, ?_, ?_, fun i j => (normal_cov m s hs i j).2⟩
  · simpa [HasExpect] using a1
  · simpa [mean] using a2
  · intro i
    have b := normal_mean m s hs i
    have c := normal_one m s hs (m i)
    have d := mean_add m s _ _ b.1 c.1
    have : mean m s (fun x => x i - m i + m i) = m i := by rw [d.2, b.2, c.2, zero_add]
    simpa [mean] using this

/-- C58. Every distribution with a positive definite covariance has a density of mass one whose mean and covariance are those of the distribution. -/
theorem C58_density (g : Gauss n) (hs : g.sigma.PosDef) (d : Diag n) (hd : ∀ j, d.std j ≠ 0) (c : Chol n) (hl : ∀ i j, i < j → c.chol i j = 0)
    (hc : ∀ i, c.chol i i ≠ 0) :
    IsDensity (fun x => Real.exp (logPdf x g.mu g.sigma)) g.mu g.sigma ∧
    IsDensity (fun x => Real.exp (logPdf x d.mu d.sigma)) d.mu (Matrix.diagonal (fun j => d.std j ^ 2)) ∧
    IsDensity (fun x => Real.exp (logPdf x c.mu c.sigma)) c.mu (c.chol * c.cholᵀ) := by
  have h := fun x => C58_covariance x d c
  refine ⟨isDensity_logPdf _ _ hs, isDensity_logPdf _ _ ?_, isDensity_logPdf _ _ ?_⟩
  · refine Matrix.PosDef.of_dotProduct_mulVec_pos ?_ (fun x hx => ?_)
    · rw [Matrix.IsHermitian, Matrix.conjTranspose_eq_transpose_of_trivial]; exact (h 0).1
    · simpa using (h x).2.2.1 hd hx
  · refine Matrix.PosDef.of_dotProduct_mulVec_pos ?_ (fun x hx => ?_)
    · rw [Matrix.IsHermitian, Matrix.conjTranspose_eq_transpose_of_trivial]; exact (h 0).2.2.2.1
    · simpa using (h x).2.2.2.2.2 hl hc hx

/-- C96. The formulas that the constrained update uses are the divergence of the old density from the new one, and the entropies of the two. -/
theorem C96_meaning (m c : Vec n) (s t : Matrix (Fin n) (Fin n) ℝ) (hs : s.PosDef) (ht : t.PosDef) :
    klOf m c s t t⁻¹ (Real.log s.det) (Real.log t.det)
      = divergence (fun x => Real.exp (logPdf x m s)) (fun x => Real.exp (logPdf x c t)) ∧
    entropyOf (Real.log s.det) n = differentialEntropy (fun x => Real.exp (logPdf x m s)) ∧
    entropyOf (Real.log t.det) n = differentialEntropy (fun x => Real.exp (logPdf x c t)) := by
  refine ⟨?_, ?_, ?_⟩
  · have h := normal_kl m c s t hs
    simp only [divergence, ← Real.exp_sub, Real.log_exp]
    exact h.symm
  · have h := normal_entropy m s hs
    simp only [differentialEntropy, Real.log_exp]
    exact h.symm
  · have h := normal_entropy c t ht
    simp only [differentialEntropy, Real.log_exp]
    exact h.symm

example : (1 : Matrix (Fin 2) (Fin 2) ℝ).PosDef := Matrix.PosDef.one

end Verif.Search
