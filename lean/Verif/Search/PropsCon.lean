/-
Property C96: the constrained weighted maximum likelihood of the Gaussian distributions.
-/
import Verif.Search.PropsDist
import Mathlib.Analysis.Matrix.PosDef
import Mathlib.Analysis.Matrix.Spectrum
import Mathlib.Analysis.Matrix.Order

namespace Verif.Search

open Matrix

variable {n : ℕ}

/-! ### Traces and determinants -/

theorem trace_vecMulVec_quad (M : Matrix (Fin n) (Fin n) ℝ) (x : Vec n) : (M * vecMulVec x x).trace = x ⬝ᵥ (M *ᵥ x) := by
  rw [Matrix.mul_vecMulVec, trace_vecMulVec, dotProduct_comm]

theorem exists_root (A : Matrix (Fin n) (Fin n) ℝ) (hA : A.PosDef) :
    ∃ B : Matrix (Fin n) (Fin n) ℝ, A = Bᵀ * B ∧ IsUnit B.det := by
  set U : Matrix (Fin n) (Fin n) ℝ := (hA.1.eigenvectorUnitary : Matrix (Fin n) (Fin n) ℝ) with hU
  set D : Matrix (Fin n) (Fin n) ℝ := diagonal (fun i => Real.sqrt (hA.1.eigenvalues i)) with hD
  have hs := hA.1.spectral_theorem
  rw [Unitary.conjStarAlgAut_apply] at hs
  have hDD : D * D = diagonal (RCLike.ofReal ∘ hA.1.eigenvalues) := by
    rw [hD, diagonal_mul_diagonal]
    congr 1
    funext i
    rw [Real.mul_self_sqrt (hA.eigenvalues_pos i).le]
    rfl
  have hDt : Dᵀ = D := diagonal_transpose _
  have hB : A = (D * Uᵀ)ᵀ * (D * Uᵀ) := by
    rw [transpose_mul, transpose_transpose, hDt, Matrix.mul_assoc, ← Matrix.mul_assoc D, hDD]
    conv_lhs => rw [hs]
    rw [star_eq_conjTranspose, conjTranspose_eq_transpose_of_trivial, Matrix.mul_assoc]
  refine ⟨D * Uᵀ, hB, ?_⟩
  have hdet : A.det = (D * Uᵀ).det * (D * Uᵀ).det := by
    conv_lhs => rw [hB]
    rw [det_mul, det_transpose]
  have := hA.det_pos
  rw [hdet] at this
  exact isUnit_iff_ne_zero.2 (fun h => by rw [h] at this; simp at this)

/-- The logarithm of the determinant lies below its tangent. -/
theorem log_det_le (A S : Matrix (Fin n) (Fin n) ℝ) (hA : A.PosDef) (hS : S.PosDef) :
    Real.log A.det - Real.log S.det ≤ (S⁻¹ * A).trace - n := by
  obtain ⟨B, hB, hu⟩ := exists_root S⁻¹ hS.inv
  set X := B * A * Bᵀ with hX
  have hXp : X.PosDef := by
    have := hA.mul_mul_conjTranspose_same (B := B) (by
      rw [Matrix.vecMul_injective_iff_isUnit, isUnit_iff_isUnit_det]
      exact hu)
    rwa [conjTranspose_eq_transpose_of_trivial] at this
  have htr : (S⁻¹ * A).trace = X.trace := by
    rw [hB, hX, Matrix.mul_assoc, trace_mul_comm, Matrix.mul_assoc]
  have hdet : X.det = S⁻¹.det * A.det := by
    rw [hX, hB, det_mul, det_mul, det_mul, det_transpose]; ring
  have hlog : Real.log X.det = Real.log A.det - Real.log S.det := by
    rw [hdet, Real.log_mul hS.inv.det_pos.ne' hA.det_pos.ne', det_nonsing_inv, Ring.inverse_eq_inv', Real.log_inv]
    ring
  have h1 : X.det = ∏ i, hXp.1.eigenvalues i := hXp.1.det_eq_prod_eigenvalues
  have h2 : X.trace = ∑ i, hXp.1.eigenvalues i := hXp.1.trace_eq_sum_eigenvalues
  rw [← hlog, htr, h1, h2, Real.log_prod (fun i _ => (hXp.eigenvalues_pos i).ne')]
  have : ∑ i, Real.log (hXp.1.eigenvalues i) ≤ ∑ i, (hXp.1.eigenvalues i - 1) :=
    Finset.sum_le_sum (fun i _ => Real.log_le_sub_one_of_pos (hXp.eigenvalues_pos i))
  refine this.trans (le_of_eq ?_)
  rw [Finset.sum_sub_distrib]
  simp

/-! ### Divergence and entropy -/

theorem ev_quad {Ω : Type} [Fintype Ω] (prob : Ω → ℝ) (X : Ω → Vec n) (mu m : Vec n) (sigma M : Matrix (Fin n) (Fin n) ℝ)
    (h : HasMoments prob X mu sigma) :
    ev prob (fun ω => (X ω - m) ⬝ᵥ (M *ᵥ (X ω - m))) = (M * sigma).trace + (m - mu) ⬝ᵥ (M *ᵥ (m - mu)) := by
  obtain ⟨h0, h1, h2⟩ := h
  have hev : ∀ f g : Ω → ℝ, ev prob (fun ω => f ω + g ω) = ev prob f + ev prob g := by
    intro f g; simp [ev, mul_add, Finset.sum_add_distrib]
  have hc : ∀ (c : ℝ) (f : Ω → ℝ), ev prob (fun ω => c * f ω) = c * ev prob f := by
    intro c f
    simp only [ev, Finset.mul_sum]
    exact Finset.sum_congr rfl (fun ω _ => by ring)
  have hk : ∀ c : ℝ, ev prob (fun _ => c) = c := by
    intro c; simp [ev, ← Finset.sum_mul, h0]
  have hs : ∀ f : Fin n → Ω → ℝ, ev prob (fun ω => ∑ a, f a ω) = ∑ a, ev prob (f a) := by
    intro f
    simp only [ev, Finset.mul_sum]
    exact Finset.sum_comm
  have hpt : ∀ ω, (X ω - m) ⬝ᵥ (M *ᵥ (X ω - m)) = ∑ a, ∑ b, (M a b * ((X ω a - mu a) * (X ω b - mu b)) +
      (M a b * (mu b - m b) * (X ω a - mu a) + (M a b * (mu a - m a) * (X ω b - mu b) + M a b * ((mu a - m a) * (mu b - m b))))) := by
    intro ω
    simp only [dotProduct, mulVec, Finset.mul_sum, Pi.sub_apply]
    exact Finset.sum_congr rfl (fun a _ => Finset.sum_congr rfl (fun b _ => by ring))
  have hfun : (fun ω => (X ω - m) ⬝ᵥ (M *ᵥ (X ω - m))) = fun ω => ∑ a, ∑ b, (M a b * ((X ω a - mu a) * (X ω b - mu b)) +
      (M a b * (mu b - m b) * (X ω a - mu a) + (M a b * (mu a - m a) * (X ω b - mu b) + M a b * ((mu a - m a) * (mu b - m b))))) :=
    funext hpt
  rw [hfun, hs]
  have : ∀ a, ev prob (fun ω => ∑ b, (M a b * ((X ω a - mu a) * (X ω b - mu b)) +
      (M a b * (mu b - m b) * (X ω a - mu a) + (M a b * (mu a - m a) * (X ω b - mu b) + M a b * ((mu a - m a) * (mu b - m b)))))) =
      ∑ b, (M a b * sigma a b + M a b * ((mu a - m a) * (mu b - m b))) := by
    intro a
    rw [hs]
    refine Finset.sum_congr rfl (fun b _ => ?_)
    rw [hev, hev, hev, hc, hc, hc, hk, h1, h1, h2]
    ring
  rw [Finset.sum_congr rfl (fun a _ => this a)]
  simp only [Finset.sum_add_distrib]
  have hsym : ∀ a b, sigma a b = sigma b a := fun a b => by
    rw [← h2 a b, ← h2 b a]
    congr 1
    funext ω
    ring
  congr 1
  · simp only [Matrix.trace, Matrix.diag, Matrix.mul_apply]
    exact Finset.sum_congr rfl (fun a _ => Finset.sum_congr rfl (fun b _ => by rw [hsym]))
  · simp only [dotProduct, mulVec, Finset.mul_sum, Pi.sub_apply]
    exact Finset.sum_congr rfl (fun a _ => Finset.sum_congr rfl (fun b _ => by ring))

theorem ev_logPdf {Ω : Type} [Fintype Ω] (prob : Ω → ℝ) (X : Ω → Vec n) (mu m : Vec n) (sigma s : Matrix (Fin n) (Fin n) ℝ)
    (h : HasMoments prob X mu sigma) :
    ev prob (fun ω => logPdf (X ω) m s) =
      -(1 / 2) * (n * Real.log (2 * Real.pi) + Real.log s.det + ((s⁻¹ * sigma).trace + (m - mu) ⬝ᵥ (s⁻¹ *ᵥ (m - mu)))) := by
  rw [← ev_quad prob X mu m sigma s⁻¹ h]
  have h0 := h.1
  simp only [ev, logPdf]
  have : ∀ ω, prob ω * (-(1 / 2) * (n * Real.log (2 * Real.pi) + Real.log s.det + (X ω - m) ⬝ᵥ (s⁻¹ *ᵥ (X ω - m)))) =
      prob ω * (-(1 / 2) * (n * Real.log (2 * Real.pi) + Real.log s.det)) +
      -(1 / 2) * (prob ω * (X ω - m) ⬝ᵥ (s⁻¹ *ᵥ (X ω - m))) := fun ω => by ring
  simp only [this, Finset.sum_add_distrib, ← Finset.sum_mul, ← Finset.mul_sum, h0]
  ring

/-- C96. The divergence and the entropy computed by the distributions are the expectations that define them: for every random
vector with the mean and the covariance of the old distribution, the divergence is the expected difference of the log-densities,
and the entropy minus the expected log-density. -/
theorem C96_divergence {Ω : Type} [Fintype Ω] (prob : Ω → ℝ) (X : Ω → Vec n) (mu m : Vec n) (sigma s : Matrix (Fin n) (Fin n) ℝ)
    (h : HasMoments prob X mu sigma) (hd : sigma.det ≠ 0) :
    klOf mu m sigma s s⁻¹ (Real.log sigma.det) (Real.log s.det) = ev prob (fun ω => logPdf (X ω) mu sigma - logPdf (X ω) m s) ∧
    entropyOf (Real.log sigma.det) n = ev prob (fun ω => -logPdf (X ω) mu sigma) := by
  have hsub : ev prob (fun ω => logPdf (X ω) mu sigma - logPdf (X ω) m s) =
      ev prob (fun ω => logPdf (X ω) mu sigma) - ev prob (fun ω => logPdf (X ω) m s) := by
    simp [ev, mul_sub, Finset.sum_sub_distrib]
  have hneg : ev prob (fun ω => -logPdf (X ω) mu sigma) = -ev prob (fun ω => logPdf (X ω) mu sigma) := by
    simp [ev]
  have htr : (sigma⁻¹ * sigma).trace = n := by
    rw [nonsing_inv_mul _ (isUnit_iff_ne_zero.2 hd), trace_one, Fintype.card_fin]
  rw [hsub, hneg, ev_logPdf prob X mu m sigma s h, ev_logPdf prob X mu mu sigma sigma h, htr, sub_self, klOf, entropyOf]
  simp only [zero_dotProduct]
  constructor <;> ring

/-- C96. The divergence is never negative. -/
theorem C96_divergence_nonneg (mu m : Vec n) (sigma s : Matrix (Fin n) (Fin n) ℝ) (hs : sigma.PosDef) (hS : s.PosDef) :
    0 ≤ klOf mu m sigma s s⁻¹ (Real.log sigma.det) (Real.log s.det) := by
  unfold klOf
  have h1 := log_det_le sigma s hs hS
  have h2 := hS.inv.posSemidef.dotProduct_mulVec_nonneg (m - mu)
  rw [star_trivial] at h2
  linarith

/-! ### The Lagrangian -/

/-- The matrix of the weighted second moments about the new mean, with the old distribution as one more sample. -/
noncomputable def scatter (l : List (ℝ × Vec n)) (c : Vec n) : Matrix (Fin n) (Fin n) ℝ :=
  (l.map (fun p => p.1 • vecMulVec (p.2 - c) (p.2 - c))).sum

theorem trace_scatter (l : List (ℝ × Vec n)) (c : Vec n) (M : Matrix (Fin n) (Fin n) ℝ) :
    (M * scatter l c).trace = (l.map (fun p => p.1 * ((p.2 - c) ⬝ᵥ (M *ᵥ (p.2 - c))))).sum := by
  unfold scatter
  induction l with
  | nil => simp
  | cons p l ih =>
    simp only [List.map_cons, List.sum_cons, Matrix.mul_add, trace_add, ih, Matrix.mul_smul, trace_smul, trace_vecMulVec_quad,
      smul_eq_mul]

theorem scatter_apply (l : List (ℝ × Vec n)) (c : Vec n) (a b : Fin n) :
    scatter l c a b = (l.map (fun p => p.1 * (p.2 a - c a) * (p.2 b - c b))).sum := by
  unfold scatter
  induction l with
  | nil => simp
  | cons p l ih =>
    rw [List.map_cons, List.sum_cons, Matrix.add_apply, ih, List.map_cons, List.sum_cons, Matrix.smul_apply, vecMulVec_apply,
      smul_eq_mul, Pi.sub_apply, Pi.sub_apply, mul_assoc]

theorem conMean_spec (l : List (ℝ × Vec n)) (mu : Vec n) (eta : ℝ) (h : sumD l + eta ≠ 0) :
    IsWeightedMean (l ++ [(eta, mu)]) (conMean l mu eta) := by
  intro j
  have : ((l ++ [(eta, mu)]).map (fun p => p.1)).sum = sumD l + eta := by simp [sumD]
  rw [this, conMean, mul_div_cancel₀ _ h]
  simp

/-- The objective, for any new mean and covariance. -/
theorem lagrangian_eq (l : List (ℝ × Vec n)) (mu m : Vec n) (sigma s : Matrix (Fin n) (Fin n) ℝ) (eps kappa eta omg : ℝ)
    (h : sumD l + eta ≠ 0) :
    lagrangian l mu m sigma s eps kappa eta omg =
      (-(1 / 2) * (sumD l * (n * Real.log (2 * Real.pi))) + eta * (eps + (1 / 2) * (n + Real.log sigma.det)) +
        omg * (kappa - (1 / 2) * Real.log sigma.det)) -
      (1 / 2) * ((sumD l + eta - omg) * Real.log s.det +
        (s⁻¹ * (scatter (l ++ [(eta, mu)]) (conMean l mu eta) + eta • sigma)).trace +
        (sumD l + eta) * ((conMean l mu eta - m) ⬝ᵥ (s⁻¹ *ᵥ (conMean l mu eta - m)))) := by
  have hexp : (l.map (fun p => p.1 * logPdf p.2 m s)).sum =
      -(1 / 2) * (sumD l * (n * Real.log (2 * Real.pi) + Real.log s.det)) -
      (1 / 2) * (l.map (fun p => p.1 * ((p.2 - m) ⬝ᵥ (s⁻¹ *ᵥ (p.2 - m))))).sum := by
    clear h
    unfold sumD
    induction l with
    | nil => simp
    | cons p l ih =>
      simp only [List.map_cons, List.sum_cons]
      rw [ih]
      unfold logPdf
      ring
  have hq := weighted_quad (l ++ [(eta, mu)]) (conMean l mu eta) m (conMean_spec l mu eta h) s⁻¹
  rw [← trace_scatter (l ++ [(eta, mu)]) (conMean l mu eta)] at hq
  have hsum : sumD (l ++ [(eta, mu)]) = sumD l + eta := by simp [sumD]
  have hsym : (mu - m) ⬝ᵥ (s⁻¹ *ᵥ (mu - m)) = (m - mu) ⬝ᵥ (s⁻¹ *ᵥ (m - mu)) := by
    rw [← neg_sub m mu, mulVec_neg, neg_dotProduct_neg]
  rw [hsum, List.map_append, List.sum_append, List.map_cons, List.map_nil, List.sum_cons, List.sum_nil, add_zero, hsym] at hq
  rw [lagrangian, hexp, klOf, entropyOf, entropyOf, Matrix.mul_add, trace_add, Matrix.mul_smul, trace_smul, smul_eq_mul]
  linarith

theorem lagrangian_feasible (l : List (ℝ × Vec n)) (mu m : Vec n) (sigma s : Matrix (Fin n) (Fin n) ℝ) (eps kappa eta omg : ℝ)
    (he : 0 ≤ eta) (ho : 0 ≤ omg) (hf : Feasible mu sigma eps kappa m s) :
    logLik l m s ≤ lagrangian l mu m sigma s eps kappa eta omg := by
  have h1 : 0 ≤ eta * (eps - klOf mu m sigma s s⁻¹ (Real.log sigma.det) (Real.log s.det)) :=
    mul_nonneg he (sub_nonneg.2 hf.1)
  have h2 : 0 ≤ omg * (entropyOf (Real.log s.det) n - (entropyOf (Real.log sigma.det) n - kappa)) :=
    mul_nonneg ho (sub_nonneg.2 hf.2)
  unfold lagrangian logLik
  linarith

theorem scatter_posSemidef (l : List (ℝ × Vec n)) (c : Vec n) (hw : ∀ p ∈ l, 0 ≤ p.1) : (scatter l c).PosSemidef := by
  unfold scatter
  induction l with
  | nil => exact PosSemidef.zero
  | cons p l ih =>
    rw [List.map_cons, List.sum_cons]
    refine PosSemidef.add (PosSemidef.smul ?_ (hw p List.mem_cons_self)) (ih (fun q hq => hw q (List.mem_cons_of_mem _ hq)))
    simpa using posSemidef_vecMulVec_self_star (R := ℝ) (p.2 - c)

theorem conCov_eq (l : List (ℝ × Vec n)) (mu : Vec n) (sigma : Matrix (Fin n) (Fin n) ℝ) (eta omg : ℝ) :
    conCov l mu sigma eta omg =
      (sumD l + eta - omg)⁻¹ • (scatter (l ++ [(eta, mu)]) (conMean l mu eta) + eta • sigma) := by
  ext a b
  rw [Matrix.smul_apply, Matrix.add_apply, scatter_apply, Matrix.smul_apply, conCov]
  simp only [List.map_append, List.sum_append, List.map_cons, List.map_nil, List.sum_cons, List.sum_nil, smul_eq_mul]
  rw [div_eq_inv_mul]
  congr 1
  ring

theorem sumD_nonneg (l : List (ℝ × Vec n)) (hw : ∀ p ∈ l, 0 ≤ p.1) : 0 ≤ sumD l := by
  refine List.sum_nonneg (fun x hx => ?_)
  obtain ⟨p, hp, rfl⟩ := List.mem_map.1 hx
  exact hw p hp

/-- C96. The mean and the covariance that the Cholesky distribution computes for given multipliers are valid, they maximise the
objective of the update over all the Gaussian distributions, and the value that is minimised over the multipliers is an upper
bound for the weighted log-likelihood of every distribution that satisfies the constraints. -/
theorem C96_chol (l : List (ℝ × Vec n)) (hw : ∀ p ∈ l, 0 ≤ p.1) (mu : Vec n) (sigma : Matrix (Fin n) (Fin n) ℝ)
    (hs : sigma.PosDef) (eps kappa eta omg : ℝ) (he : 0 < eta) (ho : 0 ≤ omg) (hk : omg < (l.map (fun p => p.1)).sum + eta) :
    (conCov l mu sigma eta omg).PosDef ∧ ∀ (m : Vec n) (s : Matrix (Fin n) (Fin n) ℝ), s.PosDef →
      lagrangian l mu m sigma s eps kappa eta omg ≤
        lagrangian l mu (conMean l mu eta) sigma (conCov l mu sigma eta omg) eps kappa eta omg ∧
      (Feasible mu sigma eps kappa m s → logLik l m s ≤ lagChol l mu sigma eps kappa eta omg) := by
  have hW := sumD_nonneg l hw
  have hk' : 0 < sumD l + eta - omg := sub_pos.2 hk
  have hA : (conCov l mu sigma eta omg).PosDef := by
    rw [conCov_eq]
    refine PosDef.smul (PosDef.posSemidef_add (scatter_posSemidef _ _ ?_) (PosDef.smul hs he)) (inv_pos.2 hk')
    intro p hp
    rcases List.mem_append.1 hp with hp | hp
    · exact hw p hp
    · simp only [List.mem_singleton] at hp; subst hp; exact he.le
  refine ⟨hA, fun m s hS => ?_⟩
  have hne : sumD l + eta ≠ 0 := by linarith
  have hmax : lagrangian l mu m sigma s eps kappa eta omg ≤
      lagrangian l mu (conMean l mu eta) sigma (conCov l mu sigma eta omg) eps kappa eta omg := by
    rw [lagrangian_eq l mu m sigma s eps kappa eta omg hne, lagrangian_eq l mu (conMean l mu eta) sigma _ eps kappa eta omg hne]
    have hsc : scatter (l ++ [(eta, mu)]) (conMean l mu eta) + eta • sigma = (sumD l + eta - omg) • conCov l mu sigma eta omg := by
      rw [conCov_eq, smul_smul, mul_inv_cancel₀ hk'.ne', one_smul]
    rw [hsc]
    simp only [sub_self, zero_dotProduct, mul_zero, add_zero, Matrix.mul_smul, trace_smul, smul_eq_mul]
    have h1 := log_det_le _ _ hA hS
    have h2 : ((conCov l mu sigma eta omg)⁻¹ * conCov l mu sigma eta omg).trace = n := by
      rw [nonsing_inv_mul _ (isUnit_iff_ne_zero.2 hA.det_pos.ne'), trace_one, Fintype.card_fin]
    have h3 := hS.inv.posSemidef.dotProduct_mulVec_nonneg (conMean l mu eta - m)
    rw [star_trivial] at h3
    have h4 : 0 ≤ (sumD l + eta) * ((conMean l mu eta - m) ⬝ᵥ (s⁻¹ *ᵥ (conMean l mu eta - m))) := mul_nonneg (by linarith) h3
    have h5 := mul_le_mul_of_nonneg_left h1 hk'.le
    rw [h2]
    nlinarith
  exact ⟨hmax, fun hf => (lagrangian_feasible l mu m sigma s eps kappa eta omg he.le ho hf).trans hmax⟩

/-- C96. If moreover the computed distribution satisfies the constraints, and a multiplier is only positive where its constraint
is tight, then no distribution that satisfies the constraints has a higher weighted log-likelihood. -/
theorem C96_chol_optimal (l : List (ℝ × Vec n)) (hw : ∀ p ∈ l, 0 ≤ p.1) (mu : Vec n) (sigma : Matrix (Fin n) (Fin n) ℝ)
    (hs : sigma.PosDef) (eps kappa eta omg : ℝ) (he : 0 < eta) (ho : 0 ≤ omg) (hk : omg < (l.map (fun p => p.1)).sum + eta)
    (hkl : gaussKL mu sigma (conMean l mu eta) (conCov l mu sigma eta omg) = eps)
    (hent : omg * (gaussEntropy (conCov l mu sigma eta omg) - (gaussEntropy sigma - kappa)) = 0)
    (m : Vec n) (s : Matrix (Fin n) (Fin n) ℝ) (hS : s.PosDef) (hf : Feasible mu sigma eps kappa m s) :
    logLik l m s ≤ logLik l (conMean l mu eta) (conCov l mu sigma eta omg) := by
  refine ((C96_chol l hw mu sigma hs eps kappa eta omg he ho hk).2 m s hS).2 hf |>.trans (le_of_eq ?_)
  unfold lagChol lagrangian
  have h1 : klOf mu (conMean l mu eta) sigma (conCov l mu sigma eta omg) (conCov l mu sigma eta omg)⁻¹ (Real.log sigma.det)
      (Real.log (conCov l mu sigma eta omg).det) = eps := hkl
  have h2 : omg * (entropyOf (Real.log (conCov l mu sigma eta omg).det) n - (entropyOf (Real.log sigma.det) n - kappa)) = 0 := hent
  rw [h1, h2, sub_self, mul_zero, add_zero, add_zero]
  rfl

theorem diagonal_inv (v : Vec n) (hv : ∀ j, v j ≠ 0) : (diagonal v)⁻¹ = diagonal (fun j => (v j)⁻¹) := by
  apply Matrix.inv_eq_right_inv
  rw [diagonal_mul_diagonal, ← diagonal_one]
  congr 1
  funext j
  exact mul_inv_cancel₀ (hv j)

/-- C96. The same for the diagonal distribution, among the distributions with a diagonal covariance. -/
theorem C96_diag (l : List (ℝ × Vec n)) (hw : ∀ p ∈ l, 0 ≤ p.1) (mu std : Vec n)
    (hs : ∀ j, 0 < std j) (eps kappa eta omg : ℝ) (he : 0 < eta) (ho : 0 ≤ omg) (hk : omg < (l.map (fun p => p.1)).sum + eta) :
    (∀ j, 0 < conVar l mu std eta omg j) ∧ ∀ (m v : Vec n), (∀ j, 0 < v j) →
      lagrangian l mu m (diagonal (fun j => std j ^ 2)) (diagonal v) eps kappa eta omg ≤
        lagrangian l mu (conMean l mu eta) (diagonal (fun j => std j ^ 2)) (diagonal (conVar l mu std eta omg)) eps kappa eta omg ∧
      (Feasible mu (diagonal (fun j => std j ^ 2)) eps kappa m (diagonal v) →
        logLik l m (diagonal v) ≤ lagDiag l mu std eps kappa eta omg) := by
  have hW := sumD_nonneg l hw
  have hk' : 0 < sumD l + eta - omg := sub_pos.2 hk
  have hvar : ∀ j, conVar l mu std eta omg j = conCov l mu (diagonal (fun j => std j ^ 2)) eta omg j j := by
    intro j
    unfold conVar conCov
    rw [diagonal_apply_eq]
    have : (fun p : ℝ × Vec n => p.1 * (p.2 j - conMean l mu eta j) ^ 2) =
        fun p => p.1 * (p.2 j - conMean l mu eta j) * (p.2 j - conMean l mu eta j) := by funext p; ring
    rw [this]
    ring
  have hsd : (diagonal (fun j => std j ^ 2) : Matrix (Fin n) (Fin n) ℝ).PosDef := PosDef.diagonal (fun j => by
    have := hs j; positivity)
  have hpos : ∀ j, 0 < conVar l mu std eta omg j := fun j => by
    rw [hvar]
    exact (C96_chol l hw mu _ hsd eps kappa eta omg he ho hk).1.diag_pos
  refine ⟨hpos, fun m v hv => ?_⟩
  have hne : sumD l + eta ≠ 0 := by linarith
  have hmax : lagrangian l mu m (diagonal (fun j => std j ^ 2)) (diagonal v) eps kappa eta omg ≤
      lagrangian l mu (conMean l mu eta) (diagonal (fun j => std j ^ 2)) (diagonal (conVar l mu std eta omg)) eps kappa eta omg := by
    rw [lagrangian_eq l mu m _ _ eps kappa eta omg hne, lagrangian_eq l mu (conMean l mu eta) _ _ eps kappa eta omg hne]
    have hsc : scatter (l ++ [(eta, mu)]) (conMean l mu eta) + eta • diagonal (fun j => std j ^ 2) =
        (sumD l + eta - omg) • conCov l mu (diagonal (fun j => std j ^ 2)) eta omg := by
      rw [conCov_eq, smul_smul, mul_inv_cancel₀ hk'.ne', one_smul]
    rw [hsc]
    have htr : ∀ v : Vec n, (∀ j, 0 < v j) →
        ((diagonal v)⁻¹ * conCov l mu (diagonal (fun j => std j ^ 2)) eta omg).trace =
        ((diagonal v)⁻¹ * diagonal (conVar l mu std eta omg)).trace := by
      intro v hv
      rw [diagonal_inv v (fun j => (hv j).ne')]
      simp only [Matrix.trace, Matrix.diag, diagonal_mul, diagonal_mul_diagonal, diagonal_apply_eq, hvar]
    simp only [sub_self, zero_dotProduct, mul_zero, add_zero, Matrix.mul_smul, trace_smul, smul_eq_mul, htr v hv, htr _ hpos]
    have hA : (diagonal (conVar l mu std eta omg)).PosDef := PosDef.diagonal hpos
    have hS : (diagonal v).PosDef := PosDef.diagonal hv
    have h1 := log_det_le _ _ hA hS
    have h2 : ((diagonal (conVar l mu std eta omg))⁻¹ * diagonal (conVar l mu std eta omg)).trace = n := by
      rw [nonsing_inv_mul _ (isUnit_iff_ne_zero.2 hA.det_pos.ne'), trace_one, Fintype.card_fin]
    have h3 := hS.inv.posSemidef.dotProduct_mulVec_nonneg (conMean l mu eta - m)
    rw [star_trivial] at h3
    have h4 : 0 ≤ (sumD l + eta) * ((conMean l mu eta - m) ⬝ᵥ ((diagonal v)⁻¹ *ᵥ (conMean l mu eta - m))) :=
      mul_nonneg (by linarith) h3
    have h5 := mul_le_mul_of_nonneg_left h1 hk'.le
    rw [h2]
    nlinarith
  refine ⟨hmax, fun hf => (lagrangian_feasible l mu m _ _ eps kappa eta omg he.le ho hf).trans ?_⟩
  have : conDiag l mu std eta omg = diagonal (conVar l mu std eta omg) := by
    unfold conDiag
    congr 1
    funext j
    exact Real.sq_sqrt (hpos j).le
  unfold lagDiag
  rw [this]
  exact hmax

/-- C96. The same for the distribution with a fixed covariance, where only the divergence is bounded. -/
theorem C96_gauss (l : List (ℝ × Vec n)) (hw : ∀ p ∈ l, 0 ≤ p.1) (mu : Vec n) (sigma : Matrix (Fin n) (Fin n) ℝ)
    (hs : sigma.PosDef) (eps eta : ℝ) (he : 0 < eta) (m : Vec n) :
    lagrangian l mu m sigma sigma eps 0 eta 0 ≤ lagrangian l mu (conMean l mu eta) sigma sigma eps 0 eta 0 ∧
    (gaussKL mu sigma m sigma ≤ eps → logLik l m sigma ≤ lagEta l mu sigma eps eta) := by
  have hW := sumD_nonneg l hw
  have hne : sumD l + eta ≠ 0 := by linarith
  have hmax : lagrangian l mu m sigma sigma eps 0 eta 0 ≤ lagrangian l mu (conMean l mu eta) sigma sigma eps 0 eta 0 := by
    rw [lagrangian_eq l mu m _ _ eps 0 eta 0 hne, lagrangian_eq l mu (conMean l mu eta) _ _ eps 0 eta 0 hne]
    have h3 := hs.inv.posSemidef.dotProduct_mulVec_nonneg (conMean l mu eta - m)
    rw [star_trivial] at h3
    have h4 : 0 ≤ (sumD l + eta) * ((conMean l mu eta - m) ⬝ᵥ (sigma⁻¹ *ᵥ (conMean l mu eta - m))) := mul_nonneg (by linarith) h3
    simp only [sub_self, zero_dotProduct, mul_zero, add_zero]
    linarith
  exact ⟨hmax, fun hf => (lagrangian_feasible l mu m sigma sigma eps 0 eta 0 he.le le_rfl ⟨hf, by simp⟩).trans hmax⟩

/-! ### The hypotheses are met -/

/-- The old distribution itself satisfies the constraints. -/
example (mu : Vec n) (sigma : Matrix (Fin n) (Fin n) ℝ) (hs : sigma.PosDef) (eps kappa : ℝ) (he : 0 ≤ eps) (hk : 0 ≤ kappa) :
    Feasible mu sigma eps kappa mu sigma := by
  refine ⟨?_, by linarith⟩
  unfold gaussKL
  rw [nonsing_inv_mul _ (isUnit_iff_ne_zero.2 hs.det_pos.ne'), trace_one, Fintype.card_fin]
  simpa using he

/-- Multipliers for two samples of a standard Gaussian. -/
example : (∀ p ∈ [((1 : ℝ), (fun _ => 0 : Vec 1)), (2, fun _ => 3)], 0 ≤ p.1) ∧ (1 : Matrix (Fin 1) (Fin 1) ℝ).PosDef ∧
    (3 : ℝ) < ([((1 : ℝ), (fun _ => 0 : Vec 1)), (2, fun _ => 3)].map (fun p => p.1)).sum + 1 := by
  refine ⟨by simp, PosDef.one, ?_⟩
  norm_num

/-- A fair coin has the moments of the standard Gaussian. -/
example : HasMoments (fun _ : Bool => 1 / 2) (fun ω (_ : Fin 1) => if ω then 1 else -1) (fun _ => 0) 1 := by
  refine ⟨by norm_num, fun a => by simp [ev], fun a b => ?_⟩
  rw [Subsingleton.elim a b]
  simp [ev]
  norm_num

end Verif.Search
