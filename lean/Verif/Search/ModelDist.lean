/-
Model of /repo/mushroom_rl/distributions/gaussian.py and of the Gaussian policies in /repo/mushroom_rl/policy/gaussian_policy.py.

Distributions have `n` variables. Real numbers stand for floats; `none` stands for an exception or for a result that is not finite.
Sampling is left to `np.random`. Samples with weights are lists of pairs, the weight first.
-/
import Verif.Search.ModelPG
import Mathlib.Analysis.SpecialFunctions.Log.Basic
import Mathlib.Analysis.SpecialFunctions.Sqrt
import Mathlib.Analysis.Real.Pi.Bounds
import Mathlib.LinearAlgebra.Matrix.NonsingularInverse

namespace Verif.Search

open Matrix

variable {n : ℕ}

/-- `multivariate_normal.logpdf(theta, mu, sigma)`. Used in gaussian.py L38, L161, L318 and, through `pdf`, in
gaussian_policy.py L22. -/
noncomputable def logPdf (theta mu : Vec n) (sigma : Matrix (Fin n) (Fin n) ℝ) : ℝ :=
  -(1 / 2) * (n * Real.log (2 * Real.pi) + Real.log sigma.det + (theta - mu) ⬝ᵥ (sigma⁻¹ *ᵥ (theta - mu)))

/-- The entropy of a Gaussian, from the logarithm of the determinant. gaussian.py L103-107, L252-256, L426-430. -/
noncomputable def entropyOf (logdet : ℝ) (n : ℕ) : ℝ := (1 / 2) * (logdet + n * Real.log (2 * Real.pi) + n)

/-- `_kl_constraint`. gaussian.py L98-101, L248-250, L421-424. -/
noncomputable def klOf (mu muNew : Vec n) (sigma sigmaNew sigmaNewInv : Matrix (Fin n) (Fin n) ℝ) (logdet logdetNew : ℝ) : ℝ :=
  (1 / 2) * ((sigmaNewInv * sigma).trace - n + logdetNew - logdet + (muNew - mu) ⬝ᵥ (sigmaNewInv *ᵥ (muNew - mu)))

/-! ### Weighted samples -/

/-- `np.sum(weights)`. -/
def sumD (l : List (ℝ × Vec n)) : ℝ := (l.map (fun p => p.1)).sum

/-- `np.sum(weights**2)`. gaussian.py L182, L339. -/
def sumD2 (l : List (ℝ × Vec n)) : ℝ := (l.map (fun p => p.1 ^ 2)).sum

/-- `Z`. gaussian.py L183, L340. -/
noncomputable def zOf (l : List (ℝ × Vec n)) : ℝ := sumD l - sumD2 l / sumD l

/-- `weights.dot(theta) / np.sum(weights)`. gaussian.py L56, L185, L342. -/
noncomputable def wmean (l : List (ℝ × Vec n)) : Vec n := fun j => (l.map (fun p => p.1 * p.2 j)).sum / sumD l

/-- `np.mean(theta, axis=0)`. gaussian.py L54, L178, L335. -/
noncomputable def mean0 (l : List (Vec n)) : Vec n := fun j => (l.map (fun v => v j)).sum / l.length

/-! ### GaussianDistribution -/

/-- A Gaussian with a fixed covariance. gaussian.py L13-24. -/
structure Gauss (n : ℕ) where
  mu : Vec n
  sigma : Matrix (Fin n) (Fin n) ℝ
  invSigma : Matrix (Fin n) (Fin n) ℝ

/-- The constructor; the inverse fails for a singular matrix. gaussian.py L22-24. -/
noncomputable def Gauss.new (mu : Vec n) (sigma : Matrix (Fin n) (Fin n) ℝ) : Option (Gauss n) :=
  open Classical in if sigma.det = 0 then none else some { mu := mu, sigma := sigma, invSigma := sigma⁻¹ }

/-- `get_parameters`, as a list. The code returns the array of the mean itself, not a copy. gaussian.py L79-80. -/
def Gauss.get (g : Gauss n) : List ℝ := List.ofFn g.mu

/-- `set_parameters`, for vectors of the right size; the code does not check it. gaussian.py L82-83. -/
def Gauss.set (g : Gauss n) (rho : List ℝ) : Option (Gauss n) :=
  if rho.length = n then some { g with mu := fun i => rho.getD i 0 } else none

/-- `mle` with weights. gaussian.py L56. -/
noncomputable def Gauss.wmle (g : Gauss n) (l : List (ℝ × Vec n)) : Option (Gauss n) :=
  open Classical in if sumD l = 0 then none else some { g with mu := wmean l }

/-- `mle` without weights. gaussian.py L53-54. -/
noncomputable def Gauss.mle (g : Gauss n) (l : List (Vec n)) : Option (Gauss n) :=
  if l.length = 0 then none else some { g with mu := mean0 l }

/-- `diff_log`. gaussian.py L73-77. -/
def Gauss.diffLog (g : Gauss n) (theta : Vec n) : Vec n := g.invSigma *ᵥ (theta - g.mu)

/-! ### GaussianDiagonalDistribution -/

/-- A Gaussian with a diagonal covariance. gaussian.py L144-146. -/
structure Diag (n : ℕ) where
  mu : Vec n
  std : Vec n

/-- The covariance matrix. gaussian.py L156. -/
def Diag.sigma (g : Diag n) : Matrix (Fin n) (Fin n) ℝ := Matrix.diagonal (fun j => g.std j ^ 2)

/-- `get_parameters`. gaussian.py L221-228. -/
def Diag.get (g : Diag n) : List ℝ := List.ofFn g.mu ++ List.ofFn g.std

/-- `set_parameters`, for vectors of the right size; the code does not check it. gaussian.py L230-233. -/
def Diag.set (_g : Diag n) (rho : List ℝ) : Option (Diag n) :=
  if rho.length = 2 * n then some { mu := fun i => (rho.take n).getD i 0, std := fun i => (rho.drop n).getD i 0 } else none

/-- `mle` with weights. The square root of a negative number and a division by zero are not finite. gaussian.py L181-188. -/
noncomputable def Diag.wmle (_g : Diag n) (l : List (ℝ × Vec n)) : Option (Diag n) :=
  let mu := wmean l
  let q : Vec n := fun j => (l.map (fun p => p.1 * (p.2 j - mu j) ^ 2)).sum / zOf l
  open Classical in
  if sumD l = 0 ∨ zOf l = 0 ∨ ∃ j, q j < 0 then none else some { mu := mu, std := fun j => Real.sqrt (q j) }

/-- `mle` without weights. gaussian.py L177-179. -/
noncomputable def Diag.mle (_g : Diag n) (l : List (Vec n)) : Option (Diag n) :=
  if l.length = 0 then none
  else some { mu := mean0 l, std := fun j => Real.sqrt ((l.map (fun v => (v j - mean0 l j) ^ 2)).sum / l.length) }

/-- `diff_log`: the part for the mean and the part for the standard deviations. gaussian.py L205-219. -/
noncomputable def Diag.diffLog (g : Diag n) (theta : Vec n) : Fin n ⊕ Fin n → ℝ :=
  Sum.elim (fun j => (theta j - g.mu j) / g.std j ^ 2)
    (fun j => (theta j - g.mu j) ^ 2 / g.std j ^ 3 - 1 / g.std j)

/-! ### GaussianCholeskyDistribution -/

/-- A Gaussian with the Cholesky factor of its covariance. gaussian.py L302-303. -/
structure Chol (n : ℕ) where
  mu : Vec n
  chol : Matrix (Fin n) (Fin n) ℝ

/-- The covariance matrix. gaussian.py L313. -/
def Chol.sigma (g : Chol n) : Matrix (Fin n) (Fin n) ℝ := g.chol * g.cholᵀ

/-- `np.tril_indices(n)`: row by row. gaussian.py L385, L394, L401. -/
def tril (n : ℕ) : List (Fin n × Fin n) :=
  (List.finRange n).flatMap (fun i => ((List.finRange n).filter (fun j => j ≤ i)).map (fun j => (i, j)))

/-- `parameters_size`. gaussian.py L403-407. -/
def Chol.size (n : ℕ) : ℕ := 2 * n + (n * n - n) / 2

/-- `get_parameters`. gaussian.py L389-396. -/
def Chol.get (g : Chol n) : List ℝ := List.ofFn g.mu ++ (tril n).map (fun p => g.chol p.1 p.2)

/-- One entry of a matrix is written. -/
def writeEntry (m : Matrix (Fin n) (Fin n) ℝ) (p : (Fin n × Fin n) × ℝ) : Matrix (Fin n) (Fin n) ℝ :=
  Matrix.of (fun i j => if (i, j) = p.1 then p.2 else m i j)

/-- The assignment `chol_sigma[np.tril_indices(n_dims)] = values`: the entries are written in place, those above the diagonal
are kept. gaussian.py L401. -/
def writeTril (m : Matrix (Fin n) (Fin n) ℝ) (idx : List (Fin n × Fin n)) (values : List ℝ) : Matrix (Fin n) (Fin n) ℝ :=
  (idx.zip values).foldl writeEntry m

/-- `set_parameters`, for vectors of the right size. gaussian.py L398-401. -/
def Chol.set (g : Chol n) (rho : List ℝ) : Option (Chol n) :=
  if rho.length = Chol.size n then
    some { mu := fun i => (rho.take n).getD i 0, chol := writeTril g.chol (tril n) (rho.drop n) }
  else none

/-- The weighted covariance. gaussian.py L338-346. -/
noncomputable def wcov (l : List (ℝ × Vec n)) : Matrix (Fin n) (Fin n) ℝ :=
  fun a b => (l.map (fun p => p.1 * (p.2 a - wmean l a) * (p.2 b - wmean l b))).sum / zOf l

/-- `np.cov(theta, rowvar=False)` for more than one variable. gaussian.py L336. -/
noncomputable def cov (l : List (Vec n)) : Matrix (Fin n) (Fin n) ℝ :=
  fun a b => (l.map (fun v => (v a - mean0 l a) * (v b - mean0 l b))).sum / (l.length - 1)

/-- `mle` with weights; `cholesky` is `np.linalg.cholesky`. gaussian.py L338-348. -/
noncomputable def Chol.wmle (cholesky : Matrix (Fin n) (Fin n) ℝ → Option (Matrix (Fin n) (Fin n) ℝ)) (_g : Chol n)
    (l : List (ℝ × Vec n)) : Option (Chol n) :=
  open Classical in
  if sumD l = 0 ∨ zOf l = 0 then none
  else (cholesky (wcov l)).map (fun c => { mu := wmean l, chol := c })

/-- `mle` without weights: for a single variable `np.cov` returns an array without axes, which `np.linalg.cholesky` refuses.
gaussian.py L335-336, L348. -/
noncomputable def Chol.mle (cholesky : Matrix (Fin n) (Fin n) ℝ → Option (Matrix (Fin n) (Fin n) ℝ)) (_g : Chol n)
    (l : List (Vec n)) : Option (Chol n) :=
  if l.length ≤ 1 ∨ n = 1 then none
  else (cholesky (cov l)).map (fun c => { mu := mean0 l, chol := c })

/-- `diff_log`: the part for the mean, and the entry for the element `(i, j)` of the factor. gaussian.py L367-387. -/
noncomputable def Chol.diffLogMean (g : Chol n) (theta : Vec n) : Vec n := ((g.chol⁻¹)ᵀ * g.chol⁻¹) *ᵥ (theta - g.mu)

/-- The matrix `g_cov`. gaussian.py L377-382. -/
noncomputable def Chol.gCov (g : Chol n) (theta : Vec n) : Matrix (Fin n) (Fin n) ℝ :=
  let delta := theta - g.mu
  fun a b => (g.chol⁻¹ *ᵥ delta) a * (delta ᵥ* ((g.chol⁻¹)ᵀ * g.chol⁻¹)) b - if a = b then g.chol⁻¹ a a else 0

/-- `diff_log`, as a list. gaussian.py L384-387. -/
noncomputable def Chol.diffLog (g : Chol n) (theta : Vec n) : List ℝ :=
  List.ofFn (g.diffLogMean theta) ++ (tril n).map (fun p => (g.gCov theta)ᵀ p.1 p.2)

/-! ### The closed form of `con_wmle` -/

/-- The new mean, for given multipliers. gaussian.py L92-94, L241-243, L412-414. -/
noncomputable def conMean (l : List (ℝ × Vec n)) (mu : Vec n) (eta : ℝ) : Vec n :=
  fun j => ((l.map (fun p => p.1 * p.2 j)).sum + eta * mu j) / (sumD l + eta)

/-- The new variances of `GaussianDiagonalDistribution`, before the square root. gaussian.py L244. -/
noncomputable def conVar (l : List (ℝ × Vec n)) (mu std : Vec n) (eta omg : ℝ) : Vec n :=
  fun j => ((l.map (fun p => p.1 * (p.2 j - conMean l mu eta j) ^ 2)).sum + eta * std j ^ 2 +
    eta * (conMean l mu eta j - mu j) ^ 2) / (sumD l + eta - omg)

/-- The new covariance of `GaussianCholeskyDistribution`. gaussian.py L416-417. -/
noncomputable def conCov (l : List (ℝ × Vec n)) (mu : Vec n) (sigma : Matrix (Fin n) (Fin n) ℝ) (eta omg : ℝ) :
    Matrix (Fin n) (Fin n) ℝ :=
  fun a b => ((l.map (fun p => p.1 * (p.2 a - conMean l mu eta a) * (p.2 b - conMean l mu eta b))).sum + eta * sigma a b +
    eta * ((conMean l mu eta a - mu a) * (conMean l mu eta b - mu b))) / (sumD l + eta - omg)

/-- The objective for given multipliers: the weighted log-likelihood (the quadratic form, the logarithm of the determinant and the
constant are those of `multivariate_normal.logpdf`) plus the two constraints times their multipliers. The determinants are
positive. gaussian.py L109-125, L258-282, L432-453. -/
noncomputable def lagrangian (l : List (ℝ × Vec n)) (mu muNew : Vec n) (sigma sigmaNew : Matrix (Fin n) (Fin n) ℝ)
    (eps kappa eta omg : ℝ) : ℝ :=
  (l.map (fun p => p.1 * logPdf p.2 muNew sigmaNew)).sum +
    eta * (eps - klOf mu muNew sigma sigmaNew sigmaNew⁻¹ (Real.log sigma.det) (Real.log sigmaNew.det)) +
    omg * (entropyOf (Real.log sigmaNew.det) n - (entropyOf (Real.log sigma.det) n - kappa))

/-- `GaussianDistribution._lagrangian_eta`: there is no constraint on the entropy. gaussian.py L109-125. -/
noncomputable def lagEta (l : List (ℝ × Vec n)) (mu : Vec n) (sigma : Matrix (Fin n) (Fin n) ℝ) (eps eta : ℝ) : ℝ :=
  lagrangian l mu (conMean l mu eta) sigma sigma eps 0 eta 0

/-- The covariance given by the new standard deviations of the diagonal distribution. gaussian.py L244, L265. -/
noncomputable def conDiag (l : List (ℝ × Vec n)) (mu std : Vec n) (eta omg : ℝ) : Matrix (Fin n) (Fin n) ℝ :=
  Matrix.diagonal (fun j => Real.sqrt (conVar l mu std eta omg j) ^ 2)

/-- `GaussianDiagonalDistribution._lagrangian_eta_omega`. gaussian.py L258-282. -/
noncomputable def lagDiag (l : List (ℝ × Vec n)) (mu std : Vec n) (eps kappa eta omg : ℝ) : ℝ :=
  lagrangian l mu (conMean l mu eta) (Matrix.diagonal (fun j => std j ^ 2)) (conDiag l mu std eta omg) eps kappa eta omg

/-- `GaussianCholeskyDistribution._lagrangian_eta_omega`. gaussian.py L432-453. -/
noncomputable def lagChol (l : List (ℝ × Vec n)) (mu : Vec n) (sigma : Matrix (Fin n) (Fin n) ℝ) (eps kappa eta omg : ℝ) : ℝ :=
  lagrangian l mu (conMean l mu eta) sigma (conCov l mu sigma eta omg) eps kappa eta omg

/-! ### Gaussian policies

The regressors of the mean and of the standard deviation are given, for the state at hand, by their values and their Jacobians
`diff(state)`, as functions of the weights. -/

/-- `GaussianPolicy.diff_log`: `jMu` has one row for each weight. gaussian_policy.py L77-89. -/
noncomputable def gaussDiffLog {p : ℕ} (mu : Vec n) (jMu : Matrix (Fin p) (Fin n) ℝ) (invSigma : Matrix (Fin n) (Fin n) ℝ)
    (action : Vec n) : Vec p := (1 / 2 : ℝ) • ((jMu * (invSigma + invSigmaᵀ)) *ᵥ (action - mu))

/-- `DiagonalGaussianPolicy.diff_log`. gaussian_policy.py L148-164, L182-184. -/
noncomputable def diagDiffLog {p : ℕ} (mu : Vec n) (jMu : Matrix (Fin p) (Fin n) ℝ) (std : Vec n) (action : Vec n) :
    Fin p ⊕ Fin n → ℝ :=
  let invSigma : Matrix (Fin n) (Fin n) ℝ := Matrix.diagonal (fun j => 1 / std j ^ 2)
  Sum.elim ((1 / 2 : ℝ) • ((jMu * (invSigma + invSigmaᵀ)) *ᵥ (action - mu)))
    (fun j => -1 / std j + (action j - mu j) ^ 2 / std j ^ 3)

/-- `StateStdGaussianPolicy.diff_log`. gaussian_policy.py L229-250, L277. -/
noncomputable def stateStdDiffLog {p q : ℕ} (mu : Vec n) (jMu : Matrix (Fin p) (Fin n) ℝ) (std : Vec n)
    (jStd : Matrix (Fin q) (Fin n) ℝ) (eps : ℝ) (action : Vec n) : Fin p ⊕ Fin q → ℝ :=
  let var : Vec n := fun j => std j ^ 2 + eps
  let w : Vec n := fun j => ((action j - mu j) ^ 2 - var j) * std j / var j ^ 2
  Sum.elim ((jMu * Matrix.diagonal (fun j => 1 / var j)) *ᵥ (action - mu)) (w ᵥ* jStdᵀ)

/-- `StateLogStdGaussianPolicy.diff_log`. gaussian_policy.py L318-340, L366. -/
noncomputable def stateLogStdDiffLog {p q : ℕ} (mu : Vec n) (jMu : Matrix (Fin p) (Fin n) ℝ) (logStd : Vec n)
    (jLog : Matrix (Fin q) (Fin n) ℝ) (action : Vec n) : Fin p ⊕ Fin q → ℝ :=
  let var : Vec n := fun j => Real.exp (logStd j) ^ 2
  let w : Vec n := fun j => (action j - mu j) ^ 2 / var j
  Sum.elim ((jMu * Matrix.diagonal (fun j => 1 / var j)) *ᵥ (action - mu)) (fun i => (w ᵥ* jLogᵀ) i - ∑ j, jLogᵀ j i)

/-- `set_weights` of the policies whose weights have two parts: the sizes are not checked by the policies themselves.
gaussian_policy.py L166-169, L252-257, L342-347. -/
def splitWeights (size : ℕ) (weights : List ℝ) : List ℝ × List ℝ := (weights.take size, weights.drop size)

/-- `get_weights` of these policies. gaussian_policy.py L171-173, L259-263, L349-353. -/
def joinWeights (a b : List ℝ) : List ℝ := a ++ b

end Verif.Search
