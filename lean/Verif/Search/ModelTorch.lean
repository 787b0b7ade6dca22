/-
Model of the torch policies, /repo/mushroom_rl/policy/torch_policy.py and recurrent_torch_policy.py, and of the torch distributions,
/repo/mushroom_rl/distributions/torch_distribution.py.

`torch.distributions.MultivariateNormal` and `Categorical` are given by the formulas of torch; logarithms of numbers that are not positive are
`none`. Networks are functions of their weights and of the state (for recurrent networks with the policy state and the lengths). Real numbers
stand for floats, lists for vectors of parameters. Sampling is left to torch.
-/
import Verif.Search.ModelDist

namespace Verif.Search.Torch

open Matrix

noncomputable section

variable {S : Type} {n : ℕ}

/-- `MultivariateNormal(loc, scale_tril).log_prob(x)`. Used in torch_policy.py L210, torch_distribution.py L34. -/
def logProb (loc : Vec n) (chol : Matrix (Fin n) (Fin n) ℝ) (x : Vec n) : Option ℝ :=
  open Classical in
  if ∀ i, 0 < chol i i then
    some (-(1 / 2) * (n * Real.log (2 * Real.pi) + ∑ k, (chol⁻¹ *ᵥ (x - loc)) k ^ 2) - ∑ i, Real.log (chol i i))
  else none

/-- `MultivariateNormal(loc, scale_tril).entropy()`. Used in torch_distribution.py L45. -/
def entropy (chol : Matrix (Fin n) (Fin n) ℝ) : Option ℝ :=
  open Classical in
  if ∀ i, 0 < chol i i then some (∑ i, Real.log (chol i i) + (1 / 2) * n * (1 + Real.log (2 * Real.pi))) else none

/-! ### GaussianTorchPolicy -/

/-- The policy: the network with its weights, and `_log_sigma`. torch_policy.py L187-197. -/
structure Policy (S : Type) (n : ℕ) where
  net : List ℝ → S → Vec n
  weights : List ℝ
  logSigma : Vec n

/-- `_log_sigma` after the construction. torch_policy.py L195-197. -/
def logSigma0 (std0 : ℝ) : Vec n := fun _ => 1 * Real.log std0

/-- `get_mean_and_chol`. torch_policy.py L220-222. -/
def Policy.chol (p : Policy S n) : Matrix (Fin n) (Fin n) ℝ := Matrix.diagonal (fun i => Real.exp (p.logSigma i))

/-- `log_prob_t` of one state and one action. torch_policy.py L209-210, L216-218. -/
def Policy.logProb (p : Policy S n) (s : S) (a : Vec n) : Option ℝ := Torch.logProb (p.net p.weights s) p.chol a

/-- `entropy_t`. torch_policy.py L212-214. -/
def Policy.entropy (p : Policy S n) : ℝ := n / 2 * Real.log (2 * Real.pi * Real.exp 1) + ∑ i, p.logSigma i

/-- `set_weights`: the last numbers are `_log_sigma`; the size of the rest is checked by the network, of `k` weights. torch_policy.py
L224-228. -/
def Policy.setWeights (p : Policy S n) (k : ℕ) (w : List ℝ) : Option (Policy S n) :=
  let rest := w.take (w.length - n)
  let last := w.drop (w.length - n)
  if rest.length = k ∧ last.length = n then some { p with weights := rest, logSigma := fun i => last.getD i 0 } else none

/-- `get_weights`. torch_policy.py L230-234. -/
def Policy.getWeights (p : Policy S n) : List ℝ := p.weights ++ List.ofFn p.logSigma

/-! ### RecurrentGaussianTorchPolicy -/

/-- `torch.clamp`. -/
def clamp (low high x : ℝ) : ℝ := min (max x low) high

/-- The factor of `covariance`, a diagonal matrix: torch takes square roots. recurrent_torch_policy.py L56-63. -/
def recurrentChol (low high : ℝ) (p : Policy S n) : Matrix (Fin n) (Fin n) ℝ :=
  Matrix.diagonal (fun i => Real.sqrt (Real.exp (2 * clamp low high (p.logSigma i))))

/-- `log_prob_t` of one sequence and one action. recurrent_torch_policy.py L37-38, L48-50. -/
def recurrentLogProb (low high : ℝ) (p : Policy S n) (s : S) (a : Vec n) : Option ℝ :=
  Torch.logProb (p.net p.weights s) (recurrentChol low high p) a

/-- `entropy_t`. recurrent_torch_policy.py L40-41. -/
def recurrentEntropy (p : Policy S n) : ℝ := n / 2 * Real.log (2 * Real.pi * Real.exp 1) + ∑ i, p.logSigma i

/-- `action.squeeze()` for a batch of `b` actions of `k` components. recurrent_torch_policy.py L38. -/
def squeeze (shape : List ℕ) : List ℕ := shape.filter (fun d => d ≠ 1)

/-- What `log_prob` of torch accepts, for a batch of `b` means of `k` components: the last axis has `k` entries, and there is no other axis or the
axis of the batch. recurrent_torch_policy.py L38, L50 (`validate_args` is on). -/
def accepted (b k : ℕ) (shape : List ℕ) : Prop := shape = [k] ∨ shape = [b, k]

/-! ### BoltzmannTorchPolicy -/

/-- The normalised logits of one state: `logits - logsumexp`. torch_policy.py L290-292. -/
def logits {k : ℕ} (beta : ℝ) (q : Fin k → ℝ) : Fin k → ℝ := fun a => q a * beta - Real.log (∑ b, Real.exp (q b * beta))

/-- `__call__` of one state and one action. torch_policy.py L33-37, L284-285. -/
def boltzmannProb {k : ℕ} (beta : ℝ) (q : Fin k → ℝ) (a : Fin k) : ℝ := Real.exp (logits beta q a)

/-- `Categorical.entropy()`. -/
def categoricalEntropy {k : ℕ} (beta : ℝ) (q : Fin k → ℝ) : ℝ := -∑ a, Real.exp (logits beta q a) * logits beta q a

/-- `entropy_t` of a batch of states. torch_policy.py L287-288. -/
def boltzmannEntropy {k : ℕ} (beta : S → ℝ) (q : S → Fin k → ℝ) (batch : List S) : ℝ :=
  (batch.map (fun s => categoricalEntropy (beta s) (q s))).sum / batch.length

/-- `torch.squeeze(a, dim=0)`. torch_policy.py L44. -/
def squeeze0 : List ℕ → List ℕ
  | 1 :: shape => shape
  | shape => shape

/-- The shape of the result of `BoltzmannTorchPolicy.draw_action` for `b` states. torch_policy.py L39-44, L276-282. -/
def boltzmannShape (b : ℕ) : List ℕ :=
  let sample := [b]
  squeeze0 (if 1 < sample.length then sample else 1 :: sample)

/-- The shape of the result of `GaussianTorchPolicy.draw_action` for `b` states. torch_policy.py L39-44, L206-207. -/
def gaussianShape (b k : ℕ) : List ℕ := squeeze0 [b, k]

/-! ### Torch distributions -/

/-- `DiagonalGaussianTorchDistribution`. torch_distribution.py L63-66. -/
structure Diag (n : ℕ) where
  mu : Vec n
  logSigma : Vec n

/-- The constructor. torch_distribution.py L64-66. -/
def Diag.new (mu sigma : Vec n) : Option (Diag n) :=
  open Classical in if ∀ i, 0 < sigma i then some ⟨mu, fun i => Real.log (sigma i)⟩ else none

/-- `get_parameters`. torch_distribution.py L75-82. -/
def Diag.get (d : Diag n) : List ℝ := List.ofFn d.mu ++ List.ofFn d.logSigma

/-- `set_parameters`, for vectors of the right size; the code does not check it. torch_distribution.py L84-87. -/
def Diag.set (_d : Diag n) (rho : List ℝ) : Option (Diag n) :=
  if rho.length = 2 * n then some { mu := fun i => (rho.take n).getD i 0, logSigma := fun i => (rho.drop n).getD i 0 } else none

/-- `log_pdf`. torch_distribution.py L32-34, L96-97. -/
def Diag.logPdf (d : Diag n) (theta : Vec n) : Option ℝ := Torch.logProb d.mu (Matrix.diagonal (fun i => Real.exp (d.logSigma i))) theta

/-- `entropy`. torch_distribution.py L43-45, L96-97. -/
def Diag.entropy (d : Diag n) : Option ℝ := Torch.entropy (Matrix.diagonal (fun i => Real.exp (d.logSigma i)))

/-- `CholeskyGaussianTorchDistribution`. torch_distribution.py L100-105. -/
structure Chol (n : ℕ) where
  mu : Vec n
  chol : Matrix (Fin n) (Fin n) ℝ

/-- The constructor; `cholesky` is `torch.linalg.cholesky`. torch_distribution.py L101-105. -/
def Chol.new (cholesky : Matrix (Fin n) (Fin n) ℝ → Option (Matrix (Fin n) (Fin n) ℝ)) (mu : Vec n) (sigma : Matrix (Fin n) (Fin n) ℝ) :
    Option (Chol n) := (cholesky sigma).map (fun c => ⟨mu, c⟩)

/-- `get_parameters`. torch_distribution.py L114-122. -/
def Chol.get (c : Chol n) : List ℝ := List.ofFn c.mu ++ (tril n).map (fun p => c.chol p.1 p.2)

/-- `set_parameters`, for vectors of the right size. torch_distribution.py L124-128. -/
def Chol.set (c : Chol n) (rho : List ℝ) : Option (Chol n) :=
  if rho.length = 2 * n + (n * n - n) / 2 then
    some { mu := fun i => (rho.take n).getD i 0, chol := writeTril c.chol (tril n) (rho.drop n) }
  else none

/-- `_chol_sigma.tril()`. torch_distribution.py L138-139. -/
def lower (m : Matrix (Fin n) (Fin n) ℝ) : Matrix (Fin n) (Fin n) ℝ := Matrix.of (fun i j => if j ≤ i then m i j else 0)

/-- `log_pdf`. torch_distribution.py L32-34, L138-139. -/
def Chol.logPdf (c : Chol n) (theta : Vec n) : Option ℝ := Torch.logProb c.mu (lower c.chol) theta

/-- `entropy`. torch_distribution.py L43-45, L138-139. -/
def Chol.entropy (c : Chol n) : Option ℝ := Torch.entropy (lower c.chol)

end

end Verif.Search.Torch
