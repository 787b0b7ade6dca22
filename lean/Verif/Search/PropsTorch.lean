/-
Properties of torch policies and torch distributions (C112).
-/
import Verif.Search.ModelTorch
import Verif.Search.PropsNormal

namespace Verif.Search.Torch

open Matrix MeasureTheory Verif.Search

noncomputable section

variable {S : Type} {n : ℕ}

/-! ### Multivariate normal -/

/-- A lower triangular matrix with a positive diagonal. -/
def IsFactor (L : Matrix (Fin n) (Fin n) ℝ) : Prop := (∀ i j, i < j → L i j = 0) ∧ ∀ i, 0 < L i i

theorem posDef_factor (L : Matrix (Fin n) (Fin n) ℝ) (h : IsFactor L) : (L * Lᵀ).PosDef := by
  have hc := fun x => C58_covariance x ⟨0, 0⟩ (Search.Chol.mk (0 : Vec n) L)
  refine Matrix.PosDef.of_dotProduct_mulVec_pos ?_ (fun x hx => ?_)
  · rw [Matrix.IsHermitian, Matrix.conjTranspose_eq_transpose_of_trivial]; exact (hc 0).2.2.2.1
  · have h1 := (hc x).2.2.2.2.2 h.1 (fun i => (h.2 i).ne') hx
    simp only [star_trivial]
    exact h1

theorem logProb_eq (loc : Vec n) (L : Matrix (Fin n) (Fin n) ℝ) (h : IsFactor L) (x : Vec n) :
    logProb loc L x = some (logPdf x loc (L * Lᵀ)) := by
  unfold logProb logPdf
  rw [if_pos h.2, log_det_chol L h.1 (fun i => (h.2 i).ne'), quad_chol]
  congr 1
  rw [← Finset.mul_sum]
  ring

/-- What a user relies on: `log_prob` is the logarithm of a density with the given mean and covariance, and `entropy` is its entropy. -/
def IsNormal (logp : Vec n → Option ℝ) (m : Vec n) (s : Matrix (Fin n) (Fin n) ℝ) (h : ℝ) : Prop :=
  ∃ p : Vec n → ℝ, (∀ x, logp x = some (Real.log (p x))) ∧ IsDensity p m s ∧ differentialEntropy p = h

theorem isNormal_factor (loc : Vec n) (L : Matrix (Fin n) (Fin n) ℝ) (h : IsFactor L) :
    IsNormal (logProb loc L) loc (L * Lᵀ) (∑ i, Real.log (L i i) + (1 / 2) * n * (1 + Real.log (2 * Real.pi))) := by
  have hp := posDef_factor L h
  refine ⟨fun x => Real.exp (logPdf x loc (L * Lᵀ)), fun x => by rw [logProb_eq loc L h, Real.log_exp], isDensity_logPdf _ _ hp, ?_⟩
  rw [← (C96_meaning loc loc _ _ hp hp).2.1, entropyOf, log_det_chol L h.1 (fun i => (h.2 i).ne')]
  rw [← Finset.mul_sum]
  ring

theorem isFactor_diagonal (v : Vec n) (h : ∀ i, 0 < v i) : IsFactor (Matrix.diagonal v) :=
  ⟨fun i j hij => Matrix.diagonal_apply_ne _ hij.ne, fun i => by rw [Matrix.diagonal_apply_eq]; exact h i⟩

theorem diagonal_cov (v : Vec n) : Matrix.diagonal v * (Matrix.diagonal v)ᵀ = Matrix.diagonal (fun i => v i ^ 2) := by
  rw [Matrix.diagonal_transpose, Matrix.diagonal_mul_diagonal]
  congr 1; funext i; ring

/-! ### Policies -/

/-- C112: in every state the log-probabilities of a Gaussian torch policy are those of a normal density around the output of the network, with the
standard deviations of the policy, and `entropy` is its entropy. -/
theorem C112_gaussian_policy (p : Policy S n) (s : S) :
    IsNormal (p.logProb s) (p.net p.weights s) (Matrix.diagonal (fun i => Real.exp (p.logSigma i) ^ 2)) p.entropy := by
  have h := isNormal_factor (p.net p.weights s) _ (isFactor_diagonal _ (fun i => Real.exp_pos (p.logSigma i)))
  rw [diagonal_cov] at h
  have he : p.entropy = ∑ i, Real.log ((Matrix.diagonal (fun i => Real.exp (p.logSigma i)) : Matrix (Fin n) (Fin n) ℝ) i i)
      + (1 / 2) * n * (1 + Real.log (2 * Real.pi)) := by
    simp only [Policy.entropy, Matrix.diagonal_apply_eq, Real.log_exp]
    rw [Real.log_mul (by positivity) (Real.exp_pos 1).ne', Real.log_exp]
    ring
  rw [he]
  exact h

/-- C112: after the construction all standard deviations are `std_0`. -/
theorem C112_std0 (std0 : ℝ) (h : 0 < std0) (i : Fin n) : Real.exp ((logSigma0 std0 : Vec n) i) = std0 := by
  simp [logSigma0, Real.exp_log h]

/-- C112: the weights of a Gaussian torch policy are the weights of the network followed by the logarithms of the standard deviations; what is written is
read back, and writing what was read changes nothing. -/
theorem C112_weights (p : Policy S n) (k : ℕ) (hk : p.weights.length = k) :
    (∀ w : List ℝ, w.length = k + n → ∃ q, p.setWeights k w = some q ∧ q.getWeights = w ∧ q.net = p.net) ∧ p.setWeights k p.getWeights = some p
      ∧ p.getWeights.length = k + n ∧ ∀ w : List ℝ, w.length ≠ k + n → p.setWeights k w = none := by
  refine ⟨?_, ?_, by simp [Policy.getWeights, hk], ?_⟩
  · intro w hw
    refine ⟨_, if_pos ⟨by rw [List.length_take]; omega, by rw [List.length_drop]; omega⟩, ?_, rfl⟩
    unfold Policy.getWeights
    simp only
    rw [ofFn_getD _ (by rw [List.length_drop]; omega), List.take_append_drop]
  · have hl : p.getWeights.length - n = p.weights.length := by simp [Policy.getWeights]
    have h1 : p.getWeights.take (p.getWeights.length - n) = p.weights := by rw [hl]; exact List.take_left' rfl
    have h2 : p.getWeights.drop (p.getWeights.length - n) = List.ofFn p.logSigma := by rw [hl]; exact List.drop_left' rfl
    unfold Policy.setWeights
    simp only [h1, h2]
    rw [if_pos ⟨hk, by simp⟩]
    rcases p with ⟨net, w, ls⟩
    simp
  · intro w hw
    unfold Policy.setWeights
    rw [if_neg]
    rintro ⟨h1, h2⟩
    apply hw
    rw [← List.take_append_drop (w.length - n) w, List.length_append, h1, h2]

/-- C112 (part): the log-probabilities of a recurrent policy are those of a normal density around the output of the network, with the standard deviations limited to
the range; the entropy is that of this density if they are in the range. -/
theorem C112_recurrent_partial (low high : ℝ) (p : Policy S n) (s : S) :
    (∃ h, IsNormal (recurrentLogProb low high p s) (p.net p.weights s)
      (Matrix.diagonal (fun i => Real.exp (clamp low high (p.logSigma i)) ^ 2)) h) ∧
    ((∀ i, low ≤ p.logSigma i ∧ p.logSigma i ≤ high) → IsNormal (recurrentLogProb low high p s) (p.net p.weights s)
      (Matrix.diagonal (fun i => Real.exp (p.logSigma i) ^ 2)) (recurrentEntropy p)) := by
  have hsq : ∀ y : ℝ, Real.sqrt (Real.exp (2 * y)) = Real.exp y := by
    intro y
    rw [two_mul, Real.exp_add, ← sq, Real.sqrt_sq (Real.exp_pos y).le]
  have h := isNormal_factor (p.net p.weights s) _ (isFactor_diagonal _ (fun i => Real.exp_pos (clamp low high (p.logSigma i))))
  have hc : recurrentChol low high p = Matrix.diagonal (fun i => Real.exp (clamp low high (p.logSigma i))) := by
    simp only [recurrentChol, hsq]
  rw [diagonal_cov] at h
  constructor
  · unfold recurrentLogProb
    rw [hc]
    exact ⟨_, h⟩
  · intro hr
    have hcl : ∀ i, clamp low high (p.logSigma i) = p.logSigma i := by
      intro i
      rw [clamp, max_eq_left (hr i).1, min_eq_left (hr i).2]
    have he : recurrentEntropy p = ∑ i, Real.log ((Matrix.diagonal (fun i => Real.exp (clamp low high (p.logSigma i))) : Matrix (Fin n) (Fin n) ℝ) i i)
        + (1 / 2) * n * (1 + Real.log (2 * Real.pi)) := by
      simp only [recurrentEntropy, Matrix.diagonal_apply_eq, Real.log_exp, hcl]
      rw [Real.log_mul (by positivity) (Real.exp_pos 1).ne', Real.log_exp]
      ring
    rw [he]
    unfold recurrentLogProb
    rw [hc]
    simp only [hcl] at h ⊢
    exact h

/-- C112 refuted: outside of the range the entropy of a recurrent policy is not that of its density; it grows with a standard deviation that the density
does not have. -/
theorem C112_entropy_refuted : ∃ p : Policy Unit 1, ¬ IsNormal (recurrentLogProb (-20) 2 p ()) (p.net p.weights ())
    (Matrix.diagonal (fun i => Real.exp (clamp (-20) 2 (p.logSigma i)) ^ 2)) (recurrentEntropy p) := by
  refine ⟨⟨fun _ _ => 0, [], fun _ => 3⟩, ?_⟩
  rintro ⟨q, h1, h2, h3⟩
  obtain ⟨e, q', g1, g2, g3⟩ := (C112_recurrent_partial (-20) 2 (⟨fun _ _ => 0, [], fun _ => 3⟩ : Policy Unit 1) ()).1
  obtain ⟨q2, f1, f2, f3⟩ := (C112_recurrent_partial (-20) 2 (⟨fun _ _ => 0, [], fun _ => 2⟩ : Policy Unit 1) ()).2 (by intro i; norm_num)
  have hsame : ∀ x, recurrentLogProb (-20) 2 (⟨fun _ _ => 0, [], fun _ => 3⟩ : Policy Unit 1) () x
      = recurrentLogProb (-20) 2 (⟨fun _ _ => 0, [], fun _ => 2⟩ : Policy Unit 1) () x := by
    intro x
    have : clamp (-20) 2 3 = clamp (-20) 2 2 := by norm_num [clamp]
    simp only [recurrentLogProb, recurrentChol, this]
  have hq : q = q2 := by
    funext x
    have := hsame x
    rw [h1, f1, Option.some.injEq] at this
    exact Real.log_injOn_pos (h2.1 x) (f2.1 x) this
  rw [hq, f3] at h3
  simp [recurrentEntropy] at h3

/-- C112 refuted: with one action component, the log-probabilities of a recurrent policy cannot be computed, for any number of samples. -/
theorem C112_squeeze_refuted (b : ℕ) (hb : 1 ≤ b) : ¬ accepted b 1 (squeeze [b, 1]) := by
  unfold accepted squeeze
  by_cases h : b = 1
  · subst h; simp
  · simp [h]

/-- C112 (part): with more components they can. -/
theorem C112_squeeze_partial (b k : ℕ) (hk : 2 ≤ k) : accepted b k (squeeze [b, k]) := by
  unfold accepted squeeze
  have : k ≠ 1 := by omega
  by_cases h : b = 1 <;> simp [h, this]

/-! ### Boltzmann -/

/-- C112: the probabilities of a Boltzmann torch policy are positive and sum to one; the ratio of two is the exponential of the difference of their logits times
`beta`, so that with `beta` positive actions with larger logits have larger probabilities; the entropy of every state is the entropy of its
probabilities and lies between zero and the logarithm of the number of actions. -/
theorem C112_boltzmann {k : ℕ} (hk : 0 < k) (beta : ℝ) (q : Fin k → ℝ) :
    (∀ a, 0 < boltzmannProb beta q a) ∧ ∑ a, boltzmannProb beta q a = 1 ∧
    (∀ a b, boltzmannProb beta q a = boltzmannProb beta q b * Real.exp (beta * (q a - q b))) ∧
    (0 < beta → ∀ a b, q a < q b → boltzmannProb beta q a < boltzmannProb beta q b) ∧
    (∀ a, logits beta q a = Real.log (boltzmannProb beta q a)) ∧
    categoricalEntropy beta q = ∑ a, boltzmannProb beta q a * -Real.log (boltzmannProb beta q a) ∧
    0 ≤ categoricalEntropy beta q ∧ categoricalEntropy beta q ≤ Real.log k := by
  haveI : Nonempty (Fin k) := ⟨⟨0, hk⟩⟩
  have hpos : 0 < ∑ b, Real.exp (q b * beta) := Finset.sum_pos (fun b _ => Real.exp_pos _) Finset.univ_nonempty
  have hp : ∀ a, boltzmannProb beta q a = Real.exp (q a * beta) / ∑ b, Real.exp (q b * beta) := by
    intro a
    rw [boltzmannProb, logits, Real.exp_sub, Real.exp_log hpos]
  have hsum : ∑ a, boltzmannProb beta q a = 1 := by
    simp only [hp]
    rw [← Finset.sum_div, div_self hpos.ne']
  have hratio : ∀ a b, boltzmannProb beta q a = boltzmannProb beta q b * Real.exp (beta * (q a - q b)) := by
    intro a b
    rw [boltzmannProb, boltzmannProb, ← Real.exp_add, logits, logits]
    congr 1; ring
  have h0 : ∀ a, 0 < boltzmannProb beta q a := fun a => Real.exp_pos _
  have hlog : ∀ a, logits beta q a = Real.log (boltzmannProb beta q a) := fun a => (Real.log_exp _).symm
  have hle : ∀ a, boltzmannProb beta q a ≤ 1 := by
    intro a
    rw [← hsum]
    exact Finset.single_le_sum (f := fun a => boltzmannProb beta q a) (fun b _ => (h0 b).le) (Finset.mem_univ a)
  have hent : categoricalEntropy beta q = ∑ a, boltzmannProb beta q a * -Real.log (boltzmannProb beta q a) := by
    rw [categoricalEntropy, ← Finset.sum_neg_distrib]
    apply Finset.sum_congr rfl
    intro a _
    rw [← hlog a, boltzmannProb]; ring
  refine ⟨h0, hsum, hratio, ?_, hlog, hent, ?_, ?_⟩
  · intro hb a b hab
    rw [hratio a b]
    have : Real.exp (beta * (q a - q b)) < 1 := by
      rw [Real.exp_lt_one_iff]
      exact mul_neg_of_pos_of_neg hb (by linarith)
    nlinarith [h0 b]
  · rw [hent]
    apply Finset.sum_nonneg
    intro a _
    have := Real.log_nonpos (h0 a).le (hle a)
    exact mul_nonneg (h0 a).le (by linarith)
  · rw [hent]
    have hkr : (0 : ℝ) < k := by exact_mod_cast hk
    have hterm : ∀ a ∈ Finset.univ, boltzmannProb beta q a * -Real.log (boltzmannProb beta q a)
        ≤ boltzmannProb beta q a * Real.log k + (1 / k - boltzmannProb beta q a) := by
      intro a _
      have h1 := Real.log_le_sub_one_of_pos (x := 1 / (k * boltzmannProb beta q a)) (by have := h0 a; positivity)
      rw [one_div, Real.log_inv, Real.log_mul hkr.ne' (h0 a).ne'] at h1
      have h2 := mul_le_mul_of_nonneg_left h1 (h0 a).le
      have h3 : boltzmannProb beta q a * ((k * boltzmannProb beta q a)⁻¹ - 1) = 1 / k - boltzmannProb beta q a := by
        have := (h0 a).ne'
        field_simp
      rw [h3] at h2
      linarith
    refine (Finset.sum_le_sum hterm).trans (le_of_eq ?_)
    rw [Finset.sum_add_distrib, ← Finset.sum_mul, Finset.sum_sub_distrib, hsum, Finset.sum_const, Finset.card_univ, Fintype.card_fin, nsmul_eq_mul]
    field_simp
    ring

/-- C112: `entropy` of a batch is the mean over its states. -/
theorem C112_boltzmann_entropy {k : ℕ} (beta : S → ℝ) (q : S → Fin k → ℝ) (batch : List S) (hb : batch ≠ []) :
    (batch.length : ℝ) * boltzmannEntropy beta q batch = (batch.map (fun s => categoricalEntropy (beta s) (q s))).sum := by
  have : (batch.length : ℝ) ≠ 0 := by
    have := List.length_pos_iff.2 hb
    positivity
  rw [boltzmannEntropy]
  field_simp

/-- C112 (part): for one state, as in `Core`, an action of a Boltzmann torch policy has one axis with one entry and an action of a Gaussian one has one axis; for several
states, Gaussian policies return one action for each. -/
theorem C112_shapes_partial (b k : ℕ) (hb : 2 ≤ b) :
    boltzmannShape 1 = [1] ∧ gaussianShape 1 k = [k] ∧ gaussianShape b k = [b, k] := by
  refine ⟨rfl, rfl, ?_⟩
  match b, hb with
  | b + 2, _ => rfl

/-- C112 refuted: for several states, as in `VectorCore`, a Boltzmann torch policy returns no action with one entry for each state. -/
theorem C112_shapes_refuted (b : ℕ) : boltzmannShape b ≠ [b, 1] := by
  unfold boltzmannShape
  simp [squeeze0]

/-! ### Distributions -/

theorem lower_factor (c : Matrix (Fin n) (Fin n) ℝ) (h : ∀ i, 0 < c i i) : IsFactor (lower c) := by
  refine ⟨fun i j hij => ?_, fun i => ?_⟩
  · simp [lower, not_le.2 hij]
  · simpa [lower] using h i

/-- C112: a diagonal torch distribution is the normal distribution with the mean and standard deviations it was built with; its parameters are the mean followed by the
logarithms of the standard deviations, are written and read back, and every vector of the right size gives a normal distribution. -/
theorem C112_diagonal (d : Diag n) :
    (∃ h, d.entropy = some h ∧ IsNormal d.logPdf d.mu (Matrix.diagonal (fun i => Real.exp (d.logSigma i) ^ 2)) h) ∧
    (∀ mu sigma : Vec n, (∀ i, 0 < sigma i) → ∃ e h, Diag.new mu sigma = some e ∧ e.entropy = some h
      ∧ IsNormal e.logPdf mu (Matrix.diagonal (fun i => sigma i ^ 2)) h) ∧
    (∀ rho : List ℝ, rho.length = 2 * n → ∃ e, d.set rho = some e ∧ e.get = rho) ∧ d.set d.get = some d ∧ d.get.length = 2 * n := by
  have hgen : ∀ e : Diag n, ∃ h, e.entropy = some h ∧ IsNormal e.logPdf e.mu (Matrix.diagonal (fun i => Real.exp (e.logSigma i) ^ 2)) h := by
    intro e
    have hf : IsFactor (Matrix.diagonal (fun i => Real.exp (e.logSigma i))) := isFactor_diagonal _ (fun i => Real.exp_pos _)
    have h := isNormal_factor e.mu _ hf
    rw [diagonal_cov] at h
    exact ⟨_, if_pos hf.2, h⟩
  refine ⟨hgen d, ?_, ?_, ?_, by simp [Diag.get]; omega⟩
  · intro mu sigma hs
    obtain ⟨h, h1, h2⟩ := hgen ⟨mu, fun i => Real.log (sigma i)⟩
    refine ⟨_, h, if_pos hs, h1, ?_⟩
    have : (fun i => Real.exp (Real.log (sigma i)) ^ 2) = fun i => sigma i ^ 2 := by
      funext i; rw [Real.exp_log (hs i)]
    rw [← this]
    exact h2
  · intro rho h
    refine ⟨_, if_pos h, ?_⟩
    unfold Diag.get
    rw [ofFn_getD _ (by simp; omega), ofFn_getD _ (by simp; omega), List.take_append_drop]
  · rw [Diag.set, if_pos (by simp [Diag.get]; omega)]
    congr 1
    rcases d with ⟨mu, s⟩
    have h1 : ((Diag.mk mu s).get).take n = List.ofFn mu := by
      unfold Diag.get; rw [List.take_left' (by simp)]
    have h2 : ((Diag.mk mu s).get).drop n = List.ofFn s := by
      unfold Diag.get; rw [List.drop_left' (by simp)]
    rw [h1, h2]
    simp

/-- C112 (part): a Cholesky torch distribution whose diagonal is positive is the normal distribution with the product of the lower triangle and its transpose as covariance; it is built with
the covariance it was asked for; its parameters are the mean and the lower triangle, row by row, and are written and read back. -/
theorem C112_cholesky_partial (c : Chol n) :
    ((∀ i, 0 < c.chol i i) → ∃ h, c.entropy = some h ∧ IsNormal c.logPdf c.mu (lower c.chol * (lower c.chol)ᵀ) h) ∧
    (∀ (cholesky : Matrix (Fin n) (Fin n) ℝ → Option (Matrix (Fin n) (Fin n) ℝ)), IsCholesky cholesky → ∀ mu sigma e,
      Chol.new cholesky mu sigma = some e → ∃ h, e.entropy = some h ∧ IsNormal e.logPdf mu sigma h) ∧
    (∀ rho : List ℝ, rho.length = Search.Chol.size n → ∃ e, c.set rho = some e ∧ e.get = rho) ∧ c.set c.get = some c
      ∧ c.get.length = Search.Chol.size n := by
  have hgen : ∀ e : Chol n, (∀ i, 0 < e.chol i i) → ∃ h, e.entropy = some h ∧ IsNormal e.logPdf e.mu (lower e.chol * (lower e.chol)ᵀ) h := by
    intro e he
    have hf := lower_factor e.chol he
    exact ⟨_, if_pos hf.2, isNormal_factor e.mu _ hf⟩
  have hnp : ∀ rho : List ℝ, rho.length = Search.Chol.size n ↔ rho.length = 2 * n + (n * n - n) / 2 := fun rho => Iff.rfl
  refine ⟨hgen c, ?_, ?_, ?_, by simp [Chol.get, ← length_tril]⟩
  · intro cholesky hc mu sigma e he
    unfold Chol.new at he
    rw [Option.map_eq_some_iff] at he
    obtain ⟨L, hL, rfl⟩ := he
    obtain ⟨h1, h2, h3⟩ := hc _ _ hL
    obtain ⟨h, g1, g2⟩ := hgen ⟨mu, L⟩ h2
    have hl : lower L = L := by
      ext i j
      simp only [lower, Matrix.of_apply]
      split_ifs with hij
      · rfl
      · exact (h1 i j (not_le.1 hij)).symm
    refine ⟨h, g1, ?_⟩
    simp only [hl, h3] at g2
    exact g2
  · intro rho h
    refine ⟨_, if_pos h, ?_⟩
    unfold Chol.get
    rw [ofFn_getD _ (by rw [List.length_take, h, ← length_tril]; omega), read_writeTril _ _ nodup_tril _ (by
      rw [List.length_drop, h, ← length_tril]; omega), List.take_append_drop]
  · rw [Chol.set, if_pos (by rw [← hnp]; simp [Chol.get, ← length_tril])]
    congr 1
    rcases c with ⟨mu, c⟩
    have h1 : ((Chol.mk mu c).get).take n = List.ofFn mu := by
      unfold Chol.get; rw [List.take_left' (by simp)]
    have h2 : ((Chol.mk mu c).get).drop n = (tril n).map (fun p => c p.1 p.2) := by
      unfold Chol.get; rw [List.drop_left' (by simp)]
    rw [h1, h2]
    simp [writeTril_read]

/-- C112 refuted: not every vector of parameters that a Cholesky torch distribution accepts gives a density: an optimiser can reach such vectors. -/
theorem C112_cholesky_refuted : ∃ (c : Chol 1) (rho : List ℝ) (e : Chol 1), (∀ i, 0 < c.chol i i) ∧ c.set rho = some e ∧ e.logPdf 0 = none := by
  refine ⟨⟨0, 1⟩, [0, -1], ⟨fun i => ([0, -1].take 1).getD i 0, writeTril 1 (tril 1) ([0, -1].drop 1)⟩, by simp, rfl, ?_⟩
  have hv : writeTril (1 : Matrix (Fin 1) (Fin 1) ℝ) (tril 1) [-1] 0 0 = -1 := by
    have : tril 1 = [(0, 0)] := by decide
    simp [this, writeTril, writeEntry]
  unfold Chol.logPdf logProb
  rw [if_neg]
  intro h
  have := h 0
  simp only [lower, Matrix.of_apply, le_refl, if_true, List.drop_succ_cons, List.drop_zero, hv] at this
  norm_num at this

example : ∃ p : Policy Unit 2, (∀ i, (-20 : ℝ) ≤ p.logSigma i ∧ p.logSigma i ≤ 2) ∧ p.weights.length = 1 :=
  ⟨⟨fun w _ => fun _ => w.getD 0 0, [3], fun _ => 1⟩, by intro i; norm_num, rfl⟩

end

end Verif.Search.Torch
