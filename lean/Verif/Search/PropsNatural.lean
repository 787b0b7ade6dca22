/-
Property C94 for eNAC: what its gradient converges to as the number of episodes grows.
-/
import Verif.Search.PropsBaseline
import Mathlib.Topology.Instances.Matrix
import Mathlib.LinearAlgebra.Matrix.NonsingularInverse
import Mathlib.LinearAlgebra.Matrix.SchurComplement

namespace Verif.Search

open MeasureTheory ProbabilityTheory Filter Topology Finset Matrix

variable {S A O : Type} [Fintype S] [Fintype A] {d k : ℕ}

/-- The Fisher information of the discounted scores: the expectations of the products of their entries. For the discount factor one
it is the Fisher information of the distribution of the episodes. -/
def fisher (P : Process S A) (pol : S → A → ℝ) (score : S → A → Vec d) (γ : ℝ) (h : ℕ) : Matrix (Fin d) (Fin d) ℝ :=
  fun a b => expected P pol h (fun e => discScore γ score e a * discScore γ score e b)

/-- The expectation of the discounted scores times the return. -/
def discGrad (P : Process S A) (pol : S → A → ℝ) (score : S → A → Vec d) (γ : ℝ) (h : ℕ) : Vec d :=
  fun a => expected P pol h (fun e => discScore γ score e a * ret γ e)

/-- The expectations of the products of the features of the first state. -/
def featureMoment (P : Process S A) (phi : S → Vec k) : Matrix (Fin k) (Fin k) ℝ := fun a b => ∑ s, P.start s * (phi s a * phi s b)

/-! ### Moments -/

theorem pol_score (pol : Vec d → S → A → ℝ) (diffLog : Vec d → S → A → Vec d) (hscore : IsScore pol diffLog) (θ : Vec d) (s : S)
    (j : Fin d) : ∑ a, pol θ s a * diffLog θ s a j = 0 := by
  have hs := hscore.scoreOf θ j
  have hx : along pol θ j (θ j) = pol θ := by simp [along]
  have h1 : HasDerivAt (fun y => ∑ a, along pol θ j y s a) (∑ a, along pol θ j (θ j) s a * diffLog θ s a j) (θ j) :=
    HasDerivAt.fun_sum (fun a _ => hs.deriv s a)
  have h2 : (fun y => ∑ a, along pol θ j y s a) = fun _ => 1 := by
    funext y
    exact hs.2.1 y s
  rw [h2, hx] at h1
  exact h1.unique (hasDerivAt_const _ _)

theorem expect_disc (P : Process S A) (hP : P.Proper) (pol : Vec d → S → A → ℝ) (diffLog : Vec d → S → A → Vec d)
    (hscore : IsScore pol diffLog) (γ : ℝ) (θ : Vec d) (j : Fin d) (h : ℕ) (s : S) :
    expect P (pol θ) h s (fun e => discScore γ (diffLog θ) e j) = 0 := by
  induction h generalizing s with
  | zero => rfl
  | succ h ih =>
    have ha : ∀ a s', after P (pol θ) h s a s' (fun e => discScore γ (diffLog θ) e j) = 0 := by
      intro a s'
      unfold after
      split
      · rfl
      · exact ih s'
    have hb : ∀ a s', after P (pol θ) h s a s' (fun e => discScore γ (diffLog θ) (P.sample h s a s' :: e) j) = diffLog θ s a j := by
      intro a s'
      have : (fun e => discScore γ (diffLog θ) (P.sample h s a s' :: e) j) =
          fun e => diffLog θ s a j + γ * discScore γ (diffLog θ) e j := by
        funext e
        simp [discScore, Process.sample]
      rw [this, after_add, after_const P hP.trans_sum (pol θ) (hscore.2.1 θ), after_mul, ha]
      ring
    simp only [expect_succ, hb, ← sum_mul, hP.trans_sum, one_mul]
    exact pol_score pol diffLog hscore θ s j

/-- The features of the first state of an episode. -/
def firstPhi (phi : S → Vec k) (e : List (Step S A)) : Vec k := (e.head?.map (fun t => phi t.state)).getD 0

theorem expect_first (P : Process S A) (pol : S → A → ℝ) (phi : S → Vec k) (h : ℕ) (s : S) (G : Vec k → List (Step S A) → ℝ) :
    expect P pol (h + 1) s (fun e => G (firstPhi phi e) e) = expect P pol (h + 1) s (fun e => G (phi s) e) := rfl

theorem expected_cross (P : Process S A) (hP : P.Proper) (pol : Vec d → S → A → ℝ) (diffLog : Vec d → S → A → Vec d)
    (hscore : IsScore pol diffLog) (γ : ℝ) (θ : Vec d) (phi : S → Vec k) (h : ℕ) (j : Fin d) (c : Fin k) :
    expected P (pol θ) (h + 1) (fun e => firstPhi phi e c * discScore γ (diffLog θ) e j) = 0 := by
  unfold expected
  refine sum_eq_zero (fun s _ => ?_)
  rw [expect_first P (pol θ) phi h s (fun v e => v c * discScore γ (diffLog θ) e j), expect_mul, expect_disc P hP pol diffLog hscore]
  ring

theorem expected_features (P : Process S A) (hP : P.Proper) (pol : S → A → ℝ) (hsum : ∀ s, ∑ a, pol s a = 1) (phi : S → Vec k)
    (h : ℕ) (b c : Fin k) : expected P pol (h + 1) (fun e => firstPhi phi e b * firstPhi phi e c) = featureMoment P phi b c := by
  unfold expected featureMoment
  refine sum_congr rfl (fun s _ => ?_)
  rw [expect_first P pol phi h s (fun v _ => v b * v c), expect_const P hP.trans_sum pol hsum]

/-! ### The regression -/

/-- The averages of the products of the entries of the rows. -/
noncomputable def gram (phi : S → Vec k) (γ : ℝ) (score : S → A → Vec d) (eps : List (List (Step S A))) :
    Matrix (Fin d ⊕ Fin k) (Fin d ⊕ Fin k) ℝ :=
  fun a b => average eps (fun e => enacRow phi γ score e a * enacRow phi γ score e b)

/-- The averages of the products of the entries of the rows and the return. -/
noncomputable def gramRet (phi : S → Vec k) (γ : ℝ) (score : S → A → Vec d) (eps : List (List (Step S A))) : Fin d ⊕ Fin k → ℝ :=
  fun a => average eps (fun e => enacRow phi γ score e a * ret γ e)

omit [Fintype S] [Fintype A] in
theorem sum_fin_list {α : Type} (l : List α) (f : α → ℝ) : ∑ i : Fin l.length, f l[i] = (l.map f).sum := by
  induction l with
  | nil => rfl
  | cons x l ih =>
    rw [List.map_cons, List.sum_cons, ← ih]
    exact Fin.sum_univ_succ _

omit [Fintype S] [Fintype A] in
theorem enac_solves (phi : S → Vec k) (γ : ℝ) (score : S → A → Vec d)
    (pinv : (n : ℕ) → Matrix (Fin n) (Fin d ⊕ Fin k) ℝ → Matrix (Fin d ⊕ Fin k) (Fin n) ℝ)
    (hp : ∀ n (psi : Matrix (Fin n) (Fin d ⊕ Fin k) ℝ), (psiᵀ * psi).det ≠ 0 →
      psi * pinv n psi * psi = psi ∧ (psi * pinv n psi)ᵀ = psi * pinv n psi)
    (eps : List (List (Step S A))) (hd : (gram phi γ score eps).det ≠ 0) (j : Fin d) :
    enacSpec phi score γ pinv eps j = ((gram phi γ score eps)⁻¹ *ᵥ gramRet phi γ score eps) (Sum.inl j) := by
  set psi : Matrix (Fin eps.length) (Fin d ⊕ Fin k) ℝ := fun i => (eps.map (enacRow phi γ score)).getD i 0 with hpsi
  set R : Fin eps.length → ℝ := fun i => (eps.map (ret γ)).getD i 0 with hR
  have r1 : ∀ i : Fin eps.length, psi i = enacRow phi γ score eps[i] := by intro i; simp [hpsi]
  have r2 : ∀ i : Fin eps.length, R i = ret γ eps[i] := by intro i; simp [hR]
  have hn : (eps.length : ℝ) ≠ 0 ∨ eps.length = 0 := by
    rcases Nat.eq_zero_or_pos eps.length with h | h
    · exact Or.inr h
    · exact Or.inl (by positivity)
  have g1 : psiᵀ * psi = (eps.length : ℝ) • gram phi γ score eps := by
    ext a b
    rw [Matrix.mul_apply, Matrix.smul_apply, gram, average, smul_eq_mul]
    have : ∀ i : Fin eps.length, psiᵀ a i * psi i b = (fun e => enacRow phi γ score e a * enacRow phi γ score e b) eps[i] := by
      intro i
      rw [Matrix.transpose_apply, r1]
    rw [Finset.sum_congr rfl (fun i _ => this i), sum_fin_list eps (fun e => enacRow phi γ score e a * enacRow phi γ score e b)]
    rcases hn with hn | hn
    · field_simp
    · rw [List.length_eq_zero_iff.1 hn]
      simp
  have g2 : psiᵀ *ᵥ R = (eps.length : ℝ) • gramRet phi γ score eps := by
    ext a
    rw [Matrix.mulVec, dotProduct, Pi.smul_apply, gramRet, average, smul_eq_mul]
    have : ∀ i : Fin eps.length, psiᵀ a i * R i = (fun e => enacRow phi γ score e a * ret γ e) eps[i] := by
      intro i
      rw [Matrix.transpose_apply, r1, r2]
    rw [Finset.sum_congr rfl (fun i _ => this i), sum_fin_list eps (fun e => enacRow phi γ score e a * ret γ e)]
    rcases hn with hn | hn
    · field_simp
    · rw [List.length_eq_zero_iff.1 hn]
      simp
  rcases hn with hn | hn
  · have hdet : (psiᵀ * psi).det ≠ 0 := by
      rw [g1, Matrix.det_smul]
      exact mul_ne_zero (pow_ne_zero _ hn) hd
    obtain ⟨h1, h2⟩ := hp _ psi hdet
    have ht : psiᵀ * (psi * pinv eps.length psi) = psiᵀ := by
      conv_lhs => rw [← h2]
      rw [← Matrix.transpose_mul, h1]
    have hw : (psiᵀ * psi) *ᵥ (pinv eps.length psi *ᵥ R) = psiᵀ *ᵥ R := by
      rw [Matrix.mulVec_mulVec, Matrix.mul_assoc, ht]
    rw [g1, g2, Matrix.smul_mulVec] at hw
    have hw' : gram phi γ score eps *ᵥ (pinv eps.length psi *ᵥ R) = gramRet phi γ score eps := by
      have := congrArg (fun v => (eps.length : ℝ)⁻¹ • v) hw
      simpa [smul_smul, hn] using this
    rw [← hw', Matrix.mulVec_mulVec, Matrix.nonsing_inv_mul _ (isUnit_iff_ne_zero.2 hd), Matrix.one_mulVec]
    rfl
  · exfalso
    apply hd
    have h0 := List.length_eq_zero_iff.1 hn
    have : gram phi γ score eps = 0 := by
      ext a b
      simp [gram, average, h0]
    rw [this]
    haveI : Nonempty (Fin d ⊕ Fin k) := ⟨Sum.inl j⟩
    exact Matrix.det_zero

/-- The limit of a regression. -/
theorem tendsto_solve {ι : Type} [Fintype ι] [DecidableEq ι] {M : ℕ → Matrix ι ι ℝ} {v : ℕ → ι → ℝ} {M' : Matrix ι ι ℝ} {v' : ι → ℝ}
    (hM : ∀ a b, Tendsto (fun n => M n a b) atTop (𝓝 (M' a b))) (hv : ∀ a, Tendsto (fun n => v n a) atTop (𝓝 (v' a)))
    (hd : M'.det ≠ 0) : (∀ᶠ n in atTop, (M n).det ≠ 0) ∧ ∀ a, Tendsto (fun n => ((M n)⁻¹ *ᵥ v n) a) atTop (𝓝 ((M'⁻¹ *ᵥ v') a)) := by
  have tM : Tendsto M atTop (𝓝 M') := tendsto_pi_nhds.2 (fun a => tendsto_pi_nhds.2 (fun b => hM a b))
  have tdet : Tendsto (fun n => (M n).det) atTop (𝓝 M'.det) :=
    ((continuous_id.matrix_det (A := fun M : Matrix ι ι ℝ => M)).tendsto M').comp tM
  have tadj : Tendsto (fun n => (M n).adjugate) atTop (𝓝 M'.adjugate) :=
    ((continuous_id.matrix_adjugate (A := fun M : Matrix ι ι ℝ => M)).tendsto M').comp tM
  refine ⟨tdet.eventually_ne hd, fun a => ?_⟩
  have e : ∀ (N : Matrix ι ι ℝ) (u : ι → ℝ), (N⁻¹ *ᵥ u) a = N.det⁻¹ * ∑ b, N.adjugate a b * u b := by
    intro N u
    rw [Matrix.inv_def, Ring.inverse_eq_inv', Matrix.smul_mulVec]
    rfl
  simp only [e]
  refine (tdet.inv₀ hd).mul (tendsto_finsetSum _ (fun b _ => ?_))
  have := tendsto_pi_nhds.1 (tendsto_pi_nhds.1 tadj a) b
  exact this.mul (hv b)

variable {Ω : Type} [MeasurableSpace Ω] {μ : Measure Ω} {P : Process S A} {h : ℕ} {X : ℕ → Ω → List (Step S A)}

/-- C94 (eNAC). Let a reachable agent be fitted with `n` episodes that are drawn independently with its policy, let the Fisher
information of the discounted scores and the moments of the features of the critic be invertible, and let `pinv` be the
pseudo-inverse at least for matrices of full rank. As `n` grows the gradient converges almost surely to the solution `w` of the linear
system in which the Fisher information of the discounted scores times `w` is the expectation of the discounted scores times the
return. -/
theorem C94_enac_consistent (hP : P.Proper) (pol : Vec d → S → A → ℝ) (diffLog : Vec d → S → A → Vec d)
    (hscore : IsScore pol diffLog) (γ : ℝ) (phi : S → Vec k)
    (pinv : (n : ℕ) → Matrix (Fin n) (Fin d ⊕ Fin k) ℝ → Matrix (Fin d ⊕ Fin k) (Fin n) ℝ)
    (hp : ∀ n (psi : Matrix (Fin n) (Fin d ⊕ Fin k) ℝ), (psiᵀ * psi).det ≠ 0 →
      psi * pinv n psi * psi = psi ∧ (psi * pinv n psi)ᵀ = psi * pinv n psi)
    (opt : O → Vec d → Vec d → O × Vec d) (g : PG (Enac d k) d O)
    (hg : Reach (enac A phi pinv) diffLog γ opt (enacNew d k) (fun _ => True) g)
    (hX : Episodes μ P (pol g.theta) (h + 1) X) (hF : (fisher P (pol g.theta) (diffLog g.theta) γ (h + 1)).det ≠ 0)
    (hC : (featureMoment P phi).det ≠ 0) :
    ∃ w : Vec d, fisher P (pol g.theta) (diffLog g.theta) γ (h + 1) *ᵥ w = discGrad P (pol g.theta) (diffLog g.theta) γ (h + 1) ∧
      ∀ᵐ ω ∂μ, ∃ grad : ℕ → Vec d,
        (∀ n, 2 ≤ n → (pgFit (enac A phi pinv) diffLog γ opt g (firstN X n ω)).2 = some (grad n)) ∧
        ∀ j, Tendsto (fun n => grad n j) atTop (𝓝 (w j)) := by
  have hpol : ∀ s a, 0 ≤ pol g.theta s a := fun s a => (hscore.1 _ _ _).le
  set score := diffLog g.theta with hsc
  set F := fisher P (pol g.theta) score γ (h + 1) with hFdef
  set M : Matrix (Fin d ⊕ Fin k) (Fin d ⊕ Fin k) ℝ := fun a b =>
    expected P (pol g.theta) (h + 1) (fun e => enacRow phi γ score e a * enacRow phi γ score e b) with hM
  set v : Fin d ⊕ Fin k → ℝ := fun a => expected P (pol g.theta) (h + 1) (fun e => enacRow phi γ score e a * ret γ e) with hv
  have hblock : M = Matrix.fromBlocks F 0 0 (featureMoment P phi) := by
    ext a b
    rcases a with a | a <;> rcases b with b | b
    · rfl
    · have := expected_cross P hP pol diffLog hscore γ g.theta phi h a b
      simp only [hM, Matrix.fromBlocks_apply₁₂, Matrix.zero_apply]
      rw [← this]
      congr 1
      funext e
      exact mul_comm _ _
    · exact expected_cross P hP pol diffLog hscore γ g.theta phi h b a
    · exact expected_features P hP _ (hscore.2.1 _) phi h a b
  have hdet : M.det ≠ 0 := by
    rw [hblock, Matrix.det_fromBlocks_zero₂₁]
    exact mul_ne_zero hF hC
  set W := M⁻¹ *ᵥ v with hW
  have hsolve : M *ᵥ W = v := by
    rw [hW, Matrix.mulVec_mulVec, Matrix.mul_nonsing_inv _ (isUnit_iff_ne_zero.2 hdet), Matrix.one_mulVec]
  refine ⟨fun j => W (Sum.inl j), ?_, ?_⟩
  · funext a
    have := congrFun hsolve (Sum.inl a)
    rw [hblock, Matrix.mulVec, dotProduct, Fintype.sum_sum_type] at this
    simp only [Matrix.fromBlocks_apply₁₁, Matrix.fromBlocks_apply₁₂, Matrix.zero_apply, zero_mul, sum_const_zero, add_zero] at this
    exact this
  · have l1 : ∀ᵐ ω ∂μ, ∀ a b, Tendsto (fun n => gram phi γ score (batch X n ω) a b) atTop (𝓝 (M a b)) :=
      ae_all_iff.2 (fun a => ae_all_iff.2 (fun b => hX.strongLaw hP hpol _))
    have l2 : ∀ᵐ ω ∂μ, ∀ a, Tendsto (fun n => gramRet phi γ score (batch X n ω) a) atTop (𝓝 (v a)) :=
      ae_all_iff.2 (fun a => hX.strongLaw hP hpol _)
    filter_upwards [l1, l2, hX.splits] with ω h1 h2 hs
    refine ⟨fun n => enacSpec phi score γ pinv (batch X n ω), fun n hn => ?_, fun j => ?_⟩
    · exact ((C57_enac phi pinv diffLog γ opt g hg _ _ _ (hs n)).2 (by simp [batch]; omega)).1
    · obtain ⟨hev, ht⟩ := tendsto_solve h1 h2 hdet
      refine (ht (Sum.inl j)).congr' ?_
      filter_upwards [hev] with n hn
      exact (enac_solves phi γ score pinv hp _ hn j).symm

omit [Fintype S] [Fintype A] in
theorem discScore_one (score : S → A → Vec d) (e : List (Step S A)) : discScore 1 score e = scoreSum score e := by
  induction e with
  | nil => rfl
  | cons t e ih => simp [discScore, scoreSum, ih]

/-- C94 (eNAC, partial). With the discount factor one the limit is the natural gradient: the Fisher information of the distribution
of the episodes times the limit is the gradient of the expected return. Missing: other discount factors, see `C94_enac_refuted`. -/
theorem C94_enac_natural_partial (hP : P.Proper) (pol : Vec d → S → A → ℝ) (diffLog : Vec d → S → A → Vec d)
    (hscore : IsScore pol diffLog) (phi : S → Vec k)
    (pinv : (n : ℕ) → Matrix (Fin n) (Fin d ⊕ Fin k) ℝ → Matrix (Fin d ⊕ Fin k) (Fin n) ℝ)
    (hp : ∀ n (psi : Matrix (Fin n) (Fin d ⊕ Fin k) ℝ), (psiᵀ * psi).det ≠ 0 →
      psi * pinv n psi * psi = psi ∧ (psi * pinv n psi)ᵀ = psi * pinv n psi)
    (opt : O → Vec d → Vec d → O × Vec d) (g : PG (Enac d k) d O)
    (hg : Reach (enac A phi pinv) diffLog 1 opt (enacNew d k) (fun _ => True) g)
    (hX : Episodes μ P (pol g.theta) (h + 1) X)
    (hF : (Matrix.of fun a b => expected P (pol g.theta) (h + 1) (fun e =>
      scoreSum (diffLog g.theta) e a * scoreSum (diffLog g.theta) e b) : Matrix (Fin d) (Fin d) ℝ).det ≠ 0)
    (hC : (featureMoment P phi).det ≠ 0) :
    ∃ w : Vec d, (∀ j, HasDerivAt (fun y => expected P (pol (Function.update g.theta j y)) (h + 1) (ret 1))
        (∑ b, expected P (pol g.theta) (h + 1) (fun e => scoreSum (diffLog g.theta) e j * scoreSum (diffLog g.theta) e b) * w b)
        (g.theta j)) ∧
      ∀ᵐ ω ∂μ, ∃ grad : ℕ → Vec d,
        (∀ n, 2 ≤ n → (pgFit (enac A phi pinv) diffLog 1 opt g (firstN X n ω)).2 = some (grad n)) ∧
        ∀ j, Tendsto (fun n => grad n j) atTop (𝓝 (w j)) := by
  have e1 : fisher P (pol g.theta) (diffLog g.theta) 1 (h + 1) = Matrix.of fun a b => expected P (pol g.theta) (h + 1) (fun e =>
      scoreSum (diffLog g.theta) e a * scoreSum (diffLog g.theta) e b) := by
    ext a b
    simp only [fisher, discScore_one, Matrix.of_apply]
  obtain ⟨w, hw, hlim⟩ := C94_enac_consistent hP pol diffLog hscore 1 phi pinv hp opt g hg hX (by rw [e1]; exact hF) hC
  refine ⟨w, fun j => ?_, hlim⟩
  refine (expected_deriv P pol diffLog hscore (ret 1) (h + 1) g.theta j).congr_deriv ?_
  have := congrFun hw j
  rw [e1] at this
  simp only [discGrad, discScore_one] at this
  exact this.symm

/-- Two steps: the action `true` costs one in the first step and earns three in the second. The state tells whether the first step has
been made. -/
def late : Process Bool Bool :=
  { start := fun s => if s then 0 else 1
    trans := fun _ _ s' => if s' then 1 else 0
    reward := fun s a _ => if a then (if s then 3 else -1) else 0
    absorbing := fun _ _ _ => false }

theorem late_proper : late.Proper := by
  refine ⟨fun s => ?_, by simp [late], fun s a s' => ?_, fun s a => by simp [late]⟩
  · cases s <;> simp [late]
  · cases s' <;> simp [late]

theorem late_return (θ : Vec 1) (γ : ℝ) : expected late (logistic θ) 2 (ret γ) =
    (3 * γ - 1) * (Real.exp (θ 0) / (1 + Real.exp (θ 0))) := by
  have hp : (1 + Real.exp (θ 0)) ≠ 0 := by positivity
  simp [expected, expect, late, logistic, ret, Process.sample]
  field_simp
  ring

/-- C94 fails for eNAC when the discount factor is less than one. In the task `late` with discount factor one half, and a policy that
starts with equal probabilities, the expected return increases with the weight of the policy; but the gradient of eNAC, without
features for the critic, converges almost surely to a negative number: the scores of later steps are discounted twice. -/
theorem C94_enac_refuted
    (pinv : (n : ℕ) → Matrix (Fin n) (Fin 1 ⊕ Fin 1) ℝ → Matrix (Fin 1 ⊕ Fin 1) (Fin n) ℝ)
    (hp : ∀ n (psi : Matrix (Fin n) (Fin 1 ⊕ Fin 1) ℝ), (psiᵀ * psi).det ≠ 0 →
      psi * pinv n psi * psi = psi ∧ (psi * pinv n psi)ᵀ = psi * pinv n psi)
    (opt : O → Vec 1 → Vec 1 → O × Vec 1) (g : PG (Enac 1 1) 1 O)
    (hg : Reach (enac Bool (fun _ : Bool => fun _ => 1) pinv) logisticScore (1 / 2) opt (enacNew 1 1) (fun _ => True) g)
    (hθ : g.theta 0 = 0) {Ω : Type} [MeasurableSpace Ω] (μ : Measure Ω) (X : ℕ → Ω → List (Step Bool Bool))
    (hX : Episodes μ late (logistic g.theta) 2 X) :
    late.Proper ∧ IsScore (S := Bool) logistic logisticScore ∧
    (∃ J', 0 < J' ∧ HasDerivAt (fun y => expected late (logistic (Function.update g.theta 0 y)) 2 (ret (1 / 2))) J' (g.theta 0)) ∧
    ∃ w : ℝ, w < 0 ∧ ∀ᵐ ω ∂μ, ∃ grad : ℕ → Vec 1,
      (∀ n, 2 ≤ n → (pgFit (enac Bool (fun _ : Bool => fun _ => 1) pinv) logisticScore (1 / 2) opt g (firstN X n ω)).2 = some (grad n)) ∧
      Tendsto (fun n => grad n 0) atTop (𝓝 w) := by
  have hf : fisher late (logistic g.theta) (logisticScore g.theta) (1 / 2) 2 0 0 = 5 / 16 := by
    simp [fisher, expected, expect, late, logistic, logisticScore, discScore, Process.sample, hθ]
    norm_num
  have hg' : discGrad late (logistic g.theta) (logisticScore g.theta) (1 / 2) 2 0 = -1 / 16 := by
    simp [discGrad, expected, expect, late, logistic, logisticScore, discScore, Process.sample, hθ, ret]
    norm_num
  refine ⟨late_proper, logistic_isScore, ⟨(3 * (1 / 2) - 1) * (Real.exp (g.theta 0) / (1 + Real.exp (g.theta 0)) ^ 2), ?_, ?_⟩, ?_⟩
  · norm_num
    positivity
  · simp only [late_return, Function.update_self]
    exact (sigmoid_deriv (g.theta 0)).const_mul _
  · obtain ⟨w, hw, hlim⟩ := C94_enac_consistent late_proper logistic logisticScore logistic_isScore (1 / 2) (fun _ => fun _ => 1) pinv
      hp opt g hg hX (by rw [Matrix.det_fin_one, hf]; norm_num) (by simp [Matrix.det_fin_one, featureMoment, late])
    have h0 := congrFun hw 0
    rw [hg', Matrix.mulVec, dotProduct, Fin.sum_univ_one, hf] at h0
    refine ⟨w 0, by linarith, ?_⟩
    filter_upwards [hlim] with ω hω
    obtain ⟨grad, h1, h2⟩ := hω
    exact ⟨grad, h1, h2 0⟩

/-- A pseudo-inverse for matrices of full rank. -/
noncomputable def leftInverse (n : ℕ) (psi : Matrix (Fin n) (Fin d ⊕ Fin k) ℝ) : Matrix (Fin d ⊕ Fin k) (Fin n) ℝ := (psiᵀ * psi)⁻¹ * psiᵀ

theorem leftInverse_pinv (n : ℕ) (psi : Matrix (Fin n) (Fin d ⊕ Fin k) ℝ) (hd : (psiᵀ * psi).det ≠ 0) :
    psi * leftInverse n psi * psi = psi ∧ (psi * leftInverse n psi)ᵀ = psi * leftInverse n psi := by
  constructor
  · rw [leftInverse, Matrix.mul_assoc, Matrix.mul_assoc, Matrix.nonsing_inv_mul _ (isUnit_iff_ne_zero.2 hd), Matrix.mul_one]
  · rw [leftInverse, ← Matrix.mul_assoc, Matrix.transpose_mul, Matrix.transpose_mul, Matrix.transpose_transpose,
      Matrix.transpose_nonsing_inv, Matrix.transpose_mul, Matrix.transpose_transpose, Matrix.mul_assoc]

/-- The hypotheses are met: a new agent without features for the critic, and independent episodes of the task `late`. -/
example (γ : ℝ) : ∃ (μ : Measure (ℕ → List (Step Bool Bool))), Episodes μ late (logistic (fun _ => 0)) 2 (fun i ω => ω i) ∧
    Reach (enac Bool (fun _ : Bool => fun _ => 1) leftInverse) logisticScore γ (fun (_ : Unit) t _ => ((), t)) (enacNew 1 1)
      (fun _ => True) { alg := enacNew 1 1, theta := fun _ => 0, opt := () } ∧
    (fisher late (logistic (fun _ => 0)) (logisticScore (fun _ => 0)) 1 2).det ≠ 0 ∧
    (featureMoment late (fun _ => fun _ : Fin 1 => 1)).det ≠ 0 := by
  obtain ⟨μ, _, h2⟩ := episodes_exist late late_proper (logistic (fun _ => 0))
    (fun s a => (logistic_isScore.1 _ s a).le) (logistic_isScore.2.1 _) 2
  refine ⟨μ, h2, .new _ _, ?_, by simp [Matrix.det_fin_one, featureMoment, late]⟩
  rw [Matrix.det_fin_one]
  simp [fisher, expected, expect, late, logistic, logisticScore, discScore, Process.sample]
  norm_num

end Verif.Search
