/-
Properties C59 and C60: the conjugate gradient and the line search of TRPO.
-/
import Verif.ActorCritic.Spec
import Mathlib.LinearAlgebra.Dimension.Constructions
import Mathlib.LinearAlgebra.FiniteDimensional.Basic
import Mathlib.LinearAlgebra.Matrix.ToLin
import Mathlib.Tactic.FieldSimp

namespace Verif.ActorCritic

open Matrix

variable {n : ℕ}

/-! ### The system can be solved: the iterates of the textbook -/

theorem sym_dot {F : Matrix (Fin n) (Fin n) ℝ} (h : Fᵀ = F) (u v : Fin n → ℝ) :
    u ⬝ᵥ (F *ᵥ v) = v ⬝ᵥ (F *ᵥ u) := by
  rw [dotProduct_mulVec, ← mulVec_transpose, h, dotProduct_comm]

section textbook

variable (F : Matrix (Fin n) (Fin n) ℝ) (b : Fin n → ℝ)

/-- Solution, residual and direction. -/
noncomputable def tbX (k : ℕ) : Fin n → ℝ := (textbook F b k).1
noncomputable def tbR (k : ℕ) : Fin n → ℝ := (textbook F b k).2.1
noncomputable def tbP (k : ℕ) : Fin n → ℝ := (textbook F b k).2.2

/-- Step length and direction coefficient. -/
noncomputable def tbA (k : ℕ) : ℝ := (tbR F b k ⬝ᵥ tbR F b k) / (tbP F b k ⬝ᵥ (F *ᵥ tbP F b k))

noncomputable def tbB (k : ℕ) : ℝ := (tbR F b (k + 1) ⬝ᵥ tbR F b (k + 1)) / (tbR F b k ⬝ᵥ tbR F b k)

theorem tb_x (k : ℕ) : tbX F b (k + 1) = tbX F b k + tbA F b k • tbP F b k := rfl
theorem tb_r (k : ℕ) : tbR F b (k + 1) = tbR F b k - tbA F b k • (F *ᵥ tbP F b k) := rfl
theorem tb_p (k : ℕ) : tbP F b (k + 1) = tbR F b (k + 1) + tbB F b k • tbP F b k := rfl

theorem tb_residual (k : ℕ) : tbR F b k = b - F *ᵥ tbX F b k := by
  induction k with
  | zero => simp [tbR, tbX, textbook]
  | succ k ih =>
    rw [tb_r, tb_x, mulVec_add, mulVec_smul]
    rw [ih]
    abel

theorem tb_stop (k : ℕ) (h : tbR F b k = 0) : tbR F b (k + 1) = 0 := by
  have : tbA F b k = 0 := by simp [tbA, h]
  rw [tb_r, this]
  simpa using h

theorem tb_invariant (hF : SPD F) (k : ℕ) (hr : ∀ i ≤ k, tbR F b i ≠ 0) :
    (∀ i < k, tbR F b k ⬝ᵥ tbR F b i = 0 ∧ tbR F b k ⬝ᵥ tbP F b i = 0 ∧ tbP F b k ⬝ᵥ (F *ᵥ tbP F b i) = 0) ∧
      tbR F b k ⬝ᵥ tbP F b k = tbR F b k ⬝ᵥ tbR F b k := by
  obtain ⟨hs, hp⟩ := hF
  induction k using Nat.strong_induction_on with
  | _ k ih =>
    cases k with
    | zero => exact ⟨fun i hi => absurd hi (Nat.not_lt_zero i), by simp [tbR, tbP, textbook]⟩
    | succ k =>
      have ihk := fun i (hi : i ≤ k) => ih i (by omega) (fun j hj => hr j (by omega))
      obtain ⟨horth, hself⟩ := ihk k le_rfl
      have rr : ∀ i ≤ k, tbR F b i ⬝ᵥ tbR F b i ≠ 0 := fun i hi h => hr i (by omega) (dotProduct_self_eq_zero.1 h)
      have pne : ∀ i ≤ k, tbP F b i ≠ 0 := by
        intro i hi h
        have h2 := (ihk i hi).2
        rw [h, dotProduct_zero] at h2
        exact rr i hi h2.symm
      have pp : ∀ i ≤ k, tbP F b i ⬝ᵥ (F *ᵥ tbP F b i) ≠ 0 := fun i hi => (hp _ (pne i hi)).ne'
      have ane : ∀ i ≤ k, tbA F b i ≠ 0 := fun i hi => div_ne_zero (rr i hi) (pp i hi)
      -- residual against directions
      have rp : ∀ i ≤ k, tbR F b (k + 1) ⬝ᵥ tbP F b i = 0 := by
        intro i hi
        rw [tb_r, sub_dotProduct, smul_dotProduct, smul_eq_mul, dotProduct_comm (F *ᵥ _), sym_dot hs]
        rcases Nat.lt_or_eq_of_le hi with h | rfl
        · obtain ⟨_, h2, h3⟩ := horth i h
          rw [h2, h3]; simp
        · rw [hself]
          have := pp i le_rfl
          show _ - tbR F b i ⬝ᵥ tbR F b i / (tbP F b i ⬝ᵥ (F *ᵥ tbP F b i)) * _ = 0
          field_simp
          ring
      -- residual against residuals
      have rrel : ∀ i ≤ k, tbR F b (k + 1) ⬝ᵥ tbR F b i = 0 := by
        intro i hi
        cases i with
        | zero =>
          have := rp 0 (by omega)
          simpa [tbR, tbP, textbook] using this
        | succ i =>
          have e : tbR F b (i + 1) = tbP F b (i + 1) - tbB F b i • tbP F b i := by rw [tb_p]; abel
          rw [e, dotProduct_sub, dotProduct_smul, rp (i + 1) hi, rp i (by omega)]
          simp
      have fp : ∀ i ≤ k, F *ᵥ tbP F b i = (1 / tbA F b i) • (tbR F b i - tbR F b (i + 1)) := by
        intro i hi
        rw [tb_r, sub_sub_cancel, smul_smul, one_div, inv_mul_cancel₀ (ane i hi), one_smul]
      refine ⟨fun i hi => ⟨rrel i (by omega), rp i (by omega), ?_⟩, ?_⟩
      · have hik : i ≤ k := by omega
        rw [tb_p, add_dotProduct, smul_dotProduct]
        rcases Nat.lt_or_eq_of_le hik with h | rfl
        · rw [(horth i h).2.2, fp i hik, dotProduct_smul, dotProduct_sub, rrel i hik, rrel (i + 1) (by omega)]
          simp
        · rw [fp i le_rfl, dotProduct_smul, dotProduct_sub, rrel i le_rfl, ← fp i le_rfl]
          have h1 := pp i le_rfl
          have h2 := rr i le_rfl
          have e1 : tbA F b i = tbR F b i ⬝ᵥ tbR F b i / (tbP F b i ⬝ᵥ (F *ᵥ tbP F b i)) := rfl
          have e2 : tbB F b i = tbR F b (i + 1) ⬝ᵥ tbR F b (i + 1) / (tbR F b i ⬝ᵥ tbR F b i) := rfl
          rw [e1, e2, smul_eq_mul, smul_eq_mul]
          field_simp
          ring
      · rw [tb_p, dotProduct_add, dotProduct_smul, rp k le_rfl]
        simp

/-- C59 (the specification is achievable): the conjugate-gradient iterates solve a symmetric positive definite system with `n` unknowns
in `n` iterations. -/
theorem C59_textbook (hF : SPD F) : F *ᵥ (textbook F b n).1 = b := by
  have key : tbR F b n = 0 := by
    by_contra hne
    have hall : ∀ i ≤ n, tbR F b i ≠ 0 := by
      intro i hi h
      have : ∀ d, tbR F b (i + d) = 0 := by
        intro d
        induction d with
        | zero => exact h
        | succ d ih => exact tb_stop F b (i + d) ih
      exact hne (by have := this (n - i); rwa [Nat.add_sub_cancel' hi] at this)
    have orth : ∀ i j, i ≤ n → j ≤ n → i ≠ j → tbR F b i ⬝ᵥ tbR F b j = 0 := by
      intro i j hi hj hij
      rcases Nat.lt_or_gt_of_ne hij with h | h
      · rw [dotProduct_comm]
        exact ((tb_invariant F b hF j (fun m hm => hall m (by omega))).1 i h).1
      · exact ((tb_invariant F b hF i (fun m hm => hall m (by omega))).1 j h).1
    have li : LinearIndependent ℝ (fun i : Fin (n + 1) => tbR F b (i : ℕ)) := by
      rw [Fintype.linearIndependent_iff]
      intro g hg j
      have h1 := congrArg (fun v => v ⬝ᵥ tbR F b (j : ℕ)) hg
      simp only [zero_dotProduct, sum_dotProduct, smul_dotProduct, smul_eq_mul] at h1
      rw [Finset.sum_eq_single j] at h1
      · rcases mul_eq_zero.1 h1 with h | h
        · exact h
        · exact absurd (dotProduct_self_eq_zero.1 h) (hall j (by omega))
      · intro i _ hij
        have := orth i j (by omega) (by omega) (fun h => hij (Fin.ext h))
        rw [this, mul_zero]
      · simp
    have := li.fintype_card_le_finrank
    simp at this
  have h := tb_residual F b n
  rw [key] at h
  exact (sub_eq_zero.1 h.symm).symm

end textbook

/-! ### What TRPO computes -/

theorem cgStep_residual (F : Matrix (Fin n) (Fin n) ℝ) (b : Fin n → ℝ) (c : Cg n) (h : c.store = b - F *ᵥ c.x) :
    (cgStep F c).store = b - F *ᵥ (cgStep F c).x := by
  simp only [cgStep, mulVec_add, mulVec_smul, h]
  abel

theorem cgStep_r2 (F : Matrix (Fin n) (Fin n) ℝ) (c : Cg n) :
    (cgStep F c).r2 = (cgStep F c).store ⬝ᵥ (cgStep F c).store := rfl

theorem cgLoop_residual (F : Matrix (Fin n) (Fin n) ℝ) (tol : ℝ) (b : Fin n → ℝ) (k : ℕ) (c : Cg n)
    (h : c.store = b - F *ᵥ c.x) : (cgLoop F tol k c).store = b - F *ᵥ (cgLoop F tol k c).x := by
  induction k generalizing c with
  | zero => exact h
  | succ k ih =>
    simp only [cgLoop]
    split
    · exact cgStep_residual F b c h
    · exact ih _ (cgStep_residual F b c h)

/-- C59 (part). Whatever directions are used, what the argument holds after the call is the residual of the returned vector. -/
theorem C59_residual_partial (F : Matrix (Fin n) (Fin n) ℝ) (tol : ℝ) (k : ℕ) (b : Fin n → ℝ) :
    (conjugateGradient F tol k b).2 = b - F *ᵥ (conjugateGradient F tol k b).1 :=
  cgLoop_residual F tol b k (cgInit b) (by simp [cgInit])

theorem cgLoop_succ (F : Matrix (Fin n) (Fin n) ℝ) (tol : ℝ) (k : ℕ) (c : Cg n)
    (h : c.r2 = c.store ⬝ᵥ c.store)
    (hne : ((cgLoop F tol (k + 1) c).x, (cgLoop F tol (k + 1) c).store) ≠
      ((cgLoop F tol k c).x, (cgLoop F tol k c).store)) (hk : 0 < k) :
    tol ≤ (cgLoop F tol k c).store ⬝ᵥ (cgLoop F tol k c).store := by
  induction k generalizing c with
  | zero => exact absurd hk (lt_irrefl _)
  | succ k ih =>
    by_cases hlt : (cgStep F c).r2 < tol
    · simp [cgLoop, hlt] at hne
    · have e : ∀ k, cgLoop F tol (k + 1) c = cgLoop F tol k (cgStep F c) := fun k => by
        simp only [cgLoop, if_neg hlt]
      rw [e, e] at hne
      rw [e]
      rcases Nat.eq_zero_or_pos k with rfl | hk'
      · rw [cgLoop]
        rw [cgStep_r2] at hlt
        exact not_lt.1 hlt
      · exact ih (cgStep F c) (cgStep_r2 F c) hne hk'

/-- C59 (part). The loop only goes on while the squared residual is at least the tolerance: if one more allowed iteration changes the
outcome, the residual had not reached the tolerance. So a result obtained before the limit has a squared residual below the tolerance. -/
theorem C59_tolerance_partial (F : Matrix (Fin n) (Fin n) ℝ) (tol : ℝ) (k : ℕ) (b : Fin n → ℝ) (hk : 0 < k)
    (hne : conjugateGradient F tol (k + 1) b ≠ conjugateGradient F tol k b) :
    tol ≤ (b - F *ᵥ (conjugateGradient F tol k b).1) ⬝ᵥ (b - F *ᵥ (conjugateGradient F tol k b).1) := by
  rw [← C59_residual_partial]
  exact cgLoop_succ F tol k (cgInit b) rfl hne hk

/-- C59 (part). One iteration is the first conjugate-gradient iterate. -/
theorem C59_first_partial (F : Matrix (Fin n) (Fin n) ℝ) (tol : ℝ) (b : Fin n → ℝ) :
    (conjugateGradient F tol 1 b).1 = (textbook F b 1).1 := by
  simp only [conjugateGradient, cgLoop, ite_self]
  rfl

/-- C59 (part). If the right-hand side is an eigenvector - in particular for one unknown - the system is solved. -/
theorem C59_eigenvector_partial (F : Matrix (Fin n) (Fin n) ℝ) (tol lam : ℝ) (htol : 0 < tol) (k : ℕ) (b : Fin n → ℝ)
    (hb : b ≠ 0) (hl : lam ≠ 0) (he : F *ᵥ b = lam • b) (hk : 0 < k) :
    F *ᵥ (conjugateGradient F tol k b).1 = b := by
  have hbb : b ⬝ᵥ b ≠ 0 := fun h => hb (dotProduct_self_eq_zero.1 h)
  have hx : (cgStep F (cgInit b)).x = (1 / lam) • b := by
    simp only [cgStep, cgInit, Cg.dir, he, dotProduct_smul, smul_eq_mul, zero_add]
    congr 1
    field_simp
  have hs : (cgStep F (cgInit b)).store = 0 := by
    rw [cgStep_residual F b (cgInit b) (by simp [cgInit]), hx, mulVec_smul, he, smul_smul, one_div,
      inv_mul_cancel₀ hl, one_smul, sub_self]
  obtain ⟨k, rfl⟩ : ∃ j, k = j + 1 := ⟨k - 1, by omega⟩
  have : (cgStep F (cgInit b)).r2 < tol := by rw [cgStep_r2, hs]; simpa using htol
  simp only [conjugateGradient, cgLoop, if_pos this, hx, mulVec_smul, he, smul_smul, one_div, inv_mul_cancel₀ hl,
    one_smul]

/-- Diagonal system with two unknowns. -/
def F2 : Matrix (Fin 2) (Fin 2) ℝ := !![1, 0; 0, 2]

theorem F2_spd : SPD F2 := by
  constructor
  · ext i j
    fin_cases i <;> fin_cases j <;> simp [F2]
  · intro v hv
    have : v ⬝ᵥ (F2 *ᵥ v) = v 0 ^ 2 + 2 * v 1 ^ 2 := by
      simp [F2, mulVec, dotProduct, Fin.sum_univ_two]; ring
    rw [this]
    by_contra h
    have h0 : v 0 = 0 := by nlinarith [sq_nonneg (v 0), sq_nonneg (v 1)]
    have h1 : v 1 = 0 := by nlinarith [sq_nonneg (v 0), sq_nonneg (v 1)]
    exact hv (by ext i; fin_cases i <;> simp [h0, h1])

theorem F2_mul (v : Fin 2 → ℝ) : F2 *ᵥ v = ![v 0, 2 * v 1] := by
  ext i
  fin_cases i <;> simp [F2, mulVec, dotProduct, Fin.sum_univ_two]

theorem dot2 (u v : Fin 2 → ℝ) : u ⬝ᵥ v = u 0 * v 0 + u 1 * v 1 := by simp [dotProduct, Fin.sum_univ_two]

theorem F2_step1 : cgStep F2 (cgInit ![1, 1]) =
    { store := ![1 / 3, -1 / 3], p := some ![10 / 27, -10 / 27], x := ![2 / 3, 2 / 3], r2 := 2 / 9 } := by
  simp only [cgStep, cgInit, Cg.dir, Cg.mk.injEq, Option.some.injEq, F2_mul, dot2]
  refine ⟨?_, ?_, ?_, ?_⟩
  · ext i; fin_cases i <;> simp <;> norm_num
  · ext i; fin_cases i <;> simp <;> norm_num
  · ext i; fin_cases i <;> simp <;> norm_num
  · simp; norm_num

theorem F2_step2 : (cgStep F2 { store := ![1 / 3, -1 / 3], p := some ![10 / 27, -10 / 27], x := ![2 / 3, 2 / 3]
                                r2 := 2 / 9 }).x = ![13 / 15, 7 / 15] := by
  simp only [cgStep, Cg.dir, F2_mul, dot2]
  ext i
  fin_cases i <;> simp <;> norm_num

/-- C59 fails: with the default tolerance, two iterations do not solve a positive definite system with two unknowns (the solution is
(1, 1/2), the result (13/15, 7/15)), although the second iterate of the textbook does. -/
theorem C59_refuted : ∃ (F : Matrix (Fin 2) (Fin 2) ℝ) (b : Fin 2 → ℝ), SPD F ∧
    F *ᵥ (textbook F b 2).1 = b ∧ F *ᵥ (conjugateGradient F (1 / 10 ^ 10) 2 b).1 ≠ b := by
  refine ⟨F2, ![1, 1], F2_spd, C59_textbook F2 _ F2_spd, ?_⟩
  have h : (conjugateGradient F2 (1 / 10 ^ 10) 2 ![1, 1]).1 = ![13 / 15, 7 / 15] := by
    simp only [conjugateGradient, cgLoop, F2_step1]
    rw [if_neg (by norm_num)]
    split <;> exact F2_step2
  rw [h]
  intro hc
  have := congrFun hc 0
  rw [F2_mul] at this
  norm_num at this

/-- C59 fails: the argument is overwritten, after a single iteration already. -/
theorem C59_argument_refuted : ∃ (F : Matrix (Fin 2) (Fin 2) ℝ) (b : Fin 2 → ℝ), SPD F ∧
    (conjugateGradient F (1 / 10 ^ 10) 1 b).2 ≠ b := by
  refine ⟨F2, ![1, 1], F2_spd, ?_⟩
  simp only [conjugateGradient, cgLoop, ite_self, F2_step1]
  intro hc
  have := congrFun hc 0
  norm_num at this

example : F2 *ᵥ (conjugateGradient F2 (1 / 10 ^ 10) 10 ![0, 3]).1 = ![0, 3] := by
  refine C59_eigenvector_partial F2 _ 2 (by norm_num) 10 _ ?_ (by norm_num) ?_ (by norm_num)
  · intro h; have := congrFun h 1; simp at this
  · ext i; fin_cases i <;> simp [F2, mulVec, dotProduct, Fin.sum_univ_two]

/-! ### The line search -/

section line

variable (loss kl : (Fin n → ℝ) → Option ℝ) (prev maxKl : ℝ) (old : Fin n → ℝ)

/-- The candidate `w` is acceptable: divergence and surrogate are numbers, the divergence is at most one and a half times the limit and
the surrogate not worse than before. -/
def Acceptable (w : Fin n → ℝ) : Prop :=
  (∃ d, kl w = some d ∧ d ≤ maxKl * (3 / 2)) ∧ ∃ v, loss w = some v ∧ prev ≤ v

theorem acceptable_iff (w : Fin n → ℝ) :
    (nanLe (kl w) (maxKl * (3 / 2)) ∧ nanGe ((loss w).map (· - prev)) 0) ↔ Acceptable loss kl prev maxKl w := by
  unfold Acceptable
  cases kl w <;> cases loss w <;> simp [nanLe, nanGe]

theorem searchLoop_spec (full : Fin n → ℝ) (k : ℕ) (s : ℝ) :
    (∃ j < k, searchLoop loss kl prev maxKl old full k s = old + (s * (1 / 2) ^ j) • full ∧
      Acceptable loss kl prev maxKl (old + (s * (1 / 2) ^ j) • full) ∧
      ∀ i < j, ¬ Acceptable loss kl prev maxKl (old + (s * (1 / 2) ^ i) • full)) ∨
    (searchLoop loss kl prev maxKl old full k s = old ∧
      ∀ i < k, ¬ Acceptable loss kl prev maxKl (old + (s * (1 / 2) ^ i) • full)) := by
  induction k generalizing s with
  | zero => right; exact ⟨rfl, by simp⟩
  | succ k ih =>
    simp only [searchLoop]
    by_cases h : Acceptable loss kl prev maxKl (old + s • full)
    · left
      rw [if_pos ((acceptable_iff loss kl prev maxKl _).2 h)]
      exact ⟨0, by omega, by simp, by simpa using h, by simp⟩
    · rw [if_neg (fun hc => h ((acceptable_iff loss kl prev maxKl _).1 hc))]
      have pw : ∀ i, s * (1 / 2) * (1 / 2) ^ i = s * (1 / 2 : ℝ) ^ (i + 1) := fun i => by ring
      rcases ih (s * (1 / 2)) with ⟨j, hj, h1, h2, h3⟩ | ⟨h1, h2⟩
      · left
        refine ⟨j + 1, by omega, by rw [h1, pw], by rw [← pw]; exact h2, ?_⟩
        intro i hi
        cases i with
        | zero => simpa using h
        | succ i => rw [← pw]; exact h3 i (by omega)
      · right
        refine ⟨h1, ?_⟩
        intro i hi
        cases i with
        | zero => simpa using h
        | succ i => rw [← pw]; exact h2 i (by omega)

/-- C60 (part). After the line search the policy has its old weights, or weights whose divergence is a number that is at most one and a
half times the limit and whose surrogate is a number not worse than before. Missing: the limit itself, see
`C60_limit_refuted`. -/
theorem C60_safe_partial (F : Matrix (Fin n) (Fin n) ℝ) (iters : ℕ) (dir : Fin n → ℝ) :
    lineSearch F loss kl prev maxKl iters old dir = old ∨
      (∃ d, kl (lineSearch F loss kl prev maxKl iters old dir) = some d ∧ d ≤ 3 / 2 * maxKl) ∧
      ∃ v, loss (lineSearch F loss kl prev maxKl iters old dir) = some v ∧ prev ≤ v := by
  rcases searchLoop_spec loss kl prev maxKl old (fullStep F maxKl dir) iters 1 with ⟨j, _, h1, h2, _⟩ | ⟨h1, _⟩
  · right
    unfold lineSearch
    rw [h1]
    obtain ⟨⟨d, e1, e2⟩, e3⟩ := h2
    exact ⟨⟨d, e1, by linarith⟩, e3⟩
  · exact Or.inl h1

/-- C60. The search takes the longest acceptable step among the full step and its halvings, and restores the old weights only if none of
them is acceptable. -/
theorem C60_longest (F : Matrix (Fin n) (Fin n) ℝ) (iters : ℕ) (dir : Fin n → ℝ) :
    (∀ j < iters, Acceptable loss kl prev maxKl (old + ((1 / 2 : ℝ) ^ j) • fullStep F maxKl dir) →
      (∀ i < j, ¬ Acceptable loss kl prev maxKl (old + ((1 / 2 : ℝ) ^ i) • fullStep F maxKl dir)) →
      lineSearch F loss kl prev maxKl iters old dir = old + ((1 / 2 : ℝ) ^ j) • fullStep F maxKl dir) ∧
    ((∀ j < iters, ¬ Acceptable loss kl prev maxKl (old + ((1 / 2 : ℝ) ^ j) • fullStep F maxKl dir)) →
      lineSearch F loss kl prev maxKl iters old dir = old) := by
  rcases searchLoop_spec loss kl prev maxKl old (fullStep F maxKl dir) iters 1 with ⟨j, hj, h1, h2, h3⟩ | ⟨h1, h2⟩
  · simp only [one_mul] at h1 h2 h3
    refine ⟨fun j' _ ha hn => ?_, fun hn => absurd h2 (hn j hj)⟩
    have : j' = j := by
      rcases Nat.lt_trichotomy j' j with h | h | h
      · exact absurd ha (h3 j' h)
      · exact h
      · exact absurd h2 (hn j h)
    subst this
    exact h1
  · simp only [one_mul] at h2
    exact ⟨fun j' hj' ha _ => absurd ha (h2 j' hj'), fun _ => h1⟩

/-- C60. The full step is as long as the quadratic model of the divergence allows: half of `step' F step` is the limit. -/
theorem C60_step_length (F : Matrix (Fin n) (Fin n) ℝ) (hkl : 0 < maxKl) (dir : Fin n → ℝ)
    (hd : 0 < dir ⬝ᵥ (F *ᵥ dir)) :
    1 / 2 * (fullStep F maxKl dir ⬝ᵥ (F *ᵥ fullStep F maxKl dir)) = maxKl := by
  simp only [fullStep, mulVec_smul, dotProduct_smul, smul_dotProduct, smul_eq_mul]
  set s := dir ⬝ᵥ (F *ᵥ dir)
  have hpos : 0 < 1 / 2 * s / maxKl := by positivity
  have hsq : Real.sqrt (1 / 2 * s / maxKl) ^ 2 = 1 / 2 * s / maxKl := Real.sq_sqrt hpos.le
  have hne : Real.sqrt (1 / 2 * s / maxKl) ≠ 0 := (Real.sqrt_pos.2 hpos).ne'
  have e : 1 / 2 * (1 / Real.sqrt (1 / 2 * s / maxKl) * (1 / Real.sqrt (1 / 2 * s / maxKl) * s)) =
      1 / 2 * s / Real.sqrt (1 / 2 * s / maxKl) ^ 2 := by field_simp
  rw [e, hsq]
  have : s ≠ 0 := hd.ne'
  field_simp

example : 1 / 2 * (fullStep (1 : Matrix (Fin 2) (Fin 2) ℝ) (1 / 100) ![3, 4] ⬝ᵥ ((1 : Matrix (Fin 2) (Fin 2) ℝ) *ᵥ fullStep 1 (1 / 100) ![3, 4])) = 1 / 100 :=
  C60_step_length (1 / 100) 1 (by norm_num) ![3, 4] (by norm_num [dotProduct, Fin.sum_univ_two, Matrix.one_mulVec])

/-- The step is a positive multiple of the direction. -/
theorem C60_step_direction (F : Matrix (Fin n) (Fin n) ℝ) (hkl : 0 < maxKl) (dir : Fin n → ℝ)
    (hd : 0 < dir ⬝ᵥ (F *ᵥ dir)) : ∃ c : ℝ, 0 < c ∧ fullStep F maxKl dir = c • dir :=
  ⟨_, one_div_pos.2 (Real.sqrt_pos.2 (by positivity)), rfl⟩

/-- C60 fails for the limit itself: the search can leave the policy with a divergence above `max_kl`. -/
theorem C60_limit_refuted : ∃ (F : Matrix (Fin 1) (Fin 1) ℝ) (loss kl : (Fin 1 → ℝ) → Option ℝ) (prev maxKl : ℝ) (iters : ℕ)
    (old dir : Fin 1 → ℝ) (d : ℝ), lineSearch F loss kl prev maxKl iters old dir ≠ old ∧
      kl (lineSearch F loss kl prev maxKl iters old dir) = some d ∧ maxKl < d := by
  have hstep : fullStep (!![2] : Matrix (Fin 1) (Fin 1) ℝ) 1 ![1] = ![1] := by
    ext i
    fin_cases i
    simp [fullStep, mulVec, dotProduct]
  have hl : lineSearch (!![2] : Matrix (Fin 1) (Fin 1) ℝ) (fun _ => some 0) (fun _ => some (5 / 4)) 0 1 1 ![0] ![1]
      = ![0] + (1 : ℝ) • ![1] := by
    rw [lineSearch, hstep, searchLoop, if_pos]
    simp [nanLe, nanGe]; norm_num
  refine ⟨!![2], fun _ => some 0, fun _ => some (5 / 4), 0, 1, 1, ![0], ![1], 5 / 4, ?_, rfl, by norm_num⟩
  rw [hl]
  intro h
  have := congrFun h 0
  simp at this

/-- A landscape in which the full step is rejected and half of it accepted. -/
example : lineSearch (!![2] : Matrix (Fin 1) (Fin 1) ℝ) (fun w => some (w 0)) (fun w => some (2 * w 0)) 0 1 3 ![0] ![1]
    = ![0] + ((1 / 2 : ℝ) ^ 1) • fullStep (!![2] : Matrix (Fin 1) (Fin 1) ℝ) 1 ![1] := by
  have hstep : fullStep (!![2] : Matrix (Fin 1) (Fin 1) ℝ) 1 ![1] = ![1] := by
    ext i
    fin_cases i
    simp [fullStep, mulVec, dotProduct]
  refine (C60_longest _ _ 0 1 ![0] _ 3 ![1]).1 1 (by norm_num) ?_ ?_
  · rw [hstep]
    refine ⟨⟨_, rfl, ?_⟩, _, rfl, ?_⟩ <;> simp <;> norm_num
  · intro i hi
    have : i = 0 := by omega
    subst this
    rw [hstep]
    rintro ⟨⟨d, h1, h2⟩, _⟩
    simp at h1
    subst h1
    norm_num at h2

end line

end Verif.ActorCritic
