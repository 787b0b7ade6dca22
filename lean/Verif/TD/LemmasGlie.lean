/-
Convergence of tables whose targets depend on a policy that changes with the past.
-/
import Verif.TD.SpecGlie
import Verif.TD.PropsStochDouble

namespace Verif.TD

open Filter Topology MeasureTheory

noncomputable section

variable {S A : Type} [DecidableEq S] [DecidableEq A] [Fintype S] [Fintype A] [Nonempty A]
variable {Ω : Type} [mΩ : MeasurableSpace Ω] {μ : Measure Ω} [IsProbabilityMeasure μ] {ℱ : Filtration ℕ mΩ}

/-- The tables `x n` move towards the random targets `G n ω s a (o n ω)`. Targets and probabilities of the outcomes may depend on the past, if the mean
target contracts towards `Qs` in the long run. -/
theorem learning_perturbed {Y : Type} [Fintype Y] [DecidableEq Y] {L : S → Prop} {t : ℕ → Ω → Trans S A} {α : ℕ → Ω → ℝ} {o : ℕ → Ω → Y}
    {p : ℕ → Ω → S → A → Y → ℝ} {G : ℕ → Ω → S → A → Y → ℝ} {x : ℕ → Ω → Table S A} {Q0 Qs : Table S A} {γ B : ℝ} (hγ0 : 0 ≤ γ) (hγ1 : γ < 1)
    (hpast : ∀ n s a, MeasurableSet[ℱ n] {ω | (t n ω).state = s ∧ (t n ω).action = a})
    (hknown : ∀ n y, MeasurableSet[ℱ (n + 1)] {ω | o n ω = y})
    (hlaw : ∀ n y, μ[Set.indicator {ω | o n ω = y} (fun _ => (1 : ℝ)) | ℱ n] =ᵐ[μ] fun ω => p n ω (t n ω).state (t n ω).action y)
    (hp0 : ∀ n ω s a y, 0 ≤ p n ω s a y) (hp1 : ∀ n ω s a, ∑ y, p n ω s a y = 1)
    (hpm : ∀ n, (∀ s a, Measurable[ℱ n] (fun ω => x n ω s a)) → ∀ s a y, Measurable[ℱ n] (fun ω => p n ω s a y))
    (hGm : ∀ n, (∀ s a, Measurable[ℱ n] (fun ω => x n ω s a)) → ∀ s a y, Measurable[ℱ n] (fun ω => G n ω s a y))
    (hα : RobbinsMonro μ ℱ L t α) (hB0 : Bounded B Q0) (hB : ∀ n ω, Bounded B (x n ω) → ∀ s a y, |G n ω s a y| ≤ B) (hx0 : ∀ ω, x 0 ω = Q0)
    (hupd : ∀ n ω, SetsOnly (x n ω) (x (n + 1) ω) (t n ω).state (t n ω).action (x n ω (t n ω).state (t n ω).action +
      α n ω * (G n ω (t n ω).state (t n ω).action (o n ω) - x n ω (t n ω).state (t n ω).action)))
    (hF : ∀ᵐ ω ∂μ, ∀ ε, 0 < ε → ∀ᶠ n in atTop, ∀ D, 0 ≤ D → (∀ s, L s → ∀ a, |x n ω s a - Qs s a| ≤ D) →
      ∀ s, L s → ∀ a, |∑ y, p n ω s a y * G n ω s a y - Qs s a| ≤ γ * D + ε) :
    ∀ᵐ ω ∂μ, ∀ s, L s → ∀ a, Tendsto (fun n => x n ω s a) atTop (𝓝 (Qs s a)) := by
  classical
  obtain ⟨C, hC⟩ := hα.squares
  set β : ℕ → Ω → S → A → ℝ := fun n ω s a => if (t n ω).state = s ∧ (t n ω).action = a then α n ω else 0 with hβ
  set g : S → A → ℕ → Y → Ω → ℝ := fun s a n y ω => β n ω s a * (G n ω s a y - x n ω s a) with hg
  have hstep : ∀ n ω s a, x (n + 1) ω s a = x n ω s a + g s a n (o n ω) ω := by
    intro n ω s a
    obtain ⟨h1, h2⟩ := hupd n ω
    by_cases h : (t n ω).state = s ∧ (t n ω).action = a
    · obtain ⟨rfl, rfl⟩ := h
      simp only [hg, hβ, and_self, if_true]; exact h1
    · simp only [hg, hβ, if_neg h, zero_mul, add_zero]
      exact h2 s a fun h' => h ⟨h'.1.symm, h'.2.symm⟩
  have hβ0 : ∀ n ω s a, 0 ≤ β n ω s a := fun n ω s a => by
    simp only [hβ]; split
    · exact (hα.range n ω).1
    · exact le_rfl
  have hβ1 : ∀ n ω s a, β n ω s a ≤ 1 := fun n ω s a => by
    simp only [hβ]; split
    · exact (hα.range n ω).2
    · exact zero_le_one
  have hbound : ∀ n ω, Bounded B (x n ω) := by
    intro n ω
    induction n with
    | zero => rw [hx0]; exact hB0
    | succ n ih =>
      intro s a
      rw [hstep]
      have e : x n ω s a + g s a n (o n ω) ω = (1 - β n ω s a) * x n ω s a + β n ω s a * G n ω s a (o n ω) := by simp only [hg]; ring
      rw [e]
      refine (abs_add_le _ _).trans ?_
      rw [abs_mul, abs_mul, abs_of_nonneg (hβ0 n ω s a), abs_of_nonneg (by linarith [hβ1 n ω s a] : 0 ≤ 1 - β n ω s a)]
      have h2 := mul_le_mul_of_nonneg_left (ih s a) (by linarith [hβ1 n ω s a] : 0 ≤ 1 - β n ω s a)
      have h3 := mul_le_mul_of_nonneg_left (hB n ω ih s a (o n ω)) (hβ0 n ω s a)
      linarith
  have hgB' : ∀ s a n y ω, |g s a n y ω| ≤ 2 * B * β n ω s a := by
    intro s a n y ω
    simp only [hg]
    rw [abs_mul, abs_of_nonneg (hβ0 n ω s a), mul_comm]
    refine mul_le_mul_of_nonneg_right ((abs_sub _ _).trans ?_) (hβ0 n ω s a)
    linarith [hB n ω (hbound n ω) s a y, hbound n ω s a]
  have hB0' : ∀ s : S, 0 ≤ B := fun s => (abs_nonneg _).trans (hB0 s (Classical.arbitrary A))
  have hgB : ∀ s a n y ω, |g s a n y ω| ≤ 2 * B := fun s a n y ω => (hgB' s a n y ω).trans
    ((mul_le_mul_of_nonneg_left (hβ1 n ω s a) (by linarith [hB0' s])).trans (by rw [mul_one]))
  have hgm' : ∀ s a n y, (∀ s a, Measurable[ℱ n] (fun ω => x n ω s a)) → Measurable[ℱ n] (g s a n y) := by
    intro s a n y h
    exact (Measurable.ite (hpast n s a) (hα.known n) measurable_const).mul ((hGm n h s a y).sub (h s a))
  have hxm : ∀ n s a, Measurable[ℱ n] (fun ω => x n ω s a) := by
    intro n
    induction n with
    | zero => intro s a; simp only [hx0]; exact measurable_const
    | succ n ih =>
      intro s a
      have e : (fun ω => x (n + 1) ω s a) = fun ω => x n ω s a + ∑ y, (if o n ω = y then (1 : ℝ) else 0) * g s a n y ω := by
        funext ω
        rw [hstep, Finset.sum_eq_single (o n ω)] <;> simp +contextual [eq_comm]
      rw [e]
      have hle : ℱ n ≤ ℱ (n + 1) := ℱ.mono (Nat.le_succ n)
      refine ((ih s a).mono hle le_rfl).add ?_
      exact @Finset.measurable_fun_sum _ _ _ _ _ _ (ℱ (n + 1)) _ Finset.univ (fun y _ =>
        (Measurable.ite (hknown n y) measurable_const measurable_const).mul ((hgm' s a n y ih).mono hle le_rfl))
  have hgm : ∀ s a n y, Measurable[ℱ n] (g s a n y) := fun s a n y => hgm' s a n y (hxm n)
  set P : ℕ → Y → Ω → ℝ := fun n y ω => p n ω (t n ω).state (t n ω).action y with hP
  set M : ℕ → Ω → S → A → ℝ := fun n ω s a => ∑ y, p n ω s a y * G n ω s a y with hM
  have hmean : ∀ s a n ω, ∑ y, P n y ω * g s a n y ω = β n ω s a * (M n ω s a - x n ω s a) := by
    intro s a n ω
    by_cases h : (t n ω).state = s ∧ (t n ω).action = a
    · simp only [hP, hg, hM, h.1, h.2]
      calc _ = ∑ y, (β n ω s a * (p n ω s a y * G n ω s a y) - β n ω s a * x n ω s a * p n ω s a y) :=
            Finset.sum_congr rfl fun y _ => by ring
        _ = _ := by rw [Finset.sum_sub_distrib, ← Finset.mul_sum, ← Finset.mul_sum, hp1]; ring
    · simp only [hg, hβ, if_neg h, zero_mul, mul_zero, Finset.sum_const_zero]
  have hmeanm : ∀ s a n, Measurable[ℱ n] (fun ω => ∑ y, P n y ω * g s a n y ω) := by
    intro s a n
    simp only [hmean]
    refine (Measurable.ite (hpast n s a) (hα.known n) measurable_const).mul (Measurable.sub ?_ (hxm n s a))
    exact @Finset.measurable_fun_sum _ _ _ _ _ _ (ℱ n) _ Finset.univ (fun y _ => (hpm n (hxm n) s a y).mul (hGm n (hxm n) s a y))
  have hmeanB : ∀ s a n ω, |∑ y, P n y ω * g s a n y ω| ≤ 2 * B := by
    intro s a n ω
    refine (Finset.abs_sum_le_sum_abs _ _).trans ?_
    calc _ ≤ ∑ y, P n y ω * (2 * B) := Finset.sum_le_sum fun y _ => by
          rw [abs_mul, abs_of_nonneg (hp0 _ _ _ _ _)]
          exact mul_le_mul_of_nonneg_left (hgB s a n y ω) (hp0 _ _ _ _ _)
      _ = 2 * B := by rw [← Finset.sum_mul]; simp only [hP, hp1, one_mul]
  have hnoise : ∀ s a, ∀ᵐ ω ∂μ, ∃ l, Tendsto (fun n => ∑ k ∈ Finset.range n,
      (g s a k (o k ω) ω - ∑ y, P k y ω * g s a k y ω)) atTop (𝓝 l) := by
    intro s a
    refine noise_outcomes (ℱ := ℱ) (C := (2 * B) ^ 2 * C) hknown hlaw (hgm s a) (hgB s a) (hmeanm s a) (hmeanB s a) (fun N ω => ?_)
    calc _ ≤ ∑ k ∈ Finset.range N, (2 * B) ^ 2 * ratesOf s a (t · ω) (α · ω) k ^ 2 := by
          refine Finset.sum_le_sum (fun k _ => ?_)
          rw [← mul_pow, ← sq_abs]
          exact pow_le_pow_left₀ (abs_nonneg _) (hgB' s a k _ ω) 2
      _ = (2 * B) ^ 2 * ∑ k ∈ Finset.range N, ratesOf s a (t · ω) (α · ω) k ^ 2 := by rw [Finset.mul_sum]
      _ ≤ _ := mul_le_mul_of_nonneg_left (hC s a ω N) (sq_nonneg _)
  have hnoise' : ∀ᵐ ω ∂μ, ∀ s a, ∃ l, Tendsto (fun n => ∑ k ∈ Finset.range n,
      (g s a k (o k ω) ω - ∑ y, P k y ω * g s a k y ω)) atTop (𝓝 l) := by
    rw [ae_all_iff]; intro s; rw [ae_all_iff]; intro a; exact hnoise s a
  filter_upwards [hnoise', hα.diverge, hF] with ω hno hdv hFω s hs a
  refine history_perturbed (I := S × A) (x := fun n j => x n ω j.1 j.2) (xs := fun j => Qs j.1 j.2)
    (F := fun n j => M n ω j.1 j.2) (a := fun n j => β n ω j.1 j.2)
    (d := fun n j => g j.1 j.2 n (o n ω) ω - ∑ y, P n y ω * g j.1 j.2 n y ω) (L := fun j => L j.1) (γ := γ)
    (B := B + ∑ j : S × A, |Qs j.1 j.2|) hγ0 hγ1
    (fun n j => hβ0 _ _ _ _) (fun n j => hβ1 _ _ _ _) (fun n j => ?_) (fun ε hε => ?_) (fun n j => ?_)
    (fun j hj => hdv j.1 hj j.2) (fun j => hno j.1 j.2) (s, a) hs
  · rw [hstep, hmean]; ring
  · filter_upwards [hFω ε hε] with n hn D hD hcl j hj _
    exact hn D hD (fun s hs a => hcl (s, a) hs) j.1 hj j.2
  · refine (abs_sub _ _).trans ?_
    have h3 := Finset.single_le_sum (f := fun j : S × A => |Qs j.1 j.2|) (fun j _ => abs_nonneg _) (Finset.mem_univ j)
    linarith [hbound n ω j.1 j.2]

/-- The mean value under a policy differs from the largest value at most in the probability of actions that are not greedy. -/
theorem policy_close {q w : A → ℝ} {B : ℝ} (hw : Prob w) (hq : ∀ a, |q a| ≤ B) : |∑ a, w a * q a - rowMax q| ≤ 2 * B * ∑ a ∈ (best q)ᶜ, w a := by
  classical
  have e : ∑ a, w a * q a - rowMax q = ∑ a ∈ (best q)ᶜ, w a * (q a - rowMax q) := by
    have h1 : ∑ a, w a * (q a - rowMax q) = ∑ a, w a * q a - rowMax q := by
      simp only [mul_sub]
      rw [Finset.sum_sub_distrib, ← Finset.sum_mul, hw.2, one_mul]
    rw [← h1, ← Finset.sum_add_sum_compl (best q), Finset.sum_eq_zero (s := best q), zero_add]
    intro a ha
    rw [best_value ha, sub_self, mul_zero]
  rw [e, Finset.mul_sum]
  refine (Finset.abs_sum_le_sum_abs _ _).trans (Finset.sum_le_sum fun a _ => ?_)
  rw [abs_mul, abs_of_nonneg (hw.1 a), mul_comm]
  refine mul_le_mul_of_nonneg_right ((abs_sub _ _).trans ?_) (hw.1 a)
  linarith [hq a, rowMax_bound hq]

end

end Verif.TD
