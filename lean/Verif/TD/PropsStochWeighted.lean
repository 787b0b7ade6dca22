/-
Property C159: Weighted Q-learning in random problems.
-/
import Verif.TD.LemmasWeighted
import Verif.TD.PropsGlie

namespace Verif.TD

open Filter Topology MeasureTheory ProbabilityTheory

noncomputable section

variable {S A : Type} [DecidableEq S] [DecidableEq A] [Fintype S] [Fintype A] [Nonempty A]
variable {Ω : Type} [mΩ : MeasurableSpace Ω] {μ : Measure Ω} [IsProbabilityMeasure μ] {ℱ : Filtration ℕ mΩ}

/-! ### Measurability -/

theorem measurable_pick {X : Type} [Fintype X] [DecidableEq X] {m0 : MeasurableSpace Ω} {f : Ω → X} (hf : ∀ x, MeasurableSet {ω | f ω = x})
    {h : X → Ω → ℝ} (hh : ∀ x, Measurable (h x)) : Measurable (fun ω => h (f ω) ω) := by
  have e : (fun ω => h (f ω) ω) = fun ω => ∑ x, (if f ω = x then (1 : ℝ) else 0) * h x ω := by
    funext ω
    rw [Finset.sum_eq_single (f ω)] <;> simp +contextual [eq_comm]
  rw [e]
  exact Finset.measurable_fun_sum _ fun x _ => (Measurable.ite (hf x) measurable_const measurable_const).mul (hh x)

/-- The estimate is a measurable function of tables and samples. -/
theorem weightedNextQ_measurable {m0 : MeasurableSpace Ω} {N : ℕ} {argmax : (A → ℝ) → A} (hmeas : ∀ a, MeasurableSet {q | argmax q = a})
    {Z : Ω → Fin N → A → ℝ} (hZ : ∀ j a, Measurable fun ω => Z ω j a) {g : Ω → Weighted S A} (s : S) (hQ : ∀ a, Measurable fun ω => (g ω).Q s a)
    (hσ : ∀ a, Measurable fun ω => (g ω).sigma s a) : Measurable fun ω => weightedNextQ argmax (List.ofFn (Z ω)) (g ω) s := by
  simp only [weightedNextQ_eq]
  refine Measurable.div_const (Finset.measurable_fun_sum _ fun j _ => ?_) _
  refine measurable_pick (h := fun a ω => (g ω).Q s a) (f := fun ω => argmax (fun a => (g ω).Q s a + (g ω).sigma s a * Z ω j a))
    (fun a => ?_) hQ
  have : Measurable fun ω => fun a => (g ω).Q s a + (g ω).sigma s a * Z ω j a :=
    measurable_pi_lambda _ fun a => (hQ a).add ((hσ a).mul (hZ j a))
  exact this (hmeas a)

/-- The tables of the agent are known from the past. -/
theorem weighted_adapted {m : RandomMDP S A} {L : S → Prop} {γ : ℝ} {t : ℕ → Ω → Trans S A} (ht : Experience μ ℱ m L t) {α : ℕ → Ω → ℝ}
    (hα : RobbinsMonro μ ℱ L t α) {argmax : (A → ℝ) → A} (hmeas : ∀ a, MeasurableSet {q | argmax q = a}) {N : ℕ}
    {Z : ℕ → Ω → Fin N → A → ℝ} (hZ : NormalDraws μ ℱ Z) (n : ℕ) :
    ∀ s a, Measurable[ℱ n] (fun ω => (weightedAfter γ argmax (t · ω) (α · ω) (Z · ω) n).Q s a) := by
  set g : ℕ → Ω → Weighted S A := fun n ω => weightedAfter γ argmax (t · ω) (α · ω) (Z · ω) n with hg
  suffices h : ∀ s a, Measurable[ℱ n] (fun ω => (g n ω).Q s a) ∧ Measurable[ℱ n] (fun ω => (g n ω).Q2 s a) ∧
      Measurable[ℱ n] (fun ω => (g n ω).w1 s a) ∧ Measurable[ℱ n] (fun ω => (g n ω).w2 s a) ∧
      Measurable[ℱ n] (fun ω => (g n ω).nUpdates s a) from fun s a => (h s a).1
  induction n with
  | zero =>
    intro s a
    refine ⟨?_, ?_, ?_, ?_, ?_⟩ <;> exact measurable_const
  | succ n ih =>
    have hle : ℱ n ≤ ℱ (n + 1) := ℱ.mono (Nat.le_succ n)
    have hσ : ∀ s a, Measurable[ℱ n] (fun ω => (g n ω).sigma s a) := by
      intro s a
      obtain ⟨i1, i2, i3, i4, i5⟩ := ih s a
      simp only [hg, after_sigma]
      refine Measurable.ite (measurableSet_lt measurable_const i5) ?_ measurable_const
      unfold sigmaOf
      exact Measurable.sqrt (((i2.sub (i1.pow_const 2)).mul (i4.div ((i3.mul measurable_const).add measurable_const))).max measurable_const)
    have hpast : ∀ s a, MeasurableSet[ℱ (n + 1)] {ω | (t n ω).state = s ∧ (t n ω).action = a} := fun s a => hle _ (ht.past n s a)
    have hrate : ∀ s a, Measurable[ℱ (n + 1)] (fun ω => ratesOf s a (t · ω) (α · ω) n) := fun s a =>
      Measurable.ite (hpast s a) ((hα.known n).mono hle le_rfl) measurable_const
    have hZm : ∀ j a, Measurable[ℱ (n + 1)] (fun ω => Z n ω j a) := fun j a =>
      (measurable_pi_apply a).comp ((measurable_pi_apply j).comp (hZ.known n))
    have htgt : Measurable[ℱ (n + 1)] (fun ω => weightedTarget γ argmax (t · ω) (α · ω) (Z · ω) n) := by
      have e : (fun ω => weightedTarget γ argmax (t · ω) (α · ω) (Z · ω) n) = fun ω =>
          (fun (x : (S × A) × S) ω => m.reward x.1.1 x.1.2 x.2 +
            γ * (if !m.absorbing x.1.1 x.1.2 x.2 then weightedNextQ argmax (List.ofFn (Z n ω)) (g n ω) x.2 else 0))
            (((t n ω).state, (t n ω).action), (t n ω).next) ω := by
        funext ω
        simp only [weightedTarget, ht.reward, ht.absorbing, hg]
      rw [e]
      refine measurable_pick (X := (S × A) × S) (m0 := ℱ (n + 1)) (f := fun ω => (((t n ω).state, (t n ω).action), (t n ω).next))
        (h := fun (x : (S × A) × S) ω => m.reward x.1.1 x.1.2 x.2 +
            γ * (if !m.absorbing x.1.1 x.1.2 x.2 then weightedNextQ argmax (List.ofFn (Z n ω)) (g n ω) x.2 else 0)) (fun x => ?_) (fun x => ?_)
      · have e2 : {ω | (((t n ω).state, (t n ω).action), (t n ω).next) = x} =
            {ω | (t n ω).state = x.1.1 ∧ (t n ω).action = x.1.2} ∩ {ω | (t n ω).next = x.2} := by
          ext ω
          simp [Prod.ext_iff]
        rw [e2]
        exact (hpast _ _).inter (ht.known n _)
      · refine measurable_const.add (measurable_const.mul ?_)
        split
        · exact weightedNextQ_measurable (m0 := ℱ (n + 1)) hmeas hZm _ (fun a => (ih _ a).1.mono hle le_rfl) (fun a => (hσ _ a).mono hle le_rfl)
        · exact measurable_const
    intro s a
    obtain ⟨i1, i2, i3, i4, i5⟩ := ih s a
    have j1 := i1.mono hle le_rfl
    have j2 := i2.mono hle le_rfl
    have j3 := i3.mono hle le_rfl
    have j4 := i4.mono hle le_rfl
    have j5 := i5.mono hle le_rfl
    simp only [hg, after_Q, after_Q2, after_w1, after_w2, after_nUpdates]
    refine ⟨j1.add ((hrate s a).mul (htgt.sub j1)), j2.add ((hrate s a).mul ((htgt.pow_const 2).sub j2)),
      ((measurable_const.sub (hrate s a)).mul j3).add (hrate s a),
      (((measurable_const.sub (hrate s a)).pow_const 2).mul j4).add ((hrate s a).pow_const 2),
      j5.add (Measurable.ite (hpast s a) measurable_const measurable_const)⟩

/-! ### Convergence -/

/-- Almost surely every transition has a positive probability. -/
theorem experience_possible {m : RandomMDP S A} (hm : m.Proper) {L : S → Prop} {t : ℕ → Ω → Trans S A} (ht : Experience μ ℱ m L t) :
    ∀ᵐ ω ∂μ, ∀ n, 0 < m.prob (t n ω).state (t n ω).action (t n ω).next := by
  rw [ae_all_iff]
  intro n
  have key : ∀ (s : S) (a : A) (s' : S), m.prob s a s' = 0 →
      ∀ᵐ ω ∂μ, ¬ (((t n ω).state = s ∧ (t n ω).action = a) ∧ (t n ω).next = s') := by
    intro s a s' h0
    have hE := ht.past n s a
    have hK := (ℱ.le (n + 1)) _ (ht.known n s')
    have h1 := setIntegral_condExp (ℱ.le n) (μ := μ) ((integrable_const (1 : ℝ)).indicator hK) hE
    rw [setIntegral_congr_ae (g := fun _ => (0 : ℝ)) ((ℱ.le n) _ hE) ((ht.law n s').mono fun ω h hω => by
      rw [h]; simp only; rw [hω.1, hω.2, h0]), integral_zero, setIntegral_indicator hK, setIntegral_const, smul_eq_mul, mul_one] at h1
    rw [ae_iff]
    have e : {ω | ¬ ¬ (((t n ω).state = s ∧ (t n ω).action = a) ∧ (t n ω).next = s')} =
        {ω | (t n ω).state = s ∧ (t n ω).action = a} ∩ {ω | (t n ω).next = s'} := by ext ω; simp [and_assoc]
    rw [e]
    exact (measureReal_eq_zero_iff).1 h1.symm
  have key' : ∀ᵐ ω ∂μ, ∀ (s : S) (a : A) (s' : S), m.prob s a s' = 0 →
      ¬ (((t n ω).state = s ∧ (t n ω).action = a) ∧ (t n ω).next = s') := by
    rw [ae_all_iff]; intro s; rw [ae_all_iff]; intro a; rw [ae_all_iff]; intro s'
    by_cases h : m.prob s a s' = 0
    · filter_upwards [key s a s' h] with ω hω _; exact hω
    · exact Eventually.of_forall fun ω h' => absurd h' h
  filter_upwards [key'] with ω hω
  refine lt_of_le_of_ne (hm.1 _ _ _) fun h => hω _ _ _ h.symm ⟨⟨rfl, rfl⟩, rfl⟩

/-- The noise of the samples, capped, has a convergent sum. -/
theorem samples_sum {L : S → Prop} {t : ℕ → Ω → Trans S A} (hpast : ∀ n s a, MeasurableSet[ℱ n] {ω | (t n ω).state = s ∧ (t n ω).action = a})
    {α : ℕ → Ω → ℝ} (hα : RobbinsMonro μ ℱ L t α) {N : ℕ} {Z : ℕ → Ω → Fin N → A → ℝ} (hZ : NormalDraws μ ℱ Z) {ψ : (Fin N → A → ℝ) → ℝ}
    (hψ : Measurable ψ) {K : ℝ} (hK : ∀ z, 0 ≤ ψ z ∧ ψ z ≤ K) (s : S) (a : A) :
    ∀ᵐ ω ∂μ, ∃ l, Tendsto (fun n => ∑ k ∈ Finset.range n, ratesOf s a (t · ω) (α · ω) k * (ψ (Z k ω) - ∫ ω', ψ (Z k ω') ∂μ)) atTop (𝓝 l) := by
  obtain ⟨C, hC⟩ := hα.squares
  have hle : ∀ n, ℱ n ≤ ℱ (n + 1) := fun n => ℱ.mono (Nat.le_succ n)
  have hr : ∀ n, Measurable[ℱ n] (fun ω => ratesOf s a (t · ω) (α · ω) n) := fun n => Measurable.ite (hpast n s a) (hα.known n) measurable_const
  have hψZ : ∀ n, Measurable[MeasurableSpace.comap (Z n) inferInstance] (fun ω => ψ (Z n ω)) := fun n =>
    hψ.comp (comap_measurable (Z n))
  have hcl : ∀ n, MeasurableSpace.comap (Z n) inferInstance ≤ ℱ (n + 1) := fun n => (hZ.known n).comap_le
  have hK0 : 0 ≤ K := (hK (fun _ _ => 0)).1.trans (hK _).2
  have hi : ∀ n, Integrable (fun ω => ψ (Z n ω)) μ := fun n =>
    integrable_of_le (((hψZ n).mono ((hcl n).trans (ℱ.le _)) le_rfl).stronglyMeasurable) K fun ω => by
      rw [abs_of_nonneg (hK _).1]; exact (hK _).2
  have hm0 : ∀ n, 0 ≤ ∫ ω, ψ (Z n ω) ∂μ ∧ ∫ ω, ψ (Z n ω) ∂μ ≤ K := by
    intro n
    refine ⟨integral_nonneg fun ω => (hK _).1, ?_⟩
    refine (integral_mono (hi n) (integrable_const K) fun ω => (hK _).2).trans ?_
    simp
  have hd : ∀ n ω, |ψ (Z n ω) - ∫ ω', ψ (Z n ω') ∂μ| ≤ K := by
    intro n ω
    rw [abs_le]
    constructor <;> linarith [(hm0 n).1, (hm0 n).2, (hK (Z n ω)).1, (hK (Z n ω)).2]
  have hdm : ∀ n, StronglyMeasurable[ℱ (n + 1)] (fun ω => ψ (Z n ω) - ∫ ω', ψ (Z n ω') ∂μ) := fun n =>
    (((hψZ n).mono (hcl n) le_rfl).sub measurable_const).stronglyMeasurable
  refine noise_sum_converges (ℱ := ℱ) (C := K ^ 2 * C) (d := fun k ω => ratesOf s a (t · ω) (α · ω) k * (ψ (Z k ω) - ∫ ω', ψ (Z k ω') ∂μ))
    (fun n => (((hr n).mono (hle n) le_rfl).stronglyMeasurable).mul (hdm n)) (fun n => ?_) (fun M ω => ?_)
  · have hir : ∀ ω, |ratesOf s a (t · ω) (α · ω) n| ≤ 1 := fun ω => by
      have := rates_range (t := (t · ω)) (fun k => hα.range k ω) s a n
      rw [abs_of_nonneg this.1]; exact this.2
    have hint : Integrable (fun ω => ψ (Z n ω) - ∫ ω', ψ (Z n ω') ∂μ) μ := (hi n).sub (integrable_const _)
    have g1 := condExp_mul_of_stronglyMeasurable_left (μ := μ) (m := ℱ n) (f := fun ω => ratesOf s a (t · ω) (α · ω) n)
      (g := fun ω => ψ (Z n ω) - ∫ ω', ψ (Z n ω') ∂μ) (hr n).stronglyMeasurable
      (hint.bdd_mul (c := 1) (((hr n).stronglyMeasurable.mono (ℱ.le n)).aestronglyMeasurable) (Eventually.of_forall fun ω => by simpa using hir ω)) hint
    have g2 := condExp_indep_eq ((hcl n).trans (ℱ.le _)) (ℱ.le n) (μ := μ) (f := fun ω => ψ (Z n ω) - ∫ ω', ψ (Z n ω') ∂μ)
      ((hψZ n).sub measurable_const).stronglyMeasurable (hZ.fresh n)
    have g3 : ∫ ω, (ψ (Z n ω) - ∫ ω', ψ (Z n ω') ∂μ) ∂μ = 0 := by
      rw [integral_sub (hi n) (integrable_const _)]; simp
    filter_upwards [g1, g2] with ω k1 k2
    have : μ[fun ω => ratesOf s a (t · ω) (α · ω) n * (ψ (Z n ω) - ∫ ω', ψ (Z n ω') ∂μ) | ℱ n] ω = _ := k1
    rw [this, Pi.mul_apply, k2, g3, mul_zero]; rfl
  · calc _ ≤ ∑ k ∈ Finset.range M, K ^ 2 * ratesOf s a (t · ω) (α · ω) k ^ 2 := by
          refine Finset.sum_le_sum fun k _ => ?_
          rw [mul_pow, mul_comm]
          refine mul_le_mul_of_nonneg_right ?_ (sq_nonneg _)
          rw [← sq_abs]
          exact pow_le_pow_left₀ (abs_nonneg _) (hd k ω) 2
      _ = K ^ 2 * ∑ k ∈ Finset.range M, ratesOf s a (t · ω) (α · ω) k ^ 2 := by rw [Finset.mul_sum]
      _ ≤ _ := mul_le_mul_of_nonneg_left (hC s a ω M) (sq_nonneg _)

/-- The noise of the next states in updates towards the largest value of the next state. -/
theorem next_sum {m : RandomMDP S A} (hm : m.Proper) {L : S → Prop} {B : ℝ} {t : ℕ → Ω → Trans S A} (ht : Experience μ ℱ m L t)
    {α : ℕ → Ω → ℝ} (hα : RobbinsMonro μ ℱ L t α) {x : ℕ → Ω → Table S A} (hxm : ∀ n s a, Measurable[ℱ n] (fun ω => x n ω s a))
    (hbound : ∀ n ω, Bounded B (x n ω)) {G : ℕ → Ω → S → A → S → ℝ} (hGm : ∀ n s a y, Measurable[ℱ n] (fun ω => G n ω s a y))
    (hG : ∀ n ω s a y, |G n ω s a y| ≤ B) (s : S) (a : A) :
    ∀ᵐ ω ∂μ, ∃ l, Tendsto (fun n => ∑ k ∈ Finset.range n, ratesOf s a (t · ω) (α · ω) k *
      (G k ω s a (t k ω).next - ∑ y, m.prob s a y * G k ω s a y)) atTop (𝓝 l) := by
  obtain ⟨C, hC⟩ := hα.squares
  set β : ℕ → Ω → ℝ := fun n ω => ratesOf s a (t · ω) (α · ω) n with hβ
  have hβr : ∀ n ω, 0 ≤ β n ω ∧ β n ω ≤ 1 := fun n ω => rates_range (t := (t · ω)) (fun k => hα.range k ω) s a n
  have hβm : ∀ n, Measurable[ℱ n] (β n) := fun n => Measurable.ite (ht.past n s a) (hα.known n) measurable_const
  set g : ℕ → S → Ω → ℝ := fun n y ω => β n ω * G n ω s a y with hg
  have hB0 : 0 ≤ B := (abs_nonneg _).trans (hbound 0 (Classical.choice (by
    by_contra h
    have : IsEmpty Ω := not_nonempty_iff.1 h
    exact absurd (measure_univ (μ := μ)) (by simp [Measure.eq_zero_of_isEmpty μ]))) s a)
  have hgB' : ∀ n y ω, |g n y ω| ≤ B * β n ω := by
    intro n y ω
    simp only [hg]
    rw [abs_mul, abs_of_nonneg (hβr n ω).1, mul_comm]
    exact mul_le_mul_of_nonneg_right (hG n ω s a y) (hβr n ω).1
  have hgB : ∀ n y ω, |g n y ω| ≤ B := fun n y ω => (hgB' n y ω).trans
    ((mul_le_mul_of_nonneg_left (hβr n ω).2 hB0).trans (by rw [mul_one]))
  have hmean : ∀ n ω, ∑ y, m.prob (t n ω).state (t n ω).action y * g n y ω = β n ω * ∑ y, m.prob s a y * G n ω s a y := by
    intro n ω
    by_cases h : (t n ω).state = s ∧ (t n ω).action = a
    · simp only [hg, h.1, h.2, Finset.mul_sum]
      exact Finset.sum_congr rfl fun y _ => by ring
    · simp only [hg, hβ, ratesOf, if_neg h, zero_mul, mul_zero, Finset.sum_const_zero]
  have := noise_outcomes (ℱ := ℱ) (μ := μ) (y := fun n ω => (t n ω).next) (P := fun n y ω => m.prob (t n ω).state (t n ω).action y) (g := g)
    (K := B) (C := B ^ 2 * C) ht.known ht.law (fun n y => (hβm n).mul (hGm n s a y)) hgB (fun n => ?_) (fun n ω => ?_) (fun M ω => ?_)
  · filter_upwards [this] with ω hω
    simp only [hmean] at hω
    simpa only [hg, mul_sub] using hω
  · simp only [hmean]
    exact (hβm n).mul (@Finset.measurable_fun_sum _ _ _ _ _ _ (ℱ n) _ Finset.univ fun y _ => measurable_const.mul (hGm n s a y))
  · refine (Finset.abs_sum_le_sum_abs _ _).trans ?_
    calc _ ≤ ∑ y, m.prob (t n ω).state (t n ω).action y * B := Finset.sum_le_sum fun y _ => by
          rw [abs_mul, abs_of_nonneg (hm.1 _ _ _)]
          exact mul_le_mul_of_nonneg_left (hgB n y ω) (hm.1 _ _ _)
      _ = B := by rw [← Finset.sum_mul, hm.2, one_mul]
  · calc _ ≤ ∑ k ∈ Finset.range M, B ^ 2 * β k ω ^ 2 := by
          refine Finset.sum_le_sum (fun k _ => ?_)
          rw [← mul_pow, ← sq_abs]
          exact pow_le_pow_left₀ (abs_nonneg _) (hgB' k _ ω) 2
      _ = B ^ 2 * ∑ k ∈ Finset.range M, β k ω ^ 2 := by rw [Finset.mul_sum]
      _ ≤ _ := mul_le_mul_of_nonneg_left (hC s a ω M) (sq_nonneg _)

theorem normal_marginal {N : ℕ} {Z : ℕ → Ω → Fin N → A → ℝ} (hZ : NormalDraws μ ℱ Z) (n : ℕ) (j : Fin N) (a : A) :
    μ.map (fun ω => Z n ω j a) = gaussianReal 0 1 := by
  have hm : Measurable (Z n) := (hZ.known n).mono (ℱ.le _) le_rfl
  have e : (fun ω => Z n ω j a) = (fun v : A → ℝ => v a) ∘ (fun z : Fin N → A → ℝ => z j) ∘ Z n := rfl
  rw [e, ← Measure.map_map (measurable_pi_apply a) ((measurable_pi_apply j).comp hm), ← Measure.map_map (measurable_pi_apply j) hm, hZ.normal,
    (measurePreserving_eval (fun _ : Fin N => Measure.pi fun _ : A => gaussianReal 0 1) j).map_eq,
    (measurePreserving_eval (fun _ : A => gaussianReal 0 1) a).map_eq]

/-- The mean size of the samples. -/
theorem samples_mean {N : ℕ} (hN : 0 < N) {Z : ℕ → Ω → Fin N → A → ℝ} (hZ : NormalDraws μ ℱ Z) (n : ℕ) {c : ℝ} (hc : 0 ≤ c) (B : ℝ) (hB : 0 ≤ B) :
    ∫ ω, min (2 * c / N * ∑ j, ∑ a, |Z n ω j a|) (2 * B) ∂μ ≤ 2 * c * Fintype.card A := by
  have hN' : (0 : ℝ) < N := by exact_mod_cast hN
  have hZm : ∀ j a, Measurable (fun ω => Z n ω j a) := fun j a =>
    (measurable_pi_apply a).comp ((measurable_pi_apply j).comp ((hZ.known n).mono (ℱ.le _) le_rfl))
  have hone : ∀ j a, Integrable (fun ω => |Z n ω j a|) μ ∧ ∫ ω, |Z n ω j a| ∂μ ≤ 1 := by
    intro j a
    obtain ⟨h1, h2⟩ := normal_abs
    rw [← normal_marginal hZ n j a] at h1 h2
    rw [integral_map (hZm j a).aemeasurable (by fun_prop)] at h2
    exact ⟨(integrable_map_measure (by fun_prop) (hZm j a).aemeasurable).1 h1, h2⟩
  have hsum : Integrable (fun ω => 2 * c / N * ∑ j, ∑ a, |Z n ω j a|) μ :=
    (integrable_finsetSum _ fun j _ => integrable_finsetSum _ fun a _ => (hone j a).1).const_mul _
  have hmin : Integrable (fun ω => min (2 * c / N * ∑ j, ∑ a, |Z n ω j a|) (2 * B)) μ := hsum.inf (integrable_const _)
  refine (integral_mono hmin hsum fun ω => min_le_left _ _).trans ?_
  rw [integral_const_mul, integral_finsetSum _ fun j _ => integrable_finsetSum _ fun a _ => (hone j a).1]
  have : ∑ j : Fin N, ∫ ω, ∑ a, |Z n ω j a| ∂μ ≤ N * Fintype.card A := by
    calc _ ≤ ∑ j : Fin N, (Fintype.card A : ℝ) := by
          refine Finset.sum_le_sum fun j _ => ?_
          rw [integral_finsetSum _ fun a _ => (hone j a).1]
          refine (Finset.sum_le_sum fun a _ => (hone j a).2).trans ?_
          simp
      _ = _ := by simp
  calc _ ≤ 2 * c / N * (N * Fintype.card A) := mul_le_mul_of_nonneg_left this (by positivity)
    _ = _ := by field_simp

/-- C159. The standard deviations of Weighted Q-learning: with probability one, from some update on, those of all the pairs of live states have
reached the smallest value that the agent uses, and stay there. -/
theorem C159_sigma (m : RandomMDP S A) (L : S → Prop) (γ : ℝ) (hγ0 : 0 ≤ γ) (hγ1 : γ < 1) (t : ℕ → Ω → Trans S A)
    (ht : Experience μ ℱ m L t) (α : ℕ → Ω → ℝ) (hα : RobbinsMonro μ ℱ L t α) (argmax : (A → ℝ) → A) (hmax : ∀ q, Maximises q (argmax q))
    (N : ℕ) (hN : 0 < N) (Z : ℕ → Ω → Fin N → A → ℝ) :
    ∀ᵐ ω ∂μ, ∀ᶠ n in atTop, ∀ s, L s → ∀ a, (weightedAfter γ argmax (t · ω) (α · ω) (Z · ω) n).sigma s a = 1 / 10 ^ 5 := by
  obtain ⟨C, hC⟩ := hα.squares
  filter_upwards [hα.diverge] with ω hdv
  rw [eventually_all]; intro s
  by_cases hs : L s
  swap
  · exact Eventually.of_forall fun n h => absurd h hs
  have : ∀ᶠ n in atTop, ∀ a, (weightedAfter γ argmax (t · ω) (α · ω) (Z · ω) n).sigma s a = 1 / 10 ^ 5 := by
    rw [eventually_all]; intro a
    refine after_sigma_floor (B := reach m γ 0) hN hmax (fun n => hα.range n ω) (reach_nonneg hγ1 _) (fun n x hx => ?_) s a (fun M => hC s a ω M)
      (hdv s hs a)
    rw [ht.reward]
    exact target_reach hγ0 hγ1 hx _ _ _
  exact this.mono fun n h _ => h

/-- C159. Weighted Q-learning: with probability one the table ends within `2 γ |A| 10⁻⁵ / (1 - γ)` of the optimal action values,
whatever the exploration is. -/
theorem C159_near_partial (m : RandomMDP S A) (hm : m.Proper) (L : S → Prop) (hcl : m.Closed L) (γ : ℝ) (hγ0 : 0 ≤ γ) (hγ1 : γ < 1)
    (Qs : Table S A) (hQs : m.OptimalOn L γ Qs) (t : ℕ → Ω → Trans S A) (ht : Experience μ ℱ m L t) (α : ℕ → Ω → ℝ)
    (hα : RobbinsMonro μ ℱ L t α) (argmax : (A → ℝ) → A) (hmax : ∀ q, Maximises q (argmax q)) (hmeas : ∀ a, MeasurableSet {q | argmax q = a})
    (N : ℕ) (hN : 0 < N) (Z : ℕ → Ω → Fin N → A → ℝ) (hZ : NormalDraws μ ℱ Z) :
    ∀ᵐ ω ∂μ, ∀ ε, 0 < ε → ∀ᶠ n in atTop, ∀ s, L s → ∀ a,
      |(weightedAfter γ argmax (t · ω) (α · ω) (Z · ω) n).Q s a - Qs s a| ≤ 2 * γ * Fintype.card A / 10 ^ 5 / (1 - γ) + ε := by
  obtain ⟨V, hV⟩ := hQs
  set B := reach m γ (0 : Table S A) with hBdef
  have hB0 : 0 ≤ B := reach_nonneg hγ1 _
  set x : ℕ → Ω → Table S A := fun n ω => (weightedAfter γ argmax (t · ω) (α · ω) (Z · ω) n).Q with hx
  have hall := fun n ω => after_bounded (B := B) (γ := γ) (t := (t · ω)) (α := (α · ω)) (Z := (Z · ω)) hN hmax (fun n => hα.range n ω) hB0
    (fun n x hx => by rw [ht.reward]; exact target_reach hγ0 hγ1 hx _ _ _) n
  have hbound : ∀ n ω, Bounded B (x n ω) := fun n ω => (hall n ω).1
  have hxm : ∀ n s a, Measurable[ℱ n] (fun ω => x n ω s a) := fun n s a => weighted_adapted ht hα hmeas hZ n s a
  set G : ℕ → Ω → S → A → S → ℝ := fun n ω s a s' => m.reward s a s' + γ * (if m.absorbing s a s' then 0 else rowMax (x n ω s')) with hG
  have hGB : ∀ n ω s a s', |G n ω s a s'| ≤ B := fun n ω s a s' =>
    target_reach hγ0 hγ1 (abs_ite_zero hB0 fun _ => rowMax_bound (hbound n ω s')) s a s'
  have hGm : ∀ n s a s', Measurable[ℱ n] (fun ω => G n ω s a s') := by
    intro n s a s'
    refine measurable_const.add (measurable_const.mul ?_)
    split
    · exact measurable_const
    · exact (rowMax_measurable s').comp ((@measurable_pi_iff Ω (S × A) _ (ℱ n) _ _).2 fun j => hxm n j.1 j.2)
  have hnoise := ae_all_iff.2 fun s => ae_all_iff.2 fun a => next_sum hm ht hα hxm hbound hGm hGB s a
  set c : ℝ := 1 / 10 ^ 5 with hc
  have hc0 : 0 ≤ c := by positivity
  set ψ : (Fin N → A → ℝ) → ℝ := fun z => γ * min (2 * c / N * ∑ j, ∑ a, |z j a|) (2 * B) with hψ
  have hψm : Measurable ψ := by
    refine measurable_const.mul (Measurable.min (measurable_const.mul ?_) measurable_const)
    exact Finset.measurable_fun_sum _ fun j _ => Finset.measurable_fun_sum _ fun a _ =>
      ((measurable_pi_apply a).comp (measurable_pi_apply j)).abs
  have hψK : ∀ z, 0 ≤ ψ z ∧ ψ z ≤ γ * (2 * B) := by
    intro z
    refine ⟨mul_nonneg hγ0 (le_min ?_ (by positivity)), mul_le_mul_of_nonneg_left (min_le_right _ _) hγ0⟩
    exact mul_nonneg (by positivity) (Finset.sum_nonneg fun j _ => Finset.sum_nonneg fun a _ => abs_nonneg _)
  have hψE : ∀ n, ∫ ω, ψ (Z n ω) ∂μ ≤ 2 * γ * Fintype.card A / 10 ^ 5 := by
    intro n
    simp only [hψ]
    rw [integral_const_mul]
    refine (mul_le_mul_of_nonneg_left (samples_mean hN hZ n hc0 B hB0) hγ0).trans (le_of_eq ?_)
    rw [hc]; ring
  have hsamples := ae_all_iff.2 fun s => ae_all_iff.2 fun a => samples_sum ht.past hα hZ hψm hψK s a
  filter_upwards [hnoise, hsamples, hα.diverge, C159_sigma m L γ hγ0 hγ1 t ht α hα argmax hmax N hN Z, experience_possible hm ht] with ω h1 h2 hdv hσ hpos ε hε
  have := history_near (I := S × A) (x := fun n j => x n ω j.1 j.2) (xs := fun j => Qs j.1 j.2)
    (F := fun n j => ∑ y, m.prob j.1 j.2 y * G n ω j.1 j.2 y) (a := fun n j => ratesOf j.1 j.2 (t · ω) (α · ω) n)
    (d := fun n j => ratesOf j.1 j.2 (t · ω) (α · ω) n * (G n ω j.1 j.2 (t n ω).next - ∑ y, m.prob j.1 j.2 y * G n ω j.1 j.2 y))
    (d' := fun n j => ratesOf j.1 j.2 (t · ω) (α · ω) n * (ψ (Z n ω) - ∫ ω', ψ (Z n ω') ∂μ))
    (u := fun n j => ratesOf j.1 j.2 (t · ω) (α · ω) n * (G n ω j.1 j.2 (t n ω).next - weightedTarget γ argmax (t · ω) (α · ω) (Z · ω) n))
    (L := fun j => L j.1) (γ := γ) (δ := 2 * γ * Fintype.card A / 10 ^ 5) (B := B + ∑ j : S × A, |Qs j.1 j.2|) hγ0 hγ1 (by positivity)
    (fun n j => (rates_range (fun k => hα.range k ω) _ _ n).1) (fun n j => (rates_range (fun k => hα.range k ω) _ _ n).2)
    (fun n j => ?_) (fun n D hD hcl' j hj => ?_) ?_ (fun n j => ?_) (fun j hj => hdv j.1 hj j.2) (fun j => h1 j.1 j.2) (fun j => h2 j.1 j.2) hε
  · exact this.mono fun n h s hs a => h (s, a) hs
  · simp only [hx]
    rw [after_Q]; ring
  · simp only [hG]
    rw [(hV j.1 hj).2 j.2]
    exact mean_contracts hm hcl hγ0 hD (fun s' hs' => isMax_close (fun a => hcl' (s', a) hs') (rowMax_isMax _) (hV s' hs').1) j.1 hj j.2
  · filter_upwards [hσ] with n hn j hj
    obtain ⟨r0, r1⟩ := rates_range (t := (t · ω)) (fun k => hα.range k ω) j.1 j.2 n
    by_cases hv : (t n ω).state = j.1 ∧ (t n ω).action = j.2
    swap
    · simp [ratesOf, hv]
    suffices hs : 0 ≤ G n ω j.1 j.2 (t n ω).next - weightedTarget γ argmax (t · ω) (α · ω) (Z · ω) n ∧
        G n ω j.1 j.2 (t n ω).next - weightedTarget γ argmax (t · ω) (α · ω) (Z · ω) n ≤ ψ (Z n ω) by
      refine ⟨mul_nonneg r0 hs.1, ?_⟩
      have e1 := mul_le_mul_of_nonneg_left hs.2 r0
      have e2 := mul_le_mul_of_nonneg_left (hψE n) r0
      linarith
    have e : G n ω j.1 j.2 (t n ω).next - weightedTarget γ argmax (t · ω) (α · ω) (Z · ω) n =
        γ * (if (t n ω).absorbing then 0 else rowMax (x n ω (t n ω).next) -
          weightedNextQ argmax (List.ofFn (Z n ω)) (weightedAfter γ argmax (t · ω) (α · ω) (Z · ω) n) (t n ω).next) := by
      simp only [hG, weightedTarget, not_ite]
      rw [ht.reward, ht.absorbing, hv.1, hv.2]
      split <;> ring
    rw [e]
    have hgap := weightedNextQ_gap (c := c) hN hmax (Z n ω) (weightedAfter γ argmax (t · ω) (α · ω) (Z · ω) n) (t n ω).next
      (fun a => hbound n ω (t n ω).next a)
    cases hab : (t n ω).absorbing with
    | true => simpa using (hψK (Z n ω)).1
    | false =>
      have hlive : L (t n ω).next := hcl _ _ _ (ht.live n ω) (hpos n) (by rw [← ht.absorbing]; exact hab)
      simp only [Bool.false_eq_true, if_false]
      exact ⟨mul_nonneg hγ0 hgap.2.1, mul_le_mul_of_nonneg_left (hgap.2.2 (fun a => hn _ hlive a) hc0) hγ0⟩
  · refine (abs_sub _ _).trans ?_
    have h3 := Finset.single_le_sum (f := fun j : S × A => |Qs j.1 j.2|) (fun j _ => abs_nonneg _) (Finset.mem_univ j)
    linarith [hbound n ω j.1 j.2]

/-- C159. If no action is worse than the best ones by a positive amount within twice this distance, the greedy actions of the table are
optimal from some update on. -/
theorem C159_greedy_partial (m : RandomMDP S A) (hm : m.Proper) (L : S → Prop) (hcl : m.Closed L) (γ : ℝ) (hγ0 : 0 ≤ γ) (hγ1 : γ < 1)
    (Qs : Table S A) (hQs : m.OptimalOn L γ Qs) (t : ℕ → Ω → Trans S A) (ht : Experience μ ℱ m L t) (α : ℕ → Ω → ℝ)
    (hα : RobbinsMonro μ ℱ L t α) (argmax : (A → ℝ) → A) (hmax : ∀ q, Maximises q (argmax q)) (hmeas : ∀ a, MeasurableSet {q | argmax q = a})
    (N : ℕ) (hN : 0 < N) (Z : ℕ → Ω → Fin N → A → ℝ) (hZ : NormalDraws μ ℱ Z)
    (hgap : ∀ s, L s → ∀ a b, Maximises (Qs s) a → ¬ Maximises (Qs s) b →
      Qs s b + 2 * (2 * γ * Fintype.card A / 10 ^ 5 / (1 - γ)) < Qs s a) :
    ∀ᵐ ω ∂μ, ∀ᶠ n in atTop, ∀ s, L s → ∀ a,
      Maximises ((weightedAfter γ argmax (t · ω) (α · ω) (Z · ω) n).Q s) a → Maximises (Qs s) a := by
  filter_upwards [C159_near_partial m hm L hcl γ hγ0 hγ1 Qs hQs t ht α hα argmax hmax hmeas N hN Z hZ] with ω hω
  set c := 2 * γ * Fintype.card A / 10 ^ 5 / (1 - γ) with hc
  rw [eventually_all]; intro s
  by_cases hs : L s
  swap
  · exact Eventually.of_forall fun n h => absurd h hs
  suffices h : ∀ᶠ n in atTop, ∀ b, Maximises ((weightedAfter γ argmax (t · ω) (α · ω) (Z · ω) n).Q s) b → Maximises (Qs s) b from
    h.mono fun n h _ => h
  rw [eventually_all]; intro b
  by_cases hb : Maximises (Qs s) b
  · exact Eventually.of_forall fun n _ => hb
  have ha := hmax (Qs s)
  have hlt := hgap s hs _ b ha hb
  filter_upwards [hω ((Qs s (argmax (Qs s)) - Qs s b - 2 * c) / 4) (by linarith)] with n hn hbm
  have h1 := (abs_le.1 (hn s hs b)).2
  have h2 := (abs_le.1 (hn s hs (argmax (Qs s)))).1
  have h3 := hbm (argmax (Qs s))
  linarith

/-! ### The table does not converge to the optimal values -/

/-- A problem with one state; the first action is rewarded. -/
def loopMDP : RandomMDP Unit Bool := { prob := fun _ _ _ => 1, reward := fun _ a _ => if a then 1 else 0, absorbing := fun _ _ _ => false }

def loopQ : Table Unit Bool := fun _ a => if a then 2 else 1

theorem loop_proper : loopMDP.Proper := ⟨fun _ _ _ => by norm_num [loopMDP], fun _ _ => by simp [loopMDP]⟩

theorem loop_closed : loopMDP.Closed (fun _ => True) := fun _ _ _ _ _ _ => trivial

theorem loop_optimal : loopMDP.OptimalOn (fun _ => True) (1 / 2) loopQ := by
  refine ⟨fun _ => 2, fun s _ => ⟨⟨fun a => by cases a <;> norm_num [loopQ], true, by simp [loopQ]⟩, fun a => ?_⟩⟩
  cases a <;> norm_num [loopQ, loopMDP]

/-- The first sample makes the second action look better than it is. -/
def misleading (N : ℕ) (hN : 0 < N) : Set (Fin N → Bool → ℝ) := {z | 2 * 10 ^ 5 < z ⟨0, hN⟩ false ∧ z ⟨0, hN⟩ true < 0}

theorem misleading_measurable (N : ℕ) (hN : 0 < N) : MeasurableSet (misleading N hN) := by
  have h : ∀ a, Measurable fun z : Fin N → Bool → ℝ => z ⟨0, hN⟩ a := fun a => (measurable_pi_apply a).comp (measurable_pi_apply _)
  exact (measurableSet_lt measurable_const (h false)).inter (measurableSet_lt (h true) measurable_const)

theorem misleading_pos (N : ℕ) (hN : 0 < N) :
    0 < (Measure.pi fun _ : Fin N => Measure.pi fun _ : Bool => gaussianReal 0 1).real (misleading N hN) := by
  have e : misleading N hN = (fun z : Fin N → Bool → ℝ => z ⟨0, hN⟩) ⁻¹' {v | 2 * 10 ^ 5 < v false ∧ v true < 0} := rfl
  have hms : MeasurableSet {v : Bool → ℝ | 2 * 10 ^ 5 < v false ∧ v true < 0} :=
    (measurableSet_lt measurable_const (measurable_pi_apply _)).inter (measurableSet_lt (measurable_pi_apply _) measurable_const)
  rw [Measure.real, e, (measurePreserving_eval (fun _ : Fin N => Measure.pi fun _ : Bool => gaussianReal 0 1) ⟨0, hN⟩).measure_preimage
    hms.nullMeasurableSet]
  have e2 : {v : Bool → ℝ | 2 * 10 ^ 5 < v false ∧ v true < 0} = Set.univ.pi (fun b => if b then Set.Iio (0 : ℝ) else Set.Ioi (2 * 10 ^ 5)) := by
    ext v
    simp [Set.mem_pi, and_comm]
  rw [e2, Measure.pi_pi]
  have hopen : ∀ U : Set ℝ, IsOpen U → U.Nonempty → gaussianReal 0 1 U ≠ 0 := by
    intro U hU hne
    intro h0
    exact (hU.measure_pos volume hne).ne' (gaussianReal_absolutelyContinuous' 0 one_ne_zero h0)
  refine ENNReal.toReal_pos ?_ (by simp [ENNReal.mul_eq_top, measure_ne_top])
  rw [Fintype.prod_bool]
  refine mul_ne_zero ?_ ?_
  · simpa using hopen _ isOpen_Iio Set.nonempty_Iio
  · simpa using hopen _ isOpen_Ioi Set.nonempty_Ioi

/-- C159. Exact convergence is false: in the problem with one state and two actions, whatever the exploration, the learning rates and the number of
samples are, the table converges to the optimal values with probability zero. -/
theorem C159_exact_refuted : loopMDP.Proper ∧ loopMDP.Closed (fun _ => True) ∧ loopMDP.OptimalOn (fun _ => True) (1 / 2) loopQ ∧
    ∀ (Ω : Type) (mΩ : MeasurableSpace Ω) (μ : Measure Ω) (_ : IsProbabilityMeasure μ) (ℱ : Filtration ℕ mΩ) (t : ℕ → Ω → Trans Unit Bool),
      Experience μ ℱ loopMDP (fun _ => True) t → ∀ α : ℕ → Ω → ℝ, RobbinsMonro μ ℱ (fun _ => True) t α →
      ∀ argmax : (Bool → ℝ) → Bool, (∀ q, Maximises q (argmax q)) → ∀ (N : ℕ), 0 < N →
      ∀ Z : ℕ → Ω → Fin N → Bool → ℝ, NormalDraws μ ℱ Z →
      ∀ᵐ ω ∂μ, ¬ ∀ s a, Tendsto (fun n => (weightedAfter (1 / 2) argmax (t · ω) (α · ω) (Z · ω) n).Q s a) atTop (𝓝 (loopQ s a)) := by
  refine ⟨loop_proper, loop_closed, loop_optimal, ?_⟩
  intro Ω mΩ μ _ ℱ t ht α hα argmax hmax N hN Z hZ
  have hN' : (0 : ℝ) < N := by exact_mod_cast hN
  have hN1 : (1 : ℝ) ≤ N := by exact_mod_cast hN
  set φ : (Fin N → Bool → ℝ) → ℝ := (misleading N hN).indicator fun _ => 1 with hφ
  have hφ01 : ∀ z, 0 ≤ φ z ∧ φ z ≤ 1 := fun z => by
    by_cases h : z ∈ misleading N hN <;> simp [hφ, h]
  have hφm : Measurable φ := measurable_const.indicator (misleading_measurable N hN)
  set p := (Measure.pi fun _ : Fin N => Measure.pi fun _ : Bool => gaussianReal 0 1).real (misleading N hN) with hp
  have hp0 : 0 < p := misleading_pos N hN
  have hp1 : p ≤ 1 := measureReal_le_one
  have hpE : ∀ n, ∫ ω, φ (Z n ω) ∂μ = p := by
    intro n
    rw [← integral_map (μ := μ) (φ := Z n) (((hZ.known n).mono (ℱ.le _) le_rfl).aemeasurable) hφm.aestronglyMeasurable, hZ.normal, hφ,
      integral_indicator (misleading_measurable N hN)]
    simp [hp]
  have hs := samples_sum ht.past hα hZ hφm hφ01 () true
  simp only [hpE] at hs
  filter_upwards [hs, hα.diverge, C159_sigma loopMDP (fun _ => True) (1 / 2) (by norm_num) (by norm_num) t ht α hα argmax hmax N hN Z]
    with ω ⟨l, hl⟩ hdv hσ hconv
  set g : ℕ → Weighted Unit Bool := fun n => weightedAfter (1 / 2) argmax (t · ω) (α · ω) (Z · ω) n with hg
  set β : ℕ → ℝ := fun n => ratesOf () true (t · ω) (α · ω) n with hβ
  have hβr : ∀ n, 0 ≤ β n ∧ β n ≤ 1 := fun n => rates_range (t := (t · ω)) (fun k => hα.range k ω) () true n
  set k : ℝ := 3 / 8 / N with hk
  have hk0 : 0 < k := by positivity
  have hk1 : k ≤ 3 / 8 := by rw [hk]; exact div_le_self (by norm_num) hN1
  set e : ℝ := k * p / 4 with he
  have he0 : 0 < e := by positivity
  have he1 : e ≤ 1 / 8 := by rw [he]; nlinarith
  set T : ℕ → ℝ := fun n => l - ∑ i ∈ Finset.range n, β i * (φ (Z i ω) - p) with hT
  have hT0 : Tendsto T atTop (𝓝 0) := by simpa [hT] using hl.const_sub l
  have hTs : ∀ᶠ n in atTop, |k * T n| ≤ e / 2 := by
    have := (tendsto_zero_iff_abs_tendsto_zero _).1 (by simpa using hT0.const_mul k : Tendsto (fun n => k * T n) atTop (𝓝 0))
    exact (this.eventually (gt_mem_nhds (by positivity : (0 : ℝ) < e / 2))).mono fun n h => le_of_lt h
  have hclose : ∀ a, ∀ᶠ n in atTop, |(g n).Q () a - loopQ () a| ≤ e := by
    intro a
    have := (tendsto_zero_iff_abs_tendsto_zero _).1 (by
      have := (hconv () a).sub_const (loopQ () a)
      rwa [sub_self] at this : Tendsto (fun n => (g n).Q () a - loopQ () a) atTop (𝓝 0))
    exact (this.eventually (gt_mem_nhds he0)).mono fun n h => le_of_lt h
  obtain ⟨n0, hn0⟩ := eventually_atTop.1 ((hclose true).and ((hclose false).and (hTs.and hσ)))
  have hav := average_below (a := β) (v := fun n => (g n).Q () true - k * T n) (c := 2 + e - k * p) (fun n => (hβr n).1) (fun n => (hβr n).2)
    (hdv () trivial true) n0 (fun n hn => ?_) he0
  · obtain ⟨n, hn1, hn2⟩ := (hav.and (eventually_ge_atTop n0)).exists
    obtain ⟨q1, -, q3, -⟩ := hn0 n hn2
    have q1' := (abs_le.1 q1).1
    have q3' := (abs_le.1 q3).2
    simp only [loopQ, if_true] at q1'
    have : k * p = 4 * e := by rw [he]; ring
    linarith
  · obtain ⟨q1, q2, q3, q4⟩ := hn0 n hn
    have q1' := abs_le.1 q1
    have q2' := abs_le.1 q2
    have q3' := abs_le.1 q3
    simp only [loopQ, if_true, Bool.false_eq_true, if_false] at q1' q2'
    have hTn : T (n + 1) = T n - β n * (φ (Z n ω) - p) := by simp only [hT, Finset.sum_range_succ]; ring
    have hstep : (g (n + 1)).Q () true = (g n).Q () true + β n * (weightedTarget (1 / 2) argmax (t · ω) (α · ω) (Z · ω) n - (g n).Q () true) :=
      after_Q n () true
    have htgt : β n * weightedTarget (1 / 2) argmax (t · ω) (α · ω) (Z · ω) n ≤ β n * (2 + e / 2 - k * φ (Z n ω)) := by
      by_cases hv : (t n ω).action = true
      swap
      · simp [hβ, ratesOf, hv]
      refine mul_le_mul_of_nonneg_left ?_ (hβr n).1
      have hest : weightedNextQ argmax (List.ofFn (Z n ω)) (g n) () ≤ (g n).Q () true - 2 * k * φ (Z n ω) := by
        rw [weightedNextQ_eq, div_le_iff₀ hN']
        have hall : ∀ a, (g n).Q () a ≤ (g n).Q () true := by
          intro a; cases a
          · linarith
          · exact le_rfl
        have h0 : (g n).Q () (argmax fun a => (g n).Q () a + (g n).sigma () a * Z n ω ⟨0, hN⟩ a) ≤ (g n).Q () true - 3 / 4 * φ (Z n ω) := by
          by_cases hz : Z n ω ∈ misleading N hN
          · have hφ1 : φ (Z n ω) = 1 := by simp [hφ, hz]
            rw [hφ1]
            cases harg : argmax fun a => (g n).Q () a + (g n).sigma () a * Z n ω ⟨0, hN⟩ a with
            | false => linarith
            | true =>
              have := hmax (fun a => (g n).Q () a + (g n).sigma () a * Z n ω ⟨0, hN⟩ a) false
              rw [harg] at this
              simp only [hg] at this
              rw [q4 () trivial false, q4 () trivial true] at this
              have z1 := hz.1
              have z2 := hz.2
              simp only [hg] at q1' q2'
              exfalso
              linarith
          · have hφ0 : φ (Z n ω) = 0 := by simp [hφ, hz]
            rw [hφ0]
            linarith [hall (argmax fun a => (g n).Q () a + (g n).sigma () a * Z n ω ⟨0, hN⟩ a)]
        have hsum : ∑ j : Fin N, (g n).Q () (argmax fun a => (g n).Q () a + (g n).sigma () a * Z n ω j a) ≤
            ∑ j : Fin N, ((g n).Q () true - if j = ⟨0, hN⟩ then 3 / 4 * φ (Z n ω) else 0) := by
          refine Finset.sum_le_sum fun j _ => ?_
          split
          · rename_i hj; rw [hj]; exact h0
          · linarith [hall (argmax fun a => (g n).Q () a + (g n).sigma () a * Z n ω j a)]
        refine hsum.trans (le_of_eq ?_)
        rw [Finset.sum_sub_distrib, Finset.sum_ite_eq' Finset.univ]
        simp only [Finset.sum_const, Finset.card_univ, Fintype.card_fin, nsmul_eq_mul, Finset.mem_univ, if_true, hk]
        field_simp
        ring
      have htv : weightedTarget (1 / 2) argmax (t · ω) (α · ω) (Z · ω) n = 1 + 1 / 2 * weightedNextQ argmax (List.ofFn (Z n ω)) (g n) () := by
        simp only [weightedTarget, ht.reward, ht.absorbing]
        simp [loopMDP, hv, hg]
      rw [htv]
      linarith
    rw [hstep, hTn]
    have b0 := (hβr n).1
    have m1 := mul_le_mul_of_nonneg_left q3'.2 b0
    have m2 := mul_le_mul_of_nonneg_left q3'.1 b0
    nlinarith

end

end Verif.TD
