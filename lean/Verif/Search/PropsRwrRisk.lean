/-
Property C178: episodes with random returns; RWR may lower the expected return.
-/
import Verif.Search.PropsRwr
import Mathlib.MeasureTheory.Integral.Prod

namespace Verif.Search.Pgpe

open Matrix MeasureTheory ProbabilityTheory Filter Topology

variable {n : ℕ}

/-- Episodes whose return depends on the parameters and on an independent random number. -/
theorem rounds_random (m : Vec n) (s : Matrix (Fin n) (Fin n) ℝ) (κ : Measure ℝ) [IsProbabilityMeasure κ]
    (G : Vec n × ℝ → ℝ) (hG : Measurable G) (C : ℝ) (hC : ∀ p, |G p| ≤ C) [IsProbabilityMeasure (normalLaw m s)] :
    Rounds (Measure.infinitePi (fun _ : ℕ => (normalLaw m s).prod κ)) m s (fun x => ∫ y, G (x, y) ∂κ) C (fun i ω => (ω i).1)
      (fun i ω => G (ω i)) := by
  have hmap := fun i => Measure.infinitePi_map_eval (fun _ : ℕ => (normalLaw m s).prod κ) i
  have hme : ∀ i, Measurable (fun ω : ℕ → Vec n × ℝ => ω i) := fun i => measurable_pi_apply i
  have hpair : Measurable (fun p : Vec n × ℝ => (p.1, G p)) := measurable_fst.prodMk hG
  have hf : Measurable (fun x => ∫ y, G (x, y) ∂κ) := (hG.stronglyMeasurable.integral_prod_right').measurable
  have hfC : ∀ x, |∫ y, G (x, y) ∂κ| ≤ C := by
    intro x
    have := norm_integral_le_of_norm_le_const (μ := κ) (f := fun y => G (x, y)) (C := C) (ae_of_all _ fun y => by simpa using hC _)
    simpa using this
  refine ⟨fun i => measurable_fst.comp (hme i), fun i => hG.comp (hme i), fun i => ?_, fun i => ?_, ?_, fun i ω => hC _, hf, hfC, ?_⟩
  · have : (fun ω : ℕ → Vec n × ℝ => (ω i).1) = Prod.fst ∘ (fun ω : ℕ → Vec n × ℝ => ω i) := rfl
    rw [this, ← Measure.map_map measurable_fst (hme i), hmap i, Measure.map_fst_prod]
    simp
  · have h0 : IdentDistrib (fun ω : ℕ → Vec n × ℝ => ω i) (fun ω => ω 0) (Measure.infinitePi fun _ => (normalLaw m s).prod κ)
        (Measure.infinitePi fun _ => (normalLaw m s).prod κ) :=
      ⟨(hme i).aemeasurable, (hme 0).aemeasurable, (hmap i).trans (hmap 0).symm⟩
    exact h0.comp hpair
  · intro i j hij
    have := (iIndepFun_infinitePi (P := fun _ : ℕ => (normalLaw m s).prod κ) (X := fun _ x => x) (fun _ => measurable_id)).indepFun hij
    exact this.comp hpair hpair
  · have hm0 : Measurable (fun ω : ℕ → Vec n × ℝ => (ω 0).1) := measurable_fst.comp (hme 0)
    have hle := hm0.comap_le
    have iG : Integrable (fun ω : ℕ → Vec n × ℝ => G (ω 0)) (Measure.infinitePi fun _ => (normalLaw m s).prod κ) :=
      Integrable.of_bound (hG.comp (hme 0)).aestronglyMeasurable C (ae_of_all _ fun ω => by simpa using hC _)
    have iF : Integrable (fun ω : ℕ → Vec n × ℝ => ∫ y, G ((ω 0).1, y) ∂κ) (Measure.infinitePi fun _ => (normalLaw m s).prod κ) :=
      Integrable.of_bound (hf.comp hm0).aestronglyMeasurable C (ae_of_all _ fun ω => by simpa using hfC _)
    refine (ae_eq_condExp_of_forall_setIntegral_eq hle iG (fun A _ _ => iF.integrableOn) ?_ ?_).symm
    · rintro A ⟨B, hB, rfl⟩ _
      have hpre : (fun ω : ℕ → Vec n × ℝ => (ω 0).1) ⁻¹' B = (fun ω : ℕ → Vec n × ℝ => ω 0) ⁻¹' (B ×ˢ Set.univ) := by
        ext ω; simp
      have hBu : MeasurableSet (B ×ˢ (Set.univ : Set ℝ)) := hB.prod MeasurableSet.univ
      have e : ∀ H : Vec n × ℝ → ℝ, Measurable H → ∫ ω in (fun ω : ℕ → Vec n × ℝ => ω 0) ⁻¹' (B ×ˢ Set.univ), H (ω 0)
          ∂(Measure.infinitePi fun _ => (normalLaw m s).prod κ) = ∫ p in B ×ˢ Set.univ, H p ∂((normalLaw m s).prod κ) := by
        intro H hH
        have := setIntegral_map (μ := Measure.infinitePi fun _ : ℕ => (normalLaw m s).prod κ) (f := H) hBu hH.aestronglyMeasurable
          (hme 0).aemeasurable
        rw [hmap 0] at this
        exact this.symm
      have iGp : Integrable G ((normalLaw m s).prod κ) := Integrable.of_bound hG.aestronglyMeasurable C (ae_of_all _ fun p => by simpa using hC _)
      have iFp : Integrable (fun p : Vec n × ℝ => ∫ y, G (p.1, y) ∂κ) ((normalLaw m s).prod κ) :=
        Integrable.of_bound (hf.comp measurable_fst).aestronglyMeasurable C (ae_of_all _ fun p => by simpa using hfC _)
      rw [hpre, e G hG, e (fun p => ∫ y, G (p.1, y) ∂κ) (hf.comp measurable_fst), setIntegral_prod _ iGp.integrableOn,
        setIntegral_prod _ iFp.integrableOn]
      simp
    · exact (hf.comp (comap_measurable _)).stronglyMeasurable.aestronglyMeasurable

/-- A fair coin. -/
noncomputable def coin : Measure ℝ := (1 / 2 : ENNReal) • Measure.dirac 1 + (1 / 2 : ENNReal) • Measure.dirac (-1)

instance : IsProbabilityMeasure coin := ⟨by simp [coin, ENNReal.inv_two_add_inv_two]⟩

theorem integral_coin (F : ℝ → ℝ) : ∫ y, F y ∂coin = (F 1 + F (-1)) / 2 := by
  unfold coin
  rw [integral_add_measure, integral_smul_measure, integral_smul_measure, integral_dirac, integral_dirac]
  · simp; ring
  · exact (integrable_dirac (by simp)).smul_measure (by simp)
  · exact (integrable_dirac (by simp)).smul_measure (by simp)

open scoped Classical in
/-- With a positive parameter the return is 2 or -3, with equal probability, otherwise it is 0. -/
noncomputable def gamble (p : Vec 1 × ℝ) : ℝ := if 0 < p.1 0 then (if 0 < p.2 then 2 else -3) else 0

open scoped Classical in
/-- Whether the parameter is positive. -/
noncomputable def plays (x : Vec 1) : ℝ := if 0 < x 0 then 1 else 0

theorem measurable_gamble : Measurable gamble := by
  unfold gamble
  refine Measurable.ite (measurableSet_lt measurable_const (by fun_prop)) (Measurable.ite (measurableSet_lt measurable_const (by fun_prop))
    measurable_const measurable_const) measurable_const

theorem measurable_plays : Measurable plays := by
  unfold plays
  exact Measurable.ite (measurableSet_lt measurable_const (by fun_prop)) measurable_const measurable_const

theorem gamble_bound (p : Vec 1 × ℝ) : |gamble p| ≤ 3 := by
  unfold gamble
  split_ifs <;> norm_num [abs_le]

theorem gamble_mean (x : Vec 1) : ∫ y, gamble (x, y) ∂coin = -1 / 2 * plays x := by
  rw [integral_coin]
  unfold gamble plays
  by_cases h : 0 < x 0 <;> simp [h] <;> norm_num

theorem gamble_exp (x : Vec 1) :
    ∫ y, Real.exp (1 * gamble (x, y)) ∂coin = 1 + ((Real.exp 2 + Real.exp (-3)) / 2 - 1) * plays x := by
  rw [integral_coin]
  unfold gamble plays
  by_cases h : 0 < x 0
  · simp [h]
  · simp [h]

theorem integrable_plays (m : Vec 1) [IsProbabilityMeasure (normalLaw m 1)] : Integrable plays (normalLaw m 1) :=
  Integrable.of_bound measurable_plays.aestronglyMeasurable 1 (ae_of_all _ fun x => by unfold plays; split_ifs <;> simp)

/-- C178 (expected return). RWR does not care for the expected return itself: there are episodes, with bounded returns, for which the
mean of the Gaussian converges to a limit with a lower expected return than before the update. -/
theorem C178_return : ∃ (Ω : Type) (_ : MeasurableSpace Ω) (Pr : Measure Ω) (_ : IsProbabilityMeasure Pr) (θ : ℕ → Ω → Vec 1)
    (J : ℕ → Ω → ℝ) (f r : Vec 1 → ℝ) (C : ℝ) (g : Gauss 1) (mu' : Vec 1),
    Gauss.new 0 1 = some g ∧ Rounds Pr 0 1 r 3 θ J ∧ Utilities Pr 0 1 1 f C θ J ∧
    (∀ᵐ ω ∂Pr, ∃ new : ℕ → Gauss 1,
      (∀ k, 0 < k → rwrUpdate g 1 ((List.range k).map fun i => J i ω) ((List.range k).map fun i => θ i ω) = some (new k)) ∧
      (∀ k, (new k).sigma = 1) ∧ ∀ j, Tendsto (fun k => (new k).mu j) atTop (𝓝 (mu' j))) ∧
    performance mu' 1 r < performance 0 1 r := by
  have hp : (1 : Matrix (Fin 1) (Fin 1) ℝ).PosDef := Matrix.PosDef.one
  have pr : ∀ m : Vec 1, IsProbabilityMeasure (normalLaw m 1) := fun m => normalLaw_prob m 1 hp
  obtain ⟨g, hg⟩ : ∃ g, Gauss.new (0 : Vec 1) 1 = some g := by
    unfold Gauss.new
    simp
  have h1 := rounds_random (0 : Vec 1) 1 coin gamble measurable_gamble 3 gamble_bound
  have h2 := rounds_random (0 : Vec 1) 1 coin (fun p => Real.exp (1 * gamble p)) (by have := measurable_gamble; fun_prop) (Real.exp 3)
    (fun p => by
      rw [abs_of_pos (Real.exp_pos _)]
      exact Real.exp_le_exp.2 (by have := (abs_le.1 (gamble_bound p)).2; linarith))
  set c := (Real.exp 2 + Real.exp (-3)) / 2 - 1 with hc
  have hc0 : 0 < c := by
    have a := Real.add_one_le_exp (2 : ℝ)
    have b := Real.exp_pos (-3)
    rw [hc]; linarith
  have e1 : (fun x => ∫ y, gamble (x, y) ∂coin) = fun x => -1 / 2 * plays x := funext gamble_mean
  have e2 : (fun x : Vec 1 => ∫ y, Real.exp (1 * gamble (x, y)) ∂coin) = fun x => 1 + c * plays x := funext gamble_exp
  rw [e1] at h1
  rw [e2] at h2
  have pf : ∀ m : Vec 1, performance m 1 (fun x => 1 + c * plays x) = 1 + c * performance m 1 plays := by
    intro m
    have := pr m
    unfold performance
    rw [integral_add (integrable_const _) ((integrable_plays m).const_mul c), integral_const_mul]
    simp
  have pt : ∀ m : Vec 1, performance m 1 (fun x => -1 / 2 * plays x) = -1 / 2 * performance m 1 plays := by
    intro m
    unfold performance
    rw [integral_const_mul]
  set θ : ℕ → (ℕ → Vec 1 × ℝ) → Vec 1 := fun i ω => (ω i).1 with hθ
  set J : ℕ → (ℕ → Vec 1 × ℝ) → ℝ := fun i ω => gamble (ω i) with hJ
  set Pr := Measure.infinitePi (fun _ : ℕ => (normalLaw (0 : Vec 1) 1).prod coin) with hPr
  have main := gauss_limit (Pr := Pr) (θ := θ) (J := J) (beta := 1) 0 1 hp g hg h2 _ rfl
  set mu' := tiltedMean Pr θ (fun i ω => Real.exp (1 * J i ω)) with hmu
  have hne : mu' ≠ 0 := by
    intro h0
    have hi := h2.integral_mul (fun x => x 0) (by fun_prop) (hasExpect_coord hp 0)
    have hz : ∫ ω, θ 0 ω 0 * Real.exp (1 * J 0 ω) ∂Pr = 0 := by
      have a := congrFun h0 0
      have b := h2.total_pos (fun ω => Real.exp_pos _)
      rw [hmu] at a
      unfold tiltedMean at a
      rcases div_eq_zero_iff.1 a with a | a
      · exact a
      · exact absurd a b.ne'
    have hz' : mean (0 : Vec 1) 1 (fun x => x 0 * (1 + c * plays x)) = 0 := hi.2.2.2.symm.trans hz
    have hx : mean (0 : Vec 1) 1 (fun x => x 0) = 0 := by
      simpa using (normal_mean (0 : Vec 1) 1 hp 0).2
    have hpos : 0 < mean (0 : Vec 1) 1 (fun x => x 0 * plays x) := by
      have hvp : Integrable (fun x : Vec 1 => Real.exp (logPdf x 0 1) * (x 0 * plays x)) := by
        have := (hasExpect_coord (m := (0 : Vec 1)) hp 0).mul_bdd (c := 1) measurable_plays.aestronglyMeasurable
          (ae_of_all _ fun x => by unfold plays; split_ifs <;> simp)
        simpa only [mul_assoc] using this
      refine (integral_pos_iff_support_of_nonneg (fun x => ?_) hvp).2 ?_
      · refine mul_nonneg (Real.exp_pos _).le ?_
        unfold plays
        split_ifs with h
        · simpa using h.le
        · simp
      · have hsup : {x : Vec 1 | 0 < x 0} ⊆ Function.support (fun x : Vec 1 => Real.exp (logPdf x 0 1) * (x 0 * plays x)) := by
          intro x hx
          have hx : 0 < x 0 := hx
          simp [plays, hx, hx.ne']
        refine lt_of_lt_of_le ?_ (measure_mono hsup)
        exact (isOpen_lt continuous_const (continuous_apply 0)).measure_pos volume ⟨fun _ => 1, by simp⟩
    have hxi : Integrable (fun x : Vec 1 => x 0) (normalLaw 0 1) := integrable_normalLaw _ _ _ (hasExpect_coord hp 0)
    have hxp : Integrable (fun x : Vec 1 => x 0 * plays x) (normalLaw 0 1) :=
      hxi.mul_bdd (c := 1) measurable_plays.aestronglyMeasurable (ae_of_all _ fun x => by unfold plays; split_ifs <;> simp)
    rw [← integral_normalLaw] at hz' hx hpos
    have he : (fun x : Vec 1 => x 0 * (1 + c * plays x)) = fun x => x 0 + c * (x 0 * plays x) := by funext x; ring
    rw [he, integral_add hxi (hxp.const_mul c), integral_const_mul, hx] at hz'
    have := mul_pos hc0 hpos
    linarith
  refine ⟨_, _, Pr, inferInstance, θ, J, _, _, _, g, mu', hg, h1, h2, main.1, ?_⟩
  have := main.2.2 hne
  rw [pf, pf] at this
  rw [pt, pt]
  have := lt_of_mul_lt_mul_left (lt_of_add_lt_add_left this) hc0.le
  linarith

end Verif.Search.Pgpe
