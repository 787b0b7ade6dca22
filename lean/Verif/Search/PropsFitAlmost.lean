/-
Property C179: with more episodes than parameters the update succeeds with probability one.
-/
import Verif.Search.PropsFit
import Mathlib.Analysis.Normed.Module.FiniteDimension
import Mathlib.MeasureTheory.Constructions.Pi
import Mathlib.MeasureTheory.Measure.Lebesgue.EqHaar

namespace Verif.Search

open Matrix MeasureTheory Pgpe

variable {n : ℕ}

/-- The differences to the first point. -/
def differences {i : ℕ} (x : Fin (i + 1) → Vec n) : Fin i → Vec n := fun j => x j.succ - x 0

theorem differences_snoc {i : ℕ} (x : Fin (i + 2) → Vec n) :
    differences x = Fin.snoc (differences fun j => x j.castSucc) (x (Fin.last _) - x 0) := by
  funext j
  refine Fin.lastCases ?_ (fun j => ?_) j
  · simp [differences]
  · simp only [differences, Fin.snoc_castSucc]
    rfl

theorem null_of_section {i : ℕ} (μ : Measure (Vec n)) [IsProbabilityMeasure μ] (hμ : μ ≪ volume) (hi : i < n)
    (x : Fin (i + 1) → Vec n) : μ {y | y - x 0 ∈ Submodule.span ℝ (Set.range (differences x))} = 0 := by
  refine hμ ?_
  have hne : Submodule.span ℝ (Set.range (differences x)) ≠ ⊤ := by
    intro h
    have h1 := finrank_range_le_card (R := ℝ) (differences x)
    rw [Set.finrank, h, finrank_top] at h1
    simp at h1
    omega
  have h0 := Measure.addHaar_submodule (volume : Measure (Vec n)) _ hne
  have : {y | y - x 0 ∈ Submodule.span ℝ (Set.range (differences x))} =
      (fun y => y - x 0) ⁻¹' (Submodule.span ℝ (Set.range (differences x)) : Set (Vec n)) := rfl
  rw [this, (measurePreserving_sub_right volume (x 0)).measure_preimage_emb (MeasurableEquiv.subRight (x 0)).measurableEmbedding]
  exact h0

/-- What holds for all but one of the draws, almost surely, and for almost every value of the last one, holds almost surely. -/
theorem ae_last {i : ℕ} (μ : Measure (Vec n)) [IsProbabilityMeasure μ] (P : (Fin (i + 2) → Vec n) → Prop) (hP : MeasurableSet {x | ¬ P x})
    (h : ∀ᵐ x ∂Measure.pi fun _ : Fin (i + 1) => μ, ∀ᵐ y ∂μ, P (Fin.snoc x y)) : ∀ᵐ x ∂Measure.pi fun _ : Fin (i + 2) => μ, P x := by
  have hm := measurePreserving_piFinSuccAbove (fun _ : Fin (i + 2) => μ) (Fin.last _)
  set e := MeasurableEquiv.piFinSuccAbove (fun _ : Fin (i + 2) => Vec n) (Fin.last _) with he
  have hs : MeasurableSet (e.symm ⁻¹' {x | ¬ P x}) := e.symm.measurable hP
  have h0 : (μ.prod (Measure.pi fun _ : Fin (i + 1) => μ)) (e.symm ⁻¹' {x | ¬ P x}) = 0 := by
    rw [Measure.prod_apply_symm hs]
    refine (lintegral_congr_ae ?_).trans lintegral_zero
    filter_upwards [h] with x hx
    have : (fun y => (y, x)) ⁻¹' (e.symm ⁻¹' {x | ¬ P x}) = {y | ¬ P (Fin.snoc x y)} := by
      ext y
      simp only [Set.mem_preimage, Set.mem_ofPred_eq, not_iff_not]
      have : e.symm (y, x) = (Fin.snoc x y : Fin (i + 2) → Vec n) := by
        rw [he, MeasurableEquiv.symm_apply_eq]
        refine Prod.ext ?_ ?_
        · show y = Fin.snoc (α := fun _ => Vec n) x y (Fin.last _)
          simp
        · funext j
          show x j = Fin.snoc (α := fun _ => Vec n) x y ((Fin.last _).succAbove j)
          simp
      rw [this]
    rw [this]
    exact hx
  have h1 := hm.measure_preimage hs.nullMeasurableSet
  rw [h0] at h1
  have h2 : e ⁻¹' (e.symm ⁻¹' {x | ¬ P x}) = {x | ¬ P x} := by
    ext x
    simp
  rw [h2] at h1
  exact h1

theorem independent_differences (μ : Measure (Vec n)) [IsProbabilityMeasure μ] (hμ : μ ≪ volume) (i : ℕ) (hi : i ≤ n) :
    ∀ᵐ x ∂Measure.pi fun _ : Fin (i + 1) => μ, LinearIndependent ℝ (differences x) := by
  induction i with
  | zero => exact ae_of_all _ fun x => linearIndependent_empty_type
  | succ i ih =>
    refine ae_last μ _ ?_ ?_
    · have hc : Continuous (fun x : Fin (i + 2) → Vec n => differences x) := by
        unfold differences
        fun_prop
      exact ((isOpen_setOfPred_linearIndependent (𝕜 := ℝ) (E := Vec n) (ι := Fin (i + 1))).preimage hc).measurableSet.compl
    · filter_upwards [ih (by omega)] with x hx
      have h0 := null_of_section μ hμ (by omega) x
      have h1 : ∀ᵐ y ∂μ, ¬ (y - x 0 ∈ Submodule.span ℝ (Set.range (differences x))) := by
        rw [ae_iff]
        simpa using h0
      filter_upwards [h1] with y hy
      have e1 : differences (Fin.snoc x y : Fin (i + 2) → Vec n) = Fin.snoc (differences x) (y - x 0) := by
        rw [differences_snoc]
        have a : (fun j : Fin (i + 1) => (Fin.snoc x y : Fin (i + 2) → Vec n) j.castSucc) = x := by
          funext j; simp
        have b : (Fin.snoc x y : Fin (i + 2) → Vec n) 0 = x 0 := by
          have := Fin.snoc_castSucc (α := fun _ => Vec n) y x (0 : Fin (i + 1))
          simpa using this
        rw [a, b]
        simp
      rw [e1, linearIndependent_finSnoc]
      exact ⟨hx, hy⟩

theorem not_inHyperplane (x : Fin (n + 1) → Vec n) (h : LinearIndependent ℝ (differences x)) : ¬ InHyperplane (List.ofFn x) := by
  rintro ⟨y, hy, hs⟩
  have hspan : Submodule.span ℝ (Set.range (differences x)) = ⊤ := h.span_eq_top_of_card_eq_finrank' (by simp)
  have h0 : ∀ v : Vec n, y ⬝ᵥ v = 0 := by
    intro v
    have hv : v ∈ Submodule.span ℝ (Set.range (differences x)) := by rw [hspan]; trivial
    induction hv using Submodule.span_induction with
    | mem v hv =>
      obtain ⟨j, rfl⟩ := hv
      have := hs (x j.succ) (by simp) (x 0) (by simp)
      rw [differences, dotProduct_sub, sub_eq_zero]
      exact this
    | zero => simp
    | add a b _ _ ha hb => rw [dotProduct_add, ha, hb, add_zero]
    | smul c a _ ha => rw [dotProduct_smul, ha, smul_zero]
  exact hy (dotProduct_self_eq_zero.1 (h0 y))

/-- More independent draws than dimensions do not lie in a hyperplane, almost surely. -/
theorem ae_not_inHyperplane (μ : Measure (Vec n)) [IsProbabilityMeasure μ] (hμ : μ ≪ volume) (k : ℕ) (hk : n ≤ k) :
    ∀ᵐ x ∂Measure.pi fun _ : Fin (k + 1) => μ, ¬ InHyperplane (List.ofFn x) := by
  induction k, hk using Nat.le_induction with
  | base =>
    filter_upwards [independent_differences μ hμ n le_rfl] with x hx
    exact not_inHyperplane x hx
  | succ k _ ih =>
    have hm := measurePreserving_piFinSuccAbove (fun _ : Fin (k + 2) => μ) (Fin.last _)
    have h1 := hm.quasiMeasurePreserving.ae (Measure.quasiMeasurePreserving_snd.ae ih)
    filter_upwards [h1] with x hx
    rintro ⟨y, hy, hs⟩
    refine hx ⟨y, hy, fun a ha b hb => ?_⟩
    obtain ⟨i, rfl⟩ := (List.mem_ofFn' _ _).1 ha
    obtain ⟨j, rfl⟩ := (List.mem_ofFn' _ _).1 hb
    exact hs _ ((List.mem_ofFn' _ _).2 ⟨_, rfl⟩) _ ((List.mem_ofFn' _ _).2 ⟨_, rfl⟩)

theorem normalLaw_absolutelyContinuous (m : Vec n) (s : Matrix (Fin n) (Fin n) ℝ) : normalLaw m s ≪ volume :=
  withDensity_absolutelyContinuous _ _

/-- C179 (enough episodes). If there are more episodes than parameters, and the parameters of the episodes are independent draws from the distribution,
then the updates of RWR and REPS succeed with probability one, for all returns; with as many episodes as parameters, or fewer, they always raise. -/
theorem C179_enough (cholesky : Matrix (Fin n) (Fin n) ℝ → Option (Matrix (Fin n) (Fin n) ℝ)) (hc : IsCholesky cholesky)
    (hd : ∀ M, M.PosDef → (cholesky M).isSome) (hn : 0 < n) (g : Chol n) (hs : g.sigma.PosDef) (k : ℕ) (hk : 0 < k) (beta eta : ℝ) :
    (n < k → ∀ᵐ theta ∂Measure.pi fun _ : Fin k => normalLaw g.mu g.sigma, ∀ J : List ℝ, J.length = k →
      (rwrFit cholesky g beta J (List.ofFn theta)).1 = .ok () ∧ (repsFit cholesky g eta J (List.ofFn theta)).1 = .ok ()) ∧
    (k ≤ n → ∀ (theta : Fin k → Vec n) (J : List ℝ), J.length = k →
      (rwrFit cholesky g beta J (List.ofFn theta)).1 = .error .linAlg ∧ (repsFit cholesky g eta J (List.ofFn theta)).1 = .error .linAlg) := by
  constructor
  · intro hlt
    have := normalLaw_prob g.mu g.sigma hs
    obtain ⟨k, rfl⟩ : ∃ i, k = i + 1 := ⟨k - 1, by omega⟩
    filter_upwards [ae_not_inHyperplane _ (normalLaw_absolutelyContinuous g.mu g.sigma) k (by omega)] with theta ht J hJ
    obtain ⟨h1, h2, -⟩ := C179_updates cholesky hc hd hn g J (List.ofFn theta) (by simp [hJ])
      (by intro h; simp [h] at hJ) beta eta
    have ok : ∀ r : Except FitErr Unit, r ≠ .error .linAlg → r = .ok () := by
      intro r hr
      match r with
      | .ok () => rfl
      | .error .linAlg => exact absurd rfl hr
    exact ⟨ok _ fun h => ht (h1.1 h), ok _ fun h => ht (h2.1 h)⟩
  · intro hle theta J hJ
    exact (C179_updates cholesky hc hd hn g J (List.ofFn theta) (by simp [hJ]) (by intro h; simp [h] at hJ; omega) beta eta).2.2
      (by simpa using hle)

/-- Two correlated parameters. -/
example : ∃ (cholesky : Matrix (Fin 2) (Fin 2) ℝ → Option (Matrix (Fin 2) (Fin 2) ℝ)) (g : Chol 2), IsCholesky cholesky ∧
    (∀ M, M.PosDef → (cholesky M).isSome) ∧ g.chol = !![1, 0; 2, 3] ∧ g.sigma.PosDef := by
  obtain ⟨cholesky, h1, h2⟩ := cholesky_exists (n := 2)
  exact ⟨cholesky, ⟨![1, -1], !![1, 0; 2, 3]⟩, h1, h2, rfl, posDef_chol _ (by simp [det_fin_two])⟩

end Verif.Search
