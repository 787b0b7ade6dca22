/-
Random sequences of elements of a finite set whose next element has probabilities that depend on all the earlier ones (theorem of Ionescu-Tulcea).
-/
import Mathlib.Probability.Kernel.IonescuTulcea.Traj
import Mathlib.Probability.ProbabilityMassFunction.Integrals
import Verif.TD.Spec

namespace Verif.TD

open Filter MeasureTheory ProbabilityTheory Finset Preorder Filtration

noncomputable section

/-- The function depends on the first elements of a sequence, up to the `b`-th. -/
def DependsOn {Y β : Type} (b : ℕ) (f : (ℕ → Y) → β) : Prop := ∀ ω ω' : ℕ → Y, (∀ i, i ≤ b → ω i = ω' i) → f ω = f ω'

/-- A finite set in which everything is measurable. -/
structure Draw (Y : Type) where
  val : Y
deriving DecidableEq

instance (Y : Type) : MeasurableSpace (Draw Y) := ⊤

instance (Y : Type) : DiscreteMeasurableSpace (Draw Y) := ⟨fun _ => trivial⟩

def Draw.equiv (Y : Type) : Draw Y ≃ Y := ⟨Draw.val, Draw.mk, fun _ => rfl, fun _ => rfl⟩

instance (Y : Type) [Fintype Y] : Fintype (Draw Y) := Fintype.ofEquiv Y (Draw.equiv Y).symm

variable {Y : Type} [Fintype Y]

/-- A sequence that begins with the given elements. -/
def extend (y0 : Draw Y) (b : ℕ) (x : ∀ _ : Iic b, Draw Y) : ℕ → Draw Y := fun i => if h : i ∈ Iic b then x ⟨i, h⟩ else y0

omit [Fintype Y] in
theorem extend_agrees (y0 : Draw Y) (b : ℕ) (ω : ℕ → Draw Y) (i : ℕ) (hi : i ≤ b) : extend y0 b (frestrictLe (π := fun _ => Draw Y) b ω) i = ω i := by
  unfold extend
  rw [dif_pos (by simpa using hi)]
  rfl

omit [Fintype Y] in
theorem dependsOn_measurable [Fintype Y] (y0 : Draw Y) {β : Type} [MeasurableSpace β] {b : ℕ} {f : (ℕ → Draw Y) → β} (hf : DependsOn b f) :
    Measurable[piLE (X := fun _ : ℕ => Draw Y) b] f := by
  have e : f = (fun x => f (extend y0 b x)) ∘ frestrictLe (π := fun _ => Draw Y) b := by
    funext ω
    exact (hf _ _ fun i hi => extend_agrees y0 b ω i hi).symm
  rw [e]
  have h1 : Measurable (fun x : (∀ _ : Iic b, Draw Y) => f (extend y0 b x)) := Measurable.of_discrete
  have h2 : Measurable[piLE (X := fun _ : ℕ => Draw Y) b] (frestrictLe (π := fun _ => Draw Y) b) := by
    rw [piLE_eq_comap_frestrictLe]
    exact comap_measurable _
  exact h1.comp h2

/-- Each further element of a sequence is drawn with weights that may depend on all the earlier ones. -/
theorem random_sequence (y0 : Draw Y) (wt : ℕ → (ℕ → Draw Y) → Draw Y → ℝ) (hp : ∀ b ω, Prob (wt b ω)) (hdep : ∀ b, DependsOn b (wt b)) :
    ∃ μ : Measure (ℕ → Draw Y), IsProbabilityMeasure μ ∧ ∀ b (F : (ℕ → Draw Y) → Draw Y → ℝ), DependsOn b F →
      μ[fun ω => F ω (ω (b + 1)) | piLE (X := fun _ : ℕ => Draw Y) b] =ᵐ[μ] fun ω => ∑ y, wt b ω y * F ω y := by
  classical
  let p : ∀ b, (∀ _ : Iic b, Draw Y) → PMF (Draw Y) := fun b x => PMF.ofFintype (fun y => ENNReal.ofReal (wt b (extend y0 b x) y)) (by
    rw [← ENNReal.ofReal_sum_of_nonneg (fun y _ => (hp _ _).1 y), (hp _ _).2, ENNReal.ofReal_one])
  let κ : ∀ b : ℕ, Kernel (∀ _ : Iic b, Draw Y) (Draw Y) := fun b => ⟨fun x => (p b x).toMeasure, Measurable.of_discrete⟩
  haveI : ∀ b, IsMarkovKernel (κ b) := fun b => ⟨fun x => by
    show IsProbabilityMeasure (p b x).toMeasure
    infer_instance⟩
  let μ := Kernel.traj (X := fun _ => Draw Y) κ 0 (fun _ => y0)
  refine ⟨μ, inferInstance, fun b F hF => ?_⟩
  have hdepF : DependsOn (b + 1) (fun ω => F ω (ω (b + 1))) := fun ω ω' h => by
    simp only [hF ω ω' (fun i hi => h i (by omega)), h (b + 1) le_rfl]
  have hm : Measurable (fun ω : ℕ → Draw Y => F ω (ω (b + 1))) := Measurable.mono (dependsOn_measurable y0 hdepF) (piLE.le _) le_rfl
  have hi : ∀ ν : Measure (ℕ → Draw Y), IsProbabilityMeasure ν → Integrable (fun ω : ℕ → Draw Y => F ω (ω (b + 1))) ν := fun ν _ => by
    have e : (fun ω : ℕ → Draw Y => F ω (ω (b + 1))) =
        (fun x => F (extend y0 (b + 1) x) (extend y0 (b + 1) x (b + 1))) ∘ frestrictLe (π := fun _ => Draw Y) (b + 1) := by
      funext ω
      exact (hdepF _ _ fun i hi => extend_agrees y0 (b + 1) ω i hi).symm
    rw [e]
    haveI := Measure.isProbabilityMeasure_map (μ := ν) (measurable_frestrictLe (X := fun _ => Draw Y) (b + 1)).aemeasurable
    exact (Integrable.of_finite (μ := ν.map (frestrictLe (π := fun _ => Draw Y) (b + 1)))).comp_measurable (measurable_frestrictLe _)
  filter_upwards [Kernel.condExp_traj (X := fun _ => Draw Y) (κ := κ) (Nat.zero_le b) (x₀ := fun _ => y0) (hi μ inferInstance)] with ω h
  rw [h, Kernel.integral_traj _ hm.aestronglyMeasurable]
  have e1 : ∀ y : ℕ → Draw Y, F (Function.updateFinset y (Iic b) (frestrictLe (π := fun _ => Draw Y) b ω))
      (Function.updateFinset y (Iic b) (frestrictLe (π := fun _ => Draw Y) b ω) (b + 1)) = F ω (y (b + 1)) := by
    intro y
    rw [hF _ ω (fun i hi => by simp [Function.updateFinset, hi])]
    congr 1
    simp [Function.updateFinset]
  simp only [e1]
  have e2 : ∫ y, F ω (y (b + 1)) ∂(Kernel.traj (X := fun _ => Draw Y) κ b (frestrictLe (π := fun _ => Draw Y) b ω)) =
      ∫ z, F ω z ∂(κ b (frestrictLe (π := fun _ => Draw Y) b ω)) := by
    have := Kernel.map_traj_succ_self (X := fun _ => Draw Y) (κ := κ) (a := b)
    rw [← this, Kernel.map_apply _ (measurable_pi_apply _), integral_map (measurable_pi_apply _).aemeasurable]
    exact Measurable.of_discrete.aestronglyMeasurable
  rw [e2]
  show ∫ z, F ω z ∂(p b (frestrictLe (π := fun _ => Draw Y) b ω)).toMeasure = _
  rw [PMF.integral_eq_sum]
  refine Finset.sum_congr rfl fun y _ => ?_
  have e3 : wt b (extend y0 b (frestrictLe (π := fun _ => Draw Y) b ω)) = wt b ω := hdep b _ _ fun i hi => extend_agrees y0 b ω i hi
  simp only [p, PMF.ofFintype_apply, e3, smul_eq_mul]
  rw [ENNReal.toReal_ofReal ((hp _ _).1 y)]

end

end Verif.TD
