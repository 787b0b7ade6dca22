/-
C65: the reward of PuddleWorld.
-/
import Verif.Envs.Props
import Mathlib.Probability.Distributions.Gaussian.Real

namespace Verif.Envs

noncomputable section

open Real ProbabilityTheory

/-- The density of a normal distribution with the given mean and standard deviation, as defined by Mathlib. -/
def normalDensity (mean std x : ℝ) : ℝ := gaussianPDFReal mean (std ^ 2).toNNReal x

theorem pdf_eq (x loc scale : ℝ) (h : 0 < scale) : pdf x loc scale = normalDensity loc scale x := by
  unfold pdf normalDensity gaussianPDFReal
  rw [Real.coe_toNNReal _ (sq_nonneg scale), show √(2 * π * scale ^ 2) = scale * √(2 * π) by
    rw [mul_comm (2 * π), Real.sqrt_mul (sq_nonneg _), Real.sqrt_sq h.le], div_eq_inv_mul]
  congr 2
  field_simp

/-- C65. Away from the goal a step of PuddleWorld costs 1, plus, for each puddle, twice the density at the new position of a normal distribution centered in the
puddle whose two coordinates are independent and have its widths as standard deviations; the noise of the reward is added. -/
theorem C65_puddle_reward (w : Puddle) (hw : ∀ p ∈ w.puddles, 0 < p.2.1 ∧ 0 < p.2.2) (s : ℝ × ℝ) (idx : ℤ) (noise : ℝ × ℝ) (z : ℝ) (s' : ℝ × ℝ) (r : ℝ)
    (h : w.step s idx noise z = some (s', r, false)) :
    r = -1 - (w.puddles.map fun p => 2 * (normalDensity p.1.1 p.2.1 s'.1 * normalDensity p.1.2 p.2.2 s'.2)).sum + w.noiseReward * z := by
  have key : ∀ (ps : List ((ℝ × ℝ) × (ℝ × ℝ))) (c : ℝ), (∀ p ∈ ps, 0 < p.2.1 ∧ 0 < p.2.2) →
      ps.foldl (fun r p => r - 2 * pdf s'.1 p.1.1 p.2.1 * pdf s'.2 p.1.2 p.2.2) c =
        c - (ps.map fun p => 2 * (normalDensity p.1.1 p.2.1 s'.1 * normalDensity p.1.2 p.2.2 s'.2)).sum := by
    intro ps
    induction ps with
    | nil => intro c _; simp
    | cons p ps ih =>
      intro c hp
      obtain ⟨h1, h2⟩ := hp p (by simp)
      rw [List.foldl_cons, ih _ (fun q hq => hp q (by simp [hq])), pdf_eq _ _ _ h1, pdf_eq _ _ _ h2, List.map_cons, List.sum_cons]
      ring
  unfold Puddle.step at h
  cases hp : w.pick idx with
  | none => rw [hp] at h; simp at h
  | some v =>
    rw [hp] at h
    simp only [Option.some.injEq, Prod.mk.injEq] at h
    obtain ⟨e1, e2, e3⟩ := h
    rw [if_neg (by rw [e3]; decide), e1] at e2
    rw [← e2, Puddle.reward, key _ _ hw]
    ring

/-- C65. In particular a puddle costs most in its center: nowhere is the density larger, and it falls off with the distance along either axis. -/
theorem C65_puddle_center (mean std x y : ℝ) (h : 0 < std) (hxy : |x - mean| ≤ |y - mean|) :
    normalDensity mean std y ≤ normalDensity mean std x ∧ (|x - mean| < |y - mean| → normalDensity mean std y < normalDensity mean std x) ∧
    normalDensity mean std mean = 1 / (std * √(2 * π)) := by
  have hp : 0 < std * √(2 * π) := by positivity
  refine ⟨?_, ?_, ?_⟩
  · rw [← pdf_eq _ _ _ h, ← pdf_eq _ _ _ h]
    unfold pdf
    gcongr 1
    rw [Real.exp_le_exp]
    have : (x - mean) ^ 2 ≤ (y - mean) ^ 2 := sq_le_sq.2 hxy
    have h2 : ((x - mean) / std) ^ 2 ≤ ((y - mean) / std) ^ 2 := by
      rw [div_pow, div_pow]
      gcongr
    linarith
  · intro hlt
    rw [← pdf_eq _ _ _ h, ← pdf_eq _ _ _ h]
    unfold pdf
    gcongr 1
    rw [Real.exp_lt_exp]
    have : (x - mean) ^ 2 < (y - mean) ^ 2 := sq_lt_sq.2 hlt
    have h2 : ((x - mean) / std) ^ 2 < ((y - mean) / std) ^ 2 := by
      rw [div_pow, div_pow]
      gcongr
    linarith
  · rw [← pdf_eq _ _ _ h]
    simp [pdf]

-- The default puddles have positive widths, and an undisturbed step to the right from the origin does not reach the goal.
example : ∃ w : Puddle, w.puddles.length = 2 ∧ (∀ p ∈ w.puddles, 0 < p.2.1 ∧ 0 < p.2.2) ∧ ∃ s' r, w.step (0, 0) 1 (0, 0) 0 = some (s', r, false) := by
  refine ⟨⟨(1, 1), 1 / 10, 0, 0, 1 / 20, [((3 / 10, 6 / 10), (1 / 10, 3 / 100)), ((4 / 10, 5 / 10), (3 / 100, 1 / 10))]⟩, rfl, ?_, ?_⟩
  · intro p hp
    simp only [List.mem_cons, List.not_mem_nil, or_false] at hp
    rcases hp with rfl | rfl <;> norm_num
  · simp only [Puddle.step, Puddle.pick, Puddle.action]
    norm_num

end

end Verif.Envs
