/-
C88: the vector fields integrated by the mechanical environments are the stated physics.
-/
import Verif.Envs.Spec
import Mathlib.Analysis.SpecialFunctions.Pow.Deriv
import Mathlib.Analysis.SpecialFunctions.Sqrt
import Mathlib.Analysis.SpecialFunctions.Trigonometric.Deriv
import Mathlib.Tactic.LinearCombination
import Mathlib.Tactic.FieldSimp

namespace Verif.Envs

noncomputable section

open Real

/-! ### CarOnHill -/

theorem base_pos (p : ℝ) : 0 < 1 + 5 * p ^ 2 := by positivity

/-- The rendered height is the hill, rescaled to the unit square. -/
theorem C88_hill_height (p : ℝ) : height ((p + 1) / 2) = (hill p + 1) / 2 := by
  unfold height hill
  have h : (p + 1) / 2 < 0.5 ↔ p < 0 := by constructor <;> intro h <;> linarith
  by_cases hp : p < 0
  · rw [if_pos (h.mpr hp), if_pos hp]; ring
  · rw [if_neg (fun h' => hp (h.mp h')), if_neg hp]
    have e : 2 * ((p + 1) / 2) - 1 = p := by ring
    rw [e, add_comm (5 * p ^ 2) 1]

/-- The rendered inclination is the arctangent of the slope. -/
theorem C88_hill_angle (p : ℝ) : carAngle ((p + 1) / 2) = Real.arctan (diffHill p) := by
  unfold carAngle diffHill
  have h : (p + 1) / 2 < 0.5 ↔ p < 0 := by constructor <;> intro h <;> linarith
  by_cases hp : p < 0
  · rw [if_pos (h.mpr hp), if_pos hp]; congr 1; ring
  · rw [if_neg (fun h' => hp (h.mp h')), if_neg hp]
    have e : 20 * ((p + 1) / 2) ^ 2 - 20 * ((p + 1) / 2) + 6 = 1 + 5 * p ^ 2 := by ring
    rw [e]

theorem sqrt_cube {b : ℝ} (hb : 0 < b) : b ^ (1.5 : ℝ) = b * √b := by
  rw [show (1.5 : ℝ) = 1 + 1 / 2 from by norm_num, Real.rpow_add hb, Real.rpow_one, Real.sqrt_eq_rpow]

theorem hasDerivAt_right (p : ℝ) : HasDerivAt (fun p => p / √(1 + 5 * p ^ 2)) (1 / ((1 + 5 * p ^ 2) ^ (1.5 : ℝ))) p := by
  have hb := base_pos p
  have hs : 0 < √(1 + 5 * p ^ 2) := Real.sqrt_pos.mpr hb
  have h1 : HasDerivAt (fun p : ℝ => 1 + 5 * p ^ 2) (5 * (2 * p)) p := by
    have := ((hasDerivAt_pow 2 p).const_mul 5).const_add 1
    simpa using this
  have h2 := h1.sqrt hb.ne'
  have h3 := (hasDerivAt_id p).div h2 hs.ne'
  refine h3.congr_deriv ?_
  rw [sqrt_cube hb]
  have hsq : √(1 + 5 * p ^ 2) ^ 2 = 1 + 5 * p ^ 2 := Real.sq_sqrt hb.le
  simp only [id_eq]
  rw [hsq]
  rw [div_eq_div_iff hb.ne' (by positivity)]
  field_simp
  rw [hsq]
  ring

/-- `diff_hill` is the derivative of the hill, everywhere. -/
theorem C88_hill_slope (p : ℝ) : HasDerivAt hill (diffHill p) p := by
  have hleft : ∀ p : ℝ, HasDerivAt (fun p : ℝ => p ^ 2 + p) (2 * p + 1) p := by
    intro p
    have := (hasDerivAt_pow 2 p).fun_add (hasDerivAt_id p)
    simpa using this
  rcases lt_trichotomy p 0 with hp | hp | hp
  · have e : hill =ᶠ[nhds p] fun p => p ^ 2 + p := by
      filter_upwards [Iio_mem_nhds hp] with q hq
      rw [hill, if_pos (Set.mem_Iio.mp hq)]
    rw [diffHill, if_pos hp]
    exact (hleft p).congr_of_eventuallyEq e
  · subst hp
    have hd : diffHill 0 = 1 := by unfold diffHill; norm_num
    rw [hd]
    have l : HasDerivWithinAt hill 1 (Set.Iio 0) 0 := by
      have h := ((hleft 0).congr_deriv (by norm_num : 2 * (0 : ℝ) + 1 = 1)).hasDerivWithinAt (s := Set.Iio 0)
      refine h.congr (fun q hq => by rw [hill, if_pos (Set.mem_Iio.mp hq)]) ?_
      rw [hill, if_neg (lt_irrefl 0)]; norm_num
    have r : HasDerivWithinAt hill 1 (Set.Ici 0) 0 := by
      have h := ((hasDerivAt_right 0).hasDerivWithinAt (s := Set.Ici 0))
      norm_num at h
      refine h.congr (fun q hq => by rw [hill, if_neg (not_lt.mpr hq)]) ?_
      rw [hill, if_neg (lt_irrefl 0)]
    have := l.union r
    rw [Set.Iio_union_Ici] at this
    exact hasDerivWithinAt_univ.mp this
  · have e : hill =ᶠ[nhds p] fun p => p / √(1 + 5 * p ^ 2) := by
      filter_upwards [Ioi_mem_nhds hp] with q hq
      rw [hill, if_neg (not_lt.mpr (le_of_lt hq))]
    rw [diffHill, if_neg (not_lt.mpr hp.le)]
    exact (hasDerivAt_right p).congr_of_eventuallyEq e

/-- `diff_2_hill` is the second derivative of the hill, away from the origin where the second derivative jumps. -/
theorem C88_hill_curvature (p : ℝ) (hp : p ≠ 0) : HasDerivAt diffHill (diff2Hill p) p := by
  rcases lt_or_gt_of_ne hp with h | h
  · have e : diffHill =ᶠ[nhds p] fun p => 2 * p + 1 := by
      filter_upwards [Iio_mem_nhds h] with q hq
      rw [diffHill, if_pos (Set.mem_Iio.mp hq)]
    rw [diff2Hill, if_pos h]
    have := ((hasDerivAt_id p).const_mul 2).add_const 1
    simp only [id_eq, mul_one] at this
    exact this.congr_of_eventuallyEq e
  · have e : diffHill =ᶠ[nhds p] fun p => 1 / ((1 + 5 * p ^ 2) ^ (1.5 : ℝ)) := by
      filter_upwards [Ioi_mem_nhds h] with q hq
      rw [diffHill, if_neg (not_lt.mpr (le_of_lt hq))]
    rw [diff2Hill, if_neg (not_lt.mpr h.le)]
    have hb := base_pos p
    have h1 : HasDerivAt (fun p : ℝ => 1 + 5 * p ^ 2) (5 * (2 * p)) p := by
      have := ((hasDerivAt_pow 2 p).const_mul 5).const_add 1
      simpa using this
    have h2 := h1.rpow_const (p := (1.5 : ℝ)) (Or.inl hb.ne')
    have hne : (1 + 5 * p ^ 2) ^ (1.5 : ℝ) ≠ 0 := (Real.rpow_pos_of_pos hb _).ne'
    have h3 := (hasDerivAt_const p (1 : ℝ)).div h2 hne
    refine (h3.congr_deriv ?_).congr_of_eventuallyEq e
    have e1 : (1 + 5 * p ^ 2) ^ ((1.5 : ℝ) - 1) * (1 + 5 * p ^ 2) ^ (2.5 : ℝ) = ((1 + 5 * p ^ 2) ^ (1.5 : ℝ)) ^ 2 := by
      rw [← Real.rpow_add hb, ← Real.rpow_natCast ((1 + 5 * p ^ 2) ^ (1.5 : ℝ)) 2, ← Real.rpow_mul hb.le]
      norm_num
    have hne2 : (1 + 5 * p ^ 2) ^ (2.5 : ℝ) ≠ 0 := (Real.rpow_pos_of_pos hb _).ne'
    rw [div_eq_div_iff (pow_ne_zero 2 hne) hne2, ← e1]
    ring

/-- Work and energy on the hill: along every motion that follows `_dpds`, the derivative of kinetic plus potential energy of a
car that slides on the graph of the hill is the control times the velocity. -/
theorem C88_car_energy (g m u : ℝ) (hm : m ≠ 0) (p v : ℝ → ℝ) (t : ℝ) (hp0 : p t ≠ 0) (hp : HasDerivAt p (v t) t)
    (hv : HasDerivAt v (carAcceleration g m (p t) (v t) u) t) :
    HasDerivAt (fun s => 1 / 2 * m * v s ^ 2 * (1 + diffHill (p s) ^ 2) + m * g * hill (p s)) (u * v t) t := by
  have hH := (C88_hill_slope (p t)).comp t hp
  have hD := (C88_hill_curvature (p t) hp0).comp t hp
  have h1 := (hv.pow 2).const_mul (1 / 2 * m)
  have h2 := ((hD.pow 2).const_add 1)
  have h3 := (h1.mul h2).add (hH.const_mul (m * g))
  refine (h3.congr_deriv ?_)
  simp only [Function.comp, Pi.pow_apply]
  have hden : m * (1 + diffHill (p t) ^ 2) ≠ 0 := mul_ne_zero hm (by positivity)
  have ha : carAcceleration g m (p t) (v t) u * (m * (1 + diffHill (p t) ^ 2)) =
      u - g * m * diffHill (p t) - v t ^ 2 * m * diffHill (p t) * diff2Hill (p t) := by
    unfold carAcceleration
    exact div_mul_cancel₀ _ hden
  push_cast
  linear_combination (v t) * ha

/-! ### InvertedPendulum -/

/-- Work and energy of the pendulum: while the angular velocity is within its bounds, the derivative of kinetic plus potential
energy is the power of the torque minus the friction. -/
theorem C88_pendulum_energy (m l g mu maxOmega u : ℝ) (hm : m ≠ 0) (hl : l ≠ 0) (th om : ℝ → ℝ) (t : ℝ) (hw : |om t| ≤ maxOmega)
    (hth : HasDerivAt th (pendulumField m l g mu maxOmega u (th t, om t)).1 t)
    (hom : HasDerivAt om (pendulumField m l g mu maxOmega u (th t, om t)).2 t) :
    HasDerivAt (fun s => 1 / 2 * m * l ^ 2 * om s ^ 2 + m * g * l * Real.cos (th s)) (om t * (u - mu * om t)) t := by
  have hb : bound (om t) (-maxOmega) maxOmega = om t := by
    obtain ⟨h1, h2⟩ := abs_le.mp hw
    rw [bound, min_eq_left h2, max_eq_right h1]
  simp only [pendulumField, hb] at hth hom
  have h3 := ((hom.pow 2).const_mul (1 / 2 * m * l ^ 2)).add (hth.cos.const_mul (m * g * l))
  refine h3.congr_deriv ?_
  have hden : m * l ^ 2 ≠ 0 := mul_ne_zero hm (pow_ne_zero 2 hl)
  have ha := div_mul_cancel₀ (-mu * om t + m * g * l * Real.sin (th t) + u) hden
  push_cast
  linear_combination (om t) * ha

/-! ### CartPole -/

/-- CartPole: the angular acceleration is the only one for which there is an acceleration `acc` of the cart such that the
equations of Newton and Euler hold: for the horizontal forces, and for the torques of a uniform pole of length `l` about its pivot. -/
theorem C88_cart (m M l g u th om beta : ℝ) (hm : 0 < m) (hM : 0 ≤ M) (hl : 0 < l) :
    beta = (cartField m M l g u (th, om)).2 ↔
      ∃ acc : ℝ, (m + M) * acc + m * (l / 2) * (beta * Real.cos th - om ^ 2 * Real.sin th) = u ∧
        4 / 3 * (l / 2) * beta + acc * Real.cos th = g * Real.sin th := by
  have hmM : m + M ≠ 0 := by positivity
  have hc : Real.cos th ^ 2 ≤ 1 := by nlinarith [Real.sin_sq_add_cos_sq th, sq_nonneg (Real.sin th)]
  have halpha : 1 / (m + M) * (m + M) = 1 := one_div_mul_cancel hmM
  have hfrac : 1 / (m + M) * m ≤ 1 := by
    rw [one_div_mul_eq_div, div_le_one (by positivity)]; linarith
  have hden : 0 < 2 / 3 * l - 1 / (m + M) * m * l * 0.5 * Real.cos th ^ 2 := by
    have h1 : 1 / (m + M) * m * Real.cos th ^ 2 ≤ 1 := by
      calc 1 / (m + M) * m * Real.cos th ^ 2 ≤ 1 * 1 := by
            apply mul_le_mul hfrac hc (sq_nonneg _) (by norm_num)
        _ = 1 := by norm_num
    nlinarith
  simp only [cartField]
  rw [eq_div_iff hden.ne', Real.sin_two_mul]
  set α := 1 / (m + M) with hα
  constructor
  · intro h
    refine ⟨α * (u - m * (l / 2) * (beta * Real.cos th - om ^ 2 * Real.sin th)), ?_, ?_⟩
    · linear_combination (u - m * (l / 2) * (beta * Real.cos th - om ^ 2 * Real.sin th)) * halpha
    · linear_combination h
  · rintro ⟨acc, h1, h2⟩
    have hacc : acc = α * (u - m * (l / 2) * (beta * Real.cos th - om ^ 2 * Real.sin th)) := by
      linear_combination (-acc) * halpha + α * h1
    rw [hacc] at h2
    linear_combination h2

/-! ### Segway -/

theorem seg_det (alpha : ℝ) : 0 < segH1 * segH3 - segH2 alpha ^ 2 := by
  have hc : Real.cos alpha ^ 2 ≤ 1 := by nlinarith [Real.sin_sq_add_cos_sq alpha, sq_nonneg (Real.sin alpha)]
  have h : segH2 alpha ^ 2 = (segMp * segR * segL) ^ 2 * Real.cos alpha ^ 2 := by unfold segH2; ring
  rw [h]
  have h0 : (0 : ℝ) ≤ (segMp * segR * segL) ^ 2 := sq_nonneg _
  have h1 : (segMp * segR * segL) ^ 2 * Real.cos alpha ^ 2 ≤ (segMp * segR * segL) ^ 2 := by nlinarith
  have h2 : (segMp * segR * segL) ^ 2 < segH1 * segH3 := by
    norm_num [segH1, segH3, segMp, segR, segL, segMr, segIr, segIp]
  linarith

/-- The parts of the segway, in SI units: masses of the two wheels and of the pole, their inertias, the distance of the centre of the pole
from the axis, the radius of the wheels and gravity. -/
structure SegwayParts where
  wheels : ℝ := 2 * 0.3
  pole : ℝ := 2.55
  poleInertia : ℝ := 0.026
  wheelsInertia : ℝ := 2 * 0.000454
  arm : ℝ := 0.138
  radius : ℝ := 0.055
  gravity : ℝ := 9.81

/-- Segway: the accelerations of the pole and of the wheel are the only solution of the two equations of motion of a pole on a wheel: the
inertia of the pole about the axis is `I + m l^2`, that of the wheel with the pole at its axis `I + (M + m) r^2`, they are coupled by
`m r l cos(alpha)`, and the torque acts on the wheel and against the pole. -/
theorem C88_segway (u alpha om wr a b : ℝ) (p : SegwayParts) (hp : p = {}) :
    (a, b) = (segField u (alpha, om, wr)).2 ↔
      (p.poleInertia + p.pole * p.arm ^ 2) * a + p.pole * p.radius * p.arm * Real.cos alpha * b = p.pole * p.gravity * p.arm * Real.sin alpha - u ∧
      p.pole * p.radius * p.arm * Real.cos alpha * a + (p.wheelsInertia + (p.wheels + p.pole) * p.radius ^ 2) * b =
        p.pole * p.radius * p.arm * Real.sin alpha * om ^ 2 + u := by
  subst hp
  have e1 : ((0.026 : ℝ) + 2.55 * 0.138 ^ 2) = segH3 := by norm_num [segH3, segL, segMp, segIp]
  have e2 : (2.55 : ℝ) * 0.055 * 0.138 * Real.cos alpha = segH2 alpha := by norm_num [segH2, segL, segMp, segR]
  have e3 : ((2 * 0.000454 : ℝ) + (2 * 0.3 + 2.55) * 0.055 ^ 2) = segH1 := by norm_num [segH1, segMp, segR, segMr, segIr]
  have e4 : (2.55 : ℝ) * 9.81 * 0.138 = segG * segL * segMp := by norm_num [segG, segL, segMp]
  have e5 : (2.55 : ℝ) * 0.055 * 0.138 = segL * segMp * segR := by norm_num [segR, segL, segMp]
  simp only [e1, e2, e3]
  rw [e4, e5]
  have hd := seg_det alpha
  simp only [segField]
  rw [Prod.mk.injEq, eq_div_iff hd.ne', eq_div_iff hd.ne']
  constructor
  · rintro ⟨h1, h2⟩
    constructor
    · apply mul_right_cancel₀ hd.ne'
      linear_combination segH3 * h1 + segH2 alpha * h2
    · apply mul_right_cancel₀ hd.ne'
      linear_combination segH2 alpha * h1 + segH1 * h2
  · rintro ⟨h1, h2⟩
    constructor
    · linear_combination segH1 * h1 - segH2 alpha * h2
    · linear_combination segH3 * h2 - segH2 alpha * h1

/-- The first component of every field is the velocity. -/
theorem C88_kinematics (m M l g mu maxOmega u : ℝ) (s : ℝ × ℝ) (s3 : ℝ × ℝ × ℝ) :
    (|s.2| ≤ maxOmega → (pendulumField m l g mu maxOmega u s).1 = s.2) ∧ (cartField m M l g u s).1 = s.2 ∧ (segField u s3).1 = s3.2.1 := by
  refine ⟨fun h => ?_, rfl, rfl⟩
  obtain ⟨h1, h2⟩ := abs_le.mp h
  simp only [pendulumField, bound]
  rw [min_eq_left h2, max_eq_right h1]

example : (0 : ℝ) < 2 ∧ (0 : ℝ) ≤ 8 ∧ (0 : ℝ) < 0.5 := by norm_num

/-- A motion that meets the hypotheses of the energy theorems: the pendulum at its unstable equilibrium. -/
example : HasDerivAt (fun _ : ℝ => (0 : ℝ)) (pendulumField 1 1 9.8 0.01 5 0 (0, 0)).1 1 ∧
    HasDerivAt (fun _ : ℝ => (0 : ℝ)) (pendulumField 1 1 9.8 0.01 5 0 (0, 0)).2 1 := by
  have h1 : (pendulumField 1 1 9.8 0.01 5 0 (0, 0)) = (0, 0) := by
    simp [pendulumField, bound]
  rw [h1]
  exact ⟨hasDerivAt_const _ _, hasDerivAt_const _ _⟩

end

end Verif.Envs
