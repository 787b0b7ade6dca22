/-
C118, the reward of the hit task before the puck is hit.
-/
import Verif.Hockey.Props

namespace Verif.Hockey

noncomputable section

/-- The mallet at `ee` would push the puck from `pos` in the direction from `p0` to `target`. -/
def Pushes (ee pos p0 target : V2) : Prop :=
  ∃ t : ℝ, 0 < t ∧ pos.1 - ee.1 = t * (target.1 - p0.1) ∧ pos.2 - ee.2 = t * (target.2 - p0.2)

theorem norm2_sq (v : V2) : norm2 v ^ 2 = v.1 ^ 2 + v.2 ^ 2 := Real.sq_sqrt (by positivity)

theorem norm2_pos {v : V2} (h : v ≠ 0) : 0 < norm2 v := by
  apply Real.sqrt_pos.2
  by_contra hc
  have h1 : v.1 = 0 := by nlinarith [sq_nonneg v.1, sq_nonneg v.2]
  have h2 : v.2 = 0 := by nlinarith [sq_nonneg v.1, sq_nonneg v.2]
  exact h (Prod.ext h1 h2)

/-- The cosine of two directions is at most one, and one only for equal directions. -/
theorem cos_spec (a b c d : V2) (h1 : a ≠ b) (h2 : c ≠ d) :
    dot2 (unitTo a b) (unitTo c d) ≤ 1 ∧ (dot2 (unitTo a b) (unitTo c d) = 1 ↔ Pushes c d a b) := by
  have p1 : 0 < norm2 (b - a) := norm2_pos (sub_ne_zero.2 h1.symm)
  have p2 : 0 < norm2 (d - c) := norm2_pos (sub_ne_zero.2 h2.symm)
  have q1 := norm2_sq (b - a)
  have q2 := norm2_sq (d - c)
  simp only [Prod.fst_sub, Prod.snd_sub] at q1 q2
  have e : dot2 (unitTo a b) (unitTo c d) =
      ((b.1 - a.1) * (d.1 - c.1) + (b.2 - a.2) * (d.2 - c.2)) / (norm2 (b - a) * norm2 (d - c)) := by
    simp only [dot2, unitTo]; field_simp
  rw [e]
  generalize norm2 (b - a) = m at *
  generalize norm2 (d - c) = n at *
  generalize hx : b.1 - a.1 = x at *
  generalize hy : b.2 - a.2 = y at *
  generalize hu : d.1 - c.1 = u at *
  generalize hv : d.2 - c.2 = v at *
  have hp : 0 < m * n := mul_pos p1 p2
  have key : (x * u + y * v) ^ 2 + (x * v - y * u) ^ 2 = (m * n) ^ 2 := by
    rw [mul_pow, q1, q2]; ring
  refine ⟨?_, ?_⟩
  · rw [div_le_one hp]
    nlinarith [sq_nonneg (x * v - y * u)]
  · rw [div_eq_one_iff_eq hp.ne']
    constructor
    · intro h
      have hz : x * v - y * u = 0 := by
        rw [h] at key
        have : (x * v - y * u) ^ 2 = 0 := by linarith
        exact pow_eq_zero_iff (two_ne_zero) |>.1 this
      refine ⟨n / m, by positivity, ?_, ?_⟩
      · rw [hu, hx, div_mul_eq_mul_div, eq_div_iff p1.ne']
        have : u * m * m = n * x * m := by
          calc u * m * m = u * m ^ 2 := by ring
            _ = u * (x ^ 2 + y ^ 2) := by rw [q1]
            _ = x * (x * u + y * v) - y * (x * v - y * u) := by ring
            _ = x * (m * n) := by rw [h, hz]; ring
            _ = _ := by ring
        exact mul_right_cancel₀ p1.ne' this
      · rw [hv, hy, div_mul_eq_mul_div, eq_div_iff p1.ne']
        have : v * m * m = n * y * m := by
          calc v * m * m = v * m ^ 2 := by ring
            _ = v * (x ^ 2 + y ^ 2) := by rw [q1]
            _ = y * (x * u + y * v) + x * (x * v - y * u) := by ring
            _ = y * (m * n) := by rw [h, hz]; ring
            _ = _ := by ring
        exact mul_right_cancel₀ p1.ne' this
    · rintro ⟨t, ht, e1, e2⟩
      rw [hu, hx] at e1
      rw [hv, hy] at e2
      subst e1 e2
      have : n = t * m := by
        have : n ^ 2 = (t * m) ^ 2 := by rw [q2, mul_pow t m, q1]; ring
        exact (pow_left_inj₀ p2.le (by positivity) two_ne_zero).1 this
      rw [this]
      calc x * (t * x) + y * (t * y) = t * (x ^ 2 + y ^ 2) := by ring
        _ = t * m ^ 2 := by rw [q1]
        _ = _ := by ring

theorem clip01_eq_one {x : ℝ} (h : x ≤ 1) : clip01 x = 1 ↔ x = 1 := by
  simp only [clip01]
  constructor
  · intro h'
    have : (1 : ℝ) ≤ max x 0 := by rw [← h']; exact min_le_left _ _
    rcases le_max_iff.1 this with h1 | h1
    · linarith
    · norm_num at h1
  · rintro rfl; norm_num

/-- Before the puck is hit, the reward of the hit task without the action penalty is at most `exp (-8 (d - 0.08))` for the distance `d` between mallet and
puck, and it has this value exactly when the mallet is placed so that it would push the puck in the direction of the goal or in the direction of the bounce
point of `C118_bounce_point`, both seen from the first position of the puck. -/
theorem C118_hit_approach (penalty : ℝ) (p0 : V2) (action : List ℝ) (s : View) (hs : s.hit = false) (h1 : s.ee ≠ s.pos) (h2 : p0 ≠ (0.98, 0))
    (h3 : p0 ≠ sidePoint p0) :
    let r := hitReward penalty p0 action s False + penalty * normL action
    let best := Real.exp (-8 * (Real.sqrt ((s.pos.1 - s.ee.1) ^ 2 + (s.pos.2 - s.ee.2) ^ 2) - 0.08))
    r ≤ best ∧ (r = best ↔ Pushes s.ee s.pos p0 (0.98, 0) ∨ Pushes s.ee s.pos p0 (sidePoint p0)) := by
  intro r best
  obtain ⟨g1, g2⟩ := cos_spec p0 (0.98, 0) s.ee s.pos h2 h1
  obtain ⟨w1, w2⟩ := cos_spec p0 (sidePoint p0) s.ee s.pos h3 h1
  have hr : r = best * (max (clip01 (dot2 (vecGoal p0) (unitTo s.ee s.pos))) (clip01 (dot2 (vecSide p0) (unitTo s.ee s.pos)))) ^ 2 := by
    simp only [r, best, hitReward, if_neg not_false, hs, approach, norm2, Prod.fst_sub, Prod.snd_sub]
    simp
  have hb : 0 < best := Real.exp_pos _
  rw [hr, ← g2, ← w2]
  change dot2 (vecGoal p0) (unitTo s.ee s.pos) ≤ 1 at g1
  change dot2 (vecSide p0) (unitTo s.ee s.pos) ≤ 1 at w1
  change _ ∧ (_ ↔ dot2 (vecGoal p0) (unitTo s.ee s.pos) = 1 ∨ dot2 (vecSide p0) (unitTo s.ee s.pos) = 1)
  rw [← clip01_eq_one g1, ← clip01_eq_one w1]
  obtain ⟨a1, a2⟩ := clip01_mem (dot2 (vecGoal p0) (unitTo s.ee s.pos))
  obtain ⟨b1, b2⟩ := clip01_mem (dot2 (vecSide p0) (unitTo s.ee s.pos))
  generalize clip01 (dot2 (vecGoal p0) (unitTo s.ee s.pos)) = a at *
  generalize clip01 (dot2 (vecSide p0) (unitTo s.ee s.pos)) = b at *
  have m1 : max a b ≤ 1 := max_le a2 b2
  have m0 : 0 ≤ max a b := le_trans a1 (le_max_left _ _)
  refine ⟨?_, ?_⟩
  · have : (max a b) ^ 2 ≤ 1 := by nlinarith
    nlinarith
  · constructor
    · intro h
      have h4 : (max a b) ^ 2 = 1 := by
        have : best * (max a b) ^ 2 = best * 1 := by rw [h, mul_one]
        exact mul_left_cancel₀ hb.ne' this
      have h5 : max a b = 1 := by nlinarith
      rcases max_choice a b with h6 | h6
      · exact Or.inl (h6 ▸ h5)
      · exact Or.inr (h6 ▸ h5)
    · intro h
      have : max a b = 1 := by
        rcases h with h | h
        · exact le_antisymm m1 (h ▸ le_max_left _ _)
        · exact le_antisymm m1 (h ▸ le_max_right _ _)
      rw [this]; ring

example : ∃ s : View, s.hit = false ∧ s.ee ≠ s.pos ∧ ((-0.3, 0.1) : V2) ≠ (0.98, 0) ∧ ((-0.3, 0.1) : V2) ≠ sidePoint (-0.3, 0.1) := by
  refine ⟨View.mk (-0.3, 0.1) (0, 0) 0 (-0.5, 0) false false, rfl, ?_, ?_, ?_⟩
  · intro h; have := congrArg Prod.fst h; norm_num at this
  · intro h; have := congrArg Prod.fst h; norm_num at this
  · intro h
    have := congrArg Prod.snd h
    simp only [sidePoint, copysign, effectiveWidth] at this
    norm_num at this

end

end Verif.Hockey
