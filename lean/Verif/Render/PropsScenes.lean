/-
C128: the pictures of cart-pole, segway, ship, car and puddle world.
-/
import Verif.Render.Props
import Mathlib.Analysis.SpecialFunctions.Trigonometric.ArctanDeriv

namespace Verif.Render

noncomputable section

open Real Verif.Utils Verif.Envs Verif.Render.Spec

/-! ### Cart-pole -/

theorem floor_lt_floor_add {a k : ℝ} (hk : 1 ≤ k) : ⌊a⌋ < ⌊a + k⌋ := floor_lt_of_add_one_le (by linarith)

theorem arctan2_pos {n : ℝ} (hn : 0 < n) : arctan2 0 n = 0 := by
  have : (⟨n, 0⟩ : ℂ) = ((n : ℝ) : ℂ) := by apply Complex.ext <;> simp
  rw [arctan2, this, Complex.arg_ofReal_of_nonneg hn.le]

theorem arctan2_neg {n : ℝ} (hn : n < 0) : arctan2 0 n = π := by
  have : (⟨n, 0⟩ : ℂ) = ((n : ℝ) : ℂ) := by apply Complex.ext <;> simp
  rw [arctan2, this, Complex.arg_ofReal_of_neg hn]

/-- The direction of a horizontal arrow. -/
inductive Side where
  | left
  | right

def Side.sgn : Side → ℝ
  | .left => -1
  | .right => 1

/-- A horizontal force arrow of at least one pixel, between points with nonnegative coordinates: a line from the centre to the
end, whose distance is in proportion to the force, and a head whose tip lies beyond the end. -/
theorem C128_force_partial (v : Viewer) (cv : Canvas) (center : ℝ × ℝ) (side : Side) (force maxForce maxLength : ℝ)
    (hv : 0 < v.ratio.1) (hpix : 1 ≤ force / maxForce * maxLength * v.ratio.1) (hc : 0 ≤ center.1)
    (he : 0 ≤ center.1 + force / maxForce * maxLength * side.sgn) :
    ∃ head, v.forceArrow (some cv) center (side.sgn, 0) force maxForce maxLength = some (some ⟨cv.background, cv.shapes ++
      [.line (v.transform center) (v.transform (center.1 + force / maxForce * maxLength * side.sgn, center.2)) white 1,
       .polygon head white 0]⟩) ∧
      head[2]? = some (v.transform (center.1 + force / maxForce * maxLength * side.sgn * (9 / 8), center.2)) := by
  set len := force / maxForce * maxLength with hlen
  have hl0 : 0 < len := by
    by_contra h
    have : len * v.ratio.1 ≤ 0 := mul_nonpos_of_nonpos_of_nonneg (not_lt.mp h) hv.le
    linarith
  have hn : norm2 (side.sgn, 0) = 1 := by cases side <;> simp [norm2, Side.sgn]
  have hangle : cos (-(arctan2 (((v.transform (center.1 + len * side.sgn, center.2)).2 - (v.transform center).2 : ℤ))
        (((v.transform (center.1 + len * side.sgn, center.2)).1 - (v.transform center).1 : ℤ)))) = side.sgn ∧
      sin (-(arctan2 (((v.transform (center.1 + len * side.sgn, center.2)).2 - (v.transform center).2 : ℤ))
        (((v.transform (center.1 + len * side.sgn, center.2)).1 - (v.transform center).1 : ℤ)))) = 0 := by
    have hy : (v.transform (center.1 + len * side.sgn, center.2)).2 - (v.transform center).2 = 0 := by
      simp [Viewer.transform]
    rw [hy]
    have n1 : 0 ≤ center.1 * v.ratio.1 := mul_nonneg hc hv.le
    have n2 : 0 ≤ (center.1 + len * side.sgn) * v.ratio.1 := mul_nonneg he hv.le
    cases side with
    | right =>
        have hx : 0 < (v.transform (center.1 + len * Side.right.sgn, center.2)).1 - (v.transform center).1 := by
          simp only [Viewer.transform, trunc_nonneg n1, trunc_nonneg n2]
          have := floor_lt_floor_add (a := center.1 * v.ratio.1) hpix
          rw [show (center.1 + len * Side.right.sgn) * v.ratio.1 = center.1 * v.ratio.1 + len * v.ratio.1 by
            simp only [Side.sgn]; ring]
          omega
        have hx' : (0 : ℝ) < (((v.transform (center.1 + len * Side.right.sgn, center.2)).1 - (v.transform center).1 : ℤ) : ℝ) := by
          exact_mod_cast hx
        rw [Int.cast_zero, arctan2_pos hx']
        simp [Side.sgn]
    | left =>
        have hx : (v.transform (center.1 + len * Side.left.sgn, center.2)).1 - (v.transform center).1 < 0 := by
          simp only [Viewer.transform, trunc_nonneg n1, trunc_nonneg n2]
          have := floor_lt_floor_add (a := (center.1 + len * Side.left.sgn) * v.ratio.1) hpix
          rw [show (center.1 + len * Side.left.sgn) * v.ratio.1 + len * v.ratio.1 = center.1 * v.ratio.1 by
            simp only [Side.sgn]; ring] at this
          omega
        have hx' : (((v.transform (center.1 + len * Side.left.sgn, center.2)).1 - (v.transform center).1 : ℤ) : ℝ) < 0 := by
          exact_mod_cast hx
        rw [Int.cast_zero, arctan2_neg hx']
        simp [Side.sgn]
  refine ⟨[(-0.5 * (len / 4), -0.5 * (len / 4)), (-0.5 * (len / 4), 0.5 * (len / 4)), (0.5 * (len / 4), (0 : ℝ))].map
    (fun p => v.transform (rotate p (-(arctan2 (((v.transform (center.1 + len * side.sgn, center.2)).2 - (v.transform center).2 : ℤ))
        (((v.transform (center.1 + len * side.sgn, center.2)).1 - (v.transform center).1 : ℤ)))) +
        (center.1 + len * side.sgn, center.2))), ?_, ?_⟩
  · simp only [Viewer.forceArrow, ← hlen, hn]
    rw [if_pos hl0.ne', if_neg one_ne_zero]
    simp only [div_one, mul_zero, add_zero, Viewer.arrowHead, Viewer.polygon, draw_eq, screen_some, List.append_assoc,
      List.cons_append, List.nil_append, Int.cast_sub]
  · simp only [List.map_cons, List.map_nil, List.getElem?_cons_succ, List.getElem?_cons_zero, Option.some.injEq, rotate,
      hangle.1, hangle.2, Prod.mk_add_mk]
    congr 2 <;> ring

/-- A short arrow to the left has a head that points to the right: its angle is that of the distance in pixels, which is zero. -/
theorem C128_force_refuted : ∃ (v : Viewer) (len : ℝ) (head : List Pixel) (a : Pixel), 0 < len ∧
    v.forceArrow none (1 / 2, 0) (-1, 0) 1 1 len = some (some ⟨black, [.line a a white 1, .polygon head white 0]⟩) ∧
    head[2]? = some (v.transform (1 / 2 - len + len / 8, 0)) := by
  have t0 : trunc (1 / 4) = 0 := by rw [trunc_nonneg (by norm_num), Int.floor_eq_iff]; norm_num
  have t1 : trunc (1 / 2) = 0 := by rw [trunc_nonneg (by norm_num), Int.floor_eq_iff]; norm_num
  have h0 : ((Viewer.new 500 500).transform (1 / 2, 0)).1 = 0 := by
    simp only [Viewer.transform, Viewer.new]; norm_num; exact_mod_cast t1
  have h1 : ((Viewer.new 500 500).transform (1 / 4, 0)).1 = 0 := by
    simp only [Viewer.transform, Viewer.new]; norm_num; exact_mod_cast t0
  have h2 : ((Viewer.new 500 500).transform (1 / 4, 0)) = ((Viewer.new 500 500).transform (1 / 2, 0)) := by
    apply Prod.ext
    · rw [h0, h1]
    · rfl
  refine ⟨Viewer.new 500 500, 1 / 4, [(-0.5 * (1 / 16), -0.5 * (1 / 16)), (-0.5 * (1 / 16), 0.5 * (1 / 16)), (0.5 * (1 / 16), (0 : ℝ))].map
    (fun p => (Viewer.new 500 500).transform (rotate p 0 + (1 / 4, 0))), (Viewer.new 500 500).transform (1 / 2, 0), by norm_num, ?_, ?_⟩
  · have hn : norm2 (-1, 0) = 1 := by simp [norm2]
    have hz : arctan2 0 0 = 0 := by
      have : (⟨0, 0⟩ : ℂ) = 0 := rfl
      rw [arctan2, this, Complex.arg_zero]
    simp only [Viewer.forceArrow, hn]
    rw [if_pos (by norm_num), if_neg one_ne_zero]
    have e : ((1 / 2 + 1 / 1 * (1 / 4) * (-1 / 1), 0 + 1 / 1 * (1 / 4) * (0 / 1)) : ℝ × ℝ) = (1 / 4, 0) := by norm_num
    rw [e, h2]
    simp only [sub_self, Int.cast_zero, hz, neg_zero, Viewer.arrowHead, Viewer.polygon, draw_eq, screen_some]
    norm_num [Viewer.screen]
  · simp only [List.map_cons, List.map_nil, List.getElem?_cons_succ, List.getElem?_cons_zero, Option.some.injEq, rotate,
      cos_zero, sin_zero, Prod.mk_add_mk]
    congr 2 <;> norm_num

/-- The pole of the picture of the cart-pole. -/
theorem cart_shapes (l maxU : ℝ) (cv : Canvas) (theta u : ℝ) :
    ∃ square radius, cartDraw l maxU (some cv) theta u = (Viewer.new (2.5 * l) (2.5 * l)).forceArrow (some ⟨cv.background, cv.shapes ++
      [.line ((Viewer.new (2.5 * l) (2.5 * l)).transform (1.25 * l, 1.25 * l))
        ((Viewer.new (2.5 * l) (2.5 * l)).transform (1.25 * l + l * sin theta, 1.25 * l + l * cos theta)) white 1,
       .polygon square white 0,
       .circle ((Viewer.new (2.5 * l) (2.5 * l)).transform (1.25 * l + l * sin theta, 1.25 * l + l * cos theta)) radius white 0]⟩)
      (1.25 * l, 1.25 * l) (-(SignType.sign u : ℝ) * 1, -(SignType.sign u : ℝ) * 0) |u| maxU (l / 5) := by
  exact ⟨_, _, by
    simp only [cartDraw, Viewer.line, Viewer.square, Viewer.polygon, Viewer.circle, draw_eq, screen_some, List.append_assoc,
      List.cons_append, List.nil_append]
    rfl⟩

/-- The picture of the cart-pole can be drawn after every action: the pole from the middle of the window to its tip, in the
window for all angles, without an arrow if there is no force, and with an arrow of a fifth of the length of the pole to the left
for a positive and to the right for a negative force. -/
theorem C128_cart (l maxU : ℝ) (hl : 0 < l) (hm : 0 < maxU) (cv : Canvas) (theta u : ℝ) (hu : u = 0 ∨ u = maxU ∨ u = -maxU) :
    ∃ pivot tip square radius more, cartDraw l maxU (some cv) theta u = some (some ⟨cv.background, cv.shapes ++
        (.line pivot tip white 1 :: .polygon square white 0 :: .circle tip radius white 0 :: more)⟩) ∧
      Shows (2.5 * l) (2.5 * l) 500 500 (1.25 * l, 1.25 * l) pivot ∧
      Shows (2.5 * l) (2.5 * l) 500 500 (1.25 * l + l * sin theta, 1.25 * l + l * cos theta) tip ∧
      (u = 0 → more = []) ∧
      (u ≠ 0 → ∃ stop head point, more = [.line pivot stop white 1, .polygon head white 0] ∧ head[2]? = some point ∧
        Shows (2.5 * l) (2.5 * l) 500 500 (1.25 * l + (if 0 < u then -1 else 1) * (l / 5), 1.25 * l) stop ∧
        Shows (2.5 * l) (2.5 * l) 500 500 (1.25 * l + (if 0 < u then -1 else 1) * (l / 5 * (9 / 8)), 1.25 * l) point) := by
  obtain ⟨square, radius, hd⟩ := cart_shapes l maxU cv theta u
  have hp := shows_transform (W := 2.5 * l) (H := 2.5 * l) (by positivity) (by positivity) 500 500 black (inWorld_pivot hl)
  have ht := shows_transform (W := 2.5 * l) (H := 2.5 * l) (by positivity) (by positivity) 500 500 black (inWorld_tip hl theta)
  set v := Viewer.new (2.5 * l) (2.5 * l) with hv
  have hr1 : v.ratio.1 = 200 / l := by
    simp only [hv, Viewer.new]; push_cast; field_simp; norm_num
  by_cases h0 : u = 0
  · refine ⟨_, _, square, radius, [], ?_, hp, ht, fun _ => rfl, fun h => absurd h0 h⟩
    rw [hd]
    simp only [Viewer.forceArrow, h0, abs_zero, zero_div, zero_mul]
    rw [if_neg (by simp)]
    rfl
  · have habs : |u| = maxU := by
      obtain h | h | h := hu
      · exact absurd h h0
      · rw [h, abs_of_pos hm]
      · rw [h, abs_neg, abs_of_pos hm]
    have hlen : |u| / maxU * (l / 5) = l / 5 := by rw [habs, div_self hm.ne', one_mul]
    obtain ⟨side, hside, hsgn⟩ : ∃ side : Side, -(SignType.sign u : ℝ) * 1 = side.sgn ∧ side.sgn = if 0 < u then -1 else 1 := by
      rcases lt_or_gt_of_ne h0 with h | h
      · exact ⟨.right, by rw [sign_neg h]; simp [Side.sgn], by rw [if_neg (not_lt.mpr h.le)]; rfl⟩
      · exact ⟨.left, by rw [sign_pos h]; simp [Side.sgn], by rw [if_pos h]; rfl⟩
    have hs : side.sgn = 1 ∨ side.sgn = -1 := by cases side <;> simp [Side.sgn]
    obtain ⟨head, hf, hh⟩ := C128_force_partial v ⟨cv.background, cv.shapes ++ [.line (v.transform (1.25 * l, 1.25 * l))
        (v.transform (1.25 * l + l * sin theta, 1.25 * l + l * cos theta)) white 1,
       .polygon square white 0,
       .circle (v.transform (1.25 * l + l * sin theta, 1.25 * l + l * cos theta)) radius white 0]⟩ (1.25 * l, 1.25 * l) side |u| maxU (l / 5)
       (by rw [hr1]; positivity)
       (by rw [hlen, hr1, show l / 5 * (200 / l) = 40 by field_simp; norm_num]; norm_num) (by positivity)
       (by rw [hlen]; obtain h | h := hs <;> rw [h] <;> simp only <;> nlinarith)
    refine ⟨_, _, square, radius, _, by
      rw [hd, hside, mul_zero, hf]
      simp only [List.append_assoc, List.cons_append, List.nil_append]
      rfl, hp, ht, fun h => absurd h h0, fun _ => ⟨_, head, _, rfl, hh, ?_, ?_⟩⟩
    · rw [hlen, ← hsgn, mul_comm (l / 5)]
      refine shows_transform (by positivity) (by positivity) 500 500 black ⟨⟨?_, ?_⟩, ?_, ?_⟩ <;> obtain h | h := hs <;>
        simp only [h] <;> nlinarith
    · rw [hlen, ← hsgn, show l / 5 * side.sgn * (9 / 8) = side.sgn * (l / 5 * (9 / 8)) by ring]
      refine shows_transform (by positivity) (by positivity) 500 500 black ⟨⟨?_, ?_⟩, ?_, ?_⟩ <;> obtain h | h := hs <;>
        simp only [h] <;> nlinarith

/-- The arrow points against the force: for the action that pushes the cart at rest to the right, by the equations of motion of
C88, the arrow ends to the left of the cart. -/
theorem C128_cart_refuted (m M l maxU acc beta : ℝ) (hm : 0 < m) (hM : 0 ≤ M) (hl : 0 < l) (hu : 0 < maxU)
    (h1 : (m + M) * acc + m * (l / 2) * (beta * cos 0 - 0 ^ 2 * sin 0) = maxU)
    (h2 : 4 / 3 * (l / 2) * beta + acc * cos 0 = 9.8 * sin 0) (cv : Canvas) :
    0 < acc ∧ ∃ pivot stop shapes head, cartDraw l maxU (some cv) 0 maxU = some (some ⟨cv.background, cv.shapes ++
      shapes ++ [.line pivot stop white 1, .polygon head white 0]⟩) ∧ stop.1 < pivot.1 := by
  constructor
  · simp only [cos_zero, sin_zero, mul_one, mul_zero, sub_zero] at h1 h2
    have h3 : m * (l / 2) * beta = -(3 / 4) * m * acc := by linear_combination (3 / 4 * m) * h2
    have h4 : (m / 4 + M) * acc = maxU := by linear_combination h1 - h3
    by_contra hneg
    have : (m / 4 + M) * acc ≤ 0 := mul_nonpos_of_nonneg_of_nonpos (by positivity) (not_lt.mp hneg)
    linarith
  · obtain ⟨pivot, tip, square, radius, more, hd, hp, -, -, hmore⟩ := C128_cart l maxU hl hu cv 0 maxU (.inr (.inl rfl))
    obtain ⟨stop, head, point, rfl, -, hstop, -⟩ := hmore hu.ne'
    refine ⟨pivot, stop, [.line pivot tip white 1, .polygon square white 0, .circle tip radius white 0], head, ?_, ?_⟩
    · rw [hd]; simp
    · rw [if_pos hu] at hstop
      have a := hstop.1.1
      have b := hp.1.2
      simp only at a b
      rw [show (1.25 * l + -1 * (l / 5)) / (2.5 * l) * ((500 : ℕ) : ℝ) = 210 by push_cast; field_simp; norm_num] at a
      rw [show (1.25 * l) / (2.5 * l) * ((500 : ℕ) : ℝ) = 250 by push_cast; field_simp; norm_num] at b
      have : (stop.1 : ℝ) < pivot.1 := by linarith
      exact_mod_cast this

example : ∃ acc beta : ℝ, (2 + 8) * acc + 2 * (0.5 / 2) * (beta * cos 0 - 0 ^ 2 * sin 0) = 50 ∧
    4 / 3 * (0.5 / 2) * beta + acc * cos 0 = 9.8 * sin 0 := ⟨100 / 17, -300 / 17, by norm_num, by norm_num⟩

/-! ### Segway -/

/-- The position of the wheel after renders with the given velocities of the wheel, from the start of the episode. -/
def segTrack (l r dt : ℝ) (wheels : List ℝ) : ℝ := wheels.foldl (segMove l r dt) 0

theorem fmodPos_mem {x m : ℝ} (hm : 0 < m) : 0 ≤ fmodPos x m ∧ fmodPos x m < m := by
  have h1 := Int.floor_le (x / m)
  have h2 := Int.lt_floor_add_one (x / m)
  rw [le_div_iff₀ hm] at h1
  rw [div_lt_iff₀ hm] at h2
  unfold fmodPos
  constructor <;> nlinarith

theorem segMove_spec {l : ℝ} (hl : 0 < l) (r dt x w : ℝ) :
    |segMove l r dt x w| ≤ 2.5 * l ∧ ∃ k : ℤ, segMove l r dt x w = x - w * r * dt + k * (5 * l) := by
  simp only [segMove]
  split
  · have h := fmodPos_mem (x := 2.5 * l + (x + -w * r * dt)) (m := 5 * l) (by positivity)
    refine ⟨abs_le.mpr ⟨by linarith [h.1], by linarith [h.2]⟩, -⌊(2.5 * l + (x + -w * r * dt)) / (5 * l)⌋, ?_⟩
    simp only [fmodPos]; push_cast; ring
  · rename_i h
    push Not at h
    exact ⟨abs_le.mpr ⟨by linarith [h.2], h.1⟩, 0, by push_cast; ring⟩

theorem segTrack_spec {l : ℝ} (hl : 0 < l) (r dt : ℝ) (wheels : List ℝ) :
    |segTrack l r dt wheels| ≤ 2.5 * l ∧ ∃ k : ℤ, segTrack l r dt wheels = k * (5 * l) - wheels.sum * r * dt := by
  induction wheels using List.reverseRecOn with
  | nil => exact ⟨by simp only [segTrack, List.foldl_nil, abs_zero]; positivity, 0, by simp [segTrack]⟩
  | append_singleton ws w ih =>
      obtain ⟨-, k, hk⟩ := ih
      have e : segTrack l r dt (ws ++ [w]) = segMove l r dt (segTrack l r dt ws) w := by simp [segTrack]
      obtain ⟨h1, j, hj⟩ := segMove_spec hl r dt (segTrack l r dt ws) w
      rw [e]
      refine ⟨h1, j + k, ?_⟩
      rw [hj, hk]
      simp only [List.sum_append, List.sum_cons, List.sum_nil]
      push_cast; ring

/-- The segway: after any number of renders of an episode the wheel is drawn in the window, at the place reached by rolling with
the rendered velocities, where the window wraps around; the pole leads from there, with twice the length `l`, in the direction of
its angle. The part of the code for wheels outside the window is never used. -/
theorem C128_segway {l : ℝ} (hl : 0 < l) (r dt : ℝ) (wheels : List ℝ) (state : ℝ × ℝ × ℝ) (cv : Canvas) :
    ∃ x top wheel stop radius,
      segDraw l r dt (some cv) (segTrack l r dt wheels) state =
        (some ⟨cv.background, cv.shapes ++ [.line wheel stop white 1, .circle wheel radius white 0]⟩,
          segTrack l r dt (wheels ++ [state.2.2])) ∧
      (0 ≤ x ∧ x ≤ 5 * l) ∧ (∃ k : ℤ, x = 2.5 * l - (wheels ++ [state.2.2]).sum * r * dt + k * (5 * l)) ∧
      Shows (5 * l) (5 * l) 500 500 (x, 2.5 * l) wheel ∧
      top = (x - 2 * l * sin state.1, 2.5 * l + 2 * l * cos state.1) ∧
      stop = (Viewer.new (5 * l) (5 * l)).transform top ∧
      (0 ≤ top.1 ∧ top.1 ≤ 5 * l → Shows (5 * l) (5 * l) 500 500 top stop) := by
  obtain ⟨hb, k, hk⟩ := segTrack_spec hl r dt (wheels ++ [state.2.2])
  have e : segTrack l r dt (wheels ++ [state.2.2]) = segMove l r dt (segTrack l r dt wheels) state.2.2 := by simp [segTrack]
  obtain ⟨b1, b2⟩ := abs_le.mp hb
  set X := segTrack l r dt (wheels ++ [state.2.2]) with hX
  have hends : segEnds l X state.1 = ((2.5 * l + X, 2.5 * l), (2.5 * l + X - 2 * l * sin state.1, 2.5 * l + 2 * l * cos state.1)) := by
    simp only [segEnds]
    rw [if_neg]
    · simp only [Prod.mk.injEq, true_and, and_true]; ring
    · rintro (⟨h, -⟩ | ⟨h, -⟩) <;> linarith
  refine ⟨2.5 * l + X, _, (Viewer.new (5 * l) (5 * l)).transform (2.5 * l + X, 2.5 * l), _,
    trunc (r * (Viewer.new (5 * l) (5 * l)).ratio.1), ?_, ⟨by linarith, by linarith⟩, ⟨k, by rw [hk]; ring⟩, ?_, rfl, rfl, ?_⟩
  · simp only [segDraw, ← e, hends, Viewer.line, Viewer.circle, draw_eq, screen_some, List.append_assoc, List.cons_append,
      List.nil_append]
  · refine shows_transform (by positivity) (by positivity) 500 500 black ⟨⟨?_, ?_⟩, ?_, ?_⟩ <;> simp only <;> nlinarith
  · intro ht
    have c := neg_one_le_cos state.1
    have d := cos_le_one state.1
    refine shows_transform (by positivity) (by positivity) 500 500 black ⟨ht, ?_, ?_⟩ <;> simp only <;> nlinarith

/-- Rendering the segway is not without effect: a second picture of the same state shows the wheel at another place. -/
theorem C128_segway_refuted : ∃ (wheel : ℝ), segTrack segL segR 0.02 [wheel, wheel] ≠ segTrack segL segR 0.02 [wheel] := by
  refine ⟨1, ?_⟩
  norm_num [segTrack, segMove, segL, segR]

/-! ### Ship -/

/-- The picture of the ship: the gate and a boat of fixed shape around the position, turned so that its bow points in the
direction in which the ship moves next. -/
theorem C128_ship (f : Field) (hf : f = smallField ∨ f = largeField) (cv : Canvas) (s : Ship) (r : ℝ)
    (hs : InWorld f.size f.size (s.x, s.y)) :
    ∃ a b hull, shipDraw f (some cv) s = some ⟨cv.background, cv.shapes ++
        [.line a b white 3, .polygon hull (32, 193, 54) 0]⟩ ∧
      Shows f.size f.size 500 500 f.gateS a ∧ Shows f.size f.size 500 500 f.gateE b ∧
      ∃ exact : List (ℝ × ℝ), hull = exact.map (shipViewer f).transform ∧ exact.length = boat.length ∧
        (∀ (i j : ℕ) p q p' q', boat[i]? = some p → boat[j]? = some q → exact[i]? = some p' → exact[j]? = some q' → dist2 p' q' = dist2 p q) ∧
        (∀ (i : ℕ) p p', boat[i]? = some p → exact[i]? = some p' → dist2 p' (s.x, s.y) = dist2 p (0, 0)) ∧
        ∃ t : ℝ, 0 < t ∧ exact[3]? = some (s.x + t * ((shipAdvance r s).x - s.x), s.y + t * ((shipAdvance r s).y - s.y)) := by
  have hdist : ∀ p q c : ℝ × ℝ, dist2 (p + c) (q + c) = dist2 p q := by
    intro p q c; simp [dist2]
  refine ⟨(shipViewer f).transform f.gateS, (shipViewer f).transform f.gateE, (boat.map (fun p => rotate p s.heading + (s.x, s.y))).map
    (shipViewer f).transform, ?_, ?_, ?_, boat.map (fun p => rotate p s.heading + (s.x, s.y)), rfl, by simp, ?_, ?_, ?_⟩
  · simp only [shipDraw, Viewer.line, Viewer.polygon, draw_eq, screen_some, List.append_assoc, List.cons_append, List.nil_append,
      List.map_map, Function.comp_def]
  · obtain rfl | rfl := hf
    · exact shows_transform (by norm_num [smallField]) (by norm_num [smallField]) 500 500 _ (by norm_num [InWorld, smallField])
    · exact shows_transform (by norm_num [largeField]) (by norm_num [largeField]) 500 500 _ (by norm_num [InWorld, largeField])
  · obtain rfl | rfl := hf
    · exact shows_transform (by norm_num [smallField]) (by norm_num [smallField]) 500 500 _ (by norm_num [InWorld, smallField])
    · exact shows_transform (by norm_num [largeField]) (by norm_num [largeField]) 500 500 _ (by norm_num [InWorld, largeField])
  · intro i j p q p' q' hi hj hi' hj'
    rw [List.getElem?_map, hi] at hi'
    rw [List.getElem?_map, hj] at hj'
    simp only [Option.map_some, Option.some.injEq] at hi' hj'
    rw [← hi', ← hj', hdist, (C128_rotate p q s.heading 0 0).1]
  · intro i p p' hi hi'
    rw [List.getElem?_map, hi] at hi'
    simp only [Option.map_some, Option.some.injEq] at hi'
    rw [← hi']
    have h0 : ((s.x, s.y) : ℝ × ℝ) = rotate (0, 0) s.heading + (s.x, s.y) := by simp [rotate]
    conv_lhs => rw [h0]
    rw [show rotate p s.heading + (rotate (0, 0) s.heading + (s.x, s.y)) = rotate p s.heading + (s.x, s.y) by simp [rotate], hdist,
      (C128_rotate p (0, 0) s.heading 0 0).1]
  · refine ⟨40 / 3, by norm_num, ?_⟩
    simp only [boat, List.map_cons, List.map_nil, List.getElem?_cons_succ, List.getElem?_cons_zero, Option.some.injEq,
      rotate, shipAdvance, Prod.mk_add_mk, Prod.mk.injEq]
    constructor <;> ring

example : InWorld smallField.size smallField.size (shipReset.x, shipReset.y) := by norm_num [InWorld, smallField, shipReset]

/-! ### Car -/

theorem height_mem {x : ℝ} (h0 : 0 ≤ x) (_h1 : x ≤ 1) : 0 ≤ Envs.height x ∧ Envs.height x ≤ 1 := by
  unfold Envs.height
  split
  · constructor <;> nlinarith
  · rename_i h
    have hx : 0 ≤ 2 * x - 1 := by linarith [not_lt.mp h]
    have hs : 1 ≤ √(5 * (2 * x - 1) ^ 2 + 1) := by
      rw [Real.one_le_sqrt]; nlinarith [sq_nonneg (2 * x - 1)]
    have hle : 2 * x - 1 ≤ √(5 * (2 * x - 1) ^ 2 + 1) := by
      apply Real.le_sqrt_of_sq_le; nlinarith [sq_nonneg (2 * x - 1)]
    have h1 : (2 * x - 1) / √(5 * (2 * x - 1) ^ 2 + 1) ≤ 1 := (div_le_one (by linarith)).mpr hle
    have h2 : 0 ≤ (2 * x - 1) / √(5 * (2 * x - 1) ^ 2 + 1) := by positivity
    constructor <;> linarith

/-- The picture of the car for all positions between -1 and 1: the hill as a line through 100 points of its graph, from one side
of the window to the other, and a car whose base lies on the tangent of the hill at the position. -/
theorem C128_car (cv : Canvas) (p : ℝ) (hp : |p| ≤ 1) :
    ∃ curve car, carDraw (some cv) p = some ⟨cv.background, cv.shapes ++ [.lines curve white 1, .polygon car (32, 193, 54) 0]⟩ ∧
      curve.length = 100 ∧ (∀ i : ℕ, i < 100 → ∃ px, curve[i]? = some px ∧ Shows 1 1 500 500 ((i : ℝ) / 99, Envs.height ((i : ℝ) / 99)) px) ∧
      ∃ left right centre : ℝ × ℝ, car[0]? = some ((Viewer.new 1 1).transform left) ∧ car[7]? = some ((Viewer.new 1 1).transform right) ∧
        centre = ((p + 1) / 2, (hill p + 1) / 2) ∧ InWorld 1 1 centre ∧ centre.1 = (left.1 + right.1) / 2 ∧ centre.2 = (left.2 + right.2) / 2 ∧
        left.1 < right.1 ∧ dist2 left right = 0.06 ∧ right.2 - left.2 = diffHill p * (right.1 - left.1) := by
  obtain ⟨p1, p2⟩ := abs_le.mp hp
  have hx0 : 0 ≤ (p + 1) / 2 := by linarith
  have hx1 : (p + 1) / 2 ≤ 1 := by linarith
  refine ⟨(linspace 0 1 100).map (fun x => (Viewer.new 1 1).transform (x, Envs.height x)),
    carBody.map (fun q => (Viewer.new 1 1).transform (rotate q (carAngle ((p + 1) / 2)) + ((p + 1) / 2, Envs.height ((p + 1) / 2)))),
    ?_, by simp [linspace], ?_, ?_⟩
  · simp only [carDraw, Viewer.function, Viewer.polygon, draw_eq, screen_some, List.append_assoc, List.cons_append, List.nil_append]
  · intro i hi
    refine ⟨(Viewer.new 1 1).transform ((i : ℝ) / 99, Envs.height ((i : ℝ) / 99)), ?_, ?_⟩
    · simp only [linspace, List.map_map, List.getElem?_map, List.getElem?_range hi, Option.map_some, Function.comp_apply]
      have : (0 : ℝ) + (i : ℝ) * ((1 - 0) / (((100 : ℕ) : ℝ) - 1)) = (i : ℝ) / 99 := by push_cast; ring
      rw [this]
    · have hi' : (i : ℝ) ≤ 99 := by exact_mod_cast Nat.le_of_lt_succ hi
      have a : 0 ≤ (i : ℝ) / 99 := by positivity
      have b : (i : ℝ) / 99 ≤ 1 := by rw [div_le_one (by norm_num)]; exact hi'
      exact shows_transform one_pos one_pos 500 500 black ⟨⟨a, b⟩, height_mem a b⟩
  · set a := carAngle ((p + 1) / 2) with ha
    have hcos : 0 < cos a := by rw [ha, carAngle]; exact cos_arctan_pos _
    have htan : sin a = diffHill p * cos a := by
      have h1 : tan a = diffHill p := by rw [ha, C88_hill_angle, tan_arctan]
      rw [← h1, tan_eq_sin_div_cos, div_mul_cancel₀ _ hcos.ne']
    have hh := C88_hill_height p
    refine ⟨rotate (-3e-2, 0) a + ((p + 1) / 2, Envs.height ((p + 1) / 2)), rotate (3e-2, 0) a + ((p + 1) / 2, Envs.height ((p + 1) / 2)),
      _, rfl, rfl, rfl, ?_, ?_, ?_, ?_, ?_, ?_⟩
    · refine ⟨⟨hx0, hx1⟩, ?_⟩
      simp only [← hh]
      exact height_mem hx0 hx1
    · simp only [rotate, Prod.fst_add]; ring
    · rw [← hh]; simp only [rotate, Prod.snd_add]; ring
    · simp only [rotate, Prod.fst_add]; norm_num; linarith
    · have e : dist2 (rotate (-3e-2, 0) a + ((p + 1) / 2, Envs.height ((p + 1) / 2)))
          (rotate (3e-2, 0) a + ((p + 1) / 2, Envs.height ((p + 1) / 2))) = dist2 (rotate (-3e-2, 0) a) (rotate (3e-2, 0) a) := by
        simp [dist2]
      rw [e, (C128_rotate (-3e-2, 0) (3e-2, 0) a 0 0).1]
      simp only [dist2]
      rw [show ((-3e-2 - 3e-2 : ℝ)) ^ 2 + (0 - 0) ^ 2 = 0.06 ^ 2 by norm_num]
      exact Real.sqrt_sq (by norm_num)
    · simp only [rotate, Prod.fst_add, Prod.snd_add]
      linear_combination (3e-2 + 3e-2) * htan

/-! ### Puddle world -/

attribute [local irreducible] imgSize entries

theorem mem_entries (f : ℕ → ℕ → ℝ) {i j : ℕ} (hi : i < 100) (hj : j < 100) : f i j ∈ entries imgSize f :=
  (mem_entries_iff _ _ _).mpr ⟨i, j, by rwa [imgSize_eq], by rwa [imgSize_eq], rfl⟩

/-- The picture of a puddle world whose reward is not the same everywhere on the grid: grey values from 0 to 255, at column `i`
and row `99 - j` that of the reward at `(i, j) / 100`, brighter where the reward is lower; the lowest reward is white and the
highest black. The agent is a green point at its position, the goal a red rhombus. -/
theorem C128_puddle_partial (w : Puddle) (a b c d : ℕ) (ha : a < 100) (hb : b < 100) (hc : c < 100) (hd : d < 100)
    (hne : w.reward ((a : ℝ) / 100, (b : ℝ) / 100) ≠ w.reward ((c : ℝ) / 100, (d : ℝ) / 100)) (cv : Canvas) (s : ℝ × ℝ) (hs : InWorld 1 1 s) :
    ∃ img agent goal, puddleDraw w (some cv) s = some (some ⟨cv.background, cv.shapes ++
        [.image img, .circle agent 5 (0, 255, 0) 0, .polygon goal (255, 0, 0) 1]⟩) ∧
      Shows 1 1 500 500 s agent ∧
      (∀ i j : ℕ, i < 100 → j < 100 → 0 ≤ img i j ∧ img i j ≤ 255) ∧
      (∀ i j i' j' : ℕ, i < 100 → j < 100 → i' < 100 → j' < 100 →
        w.reward ((i : ℝ) / 100, (j : ℝ) / 100) ≤ w.reward ((i' : ℝ) / 100, (j' : ℝ) / 100) → img i' (99 - j') ≤ img i (99 - j)) ∧
      (∀ i j : ℕ, i < 100 → j < 100 →
        (∀ i' j' : ℕ, i' < 100 → j' < 100 → w.reward ((i : ℝ) / 100, (j : ℝ) / 100) ≤ w.reward ((i' : ℝ) / 100, (j' : ℝ) / 100)) → img i (99 - j) = 255) ∧
      (∀ i j : ℕ, i < 100 → j < 100 →
        (∀ i' j' : ℕ, i' < 100 → j' < 100 → w.reward ((i' : ℝ) / 100, (j' : ℝ) / 100) ≤ w.reward ((i : ℝ) / 100, (j : ℝ) / 100)) → img i (99 - j) = 0) := by
  set f := puddleRewards w with hf
  set low := (entries imgSize f).min' (entries_nonempty imgSize_pos f) with hlow
  set g : ℕ → ℕ → ℝ := fun i j => f i j - low with hg
  set high := (entries imgSize g).max' (entries_nonempty imgSize_pos g) with hhigh
  have hfr : ∀ i j, j < 100 → f i (99 - j) = w.reward ((i : ℝ) / 100, (j : ℝ) / 100) := by
    intro i j hj
    have : 99 - (99 - j) = j := by omega
    simp only [hf, puddleRewards, this]
  have hg0 : ∀ i j, i < 100 → j < 100 → 0 ≤ g i j := fun i j hi hj =>
    sub_nonneg.mpr (Finset.min'_le _ _ (mem_entries f hi hj))
  have hgh : ∀ i j, i < 100 → j < 100 → g i j ≤ high := fun i j hi hj => Finset.le_max' _ _ (mem_entries g hi hj)
  have hpos : 0 < high := by
    by_contra hle
    have hz : ∀ i j, i < 100 → j < 100 → f i j = low := by
      intro i j hi hj
      have h1 := hg0 i j hi hj
      have h2 := hgh i j hi hj
      simp only [hg] at h1 h2
      linarith [not_lt.mp hle]
    apply hne
    rw [← hfr a b hb, ← hfr c d hd, hz a _ ha (by omega), hz c _ hc (by omega)]
  have hk : 0 < 255 / high := by positivity
  have hpx : puddlePixels w = some (fun i j => ⌊255 - g i j * (255 / high)⌋) := by
    simp only [puddlePixels, ← hf, ← hlow, ← hg, ← hhigh]
    rw [if_neg hpos.ne']
  have h5 : trunc (0.01 * (Viewer.new 1 1).ratio.1) = 5 := by
    simp only [Viewer.new]
    rw [show (0.01 : ℝ) * (((500 : ℕ) : ℝ) / 1) = 5 by norm_num, trunc_nonneg (by norm_num)]
    exact Int.floor_ofNat 5
  have himg : ∀ i j i' j' : ℕ, j < 100 → j' < 100 →
      w.reward ((i : ℝ) / 100, (j : ℝ) / 100) ≤ w.reward ((i' : ℝ) / 100, (j' : ℝ) / 100) → g i (99 - j) ≤ g i' (99 - j') := by
    intro i j i' j' hj hj' h
    simp only [hg, hfr i j hj, hfr i' j' hj']
    linarith
  refine ⟨fun i j => ⌊255 - g i j * (255 / high)⌋, (Viewer.new 1 1).transform s, _, by
    simp only [puddleDraw, hpx, Viewer.backgroundImage, Viewer.circle, h5, Viewer.polygon, draw_eq, screen_some, List.append_assoc,
      List.cons_append, List.nil_append]
    rfl, shows_transform one_pos one_pos 500 500 black hs, ?_, ?_, ?_, ?_⟩
  · intro i j hi hj
    have h1 : g i j * (255 / high) ≤ 255 := by
      calc g i j * (255 / high) ≤ high * (255 / high) := mul_le_mul_of_nonneg_right (hgh i j hi hj) hk.le
        _ = 255 := by field_simp
    have h2 : 0 ≤ g i j * (255 / high) := mul_nonneg (hg0 i j hi hj) hk.le
    constructor
    · exact Int.floor_nonneg.mpr (by linarith)
    · have : ⌊255 - g i j * (255 / high)⌋ ≤ ⌊(255 : ℝ)⌋ := Int.floor_le_floor (by linarith)
      rwa [Int.floor_ofNat 255] at this
  · intro i j i' j' _ hj _ hj' h
    have := himg i j i' j' hj hj' h
    exact Int.floor_le_floor (by nlinarith)
  · intro i j hi hj h
    have hz : g i (99 - j) = 0 := by
      apply le_antisymm _ (hg0 i _ hi (by omega))
      obtain ⟨i', j', hi', hj', he⟩ := (mem_entries_iff _ _ _).mp (Finset.min'_mem (entries imgSize f) (entries_nonempty imgSize_pos f))
      rw [imgSize_eq] at hi' hj'
      have h3 := h i' (99 - j') hi' (by omega)
      rw [← hfr i j hj, ← hfr i' (99 - j') (by omega), show 99 - (99 - j') = j' by omega, he] at h3
      simp only [hg]
      linarith
    simp only [hz, zero_mul, sub_zero]
    exact Int.floor_ofNat 255
  · intro i j hi hj h
    have hz : g i (99 - j) = high := by
      apply le_antisymm (hgh i _ hi (by omega))
      apply Finset.max'_le
      intro y hy
      obtain ⟨i', j', hi', hj', rfl⟩ := (mem_entries_iff _ _ _).mp hy
      rw [imgSize_eq] at hi' hj'
      have h3 := himg i' (99 - j') i j (by omega) hj (h i' (99 - j') hi' (by omega))
      rwa [show 99 - (99 - j') = j' by omega] at h3
    simp only [hz]
    rw [show 255 - high * (255 / high) = 0 by field_simp; norm_num, Int.floor_zero]

/-- A puddle world without puddles cannot be drawn: the grey values are divided by zero. -/
theorem C128_puddle_refuted (w : Puddle) (hw : w.puddles = []) (s : Screen) (state : ℝ × ℝ) : puddleDraw w s state = none := by
  have hr : ∀ p, w.reward p = -1 := by intro p; simp [Puddle.reward, hw]
  have hlow : (entries imgSize (puddleRewards w)).min' (entries_nonempty imgSize_pos _) = -1 := by
    obtain ⟨i, j, -, -, he⟩ := (mem_entries_iff _ _ _).mp
      (Finset.min'_mem (entries imgSize (puddleRewards w)) (entries_nonempty imgSize_pos _))
    rw [← he, puddleRewards, hr]
  have hnone : puddlePixels w = none := by
    simp only [puddlePixels, hlow]
    rw [if_pos]
    obtain ⟨i, j, -, -, he⟩ := (mem_entries_iff _ _ _).mp
      (Finset.max'_mem (entries imgSize (fun i j => puddleRewards w i j - -1)) (entries_nonempty imgSize_pos _))
    rw [← he, puddleRewards, hr]
    norm_num
  simp only [puddleDraw, hnone]

end

end Verif.Render
