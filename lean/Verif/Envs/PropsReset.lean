/-
C125. Resetting an environment.
-/
import Verif.Envs.ModelReset
import Verif.Envs.Props
import Verif.Finite.PropsMDP

namespace Verif.Envs.Reset

noncomputable section

open Real Verif.Utils

/-- A draw that depends on one uniform number in [0, 1) is uniform on [lo, hi): it is an increasing affine function of the
number onto the interval, so that every value is drawn for exactly one number. -/
def UniformOn (lo hi : ℝ) (f : ℝ → ℝ) : Prop :=
  (∀ u, 0 ≤ u → u < 1 → lo ≤ f u ∧ f u < hi) ∧
  (∀ x, lo ≤ x → x < hi → ∃ u, 0 ≤ u ∧ u < 1 ∧ f u = x) ∧
  (∀ u v, f v - f u = (hi - lo) * (v - u))

theorem uniformOn {lo hi : ℝ} (h : lo < hi) : UniformOn lo hi (uniform lo hi) := by
  have hd : 0 < hi - lo := by linarith
  refine ⟨fun u h0 h1 => ?_, fun x hx hx' => ⟨(x - lo) / (hi - lo), ?_, ?_, ?_⟩, fun u v => ?_⟩
  · unfold uniform; constructor <;> nlinarith
  · exact div_nonneg (by linarith) hd.le
  · rw [div_lt_one hd]; linarith
  · unfold uniform; field_simp; ring
  · unfold uniform; ring

/-- C125. `CartPole.reset()` starts at rest, with an angle that is uniform on [-π/8, π/8), so that the pole has not fallen. -/
theorem C125_cart : UniformOn (-(π / 8)) (π / 8) (fun u => ((cartReset u none).map (fun o => o.state.data.getD 0 0)).getD 0) ∧
    ∀ u, 0 ≤ u → u < 1 → ∃ angle, cartReset u none = some ⟨⟨false, [angle, 0]⟩, none⟩ ∧ |angle| ≤ π / 2 := by
  have hpi := pi_pos
  have key := uniformOn (lo := -(π / 8)) (hi := π / 8) (by linarith)
  have e : -π / 8 = -(π / 8) := by ring
  refine ⟨by simpa [cartReset, fresh, e] using key, fun u h0 h1 => ⟨_, rfl, ?_⟩⟩
  rw [e]
  have := key.1 u h0 h1
  rw [abs_le]; constructor <;> linarith

/-- C125. `InvertedPendulum.reset()` starts at rest in the observation space: horizontally, or with an angle that is uniform on
[-π, π). -/
theorem C125_pendulum : UniformOn (-π) π (fun u => ((pendulumReset true u none).map (fun o => o.state.data.getD 0 0)).getD 0) ∧
    (∀ u, pendulumReset false u none = some ⟨⟨false, [π / 2, 0]⟩, none⟩) ∧
    ∀ random u, 0 ≤ u → u < 1 → ∃ angle, pendulumReset random u none = some ⟨⟨false, [angle, 0]⟩, none⟩ ∧ |angle| ≤ π := by
  have hpi := pi_pos
  have key := uniformOn (lo := -π) (hi := π) (by linarith)
  refine ⟨by simpa [pendulumReset, fresh] using key, fun u => rfl, fun random u h0 h1 => ⟨_, rfl, ?_⟩⟩
  have := key.1 u h0 h1
  cases random <;> simp only [Bool.false_eq_true, if_false, if_true] <;> rw [abs_le] <;> constructor <;> linarith

/-- C125. `Segway.reset()` starts at rest: leaning by π/8, or with an angle that is uniform on [-π/2, π/2). It has not fallen. -/
theorem C125_segway :
    UniformOn (-(π / 2)) (π / 2) (fun u => ((segwayReset true u none).map (fun o => o.state.data.getD 0 0)).getD 0) ∧
    (∀ u, segwayReset false u none = some ⟨⟨false, [-(π / 8), 0, 0]⟩, none⟩) ∧
    ∀ random u, 0 ≤ u → u < 1 → ∃ angle, segwayReset random u none = some ⟨⟨false, [angle, 0, 0]⟩, none⟩ ∧ |angle| ≤ π / 2 := by
  have hpi := pi_pos
  have key := uniformOn (lo := -(π / 2)) (hi := π / 2) (by linarith)
  have e : -π / 2 = -(π / 2) := by ring
  have e8 : -π / 8 = -(π / 8) := by ring
  refine ⟨by simpa [segwayReset, fresh, e] using key, fun u => by simp [segwayReset, fresh, e8], fun random u h0 h1 => ⟨_, rfl, ?_⟩⟩
  have := key.1 u h0 h1
  cases random <;> simp only [Bool.false_eq_true, if_false, if_true, e, e8] <;> rw [abs_le] <;> constructor <;> linarith

example : UniformOn 0 1 (fun u => u) := by
  have := uniformOn (lo := 0) (hi := 1) (by norm_num)
  have e : uniform 0 1 = fun u => u := by funext u; simp [uniform]
  rwa [e] at this

/-- C125. `CarOnHill.reset()` starts at rest in the observation space, at position -0.5, where the slope is zero; the episode is
not over there. `PuddleWorld.reset()` starts at the given place, by default inside the square and outside the goal region. -/
theorem C125_car_puddle :
    carReset none = ⟨⟨false, [-0.5, 0]⟩, none⟩ ∧ (carOutcome (-0.5) 0).2 = false ∧ diffHill (-0.5) = 0 ∧
    (∀ start, puddleReset start none = ⟨⟨false, [start.1, start.2]⟩, none⟩) ∧
    UnitSquare puddleStart ∧ ¬ |puddleStart.1 - 1| + |puddleStart.2 - 1| < 0.1 := by
  refine ⟨rfl, ?_, ?_, fun _ => rfl, ?_, ?_⟩
  · by_contra h
    have h' : (carOutcome (-0.5) 0).2 = true := by simpa using h
    refine (C65_car (-0.5) 0).1.mp h' ⟨?_, ?_⟩
    · rw [abs_le]; constructor <;> norm_num
    · simp
  · unfold diffHill; norm_num
  · unfold UnitSquare puddleStart; norm_num
  · unfold puddleStart
    rw [abs_of_neg (by norm_num), abs_of_neg (by norm_num)]; norm_num

/-- C125. The large ship starts at a place that is uniform in the whole observation space, each component on its own. -/
theorem C125_ship :
    (∀ u0 u1 u2 u3, 0 ≤ u0 → u0 < 1 → 0 ≤ u1 → u1 < 1 → 0 ≤ u2 → u2 < 1 → 0 ≤ u3 → u3 < 1 →
      ShipSpace 1000 (shipStart false u0 u1 u2 u3)) ∧
    (∀ a b c, UniformOn 0 1000 (fun u => (shipStart false u a b c).x) ∧ UniformOn 0 1000 (fun u => (shipStart false a u b c).y) ∧
      UniformOn (-π) π (fun u => (shipStart false a b u c).heading) ∧
      UniformOn (-(π / 12)) (π / 12) (fun u => (shipStart false a b c u).rate)) ∧
    (∀ a b c d a' b' c' d', (shipStart false a b c d).x = (shipStart false a b' c' d').x ∧
      (shipStart false a b c d).y = (shipStart false a' b c' d').y ∧
      (shipStart false a b c d).heading = (shipStart false a' b' c d').heading ∧
      (shipStart false a b c d).rate = (shipStart false a' b' c' d).rate) ∧
    (∀ a b c d, shipStart true a b c d = ⟨0, 0, π / 2, 0⟩) := by
  have hpi := pi_pos
  have e12 : -π / 12 = -(π / 12) := by ring
  have hu : ∀ lo hi : ℝ, (fun u => (hi - lo) * u + lo) = uniform lo hi := by
    intro lo hi; funext u; unfold uniform; ring
  have hall : ∀ a b c, UniformOn 0 1000 (fun u => (shipStart false u a b c).x) ∧ UniformOn 0 1000 (fun u => (shipStart false a u b c).y) ∧
      UniformOn (-π) π (fun u => (shipStart false a b u c).heading) ∧
      UniformOn (-(π / 12)) (π / 12) (fun u => (shipStart false a b c u).rate) := by
    intro a b c
    simp only [shipStart, shipLow, shipHigh, Bool.false_eq_true, if_false, hu, e12]
    exact ⟨uniformOn (by norm_num), uniformOn (by norm_num), uniformOn (by linarith), uniformOn (by linarith)⟩
  refine ⟨?_, hall, ?_, fun _ _ _ _ => rfl⟩
  · intro u0 u1 u2 u3 a0 b0 a1 b1 a2 b2 a3 b3
    have h0 := ((hall u1 u2 u3).1).1 u0 a0 b0
    have h1 := ((hall u0 u2 u3).2.1).1 u1 a1 b1
    have h2 := ((hall u0 u1 u3).2.2.1).1 u2 a2 b2
    have h3 := ((hall u0 u1 u2).2.2.2).1 u3 a3 b3
    exact ⟨h0.1, h0.2.le, h1.1, h1.2.le, h2.1, h2.2.le, h3.1, h3.2.le⟩
  · intro a b c d a' b' c' d'
    exact ⟨rfl, rfl, rfl, rfl⟩

/-! ### A state given by the caller -/

/-- The full claim for a given state: the environment starts in the given state, up to the representation of its angle, and the
array of the caller is left alone. -/
def StartsFrom (given : List ℝ) (o : Outcome) : Prop :=
  (∃ angle, SameRotation angle (given.getD 0 0) ∧ -π < angle ∧ angle ≤ π ∧ o.state.data = angle :: given.tail) ∧
  o.caller.map (·.data) = some given

theorem update_zero (isInt : Bool) (a : ℝ) (rest : List ℝ) (f : ℝ → ℝ) :
    (Buf.mk isInt (a :: rest)).update 0 f = some ⟨isInt, (if isInt then (trunc (f a) : ℝ) else f a) :: rest⟩ := by
  simp [Buf.update, Buf.set]

theorem update_one (isInt : Bool) (a b : ℝ) (rest : List ℝ) (f : ℝ → ℝ) :
    (Buf.mk isInt (a :: b :: rest)).update 1 f = some ⟨isInt, a :: (if isInt then (trunc (f b) : ℝ) else f b) :: rest⟩ := by
  simp [Buf.update, Buf.set]

/-- C125. CartPole and Segway with a given array of floats: the angle of the state is the given one up to full turns, in (-π, π],
and the other entries are the given ones. The array of the caller afterwards is the state itself. It keeps its entries exactly
if the given angle was already in (-π, π], and a second reset with the same array starts in the same state. -/
theorem C125_given_partial (u : ℝ) (a : ℝ) (rest : List ℝ) :
    ∃ angle, SameRotation angle a ∧ -π < angle ∧ angle ≤ π ∧
      (∀ random, segwayReset random u (some ⟨false, a :: rest⟩) = cartReset u (some ⟨false, a :: rest⟩)) ∧
      cartReset u (some ⟨false, a :: rest⟩) = some ⟨⟨false, angle :: rest⟩, some ⟨false, angle :: rest⟩⟩ ∧
      (angle :: rest = a :: rest ↔ -π < a ∧ a ≤ π) ∧
      cartReset u (some ⟨false, angle :: rest⟩) = cartReset u (some ⟨false, a :: rest⟩) := by
  obtain ⟨h1, h2, h3⟩ := C38_normalize a
  refine ⟨normalizeAngle a, h1, h2, h3, fun _ => rfl, ?_, ?_, ?_⟩
  · simp [cartReset, update_zero, shared]
  · constructor
    · intro h
      have : normalizeAngle a = a := (List.cons.inj h).1
      rw [this] at h2 h3
      exact ⟨h2, h3⟩
    · rintro ⟨h4, h5⟩
      rw [C38_unique a a ⟨0, by simp⟩ h4 h5]
  · simp [cartReset, update_zero, C38_idempotent]

/-- C125. The pendulum with a given array of floats: as above, and the velocity is the nearest one in ±5π/2, so that the state
is in the observation space. -/
theorem C125_given_pendulum_partial (random : Bool) (u a w : ℝ) :
    ∃ angle speed, SameRotation angle a ∧ -π < angle ∧ angle ≤ π ∧ |speed| ≤ 5 / 2 * π ∧ (|w| ≤ 5 / 2 * π → speed = w) ∧
      (∀ v, |v| ≤ 5 / 2 * π → |speed - w| ≤ |v - w|) ∧
      pendulumReset random u (some ⟨false, [a, w]⟩) = some ⟨⟨false, [angle, speed]⟩, some ⟨false, [angle, speed]⟩⟩ ∧
      ([angle, speed] = [a, w] ↔ (-π < a ∧ a ≤ π) ∧ |w| ≤ 5 / 2 * π) ∧
      pendulumReset random u (some ⟨false, [angle, speed]⟩) = pendulumReset random u (some ⟨false, [a, w]⟩) := by
  have hpi := pi_pos
  obtain ⟨h1, h2, h3⟩ := C38_normalize a
  set m := 5 / 2 * π with hm
  have hm0 : 0 < m := by rw [hm]; linarith
  have hb := bound_mem (x := w) (lo := -m) (hi := m) (by linarith)
  have hid : |w| ≤ m → bound w (-m) m = w := fun h => bound_id (abs_le.mp h).1 (abs_le.mp h).2
  have hbb : bound (bound w (-m) m) (-m) m = bound w (-m) m := bound_id hb.1 hb.2
  refine ⟨normalizeAngle a, bound w (-m) m, h1, h2, h3, abs_le.mpr hb, hid, ?_, ?_, ?_, ?_⟩
  · intro v hv
    rw [abs_le] at hv
    by_cases hw : |w| ≤ m
    · rw [hid hw]; simp
    · rcases lt_abs.mp (not_le.mp hw) with h | h
      · have e : bound w (-m) m = m := by
          unfold bound; rw [min_eq_right h.le, max_eq_right (by linarith)]
        rw [e, abs_of_neg (by linarith), abs_of_neg (by linarith)]; linarith
      · have e : bound w (-m) m = -m := by
          unfold bound; rw [min_eq_left (by linarith), max_eq_left (by linarith)]
        rw [e, abs_of_pos (by linarith), abs_of_pos (by linarith)]; linarith
  · simp [pendulumReset, update_zero, update_one, shared, ← hm]
  · constructor
    · intro h
      simp only [List.cons.injEq, and_true] at h
      rw [h.1] at h2 h3
      rw [h.2] at hb
      exact ⟨⟨h2, h3⟩, abs_le.mpr hb⟩
    · rintro ⟨⟨h4, h5⟩, h6⟩
      rw [C38_unique a a ⟨0, by simp⟩ h4 h5, hid h6]
  · simp [pendulumReset, update_zero, update_one, C38_idempotent, ← hm, hbb]

theorem norm_four : normalizeAngle 4 = 4 - 2 * π := by
  have h1 := pi_gt_three
  have h2 := pi_lt_four
  exact C38_unique 4 _ ⟨-1, by push_cast; ring⟩ (by linarith) (by linarith)

/-- C125. The full claim fails: `reset(np.array([4., 0.]))` overwrites the array of the caller. -/
theorem C125_given_refuted : ∃ given o, cartReset 0 (some ⟨false, given⟩) = some o ∧ ¬ StartsFrom given o := by
  refine ⟨[4, 0], _, rfl, ?_⟩
  rintro ⟨_, h⟩
  have h1 := pi_gt_three
  simp only [shared, Option.map_some, norm_four, Bool.false_eq_true, if_false, List.set_cons_zero, Option.some.injEq, List.cons.injEq] at h
  linarith [h.1]

/-- C125. With an array of integers the angle is truncated after it is normalised: `reset(np.array([4, 0]))` starts at the
angle -2, which is another position of the pole. -/
theorem C125_given_int_refuted : ∃ given o, cartReset 0 (some ⟨true, given⟩) = some o ∧ o.state.data = [-2, 0] ∧
    given = [4, 0] ∧ ¬ SameRotation (-2) 4 := by
  have h1 := pi_gt_d2
  have h2 := pi_lt_d2
  refine ⟨[4, 0], _, rfl, ?_, rfl, ?_⟩
  · have : trunc (4 - 2 * π) = -2 := by
      unfold trunc
      rw [if_neg (by linarith), Int.ceil_eq_iff]
      push_cast
      constructor <;> linarith
    simp only [shared, norm_four, this, if_true, List.set_cons_zero]
    norm_num
  · rintro ⟨k, hk⟩
    have h3 : (k : ℝ) * π = -3 := by linarith
    rcases le_or_gt k (-1) with h | h
    · have : (k : ℝ) ≤ -1 := by exact_mod_cast h
      nlinarith
    · have : (0 : ℝ) ≤ k := by exact_mod_cast (by omega : 0 ≤ k)
      nlinarith

/-- C125. The other environments start in the given state as it is, which is also the array of the caller. -/
theorem C125_kept_partial (b : Buf) (start : ℝ × ℝ) :
    carReset (some b) = ⟨b, some b⟩ ∧ puddleReset start (some b) = ⟨b, some b⟩ ∧
    (∀ {n m : ℕ} (e : LQR n m) random rand initial x, lqrReset e random rand initial (some x) = x) ∧
    ∀ nS mu u k s, finiteReset nS mu u k (some s) = some s :=
  ⟨rfl, rfl, fun _ _ _ _ _ => rfl, fun _ _ _ _ _ => rfl⟩

/-- C125. So the state need not be in the observation space: the car is started with position 2, outside of which the episode
would be over, the puddle world outside the square, the regulator outside its box, and the finite process in a state that does
not exist. -/
theorem C125_kept_refuted :
    (∃ p v, (carOutcome p v).2 = true ∧ (carReset (some ⟨false, [p, v]⟩)).state.data = [p, v]) ∧
    (∃ x y, ¬ UnitSquare (x, y) ∧ (puddleReset puddleStart (some ⟨false, [x, y]⟩)).state.data = [x, y]) ∧
    (∃ (e : LQR 1 1) (x : Fin 1 → ℝ), ¬ WithinBox e.maxPos (lqrReset e false 0 none (some x)) ∧
      ¬ WithinBox e.maxPos (lqrReset e false 0 (some x) none)) ∧
    (∃ nS s s', finiteReset nS none 0 0 (some s) = some s' ∧ ¬ s' < nS) := by
  refine ⟨⟨2, 0, ?_, rfl⟩, ⟨2, 0, ?_, rfl⟩, ⟨⟨1, 1, 1, 1, some 1, none, false⟩, fun _ => 2, ?_, ?_⟩, ⟨1, 3, 3, rfl, by decide⟩⟩
  · refine (C65_car 2 0).1.mpr ?_
    rintro ⟨h, _⟩
    rw [abs_of_pos (by norm_num)] at h
    norm_num at h
  · rintro ⟨_, h, _⟩; norm_num at h
  · intro h
    have := (h 1 rfl 0).2
    norm_num [lqrReset] at this
  · intro h
    have := (h 1 rfl 0).2
    norm_num [lqrReset, LQR.reset] at this

/-! ### The regulator -/

/-- C125. With `random_init` every component of the starting state is uniform on [-3, 3), cut to the box. -/
theorem C125_lqr_random {n m : ℕ} (e : LQR n m) (hpos : ∀ c, e.maxPos = some c → 0 ≤ c) (rand : Fin n → ℝ)
    (hr : ∀ i, 0 ≤ rand i ∧ rand i < 1) (initial : Option (Fin n → ℝ)) :
    WithinBox e.maxPos (lqrReset e true rand initial none) ∧
    (∀ i, |lqrReset e true rand initial none i| ≤ 3) ∧
    ∃ draw, UniformOn (-3) 3 draw ∧ ∀ i, ((∀ c, e.maxPos = some c → |draw (rand i)| ≤ c) →
        lqrReset e true rand initial none i = draw (rand i)) ∧
      ∀ c, e.maxPos = some c → (c < draw (rand i) → lqrReset e true rand initial none i = c) ∧
        (draw (rand i) < -c → lqrReset e true rand initial none i = -c) := by
  have key := uniformOn (lo := -3) (hi := 3) (by norm_num)
  have hval : ∀ i, lqrReset e true rand initial none i = boundVec e.maxPos (fun i => uniform (-3) 3 (rand i)) i := by
    intro i; rfl
  refine ⟨?_, ?_, uniform (-3) 3, key, ?_⟩
  · intro c hc i
    have h0 := hpos c hc
    rw [hval, hc]
    exact bound_mem (by linarith)
  · intro i
    have h := key.1 (rand i) (hr i).1 (hr i).2
    rw [hval]
    unfold boundVec
    cases hc : e.maxPos with
    | none => simp only; rw [abs_le]; exact ⟨h.1, h.2.le⟩
    | some c =>
        have h0 := hpos c hc
        simp only [bound]
        rw [abs_le]
        constructor
        · exact le_max_of_le_right (le_min h.1 (by linarith))
        · exact max_le (by linarith) (le_trans (min_le_left _ _) h.2.le)
  · intro i
    rw [hval]
    constructor
    · intro hin
      unfold boundVec
      cases hc : e.maxPos with
      | none => rfl
      | some c =>
          have := abs_le.mp (hin c hc)
          exact bound_id this.1 this.2
    · intro c hc
      have h0 := hpos c hc
      rw [hc]
      simp only [boundVec, bound]
      constructor
      · intro h
        rw [min_eq_right h.le, max_eq_right (by linarith)]
      · intro h
        rw [min_eq_left (by linarith), max_eq_left h.le]

/-- C125. The dimensions of `LQR.generate`. -/
theorem C125_lqr_dimensions (d s a : Option ℕ) :
    (∀ n m, s = some n → a = some m → lqrDims d s a = some (n, m)) ∧
    (∀ n, (s = none ∨ a = none) → d = some n → lqrDims d s a = some (n, n)) ∧
    (lqrDims d s a = none ↔ d = none ∧ (s = none ∨ a = none)) := by
  cases d <;> cases s <;> cases a <;> simp [lqrDims]

theorem eye_mulVec (n m : ℕ) (u : Fin m → ℝ) (i : Fin n) :
    (eye n m).mulVec u i = if h : i.val < m then u ⟨i.val, h⟩ else 0 := by
  simp only [Matrix.mulVec, dotProduct, eye, ite_mul, one_mul, zero_mul]
  split
  · rename_i h
    rw [Finset.sum_eq_single ⟨i.val, h⟩]
    · simp
    · intro b _ hb
      rw [if_neg]
      intro hi
      exact hb (Fin.ext hi.symm)
    · intro hn; exact absurd (Finset.mem_univ _) hn
  · rename_i h
    apply Finset.sum_eq_zero
    intro b _
    rw [if_neg]
    intro hi
    exact h (hi ▸ b.isLt)

theorem diag_quad {n : ℕ} (p q : ℝ) (i : ℕ) (v : Fin n → ℝ) (M : Matrix (Fin n) (Fin n) ℝ)
    (hM : ∀ a b, M a b = if a = b then (if a.val = i then p else q) else 0) :
    v ⬝ᵥ M.mulVec v = ∑ k, (if k.val = i then p else q) * v k ^ 2 := by
  simp only [dotProduct, Matrix.mulVec]
  apply Finset.sum_congr rfl
  intro k _
  have : ∑ j, M k j * v j = (if k.val = i then p else q) * v k := by
    rw [Finset.sum_eq_single k]
    · rw [hM, if_pos rfl]
    · intro b _ hb
      rw [hM, if_neg (Ne.symm hb), zero_mul]
    · intro hn; exact absurd (Finset.mem_univ _) hn
  rw [this]; ring

theorem setDiag_eye {n : ℕ} (p q : ℝ) (i : ℕ) (M : Matrix (Fin n) (Fin n) ℝ) (hM : ∀ a b, M a b = q * if a = b then 1 else 0)
    (a b : Fin n) : setDiag M i p a b = if a = b then (if a.val = i then p else q) else 0 := by
  unfold setDiag
  by_cases hab : a = b
  · subst hab
    simp only [and_self, if_true, hM, mul_one]
  · have : ¬ (a.val = i ∧ b.val = i) := fun h => hab (Fin.ext (h.1.trans h.2.symm))
    rw [if_neg this, hM, if_neg hab, if_neg hab, mul_zero]

/-- C125. The regulator built by `LQR.generate(s_dim=s, a_dim=a)` with `0 ≤ index < min s a`: component `k` of the state is
moved by component `k` of the bounded action, if there is one. Without leaving the box the reward is minus the weighted
squares: the principal state and the other actions weigh `(1 - eps) * scale`, the other states and the principal action
`eps * scale`. It is never positive for `0 ≤ eps ≤ 1` and `0 ≤ scale`. -/
theorem C125_lqr_generate (s a : ℕ) (eps scale : ℝ) (index : ℕ) (hs : index < s) (ha : index < a)
    (maxPos maxAction : Option ℝ) (hpos : ∀ c, maxPos = some c → 0 ≤ c) (episodic : Bool) :
    ∃ e : LQR s a, lqrGenerate s a eps scale index maxPos maxAction episodic = some e ∧
      e.maxPos = maxPos ∧ e.maxAction = maxAction ∧ e.episodic = episodic ∧
      ∀ (x : Fin s → ℝ) (action : Fin a → ℝ),
        let u := boundVec maxAction action
        let free : Fin s → ℝ := fun k => x k + if h : k.val < a then u ⟨k.val, h⟩ else 0
        (WithinBox maxPos free → e.step x action = (free,
          -(∑ k, (if k.val = index then (1 - eps) * scale else eps * scale) * x k ^ 2
            + ∑ k, (if k.val = index then eps * scale else (1 - eps) * scale) * u k ^ 2), false)) ∧
        ((0 ≤ eps ∧ eps ≤ 1 ∧ 0 ≤ scale) → (e.step x action).2.1 ≤ 0) := by
  have hi : pyIndex s index = some index := by
    unfold pyIndex; rw [if_pos ⟨by omega, by omega⟩]; rfl
  have hj : pyIndex a index = some index := by
    unfold pyIndex; rw [if_pos ⟨by omega, by omega⟩]; rfl
  refine ⟨_, by simp only [lqrGenerate, hi, hj]; rfl, rfl, rfl, rfl, ?_⟩
  intro x action u free
  set e : LQR s a := ⟨eye s s, eye s a, setDiag (fun i j => eps * eye s s i j * scale) index ((1 - eps) * scale),
    setDiag (fun i j => (1 - eps) * eye a a i j * scale) index (eps * scale), maxPos, maxAction, episodic⟩ with he
  have hfree : e.A.mulVec x + e.B.mulVec u = free := by
    funext k
    simp only [he, Pi.add_apply, eye_mulVec, free, k.isLt, dif_pos]
  have hQ : x ⬝ᵥ e.Q.mulVec x = ∑ k, (if k.val = index then (1 - eps) * scale else eps * scale) * x k ^ 2 := by
    apply diag_quad
    apply setDiag_eye
    intro p q
    simp only [eye, Fin.ext_iff]; ring
  have hR : u ⬝ᵥ e.R.mulVec u = ∑ k, (if k.val = index then eps * scale else (1 - eps) * scale) * u k ^ 2 := by
    apply diag_quad
    apply setDiag_eye
    intro p q
    simp only [eye, Fin.ext_iff]; ring
  have hl := C65_lqr e hpos x action
  simp only at hl
  rw [show boundVec e.maxAction action = u from rfl, hfree, hQ, hR] at hl
  have hbox : e.maxPos = maxPos := rfl
  rw [hbox] at hl
  have hcost : 0 ≤ eps ∧ eps ≤ 1 ∧ 0 ≤ scale →
      0 ≤ ∑ k : Fin s, (if k.val = index then (1 - eps) * scale else eps * scale) * x k ^ 2
        + ∑ k : Fin a, (if k.val = index then eps * scale else (1 - eps) * scale) * u k ^ 2 := by
    rintro ⟨h0, h1, h2⟩
    have e1 : 0 ≤ eps * scale := mul_nonneg h0 h2
    have e2 : 0 ≤ (1 - eps) * scale := mul_nonneg (by linarith) h2
    apply add_nonneg <;> apply Finset.sum_nonneg <;> intro k _ <;> apply mul_nonneg _ (sq_nonneg _) <;> split <;> assumption
  constructor
  · intro hw
    have hf : (e.step x action).2.2 = false := by
      by_contra h
      have h' : (e.step x action).2.2 = true := by simpa using h
      exact (hl.1.mp h').2 hw
    have h2 := (hl.2.1 hf).2
    have h1 := hl.2.2.1 hw
    exact Prod.ext h1 (Prod.ext h2 hf)
  · intro h0
    have hc := hcost h0
    cases hf : (e.step x action).2.2 with
    | false => rw [(hl.2.1 hf).2]; linarith
    | true =>
        have hbad := (hl.1.mp hf).2
        cases hm : maxPos with
        | none =>
            exfalso
            apply hbad
            intro c hc
            rw [hm] at hc
            cases hc
        | some c =>
            rw [hl.2.2.2.1 hf c hm]
            nlinarith [sq_nonneg c]

/-- C125. An index that selects a state is not enough: with fewer actions than states the same index is used for the actions,
and `LQR.generate(s_dim=2, a_dim=1, index=1)` raises. -/
theorem C125_lqr_generate_refuted : ∃ (s a : ℕ) (index : ℕ), index < s ∧ 0 < a ∧
    ∀ eps scale maxPos maxAction episodic, lqrGenerate s a eps scale index maxPos maxAction episodic = none := by
  refine ⟨2, 1, 1, by decide, by decide, fun _ _ _ _ _ => ?_⟩
  have h1 : pyIndex 2 ((1 : ℕ) : ℤ) = some 1 := by decide
  have h2 : pyIndex 1 ((1 : ℕ) : ℤ) = none := by decide
  simp only [lqrGenerate, h1, h2]

/-- C125. A single dimension is silently ignored: `LQR.generate(dimensions=2, s_dim=3)` has two states. -/
theorem C125_lqr_dimensions_refuted : ∃ d s n, lqrDims (some d) (some s) none = some (n, n) ∧ n ≠ s :=
  ⟨2, 3, 2, rfl, by decide⟩

/-! ### Finite processes -/

/-- C125. With an initial distribution state `s` is drawn for the numbers of an interval of length `mu s`, and the draw always
succeeds; without one the state is the drawn integer. A vector that is not a distribution raises. -/
theorem C125_finite (nS : ℕ) (mu : List ℝ) (hlen : mu.length = nS) (u : ℝ) (k : ℕ) :
    ((∀ x ∈ mu, 0 ≤ x) → mu.sum = 1 → 0 ≤ u → u < 1 →
      (∃ s, finiteReset nS (some mu) u k none = some s ∧ s < nS ∧ 0 < mu.getD s 0) ∧
      ∀ s, finiteReset nS (some mu) u k none = some s ↔
        s < nS ∧ (mu.take s).sum ≤ u ∧ u < (mu.take s).sum + mu.getD s 0) ∧
    (¬ ((∀ x ∈ mu, 0 ≤ x) ∧ mu.sum = 1) → finiteReset nS (some mu) u k none = none) ∧
    (0 < nS → finiteReset nS none u k none = some k) ∧
    finiteReset 0 none u k none = none := by
  refine ⟨?_, ?_, ?_, rfl⟩
  · intro hp hs h0 h1
    have hall : ∀ s, finiteReset nS (some mu) u k none = some s ↔
        s < nS ∧ (mu.take s).sum ≤ u ∧ u < (mu.take s).sum + mu.getD s 0 := by
      intro s
      rw [← hlen]
      exact Finite.C46_choice mu u hp hs h0 h1 s
    refine ⟨?_, hall⟩
    have hsome : ∃ s, finiteReset nS (some mu) u k none = some s := by
      simp only [finiteReset, Finite.choice]
      rw [if_pos ⟨hs, hp⟩]
      exact ⟨_, rfl⟩
    obtain ⟨s, h⟩ := hsome
    obtain ⟨a, b, c⟩ := (hall s).mp h
    exact ⟨s, h, a, by linarith⟩
  · intro hn
    simp only [finiteReset, Finite.choice]
    rw [if_neg (fun h => hn ⟨h.2, h.1⟩)]
  · intro h
    simp only [finiteReset, if_pos h]

example : (∀ x ∈ [(1 / 4 : ℝ), 3 / 4], 0 ≤ x) ∧ [(1 / 4 : ℝ), 3 / 4].sum = 1 := by
  constructor
  · intro x hx; fin_cases hx <;> norm_num
  · norm_num

/-- C125. An episode may start where it should already be over: without an initial distribution every state may be the first,
also one without outgoing transitions, and there every action raises. -/
theorem C125_finite_refuted : ∃ (m : Finite.FiniteMDP) (k : ℕ), k < m.nS ∧ finiteReset m.nS none 0 k none = some k ∧
    m.noExit k = true ∧ ∀ a u, m.step k a u = none := by
  refine ⟨⟨2, 1, fun s _ => if s = 0 then [0, 1] else [0, 0], fun _ _ _ => 0⟩, 1, by decide, rfl, ?_, ?_⟩
  · unfold Finite.FiniteMDP.noExit
    simp
  · intro a u
    simp [Finite.FiniteMDP.step, Finite.choice]

end

end Verif.Envs.Reset
