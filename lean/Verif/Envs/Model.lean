/-
Model of the continuous environments in /repo/mushroom_rl/environments: puddle_world.py, ship_steering.py, lqr.py,
car_on_hill.py, inverted_pendulum.py, cart_pole.py and segway.py. Floating point numbers are real numbers, random numbers are
arguments, and `scipy.integrate.odeint` is an arbitrary function. Rendering is modelled in Verif/Render.
-/
import Verif.Utils.Model
import Mathlib.Analysis.SpecialFunctions.Pow.Real
import Mathlib.Analysis.SpecialFunctions.Trigonometric.Arctan
import Mathlib.Data.Matrix.Mul

namespace Verif.Envs

noncomputable section

open Real Verif.Utils

/-- `Environment._bound`. core/environment.py L201-215. -/
def bound (x lo hi : ℝ) : ℝ := max lo (min x hi)

/-! ### puddle_world.py -/

/-- `norm.pdf(x, loc, scale)` of SciPy for positive scale. -/
def pdf (x loc scale : ℝ) : ℝ := Real.exp (-((x - loc) / scale) ^ 2 / 2) / (scale * √(2 * π))

/-- The parameters of PuddleWorld. puddle_world.py L36-46. -/
structure Puddle where
  goal : ℝ × ℝ
  threshold : ℝ
  noiseReward : ℝ
  rewardGoal : ℝ
  thrust : ℝ
  puddles : List ((ℝ × ℝ) × (ℝ × ℝ))

/-- `self._actions[i]`. puddle_world.py L48-50. -/
def Puddle.action (w : Puddle) (i : ℕ) : ℝ × ℝ :=
  let v := w.thrust * ((i % 2 * 2 : ℕ) - 1)
  if i < 4 then (if i / 2 = 0 then (v, 0) else (0, v)) else (0, 0)

/-- `self._actions[idx]`: a Python list with five entries. -/
def Puddle.pick (w : Puddle) (idx : ℤ) : Option (ℝ × ℝ) :=
  if 0 ≤ idx ∧ idx < 5 then some (w.action idx.toNat)
  else if -5 ≤ idx ∧ idx < 0 then some (w.action (idx + 5).toNat) else none

/-- `_get_reward`. puddle_world.py L124-129. -/
def Puddle.reward (w : Puddle) (s : ℝ × ℝ) : ℝ :=
  w.puddles.foldl (fun r p => r - 2 * pdf s.1 p.1.1 p.2.1 * pdf s.2 p.1.2 p.2.2) (-1)

/-- `step`: next state, reward and absorbing flag, `none` for an index error. `noise` is the uniform noise of the step and `z`
the standard normal number of the reward. puddle_world.py L72-87. -/
def Puddle.step (w : Puddle) (s : ℝ × ℝ) (idx : ℤ) (noise : ℝ × ℝ) (z : ℝ) : Option ((ℝ × ℝ) × ℝ × Bool) :=
  open Classical in
  match w.pick idx with
  | none => none
  | some a =>
      let next : ℝ × ℝ := (max 0 (min (s.1 + a.1 + noise.1) 1), max 0 (min (s.2 + a.2 + noise.2) 1))
      let absorbing := decide (|next.1 - w.goal.1| + |next.2 - w.goal.2| < w.threshold)
      let reward := if absorbing then w.rewardGoal else z * w.noiseReward + w.reward next
      some (next, reward, absorbing)

/-! ### ship_steering.py -/

/-- The state of the ship: position, heading and turning rate. -/
structure Ship where
  x : ℝ
  y : ℝ
  heading : ℝ
  rate : ℝ

/-- `field_size`, `_gate_s` and `_gate_e`. ship_steering.py L26-37. -/
structure Field where
  size : ℝ
  gateS : ℝ × ℝ
  gateE : ℝ × ℝ

def smallField : Field := ⟨150, (100, 120), (120, 100)⟩
def largeField : Field := ⟨1000, (350, 400), (450, 400)⟩

/-- `_cross_2d`. ship_steering.py L142-144. -/
def cross (r s : ℝ × ℝ) : ℝ := r.1 * s.2 - r.2 * s.1

/-- `_through_gate`. ship_steering.py L129-140. -/
def throughGate (f : Field) (start stop : ℝ × ℝ) : Bool :=
  open Classical in
  let r := f.gateE - f.gateS
  let s := stop - start
  let den := cross r s
  if den = 0 then false
  else
    let t := cross (start - f.gateS) s / den
    let u := cross (start - f.gateS) r / den
    decide (1 ≥ u ∧ u ≥ 0 ∧ 1 ≥ t ∧ t ≥ 0)

/-- The integration of one interval; `r` is the bounded action. ship_steering.py L79-84. -/
def shipAdvance (r : ℝ) (s : Ship) : Ship :=
  { x := s.x + 3 * Real.cos s.heading * 0.2
    y := s.y + 3 * Real.sin s.heading * 0.2
    heading := normalizeAngle (s.heading + s.rate * 0.2)
    rate := s.rate + (r - s.rate) * 0.2 / 5 }

/-- The loop of `step` with `k + 1` intervals left. ship_steering.py L78-100. -/
def shipLoop (f : Field) (r : ℝ) : ℕ → Ship → Ship × ℝ × Bool
  | k, s =>
      open Classical in
      let s' := shipAdvance r s
      if s'.x > f.size ∨ s'.y > f.size ∨ s'.x < 0 ∨ s'.y < 0 then
        ({ s' with x := bound s'.x 0 f.size, y := bound s'.y 0 f.size }, -100, true)
      else if throughGate f (s.x, s.y) (s'.x, s'.y) then (s', 0, true)
      else match k with
        | 0 => (s', -1, false)
        | k + 1 => shipLoop f r k s'

/-- `step` with `n_steps_action = k + 1`. ship_steering.py L72-104. -/
def shipStep (f : Field) (k : ℕ) (s : Ship) (action : ℝ) : Ship × ℝ × Bool :=
  shipLoop f (bound action (-(π / 12)) (π / 12)) k s

/-- `reset()` with `small=True`. ship_steering.py L60-62. -/
def shipReset : Ship := ⟨0, 0, π / 2, 0⟩

/-! ### lqr.py -/

/-- The parameters of LQR; `none` is infinity. environments/lqr.py L48-57. -/
structure LQR (n m : ℕ) where
  A : Matrix (Fin n) (Fin n) ℝ
  B : Matrix (Fin n) (Fin m) ℝ
  Q : Matrix (Fin n) (Fin n) ℝ
  R : Matrix (Fin m) (Fin m) ℝ
  maxPos : Option ℝ
  maxAction : Option ℝ
  episodic : Bool

/-- `_bound(x, -high, high)` with `high = c * ones`. environments/lqr.py L60-64. -/
def boundVec {k : ℕ} (c : Option ℝ) (x : Fin k → ℝ) : Fin k → ℝ :=
  match c with
  | none => x
  | some c => fun i => bound (x i) (-c) c

/-- `np.any(np.abs(x) > c)`. environments/lqr.py L138. -/
def exceeds {k : ℕ} (c : Option ℝ) (x : Fin k → ℝ) : Prop :=
  match c with
  | none => False
  | some c => ∃ i, |x i| > c

/-- `step`. `np.inf ** 2` never occurs, since the state cannot exceed infinity. environments/lqr.py L129-146. -/
def LQR.step {n m : ℕ} (e : LQR n m) (x : Fin n → ℝ) (action : Fin m → ℝ) : (Fin n → ℝ) × ℝ × Bool :=
  open Classical in
  let u := boundVec e.maxAction action
  let reward := -((Matrix.vecMul x e.Q) ⬝ᵥ x + (Matrix.vecMul u e.R) ⬝ᵥ u)
  let next := e.A.mulVec x + e.B.mulVec u
  if exceeds e.maxPos next then
    if e.episodic then (next, -(e.maxPos.getD 0) ^ 2 * 10, true) else (boundVec e.maxPos next, reward, false)
  else (next, reward, false)

/-- `reset()`; `rand` is the uniform vector if `random_init`. environments/lqr.py L114-127. -/
def LQR.reset {n m : ℕ} (e : LQR n m) (rand initial : Option (Fin n → ℝ)) : Fin n → ℝ :=
  match rand, initial with
  | some x, _ => boundVec e.maxPos x
  | none, some x => x
  | none, none => fun _ => match e.maxPos with
    | some c => 0.9 * c
    | none => 10

/-! ### car_on_hill.py -/

/-- `step` after the integration: reward and absorbing flag of the new position and velocity. environments/car_on_hill.py L58-66. -/
def carOutcome (p v : ℝ) : ℝ × Bool :=
  open Classical in
  if p < -1 ∨ |v| > 3 then (-1, true)
  else if p > 1 ∧ |v| ≤ 3 then (1, true)
  else (0, false)

/-- `diff_hill`. environments/car_on_hill.py L130-134. -/
def diffHill (p : ℝ) : ℝ := if p < 0 then 2 * p + 1 else 1 / ((1 + 5 * p ^ 2) ^ (1.5 : ℝ))

/-- `diff_2_hill`. environments/car_on_hill.py L130-135. -/
def diff2Hill (p : ℝ) : ℝ := if p < 0 then 2 else (-15 * p) / ((1 + 5 * p ^ 2) ^ (2.5 : ℝ))

/-- `_dpds` with unit mass and gravity `g`: the acceleration. environments/car_on_hill.py L137-139. -/
def carAcceleration (g m p v u : ℝ) : ℝ :=
  (u - g * m * diffHill p - v ^ 2 * m * diffHill p * diff2Hill p) / (m * (1 + diffHill p ^ 2))

/-- `_height`, at a point in [0, 1]. environments/car_on_hill.py L110-123. -/
def height (x : ℝ) : ℝ :=
  ((if x < 0.5 then 4 * x ^ 2 - 2 * x else (2 * x - 1) / √(5 * (2 * x - 1) ^ 2 + 1)) + 1) / 2

/-- `_angle`. environments/car_on_hill.py L101-108. -/
def carAngle (x : ℝ) : ℝ := Real.arctan (if x < 0.5 then 4 * x - 1 else 1 / ((20 * x ^ 2 - 20 * x + 6) ^ (1.5 : ℝ)))

/-! ### inverted_pendulum.py -/

/-- `_dynamics`: the angular acceleration. inverted_pendulum.py L108-117. -/
def pendulumField (m l g mu maxOmega u : ℝ) (s : ℝ × ℝ) : ℝ × ℝ :=
  let omega := bound s.2 (-maxOmega) maxOmega
  (omega, (-mu * omega + m * g * l * Real.sin s.1 + u) / (m * l ^ 2))

/-- `step`; `odeint` gives the state after `dt` for a control. inverted_pendulum.py L73-85. -/
def pendulumStep (odeint : ℝ → ℝ × ℝ → ℝ × ℝ) (maxU : ℝ) (s : ℝ × ℝ) (action : ℝ) : (ℝ × ℝ) × ℝ × Bool :=
  let u := bound action (-maxU) maxU
  let new := odeint u s
  let s' := (normalizeAngle new.1, bound new.2 (-(5 / 2 * π)) (5 / 2 * π))
  (s', Real.cos s'.1, false)

/-! ### cart_pole.py -/

/-- `_dynamics`: the angular acceleration. cart_pole.py L117-127. -/
def cartField (m M l g u : ℝ) (s : ℝ × ℝ) : ℝ × ℝ :=
  let alpha := 1 / (m + M)
  (s.2, (g * Real.sin s.1 - alpha * m * l * 0.5 * s.2 ^ 2 * Real.sin (2 * s.1) * 0.5 - alpha * Real.cos s.1 * u) /
    (2 / 3 * l - alpha * m * l * 0.5 * Real.cos s.1 ^ 2))

/-- `step`; `noise` is the uniform noise of the force. cart_pole.py L68-91. -/
def cartStep (odeint : ℝ → ℝ × ℝ → ℝ × ℝ) (maxU : ℝ) (s : ℝ × ℝ) (action : ℤ) (noise : ℝ) : (ℝ × ℝ) × ℝ × Bool :=
  open Classical in
  let u := if action = 0 then -maxU else if action = 1 then 0 else maxU
  let new := odeint (u + noise) s
  let s' := (normalizeAngle new.1, new.2)
  if |s'.1| > π * 0.5 then (s', -1, true) else (s', 0, false)

/-! ### segway.py -/

/-- The constants. segway.py L28-34. -/
def segMr : ℝ := 0.3 * 2
def segMp : ℝ := 2.55
def segIp : ℝ := 2.6e-2
def segIr : ℝ := 4.54e-4 * 2
def segL : ℝ := 13.8e-2
def segR : ℝ := 5.5e-2
def segG : ℝ := 9.81

/-- The components of `high`; `low` is `-high`. segway.py L39-43. -/
def segHigh : ℝ × ℝ × ℝ := (-π / 2, 15, 75)

/-- `h1`, `h2`, `h3`. segway.py L98-100. -/
def segH1 : ℝ := (segMr + segMp) * (segR ^ 2) + segIr
def segH2 (alpha : ℝ) : ℝ := segMp * segR * segL * Real.cos alpha
def segH3 : ℝ := segL ^ 2 * segMp + segIp

/-- `_dynamics`: derivatives of angle, angular velocity and wheel velocity. segway.py L93-114. -/
def segField (u : ℝ) (s : ℝ × ℝ × ℝ) : ℝ × ℝ × ℝ :=
  let alpha := s.1
  let omegaP := s.2.1
  let h2 := segH2 alpha
  (omegaP,
   -(h2 * segL * segMp * segR * Real.sin alpha * omegaP ^ 2 - segG * segH1 * segL * segMp * Real.sin alpha + (h2 + segH1) * u)
      / (segH1 * segH3 - h2 ^ 2),
   (segH3 * segL * segMp * segR * Real.sin alpha * omegaP ^ 2 - segG * h2 * segL * segMp * Real.sin alpha + (segH3 + h2) * u)
      / (segH1 * segH3 - h2 ^ 2))

/-- `step`. segway.py L71-91. -/
def segStep (odeint : ℝ → ℝ × ℝ × ℝ → ℝ × ℝ × ℝ) (s : ℝ × ℝ × ℝ) (action : ℝ) : (ℝ × ℝ × ℝ) × ℝ × Bool :=
  open Classical in
  let new := odeint (bound action (-5) 5) s
  let s' := (normalizeAngle new.1, new.2)
  if |s'.1| > π / 2 then (s', -10000, true)
  else (s', -(3 * s'.1 ^ 2 + 0.1 * s'.2.1 ^ 2 + 0.1 * s'.2.2 ^ 2), false)

end

end Verif.Envs
