/-
Model of the `reset` methods of the environments in /repo/mushroom_rl/environments (cart_pole.py, inverted_pendulum.py,
segway.py, car_on_hill.py, puddle_world.py, ship_steering.py, lqr.py, finite_mdp.py) and of `LQR.generate`. Floating point
numbers are real numbers and random numbers are arguments.
-/
import Verif.Envs.Model
import Verif.Finite.Model

namespace Verif.Envs.Reset

noncomputable section

open Real Verif.Utils

/-- `np.random.uniform(lo, hi)`; `u` is the uniform number in [0, 1). -/
def uniform (lo hi u : ℝ) : ℝ := lo + (hi - lo) * u

/-- A one-dimensional NumPy array: its entries and whether its type is an integer type. -/
structure Buf where
  isInt : Bool
  data : List ℝ

/-- `b[i] = v`: a float assigned to an entry of an integer array is truncated. `none` is the IndexError. -/
def Buf.set (b : Buf) (i : ℕ) (v : ℝ) : Option Buf :=
  if i < b.data.length then some { b with data := b.data.set i (if b.isInt then trunc v else v) } else none

/-- `b[i] = f(b[i])`. -/
def Buf.update (b : Buf) (i : ℕ) (f : ℝ → ℝ) : Option Buf :=
  match b.data[i]? with
  | none => none
  | some x => b.set i (f x)

/-- What `reset` leaves: the state that is returned, and the array passed by the caller, if any. -/
structure Outcome where
  state : Buf
  caller : Option Buf

/-- The state is a new array of floats. -/
def fresh (xs : List ℝ) : Outcome := ⟨⟨false, xs⟩, none⟩

/-- `self._state = state`: the state is the array of the caller. -/
def shared (b : Buf) : Outcome := ⟨b, some b⟩

/-- `CartPole.reset`. cart_pole.py L56-66. -/
def cartReset (u : ℝ) (state : Option Buf) : Option Outcome :=
  match state with
  | none => some (fresh [uniform (-π / 8) (π / 8) u, 0])
  | some b => (b.update 0 normalizeAngle).map shared

/-- `InvertedPendulum.reset`. inverted_pendulum.py L57-71. -/
def pendulumReset (random : Bool) (u : ℝ) (state : Option Buf) : Option Outcome :=
  match state with
  | none => some (fresh [if random then uniform (-π) π u else π / 2, 0])
  | some b =>
      match b.update 0 normalizeAngle with
      | none => none
      | some b => (b.update 1 (fun w => bound w (-(5 / 2 * π)) (5 / 2 * π))).map shared

/-- `Segway.reset`. segway.py L55-69. -/
def segwayReset (random : Bool) (u : ℝ) (state : Option Buf) : Option Outcome :=
  match state with
  | none => some (fresh [if random then uniform (-π / 2) (π / 2) u else -π / 8, 0, 0])
  | some b => (b.update 0 normalizeAngle).map shared

/-- `CarOnHill.reset`. car_on_hill.py L43-49. -/
def carReset (state : Option Buf) : Outcome :=
  match state with
  | none => fresh [-0.5, 0]
  | some b => shared b

/-- The default of `start`. puddle_world.py L36. -/
def puddleStart : ℝ × ℝ := (0.2, 0.4)

/-- `PuddleWorld.reset`; the start is copied. puddle_world.py L64-70. -/
def puddleReset (start : ℝ × ℝ) (state : Option Buf) : Outcome :=
  match state with
  | none => fresh [start.1, start.2]
  | some b => shared b

/-- The bounds of the observation space. ship_steering.py L28-29. -/
def shipLow : Ship := ⟨0, 0, -π, -π / 12⟩
def shipHigh (size : ℝ) : Ship := ⟨size, size, π, π / 12⟩

/-- `ShipSteering.reset()`; the four arguments are `np.random.rand(4)`. ship_steering.py L57-66. -/
def shipStart (small : Bool) (u0 u1 u2 u3 : ℝ) : Ship :=
  if small then shipReset
  else
    let lo := shipLow
    let hi := shipHigh 1000
    ⟨(hi.x - lo.x) * u0 + lo.x, (hi.y - lo.y) * u1 + lo.y, (hi.heading - lo.heading) * u2 + lo.heading,
      (hi.rate - lo.rate) * u3 + lo.rate⟩

/-- `LQR.reset()`. `rand` are the uniform numbers behind `np.random.uniform(-3, 3, size)`. environments/lqr.py L114-127. -/
def lqrReset {n m : ℕ} (e : LQR n m) (randomInit : Bool) (rand : Fin n → ℝ) (initial state : Option (Fin n → ℝ)) : Fin n → ℝ :=
  match state with
  | none => e.reset (if randomInit then some (fun i => uniform (-3) 3 (rand i)) else none) initial
  | some x => x

/-- `FiniteMDP.reset`. `u` is the uniform number of `np.random.choice(n, p=mu)` and `k` the number drawn by
`np.random.choice(n)`, which raises for `n = 0`. The constructor has checked the size of `mu`. finite_mdp.py L42-52. -/
def finiteReset (nS : ℕ) (mu : Option (List ℝ)) (u : ℝ) (k : ℕ) (state : Option ℕ) : Option ℕ :=
  match state with
  | some s => some s
  | none =>
    match mu with
    | some mu => Finite.choice mu u
    | none => if 0 < nS then some k else none

/-- A Python index into an axis of length `n`; `none` is the IndexError. -/
def pyIndex (n : ℕ) (i : ℤ) : Option ℕ :=
  if 0 ≤ i ∧ i < n then some i.toNat else if -(n : ℤ) ≤ i ∧ i < 0 then some (i + n).toNat else none

/-- The dimensions used by `LQR.generate`; `none` is the failed assertion. environments/lqr.py L98-102. -/
def lqrDims (dimensions sDim aDim : Option ℕ) : Option (ℕ × ℕ) :=
  match sDim, aDim, dimensions with
  | some s, some a, _ => some (s, a)
  | _, _, some d => some (d, d)
  | _, _, none => none

/-- `np.eye(n, m)`. -/
def eye (n m : ℕ) : Matrix (Fin n) (Fin m) ℝ := fun i j => if i.val = j.val then 1 else 0

/-- `m[i, i] = v`. -/
def setDiag {n : ℕ} (m : Matrix (Fin n) (Fin n) ℝ) (i : ℕ) (v : ℝ) : Matrix (Fin n) (Fin n) ℝ :=
  fun a b => if a.val = i ∧ b.val = i then v else m a b

/-- `LQR.generate`, after the dimensions are known. environments/lqr.py L103-112. -/
def lqrGenerate (s a : ℕ) (eps scale : ℝ) (index : ℤ) (maxPos maxAction : Option ℝ) (episodic : Bool) : Option (LQR s a) :=
  let A := eye s s
  let B := eye s a
  let Q : Matrix (Fin s) (Fin s) ℝ := fun i j => eps * eye s s i j * scale
  let R : Matrix (Fin a) (Fin a) ℝ := fun i j => (1 - eps) * eye a a i j * scale
  match pyIndex s index with
  | none => none
  | some i =>
    match pyIndex a index with
    | none => none
    | some j => some ⟨A, B, setDiag Q i ((1 - eps) * scale), setDiag R j (eps * scale), maxPos, maxAction, episodic⟩

end

end Verif.Envs.Reset
