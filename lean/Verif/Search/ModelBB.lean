/-
Model of /repo/mushroom_rl/algorithms/policy_search/black_box_optimization: the updates of REPS, RWR, PGPE and MORE, the start of
episodes, and /repo/mushroom_rl/policy/vector_policy.py.

The numerical minimisers of scipy are not modelled: the multipliers they return are arguments. ConstrainedREPS has the dual of
REPS and the update `con_wmle` modelled in `ModelDist`. ePPO is in `ModelEppo`.
-/
import Verif.Search.ModelDist
import Mathlib.Analysis.SpecialFunctions.Exp

namespace Verif.Search

open Matrix

variable {n : ℕ}

/-! ### reps.py, rwr.py -/

/-- `np.max(Jep)`, for at least one episode. -/
noncomputable def maxJ : List ℝ → ℝ
  | [] => 0
  | [x] => x
  | x :: y :: l => max x (maxJ (y :: l))

/-- `np.mean` of a list. -/
noncomputable def avg (l : List ℝ) : ℝ := l.sum / l.length

/-- `_dual_function`. reps.py L50-60, constrained_reps.py L53-63. -/
noncomputable def repsDual (eps : ℝ) (J : List ℝ) (eta : ℝ) : ℝ :=
  eta * eps + eta * Real.log (avg (J.map (fun x => Real.exp ((x - maxJ J) / eta)))) + maxJ J

/-- `_dual_function_diff`. reps.py L62-76, constrained_reps.py L65-79. -/
noncomputable def repsDiff (eps : ℝ) (J : List ℝ) (eta : ℝ) : ℝ :=
  let sum1 := avg (J.map (fun x => Real.exp ((x - maxJ J) / eta)))
  let sum2 := avg (J.map (fun x => Real.exp ((x - maxJ J) / eta) * (x - maxJ J)))
  eps + Real.log sum1 - sum2 / (eta * sum1)

/-- The weights of the episodes. reps.py L44-46, constrained_reps.py L47-49. -/
noncomputable def repsWeights (eta : ℝ) (J : List ℝ) : List ℝ := J.map (fun x => Real.exp ((x - maxJ J) / eta))

/-- The weights of RWR. rwr.py L32-34. -/
noncomputable def rwrWeights (beta : ℝ) (J : List ℝ) : List ℝ := J.map (fun x => Real.exp (beta * (x - maxJ J)))

/-- `REPS._update` for the multiplier found by the minimiser, with a Gaussian distribution. reps.py L34-48. -/
noncomputable def repsUpdate (g : Gauss n) (eta : ℝ) (J : List ℝ) (theta : List (Vec n)) : Option (Gauss n) :=
  g.wmle ((repsWeights eta J).zip theta)

/-- `RWR._update`, with a Gaussian distribution. rwr.py L31-36. -/
noncomputable def rwrUpdate (g : Gauss n) (beta : ℝ) (J : List ℝ) (theta : List (Vec n)) : Option (Gauss n) :=
  g.wmle ((rwrWeights beta J).zip theta)

/-! ### pgpe.py -/

/-- The gradient of PGPE, from the derivatives of the log-density of the parameters of the episodes and the returns.
pgpe.py L27-56. -/
noncomputable def pgpeGrad {d : ℕ} (scores : List (Vec d)) (J : List ℝ) : Vec d :=
  let num := List.zipWith (fun (v : Vec d) x => (fun j => x * v j ^ 2 : Vec d)) scores J
  let den := scores.map (fun v => (fun j => v j ^ 2 : Vec d))
  let baseline := baselineOf num den
  vmean (List.zipWith (fun (v : Vec d) x => (fun j => v j * (x - baseline j) : Vec d)) scores J)

/-! ### more.py -/

/-- `np.triu_indices(n)`: row by row. more.py L95. -/
def triu (n : ℕ) : List (Fin n × Fin n) :=
  (List.finRange n).flatMap (fun i => ((List.finRange n).filter (fun j => i ≤ j)).map (fun j => (i, j)))

/-- `R[uid] = values; R.T[uid] = R[uid]`: `values` are the coefficients of the products of the variables `i ≤ j`, row by row.
more.py L94-97. -/
def symmetricOf (values : List ℝ) : Matrix (Fin n) (Fin n) ℝ :=
  let r := writeTril 0 (triu n) values
  Matrix.of (fun i j => if i ≤ j then r i j else r j i)

/-- `w[w >= 0.0] = -1e-12`. more.py L100. -/
noncomputable def clipEig (w : Vec n) : Vec n := fun k => if 0 ≤ w k then -(1 / 10 ^ 12) else w k

/-- The matrix of the surrogate after the eigenvalues have been made negative; `(w, v)` is what `np.linalg.eig` returned.
more.py L99-102. -/
noncomputable def negativeOf (w : Vec n) (v : Matrix (Fin n) (Fin n) ℝ) : Matrix (Fin n) (Fin n) ℝ :=
  let r := v * diagonal (clipEig w) * vᵀ
  (1 / 2 : ℝ) • (r + rᵀ)

/-- `F` of `_get_F_f`. more.py L133-138. -/
noncomputable def moreF (Q R : Matrix (Fin n) (Fin n) ℝ) (eta : ℝ) : Matrix (Fin n) (Fin n) ℝ := (eta • Q⁻¹ - (2 : ℝ) • R)⁻¹

/-- `f` of `_get_F_f`. more.py L133-138. -/
noncomputable def moreVec (Q : Matrix (Fin n) (Fin n) ℝ) (b r : Vec n) (eta : ℝ) : Vec n := eta • (Q⁻¹ *ᵥ b) + r

/-- `_closed_form_mu_t1_sig_t1`. more.py L124-130. -/
noncomputable def moreClosed (Q : Matrix (Fin n) (Fin n) ℝ) (b : Vec n) (R : Matrix (Fin n) (Fin n) ℝ) (r : Vec n) (eta omg : ℝ) :
    Vec n × Matrix (Fin n) (Fin n) ℝ :=
  (moreF Q R eta *ᵥ moreVec Q b r eta, (eta + omg) • moreF Q R eta)

/-- `_dual_function`; the determinants are positive. more.py L114-122. -/
noncomputable def moreDual (Q : Matrix (Fin n) (Fin n) ℝ) (b : Vec n) (R : Matrix (Fin n) (Fin n) ℝ) (r : Vec n) (r0 eps beta : ℝ)
    (eta omg : ℝ) : ℝ :=
  let F := moreF Q R eta
  let f := moreVec Q b r eta
  eta * eps - omg * beta + (1 / 2) * (f ⬝ᵥ (F *ᵥ f) - eta * (b ⬝ᵥ (Q⁻¹ *ᵥ b)) - eta * Real.log ((2 * Real.pi) • Q).det +
    (eta + omg) * Real.log ((2 * Real.pi) • (eta + omg) • F).det + r0)

/-- `MORE._update` for a surrogate and the multipliers found by the minimiser. more.py L60-84. -/
noncomputable def moreUpdate (cholesky : Matrix (Fin n) (Fin n) ℝ → Option (Matrix (Fin n) (Fin n) ℝ)) (g : Chol n)
    (R : Matrix (Fin n) (Fin n) ℝ) (r : Vec n) (eta omg : ℝ) : Option (Chol n) :=
  let mu : Vec n := fun i => (g.get.take n).getD i 0
  let c := writeTril 0 (tril n) (g.get.drop n)
  let new := moreClosed (c * cᵀ) mu R r eta omg
  (cholesky new.2).bind (fun c' => g.set (List.ofFn new.1 ++ (tril n).map (fun p => c' p.1 p.2)))

/-! ### vector_policy.py -/

/-- `VectorPolicy`: the weights of the copies. vector_policy.py L8-20. -/
abbrev VectorPolicy (W : Type) := List W

/-- The constructor. vector_policy.py L18. -/
def vpNew {W : Type} (w : W) (nEnvs : ℕ) : VectorPolicy W := List.replicate nEnvs w

/-- `set_n`; the number of missing copies is negative where it is used, and `range` of a negative number is empty.
vector_policy.py L37-42. -/
def vpSetN {W : Type} (p : VectorPolicy W) (nEnvs : ℕ) : VectorPolicy W :=
  let p := if p.length < nEnvs then p.take nEnvs else p
  if nEnvs < p.length then p ++ (List.range (nEnvs - p.length)).flatMap (fun _ => p.take 1) else p

/-- `set_weights`: fails (`IndexError`) with fewer rows than copies, further rows are ignored. vector_policy.py L47-57. -/
def vpSet {W : Type} (p : VectorPolicy W) (weights : List W) : Option (VectorPolicy W) :=
  if weights.length < p.length then none else some (weights.take p.length)

/-- `get_weights`. vector_policy.py L59-73. -/
def vpGet {W : Type} (p : VectorPolicy W) : List W := p

/-- `policy_state[i] if policy_state is not None else None`, for the rows. vector_policy.py L27. -/
def statesOf {P : Type} (k : ℕ) : Option (List P) → List (Option P)
  | none => List.replicate k none
  | some l => l.map some

/-- The actions of `draw_action` and the next states of the policy: each copy is called with its own row; there must be a row for
each copy. With a state of the policy the call fails (`AttributeError`), for arrays have no `append`. `draw` is `draw_action` of a copy with the given weights.
vector_policy.py L22-35. -/
def vpDraw {W S P A : Type} (draw : W → S → Option P → A × Option P) (p : VectorPolicy W) (state : List S)
    (policyState : Option (List P)) : Option (List A) :=
  let states := statesOf state.length policyState
  if state.length < p.length ∨ states.length < p.length then none
  else
    let rows := List.zipWith (fun w (x : S × Option P) => draw w x.1 x.2) p (state.zip states)
    if rows.any (fun r => r.2.isSome) then none else some (rows.map (fun r => r.1))

/-! ### black_box_optimization.py -/

/-- The policy of the agent. black_box_optimization.py L42-43, L60-63. -/
inductive Held (W : Type)
  | flat (w : W)
  | vector (p : VectorPolicy W)

/-- Errors. -/
inductive BBErr
  | typeError
  | indexError
  deriving DecidableEq

/-- `array[mask]`. -/
def masked {α : Type} (l : List α) (mask : List Bool) : Except BBErr (List α) :=
  if l.length = mask.length then .ok ((l.zip mask).filterMap (fun p => if p.2 then some p.1 else none)) else .error .indexError

/-- `array[mask] = values`, with as many values as the mask selects. -/
def assign {α : Type} : List α → List Bool → List α → List α
  | [], _, _ => []
  | l, [], _ => l
  | _ :: l, true :: m, v :: vs => v :: assign l m vs
  | x :: l, true :: m, [] => x :: assign l m []
  | x :: l, false :: m, vs => x :: assign l m vs

/-- The policies used by a vectorised start. black_box_optimization.py L59-63. -/
def adapt {W : Type} (k : ℕ) : Held W → VectorPolicy W
  | .flat w => vpNew w k
  | .vector l => if l.length ≠ k then vpSetN l k else l

/-- `episode_start_vectorized`. `contexts` is what the context builder returns, `none` being `None`. `sample` gives the sample for a
context and its position, `mean` the mean for a list of contexts. black_box_optimization.py L58-86. -/
def episodeStartVec {W C : Type} (sample : ℕ → C → W) (mean : List C → List W) (deterministic : Bool) (p : Held W)
    (contexts : Option (List C)) (mask : List Bool) : Except BBErr (Held W × List W) :=
  let v := adapt mask.length p
  let theta := vpGet v
  if mask.any (fun b => b) then
    match contexts with
    | none => .error .typeError
    | some c => do
      let c ← masked c mask
      let new ← if deterministic then do
          let c ← masked c mask
          pure (mean c)
        else pure (c.zipIdx.map (fun x => sample x.2 x.1))
      if theta.length = mask.length then
        let theta := assign theta mask new
        pure (.vector theta, theta)
      else .error .indexError
  else .ok (.vector v, theta)

end Verif.Search
