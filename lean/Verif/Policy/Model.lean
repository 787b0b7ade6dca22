/-
Model of the scheduled parameters and of the policies of temporal-difference agents.

Files: mushroom_rl/rl_utils/parameters.py, mushroom_rl/rl_utils/variance_parameters.py,
mushroom_rl/approximators/table.py, mushroom_rl/policy/td_policy.py.

Floating point numbers are real numbers. An index (`*idx`) is a list of integers; partial indices (which address several
cells of the table at once) are not modelled. Random choices are described by finite distributions.
-/
import Mathlib.Analysis.SpecialFunctions.Pow.Real
import Mathlib.Analysis.SpecialFunctions.Log.Basic

namespace Verif.Policy

noncomputable section

/-! ### parameters.py -/

/-- The classes `Parameter`, `LinearParameter` and `DecayParameter`, with the attribute of each. -/
inductive Kind where
  | constant
  | linear (coeff : ℝ)
  | decay (exp : ℝ)

abbrev Index := List Nat

/-- parameters.py L33-36. `single` says that the table `_n_updates` has one cell. -/
structure Param where
  kind : Kind
  initial : ℝ
  minV : Option ℝ
  maxV : Option ℝ
  single : Bool
  counts : Index → Nat

/-- `Parameter.__init__`: parameters.py L21-36; the table of counters is zero. -/
def constantParam (value : ℝ) (minV maxV : Option ℝ) (single : Bool) : Param :=
  { kind := .constant, initial := value, minV := minV, maxV := maxV, single := single, counts := fun _ => 0 }

open Classical in
/-- `LinearParameter.__init__`: parameters.py L142-147. `none` stands for the ZeroDivisionError for `n = 0`. -/
def linearParam (value threshold : ℝ) (n : Nat) (single : Bool) : Option Param :=
  if n = 0 then none
  else
    let coeff := (threshold - value) / n
    some { kind := .linear coeff, initial := value
           minV := if 0 ≤ coeff then none else some threshold
           maxV := if 0 ≤ coeff then some threshold else none
           single := single, counts := fun _ => 0 }

/-- `DecayParameter.__init__`: parameters.py L179-181. -/
def decayParam (value exp : ℝ) (minV maxV : Option ℝ) (single : Bool) : Param :=
  { kind := .decay exp, initial := value, minV := minV, maxV := maxV, single := single, counts := fun _ => 0 }

/-- The cell an index refers to: parameters.py L56-57 and table.py L26-41: a table with one cell ignores the index. -/
def Param.cell (p : Param) (idx : Index) : Index := if p.single then [] else idx

/-- `_compute`: parameters.py L87, L152, L186-188. -/
def Param.compute (p : Param) (idx : Index) : ℝ :=
  match p.kind with
  | .constant => p.initial
  | .linear coeff => coeff * (p.counts (p.cell idx) : ℝ) + p.initial
  | .decay exp => p.initial / (max (p.counts (p.cell idx) : ℝ) 1) ^ exp

/-- `np.clip` with optional bounds. -/
def clip (x : ℝ) (lo hi : Option ℝ) : ℝ :=
  let x := match lo with
    | some l => max x l
    | none => x
  match hi with
  | some h => min x h
  | none => x

/-- `get_value`: parameters.py L74-79. -/
def Param.getValue (p : Param) (idx : Index) : ℝ := clip (p.compute idx) p.minV p.maxV

/-- `update`: parameters.py L97. -/
def Param.update (p : Param) (idx : Index) : Param :=
  { p with counts := fun c => if c = p.cell idx then p.counts c + 1 else p.counts c }

/-- `__call__`: parameters.py L56-61. -/
def Param.call (p : Param) (idx : Index) : Param × ℝ :=
  let p := p.update idx
  (p, p.getValue idx)

/-! ### variance_parameters.py -/

/-- `VarianceParameter.__init__` (variance_parameters.py L13-39; `super().__init__(value, min_value, size)` passes the size of the
tables as maximum value, so that the table of counters has the default size of one cell while the other tables have the
requested size). -/
structure VarParam where
  increasing : Bool
  exponential : Bool
  initial : ℝ
  tol : ℝ
  count : Nat
  x : Index → ℝ
  x2 : Index → ℝ
  weightsVar : Index → ℝ
  value : Index → ℝ

def varParam (increasing exponential : Bool) (initial tol : ℝ) : VarParam :=
  { increasing := increasing, exponential := exponential, initial := initial, tol := tol, count := 0
    x := fun _ => 0, x2 := fun _ => 0, weightsVar := fun _ => 0, value := fun _ => 0 }

/-- `_compute_parameter`: variance_parameters.py L90-107. -/
def VarParam.computeParameter (p : VarParam) (sigma : ℝ) : ℝ :=
  if p.increasing then
    if p.exponential then 1 - Real.exp (sigma * Real.log (1 / 2) / p.tol) else sigma / (sigma + p.tol)
  else
    if p.exponential then Real.exp (sigma * Real.log (1 / 2) / p.tol) else 1 / (sigma + p.tol)

def set (f : Index → ℝ) (i : Index) (v : ℝ) : Index → ℝ := fun j => if j = i then v else f j

/-- `update`: variance_parameters.py L44-78. -/
def VarParam.update (p : VarParam) (idx : Index) (target factor : ℝ) : VarParam :=
  let n : ℝ := p.count
  let newCount := p.count + 1
  let v := if n < 2 then p.initial
    else p.computeParameter (n * (p.x2 idx - p.x idx ^ 2) / (n - 1) * p.weightsVar idx)
  { p with
    count := newCount
    x := set p.x idx (p.x idx + (target - p.x idx) / (newCount : ℝ))
    x2 := set p.x2 idx (p.x2 idx + (target ^ 2 - p.x2 idx) / (newCount : ℝ))
    weightsVar := set p.weightsVar idx ((1 - factor * v) ^ 2 * p.weightsVar idx + (factor * v) ^ 2)
    value := set p.value idx v }

/-! ### td_policy.py -/

/-- `np.max` of a nonempty array. -/
def maxOf : List ℝ → ℝ
  | [] => 0
  | [x] => x
  | x :: y :: l => max x (maxOf (y :: l))

open Classical in
/-- `np.argwhere(q == np.max(q)).ravel()`. -/
def argmaxes (q : List ℝ) : List Nat := (List.range q.length).filter (fun a => q.getD a 0 = maxOf q)

open Classical in
/-- `EpsGreedy.__call__(state)` and `EpsGreedy.__call__(state, action)`: td_policy.py L61-78. The probability of action
`a`, for the action values `q` of the state and the current value of epsilon. -/
def epsGreedyProb (q : List ℝ) (eps : ℝ) (a : Nat) : ℝ :=
  let p := eps / q.length
  if a ∈ argmaxes q then p + (1 - eps) / (argmaxes q).length else p

/-- `EpsGreedy.__call__(state)`: L75-78. -/
def epsGreedyProbs (q : List ℝ) (eps : ℝ) : List ℝ :=
  (List.range q.length).map (fun a => epsGreedyProb q eps a)

/-- A distribution with finite support: values and their probabilities. -/
abbrev Dist (α : Type) := List (α × ℝ)

def Dist.pure {α : Type} (x : α) : Dist α := [(x, 1)]

def Dist.bind {α β : Type} (d : Dist α) (f : α → Dist β) : Dist β :=
  (d.map (fun p => (f p.1).map (fun r => (r.1, p.2 * r.2)))).flatten

/-- `np.random.uniform() < eps`, for `eps` in [0, 1]. -/
def Dist.less (eps : ℝ) : Dist Bool := [(true, eps), (false, 1 - eps)]

/-- `np.random.choice` of a list, or of `range(n)`. -/
def Dist.choice {α : Type} (l : List α) : Dist α := l.map (fun x => (x, 1 / (l.length : ℝ)))

/-- `np.random.choice(n, p=p)`. -/
def Dist.weighted (p : List ℝ) : Dist Nat := (List.range p.length).map (fun i => (i, p.getD i 0))

/-- Probability of a value. -/
def Dist.mass {α : Type} [DecidableEq α] (d : Dist α) (x : α) : ℝ :=
  ((d.filter (fun p => p.1 = x)).map (·.2)).sum

/-- The head of `max_a` when it has a single entry. -/
def headD (l : List Nat) : Nat := l.headD 0

/-- `EpsGreedy.draw_action`: td_policy.py L80-90. The parameter epsilon is called, so it is updated first. -/
def epsGreedyDraw (q : List ℝ) (epsilon : Param) (state : Index) : Param × Dist Nat :=
  let (epsilon, eps) := epsilon.call state
  (epsilon, (Dist.less eps).bind (fun explore =>
    if explore then Dist.choice (List.range q.length)
    else if 1 < (argmaxes q).length then Dist.choice (argmaxes q)
    else Dist.pure (headD (argmaxes q))))

/-- `Boltzmann.__call__(state)`: td_policy.py L137-148, for a given value of beta. -/
def boltzmannProbs (q : List ℝ) (beta : ℝ) : List ℝ :=
  let qb := q.map (fun x => x * beta)
  let m := maxOf qb
  let qs := qb.map (fun x => Real.exp (x - m))
  qs.map (fun x => x / qs.sum)

/-- The same with the parameter beta, which is called (and so updated) whenever the probabilities are asked for. -/
def boltzmannCall (q : List ℝ) (beta : Param) (state : Index) : Param × List ℝ :=
  let (beta, b) := beta.call state
  (beta, boltzmannProbs q b)

/-- `EpsGreedy.__call__(state)` with the parameter epsilon, which is only read (L66, L71, L76). -/
def epsGreedyCall (q : List ℝ) (epsilon : Param) (state : Index) : Param × List ℝ :=
  (epsilon, epsGreedyProbs q (epsilon.getValue state))

/-- `Boltzmann.draw_action`: L150-151. -/
def boltzmannDraw (q : List ℝ) (beta : Param) (state : Index) : Param × Dist Nat :=
  let (beta, p) := boltzmannCall q beta state
  (beta, Dist.weighted p)

/-- The mellowmax of the action values: td_policy.py L199-200. -/
def mellowmax (q : List ℝ) (omega : ℝ) : ℝ :=
  (Real.log ((q.map (fun x => Real.exp (x * omega))).sum) - Real.log q.length) / omega

/-- The function whose root is looked for: td_policy.py L202-207. -/
def mellowF (q : List ℝ) (mm beta : ℝ) : ℝ :=
  let v := q.map (fun x => x - mm)
  let bv := v.map (fun x => beta * x)
  let m := maxOf bv
  ((bv.zip v).map (fun p => Real.exp (p.1 - m) * p.2)).sum

/-- `MellowmaxParameter.__call__`: L197-215; `brentq` returns `none` for the ValueError raised when the function has the
same sign at both ends. -/
def mellowBeta (brentq : (ℝ → ℝ) → ℝ → ℝ → Option ℝ) (q : List ℝ) (omega betaMin betaMax : ℝ) : ℝ :=
  match brentq (mellowF q (mellowmax q omega)) betaMin betaMax with
  | some b => b
  | none => 0

end

end Verif.Policy
