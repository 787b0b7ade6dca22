/-
Calling variance-dependent parameters (`__call__`), and the omega parameter of `Mellowmax`.

Files: mushroom_rl/rl_utils/parameters.py, mushroom_rl/rl_utils/variance_parameters.py, mushroom_rl/approximators/table.py, mushroom_rl/policy/td_policy.py.
-/
import Verif.Policy.Model

namespace Verif.Policy

noncomputable section

/-- The exceptions: shapes that cannot be broadcast or the truth value of an array, and an index out of bounds. -/
inductive VErr where
  | value | index
deriving DecidableEq, Repr

/-- An array: its shape, and its cells. -/
structure Arr where
  shape : List ℕ
  cell : Index → ℝ

/-- A `VarianceParameter` with the attributes of the base class. The tables of `par` have the shape `size`, the table of counters has the shape `counter`. -/
structure SizedVar where
  par : VarParam
  size : List ℕ
  counter : List ℕ
  minV : Option ℝ
  maxV : Option (List ℕ)

/-- What `Parameter.__init__(value, min_value, max_value, size=(1,))` sets: the bounds and the shape of the table of counters. parameters.py L21-36. -/
def baseInit (minV : Option ℝ) (maxV : Option (List ℕ)) (size : List ℕ := [1]) : Option ℝ × Option (List ℕ) × List ℕ := (minV, maxV, size)

/-- `VarianceParameter.__init__`: the third argument of the base class is the maximum value. variance_parameters.py L13-30. -/
def sizedVar (increasing exponential : Bool) (initial tol : ℝ) (minV : Option ℝ) (size : List ℕ) : SizedVar :=
  let b := baseInit minV (some size)
  { par := varParam increasing exponential initial tol, size := size, counter := b.2.2, minV := b.1, maxV := b.2.1 }

/-- `update()` without an index: each operation is on the whole tables, cell by cell. variance_parameters.py L44-78, table.py L26-41. -/
def VarParam.updateWhole (p : VarParam) (target factor : ℝ) : VarParam :=
  { p with
    count := p.count + 1
    x := fun i => (p.update i target factor).x i
    x2 := fun i => (p.update i target factor).x2 i
    weightsVar := fun i => (p.update i target factor).weightsVar i
    value := fun i => (p.update i target factor).value i }

/-- `np.clip` of an array of shape `vs` with an array of `d` bounds: the shape of the result. -/
def clipShape (vs : List ℕ) (d : ℕ) : Option (List ℕ) :=
  match vs.getLast? with
  | none => some [d]
  | some a => if a = d ∨ d = 1 then some vs else if a = 1 then some (vs.dropLast ++ [d]) else none

/-- `get_value()` without an index. parameters.py L74-79, variance_parameters.py L41-42; a table with one cell gives `table[0]`, table.py L27. -/
def SizedVar.getWhole (p : SizedVar) : Except VErr Arr :=
  let vs := if p.size.prod = 1 then p.size.tail else p.size
  let val : Index → ℝ := fun i =>
    if p.size.prod = 1 then p.par.value (List.replicate p.size.length 0)
    else if vs.getLast? = some 1 then p.par.value (i.dropLast ++ [0]) else p.par.value i
  match p.maxV with
  | none => .ok ⟨vs, fun i => clip (val i) p.minV none⟩
  | some hi =>
    match clipShape vs hi.length with
    | none => .error .value
    | some shape => .ok ⟨shape, fun i => clip (val i) p.minV (some (hi.getD (if hi.length = 1 then 0 else i.getLastD 0) 0))⟩

/-- `__call__`: parameters.py L56-61. The index is dropped if the table of counters has one cell; a full index addresses a cell. -/
def SizedVar.call (p : SizedVar) (idx : Index) (target factor : ℝ) : SizedVar × Except VErr Arr :=
  let idx := if p.counter.prod = 1 then [] else idx
  let p := { p with par := if idx = [] then p.par.updateWhole target factor else p.par.update idx target factor }
  (p, if idx = [] then p.getWhole else .ok ⟨[], fun _ => p.par.value idx⟩)

/-- A `WindowedVarianceIncreasingParameter` that is called: the index is empty as above, so that all the cells of a table have the same value, and so has each row
of the table of samples, of which there are as many as the first entry of `size`. -/
structure Win where
  exponential : Bool
  initial : ℝ
  tol : ℝ
  size : List ℕ
  window : ℕ
  n : ℕ
  index : ℕ
  samples : ℕ → ℝ
  weightsVar : ℝ
  value : ℝ

/-- variance_parameters.py L127-158. -/
def winNew (exponential : Bool) (initial tol : ℝ) (size : List ℕ) (window : ℕ) : Win :=
  { exponential := exponential, initial := initial, tol := tol, size := size, window := window, n := 0, index := 0, samples := fun _ => 0, weightsVar := 0,
    value := 0 }

/-- `np.var`. -/
def npVar (l : List ℝ) : ℝ :=
  let m := l.sum / l.length
  (l.map fun x => (x - m) ^ 2).sum / l.length

/-- `_compute_parameter`: variance_parameters.py L207-211. -/
def Win.computeParameter (p : Win) (sigma : ℝ) : ℝ :=
  if p.exponential then 1 - Real.exp (sigma * Real.log (1 / 2) / p.tol) else sigma / (sigma + p.tol)

/-- `update()` without an index: variance_parameters.py L163-195. With several cells `self._index[idx] >= self._window` is an array, whose truth value is not
defined; a table of samples with one cell ignores the index. -/
def Win.update (p : Win) (target factor : ℝ) : Except VErr Win :=
  let rows := (List.range (p.size.headD 0)).map p.samples
  let v := if p.n < 2 then p.initial
    else p.computeParameter (npVar (if p.n < p.window then rows.take p.n else rows) * p.weightsVar)
  if p.size.prod * p.window ≠ 1 ∧ p.size.headD 0 ≤ p.index then .error .index
  else if p.size.prod ≠ 1 then .error .value
  else .ok { p with
    n := p.n + 1
    samples := fun r => if r = p.index ∨ p.size.prod * p.window = 1 then target else p.samples r
    index := if p.window ≤ p.index + 1 then 0 else p.index + 1
    weightsVar := (1 - factor * v) ^ 2 * p.weightsVar + (factor * v) ^ 2
    value := v }

/-- Several calls. -/
def Win.run (p : Win) : List (ℝ × ℝ) → Except VErr Win
  | [] => .ok p
  | u :: l => match p.update u.1 u.2 with
    | .error e => .error e
    | .ok p' => p'.run l

/-! ### Mellowmax -/

/-- `MellowmaxParameter.__call__`, the mellowmax: the parameter omega is called twice. td_policy.py L197-200. -/
def mellowCall (q : List ℝ) (omega : Param) (state : Index) : Param × ℝ :=
  let r1 := omega.call state
  let r2 := r1.1.call state
  (r2.1, (Real.log ((q.map (fun x => Real.exp (x * r1.2))).sum) - Real.log q.length) / r2.2)

/-- `MellowmaxParameter.__call__`: td_policy.py L197-215. -/
def mellowParam (brentq : (ℝ → ℝ) → ℝ → ℝ → Option ℝ) (q : List ℝ) (omega : Param) (betaMin betaMax : ℝ) (state : Index) : Param × ℝ :=
  let r := mellowCall q omega state
  (r.1, match brentq (mellowF q r.2) betaMin betaMax with
    | some b => b
    | none => 0)

end

end Verif.Policy
