/-
Model of /repo/mushroom_rl/approximators/regressor.py, of the shapes handled by _implementations/{generic,q,action}_regressor.py and ensemble.py,
and of table.py. An array is its shape and its entries in row-major order. Exceptions are values of `Err`. The keyword arguments given to `predict`
are fixed. Indices are natural numbers: the negative indices of numpy are left out.
-/
import Verif.Approx.Model

namespace Verif.Approx.Reg

noncomputable section

/-- The exceptions that matter here. -/
inductive Err where
  | assertion | index | attribute | type | value | notImplemented
  deriving DecidableEq

/-- An array of numpy or a tensor of torch. -/
structure Arr (α : Type) where
  shape : List ℕ
  data : List α
  deriving DecidableEq

variable {α : Type}

/-- `a.ndim`. -/
def Arr.ndim (a : Arr α) : ℕ := a.shape.length

/-- `np.expand_dims(a, axis=0)`, `a.unsqueeze(0)`. -/
def Arr.expand (a : Arr α) : Arr α := ⟨1 :: a.shape, a.data⟩

/-- `a[i]`. -/
def Arr.item (a : Arr α) (i : ℕ) : Except Err (Arr α) :=
  match a.shape with
  | [] => .error .index
  | n :: sh => if i < n then .ok ⟨sh, (a.data.drop (i * sh.prod)).take sh.prod⟩ else .error .index

/-- `np.array([…])` of arrays of one shape. -/
def stack (sh : List ℕ) (rows : List (List α)) : Arr α := ⟨rows.length :: sh, rows.flatten⟩

/-- `a.squeeze()`. -/
def Arr.squeeze (a : Arr α) : Arr α := ⟨a.shape.filter (· ≠ 1), a.data⟩

/-- What `predict` of an approximator returns: an array, or the list of prediction and variance made by an ensemble. -/
inductive Val where
  | arr (a : Arr ℝ)
  | pair (prediction variance : Arr ℝ)
  deriving DecidableEq

/-- `value[0]`. -/
def Val.first : Val → Except Err (Arr ℝ)
  | .arr a => a.item 0
  | .pair p _ => .ok p

/-- An approximator: its `predict`. -/
abbrev Predictor := Arr ℝ → Except Err Val

/-! ### regressor.py -/

/-- The implementations of a regressor. -/
inductive Kind where
  | generic | q | action
  deriving DecidableEq

/-- `Regressor.__init__`: the choice of the implementation. regressor.py L43-47, L60-75. -/
def select (nActions : Option ℕ) (outputShape : Option (List ℕ)) (nModels : Option ℕ) : Except Err Kind := do
  let out ← match nActions, outputShape with
    | none, none => .error .assertion
    | some _, none => .ok [1]
    | _, some o => .ok o
  match nModels with
  | some m => if m ≥ 1 then pure () else throw .assertion
  | none => pure ()
  match nActions with
  | some n =>
    if out.length = 1 ∧ n ≥ 2 then
      if n = out.getD 0 0 then return .q else return .action
    else throw .assertion
  | none => return .generic

/-- `Regressor.predict` for the first input `z`, other inputs `rest` and the implementation `impl`; `expand` adds the axis to the others.
regressor.py L129-138. -/
def predict {Z : Type} (ndim : ℕ) (impl : Arr ℝ → Z → Except Err Val) (expand : Z → Z) (z : Arr ℝ) (rest : Z) : Except Err Val :=
  if z.ndim = ndim then do
    let v ← impl z.expand (expand rest)
    let a ← v.first
    return .arr a
  else impl z rest

/-- `GenericRegressor.predict`, one input. generic_regressor.py L41-54. -/
def genericPredict (m : Predictor) (z : Arr ℝ) (_ : Unit) : Except Err Val := m z

/-- The pairs of row and action of `q[np.arange(n), action]`: numpy repeats an index of length one. -/
def indexPairs (n : ℕ) (action : List ℕ) : Except Err (List (ℕ × ℕ)) :=
  if action.length = n then .ok ((List.range n).zip action)
  else match action with
    | [a] => .ok ((List.range n).map fun i => (i, a))
    | _ => if n = 1 then .ok (action.map fun a => (0, a)) else .error .index

/-- `QRegressor.predict`. q_regressor.py L43-70. -/
def qPredict (m : Predictor) (state : Arr ℝ) (action : Option (Arr ℕ)) : Except Err Val := do
  let q ← m state
  match action with
  | none => return q
  | some a =>
    match q with
    | .pair _ _ => throw .attribute
    | .arr q =>
      if q.ndim = 1 then do
        let picked ← a.data.mapM q.item
        return .arr (stack [] (picked.map Arr.data))
      else match q.shape with
        | [] => throw .index
        | n :: sh => do
          let pairs ← indexPairs n a.data
          let picked ← pairs.mapM fun p => do
            let row ← q.item p.1
            row.item p.2
          return .arr (stack sh.tail (picked.map Arr.data))

/-- `q[idxs] = values` for a vector `q`. -/
def assign (q : List ℝ) (idxs : List ℕ) (values : Arr ℝ) : Except Err (List ℝ) :=
  if values.shape = [] then .ok (idxs.foldl (fun q j => q.set j (values.data.getD 0 0)) q)
  else if values.shape = [idxs.length] then .ok ((idxs.zip values.data).foldl (fun q p => q.set p.1 p.2) q)
  else .error .value

/-- `self.model[i].predict(…).squeeze()`: a list has no `squeeze`. -/
def squeezed : Val → Except Err (Arr ℝ)
  | .arr a => .ok a.squeeze
  | .pair _ _ => .error .attribute

/-- `state[idxs, :]`. -/
def selectRows (state : Arr ℝ) (idxs : List ℕ) : Except Err (Arr ℝ) :=
  match state.shape with
  | _ :: d :: sh => do
    let rows ← idxs.mapM state.item
    return stack (d :: sh) (rows.map Arr.data)
  | _ => .error .index

/-- `np.argwhere((action == i)[:, 0]).ravel()` for the first column of the actions. action_regressor.py L78. -/
def rowsOf (col : List ℕ) (i : ℕ) : List ℕ := (List.range col.length).filter fun j => col.getD j 0 = i

/-- Body of the loop over the actions, for given actions. action_regressor.py L77-81. -/
def actionBody (state : Arr ℝ) (col : List ℕ) (q : List ℝ) (i : ℕ) (m : Predictor) : Except Err (List ℝ) := do
  let idxs := rowsOf col i
  if idxs.length ≠ 0 then do
    let sub ← selectRows state idxs
    let v ← m sub
    let v ← squeezed v
    assign q idxs v
  else return q

/-- The loop over the models from number `i` on. action_regressor.py L77-81. -/
def actionLoop (state : Arr ℝ) (col : List ℕ) : ℕ → List ℝ → List Predictor → Except Err (List ℝ)
  | _, q, [] => .ok q
  | i, q, m :: ms => do
    let q ← actionBody state col q i m
    actionLoop state col (i + 1) q ms

/-- `ActionRegressor.predict`. Actions are given as a matrix; `(action == i)[:, 0]` is its first column. action_regressor.py L70-88. -/
def actionPredict (ms : List Predictor) (state : Arr ℝ) (action : Option (Arr ℕ)) : Except Err Val :=
  match state.shape with
  | [] => .error .index
  | n :: _ =>
    match action with
    | some a =>
      match a.shape with
      | [rows, k] =>
        if k = 0 then .error .index else do
          let q ← actionLoop state ((List.range rows).map fun j => a.data.getD (j * k) 0) 0 (List.replicate n 0) ms
          return .arr ⟨[n], q⟩
      | _ => .error .index
    | none => do
      let cols ← ms.mapM fun m => do
        let v ← m state
        let v ← squeezed v
        assign (List.replicate n 0) (List.range n) v
      return .arr ⟨[n, ms.length], ((List.range n).map fun j => cols.map fun c => c.getD j 0).flatten⟩

/-! ### ensemble.py -/

/-- The argument `idx`. -/
inductive Idx where
  | all
  | one (i : ℕ)
  | some (is : List ℕ)

/-- The name of a way to combine predictions. ensemble.py L100-109. -/
def parse (s : String) : Except Err Prediction :=
  if s = "mean" then .ok .mean else if s = "sum" then .ok .sum else if s = "min" then .ok .min else if s = "max" then .ok .max
  else .error .value

/-- `np.var`: the mean of the squared deviations. -/
def npVar (xs : List ℝ) : ℝ := (xs.map fun x => (x - xs.sum / xs.length) ^ 2).sum / xs.length

/-- `torch.var`: the unbiased estimate; of one number it is NaN in torch and zero here. -/
def torchVar (xs : List ℝ) : ℝ := (xs.map fun x => (x - xs.sum / xs.length) ^ 2).sum / (xs.length - 1)

/-- An operation along the first axis of stacked arrays. -/
def alongFirst (f : List ℝ → ℝ) (sh : List ℕ) (rows : List (List ℝ)) : Arr ℝ :=
  ⟨sh, (List.range sh.prod).map fun j => f (rows.map fun r => r.getD j 0)⟩

/-- `mean`, `sum`, `min` or `max` of some numbers. -/
def combine (p : Prediction) : List ℝ → ℝ
  | [] => 0
  | v :: vs => combinePredictions p v vs

/-- The array returned by a model of the ensemble; a model of an ensemble is not an ensemble. -/
def asArr : Val → Except Err (Arr ℝ)
  | .arr a => .ok a
  | .pair _ _ => .error .attribute

/-- `self[i].predict(…)`, an array. ensemble.py L87-91. -/
def memberPredict (ms : List Predictor) (z : Arr ℝ) (i : ℕ) : Except Err (Arr ℝ) :=
  match ms[i]? with
  | none => .error .index
  | some m => do
    let v ← m z
    asArr v

/-- `Ensemble.predict`. ensemble.py L75-116. -/
def ensPredict (torch : Bool) (prediction : String) (variance : Bool) (idx : Idx) (ms : List Predictor) : Predictor := fun z =>
  match idx with
  | .one i => match ms[i]? with
    | none => .error .index
    | Option.some m => m z
  | idx => do
    let is := match idx with
      | .some is => is
      | _ => List.range ms.length
    let preds ← is.mapM (memberPredict ms z)
    match preds with
    | [] => throw .index
    | p :: ps =>
      if ¬ ∀ p' ∈ ps, p'.shape = p.shape then throw .value else do
        let c ← parse prediction
        let rows := (p :: ps).map Arr.data
        let results := alongFirst (combine c) p.shape rows
        if variance then
          if torch = true ∧ (prediction = "min" ∨ prediction = "max") then throw .attribute
          else return .pair results (alongFirst (if torch then torchVar else npVar) p.shape rows)
        else return .arr results

/-! ### Members of a regressor -/

/-- What `regressor[i]` can be: model `j` of the ensemble for action `a` (0 if there is one for all actions), the ensemble for an action, or the
list of the models of all the actions. -/
inductive Member where
  | model (a j : ℕ)
  | ensemble (a : ℕ)
  | list
  deriving DecidableEq

/-- `len(regressor)`. regressor.py L230-231. -/
def len (nModels : Option ℕ) : ℕ := nModels.getD 1

/-- `regressor[item]`: `model` of the action regressor is the list over the actions. regressor.py L233-237, action_regressor.py L28-32. -/
def item (k : Kind) (nActions : ℕ) (nModels : Option ℕ) (i : ℕ) : Except Err Member :=
  match nModels with
  | none => if k = .action then .ok .list else .ok (.model 0 0)
  | some n =>
    if k = .action then (if i < nActions then .ok (.ensemble i) else .error .index)
    else (if i < n then .ok (.model 0 i) else .error .index)

/-- `for m in regressor`: there is no `__iter__`, so the items 0, 1, … are used until an IndexError. It ends with `n` items. -/
def Iterates (k : Kind) (nActions : ℕ) (nModels : Option ℕ) (n : ℕ) : Prop :=
  (∀ i < n, ∃ m, item k nActions nModels i = .ok m) ∧ item k nActions nModels n = .error .index

/-- `_log`: the members whose loss is recorded after a fit, if the models have a loss. regressor.py L251-262. -/
def logged (k : Kind) (nActions : ℕ) (nModels : Option ℕ) : Except Err (List Member) := do
  let ms ← (List.range (len nModels)).mapM (item k nActions nModels)
  return ms.filter fun m => match m with
    | .model _ _ => true
    | _ => false

/-! ### table.py -/

/-- `self.table[0]`. -/
def first0 (t : Arr ℝ) : Except Err (Arr ℝ) := t.item 0

/-- `a[0]` of an index given as array. table.py L30-31. -/
def head0 (a : List ℕ) : Except Err ℕ :=
  match a with
  | [] => .error .index
  | x :: _ => .ok x

/-- `self[state, :]`. table.py L26-33. -/
def rowAt (t : Arr ℝ) (state : List ℕ) : Except Err (Arr ℝ) :=
  if t.shape.prod = 1 then first0 t
  else do
    let s ← head0 state
    if t.ndim ≥ 2 then t.item s else throw .index

/-- `self[state, action]`. table.py L26-33. -/
def valueAt (t : Arr ℝ) (state action : List ℕ) : Except Err (Arr ℝ) :=
  if t.shape.prod = 1 then first0 t
  else do
    let s ← head0 state
    let a ← head0 action
    let row ← t.item s
    row.item a

/-- The last lines of `predict`: arrays of one shape. table.py L81-84. -/
def collect (values : List (Arr ℝ)) : Arr ℝ :=
  match values with
  | [] => ⟨[0], []⟩
  | [v] => v
  | v :: vs => stack v.shape ((v :: vs).map Arr.data)

/-- States given to `predict`: a single one, which is an array with one axis, or a batch. -/
inductive Given where
  | single (s : List ℕ)
  | batch (ss : List (List ℕ))

/-- table.py L66-68. -/
def Given.rows : Given → List (List ℕ)
  | .single s => [s]
  | .batch ss => ss

/-- `Table.predict(state)`. table.py L66-84. -/
def tablePredict (t : Arr ℝ) (states : Given) : Except Err (Arr ℝ) := do
  let values ← states.rows.mapM (rowAt t)
  return collect values

/-- `self[state[i], action[i]]` for an index of `state`. table.py L74. -/
def pairAt (t : Arr ℝ) (states actions : List (List ℕ)) (i : ℕ) : Except Err (Arr ℝ) :=
  match actions[i]? with
  | none => .error .index
  | some a => valueAt t (states.getD i []) a

/-- `Table.predict(state, action)`: for every index of `state`. table.py L66-84. -/
def tablePredictAction (t : Arr ℝ) (states actions : Given) : Except Err (Arr ℝ) := do
  let values ← (List.range states.rows.length).mapM (pairAt t states.rows actions.rows)
  return collect values

/-- `self[state, action] = value` for a table with two axes. table.py L35-41. -/
def tableSet (t : Arr ℝ) (state action : List ℕ) (v : ℝ) : Except Err (Arr ℝ) :=
  if t.shape.prod = 1 then .ok { t with data := [v] }
  else do
    let s ← head0 state
    let a ← head0 action
    match t.shape with
    | [n, k] => if s < n ∧ a < k then return { t with data := t.data.set (s * k + a) v } else throw .index
    | _ => throw .index

/-- `Table.fit(x, y)` with a number `x`: a number is not iterable. table.py L35-50. -/
def tableFitInt (t : Arr ℝ) (_x : ℕ) (v : ℝ) : Except Err (Arr ℝ) :=
  if t.shape.prod = 1 then .ok { t with data := [v] } else .error .type

/-- `Table.n_actions`. table.py L86-93; `EnsembleTable.n_actions` is the same of the first table, ensemble_table.py L23-25. -/
def tableActions (t : Arr ℝ) : Except Err ℕ :=
  match t.shape.getLast? with
  | none => .error .index
  | some n => .ok n

end

end Verif.Approx.Reg
