/-
Model of whole `Dataset` objects: the transitions, the columns of policy states, the list of policy parameters and the
description of the dataset, over the three storage back-ends.

Files: mushroom_rl/core/dataset.py, mushroom_rl/core/_impl/{numpy_dataset,torch_dataset,list_dataset}.py.

Simplifications: the array back-ends are represented by the logical content of their columns (`Verif.Dataset.Model` has
the allocated arrays, of which the columns are prefixes), so slices are restricted to nonnegative bounds and the number
of allocated rows is the field `cap`; step and episode infos are not part of this file.
-/
import Verif.Dataset.Model

namespace Verif.Dataset.Object

/-- The storage classes of dataset.py L111-121. -/
inductive Kind where
  | numpy
  | torch
  | list
deriving DecidableEq, Repr

inductive Err where
  | index       -- IndexError
  | type        -- TypeError
  | assertion   -- AssertionError
  | attribute   -- AttributeError
deriving DecidableEq, Repr

/-- The first six entries of a step (numpy_dataset.py L117-122, list_dataset.py L67). -/
structure Step (X A R : Type) where
  state : X
  action : A
  reward : R
  nextState : X
  absorbing : Bool
  last : Bool
deriving DecidableEq, Repr

/-- A `Dataset`. `policy` are the policy columns of an array back-end (`None` if there are none) or the
`_policy_dataset` of a `ListDataset`; `flag` is `ListDataset._is_stateful`; `thetas` is `_theta_list` (`None` in a raw
instance); `shaped` tells whether the `DatasetInfo` has a shape of policy states (dataset.py L44-46). -/
structure Obj (X A R P T : Type) where
  kind : Kind
  cap : Nat
  rows : List (Step X A R)
  policy : Option (List (P × P))
  flag : Bool
  thetas : Option (List T)
  shaped : Bool
deriving DecidableEq, Repr

variable {X A R P T : Type}

/-- dataset.py L78-127 with numpy_dataset.py L13-26, list_dataset.py L7-15: a new dataset for `cap` steps of an agent
that is stateful or not. -/
def Obj.new (kind : Kind) (cap : Nat) (stateful : Bool) : Obj X A R P T :=
  { kind := kind, cap := cap, rows := [], policy := if kind = .list ∨ stateful then some [] else none
    flag := stateful, thetas := some [], shaped := stateful }

/-- numpy_dataset.py L261-263, torch_dataset.py L253-255, list_dataset.py L141-143: `is_stateful`. -/
def Obj.isStateful (d : Obj X A R P T) : Bool :=
  match d.kind with
  | .list => d.flag
  | _ => d.policy.isSome

/-- dataset.py L230-232 with the `append` of the storage (numpy_dataset.py L113-133, torch_dataset.py L115-133,
list_dataset.py L65-72); `p` are the policy states of the step (core.py passes `None` for a stateless agent). A
stateful array back-end given `None` stores `nan` (numpy) or raises (torch); that call is not made by the library and
is an error here. -/
def Obj.append (d : Obj X A R P T) (s : Step X A R) (p : Option (P × P)) : Except Err (Obj X A R P T) :=
  match d.kind with
  | .list => match d.flag, d.policy with
    | false, _ => .ok { d with rows := d.rows ++ [s] }
    | true, none => .error .attribute
    | true, some l => .ok { d with rows := d.rows ++ [s], policy := some (l ++ p.toList) }
  | _ =>
    if d.rows.length < d.cap then
      match d.policy, p with
      | some l, some q => .ok { d with rows := d.rows ++ [s], policy := some (l ++ [q]) }
      | some _, none => .error .type
      | none, none => .ok { d with rows := d.rows ++ [s] }
      | none, some _ => if d.kind = .numpy then .error .assertion else .ok { d with rows := d.rows ++ [s] }
    else .error .index

/-- dataset.py L237-238: `append_theta`. -/
def Obj.appendTheta (d : Obj X A R P T) (t : T) : Except Err (Obj X A R P T) :=
  match d.thetas with
  | some l => .ok { d with thetas := some (l ++ [t]) }
  | none => .error .attribute

/-- dataset.py L246-251 with numpy_dataset.py L135-147, list_dataset.py L74-75: `clear`. -/
def Obj.clear (d : Obj X A R P T) : Obj X A R P T :=
  match d.kind with
  | .list => { d with rows := [], thetas := some [] }
  | _ => { d with rows := [], policy := d.policy.map (fun _ => []), thetas := some [] }

/-- dataset.py L253-260 with numpy_dataset.py L149-197, list_dataset.py L77-94: `get_view(slice(a, b), copy)`. A raw
instance has no list of parameters (dataset.py L158), a new `ListDataset` has no list of policy states
(list_dataset.py L35), and a `ListDataset` has no method `copy`. A copy keeps the number of allocated rows
(numpy_dataset.py L153-158), a view has just those it shows. -/
def Obj.view (d : Obj X A R P T) (a b : Nat) (copy : Bool) : Except Err (Obj X A R P T) :=
  let cut {α : Type} (l : List α) : List α := pySlice l (some a) (some b)
  match d.kind with
  | .list => if copy then .error .attribute
    else .ok { d with rows := cut d.rows, policy := none, thetas := none }
  | _ => .ok { d with cap := if copy then d.cap else (cut d.rows).length
                      rows := cut d.rows, policy := d.policy.map cut, thetas := none }

/-- What `dataset[...]` is given: a Python `int`, a numpy integer, a slice or an array of row numbers. -/
inductive Idx where
  | int (i : Nat)
  | npInt (i : Nat)
  | slice (a b : Nat)
  | array (l : List Nat)
deriving DecidableEq, Repr

/-- What it returns: a step or a dataset. -/
inductive Got (X A R P T : Type) where
  | step (s : Step X A R)
  | data (d : Obj X A R P T)
deriving DecidableEq, Repr

/-- `get_view` with an array of row numbers; an out of range entry raises. -/
def Obj.take (d : Obj X A R P T) (l : List Nat) : Except Err (Obj X A R P T) :=
  match l.mapM (fun i => d.rows[i]?) with
  | none => .error .index
  | some rows => .ok { d with cap := rows.length, rows := rows, thetas := none
                              policy := match d.kind with
                                | .list => none
                                | _ => d.policy.bind (fun p => l.mapM (fun i => p[i]?)) }

/-- dataset.py L266-272: `__getitem__`. A numpy integer is neither a slice, an array, a tensor nor an `int`. -/
def Obj.getItem (d : Obj X A R P T) : Idx → Except Err (Got X A R P T)
  | .slice a b => (d.view a b false).map .data
  | .array l => (d.take l).map .data
  | .int i => match d.rows[i]? with
    | some s => .ok (.step s)
    | none => .error .index
  | .npInt _ => .error .index

/-- dataset.py L274-282: `__add__`; the lists of parameters are added before the storages (numpy_dataset.py L203-219,
list_dataset.py L99-107). Adding two empty datasets raises, adding to an empty dataset marks the last row of the other
one. -/
def Obj.add (d e : Obj X A R P T) : Except Err (Obj X A R P T) :=
  match d.thetas, e.thetas with
  | some t, some u =>
    match d.kind with
    | .list => if d.rows = [] then .error .index else .error .type
    | _ =>
      let rows := d.rows ++ e.rows
      if rows = [] then .error .index
      else
        let j := if d.rows = [] then rows.length - 1 else d.rows.length - 1
        match d.policy, e.policy with
        | some _, none => .error .type
        | p, q => .ok { d with rows := rows.modify j (fun s => { s with last := true })
                               cap := rows.length, thetas := some (t ++ u)
                               policy := p.bind (fun p => q.map (p ++ ·)) }
  | _, _ => .error .type

/-- dataset.py L164-228: `from_array`. The policy states are only used for the assertion on their length (L193-194)
and for the shape in the description (L223-226); the storage is created without them (L214-219). -/
def fromArray (kind : Kind) (rows : List (Step X A R)) (policy : Option (List (P × P))) (thetas : Option (List T)) :
    Except Err (Obj X A R P T) :=
  if policy.all (fun p => p.length = rows.length) then
    .ok { kind := kind, cap := rows.length, rows := rows
          policy := match kind with
            | .list => some []
            | _ => none
          flag := false, thetas := some (thetas.getD []), shaped := policy.isSome }
  else .error .assertion

/-- numpy_dataset.py L245-251, list_dataset.py L133-139: `policy_state` and `policy_next_state`, as pairs. A
`ListDataset` looks for them in the seventh and eighth entry of its steps, which have six. -/
def Obj.policyStates (d : Obj X A R P T) : Except Err (List (P × P)) :=
  match d.kind with
  | .list => if d.rows = [] then .ok [] else .error .index
  | _ => match d.policy with
    | some p => .ok p
    | none => .error .type

/-- dataset.py L415-435: `select_random_samples`; `idx` are the numbers drawn by `np.random.randint`. For zero samples
the result is a numpy array of shape `(1, 0)`, not a dataset (`none`). -/
def Obj.selectRandom (d : Obj X A R P T) (n : Int) (idx : List Nat) : Except Err (Option (Obj X A R P T)) :=
  if 0 ≤ n then
    if n = 0 then .ok none
    else (d.take idx).map some
  else .error .assertion

end Verif.Dataset.Object
