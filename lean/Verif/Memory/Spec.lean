/-
Specification vocabulary for the replay memories.
-/
import Verif.Memory.Model
import Verif.Dataset.Spec
import Mathlib.Algebra.BigOperators.Group.Finset.Basic

namespace Verif.Memory

open Verif.Dataset (Row discountedReturn)

variable {X A R P : Type}

/-- The n-step transition of a window `w = a :: ... :: b` of consecutive steps. -/
def nstep [Semiring R] (gamma : R) (w : List (Row X A R P)) : Option (Row X A R P) :=
  match w.head?, w.getLast? with
  | some a, some b =>
    some { state := a.state, action := a.action, reward := discountedReturn gamma w, nextState := b.nextState,
           absorbing := b.absorbing, last := b.last, policyState := a.policyState,
           policyNextState := b.policyNextState }
  | _, _ => none

/-- The window of `n` steps starting at step `i` is usable: no episode ends in it before its last step. -/
def usable (n : Nat) (l : List (Row X A R P)) (i : Nat) : Bool :=
  ((l.drop i).take n).dropLast.all (fun r => !r.last)

/-- All the n-step transitions of `l`, with the step they start at, in order. -/
def windows [Semiring R] (gamma : R) (n : Nat) (l : List (Row X A R P)) : List (Nat × Row X A R P) :=
  ((List.range (l.length + 1 - n)).filter (usable n l)).filterMap
    (fun i => (nstep gamma ((l.drop i).take n)).map (fun r => (i, r)))

/-- `m` is a first-in first-out buffer of `max` rows which has received the rows `h` (oldest first) so far:
it contains the `max` most recent ones; once full, reading it circularly from the write position gives them oldest
first. -/
structure Fifo (m : Mem X A R P) (max : Nat) (h : List (Row X A R P)) : Prop where
  maxSize : m.maxSize = max
  idx : m.idx = h.length % max
  full : m.full = decide (max ≤ h.length)
  notFull : h.length < max → m.buf = h
  isFull : max ≤ h.length → m.buf.length = max ∧ m.buf.drop m.idx ++ m.buf.take m.idx = h.drop (h.length - max)

/-- A call of `add`. -/
structure AddCall (X A R P : Type) where
  rows : List (Row X A R P)
  n : Nat
  gamma : R

/-- A sequence of `add` calls on the model. -/
def addAll [Semiring R] : Mem X A R P → List (AddCall X A R P) → Except Err (Mem X A R P)
  | m, [] => .ok m
  | m, c :: cs => match m.add c.rows c.n c.gamma with
    | .error e => .error e
    | .ok (m', _) => addAll m' cs

/-- Everything the calls have to store. -/
def history [Semiring R] (cs : List (AddCall X A R P)) : List (Row X A R P) :=
  (cs.map (fun c => (windows c.gamma c.n c.rows).map (·.2))).flatten

/-- The children of every internal node sum up to it (`max` leaves). -/
def SumTreeOK [Semiring R] (tree : List R) (max : Nat) : Prop :=
  tree.length = 2 * max - 1 ∧
    ∀ k, k < max - 1 → tree.getD k 0 = tree.getD (2 * k + 1) 0 + tree.getD (2 * k + 2) 0

/-- The leaves below node `k` of an array tree with `n` nodes, from left to right. -/
def leavesBelow (n k : Nat) : List Nat :=
  if n ≤ 2 * k + 1 then [k] else leavesBelow n (2 * k + 1) ++ leavesBelow n (2 * k + 2)
termination_by n - k

/-- Calls on a sum tree: add one transition with a priority, or update the priorities of some leaves. -/
inductive TOp (X A R P : Type) where
  | add (rows : List (Row X A R P)) (priority : List R) (n : Nat) (gamma : R)
  | update (ups : List (Nat × R))

def execT [Ring R] [LinearOrder R] : STree X A R P → List (TOp X A R P) → Except Err (STree X A R P)
  | t, [] => .ok t
  | t, .add rows pr n g :: ops => match t.add rows pr n g with
    | .error e => .error e
    | .ok (t', _) => execT t' ops
  | t, .update ups :: ops => match t.update ups with
    | .error e => .error e
    | .ok t' => execT t' ops

/-- Abstract state: number of transitions stored so far and priority of each of the `max` slots. -/
structure Abs (R : Type) where
  count : Nat
  prio : Nat → R

/-- The transition added next goes to slot `count mod max`, with its priority. -/
def Abs.put (max : Nat) (a : Abs R) (p : R) : Abs R :=
  { count := a.count + 1, prio := fun k => if k = a.count % max then p else a.prio k }

/-- A leaf of the tree is addressed by its array index `slot + max - 1`. -/
def Abs.change (max : Nat) (a : Abs R) (u : Nat × R) : Abs R :=
  { a with prio := fun k => if k + max - 1 = u.1 then u.2 else a.prio k }

def Abs.step [Semiring R] (max : Nat) (a : Abs R) : TOp X A R P → Abs R
  | .add rows pr n g => ((windows g n rows).map (fun w => pr.getD w.1 0)).foldl (Abs.put max) a
  | .update ups => ups.foldl (Abs.change max) a

/-- A call that the code accepts when `count` transitions have been stored: positive priorities, one per row, at
least one step; updates only touch leaves of stored transitions and give them positive priorities. -/
def TOp.Valid [Zero R] [LT R] (max count : Nat) : TOp X A R P → Prop
  | .add rows pr n _ => 0 < n ∧ rows.length ≤ pr.length ∧ ∀ p ∈ pr, 0 < p
  | .update ups => ∀ u ∈ ups, max - 1 ≤ u.1 ∧ u.1 < max - 1 + min count max ∧ 0 < u.2

def AllValid [Semiring R] [LT R] (max : Nat) : Abs R → List (TOp X A R P) → Prop
  | _, [] => True
  | a, op :: ops => op.Valid max a.count ∧ AllValid max (a.step max op) ops

/-- The transitions stored by the calls. -/
def historyT [Semiring R] : List (TOp X A R P) → List (Row X A R P)
  | [] => []
  | .add rows _ n g :: ops => (windows g n rows).map (·.2) ++ historyT ops
  | .update _ :: ops => historyT ops

end Verif.Memory
