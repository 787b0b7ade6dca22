/-
Model of the replay memories.

File: mushroom_rl/rl_utils/replay_memory.py.

The stored `Dataset` is represented by its list of rows: `Verif.Dataset.C07_append_clear`, `C07_getitem` and `C07_slice`
justify this. Random choices are arguments. Rewards, priorities and discount factors are elements of a ring (floating
point rounding is not modelled).
-/
import Verif.Dataset.Model

namespace Verif.Memory

open Verif.Dataset (Row)

inductive Err where
  | index       -- IndexError
  | assertion   -- AssertionError
  | recursion   -- RecursionError
deriving DecidableEq, Repr

variable {X A R P : Type}

/-! ### The n-step loop shared by `ReplayMemory.add` and `SumTree.add` -/

/-- L74-79 (ReplayMemory.add) and L324-329 (SumTree.add): the inner `while j < n_steps_return - 1` loop; `k` is
`n_steps_return - 1 - j`. Returns the new `i` if it was left by `break`, `none` if its `else` part is reached, and the
reward array, which is modified in place. -/
def inner [Semiring R] (gamma : R) (last : List Bool) (i : Nat) : Nat → Nat → List R → Option Nat × List R
  | 0, _, reward => (none, reward)
  | k + 1, j, reward =>
    if last.getD (i + j) false then (some (i + (j + 1)), reward)
    else
      let j := j + 1
      inner gamma last i k j (reward.set i (reward.getD i 0 + gamma ^ j * reward.getD (i + j) 0))

/-- L82-102 (ReplayMemory.add) and L332-352 (SumTree.add): the values stored for the window that starts at `i` and whose
last step is `i + j`. -/
def sampleAt (rows : List (Row X A R P)) (reward : List R) (i j : Nat) : Except Err (Row X A R P) :=
  match rows[i]?, rows[i + j]?, reward[i]? with
  | some a, some b, some r =>
    .ok { state := a.state, action := a.action, reward := r, nextState := b.nextState, absorbing := b.absorbing,
          last := b.last, policyState := a.policyState, policyNextState := b.policyNextState }
  | _, _, _ => .error .index

/-- L71-109 (ReplayMemory.add) and L321-363 (SumTree.add): the outer `while i < len(dataset) - n_steps_return + 1`.
`emit` is what is done with the sample of window `i`. The fuel is only there to make the recursion structural: `i`
grows at every iteration, so `len(dataset) + 1` is never used up. Returns the final state and the final content of the
reward array of the caller. -/
def nstepLoop {σ : Type} [Semiring R] (gamma : R) (n : Nat) (rows : List (Row X A R P))
    (emit : σ → Nat → Row X A R P → Except Err σ) : Nat → Nat → List R → σ → Except Err (σ × List R)
  | 0, _, reward, s => .ok (s, reward)
  | fuel + 1, i, reward, s =>
    if i + n < rows.length + 1 then
      match inner gamma (rows.map (·.last)) i (n - 1) 0 reward with
      | (some i', reward) => nstepLoop gamma n rows emit fuel i' reward s
      | (none, reward) =>
        match sampleAt rows reward i (n - 1) with
        | .error e => .error e
        | .ok r =>
          match emit s i r with
          | .error e => .error e
          | .ok s => nstepLoop gamma n rows emit fuel (i + 1) reward s
    else .ok (s, reward)

/-! ### ReplayMemory -/

/-- L26-37. -/
structure Mem (X A R P : Type) where
  initialSize : Nat
  maxSize : Nat
  idx : Nat
  full : Bool
  buf : List (Row X A R P)
deriving Repr

/-- L129-137: `reset` (also called by the constructor). -/
def Mem.new (initialSize maxSize : Nat) : Mem X A R P :=
  { initialSize := initialSize, maxSize := maxSize, idx := 0, full := false, buf := [] }

/-- L82-107: store one sample. Appending to a dataset without a free row, and assigning a row past its length, raises
`IndexError`. -/
def Mem.store (m : Mem X A R P) (r : Row X A R P) : Except Err (Mem X A R P) :=
  let cont (buf : List (Row X A R P)) : Mem X A R P :=
    let idx := m.idx + 1
    if idx = m.maxSize then { m with buf := buf, full := true, idx := 0 } else { m with buf := buf, idx := idx }
  if m.full then (if m.idx < m.buf.length then .ok (cont (m.buf.set m.idx r)) else .error .index)
  else if m.buf.length < m.maxSize then .ok (cont (m.buf ++ [r]))
  else .error .index

/-- L49-109: `add`. Returns the memory and the reward array of the dataset passed by the caller, after the call: the
array returned by `dataset.parse` is a view on the dataset's own storage (array_backend.py, `arrays_to_numpy` of the
numpy backend returns its argument). -/
def Mem.add [Semiring R] (m : Mem X A R P) (rows : List (Row X A R P)) (n : Nat) (gamma : R) :
    Except Err (Mem X A R P × List R) :=
  if 0 < n then
    nstepLoop gamma n rows (fun m _ r => m.store r) (rows.length + 1) 0 (rows.map (·.reward)) m
  else .error .assertion

/-- L149-156. -/
def Mem.size (m : Mem X A R P) : Nat := if !m.full then m.idx else m.maxSize

/-- L139-147. -/
def Mem.initialized (m : Mem X A R P) : Bool := decide (m.initialSize < m.size)

/-- L111-127: `get` with the drawn indices (`randint(0, len(dataset), n)`) as an argument. -/
def Mem.get (m : Mem X A R P) (idxs : List Nat) : Except Err (List (Row X A R P)) :=
  idxs.mapM (fun i => match m.buf[i]? with
    | some r => .ok r
    | none => .error .index)

/-! ### SequenceReplayMemory -/

/-- `np.where(flags)[0][-1]`: position of the last true flag, if any. -/
def lastTrue (flags : List Bool) : Option Nat :=
  match flags with
  | [] => none
  | b :: rest => match lastTrue rest with
    | some k => some (k + 1)
    | none => if b then some 0 else none

/-- L222-232: the beginning of the sequence that ends at the sampled index `i`, and `more_than_one_traj`. -/
def beginSeq (last : List Bool) (trunc i : Nat) : Nat × Bool :=
  let b := i + 1 - trunc       -- `np.maximum(i - truncation_length + 1, 0)`
  match lastTrue ((last.take i).drop b) with
  | some k => (b + k + 1, true)
  | none => (b, false)

/-- L222-256: the sequence returned for the sampled index `i` (without the zero padding) and the previous actions;
`zero` is `zeros(1, *action_shape)`. -/
def seqAt (buf : List (Row X A R P)) (trunc : Nat) (zero : A) (i : Nat) : List (Row X A R P) × List A :=
  let (b, more) := beginSeq (buf.map (·.last)) trunc i
  let e := i + 1
  let acts := buf.map (·.action)
  let prev :=
    if more || b == 0 || (buf.map (·.last)).getD (b - 1) false then zero :: (acts.take (e - 1)).drop b
    else (acts.take (e - 1)).drop (b - 1)
  ((buf.take e).drop b, prev)

/-! ### SumTree -/

/-- L412-418: `_propagate`. From the root (`idx = 0`) Python computes the parent `-1`, writes `tree[-1]` and recurses
on `-1` for ever. -/
def propagate [Ring R] (delta : R) (idx : Nat) (tree : List R) : Except Err (List R) :=
  if h : idx = 0 then .error .recursion
  else
    let parent := (idx - 1) / 2
    let tree := tree.set parent (tree.getD parent 0 + delta)
    if parent ≠ 0 then propagate delta parent tree else .ok tree
termination_by idx
decreasing_by omega

/-- L406-410: one iteration of `update`. -/
def update1 [Ring R] (tree : List R) (i : Nat) (p : R) : Except Err (List R) :=
  if i < tree.length then
    let delta := p - tree.getD i 0
    let tree := tree.set i p
    propagate delta i tree
  else .error .index

/-- L397-410: `update`. -/
def update [Ring R] : List R → List (Nat × R) → Except Err (List R)
  | tree, [] => .ok tree
  | tree, (i, p) :: rest => match update1 tree i p with
    | .error e => .error e
    | .ok tree => update tree rest

/-- L420-433: `_retrieve`; `choose k` tells whether the random choice at node `k` takes the left child. -/
def retrieve [Ring R] [LinearOrder R] (tree : List R) (choose : Nat → Bool) (s : R) (idx : Nat) : Nat :=
  if h : tree.length ≤ 2 * idx + 1 then idx
  else
    let left := 2 * idx + 1
    let right := left + 1
    if tree.getD left 0 = tree.getD right 0 then
      (if choose idx then retrieve tree choose s left else retrieve tree choose s right)
    else if s ≤ tree.getD left 0 then retrieve tree choose s left
    else retrieve tree choose (s - tree.getD left 0) right
termination_by tree.length - idx

/-- L270-287: a `SumTree`; its transitions are a `Mem` (same index, flag and dataset). -/
structure STree (X A R P : Type) where
  mem : Mem X A R P
  tree : List R
deriving Repr

/-- L270-287. -/
def STree.new [Ring R] (maxSize : Nat) : STree X A R P :=
  { mem := Mem.new 0 maxSize, tree := List.replicate (2 * maxSize - 1) 0 }

/-- L332-361: store one sample with its priority. -/
def STree.store [Ring R] (t : STree X A R P) (r : Row X A R P) (p : R) : Except Err (STree X A R P) :=
  match t.mem.store r with
  | .error e => .error e
  | .ok mem =>
    match update t.tree [(t.mem.idx + t.mem.maxSize - 1, p)] with
    | .error e => .error e
    | .ok tree => .ok { mem := mem, tree := tree }

/-- L299-363: `add`, and L508-521 (`PrioritizedReplayMemory.add`). -/
def STree.add [Ring R] [LinearOrder R] (t : STree X A R P) (rows : List (Row X A R P)) (priority : List R) (n : Nat)
    (gamma : R) : Except Err (STree X A R P × List R) :=
  if 0 < n then
    if priority.all (fun p => decide (0 < p)) then
      nstepLoop gamma n rows (fun t i r => match priority[i]? with
        | some p => t.store r p
        | none => .error .index) (rows.length + 1) 0 (rows.map (·.reward)) t
    else .error .assertion
  else .error .assertion

/-- L397-410 on the tree. -/
def STree.update [Ring R] (t : STree X A R P) (ups : List (Nat × R)) : Except Err (STree X A R P) :=
  match Verif.Memory.update t.tree ups with
  | .error e => .error e
  | .ok tree => .ok { t with tree := tree }

/-- L453-461. -/
def STree.totalP [Ring R] (t : STree X A R P) : R := t.tree.getD 0 0

/-- L381-395: `get_ind`: tree index, priority and index of the transition. -/
def STree.getInd [Ring R] [LinearOrder R] (t : STree X A R P) (choose : Nat → Bool) (s : R) : Nat × R × Nat :=
  let idx := retrieve t.tree choose s 0
  (idx, t.tree.getD idx 0, idx + 1 - t.mem.maxSize)

end Verif.Memory
