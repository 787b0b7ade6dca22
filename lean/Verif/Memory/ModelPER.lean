/-
Model of `PrioritizedReplayMemory`.

File: mushroom_rl/rl_utils/replay_memory.py, L469-599. Floating point numbers are modelled by real numbers.
-/
import Verif.Memory.Model
import Mathlib.Analysis.SpecialFunctions.Pow.Real

namespace Verif.Memory

variable {X A P : Type}

/-- numpy's `array.max()`: `ValueError` (`none`) on an empty array. -/
def maxOf {R : Type} [LinearOrder R] : List R → Option R
  | [] => none
  | x :: l => some (l.foldl max x)

/-- L575-576: `_get_priority` of one error. -/
noncomputable def priorityOf (epsilon alpha err : ℝ) : ℝ := (|err| + epsilon) ^ alpha

/-- L553-555: the importance weights of the sampled priorities; `size` and `total` are those of the tree. -/
noncomputable def isWeights (size : Nat) (total beta : ℝ) (priorities : List ℝ) : Option (List ℝ) :=
  let w := priorities.map (fun p => ((size : ℝ) * (p / total)) ^ (-beta))
  match maxOf w with
  | none => none
  | some m => some (w.map (fun x => x / m))

/-- L475-506. -/
structure PER (X A P : Type) where
  initialSize : Nat
  maxSize : Nat
  alpha : ℝ
  epsilon : ℝ
  tree : STree X A ℝ P

/-- L578-586. -/
noncomputable def PER.initialized (m : PER X A P) : Bool := decide (m.initialSize < m.tree.mem.size)

/-- L444-451 and L588-595: `max_priority`; `max_p` is the maximum of the last `max_size` entries of the tree. -/
noncomputable def PER.maxPriority (m : PER X A P) : Option ℝ :=
  if m.initialized then maxOf (m.tree.tree.drop (m.tree.tree.length - m.tree.mem.maxSize)) else some 1

/-- L563-573: `update` with `idx` and `error` paired. -/
noncomputable def PER.update (m : PER X A P) (ups : List (Nat × ℝ)) : Except Err (PER X A P) :=
  match m.tree.update (ups.map (fun u => (u.1, priorityOf m.epsilon m.alpha u.2))) with
  | .error e => .error e
  | .ok t => .ok { m with tree := t }

/-- L539-543: the bounds of the `n` segments from which the samples are drawn. -/
noncomputable def segments (total : ℝ) (n : Nat) : List (ℝ × ℝ) :=
  let segment := total / n
  (List.range n).map (fun (k : Nat) => ((k : ℝ) * segment, ((k + 1 : Nat) : ℝ) * segment))

/-- L523-561: `get` with the drawn values (`uniform(a, b)`) as an argument: transitions, tree indices and weights.
`choose i` are the random choices made while retrieving the i-th sample. -/
noncomputable def PER.get (m : PER X A P) (beta : ℝ) (samples : List ℝ) (choose : Nat → Nat → Bool) :
    Except Err (List (Verif.Dataset.Row X A ℝ P) × List Nat × Option (List ℝ)) :=
  let found := samples.zipIdx.map (fun p => m.tree.getInd (choose p.2) p.1)
  match m.tree.mem.get (found.map (fun f => f.2.2)) with
  | .error e => .error e
  | .ok rows => .ok (rows, found.map (·.1),
      isWeights m.tree.mem.size m.tree.totalP beta (found.map (fun f => f.2.1)))

end Verif.Memory
