/-
Model of the storage of the weights of networks: /repo/mushroom_rl/utils/torch.py, set_weights and get_weights of
/repo/mushroom_rl/approximators/parametric/torch_approximator.py, and their users `_update_target` and `_init_target` of
/repo/mushroom_rl/algorithms/value/dqn/*.py and /repo/mushroom_rl/algorithms/actor_critic/deep_actor_critic/deep_actor_critic.py.

Assumed of PyTorch: `p.data = t` makes the parameter refer to the memory of `t`; a slice, `reshape`, `as_tensor` and `type` of a contiguous
tensor of the right type share its memory; `concatenate` and arithmetic allocate; optimisers write the parameters in place. Numbers are reals.
-/
import Mathlib.Data.Real.Basic
import Mathlib.Logic.Function.Basic

namespace Verif.Approx.Heap

/-- A part of a block of memory: the data of a parameter. -/
structure View where
  store : ℕ
  off : ℕ
  len : ℕ

/-- The blocks of memory and the number of the next one. -/
structure Heap where
  arrays : ℕ → List ℝ
  next : ℕ

/-- What a parameter holds. -/
def Heap.read (h : Heap) (v : View) : List ℝ := ((h.arrays v.store).drop v.off).take v.len

/-- An in-place update of a parameter, to as many numbers. -/
def Heap.write (h : Heap) (v : View) (x : List ℝ) : Heap :=
  { h with arrays := fun s => if s = v.store then (h.arrays s).take v.off ++ x ++ (h.arrays s).drop (v.off + v.len) else h.arrays s }

/-- A new block. -/
def Heap.alloc (h : Heap) (x : List ℝ) : Heap := ⟨fun s => if s = h.next then x else h.arrays s, h.next + 1⟩

/-- The objects that hold weights: networks, each with its parameters, and arrays of the user, each with one. An object that does not exist
has none. -/
structure World where
  heap : Heap
  objs : ℕ → List View

/-- The contents of all objects. -/
def World.values (w : World) (k : ℕ) : List (List ℝ) := (w.objs k).map w.heap.read

/-- `TorchUtils.set_weights`: the parameters become parts of the given block, one after the other. torch.py L28-40. -/
def views (s : ℕ) : ℕ → List ℕ → List View
  | _, [] => []
  | off, c :: cs => ⟨s, off, c⟩ :: views s (off + c) cs

/-- `network.set_weights(weights)` where `weights` is a block of its own, or begins at `off` in it; a vector that is too short raises, one
that is too long does not. torch_approximator.py L237-245, torch.py L16-42. -/
def World.bind (w : World) (k s off : ℕ) : Option World :=
  let lens := (w.objs k).map View.len
  if off + lens.sum ≤ (w.heap.arrays s).length then some { w with objs := Function.update w.objs k (views s off lens) } else none

/-- What can happen. -/
inductive Op
  /-- `k.set_weights(x)` with a newly computed array `x`: `get_weights()` of another network (which concatenates, torch.py L46-67), the
  weighted sum of the weights of two networks (deep_actor_critic.py L92-96), an array that has to be converted. Reading weights into an
  array of the user is the same with the array as `k`. -/
  | assign (k : ℕ) (f : (ℕ → List (List ℝ)) → List ℝ)
  /-- an optimiser, or the user for an array of the user, writes object `k` in place -/
  | update (k : ℕ) (f : (ℕ → List (List ℝ)) → List (List ℝ))
  /-- `j.set_weights(x)` where `x` is the array `k` of the user, of the type of the parameters -/
  | share (j k : ℕ)

/-- One of these; `none` is an error. -/
def World.step (w : World) : Op → Option World
  | .assign k f => ({ w with heap := w.heap.alloc (f w.values) } : World).bind k w.heap.next 0
  | .update k f =>
    let xs := f w.values
    if xs.map List.length = (w.objs k).map View.len then
      some { w with heap := ((w.objs k).zip xs).foldl (fun h p => h.write p.1 p.2) w.heap }
    else none
  | .share j k => match w.objs k with
    | [v] => if ((w.objs j).map View.len).sum ≤ v.len then w.bind j v.store v.off else none
    | _ => none

/-- A history. -/
def World.run (w : World) : List Op → Option World
  | [] => some w
  | o :: os => (w.step o).bind (fun w' => w'.run os)

/-- Object `k` is constructed: each parameter has a block of its own. -/
def World.build (w : World) (k : ℕ) : List (List ℝ) → World
  | [] => { w with objs := Function.update w.objs k [] }
  | x :: xs =>
    let w := w.build k xs
    ⟨w.heap.alloc x, Function.update w.objs k (⟨w.heap.next, 0, x.length⟩ :: w.objs k)⟩

/-- Objects `0, 1, …` with the given contents are constructed. -/
def World.new : List (List (List ℝ)) → World
  | [] => ⟨⟨fun _ => [], 0⟩, fun _ => []⟩
  | o :: os => (World.new os).build os.length o

/-- `TorchUtils.get_gradient` of parameters given by their sizes and gradients (`none` before any backward pass). torch.py L85-102. -/
def getGradient (ps : List (ℕ × Option (List ℝ))) : List ℝ :=
  (ps.map (fun p => match p.2 with
    | none => List.replicate p.1 0
    | some g => g)).flatten

/-- `TorchUtils.zero_grad`. torch.py L69-83. -/
def zeroGrad (ps : List (ℕ × Option (List ℝ))) : List (ℕ × Option (List ℝ)) :=
  ps.map (fun p => (p.1, p.2.map (fun g => List.replicate g.length 0)))

end Verif.Approx.Heap
