/-
Model of what saving and loading does to the replay memories.

File: mushroom_rl/rl_utils/replay_memory.py; the rules of `save` and `load` are those of `Verif.Serialization` (C20): an
attribute registered with '!' is `None` after a save that is not full, and one registered as `mushroom!` is always
`None`.
-/
import Verif.Memory.Model
import Verif.Memory.ModelPER

namespace Verif.Memory

variable {X A R P : Type}

/-- A loaded `ReplayMemory`: `dataset = none` is the attribute `_dataset` being `None`. -/
structure LoadedMem (X A R P : Type) where
  initialSize : Nat
  maxSize : Nat
  idx : Nat
  full : Bool
  dataset : Option (List (Verif.Dataset.Row X A R P))

/-- L39-47 and L162-164: `_idx` and `_full` are registered as `primitive!` and `_dataset` as `mushroom!`; `_post_load`
resets the memory if `_full` is `None`, that is, after a save that is not full. -/
def Mem.load (fullSave : Bool) (m : Mem X A R P) : LoadedMem X A R P :=
  if fullSave then
    { initialSize := m.initialSize, maxSize := m.maxSize, idx := m.idx, full := m.full, dataset := none }
  else { initialSize := m.initialSize, maxSize := m.maxSize, idx := 0, full := false, dataset := some [] }

/-- L111-127: `get` of a loaded memory; `none` is the `AttributeError` or `TypeError` of using `None` as a dataset. -/
def LoadedMem.get (m : LoadedMem X A R P) (idxs : List Nat) : Option (Except Err (List (Verif.Dataset.Row X A R P))) :=
  match m.dataset with
  | none => none
  | some buf => some (Mem.get { initialSize := m.initialSize, maxSize := m.maxSize, idx := m.idx, full := m.full, buf := buf }
      idxs)

/-- L290-297 and L463-466: the tree, the position and the flag are registered without '!', `dataset` as `mushroom!`, and
`_post_load` makes an empty dataset. Full and partial saves give the same. -/
def STree.load (t : STree X A R P) : STree X A R P := { t with mem := { t.mem with buf := [] } }

/-- L499-506: `_tree` is registered as `mushroom`, the rest as `primitive`. -/
def PER.load (m : PER X A P) : PER X A P := { m with tree := m.tree.load }

end Verif.Memory
