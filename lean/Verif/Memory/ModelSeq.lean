/-
Model of the arrays that `SequenceReplayMemory.get` returns.

File: mushroom_rl/rl_utils/replay_memory.py, L194-261. The entry of the batch that belongs to one sampled index is a
record of its rows in the returned arrays; `zx`, `za` and `zp` are the zeros of states, actions and policy states.
-/
import Verif.Memory.Model

namespace Verif.Memory

open Verif.Dataset (Row)

variable {X A R P : Type}

/-- One entry of the batch: rows of the arrays `s`, `a`, `r`, `ss`, `ab`, `last`, `ps`, `nps`, `pa` and of `lengths`. -/
structure SeqItem (X A R P : Type) where
  s : List X
  a : List A
  r : R
  ss : List X
  ab : Bool
  last : Bool
  ps : List P
  nps : List P
  pa : List A
  length : Nat
deriving DecidableEq, Repr

/-- L203-215 and L246-251: `zeros(trunc)` of which the first `len(l)` entries are assigned. -/
def padTo {α : Type} (trunc : Nat) (zero : α) (l : List α) : List α := l ++ List.replicate (trunc - l.length) zero

/-- L218-256: the entry of the sampled index `i`. -/
def seqItem (buf : List (Row X A R P)) (trunc : Nat) (zx : X) (za : A) (zp : P) (i : Nat) :
    Except Err (SeqItem X A R P) :=
  match buf[i]? with
  | none => .error .index
  | some row =>
    let (rows, prev) := seqAt buf trunc za i
    .ok { s := padTo trunc zx (rows.map (·.state))
          a := padTo trunc za (rows.map (·.action))
          r := row.reward
          ss := padTo trunc zx (rows.map (·.nextState))
          ab := row.absorbing
          last := row.last
          ps := padTo trunc zp (rows.map (·.policyState))
          nps := padTo trunc zp (rows.map (·.policyNextState))
          pa := padTo trunc za prev
          length := rows.length }

/-- L194-261: `get`; `idxs` are drawn with `randint(self.size, size=n_samples)`. `stateful` tells whether the agent has
a shape of policy states; without one, `*None` in L212 raises a `TypeError` (`none`). -/
def seqGet (stateful : Bool) (m : Mem X A R P) (trunc : Nat) (zx : X) (za : A) (zp : P) (idxs : List Nat) :
    Option (Except Err (List (SeqItem X A R P))) :=
  if stateful then some (idxs.mapM (seqItem m.buf trunc zx za zp)) else none

end Verif.Memory
