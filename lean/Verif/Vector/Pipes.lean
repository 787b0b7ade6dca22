/-
Model of `MultiprocessEnvironment` (mushroom_rl/core/multiprocess_environment.py): one worker process per environment,
connected to the parent by a pipe with two directions. Every worker runs when the scheduler lets it; the parent executes
the sends and receives of a call one after the other, and a receive blocks until an answer is there.

Not modelled: worker crashes, pipes that are full, the start and the end of the processes.
-/

namespace Verif.Vector.Pipes

/-- A command on a pipe: L19-41. `Dat` are the data sent with it (an action, an initial state, a seed, ...). -/
inductive Cmd (Dat : Type) where
  | step (d : Dat)
  | reset (d : Option Dat)
  | render
  | stop
  | info
  | seed (d : Dat)
deriving DecidableEq, Repr

/-- What a worker does with a command: new environment and the answer. -/
abbrev Worker (E Dat Ans : Type) := E → Cmd Dat → E × Ans

/-- L8-48: `_env_worker`, for an environment with the given methods; `first` is `data[0]`, which a reset takes of its data (L24-28; what this
means for initial states is the subject of `Verif.Vector.Single`). -/
def worker {E X A R I : Type} (envStep : E → A → E × (X × R × Bool × I)) (envReset : E → Option A → E × (X × I))
    (envSeed : E → A → E) (envStop : E → E) (first : A → A) (inject : (X × R × Bool × I) → Ans) (injectR : (X × I) → Ans) (nothing : Ans) :
    Worker E A Ans := fun e c =>
  match c with
  | .step a => let (e, r) := envStep e a; (e, inject r)
  | .reset d => let (e, r) := envReset e (d.map first); (e, injectR r)
  | .render => (e, nothing)
  | .stop => (envStop e, nothing)
  | .info => (e, nothing)
  | .seed d => (envSeed e d, nothing)

/-- One action of the parent. -/
inductive Act (Dat : Type) where
  | send (i : Nat) (c : Cmd Dat)
  | recv (i : Nat)
deriving DecidableEq, Repr

/-- State of the whole system: commands and answers in transit, environments of the workers, remaining actions of the
parent and the answers it has received (with the index of the worker), latest last. -/
structure Sys (E Dat Ans : Type) where
  cmds : Nat → List (Cmd Dat)
  anss : Nat → List Ans
  env : Nat → E
  prog : List (Act Dat)
  got : List (Nat × Ans)

variable {E Dat Ans : Type}

def upd {α : Type} (f : Nat → α) (i : Nat) (x : α) : Nat → α := fun j => if j = i then x else f j

/-- Possible steps: the parent sends, the parent receives, some worker executes its next command. -/
inductive Step (wk : Worker E Dat Ans) : Sys E Dat Ans → Sys E Dat Ans → Prop
  | send (s : Sys E Dat Ans) (i : Nat) (c : Cmd Dat) (rest : List (Act Dat)) (h : s.prog = .send i c :: rest) :
      Step wk s { s with cmds := upd s.cmds i (s.cmds i ++ [c]), prog := rest }
  | recv (s : Sys E Dat Ans) (i : Nat) (a : Ans) (as : List Ans) (rest : List (Act Dat)) (h : s.prog = .recv i :: rest)
      (ha : s.anss i = a :: as) :
      Step wk s { s with anss := upd s.anss i as, prog := rest, got := s.got ++ [(i, a)] }
  | work (s : Sys E Dat Ans) (i : Nat) (c : Cmd Dat) (cs : List (Cmd Dat)) (h : s.cmds i = c :: cs) :
      Step wk s { s with cmds := upd s.cmds i cs, anss := upd s.anss i (s.anss i ++ [(wk (s.env i) c).2])
                         env := upd s.env i (wk (s.env i) c).1 }

inductive Steps (wk : Worker E Dat Ans) : Sys E Dat Ans → Sys E Dat Ans → Prop
  | refl (s : Sys E Dat Ans) : Steps wk s s
  | tail {s s' s'' : Sys E Dat Ans} (h : Steps wk s s') (h' : Step wk s' s'') : Steps wk s s''

/-- Nothing in transit and nothing to do. -/
def Idle (s : Sys E Dat Ans) : Prop := (∀ i, s.cmds i = []) ∧ (∀ i, s.anss i = []) ∧ s.prog = []

/-- L95-147: `reset_all`, `step_all`, `render_all`: commands to all the selected workers, then one answer from each. -/
def callAll (n : Nat) (mask : Nat → Bool) (cmd : Nat → Cmd Dat) : List (Act Dat) :=
  ((List.range n).filter mask).map (fun i => .send i (cmd i)) ++ ((List.range n).filter mask).map .recv

/-- L149-154: `seed`. -/
def seedAll (n : Nat) (seed : Dat) : List (Act Dat) := callAll n (fun _ => true) (fun _ => .seed seed)

/-- L156-159: `stop`: every worker answers before the next one is asked. -/
def stopAll (n : Nat) : List (Act Dat) := ((List.range n).map (fun i => [Act.send i .stop, Act.recv i])).flatten

/-- L126, L106: `self._states[i] = state` for the answers that have been received. -/
def place {α : Type} (states : Nat → α) : List (Nat × α) → (Nat → α)
  | [] => states
  | (i, x) :: l => place (upd states i x) l

end Verif.Vector.Pipes
