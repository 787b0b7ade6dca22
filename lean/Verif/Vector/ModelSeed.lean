/-
Model of the life of a `MultiprocessEnvironment`: how its workers start and what seeding does
(mushroom_rl/core/multiprocess_environment.py, mushroom_rl/core/environment.py).

Every process has its own random generator. A process started with `fork` (the default on Linux up to Python 3.13) begins with a copy of the memory of the
parent, and so with the generator of the parent, which does not draw between the starts.
-/
import Verif.Vector.Pipes

namespace Verif.Vector.Pipes

variable {E Dat Ans : Type}

/-- A worker process: random generator and environment. -/
structure Proc (G E : Type) where
  rng : G
  env : E

/-- The workers after the constructor: L8-13, L74-84. `build` is the call of the class or of its generator, with the arguments that all workers share. -/
def forked {G : Type} (build : G → Proc G E) (rng : G) : Nat → Proc G E := fun _ => build rng

/-- The system after the constructor. The command `info` (L86-87) changes nothing and its answer has been received. -/
def start {G : Type} (build : G → Proc G E) (rng : G) : Sys (Proc G E) Dat Ans :=
  { cmds := fun _ => [], anss := fun _ => [], env := forked build rng, prog := [], got := [] }

/-- A sequence of calls of `reset_all`, `step_all`, `render_all` and `seed`, each of them executed under any schedule of the workers. A call is the selection
of the workers and the command for each of them. -/
inductive Calls (wk : Worker E Dat Ans) (n : Nat) : Sys E Dat Ans → List ((Nat → Bool) × (Nat → Cmd Dat)) → Sys E Dat Ans → Prop
  | nil (s : Sys E Dat Ans) : Calls wk n s [] s
  | cons {s s1 s' : Sys E Dat Ans} {mask : Nat → Bool} {cmd : Nat → Cmd Dat} {cs : List ((Nat → Bool) × (Nat → Cmd Dat))}
      (h : Steps wk { s with prog := callAll n mask cmd } s1) (hend : s1.prog = []) (hc : Calls wk n s1 cs s') : Calls wk n s ((mask, cmd) :: cs) s'

/-- `Environment.seed` of an environment that has no inner environment with a `seed` method: core/environment.py L129-141 (a warning and nothing else). -/
def seedNothing (e : E) (_ : Dat) : E := e

/-- `seed` of the MuJoCo and PyBullet environments, `np.random.seed(seed)`: environments/mujoco.py L115-116, environments/pybullet.py L87-88. -/
def seedGenerator {G : Type} (ofSeed : Dat → G) (p : Proc G E) (d : Dat) : Proc G E := { p with rng := ofSeed d }

end Verif.Vector.Pipes
