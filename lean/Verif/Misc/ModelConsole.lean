/-
Model of /repo/mushroom_rl/core/logger/console_logger.py, logger.py and of the file names of data_logger.py.

The registry of the `logging` module is global: `logging.getLogger(id)` gives the same object for the same id. Messages are opaque. Hierarchies of loggers,
changes of the root logger and calls of `logging.disable` by user programs are not modelled; those of /repo/mushroom_rl/environments/igibson_env.py are.
-/
import Verif.Misc.ModelLog
import Verif.Record.Model
import Mathlib.Logic.Function.Basic

namespace Verif.Misc.Console

/-- Where a line is written: by the `TqdmHandler` to the console, by a `FileHandler` at the end of a file, or by the handler of last resort of `logging`. -/
inductive Sink
  | console
  | file (path : Name)
  | stderr
  deriving DecidableEq

/-- A handler and its level. -/
structure Handler where
  sink : Sink
  level : ℕ
  deriving DecidableEq

/-- A logger of the registry. -/
structure Entry where
  level : ℕ
  handlers : List Handler

/-- The registry; unknown loggers are created without a level and without handlers. -/
abbrev Registry := Name → Entry

/-- The registry at the start. -/
def Registry.empty : Registry := fun _ => ⟨0, []⟩

/-- The arguments of `ConsoleLogger`. console_logger.py L26-29. -/
structure Conf where
  name : Name
  suffix : Name
  dir : Option Name
  fileName : Option Name
  consoleLevel : ℕ
  fileLevel : ℕ

/-- `self._log_id`. console_logger.py L45. -/
def Conf.id (c : Conf) : Name := c.name ++ c.suffix

/-- The path of the log file. console_logger.py L58-61. -/
def Conf.path (c : Conf) : Option Name := c.dir.map fun d => d ++ "/".toList ++ c.fileName.getD c.id ++ ".log".toList

/-- The constructor. console_logger.py L45-65. -/
def construct (r : Registry) (c : Conf) : Registry :=
  Function.update r c.id ⟨min c.consoleLevel c.fileLevel,
    (r c.id).handlers ++ [⟨.console, c.consoleLevel⟩] ++
      match c.path with
      | none => []
      | some p => [⟨.file p, c.fileLevel⟩]⟩

/-- `__del__`. console_logger.py L140-141. -/
def delete (r : Registry) (c : Conf) : Registry := Function.update r c.id { r c.id with handlers := [] }

/-- Where `self._logger.log(level, msg)` writes: a level of zero means the level of the root logger, `WARNING`; without handlers, `logging` writes messages
from `WARNING` on to the standard error. console_logger.py L67-108, logging/__init__.py of python. -/
def emit (r : Registry) (c : Conf) (level : ℕ) : List Sink :=
  let e := r c.id
  if level < (if e.level = 0 then 30 else e.level) then []
  else if e.handlers = [] then (if 30 ≤ level then [.stderr] else [])
  else (e.handlers.filter fun h => h.level ≤ level).map Handler.sink

/-- What a program does with loggers; `o` names the object. `igibson` is the construction of an `iGibson` environment. -/
inductive Op (Msg : Type)
  | igibson (verbose : Bool)
  | new (o : ℕ) (c : Conf)
  | del (o : ℕ)
  | log (o level : ℕ) (msg : Msg)

/-- The level of `logging.disable`, the registry, the objects, and all lines that were written. -/
structure World (Msg : Type) where
  disabled : ℕ
  reg : Registry
  objs : ℕ → Option Conf
  out : List (Sink × Msg)

/-- One operation. console_logger.py L26-141; the constructor of `iGibson` disables all levels up to `CRITICAL + 1`, 51. igibson_env.py L68-69. -/
def World.step {Msg : Type} (w : World Msg) : Op Msg → World Msg
  | .igibson verbose => if !verbose then { w with disabled := 51 } else w
  | .new o c => { w with reg := construct w.reg c, objs := Function.update w.objs o (some c) }
  | .del o =>
    match w.objs o with
    | none => w
    | some c => { w with reg := delete w.reg c, objs := Function.update w.objs o none }
  | .log o level msg =>
    match w.objs o with
    | none => w
    | some c => { w with out := w.out ++ (if level ≤ w.disabled then [] else emit w.reg c level).map fun s => (s, msg) }

/-- A program. -/
def run {Msg : Type} (ops : List (Op Msg)) : World Msg := ops.foldl World.step ⟨0, Registry.empty, fun _ => none, []⟩

/-! ### logger.py -/

/-- `suffix`. logger.py L49. -/
def seedSuffix : Option ℕ → Name
  | none => []
  | some s => '-' :: Record.decimal s

/-- The name of the experiment; `stamp` is the present time in seconds. logger.py L38-43. -/
def logName (name : Name) (useTimestamp : Bool) (stamp : Name) : Name :=
  if name = [] then stamp else if useTimestamp then name ++ "_".toList ++ stamp else name

/-- `Logger`: the arguments of `ConsoleLogger`; `none` is the failed assertion. An empty directory is not modelled. logger.py L35-53. -/
def loggerConf (name : Name) (resultsDir : Option Name) (logConsole useTimestamp : Bool) (stamp : Name) (seed : Option ℕ) (consoleLevel fileLevel : ℕ) :
    Option Conf :=
  if logConsole ∧ resultsDir = none then none
  else
    let n := logName name useTimestamp stamp
    let d := resultsDir.map fun d => d ++ "/".toList ++ n
    some ⟨n, seedSuffix seed, if logConsole then d else none, none, consoleLevel, fileLevel⟩

/-! ### File names of data_logger.py -/

/-- What a logger saves. -/
inductive Artifact
  | value (name : Name)
  | agent (epoch : Option ℕ)
  | best
  | dataset

/-- The start of a file name. data_logger.py L50, L66, L85, L105, L111. -/
def Artifact.stem : Artifact → Name
  | .value name => name
  | .agent _ => "agent".toList
  | .best => "agent".toList
  | .dataset => "dataset".toList

/-- The end of a file name. data_logger.py L50, L66, L83-85, L105, L111. -/
def Artifact.ending : Artifact → Name
  | .value _ => ".npy".toList
  | .agent epoch => seedSuffix epoch ++ ".msh".toList
  | .best => "-best".toList ++ ".msh".toList
  | .dataset => ".pkl".toList

/-- The name of the file. data_logger.py L50, L66, L83-85, L105, L111. -/
def fileOf (seed : Option ℕ) (a : Artifact) : Name := a.stem ++ seedSuffix seed ++ a.ending

end Verif.Misc.Console
