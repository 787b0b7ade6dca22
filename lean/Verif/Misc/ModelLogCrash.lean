/-
What is on disk when a program that logs is killed, or when saving raises.

Files: mushroom_rl/core/logger/data_logger.py, mushroom_rl/core/serialization.py (save).

Every file is written in place: it is opened for writing, which empties it, then filled, then closed. The name of a file is the list of its
characters. Not modelled: caches of the operating system (what has been closed is on disk).
-/
import Verif.Misc.ModelLog

namespace Verif.Misc.Crash

/-- What is in a file: everything that was to be written; only a part of it, so that `np.load`, `pickle.load` and `ZipFile(path, 'r')` raise; or an
archive that was closed by the exception of an attribute (serialization.py L35-36: the `with` statement closes the archive, L78: the configuration is written last). -/
inductive Content (C : Type) where
  | whole (c : C)
  | torn
  | cut

/-- The directory of the logger. -/
abbrev Disk (C : Type) := Name → Option (Content C)

/-- The data that are logged. -/
inductive Data (V A D : Type) where
  | rows (l : List V)
  | array (v : V)
  | agent (a : A)
  | dataset (d : D)

/-- The calls of the logger. The performance is `none` for NaN. data_logger.py L35-115. -/
inductive Call (V A D : Type) where
  | numpy (items : List (Name × V))
  | array (items : List (Name × V))
  | agent (a : A) (epoch : Option ℕ)
  | best (a : A) (J : Option EReal)
  | dataset (d : D)

/-- The logger: suffix, lists of values, best performance. data_logger.py L26-30. -/
structure Log (V : Type) where
  suffix : Name
  data : Name → List V
  best : EReal

/-- data_logger.py L50, L67. -/
def npyFile (suffix name : Name) : Name := name ++ suffix ++ ".npy".toList

/-- data_logger.py L84-86. -/
def agentFile (suffix : Name) (epoch : Option ℕ) : Name :=
  "agent".toList ++ suffix ++ (match epoch with | none => [] | some n => '-' :: (toString n).toList) ++ ".msh".toList

/-- data_logger.py L106. -/
def bestFile (suffix : Name) : Name := "agent".toList ++ suffix ++ "-best.msh".toList

/-- data_logger.py L111. -/
def datasetFile (suffix : Name) : Name := "dataset".toList ++ suffix ++ ".pkl".toList

variable {V A D : Type}

/-- The file that `agent.save` leaves when it is not killed: an agent with an attribute that cannot be saved raises. serialization.py L21-36. -/
noncomputable def saved (savable : A → Prop) (a : A) : Content (Data V A D) :=
  open Classical in if savable a then .whole (.agent a) else .cut

/-- `log_numpy`: the values are appended in the memory and their file is written, one name after the other. data_logger.py L44-53. -/
def numpyWrites (l : Log V) : List (Name × V) → Log V × List (Name × Content (Data V A D))
  | [] => (l, [])
  | (name, v) :: rest =>
    let rows := l.data name ++ [v]
    let r := numpyWrites { l with data := fun n => if n = name then rows else l.data n } rest
    (r.1, (npyFile l.suffix name, .whole (.rows rows)) :: r.2)

/-- The new state of the logger and the files that are written by a call, in their order. data_logger.py L35-115. For `log_best_agent` the performance is
stored before the agent is saved (L103-108), so that it stays if saving raises. -/
noncomputable def writes (savable : A → Prop) (l : Log V) : Call V A D → Log V × List (Name × Content (Data V A D))
  | .numpy items => numpyWrites l items
  | .array items => (l, items.map fun p => (npyFile l.suffix p.1, .whole (.array p.2)))
  | .agent a epoch => (l, [(agentFile l.suffix epoch, saved savable a)])
  | .best a J => match J with
    | none => (l, [])
    | some J => open Classical in
      if l.best ≤ J then ({ l with best := J }, [(bestFile l.suffix, saved savable a)]) else (l, [])
  | .dataset d => (l, [(datasetFile l.suffix, .whole (.dataset d))])

/-- A file gets a content. -/
def Disk.put {C : Type} (d : Disk C) (w : Name × Content C) : Disk C := fun p => if p = w.1 then some w.2 else d p

/-- Calls that were not killed; exceptions of `save` are caught by the program. -/
noncomputable def play (savable : A → Prop) (l : Log V) (d : Disk (Data V A D)) : List (Call V A D) → Log V × Disk (Data V A D)
  | [] => (l, d)
  | c :: cs => play savable (writes savable l c).1 ((writes savable l c).2.foldl Disk.put d) cs

/-- The directory after the program was killed in the call `c`, after the calls `done`: `k` files of the call had been written and closed; if `tear`, the next
one had been opened. -/
noncomputable def killed (savable : A → Prop) (l : Log V) (d : Disk (Data V A D)) (done : List (Call V A D)) (c : Call V A D) (k : ℕ) (tear : Bool) :
    Disk (Data V A D) :=
  let s := play savable l d done
  let ws := (writes savable s.1 c).2
  let d1 := (ws.take k).foldl Disk.put s.2
  if tear then match ws[k]? with
    | some w => d1.put (w.1, .torn)
    | none => d1
  else d1

/-- `Logger(..., append=True)` in a directory with these `.npy` files: `np.load` raises for a torn file. data_logger.py L32-33, L125-131. -/
def reload {V : Type} (suffix : Name) (files : List (Name × Content (List V))) : Option (List (Name × List V)) :=
  files.foldlM (fun data f => if suffix.isSuffixOf f.1 then
    match f.2 with
    | .whole rows => some (Misc.put data (stripSeed f.1) rows)
    | _ => none
    else some data) []

end Verif.Misc.Crash
