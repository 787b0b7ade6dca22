/-
Model of video recording: /repo/mushroom_rl/utils/record.py, the recorder of `Core` (core/core.py) and the recorders of
`VectorCore` (core/vectorized_core.py) with `MultiprocessEnvironment.render_all` (core/multiprocess_environment.py).

Frames are elements of an arbitrary type with a height and a width. OpenCV is idealised: `cv2.VideoWriter(path, codec, fps,
(width, height))` creates an empty file or empties the existing one, and `write` appends a frame of this size and ignores every
other frame. Colour conversion and the codec are not modelled.
-/
import Mathlib.Data.Real.Archimedean
import Verif.Vector.Model

namespace Verif.Record

inductive Err where
  | assertion
  | attribute
  | index
  | zeroDivision
deriving DecidableEq, Repr

/-- A directory and a file name. -/
abbrev Path := List Char × List Char

/-- The frames of the videos on disk. -/
abbrev Disk (F : Type) := Path → Option (List F)

/-- An open `cv2.VideoWriter`: its file and its size, which is a width and a height. -/
structure Writer where
  path : Path
  size : ℕ × ℕ
deriving DecidableEq

/-- A VideoRecorder. utils/record.py L11-35. -/
structure Recorder where
  dir : List Char
  name : List Char
  counter : ℕ
  writer : Option Writer

variable {F : Type}

/-- `str(k)`. -/
def decimal (k : ℕ) : List Char := Nat.toDigits 10 k

/-- The constructor; the tag is given, or `clock` is the time in seconds written as text. `videoName = ""` counts as missing.
utils/record.py L23-35. -/
def Recorder.new (path : List Char) (tag : Option (List Char)) (clock : List Char) (videoName : Option (List Char)) : Recorder :=
  let tag := tag.getD clock
  let name := match videoName with
    | none => "recording".toList
    | some v => if v = [] then "recording".toList else v
  ⟨path ++ ['/'] ++ tag, name, 0, none⟩

/-- The path of the next video. utils/record.py L52-60. -/
def Recorder.next (r : Recorder) : Path :=
  (r.dir, if r.counter > 0 then r.name ++ "-".toList ++ decimal r.counter ++ ".mp4".toList else r.name ++ ".mp4".toList)

/-- `VideoWriter.write`. -/
def Writer.write (shape : F → ℕ × ℕ) (w : Writer) (disk : Disk F) (f : F) : Disk F :=
  if w.size = ((shape f).2, (shape f).1) then fun p => if p = w.path then (disk p).map (· ++ [f]) else disk p else disk

/-- `__call__`; `shape` gives height and width of a frame and `none` is the frame None. utils/record.py L37-48, L50-63. -/
def call (shape : F → ℕ × ℕ) (s : Recorder × Disk F) (frame : Option F) : Except Err (Recorder × Disk F) :=
  match frame with
  | none => .error .assertion
  | some f =>
    match s.1.writer with
    | some w => .ok (s.1, w.write shape s.2 f)
    | none =>
      let height := (shape f).1
      let width := (shape f).2
      let w : Writer := ⟨s.1.next, (width, height)⟩
      .ok ({ s.1 with writer := some w }, w.write shape (fun p => if p = w.path then some [] else s.2 p) f)

/-- `stop`: `None` has no method `release`. utils/record.py L65-69. -/
def stop (s : Recorder × Disk F) : Except Err (Recorder × Disk F) :=
  match s.1.writer with
  | none => .error .attribute
  | some _ => .ok ({ s.1 with writer := none, counter := s.1.counter + 1 }, s.2)

/-- The frames of the steps of a run. core/core.py L150-154. -/
def record (shape : F → ℕ × ℕ) (s : Recorder × Disk F) : List (Option F) → Except Err (Recorder × Disk F)
  | [] => .ok s
  | f :: fs =>
    match call shape s f with
    | .ok s => record shape s fs
    | .error e => .error e

/-- A call of `learn` or `evaluate` that runs to its end; `frames` are the results of `env.render`, one for each step.
core/core.py L63, L89, L150-154, L182-191. -/
def run (shape : F → ℕ × ℕ) (render rec : Bool) (s : Recorder × Disk F) (frames : List (Option F)) :
    Except Err (Recorder × Disk F) :=
  if (render && rec) || !rec then
    if rec then
      match record shape s frames with
      | .ok s => stop s
      | .error e => .error e
    else .ok s
  else .error .assertion

/-- A call of `learn` or `evaluate` that is left by an exception of the environment, the agent or the user after some steps. -/
def interrupted (shape : F → ℕ × ℕ) (s : Recorder × Disk F) (frames : List (Option F)) :
    Except Err (Recorder × Disk F) := record shape s frames

/-- Several calls, one after the other. -/
def runs (shape : F → ℕ × ℕ) : List (List F) → Recorder × Disk F → Except Err (Recorder × Disk F)
  | [], s => .ok s
  | fs :: rest, s =>
    match run shape true true s (fs.map some) with
    | .ok s => runs shape rest s
    | .error e => .error e

/-- The frames per second given to the recorder: an argument that is missing or zero is replaced by `int(1 / dt)`.
core/core.py L226-229. -/
noncomputable def framesPerSecond (fps : Option ℕ) (dt : ℝ) : Except Err ℤ :=
  open Classical in
  match fps with
  | some (k + 1) => .ok (k + 1 : ℕ)
  | _ => if dt = 0 then .error .zeroDivision else .ok (if 0 ≤ 1 / dt then ⌊1 / dt⌋ else ⌈1 / dt⌉)

/-! ### VectorCore -/

/-- The recorders: the same dictionary for every environment. core/vectorized_core.py L38-40. -/
def vectorRecorders (n : ℕ) (path : List Char) (tag : Option (List Char)) (clock : ℕ → List Char) (videoName : Option (List Char)) :
    List Recorder := (List.range n).map (fun i => Recorder.new path tag (clock i) videoName)

/-- `MultiprocessEnvironment.render_all`: the frames of the selected environments. core/multiprocess_environment.py L135-147. -/
def renderAll (n : ℕ) (mask : ℕ → Bool) (frame : ℕ → F) : List F := ((List.range n).filter mask).map frame

/-- The loop over the recorders: `self._record[i](frames[i])`, for `i` in `is`. core/vectorized_core.py L162-165. -/
def deliver (mask : ℕ → Bool) (frames : List F) : List ℕ → List (ℕ × F) × Option Err
  | [] => ([], none)
  | i :: is =>
    if mask i then
      match frames[i]? with
      | none => ([], some .index)
      | some f => let rest := deliver mask frames is; ((i, f) :: rest.1, rest.2)
    else deliver mask frames is

/-- One recorded step: the frames handed to the recorders, with their environments, and the exception if there is one.
core/vectorized_core.py L159-165. -/
def recordStep (n : ℕ) (mask : ℕ → Bool) (frame : ℕ → F) : List (ℕ × F) × Option Err :=
  deliver mask (renderAll n mask frame) (List.range n)

/-- `_end`: every recorder is stopped; `opened i` tells whether recorder `i` has received a frame. core/vectorized_core.py L209-211. -/
def stopAll (opened : ℕ → Bool) : List ℕ → Except Err Unit
  | [] => .ok ()
  | i :: is => if opened i then stopAll opened is else .error .attribute

/-- The recorded steps of a run: the masks and the pictures of the environments. -/
def recordSteps (n : ℕ) : List ((ℕ → Bool) × (ℕ → F)) → List (ℕ × F) × Option Err
  | [] => ([], none)
  | (mask, frame) :: rest =>
    match recordStep n mask frame with
    | (fs, some e) => (fs, some e)
    | (fs, none) => let out := recordSteps n rest; (fs ++ out.1, out.2)

/-- A recorded run of VectorCore: the steps, then `_end`. core/vectorized_core.py L100-138, L204-213. -/
def vectorRun (n : ℕ) (steps : List ((ℕ → Bool) × (ℕ → F))) : List (ℕ × F) × Option Err :=
  match recordSteps n steps with
  | (fs, some e) => (fs, some e)
  | (fs, none) => (fs, match stopAll (fun i => fs.any (fun p => p.1 == i)) (List.range n) with
      | .ok () => none
      | .error e => some e)

end Verif.Record
