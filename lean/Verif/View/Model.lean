/-
Model of the interactive viewer of MuJoCo environments: utils/mujoco/viewer.py.

MuJoCo and GLFW are not modelled. What a frame shows is recorded as the camera, the options and the text that are handed over; `mjv_moveCamera` is an arbitrary function; the events, the
duration and the size of the window during each frame come from a tape. Floats are reals.
-/
import Mathlib.Data.Real.Basic
import Mathlib.Algebra.Order.Archimedean.Real.Basic

namespace Verif.View

/-- The errors: a failing assertion, an index out of range, `RuntimeError`, and the end of the program by `exit(0)`. -/
inductive Err
  | assertion | index | runtime | exit | import
  deriving DecidableEq, Repr

/-! ### The parameters of the cameras -/

/-- A Python dictionary with strings as keys, in the order of insertion. -/
abbrev Dict (α : Type) := List (String × α)

noncomputable section

/-- `get_default_camera_params`; numbers are lists of length one. viewer.py L588-599. -/
def defaults : Dict (Dict (List ℝ)) :=
  [("static", [("distance", [15]), ("elevation", [-45]), ("azimuth", [90]), ("lookat", [0, 0, 0])]),
   ("follow", [("distance", [7 / 2]), ("elevation", [0]), ("azimuth", [90])]),
   ("top_static", [("distance", [5]), ("elevation", [-90]), ("azimuth", [90]), ("lookat", [0, 0, 0])])]

/-- The loop over the parameters of one camera that are not specified. viewer.py L581-583. -/
def fillParams (d ps : Dict (List ℝ)) : Dict (List ℝ) :=
  d.foldl (fun ps pv => if ps.lookup pv.1 = none then ps ++ [(pv.1, pv.2)] else ps) ps

/-- One round of the loop over the camera types: a missing camera is added, another one is completed. viewer.py L578-583. -/
def fillType (given : Dict (Dict (List ℝ))) (td : String × Dict (List ℝ)) : Dict (Dict (List ℝ)) :=
  if given.lookup td.1 = none then given ++ [(td.1, td.2)]
  else given.map fun tp => if tp.1 = td.1 then (tp.1, fillParams td.2 tp.2) else tp

/-- The assertions about the names. viewer.py L566-575. -/
def known (given : Dict (Dict (List ℝ))) : Bool :=
  given.all fun tp => match defaults.lookup tp.1 with
    | none => false
    | some d => tp.2.all fun pv => (d.lookup pv.1).isSome

/-- `_assert_camera_params`. The result is the dictionary of the caller, which is changed in place. viewer.py L550-585. -/
def assertParams (given : Dict (Dict (List ℝ))) : Except Err (Dict (Dict (List ℝ))) :=
  if known given then .ok (defaults.foldl fillType given) else .error .assertion

/-! ### The state of the viewer -/

/-- The camera of MuJoCo; `tracking` is its type. viewer.py L119-120, L513-548. -/
structure Camera where
  tracking : Bool
  fixedcamid : ℤ
  trackbodyid : ℤ
  distance : List ℝ
  elevation : List ℝ
  azimuth : List ℝ
  lookat : List ℝ

/-- The options of the scene that the keys change. viewer.py L118. -/
structure Opt where
  contactForce : Bool
  constraint : Bool
  transparent : Bool
  frame : Bool
  geomgroup : List Bool

/-- What the text over the picture says, without the fixed hints: the frame rate, whether contacts are shown, the camera mode, the speed. viewer.py L438-502. -/
structure Overlay where
  framerate : ℤ
  contact : Bool
  mode : Option String
  speed : ℝ

/-- What is handed to MuJoCo for one frame, and the data it shows. viewer.py L350-371. -/
structure Shot (D : Type) where
  data : D
  camera : Camera
  opt : Opt
  viewport : ℕ × ℕ
  overlay : Option Overlay

/-- The kinds of camera movements. viewer.py L207-213. -/
inductive Mouse
  | moveH | moveV | rotateH | rotateV | zoom
  deriving DecidableEq, Repr

/-- The attributes that change, with the frames drawn and the arguments of the calls of `mjv_moveCamera` so far. `it` counts the elements taken from the iterator over the modes.
viewer.py L74-147. -/
structure St (D : Type) where
  left : Bool := false
  right : Bool := false
  middle : Bool := false
  last : ℝ × ℝ := (0, 0)
  frames : ℕ := 0
  viewport : ℕ × ℕ
  loop : ℝ := 0
  tpr : ℝ := 1 / 60
  speed : ℝ := 1
  paused : Bool
  opt : Opt
  camera : Camera
  it : ℕ
  mode : Option String
  target : String
  hide : Bool
  shots : List (Shot D) := []
  moves : List (Mouse × ℝ × ℝ) := []

/-- The keys with a meaning. viewer.py L230-292. -/
inductive Key
  | space | c | t | digit (n : ℕ) | tab | s | f | e | h | other
  deriving DecidableEq, Repr

/-- The events of GLFW: a key and whether it was released; the buttons that are down after a click and the place of the cursor; the place after a movement and whether shift is down; a
turn of the wheel. viewer.py L165-306. -/
inductive Event
  | key (k : Key) (released : Bool)
  | button (left right middle : Bool) (pos : ℝ × ℝ)
  | move (pos : ℝ × ℝ) (shift : Bool)
  | scroll (dy : ℝ)

/-- What happens during one frame: the events, its duration, the size of the window and whether the window is closed. -/
structure Poll where
  events : List Event
  cost : ℝ
  size : ℕ × ℕ
  close : Bool

/-- The arguments of the constructor that are kept, the camera movements of MuJoCo and the tape. -/
structure Env where
  dt : ℝ
  headless : Bool
  params : Dict (Dict (List ℝ))
  moveCamera : Mouse → ℝ → ℝ → Camera → Camera
  tape : ℕ → Poll

variable {D : Type}

/-! ### Cameras -/

/-- `_all_camera_modes`. viewer.py L125. -/
def modes : List String := ["static", "follow", "top_static"]

/-- The `n`-th element of `cycle(_all_camera_modes)`. viewer.py L126. -/
def cycleAt (n : ℕ) : String := modes.getD (n % 3) ""

/-- `_set_camera_properties`; the parameters of the mode are there after `_assert_camera_params`. viewer.py L532-548. -/
def setProperties (e : Env) (s : St D) (mode : String) : St D :=
  let p := (e.params.lookup mode).getD []
  let get := fun (k : String) => (p.lookup k).getD []
  let cam := { s.camera with distance := get "distance", elevation := get "elevation", azimuth := get "azimuth" }
  let cam := match p.lookup "lookat" with
    | some l => { cam with lookat := l }
    | none => cam
  { s with camera := cam, mode := some mode }

/-- `_set_camera`. viewer.py L504-530. -/
def setCamera (e : Env) (s : St D) : St D :=
  if s.target = "follow" then
    if s.mode ≠ some "follow" then
      setProperties e { s with camera := { s.camera with fixedcamid := -1, tracking := true, trackbodyid := 0 } } s.target
    else s
  else if s.target = "static" then
    if s.mode ≠ some "static" then
      setProperties e { s with camera := { s.camera with fixedcamid := 0, tracking := false, trackbodyid := -1 } } s.target
    else s
  else if s.target = "top_static" then
    if s.mode ≠ some "top_static" then
      setProperties e { s with camera := { s.camera with fixedcamid := 0, tracking := false, trackbodyid := -1 } } s.target
    else s
  else s

/-- The loop that turns the iterator until the default mode comes; `rounds` bounds its rounds. The target and the number of elements taken. viewer.py L130-131. -/
def seek (d : String) : ℕ → String × ℕ → String × ℕ
  | 0, r => r
  | k + 1, (t, n) => if t ≠ d then seek d k (cycleAt n, n + 1) else (t, n)

/-- The groups of geometries that are shown at the start: those not in the list are hidden. viewer.py L139-145. -/
def startGroups (default : List Bool) (startup : Option (List ℕ)) : List Bool :=
  match startup with
  | none => default
  | some l => default.mapIdx fun i b => if i ∉ l then false else b

/-- `hide_menu_on_startup`: by default the menu is hidden if there is no window. viewer.py L69-72. -/
def startHide (headless : Bool) (hideMenu : Option Bool) : Bool :=
  match hideMenu with
  | some b => b
  | none => headless

/-- The constructor: the mode must be known; `cam0` and `opt0` are the default camera and options of MuJoCo, `size` the size found before. A number for the groups is a list of length
one. viewer.py L67-145. -/
def init (e : Env) (cam0 : Camera) (opt0 : Opt) (size : ℕ × ℕ) (startPaused : Bool) (defaultMode : String) (hideMenu : Option Bool) (startup : Option (List ℕ)) :
    Except Err (St D) :=
  if defaultMode ∈ modes then
    let r := seek defaultMode 3 (cycleAt 0, 1)
    let s : St D := { viewport := size, paused := startPaused, opt := opt0, camera := cam0, it := r.2, mode := none, target := r.1, hide := startHide e.headless hideMenu }
    let s := setCamera e s
    .ok { s with opt := { s.opt with geomgroup := startGroups s.opt.geomgroup startup } }
  else .error .assertion

/-! ### Events -/

/-- `keyboard`. `frame` is toggled between no frames and body frames. viewer.py L217-292. -/
def keyboard (s : St D) (k : Key) (released : Bool) : Except Err (St D) :=
  if !released then .ok s
  else match k with
    | .space => .ok { s with paused := !s.paused }
    | .c => .ok { s with opt := { s.opt with contactForce := !s.opt.contactForce, constraint := !s.opt.constraint } }
    | .t => .ok { s with opt := { s.opt with transparent := !s.opt.transparent } }
    | .digit n =>
        match s.opt.geomgroup[n]? with
        | none => .error .index
        | some b => .ok { s with opt := { s.opt with geomgroup := s.opt.geomgroup.set n (!b) } }
    | .tab => .ok { s with target := cycleAt s.it, it := s.it + 1 }
    | .s => .ok { s with speed := s.speed / 2 }
    | .f => .ok { s with speed := s.speed * 2 }
    | .e => .ok { s with opt := { s.opt with frame := !s.opt.frame } }
    | .h => .ok { s with hide := if s.hide then false else true }
    | .other => .ok s

/-- `mouse_button`. viewer.py L166-182. -/
def mouseButton (s : St D) (l r m : Bool) (pos : ℝ × ℝ) : St D :=
  { s with left := l, right := r, middle := m, last := pos }

/-- `mjv_moveCamera`, recorded. viewer.py L215, L306. -/
def moveCamera (e : Env) (s : St D) (a : Mouse) (dx dy : ℝ) : St D :=
  { s with camera := e.moveCamera a dx dy s.camera, moves := s.moves ++ [(a, dx, dy)] }

/-- `mouse_move` in a window of the given size. viewer.py L184-215. -/
def mouseMove (e : Env) (size : ℕ × ℕ) (s : St D) (pos : ℝ × ℝ) (shift : Bool) : St D :=
  if !s.left && !s.right && !s.middle then s
  else
    let dx := pos.1 - s.last.1
    let dy := pos.2 - s.last.2
    let a := if s.right then (if shift then Mouse.moveH else .moveV) else if s.left then (if shift then .rotateH else .rotateV) else .zoom
    moveCamera e { s with last := pos } a (dx / size.1) (dy / size.2)

/-- `scroll`. viewer.py L294-306. -/
def scroll (e : Env) (s : St D) (dy : ℝ) : St D := moveCamera e s .zoom 0 (0.05 * dy)

/-- The callback for one event. viewer.py L93-96. -/
def handle (e : Env) (size : ℕ × ℕ) (s : St D) : Event → Except Err (St D)
  | .key k released => keyboard s k released
  | .button l r m pos => .ok (mouseButton s l r m pos)
  | .move pos shift => .ok (mouseMove e size s pos shift)
  | .scroll dy => .ok (scroll e s dy)

/-- `glfw.poll_events`; the binding raises the first exception of a callback again. viewer.py L378. -/
def poll (e : Env) (size : ℕ × ℕ) : List Event → St D → Except Err (St D)
  | [], s => .ok s
  | ev :: evs, s =>
      match handle e size s ev with
      | .ok s => poll e size evs s
      | .error err => .error err

/-! ### Frames -/

/-- `_create_overlay`. viewer.py L438-502. -/
def overlayOf (s : St D) : Overlay := ⟨Int.floor (1 / s.tpr * s.speed), s.opt.contactForce, s.mode, s.speed⟩

/-- `render_inner_loop`. The text is drawn unless the menu is hidden; without a window there is none. The callback of the user is left out. viewer.py L345-385. -/
def inner (e : Env) (data : D) (s : St D) : Except Err (St D) :=
  let p := e.tape s.frames
  let viewport := if e.headless then s.viewport else p.size
  let overlay := if e.headless || s.hide then none else some (overlayOf s)
  let s := { s with viewport := viewport, shots := s.shots ++ [⟨data, s.camera, s.opt, viewport, overlay⟩] }
  let r : Except Err (St D) := if e.headless then .ok s
    else match poll e p.size p.events s with
      | .error err => .error err
      | .ok s => if p.close then .error .exit else .ok s
  match r with
  | .error err => .error err
  | .ok s => .ok { s with frames := s.frames + 1, tpr := 0.9 * s.tpr + 0.1 * p.cost }

/-- `while self._paused`; `none` if it goes on for more than `fuel` frames. viewer.py L387-389. -/
def pauseLoop (e : Env) (data : D) : ℕ → St D → Option (Except Err (St D))
  | fuel, s =>
      if s.paused then
        match fuel with
        | 0 => none
        | fuel + 1 =>
            match inner e data s with
            | .error err => some (.error err)
            | .ok s => pauseLoop e data fuel s
      else some (.ok s)

/-- `while self._loop_count > 0`. viewer.py L395-398. -/
def drawLoop (e : Env) (data : D) : ℕ → St D → Option (Except Err (St D))
  | fuel, s =>
      if s.loop > 0 then
        match fuel with
        | 0 => none
        | fuel + 1 =>
            match inner e data s with
            | .error err => some (.error err)
            | .ok s => let s := setCamera e s
                       drawLoop e data fuel { s with loop := s.loop - 1 }
      else some (.ok s)

/-- `render` without the pixels, which `Frame.lean` models. viewer.py L330-398. -/
def render (e : Env) (data : D) (record : Bool) (fuel : ℕ) (s : St D) : Option (Except Err (St D)) :=
  match pauseLoop e data fuel s with
  | none => none
  | some (.error err) => some (.error err)
  | some (.ok s) =>
      let loop := if record then 1 else s.loop + e.dt / (s.tpr * s.speed)
      drawLoop e data fuel { s with loop := loop }

end

end Verif.View
