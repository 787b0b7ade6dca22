/-
Model of how the viewers obtain and show pictures: utils/mujoco/viewer.py, utils/pybullet/viewer.py, and the viewers for images in utils/viewer.py.

A picture is a list of rows of pixels, the upper row first. OpenGL, pygame, cv2 and pybullet are not modelled; what the code hands to them and gets from them is.
-/
import Verif.View.Model
import Mathlib.Data.List.Basic

namespace Verif.View

/-! ### MuJoCo without a window -/

/-- The buffers of OpenGL. viewer.py L310-316. -/
inductive Buffer
  | window | offscreen
  deriving DecidableEq, Repr

/-- What the pictures depend on: the size of the offscreen buffer of the context, the buffer in use and the viewport. -/
structure Gl where
  off : ℕ × ℕ
  buffer : Buffer
  viewport : ℕ × ℕ

/-- `update_headless_size`: the size of the frames and the size of the offscreen buffer that the model asks for afterwards; a context has the size that its model asks for.
viewer.py L318-328. -/
def updateHeadlessSize (off : ℕ × ℕ) (width height : ℕ) : (ℕ × ℕ) × (ℕ × ℕ) :=
  if width > off.1 ∨ height > off.2 then
    let w := max width off.1
    let h := max height off.2
    if w ≠ off.1 ∨ h ≠ off.2 then ((w, h), (w, h)) else ((w, h), off)
  else ((width, height), off)

/-- `MjrContext(model)`; `fresh` is the buffer that a new context uses. viewer.py L308, L163. -/
def newContext (fresh : Buffer) (off viewport : ℕ × ℕ) : Gl := ⟨off, fresh, viewport⟩

/-- `_set_mujoco_buffers` without a window; `supported` tells whether the offscreen buffer can be selected. viewer.py L307-312. -/
def setOffscreen (supported : Bool) (g : Gl) : Except Err Gl := if supported then .ok { g with buffer := .offscreen } else .error .runtime

/-- The constructor without a window. viewer.py L88-92, L106, L112. -/
def headlessInit (fresh : Buffer) (supported : Bool) (off : ℕ × ℕ) (width height : ℕ) : Except Err Gl :=
  let r := updateHeadlessSize off width height
  setOffscreen supported (newContext fresh r.2 r.1)

/-- `load_new_model`: a new context for the new model, with the old viewport. viewer.py L151-163. -/
def loadNewModel (fresh : Buffer) (off : ℕ × ℕ) (g : Gl) : Gl := newContext fresh off g.viewport

/-- `mjr_readPixels`: the rows of the viewport, the lower one first. viewer.py L423, L427. -/
def glRead {α : Type} (scene : ℕ → ℕ → α) (w h : ℕ) : List (List α) := (List.range h).map fun y => (List.range w).map fun x => scene x y

/-- `read_pixels`, with or without depth; `scene x y` is the pixel at column `x` and height `y` above the lower border. viewer.py L402-428. -/
def readPixels {α β : Type} (scene : ℕ → ℕ → α) (depths : ℕ → ℕ → β) (depth : Bool) (g : Gl) : List (List α) × Option (List (List β)) :=
  if depth then ((glRead scene g.viewport.1 g.viewport.2).reverse, some (glRead depths g.viewport.1 g.viewport.2).reverse)
  else ((glRead scene g.viewport.1 g.viewport.2).reverse, none)

/-- What happens when a backend is tried: it gives a context, it raises a `KeyError`, or another exception. -/
inductive Try (C : Type)
  | ok (c : C) | keyError | raises

/-- `_ALL_RENDERERS`. viewer.py L28-34. -/
def renderers : List String := ["glfw", "egl", "osmesa"]

/-- `setup_opengl_backend_headless`. viewer.py L602-630. -/
def setupBackend {C : Type} (var : Option String) (build : String → Try C) : Except Err C :=
  match var with
  | some name =>
      if name ∈ renderers then
        match build name with
        | .ok c => .ok c
        | .keyError => .error .runtime
        | .raises => .error .import
      else .error .runtime
  | none =>
      match renderers.findSome? (fun name => match build name with | .ok c => some c | _ => none) with
      | some c => .ok c
      | none => .error .runtime

/-! ### pybullet -/

/-- `np.reshape(a, (n, m, -1))[:, :, :3]` of `n * m * 4` numbers. pybullet/viewer.py L41-42. -/
def reshape {α : Type} (px : List α) (n m : ℕ) : List (List (List α)) :=
  (List.range n).map fun i => (List.range m).map fun j => ((px.drop ((i * m + j) * 4)).take 4).take 3

/-- `_get_image` with a window of the given width and height; `px` are the numbers from `getCameraImage`. pybullet/viewer.py L26-43. -/
def bulletImage {α : Type} (px : List α) (width height : ℕ) : List (List (List α)) := reshape px width height

/-- The numbers that `getCameraImage` gives for a picture: row by row, four for each pixel. -/
def cameraPixels {α : Type} (picture : ℕ → ℕ → α × α × α × α) (width height : ℕ) : List α :=
  (List.range height).flatMap fun r => (List.range width).flatMap fun c => [(picture r c).1, (picture r c).2.1, (picture r c).2.2.1, (picture r c).2.2.2]

/-! ### `ImageViewer` -/

/-- The window: its size and its pixels, by column and row. utils/viewer.py L26-30, L47-48. -/
structure Win (α : Type) where
  size : ℕ × ℕ
  pixel : ℕ → ℕ → α

/-- `self._screen.blit(surf, (0, 0))` of the transposed image: pixels outside of the surface stay. utils/viewer.py L50-52. -/
def blit {α : Type} (w : Win α) (img : List (List α)) : Win α :=
  { w with pixel := fun x y => match (img[y]?).bind fun row => row[x]? with
    | some p => p
    | none => w.pixel x y }

/-- `display`: the window is opened when it is needed, and black at first. utils/viewer.py L32-54. -/
def imgDisplay {α : Type} (size : ℕ × ℕ) (headless : Bool) (black : α) (w : Option (Win α)) (img : List (List α)) : Option (Win α) :=
  if headless then w
  else some (blit (w.getD ⟨size, fun _ _ => black⟩) img)

/-- `close`. utils/viewer.py L67-73. -/
def imgClose {α : Type} (_ : Option (Win α)) : Option (Win α) := none

/-! ### `CV2Viewer` -/

/-- `cv2.waitKey(int(dt * 1000))`, the time in milliseconds; with zero or less it waits for a key, which is `none`. utils/viewer.py L411-417. -/
noncomputable def cvWait (dt : ℝ) : Option ℤ :=
  let t : ℤ := if 0 ≤ dt * 1000 then ⌊dt * 1000⌋ else ⌈dt * 1000⌉
  if t ≤ 0 then none else some t

/-- `cv2.cvtColor(img, cv2.COLOR_RGB2BGR)`. utils/viewer.py L398, L404. -/
def swapRB {α : Type} (img : List (List (α × α × α))) : List (List (α × α × α)) := img.map fun row => row.map fun p => (p.2.2, p.2.1, p.1)

/-- `cv2.imshow`: what one sees of an image; the first channel is taken as blue. -/
def imshow {α : Type} (img : List (List (α × α × α))) : List (List (α × α × α)) := img.map fun row => row.map fun p => (p.2.2, p.2.1, p.1)

/-- `display`: whether the viewer was created, and the property `WND_PROP_VISIBLE` of its window. The result is what one sees. utils/viewer.py L384-409. -/
def cvDisplay {α : Type} (created : Bool) (visible : ℤ) (img : List (List (α × α × α))) : Except Err (Bool × List (List (α × α × α))) :=
  if !created then .ok (true, imshow (swapRB img))
  else if visible ≠ 0 then .ok (true, imshow (swapRB img))
  else .error .exit

end Verif.View
