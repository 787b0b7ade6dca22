/-
Model of the drawing of the native environments: utils/viewer.py (class Viewer) and the `render` methods of grid_world.py,
car_on_hill.py, inverted_pendulum.py, cart_pole.py, segway.py, ship_steering.py and puddle_world.py in
/repo/mushroom_rl/environments. Floating point numbers are real numbers. pygame is a canvas with a background colour and the
list of shapes drawn on it, in pixels; how pygame fills the pixels of a shape, and waiting, are not modelled. A viewer is assumed
to be the only one of the process (pygame has one display for all viewers).
-/
import Verif.Envs.Model
import Verif.Finite.Model
import Mathlib.Analysis.SpecialFunctions.Complex.Arg

namespace Verif.Render

noncomputable section

open Real Verif.Utils Verif.Envs

/-- A pixel: column from the left and row from the top. -/
abbrev Pixel := ℤ × ℤ
/-- A colour. -/
abbrev Color := ℕ × ℕ × ℕ

def black : Color := (0, 0, 0)
def white : Color := (255, 255, 255)

/-- What pygame draws: `pygame.draw.line`, `polygon`, `circle`, `arc`, `lines` and the blit of an image of the size of the window. -/
inductive Shape where
  | line (a b : Pixel) (color : Color) (width : ℕ)
  | polygon (points : List Pixel) (color : Color) (width : ℕ)
  | circle (center : Pixel) (radius : ℤ) (color : Color) (width : ℕ)
  | arc (left top w h : ℤ) (start stop : ℝ) (color : Color) (width : ℕ)
  | lines (points : List Pixel) (color : Color) (width : ℕ)
  | image (rows : ℕ → ℕ → ℤ)

/-- The content of the window. -/
structure Canvas where
  background : Color
  shapes : List Shape

/-- The constants of a viewer. viewer.py L81-101. -/
structure Viewer where
  width : ℕ
  height : ℕ
  ratio : ℝ × ℝ
  background : Color

/-- `Viewer.__init__`. viewer.py L81-101. -/
def Viewer.new (envWidth envHeight : ℝ) (width height : ℕ := 500) (background : Color := black) : Viewer :=
  { width := width, height := height, ratio := (width / envWidth, height / envHeight), background := background }

/-- `_transform`. viewer.py L360-362. -/
def Viewer.transform (v : Viewer) (p : ℝ × ℝ) : Pixel :=
  (trunc (p.1 * v.ratio.1), trunc (v.height - p.2 * v.ratio.2))

/-- `_rotate`. viewer.py L364-367. -/
def rotate (p : ℝ × ℝ) (theta : ℝ) : ℝ × ℝ :=
  (cos theta * p.1 - sin theta * p.2, sin theta * p.1 + cos theta * p.2)

/-- The window of a viewer: `none` before its creation and after `close`. -/
abbrev Screen := Option Canvas

/-- The property `screen`: `pygame.display.set_mode` makes a black window. viewer.py L103-119. -/
def Viewer.screen (_v : Viewer) (s : Screen) : Canvas :=
  match s with
  | some c => c
  | none => { background := black, shapes := [] }

/-- A call of a function of `pygame.draw` with `self.screen`. -/
def Viewer.draw (v : Viewer) (s : Screen) (shape : Shape) : Screen :=
  let c := v.screen s
  some { c with shapes := c.shapes ++ [shape] }

/-- `line`. viewer.py L132-146. -/
def Viewer.line (v : Viewer) (s : Screen) (start stop : ℝ × ℝ) (color : Color := white) (width : ℕ := 1) : Screen :=
  v.draw s (.line (v.transform start) (v.transform stop) color width)

/-- `polygon`. viewer.py L169-190. -/
def Viewer.polygon (v : Viewer) (s : Screen) (center : ℝ × ℝ) (angle : ℝ) (points : List (ℝ × ℝ)) (color : Color := white)
    (width : ℕ := 0) : Screen :=
  v.draw s (.polygon (points.map (fun p => v.transform (rotate p angle + center))) color width)

/-- `square`. viewer.py L148-167. -/
def Viewer.square (v : Viewer) (s : Screen) (center : ℝ × ℝ) (angle edge : ℝ) (color : Color := white) (width : ℕ := 0) :
    Screen :=
  let e := edge / 2
  v.polygon s center angle [(e, e), (e, -e), (-e, -e), (-e, e)] color width

/-- `circle`. viewer.py L192-205. -/
def Viewer.circle (v : Viewer) (s : Screen) (center : ℝ × ℝ) (radius : ℝ) (color : Color := white) (width : ℕ := 0) : Screen :=
  v.draw s (.circle (v.transform center) (trunc (radius * v.ratio.1)) color width)

/-- `arrow_head`. viewer.py L207-222. -/
def Viewer.arrowHead (v : Viewer) (s : Screen) (center : ℝ × ℝ) (scale angle : ℝ) (color : Color := white) : Screen :=
  v.polygon s center angle [(-0.5 * scale, -0.5 * scale), (-0.5 * scale, 0.5 * scale), (0.5 * scale, 0)] color

/-- `np.arctan2(y, x)`. -/
def arctan2 (y x : ℝ) : ℝ := Complex.arg ⟨x, y⟩

/-- `np.linalg.norm` of two components. -/
def norm2 (p : ℝ × ℝ) : ℝ := √(p.1 ^ 2 + p.2 ^ 2)

/-- `force_arrow`; `none` stands for the drawing of not-a-number coordinates. viewer.py L224-254. -/
def Viewer.forceArrow (v : Viewer) (s : Screen) (center direction : ℝ × ℝ) (force maxForce maxLength : ℝ)
    (color : Color := white) (width : ℕ := 1) : Option Screen :=
  open Classical in
  let length := force / maxForce * maxLength
  if length ≠ 0 then
    if norm2 direction = 0 then none
    else
      let c := v.transform center
      let direction := (direction.1 / norm2 direction, direction.2 / norm2 direction)
      let stop := (center.1 + length * direction.1, center.2 + length * direction.2)
      let e := v.transform stop
      let delta := (e.1 - c.1, e.2 - c.2)
      some (v.arrowHead (v.draw s (.line c e color width)) stop (length / 4) (-(arctan2 delta.2 delta.1)) color)
  else some (some (v.screen s))

/-- `torque_arrow`: the window and the array `center` of the caller after the call. viewer.py L256-287. -/
def Viewer.torqueArrow (v : Viewer) (s : Screen) (center : ℝ × ℝ) (torque maxTorque maxRadius : ℝ) (color : Color := white)
    (width : ℕ := 1) : Screen × (ℝ × ℝ) :=
  open Classical in
  let angleEnd := if torque > 0 then 3 * π / 2 else 0
  let angleStart := if torque > 0 then 0 else π / 2
  let radius := |torque| / maxTorque * maxRadius
  let r := trunc (radius * v.ratio.1)
  if r ≠ 0 then
    let c := v.transform center
    let s1 := v.draw s (.arc (c.1 - r) (c.2 - r) (2 * r) (2 * r) angleStart angleEnd color width)
    let center' := (center.1, center.2 - radius * SignType.sign torque)
    (v.arrowHead s1 center' (radius / 4) 0 color, center')
  else (some (v.screen s), center)

/-- `background_image`: the image covers everything drawn before. viewer.py L289-300. -/
def Viewer.backgroundImage (v : Viewer) (s : Screen) (img : ℕ → ℕ → ℤ) : Screen := v.draw s (.image img)

/-- `np.linspace(x_s, x_e, n)` for `n > 1`. -/
def linspace (a b : ℝ) (n : ℕ) : List ℝ := (List.range n).map (fun i : ℕ => a + i * ((b - a) / ((n : ℝ) - 1)))

/-- `function`. viewer.py L302-321. -/
def Viewer.function (v : Viewer) (s : Screen) (a b : ℝ) (f : ℝ → ℝ) (n : ℕ := 100) (width : ℕ := 1) (color : Color := white) :
    Screen :=
  v.draw s (.lines ((linspace a b n).map (fun x => v.transform (x, f x))) color width)

/-- `display`: the next frame starts with the background colour. viewer.py L338-350. -/
def Viewer.display (v : Viewer) (_s : Screen) : Screen := some { background := v.background, shapes := [] }

/-- The end of all `render` methods: the frame, if it is recorded, and the window afterwards. grid_world.py L72-76,
ship_steering.py L120-124 and the like; `get_frame`: viewer.py L323-336, `none` for a missing window is an exception that cannot
occur here. -/
def Viewer.finish (v : Viewer) (s : Screen) (record : Bool) : Option Canvas × Screen := (if record then s else none, v.display s)

/-- A session: renders, given by what they draw, and calls of `stop` (`close`, viewer.py L352-358), given by `none`. The result
are the recorded frames. -/
def Viewer.session (v : Viewer) : Screen → List (Option (List Shape)) → List (Option Canvas)
  | _, [] => []
  | _, none :: rest => v.session none rest
  | s, some shapes :: rest =>
      let r := v.finish (shapes.foldl v.draw s) true
      r.1 :: v.session r.2 rest

/-! ### grid_world.py -/

/-- The viewer of a grid world. grid_world.py L35. -/
def gridViewer (g : Finite.Grid) : Viewer := Viewer.new g.width g.height 500 (g.height * 500 / g.width)

/-- The centre of a cell. grid_world.py L61, L65, L69. -/
def cellCenter (g : Finite.Grid) (cell : ℕ × ℕ) : ℝ × ℝ := (0.5 + cell.2, g.height - (0.5 + cell.1))

/-- The two lines of the loop body. grid_world.py L58-59. -/
def gridLines (g : Finite.Grid) (s : Screen) (rc : ℕ × ℕ) : Screen :=
  let v := gridViewer g
  v.line (v.line s (rc.2, 0) (rc.2, g.height)) (0, rc.1) (g.width, rc.1)

/-- The pairs of the two loops: `range(1, height)` and `range(1, width)`. grid_world.py L56-57. -/
def gridPairs (g : Finite.Grid) : List (ℕ × ℕ) :=
  (List.range' 1 (g.height - 1)).flatMap (fun row => (List.range' 1 (g.width - 1)).map (fun col => (row, col)))

/-- `AbstractGridWorld.render` without its end. `convert_to_grid` gets the coordinates of the start instead of its number, and
looks only at the first of them. grid_world.py L55-70. -/
def gridDraw (g : Finite.Grid) (s : Screen) (state : ℕ) : Screen :=
  let v := gridViewer g
  let s := (gridPairs g).foldl (gridLines g) s
  let s := v.square s (cellCenter g g.goal) 0 1 (0, 255, 0)
  let s := v.square s (cellCenter g (Finite.toGrid g.start.1 g.width)) 0 1 (255, 0, 0)
  v.circle s (cellCenter g (Finite.toGrid state g.width)) 0.4 (0, 0, 255)

/-! ### The other environments -/

/-- The body of the car. car_on_hill.py L75-84. -/
def carBody : List (ℝ × ℝ) :=
  [(-3e-2, 0), (-3e-2, 2e-2), (-2e-2, 2e-2), (-1e-2, 3e-2), (1e-2, 3e-2), (2e-2, 2e-2), (3e-2, 2e-2), (3e-2, 0)]

/-- `CarOnHill.render` without its end. car_on_hill.py L39, L70-90. -/
def carDraw (s : Screen) (position : ℝ) : Screen :=
  let v := Viewer.new 1 1
  let s := v.function s 0 1 Envs.height
  let x := (position + 1) / 2
  v.polygon s (x, Envs.height x) (carAngle x) carBody (32, 193, 54)

/-- `InvertedPendulum.render` without its end; `l` is the length of the pole. inverted_pendulum.py L52, L87-97. -/
def pendulumDraw (l maxU : ℝ) (s : Screen) (theta lastU : ℝ) : Screen :=
  let v := Viewer.new (2.5 * l) (2.5 * l)
  let start := (1.25 * l, 1.25 * l)
  let stop := (1.25 * l + l * sin theta, 1.25 * l + l * cos theta)
  let s := v.line s start stop
  let s := v.circle s start (l / 40)
  let s := v.circle s stop (l / 20)
  (v.torqueArrow s start (-lastU) maxU (l / 5)).1

/-- `CartPole.render` without its end. cart_pole.py L50, L93-106. -/
def cartDraw (l maxU : ℝ) (s : Screen) (theta lastU : ℝ) : Option Screen :=
  let v := Viewer.new (2.5 * l) (2.5 * l)
  let start := (1.25 * l, 1.25 * l)
  let stop := (1.25 * l + l * sin theta, 1.25 * l + l * cos theta)
  let s := v.line s start stop
  let s := v.square s start 0 (l / 10)
  let s := v.circle s stop (l / 20)
  v.forceArrow s start (-(SignType.sign lastU : ℝ) * 1, -(SignType.sign lastU : ℝ) * 0) |lastU| maxU (l / 5)

/-- Python's `x % m` of floating point numbers with positive `m`. -/
def fmodPos (x m : ℝ) : ℝ := x - ⌊x / m⌋ * m

/-- The update of `_last_x` in a render. segway.py L120-125. -/
def segMove (l r dt : ℝ) (lastX wheel : ℝ) : ℝ :=
  open Classical in
  let x := lastX + -wheel * r * dt
  if x > 2.5 * l ∨ x < -2.5 * l then fmodPos (2.5 * l + x) (5 * l) - 2.5 * l else x

/-- `start` and `end`. segway.py L117-118, L127-133; `%` and `*` have the same precedence in L132-133. -/
def segEnds (l : ℝ) (lastX alpha : ℝ) : (ℝ × ℝ) × (ℝ × ℝ) :=
  open Classical in
  let start := (2.5 * l + lastX, 2.5 * l)
  let stop := (2.5 * l + (-2 * l * sin alpha + lastX), 2.5 * l + 2 * l * cos alpha)
  if (start.1 > 5 * l ∧ stop.1 > 5 * l) ∨ (start.1 < 0 ∧ stop.1 < 0) then
    ((fmodPos start.1 5 * l, start.2), (fmodPos stop.1 5 * l, stop.2))
  else (start, stop)

/-- `Segway.render` without its end: the window and `_last_x` afterwards. The state is angle, angular velocity and velocity of
the wheel. segway.py L50, L116-136. -/
def segDraw (l r dt : ℝ) (s : Screen) (lastX : ℝ) (state : ℝ × ℝ × ℝ) : Screen × ℝ :=
  let v := Viewer.new (5 * l) (5 * l)
  let x := segMove l r dt lastX state.2.2
  let ends := segEnds l x state.1
  (v.circle (v.line s ends.1 ends.2) ends.1 r, x)

/-- The boat. ship_steering.py L110-116. -/
def boat : List (ℝ × ℝ) := [(-4, -4), (-4, 4), (4, 4), (8, 0), (4, -4)]

/-- The viewer of the ship. ship_steering.py L53-54. -/
def shipViewer (f : Field) : Viewer := Viewer.new f.size f.size 500 500 (66, 131, 237)

/-- `ShipSteering.render` without its end. ship_steering.py L106-118. -/
def shipDraw (f : Field) (s : Screen) (state : Ship) : Screen :=
  let v := shipViewer f
  let s := v.line s f.gateS f.gateE white 3
  v.polygon s (state.x, state.y) state.heading boat (32, 193, 54)

/-- The rewards on the grid of the picture: `reward` of the point `(i, j) / 100` is put at column `i` and row `99 - j`.
puddle_world.py L91-97. -/
def puddleRewards (w : Puddle) (i row : ℕ) : ℝ := w.reward ((i : ℝ) / 100, ((99 - row : ℕ) : ℝ) / 100)

/-- The values of an array of `n` × `n` entries. -/
def entries (n : ℕ) (f : ℕ → ℕ → ℝ) : Finset ℝ := (Finset.range n ×ˢ Finset.range n).image (fun p => f p.1 p.2)

theorem mem_entries_iff (n : ℕ) (f : ℕ → ℕ → ℝ) (y : ℝ) : y ∈ entries n f ↔ ∃ i j, i < n ∧ j < n ∧ f i j = y := by
  simp only [entries, Finset.mem_image, Finset.mem_product, Finset.mem_range, Prod.exists]
  constructor
  · rintro ⟨i, j, ⟨hi, hj⟩, h⟩; exact ⟨i, j, hi, hj, h⟩
  · rintro ⟨i, j, hi, hj, h⟩; exact ⟨i, j, ⟨hi, hj⟩, h⟩

theorem entries_nonempty {n : ℕ} (hn : 0 < n) (f : ℕ → ℕ → ℝ) : (entries n f).Nonempty :=
  ⟨f 0 0, (mem_entries_iff n f _).mpr ⟨0, 0, hn, hn, rfl⟩⟩

/-- `img_size`. puddle_world.py L91. -/
def imgSize : ℕ := 100

theorem imgSize_eq : imgSize = 100 := by rw [imgSize]

theorem imgSize_pos : 0 < imgSize := by norm_num [imgSize]

/-- `_pixels`; `none` if the division by the largest value fails (the array then consists of not-a-number values).
puddle_world.py L99-101. -/
def puddlePixels (w : Puddle) : Option (ℕ → ℕ → ℤ) :=
  open Classical in
  let f := puddleRewards w
  let low := (entries imgSize f).min' (entries_nonempty imgSize_pos f)
  let g : ℕ → ℕ → ℝ := fun i j => f i j - low
  let high := (entries imgSize g).max' (entries_nonempty imgSize_pos g)
  if high = 0 then none else some (fun i j => ⌊255 - g i j * (255 / high)⌋)

/-- `PuddleWorld.render` without its end. puddle_world.py L60, L89-112. -/
def puddleDraw (w : Puddle) (s : Screen) (state : ℝ × ℝ) : Option Screen :=
  let v := Viewer.new 1 1
  match puddlePixels w with
  | none => none
  | some img =>
      let s := v.backgroundImage s img
      let s := v.circle s state 0.01 (0, 255, 0)
      some (v.polygon s w.goal 0 [(-w.threshold, 0), (0, w.threshold), (w.threshold, 0), (0, -w.threshold)] (255, 0, 0) 1)

end

end Verif.Render
