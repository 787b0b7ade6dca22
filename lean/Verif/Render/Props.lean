/-
C128: the pictures of the native environments.
-/
import Verif.Render.Model
import Verif.Render.Spec
import Verif.Envs.PropsPhysics

namespace Verif.Render

noncomputable section

open Real Verif.Utils Verif.Envs Verif.Render.Spec

/-! ### Pixels -/

theorem trunc_nonneg {x : ℝ} (hx : 0 ≤ x) : trunc x = ⌊x⌋ := by rw [trunc, if_pos hx]

theorem shows_transform {W H : ℝ} (hW : 0 < W) (hH : 0 < H) (w h : ℕ) (b : Color) {p : ℝ × ℝ} (hp : InWorld W H p) :
    Shows W H w h p ((Viewer.new W H w h b).transform p) := by
  obtain ⟨⟨h1, h2⟩, h3, h4⟩ := hp
  have e1 : p.1 * (w / W) = p.1 / W * w := by ring
  have e2 : (h : ℝ) - p.2 * (h / H) = (1 - p.2 / H) * h := by ring
  have n1 : 0 ≤ p.1 / W * w := by positivity
  have n2 : 0 ≤ (1 - p.2 / H) * h := by
    have : p.2 / H ≤ 1 := (div_le_one hH).mpr h4
    exact mul_nonneg (by linarith) (by positivity)
  refine ⟨⟨?_, ?_⟩, ?_, ?_⟩
  all_goals simp only [Viewer.transform, Viewer.new, e1, e2, trunc_nonneg n1, trunc_nonneg n2]
  · exact Int.floor_le _
  · exact Int.lt_floor_add_one _
  · exact Int.floor_le _
  · exact Int.lt_floor_add_one _

/-- A point of the world is drawn at the pixel that contains it, which is a pixel of the window or lies on its border. -/
theorem C128_transform {W H : ℝ} (hW : 0 < W) (hH : 0 < H) (w h : ℕ) (b : Color) {p : ℝ × ℝ} (hp : InWorld W H p) :
    Shows W H w h p ((Viewer.new W H w h b).transform p) ∧
    (0 ≤ ((Viewer.new W H w h b).transform p).1 ∧ ((Viewer.new W H w h b).transform p).1 ≤ w) ∧
    0 ≤ ((Viewer.new W H w h b).transform p).2 ∧ ((Viewer.new W H w h b).transform p).2 ≤ h := by
  have hs := shows_transform hW hH w h b hp
  obtain ⟨⟨h1, h2⟩, h3, h4⟩ := hp
  obtain ⟨⟨s1, s2⟩, s3, s4⟩ := hs
  refine ⟨⟨⟨s1, s2⟩, s3, s4⟩, ?_⟩
  set px := (Viewer.new W H w h b).transform p
  have a1 : 0 ≤ p.1 / W * w := by positivity
  have a2 : p.1 / W * w ≤ w := by
    have : p.1 / W ≤ 1 := (div_le_one hW).mpr h2
    exact mul_le_of_le_one_left (by positivity) this
  have q : p.2 / H ≤ 1 := (div_le_one hH).mpr h4
  have q0 : 0 ≤ p.2 / H := by positivity
  have a3 : 0 ≤ (1 - p.2 / H) * h := mul_nonneg (by linarith) (by positivity)
  have a4 : (1 - p.2 / H) * h ≤ h := mul_le_of_le_one_left (by positivity) (by linarith)
  refine ⟨⟨?_, ?_⟩, ?_, ?_⟩
  · have : (-1 : ℝ) < (px.1 : ℝ) := by linarith
    have : (-1 : ℤ) < px.1 := by exact_mod_cast this
    omega
  · have : (px.1 : ℝ) ≤ (w : ℝ) := by linarith
    exact_mod_cast this
  · have : (-1 : ℝ) < (px.2 : ℝ) := by linarith
    have : (-1 : ℤ) < px.2 := by exact_mod_cast this
    omega
  · have : (px.2 : ℝ) ≤ (h : ℝ) := by linarith
    exact_mod_cast this

example : InWorld 2 3 (1, 2) := by norm_num [InWorld]

/-- A point outside the world can be drawn inside the window: coordinates are rounded towards zero, so the pixels to the left of
the window are folded onto its first column. -/
theorem C128_transform_refuted : ¬ ∀ (W H : ℝ) (w h : ℕ) (p : ℝ × ℝ), 0 < W → 0 < H →
    Shows W H w h p ((Viewer.new W H w h).transform p) := by
  intro hall
  have h := hall 500 500 500 500 (-1 / 2, 0) (by norm_num) (by norm_num)
  have e : ((Viewer.new 500 500 500 500).transform (-1 / 2, 0)).1 = 0 := by
    simp only [Viewer.transform, Viewer.new]
    rw [trunc, if_neg (by norm_num), Int.ceil_eq_iff]; norm_num
  have h1 := h.1.1
  rw [e] at h1
  norm_num at h1

/-- Rotations keep distances, add up, and turn the axis of a shape into the given direction. -/
theorem C128_rotate (p q : ℝ × ℝ) (a b r : ℝ) :
    dist2 (rotate p a) (rotate q a) = dist2 p q ∧ rotate (rotate p a) b = rotate p (a + b) ∧ rotate p 0 = p ∧
    rotate (r, 0) a = (r * cos a, r * sin a) := by
  refine ⟨?_, ?_, ?_, ?_⟩
  · unfold dist2 rotate
    congr 1
    have := sin_sq_add_cos_sq a
    linear_combination ((p.1 - q.1) ^ 2 + (p.2 - q.2) ^ 2) * this
  · simp only [rotate, cos_add, sin_add, Prod.mk.injEq]
    constructor <;> ring
  · simp [rotate]
  · simp only [rotate, Prod.mk.injEq]
    constructor <;> ring

/-! ### Frames -/

theorem foldl_draw (v : Viewer) (shapes : List Shape) (s : Screen) (hne : shapes ≠ [] ∨ s ≠ none) :
    shapes.foldl v.draw s = some { background := (v.screen s).background, shapes := (v.screen s).shapes ++ shapes } := by
  induction shapes generalizing s with
  | nil => obtain h | h := hne
           · exact absurd rfl h
           · cases s with
             | none => exact absurd rfl h
             | some c => simp [Viewer.screen]
  | cons x xs ih =>
      rw [List.foldl_cons, ih _ (Or.inr (by simp [Viewer.draw]))]
      simp [Viewer.draw, Viewer.screen]

/-- The frames of a session in which every picture has the shapes of its own render; `first` is the background of the next one. -/
def expected (background : Color) : Color → List (Option (List Shape)) → List (Option Canvas)
  | _, [] => []
  | _, none :: rest => expected background black rest
  | first, some shapes :: rest => some ⟨first, shapes⟩ :: expected background background rest

theorem session_expected (v : Viewer) (acts : List (Option (List Shape))) (hne : ∀ shapes, some shapes ∈ acts → shapes ≠ [])
    (s : Screen) (hs : (v.screen s).shapes = []) :
    v.session s acts = expected v.background (v.screen s).background acts := by
  induction acts generalizing s with
  | nil => rfl
  | cons a rest ih =>
      have hrest := fun shapes h => hne shapes (List.mem_cons_of_mem _ h)
      cases a with
      | none => rw [Viewer.session, expected, ih hrest none rfl]; rfl
      | some shapes =>
          simp only [Viewer.session, expected]
          rw [foldl_draw v shapes s (Or.inl (hne shapes (List.mem_cons_self ..)))]
          simp only [Viewer.finish, if_true, Viewer.display, hs, List.nil_append]
          rw [ih hrest _ rfl]; rfl

/-- The recorded frame of every render shows exactly what this render drew, whatever was rendered before and however often the
window was closed. Its background is the colour of the viewer, except for the first picture of a window, which is black. -/
theorem C128_frames_partial (v : Viewer) (acts : List (Option (List Shape)))
    (hne : ∀ shapes, some shapes ∈ acts → shapes ≠ []) :
    v.session none acts = expected v.background black acts := session_expected v acts hne none rfl

/-- The first picture of the ship does not have the colour of the sea: its background is black. -/
theorem C128_frames_refuted (f : Field) (shapes : List Shape) (hne : shapes ≠ []) :
    (shipViewer f).session none [some shapes, some shapes] =
      [some ⟨(0, 0, 0), shapes⟩, some ⟨(66, 131, 237), shapes⟩] := by
  rw [C128_frames_partial _ _ (by simp [hne])]
  rfl

example : (shipViewer smallField).session none [some [.line (0, 0) (1, 1) white 1], none] =
    [some ⟨black, [.line (0, 0) (1, 1) white 1]⟩] := C128_frames_partial _ _ (by simp)

/-! ### Grid worlds -/

theorem draw_eq (v : Viewer) (s : Screen) (x : Shape) :
    v.draw s x = some ⟨(v.screen s).background, (v.screen s).shapes ++ [x]⟩ := rfl

theorem screen_some (v : Viewer) (c : Canvas) : v.screen (some c) = c := rfl

/-- The lines of one round of the loops. -/
def lineShapes (g : Finite.Grid) (rc : ℕ × ℕ) : List Shape :=
  [.line ((gridViewer g).transform (rc.2, 0)) ((gridViewer g).transform (rc.2, g.height)) white 1,
   .line ((gridViewer g).transform (0, rc.1)) ((gridViewer g).transform (g.width, rc.1)) white 1]

theorem lines_shapes (g : Finite.Grid) (pairs : List (ℕ × ℕ)) (c : Canvas) :
    pairs.foldl (gridLines g) (some c) = some ⟨c.background, c.shapes ++ pairs.flatMap (lineShapes g)⟩ := by
  induction pairs generalizing c with
  | nil => simp
  | cons p ps ih =>
      rw [List.foldl_cons]
      have : gridLines g (some c) p = some ⟨c.background, c.shapes ++ lineShapes g p⟩ := by
        simp [gridLines, Viewer.line, draw_eq, screen_some, lineShapes]
      rw [this, ih]
      simp

/-- The square of a cell, as it is drawn. -/
def squareOf (g : Finite.Grid) (cell : ℕ × ℕ) (color : Color) : Shape :=
  .polygon ((corners g.height cell).map (gridViewer g).transform) color 0

theorem square_eq (g : Finite.Grid) (c : Canvas) (cell : ℕ × ℕ) (color : Color) :
    (gridViewer g).square (some c) (cellCenter g cell) 0 1 color = some ⟨c.background, c.shapes ++ [squareOf g cell color]⟩ := by
  simp only [Viewer.square, Viewer.polygon, draw_eq, screen_some, squareOf, corners, List.map_cons, List.map_nil, rotate,
    cellCenter, cos_zero, sin_zero, Prod.mk_add_mk]
  norm_num
  refine ⟨?_, ?_, ?_, ?_⟩ <;> congr 2 <;> ring

/-- The shapes of a grid world. -/
theorem gridDraw_eq (g : Finite.Grid) (c : Canvas) (state : ℕ) :
    gridDraw g (some c) state = some ⟨c.background, c.shapes ++ ((gridPairs g).flatMap (lineShapes g) ++
      [squareOf g g.goal (0, 255, 0), squareOf g (Finite.toGrid g.start.1 g.width) (255, 0, 0),
       .circle ((gridViewer g).transform (middle g.height (Finite.toGrid state g.width))) (trunc (0.4 * (500 / g.width)))
        (0, 0, 255) 0])⟩ := by
  have hm : ∀ cell, cellCenter g cell = middle g.height cell := by
    intro cell; simp only [cellCenter, middle, Prod.mk.injEq]; constructor <;> norm_num <;> ring
  simp only [gridDraw, lines_shapes, square_eq]
  simp only [Viewer.circle, draw_eq, screen_some, hm]
  simp [gridViewer, Viewer.new]

theorem shows_corners (g : Finite.Grid) (cell : ℕ × ℕ) (h1 : cell.1 < g.height) (h2 : cell.2 < g.width) :
    List.Forall₂ (Shows g.width g.height 500 (g.height * 500 / g.width)) (corners g.height cell)
      ((corners g.height cell).map (gridViewer g).transform) := by
  have a1 : (cell.1 : ℝ) + 1 ≤ g.height := by exact_mod_cast h1
  have a2 : (cell.2 : ℝ) + 1 ≤ g.width := by exact_mod_cast h2
  have p1 : (0 : ℝ) ≤ cell.1 := by positivity
  have p2 : (0 : ℝ) ≤ cell.2 := by positivity
  simp only [corners, List.map_cons, List.map_nil]
  refine .cons ?_ (.cons ?_ (.cons ?_ (.cons ?_ .nil)))
  all_goals
    refine shows_transform (by linarith) (by linarith) _ _ _ ⟨⟨?_, ?_⟩, ?_, ?_⟩ <;> simp only <;> linarith

/-- The picture of a grid world: after the lines come the green square of the goal, the red square of the start and the blue
circle of the agent. The goal covers exactly its cell, the circle lies in the middle of the cell the state stands for. The start
covers its cell if it is the upper left cell or if the grid has only one column (and the start belongs to the grid). -/
theorem C128_grid_partial (g : Finite.Grid) (ha : g.accepted) (cv : Canvas) (r c : ℕ) (hr : r < g.height) (hc : c < g.width) :
    ∃ lines goal start agent radius,
      gridDraw g (some cv) (r * g.width + c) = some ⟨cv.background, cv.shapes ++ (lines ++
        [.polygon goal (0, 255, 0) 0, .polygon start (255, 0, 0) 0, .circle agent radius (0, 0, 255) 0])⟩ ∧
      (∀ x ∈ lines, ∃ a b, x = .line a b (255, 255, 255) 1) ∧
      List.Forall₂ (Shows g.width g.height 500 (g.height * 500 / g.width)) (corners g.height g.goal) goal ∧
      Shows g.width g.height 500 (g.height * 500 / g.width) (middle g.height (r, c)) agent ∧
      (g.start = (0, 0) ∨ (g.width = 1 ∧ g.start.1 < g.height ∧ g.start.2 < g.width) →
        List.Forall₂ (Shows g.width g.height 500 (g.height * 500 / g.width)) (corners g.height g.start) start) := by
  refine ⟨_, _, _, _, _, gridDraw_eq g cv _, ?_, ?_, ?_, ?_⟩
  · intro x hx
    obtain ⟨rc, -, hx⟩ := List.mem_flatMap.mp hx
    simp only [lineShapes, List.mem_cons, List.not_mem_nil, or_false] at hx
    obtain h | h := hx <;> exact ⟨_, _, h⟩
  · exact shows_corners g g.goal ha.2.1 ha.2.2
  · have hg : Finite.toGrid (r * g.width + c) g.width = (r, c) := by
      have hw : 0 < g.width := by omega
      simp only [Finite.toGrid, Prod.mk.injEq]
      constructor
      · rw [Nat.add_div_of_dvd_right (Dvd.intro_left r rfl), Nat.mul_div_cancel _ hw, Nat.div_eq_of_lt hc]; rfl
      · rw [Nat.mul_add_mod', Nat.mod_eq_of_lt hc]
    rw [hg]
    have a1 : (r : ℝ) + 1 ≤ g.height := by exact_mod_cast hr
    have a2 : (c : ℝ) + 1 ≤ g.width := by exact_mod_cast hc
    have p1 : (0 : ℝ) ≤ r := by positivity
    have p2 : (0 : ℝ) ≤ c := by positivity
    refine shows_transform (by linarith) (by linarith) _ _ _ ⟨⟨?_, ?_⟩, ?_, ?_⟩ <;> simp only [middle] <;> linarith
  · intro h
    have hs : Finite.toGrid g.start.1 g.width = g.start := by
      obtain h | ⟨h1, h2, h3⟩ := h
      · rw [h]; simp [Finite.toGrid]
      · ext
        · simp [Finite.toGrid, h1]
        · simp only [Finite.toGrid, h1, Nat.mod_one]; omega
    rw [hs]
    refine shows_corners g g.start ?_ ?_
    · obtain h | h := h
      · rw [h]; simp; omega
      · exact h.2.1
    · obtain h | h := h
      · rw [h]; simp; omega
      · exact h.2.2

example : (⟨3, 3, (0, 0), (2, 2)⟩ : Finite.Grid).accepted := by simp [Finite.Grid.accepted]

/-- The start is drawn in its own cell only in these cases. -/
theorem C128_grid_start (g : Finite.Grid) (h2 : g.start.2 < g.width) :
    Finite.toGrid g.start.1 g.width = g.start ↔ g.start = (0, 0) ∨ g.width = 1 := by
  constructor
  · intro h
    have e1 : g.start.1 / g.width = g.start.1 := congrArg Prod.fst h
    have e2 : g.start.1 % g.width = g.start.2 := congrArg Prod.snd h
    by_cases hw : g.width = 1
    · exact .inr hw
    · left
      have hz : g.start.1 = 0 := by
        by_contra hz
        have := Nat.div_lt_self (Nat.pos_of_ne_zero hz) (show 1 < g.width by omega)
        omega
      ext
      · exact hz
      · simp only; rw [← e2, hz, Nat.zero_mod]
  · rintro (h | h)
    · rw [h]; simp [Finite.toGrid]
    · ext
      · simp [Finite.toGrid, h]
      · simp only [Finite.toGrid, h, Nat.mod_one]; omega

/-- With its default arguments the grid world of van Hasselt draws the start, which is the lower left cell, over the goal in the
upper right cell. -/
theorem C128_grid_start_refuted (cv : Canvas) (state : ℕ) : ∃ lines points agent radius,
    gridDraw ⟨3, 3, (2, 0), (0, 2)⟩ (some cv) state = some ⟨cv.background, cv.shapes ++ (lines ++
      [.polygon points (0, 255, 0) 0, .polygon points (255, 0, 0) 0, .circle agent radius (0, 0, 255) 0])⟩ :=
  ⟨_, _, _, _, gridDraw_eq ⟨3, 3, (2, 0), (0, 2)⟩ cv state⟩

/-- Grids with at least two rows and two columns get all the lines between their cells, and no other lines. -/
theorem C128_grid_lines_partial (g : Finite.Grid) (cv : Canvas) (state : ℕ) (h1 : 1 < g.height) (h2 : 1 < g.width) :
    ∃ shapes, gridDraw g (some cv) state = some ⟨cv.background, cv.shapes ++ shapes⟩ ∧
      (∀ col : ℕ, 0 < col → col < g.width → ∃ a b, Shape.line a b white 1 ∈ shapes ∧
        Shows g.width g.height 500 (g.height * 500 / g.width) (col, 0) a ∧
        Shows g.width g.height 500 (g.height * 500 / g.width) (col, g.height) b) ∧
      (∀ row : ℕ, 0 < row → row < g.height → ∃ a b, Shape.line a b white 1 ∈ shapes ∧
        Shows g.width g.height 500 (g.height * 500 / g.width) (0, row) a ∧
        Shows g.width g.height 500 (g.height * 500 / g.width) (g.width, row) b) ∧
      ∀ a b color width, Shape.line a b color width ∈ shapes →
        (∃ col : ℕ, 0 < col ∧ col < g.width ∧ Shows g.width g.height 500 (g.height * 500 / g.width) (col, 0) a ∧
          Shows g.width g.height 500 (g.height * 500 / g.width) (col, g.height) b) ∨
        ∃ row : ℕ, 0 < row ∧ row < g.height ∧ Shows g.width g.height 500 (g.height * 500 / g.width) (0, row) a ∧
          Shows g.width g.height 500 (g.height * 500 / g.width) (g.width, row) b := by
  have q1 : (1 : ℝ) < g.height := by exact_mod_cast h1
  have q2 : (1 : ℝ) < g.width := by exact_mod_cast h2
  have hmem : ∀ row col : ℕ, 0 < row → row < g.height → 0 < col → col < g.width → (row, col) ∈ gridPairs g := by
    intro row col a b c d
    refine List.mem_flatMap.mpr ⟨row, ?_, List.mem_map.mpr ⟨col, ?_, rfl⟩⟩
    · rw [List.mem_range'_1]; omega
    · rw [List.mem_range'_1]; omega
  have hcol : ∀ col : ℕ, 0 < col → col < g.width → Shows g.width g.height 500 (g.height * 500 / g.width) (col, 0) ((gridViewer g).transform (col, 0)) ∧
      Shows g.width g.height 500 (g.height * 500 / g.width) (col, g.height) ((gridViewer g).transform (col, g.height)) := by
    intro col c0 c1
    have : (col : ℝ) < g.width := by exact_mod_cast c1
    exact ⟨shows_transform (by linarith) (by linarith) _ _ _ ⟨⟨by positivity, by simp only; linarith⟩, le_refl _, by simp only; linarith⟩,
      shows_transform (by linarith) (by linarith) _ _ _ ⟨⟨by positivity, by simp only; linarith⟩, by positivity, le_refl _⟩⟩
  have hrow : ∀ row : ℕ, 0 < row → row < g.height → Shows g.width g.height 500 (g.height * 500 / g.width) (0, row) ((gridViewer g).transform (0, row)) ∧
      Shows g.width g.height 500 (g.height * 500 / g.width) (g.width, row) ((gridViewer g).transform (g.width, row)) := by
    intro row c0 c1
    have : (row : ℝ) < g.height := by exact_mod_cast c1
    exact ⟨shows_transform (by linarith) (by linarith) _ _ _ ⟨⟨le_refl _, by simp only; linarith⟩, by positivity, by simp only; linarith⟩,
      shows_transform (by linarith) (by linarith) _ _ _ ⟨⟨by positivity, le_refl _⟩, by positivity, by simp only; linarith⟩⟩
  refine ⟨_, gridDraw_eq g cv state, ?_, ?_, ?_⟩
  · intro col c0 c1
    exact ⟨(gridViewer g).transform (col, 0), (gridViewer g).transform (col, g.height), List.mem_append_left _
      (List.mem_flatMap.mpr ⟨(1, col), hmem 1 col (by omega) h1 c0 c1, List.mem_cons_self ..⟩), hcol col c0 c1⟩
  · intro row c0 c1
    exact ⟨(gridViewer g).transform (0, row), (gridViewer g).transform (g.width, row), List.mem_append_left _
      (List.mem_flatMap.mpr ⟨(row, 1), hmem row 1 c0 c1 (by omega) h2, List.mem_cons_of_mem _ (List.mem_cons_self ..)⟩), hrow row c0 c1⟩
  · intro a b color width hl
    rcases List.mem_append.1 hl with hl | hl
    · obtain ⟨⟨row, col⟩, hp, hl⟩ := List.mem_flatMap.1 hl
      obtain ⟨row', hr, hp⟩ := List.mem_flatMap.1 hp
      obtain ⟨col', hc, hp⟩ := List.mem_map.1 hp
      rw [List.mem_range'_1] at hr hc
      obtain ⟨rfl, rfl⟩ := Prod.mk.inj hp
      simp only [lineShapes, List.mem_cons, Shape.line.injEq, List.not_mem_nil, or_false] at hl
      rcases hl with ⟨rfl, rfl, -, -⟩ | ⟨rfl, rfl, -, -⟩
      · exact .inl ⟨col', by omega, by omega, hcol col' (by omega) (by omega)⟩
      · exact .inr ⟨row', by omega, by omega, hrow row' (by omega) (by omega)⟩
    · simp [squareOf] at hl

/-- A corridor gets no lines at all: the loops over rows and columns are nested. -/
theorem C128_grid_lines_refuted (w : ℕ) (start goal : ℕ × ℕ) (cv : Canvas) (state : ℕ) : ∃ a b p q r,
    gridDraw ⟨1, w, start, goal⟩ (some cv) state = some ⟨cv.background, cv.shapes ++
      [.polygon a (0, 255, 0) 0, .polygon b (255, 0, 0) 0, .circle p q r 0]⟩ :=
  ⟨_, _, _, _, _, gridDraw_eq ⟨1, w, start, goal⟩ cv state⟩

theorem floor_lt_of_add_one_le {a b : ℝ} (h : a + 1 ≤ b) : ⌊a⌋ < ⌊b⌋ := by
  have := Int.floor_le_floor h
  rw [Int.floor_add_one] at this
  omega

theorem scaled_lt {a b : ℕ} {k : ℝ} (hk : 1 ≤ k) (hab : a < b) : ⌊((a : ℝ) + 1 / 2) * k⌋ < ⌊((b : ℝ) + 1 / 2) * k⌋ := by
  apply floor_lt_of_add_one_le
  have : (a : ℝ) + 1 ≤ b := by exact_mod_cast hab
  nlinarith

theorem scaled_inj {a b : ℕ} {k : ℝ} (hk : 1 ≤ k) (h : ⌊((a : ℝ) + 1 / 2) * k⌋ = ⌊((b : ℝ) + 1 / 2) * k⌋) : a = b := by
  rcases Nat.lt_trichotomy a b with hl | hl | hl
  · exact absurd h (scaled_lt hk hl).ne
  · exact hl
  · exact absurd h (scaled_lt hk hl).ne'

/-- Grids with at most 500 columns: different states give different pictures. -/
theorem C128_grid_faithful (g : Finite.Grid) (hw : g.width ≤ 500) (cv : Canvas) (s t : ℕ) (hs : s < g.height * g.width)
    (ht : t < g.height * g.width) (h : gridDraw g (some cv) s = gridDraw g (some cv) t) : s = t := by
  rw [gridDraw_eq, gridDraw_eq] at h
  simp only [Option.some.injEq, Canvas.mk.injEq, true_and, List.append_cancel_left_eq, List.cons.injEq, Shape.circle.injEq,
    and_true] at h
  have w0 : 0 < g.width := Nat.pos_of_ne_zero (by rintro h0; simp [h0] at hs)
  have h0 : 0 < g.height := Nat.pos_of_ne_zero (by rintro h0; simp [h0] at hs)
  have rw' : (0 : ℝ) < g.width := by exact_mod_cast w0
  have rh' : (0 : ℝ) < g.height := by exact_mod_cast h0
  have rw5 : (g.width : ℝ) ≤ 500 := by exact_mod_cast hw
  set H := g.height * 500 / g.width with hH
  have hHge : g.height ≤ H := by
    rw [hH, Nat.le_div_iff_mul_le w0]; exact Nat.mul_le_mul_left _ hw
  have rH : (g.height : ℝ) ≤ H := by exact_mod_cast hHge
  have k1 : (1 : ℝ) ≤ 500 / g.width := by rw [le_div_iff₀ rw']; linarith
  have k2 : (1 : ℝ) ≤ (H : ℝ) / g.height := by rw [le_div_iff₀ rh']; linarith
  have key : ∀ cell : ℕ × ℕ, (gridViewer g).transform (middle g.height cell) =
      (⌊((cell.2 : ℝ) + 1 / 2) * (500 / g.width)⌋, ⌊((cell.1 : ℝ) + 1 / 2) * ((H : ℝ) / g.height)⌋) := by
    intro cell
    have e : (H : ℝ) - ((g.height : ℝ) - cell.1 - 1 / 2) * ((H : ℝ) / g.height) = ((cell.1 : ℝ) + 1 / 2) * ((H : ℝ) / g.height) := by
      field_simp; ring
    simp only [Viewer.transform, gridViewer, Viewer.new, middle, ← hH, e, Nat.cast_ofNat]
    rw [trunc_nonneg (by positivity), trunc_nonneg (by positivity)]
  rw [key, key, Prod.mk.injEq] at h
  have c := scaled_inj k1 h.1
  have r := scaled_inj k2 h.2
  simp only [Finite.toGrid] at c r
  rw [← Nat.div_add_mod s g.width, ← Nat.div_add_mod t g.width, c, r]

/-! ### Pendulum and cart-pole -/

theorem inWorld_tip {l : ℝ} (hl : 0 < l) (theta : ℝ) :
    InWorld (2.5 * l) (2.5 * l) (1.25 * l + l * sin theta, 1.25 * l + l * cos theta) := by
  have a := neg_one_le_sin theta
  have b := sin_le_one theta
  have c := neg_one_le_cos theta
  have d := cos_le_one theta
  refine ⟨⟨?_, ?_⟩, ?_, ?_⟩ <;> simp only <;> nlinarith

theorem inWorld_pivot {l : ℝ} (hl : 0 < l) : InWorld (2.5 * l) (2.5 * l) (1.25 * l, 1.25 * l) := by
  refine ⟨⟨?_, ?_⟩, ?_, ?_⟩ <;> simp only <;> nlinarith

/-- The torque arrow: nothing is drawn for a torque whose radius is below a pixel; else an arc of that radius around the pixel
of the centre, counterclockwise for a positive torque, with its head at the end of the arc. -/
theorem C128_torque (v : Viewer) (cv : Canvas) (center : ℝ × ℝ) (torque maxTorque maxRadius : ℝ) (hm : 0 < maxTorque)
    (hR : 0 ≤ maxRadius) (hv : 0 ≤ v.ratio.1) (ht : |torque| ≤ maxTorque) :
    let r := ⌊|torque| / maxTorque * maxRadius * v.ratio.1⌋
    r ≤ ⌊maxRadius * v.ratio.1⌋ ∧
    ((v.torqueArrow (some cv) center torque maxTorque maxRadius).1 = some cv ∨
      ∃ head, (v.torqueArrow (some cv) center torque maxTorque maxRadius).1 = some ⟨cv.background, cv.shapes ++
        [.arc ((v.transform center).1 - r) ((v.transform center).2 - r) (2 * r) (2 * r)
          (if torque > 0 then 0 else π / 2) (if torque > 0 then 3 * π / 2 else 0) white 1, .polygon head white 0]⟩ ∧
        0 < r ∧ torque ≠ 0 ∧
        head[2]? = some (v.transform (center.1 + |torque| / maxTorque * maxRadius / 8,
          center.2 - (if torque > 0 then 1 else -1) * (|torque| / maxTorque * maxRadius)))) := by
  intro r
  have hq : |torque| / maxTorque ≤ 1 := (div_le_one hm).mpr ht
  have hn : 0 ≤ |torque| / maxTorque * maxRadius * v.ratio.1 := by positivity
  refine ⟨Int.floor_le_floor (mul_le_mul_of_nonneg_right (mul_le_of_le_one_left hR hq) hv), ?_⟩
  by_cases hr : r = 0
  · left
    simp only [Viewer.torqueArrow, trunc_nonneg hn]
    rw [if_neg (not_not.mpr hr)]
    rfl
  · right
    have hpos : 0 < r := lt_of_le_of_ne (Int.floor_nonneg.mpr hn) (Ne.symm hr)
    have ht0 : torque ≠ 0 := by
      rintro rfl
      exact hr (by simp [r])
    have hsg : (SignType.sign torque : ℝ) = if torque > 0 then 1 else -1 := by
      rcases lt_or_gt_of_ne ht0 with h | h
      · rw [sign_neg h, if_neg (not_lt.mpr h.le)]; simp
      · rw [sign_pos h, if_pos h]; simp
    set rad := |torque| / maxTorque * maxRadius with hrad
    refine ⟨[(-0.5 * (rad / 4), -0.5 * (rad / 4)), (-0.5 * (rad / 4), 0.5 * (rad / 4)), (0.5 * (rad / 4), (0 : ℝ))].map
      (fun p => v.transform (rotate p 0 + (center.1, center.2 - rad * SignType.sign torque))), ?_, hpos, ht0, ?_⟩
    · simp only [Viewer.torqueArrow, ← hrad, trunc_nonneg hn]
      rw [if_pos hr]
      simp only [Viewer.arrowHead, Viewer.polygon, draw_eq, screen_some, List.append_assoc, List.cons_append, List.nil_append]
      rfl
    · simp only [List.map_cons, List.map_nil, List.getElem?_cons_succ, List.getElem?_cons_zero, Option.some.injEq, rotate,
        cos_zero, sin_zero, Prod.mk_add_mk, hsg]
      congr 2 <;> ring

/-- `torque_arrow` changes the array `center` of its caller. -/
theorem C128_torque_refuted : ∃ (v : Viewer) (center : ℝ × ℝ),
    (v.torqueArrow none center 1 1 1).2 = (center.1, center.2 - 1) := by
  refine ⟨Viewer.new 1 1 500 500, (0, 0), ?_⟩
  have h : trunc 500 = 500 := by rw [trunc_nonneg (by norm_num)]; exact Int.floor_ofNat 500
  simp [Viewer.torqueArrow, Viewer.new, h]

/-- The picture of the pendulum: a line from the middle of the window to the tip, circles around both, and possibly the arrow of
the torque. All of them lie in the window, for all angles. The direction of the arrow is that of the change of the angle caused by
the torque: a positive control turns the pole clockwise. -/
theorem C128_pendulum (l maxU : ℝ) (hl : 0 < l) (hm : 0 < maxU) (cv : Canvas) (theta u : ℝ) (hu : |u| ≤ maxU) :
    ∃ pivot tip more, pendulumDraw l maxU (some cv) theta u = some ⟨cv.background, cv.shapes ++
        (.line pivot tip white 1 :: .circle pivot 5 white 0 :: .circle tip 10 white 0 :: more)⟩ ∧
      Shows (2.5 * l) (2.5 * l) 500 500 (1.25 * l, 1.25 * l) pivot ∧
      Shows (2.5 * l) (2.5 * l) 500 500 (1.25 * l + l * sin theta, 1.25 * l + l * cos theta) tip ∧
      (more = [] ∨ ∃ (r : ℤ) (head : List Pixel), 0 < r ∧ r ≤ 40 ∧ u ≠ 0 ∧
        more = [.arc (pivot.1 - r) (pivot.2 - r) (2 * r) (2 * r) (if u < 0 then 0 else π / 2)
          (if u < 0 then 3 * π / 2 else 0) white 1, .polygon head white 0]) := by
  set v := Viewer.new (2.5 * l) (2.5 * l) with hv
  have hr1 : v.ratio.1 = 200 / l := by
    simp only [hv, Viewer.new]; push_cast; field_simp; norm_num
  have hline : ∀ c : Canvas, v.line (some c) (1.25 * l, 1.25 * l) (1.25 * l + l * sin theta, 1.25 * l + l * cos theta) =
      some ⟨c.background, c.shapes ++ [.line (v.transform (1.25 * l, 1.25 * l))
        (v.transform (1.25 * l + l * sin theta, 1.25 * l + l * cos theta)) white 1]⟩ := fun c => rfl
  have h5 : trunc (l / 40 * v.ratio.1) = 5 := by
    rw [hr1, show l / 40 * (200 / l) = 5 by field_simp; norm_num, trunc_nonneg (by norm_num)]
    exact Int.floor_ofNat 5
  have h10 : trunc (l / 20 * v.ratio.1) = 10 := by
    rw [hr1, show l / 20 * (200 / l) = 10 by field_simp; norm_num, trunc_nonneg (by norm_num)]
    exact Int.floor_ofNat 10
  have hfl : ⌊l / 5 * v.ratio.1⌋ = 40 := by
    rw [hr1, show l / 5 * (200 / l) = 40 by field_simp; norm_num]
    exact Int.floor_ofNat 40
  have ht := C128_torque v ⟨cv.background, cv.shapes ++ [.line (v.transform (1.25 * l, 1.25 * l))
        (v.transform (1.25 * l + l * sin theta, 1.25 * l + l * cos theta)) white 1, .circle (v.transform (1.25 * l, 1.25 * l)) 5 white 0,
        .circle (v.transform (1.25 * l + l * sin theta, 1.25 * l + l * cos theta)) 10 white 0]⟩ (1.25 * l, 1.25 * l) (-u) maxU (l / 5) hm
        (by positivity) (by rw [hr1]; positivity) (by rwa [abs_neg])
  have hdraw : pendulumDraw l maxU (some cv) theta u = (v.torqueArrow (some ⟨cv.background, cv.shapes ++
        [.line (v.transform (1.25 * l, 1.25 * l))
        (v.transform (1.25 * l + l * sin theta, 1.25 * l + l * cos theta)) white 1, .circle (v.transform (1.25 * l, 1.25 * l)) 5 white 0,
        .circle (v.transform (1.25 * l + l * sin theta, 1.25 * l + l * cos theta)) 10 white 0]⟩) (1.25 * l, 1.25 * l) (-u) maxU (l / 5)).1 := by
    simp only [pendulumDraw, ← hv, hline, Viewer.circle, draw_eq, screen_some, h5, h10, List.append_assoc, List.cons_append,
      List.nil_append]
  obtain ⟨hle, h | ⟨head, h, hpos, hne, -⟩⟩ := ht
  · refine ⟨_, _, [], ?_, shows_transform (by positivity) (by positivity) 500 500 black (inWorld_pivot hl),
      shows_transform (by positivity) (by positivity) 500 500 black (inWorld_tip hl theta), .inl rfl⟩
    rw [hdraw, h]
  · refine ⟨_, _, _, ?_, shows_transform (by positivity) (by positivity) 500 500 black (inWorld_pivot hl),
      shows_transform (by positivity) (by positivity) 500 500 black (inWorld_tip hl theta),
      .inr ⟨_, head, hpos, hle.trans hfl.le, fun h0 => hne (by rw [h0, neg_zero]), rfl⟩⟩
    rw [hdraw, h]
    simp only [List.append_assoc, List.cons_append, List.nil_append, gt_iff_lt, Left.neg_pos_iff]
    rfl

end

end Verif.Render
