/-
Property C156: the pictures of the viewers.
-/
import Verif.View.Frame
import Mathlib.Data.List.Induction
import Mathlib.Tactic.Ring
import Mathlib.Tactic.Linarith
import Mathlib.Tactic.NormNum

namespace Verif.View

/-! ### MuJoCo without a window -/

/-- **C156**, size. Without a window the frames fit into the offscreen buffer, and they are never smaller than asked for. If the size asked for fits into the buffer of the model, then it is
the size of the frames. -/
theorem C156_size_partial (fresh : Buffer) (off : ℕ × ℕ) (w h : ℕ) :
    ∃ g, headlessInit fresh true off w h = .ok g ∧ g.buffer = .offscreen ∧ w ≤ g.viewport.1 ∧ h ≤ g.viewport.2 ∧ g.viewport.1 ≤ g.off.1 ∧ g.viewport.2 ≤ g.off.2 ∧
      (w ≤ off.1 → h ≤ off.2 → g.viewport = (w, h) ∧ g.off = off) ∧ (off.1 ≤ w → off.2 ≤ h → g.viewport = (w, h)) := by
  refine ⟨_, rfl, rfl, ?_⟩
  simp only [newContext, updateHeadlessSize]
  by_cases hb : w > off.1 ∨ h > off.2
  · rw [if_pos hb]
    by_cases hn : max w off.1 ≠ off.1 ∨ max h off.2 ≠ off.2
    · rw [if_pos hn]
      refine ⟨le_max_left _ _, le_max_left _ _, le_rfl, le_rfl, fun h1 h2 => by omega, fun h1 h2 => ?_⟩
      simp [h1, h2]
    · exfalso
      push Not at hn
      rcases hb with hb | hb
      · have := le_max_left w off.1; omega
      · have := le_max_left h off.2; omega
  · rw [if_neg hb]
    push Not at hb
    exact ⟨le_rfl, le_rfl, hb.1, hb.2, fun _ _ => ⟨rfl, rfl⟩, fun _ _ => rfl⟩

/-- **C156**, size. A size that is larger than the buffer in one direction only gives frames of another size: with the buffer of MuJoCo, 640 × 480, frames of 1000 × 100 become 1000 × 480. -/
theorem C156_size_refuted (fresh : Buffer) : ∃ g, headlessInit fresh true (640, 480) 1000 100 = .ok g ∧ g.viewport = (1000, 480) := ⟨_, rfl, rfl⟩

/-- **C156**, several models. When an environment with several models changes its model, the frames keep their size but the buffer is that of the new model. So the frames need not fit into
it, and the offscreen buffer is not selected again. -/
theorem C156_new_model_refuted : ∃ g, headlessInit .window true (640, 480) 1920 1080 = .ok g ∧
    (loadNewModel .window (640, 480) g).off.1 < (loadNewModel .window (640, 480) g).viewport.1 ∧ (loadNewModel .window (640, 480) g).buffer = .window := ⟨_, rfl, by decide, rfl⟩

/-- **C156**, orientation. The picture has one row for each pixel of the height and one column for each pixel of the width of the viewport, and the first row is the upper one; the same holds for the
depths. -/
theorem C156_upright {α β : Type} (scene : ℕ → ℕ → α) (depths : ℕ → ℕ → β) (depth : Bool) (g : Gl) :
    (readPixels scene depths depth g).1.length = g.viewport.2 ∧
    (∀ r x, r < g.viewport.2 → x < g.viewport.1 → ((readPixels scene depths depth g).1[r]?.bind fun row => row[x]?) = some (scene x (g.viewport.2 - 1 - r))) ∧
    (∀ row ∈ (readPixels scene depths depth g).1, row.length = g.viewport.1) ∧
    (∀ d, (readPixels scene depths depth g).2 = some d → d.length = g.viewport.2 ∧
      ∀ r x, r < g.viewport.2 → x < g.viewport.1 → (d[r]?.bind fun row => row[x]?) = some (depths x (g.viewport.2 - 1 - r))) ∧
    ((readPixels scene depths depth g).2 = none ↔ depth = false) := by
  have gen : ∀ {γ : Type} (f : ℕ → ℕ → γ), (glRead f g.viewport.1 g.viewport.2).reverse.length = g.viewport.2 ∧
      (∀ r x, r < g.viewport.2 → x < g.viewport.1 → ((glRead f g.viewport.1 g.viewport.2).reverse[r]?.bind fun row => row[x]?) = some (f x (g.viewport.2 - 1 - r))) ∧
      ∀ row ∈ (glRead f g.viewport.1 g.viewport.2).reverse, row.length = g.viewport.1 := by
    intro γ f
    refine ⟨by simp [glRead], fun r x hr hx => ?_, ?_⟩
    · have hlen : (glRead f g.viewport.1 g.viewport.2).length = g.viewport.2 := by simp [glRead]
      rw [List.getElem?_reverse (by rw [hlen]; exact hr), hlen, glRead, List.getElem?_map, List.getElem?_range (by omega)]
      simp [List.getElem?_range hx]
    · intro row hrow
      rw [List.mem_reverse, glRead, List.mem_map] at hrow
      obtain ⟨y, -, rfl⟩ := hrow
      simp
  cases depth
  · exact ⟨(gen scene).1, (gen scene).2.1, (gen scene).2.2, fun d hd => by simp [readPixels] at hd, by simp [readPixels]⟩
  · refine ⟨(gen scene).1, (gen scene).2.1, (gen scene).2.2, fun d hd => ?_, by simp [readPixels]⟩
    simp only [readPixels, if_true, Option.some.injEq] at hd
    subst hd
    exact ⟨(gen depths).1, (gen depths).2.1⟩

/-- **C156**, backends. Without `MUJOCO_GL` the first backend that works, in the order glfw, egl, osmesa, is used, and there is an error only if none works. With `MUJOCO_GL` only the backend it
names is used, and an unknown name is an error. -/
theorem C156_backend {C : Type} (build : String → Try C) :
    (∀ c, setupBackend none build = .ok c ↔ build "glfw" = .ok c ∨ ((∀ x, build "glfw" ≠ .ok x) ∧ build "egl" = .ok c) ∨
      ((∀ x, build "glfw" ≠ .ok x) ∧ (∀ x, build "egl" ≠ .ok x) ∧ build "osmesa" = .ok c)) ∧
    (setupBackend none build = .error .runtime ↔ ∀ name ∈ ["glfw", "egl", "osmesa"], ∀ x, build name ≠ .ok x) ∧
    (∀ name c, setupBackend (some name) build = .ok c ↔ name ∈ ["glfw", "egl", "osmesa"] ∧ build name = .ok c) ∧
    (∀ name, name ∉ ["glfw", "egl", "osmesa"] → setupBackend (some name) build = .error .runtime) := by
  refine ⟨fun c => ?_, ?_, fun name c => ?_, fun name hn => ?_⟩
  · cases h1 : build "glfw" <;> cases h2 : build "egl" <;> cases h3 : build "osmesa" <;> simp [setupBackend, renderers, List.findSome?, h1, h2, h3]
  · cases h1 : build "glfw" <;> cases h2 : build "egl" <;> cases h3 : build "osmesa" <;> simp [setupBackend, renderers, List.findSome?, h1, h2, h3]
  · change _ ↔ name ∈ renderers ∧ _
    by_cases hm : name ∈ renderers
    · cases h : build name <;> simp [setupBackend, hm, h]
    · simp [setupBackend, hm]
  · change name ∉ renderers at hn
    simp [setupBackend, hn]

/-! ### pybullet -/

theorem cameraPixels_row {α : Type} (f : ℕ → α × α × α × α) (n : ℕ) :
    ((List.range n).flatMap fun c => [(f c).1, (f c).2.1, (f c).2.2.1, (f c).2.2.2]).length = n * 4 := by
  induction n with
  | zero => rfl
  | succ n ih => rw [List.range_succ, List.flatMap_append, List.length_append, ih]; simp; omega

theorem drop_flatMap {α β : Type} (f : β → List α) (k : ℕ) (hf : ∀ b, (f b).length = k) (l : List β) (i : ℕ) (hi : i < l.length) :
    ((l.flatMap f).drop (i * k)).take k = f l[i] := by
  induction l generalizing i with
  | nil => simp at hi
  | cons b l ih =>
    rw [List.flatMap_cons]
    cases i with
    | zero => rw [Nat.zero_mul, List.drop_zero, List.take_left' (hf b)]; rfl
    | succ i =>
      rw [Nat.succ_mul, Nat.add_comm, ← List.drop_drop, List.drop_left' (hf b)]
      exact ih i (by simpa using hi)

/-- **C156**, pybullet. For a square window the picture is the one that the camera sees. -/
theorem C156_bullet_partial {α : Type} (picture : ℕ → ℕ → α × α × α × α) (n : ℕ) :
    bulletImage (cameraPixels picture n n) n n = (List.range n).map fun r => (List.range n).map fun c => [(picture r c).1, (picture r c).2.1, (picture r c).2.2.1] := by
  unfold bulletImage reshape
  refine List.map_congr_left fun r hr => List.map_congr_left fun c hc => ?_
  rw [List.mem_range] at hr hc
  have hpair : cameraPixels picture n n = ((List.range n).flatMap fun r => (List.range n).map fun c => (r, c)).flatMap fun rc =>
      [(picture rc.1 rc.2).1, (picture rc.1 rc.2).2.1, (picture rc.1 rc.2).2.2.1, (picture rc.1 rc.2).2.2.2] := by
    rw [List.flatMap_assoc]
    unfold cameraPixels
    refine List.flatMap_congr fun r _ => ?_
    rw [List.flatMap_map]
  have hlen : ∀ m, ((List.range m).flatMap fun r => (List.range n).map fun c => (r, c)).length = m * n := by
    intro m
    induction m with
    | zero => simp
    | succ m ih => rw [List.range_succ, List.flatMap_append, List.length_append, ih]; simp; ring
  have hget : ∀ m, r < m → ((List.range m).flatMap fun r => (List.range n).map fun c => (r, c))[r * n + c]? = some (r, c) := by
    intro m hm
    induction m with
    | zero => omega
    | succ m ih =>
      rw [List.range_succ, List.flatMap_append, List.getElem?_append, hlen]
      rcases Nat.lt_succ_iff_lt_or_eq.1 hm with h | h
      · have : r * n + c < m * n := by nlinarith
        rw [if_pos this]
        exact ih h
      · subst h
        rw [if_neg (by omega)]
        simp [List.getElem?_range hc]
  have hi : r * n + c < ((List.range n).flatMap fun r => (List.range n).map fun c => (r, c)).length := (List.getElem?_eq_some_iff.1 (hget n hr)).1
  rw [hpair, drop_flatMap _ 4 (fun _ => rfl) _ _ hi]
  have := (List.getElem?_eq_some_iff.1 (hget n hr)).2
  rw [this]
  rfl

/-- **C156**, pybullet. In every other window the picture has the wrong number of rows: the width is taken for the height. -/
theorem C156_bullet_refuted {α : Type} (px : List α) (w h : ℕ) (hwh : w ≠ h) : (bulletImage px w h).length ≠ h := by
  simpa [bulletImage, reshape] using hwh

/-- In a window with three columns and two rows the pixels are out of place too: what is left of column 1 in the second row is the last pixel of the first row. -/
theorem C156_bullet_pixels_refuted (picture : ℕ → ℕ → ℕ × ℕ × ℕ × ℕ) : (bulletImage (cameraPixels picture 3 2) 3 2)[1]?.bind (fun row => row[0]?) =
    some [(picture 0 2).1, (picture 0 2).2.1, (picture 0 2).2.2.1] := rfl

/-! ### Windows for images -/

/-- An image of the given width and height. -/
def HasSize {α : Type} (img : List (List α)) (w h : ℕ) : Prop := img.length = h ∧ ∀ row ∈ img, row.length = w

/-- The operations on an `ImageViewer`. -/
inductive ImgOp (α : Type)
  | display (img : List (List α)) | close

/-- A history of an `ImageViewer` with a window. -/
def imgRun {α : Type} (size : ℕ × ℕ) (black : α) (ops : List (ImgOp α)) : Option (Win α) :=
  ops.foldl (fun w op => match op with
    | .display img => imgDisplay size false black w img
    | .close => imgClose w) none

theorem imgRun_size {α : Type} (size : ℕ × ℕ) (black : α) (ops : List (ImgOp α)) : ∀ w, imgRun size black ops = some w → w.size = size := by
  induction ops using List.reverseRecOn with
  | nil => intro w h; cases h
  | append_singleton ops op ih =>
    intro w h
    rw [imgRun, List.foldl_append] at h
    simp only [List.foldl_cons, List.foldl_nil] at h
    cases op with
    | close => cases h
    | display img =>
      simp only [imgDisplay, Bool.false_eq_true, if_false, Option.some.injEq] at h
      subst h
      change ((imgRun size black ops).getD ⟨size, fun _ _ => black⟩).size = size
      cases hr : imgRun size black ops with
      | none => rfl
      | some w => exact ih w hr

/-- **C156**, windows. After any history of displays and closes, an image that has the size of the window is shown as it is: no row or column is exchanged and nothing of the earlier images is
left. -/
theorem C156_image_partial {α : Type} (size : ℕ × ℕ) (black : α) (ops : List (ImgOp α)) (img : List (List α)) (hi : HasSize img size.1 size.2) :
    ∃ w, imgRun size black (ops ++ [.display img]) = some w ∧ w.size = size ∧ ∀ x y, x < size.1 → y < size.2 → (img[y]?.bind fun row => row[x]?) = some (w.pixel x y) := by
  have h : imgRun size black (ops ++ [.display img]) = imgDisplay size false black (imgRun size black ops) img := by rw [imgRun, List.foldl_append]; rfl
  have hd : imgDisplay size false black (imgRun size black ops) img = some (blit ((imgRun size black ops).getD ⟨size, fun _ _ => black⟩) img) := rfl
  refine ⟨_, h.trans hd, imgRun_size size black _ _ (h.trans hd), fun x y hx hy => ?_⟩
  have h1 : y < img.length := by rw [hi.1]; exact hy
  have h2 : x < img[y].length := by rw [hi.2 _ (List.getElem_mem h1)]; exact hx
  simp [blit, List.getElem?_eq_getElem h1, List.getElem?_eq_getElem h2]

/-- **C156**, windows. A smaller image leaves the rest of the earlier one in the window. -/
theorem C156_image_refuted : ∃ w, imgRun (2, 1) 0 [.display [[7, 8]], .display [[9]]] = some w ∧ w.pixel 0 0 = 9 ∧ w.pixel 1 0 = 8 := ⟨_, rfl, rfl, rfl⟩

/-- A closed window is opened again and is black where nothing is drawn. -/
example : ∃ w, imgRun (2, 1) 0 [.display [[7, 8]], .close, .display [[9, 5]]] = some w ∧ w.pixel 0 0 = 9 ∧ w.pixel 1 0 = 5 := ⟨_, rfl, rfl, rfl⟩

/-- **C156**, cv2. One sees the image in its own colours, the first time and as long as the window is open; if it is closed the program ends. -/
theorem C156_colours {α : Type} (created : Bool) (visible : ℤ) (img : List (List (α × α × α))) :
    cvDisplay created visible img = if created = true ∧ visible = 0 then .error .exit else .ok (true, img) := by
  have : imshow (swapRB img) = img := by
    simp only [imshow, swapRB, List.map_map, Function.comp_def]
    simp
  cases created
  · simp [cvDisplay, this]
  · by_cases hv : visible = 0 <;> simp [cvDisplay, this, hv]

/-- **C156**, cv2. For steps of at least a millisecond the program waits for the step, up to a millisecond. -/
theorem C156_wait_partial (dt : ℝ) (hdt : 1 / 1000 ≤ dt) : ∃ t : ℤ, cvWait dt = some t ∧ (t : ℝ) / 1000 ≤ dt ∧ dt < (t + 1) / 1000 := by
  have h0 : 0 ≤ dt * 1000 := by linarith
  have h1 : 1 ≤ ⌊dt * 1000⌋ := Int.le_floor.2 (by push_cast; linarith)
  refine ⟨⌊dt * 1000⌋, ?_, ?_, ?_⟩
  · simp only [cvWait, if_pos h0]
    rw [if_neg (by omega)]
  · have := Int.floor_le (dt * 1000); linarith
  · have := Int.lt_floor_add_one (dt * 1000); linarith

/-- **C156**, cv2. For shorter steps it waits for a key, possibly for ever. -/
theorem C156_wait_refuted (dt : ℝ) (h0 : 0 ≤ dt) (h1 : dt < 1 / 1000) : cvWait dt = none := by
  have h2 : 0 ≤ dt * 1000 := by linarith
  have h3 : ⌊dt * 1000⌋ < 1 := Int.floor_lt.2 (by push_cast; linarith)
  simp only [cvWait, if_pos h2]
  rw [if_pos (by omega)]

example : ∃ t, cvWait (1 / 50) = some t ∧ t = 20 := ⟨20, by norm_num [cvWait], rfl⟩

end Verif.View
