/-
Property C155, continued: sessions with the viewer of MuJoCo environments. Which camera a frame shows, how many frames are drawn, and how fast the animation is.
-/
import Verif.View.Props
import Mathlib.Analysis.Asymptotics.SpecificAsymptotics
import Mathlib.Analysis.SpecificLimits.Basic
import Mathlib.Tactic.LinearCombination

namespace Verif.View

noncomputable section

variable {D : Type}

/-! ### The camera of each frame -/

theorem cycleAt_eq (k : ℕ) : cycleAt k = nth k := by
  have : k % 3 < 3 := Nat.mod_lt _ (by norm_num)
  unfold cycleAt nth modes
  generalize k % 3 = j at this
  match j, this with
  | 0, _ => rfl
  | 1, _ => rfl
  | 2, _ => rfl

theorem nth_cases (k : ℕ) : nth k = "static" ∨ nth k = "follow" ∨ nth k = "top_static" := by
  unfold nth
  split
  · exact .inl rfl
  · split
    · exact .inr (.inl rfl)
    · exact .inr (.inr rfl)

/-- The camera is of the type of the mode. -/
def OfMode (m : String) (c : Camera) : Prop := (c.tracking = true ↔ m = "follow") ∧ (m = "follow" → c.trackbodyid = 0 ∧ c.fixedcamid = -1)

/-- The parameters are complete. -/
def Complete (e : Env) : Prop := ∃ given, assertParams given = .ok e.params

theorem complete_mode {e : Env} (he : Complete e) (k : ℕ) : ∃ ps dist el az, e.params.lookup (nth k) = some ps ∧ ps.lookup "distance" = some dist ∧ ps.lookup "elevation" = some el ∧
    ps.lookup "azimuth" = some az := by
  obtain ⟨given, hg⟩ := he
  have h := C155_params given e.params hg (nth k)
  have : ∃ d x y z, defaults.lookup (nth k) = some d ∧ d.lookup "distance" = some x ∧ d.lookup "elevation" = some y ∧ d.lookup "azimuth" = some z := by
    rcases nth_cases k with hk | hk | hk <;> rw [hk] <;> simp [defaults, List.lookup]
  obtain ⟨d, x, y, z, hd, hx, hy, hz⟩ := this
  rw [hd] at h
  obtain ⟨ps, hps, hp⟩ := h
  have get : ∀ p v, d.lookup p = some v → ∃ w, ps.lookup p = some w := by
    intro p v hv
    rw [hp p, hv]
    cases (given.lookup (nth k)).bind fun ps => ps.lookup p with
    | none => exact ⟨v, rfl⟩
    | some w => exact ⟨w, rfl⟩
  obtain ⟨a, ha⟩ := get _ _ hx
  obtain ⟨b, hb⟩ := get _ _ hy
  obtain ⟨c, hc⟩ := get _ _ hz
  exact ⟨ps, a, b, c, hps, ha, hb, hc⟩

theorem setProperties_spec {e : Env} (he : Complete e) (s : St D) (k : ℕ) :
    Configured e (nth k) (setProperties e s (nth k)).camera ∧ (setProperties e s (nth k)).camera.tracking = s.camera.tracking ∧
      (setProperties e s (nth k)).camera.trackbodyid = s.camera.trackbodyid ∧ (setProperties e s (nth k)).camera.fixedcamid = s.camera.fixedcamid ∧
      (setProperties e s (nth k)).mode = some (nth k) ∧ ∃ c, setProperties e s (nth k) = { s with camera := c, mode := some (nth k) } := by
  obtain ⟨ps, a, b, c, h, ha, hb, hc⟩ := complete_mode he k
  simp only [setProperties, h, Option.getD_some, ha, hb, hc]
  cases hl : ps.lookup "lookat" with
  | none => exact ⟨⟨ps, h, ha, hb, hc, fun l h => by rw [hl] at h; cases h⟩, rfl, rfl, rfl, trivial, _, rfl⟩
  | some l => exact ⟨⟨ps, h, ha, hb, hc, fun l' h => by rw [hl] at h; cases h; rfl⟩, rfl, rfl, rfl, trivial, _, rfl⟩

/-- The type of the camera in a mode. -/
def typed (m : String) (c : Camera) : Camera :=
  { c with fixedcamid := if m = "follow" then -1 else 0, tracking := decide (m = "follow"), trackbodyid := if m = "follow" then 0 else -1 }

theorem setCamera_eq (e : Env) (s : St D) (k : ℕ) (hk : s.target = nth k) :
    setCamera e s = if s.mode = some (nth k) then s else setProperties e { s with camera := typed (nth k) s.camera } (nth k) := by
  cases s with
  | mk left right middle last frames viewport loop tpr speed paused opt camera it mode target hide shots moves =>
    simp only at hk
    subst hk
    rcases nth_cases k with h | h | h
    all_goals
      rw [h]
      by_cases hm : mode = some (nth k) <;> rw [h] at hm <;> simp [setCamera, typed, hm]

/-- After `_set_camera` the mode is the target. -/
theorem setCamera_spec {e : Env} (he : Complete e) (s : St D) (k : ℕ) (hk : s.target = nth k) (hm : ∀ m, s.mode = some m → OfMode m s.camera) :
    ∃ c, setCamera e s = { s with camera := c, mode := some (nth k) } ∧ OfMode (nth k) c ∧ (s.mode ≠ some (nth k) → Configured e (nth k) c) ∧ (s.mode = some (nth k) → c = s.camera) := by
  rw [setCamera_eq e s k hk]
  by_cases hmode : s.mode = some (nth k)
  · rw [if_pos hmode]
    exact ⟨s.camera, by cases s; simp_all, hm _ hmode, fun hn => absurd hmode hn, fun _ => rfl⟩
  · rw [if_neg hmode]
    obtain ⟨h1, h2, h3, h4, h5, c, h6⟩ := setProperties_spec (D := D) he { s with camera := typed (nth k) s.camera } k
    rw [h6] at h1 h2 h3 h4
    refine ⟨c, h6, ⟨?_, fun hf => ⟨?_, ?_⟩⟩, fun _ => h1, fun hs => absurd hs hmode⟩
    · rw [h2]; simp [typed]
    · rw [h3]; simp [typed, hf]
    · rw [h4]; simp [typed, hf]

/-- Movements of the mouse do not change the type of the camera. -/
def Gentle (e : Env) : Prop := ∀ a dx dy c, (e.moveCamera a dx dy c).tracking = c.tracking ∧ (e.moveCamera a dx dy c).trackbodyid = c.trackbodyid ∧
  (e.moveCamera a dx dy c).fixedcamid = c.fixedcamid

/-- What an event can change. -/
structure Kept (e : Env) (n : ℕ) (mouse : Bool) (s s' : St D) : Prop where
  it : s'.it = s.it + n
  target : ∀ j, s.it = j + 1 → s.target = nth j → s'.target = nth (j + n)
  mode : s'.mode = s.mode
  frames : s'.frames = s.frames
  shots : s'.shots = s.shots
  loop : s'.loop = s.loop
  tpr : s'.tpr = s.tpr
  typ : Gentle e → ∀ m, OfMode m s.camera → OfMode m s'.camera
  camera : mouse = false → s'.camera = s.camera

theorem Kept.refl (e : Env) (b : Bool) (s : St D) : Kept e 0 b s s := ⟨rfl, fun _ _ h => h, rfl, rfl, rfl, rfl, rfl, fun _ _ h => h, fun _ => rfl⟩

theorem handle_kept (e : Env) (size : ℕ × ℕ) (s s' : St D) (ev : Event) (h : handle e size s ev = .ok s') : Kept e (if ev.isKey .tab then 1 else 0) ev.isMouse s s' := by
  cases ev with
  | button l r m pos => cases h; exact ⟨rfl, fun _ _ h => h, rfl, rfl, rfl, rfl, rfl, fun _ _ h => h, fun _ => rfl⟩
  | scroll dy => cases h; exact ⟨rfl, fun _ _ h => h, rfl, rfl, rfl, rfl, rfl, fun g m h => ⟨by rw [scroll, moveCamera, (g _ _ _ _).1]; exact h.1, fun hm => ⟨by rw [scroll, moveCamera, (g _ _ _ _).2.1]; exact (h.2 hm).1, by rw [scroll, moveCamera, (g _ _ _ _).2.2]; exact (h.2 hm).2⟩⟩, fun h => by cases h⟩
  | move pos shift =>
    cases h
    show Kept e 0 true s (mouseMove e size s pos shift)
    unfold mouseMove
    split
    · exact Kept.refl e _ s
    · exact ⟨rfl, fun _ _ h => h, rfl, rfl, rfl, rfl, rfl, fun g m h => ⟨by rw [moveCamera, (g _ _ _ _).1]; exact h.1, fun hm => ⟨by rw [moveCamera, (g _ _ _ _).2.1]; exact (h.2 hm).1, by rw [moveCamera, (g _ _ _ _).2.2]; exact (h.2 hm).2⟩⟩, fun h => by cases h⟩
  | key k rel =>
    rw [handle, keyboard.eq_def] at h
    rw [isKey_key]
    cases rel with
    | false => cases h; rw [Bool.and_false]; exact Kept.refl e _ s
    | true =>
      simp only [Bool.not_true, Bool.false_eq_true, if_false] at h
      cases k with
      | digit n =>
        simp only at h
        cases hb : s.opt.geomgroup[n]? with
        | none => rw [hb] at h; cases h
        | some b => rw [hb] at h; cases h; exact ⟨rfl, fun _ _ h => h, rfl, rfl, rfl, rfl, rfl, fun _ _ h => h, fun _ => rfl⟩
      | tab =>
        cases h
        refine ⟨rfl, fun j hj _ => ?_, rfl, rfl, rfl, rfl, rfl, fun _ _ h => h, fun _ => rfl⟩
        show cycleAt s.it = _
        rw [cycleAt_eq, hj]; rfl
      | space | c | t | e | h | other | s | f => cases h; exact ⟨rfl, fun _ _ h => h, rfl, rfl, rfl, rfl, rfl, fun _ _ h => h, fun _ => rfl⟩

theorem poll_kept (e : Env) (size : ℕ × ℕ) (evs : List Event) (s s' : St D) (h : poll e size evs s = .ok s') : Kept e (presses .tab evs) (evs.any Event.isMouse) s s' := by
  induction evs generalizing s with
  | nil => cases h; exact Kept.refl e _ _
  | cons ev evs ih =>
    rw [poll] at h
    cases hh : handle e size s ev with
    | error err => rw [hh] at h; cases h
    | ok s1 =>
      rw [hh] at h
      have h1 := handle_kept e size s s1 ev hh
      have h2 := ih s1 h
      rw [presses_cons, List.any_cons]
      refine ⟨by rw [h2.it, h1.it]; omega, fun j hj ht => ?_, h2.mode.trans h1.mode, h2.frames.trans h1.frames, h2.shots.trans h1.shots, h2.loop.trans h1.loop, h2.tpr.trans h1.tpr,
        fun g m hm => h2.typ g m (h1.typ g m hm), fun hb => ?_⟩
      · rw [h2.target (j + if ev.isKey .tab then 1 else 0) (by rw [h1.it, hj]; omega) (h1.target j hj ht)]
        congr 1; omega
      · rw [Bool.or_eq_false_iff] at hb
        rw [h2.camera hb.2, h1.camera hb.1]

/-- One frame: what is drawn, then the events. -/
theorem inner_spec (e : Env) (data : D) (s s' : St D) (h : inner e data s = .ok s') :
    ∃ (v : ℕ × ℕ) (s1 : St D), s' = { s1 with frames := s1.frames + 1, tpr := 0.9 * s1.tpr + 0.1 * (e.tape s.frames).cost } ∧
      let s0 : St D := { s with viewport := v, shots := s.shots ++ [⟨data, s.camera, s.opt, v, if e.headless || s.hide then none else some (overlayOf s)⟩] }
      (if e.headless then s1 = s0 else poll e (e.tape s.frames).size (e.tape s.frames).events s0 = .ok s1) := by
  unfold inner at h
  simp only at h
  refine ⟨if e.headless then s.viewport else (e.tape s.frames).size, ?_⟩
  by_cases hh : e.headless = true
  · simp only [hh, if_true, Bool.true_or] at h ⊢
    cases h
    exact ⟨_, rfl, rfl⟩
  · simp only [hh, if_false, Bool.false_eq_true] at h ⊢
    split at h
    · cases h
    next s2 hs2 =>
      cases h
      split at hs2
      · cases hs2
      next s3 hs3 =>
        split at hs2
        · cases hs2
        · cases hs2
          exact ⟨_, rfl, hs3⟩

/-- The number of TABs during a frame. -/
def tabsOf (e : Env) (n : ℕ) : ℕ := if e.headless then 0 else presses .tab (e.tape n).events

/-- No movements of the mouse before frame `i`. -/
def Quiet (e : Env) (i : ℕ) : Prop := e.headless = true ∨ ∀ n < i, ∀ ev ∈ (e.tape n).events, ev.isMouse = false

theorem tabs_succ (e : Env) (n : ℕ) : tabs e (n + 1) = tabs e n + tabsOf e n := by
  unfold tabs tabsOf
  split
  · rfl
  · rw [List.range_succ, List.map_append, List.sum_append]; simp

theorem inner_kept (e : Env) (data : D) (s s' : St D) (h : inner e data s = .ok s') :
    s'.it = s.it + tabsOf e s.frames ∧ (∀ j, s.it = j + 1 → s.target = nth j → s'.target = nth (j + tabsOf e s.frames)) ∧ s'.mode = s.mode ∧ s'.frames = s.frames + 1 ∧ s'.loop = s.loop ∧
      s'.tpr = 0.9 * s.tpr + 0.1 * (e.tape s.frames).cost ∧ (Gentle e → ∀ m, OfMode m s.camera → OfMode m s'.camera) ∧
      (e.headless = true ∨ (∀ ev ∈ (e.tape s.frames).events, ev.isMouse = false) → s'.camera = s.camera) ∧
      ∃ v, s'.shots = s.shots ++ [⟨data, s.camera, s.opt, v, if e.headless || s.hide then none else some (overlayOf s)⟩] := by
  obtain ⟨v, s1, rfl, h1⟩ := inner_spec e data s s' h
  unfold tabsOf
  by_cases hh : e.headless = true
  · simp only [hh, if_true] at h1 ⊢
    subst h1
    exact ⟨rfl, fun _ _ h => h, rfl, rfl, rfl, rfl, fun _ _ h => h, fun _ => rfl, v, rfl⟩
  · simp only [hh, if_false, Bool.false_eq_true] at h1 ⊢
    have hk := poll_kept _ _ _ _ _ h1
    refine ⟨hk.it, hk.target, hk.mode, by rw [hk.frames], hk.loop, by rw [hk.tpr], hk.typ, fun hq => ?_, v, hk.shots⟩
    rcases hq with hq | hq
    · cases hq
    · exact hk.camera (by rw [List.any_eq_false]; intro ev hev; simp [hq ev hev])

/-- What is claimed of the `i`-th frame. -/
def ShotOk (e : Env) (start i : ℕ) (shot : Shot D) : Prop :=
  (shot.camera.tracking = true ↔ nth (start + tabs e i) = "follow") ∧ (∀ o, shot.overlay = some o → o.mode = some (nth (start + tabs e i))) ∧
    (Quiet e i → Configured e (nth (start + tabs e i)) shot.camera)

structure Good (e : Env) (start : ℕ) (s : St D) : Prop where
  it : s.it = start + tabs e s.frames + 1
  target : s.target = nth (start + tabs e s.frames)
  mode : s.mode = some (nth (start + tabs e s.frames))
  typ : OfMode (nth (start + tabs e s.frames)) s.camera
  conf : Quiet e s.frames → Configured e (nth (start + tabs e s.frames)) s.camera
  len : s.shots.length = s.frames
  shots : ∀ i shot, s.shots[i]? = some shot → ShotOk e start i shot

theorem draw_good {e : Env} (he : Complete e) (hg : Gentle e) (data : D) (start : ℕ) (s s' : St D) (hs : Good e start s) (h : inner e data s = .ok s') (x : ℝ) :
    Good e start { setCamera e s' with loop := x } := by
  obtain ⟨k1, k2, k3, k4, -, -, k7, k8, v, k9⟩ := inner_kept e data s s' h
  have ht : s'.target = nth (start + tabs e s'.frames) := by
    rw [k2 _ hs.it hs.target, k4, tabs_succ, add_assoc]
  obtain ⟨c, e1, e2, e3, e4⟩ := setCamera_spec he s' _ ht fun m hm => by
    rw [k3, hs.mode] at hm
    cases hm
    exact k7 hg _ hs.typ
  rw [e1]
  refine ⟨?_, ht, rfl, e2, fun hq => ?_, ?_, ?_⟩
  · show s'.it = _ + tabs e s'.frames + 1
    rw [k1, hs.it, k4, tabs_succ]; omega
  · by_cases hm : s'.mode = some (nth (start + tabs e s'.frames))
    · show Configured e _ c
      rw [e4 hm]
      have hq' : Quiet e (s.frames + 1) := by
        have : Quiet e s'.frames := hq
        rwa [k4] at this
      have hsame : nth (start + tabs e s.frames) = nth (start + tabs e s'.frames) := by
        rw [k3, hs.mode] at hm
        exact Option.some.inj hm
      show Configured e (nth (start + tabs e s'.frames)) _
      rw [← hsame, k8 (hq'.imp id fun hq => hq _ (Nat.lt_succ_self _))]
      exact hs.conf (hq'.imp id fun hq n hn => hq n (by omega))
    · exact e3 hm
  · show s'.shots.length = s'.frames
    rw [k9, k4, List.length_append, hs.len]; rfl
  · intro i shot hi
    have hi' : s'.shots[i]? = some shot := hi
    rw [k9, List.getElem?_append] at hi'
    split at hi'
    · exact hs.shots i shot hi'
    next hlt =>
      rw [hs.len] at hlt hi'
      have : i = s.frames := by
        by_contra hne
        rw [List.getElem?_eq_none (by simp; omega)] at hi'
        cases hi'
      subst this
      rw [Nat.sub_self] at hi'
      cases hi'
      refine ⟨hs.typ.1, fun o ho => ?_, hs.conf⟩
      simp only at ho
      split at ho
      · cases ho
      · cases ho; exact hs.mode

theorem drawLoop_zero (e : Env) (data : D) (s : St D) : drawLoop e data 0 s = if s.loop > 0 then none else some (.ok s) := by rw [drawLoop.eq_def]

theorem drawLoop_succ (e : Env) (data : D) (fuel : ℕ) (s : St D) : drawLoop e data (fuel + 1) s = if s.loop > 0 then
    match inner e data s with
    | .error err => some (.error err)
    | .ok s' => drawLoop e data fuel { setCamera e s' with loop := (setCamera e s').loop - 1 } else some (.ok s) := by rw [drawLoop.eq_def]; rfl

theorem pauseLoop_zero (e : Env) (data : D) (s : St D) : pauseLoop e data 0 s = if s.paused then none else some (.ok s) := by rw [pauseLoop.eq_def]

theorem pauseLoop_succ (e : Env) (data : D) (fuel : ℕ) (s : St D) : pauseLoop e data (fuel + 1) s = if s.paused then
    match inner e data s with
    | .error err => some (.error err)
    | .ok s' => pauseLoop e data fuel s' else some (.ok s) := by rw [pauseLoop.eq_def]; rfl

/-- An invariant of the frames is one of the loop. -/
theorem drawLoop_inv {P : St D → Prop} (e : Env) (data : D) (step : ∀ s s', P s → inner e data s = .ok s' → P { setCamera e s' with loop := (setCamera e s').loop - 1 }) (fuel : ℕ)
    (s s' : St D) (hs : P s) (h : drawLoop e data fuel s = some (.ok s')) : P s' := by
  induction fuel generalizing s with
  | zero =>
    rw [drawLoop_zero] at h
    split at h
    · cases h
    · cases h; exact hs
  | succ fuel ih =>
    rw [drawLoop_succ] at h
    split at h
    · cases hi : inner e data s with
      | error err => rw [hi] at h; cases h
      | ok s1 => rw [hi] at h; exact ih _ (step s s1 hs hi) h
    · cases h; exact hs

/-- SPACE is not released during any frame. -/
def NoPause (e : Env) : Prop := e.headless = true ∨ ∀ n, presses .space (e.tape n).events = 0

theorem inner_paused (e : Env) (hp : NoPause e) (data : D) (s s' : St D) (h : inner e data s = .ok s') : s'.paused = s.paused := by
  obtain ⟨v, s1, rfl, h1⟩ := inner_spec e data s s' h
  rcases hp with hp | hp
  · simp only [hp, if_true] at h1
    subst h1; rfl
  · simp only at h1
    split at h1
    · subst h1; rfl
    · have := (C155_keys _ _ _ _ _ h1).1
      simpa [hp] using this

theorem setCamera_paused (e : Env) (s : St D) : (setCamera e s).paused = s.paused ∧ (setCamera e s).loop = s.loop ∧ (setCamera e s).frames = s.frames ∧ (setCamera e s).tpr = s.tpr ∧
    (setCamera e s).speed = s.speed ∧ (setCamera e s).shots = s.shots := by
  have : ∀ s : St D, ∀ m, (setProperties e s m).paused = s.paused ∧ (setProperties e s m).loop = s.loop ∧ (setProperties e s m).frames = s.frames ∧ (setProperties e s m).tpr = s.tpr ∧
      (setProperties e s m).speed = s.speed ∧ (setProperties e s m).shots = s.shots := fun s m => ⟨rfl, rfl, rfl, rfl, rfl, rfl⟩
  unfold setCamera
  split
  · split
    · exact this _ _
    · exact ⟨rfl, rfl, rfl, rfl, rfl, rfl⟩
  · split
    · split
      · exact this _ _
      · exact ⟨rfl, rfl, rfl, rfl, rfl, rfl⟩
    · split
      · split
        · exact this _ _
        · exact ⟨rfl, rfl, rfl, rfl, rfl, rfl⟩
      · exact ⟨rfl, rfl, rfl, rfl, rfl, rfl⟩

theorem render_running (e : Env) (data : D) (record : Bool) (fuel : ℕ) (s : St D) (hs : s.paused = false) :
    render e data record fuel s = drawLoop e data fuel { s with loop := if record then 1 else s.loop + e.dt / (s.tpr * s.speed) } := by
  have : pauseLoop e data fuel s = some (.ok s) := by
    cases fuel with
    | zero => rw [pauseLoop_zero, hs]; rfl
    | succ n => rw [pauseLoop_succ, hs]; rfl
  rw [render, this]

theorem seek_spec (d : String) (hd : d ∈ modes) : seek d 3 (cycleAt 0, 1) = (nth (modes.idxOf d), modes.idxOf d + 1) := by
  simp only [modes, List.mem_cons, List.not_mem_nil, or_false] at hd
  rcases hd with rfl | rfl | rfl <;> simp [seek, cycleAt, modes, nth, List.idxOf, List.findIdx, List.findIdx.go]

theorem init_good {e : Env} (he : Complete e) {cam0 : Camera} {opt0 : Opt} {size : ℕ × ℕ} {paused : Bool} {d : String} {hide : Option Bool} {startup : Option (List ℕ)} {s : St D}
    (h : init e cam0 opt0 size paused d hide startup = .ok s) :
    Good e (modes.idxOf d) s ∧ s.paused = paused ∧ s.loop = 0 ∧ s.frames = 0 ∧ s.tpr = 1 / 60 ∧ s.speed = 1 ∧ s.viewport = size ∧ d ∈ modes := by
  unfold init at h
  split at h
  next hd =>
    have hs := Except.ok.inj h
    rw [seek_spec d hd] at hs
    let s0 : St D :=
      { viewport := size, paused := paused, opt := opt0, camera := cam0, it := modes.idxOf d + 1, mode := none, target := nth (modes.idxOf d), hide := startHide e.headless hide }
    obtain ⟨c, e1, e2, e3, e4⟩ := setCamera_spec he s0 (modes.idxOf d) rfl fun m hm => by cases hm
    have ht : tabs e 0 = 0 := by unfold tabs; split <;> rfl
    have hs' : { setCamera e s0 with opt := { (setCamera e s0).opt with geomgroup := startGroups (setCamera e s0).opt.geomgroup startup } } = s := hs
    rw [e1] at hs'
    subst hs'
    refine ⟨⟨?_, ?_, ?_, ?_, fun _ => ?_, rfl, fun i shot hi => by simp [s0] at hi⟩, rfl, rfl, rfl, rfl, rfl, rfl, hd⟩
    · show modes.idxOf d + 1 = modes.idxOf d + tabs e 0 + 1
      rw [ht]
    · show nth _ = nth (modes.idxOf d + tabs e 0)
      rw [ht]; rfl
    · show some (nth _) = some (nth (modes.idxOf d + tabs e 0))
      rw [ht]; rfl
    · show OfMode (nth (modes.idxOf d + tabs e 0)) c
      rw [ht]; exact e2
    · show Configured e (nth (modes.idxOf d + tabs e 0)) c
      rw [ht]; exact e3 (by simp [s0])
  next => cases h

/-- **C155**, cameras. In every session without a pause there is one picture per frame. The picture of frame `i` is taken with the camera that lies as many places after the default one, in
the order static, follow, top_static, as TAB was released in the frames before: the camera follows the model if and only if this is the camera "follow", the text names it, and, as
long as the mouse does not move the camera, its distance, its angles and its centre are those configured. -/
theorem C155_camera_partial (e : Env) (he : Complete e) (hg : Gentle e) (hp : NoPause e) (cam0 : Camera) (opt0 : Opt) (size : ℕ × ℕ) (d : String) (hide : Option Bool)
    (startup : Option (List ℕ)) (s0 s : St D) (h0 : init e cam0 opt0 size false d hide startup = .ok s0) (calls : List (D × Bool)) (fuel : ℕ) (h : session e fuel calls s0 = some (.ok s)) :
    s.shots.length = s.frames ∧ ∀ i shot, s.shots[i]? = some shot →
      let m := nth (["static", "follow", "top_static"].idxOf d + tabs e i)
      (shot.camera.tracking = true ↔ m = "follow") ∧ (∀ o, shot.overlay = some o → o.mode = some m) ∧ (Quiet e i → Configured e m shot.camera) := by
  obtain ⟨g0, p0, -⟩ := init_good he h0
  have hn : ∀ (calls : List (D × Bool)) (s0 : St D), Good e (modes.idxOf d) s0 → s0.paused = false → session e fuel calls s0 = some (.ok s) → Good e (modes.idxOf d) s := by
    intro calls
    induction calls with
    | nil => intro s0 g _ h; cases h; exact g
    | cons c calls ih =>
      obtain ⟨data, record⟩ := c
      intro s0 g p h
      rw [session, render_running e data record fuel s0 p] at h
      cases hd : drawLoop e data fuel { s0 with loop := if record then 1 else s0.loop + e.dt / (s0.tpr * s0.speed) } with
      | none => rw [hd] at h; cases h
      | some r =>
        rw [hd] at h
        cases r with
        | error err => cases h
        | ok s1 =>
          have hinv := drawLoop_inv (P := fun s => Good e (modes.idxOf d) s ∧ s.paused = false) e data
            (fun a b hab hi => ⟨draw_good he hg data _ a b hab.1 hi _, by rw [← hab.2, ← inner_paused e hp data a b hi]; exact (setCamera_paused e b).1⟩) fuel _ s1 (by
              exact ⟨⟨g.it, g.target, g.mode, g.typ, g.conf, g.len, g.shots⟩, p⟩) hd
          exact ih s1 hinv.1 hinv.2 h
  have g := hn calls s0 g0 p0 h
  exact ⟨g.len, g.shots⟩

/-! ### The number of frames -/

theorem drawLoop_count (e : Env) (data : D) (fuel : ℕ) (s s' : St D) (h : drawLoop e data fuel s = some (.ok s')) :
    s'.frames = s.frames + ⌈s.loop⌉₊ ∧ s'.loop = s.loop - ⌈s.loop⌉₊ := by
  induction fuel generalizing s with
  | zero =>
    rw [drawLoop_zero] at h
    split at h
    · cases h
    next hl => cases h; simp [Nat.ceil_eq_zero.2 (not_lt.1 hl)]
  | succ fuel ih =>
    rw [drawLoop_succ] at h
    split at h
    next hl =>
      cases hi : inner e data s with
      | error err => rw [hi] at h; cases h
      | ok s1 =>
        rw [hi] at h
        obtain ⟨-, -, -, k4, k5, -⟩ := inner_kept e data s s1 hi
        obtain ⟨-, p2, p3, -⟩ := setCamera_paused e s1
        obtain ⟨h1, h2⟩ := ih _ h
        simp only [p2, p3, k4, k5] at h1 h2
        have hc : ⌈s.loop⌉₊ = ⌈s.loop - 1⌉₊ + 1 := by
          rw [Nat.ceil_sub_one]
          have := Nat.ceil_pos.2 hl
          omega
        rw [h1, h2, hc]
        constructor
        · ring
        · push_cast; ring
    next hl => cases h; simp [Nat.ceil_eq_zero.2 (not_lt.1 hl)]

/-- **C155**, recording. A call of `render` that records draws exactly one frame, of the data that it is given. -/
theorem C155_record (e : Env) (data : D) (fuel : ℕ) (s s' : St D) (hs : s.paused = false) (h : render e data true fuel s = some (.ok s')) :
    s'.frames = s.frames + 1 ∧ ∃ shot : Shot D, shot.data = data ∧ s'.shots = s.shots ++ [shot] := by
  rw [render_running e data true fuel s hs] at h
  simp only [if_true] at h
  have h1 := (drawLoop_count e data fuel _ s' h).1
  refine ⟨by simpa using h1, ?_⟩
  cases fuel with
  | zero => rw [drawLoop_zero, if_pos (by norm_num)] at h; cases h
  | succ fuel =>
    rw [drawLoop_succ, if_pos (by norm_num)] at h
    cases hi : inner e data { s with loop := 1 } with
    | error err => rw [hi] at h; cases h
    | ok s1 =>
      rw [hi] at h
      obtain ⟨-, -, -, -, k5, -, -, -, v, k9⟩ := inner_kept e data _ s1 hi
      obtain ⟨-, p2, -, -, -, p6⟩ := setCamera_paused e s1
      have hz : ¬ ({ setCamera e s1 with loop := (setCamera e s1).loop - 1 } : St D).loop > 0 := by
        simp only [p2, k5]; norm_num
      replace h : drawLoop e data fuel { setCamera e s1 with loop := (setCamera e s1).loop - 1 } = some (.ok s') := h
      have : s' = { setCamera e s1 with loop := (setCamera e s1).loop - 1 } := by
        cases fuel with
        | zero => rw [drawLoop_zero, if_neg hz] at h; cases h; rfl
        | succ fuel => rw [drawLoop_succ, if_neg hz] at h; cases h; rfl
      subst this
      exact ⟨_, rfl, p6.trans k9⟩

/-- The speed and the time per frame are positive. -/
theorem inner_pos (e : Env) (hc : ∀ n, 0 ≤ (e.tape n).cost) (data : D) (s s' : St D) (hs : 0 < s.tpr ∧ 0 < s.speed) (h : inner e data s = .ok s') : 0 < s'.tpr ∧ 0 < s'.speed := by
  obtain ⟨-, -, -, -, -, k6, -⟩ := inner_kept e data s s' h
  refine ⟨by rw [k6]; nlinarith [hc s.frames, hs.1], ?_⟩
  obtain ⟨v, s1, rfl, h1⟩ := inner_spec e data s s' h
  simp only at h1
  split at h1
  · subst h1; exact hs.2
  · have := (C155_keys _ _ _ _ _ h1).2.2.2.2.2.2.2.2
    simp only [this]
    have := hs.2
    positivity

theorem render_pos (e : Env) (hc : ∀ n, 0 ≤ (e.tape n).cost) (hp : NoPause e) (data : D) (record : Bool) (fuel : ℕ) (s s' : St D) (hs : (0 < s.tpr ∧ 0 < s.speed) ∧ s.paused = false)
    (h : render e data record fuel s = some (.ok s')) : (0 < s'.tpr ∧ 0 < s'.speed) ∧ s'.paused = false := by
  rw [render_running e data record fuel s hs.2] at h
  refine drawLoop_inv (P := fun s => (0 < s.tpr ∧ 0 < s.speed) ∧ s.paused = false) e data (fun a b hab hi => ?_) fuel _ s' (by exact hs) h
  obtain ⟨p1, p2, p3, p4, p5, p6⟩ := setCamera_paused e b
  have := inner_pos e hc data a b hab.1 hi
  simp only [p1, p4, p5]
  exact ⟨this, (inner_paused e hp data a b hi).trans hab.2⟩

/-- The frames and the rest of the counter after each of a sequence of calls. -/
theorem pace (e : Env) (hdt : 0 < e.dt) (hc : ∀ n, 0 ≤ (e.tape n).cost) (hp : NoPause e) (data : ℕ → D) (fuel : ℕ → ℕ) (s : ℕ → St D) (h0 : (0 < (s 0).tpr ∧ 0 < (s 0).speed) ∧ (s 0).paused = false)
    (hl : -1 < (s 0).loop ∧ (s 0).loop ≤ 0) (h : ∀ k, render e (data k) false (fuel k) (s k) = some (.ok (s (k + 1)))) (k : ℕ) :
    ((0 < (s k).tpr ∧ 0 < (s k).speed) ∧ (s k).paused = false) ∧ (-1 < (s k).loop ∧ (s k).loop ≤ 0) ∧
      ((s k).frames : ℝ) + (s k).loop = (s 0).frames + (s 0).loop + ∑ i ∈ Finset.range k, e.dt / ((s i).tpr * (s i).speed) := by
  induction k with
  | zero => exact ⟨h0, hl, by simp⟩
  | succ k ih =>
    obtain ⟨i1, i2, i3⟩ := ih
    have hk := h k
    have hpos := render_pos e hc hp (data k) false (fuel k) (s k) (s (k + 1)) i1 hk
    rw [render_running e (data k) false (fuel k) (s k) i1.2] at hk
    obtain ⟨c1, c2⟩ := drawLoop_count e (data k) (fuel k) _ _ hk
    simp only [Bool.false_eq_true, if_false] at c1 c2
    have hx : 0 < e.dt / ((s k).tpr * (s k).speed) := div_pos hdt (mul_pos i1.1.1 i1.1.2)
    set y := (s k).loop + e.dt / ((s k).tpr * (s k).speed) with hy
    refine ⟨hpos, ?_, ?_⟩
    · rw [c2]
      have h1 : y ≤ ⌈y⌉₊ := Nat.le_ceil y
      refine ⟨?_, by linarith⟩
      rcases le_or_gt y 0 with h2 | h2
      · rw [Nat.ceil_eq_zero.2 h2]; push_cast; linarith [i2.1]
      · have := Nat.ceil_lt_add_one h2.le; linarith
    · rw [Finset.sum_range_succ, c2, c1]
      push_cast
      rw [hy]
      linarith

/-- **C155**, the number of frames. While nothing is recorded and SPACE is not used, call `k` of `render` completes a total number of frames that is the sum of the quotients of the time step
and the time per frame times the speed, rounded up: rounding errors do not accumulate. -/
theorem C155_pace (e : Env) (he : Complete e) (hdt : 0 < e.dt) (hc : ∀ n, 0 ≤ (e.tape n).cost) (hp : NoPause e) (cam0 : Camera) (opt0 : Opt) (size : ℕ × ℕ) (d : String) (hide : Option Bool)
    (startup : Option (List ℕ)) (data : ℕ → D) (fuel : ℕ → ℕ) (s : ℕ → St D) (h0 : init e cam0 opt0 size false d hide startup = .ok (s 0))
    (h : ∀ k, render e (data k) false (fuel k) (s k) = some (.ok (s (k + 1)))) (k : ℕ) :
    (s k).frames = ⌈∑ i ∈ Finset.range k, e.dt / ((s i).tpr * (s i).speed)⌉₊ := by
  obtain ⟨-, g1, g2, g3, g4, g5, -⟩ := init_good he h0
  obtain ⟨-, h2, h3⟩ := pace e hdt hc hp data fuel s ⟨⟨by rw [g4]; norm_num, by rw [g5]; norm_num⟩, g1⟩ ⟨by rw [g2]; norm_num, by rw [g2]⟩ h k
  rw [g2, g3, Nat.cast_zero, zero_add, zero_add] at h3
  symm
  rcases Nat.eq_zero_or_pos (s k).frames with hz | hz
  · rw [hz, Nat.ceil_eq_zero]
    rw [hz] at h3
    rw [← h3]
    push_cast
    linarith
  · rw [Nat.ceil_eq_iff hz.ne']
    have : (((s k).frames - 1 : ℕ) : ℝ) = (s k).frames - 1 := by
      rw [Nat.cast_sub hz]; norm_num
    rw [this]
    constructor <;> linarith

open Filter Topology in
/-- **C155**, real time. If each frame takes the time `c` and the speed stays at `v`, then the time spent on frames, in relation to the simulated time, tends to `1 / v`: the animation runs
`v` times as fast as real time, whatever the first guess of the time per frame. -/
theorem C155_realtime (e : Env) (hdt : 0 < e.dt) {c v : ℝ} (hc : 0 < c) (hv : 0 < v) (hcost : ∀ n, (e.tape n).cost = c) (hp : NoPause e) (data : ℕ → D) (fuel : ℕ → ℕ) (s : ℕ → St D)
    (ht : 0 < (s 0).tpr) (h0 : (s 0).paused = false) (hl : -1 < (s 0).loop ∧ (s 0).loop ≤ 0) (hspeed : ∀ k, (s k).speed = v)
    (h : ∀ k, render e (data k) false (fuel k) (s k) = some (.ok (s (k + 1)))) :
    Tendsto (fun k => (((s k).frames - (s 0).frames : ℝ) * c) / (k * e.dt)) atTop (𝓝 (1 / v)) := by
  have hp' := fun k => pace e hdt (fun n => by rw [hcost]; exact hc.le) hp data fuel s ⟨⟨ht, by rw [hspeed]; exact hv⟩, h0⟩ hl h k
  -- the estimate of the time per frame
  have htpr : ∀ k, (s 0).frames ≤ (s k).frames ∧ (s k).tpr - c = 0.9 ^ ((s k).frames - (s 0).frames) * ((s 0).tpr - c) := by
    intro k
    induction k with
    | zero => simp
    | succ k ih =>
      have hk := h k
      rw [render_running e (data k) false (fuel k) (s k) (hp' k).1.2] at hk
      refine drawLoop_inv (P := fun x => (s 0).frames ≤ x.frames ∧ x.tpr - c = 0.9 ^ (x.frames - (s 0).frames) * ((s 0).tpr - c)) e (data k) (fun a b hab hi => ?_) (fuel k) _ _ (by exact ih) hk
      obtain ⟨-, -, -, k4, -, k6, -⟩ := inner_kept e (data k) a b hi
      obtain ⟨-, -, p3, p4, -, -⟩ := setCamera_paused e b
      simp only [p3, p4, k4, k6, hcost]
      refine ⟨by omega, ?_⟩
      rw [Nat.sub_add_comm hab.1, pow_succ]
      linear_combination 0.9 * hab.2
  have hM : ∀ k, (s k).tpr ≤ max (s 0).tpr c := by
    intro k
    have h1 := (htpr k).2
    have h2 : (0.9 : ℝ) ^ ((s k).frames - (s 0).frames) ≤ 1 := pow_le_one₀ (by norm_num) (by norm_num)
    have h3 : (0 : ℝ) ≤ 0.9 ^ ((s k).frames - (s 0).frames) := by positivity
    rcases le_total (s 0).tpr c with h4 | h4
    · rw [max_eq_right h4]; nlinarith
    · rw [max_eq_left h4]; nlinarith
  set M := max (s 0).tpr c with hMdef
  have hMpos : 0 < M := lt_max_of_lt_left ht
  have hsum : ∀ k, ((s k).frames : ℝ) - (s 0).frames = (s 0).loop - (s k).loop + ∑ i ∈ Finset.range k, e.dt / ((s i).tpr * v) := by
    intro k
    have := (hp' k).2.2
    simp only [hspeed] at this
    linarith
  -- there are more and more frames
  have hgrow : Tendsto (fun k => (s k).frames - (s 0).frames) atTop atTop := by
    rw [← tendsto_natCast_atTop_iff (R := ℝ)]
    refine tendsto_atTop_mono (f := fun k : ℕ => (k : ℝ) * (e.dt / (M * v)) - 1) (fun k => ?_) ?_
    · rw [Nat.cast_sub (htpr k).1, hsum k]
      have h1 : ∑ i ∈ Finset.range k, e.dt / ((s i).tpr * v) ≥ ∑ _i ∈ Finset.range k, e.dt / (M * v) :=
        Finset.sum_le_sum fun i _ => by
          have := (hp' i).1.1.1
          exact div_le_div_of_nonneg_left hdt.le (mul_pos this hv) (mul_le_mul_of_nonneg_right (hM i) hv.le)
      rw [Finset.sum_const, Finset.card_range, nsmul_eq_mul] at h1
      linarith [hl.1, (hp' k).2.1.2]
    · exact tendsto_atTop_add_const_right _ _ (tendsto_natCast_atTop_atTop.atTop_mul_const (by positivity))
  have hlim : Tendsto (fun k => (s k).tpr) atTop (𝓝 c) := by
    have h1 := (tendsto_pow_atTop_nhds_zero_of_lt_one (r := (0.9 : ℝ)) (by norm_num) (by norm_num)).comp hgrow
    have h2 := (h1.mul_const ((s 0).tpr - c)).add_const c
    rw [zero_mul, zero_add] at h2
    refine h2.congr fun k => ?_
    have := (htpr k).2
    simp only [Function.comp_apply]
    linarith
  have ha : Tendsto (fun k => e.dt / ((s k).tpr * v)) atTop (𝓝 (e.dt / (c * v))) := tendsto_const_nhds.div (hlim.mul_const v) (by positivity)
  have hces := ha.cesaro
  have hrest : Tendsto (fun k : ℕ => ((s 0).loop - (s k).loop) * (k : ℝ)⁻¹) atTop (𝓝 0) := by
    refine squeeze_zero_norm (a := fun k : ℕ => 1 * (k : ℝ)⁻¹) (fun k => ?_) (by simpa using tendsto_inv_atTop_nhds_zero_nat (𝕜 := ℝ))
    rw [norm_mul, Real.norm_eq_abs, norm_inv, Real.norm_natCast]
    refine mul_le_mul_of_nonneg_right ?_ (by positivity)
    rw [abs_le]
    constructor <;> linarith [hl.1, hl.2, (hp' k).2.1.1, (hp' k).2.1.2]
  have := (hrest.add hces).mul_const (c / e.dt)
  have hv' : (0 + e.dt / (c * v)) * (c / e.dt) = 1 / v := by field_simp; ring
  rw [hv'] at this
  refine this.congr fun k => ?_
  rw [hsum k]
  rcases Nat.eq_zero_or_pos k with rfl | hk
  · simp
  · have : (0 : ℝ) < k := by exact_mod_cast hk
    generalize ∑ i ∈ Finset.range k, e.dt / ((s i).tpr * v) = S
    field_simp

/-! ### Calls that return -/

/-- The window is not closed and no key stands for a group that does not exist. -/
def Harmless (e : Env) : Prop := e.headless = true ∨ ∀ n, (e.tape n).close = false ∧ ∀ k, presses (.digit k) (e.tape n).events = 0

theorem poll_ok (e : Env) (size : ℕ × ℕ) (evs : List Event) (h : ∀ k, presses (.digit k) evs = 0) (s : St D) : ∃ s', poll e size evs s = .ok s' := by
  induction evs generalizing s with
  | nil => exact ⟨s, rfl⟩
  | cons ev evs ih =>
    have h1 : ∀ k, presses (.digit k) evs = 0 ∧ ev.isKey (.digit k) = false := by
      intro k
      have := h k
      rw [presses_cons] at this
      refine ⟨by omega, ?_⟩
      by_contra hc
      rw [Bool.not_eq_false] at hc
      simp [hc] at this
    have : ∃ s1, handle e size s ev = .ok s1 := by
      cases ev with
      | button l r m pos => exact ⟨_, rfl⟩
      | scroll dy => exact ⟨_, rfl⟩
      | move pos shift => exact ⟨_, rfl⟩
      | key k rel =>
        rw [handle, keyboard.eq_def]
        cases rel with
        | false => exact ⟨_, rfl⟩
        | true =>
          simp only [Bool.not_true, Bool.false_eq_true, if_false]
          cases k with
          | digit n => have := (h1 n).2; simp [Event.isKey] at this
          | space | c | t | e | h | other | s | f | tab => exact ⟨_, rfl⟩
    obtain ⟨s1, hs1⟩ := this
    rw [poll, hs1]
    exact ih (fun k => (h1 k).1) s1

theorem inner_ok (e : Env) (he : Harmless e) (data : D) (s : St D) : ∃ s', inner e data s = .ok s' := by
  unfold inner
  rcases he with he | he
  · simp only [he, if_true]
    exact ⟨_, rfl⟩
  · by_cases hh : e.headless = true
    · simp only [hh, if_true]
      exact ⟨_, rfl⟩
    · simp only [hh, if_false, Bool.false_eq_true]
      obtain ⟨s1, hs1⟩ := poll_ok e (e.tape s.frames).size (e.tape s.frames).events (he s.frames).2
        { s with viewport := (e.tape s.frames).size, shots := s.shots ++ [⟨data, s.camera, s.opt, (e.tape s.frames).size, if (false || s.hide) = true then none else some (overlayOf s)⟩] }
      rw [hs1]
      simp only [(he s.frames).1, Bool.false_eq_true, if_false]
      exact ⟨_, rfl⟩

theorem drawLoop_ok (e : Env) (he : Harmless e) (data : D) (fuel : ℕ) (s : St D) (hf : ⌈s.loop⌉₊ ≤ fuel) : ∃ s', drawLoop e data fuel s = some (.ok s') := by
  induction fuel generalizing s with
  | zero =>
    rw [drawLoop_zero, if_neg (not_lt.2 (Nat.ceil_eq_zero.1 (Nat.le_zero.1 hf)))]
    exact ⟨s, rfl⟩
  | succ fuel ih =>
    rw [drawLoop_succ]
    split
    · obtain ⟨s1, hs1⟩ := inner_ok e he data s
      rw [hs1]
      refine ih _ ?_
      obtain ⟨-, -, -, -, k5, -⟩ := inner_kept e data s s1 hs1
      obtain ⟨-, p2, -⟩ := setCamera_paused e s1
      simp only [p2, k5, Nat.ceil_sub_one]
      omega
    · exact ⟨s, rfl⟩

/-- **C155**, calls return: without a pause every call of `render` returns, unless the window is closed or the key of a group that does not exist is used. -/
theorem C155_returns_partial (e : Env) (he : Harmless e) (data : D) (record : Bool) (s : St D) (hs : s.paused = false) : ∃ fuel s', render e data record fuel s = some (.ok s') := by
  refine ⟨⌈(if record then 1 else s.loop + e.dt / (s.tpr * s.speed))⌉₊, ?_⟩
  rw [render_running e data record _ s hs]
  exact drawLoop_ok e he data _ _ le_rfl

/-- **C155**, calls return. A viewer without a window that starts paused never returns from `render`: there is no keyboard to end the pause. -/
theorem C155_returns_refuted (e : Env) (he : Complete e) (hh : e.headless = true) (cam0 : Camera) (opt0 : Opt) (size : ℕ × ℕ) (d : String) (hide : Option Bool) (startup : Option (List ℕ)) (s : St D)
    (h0 : init e cam0 opt0 size true d hide startup = .ok s) (data : D) (record : Bool) (fuel : ℕ) : render e data record fuel s = none := by
  have hp := (init_good he h0).2.1
  have : ∀ (fuel : ℕ) (s : St D), s.paused = true → pauseLoop e data fuel s = none := by
    intro fuel
    induction fuel with
    | zero => intro s hs; rw [pauseLoop_zero, hs]; rfl
    | succ fuel ih =>
      intro s hs
      obtain ⟨s1, hs1⟩ := inner_ok e (.inl hh) data s
      rw [pauseLoop_succ, hs, hs1]
      exact ih s1 ((inner_paused e (.inl hh) data s s1 hs1).trans hs)
  rw [render, this fuel s hp]

/-- **C155**, cameras. TAB changes the target only; during a pause the frames keep the camera that was in use before, whatever keys are used. -/
theorem C155_pause (e : Env) (hq : ∀ n, ∀ ev ∈ (e.tape n).events, ev.isMouse = false) (data : D) (fuel : ℕ) (s s' : St D) (h : pauseLoop e data fuel s = some (.ok s')) :
    ∃ shots, s'.shots = s.shots ++ shots ∧ ∀ shot ∈ shots, shot.camera = s.camera ∧ shot.data = data := by
  induction fuel generalizing s with
  | zero =>
    rw [pauseLoop_zero] at h
    split at h
    · cases h
    · cases h; exact ⟨[], by simp, by simp⟩
  | succ fuel ih =>
    rw [pauseLoop_succ] at h
    split at h
    · cases hi : inner e data s with
      | error err => rw [hi] at h; cases h
      | ok s1 =>
        rw [hi] at h
        obtain ⟨-, -, -, -, -, -, -, k8, v, k9⟩ := inner_kept e data s s1 hi
        obtain ⟨shots, h1, h2⟩ := ih s1 h
        have hc := k8 (.inr (hq _))
        refine ⟨⟨data, s.camera, s.opt, v, if e.headless || s.hide then none else some (overlayOf s)⟩ :: shots, by rw [h1, k9]; simp, fun shot hs => ?_⟩
        rcases List.mem_cons.1 hs with rfl | hs
        · exact ⟨rfl, rfl⟩
        · exact ⟨(h2 shot hs).1.trans hc, (h2 shot hs).2⟩
    · cases h; exact ⟨[], by simp, by simp⟩

/-! ### A concrete case -/

/-- A viewer with a window; during frame `n` the keys `keys n` are released, and each frame takes 1/100 of a second. -/
def demo (keys : ℕ → List Key) : Env :=
  ⟨1 / 50, false, defaults.foldl fillType [], fun _ _ _ c => c, fun n => ⟨(keys n).map fun k => .key k true, 1 / 100, (640, 480), false⟩⟩

theorem demo_complete (keys : ℕ → List Key) : Complete (demo keys) := ⟨[], by rw [assertParams, if_pos (by simp [known])]; rfl⟩

theorem demo_gentle (keys : ℕ → List Key) : Gentle (demo keys) := fun _ _ _ _ => ⟨rfl, rfl, rfl⟩

theorem demo_quiet (keys : ℕ → List Key) (i : ℕ) : Quiet (demo keys) i := .inr fun n _ ev hev => by
  obtain ⟨k, -, rfl⟩ := List.mem_map.1 hev
  rfl

/-- The default camera and options of MuJoCo. -/
def cam0 : Camera := ⟨false, -1, -1, [1], [0], [0], [0, 0, 0]⟩

def opt0 : Opt := ⟨false, false, false, false, [true, true, true, false, false, false]⟩

theorem demo_init (keys : ℕ → List Key) (paused : Bool) : ∃ s : St ℕ, init (demo keys) cam0 opt0 (640, 480) paused "static" none none = .ok s :=
  ⟨_, by rw [init, if_pos (by simp [modes])]⟩

/-- TAB is released during the first frame: the second one follows the model. -/
example : ∃ (s0 s : St ℕ) (fuel : ℕ), init (demo fun n => if n = 0 then [.tab] else []) cam0 opt0 (640, 480) false "static" none none = .ok s0 ∧
    session (demo fun n => if n = 0 then [.tab] else []) fuel [(7, true), (8, true)] s0 = some (.ok s) ∧ s.shots.length = 2 ∧ ∀ shot, s.shots[1]? = some shot →
      shot.camera.tracking = true ∧ shot.camera.distance = [7 / 2] := by
  set keys : ℕ → List Key := fun n => if n = 0 then [.tab] else [] with hkeys
  have hev : ∀ n, (demo keys |>.tape n).events = if n = 0 then [.key .tab true] else [] := by
    intro n
    simp only [demo, hkeys]
    split <;> rfl
  have hharm : Harmless (demo keys) := .inr fun n => ⟨rfl, fun k => by rw [hev]; split <;> simp [presses, Event.isKey]⟩
  have hnp : NoPause (demo keys) := .inr fun n => by rw [hev]; split <;> simp [presses, Event.isKey]
  obtain ⟨s0, h0⟩ := demo_init keys false
  obtain ⟨-, p0, l0, f0, -⟩ := init_good (demo_complete keys) h0
  obtain ⟨s1, h1⟩ := drawLoop_ok (demo keys) hharm 7 1 { s0 with loop := 1 } (by simp)
  rw [show ({ s0 with loop := 1 } : St ℕ) = { s0 with loop := if true then 1 else s0.loop + (demo keys).dt / (s0.tpr * s0.speed) } from rfl, ← render_running _ 7 true 1 s0 p0] at h1
  have p1 : s1.paused = false := by
    have := h1
    rw [render_running _ 7 true 1 s0 p0] at this
    refine drawLoop_inv (P := fun s => s.paused = false) (demo keys) 7 (fun a b hab hi => ?_) 1 _ s1 (by exact p0) this
    exact (setCamera_paused _ b).1.trans ((inner_paused _ hnp 7 a b hi).trans hab)
  obtain ⟨s2, h2⟩ := drawLoop_ok (demo keys) hharm 8 1 { s1 with loop := 1 } (by simp)
  rw [show ({ s1 with loop := 1 } : St ℕ) = { s1 with loop := if true then 1 else s1.loop + (demo keys).dt / (s1.tpr * s1.speed) } from rfl, ← render_running _ 8 true 1 s1 p1] at h2
  have hs : session (demo keys) 1 [(7, true), (8, true)] s0 = some (.ok s2) := by
    rw [session, h1]
    simp only
    rw [session, h2]
    rfl
  obtain ⟨c1, c2⟩ := C155_camera_partial (demo keys) (demo_complete keys) (demo_gentle keys) hnp cam0 opt0 (640, 480) "static" none none s0 s2 h0 _ 1 hs
  have f2 : s2.frames = 2 := by rw [(C155_record _ _ _ _ _ p1 h2).1, (C155_record _ _ _ _ _ p0 h1).1, f0]
  refine ⟨s0, s2, 1, h0, hs, by rw [c1, f2], fun shot hshot => ?_⟩
  obtain ⟨d1, -, d3⟩ := c2 1 shot hshot
  have ht : tabs (demo keys) 1 = 1 := by
    rw [tabs, if_neg (by simp [demo])]
    simp [hev, presses, Event.isKey]
  have hm : nth (["static", "follow", "top_static"].idxOf "static" + tabs (demo keys) 1) = "follow" := by rw [ht]; simp [nth, List.idxOf, List.findIdx, List.findIdx.go]
  rw [hm] at d1 d3
  refine ⟨d1.2 rfl, ?_⟩
  obtain ⟨ps, e1, e2, -⟩ := d3 (demo_quiet keys 1)
  have e1' : (defaults.foldl fillType []).lookup "follow" = some ps := e1
  rw [fill_lookup _ (by simp [defaults])] at e1'
  simp only [defaults, List.lookup, String.reduceBEq, Option.some.injEq] at e1'
  subst e1'
  simpa [List.lookup] using e2.symm

theorem inner_space (e : Env) (hh : e.headless = false) (data : D) (s s' : St D) (h : inner e data s = .ok s') :
    s'.paused = (s.paused ^^ decide (presses .space (e.tape s.frames).events % 2 = 1)) := by
  obtain ⟨v, s1, rfl, h1⟩ := inner_spec e data s s' h
  simp only [hh, Bool.false_eq_true, if_false] at h1
  exact (C155_keys _ _ _ _ _ h1).1

/-- **C155**, cameras. A viewer starts paused; TAB is released in the first frame, SPACE in the third one. The second and the third frame still show the static camera. -/
theorem C155_camera_refuted : ∃ (e : Env) (s0 s : St ℕ), Complete e ∧ Gentle e ∧ init e cam0 opt0 (640, 480) true "static" none none = .ok s0 ∧ pauseLoop e 7 3 s0 = some (.ok s) ∧
    s.shots.length = 3 ∧ tabs e 1 = 1 ∧ tabs e 2 = 1 ∧ s.target = "follow" ∧ ∀ shot ∈ s.shots, shot.camera.tracking = false := by
  set keys : ℕ → List Key := fun n => if n = 0 then [.tab] else if n = 2 then [.space] else [] with hkeys
  have hev : ∀ n, (demo keys |>.tape n).events = if n = 0 then [.key .tab true] else if n = 2 then [.key .space true] else [] := by
    intro n
    simp only [demo, hkeys]
    split
    · rfl
    · split <;> rfl
  have hharm : Harmless (demo keys) := .inr fun n => ⟨rfl, fun k => by
    rw [hev]
    split
    · simp [presses, Event.isKey]
    · split <;> simp [presses, Event.isKey]⟩
  obtain ⟨s0, h0⟩ := demo_init keys true
  obtain ⟨g0, p0, -, f0, -⟩ := init_good (demo_complete keys) h0
  obtain ⟨s1, h1⟩ := inner_ok (demo keys) hharm 7 s0
  obtain ⟨s2, h2⟩ := inner_ok (demo keys) hharm 7 s1
  obtain ⟨s3, h3⟩ := inner_ok (demo keys) hharm 7 s2
  have i1 := inner_kept _ _ _ _ h1
  have i2 := inner_kept _ _ _ _ h2
  have i3 := inner_kept _ _ _ _ h3
  have f1 : s1.frames = 1 := by rw [i1.2.2.2.1, f0]
  have f2 : s2.frames = 2 := by rw [i2.2.2.2.1, f1]
  have t0 : tabs (demo keys) 0 = 0 := by rw [tabs, if_neg (by simp [demo])]; simp
  have t1 : tabs (demo keys) 1 = 1 := by rw [tabs, if_neg (by simp [demo])]; simp [hev, presses, Event.isKey]
  have t2 : tabs (demo keys) 2 = 1 := by rw [tabs, if_neg (by simp [demo])]; simp [hev, presses, Event.isKey, List.range_succ]
  have q1 : s1.paused = true := by rw [inner_space _ rfl _ _ _ h1, p0, f0, hev]; simp [presses, Event.isKey]
  have q2 : s2.paused = true := by rw [inner_space _ rfl _ _ _ h2, q1, f1, hev]; simp [presses]
  have q3 : s3.paused = false := by rw [inner_space _ rfl _ _ _ h3, q2, f2, hev]; simp [presses, Event.isKey]
  have hl : pauseLoop (demo keys) 7 3 s0 = some (.ok s3) := by
    rw [pauseLoop_succ, p0, if_pos rfl, h1]
    simp only
    rw [pauseLoop_succ, q1, if_pos rfl, h2]
    simp only
    rw [pauseLoop_succ, q2, if_pos rfl, h3]
    simp only
    rw [pauseLoop_zero, q3, if_neg (by simp)]
  have hidx : modes.idxOf "static" = 0 := by simp [modes, List.idxOf, List.findIdx, List.findIdx.go]
  have z0 : s0.shots = [] := List.length_eq_zero_iff.1 (g0.len.trans f0)
  refine ⟨demo keys, s0, s3, demo_complete keys, demo_gentle keys, h0, hl, ?_, t1, t2, ?_, ?_⟩
  · obtain ⟨v1, w1⟩ := i1.2.2.2.2.2.2.2.2
    obtain ⟨v2, w2⟩ := i2.2.2.2.2.2.2.2.2
    obtain ⟨v3, w3⟩ := i3.2.2.2.2.2.2.2.2
    rw [w3, w2, w1, z0]
    rfl
  · have a0 : s0.it = 0 + 1 := by rw [g0.it, f0, t0, hidx]
    have b0 : s0.target = nth 0 := by rw [g0.target, f0, t0, hidx]
    have c0 : tabsOf (demo keys) s0.frames = 1 := by rw [f0, tabsOf, if_neg (by simp [demo]), hev]; simp [presses, Event.isKey]
    have c1 : tabsOf (demo keys) s1.frames = 0 := by rw [f1, tabsOf, if_neg (by simp [demo]), hev]; simp [presses]
    have c2 : tabsOf (demo keys) s2.frames = 0 := by rw [f2, tabsOf, if_neg (by simp [demo]), hev]; simp [presses, Event.isKey]
    have b1 := i1.2.1 0 a0 b0
    have a1 := i1.1
    rw [c0] at a1 b1
    have b2 := i2.2.1 1 (by rw [a1, a0]) b1
    have a2 := i2.1
    rw [c1] at a2 b2
    have b3 := i3.2.1 1 (by rw [a2, a1, a0]) b2
    rw [c2] at b3
    exact b3
  · obtain ⟨shots, h4, h5⟩ := C155_pause (demo keys) (fun n ev hev => by obtain ⟨k, -, rfl⟩ := List.mem_map.1 hev; rfl) 7 3 s0 s3 hl
    intro shot hs
    rw [h4, z0, List.nil_append] at hs
    rw [(h5 shot hs).1]
    have := g0.typ.1
    rw [f0, t0, hidx] at this
    rw [← Bool.not_eq_true]
    exact fun hc => absurd (this.1 hc) (by simp [nth])

/-- With no keys at all: frames of 1/100 of a second, so about two for each step of 1/50 of a second. -/
example : ∃ s : ℕ → St ℕ, init (demo fun _ => []) cam0 opt0 (640, 480) false "static" none none = .ok (s 0) ∧
    (∀ k, ∃ fuel, render (demo fun _ => []) k false fuel (s k) = some (.ok (s (k + 1)))) ∧
    (∀ k, (s k).frames = ⌈∑ i ∈ Finset.range k, (1 / 50 : ℝ) / ((s i).tpr * (s i).speed)⌉₊) ∧
    Filter.Tendsto (fun k => (((s k).frames - (s 0).frames : ℝ) * (1 / 100)) / (k * (1 / 50))) Filter.atTop (nhds (1 / 1)) := by
  set e := demo fun _ => [] with he
  have hharm : Harmless e := .inr fun n => ⟨rfl, fun k => rfl⟩
  have hnp : NoPause e := .inr fun n => rfl
  obtain ⟨s0, h0⟩ := demo_init (fun _ => []) false
  obtain ⟨-, p0, l0, f0, t0, v0, -⟩ := init_good (demo_complete _) h0
  have hstep : ∀ (k : ℕ) (s : {s : St ℕ // s.paused = false ∧ s.speed = 1}), ∃ s' : {s : St ℕ // s.paused = false ∧ s.speed = 1}, ∃ fuel, render e k false fuel s.1 = some (.ok s'.1) := by
    intro k s
    obtain ⟨fuel, s', h⟩ := C155_returns_partial e hharm k false s.1 s.2.1
    refine ⟨⟨s', ?_⟩, fuel, h⟩
    rw [render_running e k false fuel s.1 s.2.1] at h
    refine drawLoop_inv (P := fun s => s.paused = false ∧ s.speed = 1) e k (fun a b hab hi => ?_) fuel _ s' (by exact s.2) h
    obtain ⟨q1, -, -, -, q5, -⟩ := setCamera_paused e b
    simp only [q1, q5]
    refine ⟨(inner_paused e hnp k a b hi).trans hab.1, ?_⟩
    obtain ⟨v, s1, rfl, hs1⟩ := inner_spec e k a b hi
    have hs1' := hs1
    simp only [he, demo, Bool.false_eq_true, if_false, List.map_nil, poll] at hs1'
    cases hs1'
    exact hab.2
  choose next hnext using hstep
  let t : ℕ → {s : St ℕ // s.paused = false ∧ s.speed = 1} := fun k => Nat.rec ⟨s0, p0, v0⟩ (fun k s => next k s) k
  have hrun : ∀ k, ∃ fuel, render e k false fuel (t k).1 = some (.ok (t (k + 1)).1) := fun k => hnext k (t k)
  have hr := hrun
  choose fuel hfuel using hr
  refine ⟨fun k => (t k).1, h0, hrun, ?_, ?_⟩
  · exact C155_pace e (demo_complete _) (by norm_num [he, demo]) (fun n => by norm_num [he, demo]) hnp cam0 opt0 (640, 480) "static" none none (fun k => k) fuel (fun k => (t k).1) h0 hfuel
  · exact C155_realtime (c := 1 / 100) e (by norm_num [he, demo]) (by norm_num) one_pos (fun n => rfl) hnp (fun k => k) fuel (fun k => (t k).1) (by show 0 < s0.tpr; rw [t0]; norm_num) p0
      ⟨by show -1 < s0.loop; rw [l0]; norm_num, by show s0.loop ≤ 0; rw [l0]⟩ (fun k => (t k).2.2) hfuel

/-! ### The picture around the scene -/

/-- **C155**, menu. Every frame that is drawn shows the camera, the options and the data of this moment. The menu is drawn exactly if there is a window and the menu is not hidden, and it
tells the current camera mode, speed, frame rate and whether contacts are shown. With a window the frame has its current size. If the window was closed the program ends. -/
theorem C155_menu (e : Env) (data : D) (s : St D) :
    (∀ s', inner e data s = .ok s' → ∃ shot : Shot D, s'.shots = s.shots ++ [shot] ∧ shot.data = data ∧ shot.camera = s.camera ∧ shot.opt = s.opt ∧
      shot.viewport = (if e.headless then s.viewport else (e.tape s.frames).size) ∧
      (shot.overlay = none ↔ e.headless = true ∨ s.hide = true) ∧
      ∀ o, shot.overlay = some o → o.mode = s.mode ∧ o.speed = s.speed ∧ o.contact = s.opt.contactForce ∧ o.framerate = ⌊1 / s.tpr * s.speed⌋) ∧
    (e.headless = false → (e.tape s.frames).close = true → (e.tape s.frames).events = [] → inner e data s = .error .exit) := by
  have hpoll : ∀ (size : ℕ × ℕ) (evs : List Event) (s s' : St D), poll e size evs s = .ok s' → s'.shots = s.shots := by
    intro size evs
    induction evs with
    | nil => intro s s' h; cases h; rfl
    | cons ev evs ih =>
      intro s s' h
      rw [poll] at h
      cases hh : handle e size s ev with
      | error err => rw [hh] at h; cases h
      | ok s1 =>
        rw [hh] at h
        rw [ih s1 s' h]
        cases ev with
        | key k r =>
          rw [handle, keyboard.eq_def] at hh
          split at hh
          · cases hh; rfl
          · cases k <;> simp only at hh <;> first | (cases hh; rfl) | (split at hh <;> cases hh; rfl)
        | button l r m pos => cases hh; rfl
        | move pos shift =>
          rw [handle, mouseMove] at hh
          split at hh <;> cases hh <;> rfl
        | scroll dy => cases hh; rfl
  constructor
  · intro s' h
    refine ⟨⟨data, s.camera, s.opt, if e.headless then s.viewport else (e.tape s.frames).size, if e.headless || s.hide then none else some (overlayOf s)⟩, ?_, rfl, rfl, rfl, rfl, ?_, ?_⟩
    · unfold inner at h
      cases hd : e.headless with
      | true => simp only [hd, if_true] at h; cases h; simp
      | false =>
        simp only [hd, Bool.false_eq_true, if_false] at h
        split at h
        next err hr => cases h
        next s1 hr =>
          cases h
          split at hr
          next err hr2 => cases hr
          next s2 hr2 =>
            split at hr
            · cases hr
            · cases hr
              rw [hpoll _ _ _ _ hr2]
              simp
    · cases e.headless <;> cases s.hide <;> simp
    · intro o ho
      dsimp only at ho
      split at ho
      · cases ho
      · cases ho; exact ⟨rfl, rfl, rfl, rfl⟩
  · intro h1 h2 h3
    unfold inner
    simp [h1, h2, h3, poll]

/-- **C155**, menu. At the start the menu is hidden if the user asks for it; by default it is hidden exactly if there is no window. -/
theorem C155_hidden (e : Env) (cam0 : Camera) (opt0 : Opt) (size : ℕ × ℕ) (paused : Bool) (d : String) (hide : Option Bool) (startup : Option (List ℕ)) (s : St D)
    (h : init e cam0 opt0 size paused d hide startup = .ok s) : s.hide = hide.getD e.headless := by
  have hc : ∀ s : St D, (setCamera e s).hide = s.hide := by
    intro s
    unfold setCamera setProperties
    split
    · split <;> rfl
    · split
      · split <;> rfl
      · split
        · split <;> rfl
        · rfl
  unfold init at h
  split at h
  · cases h
    change (setCamera e _).hide = _
    rw [hc]
    cases hide <;> rfl
  · cases h

/-- **C155**, wheel. A turn of the wheel zooms by a twentieth of it and does nothing else; it works without a button. -/
theorem C155_scroll (e : Env) (size : ℕ × ℕ) (s : St D) (dy : ℝ) :
    ∃ s', handle e size s (.scroll dy) = .ok s' ∧ s'.moves = s.moves ++ [(.zoom, 0, dy / 20)] ∧ s'.camera = e.moveCamera .zoom 0 (dy / 20) s.camera ∧ s'.last = s.last ∧ s'.opt = s.opt := by
  have : (0.05 : ℝ) * dy = dy / 20 := by norm_num; ring
  exact ⟨_, rfl, by simp only [scroll, moveCamera, this], by simp only [scroll, moveCamera, this], rfl, rfl⟩

/-- The hypothesis of `C155_keys`: SPACE and F released, TAB pressed but not released. -/
example (e : Env) (size : ℕ × ℕ) (s : St D) : ∃ s', poll e size [.key .space true, .key .f true, .key .tab false] s = .ok s' ∧ s'.paused = !s.paused ∧ s'.speed = s.speed * 2 ∧ s'.target = s.target :=
  ⟨_, rfl, rfl, rfl, rfl⟩

end

end Verif.View
