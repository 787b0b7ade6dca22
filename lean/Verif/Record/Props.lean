/-
C126. Recording videos.
-/
import Verif.Record.Model
import Mathlib.Tactic.Linarith
import Mathlib.Tactic.FieldSimp
import Mathlib.Tactic.NormNum

namespace Verif.Record

variable {F : Type}

/-! ### Core -/

/-- The name of video number `k` of a recorder: `name.mp4`, `name-1.mp4`, `name-2.mp4`, ... -/
def videoName (name : List Char) (k : ℕ) : List Char :=
  if k = 0 then name ++ ".mp4".toList else name ++ "-".toList ++ decimal k ++ ".mp4".toList

theorem decimal_inj {a b : ℕ} (h : decimal a = decimal b) : a = b := by
  have := congrArg (fun l => Nat.ofDigitChars 10 l 0) h
  simpa [decimal] using this

theorem decimal_ne_nil (k : ℕ) : decimal k ≠ [] := by
  intro h
  have h0 := congrArg (fun l => Nat.ofDigitChars 10 l 0) h
  simp [decimal] at h0
  subst h0
  revert h
  decide

/-- Different videos of one recorder have different names. -/
theorem videoName_inj (name : List Char) {a b : ℕ} (h : videoName name a = videoName name b) : a = b := by
  unfold videoName at h
  have key : ∀ k, name ++ ".mp4".toList ≠ name ++ "-".toList ++ decimal k ++ ".mp4".toList := by
    intro k h
    have := congrArg List.length h
    simp only [List.length_append] at this
    have : "-".toList.length = 1 := by decide
    omega
  by_cases ha : a = 0 <;> by_cases hb : b = 0
  · rw [ha, hb]
  · rw [if_pos ha, if_neg hb] at h; exact absurd h (key b)
  · rw [if_neg ha, if_pos hb] at h; exact absurd h.symm (key a)
  · rw [if_neg ha, if_neg hb] at h
    have h1 := List.append_cancel_right h
    rw [List.append_assoc, List.append_assoc] at h1
    have h2 := List.append_cancel_left (List.append_cancel_left h1)
    exact decimal_inj h2

theorem next_eq (r : Recorder) : r.next = (r.dir, videoName r.name r.counter) := by
  unfold Recorder.next videoName
  by_cases h : r.counter = 0
  · simp [h]
  · simp [h, Nat.pos_of_ne_zero h]

theorem record_open (shape : F → ℕ × ℕ) (sh : ℕ × ℕ) (r : Recorder) (path : Path) (hw : r.writer = some ⟨path, (sh.2, sh.1)⟩) :
    ∀ (fs : List F), (∀ f ∈ fs, shape f = sh) → ∀ (disk : Disk F) (old : List F), disk path = some old →
      ∃ disk', record shape (r, disk) (fs.map some) = .ok (r, disk') ∧ disk' path = some (old ++ fs) ∧
        ∀ p, p ≠ path → disk' p = disk p := by
  intro fs
  induction fs with
  | nil => intro _ disk old h; exact ⟨disk, rfl, by simpa using h, fun _ _ => rfl⟩
  | cons f fs ih =>
      intro hs disk old h
      have hf : shape f = sh := hs f (by simp)
      obtain ⟨disk', h1, h2, h3⟩ := ih (fun g hg => hs g (by simp [hg]))
        (fun p => if p = path then (disk p).map (· ++ [f]) else disk p) (old ++ [f]) (by simp [h])
      refine ⟨disk', ?_, by simpa using h2, fun p hp => by rw [h3 p hp, if_neg hp]⟩
      simp only [List.map_cons, record, call, hw, Writer.write, hf, if_true]
      exact h1

/-- One recorded call. -/
theorem run_ok (shape : F → ℕ × ℕ) (r : Recorder) (hr : r.writer = none) (disk : Disk F) (fs : List F) (hne : fs ≠ [])
    (hs : ∀ f ∈ fs, ∀ g ∈ fs, shape f = shape g) :
    ∃ disk', run shape true true (r, disk) (fs.map some) = .ok ({ r with counter := r.counter + 1 }, disk') ∧
      disk' r.next = some fs ∧ ∀ p, p ≠ r.next → disk' p = disk p := by
  obtain ⟨f, fs, rfl⟩ := List.exists_cons_of_ne_nil hne
  obtain ⟨disk', h1, h2, h3⟩ := record_open shape (shape f) { r with writer := some ⟨r.next, ((shape f).2, (shape f).1)⟩ } r.next rfl
    fs (fun g hg => hs g (by simp [hg]) f (by simp)) (fun p => if p = r.next then some [f] else disk p) [f] (by simp)
  refine ⟨disk', ?_, h2, fun p hp => by rw [h3 p hp, if_neg hp]⟩
  have hc : call shape (r, disk) (some f) = .ok ({ r with writer := some ⟨r.next, ((shape f).2, (shape f).1)⟩ },
      fun p => if p = r.next then some [f] else disk p) := by
    simp only [call, hr, Writer.write, if_true]
    congr 2
    funext p
    by_cases hp : p = r.next <;> simp [hp]
  simp only [run, Bool.and_self, Bool.true_or, if_true, List.map_cons, record, hc, h1, stop]
  rw [hr]

/-- C126. Any number of recorded calls of `learn` and `evaluate`, each with at least one step and with frames of one size:
call number `k` leaves the file `name.mp4` or `name-k.mp4` with exactly its frames, in their order. All these files are
different, and no other file is touched. -/
theorem C126_videos_partial (shape : F → ℕ × ℕ) (path clock : List Char) (tag videoArg : Option (List Char)) (disk : Disk F)
    (calls : List (List F)) (hne : ∀ fs ∈ calls, fs ≠ []) (hs : ∀ fs ∈ calls, ∀ f ∈ fs, ∀ g ∈ fs, shape f = shape g) :
    let r := Recorder.new path tag clock videoArg
    ∃ disk', runs shape calls (r, disk) = .ok ({ r with counter := calls.length }, disk') ∧
      (∀ k fs, calls[k]? = some fs → disk' (r.dir, videoName r.name k) = some fs) ∧
      (∀ a b, videoName r.name a = videoName r.name b → a = b) ∧
      (∀ p, (∀ k < calls.length, p ≠ (r.dir, videoName r.name k)) → disk' p = disk p) := by
  intro r
  have key : ∀ (calls : List (List F)), (∀ fs ∈ calls, fs ≠ []) → (∀ fs ∈ calls, ∀ f ∈ fs, ∀ g ∈ fs, shape f = shape g) →
      ∀ (c : ℕ) (disk : Disk F), ∃ disk', runs shape calls ({ r with counter := c }, disk) = .ok ({ r with counter := c + calls.length }, disk') ∧
      (∀ k fs, calls[k]? = some fs → disk' (r.dir, videoName r.name (c + k)) = some fs) ∧
      (∀ p, (∀ k < calls.length, p ≠ (r.dir, videoName r.name (c + k))) → disk' p = disk p) := by
    intro calls
    induction calls with
    | nil => intro _ _ c disk; exact ⟨disk, rfl, by simp, fun _ _ => rfl⟩
    | cons fs rest ih =>
        intro hne hs c disk
        obtain ⟨d1, e1, e2, e3⟩ := run_ok shape { r with counter := c } rfl disk fs (hne fs (by simp)) (hs fs (by simp))
        rw [next_eq] at e2 e3
        obtain ⟨d2, g1, g2, g3⟩ := ih (fun gs h => hne gs (by simp [h])) (fun gs h => hs gs (by simp [h])) (c + 1) d1
        refine ⟨d2, ?_, ?_, ?_⟩
        · simp only [runs, e1, g1, List.length_cons, Except.ok.injEq, Prod.mk.injEq, and_true]
          rw [show c + 1 + rest.length = c + (rest.length + 1) by omega]
        · intro k gs hk
          cases k with
          | zero =>
              simp only [List.getElem?_cons_zero, Option.some.injEq] at hk
              subst hk
              rw [Nat.add_zero, g3]
              · exact e2
              · intro k _ h
                have := videoName_inj _ (Prod.mk.inj h).2
                omega
          | succ k =>
              have := g2 k gs (by simpa using hk)
              rwa [show c + 1 + k = c + (k + 1) by omega] at this
        · intro p hp
          rw [g3 p (fun k hk => by
            have := hp (k + 1) (by simp; omega)
            rwa [show c + (k + 1) = c + 1 + k by omega] at this)]
          exact e3 p (by simpa using hp 0 (by simp))
  obtain ⟨disk', h1, h2, h3⟩ := key calls hne hs 0 disk
  simp only [Nat.zero_add] at h1 h2 h3
  exact ⟨disk', h1, h2, fun a b h => videoName_inj _ h, h3⟩

example : (∀ fs ∈ [[1, 2], [3, 4, 5]], fs ≠ []) ∧ videoName "recording".toList 2 = "recording-2.mp4".toList := by decide

/-- C126. The full claim fails when a call is left by an exception: the file stays open, and the next video starts with the
frames of the interrupted call. -/
theorem C126_interrupted_refuted (shape : F → ℕ × ℕ) (path clock : List Char) (disk : Disk F) (f g : F) (h : shape f = shape g) :
    let r := Recorder.new path none clock none
    ∃ s s', interrupted shape (r, disk) [some f] = .ok s ∧ run shape true true s [some g] = .ok s' ∧
      s'.2 (r.dir, videoName r.name 0) = some [f, g] := by
  intro r
  refine ⟨_, _, rfl, rfl, ?_⟩
  simp [Writer.write, h, next_eq, r, Recorder.new]

/-- C126. A recorded call without steps raises at its end; frames of another size than the first one are lost. -/
theorem C126_frames_refuted (shape : F → ℕ × ℕ) (path clock : List Char) (disk : Disk F) (f g : F) (h : shape f ≠ shape g) :
    let r := Recorder.new path none clock none
    run shape true true (r, disk) [] = .error .attribute ∧
    ∃ s, run shape true true (r, disk) [some f, some g] = .ok s ∧ s.2 (r.dir, videoName r.name 0) = some [f] := by
  intro r
  refine ⟨rfl, _, rfl, ?_⟩
  have hne : ¬ (((shape f).2, (shape f).1) = ((shape g).2, (shape g).1)) := by
    intro e
    apply h
    exact Prod.ext (Prod.mk.inj e).2 (Prod.mk.inj e).1
  simp only [Writer.write, if_true, if_neg hne]
  simp [next_eq, r, Recorder.new, videoName]

/-- C126. Recording needs rendering; without the flag nothing is recorded; a frame that is None is refused. -/
theorem C126_flags (shape : F → ℕ × ℕ) (s : Recorder × Disk F) (frames : List (Option F)) :
    run shape false true s frames = .error .assertion ∧
    (∀ render, run shape render false s frames = .ok s) ∧
    (∀ rest, run shape true true s (none :: rest) = .error .assertion) := by
  refine ⟨rfl, fun render => by cases render <;> rfl, fun rest => rfl⟩

/-- C126. The default frame rate is the number of steps that fit in a second, so that the video is never faster than the
environment, and it runs at the speed of the environment exactly if the steps divide the second. -/
theorem C126_fps (dt : ℝ) (h0 : 0 < dt) (h1 : dt ≤ 1) :
    ∃ k : ℕ, framesPerSecond none dt = .ok k ∧ framesPerSecond (some 0) dt = .ok k ∧ 1 ≤ k ∧ k * dt ≤ 1 ∧ 1 < (k + 1) * dt ∧
      (k * dt = 1 ↔ ∃ m : ℕ, m * dt = 1) ∧ ∀ j, framesPerSecond (some (j + 1)) dt = .ok (j + 1 : ℕ) := by
  have hpos : 0 ≤ 1 / dt := by positivity
  have hone : (1 : ℝ) ≤ 1 / dt := by rw [le_div_iff₀ h0]; linarith
  have hk0 : (1 : ℤ) ≤ ⌊1 / dt⌋ := by rw [Int.le_floor]; exact_mod_cast hone
  obtain ⟨k, hk⟩ := Int.eq_ofNat_of_zero_le (by omega : (0 : ℤ) ≤ ⌊1 / dt⌋)
  have hval : framesPerSecond none dt = .ok (k : ℤ) := by
    simp only [framesPerSecond, if_neg h0.ne', if_pos hpos, hk]
  have hle : (k : ℝ) ≤ 1 / dt := by
    have := Int.floor_le (1 / dt); rw [hk] at this; exact_mod_cast this
  have hlt : 1 / dt < (k : ℝ) + 1 := by
    have := Int.lt_floor_add_one (1 / dt); rw [hk] at this; exact_mod_cast this
  rw [le_div_iff₀ h0] at hle
  rw [div_lt_iff₀ h0] at hlt
  refine ⟨k, hval, hval, by omega, hle, hlt, ⟨fun h => ⟨k, h⟩, ?_⟩, fun j => rfl⟩
  rintro ⟨m, hm⟩
  have hm1 : (m : ℝ) * dt < (k + 1) * dt := by linarith
  have hm2 : (k : ℝ) * dt ≤ m * dt := by linarith
  have a1 : (m : ℝ) < k + 1 := lt_of_mul_lt_mul_right hm1 h0.le
  have a2 : (k : ℝ) ≤ m := le_of_mul_le_mul_right hm2 h0
  have a3 : m < k + 1 := by exact_mod_cast a1
  have a4 : k ≤ m := by exact_mod_cast a2
  rw [show k = m by omega]
  exact hm

example : (0 : ℝ) < 0.1 ∧ (0.1 : ℝ) ≤ 1 := by norm_num

/-- C126. With steps longer than a second the video has no frames per second; with `dt = 0` the experiment cannot even be
constructed, although nothing is recorded. -/
theorem C126_fps_refuted : (∀ dt : ℝ, 1 < dt → framesPerSecond none dt = .ok 0) ∧ framesPerSecond none 0 = .error .zeroDivision := by
  constructor
  · intro dt h
    have h0 : (0 : ℝ) < dt := by linarith
    simp only [framesPerSecond, if_neg h0.ne', if_pos (by positivity : (0 : ℝ) ≤ 1 / dt), Except.ok.injEq]
    rw [Int.floor_eq_iff]
    constructor
    · push_cast; positivity
    · push_cast
      rw [zero_add, div_lt_one h0]
      exact h
  · simp [framesPerSecond]

/-! ### VectorCore -/

/-- The selected environments are the first ones. -/
def Prefix (n : ℕ) (mask : ℕ → Bool) : Prop := ∀ i j, i < j → j < n → mask j = true → mask i = true

theorem filter_prefix (n : ℕ) (mask : ℕ → Bool) (h : Prefix n mask) :
    ∃ k ≤ n, (∀ i < n, mask i = true ↔ i < k) ∧ (List.range n).filter mask = List.range k := by
  induction n with
  | zero => exact ⟨0, le_refl _, by simp, by simp⟩
  | succ n ih =>
      obtain ⟨k, hk, h1, h2⟩ := ih (fun i j hij hj hm => h i j hij (by omega) hm)
      by_cases hm : mask n = true
      · have hkn : k = n := by
          by_contra hne
          have := (h1 k (by omega)).mp (h k n (by omega) (by omega) hm)
          omega
        refine ⟨n + 1, le_refl _, ?_, ?_⟩
        · intro i hi
          constructor
          · intro _; exact hi
          · intro _
            rcases Nat.lt_succ_iff_lt_or_eq.mp hi with hin | rfl
            · exact h i n hin (by omega) hm
            · exact hm
        · rw [List.range_succ, List.filter_append, h2, hkn]
          simp [hm]
      · refine ⟨k, by omega, ?_, ?_⟩
        · intro i hi
          rcases Nat.lt_succ_iff_lt_or_eq.mp hi with hin | rfl
          · exact h1 i hin
          · constructor
            · intro h; exact absurd h hm
            · intro h; omega
        · rw [List.range_succ, List.filter_append, h2]
          simp [hm]

theorem deliver_ok (mask : ℕ → Bool) (frames : List F) (frame : ℕ → F) :
    ∀ is : List ℕ, (∀ i ∈ is, mask i = true → frames[i]? = some (frame i)) →
      deliver mask frames is = ((is.filter mask).map (fun i => (i, frame i)), none) := by
  intro is
  induction is with
  | nil => intro _; rfl
  | cons i is ih =>
      intro h
      have hr := ih (fun j hj => h j (by simp [hj]))
      by_cases hm : mask i = true
      · simp [deliver, hm, h i (by simp) hm, hr]
      · simp [deliver, hm, hr]

theorem deliver_error (mask : ℕ → Bool) (frames : List F) :
    ∀ is : List ℕ, (∃ i ∈ is, mask i = true ∧ frames.length ≤ i) → (deliver mask frames is).2 = some .index := by
  intro is
  induction is with
  | nil => rintro ⟨i, hi, _⟩; simp at hi
  | cons i is ih =>
      rintro ⟨j, hj, hm, hl⟩
      by_cases hmi : mask i = true
      · cases hf : frames[i]? with
        | none => simp [deliver, hmi, hf]
        | some f =>
            rcases List.mem_cons.mp hj with rfl | hj
            · rw [List.getElem?_eq_none hl] at hf; cases hf
            · simp [deliver, hmi, hf, ih ⟨j, hj, hm, hl⟩]
      · rcases List.mem_cons.mp hj with rfl | hj
        · exact absurd hm hmi
        · simp [deliver, hmi, ih ⟨j, hj, hm, hl⟩]

/-- C126. One recorded step with several environments: as long as the selected environments are the first ones, every selected
environment's recorder receives the picture of this environment. -/
theorem C126_vector_step_partial (n : ℕ) (mask : ℕ → Bool) (frame : ℕ → F) (h : Prefix n mask) :
    recordStep n mask frame = (((List.range n).filter mask).map (fun i => (i, frame i)), none) := by
  obtain ⟨k, hk, h1, h2⟩ := filter_prefix n mask h
  apply deliver_ok
  intro i hi hm
  have hik := (h1 i (by simpa using hi)).mp hm
  simp [renderAll, h2, hik]

/-- C126. Otherwise the step raises, always. -/
theorem C126_vector_step_refuted (n : ℕ) (mask : ℕ → Bool) (frame : ℕ → F) (h : ¬ Prefix n mask) :
    (recordStep n mask frame).2 = some .index := by
  unfold Prefix at h
  push Not at h
  obtain ⟨i, j, hij, hjn, hj, hi⟩ := h
  -- the last selected environment is beyond the pictures
  have hcount : ∀ m, m ≤ n → j < m → ∃ l < m, mask l = true ∧ ((List.range m).filter mask).length ≤ l := by
    intro m
    induction m with
    | zero => intro _ h; omega
    | succ m ih =>
        intro hm hjm
        rw [List.range_succ, List.filter_append]
        by_cases hmm : mask m = true
        · refine ⟨m, by omega, hmm, ?_⟩
          have hlt : ((List.range m).filter mask).length < m := by
            have hle : ((List.range m).filter mask).length ≤ (List.range m).length := List.length_filter_le _ _
            rcases Nat.lt_or_ge ((List.range m).filter mask).length m with h | h
            · exact h
            · exfalso
              have heq : ((List.range m).filter mask).length = (List.range m).length := by
                rw [List.length_range] at hle ⊢; omega
              rw [List.length_filter_eq_length_iff] at heq
              exact hi (heq i (by simp; omega))
          simp [hmm]; omega
        · have hjm' : j < m := by
            rcases Nat.lt_succ_iff_lt_or_eq.mp hjm with h | rfl
            · exact h
            · exact absurd hj hmm
          obtain ⟨l, hl, hl1, hl2⟩ := ih (by omega) hjm'
          exact ⟨l, by omega, hl1, by simpa [hmm] using hl2⟩
  obtain ⟨l, hl, hl1, hl2⟩ := hcount n (le_refl _) hjn
  exact deliver_error _ _ _ ⟨l, by simpa using hl, hl1, by simpa [renderAll] using hl2⟩

/-- C126. Before it raises, a recorder may receive the picture of another environment. -/
theorem C126_vector_picture_refuted : ∃ (n : ℕ) (mask : ℕ → Bool), 
    recordStep n mask (fun i => i) = ([(1, 2)], some .index) :=
  ⟨3, fun i => decide (0 < i), by decide⟩

/-- C126. Masks of this kind occur: two environments, two episodes; the first environment finishes its episode and is not
started again while the second one goes on. -/
theorem C126_vector_mask_refuted : ∃ (c : Vector.Cfg) (running last : ℕ → Bool) (totE : ℕ) (mask : ℕ → Bool),
    c.n = 2 ∧ c.nEpisodes = some 2 ∧ c.perFitSteps = none ∧ c.perFitEps = none ∧ (∀ i < 2, running i = true) ∧
    (last 0 = true ∧ last 1 = false) ∧ totE = 1 ∧
    Vector.getMask c running last totE 0 = .ok mask ∧ ¬ Prefix c.n mask := by
  refine ⟨⟨2, none, none, some 2, none, none, false⟩, fun _ => true, fun i => i == 0, 1, _, rfl, rfl, rfl, rfl, fun _ _ => rfl,
    ⟨rfl, rfl⟩, rfl, rfl, ?_⟩
  intro h
  have := h 0 1 (by decide) (by decide) (by decide)
  revert this
  decide

theorem stopAll_iff (opened : ℕ → Bool) : ∀ is : List ℕ,
    (stopAll opened is = .ok () ↔ ∀ i ∈ is, opened i = true) ∧ (stopAll opened is ≠ .ok () → stopAll opened is = .error .attribute) := by
  intro is
  induction is with
  | nil => simp [stopAll]
  | cons i is ih =>
      by_cases h : opened i = true
      · simp only [stopAll, h, if_true, List.mem_cons, forall_eq_or_imp, true_and]
        exact ih
      · simp [stopAll, h]

/-- The pictures for environment `i` among the ones that are handed out. -/
theorem received (n i : ℕ) (hi : i < n) (steps : List ((ℕ → Bool) × (ℕ → F))) :
    (((steps.map (fun s => ((List.range n).filter s.1).map (fun i => (i, s.2 i)))).flatten).filter (fun p => p.1 == i)).map (·.2)
      = (steps.filter (fun s => s.1 i)).map (fun s => s.2 i) := by
  induction steps with
  | nil => rfl
  | cons s rest ih =>
      have hone : ((((List.range n).filter s.1).map (fun i => (i, s.2 i))).filter (fun p => p.1 == i)).map (·.2)
          = if s.1 i then [s.2 i] else [] := by
        have key : ∀ m, ((((List.range m).filter s.1).map (fun i => (i, s.2 i))).filter (fun p => p.1 == i)).map (·.2)
            = if i < m ∧ s.1 i = true then [s.2 i] else [] := by
          intro m
          induction m with
          | zero => simp
          | succ m ihm =>
              rw [List.range_succ, List.filter_append, List.map_append, List.filter_append, List.map_append, ihm]
              by_cases him : i = m
              · subst him
                cases hs : s.1 i <;> simp [hs]
              · have hne : ¬ m = i := fun h => him h.symm
                have hlt : (i < m + 1) ↔ i < m := by omega
                cases hs : s.1 m <;> simp [hs, hne, hlt]
        rw [key n]
        simp [hi]
      simp only [List.map_cons, List.flatten_cons, List.filter_append, List.map_append]
      rw [hone, ih, List.filter_cons]
      split <;> simp

/-- C126. A recorded run of several environments ends without an exception exactly if in every step the selected environments
are the first ones and every environment has been selected in some step. Then every recorder has received the pictures of its
environment in the steps in which this was selected, in their order. -/
theorem C126_vector_run_partial (n : ℕ) (steps : List ((ℕ → Bool) × (ℕ → F))) :
    ((vectorRun n steps).2 = none ↔ (∀ s ∈ steps, Prefix n s.1) ∧ ∀ i < n, ∃ s ∈ steps, s.1 i = true) ∧
    ((vectorRun n steps).2 = none → ∀ i < n,
      ((vectorRun n steps).1.filter (fun p => p.1 == i)).map (·.2) = (steps.filter (fun s => s.1 i)).map (fun s => s.2 i)) := by
  have hsteps : ∀ steps : List ((ℕ → Bool) × (ℕ → F)),
      ((∀ s ∈ steps, Prefix n s.1) → recordSteps n steps =
        ((steps.map (fun s => ((List.range n).filter s.1).map (fun i => (i, s.2 i)))).flatten, none)) ∧
      (¬ (∀ s ∈ steps, Prefix n s.1) → (recordSteps n steps).2 = some .index) := by
    intro steps
    induction steps with
    | nil => exact ⟨fun _ => rfl, fun h => absurd (by simp) h⟩
    | cons s rest ih =>
        obtain ⟨mask, frame⟩ := s
        constructor
        · intro h
          simp only [recordSteps, C126_vector_step_partial n mask frame (h (mask, frame) (by simp)),
            ih.1 (fun t ht => h t (by simp [ht])), List.map_cons, List.flatten_cons]
        · intro h
          by_cases hm : Prefix n mask
          · simp only [recordSteps, C126_vector_step_partial n mask frame hm]
            apply ih.2
            intro hr
            apply h
            intro t ht
            rcases List.mem_cons.mp ht with rfl | ht
            · exact hm
            · exact hr t ht
          · have := C126_vector_step_refuted n mask frame hm
            revert this
            simp only [recordSteps]
            cases recordStep n mask frame with
            | mk fs o => intro this; simp only at this; subst this; rfl
  obtain ⟨hok, hbad⟩ := hsteps steps
  by_cases hp : ∀ s ∈ steps, Prefix n s.1
  · have hr := hok hp
    set fs := (steps.map (fun s => ((List.range n).filter s.1).map (fun i => (i, s.2 i)))).flatten with hfs
    have hopen : ∀ i < n, ((fs.any fun p => p.1 == i) = true ↔ ∃ s ∈ steps, s.1 i = true) := by
      intro i hi
      rw [List.any_eq_true]
      constructor
      · rintro ⟨p, hp1, hp2⟩
        rw [hfs] at hp1
        simp only [List.mem_flatten, List.mem_map] at hp1
        obtain ⟨l, ⟨s, hs, rfl⟩, hpl⟩ := hp1
        simp only [List.mem_map, List.mem_filter] at hpl
        obtain ⟨j, ⟨_, hj⟩, rfl⟩ := hpl
        have : j = i := by simpa using hp2
        exact ⟨s, hs, this ▸ hj⟩
      · rintro ⟨s, hs, hsi⟩
        refine ⟨(i, s.2 i), ?_, by simp⟩
        rw [hfs]
        simp only [List.mem_flatten, List.mem_map]
        exact ⟨_, ⟨s, hs, rfl⟩, List.mem_map.mpr ⟨i, List.mem_filter.mpr ⟨by simpa using hi, hsi⟩, rfl⟩⟩
    have hst := stopAll_iff (fun i => fs.any fun p => p.1 == i) (List.range n)
    have h1 : (vectorRun n steps).1 = fs := by simp only [vectorRun, hr]
    constructor
    · simp only [vectorRun, hr]
      constructor
      · intro h
        refine ⟨hp, ?_⟩
        intro i hi
        have hall := hst.1.mp (by
          cases hs : stopAll (fun i => fs.any fun p => p.1 == i) (List.range n) with
          | ok _ => rfl
          | error e => rw [hs] at h; cases h)
        exact (hopen i hi).mp (hall i (by simpa using hi))
      · rintro ⟨_, h⟩
        rw [hst.1.mpr (fun i hi => (hopen i (by simpa using hi)).mpr (h i (by simpa using hi)))]
    · intro _ i hi
      rw [h1, hfs]
      exact received n i hi steps
  · have hb := hbad hp
    have h2 : (vectorRun n steps).2 = some .index := by
      revert hb
      simp only [vectorRun]
      cases recordSteps n steps with
      | mk fs o => intro h; simp only at h; subst h; rfl
    exact ⟨⟨fun h => by rw [h2] at h; (cases h), fun h => absurd h.1 hp⟩, fun h => by rw [h2] at h; cases h⟩

/-- C126. With fewer episodes than environments the first mask leaves some environment out, and unless this is selected later
the run raises at its end. -/
theorem C126_vector_idle_refuted (n ne : ℕ) (h : ne < n) : ∃ mask,
    Vector.getMask ⟨n, none, none, some ne, none, none, false⟩ (fun _ => false) (fun _ => true) 0 0 = .ok mask ∧
    mask ne = false ∧ ∀ steps : List ((ℕ → Bool) × (ℕ → F)), (∀ s ∈ steps, s.1 ne = false) → (vectorRun n steps).2 ≠ none := by
  have hc : ∀ m, Vector.cnt (fun _ => false) m = 0 := by
    intro m; induction m with
    | zero => rfl
    | succ m ih => simp [Vector.cnt, ih]
  refine ⟨fun j => decide (j < min ne n), ?_, by simp, ?_⟩
  · simp [Vector.getMask, hc]
  · intro steps hs hn
    obtain ⟨s, hm, hi⟩ := ((C126_vector_run_partial n steps).1.mp hn).2 ne h
    rw [hs s hm] at hi
    cases hi

/-- C126. All the recorders of VectorCore write to the same files: if the tag is given, or if they are built within the same
second, recorder `i` and recorder `j` have the same path. -/
theorem C126_vector_files_refuted (n : ℕ) (path : List Char) (tag : Option (List Char)) (clock : ℕ → List Char)
    (videoArg : Option (List Char)) (h : tag ≠ none ∨ ∀ i j, clock i = clock j) :
    ∀ a ∈ vectorRecorders n path tag clock videoArg, ∀ b ∈ vectorRecorders n path tag clock videoArg, a.next = b.next := by
  intro a ha b hb
  simp only [vectorRecorders, List.mem_map] at ha hb
  obtain ⟨i, _, rfl⟩ := ha
  obtain ⟨j, _, rfl⟩ := hb
  rcases h with h | h
  · obtain ⟨t, rfl⟩ := Option.ne_none_iff_exists'.mp h
    rfl
  · rw [h i j]

end Verif.Record
