/-
Property C163: what MuJoCo environments read from and write to the simulator.
-/
import Verif.Wrap.SpecMjData
import Verif.Misc.PropsObs

namespace Verif.Wrap.MjData

variable {J B S D : Type} [DecidableEq J] [DecidableEq B] [DecidableEq S]

/-! ### Reading back -/

theorem get_put (m : Model J B S D) (x : Data J B S D) (v : List ℝ) (src : Src J B S) (h : ¬ src.isVelocity) : m.get (put x v src) src = v := by
  cases src <;> simp_all [Src.isVelocity, put, Model.get]

theorem get_put_other (m : Model J B S D) (x : Data J B S D) (v : List ℝ) (src other : Src J B S) (hne : other ≠ src) (h : ¬ other.isVelocity) :
    m.get (put x v src) other = m.get x other := by
  cases src <;> cases other <;> simp_all [Src.isVelocity, put, Model.get, Function.update]

theorem writeData_put (m : Model J B S D) (x : Data J B S D) (src : Src J B S) (value : List ℝ) :
    m.writeData x src value = (assign (m.get x src) value).map fun v => put x v src := by
  cases src <;> rfl

omit [DecidableEq J] [DecidableEq B] [DecidableEq S] in
theorem assign_same {old value : List ℝ} (h : value.length = old.length) : assign old value = some value := by
  unfold assign
  rw [if_pos h]

/-- C163. What is written with `_write_data` is read back with `_read_data`, and nothing else that is stored changes, unless it is the velocity of a body. -/
theorem C163_write_partial (m : Model J B S D) (x : Data J B S D) (src : Src J B S) (value : List ℝ) (hv : ¬ src.isVelocity)
    (hlen : value.length = (m.readData x src).length) :
    ∃ y, m.writeData x src value = some y ∧ m.readData y src = value ∧
      ∀ other, other ≠ src → ¬ other.isVelocity → m.readData y other = m.readData x other := by
  refine ⟨put x value src, ?_, get_put m x value src hv, fun other hne hov => get_put_other m x value src other hne hov⟩
  rw [writeData_put, assign_same (old := m.get x src) hlen]
  rfl

/-- C163. Writing the velocity of a body does nothing at all, without an error. -/
theorem C163_write_refuted (m : Model J B S D) (x : Data J B S D) (src : Src J B S) (value : List ℝ) (hv : src.isVelocity)
    (hlen : value.length = (m.readData x src).length) : m.writeData x src value = some x := by
  rw [writeData_put, assign_same (old := m.get x src) hlen]
  cases src <;> simp_all [Src.isVelocity, put]

/-- C163. A single value is written to all the entries, and an array of any other length is rejected. -/
theorem C163_write_shape (m : Model J B S D) (x : Data J B S D) (src : Src J B S) (value : List ℝ) (hne : value.length ≠ (m.readData x src).length) :
    (value.length ≠ 1 → m.writeData x src value = none) ∧
    ∀ c, value = [c] → ¬ src.isVelocity → ∃ y, m.writeData x src value = some y ∧ m.readData y src = List.replicate (m.readData x src).length c := by
  rw [writeData_put]
  unfold assign
  rw [if_neg (show value.length ≠ (m.get x src).length from hne)]
  refine ⟨fun h1 => ?_, fun c hc hv => ?_⟩
  · match value, h1 with
    | [], _ => rfl
    | _ :: _ :: _, _ => rfl
    | [_], h1 => simp at h1
  · subst hc
    exact ⟨_, rfl, get_put m x _ src hv⟩

/-! ### What the simulation goes on from -/

omit [DecidableEq J] [DecidableEq B] [DecidableEq S] in
theorem after_joints (m : Model J B S D) {x y : Data J B S D} (h : x.joints = y.joints) (n : ℕ) : m.after (n + 1) x = m.after (n + 1) y := by
  have : m.substep x = m.substep y := by rw [Model.substep, Model.substep, h]
  rw [Model.after, Model.after, Function.iterate_succ_apply, Function.iterate_succ_apply, this]

theorem put_joints (x : Data J B S D) (v : List ℝ) (src : Src J B S) (h : ¬ src.isJoint) : (put x v src).joints = x.joints := by
  cases src <;> simp_all [Src.isJoint, put]

/-- C163. Only positions and velocities of joints have an effect on the simulation: whatever is written to bodies and sites is forgotten with the first
substep. -/
theorem C163_only_joints (m : Model J B S D) (x y : Data J B S D) (src : Src J B S) (value : List ℝ) (hj : ¬ src.isJoint)
    (h : m.writeData x src value = some y) (n : ℕ) : m.after (n + 1) y = m.after (n + 1) x := by
  rw [writeData_put, Option.map_eq_some_iff] at h
  obtain ⟨v, -, rfl⟩ := h
  exact after_joints m (put_joints x v src hj) n

omit [DecidableEq J] [DecidableEq B] [DecidableEq S] in
/-- C163. Positions of bodies and sites in the data lag behind the joints by one substep: they are those of the joints before the last substep. -/
theorem C163_lag (m : Model J B S D) (x : Data J B S D) (n : ℕ) :
    (m.after (n + 1) x).derived = m.forward (m.after n x).joints := by
  rw [Model.after, Function.iterate_succ_apply']
  rfl

/-! ### reset with an observation -/

omit [DecidableEq J] [DecidableEq B] [DecidableEq S] in
theorem build_cons (m : Model J B S D) (x : Data J B S D) (i : Item J B S) (rest : List (Item J B S)) (old : List ℝ) (h : m.build x (i :: rest) = some old) :
    (∀ k ∈ i.omitted, k < (m.get x i.src).length) ∧
      ∃ tail, m.build x rest = some tail ∧ old = Misc.kept (fun k => i.omitted.contains k) (m.get x i.src) ++ tail := by
  rw [Model.build] at h
  by_cases hi : ∀ k ∈ i.omitted, k < (m.get x i.src).length
  · rw [Misc.npDelete_eq _ _ hi] at h
    cases hb : m.build x rest with
    | none => rw [hb] at h; simp at h
    | some tail =>
      rw [hb] at h
      exact ⟨hi, tail, rfl, by simpa using h.symm⟩
  · rw [Misc.npDelete, if_neg hi] at h
    simp at h

omit [DecidableEq J] [DecidableEq B] [DecidableEq S] in
theorem build_congr (m : Model J B S D) {x y : Data J B S D} (spec : List (Item J B S)) (h : ∀ i ∈ spec, m.get y i.src = m.get x i.src) :
    m.build y spec = m.build x spec := by
  induction spec with
  | nil => rfl
  | cons i rest ih =>
    rw [Model.build, Model.build, h i (by simp), ih fun k hk => h k (by simp [hk])]

theorem modify_writes (m : Model J B S D) (spec : List (Item J B S)) : ∀ (x : Data J B S D) (obs old : List ℝ), (∀ i ∈ spec, ¬ i.src.isVelocity) →
    (spec.map Item.src).Nodup → m.build x spec = some old → old.length ≤ obs.length →
    ∃ y, m.modify spec x obs = some y ∧ m.build y spec = some (obs.take old.length) ∧
      (∀ src, src ∉ spec.map Item.src → ¬ src.isVelocity → m.get y src = m.get x src) ∧
      ∀ i ∈ spec, (m.get y i.src).length = (m.get x i.src).length ∧ ∀ k ∈ i.omitted, (m.get y i.src)[k]? = (m.get x i.src)[k]? := by
  induction spec with
  | nil =>
    intro x obs old _ _ hb _
    simp only [Model.build, Option.some.injEq] at hb
    subst hb
    exact ⟨x, rfl, by simp [Model.build], fun _ _ _ => rfl, by simp⟩
  | cons i rest ih =>
    intro x obs old hv hd hb hlen
    obtain ⟨hom, tail, htail, rfl⟩ := build_cons m x i rest old hb
    rw [List.length_append] at hlen
    rw [List.map_cons, List.nodup_cons] at hd
    obtain ⟨new, h1, h2, h3, h4⟩ := Misc.fill_spec i.omitted (m.get x i.src) 0 obs (by rw [Misc.kept] at hlen; omega)
    have hvi := hv i (by simp)
    have hrest : ∀ r ∈ rest, m.get (put x new i.src) r.src = m.get x r.src := fun r hr =>
      get_put_other m x new i.src r.src (fun h => hd.1 (h ▸ List.mem_map_of_mem hr)) (hv r (by simp [hr]))
    have hb' : m.build (put x new i.src) rest = some tail := by rw [build_congr m rest hrest, htail]
    obtain ⟨y, g1, g2, g3, g4⟩ := ih (put x new i.src) (obs.drop (Misc.keptFrom (fun j => i.omitted.contains j) 0 (m.get x i.src)).length) tail
      (fun r hr => hv r (by simp [hr])) hd.2 hb' (by rw [List.length_drop]; rw [Misc.kept] at hlen; omega)
    have hyi : m.get y i.src = new := by rw [g3 i.src hd.1 hvi, get_put m x new i.src hvi]
    refine ⟨y, ?_, ?_, ?_, ?_⟩
    · rw [Model.modify, h1]
      exact g1
    · rw [Model.build, hyi, Misc.npDelete_eq _ _ (by rw [h2]; exact hom), g2, Misc.kept, h3, Misc.kept, List.length_append]
      simp [List.take_add]
    · intro src hs hsv
      rw [List.map_cons, List.mem_cons, not_or] at hs
      rw [g3 src hs.2 hsv, get_put_other m x new i.src src hs.1 hsv]
    · intro r hr
      rw [List.mem_cons] at hr
      rcases hr with rfl | hr
      · rw [hyi]
        exact ⟨h2, fun k hk => h4 k (by simpa using hk)⟩
      · have := g4 r hr
        rw [hrest r hr] at this
        exact this

/-- C163. `reset(obs)` returns the observation it was given, and leaves everything that is not part of the observation as after a reset, if the
specification has no velocities of bodies and nothing twice. -/
theorem C163_reset_partial (m : Model J B S D) (spec : List (Item J B S)) (hv : ∀ i ∈ spec, ¬ i.src.isVelocity) (hd : (spec.map Item.src).Nodup)
    (x0 : Data J B S D) (out0 obs : List ℝ) (h0 : m.reset spec none = some (x0, out0)) (hlen : obs.length = out0.length) :
    ∃ y, m.reset spec (some obs) = some (y, obs) ∧
      (∀ src, src ∉ spec.map Item.src → ¬ src.isVelocity → m.get y src = m.get x0 src) ∧
      ∀ i ∈ spec, ∀ k ∈ i.omitted, (m.get y i.src)[k]? = (m.get x0 i.src)[k]? := by
  have hx : x0 = m.resetData ∧ m.build m.resetData spec = some out0 := by
    simp only [Model.reset, Model.setup] at h0
    cases hb : m.build m.resetData spec with
    | none => simp [hb] at h0
    | some o =>
      simp [hb] at h0
      exact ⟨h0.1.symm, by rw [h0.2]⟩
  obtain ⟨rfl, hb⟩ := hx
  obtain ⟨y, h1, h2, h3, h4⟩ := modify_writes m spec m.resetData obs out0 hv hd hb hlen.ge
  refine ⟨y, ?_, h3, fun i hi => (h4 i hi).2⟩
  rw [← hlen, List.take_length] at h2
  simp [Model.reset, Model.setup, h1, h2]

theorem modify_joints (m : Model J B S D) (spec : List (Item J B S)) (hj : ∀ i ∈ spec, ¬ i.src.isJoint) :
    ∀ (x y : Data J B S D) (obs : List ℝ), m.modify spec x obs = some y → y.joints = x.joints := by
  induction spec with
  | nil => intro x y obs h; simp only [Model.modify, Option.some.injEq] at h; rw [h]
  | cons i rest ih =>
    intro x y obs h
    rw [Model.modify] at h
    split at h
    · simp at h
    · rw [ih (fun r hr => hj r (by simp [hr])) _ _ _ h, put_joints x _ i.src (hj i (by simp))]

/-- C163. But for bodies and sites the observation is only returned. The simulation is not put where the observation says: after the first substep it is where it is
after a reset without an observation. -/
theorem C163_reset_bodies_refuted (m : Model J B S D) (spec : List (Item J B S)) (hj : ∀ i ∈ spec, ¬ i.src.isJoint) (obs out out0 : List ℝ)
    (x0 y : Data J B S D) (h0 : m.reset spec none = some (x0, out0)) (h : m.reset spec (some obs) = some (y, out)) (n : ℕ) :
    m.after (n + 1) y = m.after (n + 1) x0 := by
  have hx : x0 = m.resetData := by
    simp only [Model.reset, Model.setup] at h0
    cases hb : m.build m.resetData spec with
    | none => simp [hb] at h0
    | some o => simp [hb] at h0; exact h0.1.symm
  have hy : m.modify spec m.resetData obs = some y := by
    simp only [Model.reset, Model.setup] at h
    cases hm : m.modify spec m.resetData obs with
    | none => simp [hm] at h
    | some z =>
      simp only [hm] at h
      cases hb : m.build z spec with
      | none => simp [hb] at h
      | some o => simp [hb] at h; rw [h.1]
  rw [hx]
  exact after_joints m (modify_joints m spec hj _ _ _ hy) n

omit [DecidableEq J] [DecidableEq B] [DecidableEq S] in
theorem build_inj (m : Model J B S D) {x y : Data J B S D} (spec : List (Item J B S)) (hom : ∀ i ∈ spec, i.omitted = []) :
    ∀ obs, m.build x spec = some obs → m.build y spec = some obs → (∀ i ∈ spec, (m.get y i.src).length = (m.get x i.src).length) →
      ∀ i ∈ spec, m.get y i.src = m.get x i.src := by
  have hk : ∀ (l : List ℝ) (n : ℕ), Misc.keptFrom (fun k => ([] : List ℕ).contains k) n l = l := by
    intro l
    induction l with
    | nil => intro n; rfl
    | cons a l ih => intro n; rw [Misc.keptFrom, ih]; simp
  induction spec with
  | nil => simp
  | cons i rest ih =>
    intro obs hx hy hl
    obtain ⟨-, t1, e1, f1⟩ := build_cons m x i rest obs hx
    obtain ⟨-, t2, e2, f2⟩ := build_cons m y i rest obs hy
    rw [hom i (by simp), Misc.kept, hk] at f1 f2
    have := List.append_inj (f2.symm.trans f1) (hl i (by simp))
    intro r hr
    rw [List.mem_cons] at hr
    rcases hr with rfl | hr
    · exact this.1
    · exact ih (fun r hr => hom r (by simp [hr])) t1 e1 (by rw [e2, this.2]) (fun r hr => hl r (by simp [hr])) r hr

/-- C163. A specification with all the positions and velocities of the joints, each once and complete, is a full state: `reset` with an observation of any data gives
data with the same joints, which go on in the same way. -/
theorem C163_restore (m : Model J B S D) (spec : List (Item J B S)) (hv : ∀ i ∈ spec, i.src.isJoint) (hd : (spec.map Item.src).Nodup)
    (hom : ∀ i ∈ spec, i.omitted = []) (hall : ∀ src : Src J B S, src.isJoint → src ∈ spec.map Item.src)
    (x : Data J B S D) (hx : m.Shaped x) (obs : List ℝ) (hobs : m.build x spec = some obs) :
    ∃ y, m.reset spec (some obs) = some (y, obs) ∧ y.joints = x.joints ∧ ∀ n, m.after (n + 1) y = m.after (n + 1) x := by
  have hvel : ∀ i ∈ spec, ¬ i.src.isVelocity := fun i hi => by
    have := hv i hi
    cases h : i.src <;> simp_all [Src.isJoint, Src.isVelocity]
  have hlen : ∀ i ∈ spec, (m.get x i.src).length = (m.get m.resetData i.src).length := fun i hi => by
    have := hv i hi
    cases h : i.src with
    | jointPos j => exact (hx j).1
    | jointVel j => exact (hx j).2
    | _ => simp_all [Src.isJoint]
  have hb0 : ∀ (l : List (Item J B S)), (∀ i ∈ l, i.omitted = []) → (∀ i ∈ l, (m.get x i.src).length = (m.get m.resetData i.src).length) →
      ∀ obs, m.build x l = some obs → ∃ old, m.build m.resetData l = some old ∧ old.length = obs.length := by
    intro l
    induction l with
    | nil => intro _ _ obs h; exact ⟨[], rfl, by simp only [Model.build, Option.some.injEq] at h; rw [← h]⟩
    | cons i rest ih =>
      intro ho hl obs h
      obtain ⟨-, t, e, f⟩ := build_cons m x i rest obs h
      obtain ⟨old, g1, g2⟩ := ih (fun r hr => ho r (by simp [hr])) (fun r hr => hl r (by simp [hr])) t e
      have hk : ∀ (l : List ℝ) (n : ℕ), Misc.keptFrom (fun k => ([] : List ℕ).contains k) n l = l := by
        intro l
        induction l with
        | nil => intro n; rfl
        | cons a l ih => intro n; rw [Misc.keptFrom, ih]; simp
      rw [ho i (by simp), Misc.kept, hk] at f
      refine ⟨m.get m.resetData i.src ++ old, ?_, by rw [f, List.length_append, List.length_append, g2, hl i (by simp)]⟩
      rw [Model.build, ho i (by simp), Misc.npDelete_eq _ _ (by simp), Misc.kept, hk, g1]
      rfl
  obtain ⟨old, g1, g2⟩ := hb0 spec hom hlen obs hobs
  obtain ⟨y, h1, h2, -, h4⟩ := modify_writes m spec m.resetData obs old hvel hd g1 g2.le
  rw [g2, List.take_length] at h2
  have heq := build_inj m (x := x) (y := y) spec hom obs hobs h2 fun i hi => by rw [(h4 i hi).1, hlen i hi]
  have hjoints : y.joints = x.joints := by
    have hp : ∀ src : Src J B S, src.isJoint → m.get y src = m.get x src := fun src hs => by
      obtain ⟨i, hi, rfl⟩ := List.mem_map.1 (hall src hs)
      exact heq i hi
    have e1 : y.joints.qpos = x.joints.qpos := funext fun j => hp (.jointPos j) trivial
    have e2 : y.joints.qvel = x.joints.qvel := funext fun j => hp (.jointVel j) trivial
    cases hy : y.joints; cases hx : x.joints
    rw [hy, hx] at e1 e2
    simp_all
  exact ⟨y, by simp [Model.reset, Model.setup, h1, h2], hjoints, fun n => after_joints m hjoints n⟩

/-! ### A slide -/

/-- A body on a slide: its position is that of the joint, and it moves with the velocity of the joint, one unit of time per substep. After a reset nothing has
been computed. -/
def slide : Model Unit Unit Empty ℝ where
  init := ⟨fun _ => [1], fun _ => [0]⟩
  blank := ⟨fun _ => [0, 0, 0], fun _ => [0, 0, 0, 0], fun s => s.elim, fun s => s.elim, 0⟩
  forward := fun j => ⟨fun _ => [(j.qpos ()).headD 0, 0, 0], fun _ => [1, 0, 0, 0], fun s => s.elim, fun s => s.elim, (j.qvel ()).headD 0⟩
  integrate := fun j => ⟨fun _ => [(j.qpos ()).headD 0 + (j.qvel ()).headD 0], j.qvel⟩
  velocity := fun d _ _ => [0, 0, 0, d.rest, 0, 0]

/-- Position and velocity of the joint, and the position of the body. -/
def slideSpec : List (Item Unit Unit Empty) := [⟨.jointPos (), []⟩, ⟨.jointVel (), []⟩, ⟨.bodyPos (), [1, 2]⟩]

/-- C163. So the parts of an observation do not tell the same state. After a reset the body is reported at 0, although the joint is at 1; after a step from
position 2 with velocity 3 the joint is at 5 and the body is reported at 2. -/
theorem C163_consistent_refuted :
    (∃ y, slide.reset slideSpec none = some (y, [1, 0, 0])) ∧
    ∃ y, slide.reset slideSpec (some [2, 3, 2]) = some (y, [2, 3, 2]) ∧ slide.build (slide.after 1 y) slideSpec = some [5, 3, 2] := by
  refine ⟨⟨_, by simp [Model.reset, Model.setup, Model.build, Model.get, Model.resetData, slide, slideSpec, Misc.npDelete, List.zipIdx]; rfl⟩,
    ⟨_, by simp [Model.reset, Model.setup, Model.build, Model.modify, Model.get, put, Misc.fill, Model.resetData, slide, slideSpec, Misc.npDelete, List.zipIdx]; rfl, ?_⟩⟩
  norm_num [Model.after, Model.substep, Model.build, Model.get, put, slide, slideSpec, Misc.npDelete, List.zipIdx]

/-- C163. With the velocity of a body in the specification, `reset(obs)` does not return `obs`. -/
theorem C163_reset_velocity_refuted :
    ∃ y, slide.reset [⟨.jointVel (), []⟩, ⟨.bodyVel (), [0, 1, 2, 4, 5]⟩] (some [3, 3]) = some (y, [3, 0]) :=
  ⟨_, by simp [Model.reset, Model.setup, Model.build, Model.modify, Model.get, put, Misc.fill, Model.resetData, slide, Misc.npDelete, List.zipIdx]; rfl⟩

/-- C163. Nor with a joint under two keys: the last value is taken. -/
theorem C163_reset_twice_refuted :
    ∃ y, slide.reset [⟨.jointPos (), []⟩, ⟨.jointPos (), []⟩] (some [3, 4]) = some (y, [4, 4]) :=
  ⟨_, by simp [Model.reset, Model.setup, Model.build, Model.modify, Model.get, put, Misc.fill, Model.resetData, slide, Misc.npDelete]; rfl⟩

/-! ### The hypotheses are met -/

/-- A velocity is written to the joint and read back. -/
example : ∃ y, slide.writeData slide.resetData (.jointVel ()) [3] = some y ∧ slide.readData y (.jointVel ()) = [3] := by
  obtain ⟨y, h1, h2, -⟩ := C163_write_partial slide slide.resetData (.jointVel ()) [3] (by simp [Src.isVelocity]) rfl
  exact ⟨y, h1, h2⟩

example : slide.writeData slide.resetData (.bodyVel ()) [0, 0, 0, 3, 0, 0] = some slide.resetData :=
  C163_write_refuted slide slide.resetData (.bodyVel ()) [0, 0, 0, 3, 0, 0] trivial rfl

example : ∃ y, slide.writeData slide.resetData (.bodyPos ()) [7] = some y ∧ slide.readData y (.bodyPos ()) = [7, 7, 7] :=
  (C163_write_shape slide slide.resetData (.bodyPos ()) [7] (by simp [Model.readData, Model.get, Model.resetData, slide])).2 7 rfl (by simp [Src.isVelocity])

/-- A body is moved to 7, and is back at 1 after a substep. -/
example : ∃ y, slide.writeData slide.resetData (.bodyPos ()) [7, 0, 0] = some y ∧ slide.readData y (.bodyPos ()) = [7, 0, 0] ∧
    slide.after 1 y = slide.after 1 slide.resetData ∧ slide.readData (slide.after 1 y) (.bodyPos ()) = [1, 0, 0] := by
  obtain ⟨y, h1, h2, -⟩ := C163_write_partial slide slide.resetData (.bodyPos ()) [7, 0, 0] (by simp [Src.isVelocity]) rfl
  have h := C163_only_joints slide slide.resetData y (.bodyPos ()) [7, 0, 0] (by simp [Src.isJoint]) h1 0
  refine ⟨y, h1, h2, h, ?_⟩
  rw [h]
  simp [Model.readData, Model.get, Model.after, Model.substep, Model.resetData, slide]

example : ∃ y, slide.reset slideSpec (some [2, 3, 4]) = some (y, [2, 3, 4]) := by
  obtain ⟨x0, h0⟩ := C163_consistent_refuted.1
  obtain ⟨y, hy, -⟩ := C163_reset_partial slide slideSpec (by simp [slideSpec, Src.isVelocity]) (by simp [slideSpec]) x0 [1, 0, 0] [2, 3, 4] h0 rfl
  exact ⟨y, hy⟩

/-- `reset` returns the position 7 of the body, but the body is at 1. -/
example : ∃ y, slide.reset [⟨.bodyPos (), [1, 2]⟩] (some [7]) = some (y, [7]) ∧ slide.readData (slide.after 1 y) (.bodyPos ()) = [1, 0, 0] := by
  have h0 : slide.reset [⟨.bodyPos (), [1, 2]⟩] none = some (slide.resetData, [0]) := by
    simp [Model.reset, Model.setup, Model.build, Model.get, Model.resetData, slide, Misc.npDelete, List.zipIdx]
  obtain ⟨y, hy, -⟩ := C163_reset_partial slide [⟨.bodyPos (), [1, 2]⟩] (by simp [Src.isVelocity]) (by simp) _ _ [7] h0 rfl
  refine ⟨y, hy, ?_⟩
  rw [C163_reset_bodies_refuted slide _ (by simp [Src.isJoint]) [7] [7] [0] _ y h0 hy 0]
  simp [Model.readData, Model.get, Model.after, Model.substep, Model.resetData, slide]

/-- Two substeps after a reset with velocity 3 the body is where the joint was after one. -/
example : slide.readData (slide.after 2 ⟨⟨fun _ => [1], fun _ => [3]⟩, slide.blank⟩) (.bodyPos ()) = [4, 0, 0] := by
  rw [Model.readData, Model.get, C163_lag]
  norm_num [Model.after, Model.substep, slide]

/-- The data after three substeps, from their observation. -/
example : ∃ y, slide.reset [⟨.jointPos (), []⟩, ⟨.jointVel (), []⟩] (some [10, 3]) = some (y, [10, 3]) ∧
    ∀ n, slide.after (n + 1) y = slide.after (n + 1) (slide.after 3 ⟨⟨fun _ => [1], fun _ => [3]⟩, slide.blank⟩) := by
  obtain ⟨y, h1, -, h2⟩ := C163_restore slide [⟨.jointPos (), []⟩, ⟨.jointVel (), []⟩] (by simp [Src.isJoint]) (by simp) (by simp)
    (fun src h => by cases src <;> simp_all [Src.isJoint]) (slide.after 3 ⟨⟨fun _ => [1], fun _ => [3]⟩, slide.blank⟩)
    (fun j => ⟨rfl, rfl⟩) [10, 3] (by
      norm_num [Model.after, Model.substep, Model.build, Model.get, slide, Misc.npDelete, List.zipIdx])
  exact ⟨y, h1, h2⟩

end Verif.Wrap.MjData
