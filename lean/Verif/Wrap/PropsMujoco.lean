/-
Properties of the MuJoCo environments (C104, C105).
-/
import Verif.Wrap.ModelMujoco
import Mathlib.Data.Nat.Digits.Lemmas
import Mathlib.Logic.Function.Iterate
import Mathlib.Tactic.Ring
import Mathlib.Tactic.Linarith
import Mathlib.Tactic.NormNum

namespace Verif.Wrap

variable {X O : Type}

/-! ### C104: steps -/

/-- One intermediate step with the controls as they are. -/
noncomputable def tick (e : Env X O) (m : Mj X) (d : Data X) : Data X := e.post (m.substep^[e.substeps] (e.pre d))

theorem loop_plain (e : Env X O) (m : Mj X) (a : List ℝ) (h : e.override = false) : ∀ (n : ℕ) (obs : O) (d : Data X),
    e.loop m a n true obs d = some (obs, (tick e m)^[n] d) := by
  intro n
  induction n with
  | zero => intro obs d; rfl
  | succ n ih =>
    intro obs d
    simp only [Env.loop, h, Bool.not_true, Bool.or_self, Bool.false_eq_true, if_false, ih, Function.iterate_succ_apply]
    rfl

/-- C104: without a `_compute_action` of its own, an environment gives the (preprocessed) action to the actuators once, simulates the
intermediate steps with these controls, and observes the last state. -/
theorem C104_plain (e : Env X O) (m : Mj X) (d : Data X) (obs : O) (a : List ℝ) (h : e.override = false) (hn : 0 < e.intermediate)
    (r : Data X × O × Step O) (hr : e.step m d obs a = some r) :
    ∃ ctrl, setCtrl e.indices (e.preprocess a) d.ctrl = some ctrl
      ∧ r.1 = (tick e m)^[e.intermediate] { d with ctrl := ctrl } ∧ r.2.1 = e.observe r.1 := by
  obtain ⟨n, hn'⟩ : ∃ n, e.intermediate = n + 1 := ⟨e.intermediate - 1, by omega⟩
  simp only [Env.step] at hr
  simp only [hn', Env.loop, h, Bool.not_false, Bool.or_true, if_true, Env.control, Bool.false_eq_true, if_false] at hr
  cases hc : setCtrl e.indices (e.preprocess a) d.ctrl with
  | none => rw [hc] at hr; simp at hr
  | some ctrl =>
    rw [hc] at hr
    simp only [loop_plain e m _ h, Option.some.injEq] at hr
    refine ⟨ctrl, rfl, ?_, ?_⟩
    · rw [← hr, hn', Function.iterate_succ_apply]; rfl
    · rw [← hr]

theorem loop_override (e : Env X O) (m : Mj X) (a : List ℝ) (h : e.override = true) : ∀ (n : ℕ) (b : Bool) (obs : O) (d : Data X)
    (r : O × Data X), e.loop m a n b obs d = some r →
    ∃ (ds : ℕ → Data X) (os : ℕ → O), ds 0 = d ∧ os 0 = obs ∧ ds n = r.2 ∧ os n = r.1 ∧
      ∀ i < n, ∃ ctrl, setCtrl e.indices (e.compute (os i) a) (ds i).ctrl = some ctrl ∧
        ds (i + 1) = tick e m { ds i with ctrl := ctrl } ∧ os (i + 1) = e.observe (ds (i + 1)) := by
  intro n
  induction n with
  | zero =>
    intro b obs d r hr
    simp only [Env.loop, Option.some.injEq] at hr
    exact ⟨fun _ => d, fun _ => obs, rfl, rfl, by rw [← hr], by rw [← hr], by omega⟩
  | succ n ih =>
    intro b obs d r hr
    simp only [Env.loop, h, Bool.true_or, if_true, Env.control] at hr
    cases hc : setCtrl e.indices (e.compute obs a) d.ctrl with
    | none => rw [hc] at hr; simp at hr
    | some ctrl =>
      rw [hc] at hr
      simp only at hr
      obtain ⟨ds, os, h0, h1, h2, h3, h4⟩ := ih _ _ _ _ hr
      refine ⟨fun i => Nat.casesOn i d ds, fun i => Nat.casesOn i obs os, rfl, rfl, h2, h3, ?_⟩
      intro i hi
      cases i with
      | zero =>
        refine ⟨ctrl, hc, h0, ?_⟩
        show os 0 = e.observe (ds 0)
        rw [h1, h0]
      | succ i => exact h4 i (by omega)

/-- C104: with a `_compute_action` of its own, an environment computes the controls anew at every intermediate step from the observation at
that time. -/
theorem C104_override (e : Env X O) (m : Mj X) (d : Data X) (obs : O) (a : List ℝ) (h : e.override = true)
    (r : Data X × O × Step O) (hr : e.step m d obs a = some r) :
    ∃ (ds : ℕ → Data X) (os : ℕ → O), ds 0 = d ∧ os 0 = obs ∧ ds e.intermediate = r.1 ∧ os e.intermediate = r.2.1 ∧
      ∀ i < e.intermediate, ∃ ctrl, setCtrl e.indices (e.compute (os i) (e.preprocess a)) (ds i).ctrl = some ctrl ∧
        ds (i + 1) = tick e m { ds i with ctrl := ctrl } ∧ os (i + 1) = e.observe (ds (i + 1)) := by
  simp only [Env.step] at hr
  cases hl : e.loop m (e.preprocess a) e.intermediate false obs d with
  | none => rw [hl] at hr; simp at hr
  | some q =>
    rw [hl] at hr
    simp only [h, if_true, Option.some.injEq] at hr
    obtain ⟨ds, os, h0, h1, h2, h3, h4⟩ := loop_override e m _ h _ _ _ _ _ hl
    refine ⟨ds, os, h0, h1, ?_, ?_, h4⟩
    · rw [h2, ← hr]
    · rw [h3, ← hr]

theorem foldl_update_ne {l : List (ℕ × ℝ)} {c : ℕ → ℝ} {j : ℕ} (h : j ∉ l.map Prod.fst) :
    l.foldl (fun c p => Function.update c p.1 p.2) c j = c j := by
  induction l generalizing c with
  | nil => rfl
  | cons p l ih =>
    simp only [List.map_cons, List.mem_cons, not_or] at h
    rw [List.foldl_cons, ih h.2, Function.update_of_ne h.1]

theorem foldl_update_eq {l : List (ℕ × ℝ)} {c : ℕ → ℝ} (hn : (l.map Prod.fst).Nodup) (p : ℕ × ℝ) (hp : p ∈ l) :
    l.foldl (fun c p => Function.update c p.1 p.2) c p.1 = p.2 := by
  induction l generalizing c with
  | nil => simp at hp
  | cons q l ih =>
    rw [List.map_cons, List.nodup_cons] at hn
    rw [List.foldl_cons]
    rcases List.mem_cons.1 hp with h | h
    · subst h
      rw [foldl_update_ne hn.1, Function.update_self]
    · exact ih hn.2 h

/-- C104: the value number `i` goes to the actuator number `i` of the specification, and no other actuator is touched. -/
theorem C104_actuators (indices : List ℕ) (values : List ℝ) (ctrl : ℕ → ℝ) (hn : indices.Nodup) (hl : values.length = indices.length) :
    ∃ c, setCtrl indices values ctrl = some c ∧ (∀ (i j : ℕ) (v : ℝ), indices[i]? = some j → values[i]? = some v → c j = v)
      ∧ (∀ j ∉ indices, c j = ctrl j) := by
  have hz : (indices.zip values).map Prod.fst = indices := by
    rw [List.map_fst_zip]; omega
  have key : setCtrl indices values ctrl = some ((indices.zip values).foldl (fun c p => Function.update c p.1 p.2) ctrl) := by
    unfold setCtrl
    split
    · rename_i v
      match indices, hl with
      | [i], _ => rfl
    · rw [if_pos hl]
  refine ⟨_, key, ?_, ?_⟩
  · intro i j v hi hv
    have hp : (j, v) ∈ indices.zip values := by
      rw [List.mem_iff_getElem?]
      exact ⟨i, by rw [List.getElem?_zip_eq_some]; exact ⟨hi, hv⟩⟩
    exact foldl_update_eq (by rw [hz]; exact hn) (j, v) hp
  · intro j hj
    exact foldl_update_ne (by rw [hz]; exact hj)

example : ∃ c, setCtrl [2, 0] [5, 7] (fun _ => 1) = some c ∧ c 2 = 5 ∧ c 0 = 7 ∧ c 1 = 1 := by
  obtain ⟨c, h, h1, h2⟩ := C104_actuators [2, 0] [5, 7] (fun _ => 1) (by decide) rfl
  exact ⟨c, h, h1 0 2 5 rfl rfl, h1 1 0 7 rfl rfl, h2 1 (by decide)⟩

/-- The data and the observation that is kept, after a sequence of actions. -/
noncomputable def Env.steps (e : Env X O) (m : Mj X) (s : Data X × O) (l : List (List ℝ)) : Option (Data X × O) :=
  l.foldlM (fun s a => (e.step m s.1 s.2 a).map (fun r => (r.1, r.2.1))) s

theorem step_observe (e : Env X O) (m : Mj X) (d : Data X) (obs : O) (hobs : obs = e.observe d) (a : List ℝ) (r : Data X × O × Step O)
    (hr : e.step m d obs a = some r) : r.2.1 = e.observe r.1 := by
  cases h : e.override with
  | true =>
    obtain ⟨ds, os, h0, h1, h2, h3, h4⟩ := C104_override e m d obs a h r hr
    cases hn : e.intermediate with
    | zero =>
      rw [hn] at h2 h3
      rw [← h2, ← h3, h0, h1, hobs]
    | succ n =>
      obtain ⟨c, _, h5, h6⟩ := h4 n (by omega)
      rw [hn] at h2 h3
      rw [← h2, ← h3, h6]
  | false =>
    simp only [Env.step] at hr
    cases hl : e.loop m (e.preprocess a) e.intermediate false obs d with
    | none => rw [hl] at hr; simp at hr
    | some q =>
      rw [hl] at hr
      simp only [h, Bool.false_eq_true, if_false, Option.some.injEq] at hr
      rw [← hr]

/-- C104: after a reset and any actions, a step returns the observation of the state that was reached, whether it is absorbing, and the reward of
the observation before the step, the action, and the observation after it. -/
theorem C104_history (e : Env X O) (m : Mj X) (start : Option O) (l : List (List ℝ)) (s : Data X × O)
    (hs : e.steps m ((e.reset m start).1, (e.reset m start).2.1) l = some s) (a : List ℝ) (r : Data X × O × Step O)
    (hr : e.step m s.1 s.2 a = some r) :
    let before := e.observe s.1
    let after := e.observe r.1
    r.2.2 = (e.modify after, e.reward before (e.preprocess a) after (e.absorbing after), e.absorbing after) := by
  have inv : ∀ (l : List (List ℝ)) (s s' : Data X × O), s.2 = e.observe s.1 → e.steps m s l = some s' → s'.2 = e.observe s'.1 := by
    intro l
    induction l with
    | nil =>
      intro s s' h1 h2
      simp only [Env.steps, List.foldlM_nil, Option.pure_def, Option.some.injEq] at h2
      rw [← h2]; exact h1
    | cons b l ih =>
      intro s s' h1 h2
      simp only [Env.steps, List.foldlM_cons, Option.bind_eq_bind, Option.bind_eq_some_iff, Option.map_eq_some_iff] at h2
      obtain ⟨s1, ⟨q, hq, hq'⟩, h3⟩ := h2
      refine ih s1 s' ?_ h3
      rw [← hq']
      exact step_observe e m _ _ h1 _ _ hq
  have hobs : s.2 = e.observe s.1 := inv l _ s rfl hs
  have hafter := step_observe e m _ _ hobs _ _ hr
  intro before after
  have : r.2.2 = (e.modify r.2.1, e.reward s.2 (e.preprocess a) r.2.1 (e.absorbing r.2.1), e.absorbing r.2.1) := by
    simp only [Env.step] at hr
    cases hl : e.loop m (e.preprocess a) e.intermediate false s.2 s.1 with
    | none => rw [hl] at hr; simp at hr
    | some q =>
      rw [hl] at hr
      simp only [Option.some.injEq] at hr
      rw [← hr]
  rw [this, hafter, hobs]

theorem substeps_time (m : Mj X) (k : ℕ) (d : Data X) : (m.substep^[k] d).time = d.time + k * m.timestep := by
  induction k generalizing d with
  | zero => simp
  | succ k ih =>
    rw [Function.iterate_succ_apply, ih]
    simp only [Mj.substep]
    push_cast
    ring

theorem tick_time (e : Env X O) (m : Mj X) (hpre : ∀ d, (e.pre d).time = d.time) (hpost : ∀ d, (e.post d).time = d.time) (d : Data X) :
    (tick e m d).time = d.time + e.substeps * m.timestep := by
  rw [tick, hpost, substeps_time, hpre]

theorem loop_time (e : Env X O) (m : Mj X) (hpre : ∀ d, (e.pre d).time = d.time) (hpost : ∀ d, (e.post d).time = d.time) (a : List ℝ) :
    ∀ (n : ℕ) (b : Bool) (obs : O) (d : Data X) (r : O × Data X), e.loop m a n b obs d = some r →
    r.2.time = d.time + n * (e.substeps * m.timestep) := by
  intro n
  induction n with
  | zero => intro b obs d r h; simp only [Env.loop, Option.some.injEq] at h; rw [← h]; simp
  | succ n ih =>
    intro b obs d r h
    simp only [Env.loop] at h
    split at h
    · simp at h
    · rename_i c hc
      rw [ih _ _ _ _ h]
      have := tick_time e m hpre hpost { d with ctrl := c }
      rw [tick] at this
      rw [this]
      push_cast
      ring

/-- C104: every step takes the simulator forward by the time that the environment reports as its control time. -/
theorem C104_clock (e : Env X O) (m : Mj X) (hpre : ∀ d, (e.pre d).time = d.time) (hpost : ∀ d, (e.post d).time = d.time)
    (l : List (List ℝ)) (s : Data X × O) (hs : e.steps m ((e.reset m none).1, (e.reset m none).2.1) l = some s) :
    s.1.time = l.length * e.dt m := by
  have key : ∀ (l : List (List ℝ)) (s s' : Data X × O), e.steps m s l = some s' → s'.1.time = s.1.time + l.length * e.dt m := by
    intro l
    induction l with
    | nil =>
      intro s s' h2
      simp only [Env.steps, List.foldlM_nil, Option.pure_def, Option.some.injEq] at h2
      rw [← h2]; simp
    | cons b l ih =>
      intro s s' h2
      simp only [Env.steps, List.foldlM_cons, Option.bind_eq_bind, Option.bind_eq_some_iff, Option.map_eq_some_iff] at h2
      obtain ⟨s1, ⟨q, hq, hq'⟩, h3⟩ := h2
      rw [ih s1 s' h3, ← hq']
      simp only [Env.step] at hq
      cases hl : e.loop m (e.preprocess b) e.intermediate false s.2 s.1 with
      | none => rw [hl] at hq; simp at hq
      | some p =>
        rw [hl] at hq
        simp only [Option.some.injEq] at hq
        have := loop_time e m hpre hpost _ _ _ _ _ _ hl
        rw [← hq]
        simp only [this, List.length_cons, Env.dt]
        push_cast
        ring
  rw [key l _ s hs]
  simp [Env.reset, Env.setupWith, Mj.reset]

/-- A mass that is pushed by one actuator; the observation is its position. -/
noncomputable def mass : Mj ℝ := ⟨0, fun x c => x + c 0, 1 / 2, [("motor", some (-1, 1)), ("free", none)]⟩

/-- Feedback at every one of three intermediate steps of two substeps each. -/
noncomputable def feedback (b : Bool) : Env ℝ ℝ :=
  ⟨id, id, id, id, fun o a => a.map (fun v => v - o), b, id, id, fun _ _ o _ => o, fun o => 1 < o, fun _ d => d, [0], 2, 3⟩

example : ∃ r, (feedback false).step mass mass.reset 0 [1] = some r ∧ r.1.x = 6 ∧ r.1.time = 3 := by
  refine ⟨⟨⟨Function.update (fun _ => 0) 0 1, 6, 3⟩, 6, 6, 6, true⟩, ?_, rfl, rfl⟩
  simp only [Env.step, feedback, Env.loop, Env.control, setCtrl, mass, Mj.reset, Env.observe, Mj.substep, Function.iterate_succ_apply,
    Function.iterate_zero_apply, List.foldl_cons, List.foldl_nil, Function.update_self, id]
  norm_num

example : ∃ r, (feedback true).step mass mass.reset 0 [1] = some r ∧ r.1.x = 2 ∧ r.1.ctrl 0 = 1 := by
  refine ⟨⟨⟨Function.update (Function.update (Function.update (fun _ => 0) 0 1) 0 (-1)) 0 1, 2, 3⟩, 2, 2, 2, true⟩, ?_, rfl, by simp⟩
  simp only [Env.step, feedback, Env.loop, Env.control, setCtrl, mass, Mj.reset, Env.observe, Mj.substep, Function.iterate_succ_apply,
    Function.iterate_zero_apply, List.foldl_cons, List.foldl_nil, Function.update_self, id]
  norm_num

theorem mapM_some {α β : Type} (f : α → Option β) : ∀ (l : List α) (r : List β), l.mapM f = some r →
    r.length = l.length ∧ ∀ (i : ℕ) a b, l[i]? = some a → r[i]? = some b → f a = some b := by
  intro l
  induction l with
  | nil =>
    intro r h
    simp only [List.mapM_nil, Option.pure_def, Option.some.injEq] at h
    subst h
    exact ⟨rfl, by simp⟩
  | cons a l ih =>
    intro r h
    simp only [List.mapM_cons, Option.bind_eq_bind, Option.bind_eq_some_iff, Option.pure_def, Option.some.injEq] at h
    obtain ⟨b, hb, bs, hbs, rfl⟩ := h
    obtain ⟨h1, h2⟩ := ih bs hbs
    refine ⟨by simp [h1], ?_⟩
    intro i x y hx hy
    cases i with
    | zero =>
      simp only [List.getElem?_cons_zero, Option.some.injEq] at hx hy
      subst hx hy; exact hb
    | succ i => exact h2 i x y hx hy

/-- C104: component number `i` of the action space has the bounds of the actuator with the `i`-th name of the specification. -/
theorem C104_action_space (m : Mj X) (spec : List String) (hspec : spec ≠ []) (indices : List ℕ) (hi : m.actionIndices spec = some indices)
    (bounds : List (Option (ℝ × ℝ))) (hb : m.actionSpace indices = some bounds) :
    bounds.length = spec.length ∧ ∀ (i : ℕ) name b, spec[i]? = some name → bounds[i]? = some b → (name, b) ∈ m.actuators := by
  have hlen : spec.length ≠ 0 := by simpa using hspec
  simp only [Mj.actionIndices, hlen, if_false] at hi
  obtain ⟨h1, h2⟩ := mapM_some _ _ _ hi
  obtain ⟨h3, h4⟩ := mapM_some _ _ _ hb
  refine ⟨by omega, ?_⟩
  intro i name b hn hbi
  have hilt : i < indices.length := by
    rw [← h3]
    exact (List.getElem?_eq_some_iff.1 hbi).1
  have hj : indices[i]? = some indices[i] := List.getElem?_eq_getElem hilt
  have h5 := h2 i name _ hn hj
  have h6 := h4 i _ b hj hbi
  rw [Option.map_eq_some_iff] at h6
  obtain ⟨p, hp, hp'⟩ := h6
  rw [List.idxOf?_eq_some_iff] at h5
  obtain ⟨hlt, heq, _⟩ := h5
  rw [List.getElem_map] at heq
  obtain ⟨hlt', hpe⟩ := List.getElem?_eq_some_iff.1 hp
  have : (name, b) = m.actuators[indices[i]] := by
    rw [hpe]
    apply Prod.ext
    · simp only [← hpe]; simpa using heq.symm
    · exact hp'.symm
  rw [this]
  exact List.getElem_mem _

/-- C104: with an empty specification all the actuators are used, in their order. -/
theorem C104_all_actuators (m : Mj X) : ∃ indices, m.actionIndices [] = some indices ∧ m.actionSpace indices = some (m.actuators.map Prod.snd) := by
  refine ⟨List.range m.actuators.length, rfl, ?_⟩
  have : ∀ (l : List (String × Option (ℝ × ℝ))) (k : ℕ), k ≤ l.length →
      (List.range k).mapM (fun i => (l[i]?).map Prod.snd) = some ((l.take k).map Prod.snd) := by
    intro l k
    induction k with
    | zero => intro _; rfl
    | succ k ih =>
      intro hk
      rw [List.range_succ, List.mapM_append, ih (by omega)]
      have : l[k]? = some l[k] := List.getElem?_eq_getElem (by omega)
      simp only [List.mapM_cons, List.mapM_nil, this, Option.map_some, Option.bind_eq_bind, Option.bind_some, Option.pure_def]
      rw [List.take_succ, this, List.map_append]
      rfl
  rw [Mj.actionSpace, this _ _ (le_refl _), List.take_length]

example : mass.actionIndices ["free", "motor"] = some [1, 0] ∧ mass.actionSpace [1, 0] = some [none, some (-1, 1)] := by
  refine ⟨by decide, rfl⟩

/-- C104: a collision is reported exactly if some contact joins the two groups, in either order. -/
theorem C104_collision (contacts : List (ℕ × ℕ)) (ids1 ids2 : ℕ → Bool) :
    checkCollision contacts ids1 ids2 = true ↔
      ∃ c ∈ contacts, (ids1 c.1 = true ∧ ids2 c.2 = true) ∨ (ids1 c.2 = true ∧ ids2 c.1 = true) := by
  induction contacts with
  | nil => simp [checkCollision]
  | cons c l ih =>
    simp only [checkCollision, List.mem_cons, exists_eq_or_imp]
    rw [← ih]
    cases ids1 c.1 <;> cases ids2 c.2 <;> cases ids2 c.1 <;> cases ids1 c.2 <;> simp

example : checkCollision [(1, 2), (4, 3)] (fun i => i == 3) (fun i => i == 4) = true := rfl

end Verif.Wrap
