/-
C119: air hockey (PyBullet).
-/
import Verif.Hockey.ModelBullet
import Verif.Hockey.Props

namespace Verif.Hockey.Bullet

open Spec

noncomputable section

/-! ### Frames and observations -/

theorem frame1_eq : frame1 = planarFrame 0 (-1.51, 0) 0 := by
  ext i j
  fin_cases i <;> fin_cases j <;>
    simp [frame1, translation, quatMatrix, planarFrame, Matrix.mul_apply, Fin.sum_univ_succ]

theorem frame2_eq : frame2 = planarFrame Real.pi (1.51, 0) 0 := by
  ext i j
  fin_cases i <;> fin_cases j <;>
    simp [frame2, translation, quatMatrix, planarFrame, Matrix.mul_apply, Fin.sum_univ_succ] <;> norm_num

theorem pose_in_planar (angle : ℝ) (t : V2) (z : ℝ) (s : BState) :
    SamePoint angle t (pose2d (planarFrame angle t z) s) (xy s.pos) := by
  have h := Real.cos_sq_add_sin_sq angle
  simp only [SamePoint, pose2d, planar_inv]
  simp [planarInv, translation, quatMatrix, xy, Matrix.mul_apply, Fin.sum_univ_succ]
  constructor
  · linear_combination (s.pos.1 - t.1) * h
  · linear_combination (s.pos.2.1 - t.2) * h

theorem vel_in_planar (angle : ℝ) (t : V2) (z : ℝ) (s : BState) :
    SameVelocity angle ((vel2d (planarFrame angle t z) s).1, (vel2d (planarFrame angle t z) s).2.1) (xy s.vel) := by
  have h := Real.cos_sq_add_sin_sq angle
  simp [SameVelocity, SamePoint, vel2d, planarFrame, xy]
  constructor
  · linear_combination s.vel.1 * h
  · linear_combination s.vel.2.1 * h

/-- Without noise and delay the observation of a task with one agent exists in every state and has eleven entries: position and linear velocity of the puck in the
frame of the robot, whatever the orientation of the puck, its angular velocity around the vertical axis, and the joints. -/
theorem C119_observation (prev : Option (List ℝ)) (s : BState) :
    ∃ x y vx vy : ℝ, createObs none false prev s = some [x, y, vx, vy, s.ang.2.2, s.q.1, s.q.2.1, s.q.2.2, s.qd.1, s.qd.2.1, s.qd.2.2] ∧
      SamePoint 0 (-1.51, 0) (x, y) (s.pos.1, s.pos.2.1) ∧ SameVelocity 0 (vx, vy) (s.vel.1, s.vel.2.1) := by
  have h1 := pose_in_planar 0 (-1.51, 0) 0 s
  have h2 := vel_in_planar 0 (-1.51, 0) 0 s
  rw [← frame1_eq] at h1 h2
  exact ⟨(pose2d frame1 s).1, (pose2d frame1 s).2, (vel2d frame1 s).1, (vel2d frame1 s).2.1, rfl, h1, h2⟩

/-- The observation of the task with two agents: for each agent eleven entries, in the frame of that agent; the second one is turned by half a turn. -/
theorem C119_observation_double (s : BState) (q2 qd2 : ℝ × ℝ × ℝ) :
    ∃ x y vx vy x' y' vx' vy' : ℝ, createObs2 s q2 qd2 =
      [x, y, vx, vy, s.ang.2.2, s.q.1, s.q.2.1, s.q.2.2, s.qd.1, s.qd.2.1, s.qd.2.2,
       x', y', vx', vy', s.ang.2.2, q2.1, q2.2.1, q2.2.2, qd2.1, qd2.2.1, qd2.2.2] ∧
      SamePoint 0 (-1.51, 0) (x, y) (s.pos.1, s.pos.2.1) ∧ SameVelocity 0 (vx, vy) (s.vel.1, s.vel.2.1) ∧
      SamePoint Real.pi (1.51, 0) (x', y') (s.pos.1, s.pos.2.1) ∧ SameVelocity Real.pi (vx', vy') (s.vel.1, s.vel.2.1) := by
  have h1 := pose_in_planar 0 (-1.51, 0) 0 s
  have h2 := vel_in_planar 0 (-1.51, 0) 0 s
  have h3 := pose_in_planar Real.pi (1.51, 0) 0 s
  have h4 := vel_in_planar Real.pi (1.51, 0) 0 s
  rw [← frame1_eq] at h1 h2
  rw [← frame2_eq] at h3 h4
  exact ⟨(pose2d frame1 s).1, (pose2d frame1 s).2, (vel2d frame1 s).1, (vel2d frame1 s).2.1,
    (pose2d frame2 s).1, (pose2d frame2 s).2, (vel2d frame2 s).1, (vel2d frame2 s).2.1, rfl, h1, h2, h3, h4⟩

/-- None of the three kinds of disturbance can be used. With noise in the observations there is no observation, in any state and for any draws. With delayed
observations there is none at the first reset, and there could be none later, since the window over the previous observation has four entries. With noise in the
dynamics every step fails before it is simulated. -/
theorem C119_noise_refuted :
    (∀ (n : ℝ × ℝ × ℝ) (delay : Bool) (prev : Option (List ℝ)) (s : BState), createObs (some n) delay prev s = none) ∧
    (∀ (noise : Option (ℝ × ℝ × ℝ)) (s : BState), createObs noise true none s = none) ∧
    (∀ (noise : Option (ℝ × ℝ × ℝ)) (prev : List ℝ) (s : BState), prev.length = 11 → createObs noise true (some prev) s = none) ∧
    (∀ puckId : ℕ, preStep true puckId = none) ∧ (∀ puckId : ℕ, preStep false puckId = some none) := by
  have h1 : ∀ (n : ℝ × ℝ × ℝ) (delay : Bool) (prev : Option (List ℝ)) (s : BState), createObs (some n) delay prev s = none := by
    intro n delay prev s
    simp [createObs, addArr, addAt]
  refine ⟨h1, ?_, ?_, fun _ => rfl, fun _ => rfl⟩
  · intro noise s
    cases noise with
    | some n => exact h1 n true none s
    | none => simp [createObs, lowPass]
  · intro noise prev s hp
    cases noise with
    | some n => exact h1 n true (some prev) s
    | none =>
      have hl : (slice prev 2 6).length = 4 := by simp [slice, hp]
      obtain ⟨a, b, c, d, he⟩ : ∃ a b c d, slice prev 2 6 = [a, b, c, d] := by
        match h : slice prev 2 6, hl with
        | [a, b, c, d], _ => exact ⟨a, b, c, d, rfl⟩
      simp [createObs, lowPass, he, addArr]

/-- Position of the puck as the agent sees it. -/
theorem pose1 (s : BState) : pose2d frame1 s = (s.pos.1 + 1.51, s.pos.2.1) := by
  have h1 := pose_in_planar 0 (-1.51, 0) 0 s
  rw [← frame1_eq] at h1
  obtain ⟨a, b⟩ := h1
  simp [xy] at a b
  exact Prod.ext (by simp only; linarith) b

/-- Observations lie outside of the declared observation space: the declared interval of the first entry is [-1, 1], which are coordinates of the table, but the entry
is in the frame of the robot, 1.51 to the left. Every observation with the puck to the right of x = -0.51 is outside, whatever the other limits are;
in particular every first observation of the defend and repel tasks. -/
theorem C119_space_refuted (flags : ℕ) (info : Info) (prev : Option (List ℝ)) (s : BState) (hx : -0.51 < s.pos.1) (obs : List ℝ)
    (ho : createObs none false prev s = some obs) :
    (modifyInfo flags info).high.getD 0 0 < obs.getD 0 0 := by
  have h : obs.getD 0 0 = s.pos.1 + 1.51 := by
    simp only [createObs] at ho
    simp [pose1] at ho
    rw [← ho]; simp
  rw [h]
  simp [modifyInfo, Info.make]
  norm_num at hx ⊢
  linarith

example (u ee : V2) (v angle w : ℝ) (hu : 0 ≤ u.1 ∧ u.1 < 1 ∧ 0 ≤ u.2 ∧ u.2 < 1) (hv : 0 < v) (hv' : v ≤ 99) (ha : |angle| ≤ 0.5)
    (hw : |w| ≤ 1) : -0.51 < (resetState (movingStart true u v angle w).1 (0, 0, 0) (0, 0, 0) (0, 0, 0) (ee.1, ee.2, 0)).pos.1 := by
  have := (C118_moving_start true u ee v angle w hu hv hv' ha hw).1.1
  simp only [resetState]
  norm_num at this ⊢; linarith

/-- The control period reported by the environment is always 0.1, whatever period the simulation has; discount and horizon are kept. -/
theorem C119_dt_refuted (flags : ℕ) (info : Info) :
    (modifyInfo flags info).dt = 0.1 ∧ (modifyInfo flags info).gamma = info.gamma ∧ (modifyInfo flags info).horizon = info.horizon ∧
    (∃ info : Info, info.dt = 1 / 240 ∧ (modifyInfo flags info).dt ≠ info.dt) :=
  ⟨rfl, rfl, rfl, ⟨[], [], 0.99, 500, 1 / 240⟩, rfl, by norm_num [modifyInfo, Info.make]⟩

/-- The declared space has as many entries as the observation with the flags that the tasks append. -/
theorem C119_space_size (flags : ℕ) (info : Info) (prev : Option (List ℝ)) (s : BState) (values : List ℝ) (hf : values.length = flags)
    (obs : List ℝ) (ho : createObs none false prev s = some obs) :
    (modifyInfo flags info).low.length = (obs ++ values).length ∧ (modifyInfo flags info).high.length = (obs ++ values).length := by
  obtain ⟨x, y, vx, vy, h, -⟩ := C119_observation prev s
  rw [h] at ho
  obtain rfl := Option.some.inj ho
  simp [modifyInfo, Info.make, hf]

example : ([1] : List ℝ).length = 1 ∧ ∃ obs s, createObs none false none s = some obs :=
  ⟨rfl, _, ⟨(0, 0, 0), (0, 0, 0, 1), (0, 0, 0), (0, 0, 0), (0, 0, 0), (0, 0, 0), (0, 0, 0)⟩, rfl⟩

/-! ### Kinematics -/

/-- The end effector computed by the forward kinematics: turning the first joint turns it around the base by the same angle; the distance to the base depends on the
other two joints by the law of cosines and is at most the length of the arm, 1.3, which is attained by the stretched arm. -/
theorem C119_forward_kinematics (q0 q1 q2 a : ℝ) :
    let p := forwardKinematics (q0, q1, q2)
    SamePoint a (0, 0) (p.1, p.2.1) ((forwardKinematics (q0 + a, q1, q2)).1, (forwardKinematics (q0 + a, q1, q2)).2.1) ∧
    p.1 ^ 2 + p.2.1 ^ 2 = 0.57 + 0.4 * Real.cos q1 + 0.4 * Real.cos (q1 + q2) + 0.32 * Real.cos q2 ∧
    norm2 (p.1, p.2.1) ≤ 1.3 ∧ (q1 = 0 → q2 = 0 → norm2 (p.1, p.2.1) = 1.3) := by
  intro p
  have hsq : p.1 ^ 2 + p.2.1 ^ 2 = 0.57 + 0.4 * Real.cos q1 + 0.4 * Real.cos (q1 + q2) + 0.32 * Real.cos q2 := by
    have e1 : Real.cos q1 = Real.cos q0 * Real.cos (q0 + q1) + Real.sin q0 * Real.sin (q0 + q1) := by
      rw [show q1 = (q0 + q1) - q0 by ring, Real.cos_sub]; ring_nf
    have e2 : Real.cos (q1 + q2) = Real.cos q0 * Real.cos (q0 + q1 + q2) + Real.sin q0 * Real.sin (q0 + q1 + q2) := by
      rw [show q1 + q2 = (q0 + q1 + q2) - q0 by ring, Real.cos_sub]; ring_nf
    have e3 : Real.cos q2 = Real.cos (q0 + q1) * Real.cos (q0 + q1 + q2) + Real.sin (q0 + q1) * Real.sin (q0 + q1 + q2) := by
      rw [show q2 = (q0 + q1 + q2) - (q0 + q1) by ring, Real.cos_sub]; ring_nf
    have f0 := Real.cos_sq_add_sin_sq q0
    have f1 := Real.cos_sq_add_sin_sq (q0 + q1)
    have f2 := Real.cos_sq_add_sin_sq (q0 + q1 + q2)
    simp only [p, forwardKinematics]
    rw [e1, e2, e3]
    linear_combination 0.25 * f0 + 0.16 * f1 + 0.16 * f2
  have c1 := Real.cos_le_one q1
  have c2 := Real.cos_le_one (q1 + q2)
  have c3 := Real.cos_le_one q2
  refine ⟨?_, hsq, ?_, ?_⟩
  · simp only [p, forwardKinematics, SamePoint]
    rw [show q0 + a + q1 + q2 = (q0 + q1 + q2) + a by ring, show q0 + a + q1 = (q0 + q1) + a by ring]
    simp only [Real.cos_add _ a, Real.sin_add _ a]
    constructor <;> ring
  · rw [norm2]
    simp only
    rw [hsq, Real.sqrt_le_left (by norm_num)]
    norm_num; linarith
  · intro h1 h2
    rw [norm2]
    simp only
    rw [hsq, h1, h2]
    simp only [add_zero, Real.cos_zero]
    rw [show (0.57 + 0.4 * 1 + 0.4 * 1 + 0.32 * 1 : ℝ) = 1.3 ^ 2 by norm_num, Real.sqrt_sq (by norm_num)]

/-! ### Flags -/

theorem hitPost_state (e : HEnv) (c : List String) : (hitPost e c).state = e.state := by
  simp only [hitPost]; repeat' split
  all_goals rfl

theorem contactPost_state (e : HEnv) (c : List String) : (contactPost e c).state = e.state := by
  simp only [contactPost]; repeat' split
  all_goals rfl

theorem hitPost_hit (e : HEnv) (c : List String) : (hitPost e c).hit = true ↔ e.hit = true ∨ norm2 (xy e.state.vel) > 0.1 := by
  rcases e with ⟨s, h, b⟩
  by_cases h1 : norm2 (xy s.vel) > 0.1 <;>
  by_cases h2 : contactsWith c "t_down_rim_l" + contactsWith c "t_down_rim_r" > 0 <;>
  cases h <;> cases b <;>
  simp only [hitPost, h1, h2, if_true, if_false, Bool.not_true, Bool.not_false, Bool.false_eq_true] <;> simp

theorem hit_fold (cs : List (List String)) (e : HEnv) :
    (cs.foldl hitPost e).state = e.state ∧
    ((cs.foldl hitPost e).hit = true ↔ e.hit = true ∨ (cs ≠ [] ∧ norm2 (xy e.state.vel) > 0.1)) := by
  induction cs generalizing e with
  | nil => simp
  | cons c cs ih =>
    obtain ⟨h1, h2⟩ := ih (hitPost e c)
    rw [hitPost_state] at h1
    refine ⟨h1, ?_⟩
    rw [List.foldl_cons, h2, hitPost_hit, hitPost_state]
    constructor
    · rintro ((h | h) | ⟨-, h⟩)
      · exact Or.inl h
      · exact Or.inr ⟨by simp, h⟩
      · exact Or.inr ⟨by simp, h⟩
    · rintro (h | ⟨-, h⟩)
      · exact Or.inl (Or.inl h)
      · exact Or.inl (Or.inr h)

/-- The puck moves. -/
def Moving (s : BState) : Prop := 0.1 < norm2 (xy s.vel)

theorem hit_run (steps : List (List (List String) × BState)) (hne : ∀ s ∈ steps, s.1 ≠ []) (last : List (List String) × BState) (hl : last.1 ≠ [])
    (e : HEnv) :
    ((steps ++ [last]).foldl (HEnv.step hitPost) e).hit = true ↔ e.hit = true ∨ ∃ s ∈ e.state :: steps.map Prod.snd, Moving s := by
  induction steps generalizing e with
  | nil =>
    simp only [List.nil_append, List.foldl_cons, List.foldl_nil, HEnv.step, (hit_fold last.1 e).2, hl, ne_eq, not_false_iff, true_and,
      List.map_nil, List.mem_singleton, exists_eq_left, Moving, gt_iff_lt]
  | cons s steps ih =>
    rw [List.cons_append, List.foldl_cons, ih (fun t ht => hne t (List.mem_cons_of_mem _ ht))]
    have h1 : (HEnv.step hitPost e s).hit = true ↔ e.hit = true ∨ Moving e.state := by
      simp only [HEnv.step, (hit_fold s.1 e).2, Moving, gt_iff_lt]
      simp [hne s (List.mem_cons_self)]
    rw [h1]
    simp only [HEnv.step, List.map_cons, List.mem_cons, exists_eq_or_imp, or_assoc]

/-- The flag of the hit task that is observed after a step tells whether the puck moved in one of the states observed before that step, since the reset. -/
theorem C119_hit_flag_partial (e0 : Option HEnv) (s0 : BState) (steps : List (List (List String) × BState)) (last : List (List String) × BState)
    (hne : ∀ s ∈ steps ++ [last], s.1 ≠ []) :
    ((steps ++ [last]).foldl (HEnv.step hitPost) (HEnv.reset e0 s0)).hit = true ↔
      Moving s0 ∨ ∃ s ∈ steps, Moving s.2 := by
  rw [hit_run steps (fun s hs => hne s (by simp [hs])) last (hne last (by simp))]
  simp only [HEnv.reset, Bool.false_eq_true, false_or, List.mem_cons, exists_eq_or_imp, List.mem_map, exists_exists_and_eq_and]

/-- The flag is one step late: after a step that ends with the puck moving, shown by the velocity in the same observation, the flag says that it was not hit. -/
theorem C119_hit_flag_refuted : ∃ (s0 : BState) (step : List (List String) × BState),
    step.1 = [["planar_robot_1/link_striker_ee"]] ∧ Moving step.2 ∧
    ([step].foldl (HEnv.step hitPost) (HEnv.reset none s0)).hit = false := by
  refine ⟨resetState (0, 0) (0, 0, 0) (0, 0, 0) (0, 0, 0) (0, 0, 0),
    ([["planar_robot_1/link_striker_ee"]], resetState (0, 0) (1, 0, 0) (0, 0, 0) (0, 0, 0) (0, 0, 0)), rfl, ?_, ?_⟩
  · simp [Moving, resetState, xy, norm2]; norm_num
  · have h := C119_hit_flag_partial none (resetState (0, 0) (0, 0, 0) (0, 0, 0) (0, 0, 0) (0, 0, 0)) []
      ([["planar_robot_1/link_striker_ee"]], resetState (0, 0) (1, 0, 0) (0, 0, 0) (0, 0, 0) (0, 0, 0)) (by simp)
    rw [List.nil_append] at h
    rw [Bool.eq_false_iff, Ne, h]
    simp [Moving, resetState, xy, norm2]
    norm_num

theorem hitPost_bounce (e : HEnv) (c : List String) :
    (hitPost e c).bounce = true ↔ e.bounce = true ∨ ∃ l ∈ c, l ∈ ["t_down_rim_l", "t_down_rim_r"] := by
  have hc : contactsWith c "t_down_rim_l" + contactsWith c "t_down_rim_r" > 0 ↔ ∃ l ∈ c, l ∈ ["t_down_rim_l", "t_down_rim_r"] := by
    simp only [contactsWith, gt_iff_lt, Nat.add_pos_iff_pos_or_pos, List.count_pos_iff]
    constructor
    · rintro (h | h)
      · exact ⟨_, h, by simp⟩
      · exact ⟨_, h, by simp⟩
    · rintro ⟨l, hl, hm⟩
      simp only [List.mem_cons, List.not_mem_nil, or_false] at hm
      rcases hm with rfl | rfl
      · exact Or.inl hl
      · exact Or.inr hl
  rw [← hc]
  rcases e with ⟨s, h, b⟩
  by_cases h1 : norm2 (xy s.vel) > 0.1 <;>
  by_cases h2 : contactsWith c "t_down_rim_l" + contactsWith c "t_down_rim_r" > 0 <;>
  cases h <;> cases b <;>
  simp only [hitPost, h1, h2, if_true, if_false, Bool.not_true, Bool.not_false, Bool.false_eq_true] <;> simp

theorem contactPost_hit (e : HEnv) (c : List String) :
    (contactPost e c).hit = true ↔ e.hit = true ∨ "planar_robot_1/link_striker_ee" ∈ c := by
  have hc : contactsWith c "planar_robot_1/link_striker_ee" > 0 ↔ "planar_robot_1/link_striker_ee" ∈ c := by
    simp only [contactsWith, gt_iff_lt, List.count_pos_iff]
  rw [← hc]
  rcases e with ⟨s, h, b⟩
  by_cases h1 : contactsWith c "planar_robot_1/link_striker_ee" > 0 <;>
  by_cases h2 : contactsWith c "t_up_rim_l" + contactsWith c "t_up_rim_r" + contactsWith c "t_down_rim_l" + contactsWith c "t_down_rim_r" > 0 <;>
  cases h <;> cases b <;>
  simp only [contactPost, h1, h2, if_true, if_false, Bool.not_true, Bool.not_false, Bool.false_eq_true] <;> simp

theorem contactPost_bounce (e : HEnv) (c : List String) :
    (contactPost e c).bounce = true ↔
      e.bounce = true ∨ ∃ l ∈ c, l ∈ ["t_up_rim_l", "t_up_rim_r", "t_down_rim_l", "t_down_rim_r"] := by
  have hc : contactsWith c "t_up_rim_l" + contactsWith c "t_up_rim_r" + contactsWith c "t_down_rim_l" + contactsWith c "t_down_rim_r" > 0 ↔
      ∃ l ∈ c, l ∈ ["t_up_rim_l", "t_up_rim_r", "t_down_rim_l", "t_down_rim_r"] := by
    simp only [contactsWith, gt_iff_lt, Nat.add_pos_iff_pos_or_pos, List.count_pos_iff]
    constructor
    · rintro (((h | h) | h) | h)
      · exact ⟨_, h, by simp⟩
      · exact ⟨_, h, by simp⟩
      · exact ⟨_, h, by simp⟩
      · exact ⟨_, h, by simp⟩
    · rintro ⟨l, hl, hm⟩
      simp only [List.mem_cons, List.not_mem_nil, or_false] at hm
      rcases hm with rfl | rfl | rfl | rfl
      · exact Or.inl (Or.inl (Or.inl hl))
      · exact Or.inl (Or.inl (Or.inr hl))
      · exact Or.inl (Or.inr hl)
      · exact Or.inr hl
  rw [← hc]
  rcases e with ⟨s, h, b⟩
  by_cases h1 : contactsWith c "planar_robot_1/link_striker_ee" > 0 <;>
  by_cases h2 : contactsWith c "t_up_rim_l" + contactsWith c "t_up_rim_r" + contactsWith c "t_down_rim_l" + contactsWith c "t_down_rim_r" > 0 <;>
  cases h <;> cases b <;>
  simp only [contactPost, h1, h2, if_true, if_false, Bool.not_true, Bool.not_false, Bool.false_eq_true] <;> simp

/-- A flag that every simulation step can only raise, under a condition on the contacts, is raised exactly when the condition held after some simulation step. -/
theorem latched (post : HEnv → List String → HEnv) (flag : HEnv → Bool) (P : List String → Prop)
    (hpost : ∀ e c, flag (post e c) = true ↔ flag e = true ∨ P c) (hstate : ∀ e s, flag { e with state := s } = flag e)
    (steps : List (List (List String) × BState)) (e : HEnv) :
    flag (steps.foldl (HEnv.step post) e) = true ↔ flag e = true ∨ ∃ s ∈ steps, ∃ c ∈ s.1, P c := by
  have inner : ∀ (cs : List (List String)) (e : HEnv), flag (cs.foldl post e) = true ↔ flag e = true ∨ ∃ c ∈ cs, P c := by
    intro cs
    induction cs with
    | nil => intro e; simp
    | cons c cs ih =>
      intro e
      rw [List.foldl_cons, ih, hpost]
      simp only [List.mem_cons, exists_eq_or_imp, or_assoc]
  induction steps generalizing e with
  | nil => simp
  | cons s steps ih =>
    have h1 := ih (HEnv.step post e s)
    have h2 : flag (HEnv.step post e s) = flag (s.1.foldl post e) := hstate _ _
    have h3 := inner s.1 e
    rw [← h2] at h3
    rw [List.foldl_cons]
    refine h1.trans ?_
    refine (or_congr_left h3).trans ?_
    simp only [List.mem_cons, exists_eq_or_imp, or_assoc]

/-- In the defend, prepare and repel tasks the flags tell, after every sequence of steps since a reset, whether after some simulation step the puck was in contact with the
end effector, respectively with one of the short sides of the table. In the hit task the second flag tells whether it was in contact with a lower short side. -/
theorem C119_contact_flags (e0 : Option HEnv) (s0 : BState) (steps : List (List (List String) × BState)) :
    let e := steps.foldl (HEnv.step contactPost) (HEnv.reset e0 s0)
    let h := steps.foldl (HEnv.step hitPost) (HEnv.reset e0 s0)
    (e.hit = true ↔ ∃ s ∈ steps, ∃ c ∈ s.1, "planar_robot_1/link_striker_ee" ∈ c) ∧
    (e.bounce = true ↔ ∃ s ∈ steps, ∃ c ∈ s.1, ∃ l ∈ c, l ∈ ["t_up_rim_l", "t_up_rim_r", "t_down_rim_l", "t_down_rim_r"]) ∧
    (h.bounce = true ↔ ∃ s ∈ steps, ∃ c ∈ s.1, ∃ l ∈ c, l ∈ ["t_down_rim_l", "t_down_rim_r"]) := by
  intro e h
  refine ⟨?_, ?_, ?_⟩
  · rw [latched contactPost HEnv.hit _ contactPost_hit (fun _ _ => rfl)]; simp [HEnv.reset]
  · rw [latched contactPost HEnv.bounce _ contactPost_bounce (fun _ _ => rfl)]; simp [HEnv.reset]
  · rw [latched hitPost HEnv.bounce _ hitPost_bounce (fun _ _ => rfl)]; simp [HEnv.reset]

example (s0 s1 : BState) :
    (([([[], ["planar_robot_1/link_striker_ee"]], s1)] : List (List (List String) × BState)).foldl (HEnv.step contactPost) (HEnv.reset none s0)).hit = true :=
  (C119_contact_flags none s0 _).1.2 ⟨_, List.mem_singleton.2 rfl, _, by simp, List.mem_singleton.2 rfl⟩

/-! ### Absorbing states and rewards -/

/-- A state is absorbing in all tasks when the puck is off the table, or its height differs from that of the table by more than five centimetres, or, if so configured,
the mallet is outside of the table. -/
theorem C119_absorbing (tbt : Bool) (s : BState) :
    baseAbsorbing tbt s ↔ ¬ OnTable (s.pos.1, s.pos.2.1) ∨ 0.05 < |s.pos.2.2 + 0.189| ∨
      (tbt = true ∧ ¬ OnTable (s.ee.1, s.ee.2.1)) := by
  simp only [baseAbsorbing, malletOut, OnTable, halfLength, halfWidth, gt_iff_lt, sub_neg_eq_add]
  rw [show (1.96 / 2 : ℝ) = 0.98 by norm_num, show (1.02 / 2 : ℝ) = 0.51 by norm_num, not_and_or, not_and_or, not_le, not_le, not_le, not_le]

/-- While the puck and the mallet are on the table, an episode of the defend task ends when the puck has been touched or has bounced and is more than 68 centimetres
away from the own goal line, one of the repel task when it has bounced, and one of the hit task when it has bounced or was hit and was slower than one
centimetre per second. -/
theorem C119_task_end (tbt : Bool) (e : HEnv) (s : BState) (hp : OnTable (s.pos.1, s.pos.2.1)) (hz : |s.pos.2.2 + 0.189| ≤ 0.05)
    (hm : tbt = true → OnTable (s.ee.1, s.ee.2.1)) :
    (defendAbsorbing tbt e s ↔ (e.hit = true ∨ e.bounce = true) ∧ 0.68 < s.pos.1 - -0.98) ∧
    (repelAbsorbing tbt e s ↔ e.bounce = true) ∧
    (hitAbsorbing tbt e s ↔ e.bounce = true ∨ e.hit = true ∧ norm2 (xy e.state.vel) < 0.01) := by
  have hb : ¬ baseAbsorbing tbt s := by
    rw [C119_absorbing]
    rintro (h | h | ⟨h1, h2⟩)
    · exact h hp
    · linarith
    · exact h2 (hm h1)
  refine ⟨?_, ?_, ?_⟩
  · simp only [defendAbsorbing, hb, false_or]
    constructor <;> rintro ⟨h1, h2⟩ <;> exact ⟨h1, by norm_num at h2 ⊢; linarith⟩
  · simp only [repelAbsorbing, hb, false_or]
  · simp only [hitAbsorbing, hb, false_or]
    exact or_comm

example : OnTable (0.1, 0.2) ∧ |(-0.189 : ℝ) + 0.189| ≤ 0.05 := by
  simp [OnTable]; norm_num

/-- Every reset of every task gives a state from which the first step is not absorbing by itself: the puck is on the table at the right height. -/
theorem C119_start (p : V2) (hp : OnTable p) (vel ang q ee : ℝ × ℝ × ℝ) (tbt : Bool) (he : tbt = true → OnTable (ee.1, ee.2.1)) :
    ¬ baseAbsorbing tbt (resetState p vel ang q ee) := by
  rw [C119_absorbing]
  rintro (h | h | ⟨h1, h2⟩)
  · exact h hp
  · simp [resetState] at h; norm_num at h
  · exact h2 (he h1)

example (random : Bool) (u : V2) (hu : 0 ≤ u.1 ∧ u.1 < 1 ∧ 0 ≤ u.2 ∧ u.2 < 1) : OnTable (hitStart random u) :=
  (C118_hit_start random u (0, 0) hu).2.1

/-- The reward of the hit task without the action penalty: a final step pays -10 if so configured and the mallet is outside of the table, otherwise 200 if the puck is
in the goal of the opponent and nothing if not; every other step pays between 0 and 42.5. -/
theorem C119_hit_reward (tbt : Bool) (penalty : ℝ) (p0 : V2) (action : List ℝ) (e : HEnv) (s : BState) (absorbing : Prop) :
    let r := hitRewardB tbt penalty p0 action e s absorbing + penalty * normL action
    let out := tbt = true ∧ ¬ OnTable (s.ee.1, s.ee.2.1)
    (absorbing → out → r = -10) ∧ (absorbing → ¬ out → Scored (xy s.pos) → r = 200) ∧
    (absorbing → ¬ out → ¬ Scored (xy s.pos) → r = 0) ∧ (¬ absorbing → 0 ≤ r ∧ r ≤ 42.5) := by
  intro r out
  have hout : (tbt = true ∧ malletOut s) ↔ out := by
    simp only [out, malletOut, OnTable, halfLength, halfWidth, gt_iff_lt]
    rw [show (1.96 / 2 : ℝ) = 0.98 by norm_num, show (1.02 / 2 : ℝ) = 0.51 by norm_num, not_and_or, not_le, not_le]
  obtain ⟨h1, h2, h3⟩ := C118_hit_reward penalty p0 action (hitView e s) absorbing
  refine ⟨fun ha ho => ?_, fun ha ho hs => ?_, fun ha ho hs => ?_, fun ha => ?_⟩
  · simp only [r, hitRewardB, if_pos (And.intro ha (hout.2 ho))]; ring
  · simp only [r, hitRewardB, if_neg (fun h : absorbing ∧ _ => ho (hout.1 h.2))]; exact h1 ha hs
  · simp only [r, hitRewardB, if_neg (fun h : absorbing ∧ _ => ho (hout.1 h.2))]; exact h2 ha hs
  · simp only [r, hitRewardB, if_neg (fun h : absorbing ∧ _ => ha h.1)]; exact h3 ha

/-- Reward and end of an episode of the hit task do not depend on the velocity that the puck has after the step, but on the one it had before: a shot is
rewarded one step late. -/
theorem C119_hit_speed_refuted (tbt : Bool) (penalty : ℝ) (p0 : V2) (action : List ℝ) (e : HEnv) (s : BState) (v : ℝ × ℝ × ℝ) (absorbing : Prop) :
    hitRewardB tbt penalty p0 action e { s with vel := v } absorbing = hitRewardB tbt penalty p0 action e s absorbing ∧
    (hitAbsorbing tbt e { s with vel := v } ↔ hitAbsorbing tbt e s) := ⟨rfl, Iff.rfl⟩

/-- The end of an episode of the prepare task is one step late: a step after a hit that brings the puck to the line y = 0 does not end the episode, and the next one
does wherever the puck is. -/
theorem C119_prepare_end_refuted (tbt side : Bool) :
    (∃ (e : HEnv) (s : BState), e.hit = true ∧ e.bounce = false ∧ s.pos.2.1 = 0 ∧ ¬ prepareAbsorbing tbt side e s) ∧
    (∀ (e : HEnv) (s : BState), e.hit = true → e.state.pos.2.1 = 0 → prepareAbsorbing tbt side e s) := by
  constructor
  · refine ⟨⟨resetState (-0.6, 0.2) (0, -1, 0) (0, 0, 0) (0, 0, 0) (-0.8, 0, 0), true, false⟩,
      resetState (-0.6, 0) (0, -1, 0) (0, 0, 0) (0, 0, 0) (-0.8, 0, 0), rfl, rfl, rfl, ?_⟩
    rintro (h | ⟨-, h⟩ | ⟨-, h⟩)
    · exact C119_start _ (by norm_num [OnTable, abs_le]) _ _ _ _ _ (fun _ => by norm_num [OnTable, abs_le]) h
    · simp only [resetState] at h
      rcases h with h | h
      · norm_num at h
      · rw [abs_of_pos (by norm_num)] at h; norm_num at h
    · simp at h
  · intro e s h1 h2
    refine Or.inr (Or.inl ⟨h1, Or.inr ?_⟩)
    rw [h2]; norm_num

/-- The reward of the defend task, as in the MuJoCo version, with the velocity of the puck. -/
theorem C119_defend_reward (penalty : ℝ) (action : List ℝ) (e : HEnv) (s : BState) (absorbing : Prop) :
    let r := defendReward penalty action (view e s) absorbing + penalty * normL action
    (absorbing → Conceded (xy s.pos) → r = -50) ∧ (absorbing → ¬ Conceded (xy s.pos) → r = 0) ∧
    (¬ absorbing → e.bounce = true → r = -1) ∧ (¬ absorbing → e.bounce = false → 0 ≤ r ∧ r ≤ 10) :=
  C118_defend_reward penalty action (view e s) absorbing

/-- As in the MuJoCo version a goal pays nothing in the repel task, while a step with the puck close to it pays more than 100; and the bonus of the prepare task is paid when
the puck is lost. -/
theorem C119_rewards_refuted (penalty : ℝ) (action : List ℝ) (tbt : Bool) (e : HEnv) (s : BState) :
    (Scored (xy s.pos) → repelReward penalty action (view e s) (repelAbsorbing tbt e s) = -(penalty * normL action)) ∧
    (∃ (e : HEnv) (s : BState), ¬ repelAbsorbing tbt e s ∧ ¬ Scored (xy s.pos) ∧
      100 < repelReward penalty action (view e s) (repelAbsorbing tbt e s) + penalty * normL action) ∧
    (Conceded (xy s.pos) → prepareReward true penalty action (view e s) (prepareAbsorbing tbt true e s) =
      100 * Real.exp (-2 * norm2 (xy s.vel))) := by
  refine ⟨fun hs => ?_, ?_, fun hs => ?_⟩
  · have ha : repelAbsorbing tbt e s := by
      refine Or.inl ((C119_absorbing tbt s).2 (Or.inl fun h => ?_))
      have h1 := hs.1
      have h2 := (abs_le.1 h.1).2
      simp only [xy] at h1 h2
      linarith
    have hc : ¬ Conceded (view e s).pos := by
      intro h; have a := h.1; have b := hs.1
      simp only [view, xy] at a b
      norm_num at a b; linarith
    have := (C118_repel_reward_partial penalty action (view e s) _ ha).2 hc
    linarith
  · refine ⟨⟨resetState (0, 0) (0, 0, 0) (0, 0, 0) (0, 0, 0) (-0.8, 0, 0), true, false⟩,
      resetState (0.97, 0) (0, 0, 0) (0, 0, 0) (0, 0, 0) (-0.8, 0, 0), ?_, ?_, ?_⟩
    · rintro (h | h)
      · exact C119_start _ (by norm_num [OnTable, abs_le]) _ _ _ _ _ (fun _ => by norm_num [OnTable, abs_le]) h
      · simp at h
    · rintro ⟨h, -⟩; simp only [resetState, xy] at h; norm_num at h
    · have hna : ¬ repelAbsorbing tbt ⟨resetState (0, 0) (0, 0, 0) (0, 0, 0) (0, 0, 0) (-0.8, 0, 0), true, false⟩
          (resetState (0.97, 0) (0, 0, 0) (0, 0, 0) (0, 0, 0) (-0.8, 0, 0)) := by
        rintro (h | h)
        · exact C119_start _ (by norm_num [OnTable, abs_le]) _ _ _ _ _ (fun _ => by norm_num [OnTable, abs_le]) h
        · simp at h
      have hv : view ⟨resetState (0, 0) (0, 0, 0) (0, 0, 0) (0, 0, 0) (-0.8, 0, 0), true, false⟩
          (resetState (0.97, 0) (0, 0, 0) (0, 0, 0) (0, 0, 0) (-0.8, 0, 0)) =
          ⟨(0.97, 0), (0, 0), Real.sqrt (0 ^ 2 + 0 ^ 2 + 0 ^ 2), (-0.8, 0), true, false⟩ := rfl
      rw [hv, repel_near penalty action (0.97, 0) (0, 0) _ _ _ hna (by norm_num)]
      norm_num
  · have ha : prepareAbsorbing tbt true e s := by
      refine Or.inl ((C119_absorbing tbt s).2 (Or.inl fun h => ?_))
      have h1 := hs.1
      have h2 := (abs_le.1 h.1).1
      simp only [xy] at h1 h2
      linarith
    exact prepare_bonus_side penalty action (view e s) ha (lt_trans hs.2 (by norm_num))

end

end Verif.Hockey.Bullet
