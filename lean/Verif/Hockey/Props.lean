/-
C118: air hockey (MuJoCo). C120: ball in a cup.
-/
import Verif.Hockey.Model
import Verif.Hockey.Spec
import Mathlib.Analysis.Real.Pi.Bounds
import Mathlib.Analysis.Complex.ExponentialBounds
import Mathlib.Tactic.Linarith
import Mathlib.Tactic.NormNum
import Mathlib.Tactic.FinCases

namespace Verif.Hockey

open Spec

noncomputable section

/-! ### Flags -/

theorem collide_iff (cs : List (String × String)) (g1 g2 : List String) :
    collide cs g1 g2 = true ↔ ∃ a ∈ g1, ∃ b ∈ g2, Touch cs a b := by
  simp only [collide, Touch, List.any_eq_true, Bool.or_eq_true, Bool.and_eq_true, List.contains_iff_mem, Prod.exists]
  constructor
  · rintro ⟨a, b, hm, (⟨h1, h2⟩ | ⟨h1, h2⟩)⟩
    · exact ⟨a, h1, b, h2, Or.inl hm⟩
    · exact ⟨b, h1, a, h2, Or.inr hm⟩
  · rintro ⟨a, h1, b, h2, (hm | hm)⟩
    · exact ⟨a, b, hm, Or.inl ⟨h1, h2⟩⟩
    · exact ⟨b, a, hm, Or.inr ⟨h1, h2⟩⟩

theorem post_hit (f : Flags) (c : List (String × String)) :
    (f.post c).hit = (f.hit || collide c groupPuck groupEe1) := by
  rcases f with ⟨h, b⟩; cases h <;> cases b <;> simp [Flags.post]

theorem post_bounce (f : Flags) (c : List (String × String)) :
    (f.post c).bounce = (f.bounce || collide c groupPuck groupShort) := by
  rcases f with ⟨h, b⟩; cases h <;> cases b <;> simp [Flags.post]

theorem fold_hit (cs : List (List (String × String))) (f : Flags) :
    (cs.foldl Flags.post f).hit = (f.hit || cs.any fun c => collide c groupPuck groupEe1) := by
  induction cs generalizing f with
  | nil => simp
  | cons c cs ih => simp only [List.foldl_cons, ih, post_hit, List.any_cons, Bool.or_assoc]

theorem fold_bounce (cs : List (List (String × String))) (f : Flags) :
    (cs.foldl Flags.post f).bounce = (f.bounce || cs.any fun c => collide c groupPuck groupShort) := by
  induction cs generalizing f with
  | nil => simp
  | cons c cs ih => simp only [List.foldl_cons, ih, post_bounce, List.any_cons, Bool.or_assoc]

/-- Whatever happened before the reset, the two flags at the end of the observation tell whether, after some simulation step since the reset, the puck
was in contact with the end effector, respectively with a short side of the table. -/
theorem C118_flags (f : Flags) (cs : List (List (String × String))) :
    let g := cs.foldl Flags.post f.setup
    (g.hit = true ↔ ∃ c ∈ cs, Touch c "puck" "planar_robot_1/ee") ∧
    (g.bounce = true ↔ ∃ c ∈ cs, ∃ side ∈ shortSides, Touch c "puck" side) ∧
    g.observed = [if g.hit = true then 1 else 0, if g.bounce = true then 1 else 0] := by
  intro g
  refine ⟨?_, ?_, rfl⟩
  · show (cs.foldl Flags.post f.setup).hit = true ↔ _
    rw [fold_hit]
    simp [Flags.setup, List.any_eq_true, collide_iff, groupPuck, groupEe1]
  · show (cs.foldl Flags.post f.setup).bounce = true ↔ _
    rw [fold_bounce]
    simp [Flags.setup, List.any_eq_true, collide_iff, groupPuck, groupShort, shortSides]

example : ([[], [("planar_robot_1/ee", "puck")], []].foldl Flags.post (Flags.setup ⟨true, true⟩)).hit = true ∧
    ([[], [("planar_robot_1/ee", "puck")], []].foldl Flags.post (Flags.setup ⟨true, true⟩)).bounce = false := by
  refine ⟨(C118_flags ⟨true, true⟩ _).1.2 ⟨_, by simp, Or.inr (List.mem_singleton.2 rfl)⟩, ?_⟩
  rw [fold_bounce]; simp [Flags.setup, collide, groupPuck, groupShort]

theorem post2 (f : Flags2) (c : List (String × String)) :
    (f.post c).hit1 = (f.hit1 || collide c groupPuck groupEe1) ∧ (f.post c).hit2 = (f.hit2 || collide c groupPuck groupEe1) ∧
    (f.post c).bounce = (f.bounce || collide c groupPuck groupShort) := by
  rcases f with ⟨h, h2, b⟩; cases h <;> cases h2 <;> cases b <;> simp [Flags2.post]

theorem fold2 (cs : List (List (String × String))) (f : Flags2) :
    (cs.foldl Flags2.post f).hit1 = (f.hit1 || cs.any fun c => collide c groupPuck groupEe1) ∧
    (cs.foldl Flags2.post f).hit2 = (f.hit2 || cs.any fun c => collide c groupPuck groupEe1) ∧
    (cs.foldl Flags2.post f).bounce = (f.bounce || cs.any fun c => collide c groupPuck groupShort) := by
  induction cs generalizing f with
  | nil => simp
  | cons c cs ih =>
    obtain ⟨h1, h2, h3⟩ := post2 f c
    obtain ⟨i1, i2, i3⟩ := ih (f.post c)
    simp only [List.foldl_cons, i1, i2, i3, h1, h2, h3, List.any_cons, Bool.or_assoc, and_self]

/-- With two agents the flags of the first agent and of the short sides are right. -/
theorem C118_flags_double_partial (f : Flags2) (cs : List (List (String × String))) :
    let g := cs.foldl Flags2.post f.setup
    (g.hit1 = true ↔ ∃ c ∈ cs, Touch c "puck" "planar_robot_1/ee") ∧
    (g.bounce = true ↔ ∃ c ∈ cs, ∃ side ∈ shortSides, Touch c "puck" side) := by
  intro g
  obtain ⟨h1, -, h3⟩ := fold2 cs f.setup
  refine ⟨?_, ?_⟩
  · show (cs.foldl Flags2.post f.setup).hit1 = true ↔ _
    rw [h1]
    simp [Flags2.setup, List.any_eq_true, collide_iff, groupPuck, groupEe1]
  · show (cs.foldl Flags2.post f.setup).bounce = true ↔ _
    rw [h3]
    simp [Flags2.setup, List.any_eq_true, collide_iff, groupPuck, groupShort, shortSides]

/-- The flag of the second agent repeats that of the first: a hit of the second agent alone is not observed, and a hit of the first agent alone is
observed as a hit of the second. -/
theorem C118_flags_double_refuted :
    (∀ (f : Flags2) (cs : List (List (String × String))),
      (cs.foldl Flags2.post f.setup).hit2 = (cs.foldl Flags2.post f.setup).hit1) ∧
    (∃ cs : List (List (String × String)), (∃ c ∈ cs, Touch c "puck" "planar_robot_2/ee") ∧
      (cs.foldl Flags2.post ⟨false, false, false⟩).hit2 = false) ∧
    (∃ cs : List (List (String × String)), (¬ ∃ c ∈ cs, Touch c "puck" "planar_robot_2/ee") ∧
      (cs.foldl Flags2.post ⟨false, false, false⟩).hit2 = true) := by
  refine ⟨?_, ⟨[[("puck", "planar_robot_2/ee")]], ⟨_, List.mem_singleton.2 rfl, Or.inl (List.mem_singleton.2 rfl)⟩, ?_⟩,
    ⟨[[("puck", "planar_robot_1/ee")]], ?_, ?_⟩⟩
  · intro f cs
    obtain ⟨h1, h2, -⟩ := fold2 cs f.setup
    rw [h1, h2]; rfl
  · rw [(fold2 _ _).2.1]; simp [collide, groupPuck, groupEe1]
  · simp [Touch]
  · rw [(fold2 _ _).2.1]; simp [collide, groupPuck, groupEe1]

/-- With two agents the end effectors can not be read: `get_ee` fails for both robots, whatever the state of the simulation. -/
theorem C118_get_ee_refuted {D : Type} (value : String → D) :
    getEe2 value "1" = none ∧ getEe2 value "2" = none := by
  constructor
  · have : dataKeys2.contains ("planar_robot_" ++ "1" ++ "/ee_pos") = false := by decide +kernel
    simp only [getEe2, readData, this]; rfl
  · have : dataKeys2.contains ("planar_robot_" ++ "2" ++ "/ee_pos") = false := by decide +kernel
    simp only [getEe2, readData, this]; rfl

/-! ### Position and velocity of the puck -/

theorem posObs_eq (x y z a b c d : ℝ) (qvel : List ℝ) (ee : V2) (h g : Bool) :
    (Snap.mk [x, y, z, a, b, c, d] qvel ee h g).posObs = [x, y] := by
  simp [Snap.posObs, without, List.zipIdx_cons]

theorem velObs_eq (qpos : List ℝ) (vx vy vz wx wy wz : ℝ) (ee : V2) (h g : Bool) :
    (Snap.mk qpos [vx, vy, vz, wx, wy, wz] ee h g).velObs = [vx, vy, wz] := by
  simp [Snap.velObs, without, List.zipIdx_cons]

/-- `get_puck` returns the planar position of the puck. -/
theorem C118_position (x y z a b c d : ℝ) (qvel : List ℝ) (ee : V2) (h g : Bool) :
    (Snap.mk [x, y, z, a, b, c, d] qvel ee h g).pos = (x, y) := by
  simp [Snap.pos, Snap.getPuck, posObs_eq]

theorem pos_eq (p : V2) (qvel : List ℝ) (ee : V2) (h g : Bool) : (Snap.mk (qposOf p) qvel ee h g).pos = p := by
  simp [qposOf, C118_position]

/-- The free joint of the puck has three linear and then three angular velocities. `get_puck` is documented to return the planar linear velocity and
the angular velocity around the vertical axis; it returns the velocity along y and the angular velocity as linear velocity, and the velocity along x as
angular velocity. -/
theorem C118_velocity_refuted (qpos : List ℝ) (vx vy vz wx wy wz : ℝ) (ee : V2) (h g : Bool) :
    (Snap.mk qpos [vx, vy, vz, wx, wy, wz] ee h g).getPuck.2 = ((vy, wz), vx) ∧
    ((Snap.mk qpos [vx, vy, vz, wx, wy, wz] ee h g).getPuck.2 = ((vx, vy), wz) ↔ vx = vy ∧ vy = wz) := by
  have h1 : (Snap.mk qpos [vx, vy, vz, wx, wy, wz] ee h g).getPuck.2 = ((vy, wz), vx) := by
    simp [Snap.getPuck, velObs_eq]
  refine ⟨h1, ?_⟩
  rw [h1]
  simp only [Prod.mk.injEq]
  constructor
  · rintro ⟨⟨a, b⟩, -⟩; exact ⟨a.symm, b.symm⟩
  · rintro ⟨a, b⟩; exact ⟨⟨a.symm, b.symm⟩, a.trans b⟩

/-- A state is absorbing in all tasks when the puck is off the table or faster than 100, where the angular velocity counts as a third component. -/
theorem C118_absorbing (x y z a b c d vx vy vz wx wy wz : ℝ) (ee : V2) (h g : Bool) :
    baseAbsorbing (Snap.mk [x, y, z, a, b, c, d] [vx, vy, vz, wx, wy, wz] ee h g) ↔
    ¬ OnTable (x, y) ∨ 100 ^ 2 < vx ^ 2 + vy ^ 2 + wz ^ 2 := by
  simp only [baseAbsorbing, C118_position, velObs_eq, OnTable, halfLength, halfWidth, normL, List.map_cons, List.map_nil, List.sum_cons,
    List.sum_nil, gt_iff_lt]
  rw [Real.lt_sqrt (by norm_num), show vx ^ 2 + (vy ^ 2 + (wz ^ 2 + 0)) = vx ^ 2 + vy ^ 2 + wz ^ 2 by ring,
    show (1.96 / 2 : ℝ) = 0.98 by norm_num, show (1.02 / 2 : ℝ) = 0.51 by norm_num, not_and_or, not_le, not_le, or_assoc]

/-- The frame of a robot whose base is turned around the vertical axis. -/
def planarFrame (angle : ℝ) (t : V2) (z : ℝ) : Frame :=
  !![Real.cos angle, -Real.sin angle, 0, t.1; Real.sin angle, Real.cos angle, 0, t.2; 0, 0, 1, z; 0, 0, 0, 1]

def planarInv (angle : ℝ) (t : V2) (z : ℝ) : Frame :=
  !![Real.cos angle, Real.sin angle, 0, -(Real.cos angle * t.1 + Real.sin angle * t.2);
     -Real.sin angle, Real.cos angle, 0, -(-Real.sin angle * t.1 + Real.cos angle * t.2); 0, 0, 1, -z; 0, 0, 0, 1]

theorem planar_inv (angle : ℝ) (t : V2) (z : ℝ) : (planarFrame angle t z)⁻¹ = planarInv angle t z := by
  apply Matrix.inv_eq_right_inv
  have h := Real.cos_sq_add_sin_sq angle
  ext i j
  fin_cases i <;> fin_cases j <;>
    simp [planarFrame, planarInv, Matrix.mul_apply, Fin.sum_univ_succ] <;>
    first | linear_combination h | linear_combination (-t.1) * h | linear_combination (-t.2) * h | ring_nf

/-- The observed position of the puck, expressed in the frame of the robot, is the position of the puck, for every placement of the robot turned around
the vertical axis. -/
theorem C118_position_in_frame (angle : ℝ) (t : V2) (z : ℝ) (p : V2) :
    SamePoint angle t (poseInFrame (planarFrame angle t z) p) p := by
  have h := Real.cos_sq_add_sin_sq angle
  simp only [SamePoint, poseInFrame, planar_inv]
  simp [planarInv, puckFrame, Matrix.mul_apply, Fin.sum_univ_succ]
  constructor
  · linear_combination (p.1 - t.1) * h
  · linear_combination (p.2 - t.2) * h

/-- The observed velocity is right for the robot that is not turned, the first one: its entries are the planar linear velocity and the angular velocity around the
vertical axis. -/
theorem C118_velocity_in_frame_partial (t : V2) (z : ℝ) (qpos : List ℝ) (vx vy vz wx wy wz : ℝ) (ee : V2) (h g : Bool) :
    let v := observedVel (planarFrame 0 t z) (Snap.mk qpos [vx, vy, vz, wx, wy, wz] ee h g)
    SameVelocity 0 (v.1, v.2.1) (vx, vy) ∧ v.2.2 = wz := by
  simp [observedVel, velObs_eq, velInFrame, planarFrame, SameVelocity, SamePoint]

/-- The rotation itself is right for every orientation: given the planar velocity in the last two entries, it would express it in the frame of the robot. -/
theorem C118_rotation (angle : ℝ) (t : V2) (z : ℝ) (v : ℝ × ℝ × ℝ) :
    (velInFrame (planarFrame angle t z) v).1 = v.1 ∧ SameVelocity angle (velInFrame (planarFrame angle t z) v).2 v.2 := by
  have h := Real.cos_sq_add_sin_sq angle
  refine ⟨rfl, ?_⟩
  simp only [velInFrame, planarFrame, SameVelocity, SamePoint]
  simp
  constructor
  · linear_combination v.2.1 * h
  · linear_combination v.2.2 * h

/-- The velocity observed by the second robot, which is turned by half a turn, is wrong: the velocity along x is not turned and the angular velocity changes
its sign. -/
theorem C118_velocity_in_frame_refuted (t : V2) (z : ℝ) (qpos : List ℝ) (vx vy vz wx wy wz : ℝ) (ee : V2) (h g : Bool) :
    let v := observedVel (planarFrame Real.pi t z) (Snap.mk qpos [vx, vy, vz, wx, wy, wz] ee h g)
    v = (vx, -vy, -wz) ∧ (vx ≠ 0 → ¬ SameVelocity Real.pi (v.1, v.2.1) (vx, vy)) := by
  have hv : observedVel (planarFrame Real.pi t z) (Snap.mk qpos [vx, vy, vz, wx, wy, wz] ee h g) = (vx, -vy, -wz) := by
    simp [observedVel, velObs_eq, velInFrame, planarFrame]
  intro v
  refine ⟨hv, fun hx hs => ?_⟩
  have hv' : v = (vx, -vy, -wz) := hv
  rw [hv'] at hs
  have := hs.1
  simp at this
  exact hx (by linarith)

/-! ### Constraints -/

theorem satisfied_append (a b : List ℝ) : Satisfied (a ++ b) ↔ Satisfied a ∧ Satisfied b := by
  simp [Satisfied, List.mem_append, or_imp, forall_and]

theorem satisfied_sub (a b : List ℝ) (h : a.length = b.length) :
    Satisfied (List.zipWith (· - ·) a b) ↔ ∀ i, i < a.length → a.getD i 0 ≤ b.getD i 0 := by
  induction a generalizing b with
  | nil => simp [Satisfied]
  | cons x a ih =>
    cases b with
    | nil => simp at h
    | cons y b =>
      have hl : a.length = b.length := by simpa using h
      have : Satisfied (List.zipWith (· - ·) (x :: a) (y :: b)) ↔ x ≤ y ∧ Satisfied (List.zipWith (· - ·) a b) := by
        simp [Satisfied]
      rw [this, ih b hl]
      constructor
      · rintro ⟨h0, h1⟩ i hi
        cases i with
        | zero => simpa using h0
        | succ i => simpa using h1 i (by simpa using hi)
      · intro hh
        refine ⟨by simpa using hh 0 (by simp), fun i hi => by simpa using hh (i + 1) (by simpa using hi)⟩

/-- The constraints on the velocities hold exactly when every joint velocity is within its limits. The constraints on the end effector hold exactly
when it is not beyond the home side by more than the radius of the mallet and the mallet does not cross the long sides. -/
theorem C118_constraints_partial (fk : List ℝ → V2) (base : V2) (posLim velLim : List ℝ × List ℝ) (qpos qvel : List ℝ)
    (hl : velLim.1.length = qvel.length) (hu : velLim.2.length = qvel.length) :
    let c := constraints fk base posLim velLim qpos qvel
    (Satisfied c.jointVel ↔ Within velLim.1 velLim.2 qvel) ∧
    (Satisfied c.ee ↔ -(0.98 + 0.05) ≤ (fk qpos).1 + base.1 ∧ |(fk qpos).2 + base.2| ≤ 0.51 - 0.05) := by
  intro c
  constructor
  · show Satisfied (List.zipWith (· - ·) qvel velLim.2 ++ List.zipWith (· - ·) velLim.1 qvel) ↔ _
    rw [satisfied_append, satisfied_sub _ _ hu.symm, satisfied_sub _ _ hl]
    constructor
    · rintro ⟨h1, h2⟩ i hi; exact ⟨h2 i (by omega), h1 i hi⟩
    · intro h; exact ⟨fun i hi => (h i hi).2, fun i hi => (h i (by omega)).1⟩
  · simp only [c, constraints, Satisfied, List.mem_cons, List.not_mem_nil, or_false, forall_eq_or_imp, forall_eq, halfLength,
      halfWidth, malletRadius, abs_le]
    constructor
    · rintro ⟨h1, h2, h3⟩; norm_num at *; refine ⟨by linarith, by linarith, by linarith⟩
    · rintro ⟨h1, h2, h3⟩; norm_num at *; refine ⟨by linarith, by linarith, by linarith⟩

example : ∃ (velLim : List ℝ × List ℝ) (qvel : List ℝ), velLim.1.length = qvel.length ∧ velLim.2.length = qvel.length ∧
    Within velLim.1 velLim.2 qvel := by
  refine ⟨([-1, -1, -1], [1, 1, 1]), [0, 0.5, -0.5], rfl, rfl, ?_⟩
  intro i hi
  have : i = 0 ∨ i = 1 ∨ i = 2 := by simp at hi; omega
  rcases this with rfl | rfl | rfl <;> norm_num

/-- The constraints on the joint positions do not look at the positions: they may hold for positions outside the limits and fail for positions inside.
The constraints on the end effector may hold although its centre is not over the table. -/
theorem C118_constraints_refuted (fk : List ℝ → V2) (base : V2) (velLim : List ℝ × List ℝ) :
    (∀ (posLim : List ℝ × List ℝ) (q1 q2 qvel : List ℝ),
      (constraints fk base posLim velLim q1 qvel).jointPos = (constraints fk base posLim velLim q2 qvel).jointPos) ∧
    (∃ (lo hi qpos qvel : List ℝ), ¬ Within lo hi qpos ∧ Satisfied (constraints fk base (lo, hi) velLim qpos qvel).jointPos) ∧
    (∃ (lo hi qpos qvel : List ℝ), Within lo hi qpos ∧ ¬ Satisfied (constraints fk base (lo, hi) velLim qpos qvel).jointPos) ∧
    (∃ (fk : List ℝ → V2) (qpos qvel : List ℝ),
      Satisfied (constraints fk (0, 0) ([], []) velLim qpos qvel).ee ∧ ¬ OnTable (fk qpos)) := by
  refine ⟨fun _ _ _ _ => rfl, ⟨[-1, -1, -1], [1, 1, 1], [2, 0, 0], [0, 0, 0], ?_, ?_⟩, ⟨[-1, -1, -1], [1, 1, 1], [0, 0, 0], [2, 0, 0], ?_, ?_⟩,
    ⟨fun _ => (-1, 0), [], [], ?_, ?_⟩⟩
  · intro h; have := (h 0 (by simp)).2; norm_num at this
  · simp [constraints, Satisfied]
  · intro i hi
    have : i = 0 ∨ i = 1 ∨ i = 2 := by simp at hi; omega
    rcases this with rfl | rfl | rfl <;> norm_num
  · intro h
    have := h (2 - 1) (by simp [constraints])
    norm_num at this
  · simp only [constraints, Satisfied, List.mem_cons, List.not_mem_nil, or_false, forall_eq_or_imp, forall_eq, halfLength,
      halfWidth, malletRadius]
    norm_num
  · intro h; have := h.1; norm_num at this

/-! ### Resets -/

theorem uniformIn_inside (range : (ℝ × ℝ) × (ℝ × ℝ)) (u : V2) (h1 : range.1.1 ≤ range.1.2) (h2 : range.2.1 ≤ range.2.2)
    (hu : 0 ≤ u.1 ∧ u.1 < 1 ∧ 0 ≤ u.2 ∧ u.2 < 1) : Inside range (uniformIn range u) := by
  obtain ⟨a, b, c, d⟩ := hu
  simp only [Inside, uniformIn]
  refine ⟨?_, ?_, ?_, ?_⟩ <;> nlinarith

theorem centre_inside (range : (ℝ × ℝ) × (ℝ × ℝ)) (h1 : range.1.1 ≤ range.1.2) (h2 : range.2.1 ≤ range.2.2) :
    Inside range (centre range) := by
  simp only [Inside, centre]
  refine ⟨?_, ?_, ?_, ?_⟩ <;> linarith

theorem norm_three (a b c : ℝ) (h : a ^ 2 + b ^ 2 + c ^ 2 ≤ 100 ^ 2) : ¬ normL [a, b, c] > 100 := by
  simp only [normL, List.map_cons, List.map_nil, List.sum_cons, List.sum_nil, not_lt, gt_iff_lt]
  rw [Real.sqrt_le_left (by norm_num)]
  linarith

theorem base_false (p : V2) (vx vy vz wx wy wz : ℝ) (ee : V2) (hp : OnTable p) (hv : vx ^ 2 + vy ^ 2 + wz ^ 2 ≤ 100 ^ 2) :
    ¬ baseAbsorbing (resetSnap p [vx, vy, vz, wx, wy, wz] ee) := by
  rintro (h | h | h)
  · have := hp.1
    simp only [resetSnap, pos_eq, halfLength] at h
    norm_num at h this; linarith
  · have := hp.2
    simp only [resetSnap, pos_eq, halfWidth] at h
    norm_num at h this; linarith
  · simp only [resetSnap, velObs_eq] at h
    exact norm_three _ _ _ hv h

/-- Every reset of the hit task puts the puck at rest into the starting range, on the table, in a state that is not absorbing. -/
theorem C118_hit_start (random : Bool) (u ee : V2) (hu : 0 ≤ u.1 ∧ u.1 < 1 ∧ 0 ≤ u.2 ∧ u.2 < 1) :
    Inside ((-0.65, -0.25), (-0.4, 0.4)) (hitStart random u) ∧ OnTable (hitStart random u) ∧
    ¬ baseAbsorbing (resetSnap (hitStart random u) zeroVel ee) ∧
    (resetSnap (hitStart random u) zeroVel ee).qvel = [0, 0, 0, 0, 0, 0] := by
  have h1 : Inside ((-0.65, -0.25), (-0.4, 0.4)) (hitStart random u) := by
    unfold hitStart
    split
    · exact uniformIn_inside hitRange u (by norm_num [hitRange]) (by norm_num [hitRange]) hu
    · exact centre_inside hitRange (by norm_num [hitRange]) (by norm_num [hitRange])
  have h2 : OnTable (hitStart random u) := by
    obtain ⟨a, b, c, d⟩ := h1
    norm_num at a b c d
    constructor <;> rw [abs_le] <;> norm_num <;> constructor <;> linarith
  exact ⟨h1, h2, base_false _ _ _ _ _ _ _ ee h2 (by norm_num), rfl⟩

/-- Without random initialisation the puck starts in the middle of the starting range; in the defend and repel tasks it moves straight towards the agent with
one metre per second and does not spin. -/
theorem C118_fixed_start (u : V2) (v angle w : ℝ) (flip : Bool) :
    hitStart false u = (-0.45, 0) ∧ movingStart false u v angle w = ((0.45, 0), [-1, 0, 0], [0, 0, 0]) ∧
    prepareStart "side" false u flip = some (-0.6, 0.355) ∧ prepareStart "bottom" false u flip = some (-0.85, 0.2925) := by
  have hne : ("bottom" : String) ≠ "side" := by decide
  refine ⟨?_, ?_, ?_, ?_⟩
  · norm_num [hitStart, centre, hitRange]
  · norm_num [movingStart, startRange]
  · simp only [prepareStart, prepareRange, if_true, Option.bind_eq_bind, Option.bind_some, centre]
    norm_num
  · simp only [prepareStart, prepareRange, if_true, Option.bind_eq_bind, Option.bind_some, centre, if_neg hne]
    norm_num

/-- Every reset of the defend and repel tasks puts the puck into the starting range on the other half of the table, moves it towards the agent, and gives
a state that is not absorbing. With random initialisation its speed is the drawn one. -/
theorem C118_moving_start (random : Bool) (u ee : V2) (v angle w : ℝ) (hu : 0 ≤ u.1 ∧ u.1 < 1 ∧ 0 ≤ u.2 ∧ u.2 < 1)
    (hv : 0 < v) (hv' : v ≤ 99) (ha : |angle| ≤ 0.5) (hw : |w| ≤ 1) :
    let s := movingStart random u v angle w
    let snap := resetSnap s.1 (qvelOf s) ee
    Inside ((0.25, 0.65), (-0.4, 0.4)) s.1 ∧ OnTable s.1 ∧ snap.qvel.getD 0 0 < 0 ∧
    (random = true → normL (snap.qvel.take 3) = v ∧ snap.qvel.drop 3 = [0, 0, w]) ∧ ¬ defendAbsorbing snap ∧ ¬ repelAbsorbing snap := by
  intro s snap
  have h1 : Inside ((0.25, 0.65), (-0.4, 0.4)) s.1 := by
    simp only [s, movingStart]
    split
    · exact uniformIn_inside startRange u (by norm_num [startRange]) (by norm_num [startRange]) hu
    · norm_num [Inside, startRange]
  have h2 : OnTable s.1 := by
    obtain ⟨a, b, c, d⟩ := h1
    norm_num at a b c d
    constructor <;> rw [abs_le] <;> norm_num <;> constructor <;> linarith
  have hsc := Real.sin_sq_add_cos_sq angle
  have hb : ¬ baseAbsorbing snap := by
    simp only [snap, s, movingStart, qvelOf] at h2 ⊢
    rw [abs_le] at hw
    cases random with
    | true =>
      simp only [if_true] at h2 ⊢
      refine base_false _ _ _ _ _ _ _ ee h2 ?_
      have : (-Real.cos angle * v) ^ 2 + (Real.sin angle * v) ^ 2 = v ^ 2 := by
        have : (-Real.cos angle * v) ^ 2 + (Real.sin angle * v) ^ 2 = v ^ 2 * (Real.sin angle ^ 2 + Real.cos angle ^ 2) := by ring
        rw [this, hsc, mul_one]
      nlinarith
    | false =>
      simp only [Bool.false_eq_true, if_false] at h2 ⊢
      exact base_false _ _ _ _ _ _ _ ee h2 (by norm_num)
  refine ⟨h1, h2, ?_, ?_, ?_, ?_⟩
  · simp only [snap, resetSnap, qvelOf, s, movingStart]
    split
    · have hc : 0 < Real.cos angle := by
        apply Real.cos_pos_of_mem_Ioo
        rw [abs_le] at ha
        have := Real.pi_gt_three
        constructor <;> norm_num at * <;> linarith [ha.1, ha.2]
      have := mul_pos hc hv
      simp only [List.cons_append, List.getD_cons_zero]; linarith
    · norm_num
  · intro hr
    refine ⟨?_, by simp [snap, resetSnap, qvelOf, s, movingStart, hr]⟩
    simp only [snap, resetSnap, qvelOf, s, movingStart, hr, if_true, List.cons_append, List.take_succ_cons, List.take_zero, normL, List.map_cons, List.map_nil, List.sum_cons, List.sum_nil]
    rw [show (-Real.cos angle * v) ^ 2 + ((Real.sin angle * v) ^ 2 + (0 ^ 2 + 0)) = v ^ 2 * (Real.sin angle ^ 2 + Real.cos angle ^ 2) by ring,
      hsc, mul_one, Real.sqrt_sq hv.le]
  · rintro (⟨h | h, -⟩ | h)
    · simp [snap, resetSnap] at h
    · simp [snap, resetSnap] at h
    · exact hb h
  · rintro (h | h)
    · exact hb h
    · simp [snap, resetSnap] at h

example : ∃ (u : V2) (v angle w : ℝ), (0 ≤ u.1 ∧ u.1 < 1 ∧ 0 ≤ u.2 ∧ u.2 < 1) ∧ 0 < v ∧ v ≤ 99 ∧ |angle| ≤ 0.5 ∧ |w| ≤ 1 :=
  ⟨(0.5, 0.9), 2, 0.3, -0.5, by norm_num, by norm_num, by norm_num, by norm_num [abs_le], by norm_num [abs_le]⟩

theorem uniformIn_covers (range : (ℝ × ℝ) × (ℝ × ℝ)) (p : V2) (h1 : range.1.1 ≤ p.1) (h2 : p.1 < range.1.2) (h3 : range.2.1 ≤ p.2) (h4 : p.2 < range.2.2) :
    ∃ u : V2, (0 ≤ u.1 ∧ u.1 < 1 ∧ 0 ≤ u.2 ∧ u.2 < 1) ∧ uniformIn range u = p := by
  have a : 0 < range.1.2 - range.1.1 := by linarith
  have b : 0 < range.2.2 - range.2.1 := by linarith
  refine ⟨((p.1 - range.1.1) / (range.1.2 - range.1.1), (p.2 - range.2.1) / (range.2.2 - range.2.1)),
    ⟨div_nonneg (by linarith) a.le, by rw [div_lt_one a]; linarith, div_nonneg (by linarith) b.le, by rw [div_lt_one b]; linarith⟩, ?_⟩
  unfold uniformIn
  apply Prod.ext
  · simp only
    rw [div_mul_cancel₀ _ a.ne']; ring
  · simp only
    rw [div_mul_cancel₀ _ b.ne']; ring

/-- With random initialisation every position of the starting range, without its upper borders, can be drawn. -/
theorem C118_start_covers (p : V2) (v angle w : ℝ) :
    (-0.65 ≤ p.1 → p.1 < -0.25 → -0.4 ≤ p.2 → p.2 < 0.4 → ∃ u : V2, (0 ≤ u.1 ∧ u.1 < 1 ∧ 0 ≤ u.2 ∧ u.2 < 1) ∧ hitStart true u = p) ∧
    (0.25 ≤ p.1 → p.1 < 0.65 → -0.4 ≤ p.2 → p.2 < 0.4 → ∃ u : V2, (0 ≤ u.1 ∧ u.1 < 1 ∧ 0 ≤ u.2 ∧ u.2 < 1) ∧ (movingStart true u v angle w).1 = p) ∧
    (-0.8 ≤ p.1 → p.1 < -0.4 → 0.25 ≤ |p.2| → |p.2| < 0.46 →
      ∃ (u : V2) (flip : Bool), (0 ≤ u.1 ∧ u.1 < 1 ∧ 0 ≤ u.2 ∧ u.2 < 1) ∧ prepareStart "side" true u flip = some p) ∧
    (-0.9 ≤ p.1 → p.1 < -0.8 → 0.125 ≤ |p.2| → |p.2| < 0.46 →
      ∃ (u : V2) (flip : Bool), (0 ≤ u.1 ∧ u.1 < 1 ∧ 0 ≤ u.2 ∧ u.2 < 1) ∧ prepareStart "bottom" true u flip = some p) := by
  have key : ∀ (sub : String) (range : (ℝ × ℝ) × (ℝ × ℝ)), prepareRange sub = some range → range.1.1 ≤ p.1 → p.1 < range.1.2 → range.2.1 ≤ |p.2| → |p.2| < range.2.2 →
      ∃ (u : V2) (flip : Bool), (0 ≤ u.1 ∧ u.1 < 1 ∧ 0 ≤ u.2 ∧ u.2 < 1) ∧ prepareStart sub true u flip = some p := by
    intro sub range hr h1 h2 h3 h4
    obtain ⟨u, hu, he⟩ := uniformIn_covers range (p.1, |p.2|) h1 h2 h3 h4
    by_cases hp : p.2 < 0
    · refine ⟨u, true, hu, ?_⟩
      simp [prepareStart, hr, he, abs_of_neg hp]
    · refine ⟨u, false, hu, ?_⟩
      simp [prepareStart, hr, he, abs_of_nonneg (not_lt.1 hp)]
  refine ⟨fun h1 h2 h3 h4 => ?_, fun h1 h2 h3 h4 => ?_, fun h1 h2 h3 h4 => key "side" _ (by simp [prepareRange]; rfl) h1 h2 h3 h4,
    fun h1 h2 h3 h4 => key "bottom" _ (by simp [prepareRange]; rfl) h1 h2 h3 h4⟩
  · exact uniformIn_covers hitRange p h1 h2 h3 h4
  · exact uniformIn_covers startRange p h1 h2 h3 h4

/-- The arm starts in the documented configuration on the right, or in its mirror image on the left. -/
theorem C118_arm (initState : List ℝ) : hitArm "right" initState = [-0.9273, 0.9273, Real.pi / 2] ∧ hitArm "left" initState = [0.9273, -0.9273, -(Real.pi / 2)] := by
  constructor
  · simp [hitArm, rightArm]
  · simp [hitArm, rightArm]

/-- Every reset of the prepare task, for both of its areas, puts the puck at rest into the area or its mirror image, on the table, in a state that is not
absorbing; other areas fail at the reset. -/
theorem C118_prepare_start (sub : String) (random flip : Bool) (u ee : V2) (hu : 0 ≤ u.1 ∧ u.1 < 1 ∧ 0 ≤ u.2 ∧ u.2 < 1) :
    (sub = "side" ∨ sub = "bottom" → ∃ p, prepareStart sub random u flip = some p ∧
      Inside (if sub = "side" then ((-0.8, -0.4), (0.25, 0.46)) else ((-0.9, -0.8), (0.125, 0.46))) (p.1, |p.2|) ∧ OnTable p ∧
      ∀ side, ¬ prepareAbsorbing side (resetSnap p zeroVel ee)) ∧
    (sub ≠ "side" → sub ≠ "bottom" → prepareStart sub random u flip = none) := by
  have key : ∀ range : (ℝ × ℝ) × (ℝ × ℝ), prepareRange sub = some range → range.1.1 ≤ range.1.2 → range.2.1 ≤ range.2.2 → 0 ≤ range.2.1 →
      -0.98 ≤ range.1.1 → range.1.2 ≤ 0 → range.2.2 ≤ 0.51 →
      ∃ p, prepareStart sub random u flip = some p ∧ Inside range (p.1, |p.2|) ∧ OnTable p ∧
      ∀ side, ¬ prepareAbsorbing side (resetSnap p zeroVel ee) := by
    intro range hr h1 h2 h3 h4 h5 h6
    have hex : ∃ p, prepareStart sub random u flip = some p ∧ Inside range (p.1, |p.2|) := by
      cases random with
      | true =>
        have hi := uniformIn_inside range u h1 h2 hu
        refine ⟨((uniformIn range u).1 * 1, (uniformIn range u).2 * (if flip then -1 else 1)), by simp [prepareStart, hr], ?_⟩
        obtain ⟨a, b, c, d⟩ := hi
        have habs : |(uniformIn range u).2 * (if flip = true then -1 else 1)| = (uniformIn range u).2 := by
          cases flip <;> simp [abs_of_nonneg (le_trans h3 c)]
        exact ⟨by simpa using a, by simpa using b, by simpa only [habs] using c, by simpa only [habs] using d⟩
      | false =>
        have hi := centre_inside range h1 h2
        refine ⟨centre range, by simp [prepareStart, hr], ?_⟩
        obtain ⟨a, b, c, d⟩ := hi
        refine ⟨a, b, ?_, ?_⟩ <;> simp only [abs_of_nonneg (le_trans h3 c)] <;> assumption
    obtain ⟨p, hp, hi⟩ := hex
    have ht : OnTable p := by
      obtain ⟨a, b, c, d⟩ := hi
      simp only at a b c d
      refine ⟨?_, le_trans d h6⟩
      rw [abs_le]; constructor
      · linarith
      · norm_num; linarith
    refine ⟨p, hp, hi, ht, fun side => ?_⟩
    rintro (h | ⟨h, -⟩ | ⟨-, h⟩)
    · exact base_false _ _ _ _ _ _ _ ee ht (by norm_num) h
    · simp [resetSnap] at h
    · simp [resetSnap] at h
  constructor
  · rintro (rfl | rfl)
    · simpa using key _ (by simp [prepareRange]) (by norm_num) (by norm_num) (by norm_num) (by norm_num) (by norm_num) (by norm_num)
    · have hne : ("bottom" : String) ≠ "side" := by decide
      rw [if_neg hne]
      exact key _ (by simp [prepareRange]) (by norm_num) (by norm_num) (by norm_num) (by norm_num) (by norm_num) (by norm_num)
  · intro h1 h2
    simp [prepareStart, prepareRange, h1, h2]

/-- The random initialisation of the arm, which the documentation of the hit task offers, is never random: after any number of resets the arm is in the
configuration called "right". -/
theorem C118_random_arm_refuted (n : ℕ) : (hitArm "random")^[n] rightArm = (hitArm "right")^[n] rightArm := by
  have h1 : hitArm "random" rightArm = rightArm := by simp [hitArm]
  have h2 : hitArm "right" rightArm = rightArm := by simp [hitArm]
  induction n with
  | zero => rfl
  | succ n ih => rw [Function.iterate_succ_apply, Function.iterate_succ_apply, h1, h2, ih]

/-- The point at which the hit task lets the puck bounce obeys the law of reflection, lies on the wall of the half in which the puck is, and lies between the
puck and the goal, for every starting position whose puck is away from the walls and the goal. -/
theorem C118_bounce_point (p : V2) (hx : p.1 < 0.98) (hy : |p.2| < 0.51 - 0.03165) :
    Reflects p (sidePoint p) (0.98, 0) ∧ |(sidePoint p).2| = 0.51 - 0.03165 ∧ 0 ≤ (sidePoint p).2 * p.2 ∧
    p.1 < (sidePoint p).1 ∧ (sidePoint p).1 < 0.98 := by
  obtain ⟨x, y⟩ := p
  simp only at hx hy
  have he : (0 : ℝ) < 0.51 - 0.03165 := by norm_num
  set e : ℝ := 0.51 - 0.03165 with hedef
  have hd : |y| - 2 * e < 0 := by linarith
  have hw : (sidePoint (x, y)).1 = (|y| * 0.98 - e * x - e * 0.98) / (|y| - 2 * e) := by
    simp [sidePoint, goal, effectiveWidth, hedef]
  have hs : (sidePoint (x, y)).2 = if y < 0 then -e else e := by
    simp only [sidePoint, effectiveWidth, copysign, ← hedef, abs_of_pos he]
  have hwd : (sidePoint (x, y)).1 * (|y| - 2 * e) = |y| * 0.98 - e * x - e * 0.98 := by
    rw [hw, div_mul_cancel₀ _ (ne_of_lt hd)]
  have ha := abs_nonneg y
  refine ⟨?_, ?_, ?_, ?_, ?_⟩
  · simp only [Reflects]
    rw [hs]
    split
    · rename_i hneg
      rw [abs_of_neg hneg] at hwd
      linear_combination (-1 : ℝ) * hwd
    · rename_i hpos
      rw [abs_of_nonneg (not_lt.1 hpos)] at hwd
      linear_combination hwd
  · rw [hs]; split
    · rw [abs_neg, abs_of_pos he]
    · rw [abs_of_pos he]
  · rw [hs]; split
    · rename_i h; simp only; nlinarith
    · rename_i h; simp only; nlinarith [not_lt.1 h]
  · rw [hw, lt_div_iff_of_neg hd]
    have := mul_pos (sub_pos.2 hx) (sub_pos.2 hy)
    simp only
    nlinarith
  · rw [hw, div_lt_iff_of_neg hd]
    nlinarith

example : ∃ p : V2, p.1 < 0.98 ∧ |p.2| < 0.51 - 0.03165 ∧ p.2 < 0 := ⟨(-0.5, -0.3), by norm_num, by norm_num [abs_lt], by norm_num⟩

/-! ### Rewards -/

theorem gauss_bound {sig : ℝ} (hs : 0 < sig) (x : ℝ) : 0 ≤ gauss sig x ∧ gauss sig x ≤ 1 / (2.5 * sig) := by
  have hp := Real.pi_gt_d2
  have h1 : 2.5 ≤ Real.sqrt (2 * Real.pi) := by
    apply Real.le_sqrt_of_sq_le
    norm_num at hp ⊢; linarith
  have h0 : (0 : ℝ) < 2.5 * sig := by positivity
  have h2 : 2.5 * sig ≤ Real.sqrt (2 * Real.pi) * sig := mul_le_mul_of_nonneg_right h1 hs.le
  have h3 : 1 / (Real.sqrt (2 * Real.pi) * sig) ≤ 1 / (2.5 * sig) := one_div_le_one_div_of_le h0 h2
  have h4 : 0 ≤ 1 / (Real.sqrt (2 * Real.pi) * sig) := by positivity
  have h5 : Real.exp (-(x / sig) ^ 2 / 2) ≤ 1 := by
    rw [Real.exp_le_one_iff]; nlinarith [sq_nonneg (x / sig)]
  have h6 := Real.exp_pos (-(x / sig) ^ 2 / 2)
  simp only [gauss]
  constructor
  · positivity
  · calc _ ≤ 1 / (Real.sqrt (2 * Real.pi) * sig) * 1 := mul_le_mul_of_nonneg_left h5 h4
      _ ≤ _ := by linarith

theorem clip01_mem (x : ℝ) : 0 ≤ clip01 x ∧ clip01 x ≤ 1 := by
  simp only [clip01]
  exact ⟨le_min (le_max_right _ _) zero_le_one, min_le_right _ _⟩

theorem approach_bound {d c : ℝ} (hd : 0 ≤ d) (hc : 0 ≤ c ∧ c ≤ 1) : 0 ≤ approach d c ∧ approach d c ≤ 3 := by
  have h1 : Real.exp (-8 * (d - 0.08)) ≤ 3 := by
    calc _ ≤ Real.exp 1 := Real.exp_le_exp.2 (by norm_num; linarith)
      _ ≤ 3 := by have := Real.exp_one_lt_d9; norm_num at this ⊢; linarith
  have h2 := Real.exp_pos (-8 * (d - 0.08))
  simp only [approach]
  constructor
  · positivity
  · have : c ^ 2 ≤ 1 := by nlinarith [hc.1, hc.2]
    nlinarith [sq_nonneg c]

theorem norm2_nonneg (v : V2) : 0 ≤ norm2 v := Real.sqrt_nonneg _

/-- The reward of the hit task without the action penalty: a final step pays 200 if the puck is in the goal of the opponent and nothing otherwise; every
other step pays between 0 and 42.5. So no step without a goal is worth a goal. -/
theorem C118_hit_reward (penalty : ℝ) (p0 : V2) (action : List ℝ) (s : View) (absorbing : Prop) :
    let r := hitReward penalty p0 action s absorbing + penalty * normL action
    (absorbing → Scored s.pos → r = 200) ∧ (absorbing → ¬ Scored s.pos → r = 0) ∧ (¬ absorbing → 0 ≤ r ∧ r ≤ 42.5) := by
  intro r
  have hsc : (s.pos.1 - halfLength > 0 ∧ |s.pos.2| - goalWidth < 0) ↔ Scored s.pos := by
    simp only [Scored, halfLength, goalWidth]
    constructor
    · rintro ⟨a, b⟩; norm_num at *; exact ⟨by linarith, by linarith⟩
    · rintro ⟨a, b⟩; norm_num at *; exact ⟨by linarith, by linarith⟩
  refine ⟨fun ha hs => ?_, fun ha hs => ?_, fun ha => ?_⟩
  · simp only [r, hitReward, if_pos ha, if_pos (hsc.2 hs)]; ring
  · simp only [r, hitReward, if_pos ha, if_neg (fun h => hs (hsc.1 h))]; ring
  · simp only [r, hitReward, if_neg ha]
    rw [sub_add_cancel]
    split
    · have h1 := clip01_mem (dot2 (vecSide p0) (unitTo s.ee s.pos))
      have h2 := clip01_mem (dot2 (vecGoal p0) (unitTo s.ee s.pos))
      have h3 := approach_bound (norm2_nonneg (s.pos - s.ee)) (c := max (clip01 (dot2 (vecGoal p0) (unitTo s.ee s.pos)))
        (clip01 (dot2 (vecSide p0) (unitTo s.ee s.pos)))) ⟨le_trans h1.1 (le_max_right _ _), max_le h2.2 h1.2⟩
      exact ⟨h3.1, le_trans h3.2 (by norm_num)⟩
    · have h1 : 0 ≤ min 1 (0.25 * s.vel.1 ^ 4) := le_min zero_le_one (by positivity)
      have h2 : min 1 (0.25 * s.vel.1 ^ 4) ≤ 1 := min_le_left _ _
      have hg := gauss_bound (sig := 0.1) (by norm_num) (s.pos.2 - 0)
      split
      · constructor
        · have := hg.1; linarith
        · have h4 := hg.2
          rw [show (1 : ℝ) / (2.5 * 0.1) = 4 by norm_num] at h4
          linarith
      · constructor <;> linarith

/-- The reward after a hit is meant to grow with the speed of the puck towards the goal. It does not depend on that speed. -/
theorem C118_hit_speed_refuted (penalty : ℝ) (p0 : V2) (action qpos : List ℝ) (vx vx' vy vz wx wy wz : ℝ) (ee : V2) (b : Bool)
    (absorbing : Prop) :
    hitReward penalty p0 action (Snap.mk qpos [vx, vy, vz, wx, wy, wz] ee true b).view absorbing =
    hitReward penalty p0 action (Snap.mk qpos [vx', vy, vz, wx, wy, wz] ee true b).view absorbing := by
  have h : ∀ x, (Snap.mk qpos [x, vy, vz, wx, wy, wz] ee true b).vel = (vy, wz) := by
    intro x; simp [Snap.vel, Snap.getPuck, velObs_eq]
  have hp : ∀ x, (Snap.mk qpos [x, vy, vz, wx, wy, wz] ee true b).pos = (Snap.mk qpos [0, vy, vz, wx, wy, wz] ee true b).pos := fun _ => rfl
  simp only [hitReward, Snap.view, h, hp vx, hp vx']

theorem guard_bound (s : View) : 0 ≤ guardReward s ∧ guardReward s ≤ 1 := by
  have hg := gauss_bound (sig := 0.2) (by norm_num) (|s.pos.2 - s.ee.2| - 0.08)
  have h1 := Real.exp_pos (-3 * |-0.6 - s.ee.1|)
  have h2 : Real.exp (-3 * |-0.6 - s.ee.1|) ≤ 1 := by rw [Real.exp_le_one_iff]; nlinarith [abs_nonneg (-0.6 - s.ee.1)]
  simp only [guardReward]
  constructor
  · have := hg.1; linarith
  · have h4 := hg.2
    rw [show (1 : ℝ) / (2.5 * 0.2) = 2 by norm_num] at h4
    linarith

theorem conceded_iff (s : View) : (s.pos.1 + halfLength < 0 ∧ |s.pos.2| - goalWidth < 0) ↔ Conceded s.pos := by
  simp only [Conceded, halfLength, goalWidth]
  constructor
  · rintro ⟨a, b⟩; norm_num at *; exact ⟨by linarith, by linarith⟩
  · rintro ⟨a, b⟩; norm_num at *; exact ⟨by linarith, by linarith⟩

/-- The reward of the defend task without the action penalty: a final step costs 50 if the puck is in the goal of the agent and nothing otherwise; every other
step gives between -1 and 10, and -1 exactly after the puck bounced off a short side. -/
theorem C118_defend_reward (penalty : ℝ) (action : List ℝ) (s : View) (absorbing : Prop) :
    let r := defendReward penalty action s absorbing + penalty * normL action
    (absorbing → Conceded s.pos → r = -50) ∧ (absorbing → ¬ Conceded s.pos → r = 0) ∧
    (¬ absorbing → s.bounce = true → r = -1) ∧ (¬ absorbing → s.bounce = false → 0 ≤ r ∧ r ≤ 10) := by
  intro r
  refine ⟨fun ha hs => ?_, fun ha hs => ?_, fun ha hb => ?_, fun ha hb => ?_⟩
  · simp only [r, defendReward, if_pos ha, if_pos ((conceded_iff s).2 hs)]; ring
  · simp only [r, defendReward, if_pos ha, if_neg (fun h => hs ((conceded_iff s).1 h))]; ring
  · simp only [r, defendReward, if_neg ha, if_pos hb]; ring
  · simp only [r, defendReward, if_neg ha, hb, Bool.false_eq_true, if_false]
    rw [sub_add_cancel]
    split
    · split
      · have e1 := Real.exp_pos (-3 * |s.pos.2|)
        have e2 := Real.exp_pos (-5 * |s.pos.1 + 0.6|)
        have e3 := Real.exp_pos (-(5 * s.speed) ^ 2)
        have f1 : Real.exp (-3 * |s.pos.2|) ≤ 1 := by rw [Real.exp_le_one_iff]; nlinarith [abs_nonneg s.pos.2]
        have f2 : Real.exp (-5 * |s.pos.1 + 0.6|) ≤ 1 := by rw [Real.exp_le_one_iff]; nlinarith [abs_nonneg (s.pos.1 + 0.6)]
        have f3 : Real.exp (-(5 * s.speed) ^ 2) ≤ 1 := by rw [Real.exp_le_one_iff]; nlinarith [sq_nonneg (5 * s.speed)]
        constructor <;> linarith
      · norm_num
    · have := guard_bound s
      exact ⟨this.1, by linarith [this.2]⟩

/-- The reward of the repel task without the action penalty for a final step: -50 if the puck is in the goal of the agent and nothing otherwise. -/
theorem C118_repel_reward_partial (penalty : ℝ) (action : List ℝ) (s : View) (absorbing : Prop) (ha : absorbing) :
    let r := repelReward penalty action s absorbing + penalty * normL action
    (Conceded s.pos → r = -50) ∧ (¬ Conceded s.pos → r = 0) := by
  intro r
  refine ⟨fun hs => ?_, fun hs => ?_⟩
  · simp only [r, repelReward, if_pos ha, if_pos ((conceded_iff s).2 hs)]; ring
  · simp only [r, repelReward, if_pos ha, if_neg (fun h => hs ((conceded_iff s).1 h))]; ring

/-- The shaped reward of the repel task in front of the goal. -/
theorem repel_near (penalty : ℝ) (action : List ℝ) (pos vel : V2) (speed : ℝ) (ee : V2) (bounce : Bool) {absorbing : Prop}
    (ha : ¬ absorbing) (hx : 0.9 < pos.1) :
    repelReward penalty action ⟨pos, vel, speed, ee, true, bounce⟩ absorbing =
      pos.1 + 0.98 + min (vel.1 ^ 3) 5 + 1 + 100 * Real.exp (-3 * |pos.2|) - penalty * normL action := by
  simp only [repelReward, if_neg ha, if_true, gt_iff_lt, if_pos hx]

/-- The task of the repel environment is to shoot the puck into the goal of the opponent. The step that does it pays nothing, while a step just before
it, with the puck one centimetre in front of the line, pays more than 100. -/
theorem C118_repel_reward_refuted (penalty : ℝ) (action : List ℝ) :
    (∀ s : Snap, Scored s.pos → repelReward penalty action s.view (repelAbsorbing s) = -(penalty * normL action)) ∧
    (∃ s : Snap, ¬ repelAbsorbing s ∧ s.hit = true ∧ ¬ Scored s.pos ∧
      100 < repelReward penalty action s.view (repelAbsorbing s) + penalty * normL action) := by
  constructor
  · intro s hs
    have ha : repelAbsorbing s := by
      refine Or.inl (Or.inl ?_)
      have := hs.1
      simp only [halfLength]
      rw [abs_of_pos (by norm_num at this ⊢; linarith)]
      norm_num at this ⊢; linarith
    have hc : ¬ Conceded s.pos := by
      intro h; have a := h.1; have b := hs.1; norm_num at a b; linarith
    have := (C118_repel_reward_partial penalty action s.view _ ha).2 hc
    linarith
  · refine ⟨⟨qposOf (0.97, 0), zeroVel, (0, 0), true, false⟩, ?_, rfl, ?_, ?_⟩
    · rintro (h | h)
      · have : ¬ baseAbsorbing (resetSnap (0.97, 0) zeroVel (0, 0)) :=
          base_false _ _ _ _ _ _ _ _ (by norm_num [OnTable, abs_le]) (by norm_num)
        exact this h
      · simp at h
    · rw [pos_eq]; rintro ⟨h, -⟩; norm_num at h
    · have hna : ¬ repelAbsorbing ⟨qposOf (0.97, 0), zeroVel, (0, 0), true, false⟩ := by
        rintro (h | h)
        · have : ¬ baseAbsorbing (resetSnap (0.97, 0) zeroVel (0, 0)) :=
            base_false _ _ _ _ _ _ _ _ (by norm_num [OnTable, abs_le]) (by norm_num)
          exact this h
        · simp at h
      have hv : (Snap.mk (qposOf (0.97, 0)) zeroVel (0, 0) true false).vel = (0, 0) := by
        simp [Snap.vel, Snap.getPuck, zeroVel, velObs_eq]
      have hw : (Snap.mk (qposOf (0.97, 0)) zeroVel (0, 0) true false).view =
          ⟨(0.97, 0), (0, 0), norm2 (0, 0), (0, 0), true, false⟩ := by
        rw [Snap.view, hv, pos_eq]
      rw [hw, repel_near penalty action (0.97, 0) (0, 0) _ _ _ hna (by norm_num)]
      norm_num

/-- The reward of the prepare task: a final step with the puck in the right place pays at most 100, and 100 exactly for a puck at rest according to
`get_puck`; other steps pay at most 7.5 less the action penalty. -/
theorem C118_prepare_reward_partial (side : Bool) (penalty : ℝ) (action : List ℝ) (s : View) (absorbing : Prop) :
    let r := prepareReward side penalty action s absorbing
    (absorbing → (if side then |s.pos.2| < 0.47 else s.pos.1 ≥ -0.6) → 0 < r ∧ r ≤ 100 ∧ (r = 100 ↔ s.vel = (0, 0))) ∧
    (¬ absorbing → r ≤ 7.5 - penalty * normL action) := by
  intro r
  have hb : 0 < 100 * Real.exp (-2 * norm2 s.vel) ∧ 100 * Real.exp (-2 * norm2 s.vel) ≤ 100 ∧
      (100 * Real.exp (-2 * norm2 s.vel) = 100 ↔ s.vel = (0, 0)) := by
    have h0 := norm2_nonneg s.vel
    refine ⟨by positivity, ?_, ?_⟩
    · have : Real.exp (-2 * norm2 s.vel) ≤ 1 := by rw [Real.exp_le_one_iff]; linarith
      linarith
    · constructor
      · intro h
        have h1 : Real.exp (-2 * norm2 s.vel) = 1 := by linarith
        rw [Real.exp_eq_one_iff] at h1
        have h2 : norm2 s.vel = 0 := by linarith
        rw [norm2, Real.sqrt_eq_zero (by positivity)] at h2
        have a : s.vel.1 = 0 := by nlinarith [sq_nonneg s.vel.1, sq_nonneg s.vel.2]
        have b : s.vel.2 = 0 := by nlinarith [sq_nonneg s.vel.1, sq_nonneg s.vel.2]
        exact Prod.ext a b
      · intro h; rw [h]; simp [norm2]
  constructor
  · intro ha hp
    cases side with
    | true =>
      simp only [if_true] at hp
      have : r = 100 * Real.exp (-2 * norm2 s.vel) := by simp only [r, prepareReward, if_true, if_pos (And.intro ha hp)]
      rw [this]; exact hb
    | false =>
      simp only [Bool.false_eq_true, if_false] at hp
      have : r = 100 * Real.exp (-2 * norm2 s.vel) := by
        simp only [r, prepareReward, Bool.false_eq_true, if_false, if_pos (And.intro ha hp)]
      rw [this]; exact hb
  · intro ha
    have hd := norm2_nonneg (s.pos - s.ee)
    cases side with
    | true =>
      simp only [r, prepareReward, if_true, ha, false_and, if_false]
      refine sub_le_sub_right ?_ _
      split
      · split
        · have h1 : max 0 (1 - 10 * (Real.exp |s.vel.1| - 1)) ≤ 1 := by
            refine max_le zero_le_one ?_
            have : 1 ≤ Real.exp |s.vel.1| := Real.one_le_exp (abs_nonneg _)
            linarith
          have h2 := norm2_nonneg (s.ee - eeEnd)
          linarith
        · norm_num
      · exact le_trans (approach_bound hd (clip01_mem _)).2 (by norm_num)
    | false =>
      simp only [r, prepareReward, Bool.false_eq_true, if_false, ha, false_and]
      refine sub_le_sub_right ?_ _
      split
      · split
        · have h1 := (gauss_bound (sig := 0.1) (by norm_num) (s.pos.1 + 0.75)).2
          have h2 := abs_nonneg s.vel.2
          have h3 : Real.exp (-3 * norm2 (s.ee - eeEnd)) ≤ 1 := by
            rw [Real.exp_le_one_iff]; nlinarith [norm2_nonneg (s.ee - eeEnd)]
          rw [show (1 : ℝ) / (2.5 * 0.1) = 4 by norm_num] at h1
          linarith
        · norm_num
      · have h1 := clip01_mem (dot2 (unitTo s.ee s.pos) (0.2, copysign 0.8 s.pos.2))
        have h2 := clip01_mem (dot2 (unitTo s.ee s.pos) (-1, 0))
        exact le_trans (approach_bound hd ⟨le_trans h1.1 (le_max_left _ _), max_le h1.2 h2.2⟩).2 (by norm_num)

/-- After the hit, a step that is not final pays no more than the action penalty takes away while the puck is outside the area the task names. -/
theorem C118_prepare_zone (side : Bool) (penalty : ℝ) (action : List ℝ) (s : View) (absorbing : Prop) (ha : ¬ absorbing) (hh : s.hit = true)
    (hz : if side then s.pos.1 ≥ -0.35 ∨ |s.pos.2| ≥ 0.47 else s.pos.1 ≥ -0.6 ∨ s.pos.1 ≤ -0.9 ∨ |s.pos.2| ≥ 0.47) :
    prepareReward side penalty action s absorbing = -(penalty * normL action) := by
  cases side with
  | true =>
    simp only [if_true] at hz
    have h : ¬ (s.pos.1 < -0.35 ∧ |s.pos.2| < 0.47) := by
      rintro ⟨a, b⟩; rcases hz with h | h <;> linarith
    simp only [prepareReward, if_true, ha, false_and, if_false, hh, if_neg h]; ring
  | false =>
    simp only [Bool.false_eq_true, if_false] at hz
    have h : ¬ (-0.6 > s.pos.1 ∧ s.pos.1 > -0.9 ∧ |s.pos.2| < 0.47) := by
      rintro ⟨a, b, c⟩; rcases hz with h | h | h <;> linarith
    simp only [prepareReward, Bool.false_eq_true, if_false, ha, false_and, hh, if_true, if_neg h]; ring

example : ∃ s : View, s.hit = true ∧ s.pos.1 ≥ -0.35 := ⟨⟨(0, 0), (0, 0), 0, (0, 0), true, false⟩, rfl, by norm_num⟩

theorem prepare_bonus_side (penalty : ℝ) (action : List ℝ) (s : View) {absorbing : Prop} (ha : absorbing) (hy : |s.pos.2| < 0.47) :
    prepareReward true penalty action s absorbing = 100 * Real.exp (-2 * norm2 s.vel) := by
  simp only [prepareReward, if_true, if_pos (And.intro ha hy)]

theorem prepare_bonus_bottom (penalty : ℝ) (action : List ℝ) (s : View) {absorbing : Prop} (ha : absorbing) (hx : s.pos.1 ≥ -0.6) :
    prepareReward false penalty action s absorbing = 100 * Real.exp (-2 * norm2 s.vel) := by
  simp only [prepareReward, Bool.false_eq_true, if_false, if_pos (And.intro ha hx)]

/-- The prepare task is to bring the puck to rest on the own half. The large bonus of its final step is also paid when the puck left the table: for the task
"side" when the puck is in the goal of the agent, for the task "bottom" when it is in the goal of the opponent. -/
theorem C118_prepare_reward_refuted (penalty : ℝ) (action : List ℝ) (s : Snap) :
    (Conceded s.pos → prepareReward true penalty action s.view (prepareAbsorbing true s) = 100 * Real.exp (-2 * norm2 s.vel)) ∧
    (Scored s.pos → prepareReward false penalty action s.view (prepareAbsorbing false s) = 100 * Real.exp (-2 * norm2 s.vel)) := by
  constructor
  · rintro ⟨h1, h2⟩
    have ha : prepareAbsorbing true s := by
      refine Or.inl (Or.inl ?_)
      simp only [halfLength]
      norm_num at h1 ⊢
      rw [abs_of_neg (by linarith)]; linarith
    have hy : |s.pos.2| < 0.47 := lt_trans h2 (by norm_num)
    exact prepare_bonus_side penalty action s.view ha hy
  · rintro ⟨h1, h2⟩
    have ha : prepareAbsorbing false s := by
      refine Or.inl (Or.inl ?_)
      simp only [halfLength]
      norm_num at h1 ⊢
      rw [abs_of_pos (by linarith)]; linarith
    have hx : s.pos.1 ≥ -0.6 := by norm_num at h1 ⊢; linarith
    exact prepare_bonus_bottom penalty action s.view ha hx

example : ∃ s : Snap, Conceded s.pos := ⟨⟨qposOf (-1, 0.1), zeroVel, (0, 0), false, false⟩, by rw [pos_eq]; norm_num [Conceded, abs_lt]⟩

/-! ### Ball in a cup -/

/-- What can happen to the environment: a reset or any step of the simulation. -/
inductive CupEvent (D : Type) where
  | reset
  | move (f : D → D)

def Cup.event {D : Type} (p : Phys D) (c : Cup D) : CupEvent D → Cup D
  | .reset => c.reset p
  | .move f => c.move f

theorem cup_saved {D : Type} (p : Phys D) (es : List (CupEvent D)) (c : Cup D)
    (hc : c.saved = none ∨ c.saved = some (settle p p.init)) :
    (es.foldl (Cup.event p) c).saved = none ∨ (es.foldl (Cup.event p) c).saved = some (settle p p.init) := by
  induction es generalizing c with
  | nil => exact hc
  | cons e es ih =>
    refine ih _ ?_
    cases e with
    | reset =>
      refine Or.inr ?_
      rcases hc with h | h <;> simp [Cup.event, Cup.reset, h]
    | move f => exact hc

/-- Every reset of the ball in a cup environment gives the same state, whatever was simulated before: the state that the controller of the first reset reaches from
the default state of the simulator. -/
theorem C120_reset {D : Type} (p : Phys D) (d : D) (es : List (CupEvent D)) :
    ((es.foldl (Cup.event p) ⟨d, none⟩).reset p).data = settle p p.init := by
  rcases cup_saved p es ⟨d, none⟩ (Or.inl rfl) with h | h <;> simp [Cup.reset, h]

/-- The states of an episode: no step is made from an absorbing state. -/
def Episode {D : Type} (p : Phys D) : List D → Prop
  | [] => True
  | [_] => True
  | d :: ds => ¬ cupAbsorbing p d ∧ Episode p ds

/-- The sum of the rewards of an episode is one if the ball is in the cup at its end, and zero otherwise. -/
theorem C120_return {D : Type} (p : Phys D) (ds : List D) (last : D) (h : Episode p (ds ++ [last])) :
    ((ds ++ [last]).map (cupReward p)).sum = if p.dist last < 0.05 then 1 else 0 := by
  induction ds with
  | nil => simp [cupReward]
  | cons d ds ih =>
    have h' : ¬ cupAbsorbing p d ∧ Episode p (ds ++ [last]) := by
      cases ds with
      | nil => exact h
      | cons e es => exact h
    have h0 : cupReward p d = 0 := by
      simp only [cupReward]; rw [if_neg]; exact fun hh => h'.1 (Or.inl hh)
    rw [List.cons_append, List.map_cons, List.sum_cons, h0, ih h'.2, zero_add]

example : ∃ (p : Phys ℝ), Episode p ([1, 0.5] ++ [0.01]) :=
  ⟨⟨0, fun _ => [], fun _ => [], fun _ => [], fun d _ => d, fun d => d, fun d => d, fun _ => false⟩, by
    norm_num [Episode, cupAbsorbing]⟩

/-- The target of the controller starts at the initial position, ends at the desired position and stays there, and is always between the two. -/
theorem C120_linear_movement (start stop : ℝ) (n i : ℕ) (hn : 0 < n) :
    linearMovement start stop n 0 = start ∧ (n ≤ i → linearMovement start stop n i = stop) ∧
    min start stop ≤ linearMovement start stop n i ∧ linearMovement start stop n i ≤ max start stop := by
  have hn' : (0 : ℝ) < n := Nat.cast_pos.2 hn
  have h0 : 0 ≤ min 1 ((i : ℝ) / n) := le_min zero_le_one (by positivity)
  have h1 : min 1 ((i : ℝ) / n) ≤ 1 := min_le_left _ _
  refine ⟨by simp [linearMovement], fun h => ?_, ?_, ?_⟩
  · have : (1 : ℝ) ≤ (i : ℝ) / n := by rw [le_div_iff₀ hn', one_mul]; exact_mod_cast h
    simp [linearMovement, min_eq_left this]
  · simp only [linearMovement]
    rcases le_total start stop with h | h
    · rw [min_eq_left h]; nlinarith
    · rw [min_eq_right h]; nlinarith
  · simp only [linearMovement]
    rcases le_total start stop with h | h
    · rw [max_eq_right h]; nlinarith
    · rw [max_eq_left h]; nlinarith

/-- The documented initial configuration of the arm of the ball in a cup. -/
def cupGoal : Fin 7 → ℝ := ![0, 0.58760536, 0, 1.36004913, 0, -0.32072943, -1.57]

/-- While the environment settles, every joint is held by gravity compensation and a controller with positive gains: its torque is the bias force, plus a
positive multiple of the distance to the target, minus a positive multiple of the velocity. The target moves from the position at the start of the loop to
the initial configuration during the first 250 iterations and stays there. -/
theorem C120_settle : ∃ P G : Fin 7 → ℝ, (∀ j, 0 < P j ∧ 0 < G j) ∧ ∀ (D : Type) (p : Phys D) (d : D) (i : ℕ) (init q v b : Fin 7 → ℝ),
    (p.qpos d).take 7 = List.ofFn q → (p.qvel d).take 7 = List.ofFn v → (p.bias d).take 7 = List.ofFn b →
    settleStep p (List.ofFn init) d i = p.step (p.control d (List.ofFn fun j =>
      b j + P j * (init j + (cupGoal j - init j) * min 1 ((i : ℝ) / 250) - q j) - G j * v j)) := by
  refine ⟨![200, 400, 100, 100, 10, 10, 5], ![7, 15, 5, 2.5, 0.3, 0.3, 0.05], ?_, ?_⟩
  · intro j; fin_cases j <;> norm_num
  · intro D p d i init q v b hq hv hb
    simp only [settleStep, hq, hv, hb]
    congr 2
    simp only [List.ofFn_succ, List.ofFn_zero, cupArm, pGains, dGains, cupGoal, linearMovement, List.zipWith_cons_cons, List.zipWith_nil_left,
      List.map_cons, List.map_nil, List.cons.injEq, and_true]
    have h0 : (0.0 : ℝ) = 0 := by norm_num
    refine ⟨?_, ?_, ?_, ?_, ?_, ?_, ?_⟩ <;> simp [h0] <;> ring

/-- The state of every reset is the result of 5000 such iterations from the default state of the simulator, the target starting at the position of the arm in
that state. -/
theorem C120_reset_run : ∃ P G : Fin 7 → ℝ, (∀ j, 0 < P j ∧ 0 < G j) ∧ ∀ (D : Type) (p : Phys D) (q v b : D → Fin 7 → ℝ) (d : D) (es : List (CupEvent D)),
    (∀ d, (p.qpos d).take 7 = List.ofFn (q d)) → (∀ d, (p.qvel d).take 7 = List.ofFn (v d)) → (∀ d, (p.bias d).take 7 = List.ofFn (b d)) →
    ∃ run : ℕ → D, run 0 = p.init ∧ ((es.foldl (Cup.event p) ⟨d, none⟩).reset p).data = run 5000 ∧
      ∀ i, run (i + 1) = p.step (p.control (run i) (List.ofFn fun j =>
        b (run i) j + P j * (q p.init j + (cupGoal j - q p.init j) * min 1 ((i : ℝ) / 250) - q (run i) j) - G j * v (run i) j)) := by
  obtain ⟨P, G, hpos, h⟩ := C120_settle
  refine ⟨P, G, hpos, fun D p q v b d es hq hv hb => ?_⟩
  refine ⟨fun n => (List.range n).foldl (settleStep p ((p.qpos p.init).take 7)) p.init, rfl, C120_reset p d es, fun i => ?_⟩
  beta_reduce
  rw [List.range_succ, List.foldl_append, List.foldl_cons, List.foldl_nil, hq p.init]
  exact h D p _ i (q p.init) _ _ _ (hq _) (hv _) (hb _)

/-- A robot that meets the hypotheses of `C120_settle`. -/
example : ∃ (p : Phys ℕ), (p.qpos 3).take 7 = List.ofFn cupGoal ∧ (p.qvel 3).take 7 = List.ofFn (fun _ : Fin 7 => (1 : ℝ)) ∧
    (p.bias 3).take 7 = List.ofFn (fun _ : Fin 7 => (0 : ℝ)) :=
  ⟨⟨0, fun _ => List.ofFn cupGoal, fun _ => List.ofFn fun _ : Fin 7 => 1, fun _ => List.ofFn fun _ : Fin 7 => 0, fun d _ => d, fun d => d, fun d => d,
    fun _ => false⟩, by simp [List.ofFn_succ], by simp [List.ofFn_succ], by simp [List.ofFn_succ]⟩

end

end Verif.Hockey
