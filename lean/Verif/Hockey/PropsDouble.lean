/-
Property C118 for the environment with two agents.
-/
import Verif.Hockey.ModelDouble
import Verif.Hockey.Props

namespace Verif.Hockey

open Spec

noncomputable section

/-- C118. Without noise both agents observe the puck where it is, each in its own frame. -/
theorem C118_two_positions (t1 t2 : V2) (z : ℝ) (u p : V2) :
    let o := observedPos2 false (planarFrame 0 t1 z) (planarFrame Real.pi t2 z) u p
    SamePoint 0 t1 o.1 p ∧ SamePoint Real.pi t2 o.2 p :=
  ⟨C118_position_in_frame 0 t1 z p, C118_position_in_frame Real.pi t2 z p⟩

/-- C118 fails with noise: the same numbers are added in two frames that are turned against each other, so the first agent sees the puck moved to one side and the
second sees it moved to the other, and no position of the puck explains both observations. -/
theorem C118_noisy_positions_refuted (t1 t2 : V2) (z : ℝ) (u p : V2) :
    let o := observedPos2 true (planarFrame 0 t1 z) (planarFrame Real.pi t2 z) u p
    SamePoint 0 t1 o.1 (p.1 + u.1 * 0.001, p.2 + u.2 * 0.001) ∧ SamePoint Real.pi t2 o.2 (p.1 - u.1 * 0.001, p.2 - u.2 * 0.001) ∧
    (u ≠ (0, 0) → ¬ ∃ q, SamePoint 0 t1 o.1 q ∧ SamePoint Real.pi t2 o.2 q) := by
  intro o
  obtain ⟨h1, h2⟩ := C118_position_in_frame 0 t1 z p
  obtain ⟨h3, h4⟩ := C118_position_in_frame Real.pi t2 z p
  have e1 : SamePoint 0 t1 o.1 (p.1 + u.1 * 0.001, p.2 + u.2 * 0.001) := by
    simp only [o, observedPos2, if_true, SamePoint, Real.cos_zero, Real.sin_zero] at h1 h2 ⊢
    constructor <;> linarith
  have e2 : SamePoint Real.pi t2 o.2 (p.1 - u.1 * 0.001, p.2 - u.2 * 0.001) := by
    simp only [o, observedPos2, if_true, SamePoint, Real.cos_pi, Real.sin_pi] at h3 h4 ⊢
    constructor <;> linarith
  refine ⟨e1, e2, fun hu ⟨q, k1, k2⟩ => hu ?_⟩
  have a1 : q.1 = p.1 + u.1 * 0.001 := by rw [← k1.1]; exact e1.1
  have a2 : q.2 = p.2 + u.2 * 0.001 := by rw [← k1.2]; exact e1.2
  have b1 : q.1 = p.1 - u.1 * 0.001 := by rw [← k2.1]; exact e2.1
  have b2 : q.2 = p.2 - u.2 * 0.001 := by rw [← k2.2]; exact e2.2
  ext
  · show u.1 = 0
    linarith
  · show u.2 = 0
    linarith

example : ∃ u : V2, u ≠ (0, 0) := ⟨(1, 0), by simp⟩

/-- C118. With two agents the constraints on the velocities of an agent hold exactly when the velocities of its own three joints are within their limits. Those on the
end effector use the first robot for both agents, but as the second robot stands opposite to the first, turned by half a turn, they hold for it exactly when its mallet, whose
position on the table is `e`, is not beyond its own side by more than its radius and does not cross the long sides. -/
theorem C118_constraints_double_partial (fk : List ℝ → V2) (posLim velLim : List ℝ × List ℝ) (qpos qvel : List ℝ) (hq : qvel.length = 6) (hl : velLim.1.length = 6) (hu : velLim.2.length = 6) :
    ∃ c1 c2, constraints2 fk (-1.51, 0) posLim velLim qpos qvel = [("agent-1", c1), ("agent-2", c2)] ∧
    (Satisfied c1.jointVel ↔ ∀ i, i < 3 → velLim.1.getD i 0 ≤ qvel.getD i 0 ∧ qvel.getD i 0 ≤ velLim.2.getD i 0) ∧
    (Satisfied c2.jointVel ↔ ∀ i, 3 ≤ i → i < 6 → velLim.1.getD i 0 ≤ qvel.getD i 0 ∧ qvel.getD i 0 ≤ velLim.2.getD i 0) ∧
    (∀ e, SamePoint 0 (-1.51, 0) (fk (qpos.take 3)) e → (Satisfied c1.ee ↔ -(0.98 + 0.05) ≤ e.1 ∧ |e.2| ≤ 0.51 - 0.05)) ∧
    (∀ e, SamePoint Real.pi (1.51, 0) (fk ((qpos.drop 3).take 3)) e → (Satisfied c2.ee ↔ e.1 ≤ 0.98 + 0.05 ∧ |e.2| ≤ 0.51 - 0.05)) := by
  have len : ∀ (i : ℕ) (x : List ℝ), i < 2 → x.length = 6 → (third i x).length = 3 := by
    intro i x hi hx
    simp only [third, List.length_take, List.length_drop, hx]
    omega
  have get : ∀ (i j : ℕ) (x : List ℝ), j < 3 → (third i x).getD j 0 = x.getD (i * 3 + j) 0 := by
    intro i j x hj
    have : (i + 1) * 3 - i * 3 = 3 := by omega
    simp only [third, this, List.getD_eq_getElem?_getD, List.getElem?_take, hj, if_true, List.getElem?_drop]
  have t0 : third 0 qpos = qpos.take 3 := by simp [third]
  have t1 : third 1 qpos = (qpos.drop 3).take 3 := by simp [third]
  obtain ⟨v1, e1⟩ := C118_constraints_partial fk (-1.51, 0) (third 0 posLim.1, third 0 posLim.2) (third 0 velLim.1, third 0 velLim.2) (third 0 qpos) (third 0 qvel)
    (by rw [len 0 _ (by omega) hl, len 0 _ (by omega) hq]) (by rw [len 0 _ (by omega) hu, len 0 _ (by omega) hq])
  obtain ⟨v2, e2⟩ := C118_constraints_partial fk (-1.51, 0) (third 1 posLim.1, third 1 posLim.2) (third 1 velLim.1, third 1 velLim.2) (third 1 qpos) (third 1 qvel)
    (by rw [len 1 _ (by omega) hl, len 1 _ (by omega) hq]) (by rw [len 1 _ (by omega) hu, len 1 _ (by omega) hq])
  refine ⟨_, _, rfl, v1.trans ?_, v2.trans ?_, fun e he => e1.trans ?_, fun e he => e2.trans ?_⟩
  · unfold Within
    rw [len 0 _ (by omega) hq]
    refine forall₂_congr fun i hi => ?_
    simp only
    rw [get 0 i _ hi, get 0 i _ hi, get 0 i _ hi, Nat.zero_mul, Nat.zero_add]
  · unfold Within
    rw [len 1 _ (by omega) hq]
    constructor
    · intro h i h3 h6
      have := h (i - 3) (by omega)
      simp only at this
      rw [get 1 _ _ (by omega), get 1 _ _ (by omega), get 1 _ _ (by omega), show 1 * 3 + (i - 3) = i by omega] at this
      exact this
    · intro h i hi
      simp only
      rw [get 1 _ _ hi, get 1 _ _ hi, get 1 _ _ hi]
      exact h _ (by omega) (by omega)
  · obtain ⟨h1, h2⟩ := he
    rw [t0, ← h1, ← h2]
    simp [Real.cos_zero, Real.sin_zero]
  · obtain ⟨h1, h2⟩ := he
    rw [t1, ← h1, ← h2]
    simp only [Real.cos_pi, Real.sin_pi, abs_le]
    constructor
    · rintro ⟨a, b, c⟩
      exact ⟨by linarith, by linarith, by linarith⟩
    · rintro ⟨a, b, c⟩
      exact ⟨by linarith, by linarith, by linarith⟩

/-- The lengths required by the theorem are those of two robots with three joints each. -/
example : ∃ (velLim : List ℝ × List ℝ) (qvel : List ℝ) (fk : List ℝ → V2) (e : V2), qvel.length = 6 ∧ velLim.1.length = 6 ∧ velLim.2.length = 6 ∧
    SamePoint Real.pi (1.51, 0) (fk []) e ∧ e = (0.51, 0) :=
  ⟨([-1, -1, -1, -1, -1, -1], [1, 1, 1, 1, 1, 1]), [0, 0, 0, 0, 0, 0], fun _ => (1, 0), (0.51, 0), rfl, rfl, rfl, by norm_num [SamePoint], rfl⟩

/-- C118 fails for the constraints on the joint positions of either agent: they do not depend on the positions. They hold exactly when the velocities of the joints are
within the limits for the positions. -/
theorem C118_constraints_double_refuted (fk : List ℝ → V2) (base : V2) (posLim velLim : List ℝ × List ℝ) (q1 q2 qvel : List ℝ) :
    (constraints2 fk base posLim velLim q1 qvel).map (fun c => c.2.jointPos) = (constraints2 fk base posLim velLim q2 qvel).map (fun c => c.2.jointPos) ∧
    (qvel.length = 6 → posLim.1.length = 6 → posLim.2.length = 6 →
      ∃ c1 c2, constraints2 fk (-1.51, 0) posLim velLim q1 qvel = [("agent-1", c1), ("agent-2", c2)] ∧
      (Satisfied c1.jointPos ↔ ∀ i, i < 3 → posLim.1.getD i 0 ≤ qvel.getD i 0 ∧ qvel.getD i 0 ≤ posLim.2.getD i 0) ∧
      (Satisfied c2.jointPos ↔ ∀ i, 3 ≤ i → i < 6 → posLim.1.getD i 0 ≤ qvel.getD i 0 ∧ qvel.getD i 0 ≤ posLim.2.getD i 0)) := by
  refine ⟨rfl, fun hq hl hu => ?_⟩
  obtain ⟨c1, c2, h, h1, h2, -⟩ := C118_constraints_double_partial fk velLim posLim q1 qvel hq hl hu
  refine ⟨_, _, rfl, ?_, ?_⟩
  · have : c1.jointVel = _ := congrArg (fun l => (l.map (fun c => c.2.jointVel)).headD []) h.symm
    rw [this] at h1
    exact h1
  · have : c2.jointVel = _ := congrArg (fun l => (l.map (fun c => c.2.jointVel)).tail.headD []) h.symm
    rw [this] at h2
    exact h2

end

end Verif.Hockey
