/-
C127. Isaac environments.
-/
import Verif.Vector.ModelIsaac
import Mathlib.Logic.Function.Iterate

namespace Verif.Vector.Isaac

variable {E A X R : Type}

/-- `x` is found below `d` dictionaries, always under the first key. -/
inductive FirstLeaf : ℕ → Obs X → X → Prop
  | here (x : X) : FirstLeaf 0 (.tensor x) x
  | inner {d : ℕ} {v : Obs X} {vs : List (Obs X)} {x : X} : FirstLeaf d v x → FirstLeaf (d + 1) (.dict (v :: vs)) x

theorem descend_leaf : ∀ (k d : ℕ) (o : Obs X) (x : X), FirstLeaf d o x → d ≤ k → descend k o = .ok (.tensor x) := by
  intro k
  induction k with
  | zero => intro d o x h hd; obtain rfl : d = 0 := by omega
            cases h; rfl
  | succ k ih =>
      intro d o x h hd
      cases h with
      | here => rfl
      | inner h => exact ih _ _ _ h (by omega)

theorem descend_deep : ∀ (k d : ℕ) (o : Obs X) (x : X), FirstLeaf d o x → k < d → ∃ vs, descend k o = .ok (.dict vs) := by
  intro k
  induction k with
  | zero =>
      intro d o x h hd
      cases h with
      | here => omega
      | inner h => exact ⟨_, rfl⟩
  | succ k ih =>
      intro d o x h hd
      cases h with
      | here => omega
      | inner h => exact ih _ _ _ h (by omega)

/-- C127. The observation is the tensor found by following the first keys, if there are at most five levels of dictionaries,
and otherwise the call raises. -/
theorem C127_convert (o : Obs X) (d : ℕ) (x : X) (h : FirstLeaf d o x) :
    (d ≤ 5 → convert o = .ok x) ∧ (5 < d → convert o = .error .attribute) := by
  constructor
  · intro hd
    simp only [convert, descend_leaf 5 d o x h hd]
  · intro hd
    obtain ⟨vs, hv⟩ := descend_deep 5 d o x h hd
    simp only [convert, hv]

example : FirstLeaf 2 (Obs.dict [.dict [.tensor 7, .tensor 8], .tensor 9]) 7 := .inner (.inner (.here 7))

/-- C127. If the number of environments to reset is not one, `reset_all` puts exactly these in their starting states, leaves
the others as they are, and returns the observation of the result. -/
theorem C127_reset_partial (t : Task E A X R) (n : ℕ) (mask : ℕ → Bool) (given : Option (ℕ → E)) (w : ℕ → E)
    (h : ((List.range n).filter mask).length ≠ 1) :
    (∀ i < n, mask i = true → (resetAll t n mask given w).1 i = t.start i) ∧
    (∀ i < n, mask i = false → (resetAll t n mask given w).1 i = w i) ∧
    (resetAll t n mask given w).2 = convert (t.observe (resetAll t n mask given w).1) := by
  have e : (resetAll t n mask given w).1 = resetIdx t ((List.range n).filter mask) w := by
    simp [resetAll, selected, h]
  refine ⟨?_, ?_, rfl⟩
  · intro i hi hm
    rw [e, resetIdx, if_pos (by simp [hi, hm])]
  · intro i hi hm
    rw [e, resetIdx, if_neg (by simp [hm])]

example : ((List.range 4).filter (fun i => i % 2 == 0)).length ≠ 1 := by decide

/-- C127. The full claim fails: if exactly one environment is to be reset, nothing is reset. Its new episode starts in the state
in which the previous one has ended. -/
theorem C127_reset_refuted (t : Task E A X R) (n : ℕ) (mask : ℕ → Bool) (given : Option (ℕ → E)) (w : ℕ → E)
    (h : ((List.range n).filter mask).length = 1) : (resetAll t n mask given w).1 = w := by
  simp [resetAll, selected, h]

/-- C127. In particular the methods for a single environment never reset it. -/
theorem C127_reset_one_refuted (t : Task E A X R) (n i : ℕ) (hi : i < n) (given : Option (ℕ → E)) (w : ℕ → E) :
    (resetAll t n (fun j => j == i) given w).1 = w := by
  apply C127_reset_refuted
  have : ∀ m, ((List.range m).filter (fun j => j == i)).length = if i < m then 1 else 0 := by
    intro m
    induction m with
    | zero => simp
    | succ m ih =>
        rw [List.range_succ, List.filter_append, List.length_append, ih]
        by_cases h : m = i
        · subst h; simp
        · have : (i < m + 1) ↔ i < m := by omega
          simp [h, this]
  rw [this n, if_pos hi]

/-- C127. Given starting states are ignored. -/
theorem C127_given_refuted (t : Task E A X R) (n : ℕ) (mask : ℕ → Bool) (given : Option (ℕ → E)) (w : ℕ → E) :
    resetAll t n mask given w = resetAll t n mask none w := rfl

theorem advance_eq (t : Task E A X R) (action : ℕ → A) : ∀ (k : ℕ) (w : ℕ → E) (i : ℕ),
    advance t action k w i = (fun e => t.physics e (action i))^[k] (w i) := by
  intro k
  induction k with
  | zero => intro w i; rfl
  | succ k ih => intro w i; rw [advance, ih, Function.iterate_succ_apply]

/-- C127. `step_all` applies the physics as often as the task says, with the action of the environment; only selected
environments are reported as finished; observation and rewards are those of the new states. -/
theorem C127_step_partial (t : Task E A X R) (mask : ℕ → Bool) (action : ℕ → A) (w : ℕ → E) :
    let out := stepAll t mask action w
    (∀ i, out.1 i = (fun e => t.physics e (action i))^[t.substeps] (w i)) ∧
    out.2.1 = convert (t.observe out.1) ∧ out.2.2.1 = t.reward out.1 ∧
    ∀ i, out.2.2.2 i = true ↔ mask i = true ∧ t.finished out.1 i = true := by
  refine ⟨fun i => advance_eq t action _ w i, rfl, rfl, fun i => ?_⟩
  simp [stepAll, and_comm]

/-- C127. The other environments are moved as well, contrary to the interface. -/
theorem C127_step_refuted : ∃ (t : Task ℕ ℕ ℕ ℕ) (mask : ℕ → Bool) (action w : ℕ → ℕ) (i : ℕ), mask i = false ∧
    (stepAll t mask action w).1 i ≠ w i :=
  ⟨⟨fun _ => 0, fun e a => e + a, fun _ => .tensor 0, fun _ _ => 0, fun _ _ => false, 1⟩, fun _ => false, fun _ => 1, fun _ => 0, 0,
    rfl, by decide⟩

end Verif.Vector.Isaac
