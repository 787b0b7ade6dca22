/-
Property C44: the breadth-first solver of car on hill.
-/
import Verif.Solvers.Spec
import Mathlib.Tactic.NormNum
import Mathlib.Tactic.Positivity

namespace Verif.Solvers

noncomputable section

variable {X : Type} {step : X → Bool → X × ℤ}

theorem endsWith_cons {r : ℤ} {s : X} {a : Bool} {as : List Bool} :
    EndsWith step r s (a :: as) ↔ (as = [] ∧ (step s a).2 = r) ∨ ((step s a).2 = 0 ∧ EndsWith step r (step s a).1 as) := by
  constructor
  · intro h
    cases h with
    | last _ _ h => exact .inl ⟨rfl, h⟩
    | more _ _ _ h h' => exact .inr ⟨h, h'⟩
  · rintro (⟨rfl, h⟩ | ⟨h, h'⟩)
    · exact .last s a h
    · exact .more s a as h h'

theorem endsWith_ne_nil {r : ℤ} {s : X} {as : List Bool} (h : EndsWith step r s as) : 1 ≤ as.length := by
  cases h <;> simp

/-- The expansion of a frontier reports success exactly if some state wins in one step; otherwise the new frontier is the
set of successors with reward 0. -/
theorem expand_spec (frontier : List X) :
    match expand step frontier with
    | none => ∃ f ∈ frontier, ∃ a, (step f a).2 = 1
    | some new => (∀ f ∈ frontier, ∀ a, (step f a).2 ≠ 1) ∧
        ∀ x, x ∈ new ↔ ∃ f ∈ frontier, ∃ a, (step f a).2 = 0 ∧ x = (step f a).1 := by
  induction frontier with
  | nil => simp [expand]
  | cons f fs ih =>
      simp only [expand]
      by_cases h0 : (step f false).2 = 1
      · rw [if_pos h0]; exact ⟨f, by simp, false, h0⟩
      · rw [if_neg h0]
        by_cases h1 : (step f true).2 = 1
        · rw [if_pos h1]; exact ⟨f, by simp, true, h1⟩
        · rw [if_neg h1]
          cases he : expand step fs with
          | none =>
              rw [he] at ih
              obtain ⟨g, hg, a, ha⟩ := ih
              exact ⟨g, by simp [hg], a, ha⟩
          | some rest =>
              rw [he] at ih
              obtain ⟨i1, i2⟩ := ih
              simp only [Option.map_some]
              constructor
              · intro g hg a
                simp only [List.mem_cons] at hg
                rcases hg with rfl | hg
                · cases a
                  · exact h0
                  · exact h1
                · exact i1 g hg a
              · intro x
                simp only [List.mem_append, i2, List.mem_cons, exists_eq_or_imp, Bool.exists_bool]
                constructor
                · rintro ((h | h) | h)
                  · split at h
                    · rename_i hz; simp only [List.mem_singleton] at h; exact .inl (.inl ⟨hz, h⟩)
                    · simp at h
                  · split at h
                    · rename_i hz; simp only [List.mem_singleton] at h; exact .inl (.inr ⟨hz, h⟩)
                    · simp at h
                  · exact .inr h
                · rintro ((⟨hz, h⟩ | ⟨hz, h⟩) | h)
                  · left; left; simp [hz, h]
                  · left; right; simp [hz, h]
                  · right; exact h

/-- If a frontier state wins with `as`, the search reports the depth of the shortest winning sequence; otherwise it reports
failure. -/
theorem bfs_spec (fuel k : ℕ) (frontier : List X) :
    ((bfs step frontier k fuel).1 = true →
      ∃ d, (bfs step frontier k fuel).2 = k + d ∧ d < fuel ∧
        (∃ f ∈ frontier, ∃ as, EndsWith step 1 f as ∧ as.length = d + 1) ∧
        ∀ f ∈ frontier, ∀ as, EndsWith step 1 f as → d + 1 ≤ as.length) ∧
    ((bfs step frontier k fuel).1 = false →
      ∀ f ∈ frontier, ∀ as, EndsWith step 1 f as → fuel < as.length) := by
  induction fuel generalizing k frontier with
  | zero =>
      refine ⟨fun h => by simp [bfs] at h, fun _ f _ as h => endsWith_ne_nil h⟩
  | succ fuel ih =>
      rw [bfs]
      by_cases he : frontier.isEmpty
      · rw [if_pos he]
        rw [List.isEmpty_iff] at he
        subst he
        exact ⟨by simp, by simp⟩
      · rw [if_neg he]
        have hx := expand_spec (step := step) frontier
        cases hn : expand step frontier with
        | none =>
            rw [hn] at hx
            obtain ⟨f, hf, a, ha⟩ := hx
            refine ⟨fun _ => ⟨0, rfl, by omega, ⟨f, hf, [a], .last f a ha, rfl⟩, fun g _ as h => endsWith_ne_nil h⟩,
              by simp⟩
        | some new =>
            rw [hn] at hx
            obtain ⟨h1, h2⟩ := hx
            obtain ⟨i1, i2⟩ := ih (k + 1) new
            simp only
            constructor
            · intro hs
              obtain ⟨d, e1, e2, ⟨f, hf, as, has, hlen⟩, e4⟩ := i1 hs
              refine ⟨d + 1, by omega, by omega, ?_, ?_⟩
              · obtain ⟨g, hg, a, hz, rfl⟩ := (h2 f).mp hf
                exact ⟨g, hg, a :: as, .more g a as hz has, by simp [hlen]⟩
              · intro g hg as h
                cases h with
                | last _ a h => exact absurd h (h1 g hg a)
                | more _ a as hz h' =>
                    have := e4 _ ((h2 _).mpr ⟨g, hg, a, hz, rfl⟩) as h'
                    simp; omega
            · intro hs g hg as h
              cases h with
              | last _ a h => exact absurd h (h1 g hg a)
              | more _ a as hz h' =>
                  have := i2 hs _ ((h2 _).mpr ⟨g, hg, a, hz, rfl⟩) as h'
                  simp; omega

/-- C44. If some sequence of actions that starts with `a` and is shorter than `max_k` reaches the goal, the value is
`gamma ^ (n - 1)` for the length `n` of the shortest one. -/
theorem C44_shortest_path (step : X → Bool → X × ℤ) (gamma : ℝ) (maxK : ℕ) (h2 : 2 ≤ maxK) (s : X) (a : Bool)
    (hr : (step s a).2 = 1 ∨ (step s a).2 = 0 ∨ (step s a).2 = -1)
    (hwin : ∃ as, EndsWith step 1 s (a :: as) ∧ (a :: as).length < maxK) :
    ∃ as, EndsWith step 1 s (a :: as) ∧ (∀ bs, EndsWith step 1 s (a :: bs) → as.length ≤ bs.length) ∧
      solveCar step gamma maxK s a = gamma ^ as.length := by
  obtain ⟨as, hw, hlen⟩ := hwin
  simp only [solveCar]
  rcases hr with h1 | h0 | hm
  · simp only [h1, if_true]
    exact ⟨[], .last s a h1, by simp, by simp⟩
  · have hn1 : ¬ ((0 : ℤ) = 1) := by decide
    have hn2 : ¬ ((0 : ℤ) = -1) := by decide
    simp only [h0, if_neg hn1, if_neg hn2]
    obtain ⟨b1, b2⟩ := bfs_spec (step := step) (maxK - 2) 2 [(step s a).1]
    have hw' : EndsWith step 1 (step s a).1 as := by
      rcases endsWith_cons.mp hw with ⟨_, h⟩ | ⟨_, h⟩
      · rw [h0] at h; cases h
      · exact h
    rcases Bool.eq_false_or_eq_true (bfs step [(step s a).1] 2 (maxK - 2)).1 with hb | hb
    · obtain ⟨d, e1, e2, ⟨f, hf, bs, hbs, hbl⟩, e4⟩ := b1 hb
      simp only [List.mem_singleton] at hf
      subst hf
      refine ⟨bs, .more s a bs h0 hbs, ?_, ?_⟩
      · intro cs hcs
        rcases endsWith_cons.mp hcs with ⟨_, h⟩ | ⟨_, h⟩
        · rw [h0] at h; cases h
        · have := e4 _ (by simp) cs h
          omega
      · simp only [hb, if_true, e1, hbl]
        congr 1; omega
    · have := b2 hb _ (by simp) as hw'
      simp at hlen
      omega
  · exfalso
    rcases endsWith_cons.mp hw with ⟨_, h⟩ | ⟨h, _⟩
    · rw [hm] at h; cases h
    · rw [hm] at h; cases h

/-- C44. If no sequence shorter than `max_k` reaches the goal, the value is not positive; it is -1 if the first step
crashes. -/
theorem C44_failure (step : X → Bool → X × ℤ) (gamma : ℝ) (hg : 0 ≤ gamma) (maxK : ℕ) (h2 : 2 ≤ maxK) (s : X) (a : Bool)
    (hr : (step s a).2 = 1 ∨ (step s a).2 = 0 ∨ (step s a).2 = -1)
    (hwin : ∀ as, EndsWith step 1 s (a :: as) → maxK ≤ (a :: as).length) :
    solveCar step gamma maxK s a ≤ 0 ∧ ((step s a).2 = -1 → solveCar step gamma maxK s a = -1) := by
  have h1 : (step s a).2 ≠ 1 := fun h => by
    have := hwin [] (.last s a h)
    simp at this; omega
  constructor
  · simp only [solveCar, if_neg h1]
    by_cases hm : (step s a).2 = -1
    · simp only [if_pos hm]; simp
    · simp only [if_neg hm]
      have h0 : (step s a).2 = 0 := by tauto
      rcases Bool.eq_false_or_eq_true (bfs step [(step s a).1] 2 (maxK - 2)).1 with hb | hb
      · exfalso
        obtain ⟨d, e1, e2, ⟨f, hf, bs, hbs, hbl⟩, _⟩ := (bfs_spec (step := step) (maxK - 2) 2 [(step s a).1]).1 hb
        simp only [List.mem_singleton] at hf
        subst hf
        have := hwin bs (.more s a bs h0 hbs)
        simp at this
        omega
      · simp only [hb]
        simp
        positivity
  · intro hm
    simp [solveCar, hm]

/-- On failure the reported depth counts the steps until no path survives, or the limit. -/
theorem bfs_fail (fuel k : ℕ) (frontier : List X) (hs : (bfs step frontier k fuel).1 = false) :
    ∃ d, (bfs step frontier k fuel).2 = k + d ∧ d ≤ fuel ∧
      (∀ e < d, ∃ f ∈ frontier, ∃ as, Survives step f as ∧ as.length = e) ∧
      (d < fuel → ∀ f ∈ frontier, ∀ as, Survives step f as → as.length < d) := by
  induction fuel generalizing k frontier with
  | zero => exact ⟨0, rfl, le_refl _, by simp, by simp⟩
  | succ fuel ih =>
      rw [bfs] at hs ⊢
      by_cases he : frontier.isEmpty
      · rw [if_pos he]
        rw [List.isEmpty_iff] at he
        subst he
        exact ⟨0, rfl, by omega, by simp, by simp⟩
      · rw [if_neg he] at hs ⊢
        have hx := expand_spec (step := step) frontier
        cases hn : expand step frontier with
        | none => rw [hn] at hs; simp at hs
        | some new =>
            rw [hn] at hx hs
            obtain ⟨_, h2⟩ := hx
            obtain ⟨d, e1, e2, e3, e4⟩ := ih (k + 1) new hs
            refine ⟨d + 1, ?_, by omega, ?_, ?_⟩
            · simp only; omega
            · intro e hlt
              cases e with
              | zero =>
                  cases frontier with
                  | nil => simp at he
                  | cons f fs => exact ⟨f, by simp, [], .nil f, rfl⟩
              | succ e =>
                  obtain ⟨f, hf, as, has, hl⟩ := e3 e (by omega)
                  obtain ⟨g, hg, a, hz, rfl⟩ := (h2 f).mp hf
                  exact ⟨g, hg, a :: as, .cons g a as hz has, by simp [hl]⟩
            · intro hlt g hg as h
              cases h with
              | nil => simp
              | cons _ a as hz h' =>
                  have := e4 (by omega) _ ((h2 _).mpr ⟨g, hg, a, hz, rfl⟩) as h'
                  simp; omega

/-- C44. If the goal cannot be reached and the longest sequence of steps before the crash, `a` included, has `n` steps, the
value is `-gamma ^ (n + 1)`: the crash happens at step `n + 1` and is worth `-gamma ^ n`, so this is one discount too
many. -/
theorem C44_crash (step : X → Bool → X × ℤ) (gamma : ℝ) (maxK : ℕ) (h2 : 2 ≤ maxK) (s : X) (a : Bool) (n : ℕ)
    (h0 : (step s a).2 = 0) (hwin : ∀ as, ¬ EndsWith step 1 s (a :: as))
    (hlong : ∃ as, Survives step s (a :: as) ∧ (a :: as).length = n)
    (hmax : ∀ as, Survives step s (a :: as) → (a :: as).length ≤ n) (hn : n + 2 < maxK) :
    solveCar step gamma maxK s a = -gamma ^ (n + 1) := by
  have hn1 : ¬ ((0 : ℤ) = 1) := by decide
  have hn2 : ¬ ((0 : ℤ) = -1) := by decide
  simp only [solveCar, h0, if_neg hn1, if_neg hn2]
  have hb : (bfs step [(step s a).1] 2 (maxK - 2)).1 = false := by
    rcases Bool.eq_false_or_eq_true (bfs step [(step s a).1] 2 (maxK - 2)).1 with hb | hb
    · exfalso
      obtain ⟨d, _, _, ⟨f, hf, bs, hbs, _⟩, _⟩ := (bfs_spec (step := step) (maxK - 2) 2 [(step s a).1]).1 hb
      simp only [List.mem_singleton] at hf
      subst hf
      exact hwin bs (.more s a bs h0 hbs)
    · exact hb
  obtain ⟨d, e1, e2, e3, e4⟩ := bfs_fail _ _ _ hb
  obtain ⟨as, has, hl⟩ := hlong
  have has' : Survives step (step s a).1 as := by
    cases has with | cons _ _ _ _ h => exact h
  simp only [List.length_cons] at hl
  have hdn : d ≤ n := by
    by_contra hlt
    obtain ⟨f, hf, bs, hbs, hbl⟩ := e3 n (by omega)
    simp only [List.mem_singleton] at hf
    subst hf
    have := hmax bs (.cons s a bs h0 hbs)
    simp at this
    omega
  have hd : n ≤ d := by
    have := e4 (by omega) _ (by simp) as has'
    omega
  have : d = n := le_antisymm hdn hd
  simp only [hb, e1, this]
  simp only [Bool.false_eq_true, if_false]
  congr 2; omega

/-- A car that gets reward 0 on the first step and crashes on the second, whatever it does. -/
def crashStep (s _a : Bool) : Bool × ℤ := (false, if s then 0 else -1)

/-- A car that never reaches a terminal state. -/
def idleStep (s : Unit) (_a : Bool) : Unit × ℤ := (s, 0)

/-- C44. The value of a failure does not have the discount of the terminal reward: a car that crashes at its second step,
worth `-gamma`, gets `-gamma ^ 2`, and a car that never reaches a terminal state gets a negative value. -/
theorem C44_refuted (gamma : ℝ) (a : Bool) :
    (EndsWith crashStep (-1) true [a, a] ∧ (∀ as r, r ≠ 0 → EndsWith crashStep r true (a :: as) → as.length = 1) ∧
      solveCar crashStep gamma 50 true a = -gamma ^ 2) ∧
    ((∀ as r, r ≠ 0 → ¬ EndsWith idleStep r () as) ∧ solveCar idleStep gamma 3 () a = -gamma ^ 2) := by
  refine ⟨⟨.more _ _ _ rfl (.last _ _ rfl), ?_, ?_⟩, ?_, ?_⟩
  · intro as r hr h
    rcases endsWith_cons.mp h with ⟨_, h⟩ | ⟨_, h⟩
    · exact absurd h.symm hr
    · cases h with
      | last _ b h => rfl
      | more _ b bs hz _ => exact absurd (show (-1 : ℤ) = 0 from hz) (by decide)
  · simp [solveCar, crashStep, bfs, expand]
  · intro as r hr h
    generalize hu : () = u at h
    induction h with
    | last s a h => exact hr h.symm
    | more _ _ _ _ _ ih => exact ih rfl
  · simp [solveCar, idleStep, bfs, expand]

/-- A corridor: moving right from cell 3 wins, moving left from cell 0 crashes. -/
def corridor (s : ℕ) (a : Bool) : ℕ × ℤ :=
  if a then (s + 1, if s = 3 then 1 else 0) else (s - 1, if s = 0 then -1 else 0)

example : 2 ≤ 50 ∧ ((corridor 2 false).2 = 1 ∨ (corridor 2 false).2 = 0 ∨ (corridor 2 false).2 = -1) ∧
    ∃ as, EndsWith corridor 1 2 (false :: as) ∧ (false :: as).length < 50 := by
  refine ⟨by decide, by decide, [true, true, true], ?_, by decide⟩
  exact .more _ _ _ rfl (.more _ _ _ rfl (.more _ _ _ rfl (.last _ _ rfl)))

example (gamma : ℝ) (a : Bool) : solveCar crashStep gamma 50 true a = -gamma ^ (1 + 1) := by
  apply C44_crash crashStep gamma 50 (by decide) true a 1 rfl
  · intro as h
    rcases endsWith_cons.mp h with ⟨_, h⟩ | ⟨_, h⟩
    · simp [crashStep] at h
    · cases h with
      | last _ b hz => exact absurd (show (-1 : ℤ) = 1 from hz) (by decide)
      | more _ b bs hz _ => exact absurd (show (-1 : ℤ) = 0 from hz) (by decide)
  · exact ⟨[], .cons _ _ _ rfl (.nil _), rfl⟩
  · intro as h
    cases h with
    | cons _ _ _ _ h' =>
        cases h' with
        | nil => simp
        | cons _ b bs hz _ => exact absurd (show (-1 : ℤ) = 0 from hz) (by decide)
  · decide

end

end Verif.Solvers
