/-
A run of `Core` that is cut in two: lemmas for C170.
-/
import Verif.Core.Lemmas3
import Mathlib.Tactic.Conv

namespace Verif.Core

variable {W X A R P T : Type}

/-- A state with larger counters, and with earlier rows, parameters and events. -/
def St.shift (te ts ce cs : Nat) (rows : List (Sample X A R P)) (thetas : List T) (trace : List (Event X A R P T)) (s : St W X A R P T) :
    St W X A R P T :=
  { s with
    totalEpisodes := te + s.totalEpisodes
    totalSteps := ts + s.totalSteps
    currentEpisodes := ce + s.currentEpisodes
    currentSteps := cs + s.currentSteps
    rows := rows ++ s.rows
    thetas := thetas ++ s.thetas
    trace := trace ++ s.trace }

section

variable {sys : Sys W X A R P T} {c c' : Cfg X} {te ts ce cs : Nat} {rows : List (Sample X A R P)} {thetas : List T}
  {trace : List (Event X A R P T)}

theorem reset_shift (s : St W X A R P T) (hg : getInitialState c (s.shift te ts ce cs rows thetas trace) = getInitialState c' s) :
    reset sys c (s.shift te ts ce cs rows thetas trace) = (reset sys c' s).map (St.shift te ts ce cs rows thetas trace) := by
  unfold reset
  rw [hg]
  cases getInitialState c' s with
  | error e => rfl
  | ok req =>
    simp only [Except.map, Except.ok.injEq]
    simp only [St.shift, St.mk.injEq, true_and, List.append_assoc]
    split <;> simp

theorem step_shift (s : St W X A R P T) (x : X) (h : c.capacity = none) (h' : c'.capacity = none) :
    step sys c (s.shift te ts ce cs rows thetas trace) x = (step sys c' s x).map (St.shift te ts ce cs rows thetas trace) := by
  unfold step
  simp only [h, h', isFull, Except.map, Bool.false_eq_true, if_false]
  simp only [St.shift, Except.ok.injEq, St.mk.injEq, true_and, List.append_assoc, Nat.add_assoc, and_true]
  constructor <;> split <;> omega

theorem fitPhase_shift (s : St W X A R P T) (hf : c.fitMode = c'.fitMode)
    (hn : c'.fitMode = .never ∨ (ce = 0 ∧ cs = 0 ∧ rows = [] ∧ thetas = [])) :
    fitPhase sys c (s.shift te ts ce cs rows thetas trace) = (fitPhase sys c' s).shift te ts ce cs rows thetas trace := by
  rcases hn with hn | ⟨rfl, rfl, rfl, rfl⟩
  · unfold fitPhase
    simp [hf, hn, fitRequired]
  · have : fitRequired c.fitMode (s.shift te ts 0 0 [] [] trace) = fitRequired c'.fitMode s := by
      rw [hf]
      cases c'.fitMode <;> simp [fitRequired, St.shift]
    unfold fitPhase
    rw [this]
    split
    · simp [St.shift]
    · rfl

theorem iter_shift (s : St W X A R P T) (hg : getInitialState c (s.shift te ts ce cs rows thetas trace) = getInitialState c' s)
    (h : c.capacity = none) (h' : c'.capacity = none) (hf : c.fitMode = c'.fitMode)
    (hn : c'.fitMode = .never ∨ (ce = 0 ∧ cs = 0 ∧ rows = [] ∧ thetas = [])) :
    iter sys c (s.shift te ts ce cs rows thetas trace) = (iter sys c' s).map (St.shift te ts ce cs rows thetas trace) := by
  have hr : (if (s.shift te ts ce cs rows thetas trace).last then reset sys c (s.shift te ts ce cs rows thetas trace)
      else .ok (s.shift te ts ce cs rows thetas trace)) =
      (if s.last then reset sys c' s else .ok s).map (St.shift te ts ce cs rows thetas trace) := by
    rw [reset_shift s hg]
    show (if s.last then _ else _) = _
    split <;> rfl
  unfold iter
  dsimp only
  rw [hr]
  cases (if s.last then reset sys c' s else .ok s) with
  | error e => rfl
  | ok s1 =>
    simp only [Except.map]
    show (match s1.state with | none => _ | some x => _) = _
    cases hx : s1.state with
    | none => rfl
    | some x =>
      dsimp only
      rw [step_shift s1 x h h']
      cases step sys c' s1 x with
      | error e => rfl
      | ok s2 =>
        simp only [Except.map]
        rw [fitPhase_shift s2 hf hn]

theorem loop_shift (hm : ∀ s : St W X A R P T, moveRequired c.budget (s.shift te ts ce cs rows thetas trace) = moveRequired c'.budget s)
    (hg : ∀ s : St W X A R P T, moveRequired c'.budget s = true →
      getInitialState c (s.shift te ts ce cs rows thetas trace) = getInitialState c' s)
    (h : c.capacity = none) (h' : c'.capacity = none) (hf : c.fitMode = c'.fitMode)
    (hn : c'.fitMode = .never ∨ (ce = 0 ∧ cs = 0 ∧ rows = [] ∧ thetas = [])) :
    ∀ (fuel : Nat) (s : St W X A R P T), loop sys c fuel (s.shift te ts ce cs rows thetas trace) =
      (loop sys c' fuel s).map (Except.map (St.shift te ts ce cs rows thetas trace)) := by
  intro fuel
  induction fuel with
  | zero =>
    intro s
    unfold loop
    rw [hm]
    split <;> rfl
  | succ fuel ih =>
    intro s
    unfold loop
    rw [hm]
    split
    · rename_i hmv
      rw [iter_shift s (hg s hmv) h h' hf hn]
      cases iter sys c' s with
      | error e => rfl
      | ok s1 => exact ih s1
    · rfl

/-- The long run passes through the end of the short one. -/
theorem loop_prefix (hm : ∀ s : St W X A R P T, moveRequired c'.budget s = true → moveRequired c.budget s = true)
    (hi : ∀ s : St W X A R P T, moveRequired c'.budget s = true → iter sys c s = iter sys c' s) :
    ∀ (fuel : Nat) (s s1 : St W X A R P T), loop sys c' fuel s = some (.ok s1) →
      ∃ k ≤ fuel, ∀ f2, loop sys c (k + f2) s = loop sys c f2 s1 := by
  intro fuel
  induction fuel with
  | zero =>
    intro s s1 h
    unfold loop at h
    split at h
    · cases h
    · simp only [Option.some.injEq, Except.ok.injEq] at h
      subst h
      exact ⟨0, Nat.le_refl 0, fun f2 => by rw [Nat.zero_add]⟩
  | succ fuel ih =>
    intro s s1 h
    unfold loop at h
    split at h
    · rename_i hmv
      cases hit : iter sys c' s with
      | error e => rw [hit] at h; cases h
      | ok s2 =>
        rw [hit] at h
        obtain ⟨k, hk, e⟩ := ih s2 s1 h
        refine ⟨k + 1, by omega, fun f2 => ?_⟩
        rw [show k + 1 + f2 = (k + f2) + 1 by omega]
        conv_lhs => unfold loop
        rw [if_pos (hm s hmv), hi s hmv, hit]
        exact e f2
    · simp only [Option.some.injEq, Except.ok.injEq] at h
      subst h
      exact ⟨0, by omega, fun f2 => by rw [Nat.zero_add]⟩

/-- Without an allocation limit the loop only differs by not raising IndexError. -/
theorem loop_uncapped : ∀ (fuel : Nat) (s : St W X A R P T),
    loop sys c fuel s = loop sys { c with capacity := none } fuel s ∨ loop sys c fuel s = some (.error .index) := by
  have hstep : ∀ (s : St W X A R P T) x, step sys c s x = step sys { c with capacity := none } s x ∨ step sys c s x = .error .index := by
    intro s x
    by_cases hc : isFull c.capacity s.rows.length = true
    · right; unfold step; simp [hc]
    · left
      unfold step
      dsimp only
      rw [if_neg hc]
      rfl
  have hiter : ∀ s : St W X A R P T, iter sys c s = iter sys { c with capacity := none } s ∨ iter sys c s = .error .index := by
    intro s
    have hreset : reset sys { c with capacity := none } s = reset sys c s := rfl
    unfold iter
    dsimp only
    rw [hreset]
    cases (if s.last then reset sys c s else .ok s) with
    | error e => left; rfl
    | ok s1 =>
      dsimp only
      cases s1.state with
      | none => left; rfl
      | some x =>
        dsimp only
        rcases hstep s1 x with h | h
        · left
          rw [h]
          cases step sys { c with capacity := none } s1 x with
          | error e => rfl
          | ok s2 => rfl
        · right; rw [h]
  intro fuel
  induction fuel with
  | zero => intro s; left; rfl
  | succ fuel ih =>
    intro s
    unfold loop
    dsimp only
    by_cases hm : moveRequired c.budget s = true
    · rw [if_pos hm, if_pos hm]
      rcases hiter s with h | h
      · rw [h]
        cases iter sys { c with capacity := none } s with
        | error e => left; rfl
        | ok s1 => exact ih s1
      · right; rw [h]
    · rw [if_neg hm, if_neg hm]; left; rfl

theorem iter_same (hb : c.fitMode = c'.fitMode) (hcap : c.capacity = c'.capacity) (s : St W X A R P T)
    (hg : getInitialState c s = getInitialState c' s) : iter sys c s = iter sys c' s := by
  have h1 : reset sys c s = reset sys c' s := by unfold reset; rw [hg]
  have h2 : ∀ s x, step sys c s x = step sys c' s x := by intro s x; unfold step; rw [hcap]
  have h3 : ∀ s, fitPhase sys c s = fitPhase sys c' s := by intro s; unfold fitPhase; rw [hb]
  unfold iter
  rw [h1]
  simp only [h2, h3]

end

/-- Cutting a run at the end of an episode, without allocation limits. -/
theorem loop_split {sys : Sys W X A R P T} {c c1 c2 : Cfg X} {n : Nat} (hc : c.capacity = none) (hc1 : c1.capacity = none) (hc2 : c2.capacity = none)
    (hf1 : c1.fitMode = c.fitMode) (hf2 : c2.fitMode = c.fitMode) (s0 s1 : St W X A R P T)
    (hm1 : ∀ s : St W X A R P T, moveRequired c1.budget s = true → moveRequired c.budget s = true)
    (hm2 : ∀ s : St W X A R P T, moveRequired c.budget (s.shift s1.totalEpisodes s1.totalSteps s1.currentEpisodes s1.currentSteps s1.rows s1.thetas s1.trace) =
      moveRequired c2.budget s)
    (hg1 : ∀ s : St W X A R P T, moveRequired c1.budget s = true → getInitialState c s = getInitialState c1 s)
    (hg2 : ∀ s : St W X A R P T, moveRequired c2.budget s = true →
      getInitialState c (s.shift s1.totalEpisodes s1.totalSteps s1.currentEpisodes s1.currentSteps s1.rows s1.thetas s1.trace) = getInitialState c2 s)
    (h1 : loop sys c1 n s0 = some (.ok s1)) (hl : s1.last = true)
    (hn : c2.fitMode = .never ∨ (s1.currentEpisodes = 0 ∧ s1.currentSteps = 0 ∧ s1.rows = [] ∧ s1.thetas = [])) :
    ∃ k ≤ n, ∀ f2, loop sys c (k + f2) s0 = (loop sys c2 f2 (start s1)).map
      (Except.map (St.shift s1.totalEpisodes s1.totalSteps s1.currentEpisodes s1.currentSteps s1.rows s1.thetas s1.trace)) := by
  obtain ⟨k, hk, e⟩ := loop_prefix (sys := sys) (c := c) (c' := c1) hm1 (fun s hs => iter_same hf1.symm (hc.trans hc1.symm) s (hg1 s hs)) n s0 s1 h1
  refine ⟨k, hk, fun f2 => ?_⟩
  rw [e f2]
  have hs : s1 = (start s1).shift s1.totalEpisodes s1.totalSteps s1.currentEpisodes s1.currentSteps s1.rows s1.thetas s1.trace := by
    cases s1
    simp only at hl
    simp [St.shift, start, hl]
  conv_lhs => rw [hs]
  exact loop_shift hm2 hg2 hc hc2 hf2.symm hn f2 (start s1)

/-- Nothing is left of the parameters of episodes whose steps have all been fitted. -/
theorem thetas_fitted {sys : Sys W X A R P T} {c : Cfg X} {prev s : St W X A R P T} (h : Reach sys c prev s) (hr : s.rows = []) :
    s.thetas = [] := by
  cases h with
  | start => rfl
  | iter _ _ hi =>
    obtain ⟨s1, x, s2, _, _, hst, rfl⟩ := iter_cases hi
    obtain ⟨_, _, _, _, _, _, ht⟩ := fitPhase_fields sys c s2
    rcases ht with ⟨_, _, _, hrow⟩ | ⟨_, _, _, hth, _⟩
    · obtain ⟨_, _, _, _, _, _, smp, _, _, _, _, _, _, _, _, _, r2, _⟩ := step_fields hst
      rw [hrow, r2] at hr
      simp at hr
    · exact hth

end Verif.Core
