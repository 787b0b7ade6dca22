/-
Whether one call of `learn` or `evaluate` can be replaced by two (C170).
-/
import Verif.Core.Split
import Verif.Core.Props

namespace Verif.Core

variable {W X A R P T : Type}

/-! ### Specification -/

/-- The whole run did what the two runs did one after the other, and leaves the same world (agent, environment,
preprocessors, callbacks and random generators) and the same pending action behind. -/
def Continues (first second whole : St W X A R P T) : Prop :=
  whole.trace = first.trace ++ second.trace ∧ whole.world = second.world ∧ whole.nextAction = second.nextAction

/-- The transitions end with the end of an episode, or there are none. -/
def EndsEpisode (l : List (Sample X A R P)) : Prop := ∀ x, l.getLast? = some x → x.last = true

/-- The argument `n_steps` of a call. -/
def stepsArg : Budget → Option Nat
  | .steps n => some n
  | .episodes _ => none

/-- The argument `n_episodes` of a call. -/
def episodesArg : Budget → Option Nat
  | .steps _ => none
  | .episodes n => some n

/-! ### Lemmas -/

theorem endsEpisode_last {c : Cfg X} {s : St W X A R P T} (hI : Inv c s) : EndsEpisode (steps s.trace) ↔ s.last = true := by
  unfold EndsEpisode
  rcases hI.hlast with ⟨h, hl⟩ | ⟨init, x, h, hl⟩
  · simp [h, hl]
  · simp [h, hl]

theorem rows_fitted {c : Cfg X} {s : St W X A R P T} (hI : Inv c s) : steps s.trace = (fits s.trace).flatten ↔ s.rows = [] := by
  obtain ⟨bs, hb, _⟩ := hI.hwork
  rw [steps_eq_didsOf, fits_eq_fittedOf, hb, didsOf_workOf, fittedOf_workOf]
  simp

theorem run_split {sys : Sys W X A R P T} {c c1 c2 : Cfg X} {n m : Nat} {prev s1 s2 : St W X A R P T}
    (hno : ∀ fuel e, loop sys c fuel (start prev) ≠ some (.error e))
    (hf1 : c1.fitMode = c.fitMode) (hf2 : c2.fitMode = c.fitMode)
    (hm1 : ∀ s : St W X A R P T, moveRequired c1.budget s = true → moveRequired c.budget s = true)
    (hm2 : moveRequired c1.budget s1 = false → Inv c1 s1 → ∀ s : St W X A R P T,
      moveRequired c.budget (s.shift s1.totalEpisodes s1.totalSteps s1.currentEpisodes s1.currentSteps s1.rows s1.thetas s1.trace) =
      moveRequired c2.budget s)
    (hg1 : ∀ s : St W X A R P T, moveRequired c1.budget s = true → getInitialState c s = getInitialState c1 s)
    (hg2 : moveRequired c1.budget s1 = false → Inv c1 s1 → ∀ s : St W X A R P T, moveRequired c2.budget s = true →
      getInitialState c (s.shift s1.totalEpisodes s1.totalSteps s1.currentEpisodes s1.currentSteps s1.rows s1.thetas s1.trace) = getInitialState c2 s)
    (h1 : loop sys c1 n (start prev) = some (.ok s1)) (hl : EndsEpisode (steps s1.trace))
    (hn : c.fitMode = .never ∨ steps s1.trace = (fits s1.trace).flatten)
    (h2 : loop sys c2 m (start s1) = some (.ok s2)) :
    ∃ s, loop sys c (n + m) (start prev) = some (.ok s) ∧ Continues s1 s2 s ∧ (s.rows = s1.rows ++ s2.rows) := by
  obtain ⟨hr, hmv⟩ := loop_reach Reach.start h1
  have hI := inv_reach hr
  have u1 : loop sys { c1 with capacity := none } n (start prev) = some (.ok s1) := by
    rcases loop_uncapped (sys := sys) (c := c1) n (start prev) with e | e
    · rw [← e]; exact h1
    · rw [h1] at e; cases e
  have u2 : loop sys { c2 with capacity := none } m (start s1) = some (.ok s2) := by
    rcases loop_uncapped (sys := sys) (c := c2) m (start s1) with e | e
    · rw [← e]; exact h2
    · rw [h2] at e; cases e
  have hn' : ({ c2 with capacity := none } : Cfg X).fitMode = .never ∨
      (s1.currentEpisodes = 0 ∧ s1.currentSteps = 0 ∧ s1.rows = [] ∧ s1.thetas = []) := by
    rcases hn with hn | hn
    · left; exact hf2.trans hn
    · right
      have hrow := (rows_fitted hI).mp hn
      refine ⟨?_, ?_, hrow, thetas_fitted hr hrow⟩
      · rw [hI.curE, hrow]; rfl
      · rw [hI.cur, hrow]; rfl
  obtain ⟨k, hk, e⟩ := loop_split (sys := sys) (c := { c with capacity := none }) (c1 := { c1 with capacity := none })
    (c2 := { c2 with capacity := none }) rfl rfl rfl hf1 hf2 (start prev) s1 hm1 (hm2 hmv hI) hg1 (hg2 hmv hI) u1 ((endsEpisode_last hI).mp hl) hn'
  have e := e m
  rw [u2] at e
  have e := loop_mono (n - k) e
  rw [show k + m + (n - k) = n + m by omega] at e
  have e' : loop sys c (n + m) (start prev) = some (.ok (s2.shift s1.totalEpisodes s1.totalSteps s1.currentEpisodes s1.currentSteps s1.rows s1.thetas s1.trace)) := by
    rcases loop_uncapped (sys := sys) (c := c) (n + m) (start prev) with u | u
    · rw [u, e]; rfl
    · exact absurd u (hno _ _)
  exact ⟨_, e', ⟨rfl, rfl, rfl⟩, rfl⟩

/-- `moveRequired` after the first part of a budget. -/
theorem move_split {B : Nat → Budget} (hB : B = Budget.steps ∨ B = Budget.episodes) {c1 : Cfg X} {a b : Nat} {s1 : St W X A R P T} (hb : c1.budget = B a)
    (hmv : moveRequired c1.budget s1 = false) (hI : Inv c1 s1) (s : St W X A R P T) :
    moveRequired (B (a + b)) (s.shift s1.totalEpisodes s1.totalSteps s1.currentEpisodes s1.currentSteps s1.rows s1.thetas s1.trace) =
      moveRequired (B b) s := by
  have h := hI.budget
  rcases hB with rfl | rfl
  · simp only [hb] at h
    have hmv : decide (s1.totalSteps < a) = false := by rw [hb] at hmv; exact hmv
    have e : s1.totalSteps = a := by simp at hmv; omega
    show decide (s1.totalSteps + s.totalSteps < a + b) = decide (s.totalSteps < b)
    rw [e]
    simp
  · simp only [hb] at h
    have hmv : decide (s1.totalEpisodes < a) = false := by rw [hb] at hmv; exact hmv
    have e : s1.totalEpisodes = a := by simp at hmv; omega
    show decide (s1.totalEpisodes + s.totalEpisodes < a + b) = decide (s.totalEpisodes < b)
    rw [e]
    simp

theorem getInitialState_given {c : Cfg X} {zs : List X} {n : Nat} (hz : c.initialStates = some zs) (hb : c.budget = .episodes n) (s : St W X A R P T)
    (hs : s.totalEpisodes < n) : getInitialState c s = match zs[s.totalEpisodes]? with | some x => .ok (some x) | none => .error .index := by
  unfold getInitialState
  rw [hz]
  dsimp only
  have : ¬ c.budget = .episodes s.totalEpisodes := by rw [hb]; simp; omega
  rw [if_neg this]
  cases zs[s.totalEpisodes]? <;> rfl

theorem move_mono {B : Nat → Budget} (hB : B = Budget.steps ∨ B = Budget.episodes) {a b : Nat} (s : St W X A R P T)
    (h : moveRequired (B a) s = true) : moveRequired (B (a + b)) s = true := by
  rcases hB with rfl | rfl <;> simp only [moveRequired, decide_eq_true_eq] at h ⊢ <;> omega

/-- The configuration of a call of `learn`. -/
theorem learnCfg_args {sys : Sys W X A R P T} {d e : Option Nat} (h : d.isSome ≠ e.isSome)
    (he : ∀ k, e = some k → 1 ≤ k ∧ ∃ H, sys.horizon = some H ∧ 1 ≤ H) :
    ∃ f cap, ∀ b : Budget, learnCfg sys (stepsArg b) (episodesArg b) d e = .ok { budget := b, fitMode := f, initialStates := none, capacity := some cap } := by
  rcases d with _ | d <;> rcases e with _ | e <;> simp at h
  · obtain ⟨_, H, hH, _⟩ := he e rfl
    exact ⟨.episodes e, H * e, fun b => by cases b <;> simp [learnCfg, initializeLearn, datasetCapacity, initializeRun, hH, stepsArg, episodesArg]⟩
  · exact ⟨.steps d, d, fun b => by cases b <;> simp [learnCfg, initializeLearn, datasetCapacity, initializeRun, stepsArg, episodesArg]⟩

/-! ### Theorems -/

/-- **C170**: a call of `learn` for `a + b` steps (or episodes) can be replaced by a call for `a` and a call for `b`, if the
first one ends at the end of an episode with all its transitions given to `fit`. -/
theorem C170_learn (sys : Sys W X A R P T) (prev : St W X A R P T) (B : Nat → Budget) (hB : B = Budget.steps ∨ B = Budget.episodes) (a b : Nat)
    (d e : Option Nat) (h : d.isSome ≠ e.isSome) (hd : ∀ k, d = some k → 1 ≤ k)
    (he : ∀ k, e = some k → 1 ≤ k ∧ ∃ H, sys.horizon = some H ∧ 1 ≤ H) (f1 f2 : Nat) (s1 s2 : St W X A R P T)
    (h1 : learn sys f1 prev (stepsArg (B a)) (episodesArg (B a)) d e = some (.ok s1))
    (hend : EndsEpisode (steps s1.trace)) (hfit : steps s1.trace = (fits s1.trace).flatten)
    (h2 : learn sys f2 s1 (stepsArg (B b)) (episodesArg (B b)) d e = some (.ok s2)) :
    ∃ s, learn sys (f1 + f2) prev (stepsArg (B (a + b))) (episodesArg (B (a + b))) d e = some (.ok s) ∧ Continues s1 s2 s := by
  have hno : ∀ fuel err, learn sys fuel prev (stepsArg (B (a + b))) (episodesArg (B (a + b))) d e ≠ some (.error err) := by
    intro fuel err
    refine C06_learn_no_overflow sys prev fuel _ _ d e ?_ h hd he err
    rcases hB with rfl | rfl <;> simp [stepsArg, episodesArg]
  obtain ⟨f, cap, hc⟩ := learnCfg_args h he
  unfold learn at h1 h2 hno ⊢
  rw [hc] at h1 h2 ⊢
  simp only [hc] at hno
  obtain ⟨s, hs, hcont, _⟩ := run_split (c := ⟨B (a + b), f, none, some cap⟩) (c1 := ⟨B a, f, none, some cap⟩) (c2 := ⟨B b, f, none, some cap⟩) hno rfl rfl (fun s hs => move_mono hB s hs) (fun hmv hI s => move_split hB rfl hmv hI s) (fun _ _ => rfl) (fun _ _ _ _ => rfl) h1 hend
    (Or.inr hfit) h2
  exact ⟨s, hs, hcont⟩

/-- **C170**: `learn(n_episodes=a, n_episodes_per_fit=k)` followed by `learn(n_episodes=b, n_episodes_per_fit=k)` is
`learn(n_episodes=a + b, n_episodes_per_fit=k)` if `k` divides `a`. -/
theorem C170_learn_episodes (sys : Sys W X A R P T) (prev : St W X A R P T) (a b k H : Nat) (hk : 1 ≤ k) (hH : sys.horizon = some H)
    (h1H : 1 ≤ H) (hdvd : k ∣ a) :
    ∃ s1 s2 s, (∀ fuel, a * H ≤ fuel → learn sys fuel prev none (some a) none (some k) = some (.ok s1)) ∧
      (∀ fuel, b * H ≤ fuel → learn sys fuel s1 none (some b) none (some k) = some (.ok s2)) ∧
      (∀ fuel, (a + b) * H ≤ fuel → learn sys fuel prev none (some (a + b)) none (some k) = some (.ok s)) ∧ Continues s1 s2 s := by
  obtain ⟨s1, bs1, h1, hb1, hw1, hl1, hbl1, hr1⟩ := C02_learn_by_episodes sys prev a k H hk hH h1H
  obtain ⟨s2, _, h2, _⟩ := C02_learn_by_episodes sys s1 b k H hk hH h1H
  obtain ⟨s, _, h3, _⟩ := C02_learn_by_episodes sys prev (a + b) k H hk hH h1H
  refine ⟨s1, s2, s, h1, h2, h3, ?_⟩
  have hend : EndsEpisode (steps s1.trace) := by
    intro x hx
    rcases hb1.2 with e | ⟨init, y, e, hy⟩
    · rw [e] at hx; simp at hx
    · rw [e] at hx; simp at hx; subst hx; exact hy
  have hrow : s1.rows = [] := by
    have hst : steps s1.trace = bs1.flatten ++ s1.rows := by rw [steps_eq_didsOf, hw1, didsOf_workOf]
    rw [Nat.mod_eq_zero_of_dvd hdvd] at hr1
    -- the last transition ends an episode, so it would be counted in the rest
    rcases List.eq_nil_or_concat s1.rows with e | ⟨l, x, e⟩
    · exact e
    · exfalso
      rw [List.concat_eq_append] at e
      have hx := hend x (by rw [hst, e]; simp)
      rw [e, endings_append, endings_single, hx] at hr1
      simp at hr1
  have hfit : steps s1.trace = (fits s1.trace).flatten := by
    rw [steps_eq_didsOf, fits_eq_fittedOf, hw1, didsOf_workOf, fittedOf_workOf, hrow, List.append_nil]
  obtain ⟨s', hs', hc⟩ := C170_learn sys prev Budget.episodes (Or.inr rfl) a b none (some k) (by simp) (by simp)
    (fun k' hk' => by cases hk'; exact ⟨hk, H, hH, h1H⟩) (a * H) (b * H) s1 s2 (h1 _ (Nat.le_refl _)) hend hfit (h2 _ (Nat.le_refl _))
  have e := h3 (a * H + b * H) (by rw [Nat.add_mul]; exact Nat.le_refl _)
  change learn sys (a * H + b * H) prev none (some (a + b)) none (some k) = some (.ok s') at hs'
  rw [e] at hs'
  cases hs'
  exact hc

/-- **C170**: `learn(n_steps=a, n_steps_per_fit=k)` followed by `learn(n_steps=b, n_steps_per_fit=k)` is
`learn(n_steps=a + b, n_steps_per_fit=k)` if `k` divides `a` and the first call happens to end with an episode. -/
theorem C170_learn_steps_partial (sys : Sys W X A R P T) (prev : St W X A R P T) (a b k : Nat) (hk : 1 ≤ k) (hdvd : k ∣ a) :
    ∃ s1 s2 s, (∀ fuel, a ≤ fuel → learn sys fuel prev (some a) none (some k) none = some (.ok s1)) ∧
      (∀ fuel, b ≤ fuel → learn sys fuel s1 (some b) none (some k) none = some (.ok s2)) ∧
      (∀ fuel, a + b ≤ fuel → learn sys fuel prev (some (a + b)) none (some k) none = some (.ok s)) ∧
      (EndsEpisode (steps s1.trace) → Continues s1 s2 s) := by
  obtain ⟨s1, h1, hl1, hw1, _, hr1⟩ := C01_learn_by_steps sys prev a k hk
  obtain ⟨s2, h2, _⟩ := C01_learn_by_steps sys s1 b k hk
  obtain ⟨s, h3, _⟩ := C01_learn_by_steps sys prev (a + b) k hk
  refine ⟨s1, s2, s, h1, h2, h3, fun hend => ?_⟩
  rw [Nat.div_mul_cancel hdvd] at hw1
  have hfit : steps s1.trace = (fits s1.trace).flatten := by
    have e1 := congrArg didsOf hw1
    have e2 := congrArg fittedOf hw1
    rw [← steps_eq_didsOf, didsOf_workOf, List.drop_eq_nil_of_le (Nat.le_of_eq hl1), List.append_nil] at e1
    rw [← fits_eq_fittedOf, fittedOf_workOf] at e2
    rw [e2]
    exact e1
  obtain ⟨s', hs', hc⟩ := C170_learn sys prev Budget.steps (Or.inl rfl) a b (some k) none (by simp)
    (fun k' hk' => by cases hk'; exact hk) (by simp) a b s1 s2 (h1 _ (Nat.le_refl _)) hend hfit (h2 _ (Nat.le_refl _))
  have e := h3 (a + b) (Nat.le_refl _)
  change learn sys (a + b) prev (some (a + b)) none (some k) none = some (.ok s') at hs'
  rw [e] at hs'
  cases hs'
  exact hc

/-- **C170**: two evaluations of `a` and of `b` episodes give the episodes of one evaluation of `a + b` episodes. -/
theorem C170_evaluate_episodes (sys : Sys W X A R P T) (prev : St W X A R P T) (a b H : Nat) (hH : sys.horizon = some H) (h1H : 1 ≤ H) :
    ∃ s1 s2 s, (∀ fuel, a * H ≤ fuel → evaluate sys fuel prev none none (some a) = some (.ok s1)) ∧
      (∀ fuel, b * H ≤ fuel → evaluate sys fuel s1 none none (some b) = some (.ok s2)) ∧
      (∀ fuel, (a + b) * H ≤ fuel → evaluate sys fuel prev none none (some (a + b)) = some (.ok s)) ∧
      Continues s1 s2 s ∧ s.rows = s1.rows ++ s2.rows := by
  obtain ⟨s1, h1, hb1, _⟩ := C04_evaluate_episodes sys prev a H hH h1H
  obtain ⟨s2, h2, _⟩ := C04_evaluate_episodes sys s1 b H hH h1H
  obtain ⟨s, h3, _⟩ := C04_evaluate_episodes sys prev (a + b) H hH h1H
  refine ⟨s1, s2, s, h1, h2, h3, ?_⟩
  have hend : EndsEpisode (steps s1.trace) := by
    intro x hx
    rcases hb1.2 with e | ⟨init, y, e, hy⟩
    · rw [e] at hx; simp at hx
    · rw [e] at hx; simp at hx; subst hx; exact hy
  have hcfg : ∀ n, evaluateCfg sys (none : Option (List X)) none (some n) =
      .ok { budget := .episodes n, fitMode := .never, initialStates := none, capacity := some (H * n) } := by
    intro n; simp [evaluateCfg, datasetCapacity, initializeRun, hH]
  have h1 := h1 _ (Nat.le_refl _)
  have h2 := h2 _ (Nat.le_refl _)
  have h3 := h3 (a * H + b * H) (by rw [Nat.add_mul]; exact Nat.le_refl _)
  unfold evaluate at h1 h2 h3
  rw [hcfg] at h1 h2 h3
  obtain ⟨s', hs', hc⟩ := run_split (c := ⟨.episodes (a + b), .never, none, some (H * (a + b))⟩) (c1 := ⟨.episodes a, .never, none, some (H * a)⟩)
    (c2 := ⟨.episodes b, .never, none, some (H * b)⟩)
    (loop_no_error (by intro xs h; cases h) ⟨H, hH, h1H, rfl⟩) rfl rfl (fun s hs => move_mono (Or.inr rfl) s hs)
    (fun hmv hI s => move_split (Or.inr rfl) rfl hmv hI s) (fun _ _ => rfl) (fun _ _ _ _ => rfl) h1 hend (Or.inl rfl) h2
  have h3' : loop sys _ (a * H + b * H) (start prev) = some (.ok s) := h3
  rw [h3'] at hs'
  cases hs'
  exact hc

/-- **C170**: an evaluation from the initial states `xs ++ ys` gives the episodes of an evaluation from `xs` followed by one
from `ys`. -/
theorem C170_evaluate_initial_states (sys : Sys W X A R P T) (prev : St W X A R P T) (xs ys : List X) (H : Nat) (hH : sys.horizon = some H)
    (h1H : 1 ≤ H) :
    ∃ s1 s2 s, (∀ fuel, xs.length * H ≤ fuel → evaluate sys fuel prev (some xs) none none = some (.ok s1)) ∧
      (∀ fuel, ys.length * H ≤ fuel → evaluate sys fuel s1 (some ys) none none = some (.ok s2)) ∧
      (∀ fuel, (xs ++ ys).length * H ≤ fuel → evaluate sys fuel prev (some (xs ++ ys)) none none = some (.ok s)) ∧
      Continues s1 s2 s ∧ s.rows = s1.rows ++ s2.rows := by
  obtain ⟨s1, h1, hb1, _⟩ := C04_evaluate_initial_states sys prev xs H hH h1H
  obtain ⟨s2, h2, _⟩ := C04_evaluate_initial_states sys s1 ys H hH h1H
  obtain ⟨s, h3, _⟩ := C04_evaluate_initial_states sys prev (xs ++ ys) H hH h1H
  refine ⟨s1, s2, s, h1, h2, h3, ?_⟩
  have hend : EndsEpisode (steps s1.trace) := by
    intro x hx
    rcases hb1.2 with e | ⟨init, y, e, hy⟩
    · rw [e] at hx; simp at hx
    · rw [e] at hx; simp at hx; subst hx; exact hy
  have hcfg : ∀ zs : List X, evaluateCfg sys (some zs) none none =
      .ok { budget := .episodes zs.length, fitMode := .never, initialStates := some zs, capacity := some (H * zs.length) } := by
    intro zs; simp [evaluateCfg, datasetCapacity, initializeRun, hH]
  have h1 := h1 _ (Nat.le_refl _)
  have h2 := h2 _ (Nat.le_refl _)
  have h3 := h3 (xs.length * H + ys.length * H) (by rw [List.length_append, Nat.add_mul]; exact Nat.le_refl _)
  unfold evaluate at h1 h2 h3
  rw [hcfg] at h1 h2 h3
  obtain ⟨s', hs', hc⟩ := run_split (c := ⟨.episodes (xs ++ ys).length, .never, some (xs ++ ys), some (H * (xs ++ ys).length)⟩)
    (c1 := ⟨.episodes xs.length, .never, some xs, some (H * xs.length)⟩) (c2 := ⟨.episodes ys.length, .never, some ys, some (H * ys.length)⟩)
    (loop_no_error (by intro zs h; cases h; rfl) ⟨H, hH, h1H, rfl⟩) rfl rfl
    (fun s hs => by rw [List.length_append]; exact move_mono (Or.inr rfl) s hs)
    (fun hmv hI s => by rw [List.length_append]; exact move_split (Or.inr rfl) rfl hmv hI s)
    (fun s hs => by
      simp only [moveRequired, decide_eq_true_eq] at hs
      rw [getInitialState_given rfl rfl s (by rw [List.length_append]; omega), getInitialState_given rfl rfl s hs, List.getElem?_append_left hs])
    (fun hmv hI s hs => by
      have hb := hI.budget
      simp only [moveRequired, decide_eq_true_eq, decide_eq_false_iff_not] at hs hmv hb
      have e : s1.totalEpisodes = xs.length := by omega
      rw [getInitialState_given rfl rfl _ (by simp only [St.shift, List.length_append]; omega), getInitialState_given rfl rfl s hs]
      simp only [St.shift]
      rw [e, List.getElem?_append_right (by omega), Nat.add_sub_cancel_left])
    h1 hend (Or.inl rfl) h2
  have h3' : loop sys _ (xs.length * H + ys.length * H) (start prev) = some (.ok s) := h3
  rw [h3'] at hs'
  cases hs'
  exact hc

/-- **C170**: two evaluations of `a` and of `b` steps give the transitions of one evaluation of `a + b` steps if the first
one happens to end with an episode. -/
theorem C170_evaluate_steps_partial (sys : Sys W X A R P T) (prev : St W X A R P T) (a b : Nat) :
    ∃ s1 s2 s, (∀ fuel, a ≤ fuel → evaluate sys fuel prev none (some a) none = some (.ok s1)) ∧
      (∀ fuel, b ≤ fuel → evaluate sys fuel s1 none (some b) none = some (.ok s2)) ∧
      (∀ fuel, a + b ≤ fuel → evaluate sys fuel prev none (some (a + b)) none = some (.ok s)) ∧
      (EndsEpisode (steps s1.trace) → Continues s1 s2 s ∧ s.rows = s1.rows ++ s2.rows) := by
  obtain ⟨s1, h1, _⟩ := C04_evaluate_steps sys prev a
  obtain ⟨s2, h2, _⟩ := C04_evaluate_steps sys s1 b
  obtain ⟨s, h3, _⟩ := C04_evaluate_steps sys prev (a + b)
  refine ⟨s1, s2, s, h1, h2, h3, fun hend => ?_⟩
  have hcfg : ∀ n, evaluateCfg sys (none : Option (List X)) (some n) none =
      .ok { budget := .steps n, fitMode := .never, initialStates := none, capacity := some n } := by
    intro n; simp [evaluateCfg, datasetCapacity, initializeRun]
  have h1 := h1 _ (Nat.le_refl _)
  have h2 := h2 _ (Nat.le_refl _)
  have h3 := h3 _ (Nat.le_refl _)
  unfold evaluate at h1 h2 h3
  rw [hcfg] at h1 h2 h3
  obtain ⟨s', hs', hc⟩ := run_split (c := ⟨.steps (a + b), .never, none, some (a + b)⟩) (c1 := ⟨.steps a, .never, none, some a⟩)
    (c2 := ⟨.steps b, .never, none, some b⟩)
    (loop_no_error (by intro xs h; cases h) rfl) rfl rfl (fun s hs => move_mono (Or.inl rfl) s hs)
    (fun hmv hI s => move_split (Or.inl rfl) rfl hmv hI s) (fun _ _ => rfl) (fun _ _ _ _ => rfl) h1 hend (Or.inl rfl) h2
  have h3' : loop sys _ (a + b) (start prev) = some (.ok s) := h3
  rw [h3'] at hs'
  cases hs'
  exact hc

/-- **C170**: in general a call of `learn` cannot be cut at a number of steps: `learn(n_steps=1)` twice resets the environment
twice, `learn(n_steps=2)` once. -/
theorem C170_learn_steps_refuted : ∃ (sys : Sys Nat Nat Nat Nat Unit Nat) (prev s1 s2 s : St Nat Nat Nat Nat Unit Nat),
    learn sys 1 prev (some 1) none (some 1) none = some (.ok s1) ∧ learn sys 1 s1 (some 1) none (some 1) none = some (.ok s2) ∧
    learn sys 2 prev (some 2) none (some 1) none = some (.ok s) ∧
    (resetRequests (s1.trace ++ s2.trace)).length = 2 ∧ (resetRequests s.trace).length = 1 ∧ ¬ Continues s1 s2 s := by
  refine ⟨demo, demoPrev, _, _, _, rfl, rfl, rfl, by decide, by decide, fun h => ?_⟩
  have := congrArg (fun t => (resetRequests t).length) h.1
  revert this
  decide

/-- **C170**: nor can it be cut at a number of episodes that is no multiple of `n_episodes_per_fit`: with two episodes per
fit, `learn(n_episodes=1)` twice never fits, `learn(n_episodes=2)` does. -/
theorem C170_learn_episodes_refuted : ∃ (sys : Sys Nat Nat Nat Nat Unit Nat) (prev s1 s2 s : St Nat Nat Nat Nat Unit Nat),
    learn sys 2 prev none (some 1) none (some 2) = some (.ok s1) ∧ learn sys 2 s1 none (some 1) none (some 2) = some (.ok s2) ∧
    learn sys 4 prev none (some 2) none (some 2) = some (.ok s) ∧
    fits (s1.trace ++ s2.trace) = [] ∧ (fits s.trace).length = 1 := by
  exact ⟨demo, demoPrev, _, _, _, rfl, rfl, rfl, by decide, by decide⟩

-- The clock environment meets the hypotheses: two episodes, then one, with a fit every two episodes.
example : ∃ s1 s2 s, (∀ fuel, 2 * 2 ≤ fuel → learn demo fuel demoPrev none (some 2) none (some 2) = some (.ok s1)) ∧
    (∀ fuel, 1 * 2 ≤ fuel → learn demo fuel s1 none (some 1) none (some 2) = some (.ok s2)) ∧
    (∀ fuel, (2 + 1) * 2 ≤ fuel → learn demo fuel demoPrev none (some (2 + 1)) none (some 2) = some (.ok s)) ∧ Continues s1 s2 s :=
  C170_learn_episodes demo demoPrev 2 1 2 2 (by decide) rfl (by decide) (Nat.dvd_refl 2)

-- After two steps the clock environment is at the end of an episode.
example : ∃ s1, learn demo 2 demoPrev (some 2) none (some 1) none = some (.ok s1) ∧ EndsEpisode (steps s1.trace) ∧
    steps s1.trace = (fits s1.trace).flatten ∧ (steps s1.trace).length = 2 := by
  refine ⟨_, rfl, ?_, by decide, by decide⟩
  intro x hx
  revert hx
  rw [← Option.mem_def]
  decide +revert

end Verif.Core
