/-
Property theorems about runs of `Core` (C01-C06, C66, C67).
`learn sys fuel prev nSteps nEpisodes nStepsPerFit nEpisodesPerFit` models `Core.learn`; `prev` is whatever earlier
calls on the same `Core` left behind, `fuel` bounds the number of loop iterations (`none` = not finished yet).
-/
import Verif.Core.Lemmas3

namespace Verif.Core

variable {W X A R P T : Type}

/-! A concrete system used to show that the hypotheses of the theorems are satisfiable: a clock environment whose
observation is the time, which is absorbing at every third step, with a learning rule that leaves action 7. -/

def demo : Sys Nat Nat Nat Nat Unit Nat where
  horizon := some 2
  isEpisodic := true
  envReset := fun w req => (w, req.getD (100 + w))
  episodeStart := fun w x => (w, none, x)
  envStep := fun w a => (w + 1, w, a, w % 3 == 2)
  policyDraw := fun w x _ => (w, x + 1, none)
  fit := fun w _ b _ => (w, some b.length)
  corePre := []
  agentPre := []
  callbackStep := fun w _ => w
  callbacksFit := []

/-- The final state of a run that ended normally. -/
def finished? {α : Type} : Option (Except Err α) → Option α
  | some (.ok s) => some s
  | _ => none

def demoPrev : St Nat Nat Nat Nat Unit Nat where
  world := 0
  state := none
  policyState := none
  theta := none
  episodeSteps := 0
  nextAction := some 9
  totalEpisodes := 0
  totalSteps := 0
  currentEpisodes := 0
  currentSteps := 0
  last := false
  rows := []
  thetas := []
  trace := []

/-- C01. `learn(n_steps=N, n_steps_per_fit=k)`: ends without exception; exactly `N` interactions; the `j`-th call of
`fit` happens right after interaction `j*k+k-1` and receives exactly interactions `j*k .. j*k+k-1`; there are `N/k`
fits and only the last `N % k` interactions are not delivered. -/
theorem C01_learn_by_steps (sys : Sys W X A R P T) (prev : St W X A R P T) (N k : Nat) (hk : 1 ≤ k) :
    ∃ s, (∀ fuel, N ≤ fuel → learn sys fuel prev (some N) none (some k) none = some (.ok s)) ∧
      (steps s.trace).length = N ∧
      work s.trace = workOf ((List.range (N / k)).map fun j => ((steps s.trace).drop (j * k)).take k)
        ((steps s.trace).drop (N / k * k)) ∧
      (fits s.trace).length = N / k ∧
      s.rows = (steps s.trace).drop (N / k * k) := by
  let c : Cfg X := { budget := .steps N, fitMode := .steps k, initialStates := none, capacity := some k }
  have hcfg : learnCfg sys (some N) none (some k) none = .ok c := rfl
  obtain ⟨r, hr⟩ := loop_terminates_steps (sys := sys) (c := c) (n := N) rfl N (start prev) (by omega)
  have hne := loop_no_error (sys := sys) (c := c) (prev := prev) (by intro xs h; cases h) ⟨rfl, hk⟩ N
  cases r with
  | error e => exact absurd hr (hne e)
  | ok s =>
    obtain ⟨hre, hm⟩ := loop_reach Reach.start hr
    have hI := inv_reach hre
    have hN : (steps s.trace).length = N := budgetMet_of_inv hI hm
    obtain ⟨bs, hb1, hb2⟩ := hI.hwork
    have hlen : ∀ b ∈ bs, b.length = k := fun b hb => shortestDue_steps hk (hb2 b hb)
    have hst : steps s.trace = bs.flatten ++ s.rows := by rw [steps_eq_didsOf, hb1, didsOf_workOf]
    have hrl : s.rows.length < k := by
      by_cases hn : s.rows = []
      · rw [hn]; exact hk
      · have : ¬ k ≤ s.rows.length := hI.hrows s.rows (List.prefix_refl _) hn
        omega
    have hbl : bs.length = N / k := by
      have h1 := length_flatten_eq bs hlen
      rw [hst, List.length_append, h1] at hN
      rw [← hN, Nat.mul_comm, Nat.mul_add_div (by omega), Nat.div_eq_of_lt hrl]; omega
    have hrest : s.rows = (steps s.trace).drop (N / k * k) := by
      rw [hst, ← hbl, ← length_flatten_eq bs hlen, List.drop_left]
    refine ⟨s, ?_, hN, ?_, ?_, hrest⟩
    · intro fuel hf
      unfold learn
      rw [hcfg]
      obtain ⟨d, rfl⟩ := Nat.exists_eq_add_of_le hf
      exact loop_mono d hr
    · rw [hb1, ← hrest, ← hbl, hst, ← blocks_of_flatten bs s.rows hlen]
    · rw [fits_eq_fittedOf, hb1, fittedOf_workOf, hbl]

-- A run of 5 steps with fits every 2: two fits, one undelivered transition.
example : (finished? (learn demo 5 demoPrev (some 5) none (some 2) none)).map
    (fun s => ((steps s.trace).length, (fits s.trace).map List.length, s.rows.length)) = some (5, [2, 2], 1) := by
  decide

/-- C02. `learn(n_episodes=N, n_episodes_per_fit=k)` in an environment with a finite horizon: ends without exception,
exactly at the step completing episode `N`; `N/k` fits, each receiving exactly `k` whole episodes collected since the
previous fit; `N % k` whole episodes are not delivered. -/
theorem C02_learn_by_episodes (sys : Sys W X A R P T) (prev : St W X A R P T) (N k H : Nat) (hk : 1 ≤ k)
    (hH : sys.horizon = some H) (h1H : 1 ≤ H) :
    ∃ s batches, (∀ fuel, N * H ≤ fuel → learn sys fuel prev none (some N) none (some k) = some (.ok s)) ∧
      BudgetMet (.episodes N) (steps s.trace) ∧
      work s.trace = workOf batches s.rows ∧
      batches.length = N / k ∧
      (∀ b ∈ batches, endings b = k ∧ ∃ init e, b = init ++ [e] ∧ e.last = true) ∧
      endings s.rows = N % k := by
  let c : Cfg X := { budget := .episodes N, fitMode := .episodes k, initialStates := none, capacity := some (H * k) }
  have hcfg : learnCfg sys none (some N) none (some k) = .ok c := by
    simp [learnCfg, initializeLearn, datasetCapacity, initializeRun, hH, c]
  obtain ⟨r, hr⟩ := loop_terminates_episodes (sys := sys) (c := c) (prev := prev) hH h1H rfl (N * H) (start prev)
    Reach.start (by omega)
  have hne := loop_no_error (sys := sys) (c := c) (prev := prev) (by intro xs h; cases h)
    ⟨H, hH, h1H, hk, rfl⟩ (N * H)
  cases r with
  | error e => exact absurd hr (hne e)
  | ok s =>
    obtain ⟨hre, hm⟩ := loop_reach Reach.start hr
    have hI := inv_reach hre
    have hB := budgetMet_of_inv hI hm
    have hN : endings (steps s.trace) = N := hB.1
    obtain ⟨bs, hb1, hb2⟩ := hI.hwork
    have hblk : ∀ b ∈ bs, endings b = k ∧ ∃ init e, b = init ++ [e] ∧ e.last = true :=
      fun b hb => shortestDue_episodes hk (hb2 b hb)
    have hst : steps s.trace = bs.flatten ++ s.rows := by rw [steps_eq_didsOf, hb1, didsOf_workOf]
    have hrl : endings s.rows < k := by
      by_cases hn : s.rows = []
      · rw [hn]; exact hk
      · have : ¬ k ≤ endings s.rows := hI.hrows s.rows (List.prefix_refl _) hn
        omega
    have hsum : k * bs.length + endings s.rows = N := by
      have h1 := endings_flatten_eq bs (fun b hb => (hblk b hb).1)
      rw [hst, endings_append, h1] at hN
      rw [Nat.mul_comm]; exact hN
    refine ⟨s, bs, ?_, hB, hb1, ?_, hblk, ?_⟩
    · intro fuel hf
      unfold learn
      rw [hcfg]
      obtain ⟨d, rfl⟩ := Nat.exists_eq_add_of_le hf
      exact loop_mono d hr
    · rw [← hsum, Nat.mul_add_div (by omega), Nat.div_eq_of_lt hrl]; omega
    · rw [← hsum, Nat.mul_add_mod, Nat.mod_eq_of_lt hrl]

-- Three episodes, fits every two: one fit with two whole episodes (3 steps), one episode left.
example : (finished? (learn demo 6 demoPrev none (some 3) none (some 2))).map
    (fun s => (endings (steps s.trace), (fits s.trace).map endings, (fits s.trace).map List.length, endings s.rows)) =
      some (3, [2], [3], 1) := by decide

/-- The part of C03 that does not mention preprocessing: an admissible relation between an observation and the state
the agent sees is any relation that the chain of core preprocessors satisfies. -/
def Admissible (sys : Sys W X A R P T) (pre : X → X → Prop) : Prop :=
  ∀ w x, pre x (preprocess sys.corePre w x).2

/-- C03, at every point of every run (also unfinished ones): each episode starts with a reset, steps are chained, the
stored action, reward and absorbing flag are those exchanged with the environment, and `last` is true exactly when
the environment reported absorbing or the horizon is reached. -/
theorem C03_chained (sys : Sys W X A R P T) (c : Cfg X) (prev s : St W X A R P T) (pre : X → X → Prop)
    (hpre : Admissible sys pre) (h : Reach sys c prev s) : Chained sys.horizon pre none s.trace := by
  have := chained_reach hpre h [] (by cases cursor s <;> simp [Chained])
  simpa using this

/-- C03 for a finished `learn`. -/
theorem C03_learn (sys : Sys W X A R P T) (prev s : St W X A R P T) (pre : X → X → Prop) (hpre : Admissible sys pre)
    (fuel : Nat) (a b d e : Option Nat) (h : learn sys fuel prev a b d e = some (.ok s)) :
    Chained sys.horizon pre none s.trace := by
  unfold learn at h
  split at h
  · cases h
  · exact C03_chained sys _ prev s pre hpre (loop_reach Reach.start h).1

/-- C03 for a finished `evaluate`. -/
theorem C03_evaluate (sys : Sys W X A R P T) (prev s : St W X A R P T) (pre : X → X → Prop)
    (hpre : Admissible sys pre) (fuel : Nat) (xs : Option (List X)) (a b : Option Nat)
    (h : evaluate sys fuel prev xs a b = some (.ok s)) : Chained sys.horizon pre none s.trace := by
  unfold evaluate at h
  split at h
  · cases h
  · exact C03_chained sys _ prev s pre hpre (loop_reach Reach.start h).1

/-- C03: no episode is longer than the horizon. In a well-chained trace with finite horizon `H >= 1`, among any
`H` consecutive steps there is an end of episode. -/
theorem C03_episode_length (H : Nat) (h1 : 1 ≤ H) (pre : X → X → Prop) :
    ∀ (tr : List (Event X A R P T)) (cur : Option (X × Option P × Nat)), (∀ x q t, cur = some (x, q, t) → t < H) →
      Chained (some H) pre cur tr →
      ∀ (l : List (Sample X A R P)), l <+: steps tr → (∀ s ∈ l, s.last = false) →
        l.length + (match cur with | some (_, _, t) => t | none => 0) < H
  | [], cur, hc, _, l, hl, _ => by
    have : l = [] := by simpa [steps] using hl
    subst this
    cases cur with
    | none => simp; omega
    | some p => simpa using hc p.1 p.2.1 p.2.2 rfl
  | .reset r o x q th :: tr, none, _, hch, l, hl, hno => by
    simp only [Chained] at hch
    exact C03_episode_length H h1 pre tr (some (x, q, 0)) (by simp; omega) hch.2 l hl hno
  | .reset r o x q th :: tr, some p, _, hch, l, hl, hno => by simp [Chained] at hch
  | .step .. :: tr, none, _, hch, l, hl, hno => by simp [Chained] at hch
  | .fit b ths nx :: tr, cur, hc, hch, l, hl, hno => by
    have hch' : Chained (some H) pre cur tr := by cases cur <;> simpa [Chained] using hch
    exact C03_episode_length H h1 pre tr cur hc hch' l hl hno
  | .step asked act obs rew ab s :: tr, some (x, q, t), hc, hch, l, hl, hno => by
    simp only [Chained] at hch
    obtain ⟨-, -, -, -, -, -, hlast, hch⟩ := hch
    cases l with
    | nil => simpa using hc x q t rfl
    | cons y l =>
      simp only [steps, List.cons_prefix_cons] at hl
      obtain ⟨rfl, hl⟩ := hl
      have hy : y.last = false := hno y (by simp)
      have ht : t + 1 < H := by
        have : ¬ EndsHere (some H) (t + 1) ab := by rw [← hlast, hy]; simp
        simp only [EndsHere, not_or, not_exists, not_and] at this
        have := this.2 H rfl
        omega
      simp only [hy] at hch
      have := C03_episode_length H h1 pre tr (some (y.nextState, y.policyNextState, t + 1)) (by simp; omega) hch l hl
        (fun s hs => hno s (by simp [hs]))
      simp only [List.length_cons] at this ⊢
      omega

-- With stateless preprocessors the admissible relation is "x = f obs", here with two of them applied in order.
example : Admissible { demo with corePre := [⟨fun w _ => w, fun _ x => x + 1⟩, ⟨fun w _ => w, fun _ x => 2 * x⟩] }
    (fun obs x => x = 2 * (obs + 1)) := by
  intro w x; rfl

-- A finished run exists, and its trace has resets, absorbing and non-absorbing ends.
example : (finished? (learn demo 5 demoPrev (some 5) none (some 2) none)).map
    (fun s => (steps s.trace).map (fun x => (x.state, x.nextState, x.absorbing, x.last))) =
      some [(100, 0, false, false), (0, 1, false, true), (102, 2, true, true), (103, 3, false, false),
        (3, 4, false, true)] := by decide

/-- C04. `evaluate` never fits: at every point of the run, no fit happened and the dataset holds exactly the
transitions made so far, in order. -/
theorem C04_evaluate_history (sys : Sys W X A R P T) (c : Cfg X) (prev s : St W X A R P T) (xs : Option (List X))
    (a b : Option Nat) (hc : evaluateCfg sys xs a b = .ok c) (h : Reach sys c prev s) :
    fits s.trace = [] ∧ s.rows = steps s.trace := by
  have hI := inv_reach h
  have hf : c.fitMode = .never := by
    unfold evaluateCfg at hc
    simp only at hc
    split at hc
    · cases hc
    · split at hc
      · cases hc
      · simp only [Except.ok.injEq] at hc; rw [← hc]
  obtain ⟨bs, hb1, hb2⟩ := hI.hwork
  have hnil : bs = [] := by
    cases bs with
    | nil => rfl
    | cons b bs => have := (hb2 b (by simp)).2.1; rw [hf] at this; exact absurd this (by simp [Due])
  rw [fits_eq_fittedOf, steps_eq_didsOf, hb1, hnil, fittedOf_workOf, didsOf_workOf]
  simp

/-- C04. `evaluate(n_steps=N)` ends without exception after exactly `N` transitions and returns all of them. -/
theorem C04_evaluate_steps (sys : Sys W X A R P T) (prev : St W X A R P T) (N : Nat) :
    ∃ s, (∀ fuel, N ≤ fuel → evaluate sys fuel prev none (some N) none = some (.ok s)) ∧
      (steps s.trace).length = N ∧ s.rows = steps s.trace ∧ fits s.trace = [] := by
  let c : Cfg X := { budget := .steps N, fitMode := .never, initialStates := none, capacity := some N }
  have hcfg : evaluateCfg sys none (some N) none = .ok c := rfl
  obtain ⟨r, hr⟩ := loop_terminates_steps (sys := sys) (c := c) (n := N) rfl N (start prev) (by omega)
  have hne := loop_no_error (sys := sys) (c := c) (prev := prev) (by intro xs h; cases h) rfl N
  cases r with
  | error e => exact absurd hr (hne e)
  | ok s =>
    obtain ⟨hre, hm⟩ := loop_reach Reach.start hr
    have h4 := C04_evaluate_history sys c prev s none (some N) none hcfg hre
    refine ⟨s, ?_, budgetMet_of_inv (inv_reach hre) hm, h4.2, h4.1⟩
    intro fuel hf
    unfold evaluate
    rw [hcfg]
    obtain ⟨d, rfl⟩ := Nat.exists_eq_add_of_le hf
    exact loop_mono d hr

/-- C04. `evaluate(n_episodes=N)` with a finite horizon ends exactly at the end of episode `N` and returns all the
transitions. -/
theorem C04_evaluate_episodes (sys : Sys W X A R P T) (prev : St W X A R P T) (N H : Nat)
    (hH : sys.horizon = some H) (h1H : 1 ≤ H) :
    ∃ s, (∀ fuel, N * H ≤ fuel → evaluate sys fuel prev none none (some N) = some (.ok s)) ∧
      BudgetMet (.episodes N) (steps s.trace) ∧ s.rows = steps s.trace ∧ fits s.trace = [] ∧
      resetRequests s.trace = List.replicate N none := by
  let c : Cfg X := { budget := .episodes N, fitMode := .never, initialStates := none, capacity := some (H * N) }
  have hcfg : evaluateCfg sys none none (some N) = .ok c := by
    simp [evaluateCfg, datasetCapacity, initializeRun, hH, c]
  obtain ⟨r, hr⟩ := loop_terminates_episodes (sys := sys) (c := c) (prev := prev) hH h1H rfl (N * H) (start prev)
    Reach.start (by omega)
  have hne := loop_no_error (sys := sys) (c := c) (prev := prev) (by intro xs h; cases h) ⟨H, hH, h1H, rfl⟩ (N * H)
  cases r with
  | error e => exact absurd hr (hne e)
  | ok s =>
    obtain ⟨hre, hm⟩ := loop_reach Reach.start hr
    have hI := inv_reach hre
    have h4 := C04_evaluate_history sys c prev s none none (some N) hcfg hre
    have hB := budgetMet_of_inv hI hm
    refine ⟨s, ?_, hB, h4.2, h4.1, ?_⟩
    · intro fuel hf
      unfold evaluate
      rw [hcfg]
      obtain ⟨d, rfl⟩ := Nat.exists_eq_add_of_le hf
      exact loop_mono d hr
    · have hrs := resets_reach (sys := sys) (c := c) (prev := prev) (by intro xs h; cases h) hre
      have hE : s.totalEpisodes = N := by rw [hI.totE]; exact hB.1
      have hl : s.last = true := (hI.budget).2 hE
      simpa [c, hE, hl] using hrs

/-- C04. `evaluate(initial_states=xs)` with a finite horizon: exactly `len(xs)` whole episodes; the `k`-th reset asks
for the `k`-th given state; all the transitions are returned and no fit happens. -/
theorem C04_evaluate_initial_states (sys : Sys W X A R P T) (prev : St W X A R P T) (xs : List X) (H : Nat)
    (hH : sys.horizon = some H) (h1H : 1 ≤ H) :
    ∃ s, (∀ fuel, xs.length * H ≤ fuel → evaluate sys fuel prev (some xs) none none = some (.ok s)) ∧
      BudgetMet (.episodes xs.length) (steps s.trace) ∧ s.rows = steps s.trace ∧ fits s.trace = [] ∧
      resetRequests s.trace = xs.map some := by
  let c : Cfg X := { budget := .episodes xs.length, fitMode := .never, initialStates := some xs,
                     capacity := some (H * xs.length) }
  have hcfg : evaluateCfg sys (some xs) none none = .ok c := by
    simp [evaluateCfg, datasetCapacity, initializeRun, hH, c]
  have hini : ∀ ys, c.initialStates = some ys → c.budget = .episodes ys.length := by
    intro ys h; simp only [c, Option.some.injEq] at h; subst h; rfl
  obtain ⟨r, hr⟩ := loop_terminates_episodes (sys := sys) (c := c) (prev := prev) hH h1H rfl (xs.length * H)
    (start prev) Reach.start (by omega)
  have hne := loop_no_error (sys := sys) (c := c) (prev := prev) hini ⟨H, hH, h1H, rfl⟩ (xs.length * H)
  cases r with
  | error e => exact absurd hr (hne e)
  | ok s =>
    obtain ⟨hre, hm⟩ := loop_reach Reach.start hr
    have hI := inv_reach hre
    have h4 := C04_evaluate_history sys c prev s (some xs) none none hcfg hre
    have hB := budgetMet_of_inv hI hm
    refine ⟨s, ?_, hB, h4.2, h4.1, ?_⟩
    · intro fuel hf
      unfold evaluate
      rw [hcfg]
      obtain ⟨d, rfl⟩ := Nat.exists_eq_add_of_le hf
      exact loop_mono d hr
    · have hrs := resets_reach (sys := sys) (c := c) (prev := prev) hini hre
      have hE : s.totalEpisodes = xs.length := by rw [hI.totE]; exact hB.1
      have hl : s.last = true := (hI.budget).2 hE
      simpa [c, hE, hl] using hrs

example : (finished? (evaluate demo 10 demoPrev (some [5, 6, 7]) none none)).map
    (fun s => (resetRequests s.trace, s.rows.map (·.state))) =
      some ([some 5, some 6, some 7], [5, 0, 6, 7, 3]) := by decide

/-- C05. Any mixture of budgets and fit periods, at every point of the run: the trace is a sequence of blocks, each
the shortest block meeting the fit period, each followed at once by its fit, then the transitions not delivered yet
(of which no initial part is large enough for a fit). -/
theorem C05_blocks (sys : Sys W X A R P T) (c : Cfg X) (prev s : St W X A R P T) (h : Reach sys c prev s) :
    ∃ batches, work s.trace = workOf batches s.rows ∧ batches.flatten ++ s.rows = steps s.trace ∧
      (∀ b ∈ batches, ShortestDue c.fitMode b) ∧ (∀ p, p <+: s.rows → p ≠ [] → ¬ Due c.fitMode p) := by
  have hI := inv_reach h
  obtain ⟨bs, hb1, hb2⟩ := hI.hwork
  exact ⟨bs, hb1, by rw [steps_eq_didsOf, hb1, didsOf_workOf], hb2, hI.hrows⟩

/-- C05. A finished `learn` has valid arguments, met its budget exactly, and has the block structure. -/
theorem C05_learn (sys : Sys W X A R P T) (prev s : St W X A R P T) (fuel : Nat) (a b d e : Option Nat)
    (h : learn sys fuel prev a b d e = some (.ok s)) :
    ∃ bud f, ((a = none ∧ ∃ n, b = some n ∧ bud = .episodes n) ∨ (b = none ∧ ∃ n, a = some n ∧ bud = .steps n)) ∧
      ((d = none ∧ ∃ k, e = some k ∧ f = .episodes k) ∨ (e = none ∧ ∃ k, d = some k ∧ f = .steps k)) ∧
      BudgetMet bud (steps s.trace) ∧
      ∃ batches, work s.trace = workOf batches s.rows ∧ batches.flatten ++ s.rows = steps s.trace ∧
        (∀ b ∈ batches, ShortestDue f b) ∧ (∀ p, p <+: s.rows → p ≠ [] → ¬ Due f p) := by
  unfold learn at h
  split at h
  · cases h
  · rename_i c hc
    obtain ⟨hre, hm⟩ := loop_reach Reach.start h
    refine ⟨c.budget, c.fitMode, ?_, ?_, budgetMet_of_inv (inv_reach hre) hm, C05_blocks sys c prev s hre⟩
    · unfold learnCfg at hc
      cases a <;> cases b <;> cases d <;> cases e <;> simp [initializeLearn, initializeRun, datasetCapacity] at hc ⊢
      all_goals first
        | done
        | (rw [← hc])
        | (cases hh : sys.horizon <;> simp [hh] at hc <;> rw [← hc])
    · unfold learnCfg at hc
      cases a <;> cases b <;> cases d <;> cases e <;> simp [initializeLearn, initializeRun, datasetCapacity] at hc ⊢
      all_goals first
        | done
        | (rw [← hc])
        | (cases hh : sys.horizon <;> simp [hh] at hc <;> rw [← hc])

/-- C05. Invalid argument combinations are rejected (`AssertionError`) before any interaction, whatever the fuel. -/
theorem C05_learn_rejects (sys : Sys W X A R P T) (prev : St W X A R P T) (fuel : Nat) (a b d e : Option Nat)
    (h : (a.isSome = b.isSome) ∨ (d.isSome = e.isSome) ∨ (e.isSome = true ∧ sys.horizon = none)) :
    learn sys fuel prev a b d e = some (.error .assertion) := by
  unfold learn learnCfg
  cases a <;> cases b <;> cases d <;> cases e <;> cases hh : sys.horizon <;>
    simp [initializeLearn, initializeRun, datasetCapacity, hh] at h ⊢

/-- C05. Same for `evaluate`: exactly one of `initial_states`, `n_steps`, `n_episodes` must be given, and a dataset
sized by episodes needs a finite horizon. -/
theorem C05_evaluate_rejects (sys : Sys W X A R P T) (prev : St W X A R P T) (fuel : Nat) (xs : Option (List X))
    (a b : Option Nat)
    (h : (xs.isSome = true ∧ (a.isSome = true ∨ b.isSome = true)) ∨ (xs = none ∧ a.isSome = b.isSome) ∨
      (a = none ∧ sys.horizon = none)) :
    evaluate sys fuel prev xs a b = some (.error .assertion) := by
  unfold evaluate evaluateCfg
  cases xs <;> cases a <;> cases b <;> cases hh : sys.horizon <;>
    simp [initializeRun, datasetCapacity, hh] at h ⊢

-- Mixed budget: move by episodes, fit by steps.
example : (finished? (learn demo 10 demoPrev none (some 4) (some 2) none)).map
    (fun s => ((fits s.trace).map List.length, endings (steps s.trace), s.rows.length)) =
      some ([2, 2, 2], 4, 0) := by decide

example : (some 3).isSome = (some 4).isSome := rfl

/-- C06. With a fit period of at least one step (or one episode of an environment with horizon at least 1), `learn`
never raises: in particular no row is ever written beyond the allocated ones. -/
theorem C06_learn_no_overflow (sys : Sys W X A R P T) (prev : St W X A R P T) (fuel : Nat) (a b d e : Option Nat)
    (h1 : a.isSome ≠ b.isSome) (h2 : d.isSome ≠ e.isSome)
    (hd : ∀ k, d = some k → 1 ≤ k)
    (he : ∀ k, e = some k → 1 ≤ k ∧ ∃ H, sys.horizon = some H ∧ 1 ≤ H) :
    ∀ err, learn sys fuel prev a b d e ≠ some (.error err) := by
  intro err
  unfold learn
  rcases d with _ | d <;> rcases e with _ | e <;> simp at h2
  · obtain ⟨hk, H, hH, h1H⟩ := he e rfl
    rcases a with _ | a <;> rcases b with _ | b <;> simp at h1
    · simp only [learnCfg, initializeLearn, datasetCapacity, initializeRun, hH]
      refine loop_no_error (by intro xs h; cases h) ?_ fuel err
      exact ⟨H, hH, h1H, hk, rfl⟩
    · simp only [learnCfg, initializeLearn, datasetCapacity, initializeRun, hH]
      refine loop_no_error (by intro xs h; cases h) ?_ fuel err
      exact ⟨H, hH, h1H, hk, rfl⟩
  · have hk := hd d rfl
    rcases a with _ | a <;> rcases b with _ | b <;> simp at h1
    · simp only [learnCfg, initializeLearn, datasetCapacity, initializeRun]
      refine loop_no_error (by intro xs h; cases h) ?_ fuel err
      exact ⟨rfl, hk⟩
    · simp only [learnCfg, initializeLearn, datasetCapacity, initializeRun]
      refine loop_no_error (by intro xs h; cases h) ?_ fuel err
      exact ⟨rfl, hk⟩

/-- C06. Number of rows in use never exceeds the allocation, at any point of any run. -/
theorem C06_rows_le_capacity (sys : Sys W X A R P T) (c : Cfg X) (prev s : St W X A R P T) (cap : Nat)
    (hc : c.capacity = some cap) (h : Reach sys c prev s) : s.rows.length ≤ cap := by
  cases h with
  | start => simp [start]
  | @iter s0 _ hr hm hi =>
    obtain ⟨s1, x, s2, h1, hx, h2, rfl⟩ := iter_cases hi
    obtain ⟨asked, act, obs, rew, abs, w, smp, -, -, -, -, -, -, -, -, -, r2, -, -, -, -, -, -, -, -, -, hcap, -⟩ :=
      step_fields h2
    have := hcap cap hc
    obtain ⟨-, -, -, -, -, -, f4⟩ := fitPhase_fields sys c s2
    rcases f4 with ⟨-, -, -, hr⟩ | ⟨_, -, -, -, hr⟩
    · rw [hr, r2]; simp; omega
    · rw [hr]; simp

-- The hypotheses `1 ≤ k` are needed: with a fit period of zero steps no row is allocated and the first step raises.
example : (match learn demo 5 demoPrev (some 5) none (some 0) none with
    | some (.error e) => some e
    | _ => none) = some .index := by decide

/-- C66. At every point of every run: an action left by the learning rule is executed at the next step of the same
episode, and otherwise the policy is asked in the current state; an action is never carried over to a new episode. -/
theorem C66_actions (sys : Sys W X A R P T) (c : Cfg X) (prev s : St W X A R P T) (apre : X → X → Prop)
    (hpre : ∀ w x, apre x (agentPreprocess sys.agentPre w x)) (h : Reach sys c prev s) :
    ActionsFollow apre prev.nextAction s.trace := by
  have := actions_reach hpre h [] (by cases s.nextAction <;> simp [ActionsFollow])
  simpa using this

-- In the demo the learning rule leaves the batch size as next action; it is executed unless a new episode starts.
-- (`demoPrev` has a stale action 9 from before: it is not executed, the policy is asked in state 100.)
example : (finished? (learn demo 3 demoPrev (some 3) none (some 1) none)).map
    (fun s => (steps s.trace).map (·.action)) = some [101, 1, 103] := by decide

/-- C67. The parameter list given to the fit of an episodic agent consists of the parameters of the episodes started
since the previous fit, in order. -/
theorem C67_thetas (sys : Sys W X A R P T) (c : Cfg X) (prev s : St W X A R P T) (hep : sys.isEpisodic = true)
    (h : Reach sys c prev s) : ThetasFollow [] s.trace := by
  have := thetas_reach hep h [] (by simp [ThetasFollow])
  simpa using this

/-- C67. With `n_episodes_per_fit = k` every fit of an episodic agent gets exactly `k` parameter vectors (one for each
of the `k` episodes of its batch). -/
theorem C67_thetas_per_fit (sys : Sys W X A R P T) (c : Cfg X) (prev s : St W X A R P T) (k : Nat) (hk : 1 ≤ k)
    (hep : sys.isEpisodic = true) (hf : c.fitMode = .episodes k) (h : Reach sys c prev s) :
    ∀ b ths next, .fit b ths next ∈ s.trace → ths.length = k :=
  (thetas_count_reach hep hf hk h).2

example : (finished? (learn demo 8 demoPrev none (some 4) none (some 2))).map
    (fun s => s.trace.filterMap (fun e => match e with | .fit _ ths _ => some ths | _ => none)) =
      some [[100, 102], [103, 105]] := by decide

/-- A part of the world that the environment, the policy, the learning rule and the preprocessors do not touch
(for instance the storage of a user callback). -/
structure Untouched {L : Type} (sys : Sys W X A R P T) (log : W → L) : Prop where
  reset : ∀ w r, log (sys.envReset w r).1 = log w
  start : ∀ w x, log (sys.episodeStart w x).1 = log w
  step : ∀ w a, log (sys.envStep w a).1 = log w
  draw : ∀ w x p, log (sys.policyDraw w x p).1 = log w
  fit : ∀ w n b t, log (sys.fit w n b t).1 = log w
  pre : ∀ p ∈ sys.corePre, ∀ w x, log (p.update w x) = log w

theorem untouched_preprocess {L : Type} (log : W → L) : ∀ (ps : List (Preproc W X))
    (_ : ∀ p ∈ ps, ∀ w x, log (p.update w x) = log w) (w : W) (x : X), log (preprocess ps w x).1 = log w
  | [], _, _, _ => rfl
  | p :: ps, h, w, x => by
    unfold preprocess
    simp only
    rw [untouched_preprocess log ps (fun q hq => h q (by simp [hq])), h p (by simp)]

theorem untouched_iter {L : Type} {sys : Sys W X A R P T} {log : W → L} (hu : Untouched sys log) {c : Cfg X}
    {s s' : St W X A R P T} (hi : iter sys c s = .ok s') :
    ∃ s2 smp w2, s' = fitPhase sys c s2 ∧ s2.world = sys.callbackStep w2 smp ∧ log w2 = log s.world ∧
      steps s2.trace = steps s.trace ++ [smp] ∧ fits s2.trace = fits s.trace := by
  obtain ⟨s1, x, s2, h1, hx, h2, rfl⟩ := iter_cases hi
  have hs1 : log s1.world = log s.world ∧ steps s1.trace = steps s.trace ∧ fits s1.trace = fits s.trace := by
    split at h1
    · have hf := reset_fields h1
      obtain ⟨-, -, -, -, -, -, -, -, _, _, _, _, _, -, -, -, ht, -⟩ := hf
      refine ⟨?_, by simp [ht, steps], by simp [ht, fits]⟩
      unfold reset at h1
      split at h1
      · cases h1
      · simp only [Except.ok.injEq] at h1
        rw [← h1]
        simp only
        rw [untouched_preprocess log _ hu.pre, hu.start, hu.reset]
    · cases h1; exact ⟨rfl, rfl, rfl⟩
  unfold step at h2
  simp only at h2
  split at h2
  · cases h2
  · simp only [Except.ok.injEq] at h2
    subst h2
    refine ⟨_, _, _, rfl, rfl, ?_, ?_, ?_⟩
    · rw [untouched_preprocess log _ hu.pre, hu.step]
      unfold drawAction
      cases s1.nextAction with
      | none => simp only; rw [hu.draw, hs1.1]
      | some a => exact hs1.1
    · simp only [steps_append, steps]; rw [hs1.2.1]
    · simp [fits, hs1.2.2]

/-- C68. `callback_step` is called exactly once per interaction, in order, with the stored sample: a callback that
records its argument has recorded exactly the transitions of the run, at every point of the run. -/
theorem C68_callback_step (sys : Sys W X A R P T) (c : Cfg X) (prev s : St W X A R P T)
    (log : W → List (Sample X A R P)) (hu : Untouched sys log)
    (hcb : ∀ w x, log (sys.callbackStep w x) = log w ++ [x])
    (hfit : ∀ cb ∈ sys.callbacksFit, ∀ w b, log (cb w b) = log w)
    (h : Reach sys c prev s) : log s.world = log prev.world ++ steps s.trace := by
  induction h with
  | start => simp [start, steps]
  | @iter s s' hr hm hi ih =>
    obtain ⟨s2, smp, w2, rfl, hw, hl, hst, -⟩ := untouched_iter hu hi
    have h2 : log s2.world = log prev.world ++ steps s2.trace := by
      rw [hw, hcb, hl, ih, hst, List.append_assoc]
    have hfold : ∀ (l : List (W → List (Sample X A R P) → W)) (b : List (Sample X A R P)) (w : W),
        (∀ cb ∈ l, ∀ w b, log (cb w b) = log w) → log (l.foldl (fun w cb => cb w b) w) = log w := by
      intro l b
      induction l with
      | nil => intros; rfl
      | cons cb l ihl =>
        intro w hl
        rw [List.foldl_cons, ihl _ (fun cb hcb => hl cb (by simp [hcb])), hl cb (by simp)]
    unfold fitPhase
    split
    · simp only [steps_append, steps, List.append_nil]
      rw [hfold _ _ _ hfit, hu.fit, h2]
    · exact h2

/-- C68. Each fit callback is called exactly once after each fit, with the dataset of that fit (before it is
cleared): a callback that records its argument has recorded exactly the datasets of the fits. -/
theorem C68_callbacks_fit (sys : Sys W X A R P T) (c : Cfg X) (prev s : St W X A R P T)
    (log : W → List (List (Sample X A R P))) (hu : Untouched sys log)
    (hstep : ∀ w x, log (sys.callbackStep w x) = log w)
    (before after : List (W → List (Sample X A R P) → W)) (cb : W → List (Sample X A R P) → W)
    (hcbs : sys.callbacksFit = before ++ cb :: after)
    (hcb : ∀ w b, log (cb w b) = log w ++ [b])
    (hoth : ∀ cb' ∈ before ++ after, ∀ w b, log (cb' w b) = log w)
    (h : Reach sys c prev s) : log s.world = log prev.world ++ fits s.trace := by
  induction h with
  | start => simp [start, fits]
  | @iter s s' hr hm hi ih =>
    obtain ⟨s2, smp, w2, rfl, hw, hl, -, hft⟩ := untouched_iter hu hi
    have h2 : log s2.world = log prev.world ++ fits s2.trace := by
      rw [hw, hstep, hl, ih, hft]
    have hfold : ∀ (l : List (W → List (Sample X A R P) → W)) (b : List (Sample X A R P)) (w : W),
        (∀ cb ∈ l, ∀ w b, log (cb w b) = log w) → log (l.foldl (fun w cb => cb w b) w) = log w := by
      intro l b
      induction l with
      | nil => intros; rfl
      | cons cb l ihl =>
        intro w hl
        rw [List.foldl_cons, ihl _ (fun cb hcb => hl cb (by simp [hcb])), hl cb (by simp)]
    unfold fitPhase
    split
    · simp only [fits_append, fits]
      rw [hcbs, List.foldl_append, List.foldl_cons, hfold after _ _ (fun cb' h' => hoth cb' (by simp [h'])), hcb,
        hfold before _ _ (fun cb' h' => hoth cb' (by simp [h'])), hu.fit, h2, List.append_assoc]
    · exact h2

-- A system whose world is a pair (clock, recorded rewards), with a recording step callback.
def demoLog : Sys (Nat × List (Sample Nat Nat Nat Unit)) Nat Nat Nat Unit Nat where
  horizon := some 2
  isEpisodic := false
  envReset := fun w req => (w, req.getD 100)
  episodeStart := fun w x => (w, none, x)
  envStep := fun w a => ((w.1 + 1, w.2), w.1, a, w.1 % 3 == 2)
  policyDraw := fun w x _ => (w, x + 1, none)
  fit := fun w _ _ _ => (w, none)
  corePre := [⟨fun w _ => (w.1 + 10, w.2), fun w x => x + w.1⟩]
  agentPre := []
  callbackStep := fun w s => (w.1, w.2 ++ [s])
  callbacksFit := []

example : Untouched demoLog Prod.snd :=
  ⟨fun _ _ => rfl, fun _ _ => rfl, fun _ _ => rfl, fun _ _ _ => rfl, fun _ _ _ _ => rfl,
   fun p hp _ _ => by simp [demoLog] at hp; subst hp; rfl⟩

/-- C03. Preprocessors are applied in the order they were added, each one updated with and then applied to the output
of the previous ones. -/
theorem C03_preprocess_order (ps : List (Preproc W X)) (p : Preproc W X) (w : W) (x : X) :
    preprocess (ps ++ [p]) w x =
      (p.update (preprocess ps w x).1 (preprocess ps w x).2,
       p.apply (p.update (preprocess ps w x).1 (preprocess ps w x).2) (preprocess ps w x).2) := by
  induction ps generalizing w x with
  | nil => rfl
  | cons q ps ih => simp only [List.cons_append, preprocess]; exact ih _ _

/-- C66. The preprocessors of the agent are applied in the order they were added. -/
theorem C66_agentPreprocess_order (ps : List (W → X → X)) (w : W) (x : X) :
    agentPreprocess ps w x = ps.foldl (fun y p => p w y) x := by
  induction ps generalizing x with
  | nil => rfl
  | cons q ps ih => exact ih _

end Verif.Core
