/-
Property theorems C144: preprocessing of the observations in whole runs.
-/
import Verif.System.SpecPre
import Verif.System.Props
import Verif.Stats.Props

namespace Verif.System.Pre

noncomputable section

open Verif.Core (Sample Event Cfg St Reach steps fits)

variable {E Q X A R P T W I : Type}

/-! ### Core -/

theorem lift_through (ps : List (Stat Q X)) (w : E × Q) (x : X) :
    Core.preprocess (ps.map Stat.lift) w x = ((w.1, (through ps w.2 x).1), (through ps w.2 x).2) := by
  induction ps generalizing w x with
  | nil => rfl
  | cons p ps ih =>
    simp only [List.map_cons, Core.preprocess, through]
    rw [ih]
    rfl

theorem observations_append (a b : List (Event X A R P T)) : observations (a ++ b) = observations a ++ observations b := by
  induction a with
  | nil => rfl
  | cons e a ih => cases e <;> simp [observations, ih]

theorem shown_append (a b : List (Event X A R P T)) : shown (a ++ b) = shown a ++ shown b := by
  induction a with
  | nil => rfl
  | cons e a ih => cases e <;> simp [shown, ih]

theorem replay_append (ps : List (Stat Q X)) (q : Q) (xs ys : List X) :
    replay ps q (xs ++ ys) = ((replay ps (replay ps q xs).1 ys).1, (replay ps q xs).2 ++ (replay ps (replay ps q xs).1 ys).2) := by
  induction xs generalizing q with
  | nil => rfl
  | cons x xs ih => simp only [List.cons_append, replay, ih]

theorem replay_length (ps : List (Stat Q X)) (q : Q) (xs : List X) : (replay ps q xs).2.length = xs.length := by
  induction xs generalizing q with
  | nil => rfl
  | cons x xs ih => simp [replay, ih]

theorem reset_pre {ps : List (Stat Q X)} {sys : Core.Sys (E × Q) X A R P T} (hs : Owns ps sys) {c : Cfg X} {s s' : St (E × Q) X A R P T}
    (h : Core.reset sys c s = .ok s') : ∃ req obs pst th, s'.trace = s.trace ++ [.reset req obs (through ps s.world.2 obs).2 pst th] ∧
      s'.world.2 = (through ps s.world.2 obs).1 := by
  unfold Core.reset at h
  split at h
  · cases h
  · rename_i req _
    simp only [Except.ok.injEq] at h
    subst h
    simp only [hs.pre, lift_through, hs.episodeStart, hs.envReset]
    exact ⟨req, _, _, _, rfl, rfl⟩

theorem draw_pre {ps : List (Stat Q X)} {sys : Core.Sys (E × Q) X A R P T} (hs : Owns ps sys) (w : E × Q) (next : Option A) (x : X) (p : Option P) :
    (Core.drawAction sys w next x p).1.2 = w.2 := by
  unfold Core.drawAction
  cases next with
  | none => exact hs.policyDraw _ _ _
  | some a => rfl

theorem step_pre {ps : List (Stat Q X)} {sys : Core.Sys (E × Q) X A R P T} (hs : Owns ps sys) {c : Cfg X} {s s' : St (E × Q) X A R P T} {x : X}
    (h : Core.step sys c s x = .ok s') : ∃ asked act obs rew ab smp, s'.trace = s.trace ++ [.step asked act obs rew ab smp] ∧
      smp.nextState = (through ps s.world.2 obs).2 ∧ s'.world.2 = (through ps s.world.2 obs).1 := by
  unfold Core.step at h
  simp only at h
  split at h
  · cases h
  · simp only [Except.ok.injEq] at h
    subst h
    simp only [hs.pre, lift_through, hs.callbackStep, hs.envStep, draw_pre hs]
    exact ⟨_, _, _, _, _, _, rfl, rfl, rfl⟩

theorem foldl_pre {S : Type} (cbs : List (E × Q → S → E × Q)) (hc : ∀ cb ∈ cbs, ∀ w b, (cb w b).2 = w.2) (b : S) (w : E × Q) :
    (cbs.foldl (fun w cb => cb w b) w).2 = w.2 := by
  induction cbs generalizing w with
  | nil => rfl
  | cons cb cbs ih =>
    rw [List.foldl_cons, ih (fun cb' h => hc cb' (by simp [h])), hc cb (by simp)]

theorem fit_pre {ps : List (Stat Q X)} {sys : Core.Sys (E × Q) X A R P T} (hs : Owns ps sys) (c : Cfg X) (s : St (E × Q) X A R P T) :
    (Core.fitPhase sys c s).world.2 = s.world.2 ∧ observations (Core.fitPhase sys c s).trace = observations s.trace ∧
      shown (Core.fitPhase sys c s).trace = shown s.trace := by
  unfold Core.fitPhase
  split
  · refine ⟨?_, ?_, ?_⟩
    · simp only [foldl_pre sys.callbacksFit hs.callbacksFit, hs.fit]
    · simp [observations_append, observations]
    · simp [shown_append, shown]
  · exact ⟨rfl, rfl, rfl⟩

/-- C144. At every point of every run of `Core`, whatever the budget, the fits, the environment, the policy and the learning rule are: every observation
that the environment has returned, of a reset or of a step, has been shown to the preprocessors exactly once and in order, each of them has learned from the
observation before changing it, and what they made of it is exactly the state that the agent got. -/
theorem C144_once (ps : List (Stat Q X)) (sys : Core.Sys (E × Q) X A R P T) (hs : Owns ps sys) (c : Cfg X) (prev s : St (E × Q) X A R P T)
    (h : Reach sys c prev s) : replay ps prev.world.2 (observations s.trace) = (s.world.2, shown s.trace) := by
  induction h with
  | start => rfl
  | @iter s s' hr hm hi ih =>
    obtain ⟨s1, x, s2, h1, hx, h2, rfl⟩ := Core.iter_cases hi
    have hone : replay ps prev.world.2 (observations s1.trace) = (s1.world.2, shown s1.trace) := by
      split at h1
      · obtain ⟨req, obs, pst, th, ht, hw⟩ := reset_pre hs h1
        rw [ht, observations_append, shown_append, replay_append, ih, hw]
        rfl
      · cases h1; exact ih
    obtain ⟨asked, act, obs, rew, ab, smp, ht, hn, hw⟩ := step_pre hs h2
    obtain ⟨hf1, hf2, hf3⟩ := fit_pre hs c s2
    rw [hf1, hf2, hf3, ht, observations_append, shown_append, replay_append, hone, hw]
    simp [observations, shown, replay, hn]

/-- C144, over several calls on the same `Core`: an `evaluate` after a `learn` goes on with what the preprocessors have learned, and the preprocessors learn
from its observations too. -/
theorem C144_calls (ps : List (Stat Q X)) (sys : Core.Sys (E × Q) X A R P T) (hs : Owns ps sys) (prev s s' : St (E × Q) X A R P T) (fuel fuel' : ℕ)
    (a b c d : Option ℕ) (xs : Option (List X)) (a' b' : Option ℕ) (h : Core.learn sys fuel prev a b c d = some (.ok s))
    (h' : Core.evaluate sys fuel' s xs a' b' = some (.ok s')) :
    replay ps prev.world.2 (observations s.trace ++ observations s'.trace) = (s'.world.2, shown s.trace ++ shown s'.trace) := by
  obtain ⟨cfg, -, hr⟩ := learn_reach h
  obtain ⟨cfg', -, hr'⟩ := evaluate_reach h'
  rw [replay_append, C144_once ps sys hs cfg prev s hr]
  have := C144_once ps sys hs cfg' s s' hr'
  simp only [this]

theorem replay_standardization (d : ℕ) (clipObs alpha : ℝ) (xs : List (Fin d → ℝ)) (i : Fin d) :
    (replay [standardization d clipObs alpha] (fresh d) xs).1 i = Stats.runAll alpha (xs.map fun x => [x i]) := by
  induction xs using List.reverseRecOn with
  | nil => rfl
  | append_singleton xs x ih =>
    rw [replay_append, List.map_append, List.map_cons, List.map_nil, Stats.runAll_append, ← ih]
    rfl

/-- C144 for `StandardizationPreprocessor`, from a new agent on: component `i` of the state that the agent gets for observation number `k` is that
component of the observation, standardised with the statistics of the observations `0, ..., k`, itself included, and of nothing else. -/
theorem C144_standardised (d : ℕ) (clipObs alpha : ℝ) (sys : Core.Sys (E × (Fin d → Stats.RunStd)) (Fin d → ℝ) A R P T)
    (hs : Owns [standardization d clipObs alpha] sys) (c : Cfg (Fin d → ℝ)) (prev s : St (E × (Fin d → Stats.RunStd)) (Fin d → ℝ) A R P T)
    (h : Reach sys c prev s) (hnew : prev.world.2 = fresh d) (hfloor : alpha * (1 + (observations s.trace).length) ≤ 1) (h0 : 0 ≤ alpha)
    (k : ℕ) (obs : Fin d → ℝ) (hk : (observations s.trace)[k]? = some obs) :
    ∃ x, (shown s.trace)[k]? = some x ∧ ∀ i, x i = standardised clipObs (((observations s.trace).take (k + 1)).map (· i)) (obs i) := by
  have hall := C144_once _ sys hs c prev s h
  rw [hnew] at hall
  have hlt : k < (observations s.trace).length := (List.getElem?_eq_some_iff.mp hk).1
  have hget := (List.getElem?_eq_some_iff.mp hk).2
  have hsplit : observations s.trace = (observations s.trace).take k ++ obs :: (observations s.trace).drop (k + 1) := by
    rw [← hget]; simp
  have htake : (observations s.trace).take (k + 1) = (observations s.trace).take k ++ [obs] := by
    rw [List.take_add_one, hk]; rfl
  generalize hp : (observations s.trace).take k = pre at *
  have hprelen : pre.length = k := by rw [← hp, List.length_take]; omega
  have hlen : alpha * (1 + ((pre ++ [obs]).length : ℝ)) ≤ 1 := by
    refine le_trans (mul_le_mul_of_nonneg_left ?_ h0) hfloor
    have : (pre ++ [obs]).length ≤ (observations s.trace).length := by rw [List.length_append, hprelen]; simpa using hlt
    have : ((pre ++ [obs]).length : ℝ) ≤ (observations s.trace).length := by exact_mod_cast this
    linarith
  rw [hsplit, replay_append] at hall
  have hsh := (Prod.ext_iff.mp hall).2
  simp only at hsh
  refine ⟨(through [standardization d clipObs alpha] (replay [standardization d clipObs alpha] (fresh d) pre).1 obs).2, ?_, ?_⟩
  · rw [← hsh, List.getElem?_append_right (by rw [replay_length, hprelen]), replay_length, hprelen, Nat.sub_self]
    rfl
  · intro i
    have hstat : (standardization d clipObs alpha).update (replay [standardization d clipObs alpha] (fresh d) pre).1 obs i =
        Stats.runAll alpha (((pre ++ [obs]).map (· i)).map fun x => [x]) := by
      have := replay_standardization d clipObs alpha (pre ++ [obs]) i
      rw [replay_append] at this
      rw [List.map_map]
      exact this
    have hlen' : alpha * (1 + (((pre ++ [obs]).map (· i)).length : ℝ)) ≤ 1 := by rw [List.length_map]; exact hlen
    have hw := (Stats.C77_welford_partial alpha ((pre ++ [obs]).map (· i)) hlen').2
    have hm := Stats.C35_mean alpha (((pre ++ [obs]).map (· i)).map fun x => [x]) (by intro b hb; obtain ⟨y, -, rfl⟩ := List.mem_map.mp hb; simp) (by rw [Stats.samples_single]; exact hlen')
    rw [Stats.samples_single] at hm
    rw [htake]
    show Stats.standardize clipObs ((standardization d clipObs alpha).update _ obs i) (obs i) = _
    rw [hstat]
    unfold Stats.standardize standardised Stats.clip
    rw [hm, hw]

/-- A run for the examples: the environment counts its calls and returns the count, episodes last two steps, and the only preprocessor adds the sum of all
the observations. -/
def demoStat : Stat ℕ ℕ := { update := fun q x => q + x, apply := fun q x => x + q }

def demoSys : Core.Sys (ℕ × ℕ) ℕ ℕ ℕ ℕ ℕ where
  horizon := some 2
  isEpisodic := false
  envReset w _ := ((w.1 + 1, w.2), w.1 + 1)
  episodeStart w _ := (w, none, 0)
  envStep w _ := ((w.1 + 1, w.2), w.1 + 1, 0, false)
  policyDraw w x p := (w, x, p)
  fit w _ _ _ := (w, none)
  corePre := [demoStat.lift]
  agentPre := []
  callbackStep w _ := w
  callbacksFit := []

def demoPrev : St (ℕ × ℕ) ℕ ℕ ℕ ℕ ℕ :=
  { world := (0, 0), state := none, policyState := none, theta := none, episodeSteps := 0, nextAction := none, totalEpisodes := 0, totalSteps := 0
    currentEpisodes := 0, currentSteps := 0, last := true, rows := [], thetas := [], trace := [] }

theorem demo_owns : Owns [demoStat] demoSys := by
  refine ⟨rfl, fun _ _ => rfl, fun _ _ => rfl, fun _ _ => rfl, fun _ _ _ => rfl, fun _ _ _ _ => rfl, fun _ _ => rfl, ?_⟩
  intro cb h; cases h

/-- What is left of a finished call. -/
def finished (r : Option (Except Core.Err (St (ℕ × ℕ) ℕ ℕ ℕ ℕ ℕ))) : Option (List ℕ × List ℕ × ℕ) :=
  match r with
  | some (.ok s) => some (observations s.trace, shown s.trace, s.world.2)
  | _ => none

-- Three steps, two episodes, five observations; the states have the running sum added.
example : finished (Core.learn demoSys 5 demoPrev (some 3) none (some 2) none) = some ([1, 2, 3, 4, 5], [2, 5, 9, 14, 20], 15) := by decide +kernel

/-- C144, refuted: an evaluation changes the agent, as soon as it has a preprocessor that learns. Here the same observation gives another state after the
call than before it, although no `fit` has happened. -/
theorem C144_evaluate_refuted : ∃ (p : Stat ℕ ℕ) (sys : Core.Sys (ℕ × ℕ) ℕ ℕ ℕ ℕ ℕ) (prev s : St (ℕ × ℕ) ℕ ℕ ℕ ℕ ℕ) (fuel : ℕ), Owns [p] sys ∧
    Core.evaluate sys fuel prev none (some 3) none = some (.ok s) ∧ fits s.trace = [] ∧
    (through [p] s.world.2 1).2 ≠ (through [p] prev.world.2 1).2 := by
  obtain ⟨s, hs, -, -, hfits⟩ := Core.C04_evaluate_steps demoSys demoPrev 3
  have h3 := hs 3 (le_refl 3)
  have hfin : finished (Core.evaluate demoSys 3 demoPrev none (some 3) none) = some ([1, 2, 3, 4, 5], [2, 5, 9, 14, 20], 15) := by decide +kernel
  rw [h3] at hfin
  simp only [finished, Option.some.injEq, Prod.mk.injEq] at hfin
  refine ⟨demoStat, demoSys, demoPrev, s, 3, demo_owns, h3, hfits, ?_⟩
  rw [hfin.2.2]
  decide

-- C144_calls is not empty: a learn and an evaluation of the example.
example : ∃ s s', Core.learn demoSys 5 demoPrev (some 3) none (some 2) none = some (.ok s) ∧ Core.evaluate demoSys 5 s none (some 1) none = some (.ok s') := by
  have h1 : (Core.learn demoSys 5 demoPrev (some 3) none (some 2) none).isSome = true := by decide +kernel
  obtain ⟨s, hs⟩ : ∃ s, Core.learn demoSys 5 demoPrev (some 3) none (some 2) none = some (.ok s) := by
    match h : Core.learn demoSys 5 demoPrev (some 3) none (some 2) none with
    | some (.ok s) => exact ⟨s, rfl⟩
    | some (.error e) =>
      have : finished (Core.learn demoSys 5 demoPrev (some 3) none (some 2) none) = some ([1, 2, 3, 4, 5], [2, 5, 9, 14, 20], 15) := by decide +kernel
      rw [h] at this; cases this
    | none => rw [h] at h1; cases h1
  obtain ⟨s', hs', -⟩ := Core.C04_evaluate_steps demoSys s 1
  exact ⟨s, s', hs, hs' 5 (by omega)⟩

-- The hypotheses of C144_standardised hold for an environment that always returns the observation (1, 2), after one reset and one step.
example : ∃ (sys : Core.Sys (Unit × (Fin 2 → Stats.RunStd)) (Fin 2 → ℝ) Unit Unit Unit Unit) (c : Cfg (Fin 2 → ℝ))
    (prev s : St (Unit × (Fin 2 → Stats.RunStd)) (Fin 2 → ℝ) Unit Unit Unit Unit), Owns [standardization 2 10 (10 ^ (-32 : ℤ))] sys ∧ Reach sys c prev s ∧
      prev.world.2 = fresh 2 ∧ (observations s.trace)[1]? = some ![1, 2] ∧ (10 : ℝ) ^ (-32 : ℤ) * (1 + (observations s.trace).length) ≤ 1 := by
  let sys : Core.Sys (Unit × (Fin 2 → Stats.RunStd)) (Fin 2 → ℝ) Unit Unit Unit Unit :=
    { horizon := none, isEpisodic := false, envReset := fun w _ => (w, ![1, 2]), episodeStart := fun w _ => (w, none, ()), envStep := fun w _ => (w, ![1, 2], (), false)
      policyDraw := fun w _ p => (w, (), p), fit := fun w _ _ _ => (w, none), corePre := [(standardization 2 10 (10 ^ (-32 : ℤ))).lift], agentPre := []
      callbackStep := fun w _ => w, callbacksFit := [] }
  let prev : St (Unit × (Fin 2 → Stats.RunStd)) (Fin 2 → ℝ) Unit Unit Unit Unit :=
    { world := ((), fresh 2), state := none, policyState := none, theta := none, episodeSteps := 0, nextAction := none, totalEpisodes := 0, totalSteps := 0
      currentEpisodes := 0, currentSteps := 0, last := true, rows := [], thetas := [], trace := [] }
  let c : Cfg (Fin 2 → ℝ) := { budget := .steps 1, fitMode := .never, initialStates := none, capacity := none }
  refine ⟨sys, c, prev, _, ⟨rfl, fun _ _ => rfl, fun _ _ => rfl, fun _ _ => rfl, fun _ _ _ => rfl, fun _ _ _ _ => rfl, fun _ _ => rfl, ?_⟩,
    Reach.iter Reach.start rfl rfl, rfl, rfl, ?_⟩
  · intro cb h; cases h
  · show (10 : ℝ) ^ (-32 : ℤ) * (1 + ((2 : ℕ) : ℝ)) ≤ 1
    norm_num

/-! ### VectorCore -/

/-- C144. Without preprocessors `VectorCore` runs as in the model of its loop that the other properties are about. -/
theorem C144_vector_none (sys : Vector.Sys W X A R P T) (infos : I) (c : Vector.Cfg) (cap fuel : ℕ) (s : Vector.St W X A R P T) (q : Q) :
    loop sys [] infos c cap fuel s q = (Vector.loop sys c cap fuel s).map fun r => (r.1, r.2, q) := by
  have hiter : ∀ s, iter sys ([] : List (VPre Q X I)) infos c cap s q = (Vector.iter sys c cap s).map fun r => (r, q) := by
    intro s
    have h1 : resetPart sys ([] : List (VPre Q X I)) infos c s q = (Vector.resetPart sys c s).map fun r => (r, q) := by
      unfold resetPart Vector.resetPart
      split
      · cases Vector.getMask c s.running s.last s.totE s.curE <;> rfl
      · rfl
    have h2 : ∀ s, stepPart sys ([] : List (VPre Q X I)) c cap s q = (Vector.stepPart sys c cap s).map fun r => (r, q) := by
      intro s
      unfold stepPart Vector.stepPart
      simp only [preprocess, asArray]
      by_cases hcap : s.data.length < cap
      · by_cases hone : c.n = 1
        · rw [if_pos (by exact hcap), if_pos (by exact hone), if_pos (by exact hcap), if_pos (by exact hone)]; rfl
        · rw [if_pos (by exact hcap), if_neg (by exact hone), if_pos (by exact hcap), if_neg (by exact hone)]; rfl
      · rw [if_neg (by exact hcap), if_neg (by exact hcap)]; rfl
    unfold iter Vector.iter
    rw [h1]
    cases h : Vector.resetPart sys c s with
    | error e => rfl
    | ok s1 =>
      show (stepPart sys [] c cap s1 q >>= fun r => pure (Vector.fitPart sys c cap r.1, r.2)) = _
      rw [h2]
      simp only
      cases Vector.stepPart sys c cap s1 <;> rfl
  induction fuel generalizing s with
  | zero => rfl
  | succ fuel ih =>
    unfold loop Vector.loop
    split
    · rw [hiter]
      cases h : Vector.iter sys c cap s with
      | error e => rfl
      | ok s1 => exact ih s1
    · rfl

/-- C144, refuted: with `VectorCore` the preprocessors of the library cannot be used. Whatever the environments and the agent are, every `learn` and every
`evaluate` that has something to do raises in its first iteration, before the first step, because `reset_all` returns the states together with the
information about the episodes and the preprocessor is given the pair. -/
theorem C144_vector_refuted {d : ℕ} (sys : Vector.Sys W (Fin d → ℝ) A R P T) (infos : I) (c : Vector.Cfg) (cap fuel d' : ℕ) (clipObs alpha : ℝ)
    (ps : List (VPre (Fin d → Stats.RunStd) (Fin d → ℝ) I)) (w : W) (x0 : ℕ → Fin d → ℝ) (p0 : ℕ → P) (q : Fin d → Stats.RunStd) (hn : 1 ≤ c.n)
    (hmove : Vector.moveRequired c (Vector.start w x0 p0 : Vector.St W (Fin d → ℝ) A R P T) = true) :
    loop sys (standardizationV d' d clipObs alpha :: ps) infos c cap (fuel + 1) (Vector.start w x0 p0) q = .error .value := by
  have hany : Vector.anyOf (Vector.start w x0 p0 : Vector.St W (Fin d → ℝ) A R P T).last c.n = true := by
    have : ∀ n, 1 ≤ n → 0 < Vector.cnt (fun _ => true) n := by
      intro n h
      cases n with
      | zero => omega
      | succ n => simp [Vector.cnt]
    simp [Vector.anyOf, Vector.start, this c.n hn]
  have hr : resetPart sys (standardizationV d' d clipObs alpha :: ps) infos c (Vector.start w x0 p0) q = .error .value := by
    unfold resetPart
    rw [if_pos hany]
    have hmask : ∃ mask, Vector.getMask c (Vector.start w x0 p0 : Vector.St W (Fin d → ℝ) A R P T).running (Vector.start w x0 p0 : Vector.St W (Fin d → ℝ) A R P T).last
        (Vector.start w x0 p0 : Vector.St W (Fin d → ℝ) A R P T).totE (Vector.start w x0 p0 : Vector.St W (Fin d → ℝ) A R P T).curE = .ok mask := by
      have h0 : ∀ n, Vector.cnt (fun _ => false) n = 0 := by
        intro n
        induction n with
        | zero => rfl
        | succ n ih => simp [Vector.cnt, ih]
      simp [Vector.getMask, Vector.start, h0]
    obtain ⟨mask, hmask⟩ := hmask
    rw [hmask]
    rfl
  unfold loop
  rw [if_pos hmove]
  unfold iter
  rw [hr]
  rfl

/-- C144, refuted: a preprocessor that does accept the pair is applied twice at every reset, also to the environments that are in the middle of an episode,
but once to the observations of a step. Each of them is counted twice, too. -/
theorem C144_vector_twice_refuted (f : X → X) (n : ℕ) (sys : Vector.Sys W X A R P T) (infos : I) (c : Vector.Cfg) (cap : ℕ)
    (s s' : Vector.St W X A R P T) (q q' : ℕ) :
    (Vector.anyOf s.last c.n = true → resetPart sys [rowwise n f] infos c s q = .ok (s', q') →
      (∀ i, s'.state i = f (f (s'.envState i))) ∧ q' = q + 2 * n) ∧
    (stepPart sys [rowwise (I := I) n f] c cap s q = .ok (s', q') → (∀ i, s'.state i = f (s'.envState i)) ∧ q' = q + n) := by
  constructor
  · intro hany h
    unfold resetPart at h
    rw [if_pos hany] at h
    split at h
    · cases h
    · simp only [resetStates, preprocess, rowwise, unpack, asArray, bind, Except.bind, pure, Except.pure, Except.ok.injEq, Prod.mk.injEq] at h
      obtain ⟨rfl, rfl⟩ := h
      exact ⟨fun _ => rfl, by omega⟩
  · intro h
    unfold stepPart at h
    simp only [preprocess, rowwise, asArray, bind, Except.bind] at h
    by_cases hcap : s.data.length < cap
    · by_cases hone : c.n = 1
      · rw [if_pos (by exact hcap), if_pos (by exact hone)] at h; cases h
      · rw [if_pos (by exact hcap), if_neg (by exact hone)] at h
        simp only [Except.ok.injEq, Prod.mk.injEq] at h
        obtain ⟨rfl, rfl⟩ := h
        exact ⟨fun _ => rfl, rfl⟩
    · rw [if_neg (by exact hcap)] at h; cases h

/-- Two environments for the examples, that return the number of calls so far; episodes last two steps. -/
def demoV : Vector.Sys ℕ ℕ ℕ ℕ ℕ ℕ where
  isEpisodic := false
  envReset w _ := (w + 1, w + 1)
  envStep w _ _ := (w + 1, w + 1, 0, false)
  noReward := 0
  episodeStart w _ _ := (w, fun _ => 0, fun _ => 0)
  draw w xs ps := (w, xs, ps)
  fit w _ _ := w
  garbage _ _ _ := (false, 0, 0)

def demoC : Vector.Cfg :=
  { n := 2, horizon := some 2, nSteps := some 6, nEpisodes := none, perFitSteps := none, perFitEps := none, learning := false }

/-- States before and after every step of the first environment, and the count of the preprocessor. -/
def demoRows (r : Except Vector.Err (Bool × Vector.St ℕ ℕ ℕ ℕ ℕ ℕ × ℕ)) : Option (List (ℕ × ℕ) × ℕ) :=
  match r with
  | .ok (_, s, q) => some (s.data.map fun row => ((row 0).state, (row 0).nextState), q)
  | .error _ => none

-- The observations of the first environment are 1, 3, 5, then (reset) 7, 9; a preprocessor that adds 100 gives 201 for the first, 103 for the second.
example : demoRows (loop demoV [rowwise (I := Unit) 2 (· + 100)] () demoC 10 3 (Vector.start 0 (fun _ => 0) (fun _ => 0)) 0) =
    some ([(201, 103), (103, 105), (207, 109)], 14) := by decide +kernel

-- Without preprocessors the same run has the observations themselves.
example : demoRows (loop demoV ([] : List (VPre ℕ ℕ Unit)) () demoC 10 3 (Vector.start 0 (fun _ => 0) (fun _ => 0)) 0) =
    some ([(1, 3), (3, 5), (7, 9)], 0) := by decide +kernel

-- There is something to do in the run of C144_vector_refuted.
example : Vector.moveRequired demoC (Vector.start 0 (fun _ => 0) (fun _ => 0) : Vector.St ℕ ℕ ℕ ℕ ℕ ℕ) = true ∧ 1 ≤ demoC.n := by decide

end

end Verif.System.Pre
