/-
Properties C21-C24 and C70 about the vectorized loop.
-/
import Verif.Vector.Lemmas4

namespace Verif.Vector

open Verif.Dataset (Row setLast closeEnd Complete)

variable {W X A R P T : Type}

/-! ### A small concrete system for the examples: every environment counts its steps, environment `i` ends an episode
after `i + 1` steps. The world is the list of the current counters. -/

def demo (garbage : Bool) : Sys (List Nat) Nat Unit Nat Unit Nat where
  isEpisodic := true
  envReset w i := (w.set i 0, 10 * i)
  envStep w i _ := (w.set i (w.getD i 0 + 1), (10 * i + w.getD i 0 + 1, 1, decide (i + 1 ≤ w.getD i 0 + 1)))
  noReward := 0
  episodeStart w _ _ := (w, fun _ => (), fun i => i)
  draw w _ _ := (w, fun _ => (), fun _ => ())
  fit w _ _ := w
  garbage _ _ _ := (garbage, (), ())

def freshLogic : Logic := { perFitSteps := none, perFitEps := none }

/-- First components of the state of the rows, and their `last` flags. -/
def brief (l : List (Row Nat Unit Nat Unit)) : List (Nat × Bool) := l.map (fun r => (r.state, r.last))

def briefFits : Except Err (Bool × St (List Nat) Nat Unit Nat Unit Nat) → Option (Bool × List (List (Nat × Bool)))
  | .ok (b, s) => some (b, s.fits.map (fun f => brief f.1))
  | .error _ => none

def errOf : Except Err (Bool × St (List Nat) Nat Unit Nat Unit Nat) → Option Err
  | .ok _ => none
  | .error e => some e

/-! ### C21 -/

/-- C21. Flattening the collected transitions gives the concatenation, environment after environment, of the
transitions of each environment in time order, the final one of each environment being marked as last; nothing else in
the rows changes. The histories are those in which an environment becomes inactive only at the end of an episode; all
the runs of the loop produce such histories (`C21_runs`). -/
theorem C21_flatten (n : Nat) (h : History X A R P) (th : Nat → List T) (hne : h ≠ []) (hs : StopsAtEnd n h) :
    (flatten n none (rowsOf h) (masksOf h) th).1 =
      some (noPolicyStates (blocks n h), ((List.range n).map th).flatten) := by
  have : (rowsOf h).length ≠ 0 := by simp [rowsOf, hne]
  simp only [flatten, this, if_false, pack_close n h hs]
  rfl

/-- Two environments; the second one is inactive in the second row, after the end of its episode. -/
example :
    let r (x : Nat) (l : Bool) : Row Nat Unit Nat Unit :=
      { state := x, action := (), reward := 1, nextState := x + 1, absorbing := l, last := l
        policyState := (), policyNextState := () }
    let h : History Nat Unit Nat Unit :=
      [(fun _ => true, fun i => if i = 0 then r 0 false else r 10 true, 0),
       (fun i => i == 0, fun i => if i = 0 then r 1 false else r 11 false, 0)]
    StopsAtEnd 2 h ∧ brief (blocks 2 h) = [(0, false), (1, true), (10, true)] := by
  refine ⟨?_, by decide⟩
  intro t e e' he he' i hi h1 h2
  match t with
  | 0 =>
    simp only [List.getElem?_cons_zero, List.getElem?_cons_succ, Option.some.injEq] at he he'
    subst he; subst he'
    match i, hi with
    | 0, _ => simp at h2
    | 1, _ => rfl
  | 1 => simp at he'
  | t + 2 => simp at he'

/-- Every nonempty block ends with a transition marked as last, so no episode of the flattened dataset contains
transitions of two environments. -/
theorem C21_blocks_closed (h : History X A R P) (i : Nat) (hne : trajectory h i ≠ []) :
    Complete (closeEnd (trajectory h i)) ∧ (closeEnd (trajectory h i)).length = (trajectory h i).length := by
  rcases List.eq_nil_or_concat (trajectory h i) with h0 | ⟨pre, e, h0⟩
  · exact absurd h0 hne
  · rw [h0]
    simp only [List.concat_eq_append, closeEnd, List.dropLast_concat, List.getLast?_concat, Option.map_some,
      Option.toList_some]
    exact ⟨⟨pre, setLast e, rfl, rfl⟩, by simp⟩

theorem good_evaluate (l : Logic) (n : Nat) (horizon nSteps nEpisodes : Option Nat) (hn : 1 < n)
    (hH : ∀ H, horizon = some H → 0 < H) (hl : l.perFitEps = none)
    (hone : (nSteps = none ∧ ∃ ne, nEpisodes = some ne) ∨ (nEpisodes = none ∧ ∃ ns, nSteps = some ns)) :
    Good (l.evaluateCfg n horizon nSteps nEpisodes) :=
  { pos := hn, horizon := hH, oneFit := Or.inr hl
    fitPos := fun k hk => by simp [Logic.evaluateCfg, Logic.initializeEvaluate, hl] at hk
    oneMove := hone, noStale := Or.inr (Or.inl hl) }

theorem room_evaluate (l : Logic) (n cap : Nat) (horizon nSteps nEpisodes : Option Nat)
    (hcap : capacity horizon nSteps nEpisodes = some cap) : Room (l.evaluateCfg n horizon nSteps nEpisodes) cap := by
  unfold capacity at hcap
  split at hcap
  · rename_i ns
    simp only [Option.some.injEq] at hcap
    exact Or.inr (Or.inl ⟨ns, rfl, rfl, by omega⟩)
  · rename_i ne
    rcases horizon with _ | H
    · simp at hcap
    · simp only [Option.map_some, Option.some.injEq] at hcap
      exact Or.inl ⟨H, ne, rfl, rfl, rfl, by omega⟩
  · simp at hcap

theorem between_all {h : History X A R P} (ht : ∀ e ∈ h, e.2.2 ≤ 0) : between h 0 = h := by
  simp only [between, List.filter_eq_self]
  intro e he
  have := ht e he
  simp
  omega

/-- C21 for runs: the dataset returned by `evaluate` consists of the blocks of the environments, over everything that
has been collected. -/
theorem C21_runs (sys : Sys W X A R P T) (l : Logic) (n cap : Nat) (horizon nSteps nEpisodes : Option Nat) (w : W)
    (x0 : Nat → X) (p0 : Nat → P) (fuel : Nat) (hn : 1 < n) (hH : ∀ H, horizon = some H → 0 < H)
    (hl : l.perFitEps = none)
    (hone : (nSteps = none ∧ ∃ ne, nEpisodes = some ne) ∨ (nEpisodes = none ∧ ∃ ns, nSteps = some ns))
    (hcap : capacity horizon nSteps nEpisodes = some cap) {s : St W X A R P T} {ds : Option (List (Row X A R Unit))}
    (hev : evaluate sys l n horizon nSteps nEpisodes cap w x0 p0 fuel = .ok (some (s, ds))) :
    StopsAtEnd n s.log ∧ ds = if s.log = [] then none else some (noPolicyStates (blocks n s.log)) := by
  have hg := good_evaluate l n horizon nSteps nEpisodes hn hH hl hone
  obtain ⟨b, s', h1, h2, h3, _⟩ := loop_all sys _ cap hg (Or.inl rfl) (room_evaluate l n cap _ _ _ hcap) fuel
    (start w x0 p0) ⟨start_inv _ hg w x0 p0, start_del _ w x0 p0, start_traj _ w x0 p0⟩ (fun _ => ⟨rfl, rfl⟩)
  have h3 := h3 rfl
  have hd := h2.del
  have ht := hd.tags
  have hdata := hd.data
  have hmasks := hd.masks
  have hstops := hd.stops 0
  rw [h3.2] at ht hdata hmasks
  rw [between_all ht] at hstops
  simp only [List.length_nil, between_all ht] at hdata hmasks
  simp only [evaluate, h1] at hev
  cases b with
  | false => simp at hev
  | true =>
    simp only [Except.ok.injEq, Option.some.injEq, Prod.mk.injEq] at hev
    obtain ⟨rfl, rfl⟩ := hev
    refine ⟨hstops, ?_⟩
    by_cases h0 : s'.log = []
    · have : s'.data.length = 0 := by rw [hdata, h0]; rfl
      simp [flatten, this, h0]
    · rw [hdata, hmasks, C21_flatten n s'.log s'.thetas h0 hstops]
      simp [h0]

/-! ### C22 -/

/-- C22, episodes. `evaluate(n_episodes=N)` on a core that has no pending number of episodes per fit stops after at most
`N * horizon` iterations, without errors, and the number of episodes completed by active environments is exactly `N`. -/
theorem C22_episodes (sys : Sys W X A R P T) (l : Logic) (n H N cap : Nat) (w : W) (x0 : Nat → X) (p0 : Nat → P)
    (hn : 1 < n) (hH : 0 < H) (hl : l.perFitEps = none) (hcap : capacity (some H) none (some N) = some cap)
    (fuel : Nat) (hfuel : N * H ≤ fuel) :
    ∃ s ds, evaluate sys l n (some H) none (some N) cap w x0 p0 fuel = .ok (some (s, ds)) ∧ episodes n s.log = N := by
  have hg := good_evaluate l n (some H) none (some N) hn (by simp [hH]) hl (Or.inl ⟨rfl, N, rfl⟩)
  obtain ⟨b, s', h1, h2, h3, h4, h5, _⟩ := loop_all sys _ cap hg (Or.inl rfl) (room_evaluate l n cap _ _ _ hcap) fuel
    (start w x0 p0) ⟨start_inv _ hg w x0 p0, start_del _ w x0 p0, start_traj _ w x0 p0⟩ (fun _ => ⟨rfl, rfl⟩)
  have hi := h2.inv
  have htot := hi.total N rfl
  cases b with
  | false =>
    exfalso
    obtain ⟨h6, h7⟩ := h5 rfl
    simp only [start, List.length_nil, Nat.zero_add] at h6
    have hlt : s'.totE < N := by simpa [moveRequired, Logic.evaluateCfg] using h7
    have hlen := hi.logLen
    have hhor := hi.hor H rfl
    have hw : wsum (fun i => !s'.last i && s'.running i) s'.episodeSteps n ≤ midway n s'.running s'.last * (H - 1) := by
      apply wsum_le
      intro i hin h
      simp only [Bool.and_eq_true, Bool.not_eq_true'] at h
      have := hi.lens H rfl i hin h.2 h.1
      omega
    have hmul : midway n s'.running s'.last * (H - 1) + midway n s'.running s'.last
        = midway n s'.running s'.last * H := by
      rw [← Nat.mul_succ]; congr 1; omega
    have hNH : (s'.totE + midway n s'.running s'.last) * H ≤ N * H := Nat.mul_le_mul_right H htot
    rw [Nat.add_mul] at hNH
    have hNH' : (s'.totE + 1) * H ≤ N * H := Nat.mul_le_mul_right H hlt
    rw [Nat.add_mul] at hNH'
    have hhor' : s'.totS ≤ s'.totE * H + wsum (fun i => !s'.last i && s'.running i) s'.episodeSteps n := hhor
    by_cases hm0 : midway n s'.running s'.last = 0
    · rw [hm0, Nat.zero_mul] at hw
      omega
    · omega
  | true =>
    refine ⟨s', (flatten n none s'.data s'.masks s'.thetas).1.map (·.1), by simp only [evaluate, h1], ?_⟩
    have hge : ¬ s'.totE < N := by
      have := h4 rfl
      simpa [moveRequired, Logic.evaluateCfg] using this
    have := hi.logE
    have h8 : episodes n s'.log = s'.totE := this
    have : s'.totE + midway n s'.running s'.last ≤ N := htot
    omega

/-- C22, steps. `evaluate(n_steps=N)` stops after at most `N` iterations, without errors, with at least `N` and fewer
than `N + n` environment steps, `n` being the number of environments. -/
theorem C22_steps (sys : Sys W X A R P T) (l : Logic) (n N cap : Nat) (horizon : Option Nat) (w : W) (x0 : Nat → X)
    (p0 : Nat → P) (hn : 1 < n) (hH : ∀ H, horizon = some H → 0 < H) (hl : l.perFitEps = none)
    (hcap : capacity horizon (some N) none = some cap) (fuel : Nat) (hfuel : N ≤ fuel) :
    ∃ s ds, evaluate sys l n horizon (some N) none cap w x0 p0 fuel = .ok (some (s, ds)) ∧
      N ≤ steps n s.log ∧ steps n s.log < N + n := by
  have hg := good_evaluate l n horizon (some N) none hn hH hl (Or.inr ⟨rfl, N, rfl⟩)
  obtain ⟨b, s', h1, h2, h3, h4, h5, h6⟩ := loop_all sys _ cap hg (Or.inl rfl) (room_evaluate l n cap _ _ _ hcap) fuel
    (start w x0 p0) ⟨start_inv _ hg w x0 p0, start_del _ w x0 p0, start_traj _ w x0 p0⟩ (fun _ => ⟨rfl, rfl⟩)
  have hi := h2.inv
  have hlen := hi.logLen
  have hS : steps n s'.log = s'.totS := hi.logS
  have hlt : s'.totS < N + n := h6 N rfl (by simp only [start, Logic.evaluateCfg]; omega)
  cases b with
  | false =>
    exfalso
    obtain ⟨h7, h8⟩ := h5 rfl
    simp only [start, List.length_nil, Nat.zero_add] at h7
    have : s'.totS < N := by simpa [moveRequired, Logic.evaluateCfg] using h8
    omega
  | true =>
    refine ⟨s', (flatten n none s'.data s'.masks s'.thetas).1.map (·.1), by simp only [evaluate, h1], ?_⟩
    have : ¬ s'.totS < N := by
      have := h4 rfl
      simpa [moveRequired, Logic.evaluateCfg] using this
    omega

def evalBrief (r : Except Err (Option (St (List Nat) Nat Unit Nat Unit Nat × Option (List (Row Nat Unit Nat Unit))))) :
    Option (Option (List (Nat × Bool))) :=
  match r with
  | .ok (some (_, ds)) => some (ds.map brief)
  | _ => none

/-- Three environments with episodes of one, two and three steps: four episodes are collected. -/
example : evalBrief (evaluate (demo true) freshLogic 3 (some 4) none (some 4) 16 [0, 0, 0] (fun _ => 0) (fun _ => ()) 16)
    = some (some [(0, true), (0, true), (10, false), (11, true), (20, false), (21, false), (22, true)]) := by
  decide +kernel

/-! ### C23 -/

/-- C23 fails: after `learn(n_episodes_per_fit=1)`, `evaluate(n_episodes=2)` on the same core never returns: the number
of episodes per fit of the previous call still limits the environments that may run, so that no environment is active
after the first episode, and the loop ends in an IndexError when the dataset is full. On a fresh core the call returns
two episodes. -/
theorem C23_refuted :
    ∃ l : Logic, freshLogic.initializeLearn none (some 1) = some l ∧
      (∀ fuel, evalBrief (evaluate (demo true) l 2 (some 2) none (some 2) 4 [0, 0] (fun _ => 0) (fun _ => ()) fuel) =
        none) ∧
      errOf (loop (demo true) (l.evaluateCfg 2 (some 2) none (some 2)) 4 5 (start [0, 0] (fun _ => 0) (fun _ => ()))) =
        some .index ∧
      evalBrief (evaluate (demo true) freshLogic 2 (some 2) none (some 2) 4 [0, 0] (fun _ => 0) (fun _ => ()) 4) =
        some (some [(0, true), (10, false), (11, true)]) := by
  refine ⟨_, rfl, ?_, by decide +kernel, by decide +kernel⟩
  intro fuel
  by_cases hf : fuel < 5
  · revert fuel; decide +kernel
  · obtain ⟨f, rfl⟩ : ∃ f, fuel = 5 + f := ⟨fuel - 5, by omega⟩
    have hgen : ∀ (c : Cfg) (cap a f : Nat) (s : St (List Nat) Nat Unit Nat Unit Nat) (e : Err),
        loop (demo true) c cap a s = .error e → loop (demo true) c cap (a + f) s = .error e := by
      intro c cap a
      induction a with
      | zero => intro f s e h; simp [loop] at h
      | succ a ih =>
        intro f s e h
        rw [Nat.add_right_comm]
        simp only [loop] at h ⊢
        split
        · rename_i hm
          simp only [hm, if_true] at h
          split
          · rename_i e' he; simp only [he] at h; exact h
          · rename_i s' hs; simp only [hs] at h; exact ih f s' e h
        · rename_i hm; simp [hm] at h
    have herr : ∀ l : Logic, errOf (loop (demo true) (l.evaluateCfg 2 (some 2) none (some 2)) 4 5
        (start [0, 0] (fun _ => 0) (fun _ => ()))) = some .index →
        evalBrief (evaluate (demo true) l 2 (some 2) none (some 2) 4 [0, 0] (fun _ => 0) (fun _ => ()) (5 + f)) = none := by
      intro l hl
      rcases hloop : loop (demo true) (l.evaluateCfg 2 (some 2) none (some 2)) 4 5
        (start [0, 0] (fun _ => 0) (fun _ => ())) with e | ⟨b, s⟩
      · rw [evaluate]
        simp only [hgen _ _ _ f _ _ hloop, evalBrief]
      · rw [hloop] at hl; simp [errOf] at hl
    exact herr _ (by decide +kernel)

/-- The mask does not depend on a pending number of episodes per fit that is not smaller than the number of episodes. -/
theorem getMask_stale (c : Cfg) (N : Nat) (running last : Nat → Bool) (tot : Nat)
    (hN : c.nEpisodes = some N) (hk : ∀ k, c.perFitEps = some k → N ≤ k) :
    getMask c running last tot tot = getMask { c with perFitSteps := none, perFitEps := none } running last tot tot := by
  rcases hp : c.perFitEps with _ | k
  · simp only [getMask, hp]
  · have := hk k hp
    have hmin : ∀ r x : Nat, min (k - tot - r) (min (N - tot - r) x) = min (N - tot - r) x := by intro r x; omega
    simp only [getMask, hp, hN, hmin]

theorem loop_stale (sys : Sys W X A R P T) (c : Cfg) (N cap : Nat) (hl : c.learning = false)
    (hN : c.nEpisodes = some N) (hk : ∀ k, c.perFitEps = some k → N ≤ k) :
    ∀ (fuel : Nat) (s : St W X A R P T), s.curE = s.totE →
      loop sys c cap fuel s = loop sys { c with perFitSteps := none, perFitEps := none } cap fuel s
  | 0, _, _ => rfl
  | fuel + 1, s, hs => by
    have hmove : moveRequired { c with perFitSteps := none, perFitEps := none } s = moveRequired c s := rfl
    have hreset : resetPart sys { c with perFitSteps := none, perFitEps := none } s = resetPart sys c s := by
      simp only [resetPart, hs, getMask_stale c N s.running s.last s.totE hN hk]
    have hrE : ∀ s', resetPart sys c s = .ok s' → s'.curE = s'.totE := by
      intro s' h
      unfold resetPart at h
      split at h
      · split at h
        · simp at h
        · simp only [Except.ok.injEq] at h; rw [← h]; exact hs
      · simp only [Except.ok.injEq] at h; rw [← h]; exact hs
    have hstep : ∀ s' : St W X A R P T,
        stepPart sys { c with perFitSteps := none, perFitEps := none } cap s' = stepPart sys c cap s' := fun _ => rfl
    have hsE : ∀ s' s'' : St W X A R P T, s'.curE = s'.totE → stepPart sys c cap s' = .ok s'' → s''.curE = s''.totE := by
      intro s' s'' h h'
      by_cases hcap : s'.data.length < cap
      · by_cases hn1 : c.n = 1
        · rw [stepPart_one sys c cap s' hcap hn1] at h'; simp at h'
        obtain ⟨s3, h1, row, h2⟩ := stepPart_ok sys c cap s' hcap hn1
        rw [h1, Except.ok.injEq] at h'
        subst h'
        rw [h2.curE, h2.totE, h]
      · rw [stepPart_full sys c cap s' (by omega)] at h'
        simp at h'
    simp only [loop, hmove]
    split
    · simp only [iter, hreset]
      rcases hr : resetPart sys c s with e | s1
      · rfl
      · simp only [hstep]
        rcases hst : stepPart sys c cap s1 with e | s2
        · rfl
        · simp only [fitPart, fitRequired, hl, Bool.false_and, Bool.false_eq_true, if_false]
          have ih := loop_stale sys c N cap hl hN hk fuel s2 (hsE s1 s2 (hrE s1 hr) hst)
          rw [hl] at ih
          exact ih
    · rfl

/-- C23, the part that holds: after any earlier call to `learn` with `n_steps_per_fit`, or with an `n_episodes_per_fit`
not smaller than `N`, `evaluate(n_episodes=N)` does exactly what it does on a fresh core. Missing: the other numbers of
episodes per fit, for which the property is false (`C23_refuted`). -/
theorem C23_evaluate_partial (sys : Sys W X A R P T) (l : Logic) (n N cap : Nat) (horizon : Option Nat) (w : W)
    (x0 : Nat → X) (p0 : Nat → P) (fuel : Nat) (hk : ∀ k, l.perFitEps = some k → N ≤ k) :
    evaluate sys l n horizon none (some N) cap w x0 p0 fuel =
      evaluate sys freshLogic n horizon none (some N) cap w x0 p0 fuel := by
  have h := loop_stale sys (l.evaluateCfg n horizon none (some N)) N cap rfl rfl hk fuel (start w x0 p0) rfl
  simp only [evaluate]
  rw [h]
  rfl

example : (freshLogic.initializeLearn none (some 5)).map (·.perFitEps) = some (some 5) ∧
    (freshLogic.initializeLearn (some 7) none).map (·.perFitEps) = some none := by decide

/-! ### C24 -/

/-- C24, the part that holds. In `learn` with `n_episodes_per_fit`, and in `learn(n_steps, n_steps_per_fit=k)` with `k` a
multiple of the number of environments, after any number of iterations: the loop has not failed; the fit with number `f`
has received exactly the transitions collected between it and the previous fit (the blocks of all the environments); the
transitions collected after the last fit are all still in the dataset; fit numbers do not decrease along the history, so
every transition collected before the last fit has been delivered to exactly one fit; and every fit receives exactly `k`
episodes (or `k` steps). Missing: the other numbers of steps per fit, and stopping after a number of episodes with a
number of steps per fit, for which the property is false (`C24_duplicate_refuted`, `C24_lost_refuted`,
`C24_overflow_refuted`). -/
theorem C24_exactly_once_partial (sys : Sys W X A R P T) (c : Cfg) (cap : Nat) (w : W) (x0 : Nat → X) (p0 : Nat → P)
    (fuel : Nat) (hlearn : c.learning = true) (hn : 1 < c.n) (hH : ∀ H, c.horizon = some H → 0 < H)
    (hone : (c.nSteps = none ∧ ∃ ne, c.nEpisodes = some ne) ∨ (c.nEpisodes = none ∧ ∃ ns, c.nSteps = some ns))
    (hmode : (∃ k, c.perFitEps = some k ∧ 0 < k ∧ c.perFitSteps = none) ∨
      (∃ k, c.perFitSteps = some k ∧ 0 < k ∧ c.n ∣ k ∧ c.nEpisodes = none ∧ c.perFitEps = none))
    (hcap : capacity c.horizon c.perFitSteps c.perFitEps = some cap) :
    ∃ b s, loop sys c cap fuel (start w x0 p0) = .ok (b, s) ∧
      (∀ f < s.fits.length, ∃ batch, s.fits[f]? = some batch ∧ batch.1 = noPolicyStates (blocks c.n (between s.log f))) ∧
      s.data = rowsOf (between s.log s.fits.length) ∧ s.masks = masksOf (between s.log s.fits.length) ∧
      (s.log.map (fun e => e.2.2)).Pairwise (· ≤ ·) ∧ (∀ e ∈ s.log, e.2.2 ≤ s.fits.length) ∧
      (∀ f < s.fits.length, ∀ k, c.perFitEps = some k → episodes c.n (between s.log f) = k) ∧
      (∀ f < s.fits.length, ∀ k, c.perFitSteps = some k → steps c.n (between s.log f) = k) := by
  have hg : Good c := by
    refine { pos := hn, horizon := hH, oneFit := ?_, fitPos := ?_, oneMove := hone, noStale := Or.inl hlearn }
    · rcases hmode with ⟨k, h1, h2, h3⟩ | ⟨k, h1, h2, h3, h4, h5⟩
      · exact Or.inl h3
      · exact Or.inr h5
    · intro k hk
      rcases hmode with ⟨k', h1, h2, h3⟩ | ⟨k', h1, h2, h3, h4, h5⟩
      · rw [h1, Option.some.injEq] at hk; omega
      · simp [h5] at hk
  have hc : Clean c := by
    rcases hmode with ⟨k, h1, h2, h3⟩ | ⟨k, h1, h2, h3, h4, h5⟩
    · exact Or.inr (Or.inl h3)
    · exact Or.inr (Or.inr ⟨k, h1, h2, h3, h4⟩)
  have hr : Room c cap := by
    rcases hmode with ⟨k, h1, h2, h3⟩ | ⟨k, h1, h2, h3, h4, h5⟩
    · rw [h1, h3] at hcap
      rcases hh : c.horizon with _ | H
      · simp [capacity, hh] at hcap
      · simp only [capacity, hh, Option.map_some, Option.some.injEq] at hcap
        exact Or.inr (Or.inr (Or.inl ⟨H, k, hlearn, hh, h1, by omega⟩))
    · rw [h1, h5] at hcap
      simp only [capacity, Option.some.injEq] at hcap
      exact Or.inr (Or.inr (Or.inr ⟨k, hlearn, h1, h2, by omega⟩))
  obtain ⟨b, s', h1, h2, _⟩ := loop_all sys c cap hg hc hr fuel
    (start w x0 p0) ⟨start_inv _ hg w x0 p0, start_del _ w x0 p0, start_traj _ w x0 p0⟩ (fun h => by simp [h] at hlearn)
  have hd := h2.del
  exact ⟨b, s', h1, hd.done, hd.data, hd.masks, hd.sorted, hd.tags, hd.sizeE, hd.sizeS⟩

def learnEp : Cfg :=
  { n := 2, horizon := some 3, nSteps := none, nEpisodes := some 4, perFitSteps := none, perFitEps := some 2
    learning := true }

/-- Two environments with episodes of one and two steps, two episodes per fit. -/
example : capacity learnEp.horizon learnEp.perFitSteps learnEp.perFitEps = some 6 ∧
    briefFits (loop (demo true) learnEp 6 12 (start [0, 0] (fun _ => 0) (fun _ => ()))) =
      some (true, [[(0, true), (10, false), (11, true)], [(0, true), (10, false), (11, true)]]) := by decide +kernel

def learnSteps (k : Nat) : Cfg :=
  { n := 2, horizon := none, nSteps := some 8, nEpisodes := none, perFitSteps := some k, perFitEps := none
    learning := true }

example : briefFits (loop (demo true) (learnSteps 4) 4 12 (start [0, 0] (fun _ => 0) (fun _ => ()))) =
    some (true, [[(0, true), (0, true), (10, false), (11, true)], [(0, true), (0, true), (10, false), (11, true)]]) := by
  decide +kernel

/-- An environment that never ends and numbers its states, so that all the transitions differ. -/
def counter (garbage : Bool) : Sys (List Nat) Nat Unit Nat Unit Nat :=
  { demo garbage with envStep := fun w i _ => (w.set i (w.getD i 0 + 1), (10 * i + w.getD i 0 + 1, 1, false)) }

/-- C24 fails with two environments and `n_steps_per_fit=3`: the transition of the first environment from state 1 is
given to both the first and the second fit, and the last transition of the second environment's first batch (from state
11) is not in the second fit. -/
theorem C24_duplicate_refuted :
    briefFits (loop (counter true) (learnSteps 3) 3 4 (start [0, 0] (fun _ => 0) (fun _ => ()))) =
      some (true, [[(0, false), (1, true), (10, false)], [(1, true), (2, false), (3, true)]]) := by decide +kernel

/-- With other contents of the uninitialised memory the left-over transition from state 11 is given neither to the first nor to the second fit, and the loop has moved on (the
dataset then holds only later rows). -/
theorem C24_lost_refuted :
    briefFits (loop (counter false) { learnSteps 3 with nSteps := some 100 } 3 5
        (start [0, 0] (fun _ => 0) (fun _ => ()))) =
      some (false, [[(0, false), (1, true), (10, false)], [(2, false), (3, true), (12, false)]]) := by decide +kernel

/-- `learn(n_episodes=4, n_steps_per_fit=3)` can fail: the left-over rows and the new rows exceed the dataset when
only one environment is active. Here two environments have episodes of one and six steps. -/
theorem C24_overflow_refuted :
    errOf (loop { demo true with envStep := fun w i _ => (w.set i (w.getD i 0 + 1),
          (10 * i + w.getD i 0 + 1, 1, decide (5 * i + 1 ≤ w.getD i 0 + 1))) }
        { n := 2, horizon := none, nSteps := none, nEpisodes := some 3, perFitSteps := some 3, perFitEps := none
          learning := true } 3 9 (start [0, 0] (fun _ => 0) (fun _ => ()))) = some .index := by decide +kernel

/-! ### C70 -/

/-- C70. In every run, at any time: an environment that is active and whose episode has not ended is active at the next
step too, and its next transition starts in the state in which the previous one ended. -/
theorem C70_episodes_continue (sys : Sys W X A R P T) (c : Cfg) (cap : Nat) (w : W) (x0 : Nat → X) (p0 : Nat → P)
    (hg : Good c) : ∀ (fuel : Nat) (b : Bool) (s : St W X A R P T),
    loop sys c cap fuel (start w x0 p0) = .ok (b, s) →
    ∀ t e e', s.log[t]? = some e → s.log[t + 1]? = some e' → ∀ i < c.n, e.1 i = true → (e.2.1 i).last = false →
      e'.1 i = true ∧ (e'.2.1 i).state = (e.2.1 i).nextState := by
  have key : ∀ (fuel : Nat) (s0 : St W X A R P T), Inv c s0 → Traj c s0 → ∀ b s, loop sys c cap fuel s0 = .ok (b, s) →
      Traj c s := by
    intro fuel
    induction fuel with
    | zero =>
      intro s0 _ ht b s h
      simp only [loop, Except.ok.injEq, Prod.mk.injEq] at h
      rw [← h.2]; exact ht
    | succ fuel ih =>
      intro s0 hi ht b s h
      simp only [loop] at h
      split at h
      · rename_i hm
        obtain ⟨s1, h1, h2, h3⟩ := resetPart_inv sys c s0 hg hi hm
        by_cases hcap : s1.data.length < cap
        · obtain ⟨s2, h4, row, h5⟩ := stepPart_ok sys c cap s1 hcap (by have := hg.pos; omega)
          have h6 := post_of_stepped hg h2 h5
          simp only [iter, h1, h4] at h
          exact ih _ (fitPart_inv sys c cap s2 hg h6) (fit_traj sys c cap s2 hg h6 (step_traj ht h2 h3 h5)) b s h
        · simp only [iter, h1, stepPart_full sys c cap s1 (by omega)] at h
          simp at h
      · simp only [Except.ok.injEq, Prod.mk.injEq] at h
        rw [← h.2]; exact ht
  intro fuel b s h
  exact (key fuel _ (start_inv c hg w x0 p0) (start_traj c w x0 p0) b s h).chain

example : Good learnEp ∧ Good (learnSteps 3) := by
  constructor
  · exact { pos := by decide, horizon := by simp [learnEp], oneFit := by simp [learnEp], fitPos := by simp [learnEp]
            oneMove := by simp [learnEp], noStale := by simp [learnEp] }
  · exact { pos := by decide, horizon := by simp [learnSteps], oneFit := by simp [learnSteps]
            fitPos := by simp [learnSteps], oneMove := by simp [learnSteps], noStale := by simp [learnSteps] }

end Verif.Vector
