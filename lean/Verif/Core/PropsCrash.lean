/-
Exceptions during a run, and the calls after them (C182).
-/
import Verif.Core.ModelCrash
import Verif.Core.Props

namespace Verif.Core

variable {W X A R P T : Type}

/-! ### Specification -/

/-- Two calls cannot be told apart: none of them has ended yet, or both raise the same exception, or both end with the same events
(resets, steps and fits, in their order), the same returned dataset, and the same world (agent, environment, preprocessors, callbacks). -/
def Indistinguishable : Option (Except Err (St W X A R P T)) → Option (Except Err (St W X A R P T)) → Prop
  | none, none => True
  | some (.error e), some (.error e') => e = e'
  | some (.ok s), some (.ok t) => s.trace = t.trace ∧ s.rows = t.rows ∧ s.thetas = t.thetas ∧ s.world = t.world
  | _, _ => False

/-- An exception escaped from a run that began in `prev`: after any number of complete iterations, at any place of the next one, or
(core.py L126-127) in `agent.stop` or `env.stop` after the last one. -/
def Interrupted (sys : Sys W X A R P T) (c : Cfg X) (prev s : St W X A R P T) : Prop :=
  ∃ r, Reach sys c prev r ∧
    ((moveRequired c.budget r = true ∧ Left sys c r s) ∨ (moveRequired c.budget r = false ∧ ∃ w, s = { r with world := w }))

/-! ### Lemmas -/

theorem Indistinguishable.refl (o : Option (Except Err (St W X A R P T))) : Indistinguishable o o := by
  rcases o with _ | _ | s <;> simp [Indistinguishable]

theorem reset_start (sys : Sys W X A R P T) (c : Cfg X) {p q : St W X A R P T} (h : p.world = q.world) :
    reset sys c (start p) = reset sys c (start q) := by
  have hg : getInitialState c (start p) = getInitialState c (start q) := rfl
  unfold reset
  rw [hg]
  cases getInitialState c (start q) with
  | error e => rfl
  | ok req => simp only [start, h]

theorem iter_start (sys : Sys W X A R P T) (c : Cfg X) {p q : St W X A R P T} (h : p.world = q.world) :
    iter sys c (start p) = iter sys c (start q) := by
  have e := reset_start sys c h
  unfold iter
  have hp : (start p).last = true := rfl
  have hq : (start q).last = true := rfl
  rw [hp, hq]
  simp only [if_true, e]

theorem loop_start (sys : Sys W X A R P T) (c : Cfg X) {p q : St W X A R P T} (h : p.world = q.world) (fuel : Nat) :
    Indistinguishable (loop sys c fuel (start p)) (loop sys c fuel (start q)) := by
  have hm : moveRequired c.budget (start p) = moveRequired c.budget (start q) := by
    unfold moveRequired
    cases c.budget <;> rfl
  cases fuel with
  | zero =>
    unfold loop
    rw [hm]
    split
    · trivial
    · exact ⟨rfl, rfl, rfl, h⟩
  | succ n =>
    unfold loop
    rw [hm, iter_start sys c h]
    split
    · exact Indistinguishable.refl _
    · exact ⟨rfl, rfl, rfl, h⟩

theorem chained_prefix {horizon : Option Nat} {pre : X → X → Prop} : ∀ {l m : List (Event X A R P T)} {cur : Option (X × Option P × Nat)},
    Chained horizon pre cur (l ++ m) → Chained horizon pre cur l
  | [], m, cur, _ => by cases cur <;> simp [Chained]
  | .reset .. :: l, m, none, h => by
    simp only [List.cons_append, Chained] at h ⊢
    exact ⟨h.1, chained_prefix h.2⟩
  | .reset .. :: l, m, some (x, ps, t), h => by simp [Chained] at h
  | .step .. :: l, m, none, h => by simp [Chained] at h
  | .step .. :: l, m, some (x, ps, t), h => by
    simp only [List.cons_append, Chained] at h ⊢
    obtain ⟨a, b, c, d, e, f, g, i⟩ := h
    exact ⟨a, b, c, d, e, f, g, chained_prefix i⟩
  | .fit .. :: l, m, none, h => by
    simp only [List.cons_append, Chained] at h ⊢
    exact chained_prefix h
  | .fit .. :: l, m, some (x, ps, t), h => by
    simp only [List.cons_append, Chained] at h ⊢
    exact chained_prefix h

theorem step_adds {sys : Sys W X A R P T} {c : Cfg X} {s s2 : St W X A R P T} {x : X} (h : step sys c s x = .ok s2) :
    ∃ asked a obs r abs sample, s2.trace = s.trace ++ [.step asked a obs r abs sample] ∧ s2.rows = s.rows ++ [sample] := by
  unfold step at h
  dsimp only at h
  split at h
  · cases h
  · injection h with h
    subst h
    exact ⟨_, _, _, _, _, _, rfl, rfl⟩

theorem begun_adds {sys : Sys W X A R P T} {c : Cfg X} {s s1 : St W X A R P T} (h : begun sys c s = .ok s1) :
    s1.rows = s.rows ∧ (s1.trace = s.trace ∨ ∃ req obs x ps th, s1.trace = s.trace ++ [.reset req obs x ps th]) := by
  unfold begun at h
  split at h
  · unfold reset at h
    split at h
    · cases h
    · injection h with h
      subst h
      exact ⟨rfl, .inr ⟨_, _, _, _, _, rfl⟩⟩
  · injection h with h
    subst h
    exact ⟨rfl, .inl rfl⟩

theorem iter_of {sys : Sys W X A R P T} {c : Cfg X} {s s1 s2 : St W X A R P T} {x : X} (h : begun sys c s = .ok s1) (hx : s1.state = some x)
    (h2 : step sys c s1 x = .ok s2) : iter sys c s = .ok (fitPhase sys c s2) := by
  unfold begun at h
  unfold iter
  simp only [h, hx, h2]

theorem fitPhase_trace (sys : Sys W X A R P T) (c : Cfg X) (s : St W X A R P T) : ∃ m, (fitPhase sys c s).trace = s.trace ++ m := by
  unfold fitPhase
  split
  · exact ⟨_, rfl⟩
  · exact ⟨[], by simp⟩

/-! ### Theorems -/

/-- **C182**: whatever state `s` the earlier calls on a `Core` have left behind, by an exception at any place (`Interrupted`) or by a normal end, every later call of `learn` (with any arguments, and with whatever plugged-in parts the user
has repaired or exchanged: `now`) cannot be told apart from the same call on a new `Core` around the same agent and environment: no
counter, no pending action, no state, no part of the dataset of the interrupted call is left. -/
theorem C182_learn (now : Sys W X A R P T) (s : St W X A R P T) (next : Option A) (fuel : Nat)
    (a b d e : Option Nat) : Indistinguishable (learn now fuel s a b d e) (learn now fuel (builtCore s.world next) a b d e) := by
  unfold learn
  split
  · exact rfl
  · exact loop_start now _ (p := s) (q := builtCore s.world next) rfl fuel

/-- **C182**: the same for `evaluate`. -/
theorem C182_evaluate (now : Sys W X A R P T) (s : St W X A R P T) (next : Option A) (fuel : Nat)
    (xs : Option (List X)) (a b : Option Nat) :
    Indistinguishable (evaluate now fuel s xs a b) (evaluate now fuel (builtCore s.world next) xs a b) := by
  unfold evaluate
  split
  · exact rfl
  · exact loop_start now _ (p := s) (q := builtCore s.world next) rfl fuel

/-- **C182**: until the exception everything was in order: the episodes are well chained, every fit got the shortest block of
transitions that is large enough, right after it was collected, and what was collected but not given to a fit (`rest`) is less than a block, or the
block of the fit that was about to be made. -/
theorem C182_before (sys : Sys W X A R P T) (c : Cfg X) (prev s : St W X A R P T) (h : Interrupted sys c prev s) (pre : X → X → Prop)
    (hpre : Admissible sys pre) :
    Chained sys.horizon pre none s.trace ∧
      ∃ batches rest, work s.trace = workOf batches rest ∧ (∀ b ∈ batches, ShortestDue c.fitMode b) ∧
        ∀ p, p <+: rest → p ≠ [] → p ≠ rest → ¬ Due c.fitMode p := by
  obtain ⟨r, hr, h⟩ := h
  obtain ⟨bs, hw, _, hbs, hrest⟩ := C05_blocks sys c prev r hr
  have hch := C03_chained sys c prev r pre hpre hr
  -- nothing new was observed
  have same : ∀ t : St W X A R P T, t.trace = r.trace → Chained sys.horizon pre none t.trace ∧
      ∃ batches rest, work t.trace = workOf batches rest ∧ (∀ b ∈ batches, ShortestDue c.fitMode b) ∧
        ∀ p, p <+: rest → p ≠ [] → p ≠ rest → ¬ Due c.fitMode p := by
    intro t ht
    rw [ht]
    exact ⟨hch, bs, r.rows, hw, hbs, fun p hp hn _ => hrest p hp hn⟩
  rcases h.symm with ⟨_, w, rfl⟩ | ⟨hm, h⟩
  · exact same _ rfl
  -- a reset was observed, at most
  have begin1 : ∀ t s1 : St W X A R P T, begun sys c r = .ok s1 → t.trace = s1.trace → Chained sys.horizon pre none t.trace ∧
      ∃ batches rest, work t.trace = workOf batches rest ∧ (∀ b ∈ batches, ShortestDue c.fitMode b) ∧
        ∀ p, p <+: rest → p ≠ [] → p ≠ rest → ¬ Due c.fitMode p := by
    intro t s1 h1 ht
    unfold begun at h1
    split at h1
    · rename_i hl
      obtain ⟨-, -, -, -, -, -, ep, -, req, obs', x', w', th, -, hx', hp, htr, -⟩ := reset_fields h1
      rw [ht, htr]
      constructor
      · apply chained_reach hpre hr
        simp only [cursor, hl, if_true, Chained]
        exact ⟨hp ▸ hpre _ _, trivial⟩
      · refine ⟨bs, r.rows, ?_, hbs, fun p hp hn _ => hrest p hp hn⟩
        rw [work_append, hw]
        simp [work]
    · cases h1
      exact same t ht
  -- a step was observed
  have step1 : ∀ (t s1 s2 : St W X A R P T) (x : X), begun sys c r = .ok s1 → s1.state = some x → step sys c s1 x = .ok s2 → t.trace = s2.trace →
      Chained sys.horizon pre none t.trace ∧
      ∃ batches rest, work t.trace = workOf batches rest ∧ (∀ b ∈ batches, ShortestDue c.fitMode b) ∧
        ∀ p, p <+: rest → p ≠ [] → p ≠ rest → ¬ Due c.fitMode p := by
    intro t s1 s2 x h1 hx h2 ht
    rw [ht]
    constructor
    · have := C03_chained sys c prev _ pre hpre (Reach.iter hr hm (iter_of h1 hx h2))
      obtain ⟨m, e⟩ := fitPhase_trace sys c s2
      rw [e] at this
      exact chained_prefix this
    · obtain ⟨_, _, _, _, _, sample, e, _⟩ := step_adds h2
      refine ⟨bs, r.rows ++ [sample], ?_, hbs, ?_⟩
      · rw [e, work_append, workOf_snoc_row]
        rcases (begun_adds h1).2 with e' | ⟨_, _, _, _, _, e'⟩
        · rw [e', hw]; rfl
        · rw [e', work_append, hw]; simp [work]
      · intro p hp hn hne
        rw [List.prefix_concat_iff] at hp
        exact hrest p (hp.resolve_left hne) hn
  cases h with
  | reset w h => exact same _ rfl
  | resetPreprocess w h req hreq => exact same _ rfl
  | draw w s1 h1 => exact begin1 _ s1 h1 rfl
  | envStep w s1 h1 => exact begin1 _ s1 h1 rfl
  | stepPreprocess w s1 h1 => exact begin1 _ s1 h1 rfl
  | callbackStep w s1 s2 x h1 hx h2 => exact step1 _ s1 s2 x h1 hx h2 rfl
  | append w s1 s2 x h1 hx h2 => exact step1 _ s1 s2 x h1 hx h2 rfl
  | fit w next s1 s2 x h1 hx h2 hf => exact step1 _ s1 s2 x h1 hx h2 rfl
  | callbacksFit w s1 s2 x h1 hx h2 hf =>
    have hre := Reach.iter hr hm (iter_of h1 hx h2)
    obtain ⟨bs', hw', _, hbs', hrest'⟩ := C05_blocks sys c prev _ hre
    exact ⟨C03_chained sys c prev (fitPhase sys c s2) pre hpre hre, bs', _, hw', hbs', fun p hp hn _ => hrest' p hp hn⟩

/-- **C182**, both parts together: a call was interrupted, the user calls `learn` again. What happens in both calls is well chained each, and
the second call cannot be told apart from one on a new `Core`. -/
theorem C182_interrupted (sys now : Sys W X A R P T) (c : Cfg X) (prev s : St W X A R P T) (h : Interrupted sys c prev s) (fuel : Nat)
    (a b d e : Option Nat) (t : St W X A R P T) (ht : learn now fuel s a b d e = some (.ok t)) (pre : X → X → Prop) (hpre : Admissible sys pre)
    (hnow : Admissible now pre) :
    Chained sys.horizon pre none s.trace ∧ Chained now.horizon pre none t.trace ∧
      ∃ t', learn now fuel (builtCore s.world none) a b d e = some (.ok t') ∧ t'.trace = t.trace ∧ t'.world = t.world := by
  refine ⟨(C182_before sys c prev s h pre hpre).1, C03_learn now s t pre hnow fuel a b d e ht, ?_⟩
  have hi := C182_learn now s none fuel a b d e
  rw [ht] at hi
  cases hl : learn now fuel (builtCore s.world none) a b d e with
  | none => rw [hl] at hi; exact hi.elim
  | some o =>
    cases o with
    | error e => rw [hl] at hi; exact hi.elim
    | ok t' => rw [hl] at hi; exact ⟨t', rfl, hi.1.symm, hi.2.2.2.symm⟩

/-- The configuration of `learn(n_steps=4, n_steps_per_fit=2)`. -/
def crashCfg : Cfg Nat := { budget := .steps 4, fitMode := .steps 2, initialStates := none, capacity := some 2 }

-- The second fit of the call raises, after it has changed the world to 50 and left the action 8: both transitions of its block are not fitted, the
-- fit is still due, and an episode is under way.
example : ∃ s, Interrupted demo crashCfg demoPrev s ∧ s.world = 50 ∧ s.nextAction = some 8 ∧ s.currentSteps = 2 ∧ s.totalSteps = 4 ∧
    s.episodeSteps = 1 ∧ (steps s.trace).length = 4 ∧ (fits s.trace).length = 1 := by
  obtain ⟨r1, h1⟩ : ∃ r, iter demo crashCfg (start demoPrev) = .ok r := ⟨_, rfl⟩
  obtain ⟨r2, h2⟩ : ∃ r, iter demo crashCfg r1 = .ok r := by cases h1; exact ⟨_, rfl⟩
  obtain ⟨r3, h3⟩ : ∃ r, iter demo crashCfg r2 = .ok r := by cases h1; cases h2; exact ⟨_, rfl⟩
  obtain ⟨s1, h4⟩ : ∃ r, begun demo crashCfg r3 = .ok r := by cases h1; cases h2; cases h3; exact ⟨_, rfl⟩
  obtain ⟨x, h5⟩ : ∃ x, s1.state = some x := by cases h1; cases h2; cases h3; cases h4; exact ⟨_, rfl⟩
  obtain ⟨s2, h6⟩ : ∃ r, step demo crashCfg s1 x = .ok r := by cases h1; cases h2; cases h3; cases h4; cases h5; exact ⟨_, rfl⟩
  refine ⟨_, ⟨r3, Reach.iter (Reach.iter (Reach.iter Reach.start rfl h1) ?_ h2) ?_ h3, .inl ⟨?_, Left.fit 50 (some 8) s1 s2 x h4 h5 h6 ?_⟩⟩,
    rfl, rfl, ?_, ?_, ?_, ?_, ?_⟩ <;> cases h1 <;> cases h2 <;> cases h3 <;> cases h4 <;> cases h5 <;> cases h6 <;> rfl

end Verif.Core
