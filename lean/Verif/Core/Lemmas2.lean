/- Helper lemmas: shape of the trace, absence of errors, termination. -/
import Verif.Core.Lemmas

namespace Verif.Core

variable {W X A R P T : Type}

/-- One iteration, decomposed into the optional reset, the step and the optional fit. -/
theorem iter_cases {sys : Sys W X A R P T} {c : Cfg X} {s s' : St W X A R P T} (h : iter sys c s = .ok s') :
    ∃ s1 x s2, (if s.last then reset sys c s else .ok s) = .ok s1 ∧ s1.state = some x ∧
      step sys c s1 x = .ok s2 ∧ s' = fitPhase sys c s2 := by
  unfold iter at h
  simp only at h
  split at h
  · cases h
  · rename_i s1 h1
    split at h
    · cases h
    · rename_i x hx
      split at h
      · cases h
      · rename_i s2 h2
        simp only [Except.ok.injEq] at h
        exact ⟨s1, x, s2, h1, hx, h2, h.symm⟩

/-- `fitPhase` appends at most a fit event and touches nothing the episode structure depends on. -/
theorem fitPhase_fields (sys : Sys W X A R P T) (c : Cfg X) (s : St W X A R P T) :
    (fitPhase sys c s).last = s.last ∧ (fitPhase sys c s).state = s.state ∧
    (fitPhase sys c s).episodeSteps = s.episodeSteps ∧ (fitPhase sys c s).policyState = s.policyState ∧
    (fitPhase sys c s).totalSteps = s.totalSteps ∧ (fitPhase sys c s).totalEpisodes = s.totalEpisodes ∧
    (((fitPhase sys c s).trace = s.trace ∧ (fitPhase sys c s).nextAction = s.nextAction ∧
        (fitPhase sys c s).thetas = s.thetas ∧ (fitPhase sys c s).rows = s.rows) ∨
      ∃ next, (fitPhase sys c s).trace = s.trace ++ [.fit s.rows s.thetas next] ∧
        (fitPhase sys c s).nextAction = next ∧ (fitPhase sys c s).thetas = [] ∧ (fitPhase sys c s).rows = []) := by
  unfold fitPhase
  split
  · refine ⟨rfl, rfl, rfl, rfl, rfl, rfl, Or.inr ⟨_, rfl, rfl, rfl, rfl⟩⟩
  · refine ⟨rfl, rfl, rfl, rfl, rfl, rfl, Or.inl ⟨rfl, rfl, rfl, rfl⟩⟩

/-- The episode structure of the trace. -/
theorem chained_reach {sys : Sys W X A R P T} {c : Cfg X} {prev s : St W X A R P T} {pre : X → X → Prop}
    (hpre : ∀ w x, pre x (preprocess sys.corePre w x).2) (h : Reach sys c prev s) :
    ∀ es, Chained sys.horizon pre (cursor s) es → Chained sys.horizon pre none (s.trace ++ es) := by
  induction h with
  | start => intro es h; simpa [start, cursor] using h
  | @iter s s' hr hm hi ih =>
    have hI := inv_reach hr
    obtain ⟨s1, x, s2, h1, hx, h2, rfl⟩ := iter_cases hi
    obtain ⟨asked, act, obs, rew, abs, w, smp, e1, p1, p2, e2, e3, e4, e5, e6, -, -, -, -, -, -, l2, st2, es2, -, -, -, tr2⟩ :=
      step_fields h2
    -- K for s1 with the cursor inside the episode
    have k1 : ∀ es, Chained sys.horizon pre (some (x, s1.policyState, s1.episodeSteps)) es →
        Chained sys.horizon pre none (s1.trace ++ es) := by
      intro es hes
      split at h1
      · rename_i hl
        obtain ⟨-, -, -, -, -, -, ep, -, req, obs', x', w', th, -, hx', hp, ht, -⟩ := reset_fields h1
        have : x' = x := by rw [hx] at hx'; exact (Option.some.inj hx').symm
        subst this
        rw [ht, List.append_assoc]
        apply ih
        simp only [cursor, hl, if_true, List.singleton_append]
        rw [ep] at hes
        exact ⟨hp ▸ hpre _ _, hes⟩
      · rename_i hl
        cases h1
        apply ih
        simp only [cursor, hl]
        simpa [hx] using hes
    have k2 : ∀ es, Chained sys.horizon pre (cursor s2) es → Chained sys.horizon pre none (s2.trace ++ es) := by
      intro es hes
      rw [tr2, List.append_assoc]
      apply k1
      simp only [List.singleton_append, Chained]
      refine ⟨e1, p1, e2, e3, e4, e5 ▸ hpre _ _, ?_, ?_⟩
      · rw [e6]; exact isLast_iff _ _ _
      · simp only [cursor, l2, st2, es2, p2, Option.map_some] at hes
        exact hes
    intro es hes
    obtain ⟨f1, f2, f3, fp, -, -, f4⟩ := fitPhase_fields sys c s2
    have hc : cursor (fitPhase sys c s2) = cursor s2 := by
      unfold cursor; rw [f1, f2, f3, fp]
    rw [hc] at hes
    rcases f4 with ⟨ht, -⟩ | ⟨next, ht, -⟩
    · rw [ht]; exact k2 es hes
    · rw [ht, List.append_assoc]
      apply k2
      simp only [List.singleton_append]
      cases hcs : cursor s2 <;> simp only [hcs] at hes <;> simpa [Chained] using hes

/-- Who decides the actions. -/
theorem actions_reach {sys : Sys W X A R P T} {c : Cfg X} {prev s : St W X A R P T} {apre : X → X → Prop}
    (hpre : ∀ w x, apre x (agentPreprocess sys.agentPre w x)) (h : Reach sys c prev s) :
    ∀ es, ActionsFollow apre s.nextAction es → ActionsFollow apre prev.nextAction (s.trace ++ es) := by
  induction h with
  | start => intro es h; simpa [start] using h
  | @iter s s' hr hm hi ih =>
    obtain ⟨s1, x, s2, h1, hx, h2, rfl⟩ := iter_cases hi
    obtain ⟨asked, act, obs, rew, abs, w, smp, e1, p1, p2, e2, e3, e4, e5, e6, e7, -, -, -, -, -, -, -, -, na2, -, -, tr2⟩ :=
      step_fields h2
    have k1 : ∀ es, ActionsFollow apre s1.nextAction es → ActionsFollow apre prev.nextAction (s1.trace ++ es) := by
      intro es hes
      split at h1
      · obtain ⟨-, -, -, -, -, -, -, na, req, obs', x', w', th, -, -, -, ht, -⟩ := reset_fields h1
        rw [ht, List.append_assoc]
        apply ih
        rw [na] at hes
        simpa [ActionsFollow] using hes
      · cases h1; exact ih es hes
    have k2 : ∀ es, ActionsFollow apre s2.nextAction es → ActionsFollow apre prev.nextAction (s2.trace ++ es) := by
      intro es hes
      rw [tr2, List.append_assoc]
      apply k1
      rw [na2] at hes
      cases hn : s1.nextAction with
      | none =>
        simp only [hn] at e7
        obtain ⟨w', hw'⟩ := e7
        simp only [List.singleton_append, ActionsFollow]
        exact ⟨⟨_, p1 ▸ hw', e1 ▸ hpre _ _⟩, hes⟩
      | some a =>
        simp only [hn] at e7
        simp only [List.singleton_append, ActionsFollow]
        exact ⟨e7.1, e7.2, hes⟩
    intro es hes
    obtain ⟨-, -, -, -, -, -, f4⟩ := fitPhase_fields sys c s2
    rcases f4 with ⟨ht, hn, -⟩ | ⟨next, ht, hn, -⟩
    · rw [ht]; rw [hn] at hes; exact k2 es hes
    · rw [ht, List.append_assoc]
      apply k2
      rw [hn] at hes
      cases s2.nextAction <;> simpa [ActionsFollow] using hes

/-- The parameters handed to the fit of an episodic agent. -/
theorem thetas_reach {sys : Sys W X A R P T} {c : Cfg X} {prev s : St W X A R P T}
    (hep : sys.isEpisodic = true) (h : Reach sys c prev s) :
    ∀ es, ThetasFollow s.thetas es → ThetasFollow [] (s.trace ++ es) := by
  induction h with
  | start => intro es h; simpa [start] using h
  | @iter s s' hr hm hi ih =>
    obtain ⟨s1, x, s2, h1, hx, h2, rfl⟩ := iter_cases hi
    obtain ⟨asked, act, obs, rew, abs, w, smp, -, -, -, -, -, -, -, -, -, -, -, -, -, -, -, -, -, -, th2, -, tr2⟩ :=
      step_fields h2
    have k1 : ∀ es, ThetasFollow s1.thetas es → ThetasFollow [] (s1.trace ++ es) := by
      intro es hes
      split at h1
      · obtain ⟨-, -, -, -, -, -, -, -, req, obs', x', w', th, -, -, -, ht, hth⟩ := reset_fields h1
        rw [ht, List.append_assoc]
        apply ih
        rw [hth, hep] at hes
        simpa [ThetasFollow] using hes
      · cases h1; exact ih es hes
    have k2 : ∀ es, ThetasFollow s2.thetas es → ThetasFollow [] (s2.trace ++ es) := by
      intro es hes
      rw [tr2, List.append_assoc]
      apply k1
      rw [th2] at hes
      simpa [ThetasFollow] using hes
    intro es hes
    obtain ⟨-, -, -, -, -, -, f4⟩ := fitPhase_fields sys c s2
    rcases f4 with ⟨ht, -, hn, -⟩ | ⟨next, ht, -, hn, -⟩
    · rw [ht]; rw [hn] at hes; exact k2 es hes
    · rw [ht, List.append_assoc]
      apply k2
      rw [hn] at hes
      simpa [ThetasFollow] using hes

/-- The states requested at reset: one request per episode started; with `initial_states`, the k-th given state. -/
theorem resets_reach {sys : Sys W X A R P T} {c : Cfg X} {prev s : St W X A R P T}
    (hc : ∀ xs, c.initialStates = some xs → c.budget = .episodes xs.length) (h : Reach sys c prev s) :
    resetRequests s.trace = match c.initialStates with
      | none => List.replicate (s.totalEpisodes + if s.last then 0 else 1) none
      | some xs => (xs.take (s.totalEpisodes + if s.last then 0 else 1)).map some := by
  induction h with
  | start => cases c.initialStates <;> simp [start, resetRequests]
  | @iter s s' hr hm hi ih =>
    obtain ⟨s1, x, s2, h1, hx, h2, rfl⟩ := iter_cases hi
    obtain ⟨asked, act, obs, rew, abs, w, smp, -, -, -, -, -, -, -, -, -, -, -, -, te2, -, l2, -, -, -, -, -, tr2⟩ :=
      step_fields h2
    obtain ⟨f1, -, -, -, -, f5, f4⟩ := fitPhase_fields sys c s2
    have hreq : resetRequests (fitPhase sys c s2).trace = resetRequests s1.trace := by
      rcases f4 with ⟨ht, -⟩ | ⟨next, ht, -⟩ <;> simp [ht, tr2, resetRequests]
    have hcount : (fitPhase sys c s2).totalEpisodes + (if (fitPhase sys c s2).last = true then 0 else 1)
        = s1.totalEpisodes + 1 := by
      rw [f1, f5, te2, l2]; cases smp.last <;> simp
    rw [hreq, hcount]
    split at h1
    · rename_i hl
      obtain ⟨-, -, te, -, -, -, -, -, req, obs', x', w', th, hreq', -, -, ht, -⟩ := reset_fields h1
      simp only [hl, if_true, Nat.add_zero] at ih
      rw [ht, te]
      simp only [resetRequests_append, resetRequests, ih]
      unfold getInitialState at hreq'
      cases hi : c.initialStates with
      | none =>
        simp only [hi, Except.ok.injEq] at hreq' ⊢
        subst hreq'
        rw [List.replicate_succ']
      | some xs =>
        have hb := hc xs hi
        simp only [hi, hb, Budget.episodes.injEq] at hreq' ⊢
        simp only [hb, moveRequired, decide_eq_true_eq] at hm
        rw [if_neg (by omega)] at hreq'
        split at hreq'
        · rename_i y hy
          simp only [Except.ok.injEq] at hreq'
          subst hreq'
          rw [List.take_add_one, hy]
          simp
        · cases hreq'
    · rename_i hl
      cases h1
      simp only [hl] at ih
      simpa using ih

/-- Nothing in the loop can raise, provided the dataset has room for one more row whenever a step is due. -/
theorem iter_ok {sys : Sys W X A R P T} {c : Cfg X} {prev s : St W X A R P T} (hr : Reach sys c prev s)
    (hc : ∀ xs, c.initialStates = some xs → c.budget = .episodes xs.length)
    (hm : moveRequired c.budget s = true)
    (hcap : ∀ cap, c.capacity = some cap → s.rows.length < cap) : ∃ s', iter sys c s = .ok s' := by
  have hI := inv_reach hr
  have h1 : ∃ s1 x, (if s.last then reset sys c s else .ok s) = .ok s1 ∧ s1.state = some x ∧ s1.rows = s.rows := by
    split
    · have : ∃ req, getInitialState c s = .ok req := by
        unfold getInitialState
        cases hi : c.initialStates with
        | none => exact ⟨_, rfl⟩
        | some xs =>
          have hb := hc xs hi
          simp only [hb, moveRequired, decide_eq_true_eq] at hm
          simp only [hb, Budget.episodes.injEq]
          rw [if_neg (by omega)]
          rw [List.getElem?_eq_getElem hm]
          exact ⟨_, rfl⟩
      obtain ⟨req, hreq⟩ := this
      unfold reset
      rw [hreq]
      exact ⟨_, _, rfl, rfl, rfl⟩
    · rename_i hl
      obtain ⟨x, hx⟩ := hI.hstate (by simpa using hl)
      exact ⟨s, x, rfl, hx, rfl⟩
  obtain ⟨s1, x, h1, hx, hrow⟩ := h1
  have h2 : ∃ s2, step sys c s1 x = .ok s2 := by
    unfold step
    simp only
    rw [if_neg]
    · exact ⟨_, rfl⟩
    · rw [hrow]
      unfold isFull
      cases hcc : c.capacity with
      | none => simp
      | some cap => have := hcap cap hcc; simp; omega
  obtain ⟨s2, h2⟩ := h2
  refine ⟨fitPhase sys c s2, ?_⟩
  unfold iter
  simp only [h1, hx, h2]

theorem iter_totalSteps {sys : Sys W X A R P T} {c : Cfg X} {s s' : St W X A R P T} (h : iter sys c s = .ok s') :
    s'.totalSteps = s.totalSteps + 1 := by
  obtain ⟨s1, x, s2, h1, hx, h2, rfl⟩ := iter_cases h
  obtain ⟨asked, act, obs, rew, abs, w, smp, -, -, -, -, -, -, -, -, -, -, t2, -⟩ := step_fields h2
  obtain ⟨-, -, -, -, f, -⟩ := fitPhase_fields sys c s2
  rw [f, t2]
  split at h1
  · obtain ⟨-, t, -⟩ := reset_fields h1; rw [t]
  · cases h1; rfl

/-- With a step budget the loop ends after exactly the remaining number of iterations. -/
theorem loop_terminates_steps {sys : Sys W X A R P T} {c : Cfg X} {n : Nat} (hb : c.budget = .steps n) :
    ∀ (fuel : Nat) (s : St W X A R P T), n ≤ s.totalSteps + fuel → ∃ r, loop sys c fuel s = some r
  | 0, s, h => by
    unfold loop
    rw [if_neg]
    · exact ⟨_, rfl⟩
    · simp only [hb, moveRequired, decide_eq_true_eq]; omega
  | fuel + 1, s, h => by
    unfold loop
    split
    · split
      · exact ⟨_, rfl⟩
      · rename_i s' hs'
        exact loop_terminates_steps hb fuel s' (by rw [iter_totalSteps hs']; omega)
    · exact ⟨_, rfl⟩

/-- Horizon bookkeeping: an unfinished episode is shorter than the horizon, and the rows of the dataset fit in the
episodes they belong to. -/
theorem horizon_reach {sys : Sys W X A R P T} {c : Cfg X} {prev s : St W X A R P T} {H : Nat}
    (hH : sys.horizon = some H) (h1H : 1 ≤ H) (h : Reach sys c prev s) :
    (s.last = false → s.episodeSteps < H) ∧
    s.rows.length ≤ H * endings s.rows + (if s.last then 0 else s.episodeSteps) := by
  induction h with
  | start => simp [start]
  | @iter s s' hr hm hi ih =>
    obtain ⟨s1, x, s2, h1, hx, h2, rfl⟩ := iter_cases hi
    obtain ⟨asked, act, obs, rew, abs, w, smp, -, -, -, -, -, -, -, el, -, r2, -, -, -, -, l2, -, es2, -, -, -, -⟩ :=
      step_fields h2
    obtain ⟨f1, -, f3, -, -, -, f4⟩ := fitPhase_fields sys c s2
    have hs1 : s1.episodeSteps < H ∧ s1.rows.length ≤ H * endings s1.rows + s1.episodeSteps := by
      split at h1
      · rename_i hl
        obtain ⟨hr, -, -, -, -, -, ep, -⟩ := reset_fields h1
        rw [hr, ep]
        simp only [hl, if_true] at ih
        exact ⟨h1H, ih.2⟩
      · rename_i hl
        cases h1
        simp only [hl] at ih
        exact ⟨ih.1 (by simp), ih.2⟩
    have hlen : s2.rows.length ≤ H * endings s2.rows + (if s2.last then 0 else s2.episodeSteps) := by
      rw [r2, endings_append, endings_single, l2, es2, Nat.mul_add]
      simp only [List.length_append, List.length_cons, List.length_nil]
      cases smp.last <;> simp <;> omega
    rw [f1, f3]
    refine ⟨?_, ?_⟩
    · intro hl
      rw [es2]
      rw [l2, el, hH] at hl
      simp [isLast] at hl
      omega
    · rcases f4 with ⟨-, -, -, hr⟩ | ⟨_, -, -, -, hr⟩
      · rw [hr]; exact hlen
      · rw [hr]; simp

/-- With an episode budget and a finite horizon the loop ends. -/
theorem loop_terminates_episodes {sys : Sys W X A R P T} {c : Cfg X} {prev : St W X A R P T} {n H : Nat}
    (hH : sys.horizon = some H) (h1H : 1 ≤ H) (hb : c.budget = .episodes n) :
    ∀ (fuel : Nat) (s : St W X A R P T), Reach sys c prev s →
      n * H ≤ s.totalEpisodes * H + (if s.last then 0 else s.episodeSteps) + fuel → ∃ r, loop sys c fuel s = some r
  | 0, s, hr, h => by
    unfold loop
    rw [if_neg]
    · exact ⟨_, rfl⟩
    · simp only [hb, moveRequired, decide_eq_true_eq]
      intro hlt
      have h1 := (horizon_reach hH h1H hr).1
      have h2 : (s.totalEpisodes + 1) * H ≤ n * H := Nat.mul_le_mul_right H hlt
      rw [Nat.add_mul] at h2
      cases hl : s.last
      · have := h1 hl; simp [hl] at h; omega
      · simp [hl] at h; omega
  | fuel + 1, s, hr, h => by
    unfold loop
    split
    · rename_i hm
      split
      · exact ⟨_, rfl⟩
      · rename_i s' hs'
        refine loop_terminates_episodes hH h1H hb fuel s' (hr.iter hm hs') ?_
        have hb1 := (horizon_reach hH h1H hr).1
        obtain ⟨s1, x, s2, h1, hx, h2, rfl⟩ := iter_cases hs'
        obtain ⟨asked, act, obs, rew, abs, w, smp, -, -, -, -, -, -, -, el, -, r2, -, -, te2, -, l2, -, es2, -, -, -, -⟩ :=
          step_fields h2
        obtain ⟨f1, -, f3, -, -, f5, -⟩ := fitPhase_fields sys c s2
        have hs1 : s1.totalEpisodes = s.totalEpisodes ∧ s1.episodeSteps = (if s.last then 0 else s.episodeSteps) := by
          split at h1
          · rename_i hl
            obtain ⟨-, -, te, -, -, -, ep, -⟩ := reset_fields h1
            simp [hl, te, ep]
          · rename_i hl
            cases h1; simp [hl]
        have hlt : (if s.last then 0 else s.episodeSteps) < H := by
          cases hl : s.last
          · simpa using hb1 hl
          · simp; omega
        rw [f1, f3, f5, te2, l2, es2, hs1.1, hs1.2, Nat.add_mul]
        cases smp.last <;> simp <;> omega
    · exact ⟨_, rfl⟩

end Verif.Core
