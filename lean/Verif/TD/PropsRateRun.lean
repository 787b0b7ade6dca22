/-
Properties C145, C159, C160 and C161, continued: whole runs of `learn` with the other tabular agents.
-/
import Verif.TD.ModelRateRun
import Verif.TD.PropsStochDoubleRun
import Verif.TD.PropsStochWeightedDemo
import Verif.TD.PropsStochRQ

namespace Verif.TD

open Filter Topology MeasureTheory ProbabilityTheory

noncomputable section

variable {S A : Type} [DecidableEq S] [DecidableEq A] [Fintype S] [Fintype A] [Nonempty A]
variable {E G X : Type}

/-- What one update draws. -/
def drewAt (asks : Trans S A → Bool) (t : ℕ → Trans S A) (x : ℕ → X) (n : ℕ) : Option X := if asks (t n) then some (x n) else none

/-- The agent after `n` updates. -/
def ratedAfter (asks : Trans S A → Bool) (f : ℝ → Option X → G → Trans S A → G) (t : ℕ → Trans S A) (α : ℕ → ℝ) (x : ℕ → X) (g0 : G) : ℕ → G
  | 0 => g0
  | n + 1 => f (α n) (drewAt asks t x n) (ratedAfter asks f t α x g0 n) (t n)

omit [Fintype S] in
/-- A run of `learn` for `n` steps makes `n` updates, with the recorded transitions, what was drawn, and the rates of the parameter. -/
theorem learn_rated (u : User E S A (Rated G X)) (key : S → A → Policy.Index) (asks : Trans S A → Bool)
    (draw : E → Rated G X → Option A → Trans S A → E × X) (after : Option A → Option X → Option A) (f : ℝ → Option X → G → Trans S A → G)
    (p0 : Policy.Param) (g0 : G) (prev : Core.St (E × Rated G X) S A ℝ Unit Unit) (s : ℕ → Core.St (E × Rated G X) S A ℝ Unit Unit)
    (hrun : ∀ n, ∃ fuel, Core.learn (tdSys u (ratedRule key asks draw after f)) fuel prev (some n) none (some 1) none = some (.ok (s n)))
    (hprev : prev.world.2 = ⟨g0, p0, []⟩) (t : ℕ → Trans S A) (hrec : ∀ n, (Core.steps (s n).trace).map toTrans = (List.range n).map t)
    (x : ℕ → X) (hlog : ∀ n, (s n).world.2.log = (List.range n).map (drewAt asks t x)) (n : ℕ) :
    (s n).world.2.agent = ratedAfter asks f t (rateAt p0 key t) x g0 n ∧ (s n).world.2.alpha = paramAfter p0 key t n := by
  induction n with
  | zero =>
    obtain ⟨fuel, hr⟩ := hrun 0
    have : s 0 = Core.start prev := by
      have e : Core.learn (tdSys u (ratedRule key asks draw after f)) fuel prev (some 0) none (some 1) none = some (.ok (Core.start prev)) := by
        cases fuel <;> rfl
      rw [e] at hr
      simpa using hr.symm
    rw [this]
    show prev.world.2.agent = _ ∧ prev.world.2.alpha = _
    rw [hprev]
    exact ⟨rfl, rfl⟩
  | succ n ih =>
    obtain ⟨fuel, hr⟩ := hrun n
    obtain ⟨fuel', hr'⟩ := hrun (n + 1)
    obtain ⟨hreach, hi⟩ := learn_continues hr hr'
    obtain ⟨smp, e, g1, g2⟩ := iter_update rfl hreach hi (fun _ => rfl)
    have hsmp : toTrans smp = t n := by
      have := hrec (n + 1)
      rw [g1, List.map_append, hrec n, List.range_succ, List.map_append] at this
      simpa using this
    rw [hsmp] at g2
    have hl := hlog (n + 1)
    rw [g2] at hl
    simp only [ratedRule] at hl
    rw [hlog n, List.range_succ, List.map_append, List.append_cancel_left_eq] at hl
    simp only [List.map_cons, List.map_nil, List.cons.injEq, and_true] at hl
    rw [g2]
    simp only [ratedRule]
    rw [hl, ih.1, ih.2]
    refine ⟨rfl, ?_⟩
    unfold paramAfter
    rw [List.range_succ, List.map_append, Policy.Param.run, Policy.Param.run, List.foldl_append]
    rfl

variable {Ω : Type} [mΩ : MeasurableSpace Ω] {μ : Measure Ω} [IsProbabilityMeasure μ] {ℱ : Filtration ℕ mΩ}

/-- A run of `learn` for each number of steps: an agent with the library's `DecayParameter(value, exp, size=mdp.info.size)`, value in (0, 1] and
exponent in (1/2, 1], starts with `g0` and is fitted after each step. `s n ω` is the state of the program after `n` steps and `t` are the
transitions it recorded; they are made in the problem `m`, and every action is taken again and again in every live state. -/
structure LearnRun (μ : Measure Ω) (ℱ : Filtration ℕ mΩ) (u : User E S A (Rated G X)) (rule : Rule E S A (Rated G X)) (key : S → A → Policy.Index)
    (v p : ℝ) (m : RandomMDP S A) (L : S → Prop) (g0 : G) (s : ℕ → Ω → Core.St (E × Rated G X) S A ℝ Unit Unit) (t : ℕ → Ω → Trans S A) : Prop where
  key : ∀ s a s' a', key s a = key s' a' → s = s' ∧ a = a'
  value : 0 < v ∧ v ≤ 1
  exponent : 1 / 2 < p ∧ p ≤ 1
  proper : m.Proper
  closed : m.Closed L
  run : ∀ ω, ∃ prev : Core.St (E × Rated G X) S A ℝ Unit Unit, prev.world.2 = ⟨g0, Policy.decayParam v p none none false, []⟩ ∧
    ∀ n, ∃ fuel, Core.learn (tdSys u rule) fuel prev (some n) none (some 1) none = some (.ok (s n ω))
  recorded : ∀ n ω, (Core.steps (s n ω).trace).map toTrans = (List.range n).map (t · ω)
  experience : Experience μ ℱ m L t
  explores : ∀ᵐ ω ∂μ, ExploresForever L (t · ω)

theorem LearnRun.rates {u : User E S A (Rated G X)} {rule : Rule E S A (Rated G X)} {key : S → A → Policy.Index} {v p : ℝ} {m : RandomMDP S A}
    {L : S → Prop} {g0 : G} {s : ℕ → Ω → Core.St (E × Rated G X) S A ℝ Unit Unit} {t : ℕ → Ω → Trans S A}
    (h : LearnRun μ ℱ u rule key v p m L g0 s t) :
    RobbinsMonro μ ℱ L t (fun n ω => rateAt (Policy.decayParam v p none none false) key (t · ω) n) :=
  C145_decay_rates L t h.experience.past key h.key v p h.value.1 h.value.2 h.exponent.1 h.exponent.2 h.explores

omit [IsProbabilityMeasure μ] in
theorem LearnRun.agent {u : User E S A (Rated G X)} {key : S → A → Policy.Index} {v p : ℝ} {m : RandomMDP S A}
    {L : S → Prop} {g0 : G} {s : ℕ → Ω → Core.St (E × Rated G X) S A ℝ Unit Unit} {t : ℕ → Ω → Trans S A} {asks : Trans S A → Bool}
    {draw : E → Rated G X → Option A → Trans S A → E × X} {after : Option A → Option X → Option A} {f : ℝ → Option X → G → Trans S A → G}
    (h : LearnRun μ ℱ u (ratedRule key asks draw after f) key v p m L g0 s t) (x : ℕ → Ω → X)
    (hlog : ∀ n ω, (s n ω).world.2.log = (List.range n).map (drewAt asks (t · ω) (x · ω))) (n : ℕ) (ω : Ω) :
    (s n ω).world.2.agent = ratedAfter asks f (t · ω) (rateAt (Policy.decayParam v p none none false) key (t · ω)) (x · ω) g0 n := by
  obtain ⟨prev, h1, h2⟩ := h.run ω
  exact (learn_rated u key asks draw after f _ g0 prev (s · ω) h2 h1 (t · ω) (fun n => h.recorded n ω) (x · ω) (fun n => hlog n ω) n).1

omit [IsProbabilityMeasure μ] in
/-- What an update draws is drawn in this update, with no action pending. -/
theorem LearnRun.asked {u : User E S A (Rated G X)} {key : S → A → Policy.Index} {v p : ℝ} {m : RandomMDP S A}
    {L : S → Prop} {g0 : G} {s : ℕ → Ω → Core.St (E × Rated G X) S A ℝ Unit Unit} {t : ℕ → Ω → Trans S A} {asks : Trans S A → Bool}
    {draw : E → Rated G X → Option A → Trans S A → E × X} {after : Option A → Option X → Option A} {f : ℝ → Option X → G → Trans S A → G}
    (h : LearnRun μ ℱ u (ratedRule key asks draw after f) key v p m L g0 s t) (x : ℕ → Ω → X)
    (hlog : ∀ n ω, (s n ω).world.2.log = (List.range n).map (drewAt asks (t · ω) (x · ω))) (n : ℕ) (ω : Ω) (ha : asks (t n ω) = true) :
    ∃ e, x n ω = (draw e (s n ω).world.2 none (t n ω)).2 := by
  obtain ⟨prev, h1, h2⟩ := h.run ω
  obtain ⟨fuel, hr⟩ := h2 n
  obtain ⟨fuel', hr'⟩ := h2 (n + 1)
  obtain ⟨hreach, hi⟩ := learn_continues hr hr'
  obtain ⟨smp, e, g1, g2⟩ := iter_update rfl hreach hi (fun _ => rfl)
  have hsmp : toTrans smp = t n ω := by
    have := h.recorded (n + 1) ω
    rw [g1, List.map_append, h.recorded n ω, List.range_succ, List.map_append] at this
    simpa using this
  rw [hsmp] at g2
  have hl := hlog (n + 1) ω
  rw [g2] at hl
  simp only [ratedRule] at hl
  rw [hlog n ω, List.range_succ, List.map_append, List.append_cancel_left_eq] at hl
  simp only [List.map_cons, List.map_nil, List.cons.injEq, and_true, drewAt, ha, if_true, Option.some.injEq] at hl
  exact ⟨e, hl.symm⟩

omit [IsProbabilityMeasure μ] in
/-- Agents that draw nothing have nothing to log. -/
theorem LearnRun.silent {u : User E S A (Rated G Unit)} {key : S → A → Policy.Index} {v p : ℝ} {m : RandomMDP S A}
    {L : S → Prop} {g0 : G} {s : ℕ → Ω → Core.St (E × Rated G Unit) S A ℝ Unit Unit} {t : ℕ → Ω → Trans S A}
    {draw : E → Rated G Unit → Option A → Trans S A → E × Unit} {after : Option A → Option Unit → Option A} {f : ℝ → Option Unit → G → Trans S A → G}
    (h : LearnRun μ ℱ u (ratedRule key (fun _ => false) draw after f) key v p m L g0 s t) (n : ℕ) (ω : Ω) :
    (s n ω).world.2.log = (List.range n).map (drewAt (fun _ => false) (t · ω) (fun _ => ())) := by
  obtain ⟨prev, h1, h2⟩ := h.run ω
  induction n with
  | zero =>
    obtain ⟨fuel, hr⟩ := h2 0
    have : s 0 ω = Core.start prev := by
      have e : Core.learn (tdSys u (ratedRule key (fun _ => false) draw after f)) fuel prev (some 0) none (some 1) none =
          some (.ok (Core.start prev)) := by
        cases fuel <;> rfl
      rw [e] at hr
      simpa using hr.symm
    rw [this]
    show prev.world.2.log = _
    rw [h1]
    rfl
  | succ n ih =>
    obtain ⟨fuel, hr⟩ := h2 n
    obtain ⟨fuel', hr'⟩ := h2 (n + 1)
    obtain ⟨hreach, hi⟩ := learn_continues hr hr'
    obtain ⟨smp, e, g1, g2⟩ := iter_update rfl hreach hi (fun _ => rfl)
    rw [g2]
    simp only [ratedRule]
    rw [ih, List.range_succ, List.map_append]
    simp [drewAt]

/-! ### Runs that meet the hypotheses -/

/-- A world that plays a script: the transitions, what the updates will draw, and how many steps have been made. -/
structure Script (S A X : Type) where
  steps : ℕ → Trans S A
  noise : ℕ → X
  used : ℕ

def scriptUser : User (Script S A X) S A (Rated G X) :=
  { horizon := none
    envReset := fun e _ => (e, (e.steps e.used).state)
    envStep := fun e _ => ({ e with used := e.used + 1 }, ((e.steps e.used).next, (e.steps e.used).reward, false))
    draw := fun e _ _ => (e, (e.steps e.used).action)
    corePre := [], agentPre := [], callbackStep := fun e _ _ => e, callbacksFit := [] }

def scriptPrev (t : ℕ → Trans S A) (x : ℕ → X) (r : Rated G X) : Core.St (Script S A X × Rated G X) S A ℝ Unit Unit :=
  { world := (⟨t, x, 0⟩, r), state := none, policyState := none, theta := none,
    episodeSteps := 0, nextAction := none, totalEpisodes := 0, totalSteps := 0, currentEpisodes := 0, currentSteps := 0, last := true,
    rows := [], thetas := [], trace := [] }

/-- What holds between the steps. -/
def onScript (asks : Trans S A → Bool) (t : ℕ → Trans S A) (x : ℕ → X) (s : Core.St (Script S A X × Rated G X) S A ℝ Unit Unit) (n : ℕ) : Prop :=
  s.world.1 = ⟨t, x, n⟩ ∧ (s.last = false → s.state = some (t n).state) ∧ (s.nextAction = none ∨ s.nextAction = some (t n).action) ∧
    (Core.steps s.trace).map toTrans = (List.range n).map t ∧ s.world.2.log = (List.range n).map (drewAt asks t x)

omit [DecidableEq S] [DecidableEq A] [Fintype S] [Fintype A] [Nonempty A] in
theorem script_iter (key : S → A → Policy.Index) (asks : Trans S A → Bool) (draw : Script S A X → Rated G X → Option A → Trans S A → Script S A X × X)
    (after : Option A → Option X → Option A) (f : ℝ → Option X → G → Trans S A → G) (t : ℕ → Trans S A) (x : ℕ → X)
    (hchain : ∀ n, (t n).next = (t (n + 1)).state) (habs : ∀ n, (t n).absorbing = false)
    (hdraw : ∀ n r, asks (t n) = true → draw ⟨t, x, n + 1⟩ r none (t n) = (⟨t, x, n + 1⟩, x n))
    (hafter : ∀ n, after none (drewAt asks t x n) = none ∨ after none (drewAt asks t x n) = some (t (n + 1)).action)
    {c : Core.Cfg S} (hf : c.fitMode = .steps 1) (hc : c.capacity = some 1) (hini : c.initialStates = none)
    {s s' : Core.St (Script S A X × Rated G X) S A ℝ Unit Unit} {n : ℕ} (hrows : s.rows = []) (hs : onScript asks t x s n)
    (h : Core.iter (tdSys scriptUser (ratedRule key asks draw after f)) c s = .ok s') : onScript asks t x s' (n + 1) := by
  obtain ⟨h1, h2, h3, h4, h5⟩ := hs
  have ht : t n = ⟨(t n).state, (t n).action, (t n).reward, (t n).next, false⟩ := by
    rw [← habs n]
  have hback : ∀ k, (⟨(t k).state, (t k).action, (t k).reward, (t (k + 1)).state, false⟩ : Trans S A) = t k := fun k => by
    rw [← hchain k, ← habs k]
  have key1 : ∀ r : Rated G X, r.log = (List.range n).map (drewAt asks t x) →
      ((ratedRule key asks draw after f).update ⟨t, x, n + 1⟩ r none (t n)).1 = ⟨t, x, n + 1⟩ ∧
      ((ratedRule key asks draw after f).update ⟨t, x, n + 1⟩ r none (t n)).2.1.log = (List.range (n + 1)).map (drewAt asks t x) ∧
      (((ratedRule key asks draw after f).update ⟨t, x, n + 1⟩ r none (t n)).2.2 = none ∨
        ((ratedRule key asks draw after f).update ⟨t, x, n + 1⟩ r none (t n)).2.2 = some (t (n + 1)).action) := by
    intro r hr
    have g := hafter n
    cases ha : asks (t n)
    · simp [ratedRule, ha, hr, List.range_succ, drewAt] at g ⊢
      exact g
    · simp [ratedRule, ha, hr, List.range_succ, drewAt, hdraw n r ha] at g ⊢
      exact g
  rw [ht] at key1; clear ht
  unfold Core.iter at h
  rcases Bool.eq_false_or_eq_true s.last with hl | hl
  · simp [hl, Core.reset, Core.getInitialState, hini, tdSys, scriptUser, Core.preprocess, Core.step, Core.drawAction, hrows,
      Core.isFull, hc, Core.agentPreprocess, Core.isLast, h1] at h
    subst h
    obtain ⟨k1, k2, k3⟩ := key1 s.world.2 h5
    simp [onScript, Core.fitPhase, Core.fitRequired, hf, Core.steps_append, Core.steps, toTrans, List.range_succ, ratedRule, hchain] at k1 k2 k3 ⊢
    clear hdraw hafter habs hchain key1; simp_all
  · rcases h3 with h3 | h3 <;>
    · simp [hl, h2 hl, tdSys, scriptUser, Core.preprocess, Core.step, Core.drawAction, hrows, h3,
        Core.isFull, hc, Core.agentPreprocess, Core.isLast, h1] at h
      subst h
      obtain ⟨k1, k2, k3⟩ := key1 s.world.2 h5
      simp [onScript, Core.fitPhase, Core.fitRequired, hf, Core.steps_append, Core.steps, toTrans, List.range_succ, ratedRule, hchain] at k1 k2 k3 ⊢
      clear hdraw hafter habs hchain key1; simp_all

omit [Fintype S] in
/-- `learn` follows the script. -/
theorem script_learn (key : S → A → Policy.Index) (asks : Trans S A → Bool) (draw : Script S A X → Rated G X → Option A → Trans S A → Script S A X × X)
    (after : Option A → Option X → Option A) (f : ℝ → Option X → G → Trans S A → G) (t : ℕ → Trans S A) (x : ℕ → X)
    (hchain : ∀ n, (t n).next = (t (n + 1)).state) (habs : ∀ n, (t n).absorbing = false)
    (hdraw : ∀ n r, asks (t n) = true → draw ⟨t, x, n + 1⟩ r none (t n) = (⟨t, x, n + 1⟩, x n))
    (hafter : ∀ n, after none (drewAt asks t x n) = none ∨ after none (drewAt asks t x n) = some (t (n + 1)).action)
    (g0 : G) (p0 : Policy.Param) (n : ℕ) :
    ∃ s, Core.learn (tdSys scriptUser (ratedRule key asks draw after f)) n (scriptPrev t x ⟨g0, p0, []⟩) (some n) none (some 1) none = some (.ok s) ∧
      (Core.steps s.trace).map toTrans = (List.range n).map t ∧ s.world.2.log = (List.range n).map (drewAt asks t x) := by
  obtain ⟨s, hs⟩ := Core.C01_learn_by_steps (tdSys scriptUser (ratedRule key asks draw after f)) (scriptPrev t x ⟨g0, p0, []⟩) n 1 le_rfl
  obtain ⟨r, hn⟩ := learn_steps_reach (hs.1 n le_rfl)
  have hle := (reach_mono (Nat.le_refl n) r).2
  have hon : onScript asks t x s s.totalSteps := by
    clear hs hn hle
    induction r with
    | start => exact ⟨rfl, by simp [Core.start, scriptPrev], Or.inl rfl, by simp [Core.start, Core.steps], by simp [Core.start, scriptPrev]⟩
    | @iter s s' hr hm hi ih =>
      rw [iter_totalSteps hi]
      exact script_iter key asks draw after f t x hchain habs hdraw hafter rfl rfl rfl (rows_empty rfl hr) ih hi
  rw [Nat.le_antisymm hle hn] at hon
  exact ⟨s, hs.1 n le_rfl, hon.2.2.2.1, hon.2.2.2.2⟩

theorem ring_chain (ω : ℕ → Bool) (n : ℕ) : (ringTrans n ω).next = (ringTrans (n + 1) ω).state := by
  apply Fin.ext
  simp [ringTrans, Fin.val_add]

theorem ring_explores (ω : ℕ → Bool) : ExploresForever (fun _ => True) (ringTrans · ω) := by
  intro s _ a n
  refine ⟨3 * n + s.val, by omega, ?_, rfl⟩
  apply Fin.ext
  simp [ringTrans, Nat.add_mod, Nat.mod_eq_of_lt s.isLt]

/-- In the ring, agents of every kind have such runs. -/
theorem ring_learn {G : Type} (asks : Trans (Fin 3) Unit → Bool) (draw : Script (Fin 3) Unit Unit → Rated G Unit → Option Unit → Trans (Fin 3) Unit →
      Script (Fin 3) Unit Unit × Unit) (hdraw : ∀ e r t, (draw e r none t).1 = e)
    (after : Option Unit → Option Unit → Option Unit) (f : ℝ → Option Unit → G → Trans (Fin 3) Unit → G) (g0 : G) :
    ∃ s : ℕ → (ℕ → Bool) → Core.St (Script (Fin 3) Unit Unit × Rated G Unit) (Fin 3) Unit ℝ Unit Unit,
      (∀ n ω, (s n ω).world.2.log = (List.range n).map (drewAt asks (ringTrans · ω) (fun _ => ()))) ∧
      LearnRun coins tossed scriptUser (ratedRule (fun s _ => [s.val]) asks draw after f) (fun s _ => [s.val]) 1 1 ringMDP (fun _ => True) g0 s
        ringTrans := by
  have hex := fun n ω => script_learn (fun (s : Fin 3) _ => [s.val]) asks draw after f (ringTrans · ω) (fun _ => ()) (ring_chain ω) (fun _ => rfl)
    (fun n r _ => Prod.ext (hdraw _ _ _) rfl) (fun n => by rcases after none _ with _ | ⟨⟩ <;> simp) g0 (Policy.decayParam 1 1 none none false) n
  choose s h1 h2 h3 using hex
  exact ⟨s, h3, fun s a s' a' h => ⟨Fin.ext (by simpa using h), rfl⟩, by norm_num, by norm_num, ring_proper, fun _ _ _ _ _ _ => trivial,
    fun ω => ⟨_, rfl, fun n => ⟨n, h1 n ω⟩⟩, h2, ring_experience, Eventually.of_forall ring_explores⟩

theorem ring_policy (_ : Fin 3) : Prob (fun _ : Unit => (1 : ℝ)) := ⟨fun _ => by norm_num, by simp⟩

theorem ring_onPolicy : OnPolicy coins tossed ringMDP (fun _ _ => 1) ringTrans (fun _ _ => ()) := by
  refine ⟨fun n s' a' => ?_, fun n s' a' => ?_⟩
  · simpa using ring_experience.known n s'
  · simpa using ring_experience.law n s'

/-! ### The theorems -/

/-- C145. Whole runs of ExpectedSARSA with a fixed policy: with probability one its table converges to the values of the policy. -/
theorem C145_learn_expected (u : User E S A (Rated (Table S A) Unit)) (key : S → A → Policy.Index) (v p : ℝ) (m : RandomMDP S A) (L : S → Prop)
    (γ : ℝ) (hγ0 : 0 ≤ γ) (hγ1 : γ < 1) (policy : S → A → ℝ) (hπ : ∀ s, Prob (policy s)) (Q0 Qs : Table S A) (hQs : m.ValuesOn L γ policy Qs)
    (s : ℕ → Ω → Core.St (E × Rated (Table S A) Unit) S A ℝ Unit Unit) (t : ℕ → Ω → Trans S A)
    (h : LearnRun μ ℱ u (expectedAgent γ key policy) key v p m L Q0 s t) :
    ∀ᵐ ω ∂μ, ∀ x, L x → ∀ a, Tendsto (fun n => (s n ω).world.2.agent x a) atTop (𝓝 (Qs x a)) := by
  filter_upwards [C145_expected_sarsa m h.proper L h.closed γ hγ0 hγ1 policy hπ Qs hQs t h.experience _ h.rates Q0] with ω hω x hx a
  refine (hω x hx a).congr (fun n => ?_)
  rw [LearnRun.agent h (fun _ _ => ()) (fun n ω => LearnRun.silent h n ω)]
  refine congrFun (congrFun ?_ x) a
  induction n with
  | zero => rfl
  | succ n ih => simp only [tables, ratedAfter]; rw [ih]

example : ∃ Qs, ringMDP.ValuesOn (fun _ => True) (1 / 2) (fun _ _ => 1) Qs ∧
    ∃ s, LearnRun coins tossed scriptUser (expectedAgent (1 / 2) (fun s _ => [s.val]) (fun _ _ => 1)) (fun s _ => [s.val]) 1 1 ringMDP (fun _ => True)
        (fun _ _ => 0) s ringTrans ∧
      ∀ᵐ ω ∂coins, ∀ x, True → ∀ a, Tendsto (fun n => (s n ω).world.2.agent x a) atTop (𝓝 (Qs x a)) := by
  obtain ⟨Qs, hQs⟩ := C145_values_exist ringMDP ring_proper (fun _ => True) (1 / 2) (by norm_num) (by norm_num) _ ring_policy
  obtain ⟨s, -, hs⟩ := ring_learn (fun _ => false) (fun e _ _ _ => (e, ())) (fun _ _ _ => rfl) (fun next _ => next)
    (fun α _ Q t => expectedSarsa (1 / 2) α Q t (fun _ => 1)) (fun _ _ => 0)
  exact ⟨Qs, hQs, s, hs, C145_learn_expected _ _ 1 1 ringMDP _ (1 / 2) (by norm_num) (by norm_num) _ ring_policy _ Qs hQs s _ hs⟩

/-- C145. Whole runs of SARSA with a fixed policy: `b` are the actions that the updates drew. -/
theorem C145_learn_sarsa (u : User E S A (Rated (Table S A) A)) (key : S → A → Policy.Index) (v p : ℝ) (m : RandomMDP S A) (L : S → Prop)
    (γ : ℝ) (hγ0 : 0 ≤ γ) (hγ1 : γ < 1) (policy : S → A → ℝ) (hπ : ∀ s, Prob (policy s)) (Q0 Qs : Table S A) (hQs : m.ValuesOn L γ policy Qs)
    (s : ℕ → Ω → Core.St (E × Rated (Table S A) A) S A ℝ Unit Unit) (t : ℕ → Ω → Trans S A)
    (h : LearnRun μ ℱ u (sarsaAgent u γ key) key v p m L Q0 s t) (b : ℕ → Ω → A)
    (hlog : ∀ n ω, (s n ω).world.2.log = (List.range n).map (fun k => some (b k ω))) (hb : OnPolicy μ ℱ m policy t b) :
    ∀ᵐ ω ∂μ, ∀ x, L x → ∀ a, Tendsto (fun n => (s n ω).world.2.agent x a) atTop (𝓝 (Qs x a)) := by
  filter_upwards [C145_sarsa m h.proper L h.closed γ hγ0 hγ1 policy hπ Qs hQs t h.experience b hb _ h.rates Q0] with ω hω x hx a
  refine (hω x hx a).congr (fun n => ?_)
  rw [LearnRun.agent h b (fun n ω => hlog n ω)]
  refine congrFun (congrFun ?_ x) a
  induction n with
  | zero => rfl
  | succ n ih => simp only [tables, ratedAfter]; rw [ih]; rfl

example : ∃ Qs, ringMDP.ValuesOn (fun _ => True) (1 / 2) (fun _ _ => 1) Qs ∧
    ∃ s, LearnRun coins tossed scriptUser (sarsaAgent scriptUser (1 / 2) (fun s _ => [s.val])) (fun s _ => [s.val]) 1 1 ringMDP (fun _ => True)
        (fun _ _ => 0) s ringTrans ∧
      ∀ᵐ ω ∂coins, ∀ x, True → ∀ a, Tendsto (fun n => (s n ω).world.2.agent x a) atTop (𝓝 (Qs x a)) := by
  obtain ⟨Qs, hQs⟩ := C145_values_exist ringMDP ring_proper (fun _ => True) (1 / 2) (by norm_num) (by norm_num) _ ring_policy
  obtain ⟨s, hl, hs⟩ := ring_learn (fun _ => true) (fun e r next t => agentDraw scriptUser e r next t.next) (fun _ _ _ => rfl) (fun _ x => x)
    (fun α x Q t => sarsa (1 / 2) α Q t (x.getD (Classical.arbitrary Unit))) (fun _ _ => 0)
  exact ⟨Qs, hQs, s, hs, C145_learn_sarsa _ _ 1 1 ringMDP _ (1 / 2) (by norm_num) (by norm_num) _ ring_policy _ Qs hQs s _ hs _ hl ring_onPolicy⟩

omit [IsProbabilityMeasure μ] in
/-- C145. The action that an update of SARSA draws is what the policy gives for the next state, with the table of that moment. -/
theorem C145_sarsa_asks (u : User E S A (Rated (Table S A) A)) (key : S → A → Policy.Index) (v p : ℝ) (m : RandomMDP S A) (L : S → Prop)
    (γ : ℝ) (Q0 : Table S A) (s : ℕ → Ω → Core.St (E × Rated (Table S A) A) S A ℝ Unit Unit) (t : ℕ → Ω → Trans S A)
    (h : LearnRun μ ℱ u (sarsaAgent u γ key) key v p m L Q0 s t) (b : ℕ → Ω → A)
    (hlog : ∀ n ω, (s n ω).world.2.log = (List.range n).map (fun k => some (b k ω))) (hpre : u.agentPre = []) (n : ℕ) (ω : Ω) :
    ∃ e, b n ω = (u.draw e (s n ω).world.2 (t n ω).next).2 := by
  obtain ⟨e, he⟩ := LearnRun.asked h b hlog n ω rfl
  refine ⟨e, ?_⟩
  rw [he]
  simp [agentDraw, hpre]

example : ∃ s, LearnRun coins tossed scriptUser (sarsaAgent scriptUser (1 / 2) (fun s _ => [s.val])) (fun s _ => [s.val]) 1 1 ringMDP (fun _ => True)
        (fun _ _ => 0) s ringTrans ∧ (∀ n ω, ∃ e, () = (scriptUser.draw e (s n ω).world.2 (ringTrans n ω).next).2) := by
  obtain ⟨s, hl, hs⟩ := ring_learn (fun _ => true) (fun e r next t => agentDraw scriptUser e r next t.next) (fun _ _ _ => rfl) (fun _ x => x)
    (fun α x Q t => sarsa (1 / 2) α Q t (x.getD (Classical.arbitrary Unit))) (fun _ _ => 0)
  exact ⟨s, hs, C145_sarsa_asks _ _ 1 1 ringMDP _ (1 / 2) _ s _ hs (fun _ _ => ()) hl rfl⟩

/-- C160. Whole runs of SpeedyQLearning, if no update bootstraps from the state of the update before it: with probability one the table converges to
the optimal values. -/
theorem C160_learn_partial (u : User E S A (Rated (Speedy S A) Unit)) (key : S → A → Policy.Index) (v p : ℝ) (m : RandomMDP S A) (L : S → Prop)
    (γ : ℝ) (hγ0 : 0 ≤ γ) (hγ1 : γ < 1) (Q0 Qs : Table S A) (hQs : m.OptimalOn L γ Qs)
    (s : ℕ → Ω → Core.St (E × Rated (Speedy S A) Unit) S A ℝ Unit Unit) (t : ℕ → Ω → Trans S A)
    (h : LearnRun μ ℱ u (speedyAgent γ key) key v p m L ⟨Q0, Q0⟩ s t) (hno : ∀ᵐ ω ∂μ, NoReturn (t · ω)) :
    ∀ᵐ ω ∂μ, ∀ x, L x → ∀ a, Tendsto (fun n => (s n ω).world.2.agent.Q x a) atTop (𝓝 (Qs x a)) := by
  filter_upwards [C160_converges_partial m h.proper L h.closed γ hγ0 hγ1 Qs hQs t h.experience _ h.rates Q0 hno] with ω hω x hx a
  refine (hω x hx a).congr (fun n => ?_)
  rw [LearnRun.agent h (fun _ _ => ()) (fun n ω => LearnRun.silent h n ω)]
  congr 2
  induction n with
  | zero => rfl
  | succ n ih => simp only [speedyAfter, ratedAfter]; rw [ih]

example : ∃ Qs, ringMDP.OptimalOn (fun _ => True) (1 / 2) Qs ∧
    ∃ s, LearnRun coins tossed scriptUser (speedyAgent (1 / 2) (fun s _ => [s.val])) (fun s _ => [s.val]) 1 1 ringMDP (fun _ => True)
        ⟨fun _ _ => 0, fun _ _ => 0⟩ s ringTrans ∧
      ∀ᵐ ω ∂coins, ∀ x, True → ∀ a, Tendsto (fun n => (s n ω).world.2.agent.Q x a) atTop (𝓝 (Qs x a)) := by
  obtain ⟨Qs, hQs⟩ := C145_optimal_exists ringMDP ring_proper (fun _ => True) (1 / 2) (by norm_num) (by norm_num)
  obtain ⟨s, -, hs⟩ := ring_learn (fun _ => false) (fun e _ _ _ => (e, ())) (fun _ _ _ => rfl) (fun next _ => next)
    (fun α _ g t => speedyQ (1 / 2) α g t) ⟨fun _ _ => 0, fun _ _ => 0⟩
  exact ⟨Qs, hQs, s, hs, C160_learn_partial _ _ 1 1 ringMDP _ (1 / 2) (by norm_num) (by norm_num) _ Qs hQs s _ hs (Eventually.of_forall ring_noReturn)⟩

omit [Fintype S] [Fintype A] [Nonempty A] [IsProbabilityMeasure μ] in
/-- A constant fraction of the rates. -/
theorem rates_scaled {L : S → Prop} {t : ℕ → Ω → Trans S A} {α : ℕ → Ω → ℝ} (h : RobbinsMonro μ ℱ L t α) {c : ℝ} (hc : 0 < c) (hc1 : c ≤ 1) :
    RobbinsMonro μ ℱ L t (fun n ω => α n ω * c) := by
  have e : ∀ s a ω k, ratesOf s a (t · ω) (fun n => α n ω * c) k = ratesOf s a (t · ω) (α · ω) k * c := fun s a ω k => by
    unfold ratesOf; split <;> simp
  refine ⟨fun n => (h.known n).mul measurable_const, fun n ω => ⟨mul_nonneg (h.range n ω).1 hc.le, ?_⟩, ?_, ?_⟩
  · nlinarith [(h.range n ω).1, (h.range n ω).2]
  · obtain ⟨C, hC⟩ := h.squares
    refine ⟨C, fun s a ω N => le_trans (Finset.sum_le_sum fun k _ => ?_) (hC s a ω N)⟩
    rw [e, mul_pow]
    have : c ^ 2 ≤ 1 := by nlinarith
    nlinarith [sq_nonneg (ratesOf s a (t · ω) (α · ω) k)]
  · filter_upwards [h.diverge] with ω hω s hs a
    simp only [e, ← Finset.sum_mul]
    exact (hω s hs a).atTop_mul_const hc

/-- C161. Whole runs of RQLearning with a constant `delta` in (0, 1] and with `off_policy`, if no pair ends the episode by chance: with probability one
the table converges to the optimal values. -/
theorem C161_learn_partial (u : User E S A (Rated (RQ S A) Unit)) (key : S → A → Policy.Index) (v p : ℝ) (m : RandomMDP S A) (hend : m.EndsSurely)
    (L : S → Prop) (γ delta : ℝ) (hγ0 : 0 ≤ γ) (hγ1 : γ < 1) (hd0 : 0 < delta) (hd1 : delta ≤ 1) (Qs : Table S A) (hQs : m.OptimalOn L γ Qs)
    (s : ℕ → Ω → Core.St (E × Rated (RQ S A) Unit) S A ℝ Unit Unit) (t : ℕ → Ω → Trans S A)
    (h : LearnRun μ ℱ u (rqOffAgent γ delta key) key v p m L ⟨fun _ _ => 0, fun _ _ => 0, fun _ _ => 0⟩ s t) :
    ∀ᵐ ω ∂μ, ∀ x, L x → ∀ a, Tendsto (fun n => (s n ω).world.2.agent.Q x a) atTop (𝓝 (Qs x a)) := by
  filter_upwards [C161_converges_partial m h.proper L h.closed hend γ hγ0 hγ1 Qs hQs t h.experience _ _ h.rates (rates_scaled h.rates hd0 hd1)
    (fun _ _ => Classical.arbitrary A)] with ω hω x hx a
  refine (hω x hx a).congr (fun n => ?_)
  rw [LearnRun.agent h (fun _ _ => ()) (fun n ω => LearnRun.silent h n ω)]
  congr 2
  induction n with
  | zero => rfl
  | succ n ih => simp only [rqAfter, ratedAfter]; rw [ih]

example : ∃ Qs, ringMDP.OptimalOn (fun _ => True) (1 / 2) Qs ∧
    ∃ s, LearnRun coins tossed scriptUser (rqOffAgent (1 / 2) (1 / 3) (fun s _ => [s.val])) (fun s _ => [s.val]) 1 1 ringMDP (fun _ => True)
        ⟨fun _ _ => 0, fun _ _ => 0, fun _ _ => 0⟩ s ringTrans ∧
      ∀ᵐ ω ∂coins, ∀ x, True → ∀ a, Tendsto (fun n => (s n ω).world.2.agent.Q x a) atTop (𝓝 (Qs x a)) := by
  obtain ⟨Qs, hQs⟩ := C145_optimal_exists ringMDP ring_proper (fun _ => True) (1 / 2) (by norm_num) (by norm_num)
  obtain ⟨s, -, hs⟩ := ring_learn (fun _ => false) (fun e _ _ _ => (e, ())) (fun _ _ _ => rfl) (fun next _ => next)
    (fun α _ g t => rqLearning (1 / 2) α (α * (1 / 3)) true g t (Classical.arbitrary Unit)) ⟨fun _ _ => 0, fun _ _ => 0, fun _ _ => 0⟩
  exact ⟨Qs, hQs, s, hs, C161_learn_partial _ _ 1 1 ringMDP ring_ends _ (1 / 2) (1 / 3) (by norm_num) (by norm_num) (by norm_num) (by norm_num) Qs hQs s _ hs⟩

omit [Fintype S] in
theorem rq_absorbing {γ α β : ℝ} {off : Bool} {g : RQ S A} {t : Trans S A} (h : t.absorbing = true) (a b : A) :
    rqLearning γ α β off g t a = rqLearning γ α β off g t b := by
  simp [rqLearning, h]

/-- C161. The same without `off_policy` and with a fixed policy: the table converges to the values of the policy. `b` are the actions that the updates
drew; nothing is drawn when the episode ends. -/
theorem C161_learn_policy_partial (u : User E S A (Rated (RQ S A) A)) (key : S → A → Policy.Index) (v p : ℝ) (m : RandomMDP S A) (hend : m.EndsSurely)
    (L : S → Prop) (γ delta : ℝ) (hγ0 : 0 ≤ γ) (hγ1 : γ < 1) (hd0 : 0 < delta) (hd1 : delta ≤ 1) (policy : S → A → ℝ) (hπ : ∀ s, Prob (policy s))
    (Qs : Table S A) (hQs : m.ValuesOn L γ policy Qs)
    (s : ℕ → Ω → Core.St (E × Rated (RQ S A) A) S A ℝ Unit Unit) (t : ℕ → Ω → Trans S A)
    (h : LearnRun μ ℱ u (rqOnAgent u γ delta key) key v p m L ⟨fun _ _ => 0, fun _ _ => 0, fun _ _ => 0⟩ s t) (b : ℕ → Ω → A)
    (hlog : ∀ n ω, (s n ω).world.2.log = (List.range n).map (fun k => if (t k ω).absorbing then none else some (b k ω)))
    (hb : OnPolicy μ ℱ m policy t b) :
    ∀ᵐ ω ∂μ, ∀ x, L x → ∀ a, Tendsto (fun n => (s n ω).world.2.agent.Q x a) atTop (𝓝 (Qs x a)) := by
  filter_upwards [C161_policy_partial m h.proper L h.closed hend γ hγ0 hγ1 policy hπ Qs hQs t h.experience b hb _ _ h.rates
    (rates_scaled h.rates hd0 hd1)] with ω hω x hx a
  refine (hω x hx a).congr (fun n => ?_)
  rw [LearnRun.agent h b (fun n ω => by
    rw [hlog]; refine List.map_congr_left fun k _ => ?_; cases h : (t k ω).absorbing <;> simp [drewAt, h])]
  congr 2
  induction n with
  | zero => rfl
  | succ n ih =>
    simp only [rqAfter, ratedAfter]
    rw [ih]
    cases hab : (t n ω).absorbing
    · simp [drewAt, hab]
    · exact rq_absorbing hab _ _

example : ∃ Qs, ringMDP.ValuesOn (fun _ => True) (1 / 2) (fun _ _ => 1) Qs ∧
    ∃ s, LearnRun coins tossed scriptUser (rqOnAgent scriptUser (1 / 2) (1 / 3) (fun s _ => [s.val])) (fun s _ => [s.val]) 1 1 ringMDP (fun _ => True)
        ⟨fun _ _ => 0, fun _ _ => 0, fun _ _ => 0⟩ s ringTrans ∧
      ∀ᵐ ω ∂coins, ∀ x, True → ∀ a, Tendsto (fun n => (s n ω).world.2.agent.Q x a) atTop (𝓝 (Qs x a)) := by
  obtain ⟨Qs, hQs⟩ := C145_values_exist ringMDP ring_proper (fun _ => True) (1 / 2) (by norm_num) (by norm_num) _ ring_policy
  obtain ⟨s, hl, hs⟩ := ring_learn (fun t => !t.absorbing) (fun e r next t => agentDraw scriptUser e r next t.next) (fun _ _ _ => rfl)
    (fun next x => x.orElse (fun _ => next)) (fun α x g t => rqLearning (1 / 2) α (α * (1 / 3)) false g t (x.getD (Classical.arbitrary Unit)))
    ⟨fun _ _ => 0, fun _ _ => 0, fun _ _ => 0⟩
  exact ⟨Qs, hQs, s, hs, C161_learn_policy_partial _ _ 1 1 ringMDP ring_ends _ (1 / 2) (1 / 3) (by norm_num) (by norm_num) (by norm_num) (by norm_num) _
    ring_policy Qs hQs s _ hs _ hl ring_onPolicy⟩

omit [IsProbabilityMeasure μ] in
/-- C161. The action that an update of RQLearning draws is what the policy gives for the next state. -/
theorem C161_asks (u : User E S A (Rated (RQ S A) A)) (key : S → A → Policy.Index) (v p : ℝ) (m : RandomMDP S A) (L : S → Prop)
    (γ delta : ℝ) (g0 : RQ S A) (s : ℕ → Ω → Core.St (E × Rated (RQ S A) A) S A ℝ Unit Unit) (t : ℕ → Ω → Trans S A)
    (h : LearnRun μ ℱ u (rqOnAgent u γ delta key) key v p m L g0 s t) (b : ℕ → Ω → A)
    (hlog : ∀ n ω, (s n ω).world.2.log = (List.range n).map (fun k => if (t k ω).absorbing then none else some (b k ω))) (hpre : u.agentPre = [])
    (n : ℕ) (ω : Ω) (hlive : (t n ω).absorbing = false) : ∃ e, b n ω = (u.draw e (s n ω).world.2 (t n ω).next).2 := by
  obtain ⟨e, he⟩ := LearnRun.asked h b (fun n ω => by
    rw [hlog]; refine List.map_congr_left fun k _ => ?_; cases h : (t k ω).absorbing <;> simp [drewAt, h]) n ω (by simp [hlive])
  refine ⟨e, ?_⟩
  rw [he]
  simp [agentDraw, hpre]

example : ∃ s, LearnRun coins tossed scriptUser (rqOnAgent scriptUser (1 / 2) (1 / 3) (fun s _ => [s.val])) (fun s _ => [s.val]) 1 1 ringMDP (fun _ => True)
        ⟨fun _ _ => 0, fun _ _ => 0, fun _ _ => 0⟩ s ringTrans ∧ (∀ n ω, ∃ e, () = (scriptUser.draw e (s n ω).world.2 (ringTrans n ω).next).2) := by
  obtain ⟨s, hl, hs⟩ := ring_learn (fun t => !t.absorbing) (fun e r next t => agentDraw scriptUser e r next t.next) (fun _ _ _ => rfl)
    (fun next x => x.orElse (fun _ => next)) (fun α x g t => rqLearning (1 / 2) α (α * (1 / 3)) false g t (x.getD (Classical.arbitrary Unit)))
    ⟨fun _ _ => 0, fun _ _ => 0, fun _ _ => 0⟩
  exact ⟨s, hs, fun n ω => C161_asks _ _ 1 1 ringMDP _ (1 / 2) (1 / 3) _ s _ hs (fun _ _ => ()) hl rfl n ω rfl⟩

omit [Fintype S] [Nonempty A] in
theorem weighted_absorbing {γ α : ℝ} {argmax : (A → ℝ) → A} {g : Weighted S A} {t : Trans S A} (h : t.absorbing = true) (z z' : List (A → ℝ)) :
    weightedQ γ α argmax z g t = weightedQ γ α argmax z' g t := by
  simp [weightedQ, h]

/-- C159. Whole runs of WeightedQLearning: with probability one the table ends within `2 γ |A| 10⁻⁵ / (1 - γ)` of the optimal values. `Z` are the
normal numbers that the updates drew; nothing is drawn when the episode ends. -/
theorem C159_learn_partial {N : ℕ} (hN : 0 < N) (normals : E → E × (Fin N → A → ℝ)) (u : User E S A (Rated (Weighted S A) (Fin N → A → ℝ)))
    (key : S → A → Policy.Index) (v p : ℝ) (m : RandomMDP S A) (L : S → Prop) (γ : ℝ) (hγ0 : 0 ≤ γ) (hγ1 : γ < 1)
    (argmax : (A → ℝ) → A) (hmax : ∀ q, Maximises q (argmax q)) (hmeas : ∀ a, MeasurableSet {q | argmax q = a})
    (Qs : Table S A) (hQs : m.OptimalOn L γ Qs)
    (s : ℕ → Ω → Core.St (E × Rated (Weighted S A) (Fin N → A → ℝ)) S A ℝ Unit Unit) (t : ℕ → Ω → Trans S A)
    (h : LearnRun μ ℱ u (weightedAgent γ argmax key normals) key v p m L weightedInit s t) (Z : ℕ → Ω → Fin N → A → ℝ)
    (hlog : ∀ n ω, (s n ω).world.2.log = (List.range n).map (fun k => if (t k ω).absorbing then none else some (Z k ω)))
    (hZ : NormalDraws μ ℱ Z) :
    ∀ᵐ ω ∂μ, ∀ ε, 0 < ε → ∀ᶠ n in atTop, ∀ x, L x → ∀ a,
      |(s n ω).world.2.agent.Q x a - Qs x a| ≤ 2 * γ * Fintype.card A / 10 ^ 5 / (1 - γ) + ε := by
  have hsame : ∀ n ω, (s n ω).world.2.agent = weightedAfter γ argmax (t · ω)
      (rateAt (Policy.decayParam v p none none false) key (t · ω)) (Z · ω) n := fun n ω => by
    rw [LearnRun.agent h Z (fun n ω => by
      rw [hlog]; refine List.map_congr_left fun k _ => ?_; cases h : (t k ω).absorbing <;> simp [drewAt, h])]
    induction n with
    | zero => rfl
    | succ n ih =>
      simp only [weightedAfter, ratedAfter]
      rw [ih]
      cases hab : (t n ω).absorbing
      · simp [drewAt, hab]
      · exact weighted_absorbing hab _ _
  filter_upwards [C159_near_partial m h.proper L h.closed γ hγ0 hγ1 Qs hQs t h.experience _ h.rates argmax hmax hmeas N hN Z hZ] with ω hω ε hε
  filter_upwards [hω ε hε] with n hn x hx a
  rw [hsame]
  exact hn x hx a

example : ∃ s, LearnRun tossesW tossedW scriptUser (weightedAgent (1 / 2) argmaxW loopKey (fun e : Script Unit Bool (Fin 2 → Bool → ℝ) => (e, e.noise (e.used - 1))))
        loopKey 1 1 loopMDP (fun _ => True) weightedInit s loopTrans ∧
      ∀ᵐ ω ∂tossesW, ∀ ε, 0 < ε → ∀ᶠ n in atTop, ∀ x, True → ∀ a,
        |(s n ω).world.2.agent.Q x a - loopQ x a| ≤ 2 * (1 / 2) * Fintype.card Bool / 10 ^ 5 / (1 - 1 / 2) + ε := by
  have hex := fun n ω => script_learn loopKey (fun t => !t.absorbing) (fun e _ _ _ => (e, e.noise (e.used - 1))) (fun next _ => next)
    (fun α x g t => weightedQ (1 / 2) α argmaxW (List.ofFn (x.getD 0)) g t) (loopTrans · ω) (fun n => (ω n).2) (fun _ => rfl) (fun _ => rfl)
    (fun n r _ => rfl) (fun n => Or.inl rfl) weightedInit (Policy.decayParam 1 1 none none false) n
  choose s h1 h2 h3 using hex
  have hs : LearnRun tossesW tossedW scriptUser (weightedAgent (1 / 2) argmaxW loopKey (fun e : Script Unit Bool (Fin 2 → Bool → ℝ) => (e, e.noise (e.used - 1))))
      loopKey 1 1 loopMDP (fun _ => True) weightedInit s loopTrans :=
    ⟨by decide, by norm_num, by norm_num, loop_proper, loop_closed, fun ω => ⟨_, rfl, fun n => ⟨n, h1 n ω⟩⟩, h2, loop_experience,
      Eventually.of_forall fun ω s _ a n => by
        cases a
        · exact ⟨2 * n, by omega, rfl, by simp [loopTrans]⟩
        · exact ⟨2 * n + 1, by omega, rfl, by simp [loopTrans]⟩⟩
  exact ⟨s, hs, C159_learn_partial (by norm_num) _ _ loopKey 1 1 loopMDP _ (1 / 2) (by norm_num) (by norm_num) argmaxW argmaxW_max argmaxW_measurable
    loopQ loop_optimal s loopTrans hs (fun n ω => (ω n).2) h3 tossesW_normal⟩

end

end Verif.TD
