/-
Property theorems about whole experiments (C132).
-/
import Verif.System.Lemmas2
import Verif.DQN.PropsTarget

namespace Verif.System

noncomputable section

open Verif.Core (Sample Event Cfg St Reach steps fits endings)
open Verif.Dataset (Row)

variable {E G W X A R P T : Type}

theorem learn_reach {sys : Core.Sys W X A R P T} {fuel : ℕ} {prev s : St W X A R P T} {a b c d : Option ℕ}
    (h : Core.learn sys fuel prev a b c d = some (.ok s)) : ∃ cfg, Core.learnCfg sys a b c d = .ok cfg ∧ Reach sys cfg prev s := by
  unfold Core.learn at h
  split at h
  · cases h
  · rename_i cfg hc
    exact ⟨cfg, hc, (Core.loop_reach Reach.start h).1⟩

theorem evaluate_reach {sys : Core.Sys W X A R P T} {fuel : ℕ} {prev s : St W X A R P T} {a : Option (List X)} {b c : Option ℕ}
    (h : Core.evaluate sys fuel prev a b c = some (.ok s)) : ∃ cfg, Core.evaluateCfg sys a b c = .ok cfg ∧ Reach sys cfg prev s := by
  unfold Core.evaluate at h
  split at h
  · cases h
  · rename_i cfg hc
    exact ⟨cfg, hc, (Core.loop_reach Reach.start h).1⟩

theorem evaluate_never {sys : Core.Sys W X A R P T} {a : Option (List X)} {b c : Option ℕ} {cfg : Cfg X} (h : Core.evaluateCfg sys a b c = .ok cfg) :
    cfg.fitMode = .never := by
  unfold Core.evaluateCfg at h
  simp only at h
  split at h
  · cases h
  · split at h
    · cases h
    · simp only [Except.ok.injEq] at h; subst h; rfl

theorem learn_fitMode {sys : Core.Sys W X A R P T} {a b c d : Option ℕ} {cfg : Cfg X} (h : Core.learnCfg sys a b c d = .ok cfg) :
    Core.initializeLearn c d = .ok cfg.fitMode := by
  unfold Core.learnCfg at h
  split at h
  · cases h
  · rename_i f hf
    split at h
    · cases h
    · split at h
      · cases h
      · simp only [Except.ok.injEq] at h; subst h; exact hf

/-- C132, the agent learns from `fit` alone: whatever the environment, the policy, the preprocessors and the callbacks do, the agent after `learn` is the
one before it after the calls of `fit` of the run in order, and `evaluate` does not change it. -/
theorem C132_agent (x : Experiment E G X A R P T) (prev s : St (E × G) X A R P T) (fuel : ℕ) :
    (∀ a b c d, Core.learn x.sys fuel prev a b c d = some (.ok s) →
      s.world.2 = (calls s.trace).foldl (fun g call => x.fit g call.1 call.2) prev.world.2 ∧ (calls s.trace).map (·.1) = fits s.trace) ∧
    (∀ xs a b, Core.evaluate x.sys fuel prev xs a b = some (.ok s) → s.world.2 = prev.world.2) := by
  constructor
  · intro a b c d h
    obtain ⟨cfg, -, hr⟩ := learn_reach h
    exact ⟨agent_reach hr, calls_fits _⟩
  · intro xs a b h
    obtain ⟨cfg, hc, hr⟩ := evaluate_reach h
    have hn := evaluate_never hc
    have hf : fits s.trace = [] := by
      apply List.eq_nil_iff_forall_not_mem.2
      intro q hq
      have := ((steps_fits hr).2 q hq).2.1
      rw [hn] at this
      exact this
    have : calls s.trace = [] := by
      have := calls_fits s.trace
      rw [hf] at this
      simpa using this
    rw [agent_reach hr, this]; rfl

/-! ### DQN and its replay memory -/

/-- The row of the memory is the transition `s` of the run. -/
def Records (row : Row X A ℝ (Option P)) (s : Sample X A ℝ P) : Prop :=
  row.state = s.state ∧ row.action = s.action ∧ row.reward = s.reward ∧ row.nextState = s.nextState ∧ row.absorbing = s.absorbing ∧ row.last = s.last ∧
    row.policyState = s.policyState ∧ row.policyNextState = s.policyNextState

/-- The agent uses the transition `s` of the run. -/
def Uses (t : TD.Trans X A) (s : Sample X A ℝ P) : Prop :=
  t.state = s.state ∧ t.action = s.action ∧ t.reward = s.reward ∧ t.next = s.nextState ∧ t.absorbing = s.absorbing

variable {Rng V : Type}

theorem holds_new {rng : Rng} (init max : ℕ) (hmax : 0 < max) :
    Holds (Rng := Rng) (X := X) (A := A) (P := P) ⟨.ok (Memory.Mem.new init max), rng⟩ init max [] :=
  ⟨_, rfl, Memory.fifo_new init max hmax, rfl⟩

/-- C132, what a DQN agent remembers: after `learn(n_steps=N, n_steps_per_fit=k)` with a new agent, whatever the environment and the policy do, no exception has
been raised, `fit` has been called `⌊N/k⌋` times, and the replay memory holds exactly the last `max_replay_size` of the first `⌊N/k⌋k` transitions of the run,
the `t`-th of them in the slot `t mod max_replay_size`. The weights are still the initial ones unless more than `initial_replay_size` transitions are held;
the target network has the online weights at the last update whose number is a multiple of `target_update_frequency`. -/
theorem C132_replay (x : Experiment E (Learner Rng X A P V) X A ℝ P T) (p : Parts Rng X A V) (hx : RunsDQN x p) (batch : ℕ) (hp : p.Fair batch)
    (hfreq : 0 < p.freq) (init max : ℕ) (hmax : 0 < max) (rng : Rng) (w : V) (prev : St (E × Learner Rng X A P V) X A ℝ P T)
    (hprev : prev.world.2 = some (DQN.create ⟨.ok (Memory.Mem.new init max), rng⟩ w)) (N k : ℕ) (hk : 1 ≤ k) :
    ∃ s g m, (∀ fuel, N ≤ fuel → Core.learn x.sys fuel prev (some N) none (some k) none = some (.ok s)) ∧
      (steps s.trace).length = N ∧ s.world.2 = some g ∧ g.memory.mem = .ok m ∧ g.nUpdates = N / k ∧
      m.size = min (N / k * k) max ∧ m.buf.length = m.size ∧
      (∀ t, N / k * k ≤ t + max → t < N / k * k →
        ∃ (row : Row X A ℝ (Option P)) (smp : Sample X A ℝ P), m.buf[t % max]? = some row ∧ (steps s.trace)[t]? = some smp ∧ Records row smp) ∧
      (min (N / k * k) max ≤ init → g.online = w) ∧
      (∃ j g', DQN.IsLast (fun i => p.freq ∣ i) (N / k) j ∧
        DQN.runFits (DQN.fit (dqn p)) (DQN.create ⟨.ok (Memory.Mem.new init max), rng⟩ w) ((fits s.trace).take j) = some g' ∧ g.target = g'.online) := by
  obtain ⟨s, h1, h2, -, h4, h5⟩ := Core.C01_learn_by_steps x.sys prev N k hk
  obtain ⟨cfg, hc, hr⟩ := learn_reach (h1 N le_rfl)
  have hrun := learner_reach hx hr hprev
  obtain ⟨g, r1, ⟨m, r2, r3, r4⟩, r5, r6⟩ := holds_run hp hfreq hmax (fits s.trace) (DQN.create ⟨.ok (Memory.Mem.new init max), rng⟩ w) [] (holds_new (P := P) (rng := rng) init max hmax)
  obtain ⟨g2, t1, j, g', t2, t3, t4⟩ := DQN.C52_target (dqn (P := P) p) hfreq rfl ⟨.ok (Memory.Mem.new init max), rng⟩ w (fits s.trace)
  rw [r1, Option.some.injEq] at t1
  subst t1
  have hsf := (steps_fits hr).1
  have hle : N / k * k ≤ N := Nat.div_mul_le_self N k
  have hflat : (fits s.trace).flatten.length = N / k * k := by
    have e1 := congrArg List.length hsf
    rw [List.length_append, h2, h5, List.length_drop, h2] at e1
    omega
  have hlen : ([] ++ List.map toRow (fits s.trace).flatten : List (Row X A ℝ (Option P))).length = N / k * k := by rw [List.nil_append, List.length_map, hflat]
  refine ⟨s, g, m, h1, h2, hrun.trans r1, r2, by rw [r5, h4]; simp [DQN.create], ?_, ?_, ?_, ?_, j, g', by rw [← h4]; exact t2, t3, t4⟩
  · rw [(fifo_size r3).1, hlen]
  · rw [(fifo_size r3).1, (fifo_size r3).2]
  · intro t ht1 ht2
    have hb : m.buf[t % max]? = ((steps s.trace)[t]?).map toRow := by
      rw [Memory.fifo_slot hmax r3 t (by rw [hlen]; exact ht1) (by rw [hlen]; exact ht2), List.nil_append, List.getElem?_map, hsf,
        List.getElem?_append_left (by rw [hflat]; exact ht2)]
    have hs := List.getElem?_eq_getElem (l := steps s.trace) (i := t) (by omega)
    rw [hs] at hb
    exact ⟨_, _, hb, hs, rfl, rfl, rfl, rfl, rfl, rfl, rfl, rfl⟩
  · intro hi
    exact r6 (by rw [hflat, List.length_nil, Nat.zero_add]; exact hi)

/-- C132, the regressions of a DQN agent: at each call of `fit` of a run, if more than `initial_replay_size` transitions are held the agent fits
`batch_size` transitions, all of them among the last `max_replay_size` ones that have been delivered so far (this call included), to targets computed with the
present weights; otherwise its weights stay. -/
theorem C132_batches (x : Experiment E (Learner Rng X A P V) X A ℝ P T) (p : Parts Rng X A V) (hx : RunsDQN x p) (batch : ℕ) (hp : p.Fair batch)
    (hfreq : 0 < p.freq) (init max : ℕ) (hmax : 0 < max) (rng : Rng) (w : V) (prev s : St (E × Learner Rng X A P V) X A ℝ P T)
    (hprev : prev.world.2 = some (DQN.create ⟨.ok (Memory.Mem.new init max), rng⟩ w)) (fuel : ℕ) (a b c e : Option ℕ)
    (h : Core.learn x.sys fuel prev a b c e = some (.ok s)) (ds rest : List (List (Sample X A ℝ P))) (d : List (Sample X A ℝ P)) (hd : fits s.trace = ds ++ d :: rest) :
    ∃ g g' q, DQN.runFits (DQN.fit (dqn p)) (DQN.create ⟨.ok (Memory.Mem.new init max), rng⟩ w) ds = some g ∧ DQN.fit (dqn p) g d = some g' ∧
      DQN.runFits (DQN.fit (dqn p)) g' rest = s.world.2 ∧
      q = ds.flatten.length + d.length ∧ (ds.flatten ++ d) = (steps s.trace).take q ∧
      (min q max ≤ init → g'.online = g.online) ∧
      (init < min q max → ∃ ts, ts.length = batch ∧
        (∀ t ∈ ts, ∃ smp ∈ ((steps s.trace).take q).drop (q - max), Uses t smp) ∧
        g'.online = p.fitNet g.online ts (p.targets g.online g.target ts)) := by
  obtain ⟨cfg, hc, hr⟩ := learn_reach h
  have hrun := learner_reach hx hr hprev
  obtain ⟨g, r1, r2, -, -⟩ := holds_run hp hfreq hmax ds (DQN.create ⟨.ok (Memory.Mem.new init max), rng⟩ w) [] (holds_new (P := P) (rng := rng) init max hmax)
  obtain ⟨g', k1, k2, k3, k4, k5⟩ := holds_fit hp hfreq hmax r2 d
  have hpre : ds.flatten ++ d = (steps s.trace).take (ds.flatten.length + d.length) := by
    rw [(steps_fits hr).1, hd]
    simp only [List.flatten_append, List.flatten_cons, ← List.append_assoc]
    rw [← List.length_append, List.append_assoc, List.take_left]
  refine ⟨g, g', _, r1, k1, ?_, rfl, hpre, ?_, ?_⟩
  · rw [hrun, hd, ← fold_runFits (DQN.fit (dqn p)) (ds ++ d :: rest), List.foldl_append, fold_runFits (DQN.fit (dqn p)) ds, r1, List.foldl_cons, Option.bind_some, k1,
      fold_runFits]
  · intro hle
    exact k4 (by rw [List.nil_append, List.length_map]; exact hle)
  · intro hlt
    obtain ⟨ts, t1, t2, t3⟩ := k5 (by rw [List.nil_append, List.length_map]; exact hlt)
    refine ⟨ts, t1, ?_, t3⟩
    intro t ht
    obtain ⟨r, hr1, rfl⟩ := t2 t ht
    rw [List.nil_append, ← List.map_append, ← List.map_drop, List.length_map, List.length_append, hpre] at hr1
    obtain ⟨smp, hs1, rfl⟩ := List.mem_map.1 hr1
    exact ⟨smp, hs1, rfl, rfl, rfl, rfl, rfl⟩

/-! ### Rainbow -/

/-- The experiment runs a Rainbow agent. -/
def RunsRainbow (x : Experiment E (Option (DQN.Agent (Store Rng (Memory.PER X A (Option P))) V V)) X A ℝ P T) (y : DQN.Sys X A (List (Sample X A ℝ P)) (Store Rng (Memory.PER X A (Option P))) V V) :
    Prop := ∀ g rows ths, x.fit g rows ths = g.bind fun g => DQN.fitCounting y g rows

theorem rainbow_add {n : ℕ} {γ : ℝ} {p : Parts Rng X A V} {use} {rank} {s : Store Rng (Memory.PER X A (Option P))} {m : Memory.PER X A (Option P)}
    (hm : s.mem = .ok m) (hi : m.initialized = false) {d : List (Sample X A ℝ P)} (hd : d.length < n) : (rainbow n γ p use rank).add s d = s := by
  have hn : 0 < n := by omega
  have hw : ¬ 0 + n < (d.map (toRow (X := X) (A := A) (R := ℝ) (P := P))).length + 1 := by rw [List.length_map]; omega
  simp only [rainbow, hm, Except.bind, Memory.PER.maxPriority, hi, Bool.false_eq_true, if_false, Memory.STree.add, hn, if_true, Memory.nstepLoop, hw]
  have hall : (List.replicate d.length (1 * (1 : ℝ))).all (fun p => decide (0 < p)) = true := by
    rw [List.all_eq_true]
    intro q hq
    rw [(List.mem_replicate.1 hq).2]
    simp
  simp only [hall, if_true, Except.map]
  rw [← hm]

/-- C132, refutation: "`learn` makes a Rainbow agent learn". With `n_steps_return` larger than `n_steps_per_fit` no transition ever reaches the memory: whatever
the environment does and however long the run is, the agent after `learn(n_steps=N, n_steps_per_fit=k)` is exactly the agent before. -/
theorem C132_starved_refuted (n k : ℕ) (hk : 1 ≤ k) (hn : k < n) (γ : ℝ) (p : Parts Rng X A V)
    (use : Rng → Memory.PER X A (Option P) → Rng × Except Memory.Err (List (TD.Trans X A)))
    (rank : V → List (TD.Trans X A) → Memory.PER X A (Option P) → Except Memory.Err (Memory.PER X A (Option P)))
    (x : Experiment E (Option (DQN.Agent (Store Rng (Memory.PER X A (Option P))) V V)) X A ℝ P T) (hx : RunsRainbow x (rainbow n γ p use rank))
    (init max : ℕ) (alpha epsilon : ℝ) (rng : Rng) (w : V) (prev : St (E × Option (DQN.Agent (Store Rng (Memory.PER X A (Option P))) V V)) X A ℝ P T)
    (hprev : prev.world.2 = some (DQN.create ⟨.ok ⟨init, max, alpha, epsilon, Memory.STree.new max⟩, rng⟩ w)) (N : ℕ) :
    ∃ s, (∀ fuel, N ≤ fuel → Core.learn x.sys fuel prev (some N) none (some k) none = some (.ok s)) ∧
      (steps s.trace).length = N ∧ (fits s.trace).length = N / k ∧ s.world.2 = prev.world.2 := by
  obtain ⟨s, h1, h2, -, h4, -⟩ := Core.C01_learn_by_steps x.sys prev N k hk
  obtain ⟨cfg, hc, hr⟩ := learn_reach (h1 N le_rfl)
  have hm : Core.FitMode.steps k = cfg.fitMode := by
    have := learn_fitMode hc
    simpa [Core.initializeLearn] using this
  have hlen : ∀ b ∈ fits s.trace, b.length = k := fun b hb => Core.shortestDue_steps hk (by rw [hm]; exact (steps_fits hr).2 b hb)
  refine ⟨s, h1, h2, h4, ?_⟩
  rw [agent_reach hr, hprev]
  have hlen' : ∀ q ∈ calls s.trace, q.1.length = k := by
    intro q hq
    exact hlen q.1 (by rw [← calls_fits]; exact List.mem_map.2 ⟨q, hq, rfl⟩)
  generalize calls s.trace = l at hlen'
  induction l with
  | nil => rfl
  | cons q l ih =>
    have hadd := rainbow_add (n := n) (γ := γ) (p := p) (use := use) (rank := rank)
      (s := (⟨.ok ⟨init, max, alpha, epsilon, Memory.STree.new max⟩, rng⟩ : Store Rng (Memory.PER X A (Option P)))) rfl
      (by simp [Memory.PER.initialized, Memory.STree.new, Memory.Mem.new, Memory.Mem.size]) (d := q.1) (by rw [hlen' q (by simp)]; exact hn)
    have hini : (rainbow n γ p use rank).initialized (⟨.ok ⟨init, max, alpha, epsilon, Memory.STree.new max⟩, rng⟩ : Store Rng (Memory.PER X A (Option P))) = false := by
      simp [rainbow, Memory.PER.initialized, Memory.STree.new, Memory.Mem.new, Memory.Mem.size]
    have hstep : x.fit (some (DQN.create ⟨.ok ⟨init, max, alpha, epsilon, Memory.STree.new max⟩, rng⟩ w)) q.1 q.2 =
        some (DQN.create ⟨.ok ⟨init, max, alpha, epsilon, Memory.STree.new max⟩, rng⟩ w) := by
      rw [hx, Option.bind_some]
      unfold DQN.fitCounting
      simp only [DQN.create, hadd, hini, Bool.false_eq_true, if_false, DQN.innerFit]
    rw [List.foldl_cons, hstep]
    exact ih fun q' hq' => hlen' q' (by simp [hq'])

/-! ### On-policy and episodic agents -/

/-- The discounted sum of the rewards. -/
def returnOf (γ : ℝ) (e : List (Sample X A ℝ P)) : ℝ := (e.zipIdx.map fun p => γ ^ p.2 * p.1.reward).sum

theorem returnOf_eq (γ : ℝ) (e : List (Sample X A ℝ P)) : Dataset.discountedReturn γ (e.map toRow) = returnOf γ e := by
  unfold Dataset.discountedReturn returnOf
  rw [List.zipIdx_map, List.map_map]
  rfl

/-- C132, the targets of on-policy agents: in any run, whatever the arguments of `learn`, in each dataset that `fit` receives inside an episode each transition
starts where the previous one ended; so the targets computed by `compute_gae` from that dataset are the λ-returns of the trajectories, up to the end
of the episode or of the dataset. -/
theorem C132_gae (sys : Core.Sys W X A ℝ P T) (prev s : St W X A ℝ P T) (fuel : ℕ) (a b c d : Option ℕ)
    (h : Core.learn sys fuel prev a b c d = some (.ok s)) (rows : List (Sample X A ℝ P)) (hrows : rows ∈ fits s.trace) :
    Continuous rows ∧ ∀ (v : X → ℝ) (γ lam : ℝ) (g0 : ℕ → ℝ) (t e : ℕ), ValueFn.EndsAt (gaeData v rows) rows.length t e →
      (ValueFn.computeGae (gaeData v rows) γ lam rows.length g0).1 t =
        ∑ m ∈ Finset.range (e - t), (1 - lam) * lam ^ m * ValueFn.nStepReturn (gaeData v rows) γ t m +
          lam ^ (e - t) * ValueFn.nStepReturn (gaeData v rows) γ t (e - t) := by
  obtain ⟨cfg, hc, hr⟩ := learn_reach h
  have hcont := fits_continuous hr rows hrows
  refine ⟨hcont, ?_⟩
  intro v γ lam g0 t e hte
  refine ValueFn.C75_lambda_return _ γ lam rows.length g0 ?_ t e hte ?_
  · intro i hi
    simp only [gaeData] at hi ⊢
    cases hq : rows[i]? with
    | none => simp [hq] at hi
    | some q =>
      simp only [hq, Option.map_some, Option.getD_some] at hi ⊢
      exact hcont.absorbing q (List.mem_of_getElem? hq) hi
  · intro i hi1 hi2
    have hle := hte.inside
    have hnl := hte.first i hi1 hi2
    have hi : i < rows.length := by omega
    have hi' : i + 1 < rows.length := by omega
    simp only [gaeData, List.getElem?_eq_getElem hi, List.getElem?_eq_getElem hi', Option.map_some, Option.getD_some] at hnl ⊢
    have := List.isChain_iff_getElem.1 hcont.chain i hi'
    rw [(this hnl).1]

/-- C132, evaluation: `evaluate(n_episodes=N)` with a finite horizon plays exactly `N` whole episodes, and `compute_J` of the dataset it returns is the list of
their `N` discounted returns. -/
theorem C132_evaluate_returns (sys : Core.Sys W X A ℝ P T) (prev : St W X A ℝ P T) (N H : ℕ) (hN : 1 ≤ N) (hH : sys.horizon = some H) (hH1 : 1 ≤ H) (γ : ℝ) :
    ∃ s, (∀ fuel, N * H ≤ fuel → Core.evaluate sys fuel prev none none (some N) = some (.ok s)) ∧
      ∃ eps : List (List (Sample X A ℝ P)), eps.length = N ∧ eps.flatten = steps s.trace ∧ s.rows = steps s.trace ∧
        (∀ e ∈ eps, WholeEpisode e ∧ Continuous e) ∧
        Dataset.computeJ γ (s.rows.map toRow) = eps.map (returnOf γ) := by
  obtain ⟨s, h1, ⟨h2, h3⟩, h4, -, -⟩ := Core.C04_evaluate_episodes sys prev N H hH hH1
  obtain ⟨cfg, hc, hr⟩ := evaluate_reach (h1 _ le_rfl)
  obtain ⟨eps, e1, e2, e3⟩ := episodes_of (steps s.trace) h3
  refine ⟨s, h1, eps, by rw [e3, h2], e1, h4, ?_, ?_⟩
  · intro e he
    refine ⟨e2 e he, (steps_continuous hr).infix ?_⟩
    obtain ⟨l1, l2, hl⟩ := List.append_of_mem he
    exact ⟨l1.flatten, l2.flatten, by rw [← e1, hl]; simp⟩
  · rw [h4, ← e1]
    have hne : eps.flatten.map toRow ≠ [] := by
      intro h0
      rw [List.map_eq_nil_iff, e1] at h0
      rw [h0] at h2
      simp [endings] at h2
      omega
    rw [Dataset.C08_compute_J γ _ _ (isEpisodes_of e2) hne, List.map_map]
    exact List.map_congr_left fun e _ => returnOf_eq γ e

/-- C132, episodic agents: with `n_episodes_per_fit=k`, at every call of `fit` the agent gets `k` parameter vectors and a dataset of `k` whole episodes, the
`i`-th episode is the one played with the `i`-th parameters, and the `i`-th value of `compute_J` is its discounted return. -/
theorem C132_episodic (sys : Core.Sys W X A ℝ P T) (hep : sys.isEpisodic = true) (prev s : St W X A ℝ P T) (fuel : ℕ) (a b : Option ℕ) (k : ℕ) (hk : 1 ≤ k)
    (h : Core.learn sys fuel prev a b none (some k) = some (.ok s)) (pre post : List (Event X A ℝ P T)) (rows : List (Sample X A ℝ P)) (ths : List T) (next : Option A)
    (hs : s.trace = pre ++ .fit rows ths next :: post) (γ : ℝ) :
    (rollouts pre).length = k ∧ ths = (rollouts pre).map (·.1) ∧ rows = (rollouts pre).flatMap (·.2) ∧ (∀ r ∈ rollouts pre, WholeEpisode r.2) ∧
      Dataset.computeJ γ (rows.map toRow) = (rollouts pre).map fun r => returnOf γ r.2 := by
  obtain ⟨cfg, hc, hr⟩ := learn_reach h
  have hm : cfg.fitMode = .episodes k := by
    have := learn_fitMode hc
    simp only [Core.initializeLearn, Except.ok.injEq] at this
    exact this.symm
  obtain ⟨h1, h2, h3⟩ := (kept_reach hep hm hk hr).2 pre rows ths next post hs
  have hk' := Core.C67_thetas_per_fit sys cfg prev s k hk hep hm hr rows ths next (by rw [hs]; simp)
  have hlen : (rollouts pre).length = k := by rw [← hk', h1, List.length_map]
  have hw : ∀ e ∈ (rollouts pre).map (·.2), WholeEpisode e := by
    intro e he
    obtain ⟨r, hr1, rfl⟩ := List.mem_map.1 he
    exact h3 r hr1
  refine ⟨hlen, h1, h2, h3, ?_⟩
  have hne : rows.map toRow ≠ [] := by
    intro h0
    rw [List.map_eq_nil_iff] at h0
    cases hq : rollouts pre with
    | nil => rw [hq] at hlen; simp at hlen; omega
    | cons r l =>
      obtain ⟨init, smp, e1, -⟩ := h3 r (by simp [hq])
      rw [h2, hq, List.flatMap_cons, e1] at h0
      simp at h0
  have hflat : rows = ((rollouts pre).map (·.2)).flatten := by rw [h2, List.flatMap_def]
  rw [hflat] at hne ⊢
  rw [Dataset.C08_compute_J γ _ _ (isEpisodes_of hw) hne, List.map_map, List.map_map]
  exact List.map_congr_left fun r _ => returnOf_eq γ r.2

/-! ### A concrete experiment

A clock environment whose episodes end at every third step; the policy plays action 0; the weights of the agent count its regressions. -/

/-- Two transitions per regression, the first and the last of the memory. -/
def demoParts : Parts Unit ℕ ℕ ℕ where
  draw := fun _ n => ((), [0, n - 1])
  targets := fun _ _ ts => ts.map (·.reward)
  fitNet := fun w _ _ => w + 1
  freq := 2

theorem demo_fair : demoParts.Fair 2 := by
  intro r n hn
  refine ⟨rfl, ?_⟩
  intro i hi
  simp only [demoParts, List.mem_cons, List.not_mem_nil, or_false] at hi
  omega

/-- The experiment, for any agent. -/
def demoExp {G : Type} (fit : G → List (Sample ℕ ℕ ℝ Unit) → List ℕ → G) (episodic : Bool) : Experiment ℕ G ℕ ℕ ℝ Unit ℕ where
  horizon := some 4
  isEpisodic := episodic
  envReset := fun e _ => (e, e)
  episodeStart := fun e _ _ => (e, none, e)
  envStep := fun e _ => (e + 1, e + 1, 1, (e + 1) % 3 == 0)
  policyDraw := fun e _ _ _ => (e, 0, none)
  fit := fit
  corePre := []
  agentPre := []
  callbackStep := fun e _ _ => e
  callbacksFit := []

/-- A `Core` that has not run yet. -/
def demoPrev {G : Type} (g : G) : St (ℕ × G) ℕ ℕ ℝ Unit ℕ where
  world := (0, g)
  state := none
  policyState := none
  theta := none
  episodeSteps := 0
  nextAction := none
  totalEpisodes := 0
  totalSteps := 0
  currentEpisodes := 0
  currentSteps := 0
  last := false
  rows := []
  thetas := []
  trace := []

/-- A DQN agent: memory of 3 transitions, used when it holds more than one. -/
def demoDQN : Experiment ℕ (Learner Unit ℕ ℕ Unit ℕ) ℕ ℕ ℝ Unit ℕ := demoExp (fun g rows _ => g.bind fun g => DQN.fit (dqn demoParts) g rows) false

def demoAgent : Learner Unit ℕ ℕ Unit ℕ := some (DQN.create ⟨.ok (Memory.Mem.new 1 3), ()⟩ 0)

example : RunsDQN demoDQN demoParts ∧ (demoPrev demoAgent).world.2 = some (DQN.create ⟨.ok (Memory.Mem.new 1 3), ()⟩ 0) := ⟨fun _ _ _ => rfl, rfl⟩

-- After 5 steps in pairs: two updates, the memory is full and transition 3 has replaced the first one.
example : ∃ s g m, (∀ fuel, 5 ≤ fuel → Core.learn demoDQN.sys fuel (demoPrev demoAgent) (some 5) none (some 2) none = some (.ok s)) ∧
    s.world.2 = some g ∧ g.memory.mem = .ok m ∧ g.nUpdates = 2 ∧ m.size = 3 ∧
      ∃ (row : Row ℕ ℕ ℝ (Option Unit)) (smp : Sample ℕ ℕ ℝ Unit), m.buf[0]? = some row ∧ (steps s.trace)[3]? = some smp ∧ Records row smp := by
  obtain ⟨s, g, m, h1, h2, h3, h4, h5, h6, -, h8, -⟩ :=
    C132_replay demoDQN demoParts (fun _ _ _ => rfl) 2 demo_fair (by decide) 1 3 (by decide) () 0 (demoPrev demoAgent) rfl 5 2 (by decide)
  exact ⟨s, g, m, h1, h3, h4, h5, h6, h8 3 (by decide) (by decide)⟩

-- The second fit of that run uses two of the transitions 1, 2 and 3.
example (s : St (ℕ × Learner Unit ℕ ℕ Unit ℕ) ℕ ℕ ℝ Unit ℕ) (h : Core.learn demoDQN.sys 5 (demoPrev demoAgent) (some 5) none (some 2) none = some (.ok s))
    (d1 d2 : List (Sample ℕ ℕ ℝ Unit)) (hd : fits s.trace = [d1] ++ d2 :: []) (h1 : d1.length = 2) (h2 : d2.length = 2) :
    ∃ ts : List (TD.Trans ℕ ℕ), ts.length = 2 ∧ ∀ t ∈ ts, ∃ smp ∈ ((steps s.trace).take 4).drop 1, Uses t smp := by
  obtain ⟨g, g', q, -, -, -, hq, -, -, hb⟩ :=
    C132_batches demoDQN demoParts (fun _ _ _ => rfl) 2 demo_fair (by decide) 1 3 (by decide) () 0 (demoPrev demoAgent) s rfl 5 _ _ _ _ h [d1] [] d2 hd
  have hq4 : q = 4 := by simp [hq, h1, h2]
  subst hq4
  obtain ⟨ts, t1, t2, -⟩ := hb (by decide)
  exact ⟨ts, t1, t2⟩

-- Three-step returns and a fit after each step: nothing is learnt in a thousand steps.
example (use) (rank) :
    let fit := fun (g : Option (DQN.Agent (Store Unit (Memory.PER ℕ ℕ (Option Unit))) ℕ ℕ)) rows (_ : List ℕ) =>
      g.bind fun g => DQN.fitCounting (rainbow 3 0.9 demoParts use rank) g rows
    let prev := demoPrev (some (DQN.create ⟨.ok ⟨10, 100, 0.6, 0.01, Memory.STree.new 100⟩, ()⟩ 0))
    ∃ s, (∀ fuel, 1000 ≤ fuel → Core.learn (demoExp fit false).sys fuel prev (some 1000) none (some 1) none = some (.ok s)) ∧ s.world.2 = prev.world.2 := by
  intro fit prev
  obtain ⟨s, h1, -, -, h4⟩ := C132_starved_refuted 3 1 (by decide) (by decide) 0.9 demoParts use rank (demoExp fit false) (fun _ _ _ => rfl) 10 100 0.6 0.01 () 0
    prev rfl 1000
  exact ⟨s, h1, h4⟩

-- Two evaluation episodes of the clock.
example : ∃ s, (∀ fuel, 2 * 4 ≤ fuel → Core.evaluate demoDQN.sys fuel (demoPrev demoAgent) none none (some 2) = some (.ok s)) ∧
    ∃ eps : List (List (Sample ℕ ℕ ℝ Unit)), eps.length = 2 ∧ Dataset.computeJ 1 (s.rows.map toRow) = eps.map (returnOf 1) := by
  obtain ⟨s, h1, eps, e1, -, -, -, e5⟩ := C132_evaluate_returns demoDQN.sys (demoPrev demoAgent) 2 4 (by decide) rfl (by decide) 1
  exact ⟨s, h1, eps, e1, e5⟩

/-- An agent that counts its fits. -/
def demoCount : Experiment ℕ ℕ ℕ ℕ ℝ Unit ℕ := demoExp (fun g _ _ => g + 1) true

-- Four episodes, a fit after each two of them: the parameters are the starting times of the episodes.
example : (Core.finished? (Core.learn demoCount.sys 16 (demoPrev 0) none (some 4) none (some 2))).map
    (fun s => (calls s.trace).map fun c => (c.1.length, c.2)) = some [(6, [0, 3]), (6, [6, 9])] := by
  rfl

-- The rollouts before the first of those fits: two episodes of three steps.
example : (Core.finished? (Core.learn demoCount.sys 16 (demoPrev 0) none (some 2) none (some 3))).map
    (fun s => (rollouts s.trace).map fun r => (r.1, r.2.map (·.state))) = some [(0, [0, 1, 2]), (3, [3, 4, 5])] := by
  rfl

end

end Verif.System
