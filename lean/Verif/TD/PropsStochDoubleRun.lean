/-
Property C147, continued: whole runs of `learn` with a Double Q-learning agent.
-/
import Verif.TD.PropsStochDoubleDemo
import Verif.TD.ModelDoubleRun

namespace Verif.TD

open Filter Topology MeasureTheory ProbabilityTheory

noncomputable section

section
variable {S A : Type} [DecidableEq S] [DecidableEq A] [Fintype A] [Nonempty A]
variable {E G : Type}

/-- One iteration of a run with one step per fit: one transition and one update. -/
theorem iter_update {u : User E S A G} {rule : Rule E S A G} {c : Core.Cfg S} (hf : c.fitMode = .steps 1)
    {prev s s' : Core.St (E × G) S A ℝ Unit Unit} (h : Core.Reach (tdSys u rule) c prev s)
    (hi : Core.iter (tdSys u rule) c s = .ok s') (hstart : ∀ g, rule.start g = g) :
    ∃ (smp : Core.Sample S A ℝ Unit) (e : E), Core.steps s'.trace = Core.steps s.trace ++ [smp] ∧
      s'.world.2 = (rule.update e s.world.2 none (toTrans smp)).2.1 := by
  obtain ⟨asked, act, obs, rew, abs, smp, ths, e, e', -, -, -, -, -, h1, h2, h3⟩ := td_iter hf h hi
  refine ⟨smp, e, ?_, ?_⟩
  · rcases Bool.eq_false_or_eq_true s.last with hl | hl
    · obtain ⟨req, obs', x, ps, th, w', -, ht⟩ := h3 hl
      rw [ht, Core.steps_append, Core.steps_append]; simp [Core.steps]
    · rw [(h2 hl).2.2, Core.steps_append]; simp [Core.steps]
  · rw [hstart, ite_self] at h1
    rw [h1]
end

variable {S A : Type} [DecidableEq S] [DecidableEq A] [Fintype S] [Fintype A] [Nonempty A]
variable {Ω : Type} [mΩ : MeasurableSpace Ω] {μ : Measure Ω} [IsProbabilityMeasure μ] {ℱ : Filtration ℕ mΩ}
variable {E : Type}

omit [Fintype S] in
theorem doubleQ_absorbing {γ α : ℝ} {Qs : Tables S A} {t : Trans S A} {first : Bool} (h : t.absorbing = true) (a b : A) :
    doubleQ γ α Qs t first a = doubleQ γ α Qs t first b := by
  simp [doubleQ, h]

theorem tableParam_succ (p : Policy.Param) (key : S → A → Policy.Index) (t : ℕ → Trans S A) (idx : ℕ → ℕ) (k n : ℕ) :
    tableParam p key t idx k (n + 1) = if idx n = k then ((tableParam p key t idx k n).call (key (t n).state (t n).action)).1
      else tableParam p key t idx k n := by
  unfold tableParam
  rw [List.range_succ, List.filter_append, List.map_append]
  by_cases h : idx n = k
  · simp [h, Policy.Param.run, List.foldl_append]
    rfl
  · simp [h]

/-- Draws made in the order of the program, from the best actions of the chosen table, are those of Double Q-learning. -/
theorem draws_of_generator {m : RandomMDP S A} {γ : ℝ} {L : S → Prop} {t : ℕ → Ω → Trans S A} (ht : Experience μ ℱ m L t)
    {first : ℕ → Ω → Bool} {asked : ℕ → Ω → Finset A} {pick : ℕ → Ω → A} {𝒢 : ℕ → MeasurableSpace Ω}
    (hg : GeneratorDraws μ ℱ 𝒢 m t first asked pick) {α : Bool → ℕ → Ω → ℝ} (hα : ∀ c n, Measurable[ℱ n] (α c n)) {Q0 : Tables S A}
    {Q : ℕ → Ω → Tables S A} (hQ : ∀ n ω, Q n ω = doubleTables γ (t · ω) (first · ω) (pick · ω) (fun c k => α c k ω) Q0 n)
    (hasked : ∀ n ω, asked n ω = best (Q n ω (tableOf (first n ω)) (t n ω).next)) : DoubleDraws μ ℱ m t Q first pick := by
  have hset : ∀ n c s' a', {ω | first n ω = c ∧ (t n ω).next = s' ∧ pick n ω = a'} =
      {ω | first n ω = c ∧ (t n ω).next = s'} ∩ {ω | pick n ω = a'} := by
    intro n c s' a'; ext ω; simp [and_assoc]
  have hknown : ∀ n c s' a', MeasurableSet[ℱ (n + 1)] {ω | first n ω = c ∧ (t n ω).next = s' ∧ pick n ω = a'} := by
    intro n c s' a'
    rw [hset]
    exact (hg.after n _ (hg.coinKnown n c s')).inter (hg.pickKnown n a')
  have hQm : ∀ n c s a, Measurable[ℱ n] (fun ω => Q n ω (tableOf c) s a) := fun n c s a => by
    simp only [hQ]
    exact doubleTables_measurable (ℱ := ℱ) (γ := γ) (Q0 := Q0) (N := n) ht.reward ht.absorbing (fun n _ => ht.past n) (fun c n _ => hα c n)
      (fun n _ => hknown n) n le_rfl c s a
  refine ⟨hknown, fun n c s' a' => ?_⟩
  set B := {ω | first n ω = c ∧ (t n ω).next = s'} with hB
  set P := {ω | pick n ω = a'} with hP
  have hu : Measurable[ℱ n] (fun ω => uniform (best (Q n ω (tableOf c) s')) a') :=
    (uniform_measurable a').comp (@measurable_pi_lambda _ _ _ (ℱ n) _ _ (fun b => hQm n c s' b))
  have hub : ∀ ω, |uniform (best (Q n ω (tableOf c) s')) a'| ≤ 1 := fun ω => by
    unfold uniform
    split
    · have : (1 : ℝ) ≤ (best (Q n ω (tableOf c) s')).card := by
        exact_mod_cast Finset.card_pos.2 (best_nonempty _)
      rw [abs_of_nonneg (by positivity), div_le_one (by linarith)]; exact this
    · simp
  have hle : 𝒢 n ≤ mΩ := (hg.after n).trans (ℱ.le _)
  have hBm : MeasurableSet[𝒢 n] B := hg.coinKnown n c s'
  have hiB : Integrable (B.indicator (fun _ => (1 : ℝ))) μ := (integrable_const _).indicator (hle _ hBm)
  have hiP : Integrable (P.indicator (fun _ => (1 : ℝ))) μ := (integrable_const _).indicator (ℱ.le _ _ (hg.pickKnown n a'))
  have e : Set.indicator {ω | first n ω = c ∧ (t n ω).next = s' ∧ pick n ω = a'} (fun _ => (1 : ℝ)) =
      B.indicator (fun _ => (1 : ℝ)) * P.indicator (fun _ => (1 : ℝ)) := by
    rw [hset, ← hB, ← hP]
    funext ω
    rw [Pi.mul_apply]
    simp only [Set.indicator, Set.mem_inter_iff]
    by_cases h1 : ω ∈ B <;> by_cases h2 : ω ∈ P <;> simp [h1, h2]
  have hsB : StronglyMeasurable[𝒢 n] (B.indicator (fun _ => (1 : ℝ))) := stronglyMeasurable_const.indicator hBm
  have hiBP : Integrable (B.indicator (fun _ => (1 : ℝ)) * P.indicator (fun _ => (1 : ℝ))) μ := by
    rw [← e]
    exact (integrable_const _).indicator (ℱ.le _ _ (hknown n c s' a'))
  have g1 : μ[B.indicator (fun _ => (1 : ℝ)) * P.indicator (fun _ => (1 : ℝ)) | 𝒢 n] =ᵐ[μ]
      (fun ω => uniform (best (Q n ω (tableOf c) s')) a') * B.indicator (fun _ => (1 : ℝ)) := by
    filter_upwards [condExp_mul_of_stronglyMeasurable_left hsB hiBP hiP, hg.pickLaw n a'] with ω k1 k2
    rw [k1, Pi.mul_apply, Pi.mul_apply, k2, hasked]
    by_cases h : ω ∈ B
    · have h' : first n ω = c ∧ (t n ω).next = s' := h
      rw [h'.1, h'.2, mul_comm]
    · rw [Set.indicator_of_notMem h]; ring
  have hiu : Integrable ((fun ω => uniform (best (Q n ω (tableOf c) s')) a') * B.indicator (fun _ => (1 : ℝ))) μ :=
    hiB.bdd_mul (c := 1) (hu.mono (ℱ.le n) le_rfl).aestronglyMeasurable (Eventually.of_forall (fun ω => by
      rw [Real.norm_eq_abs]; exact hub ω))
  have g2 := condExp_condExp_of_le (μ := μ) (f := B.indicator (fun _ => (1 : ℝ)) * P.indicator (fun _ => (1 : ℝ))) (hg.before n) hle
  have g3 := condExp_mul_of_stronglyMeasurable_left (μ := μ) hu.stronglyMeasurable hiu hiB
  rw [e]
  filter_upwards [g2, condExp_congr_ae (m := ℱ n) g1, g3, hg.coinLaw n c s'] with ω k1 k2 k3 k4
  rw [← k1, k2, k3, Pi.mul_apply, k4]
  ring

/-- C147. Whole runs: a Double Q-learning agent whose learning rate is the library's `DecayParameter(value, exp, size=mdp.info.size)`, with a
value in (0, 1] and an exponent in (1/2, 1], is run by `learn` for `n` steps, with one step per fit, in any finite problem. `s n ω` is the
state of the program after `n` steps, `t` are the transitions it recorded, `first` are the coins the agent tossed, `asked` are the sets of
actions it let the random generator choose from and `pick` is what the generator chose. (In absorbing transitions nothing is asked; there
the values are what would have been asked.) If the coins are fair, the generator chooses uniformly from the sets it is given and every action
is taken again and again in every live state, then with probability one both tables of the agent, and their mean, converge to the optimal
values as `n` grows, and from some step on every action that is greedy for the mean is optimal. -/
theorem C147_learn (u : User E S A (DoubleAgent S A)) (toss : E → E × Bool) (choose : E → Finset A → E × A) (key : S → A → Policy.Index)
    (hkey : ∀ s a s' a', key s a = key s' a' → s = s' ∧ a = a')
    (v p : ℝ) (hv0 : 0 < v) (hv1 : v ≤ 1) (hp0 : 1 / 2 < p) (hp1 : p ≤ 1)
    (m : RandomMDP S A) (hm : m.Proper) (L : S → Prop) (hcl : m.Closed L) (γ : ℝ) (hγ0 : 0 ≤ γ) (hγ1 : γ < 1)
    (Qs : Table S A) (hQs : m.OptimalOn L γ Qs) (Q0 : Tables S A)
    (prev : Ω → Core.St (E × DoubleAgent S A) S A ℝ Unit Unit) (s : ℕ → Ω → Core.St (E × DoubleAgent S A) S A ℝ Unit Unit)
    (hrun : ∀ n ω, ∃ fuel, Core.learn (tdSys u (doubleRule γ key toss choose)) fuel (prev ω) (some n) none (some 1) none =
      some (.ok (s n ω)))
    (hprev : ∀ ω, (prev ω).world.2.Qs = Q0 ∧ ∀ c, (prev ω).world.2.alpha c = Policy.decayParam v p none none false)
    (t : ℕ → Ω → Trans S A) (hrec : ∀ n ω, (Core.steps (s n ω).trace).map toTrans = (List.range n).map (t · ω))
    (ht : Experience μ ℱ m L t) (hexp : ∀ᵐ ω ∂μ, ExploresForever L (t · ω)) (first : ℕ → Ω → Bool)
    (asked : ℕ → Ω → Finset A) (pick : ℕ → Ω → A)
    (hlog : ∀ n ω, (s n ω).world.2.log =
      (List.range n).map (fun k => (first k ω, if (t k ω).absorbing then none else some (asked k ω, pick k ω))))
    (habs : ∀ n ω, (t n ω).absorbing = true → asked n ω = best ((s n ω).world.2.Qs (tableOf (first n ω)) (t n ω).next))
    (𝒢 : ℕ → MeasurableSpace Ω) (hd : GeneratorDraws μ ℱ 𝒢 m t first asked pick) :
    ∀ᵐ ω ∂μ, (∀ x, L x → ∀ a, Tendsto (fun n => (s n ω).world.2.Qs 0 x a) atTop (𝓝 (Qs x a)) ∧
        Tendsto (fun n => (s n ω).world.2.Qs 1 x a) atTop (𝓝 (Qs x a)) ∧
        Tendsto (fun n => ((s n ω).world.2.Qs 0 x a + (s n ω).world.2.Qs 1 x a) / 2) atTop (𝓝 (Qs x a))) ∧
      ∀ᶠ n in atTop, ∀ x, L x → ∀ a, Maximises (fun a => ((s n ω).world.2.Qs 0 x a + (s n ω).world.2.Qs 1 x a) / 2) a →
        Maximises (Qs x) a := by
  set dp := Policy.decayParam v p none none false with hdp
  have hasked : ∀ n ω, asked n ω = best ((s n ω).world.2.Qs (tableOf (first n ω)) (t n ω).next) := by
    intro n ω
    by_cases ha : (t n ω).absorbing = true
    · exact habs n ω ha
    obtain ⟨fuel, hr⟩ := hrun n ω
    obtain ⟨fuel', hr'⟩ := hrun (n + 1) ω
    obtain ⟨hreach, hi⟩ := learn_continues hr hr'
    obtain ⟨smp, e, g1, g2⟩ := iter_update rfl hreach hi (fun _ => rfl)
    have hsmp : toTrans smp = t n ω := by
      have := hrec (n + 1) ω
      rw [g1, List.map_append, hrec n ω, List.range_succ, List.map_append] at this
      simpa using this
    have hl := hlog (n + 1) ω
    rw [g2, hsmp] at hl
    simp only [doubleRule] at hl
    rw [hlog n ω, List.range_succ, List.map_append, List.append_cancel_left_eq] at hl
    simp only [List.map_cons, List.map_nil, List.cons.injEq, and_true, Prod.mk.injEq, if_neg ha, Option.some.injEq] at hl
    rw [← hl.1, hl.2.1]
  have hsame : ∀ ω n, (s n ω).world.2.Qs = doubleTables γ (t · ω) (first · ω) (pick · ω)
        (fun c k => doubleRate dp key (t · ω) (first · ω) c k) Q0 n ∧
      ∀ c, (s n ω).world.2.alpha c = tableParam dp key (t · ω) (fun k => tableOf (first k ω)) (tableOf c) n := by
    intro ω n
    induction n with
    | zero =>
      obtain ⟨fuel, hr⟩ := hrun 0 ω
      have : s 0 ω = Core.start (prev ω) := by
        have e : Core.learn (tdSys u (doubleRule γ key toss choose)) fuel (prev ω) (some 0) none (some 1) none =
          some (.ok (Core.start (prev ω))) := by cases fuel <;> rfl
        rw [e] at hr
        simpa using hr.symm
      rw [this]
      exact hprev ω
    | succ n ih =>
      obtain ⟨fuel, hr⟩ := hrun n ω
      obtain ⟨fuel', hr'⟩ := hrun (n + 1) ω
      obtain ⟨hreach, hi⟩ := learn_continues hr hr'
      obtain ⟨smp, e, g1, g2⟩ := iter_update rfl hreach hi (fun _ => rfl)
      have hsmp : toTrans smp = t n ω := by
        have := hrec (n + 1) ω
        rw [g1, List.map_append, hrec n ω, List.range_succ, List.map_append] at this
        simpa using this
      have hl := hlog (n + 1) ω
      rw [g2, hsmp] at hl
      simp only [doubleRule] at hl
      rw [hlog n ω, List.range_succ, List.map_append, List.append_cancel_left_eq] at hl
      simp only [List.map_cons, List.map_nil, List.cons.injEq, and_true, Prod.mk.injEq] at hl
      obtain ⟨hl1, hl2⟩ := hl
      rw [g2, hsmp]
      simp only [doubleRule]
      refine ⟨?_, fun c => ?_⟩
      · show _ = doubleQ γ (doubleRate dp key (t · ω) (first · ω) (first n ω) n) (doubleTables γ (t · ω) (first · ω) (pick · ω)
          (fun c k => doubleRate dp key (t · ω) (first · ω) c k) Q0 n) (t n ω) (first n ω) (pick n ω)
        rw [hl1, ih.2, ih.1]
        by_cases ha : (t n ω).absorbing = true
        · exact doubleQ_absorbing ha _ _
        · rw [hl1, ih.1] at hl2
          rw [hl2, if_neg ha]
          rfl
      · rw [tableParam_succ, hl1]
        by_cases hc : c = first n ω
        · subst hc
          rw [if_pos rfl, if_pos rfl, ih.2]
        · rw [if_neg hc, if_neg (fun h => hc (tableOf_inj h).symm), ih.2]
  have hcoin : ∀ n c, MeasurableSet[ℱ (n + 1)] {ω | first n ω = c} := fun n c => by
    have e : {ω | first n ω = c} = ⋃ s', {ω | first n ω = c ∧ (t n ω).next = s'} := by ext ω; simp
    rw [e]
    exact MeasurableSet.iUnion (fun s' => hd.after n _ (hd.coinKnown n c s'))
  have hdraws := draws_of_generator (Q0 := Q0) ht hd (α := fun c n ω => doubleRate dp key (t · ω) (first · ω) c n)
    (fun c n => doubleRate_measurable ht.past hkey hcoin v p c n) (fun n ω => (hsame ω n).1) hasked
  exact C147_decay m hm L hcl γ hγ0 hγ1 Qs hQs t ht hexp first pick key hkey v p hv0 hv1 hp0 hp1 Q0 _ (fun n ω => (hsame ω n).1) hdraws

/-! ### An example -/

/-- The world: the random numbers and how many steps have been made. -/
structure PairWorld where
  draws : ℕ → Bool × Bool × Bool
  used : ℕ

def pairUser : User PairWorld Bool Bool (DoubleAgent Bool Bool) :=
  { horizon := none
    envReset := fun e _ => (e, false)
    envStep := fun e a => ({ e with used := e.used + 1 },
      ((e.draws e.used).2.1, if a && (e.draws e.used).2.1 then 1 else 0, (e.draws e.used).2.1))
    draw := fun e _ _ => (e, e.used % 2 = 1)
    corePre := [], agentPre := [], callbackStep := fun e _ _ => e, callbacksFit := [] }

def pairRule : Rule PairWorld Bool Bool (DoubleAgent Bool Bool) :=
  doubleRule (1 / 2) coinKey (fun e => (e, (e.draws (e.used - 1)).1)) (fun e M => (e, settle M (e.draws (e.used - 1)).2.2))

/-- The actions among which the generator chooses. -/
def pairAsked (n : ℕ) (ω : ℕ → Bool × Bool × Bool) : Finset Bool := best (pairTables ω n (tableOf (ω n).1) (ω n).2.1)

def pairPrev (ω : ℕ → Bool × Bool × Bool) : Core.St (PairWorld × DoubleAgent Bool Bool) Bool Bool ℝ Unit Unit :=
  { world := (⟨ω, 0⟩, ⟨fun _ _ _ => 0, fun _ => Policy.decayParam 1 1 none none false, []⟩), state := none, policyState := none, theta := none,
    episodeSteps := 0, nextAction := none, totalEpisodes := 0, totalSteps := 0, currentEpisodes := 0, currentSteps := 0, last := true,
    rows := [], thetas := [], trace := [] }

theorem pair_iter {c : Core.Cfg Bool} (hf : c.fitMode = .steps 1) (hc : c.capacity = some 1) (hini : c.initialStates = none)
    {s s' : Core.St (PairWorld × DoubleAgent Bool Bool) Bool Bool ℝ Unit Unit} (hrows : s.rows = []) (hna : s.nextAction = none)
    (hst : s.last = false → s.state = some false) (h : Core.iter (tdSys pairUser pairRule) c s = .ok s') :
    s'.nextAction = none ∧ (s'.last = false → s'.state = some false) ∧ s'.world.1 = ⟨s.world.1.draws, s.world.1.used + 1⟩ ∧
      (Core.steps s'.trace).map toTrans = (Core.steps s.trace).map toTrans ++ [pairTrans s.world.1.used s.world.1.draws] ∧
      s'.world.2 = (pairRule.update ⟨s.world.1.draws, s.world.1.used + 1⟩ s.world.2 none (pairTrans s.world.1.used s.world.1.draws)).2.1 := by
  unfold Core.iter at h
  rcases Bool.eq_false_or_eq_true s.last with hl | hl
  · simp [hl, Core.reset, Core.getInitialState, hini, tdSys, pairUser, Core.preprocess, Core.step, Core.drawAction, hrows,
      Core.isFull, hc, Core.agentPreprocess, Core.isLast] at h
    subst h
    cases hx : (s.world.1.draws s.world.1.used).2.1 <;>
      simp [Core.fitPhase, Core.fitRequired, hf, pairRule, doubleRule, Core.steps_append, Core.steps, toTrans, pairTrans, hx, id]
  · simp [hl, hst hl, tdSys, pairUser, Core.preprocess, Core.step, Core.drawAction, hrows, hna,
      Core.isFull, hc, Core.agentPreprocess, Core.isLast] at h
    subst h
    cases hx : (s.world.1.draws s.world.1.used).2.1 <;>
      simp [Core.fitPhase, Core.fitRequired, hf, pairRule, doubleRule, Core.steps_append, Core.steps, toTrans, pairTrans, hx]

theorem pair_reach {n : ℕ} {ω : ℕ → Bool × Bool × Bool} {s : Core.St (PairWorld × DoubleAgent Bool Bool) Bool Bool ℝ Unit Unit}
    (h : Core.Reach (tdSys pairUser pairRule) (stepsCfg n) (pairPrev ω) s) :
    s.nextAction = none ∧ (s.last = false → s.state = some false) ∧ s.world.1 = ⟨ω, s.totalSteps⟩ ∧
      (Core.steps s.trace).map toTrans = (List.range s.totalSteps).map (pairTrans · ω) ∧
      s.world.2.Qs = pairTables ω s.totalSteps ∧
      (∀ c, s.world.2.alpha c = tableParam (Policy.decayParam 1 1 none none false) coinKey (pairTrans · ω)
        (fun k => tableOf (ω k).1) (tableOf c) s.totalSteps) ∧
      s.world.2.log = (List.range s.totalSteps).map (fun k => ((ω k).1, if (pairTrans k ω).absorbing then none else some (pairAsked k ω, pairPick k ω))) := by
  induction h with
  | start => exact ⟨rfl, by simp [Core.start], rfl, by simp [Core.start, Core.steps], rfl, fun _ => rfl, rfl⟩
  | @iter s s' hr hm hi ih =>
    obtain ⟨h1, h2, h3, h4, h5, h6, h7⟩ := ih
    obtain ⟨g1, g2, g3, g4, g5⟩ := pair_iter rfl rfl rfl (rows_empty rfl hr) h1 h2 hi
    rw [h3] at g3 g4 g5
    simp only at g3 g4 g5
    rw [iter_totalSteps hi]
    refine ⟨g1, g2, g3, by rw [g4, h4, List.range_succ, List.map_append]; rfl, ?_, fun c => ?_, ?_⟩
    · rw [g5]
      simp only [pairRule, doubleRule, Nat.add_sub_cancel, h5, h6]
      by_cases ha : (pairTrans s.totalSteps ω).absorbing = true
      · exact doubleQ_absorbing ha _ _
      · rw [if_neg ha]; rfl
    · rw [g5, tableParam_succ]
      simp only [pairRule, doubleRule, Nat.add_sub_cancel]
      by_cases hc : c = (ω s.totalSteps).1
      · rw [hc, if_pos rfl, if_pos rfl, h6]
      · rw [if_neg hc, if_neg (fun h => hc (tableOf_inj h).symm), h6]
    · rw [g5]
      simp only [pairRule, doubleRule, Nat.add_sub_cancel, h5, h7]
      rw [List.range_succ, List.map_append]
      congr 1
      by_cases ha : (pairTrans s.totalSteps ω).absorbing = true
      · simp [ha]
      · simp only [if_neg ha, List.map_cons, List.map_nil]; rfl

/-- Three tosses for every transition. -/
def byThrees (ω : ℕ → Bool) (n : ℕ) : Bool × Bool × Bool := (ω (3 * n), ω (3 * n + 1), ω (3 * n + 2))

/-- What the tosses of the first `n` transitions tell. -/
def tossedThrees : Filtration ℕ (inferInstance : MeasurableSpace (ℕ → Bool)) :=
  { seq := fun n => tossed (3 * n), mono' := fun _ _ h => tossed.mono (by omega), le' := fun _ => tossed.le _ }

theorem tossed_known {k n : ℕ} (h : k < n) (b : Bool) : MeasurableSet[tossed n] {ω : ℕ → Bool | ω k = b} := by
  have : Measurable[tossed n] (fun ω : ℕ → Bool => ω k) := by
    refine Measurable.mono (comap_measurable _) ?_ le_rfl
    exact le_biSup (fun k => MeasurableSpace.comap (fun ω : ℕ → Bool => ω k) inferInstance) (show k ∈ Set.Iio n from h)
  exact this (measurableSet_singleton b)

theorem toss_known (n : ℕ) : Measurable[tossed (n + 1)] (fun ω : ℕ → Bool => ω n) := by
  refine Measurable.mono (comap_measurable _) ?_ le_rfl
  exact le_biSup (fun k => MeasurableSpace.comap (fun ω : ℕ → Bool => ω k) inferInstance) (show n ∈ Set.Iio (n + 1) by simp)

/-- What depends on the first tosses only is known after them. -/
theorem tossed_depends {N : ℕ} {T : Set (ℕ → Bool)} (h : ∀ ω ω' : ℕ → Bool, (∀ k, k < N → ω k = ω' k) → ω ∈ T → ω' ∈ T) :
    MeasurableSet[tossed N] T := by
  classical
  have e : T = ⋃ b : {b : Fin N → Bool // (fun k => if hk : k < N then b ⟨k, hk⟩ else false) ∈ T}, ⋂ k : Fin N, {ω | ω k = b.1 k} := by
    ext ω
    simp only [Set.mem_iUnion, Set.mem_iInter, Set.mem_setOf_eq]
    constructor
    · intro hω
      exact ⟨⟨fun k => ω k, h ω _ (fun k hk => by simp [hk]) hω⟩, fun k => rfl⟩
    · rintro ⟨b, hb⟩
      exact h _ _ (fun k hk => by simp [hk, hb ⟨k, hk⟩]) b.2
  rw [e]
  exact MeasurableSet.iUnion (fun b => MeasurableSet.iInter (fun k => tossed_known k.2 _))

theorem pairRate_local {ω ω' : ℕ → Bool × Bool × Bool} {n : ℕ} (h : ∀ k, k < n → ω k = ω' k) (c : Bool) :
    pairRate ω c n = pairRate ω' c n := by
  have e : ∀ m, m ≤ n → tableParam (Policy.decayParam 1 1 none none false) coinKey (pairTrans · ω) (fun k => tableOf (ω k).1) (tableOf c) m =
      tableParam (Policy.decayParam 1 1 none none false) coinKey (pairTrans · ω') (fun k => tableOf (ω' k).1) (tableOf c) m := by
    intro m
    induction m with
    | zero => intro _; rfl
    | succ m ih =>
      intro hm
      rw [tableParam_succ, tableParam_succ, ih (by omega), h m (by omega)]
      rfl
  unfold pairRate doubleRate
  rw [e n le_rfl]
  rfl

theorem pairTables_local {ω ω' : ℕ → Bool × Bool × Bool} {n : ℕ} (h : ∀ k, k < n → ω k = ω' k) : pairTables ω n = pairTables ω' n := by
  induction n with
  | zero => rfl
  | succ n ih =>
    have e : pairTrans n ω = pairTrans n ω' := by unfold pairTrans; rw [h n (by omega)]
    unfold pairTables
    rw [ih (fun k hk => h k (by omega)), pairRate_local (n := n) (fun k hk => h k (by omega)), h n (by omega), e]

theorem threes_experience : Experience coins tossedThrees coinMDP (fun s => s = false) (fun n ω => pairTrans n (byThrees ω)) := by
  refine C145_draws coinMDP _ (fun _ _ y => y) (fun _ _ s' => measurableSet_singleton s') (fun n ω => ω (3 * n + 1)) (fun n => ?_) (fun n => ?_)
    (fun n _ _ s' => coins_half _ s') _ (fun _ _ => rfl) (fun n s a => ?_) (fun _ _ => rfl) (fun _ _ => rfl) (fun _ _ => rfl)
  · exact (toss_known (3 * n + 1)).mono (tossed.mono (by omega)) le_rfl
  · exact indep_of_indep_of_le_right (coins_indep (3 * n + 1)) (tossed.mono (by omega))
  · simp only [pairTrans]
    exact MeasurableSet.const _

theorem threes_draws : GeneratorDraws coins tossedThrees (fun n => tossed (3 * n + 2)) coinMDP (fun n ω => pairTrans n (byThrees ω))
    (fun n ω => (byThrees ω n).1) (fun n ω => pairAsked n (byThrees ω)) (fun n ω => pairPick n (byThrees ω)) := by
  have hlocal : ∀ n {ω ω' : ℕ → Bool}, (∀ k, k < 3 * n + 2 → ω k = ω' k) → pairAsked n (byThrees ω) = pairAsked n (byThrees ω') := by
    intro n ω ω' h
    unfold pairAsked
    rw [pairTables_local (ω := byThrees ω) (ω' := byThrees ω') (fun k hk => by
      unfold byThrees; rw [h _ (by omega), h _ (by omega), h _ (by omega)])]
    unfold byThrees
    rw [h _ (by omega), h (3 * n + 1) (by omega)]
  have hasked : ∀ n M, MeasurableSet[tossed (3 * n + 2)] {ω : ℕ → Bool | pairAsked n (byThrees ω) = M} := by
    intro n M
    refine tossed_depends (fun ω ω' h hω => ?_)
    show pairAsked n (byThrees ω') = M
    rw [← hlocal n h]
    exact hω
  have hpick : ∀ n a', _ := fun n a' => frozen_law (μ := coins) (ℱ := tossed) (n := 3 * n + 2)
    (θ := fun ω : ℕ → Bool => pairAsked n (byThrees ω)) (hasked n) (f := settle) (fun M o => (Set.toFinite _).measurableSet)
    (toss_known (3 * n + 2)) (coins_indep (3 * n + 2)) a'
  have hpair : ∀ n c s', {ω : ℕ → Bool | (byThrees ω n).1 = c ∧ (pairTrans n (byThrees ω)).next = s'} =
      {ω | ω (3 * n) = c} ∩ {ω | ω (3 * n + 1) = s'} := fun n c s' => rfl
  have hone : ∀ n b, coins[Set.indicator {ω : ℕ → Bool | ω n = b} (fun _ => (1 : ℝ)) | tossed n] =ᵐ[coins] fun _ => (1 / 2 : ℝ) := fun n b => by
    have := (frozen_law (μ := coins) (ℱ := tossed) (n := n) (θ := fun _ => ()) (fun _ => MeasurableSet.const _) (f := fun _ y => y)
      (fun _ o => measurableSet_singleton o) (toss_known n) (coins_indep n) b).2
    refine this.trans (Eventually.of_forall (fun ω => ?_))
    exact coins_half n b
  refine ⟨fun n => tossed.mono (by omega), fun n => tossed.mono (show 3 * n + 2 ≤ 3 * (n + 1) by omega), fun n c s' => ?_, fun n c s' => ?_,
    fun n a' => (hpick n a').1, fun n a' => (hpick n a').2.trans (Eventually.of_forall (fun ω => ?_))⟩
  · rw [hpair]
    exact (tossed_known (by omega) c).inter (tossed_known (by omega) s')
  · rw [hpair]
    have e : Set.indicator ({ω : ℕ → Bool | ω (3 * n) = c} ∩ {ω | ω (3 * n + 1) = s'}) (fun _ => (1 : ℝ)) =
        Set.indicator {ω : ℕ → Bool | ω (3 * n) = c} (fun _ => (1 : ℝ)) * Set.indicator {ω | ω (3 * n + 1) = s'} (fun _ => (1 : ℝ)) := by
      funext ω
      rw [Pi.mul_apply]
      simp only [Set.indicator, Set.mem_inter_iff]
      by_cases h1 : ω ∈ {ω : ℕ → Bool | ω (3 * n) = c} <;> by_cases h2 : ω ∈ {ω : ℕ → Bool | ω (3 * n + 1) = s'} <;> simp [h1, h2]
    have hm1 : StronglyMeasurable[tossed (3 * n + 1)] (Set.indicator {ω : ℕ → Bool | ω (3 * n) = c} (fun _ => (1 : ℝ))) :=
      stronglyMeasurable_const.indicator (tossed_known (by omega) c)
    have hi2 : ∀ k b, Integrable (Set.indicator {ω : ℕ → Bool | ω k = b} (fun _ => (1 : ℝ))) coins := fun k b =>
      (integrable_const _).indicator (tossed.le _ _ (tossed_known (Nat.lt_succ_self k) b))
    have hi : Integrable (Set.indicator {ω : ℕ → Bool | ω (3 * n) = c} (fun _ => (1 : ℝ)) *
        Set.indicator {ω | ω (3 * n + 1) = s'} (fun _ => (1 : ℝ))) coins := by
      rw [← e]
      exact (integrable_const _).indicator ((tossed.le _ _ (tossed_known (Nat.lt_succ_self _) c)).inter
        (tossed.le _ _ (tossed_known (Nat.lt_succ_self _) s')))
    rw [e]
    have g1 := condExp_mul_of_stronglyMeasurable_left hm1 hi (hi2 (3 * n + 1) s')
    have g1' : coins[Set.indicator {ω : ℕ → Bool | ω (3 * n) = c} (fun _ => (1 : ℝ)) *
        Set.indicator {ω | ω (3 * n + 1) = s'} (fun _ => (1 : ℝ)) | tossed (3 * n + 1)] =ᵐ[coins]
        (1 / 2 : ℝ) • Set.indicator {ω : ℕ → Bool | ω (3 * n) = c} (fun _ => (1 : ℝ)) := by
      filter_upwards [g1, hone (3 * n + 1) s'] with ω k1 k2
      rw [k1, Pi.mul_apply, k2, Pi.smul_apply, smul_eq_mul, mul_comm]
    have g2 := condExp_condExp_of_le (μ := coins) (f := Set.indicator {ω : ℕ → Bool | ω (3 * n) = c} (fun _ => (1 : ℝ)) *
        Set.indicator {ω | ω (3 * n + 1) = s'} (fun _ => (1 : ℝ))) (tossed.mono (Nat.le_succ (3 * n))) (tossed.le _)
    filter_upwards [g2, condExp_congr_ae (m := tossed (3 * n)) g1',
      condExp_smul (μ := coins) (1 / 2 : ℝ) (Set.indicator {ω : ℕ → Bool | ω (3 * n) = c} (fun _ => (1 : ℝ))) (tossed (3 * n)),
      hone (3 * n) c] with ω k1 k2 k3 k4
    rw [Pi.smul_apply, k4] at k3
    exact k1.symm.trans (k2.trans k3)
  · show coins.real {ω' | settle (pairAsked n (byThrees ω)) (ω' (3 * n + 2)) = a'} = uniform (pairAsked n (byThrees ω)) a'
    rw [← settle_uniform (show (pairAsked n (byThrees ω)).Nonempty from best_nonempty _) a']
    have h1 : coins {ω' | settle (pairAsked n (byThrees ω)) (ω' (3 * n + 2)) = a'} = coin {b | settle (pairAsked n (byThrees ω)) b = a'} := by
      have := congrArg (fun ν => ν {b | settle (pairAsked n (byThrees ω)) b = a'}) (Measure.infinitePi_map_eval (fun _ : ℕ => coin) (3 * n + 2))
      rw [Measure.map_apply (measurable_pi_apply _) (Set.toFinite _).measurableSet] at this
      exact this
    rw [Measure.real, Measure.real, h1]

/-- All the hypotheses of `C147_learn` are met by the runs of this agent. -/
example : ∃ Qs : Table Bool Bool, coinMDP.OptimalOn (fun s => s = false) (1 / 2) Qs ∧
    ∃ s : ℕ → (ℕ → Bool) → Core.St (PairWorld × DoubleAgent Bool Bool) Bool Bool ℝ Unit Unit,
      (∀ n ω, Core.learn (tdSys pairUser pairRule) n (pairPrev (byThrees ω)) (some n) none (some 1) none = some (.ok (s n ω))) ∧
      ∀ᵐ ω ∂coins, ∀ x, x = false → ∀ a, Tendsto (fun n => (s n ω).world.2.Qs 0 x a) atTop (𝓝 (Qs x a)) := by
  obtain ⟨Qs, hQs⟩ := C145_optimal_exists coinMDP coinMDP_proper (fun s => s = false) (1 / 2) (by norm_num) (by norm_num)
  have hex : ∀ n ω, ∃ s, Core.learn (tdSys pairUser pairRule) n (pairPrev (byThrees ω)) (some n) none (some 1) none = some (.ok s) :=
    fun n ω => by
      obtain ⟨s, hs⟩ := Core.C01_learn_by_steps (tdSys pairUser pairRule) (pairPrev (byThrees ω)) n 1 le_rfl
      exact ⟨s, hs.1 n le_rfl⟩
  choose s hs using hex
  have hinv : ∀ n ω, (s n ω).totalSteps = n ∧ _ := fun n ω => by
    obtain ⟨r, hn⟩ := learn_steps_reach (hs n ω)
    exact ⟨Nat.le_antisymm (reach_mono (Nat.le_refl n) r).2 hn, pair_reach r⟩
  refine ⟨Qs, hQs, s, hs, ?_⟩
  have := C147_learn pairUser _ _ coinKey coinKey_inj 1 1 (by norm_num) (by norm_num)
    (by norm_num) (by norm_num) coinMDP coinMDP_proper _ coinMDP_closed (1 / 2) (by norm_num) (by norm_num) Qs hQs (fun _ _ _ => 0)
    (fun ω => pairPrev (byThrees ω)) s
    (fun n ω => ⟨n, hs n ω⟩) (fun ω => ⟨rfl, fun _ => rfl⟩) _
    (fun n ω => by obtain ⟨e, h⟩ := hinv n ω; rw [e] at h; exact h.2.2.2.1) threes_experience
    (Eventually.of_forall (fun ω => pair_explores (byThrees ω))) _ (fun n ω => pairAsked n (byThrees ω)) _
    (fun n ω => by obtain ⟨e, h⟩ := hinv n ω; rw [e] at h; exact h.2.2.2.2.2.2)
    (fun n ω _ => by obtain ⟨e, h⟩ := hinv n ω; rw [e] at h; rw [h.2.2.2.2.1]; rfl) _ threes_draws
  filter_upwards [this] with ω h x hx a
  exact (h.1 x hx a).1

end

end Verif.TD
