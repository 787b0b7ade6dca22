/-
Property C151, continued: SARSA and expected SARSA that choose their actions themselves.
-/
import Verif.TD.PropsGlieExists

namespace Verif.TD

open Filter Topology MeasureTheory

noncomputable section

variable {S A : Type} [DecidableEq S] [DecidableEq A] [Fintype S] [Fintype A] [Nonempty A]
variable {Ω : Type} [mΩ : MeasurableSpace Ω] {μ : Measure Ω} [IsProbabilityMeasure μ] {ℱ 𝒢 : Filtration ℕ mΩ}

theorem state_measurable {t : ℕ → Ω → Trans S A} (hpast : ∀ n s a, MeasurableSet[ℱ n] {ω | (t n ω).state = s ∧ (t n ω).action = a}) (n : ℕ) (s : S) :
    MeasurableSet[ℱ n] {ω | (t n ω).state = s} := by
  have : {ω | (t n ω).state = s} = ⋃ a, {ω | (t n ω).state = s ∧ (t n ω).action = a} := by ext ω; simp
  rw [this]
  exact MeasurableSet.iUnion fun a => hpast n s a

theorem timesIn_measurable {t : ℕ → Ω → Trans S A} (hpast : ∀ n s a, MeasurableSet[ℱ n] {ω | (t n ω).state = s ∧ (t n ω).action = a}) (s : S) (n : ℕ) :
    Measurable[ℱ n] (fun ω => timesIn s (t · ω) (n + 1)) := by
  unfold timesIn
  refine @Finset.measurable_fun_sum _ _ _ _ _ _ (ℱ n) _ (Finset.range (n + 1)) (fun k hk => ?_)
  exact Measurable.ite (ℱ.mono (Nat.lt_succ_iff.1 (Finset.mem_range.1 hk)) _ (state_measurable hpast k s)) measurable_const measurable_const

/-! ### Expected SARSA -/

/-- The value that a call of the policy (`self._epsilon.get_value(state)`: td_policy.py L66) finds in state `s` when the `n`-th transition is learned. -/
def epsSeen (p : Policy.Param) (key : S → Policy.Index) (t : ℕ → Trans S A) (n : ℕ) (s : S) : ℝ := (epsAfter p key t (n + 1)).getValue (key s)

theorem visits_timesIn {key : S → Policy.Index} (hkey : ∀ s s', key s = key s' → s = s') (t : ℕ → Trans S A) (n : ℕ) (s : S) :
    Policy.visits false (key s) ((List.range n).map fun k => .call (key (t k).state)) = timesIn s t n := by
  induction n with
  | zero => simp [timesIn, Policy.visits]
  | succ n ih =>
    rw [List.range_succ, List.map_append, Policy.visits_append, ih]
    simp only [List.map_cons, List.map_nil, Policy.visits, timesIn_succ, Nat.add_zero]
    congr 1
    by_cases h : (t n).state = s
    · rw [h]; simp
    · have : ¬ (key (t n).state = key s) := fun h' => h (hkey _ _ h')
      simp [h, this]

theorem epsSeen_decay {key : S → Policy.Index} (hkey : ∀ s s', key s = key s' → s = s') (v p : ℝ) (t : ℕ → Trans S A) (n : ℕ) (s : S) :
    epsSeen (Policy.decayParam v p none none false) key t n s = v / (max (timesIn s t (n + 1) : ℝ) 1) ^ p := by
  unfold epsSeen epsAfter
  rw [Policy.C25_decay, visits_timesIn hkey]
  simp [Policy.clip]

/-- C151. Expected SARSA that chooses its actions itself, with `EpsGreedy` and decaying parameters, in a finite problem in which every live state can be reached from every
other one: with probability one the table converges to the optimal action values. Nothing is assumed about what the agent explores. -/
theorem C151_expected_sarsa_run (m : RandomMDP S A) (hm : m.Proper) (L : S → Prop) (hcl : m.Closed L) (s0 : S) (hcom : m.Communicating L s0) (γ : ℝ) (hγ0 : 0 ≤ γ)
    (hγ1 : γ < 1) (Qs : Table S A) (hQs : m.OptimalOn L γ Qs) (t : ℕ → Ω → Trans S A) (ht : Experience μ ℱ m L t) (hre : ∀ ω, Restarts s0 (t · ω))
    (key : S → Policy.Index) (hkey : ∀ s s', key s = key s' → s = s') (v p : ℝ) (hv0 : 0 < v) (hv1 : v ≤ 1) (hp0 : 0 < p) (hp1 : p ≤ 1)
    (key2 : S → A → Policy.Index) (hkey2 : ∀ s a s' a', key2 s a = key2 s' a' → s = s' ∧ a = a') (w r : ℝ) (hw0 : 0 < w) (hw1 : w ≤ 1) (hr0 : 1 / 2 < r) (hr1 : r ≤ 1)
    (Q0 : Table S A) (Q : ℕ → Ω → Table S A)
    (hQ : ∀ n ω, Q n ω = tables (fun k Q => expectedSarsa γ (rateAt (Policy.decayParam w r none none false) key2 (t · ω) k) Q (t k ω)
      (epsGreedy (epsSeen (Policy.decayParam v p none none false) key (t · ω) k (t k ω).next) (Q (t k ω).next))) Q0 n)
    (hd : ActionDraws μ ℱ 𝒢 (fun n ω s => epsGreedy (epsAt (Policy.decayParam v p none none false) key (t · ω) n s) (Q n ω s)) t) :
    ∀ᵐ ω ∂μ, ∀ s, L s → ∀ a, Tendsto (fun n => Q n ω s a) atTop (𝓝 (Qs s a)) := by
  have hexp := C151_explores_all m L s0 hcom t ht hre key hkey v p hv0 hv1 hp0.le hp1 Q hd
  have hα := C145_decay_rates (ℱ := ℱ) (μ := μ) L t ht.past key2 hkey2 w r hw0 hw1 hr0 hr1 (hexp.mono fun ω h => h.2)
  have hone : ∀ k : ℕ, (1 : ℝ) ≤ (max (k : ℝ) 1) ^ p := fun k => Real.one_le_rpow (le_max_right _ _) hp0.le
  simp only [hQ]
  refine C151_expected_sarsa m hm L hcl γ hγ0 hγ1 Qs hQs t ht _ hα Q0 (fun n ω s => epsSeen (Policy.decayParam v p none none false) key (t · ω) n s)
    (fun n s => ?_) (fun n ω s => ?_) ?_
  · simp only [epsSeen_decay hkey]
    exact (measurable_of_countable (fun k : ℕ => v / (max (k : ℝ) 1) ^ p)).comp (timesIn_measurable ht.past s n)
  · rw [epsSeen_decay hkey]
    have := hone (timesIn s (t · ω) (n + 1))
    exact ⟨div_nonneg hv0.le (by linarith), (div_le_one (by linarith)).2 (by linarith)⟩
  · filter_upwards [hexp] with ω h s hs
    simp only [epsSeen_decay hkey]
    have h1 : Tendsto (fun k : ℕ => (max (k : ℝ) 1) ^ p) atTop atTop :=
      (tendsto_rpow_atTop hp0).comp (tendsto_atTop_mono (fun k => le_max_left _ _) tendsto_natCast_atTop_atTop)
    exact ((h1.comp ((timesIn_tendsto (h.1 s hs)).comp (tendsto_add_atTop_nat 1))).const_div_atTop v)

/-! ### SARSA -/

/-- The table with which SARSA draws the action of the `n`-th transition. While an episode goes on this action is drawn in the update with the transition before, from the
table before this update (sarsa.py L18, agent.py L94-104); the first action of an episode is drawn from the table after it. -/
def drawsWith (Q : ℕ → Table S A) (t : ℕ → Trans S A) : ℕ → Table S A
  | 0 => Q 0
  | n + 1 => if (t n).absorbing then Q (n + 1) else Q n

theorem sarsa_unused {γ α : ℝ} {Q : Table S A} {t : Trans S A} {b b' : A} (h : t.absorbing = false → b = b') : sarsa γ α Q t b = sarsa γ α Q t b' := by
  cases hb : t.absorbing with
  | true => simp [sarsa, hb]
  | false => rw [h hb]

/-- C151. SARSA that chooses its actions itself, with `EpsGreedy` and decaying parameters, in a finite problem in which every live state can be reached from every other one
and no episode ends in a live state: with probability one the table converges to the optimal action values. `b n` is the action that the update with the `n`-th
transition draws in the next state and that the agent takes there. -/
theorem C151_sarsa_run (m : RandomMDP S A) (hm : m.Proper) (L : S → Prop) (hcl : m.Closed L) (s0 : S) (hcom : m.Communicating L s0)
    (hend : ∀ s a s', L s → m.absorbing s a s' = true → ¬ L s') (γ : ℝ) (hγ0 : 0 ≤ γ)
    (hγ1 : γ < 1) (Qs : Table S A) (hQs : m.OptimalOn L γ Qs) (t : ℕ → Ω → Trans S A) (ht : Experience μ ℱ m L t) (hre : ∀ ω, Restarts s0 (t · ω))
    (key : S → Policy.Index) (hkey : ∀ s s', key s = key s' → s = s') (v p : ℝ) (hv0 : 0 < v) (hv1 : v ≤ 1) (hp0 : 0 < p) (hp1 : p ≤ 1)
    (key2 : S → A → Policy.Index) (hkey2 : ∀ s a s' a', key2 s a = key2 s' a' → s = s' ∧ a = a') (w r : ℝ) (hw0 : 0 < w) (hw1 : w ≤ 1) (hr0 : 1 / 2 < r) (hr1 : r ≤ 1)
    (Q0 : Table S A) (b : ℕ → Ω → A) (hb : ∀ n ω, (t n ω).absorbing = false → (t (n + 1) ω).action = b n ω) (Q : ℕ → Ω → Table S A)
    (hQ : ∀ n ω, Q n ω = tables (fun k Q => sarsa γ (rateAt (Policy.decayParam w r none none false) key2 (t · ω) k) Q (t k ω) (b k ω)) Q0 n)
    (hnext : ∀ n s', MeasurableSet[𝒢 (n + 1)] {ω | (t n ω).next = s'})
    (hd : ActionDraws μ ℱ 𝒢 (fun n ω s => epsGreedy (epsAt (Policy.decayParam v p none none false) key (t · ω) n s) (drawsWith (Q · ω) (t · ω) n s)) t) :
    ∀ᵐ ω ∂μ, ∀ s, L s → ∀ a, Tendsto (fun n => Q n ω s a) atTop (𝓝 (Qs s a)) := by
  classical
  have hexp := C151_explores_all m L s0 hcom t ht hre key hkey v p hv0 hv1 hp0.le hp1 (fun n ω => drawsWith (Q · ω) (t · ω) n) hd
  have hα := C145_decay_rates (ℱ := ℱ) (μ := μ) L t ht.past key2 hkey2 w r hw0 hw1 hr0 hr1 (hexp.mono fun ω h => h.2)
  have htab : ∀ n ω, tables (fun k Q => sarsa γ (rateAt (Policy.decayParam w r none none false) key2 (t · ω) k) Q (t k ω) (t (k + 1) ω).action) Q0 n = Q n ω := by
    intro n ω
    rw [hQ]
    exact tables_congr fun k _ => funext fun Q => sarsa_unused (hb k ω)
  let x : ℕ → Ω → S → A → ℝ := fun n ω s' a => if (t n ω).state = s0 ∧ (t n ω).action = a then
    Q n ω s0 a + rateAt (Policy.decayParam w r none none false) key2 (t · ω) n * (m.reward s0 a s' - Q n ω s0 a) else Q n ω s0 a
  let π : ℕ → Ω → S → A → ℝ := fun n ω s' => if L s' then epsGreedy (epsAt (Policy.decayParam v p none none false) key (t · ω) (n + 1) s') (Q n ω s')
    else epsGreedy (epsAt (Policy.decayParam v p none none false) key (t · ω) (n + 1) s0) (x n ω s')
  have hπ : ∀ n ω s, Prob (π n ω s) := by
    intro n ω s
    simp only [π]
    split
    · exact epsGreedy_prob (epsAt_range hkey hv0 hv1 hp0.le _ _ _).1 (epsAt_range hkey hv0 hv1 hp0.le _ _ _).2 _
    · exact epsGreedy_prob (epsAt_range hkey hv0 hv1 hp0.le _ _ _).1 (epsAt_range hkey hv0 hv1 hp0.le _ _ _).2 _
  -- the draw, seen from the transition before
  have hsame : ∀ n ω, epsGreedy (epsAt (Policy.decayParam v p none none false) key (t · ω) (n + 1) (t (n + 1) ω).state)
      (drawsWith (Q · ω) (t · ω) (n + 1) (t (n + 1) ω).state) = π n ω (t n ω).next := by
    intro n ω
    have hs := hre ω n
    cases hab : (t n ω).absorbing with
    | true =>
      rw [hab, if_pos rfl] at hs
      have hnl : ¬ L (t n ω).next := hend _ _ _ (ht.live n ω) (by rw [← ht.absorbing]; exact hab)
      simp only [π, hnl, if_false, hs, drawsWith, hab, if_true]
      congr 1
      funext a
      rw [hQ (n + 1)]
      simp only [tables]
      rw [← hQ]
      simp only [sarsa, hab, Table.set, x, ht.reward n ω]
      by_cases h : (t n ω).state = s0 ∧ (t n ω).action = a
      · rw [if_pos ⟨h.1.symm, h.2.symm⟩, if_pos h, h.1, h.2]
        simp
      · rw [if_neg (fun h' => h ⟨h'.1.symm, h'.2.symm⟩), if_neg h]
    | false =>
      rw [hab, if_neg (by simp)] at hs
      have hl : L (t n ω).next := by rw [← hs]; exact ht.live _ _
      simp only [π, hl, if_true, hs, drawsWith, hab, Bool.false_eq_true, if_false]
  have hem : ∀ n s, Measurable[ℱ n] (fun ω => epsAt (Policy.decayParam v p none none false) key (t · ω) (n + 1) s) := by
    intro n s
    simp only [epsAt_decay hkey]
    exact (measurable_of_countable (fun k : ℕ => v / ((k + 1 : ℕ) : ℝ) ^ p)).comp (timesIn_measurable ht.past s n)
  have hπm : ∀ n, (∀ s a, Measurable[ℱ n] (fun ω => Q n ω s a)) → ∀ s a, Measurable[ℱ n] (fun ω => π n ω s a) := by
    intro n h s a
    by_cases hs : L s
    · simp only [π, hs, if_true]
      exact epsGreedy_measurable (hem n s) (fun a => h s a) a
    · simp only [π, hs, if_false]
      refine epsGreedy_measurable (hem n s0) (fun a => ?_) a
      exact Measurable.ite (ht.past n s0 a) ((h s0 a).add ((hα.known n).mul (measurable_const.sub (h s0 a)))) (h s0 a)
  -- the tables depend on the past only
  have hQm : ∀ n s a, Measurable[ℱ n] (fun ω => Q n ω s a) := by
    intro n
    induction n with
    | zero => intro s a; simp only [hQ, tables]; exact measurable_const
    | succ n ih =>
      intro s a
      have hle : ℱ n ≤ ℱ (n + 1) := ℱ.mono (Nat.le_succ n)
      have e : (fun ω => Q (n + 1) ω s a) = fun ω => if (t n ω).state = s ∧ (t n ω).action = a then
          Q n ω s a + rateAt (Policy.decayParam w r none none false) key2 (t · ω) n *
            ((∑ s', if (t n ω).next = s' then m.reward s a s' + γ * (if m.absorbing s a s' then 0 else ∑ a', if (t (n + 1) ω).action = a' then Q n ω s' a' else 0) else 0) -
              Q n ω s a) else Q n ω s a := by
        funext ω
        have e1 : Q (n + 1) ω = sarsa γ (rateAt (Policy.decayParam w r none none false) key2 (t · ω) n) (Q n ω) (t n ω) (t (n + 1) ω).action := by
          rw [← htab (n + 1), ← htab n]; rfl
        rw [e1]
        simp only [sarsa, Table.set, Finset.sum_ite_eq, Finset.mem_univ, if_true]
        by_cases h : (t n ω).state = s ∧ (t n ω).action = a
        · rw [if_pos ⟨h.1.symm, h.2.symm⟩, if_pos h, ht.reward, ← not_ite, ht.absorbing, h.1, h.2]
        · rw [if_neg (fun h' => h ⟨h'.1.symm, h'.2.symm⟩), if_neg h]
      have hact : ∀ a, MeasurableSet[ℱ (n + 1)] {ω | (t (n + 1) ω).action = a} := fun a => by
        have : {ω | (t (n + 1) ω).action = a} = ⋃ s, {ω | (t (n + 1) ω).state = s ∧ (t (n + 1) ω).action = a} := by ext ω; simp
        rw [this]
        exact MeasurableSet.iUnion fun s => ht.past (n + 1) s a
      rw [e]
      have hq : ∀ s a, Measurable[ℱ (n + 1)] (fun ω => Q n ω s a) := fun s a => (ih s a).mono hle le_rfl
      refine Measurable.ite (hle _ (ht.past n s a)) ((hq s a).add (((hα.known n).mono hle le_rfl).mul (Measurable.sub ?_ (hq s a)))) (hq s a)
      refine @Finset.measurable_fun_sum _ _ _ _ _ _ (ℱ (n + 1)) _ Finset.univ (fun s' _ => ?_)
      refine Measurable.ite (ht.known n s') (measurable_const.add (measurable_const.mul ?_)) measurable_const
      split
      · exact measurable_const
      · refine @Finset.measurable_fun_sum _ _ _ _ _ _ (ℱ (n + 1)) _ Finset.univ (fun a' _ => ?_)
        exact Measurable.ite (hact a') (hq s' a') measurable_const
  have hdraws : NextDraws μ ℱ m π t (fun n ω => (t (n + 1) ω).action) := by
    have hact : ∀ n a, MeasurableSet[ℱ (n + 1)] {ω | (t (n + 1) ω).action = a} := fun n a => by
      have : {ω | (t (n + 1) ω).action = a} = ⋃ s, {ω | (t (n + 1) ω).state = s ∧ (t (n + 1) ω).action = a} := by ext ω; simp
      rw [this]
      exact MeasurableSet.iUnion fun s => ht.past (n + 1) s a
    refine ⟨fun n s' a' => (ht.known n s').inter (hact n a'), fun n s' a' => ?_⟩
    have hind : Integrable (Set.indicator {ω | (t (n + 1) ω).action = a'} (fun _ => (1 : ℝ))) μ := (integrable_const _).indicator (ℱ.le _ _ (hact n a'))
    have h1 : μ[Set.indicator {ω | (t n ω).next = s' ∧ (t (n + 1) ω).action = a'} (fun _ => (1 : ℝ)) | 𝒢 (n + 1)] =ᵐ[μ]
        (fun ω => π n ω s' a') * Set.indicator {ω | (t n ω).next = s'} (fun _ => (1 : ℝ)) := by
      have e : Set.indicator {ω | (t n ω).next = s' ∧ (t (n + 1) ω).action = a'} (fun _ => (1 : ℝ)) =
          Set.indicator {ω | (t n ω).next = s'} (Set.indicator {ω | (t (n + 1) ω).action = a'} (fun _ => (1 : ℝ))) := by
        rw [Set.indicator_indicator]; rfl
      rw [e]
      filter_upwards [condExp_indicator (m := 𝒢 (n + 1)) (μ := μ) hind (hnext n s'), hd.law (n + 1) a'] with ω k1 k2
      rw [k1, Pi.mul_apply]
      by_cases h : (t n ω).next = s'
      · rw [Set.indicator_of_mem (by exact h), Set.indicator_of_mem (by exact h), k2, hsame, h, mul_one]
      · rw [Set.indicator_of_notMem (by exact h), Set.indicator_of_notMem (by exact h), mul_zero]
    have h2 := condExp_condExp_of_le (μ := μ) (f := Set.indicator {ω | (t n ω).next = s' ∧ (t (n + 1) ω).action = a'} (fun _ => (1 : ℝ))) (hd.after n) (𝒢.le (n + 1))
    have hbound : ∀ ω, |π n ω s' a'| ≤ 1 := fun ω => by
      rw [abs_of_nonneg ((hπ n ω s').1 a'), ← (hπ n ω s').2]
      exact Finset.single_le_sum (f := π n ω s') (fun a _ => (hπ n ω s').1 a) (Finset.mem_univ a')
    have hsm : StronglyMeasurable[ℱ n] (fun ω => π n ω s' a') := (hπm n (hQm n) s' a').stronglyMeasurable
    have hin : Integrable (Set.indicator {ω | (t n ω).next = s'} (fun _ => (1 : ℝ))) μ := (integrable_const _).indicator (ℱ.le _ _ (ht.known n s'))
    have h3 := condExp_mul_of_stronglyMeasurable_left (μ := μ) hsm (hin.bdd_mul (c := 1) (hsm.mono (ℱ.le n)).aestronglyMeasurable
      (Eventually.of_forall fun ω => by rw [Real.norm_eq_abs]; exact hbound ω)) hin
    filter_upwards [h2, condExp_congr_ae (m := ℱ n) h1, h3, ht.law n s'] with ω k1 k2 k3 k4
    rw [← k1, k2, k3, Pi.mul_apply, k4, mul_comm]
  have hconv := sarsa_converges m hm L hcl γ hγ0 hγ1 Qs hQs t ht (fun n ω => (t (n + 1) ω).action) π hπ hdraws _ hα Q0
    (fun n h => hπm n (by simpa only [htab] using h)) (by
      filter_upwards [hexp] with ω h s hs
      simp only [htab]
      have hz := (C151_eps_vanishes (v := v) hkey hp0 (h.1 s hs)).comp (tendsto_add_atTop_nat 1)
      refine squeeze_zero (fun n => ?_) (fun n => ?_) hz
      · exact Finset.sum_nonneg fun a _ => (hπ n ω s).1 a
      · simp only [π, hs, if_true]
        exact (epsGreedy_rest (epsAt_range hkey hv0 hv1 hp0.le (t · ω) (n + 1) s).1 _).2)
  simpa only [htab] using hconv

/-! ### The hypotheses can be met -/

theorem epsSeen_congr (p : Policy.Param) (key : S → Policy.Index) {t t' : ℕ → Trans S A} {n : ℕ} (h : ∀ k, k ≤ n → t k = t' k) (s : S) :
    epsSeen p key t n s = epsSeen p key t' n s := by
  unfold epsSeen epsAfter
  rw [List.map_congr_left (fun k hk => by rw [h k (Nat.lt_succ_iff.1 (List.mem_range.1 hk))] :
    ∀ k ∈ List.range (n + 1), Policy.Op.call (key (t k).state) = .call (key (t' k).state))]

/-- C151. There is random experience that meets the hypotheses of `C151_expected_sarsa_run` in every finite problem in which every live state can be reached from every other
one; so expected SARSA finds the optimal values there. -/
theorem C151_expected_sarsa_runs_exist (m : RandomMDP S A) (hm : m.Proper) (L : S → Prop) (hcl : m.Closed L) (s0 : S) (h0 : L s0) (hcom : m.Communicating L s0)
    (γ : ℝ) (hγ0 : 0 ≤ γ) (hγ1 : γ < 1) (Qs : Table S A) (hQs : m.OptimalOn L γ Qs) (key : S → Policy.Index) (hkey : ∀ s s', key s = key s' → s = s')
    (v p : ℝ) (hv0 : 0 < v) (hv1 : v ≤ 1) (hp0 : 0 < p) (hp1 : p ≤ 1)
    (key2 : S → A → Policy.Index) (hkey2 : ∀ s a s' a', key2 s a = key2 s' a' → s = s' ∧ a = a') (w r : ℝ) (hw0 : 0 < w) (hw1 : w ≤ 1) (hr0 : 1 / 2 < r) (hr1 : r ≤ 1)
    (Q0 : Table S A) :
    ∃ (Ω : Type) (mΩ : MeasurableSpace Ω) (μ : Measure Ω) (_ : IsProbabilityMeasure μ) (ℱ 𝒢 : Filtration ℕ mΩ) (t : ℕ → Ω → Trans S A) (Q : ℕ → Ω → Table S A),
      Experience μ ℱ m L t ∧ (∀ ω, Restarts s0 (t · ω)) ∧
      (∀ n ω, Q n ω = tables (fun k Q => expectedSarsa γ (rateAt (Policy.decayParam w r none none false) key2 (t · ω) k) Q (t k ω)
        (epsGreedy (epsSeen (Policy.decayParam v p none none false) key (t · ω) k (t k ω).next) (Q (t k ω).next))) Q0 n) ∧
      ActionDraws μ ℱ 𝒢 (fun n ω s => epsGreedy (epsAt (Policy.decayParam v p none none false) key (t · ω) n s) (Q n ω s)) t ∧
      ∀ᵐ ω ∂μ, ∀ s, L s → ∀ a, Tendsto (fun n => Q n ω s a) atTop (𝓝 (Qs s a)) := by
  classical
  obtain ⟨a0⟩ := id ‹Nonempty A›
  let d : Trans S A := { state := s0, action := a0, reward := 0, next := s0, absorbing := false }
  let tab : (ℕ → Trans S A) → ℕ → Table S A := fun t => tables (fun k Q => expectedSarsa γ (rateAt (Policy.decayParam w r none none false) key2 t k) Q (t k)
    (epsGreedy (epsSeen (Policy.decayParam v p none none false) key t k (t k).next) (Q (t k).next))) Q0
  let plan : List (Trans S A) → S → A → ℝ := fun h s => epsGreedy (epsAt (Policy.decayParam v p none none false) key (fun k => h.getD k d) h.length s)
    (tab (fun k => h.getD k d) h.length s)
  obtain ⟨Ω, mΩ, μ, hμ, ℱ, 𝒢, t, ht, hd, -, hre⟩ := C151_experience_exists m hm L hcl s0 h0 plan
    (fun h s => epsGreedy_prob (epsAt_range hkey hv0 hv1 hp0.le _ _ _).1 (epsAt_range hkey hv0 hv1 hp0.le _ _ _).2 _)
  have hsame : ∀ n ω s, plan ((List.range n).map (t · ω)) s = epsGreedy (epsAt (Policy.decayParam v p none none false) key (t · ω) n s) (tab (t · ω) n s) := by
    intro n ω s
    have hk : ∀ k, k < n → ((List.range n).map (t · ω)).getD k d = t k ω := fun k hk => by simp [hk]
    have e : tab (fun k => ((List.range n).map (t · ω)).getD k d) n = tab (t · ω) n := by
      refine tables_congr fun k hlt => ?_
      funext Q
      beta_reduce
      rw [hk k hlt, rateAt_congr _ _ (fun j hj => hk j (by omega)), epsSeen_congr _ _ (fun j hj => hk j (by omega))]
    simp only [plan, List.length_map, List.length_range]
    rw [epsAt_congr _ _ hk, e]
  simp only [hsame] at hd
  refine ⟨Ω, mΩ, μ, hμ, ℱ, 𝒢, t, _, ht, fun ω => (hre ω).1, fun n ω => rfl, hd, ?_⟩
  exact C151_expected_sarsa_run m hm L hcl s0 hcom γ hγ0 hγ1 Qs hQs t ht (fun ω => (hre ω).1) key hkey v p hv0 hv1 hp0 hp1 key2 hkey2 w r hw0 hw1 hr0 hr1 Q0 _
    (fun n ω => rfl) hd

/-- C151. There is random experience that meets the hypotheses of `C151_sarsa_run` in every finite problem in which every live state can be reached from every other one and
no episode ends in a live state; so SARSA finds the optimal values there. -/
theorem C151_sarsa_runs_exist (m : RandomMDP S A) (hm : m.Proper) (L : S → Prop) (hcl : m.Closed L) (s0 : S) (h0 : L s0) (hcom : m.Communicating L s0)
    (hend : ∀ s a s', L s → m.absorbing s a s' = true → ¬ L s')
    (γ : ℝ) (hγ0 : 0 ≤ γ) (hγ1 : γ < 1) (Qs : Table S A) (hQs : m.OptimalOn L γ Qs) (key : S → Policy.Index) (hkey : ∀ s s', key s = key s' → s = s')
    (v p : ℝ) (hv0 : 0 < v) (hv1 : v ≤ 1) (hp0 : 0 < p) (hp1 : p ≤ 1)
    (key2 : S → A → Policy.Index) (hkey2 : ∀ s a s' a', key2 s a = key2 s' a' → s = s' ∧ a = a') (w r : ℝ) (hw0 : 0 < w) (hw1 : w ≤ 1) (hr0 : 1 / 2 < r) (hr1 : r ≤ 1)
    (Q0 : Table S A) :
    ∃ (Ω : Type) (mΩ : MeasurableSpace Ω) (μ : Measure Ω) (_ : IsProbabilityMeasure μ) (ℱ 𝒢 : Filtration ℕ mΩ) (t : ℕ → Ω → Trans S A) (b : ℕ → Ω → A)
      (Q : ℕ → Ω → Table S A),
      Experience μ ℱ m L t ∧ (∀ ω, Restarts s0 (t · ω)) ∧ (∀ n ω, (t n ω).absorbing = false → (t (n + 1) ω).action = b n ω) ∧
      (∀ n ω, Q n ω = tables (fun k Q => sarsa γ (rateAt (Policy.decayParam w r none none false) key2 (t · ω) k) Q (t k ω) (b k ω)) Q0 n) ∧
      ActionDraws μ ℱ 𝒢 (fun n ω s => epsGreedy (epsAt (Policy.decayParam v p none none false) key (t · ω) n s) (drawsWith (Q · ω) (t · ω) n s)) t ∧
      ∀ᵐ ω ∂μ, ∀ s, L s → ∀ a, Tendsto (fun n => Q n ω s a) atTop (𝓝 (Qs s a)) := by
  classical
  obtain ⟨a0⟩ := id ‹Nonempty A›
  let d : Trans S A := { state := s0, action := a0, reward := 0, next := s0, absorbing := false }
  let tab : (ℕ → Trans S A) → ℕ → Table S A := fun t => tables (fun k Q => sarsa γ (rateAt (Policy.decayParam w r none none false) key2 t k) Q (t k) (t (k + 1)).action) Q0
  let plan : List (Trans S A) → S → A → ℝ := fun h s => epsGreedy (epsAt (Policy.decayParam v p none none false) key (fun k => h.getD k d) h.length s)
    (drawsWith (tab fun k => h.getD k d) (fun k => h.getD k d) h.length s)
  obtain ⟨Ω, mΩ, μ, hμ, ℱ, 𝒢, t, ht, hd, hnext, hre⟩ := C151_experience_exists m hm L hcl s0 h0 plan
    (fun h s => epsGreedy_prob (epsAt_range hkey hv0 hv1 hp0.le _ _ _).1 (epsAt_range hkey hv0 hv1 hp0.le _ _ _).2 _)
  have hsame : ∀ n ω s, plan ((List.range n).map (t · ω)) s = epsGreedy (epsAt (Policy.decayParam v p none none false) key (t · ω) n s)
      (drawsWith (tab (t · ω)) (t · ω) n s) := by
    intro n ω s
    have hk : ∀ k, k < n → ((List.range n).map (t · ω)).getD k d = t k ω := fun k hk => by simp [hk]
    have e : ∀ j, j < n → tab (fun k => ((List.range n).map (t · ω)).getD k d) j = tab (t · ω) j := by
      intro j hj
      refine tables_congr fun k hlt => ?_
      funext Q
      beta_reduce
      rw [hk k (by omega), hk (k + 1) (by omega), rateAt_congr _ _ (fun i hi => hk i (by omega))]
    simp only [plan, List.length_map, List.length_range]
    rw [epsAt_congr _ _ hk]
    congr 1
    rcases n with _ | n
    · rfl
    · simp only [drawsWith]
      have hn : (((List.range (n + 1)).map (t · ω)).getD n d).absorbing = (t n ω).absorbing := by rw [hk n (Nat.lt_succ_self n)]
      cases hab : (t n ω).absorbing with
      | false =>
        rw [hab] at hn
        simp only [hn, Bool.false_eq_true, if_false]
        rw [e n (Nat.lt_succ_self n)]
      | true =>
        rw [hab] at hn
        simp only [hn, if_true]
        show sarsa _ _ (tab (fun k => ((List.range (n + 1)).map (t · ω)).getD k d) n) _ _ s = sarsa _ _ (tab (t · ω) n) _ _ s
        beta_reduce
        rw [e n (Nat.lt_succ_self n), hk n (Nat.lt_succ_self n), rateAt_congr _ _ (fun i hi => hk i (by omega))]
        rw [sarsa_unused (b' := (t (n + 1) ω).action) (fun h => by rw [hab] at h; cases h)]
  simp only [hsame] at hd
  refine ⟨Ω, mΩ, μ, hμ, ℱ, 𝒢, t, fun n ω => (t (n + 1) ω).action, fun n ω => tab (t · ω) n, ht, fun ω => (hre ω).1, fun n ω _ => rfl, fun n ω => rfl, hd, ?_⟩
  exact C151_sarsa_run m hm L hcl s0 hcom hend γ hγ0 hγ1 Qs hQs t ht (fun ω => (hre ω).1) key hkey v p hv0 hv1 hp0 hp1 key2 hkey2 w r hw0 hw1 hr0 hr1 Q0
    (fun n ω => (t (n + 1) ω).action) (fun n ω _ => rfl) _ (fun n ω => rfl) hnext hd

/-! ### An example -/

/-- Two rooms: every action leads to each of them with probability 1/2; the reward is for staying in the second one with the second action. -/
def rooms : RandomMDP Bool Bool :=
  { prob := fun _ _ _ => 1 / 2, reward := fun s a s' => if s && a && s' then 1 else 0, absorbing := fun _ _ _ => false }

theorem rooms_proper : rooms.Proper := ⟨fun _ _ _ => by norm_num [rooms], fun _ _ => by simp [rooms]⟩

theorem rooms_communicating : rooms.Communicating (fun _ => True) false := fun s s' _ _ =>
  Relation.ReflTransGen.single ⟨true, s', by norm_num [rooms], by simp [rooms]⟩

/-- The optimal values of the rooms for γ = 1/2: in the second room the second action is better. -/
def roomsValues : Table Bool Bool := fun s a => if s && a then 3 / 4 else 1 / 4

theorem rooms_optimal : rooms.OptimalOn (fun _ => True) (1 / 2) roomsValues := by
  refine ⟨fun s => if s then 3 / 4 else 1 / 4, fun s _ => ⟨⟨?_, ?_⟩, fun a => ?_⟩⟩
  · intro a
    cases s <;> cases a <;> norm_num [roomsValues]
  · cases s
    · exact ⟨false, by simp [roomsValues]⟩
    · exact ⟨true, by simp [roomsValues]⟩
  · cases s <;> cases a <;> norm_num [roomsValues, rooms]

example : ∃ (Ω : Type) (_ : MeasurableSpace Ω) (μ : Measure Ω) (Q : ℕ → Ω → Table Bool Bool), IsProbabilityMeasure μ ∧
    ∀ᵐ ω ∂μ, ∀ s a, Tendsto (fun n => Q n ω s a) atTop (𝓝 (roomsValues s a)) := by
  obtain ⟨Ω, mΩ, μ, h, _, _, _, _, Q, -, -, -, -, -, hQ⟩ := C151_sarsa_runs_exist rooms rooms_proper (fun _ => True) (fun _ _ _ _ _ _ => trivial) false trivial
    rooms_communicating (fun _ _ _ _ h => by cases h) (1 / 2) (by norm_num) (by norm_num) roomsValues rooms_optimal (fun s => [s.toNat])
    (fun s s' h => by revert h; revert s s'; decide) 1 (1 / 2) (by norm_num) (by norm_num) (by norm_num) (by norm_num) (fun s a => [s.toNat, a.toNat])
    (fun s a s' a' h => by revert h; revert s a s' a'; decide) 1 1 (by norm_num) (by norm_num) (by norm_num) (by norm_num) (fun _ _ => 0)
  exact ⟨Ω, mΩ, μ, Q, h, hQ.mono fun ω h s a => h s trivial a⟩

end

end Verif.TD
