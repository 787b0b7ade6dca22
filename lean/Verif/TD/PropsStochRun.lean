/-
Property C145, continued: existence of the values, the library's decaying learning rate, and whole runs of `learn`.
-/
import Verif.TD.PropsStoch
import Verif.Policy.Props
import Mathlib.Analysis.PSeries
import Mathlib.Topology.MetricSpace.Contracting

namespace Verif.TD

open Filter Topology MeasureTheory

noncomputable section

variable {S A : Type} [DecidableEq S] [DecidableEq A] [Fintype S] [Fintype A] [Nonempty A]

/-! ### Optimal values and values of a policy -/

/-- C145. The optimal values exist in every finite problem. -/
theorem C145_optimal_exists (m : RandomMDP S A) (hm : m.Proper) (L : S → Prop) (γ : ℝ) (hγ0 : 0 ≤ γ) (hγ1 : γ < 1) :
    ∃ Q : Table S A, m.OptimalOn L γ Q := by
  let T : Table S A → Table S A := fun Q s a =>
    ∑ s', m.prob s a s' * (m.reward s a s' + γ * (if m.absorbing s a s' then 0 else rowMax (Q s')))
  have hT : ContractingWith ⟨γ, hγ0⟩ T := by
    refine ⟨by exact_mod_cast hγ1, LipschitzWith.of_dist_le_mul ?_⟩
    intro Q Q'
    have hd : 0 ≤ γ * dist Q Q' := mul_nonneg hγ0 dist_nonneg
    refine (dist_pi_le_iff hd).mpr (fun s => (dist_pi_le_iff hd).mpr (fun a => ?_))
    rw [Real.dist_eq]
    refine mean_contracts hm (L := fun _ => True) (fun _ _ _ _ _ _ => trivial) hγ0 dist_nonneg (V := fun s => rowMax (Q s))
      (W := fun s => rowMax (Q' s)) (fun s _ => isMax_close (fun b => ?_) (rowMax_isMax _) (rowMax_isMax _)) s trivial a
    rw [← Real.dist_eq]
    exact (dist_le_pi_dist (Q s) (Q' s) b).trans (dist_le_pi_dist Q Q' s)
  refine ⟨hT.fixedPoint T, fun s => rowMax (hT.fixedPoint T s), fun s _ => ⟨rowMax_isMax _, fun a => ?_⟩⟩
  exact (congrFun (congrFun hT.fixedPoint_isFixedPt s) a).symm

/-- C145. The values of a policy exist. -/
theorem C145_values_exist (m : RandomMDP S A) (hm : m.Proper) (L : S → Prop) (γ : ℝ) (hγ0 : 0 ≤ γ) (hγ1 : γ < 1) (policy : S → A → ℝ)
    (hπ : ∀ s, Prob (policy s)) : ∃ Q : Table S A, m.ValuesOn L γ policy Q := by
  let T : Table S A → Table S A := fun Q s a =>
    ∑ s', m.prob s a s' * (m.reward s a s' + γ * (if m.absorbing s a s' then 0 else ∑ a', policy s' a' * Q s' a'))
  have hT : ContractingWith ⟨γ, hγ0⟩ T := by
    refine ⟨by exact_mod_cast hγ1, LipschitzWith.of_dist_le_mul ?_⟩
    intro Q Q'
    have hd : 0 ≤ γ * dist Q Q' := mul_nonneg hγ0 dist_nonneg
    refine (dist_pi_le_iff hd).mpr (fun s => (dist_pi_le_iff hd).mpr (fun a => ?_))
    rw [Real.dist_eq]
    refine mean_contracts hm (L := fun _ => True) (fun _ _ _ _ _ _ => trivial) hγ0 dist_nonneg
      (V := fun s' => ∑ a', policy s' a' * Q s' a') (W := fun s' => ∑ a', policy s' a' * Q' s' a') (fun s _ => ?_) s trivial a
    rw [← Finset.sum_sub_distrib]
    have e : (∑ a', (policy s a' * Q s a' - policy s a' * Q' s a')) = ∑ a', policy s a' * (Q s a' - Q' s a') :=
      Finset.sum_congr rfl (fun a' _ => by ring)
    rw [e]
    refine prob_bound (hπ s) (fun b => ?_)
    rw [← Real.dist_eq]
    exact (dist_le_pi_dist (Q s) (Q' s) b).trans (dist_le_pi_dist Q Q' s)
  exact ⟨hT.fixedPoint T, fun s _ a => (congrFun (congrFun hT.fixedPoint_isFixedPt s) a).symm⟩

/-- Distances that are at most `γ` times themselves vanish. -/
theorem zero_of_contracts {I : Type} [Fintype I] {d : I → ℝ} {L : I → Prop} {γ : ℝ} (hγ0 : 0 ≤ γ) (hγ1 : γ < 1) (h0 : ∀ i, 0 ≤ d i)
    (h : ∀ D, 0 ≤ D → (∀ i, L i → d i ≤ D) → ∀ i, L i → d i ≤ γ * D) : ∀ i, L i → d i = 0 := by
  have hk : ∀ k : ℕ, ∀ i, L i → d i ≤ γ ^ k * ∑ j, d j := by
    intro k
    induction k with
    | zero => intro i _; simpa using Finset.single_le_sum (fun j _ => h0 j) (Finset.mem_univ i)
    | succ k ih =>
      intro i hi
      have := h _ (mul_nonneg (pow_nonneg hγ0 k) (Finset.sum_nonneg (fun j _ => h0 j))) ih i hi
      rw [pow_succ']; linarith
  intro i hi
  have ht : Tendsto (fun k : ℕ => γ ^ k * ∑ j, d j) atTop (𝓝 0) := by
    simpa using (tendsto_pow_atTop_nhds_zero_of_lt_one hγ0 hγ1).mul_const (∑ j, d j)
  exact le_antisymm (ge_of_tendsto' ht (fun k => hk k i hi)) (h0 i)

/-- C145. In the live states there is only one table of optimal values. -/
theorem C145_optimal_unique (m : RandomMDP S A) (hm : m.Proper) (L : S → Prop) (hcl : m.Closed L) (γ : ℝ) (hγ0 : 0 ≤ γ) (hγ1 : γ < 1)
    (Q Q' : Table S A) (h : m.OptimalOn L γ Q) (h' : m.OptimalOn L γ Q') : ∀ s, L s → ∀ a, Q s a = Q' s a := by
  obtain ⟨V, hV⟩ := h
  obtain ⟨V', hV'⟩ := h'
  intro s hs a
  have := zero_of_contracts (I := S × A) (d := fun i => |Q i.1 i.2 - Q' i.1 i.2|) (L := fun i => L i.1) hγ0 hγ1 (fun i => abs_nonneg _)
    (fun D hD hd i hi => by
      rw [(hV i.1 hi).2 i.2, (hV' i.1 hi).2 i.2]
      exact mean_contracts hm hcl hγ0 hD
        (fun s hs => isMax_close (fun b => hd (s, b) hs) (hV s hs).1 (hV' s hs).1) i.1 hi i.2) (s, a) hs
  exact sub_eq_zero.1 (abs_eq_zero.1 this)

/-! ### The decaying learning rate -/

/-- Number of the first `n` transitions that start with the pair. -/
def timesSeen (s : S) (a : A) (t : ℕ → Trans S A) (n : ℕ) : ℕ :=
  ∑ k ∈ Finset.range n, if (t k).state = s ∧ (t k).action = a then 1 else 0

theorem timesSeen_succ (s : S) (a : A) (t : ℕ → Trans S A) (n : ℕ) :
    timesSeen s a t (n + 1) = timesSeen s a t n + if (t n).state = s ∧ (t n).action = a then 1 else 0 :=
  Finset.sum_range_succ _ _

theorem sum_reindex (f : ℕ → ℝ) (s : S) (a : A) (t : ℕ → Trans S A) (n : ℕ) :
    ∑ k ∈ Finset.range n, (if (t k).state = s ∧ (t k).action = a then f (timesSeen s a t k) else 0) =
      ∑ i ∈ Finset.range (timesSeen s a t n), f i := by
  induction n with
  | zero => simp [timesSeen]
  | succ n ih =>
    rw [Finset.sum_range_succ, ih, timesSeen_succ]
    split
    · rw [Finset.sum_range_succ]
    · simp

theorem timesSeen_tendsto {s : S} {a : A} {t : ℕ → Trans S A} (h : ∀ n, ∃ k, n ≤ k ∧ (t k).state = s ∧ (t k).action = a) :
    Tendsto (timesSeen s a t) atTop atTop := by
  have hmono : Monotone (timesSeen s a t) := by
    refine monotone_nat_of_le_succ (fun n => ?_)
    rw [timesSeen_succ]
    exact Nat.le_add_right _ _
  refine tendsto_atTop_atTop_of_monotone hmono (fun b => ?_)
  induction b with
  | zero => exact ⟨0, Nat.zero_le _⟩
  | succ b ih =>
    obtain ⟨n, hn⟩ := ih
    obtain ⟨k, hk, hs, ha⟩ := h n
    refine ⟨k + 1, ?_⟩
    rw [timesSeen_succ, if_pos ⟨hs, ha⟩]
    have := hmono hk
    omega

/-- The parameter after its first `n` calls, each with the pair of the transition. `key` is the index of a pair. -/
def paramAfter (p : Policy.Param) (key : S → A → Policy.Index) (t : ℕ → Trans S A) (n : ℕ) : Policy.Param :=
  p.run ((List.range n).map (fun k => .call (key (t k).state (t k).action)))

/-- The rate that the parameter returns at the `n`-th transition. -/
def rateAt (p : Policy.Param) (key : S → A → Policy.Index) (t : ℕ → Trans S A) (n : ℕ) : ℝ :=
  ((paramAfter p key t n).call (key (t n).state (t n).action)).2

theorem visits_eq {key : S → A → Policy.Index} (hkey : ∀ s a s' a', key s a = key s' a' → s = s' ∧ a = a') (s : S) (a : A)
    (t : ℕ → Trans S A) (n : ℕ) :
    Policy.visits false (key s a) ((List.range n).map (fun k => .call (key (t k).state (t k).action))) = timesSeen s a t n := by
  induction n with
  | zero => simp [timesSeen, Policy.visits]
  | succ n ih =>
    rw [List.range_succ, List.map_append, Policy.visits_append, ih]
    simp only [List.map_cons, List.map_nil, Policy.visits, timesSeen, Finset.sum_range_succ, Nat.add_zero]
    congr 1
    by_cases h : (t n).state = s ∧ (t n).action = a
    · rw [h.1, h.2]; simp
    · have : ¬ (key (t n).state (t n).action = key s a) := fun h' => h (hkey _ _ _ _ h')
      simp [h, this]

theorem rateAt_decay {key : S → A → Policy.Index} (hkey : ∀ s a s' a', key s a = key s' a' → s = s' ∧ a = a') (v p : ℝ)
    (t : ℕ → Trans S A) (n : ℕ) : rateAt (Policy.decayParam v p none none false) key t n =
      v / ((timesSeen (t n).state (t n).action t n + 1 : ℕ) : ℝ) ^ p := by
  unfold rateAt paramAfter
  rw [Policy.C25_decay_call, visits_eq hkey]

variable {Ω : Type} [mΩ : MeasurableSpace Ω] {μ : Measure Ω} [IsProbabilityMeasure μ] {ℱ : Filtration ℕ mΩ}

theorem timesSeen_measurable {t : ℕ → Ω → Trans S A}
    (hpast : ∀ n s a, MeasurableSet[ℱ n] {ω | (t n ω).state = s ∧ (t n ω).action = a}) (s : S) (a : A) (n : ℕ) :
    Measurable[ℱ n] (fun ω => timesSeen s a (t · ω) n) := by
  unfold timesSeen
  refine @Finset.measurable_fun_sum _ _ _ _ _ _ (ℱ n) _ (Finset.range n) (fun k hk => ?_)
  exact Measurable.ite (ℱ.mono (le_of_lt (Finset.mem_range.1 hk)) _ (hpast k s a)) measurable_const measurable_const

/-- C145. The library's `DecayParameter(value, exp, size=mdp.info.size)` with an initial value in (0, 1] and an exponent in
(1/2, 1] meets the conditions of Robbins and Monro, if every action is taken again and again in every live state. -/
theorem C145_decay_rates (L : S → Prop) (t : ℕ → Ω → Trans S A)
    (hpast : ∀ n s a, MeasurableSet[ℱ n] {ω | (t n ω).state = s ∧ (t n ω).action = a}) (key : S → A → Policy.Index)
    (hkey : ∀ s a s' a', key s a = key s' a' → s = s' ∧ a = a') (v p : ℝ) (hv0 : 0 < v) (hv1 : v ≤ 1) (hp0 : 1 / 2 < p) (hp1 : p ≤ 1)
    (hexp : ∀ᵐ ω ∂μ, ExploresForever L (t · ω)) :
    RobbinsMonro μ ℱ L t (fun n ω => rateAt (Policy.decayParam v p none none false) key (t · ω) n) := by
  have hf : ∀ s a ω k, ratesOf s a (t · ω) (rateAt (Policy.decayParam v p none none false) key (t · ω)) k =
      if (t k ω).state = s ∧ (t k ω).action = a then v / ((timesSeen s a (t · ω) k + 1 : ℕ) : ℝ) ^ p else 0 := by
    intro s a ω k
    unfold ratesOf
    by_cases h : (t k ω).state = s ∧ (t k ω).action = a
    · rw [if_pos h, if_pos h, rateAt_decay hkey, h.1, h.2]
    · rw [if_neg h, if_neg h]
  have hone : ∀ k : ℕ, (1 : ℝ) ≤ ((k + 1 : ℕ) : ℝ) ^ p := fun k =>
    Real.one_le_rpow (by exact_mod_cast Nat.succ_le_succ (Nat.zero_le k)) (by linarith)
  refine ⟨fun n => ?_, fun n ω => ?_, ?_, ?_⟩
  · have e : (fun ω => rateAt (Policy.decayParam v p none none false) key (t · ω) n) =
        fun ω => ∑ j : S × A, (if (t n ω).state = j.1 ∧ (t n ω).action = j.2 then (1 : ℝ) else 0) *
          (v / ((timesSeen j.1 j.2 (t · ω) n + 1 : ℕ) : ℝ) ^ p) := by
      funext ω
      rw [rateAt_decay hkey, Finset.sum_eq_single ((t n ω).state, (t n ω).action)]
      · simp
      · intro j _ hj
        rw [if_neg (fun h => hj (Prod.ext h.1.symm h.2.symm)), zero_mul]
      · simp
    rw [e]
    refine @Finset.measurable_fun_sum _ _ _ _ _ _ (ℱ n) _ Finset.univ (fun j _ => ?_)
    refine (Measurable.ite (hpast n j.1 j.2) measurable_const measurable_const).mul ?_
    have hN := timesSeen_measurable (ℱ := ℱ) hpast j.1 j.2 n
    exact (measurable_of_countable (fun k : ℕ => v / ((k + 1 : ℕ) : ℝ) ^ p)).comp hN
  · rw [rateAt_decay hkey]
    have := hone (timesSeen (t n ω).state (t n ω).action (t · ω) n)
    exact ⟨div_nonneg hv0.le (by linarith), (div_le_one (by linarith)).2 (by linarith)⟩
  · have hsum : Summable (fun k : ℕ => (v / ((k + 1 : ℕ) : ℝ) ^ p) ^ 2) := by
      have h1 : Summable (fun k : ℕ => 1 / ((k : ℕ) : ℝ) ^ (2 * p)) := Real.summable_one_div_nat_rpow.2 (by linarith)
      have h2 := ((summable_nat_add_iff 1).2 h1).mul_left (v ^ 2)
      refine h2.congr (fun k => ?_)
      rw [div_pow, ← Real.rpow_natCast, ← Real.rpow_natCast, ← Real.rpow_mul (by positivity)]
      push_cast
      rw [mul_comm 2 p]; ring_nf
    refine ⟨∑' k : ℕ, (v / ((k + 1 : ℕ) : ℝ) ^ p) ^ 2, fun s a ω N => ?_⟩
    have e : ∑ k ∈ Finset.range N, ratesOf s a (t · ω) (rateAt (Policy.decayParam v p none none false) key (t · ω)) k ^ 2 =
        ∑ i ∈ Finset.range (timesSeen s a (t · ω) N), (v / ((i + 1 : ℕ) : ℝ) ^ p) ^ 2 := by
      rw [← sum_reindex (fun k => (v / ((k + 1 : ℕ) : ℝ) ^ p) ^ 2) s a (t · ω) N]
      refine Finset.sum_congr rfl (fun k _ => ?_)
      rw [hf]
      split <;> simp
    rw [e]
    exact hsum.sum_le_tsum _ (fun i _ => sq_nonneg _)
  · have hdiv : Tendsto (fun n => ∑ i ∈ Finset.range n, v / ((i + 1 : ℕ) : ℝ) ^ p) atTop atTop := by
      refine (not_summable_iff_tendsto_nat_atTop_of_nonneg (fun i => by positivity)).1 (fun hs => ?_)
      have h1 : ¬ Summable (fun k : ℕ => 1 / ((k : ℕ) : ℝ) ^ p) := by
        rw [Real.summable_one_div_nat_rpow]; linarith
      apply h1
      rw [← summable_nat_add_iff 1]
      refine (hs.mul_left v⁻¹).congr (fun k => ?_)
      field_simp
    filter_upwards [hexp] with ω h s hs a
    have e : (fun n => ∑ k ∈ Finset.range n, ratesOf s a (t · ω) (rateAt (Policy.decayParam v p none none false) key (t · ω)) k) =
        fun n => ∑ i ∈ Finset.range (timesSeen s a (t · ω) n), v / ((i + 1 : ℕ) : ℝ) ^ p := by
      funext n
      rw [← sum_reindex (fun k => v / ((k + 1 : ℕ) : ℝ) ^ p) s a (t · ω) n]
      exact Finset.sum_congr rfl (fun k _ => hf s a ω k)
    rw [e]
    exact hdiv.comp (timesSeen_tendsto (h s hs a))

/-! ### Whole runs -/

variable {E : Type}

/-- Nothing but the agent touches its learning rate parameter, which `param` reads from the world. -/
structure OwnsRate (u : User E S A (Table S A)) (param : E → Policy.Param) : Prop where
  pre : ∀ p ∈ u.corePre, ∀ e x, param (p.update e x) = param e
  reset : ∀ e x, param (u.envReset e x).1 = param e
  step : ∀ e a, param (u.envStep e a).1 = param e
  draw : ∀ e Q s, param (u.draw e Q s).1 = param e
  callbackStep : ∀ e Q t, param (u.callbackStep e Q t) = param e
  callbacksFit : ∀ f ∈ u.callbacksFit, ∀ e Q b, param (f e Q b) = param e

/-- The learning rate is a call of the parameter (`self._alpha(state, action)`), which `write` puts back. -/
def rateOf (param : E → Policy.Param) (write : E → Policy.Param → E) (key : S → A → Policy.Index) (e : E) (s : S) (a : A) : E × ℝ :=
  (write e ((param e).call (key s a)).1, ((param e).call (key s a)).2)

omit [Fintype S] in
theorem preprocess_param {u : User E S A (Table S A)} {rule : Rule E S A (Table S A)} {param : E → Policy.Param} (ho : OwnsRate u param)
    (w : E × Table S A) (x : S) : param (Core.preprocess (tdSys u rule).corePre w x).1.1 = param w.1 := by
  have : ∀ (ps : List (Core.Preproc E S)), (∀ p ∈ ps, ∀ e x, param (p.update e x) = param e) → ∀ (w : E × Table S A) (x : S),
      param (Core.preprocess (ps.map (fun p => ({ update := fun w x => (p.update w.1 x, w.2), apply := fun w x => p.apply w.1 x }
        : Core.Preproc (E × Table S A) S))) w x).1.1 = param w.1 := by
    intro ps
    induction ps with
    | nil => intro _ w x; rfl
    | cons p ps ih =>
      intro hp w x
      simp only [List.map_cons, Core.preprocess]
      rw [ih (fun q hq => hp q (by simp [hq]))]
      exact hp p (by simp) _ _
  exact this _ ho.pre _ _

omit [Fintype S] in
theorem callbacks_param {u : User E S A (Table S A)} {rule : Rule E S A (Table S A)} {param : E → Policy.Param} (ho : OwnsRate u param)
    (b : List (Core.Sample S A ℝ Unit)) (w : E × Table S A) :
    param ((tdSys u rule).callbacksFit.foldl (fun w cb => cb w b) w).1 = param w.1 := by
  have : ∀ (l : List (E → Table S A → List (Core.Sample S A ℝ Unit) → E)), (∀ f ∈ l, ∀ e Q b, param (f e Q b) = param e) →
      ∀ (w : E × Table S A), param ((l.map (fun f => fun (w : E × Table S A) b => (f w.1 w.2 b, w.2))).foldl (fun w cb => cb w b) w).1 =
        param w.1 := by
    intro l
    induction l with
    | nil => intro _ w; rfl
    | cons f l ih =>
      intro hl w
      simp only [List.map_cons, List.foldl_cons]
      rw [ih (fun g hg => hl g (by simp [hg]))]
      exact hl f (by simp) _ _ _
  exact this _ ho.callbacksFit _

omit [Fintype S] in
/-- One iteration of a run: one transition, one call of the parameter, one update. -/
theorem iter_rate {u : User E S A (Table S A)} {param : E → Policy.Param} {write : E → Policy.Param → E} {key : S → A → Policy.Index}
    (ho : OwnsRate u param) (hw : ∀ e p, param (write e p) = p) {γ : ℝ} {c : Core.Cfg S} (hf : c.fitMode = .steps 1)
    {prev s s' : Core.St (E × Table S A) S A ℝ Unit Unit}
    (h : Core.Reach (tdSys u (qLearningRule γ (rateOf param write key))) c prev s)
    (hi : Core.iter (tdSys u (qLearningRule γ (rateOf param write key))) c s = .ok s') :
    ∃ smp : Core.Sample S A ℝ Unit, Core.steps s'.trace = Core.steps s.trace ++ [smp] ∧
      s'.world.2 = qLearning γ ((param s.world.1).call (key smp.state smp.action)).2 s.world.2 (toTrans smp) ∧
      param s'.world.1 = ((param s.world.1).call (key smp.state smp.action)).1 := by
  set rule := qLearningRule γ (rateOf param write key) with hrule
  have hrows := rows_empty hf h
  obtain ⟨s1, x, s2, h1, hx, h2, rfl⟩ := Core.iter_cases hi
  have hw2 := step_world h2
  have hp1 : param s1.world.1 = param s.world.1 := by
    split at h1
    · unfold Core.reset at h1
      split at h1
      · cases h1
      · simp only [Except.ok.injEq] at h1
        subst h1
        refine (preprocess_param ho _ _).trans ?_
        exact ho.reset _ _
    · simp only [Except.ok.injEq] at h1; rw [← h1]
  have hq1 : s1.world.2 = s.world.2 := by
    split at h1
    · exact reset_world h1
    · simp only [Except.ok.injEq] at h1; rw [← h1]
  have hp2 : param s2.world.1 = param s1.world.1 := by
    unfold Core.step at h2
    simp only at h2
    split at h2
    · cases h2
    · simp only [Except.ok.injEq] at h2
      subst h2
      refine (ho.callbackStep _ _ _).trans ?_
      refine (preprocess_param ho _ _).trans ?_
      refine (ho.step _ _).trans ?_
      cases s1.nextAction with
      | none => exact ho.draw _ _ _
      | some a => rfl
  obtain ⟨asked, act, obs, rew, abs, w, smp, f1, f2, f3, f4, f5, f6, f7, f8, f9, r1, r2, r3, r4, r5, r6, r7, r8, r9, r10,
    -, r11⟩ := Core.step_fields h2
  have hreq : Core.fitRequired c.fitMode s2 = true := by
    rw [hf]; simp [Core.fitRequired, r3]
  have hrows1 : s1.rows = [] := by
    split at h1
    · rw [(Core.reset_fields h1).1, hrows]
    · simp only [Except.ok.injEq] at h1; rw [← h1, hrows]
  have hrows2 : s2.rows = [smp] := by rw [r1, hrows1]; rfl
  have ht1 : Core.steps s1.trace = Core.steps s.trace := by
    split at h1
    · obtain ⟨-, -, -, -, -, -, -, hna, req, obs', x', w', th, -, hx', -, ht, -⟩ := Core.reset_fields h1
      rw [ht, Core.steps_append]; simp [Core.steps]
    · simp only [Except.ok.injEq] at h1; rw [← h1]
  have hfit : Core.fitPhase (tdSys u rule) c s2 = { s2 with
      world := (tdSys u rule).callbacksFit.foldl (fun w cb => cb w s2.rows) ((tdSys u rule).fit s2.world s2.nextAction s2.rows s2.thetas).1
      nextAction := ((tdSys u rule).fit s2.world s2.nextAction s2.rows s2.thetas).2
      currentEpisodes := 0, currentSteps := 0, rows := [], thetas := []
      trace := s2.trace ++ [.fit s2.rows s2.thetas ((tdSys u rule).fit s2.world s2.nextAction s2.rows s2.thetas).2] } := by
    unfold Core.fitPhase
    rw [if_pos hreq]
  refine ⟨smp, ?_, ?_, ?_⟩
  · rw [hfit]
    simp only
    rw [Core.steps_append, r11, Core.steps_append, ht1]
    simp [Core.steps]
  · rw [hfit]
    refine (callbacks_snd u rule _ _).trans ?_
    rw [hrows2, ← hp1, ← hp2, ← hq1, ← hw2]
    rfl
  · rw [hfit]
    refine (callbacks_param ho _ _).trans ?_
    rw [hrows2, ← hp1, ← hp2]
    exact hw _ _

/-- The configuration of a call of `learn` with a number of steps and one step per fit. -/
def stepsCfg (n : ℕ) : Core.Cfg S := { budget := .steps n, fitMode := .steps 1, initialStates := none, capacity := some 1 }

omit [DecidableEq S] [DecidableEq A] [Fintype S] [Fintype A] [Nonempty A] in
theorem learn_steps_reach {W R P T : Type} {sys : Core.Sys W S A R P T} {prev s : Core.St W S A R P T} {fuel n : ℕ}
    (h : Core.learn sys fuel prev (some n) none (some 1) none = some (.ok s)) :
    Core.Reach sys (stepsCfg n) prev s ∧ n ≤ s.totalSteps := by
  have e : Core.learn sys fuel prev (some n) none (some 1) none = Core.loop sys (stepsCfg n) fuel (Core.start prev) := rfl
  rw [e] at h
  obtain ⟨h1, h2⟩ := Core.loop_reach Core.Reach.start h
  refine ⟨h1, ?_⟩
  simpa [Core.moveRequired, stepsCfg] using h2

omit [DecidableEq S] [DecidableEq A] [Fintype S] [Fintype A] [Nonempty A] in
theorem iter_cfg {W R P T : Type} (sys : Core.Sys W S A R P T) (n m : ℕ) (s : Core.St W S A R P T) :
    Core.iter sys (stepsCfg n) s = Core.iter sys (stepsCfg m) s := rfl

omit [DecidableEq S] [DecidableEq A] [Fintype S] [Fintype A] [Nonempty A] in
theorem iter_totalSteps {W R P T : Type} {sys : Core.Sys W S A R P T} {c : Core.Cfg S} {s s' : Core.St W S A R P T}
    (h : Core.iter sys c s = .ok s') : s'.totalSteps = s.totalSteps + 1 := by
  obtain ⟨s1, x, s2, h1, hx, h2, rfl⟩ := Core.iter_cases h
  have e1 : s1.totalSteps = s.totalSteps := by
    split at h1
    · unfold Core.reset at h1
      split at h1
      · cases h1
      · simp only [Except.ok.injEq] at h1; rw [← h1]
    · simp only [Except.ok.injEq] at h1; rw [← h1]
  have e2 : s2.totalSteps = s1.totalSteps + 1 := by
    unfold Core.step at h2
    simp only at h2
    split at h2
    · cases h2
    · simp only [Except.ok.injEq] at h2; rw [← h2]
  rw [← e1, ← e2]
  unfold Core.fitPhase
  split <;> rfl

omit [DecidableEq S] [DecidableEq A] [Fintype S] [Fintype A] [Nonempty A] in
theorem reach_mono {W R P T : Type} {sys : Core.Sys W S A R P T} {prev s : Core.St W S A R P T} {n m : ℕ} (hnm : n ≤ m)
    (h : Core.Reach sys (stepsCfg n) prev s) : Core.Reach sys (stepsCfg m) prev s ∧ s.totalSteps ≤ n := by
  induction h with
  | start => exact ⟨Core.Reach.start, Nat.zero_le _⟩
  | @iter s s' hr hm hi ih =>
    have hlt : s.totalSteps < n := by simpa [Core.moveRequired, stepsCfg] using hm
    refine ⟨Core.Reach.iter ih.1 ?_ ((iter_cfg sys m n s).trans hi), ?_⟩
    · simp only [Core.moveRequired, stepsCfg, decide_eq_true_eq]; omega
    · rw [iter_totalSteps hi]; omega

omit [DecidableEq S] [DecidableEq A] [Fintype S] [Fintype A] [Nonempty A] in
theorem reach_unique {W R P T : Type} {sys : Core.Sys W S A R P T} {prev s s' : Core.St W S A R P T} {n : ℕ}
    (h : Core.Reach sys (stepsCfg n) prev s) : ∀ s', Core.Reach sys (stepsCfg n) prev s' → s'.totalSteps = s.totalSteps → s' = s := by
  induction h with
  | start =>
    intro s' h' he
    cases h' with
    | start => rfl
    | iter hr hm hi => rw [iter_totalSteps hi] at he; simp [Core.start] at he
  | @iter s s1 hr hm hi ih =>
    intro s' h' he
    cases h' with
    | start => rw [iter_totalSteps hi] at he; simp [Core.start] at he
    | @iter s2 _ hr' hm' hi' =>
      rw [iter_totalSteps hi, iter_totalSteps hi'] at he
      have := ih s2 hr' (by omega)
      subst this
      rw [hi] at hi'
      simpa using hi'.symm

omit [DecidableEq S] [DecidableEq A] [Fintype S] [Fintype A] [Nonempty A] in
/-- A longer run is a continuation of a shorter one. -/
theorem learn_continues {W R P T : Type} {sys : Core.Sys W S A R P T} {prev s s' : Core.St W S A R P T} {fuel fuel' n : ℕ}
    (h : Core.learn sys fuel prev (some n) none (some 1) none = some (.ok s))
    (h' : Core.learn sys fuel' prev (some (n + 1)) none (some 1) none = some (.ok s')) :
    Core.Reach sys (stepsCfg (n + 1)) prev s ∧ Core.iter sys (stepsCfg (n + 1)) s = .ok s' := by
  obtain ⟨r, hn⟩ := learn_steps_reach h
  obtain ⟨r', hn'⟩ := learn_steps_reach h'
  obtain ⟨q, hq⟩ := reach_mono (Nat.le_succ n) r
  obtain ⟨-, hq'⟩ := reach_mono (Nat.le_refl (n + 1)) r'
  refine ⟨q, ?_⟩
  cases r' with
  | start => simp [Core.start] at hn'
  | @iter s2 _ hr hm hi =>
    have := iter_totalSteps hi
    have e := reach_unique q (s' := s') s2 hr (by omega)
    rw [← e]
    exact hi

/-- C145. Whole runs: a Q-learning agent whose learning rate is the library's `DecayParameter(value, exp, size=mdp.info.size)`, with a
value in (0, 1] and an exponent in (1/2, 1], is run by `learn` for `n` steps, with one step per fit, in any finite problem. `s n ω` is
the state of the program after `n` steps and `t` are the transitions it recorded. If every action is taken again and again in every
live state, then with probability one the table of the agent converges to the optimal values as `n` grows. -/
theorem C145_learn (u : User E S A (Table S A)) (param : E → Policy.Param) (write : E → Policy.Param → E) (key : S → A → Policy.Index)
    (ho : OwnsRate u param) (hw : ∀ e p, param (write e p) = p) (hkey : ∀ s a s' a', key s a = key s' a' → s = s' ∧ a = a')
    (v p : ℝ) (hv0 : 0 < v) (hv1 : v ≤ 1) (hp0 : 1 / 2 < p) (hp1 : p ≤ 1)
    (m : RandomMDP S A) (hm : m.Proper) (L : S → Prop) (hcl : m.Closed L) (γ : ℝ) (hγ0 : 0 ≤ γ) (hγ1 : γ < 1)
    (Qs : Table S A) (hQs : m.OptimalOn L γ Qs) (Q0 : Table S A)
    (prev : Ω → Core.St (E × Table S A) S A ℝ Unit Unit) (s : ℕ → Ω → Core.St (E × Table S A) S A ℝ Unit Unit)
    (hrun : ∀ n ω, ∃ fuel, Core.learn (tdSys u (qLearningRule γ (rateOf param write key))) fuel (prev ω) (some n) none (some 1) none =
      some (.ok (s n ω)))
    (hprev : ∀ ω, (prev ω).world.2 = Q0 ∧ param (prev ω).world.1 = Policy.decayParam v p none none false)
    (t : ℕ → Ω → Trans S A) (hrec : ∀ n ω, (Core.steps (s n ω).trace).map toTrans = (List.range n).map (t · ω))
    (ht : Experience μ ℱ m L t) (hexp : ∀ᵐ ω ∂μ, ExploresForever L (t · ω)) :
    ∀ᵐ ω ∂μ, ∀ x, L x → ∀ a, Tendsto (fun n => (s n ω).world.2 x a) atTop (𝓝 (Qs x a)) := by
  have hα := C145_decay_rates (ℱ := ℱ) (μ := μ) L t ht.past key hkey v p hv0 hv1 hp0 hp1 hexp
  have hconv := C145_q_learning m hm L hcl γ hγ0 hγ1 Qs hQs t ht _ hα Q0
  have hsame : ∀ ω n, (s n ω).world.2 = tables (fun k Q =>
      qLearning γ (rateAt (Policy.decayParam v p none none false) key (t · ω) k) Q (t k ω)) Q0 n ∧
      param (s n ω).world.1 = paramAfter (Policy.decayParam v p none none false) key (t · ω) n := by
    intro ω n
    induction n with
    | zero =>
      obtain ⟨fuel, hr⟩ := hrun 0 ω
      have : s 0 ω = Core.start (prev ω) := by
        have e : Core.learn (tdSys u (qLearningRule γ (rateOf param write key))) fuel (prev ω) (some 0) none (some 1) none =
          some (.ok (Core.start (prev ω))) := by cases fuel <;> rfl
        rw [e] at hr
        simpa using hr.symm
      rw [this]
      exact hprev ω
    | succ n ih =>
      obtain ⟨fuel, hr⟩ := hrun n ω
      obtain ⟨fuel', hr'⟩ := hrun (n + 1) ω
      obtain ⟨hreach, hi⟩ := learn_continues hr hr'
      obtain ⟨smp, g1, g2, g3⟩ := iter_rate ho hw rfl hreach hi
      have hsmp : toTrans smp = t n ω := by
        have := hrec (n + 1) ω
        rw [g1, List.map_append, hrec n ω, List.range_succ, List.map_append] at this
        simpa using this
      have hs : smp.state = (t n ω).state := by rw [← hsmp]; rfl
      have ha : smp.action = (t n ω).action := by rw [← hsmp]; rfl
      rw [ih.2, hs, ha] at g2 g3
      rw [ih.1, hsmp] at g2
      refine ⟨g2, g3.trans ?_⟩
      unfold paramAfter
      rw [List.range_succ, List.map_append, Policy.Param.run, Policy.Param.run, List.foldl_append]
      rfl
  filter_upwards [hconv] with ω h x hx a
  refine (h x hx a).congr (fun n => ?_)
  rw [(hsame ω n).1]

end

end Verif.TD
