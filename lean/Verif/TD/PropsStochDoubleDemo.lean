/-
Property C147, continued: Double Q-learning with independent random draws, what the policy of the agent sees, and a random problem that meets
the hypotheses.
-/
import Verif.TD.PropsStochDoubleRate

namespace Verif.TD

open Filter Topology MeasureTheory ProbabilityTheory

noncomputable section

variable {S A : Type} [DecidableEq S] [DecidableEq A] [Fintype S] [Fintype A] [Nonempty A]
variable {Ω : Type} [mΩ : MeasurableSpace Ω] {μ : Measure Ω} [IsProbabilityMeasure μ] {ℱ : Filtration ℕ mΩ}

/-- The coin of `DoubleDraws` is fair. -/
theorem fair_of_draws {m : RandomMDP S A} (hm : m.Proper) {t : ℕ → Ω → Trans S A} {Q : ℕ → Ω → Tables S A} {first : ℕ → Ω → Bool}
    {pick : ℕ → Ω → A} (hd : DoubleDraws μ ℱ m t Q first pick) : FairCoins μ ℱ first := by
  have hset : ∀ n c, {ω | first n ω = c} = ⋃ y : S × A, {ω | first n ω = c ∧ (t n ω).next = y.1 ∧ pick n ω = y.2} := by
    intro n c; ext ω; simp
  refine ⟨fun n c => ?_, fun n c => ?_⟩
  · rw [hset]
    exact MeasurableSet.iUnion (fun y => hd.known n c y.1 y.2)
  · have e : Set.indicator {ω | first n ω = c} (fun _ => (1 : ℝ)) =
        ∑ y : S × A, Set.indicator {ω | first n ω = c ∧ (t n ω).next = y.1 ∧ pick n ω = y.2} (fun _ => (1 : ℝ)) := by
      funext ω
      rw [Finset.sum_apply, Finset.sum_eq_single ((t n ω).next, pick n ω)]
      · simp [Set.indicator]
      · intro y _ hy
        refine Set.indicator_of_notMem (fun h => hy ?_) _
        exact Prod.ext h.2.1.symm h.2.2.symm
      · simp
    rw [e]
    have hi : ∀ y : S × A, Integrable (Set.indicator {ω | first n ω = c ∧ (t n ω).next = y.1 ∧ pick n ω = y.2} (fun _ => (1 : ℝ))) μ :=
      fun y => (integrable_const _).indicator (ℱ.le _ _ (hd.known n c y.1 y.2))
    filter_upwards [condExp_finsetSum (s := Finset.univ) (fun y _ => hi y) (ℱ n),
      ae_all_iff.2 (fun y : S × A => hd.law n c y.1 y.2)] with ω k1 k2
    rw [k1, Finset.sum_apply, Finset.sum_congr rfl (fun y _ => k2 y), Fintype.sum_prod_type]
    simp only [← Finset.mul_sum, (uniform_prob (best_nonempty _)).2, mul_one, hm.2]

/-- C147. Double Q-learning with the library's decaying learning rate: with probability one both tables converge to the optimal values, and
so does their mean, which the policy of the agent sees; from some time on all greedy actions of the mean are optimal. -/
theorem C147_decay (m : RandomMDP S A) (hm : m.Proper) (L : S → Prop) (hcl : m.Closed L) (γ : ℝ) (hγ0 : 0 ≤ γ) (hγ1 : γ < 1)
    (Qs : Table S A) (hQs : m.OptimalOn L γ Qs) (t : ℕ → Ω → Trans S A) (ht : Experience μ ℱ m L t)
    (hexp : ∀ᵐ ω ∂μ, ExploresForever L (t · ω)) (first : ℕ → Ω → Bool) (pick : ℕ → Ω → A)
    (key : S → A → Policy.Index) (hkey : ∀ s a s' a', key s a = key s' a' → s = s' ∧ a = a')
    (v p : ℝ) (hv0 : 0 < v) (hv1 : v ≤ 1) (hp0 : 1 / 2 < p) (hp1 : p ≤ 1) (Q0 : Tables S A) (Q : ℕ → Ω → Tables S A)
    (hQ : ∀ n ω, Q n ω = doubleTables γ (t · ω) (first · ω) (pick · ω)
      (doubleRate (Policy.decayParam v p none none false) key (t · ω) (first · ω)) Q0 n)
    (hd : DoubleDraws μ ℱ m t Q first pick) :
    ∀ᵐ ω ∂μ, (∀ s, L s → ∀ a, Tendsto (fun n => Q n ω 0 s a) atTop (𝓝 (Qs s a)) ∧ Tendsto (fun n => Q n ω 1 s a) atTop (𝓝 (Qs s a)) ∧
        Tendsto (fun n => (Q n ω 0 s a + Q n ω 1 s a) / 2) atTop (𝓝 (Qs s a))) ∧
      ∀ᶠ n in atTop, ∀ s, L s → ∀ a, Maximises (fun a => (Q n ω 0 s a + Q n ω 1 s a) / 2) a → Maximises (Qs s) a := by
  have hrates := C147_decay_rates L t ht.live ht.past hexp key hkey first (fair_of_draws hm hd) v p hv0 hv1 hp0 hp1
  have hd' : DoubleDraws μ ℱ m t (fun n ω => doubleTables γ (t · ω) (first · ω) (pick · ω)
      (fun c k => doubleRate (Policy.decayParam v p none none false) key (t · ω) (first · ω) c k) Q0 n) first pick := by
    have e : Q = fun n ω => doubleTables γ (t · ω) (first · ω) (pick · ω)
      (fun c k => doubleRate (Policy.decayParam v p none none false) key (t · ω) (first · ω) c k) Q0 n := by
      funext n ω; exact hQ n ω
    rw [← e]; exact hd
  filter_upwards [C147_double m hm L hcl γ hγ0 hγ1 Qs hQs t ht first pick _ hrates Q0 hd'] with ω h
  have h0 : ∀ s, L s → ∀ a, Tendsto (fun n => Q n ω 0 s a) atTop (𝓝 (Qs s a)) := fun s hs a => by
    simp only [hQ]; exact h true s hs a
  have h1 : ∀ s, L s → ∀ a, Tendsto (fun n => Q n ω 1 s a) atTop (𝓝 (Qs s a)) := fun s hs a => by
    simp only [hQ]; exact h false s hs a
  have h2 : ∀ s, L s → ∀ a, Tendsto (fun n => (Q n ω 0 s a + Q n ω 1 s a) / 2) atTop (𝓝 (Qs s a)) := fun s hs a => by
    have := ((h0 s hs a).add (h1 s hs a)).div_const 2
    rwa [add_self_div_two] at this
  refine ⟨fun s hs a => ⟨h0 s hs a, h1 s hs a, h2 s hs a⟩, ?_⟩
  exact eventually_maximises (Q := fun n s a => (Q n ω 0 s a + Q n ω 1 s a) / 2) h2

/-! ### Where the draws come from -/

/-- What is chosen by an independent random number, with a rule known in advance. -/
theorem frozen_law {J O Y : Type} [Fintype J] [DecidableEq J] [DecidableEq O] [mY : MeasurableSpace Y] {n : ℕ} {θ : Ω → J}
    (hθ : ∀ j, MeasurableSet[ℱ n] {ω | θ ω = j}) {f : J → Y → O} (hf : ∀ j o, MeasurableSet {y | f j y = o}) {U : Ω → Y}
    (hU : Measurable[ℱ (n + 1)] U) (hind : Indep (MeasurableSpace.comap U mY) (ℱ n) μ) (o : O) :
    MeasurableSet[ℱ (n + 1)] {ω | f (θ ω) (U ω) = o} ∧
    μ[Set.indicator {ω | f (θ ω) (U ω) = o} (fun _ => (1 : ℝ)) | ℱ n] =ᵐ[μ] fun ω => μ.real {ω' | f (θ ω) (U ω') = o} := by
  have hset : {ω | f (θ ω) (U ω) = o} = ⋃ j, ({ω | θ ω = j} ∩ {ω | f j (U ω) = o}) := by
    ext ω; simp
  have hUm : ∀ j, MeasurableSet[MeasurableSpace.comap U mY] {ω | f j (U ω) = o} := fun j => ⟨{y | f j y = o}, hf j o, rfl⟩
  have hUl : MeasurableSpace.comap U mY ≤ ℱ (n + 1) := hU.comap_le
  refine ⟨?_, ?_⟩
  · rw [hset]
    exact MeasurableSet.iUnion (fun j => ((ℱ.mono (Nat.le_succ n)) _ (hθ j)).inter (hUl _ (hUm j)))
  · have e : Set.indicator {ω | f (θ ω) (U ω) = o} (fun _ => (1 : ℝ)) =
        ∑ j, (Set.indicator {ω | θ ω = j} (fun _ => (1 : ℝ))) * Set.indicator {ω | f j (U ω) = o} (fun _ => (1 : ℝ)) := by
      funext ω
      rw [Finset.sum_apply, Finset.sum_eq_single (θ ω)]
      · simp [Set.indicator]
      · intro j _ hj
        have : ω ∉ {ω | θ ω = j} := fun h => hj h.symm
        rw [Pi.mul_apply, Set.indicator_of_notMem this, zero_mul]
      · simp
    have hm1 : ∀ j, StronglyMeasurable[ℱ n] (Set.indicator {ω | θ ω = j} (fun _ => (1 : ℝ))) :=
      fun j => stronglyMeasurable_const.indicator (hθ j)
    have hm2 : ∀ j, StronglyMeasurable[MeasurableSpace.comap U mY] (Set.indicator {ω | f j (U ω) = o} (fun _ => (1 : ℝ))) :=
      fun j => stronglyMeasurable_const.indicator (hUm j)
    have hle : MeasurableSpace.comap U mY ≤ mΩ := hUl.trans (ℱ.le _)
    have hi2 : ∀ j, Integrable (Set.indicator {ω | f j (U ω) = o} (fun _ => (1 : ℝ))) μ := fun j =>
      (integrable_const _).indicator (hle _ (hUm j))
    have hi : ∀ j, Integrable (Set.indicator {ω | θ ω = j} (fun _ => (1 : ℝ)) *
        Set.indicator {ω | f j (U ω) = o} (fun _ => (1 : ℝ))) μ := fun j =>
      (hi2 j).bdd_mul (c := 1) ((hm1 j).mono (ℱ.le n)).aestronglyMeasurable (Eventually.of_forall (fun ω => by
        simp only [Set.indicator]; split <;> simp))
    rw [e]
    have hone : ∀ j, μ[Set.indicator {ω | θ ω = j} (fun _ => (1 : ℝ)) * Set.indicator {ω | f j (U ω) = o} (fun _ => (1 : ℝ)) | ℱ n] =ᵐ[μ]
        fun ω => Set.indicator {ω | θ ω = j} (fun _ => (1 : ℝ)) ω * μ.real {ω' | f j (U ω') = o} := by
      intro j
      have g1 := condExp_mul_of_stronglyMeasurable_left (hm1 j) (hi j) (hi2 j)
      have g2 := condExp_indep_eq hle (ℱ.le n) (hm2 j) hind
      have g3 : μ[Set.indicator {ω | f j (U ω) = o} (fun _ => (1 : ℝ))] = μ.real {ω' | f j (U ω') = o} := by
        rw [integral_indicator (hle _ (hUm j))]
        simp
      filter_upwards [g1, g2] with ω k1 k2
      rw [k1, Pi.mul_apply, k2, g3]
    filter_upwards [condExp_finsetSum (s := Finset.univ) (fun j _ => hi j) (ℱ n), ae_all_iff.2 hone] with ω k1 k2
    rw [k1, Finset.sum_apply, Finset.sum_congr rfl (fun j _ => k2 j), Finset.sum_eq_single (θ ω)]
    · simp [Set.indicator]
    · intro j _ hj
      have : ω ∉ {ω | θ ω = j} := fun h => hj h.symm
      rw [Set.indicator_of_notMem this, zero_mul]
    · simp

/-- The tables are known before the transition. -/
theorem doubleTables_measurable {m : RandomMDP S A} {γ : ℝ} {t : ℕ → Ω → Trans S A} {first : ℕ → Ω → Bool} {pick : ℕ → Ω → A}
    {α : Bool → ℕ → Ω → ℝ} {Q0 : Tables S A} {N : ℕ}
    (hrew : ∀ n ω, (t n ω).reward = m.reward (t n ω).state (t n ω).action (t n ω).next)
    (habs : ∀ n ω, (t n ω).absorbing = m.absorbing (t n ω).state (t n ω).action (t n ω).next)
    (hpast : ∀ n, n < N → ∀ s a, MeasurableSet[ℱ n] {ω | (t n ω).state = s ∧ (t n ω).action = a}) (hα : ∀ c n, n < N → Measurable[ℱ n] (α c n))
    (hknown : ∀ n, n < N → ∀ c s' a', MeasurableSet[ℱ (n + 1)] {ω | first n ω = c ∧ (t n ω).next = s' ∧ pick n ω = a'}) :
    ∀ n, n ≤ N → ∀ c s a, Measurable[ℱ n] (fun ω =>
      doubleTables γ (t · ω) (first · ω) (pick · ω) (fun c k => α c k ω) Q0 n (tableOf c) s a) := by
  intro n
  induction n with
  | zero => intro _ c s a; exact measurable_const
  | succ n ih =>
    intro hn c s a
    have hle : ℱ n ≤ ℱ (n + 1) := ℱ.mono (Nat.le_succ n)
    have e : (fun ω => doubleTables γ (t · ω) (first · ω) (pick · ω) (fun c k => α c k ω) Q0 (n + 1) (tableOf c) s a) = fun ω =>
        doubleTables γ (t · ω) (first · ω) (pick · ω) (fun c k => α c k ω) Q0 n (tableOf c) s a +
        ∑ y : Bool × S × A, (if first n ω = y.1 ∧ (t n ω).next = y.2.1 ∧ pick n ω = y.2.2 then (1 : ℝ) else 0) *
          (if (t n ω).state = s ∧ (t n ω).action = a then α c n ω * (if y.1 = c then m.reward s a y.2.1 +
            γ * (if m.absorbing s a y.2.1 then 0 else
              doubleTables γ (t · ω) (first · ω) (pick · ω) (fun c k => α c k ω) Q0 n (tableOf (!c)) y.2.1 y.2.2) -
            doubleTables γ (t · ω) (first · ω) (pick · ω) (fun c k => α c k ω) Q0 n (tableOf c) s a else 0) else 0) := by
      funext ω
      rw [doubleTables_succ, Finset.sum_eq_single (first n ω, (t n ω).next, pick n ω)]
      · simp only [and_self, if_true, one_mul]
        congr 1
        by_cases h : (t n ω).state = s ∧ (t n ω).action = a
        · rw [if_pos h, if_pos h, hrew, habs, h.1, h.2]
        · rw [if_neg h, if_neg h]
      · intro y _ hy
        rw [if_neg (fun h => hy (Prod.ext h.1.symm (Prod.ext h.2.1.symm h.2.2.symm))), zero_mul]
      · simp
    rw [e]
    refine ((ih (by omega) c s a).mono hle le_rfl).add ?_
    refine @Finset.measurable_fun_sum _ _ _ _ _ _ (ℱ (n + 1)) _ Finset.univ (fun y _ => ?_)
    refine (Measurable.ite (hknown n (by omega) y.1 y.2.1 y.2.2) measurable_const measurable_const).mul (Measurable.mono ?_ hle le_rfl)
    refine Measurable.ite (hpast n (by omega) s a) ((hα c n (by omega)).mul ?_) measurable_const
    split
    · refine Measurable.sub (measurable_const.add (measurable_const.mul ?_)) (ih (by omega) c s a)
      split
      · exact measurable_const
      · exact ih (by omega) _ _ _
    · exact measurable_const

/-- C147. Where the draws come from: if coin, next state and action are chosen by random numbers that are independent of the past, each with its
probability, then the experience is one of the problem and the draws are those of Double Q-learning. (`choose` is what
`np.random.uniform() < .5`, the random transition and `np.random.choice` do with the numbers.) -/
theorem C147_draws {Y : Type} [mY : MeasurableSpace Y] (m : RandomMDP S A) (hm : m.Proper) (L : S → Prop) (γ : ℝ)
    (choose : S → A → (Bool → S → Finset A) → Y → Bool × S × A) (hmeas : ∀ s a M o, MeasurableSet {y | choose s a M y = o}) (U : ℕ → Ω → Y)
    (hU : ∀ n, Measurable[ℱ (n + 1)] (U n)) (hind : ∀ n, Indep (MeasurableSpace.comap (U n) mY) (ℱ n) μ)
    (hprob : ∀ n s a M c s' a', (∀ c s', (M c s').Nonempty) →
      μ.real {ω | choose s a M (U n ω) = (c, s', a')} = 1 / 2 * m.prob s a s' * uniform (M c s') a')
    (t : ℕ → Ω → Trans S A) (hlive : ∀ n ω, L (t n ω).state)
    (hpast : ∀ n s a, MeasurableSet[ℱ n] {ω | (t n ω).state = s ∧ (t n ω).action = a}) (first : ℕ → Ω → Bool) (pick : ℕ → Ω → A)
    (α : Bool → ℕ → Ω → ℝ) (hα : ∀ c n, Measurable[ℱ n] (α c n)) (Q0 : Tables S A) (Q : ℕ → Ω → Tables S A)
    (hQ : ∀ n ω, Q n ω = doubleTables γ (t · ω) (first · ω) (pick · ω) (fun c k => α c k ω) Q0 n)
    (hout : ∀ n ω, (first n ω, (t n ω).next, pick n ω) =
      choose (t n ω).state (t n ω).action (fun c s' => best (Q n ω (tableOf c) s')) (U n ω))
    (hrew : ∀ n ω, (t n ω).reward = m.reward (t n ω).state (t n ω).action (t n ω).next)
    (habs : ∀ n ω, (t n ω).absorbing = m.absorbing (t n ω).state (t n ω).action (t n ω).next) :
    Experience μ ℱ m L t ∧ DoubleDraws μ ℱ m t Q first pick := by
  classical
  let θ : ℕ → Ω → S × A × (Bool → S → Finset A) := fun n ω => ((t n ω).state, (t n ω).action, fun c s' => best (Q n ω (tableOf c) s'))
  have hθ : ∀ n, (∀ c s a, Measurable[ℱ n] (fun ω => Q n ω (tableOf c) s a)) → ∀ j, MeasurableSet[ℱ n] {ω | θ n ω = j} := by
    intro n hQm j
    have hbest : ∀ c s' a', MeasurableSet[ℱ n] {ω | a' ∈ best (Q n ω (tableOf c) s')} := by
      intro c s' a'
      have e : {ω | a' ∈ best (Q n ω (tableOf c) s')} = ⋂ b, {ω | Q n ω (tableOf c) s' b ≤ Q n ω (tableOf c) s' a'} := by
        ext ω; simp [mem_best, Maximises]
      rw [e]
      exact MeasurableSet.iInter (fun b => measurableSet_le (hQm c s' b) (hQm c s' a'))
    have e : {ω | θ n ω = j} = {ω | (t n ω).state = j.1 ∧ (t n ω).action = j.2.1} ∩
        ⋂ x : Bool × S × A, {ω | x.2.2 ∈ best (Q n ω (tableOf x.1) x.2.1) ↔ x.2.2 ∈ j.2.2 x.1 x.2.1} := by
      ext ω
      simp only [θ, Set.mem_setOf_eq, Set.mem_inter_iff, Set.mem_iInter, Prod.ext_iff, funext_iff, Finset.ext_iff, Prod.forall, and_assoc]
    rw [e]
    refine (hpast n _ _).inter (MeasurableSet.iInter (fun x => ?_))
    by_cases h : x.2.2 ∈ j.2.2 x.1 x.2.1
    · simpa [h] using hbest x.1 x.2.1 x.2.2
    · have e' : {ω | x.2.2 ∈ best (Q n ω (tableOf x.1) x.2.1) ↔ x.2.2 ∈ j.2.2 x.1 x.2.1} =
          {ω | x.2.2 ∈ best (Q n ω (tableOf x.1) x.2.1)}ᶜ := by
        ext ω; simp [h]
      rw [e']
      exact (hbest x.1 x.2.1 x.2.2).compl
  have hset : ∀ n c s' a', {ω | first n ω = c ∧ (t n ω).next = s' ∧ pick n ω = a'} =
      {ω | choose (θ n ω).1 (θ n ω).2.1 (θ n ω).2.2 (U n ω) = (c, s', a')} := by
    intro n c s' a'
    ext ω
    simp only [Set.mem_setOf_eq, θ]
    rw [← hout n ω]
    simp [Prod.ext_iff]
  have hlaw : ∀ n, (∀ j, MeasurableSet[ℱ n] {ω | θ n ω = j}) → ∀ c s' a',
      MeasurableSet[ℱ (n + 1)] {ω | first n ω = c ∧ (t n ω).next = s' ∧ pick n ω = a'} ∧
      μ[Set.indicator {ω | first n ω = c ∧ (t n ω).next = s' ∧ pick n ω = a'} (fun _ => (1 : ℝ)) | ℱ n] =ᵐ[μ]
        fun ω => 1 / 2 * m.prob (t n ω).state (t n ω).action s' * uniform (best (Q n ω (tableOf c) s')) a' := by
    intro n hj c s' a'
    rw [hset]
    have := frozen_law (μ := μ) (ℱ := ℱ) (n := n) (θ := θ n) hj (f := fun j y => choose j.1 j.2.1 j.2.2 y) (fun j o => hmeas _ _ _ o) (hU n)
      (hind n) (c, s', a')
    refine ⟨this.1, this.2.trans (Eventually.of_forall (fun ω => ?_))⟩
    exact hprob n _ _ _ c s' a' (fun c s' => best_nonempty _)
  have hknown : ∀ N n, n < N → ∀ c s' a', MeasurableSet[ℱ (n + 1)] {ω | first n ω = c ∧ (t n ω).next = s' ∧ pick n ω = a'} := by
    intro N
    induction N with
    | zero => intro n hn; omega
    | succ N ih =>
      intro n hn
      rcases Nat.lt_or_ge n N with h | h
      · exact ih n h
      · obtain rfl : n = N := by omega
        have hQm := doubleTables_measurable (ℱ := ℱ) (γ := γ) (Q0 := Q0) (N := n) hrew habs (fun n _ => hpast n) (fun c n _ => hα c n) ih n le_rfl
        exact fun c s' a' => (hlaw n (hθ n (fun c s a => by simp only [hQ]; exact hQm c s a)) c s' a').1
  have hQm : ∀ n c s a, Measurable[ℱ n] (fun ω => Q n ω (tableOf c) s a) := fun n c s a => by
    simp only [hQ]
    exact doubleTables_measurable (ℱ := ℱ) (γ := γ) (Q0 := Q0) (N := n) hrew habs (fun n _ => hpast n) (fun c n _ => hα c n) (hknown n) n le_rfl c s a
  have hd : DoubleDraws μ ℱ m t Q first pick :=
    ⟨fun n c s' a' => (hlaw n (hθ n (hQm n)) c s' a').1, fun n c s' a' => (hlaw n (hθ n (hQm n)) c s' a').2⟩
  have hnext : ∀ n s', {ω | (t n ω).next = s'} = ⋃ y : Bool × A, {ω | first n ω = y.1 ∧ (t n ω).next = s' ∧ pick n ω = y.2} := by
    intro n s'; ext ω; simp
  refine ⟨⟨hlive, hpast, fun n s' => ?_, fun n s' => ?_, hrew, habs⟩, hd⟩
  · rw [hnext]
    exact MeasurableSet.iUnion (fun y => hd.known n y.1 s' y.2)
  · have e : Set.indicator {ω | (t n ω).next = s'} (fun _ => (1 : ℝ)) =
        ∑ y : Bool × A, Set.indicator {ω | first n ω = y.1 ∧ (t n ω).next = s' ∧ pick n ω = y.2} (fun _ => (1 : ℝ)) := by
      funext ω
      rw [Finset.sum_apply, Finset.sum_eq_single (first n ω, pick n ω)]
      · simp [Set.indicator]
      · intro y _ hy
        refine Set.indicator_of_notMem (fun h => hy ?_) _
        exact Prod.ext h.1.symm h.2.2.symm
      · simp
    rw [e]
    have hi : ∀ y : Bool × A, Integrable (Set.indicator {ω | first n ω = y.1 ∧ (t n ω).next = s' ∧ pick n ω = y.2} (fun _ => (1 : ℝ))) μ :=
      fun y => (integrable_const _).indicator (ℱ.le _ _ (hd.known n y.1 s' y.2))
    filter_upwards [condExp_finsetSum (s := Finset.univ) (fun y _ => hi y) (ℱ n),
      ae_all_iff.2 (fun y : Bool × A => hd.law n y.1 s' y.2)] with ω k1 k2
    rw [k1, Finset.sum_apply, Finset.sum_congr rfl (fun y _ => k2 y), Fintype.sum_prod_type]
    simp only [← Finset.mul_sum, (uniform_prob (best_nonempty _)).2, mul_one]
    rw [Fintype.sum_bool]
    ring

/-! ### An example: the problem of the coin, with a coin for the table and a coin for ties -/

/-- Independent draws with the same law. -/
def draws {Y : Type} [MeasurableSpace Y] (ν : Measure Y) [IsProbabilityMeasure ν] : Measure (ℕ → Y) := Measure.infinitePi (fun _ => ν)

instance {Y : Type} [MeasurableSpace Y] (ν : Measure Y) [IsProbabilityMeasure ν] : IsProbabilityMeasure (draws ν) := by
  unfold draws; infer_instance

/-- What the first `n` draws tell. -/
def drawn (Y : Type) [MeasurableSpace Y] : Filtration ℕ (inferInstance : MeasurableSpace (ℕ → Y)) :=
  { seq := fun n => ⨆ k ∈ Set.Iio n, MeasurableSpace.comap (fun ω : ℕ → Y => ω k) inferInstance
    mono' := fun _ _ h => biSup_mono (fun _ hk => lt_of_lt_of_le hk h)
    le' := fun _ => iSup₂_le (fun k _ => (measurable_pi_apply k).comap_le) }

theorem draws_indep {Y : Type} [MeasurableSpace Y] (ν : Measure Y) [IsProbabilityMeasure ν] (n : ℕ) :
    Indep (MeasurableSpace.comap (fun ω : ℕ → Y => ω n) inferInstance) (drawn Y n) (draws ν) := by
  have h1 : iIndepFun (fun (i : ℕ) (ω : ℕ → Y) => ω i) (draws ν) := iIndepFun_infinitePi (X := fun _ x => x) (fun _ => measurable_id)
  have h2 := indep_iSup_of_disjoint (S := {n}) (T := Set.Iio n)
    (fun i => (measurable_pi_apply i).comap_le) ((iIndepFun_iff_iIndep _ _ _).1 h1) (by simp)
  rw [iSup_singleton] at h2
  exact h2

theorem draws_known {Y : Type} [MeasurableSpace Y] (n : ℕ) : Measurable[drawn Y (n + 1)] (fun ω : ℕ → Y => ω n) := by
  refine Measurable.mono (comap_measurable _) ?_ le_rfl
  exact le_biSup (fun k => MeasurableSpace.comap (fun ω : ℕ → Y => ω k) inferInstance) (show n ∈ Set.Iio (n + 1) by simp)

theorem draws_law {Y : Type} [MeasurableSpace Y] (ν : Measure Y) [IsProbabilityMeasure ν] (n : ℕ) {T : Set Y} (hT : MeasurableSet T) :
    (draws ν).real {ω | ω n ∈ T} = ν.real T := by
  have := congrArg (fun ρ => ρ T) (Measure.infinitePi_map_eval (fun _ : ℕ => ν) n)
  rw [Measure.map_apply (measurable_pi_apply n) hT] at this
  rw [Measure.real, Measure.real]
  exact congrArg ENNReal.toReal this

/-- Three coins: the table, the next state, and what to do with a tie. -/
def threeCoins : Measure (Bool × Bool × Bool) := coin.prod (coin.prod coin)

instance : IsProbabilityMeasure threeCoins := by unfold threeCoins; infer_instance

/-- An action of the set: the tossed one if it is in the set. -/
def settle (M : Finset Bool) (b : Bool) : Bool := if b ∈ M then b else !b

theorem coin_real (T : Set Bool) [DecidablePred (· ∈ T)] : coin.real T = (if true ∈ T then 1 / 2 else 0) + if false ∈ T then 1 / 2 else 0 := by
  have h : MeasurableSet T := T.toFinite.measurableSet
  rw [Measure.real]
  unfold coin
  rw [Measure.add_apply, Measure.smul_apply, Measure.smul_apply, Measure.dirac_apply' _ h, Measure.dirac_apply' _ h]
  by_cases h1 : true ∈ T <;> by_cases h2 : false ∈ T <;> simp [h1, h2, Set.indicator, ENNReal.toReal_add]

theorem settle_uniform {M : Finset Bool} (hM : M.Nonempty) (a : Bool) : coin.real {b | settle M b = a} = uniform M a := by
  rw [coin_real]
  have : ∀ M : Finset Bool, M.Nonempty → M = {true} ∨ M = {false} ∨ M = Finset.univ := by decide
  rcases this M hM with rfl | rfl | rfl <;> cases a <;> simp [settle, uniform] <;> norm_num

theorem threeCoins_law (M : Bool → Bool → Finset Bool) (hM : ∀ c s, (M c s).Nonempty) (c s a : Bool) :
    threeCoins.real {y | (y.1, y.2.1, settle (M y.1 y.2.1) y.2.2) = (c, s, a)} = 1 / 2 * (1 / 2) * uniform (M c s) a := by
  have e : {y : Bool × Bool × Bool | (y.1, y.2.1, settle (M y.1 y.2.1) y.2.2) = (c, s, a)} =
      {c} ×ˢ ({s} ×ˢ {b | settle (M c s) b = a}) := by
    ext y
    simp only [Set.mem_setOf_eq, Prod.ext_iff, Set.mem_prod, Set.mem_singleton_iff]
    constructor
    · rintro ⟨rfl, rfl, h⟩; exact ⟨rfl, rfl, h⟩
    · rintro ⟨rfl, rfl, h⟩; exact ⟨rfl, rfl, h⟩
  have hs : ∀ b : Bool, coin.real {b} = 1 / 2 := fun b => by rw [coin_real]; cases b <;> simp
  rw [e, threeCoins, measureReal_prod_prod, measureReal_prod_prod, hs, hs, settle_uniform (hM c s)]
  ring

/-- The actions are tried in turn; the second coin decides whether the episode ends. -/
def pairTrans (n : ℕ) (ω : ℕ → Bool × Bool × Bool) : Trans Bool Bool :=
  { state := false, action := n % 2 = 1, reward := if decide (n % 2 = 1) && (ω n).2.1 then 1 else 0, next := (ω n).2.1, absorbing := (ω n).2.1 }

/-- The rates of the two tables, with `DecayParameter(1, 1)`. -/
def pairRate (ω : ℕ → Bool × Bool × Bool) : Bool → ℕ → ℝ :=
  doubleRate (Policy.decayParam 1 1 none none false) coinKey (pairTrans · ω) (fun n => (ω n).1)

/-- The tables of the agent: the action of the next state is settled by the third coin. -/
def pairTables (ω : ℕ → Bool × Bool × Bool) : ℕ → Tables Bool Bool
  | 0 => fun _ _ _ => 0
  | n + 1 => doubleQ (1 / 2) (pairRate ω (ω n).1 n) (pairTables ω n) (pairTrans n ω) (ω n).1
      (settle (best (pairTables ω n (tableOf (ω n).1) (ω n).2.1)) (ω n).2.2)

def pairPick (n : ℕ) (ω : ℕ → Bool × Bool × Bool) : Bool := settle (best (pairTables ω n (tableOf (ω n).1) (ω n).2.1)) (ω n).2.2

theorem pairTables_eq (n : ℕ) (ω : ℕ → Bool × Bool × Bool) :
    pairTables ω n = doubleTables (1 / 2) (pairTrans · ω) (fun n => (ω n).1) (pairPick · ω) (pairRate ω) (fun _ _ _ => 0) n := by
  induction n with
  | zero => rfl
  | succ n ih =>
    show doubleQ _ _ (pairTables ω n) _ _ (pairPick n ω) = doubleQ _ _ (doubleTables _ _ _ _ _ _ n) _ _ _
    rw [ih]

theorem pair_past (n : ℕ) (s a : Bool) : MeasurableSet[drawn (Bool × Bool × Bool) n] {ω | (pairTrans n ω).state = s ∧ (pairTrans n ω).action = a} := by
  simp only [pairTrans]
  exact MeasurableSet.const _

theorem pair_known (n : ℕ) (c : Bool) : MeasurableSet[drawn (Bool × Bool × Bool) (n + 1)] {ω | (ω n).1 = c} :=
  draws_known n (measurableSet_eq_fun measurable_fst measurable_const)

theorem pair_draws : Experience (draws threeCoins) (drawn _) coinMDP (fun s => s = false) pairTrans ∧
    DoubleDraws (draws threeCoins) (drawn _) coinMDP pairTrans (fun n ω => pairTables ω n) (fun n ω => (ω n).1) pairPick := by
  refine C147_draws coinMDP coinMDP_proper _ (1 / 2) (fun _ _ M y => (y.1, y.2.1, settle (M y.1 y.2.1) y.2.2))
    (fun _ _ _ _ => (Set.toFinite _).measurableSet) (fun n ω => ω n) draws_known (draws_indep threeCoins)
    (fun n s a M c s' a' hM => ?_) pairTrans (fun _ _ => rfl) pair_past (fun n ω => (ω n).1) pairPick (fun c n ω => pairRate ω c n)
    (fun c n => doubleRate_measurable pair_past coinKey_inj pair_known 1 1 c n) (fun _ _ _ => 0) _ (fun n ω => pairTables_eq n ω)
    (fun _ _ => rfl) (fun _ _ => rfl) (fun _ _ => rfl)
  exact (draws_law threeCoins n (T := {y | (y.1, y.2.1, settle (M y.1 y.2.1) y.2.2) = (c, s', a')}) (Set.toFinite _).measurableSet).trans
    (threeCoins_law M hM c s' a')

theorem pair_explores (ω : ℕ → Bool × Bool × Bool) : ExploresForever (fun s => s = false) (pairTrans · ω) := by
  intro s hs a n
  subst hs
  cases a
  · exact ⟨2 * n, by omega, rfl, by simp [pairTrans]⟩
  · exact ⟨2 * n + 1, by omega, rfl, by simp [pairTrans]⟩

/-- All the hypotheses of `C147_decay`, `C147_double` and `C147_decay_rates` are met by this agent. -/
example : ∃ Qs : Table Bool Bool, coinMDP.OptimalOn (fun s => s = false) (1 / 2) Qs ∧
    ∀ᵐ ω ∂draws threeCoins, ∀ᶠ n in atTop, ∀ s, s = false → ∀ a,
      Maximises (fun a => (pairTables ω n 0 s a + pairTables ω n 1 s a) / 2) a → Maximises (Qs s) a := by
  obtain ⟨Qs, hQs⟩ := C145_optimal_exists coinMDP coinMDP_proper (fun s => s = false) (1 / 2) (by norm_num) (by norm_num)
  refine ⟨Qs, hQs, ?_⟩
  have := C147_decay coinMDP coinMDP_proper _ coinMDP_closed (1 / 2) (by norm_num) (by norm_num) Qs hQs pairTrans pair_draws.1
    (Eventually.of_forall pair_explores) (fun n ω => (ω n).1) pairPick coinKey coinKey_inj 1 1 (by norm_num) (by norm_num) (by norm_num)
    (by norm_num) (fun _ _ _ => 0) (fun n ω => pairTables ω n) (fun n ω => pairTables_eq n ω) pair_draws.2
  filter_upwards [this] with ω h
  exact h.2

end

end Verif.TD
