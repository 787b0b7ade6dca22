/-
Property C147, continued: the learning rates of Double Q-learning. Every table has its own copy of the decaying parameter, so the two tables
have different rates at any time; the coin makes them equal in the long run.
-/
import Verif.TD.PropsStochDouble

namespace Verif.TD

open Filter Topology MeasureTheory

noncomputable section

variable {S A : Type} [DecidableEq S] [DecidableEq A] [Fintype S] [Fintype A] [Nonempty A]
variable {Ω : Type} [mΩ : MeasurableSpace Ω] {μ : Measure Ω} [IsProbabilityMeasure μ] {ℱ : Filtration ℕ mΩ}

/-- Number of the first `n` transitions that update the pair in the table of `c`. -/
def timesUsed (c : Bool) (s : S) (a : A) (t : ℕ → Trans S A) (first : ℕ → Bool) (n : ℕ) : ℕ :=
  ∑ k ∈ Finset.range n, if first k = c ∧ (t k).state = s ∧ (t k).action = a then 1 else 0

omit [Fintype S] [Fintype A] [Nonempty A] in
theorem timesUsed_succ (c : Bool) (s : S) (a : A) (t : ℕ → Trans S A) (first : ℕ → Bool) (n : ℕ) :
    timesUsed c s a t first (n + 1) = timesUsed c s a t first n + if first n = c ∧ (t n).state = s ∧ (t n).action = a then 1 else 0 :=
  Finset.sum_range_succ _ _

omit [Fintype S] [Fintype A] [Nonempty A] in
theorem timesUsed_add (s : S) (a : A) (t : ℕ → Trans S A) (first : ℕ → Bool) (n : ℕ) :
    timesUsed true s a t first n + timesUsed false s a t first n = timesSeen s a t n := by
  unfold timesUsed timesSeen
  rw [← Finset.sum_add_distrib]
  refine Finset.sum_congr rfl (fun k _ => ?_)
  by_cases h : (t k).state = s ∧ (t k).action = a
  · cases hf : first k <;> simp [h]
  · simp [h]

omit [Fintype S] [Fintype A] [Nonempty A] in
theorem visits_used {key : S → A → Policy.Index} (hkey : ∀ s a s' a', key s a = key s' a' → s = s' ∧ a = a') (c : Bool) (s : S) (a : A)
    (t : ℕ → Trans S A) (first : ℕ → Bool) (n : ℕ) :
    Policy.visits false (key s a) (((List.range n).filter (fun i => tableOf (first i) = tableOf c)).map
      (fun i => .call (key (t i).state (t i).action))) = timesUsed c s a t first n := by
  induction n with
  | zero => simp [timesUsed, Policy.visits]
  | succ n ih =>
    rw [List.range_succ, List.filter_append, List.map_append, Policy.visits_append, ih, timesUsed_succ]
    congr 1
    by_cases h1 : first n = c
    · subst h1
      by_cases h : (t n).state = s ∧ (t n).action = a
      · rw [h.1, h.2]; simp [Policy.visits, h.1, h.2]
      · have h2 : ¬ (key (t n).state (t n).action = key s a) := fun h' => h (hkey _ _ _ _ h')
        simp [Policy.visits, h, h2]
    · have h2 : ¬ tableOf (first n) = tableOf c := by
        revert h1; unfold tableOf; cases first n <;> cases c <;> simp
      simp [Policy.visits, h1, h2]

omit [Fintype S] [Fintype A] [Nonempty A] in
theorem doubleRate_decay {key : S → A → Policy.Index} (hkey : ∀ s a s' a', key s a = key s' a' → s = s' ∧ a = a') (v p : ℝ)
    (t : ℕ → Trans S A) (first : ℕ → Bool) (c : Bool) (n : ℕ) : doubleRate (Policy.decayParam v p none none false) key t first c n =
      v / ((timesUsed c (t n).state (t n).action t first n + 1 : ℕ) : ℝ) ^ p := by
  unfold doubleRate tableParam
  rw [Policy.C25_decay_call, visits_used hkey]

/-- In the long run half of the updates of a pair go to the first table. -/
theorem half_used (L : S → Prop) (t : ℕ → Ω → Trans S A)
    (hpast : ∀ n s a, MeasurableSet[ℱ n] {ω | (t n ω).state = s ∧ (t n ω).action = a}) (hexp : ∀ᵐ ω ∂μ, ExploresForever L (t · ω))
    (key : S → A → Policy.Index) (hkey : ∀ s a s' a', key s a = key s' a' → s = s' ∧ a = a') (first : ℕ → Ω → Bool) (hc : FairCoins μ ℱ first) :
    ∀ᵐ ω ∂μ, ∀ s, L s → ∀ a,
      Tendsto (fun n => (timesUsed true s a (t · ω) (first · ω) n : ℝ) / timesSeen s a (t · ω) n) atTop (𝓝 (1 / 2)) := by
  have hr := C145_decay_rates (μ := μ) (ℱ := ℱ) L t hpast key hkey 1 1 (by norm_num) (by norm_num) (by norm_num) (by norm_num) hexp
  obtain ⟨C, hC⟩ := hr.squares
  have := table_converges (ℱ := ℱ) (μ := μ) (I := S × A) (Y := Bool)
    (x := fun n ω j => (timesUsed true j.1 j.2 (t · ω) (first · ω) n : ℝ) / timesSeen j.1 j.2 (t · ω) n) (x0 := fun _ => 0)
    (xs := fun _ => 1 / 2) (G := fun _ _ o => if o then 1 else 0) (p := fun _ _ => 1 / 2)
    (i := fun n ω => ((t n ω).state, (t n ω).action)) (y := first)
    (a := fun n ω => rateAt (Policy.decayParam 1 1 none none false) key (t · ω) n) (L := fun j => L j.1) (γ := 0) (B := 1) (C := C)
    le_rfl zero_lt_one (fun n j => by simpa only [Prod.ext_iff] using hpast n j.1 j.2) hc.known
    (fun n => (hr.known n).stronglyMeasurable) (fun n ω => (hr.range n ω).1) (fun n ω => (hr.range n ω).2) hc.law
    (fun _ _ => by norm_num) (fun _ => by simp) (fun _ _ => measurable_const) (fun _ => by simp) (fun _ _ _ o => by cases o <;> simp)
    (fun ω => by funext j; simp [timesUsed]) (fun n ω j => ?_) (fun v D hD h j hj => by norm_num)
    (fun j N ω => by simpa only [ratesOf, Prod.ext_iff] using hC j.1 j.2 ω N) ?_
  · filter_upwards [this] with ω h s hs a
    exact h (s, a) hs
  · by_cases h : j = ((t n ω).state, (t n ω).action)
    · rw [if_pos h]
      have hs : (t n ω).state = j.1 ∧ (t n ω).action = j.2 := by rw [h]; exact ⟨rfl, rfl⟩
      rw [rateAt_decay hkey, hs.1, hs.2, timesSeen_succ, if_pos hs, timesUsed_succ]
      have hadd := timesUsed_add j.1 j.2 (t · ω) (first · ω) n
      have hle : timesUsed true j.1 j.2 (t · ω) (first · ω) n ≤ timesSeen j.1 j.2 (t · ω) n := by omega
      revert hle
      generalize timesUsed true j.1 j.2 (t · ω) (first · ω) n = u
      generalize timesSeen j.1 j.2 (t · ω) n = N
      intro hle
      have e : (if first n ω = true ∧ (t n ω).state = j.1 ∧ (t n ω).action = j.2 then (1 : ℕ) else 0) = if first n ω then 1 else 0 := by
        simp [hs]
      rw [e]
      have hN1 : ((N + 1 : ℕ) : ℝ) ≠ 0 := by exact_mod_cast Nat.succ_ne_zero N
      rw [Real.rpow_one]
      rcases Nat.eq_zero_or_pos N with h0 | h0
      · subst h0
        obtain rfl : u = 0 := by omega
        cases first n ω <;> simp
      · have hN : (N : ℝ) ≠ 0 := by exact_mod_cast h0.ne'
        push_cast at hN1 ⊢
        cases first n ω
        · simp only [Bool.false_eq_true, if_false]; field_simp; ring
        · simp only [if_true]; field_simp; ring
    · rw [if_neg h]
      have hs : ¬ ((t n ω).state = j.1 ∧ (t n ω).action = j.2) := fun g => h (Prod.ext g.1.symm g.2.symm)
      have hs' : ¬ (first n ω = true ∧ (t n ω).state = j.1 ∧ (t n ω).action = j.2) := fun g => hs g.2
      rw [timesSeen_succ, if_neg hs, timesUsed_succ, if_neg hs', Nat.add_zero, Nat.add_zero]
  · filter_upwards [hr.diverge] with ω h j hj
    simpa only [ratesOf, Prod.ext_iff] using h j.1 hj j.2

/-- Everything known one step later. -/
def nextPast (ℱ : Filtration ℕ mΩ) : Filtration ℕ mΩ :=
  { seq := fun n => ℱ (n + 1), mono' := fun _ _ h => ℱ.mono (Nat.succ_le_succ h), le' := fun n => ℱ.le (n + 1) }

omit [DecidableEq S] [DecidableEq A] [Fintype S] [Fintype A] [Nonempty A] in
theorem tableOf_le (c : Bool) : tableOf c ≤ 1 := by cases c <;> simp [tableOf]

omit [DecidableEq S] [DecidableEq A] [Fintype S] [Fintype A] [Nonempty A] in
theorem tableOf_inj {c c' : Bool} (h : tableOf c = tableOf c') : c = c' := by
  revert h; unfold tableOf; cases c <;> cases c' <;> simp

/-- The rates are known before the transition. -/
theorem doubleRate_measurable {t : ℕ → Ω → Trans S A}
    (hpast : ∀ n s a, MeasurableSet[ℱ n] {ω | (t n ω).state = s ∧ (t n ω).action = a})
    {key : S → A → Policy.Index} (hkey : ∀ s a s' a', key s a = key s' a' → s = s' ∧ a = a') {first : ℕ → Ω → Bool}
    (hknown : ∀ n c, MeasurableSet[ℱ (n + 1)] {ω | first n ω = c}) (v p : ℝ) (c : Bool) (n : ℕ) :
    Measurable[ℱ n] (fun ω => doubleRate (Policy.decayParam v p none none false) key (t · ω) (first · ω) c n) := by
  have e : (fun ω => doubleRate (Policy.decayParam v p none none false) key (t · ω) (first · ω) c n) =
      fun ω => ∑ j : S × A, (if (t n ω).state = j.1 ∧ (t n ω).action = j.2 then (1 : ℝ) else 0) *
        (v / ((timesUsed c j.1 j.2 (t · ω) (first · ω) n + 1 : ℕ) : ℝ) ^ p) := by
    funext ω
    rw [doubleRate_decay hkey, Finset.sum_eq_single ((t n ω).state, (t n ω).action)]
    · simp
    · intro j _ hj
      rw [if_neg (fun h => hj (Prod.ext h.1.symm h.2.symm)), zero_mul]
    · simp
  rw [e]
  refine @Finset.measurable_fun_sum _ _ _ _ _ _ (ℱ n) _ Finset.univ (fun j _ => ?_)
  refine (Measurable.ite (hpast n j.1 j.2) measurable_const measurable_const).mul ?_
  have hN : Measurable[ℱ n] (fun ω => timesUsed c j.1 j.2 (t · ω) (first · ω) n) := by
    unfold timesUsed
    refine @Finset.measurable_fun_sum _ _ _ _ _ _ (ℱ n) _ (Finset.range n) (fun k hk => ?_)
    have hk' := Finset.mem_range.1 hk
    refine Measurable.ite ?_ measurable_const measurable_const
    exact (ℱ.mono (by omega : k + 1 ≤ n) _ (hknown k c)).inter (ℱ.mono hk'.le _ (hpast k j.1 j.2))
  exact (measurable_of_countable (fun k : ℕ => v / ((k + 1 : ℕ) : ℝ) ^ p)).comp hN

/-- C147. With the library's `DecayParameter(value, exp, size=mdp.info.size)`, of which each table has its own copy, the rates of Double
Q-learning meet the hypotheses of `C147_double`, if every action is taken again and again in every live state. -/
theorem C147_decay_rates (L : S → Prop) (t : ℕ → Ω → Trans S A) (hlive : ∀ n ω, L (t n ω).state)
    (hpast : ∀ n s a, MeasurableSet[ℱ n] {ω | (t n ω).state = s ∧ (t n ω).action = a}) (hexp : ∀ᵐ ω ∂μ, ExploresForever L (t · ω))
    (key : S → A → Policy.Index) (hkey : ∀ s a s' a', key s a = key s' a' → s = s' ∧ a = a') (first : ℕ → Ω → Bool) (hc : FairCoins μ ℱ first)
    (v p : ℝ) (hv0 : 0 < v) (hv1 : v ≤ 1) (hp0 : 1 / 2 < p) (hp1 : p ≤ 1) :
    DoubleRates μ ℱ L t first (fun c n ω => doubleRate (Policy.decayParam v p none none false) key (t · ω) (first · ω) c n) := by
  have hhalf := half_used L t hpast hexp key hkey first hc
  -- the two counts
  have hcount : ∀ᵐ ω ∂μ, ∀ s, L s → ∀ a, (∀ c, Tendsto (fun n => (timesUsed c s a (t · ω) (first · ω) n : ℝ)) atTop atTop) ∧
      Tendsto (fun n => ((timesUsed true s a (t · ω) (first · ω) n + 1 : ℕ) : ℝ) / ((timesUsed false s a (t · ω) (first · ω) n + 1 : ℕ) : ℝ))
        atTop (𝓝 1) := by
    filter_upwards [hhalf, hexp] with ω hh hx s hs a
    have hN : Tendsto (fun n => (timesSeen s a (t · ω) n : ℝ)) atTop atTop :=
      tendsto_natCast_atTop_atTop.comp (timesSeen_tendsto (hx s hs a))
    have hNpos : ∀ᶠ n in atTop, (0 : ℝ) < timesSeen s a (t · ω) n := hN.eventually_gt_atTop 0
    have ht := hh s hs a
    have hf : Tendsto (fun n => (timesUsed false s a (t · ω) (first · ω) n : ℝ) / timesSeen s a (t · ω) n) atTop (𝓝 (1 / 2)) := by
      have h1 : Tendsto (fun n => 1 - (timesUsed true s a (t · ω) (first · ω) n : ℝ) / timesSeen s a (t · ω) n) atTop (𝓝 (1 / 2)) := by
        have := ht.const_sub 1
        norm_num at this
        simpa using this
      refine h1.congr' ?_
      filter_upwards [hNpos] with n hn
      have := timesUsed_add s a (t · ω) (first · ω) n
      rw [← this] at hn ⊢
      push_cast at hn ⊢
      field_simp
      ring
    have hall : ∀ c, Tendsto (fun n => (timesUsed c s a (t · ω) (first · ω) n : ℝ) / timesSeen s a (t · ω) n) atTop (𝓝 (1 / 2)) := by
      intro c; cases c
      · exact hf
      · exact ht
    have hinf : ∀ c, Tendsto (fun n => (timesUsed c s a (t · ω) (first · ω) n : ℝ)) atTop atTop := by
      intro c
      have := (hall c).pos_mul_atTop (by norm_num) hN
      refine this.congr' ?_
      filter_upwards [hNpos] with n hn
      field_simp
    refine ⟨hinf, ?_⟩
    have hinv : Tendsto (fun n => 1 / (timesSeen s a (t · ω) n : ℝ)) atTop (𝓝 0) := by
      simp only [one_div]
      exact hN.inv_tendsto_atTop
    have h2 : Tendsto (fun n => ((timesUsed true s a (t · ω) (first · ω) n : ℝ) / timesSeen s a (t · ω) n + 1 / (timesSeen s a (t · ω) n : ℝ)) /
        ((timesUsed false s a (t · ω) (first · ω) n : ℝ) / timesSeen s a (t · ω) n + 1 / (timesSeen s a (t · ω) n : ℝ))) atTop (𝓝 1) := by
      have := ((hall true).add hinv).div ((hall false).add hinv) (by norm_num)
      rw [add_zero, div_self (by norm_num : (1 / 2 : ℝ) ≠ 0)] at this
      exact this
    refine h2.congr' ?_
    filter_upwards [hNpos] with n hn
    have : (0 : ℝ) < (timesUsed false s a (t · ω) (first · ω) n : ℝ) + 1 := by positivity
    push_cast
    field_simp
  -- the rates that are used
  have hforever : ∀ᵐ ω ∂μ, UpdatesForever L 1 (t · ω) (fun k => tableOf (first k ω)) := by
    filter_upwards [hcount] with ω h k hk s hs a n
    obtain ⟨c, rfl⟩ : ∃ c, k = tableOf c := by
      rcases Nat.lt_or_ge k 1 with h1 | h1
      · exact ⟨true, by simp [tableOf]; omega⟩
      · exact ⟨false, by simp [tableOf]; omega⟩
    by_contra hno
    have hconst : ∀ d, timesUsed c s a (t · ω) (first · ω) (n + d) = timesUsed c s a (t · ω) (first · ω) n := by
      intro d
      induction d with
      | zero => rfl
      | succ d ih =>
        rw [← Nat.add_assoc, timesUsed_succ, ih, if_neg, Nat.add_zero]
        intro hd
        exact hno ⟨n + d, by omega, by show tableOf (first (n + d) ω) = tableOf c; rw [hd.1], hd.2.1, hd.2.2⟩
    obtain ⟨i, hi, hgt⟩ := (((h s hs a).1 c).eventually_gt_atTop (timesUsed c s a (t · ω) (first · ω) n : ℝ)).and
      (eventually_ge_atTop n) |>.exists
    obtain ⟨d, rfl⟩ := Nat.exists_eq_add_of_le hgt
    rw [hconst d] at hi
    exact lt_irrefl _ hi
  have hidx : ∀ n, Measurable[nextPast ℱ n] (fun ω => tableOf (first n ω)) := by
    intro n
    have e : (fun ω => tableOf (first n ω)) = fun ω => if first n ω = true then 0 else 1 := rfl
    rw [e]
    exact Measurable.ite (hc.known n true) measurable_const measurable_const
  have hM := C145_maxmin_rates (μ := μ) (ℱ := nextPast ℱ) L 1 t (fun n s a => ℱ.mono (Nat.le_succ n) _ (hpast n s a))
    (fun n ω => tableOf (first n ω)) hidx (fun n ω => tableOf_le _) key hkey v p hv0 hv1 hp0 hp1 hforever
  have hused : ∀ c s a ω k, usedRates c s a (t · ω) (first · ω)
      (fun n => doubleRate (Policy.decayParam v p none none false) key (t · ω) (first · ω) c n) k =
      ratesOfTable (tableOf c) s a (t · ω) (fun k => tableOf (first k ω))
        (fun n => maxminRate (Policy.decayParam v p none none false) key (t · ω) (fun k => tableOf (first k ω)) n) k := by
    intro c s a ω k
    unfold usedRates ratesOfTable
    by_cases h : first k ω = c
    · subst h
      by_cases h' : (t k ω).state = s ∧ (t k ω).action = a
      · have h1 : first k ω = first k ω ∧ (t k ω).state = s ∧ (t k ω).action = a := ⟨rfl, h'⟩
        have h2 : tableOf (first k ω) = tableOf (first k ω) ∧ (t k ω).state = s ∧ (t k ω).action = a := ⟨rfl, h'⟩
        rw [if_pos h1, if_pos h2]
        rfl
      · rw [if_neg (fun g => h' g.2), if_neg (fun g => h' g.2)]
    · rw [if_neg (fun g => h g.1), if_neg (fun g => h (tableOf_inj g.1))]
  have hone : ∀ k : ℕ, (1 : ℝ) ≤ ((k + 1 : ℕ) : ℝ) ^ p := fun k =>
    Real.one_le_rpow (by exact_mod_cast Nat.succ_le_succ (Nat.zero_le k)) (by linarith)
  refine ⟨fun c n => ?_, fun c n ω => ?_, ?_, ?_, ?_⟩
  · exact doubleRate_measurable hpast hkey hc.known v p c n
  · rw [doubleRate_decay hkey]
    have := hone (timesUsed c (t n ω).state (t n ω).action (t · ω) (first · ω) n)
    exact ⟨div_pos hv0 (by linarith), (div_le_one (by linarith)).2 (by linarith)⟩
  · obtain ⟨C, hC⟩ := hM.squares
    refine ⟨C, fun c s a ω N => ?_⟩
    simp only [hused]
    exact hC (tableOf c) s a ω N
  · filter_upwards [hM.diverge] with ω h c s hs a
    simp only [hused]
    exact h (tableOf c) (tableOf_le c) s hs a
  · filter_upwards [hcount] with ω h
    have hj : ∀ j : S × A, L j.1 → Tendsto (fun n => (((timesUsed true j.1 j.2 (t · ω) (first · ω) n + 1 : ℕ) : ℝ) /
        ((timesUsed false j.1 j.2 (t · ω) (first · ω) n + 1 : ℕ) : ℝ)) ^ p) atTop (𝓝 1) := by
      intro j hL
      have := ((h j.1 hL j.2).2).rpow_const (p := p) (Or.inl one_ne_zero)
      rwa [Real.one_rpow] at this
    rw [Metric.tendsto_atTop]
    intro ε hε
    have hev : ∀ᶠ n in atTop, ∀ j : S × A, L j.1 → dist ((((timesUsed true j.1 j.2 (t · ω) (first · ω) n + 1 : ℕ) : ℝ) /
        ((timesUsed false j.1 j.2 (t · ω) (first · ω) n + 1 : ℕ) : ℝ)) ^ p) 1 < ε := by
      rw [eventually_all]; intro j
      by_cases hL : L j.1
      · exact ((hj j hL).eventually (Metric.ball_mem_nhds _ hε)).mono (fun n h _ => h)
      · exact Eventually.of_forall (fun n h => absurd h hL)
    obtain ⟨N, hN⟩ := eventually_atTop.1 hev
    refine ⟨N, fun n hn => ?_⟩
    have := hN n hn ((t n ω).state, (t n ω).action) (hlive n ω)
    rw [doubleRate_decay hkey, doubleRate_decay hkey]
    rw [Real.div_rpow (by positivity) (by positivity)] at this
    have h1 := hone (timesUsed true (t n ω).state (t n ω).action (t · ω) (first · ω) n)
    have h2 := hone (timesUsed false (t n ω).state (t n ω).action (t · ω) (first · ω) n)
    convert this using 2
    field_simp

end

end Verif.TD
