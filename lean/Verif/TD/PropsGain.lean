/-
Property C162: R-learning and the average reward.
-/
import Verif.TD.SpecGain
import Verif.TD.PropsStochWeighted
import Verif.TD.PropsStochSpeedy

namespace Verif.TD

open Filter Topology MeasureTheory ProbabilityTheory

noncomputable section

variable {S A : Type} [DecidableEq S] [DecidableEq A] [Fintype S] [Fintype A] [Nonempty A]
variable {Ω : Type} [mΩ : MeasurableSpace Ω] {μ : Measure Ω} [IsProbabilityMeasure μ] {ℱ : Filtration ℕ mΩ}

/-! ### One update -/

omit [Fintype S] in
open scoped Classical in
/-- C162. The estimate of the average reward changes only when the updated action is greedy after the update, and then by the temporal difference of the
values, scaled by what the learning rate of the values has left of it. -/
theorem C162_rho (α β : ℝ) (g : RL S A) (t : Trans S A) :
    let g' := rLearning α β g t
    let next := if t.absorbing then 0 else rowMax (g.Q t.next)
    g'.rho = if Maximises (g'.Q t.state) t.action then g.rho + β * ((1 - α) * (t.reward - g.rho + next - g.Q t.state t.action)) else g.rho := by
  intro g' next
  have hQ : g'.Q t.state t.action = g.Q t.state t.action + α * (t.reward - g.rho + next - g.Q t.state t.action) := by
    simp only [g', next, rLearning, Table.set, and_self, if_true, not_ite]
  have hiff : g'.Q t.state t.action = rowMax (g'.Q t.state) ↔ Maximises (g'.Q t.state) t.action := by
    constructor
    · intro h b; rw [h]; exact (rowMax_isMax _).1 b
    · intro h; exact isMax_unique ⟨h, _, rfl⟩ (rowMax_isMax _)
  have hrho : g'.rho = if g'.Q t.state t.action = rowMax (g'.Q t.state) then g.rho + β * (t.reward + next - rowMax (g'.Q t.state) - g.rho) else g.rho := by
    simp only [hQ]
    simp only [g', next, rLearning, not_ite]
  rw [hrho]
  by_cases h : Maximises (g'.Q t.state) t.action
  · rw [if_pos h, if_pos (hiff.2 h), ← hiff.2 h, hQ]; ring
  · rw [if_neg h, if_neg fun h' => h (hiff.1 h')]

omit [Fintype S] in
/-- C162. So with learning rate 1 the average reward is never learned. -/
theorem C162_rate_one (β : ℝ) (g : RL S A) (t : Trans S A) : (rLearning 1 β g t).rho = g.rho := by
  rw [C162_rho]
  simp

/-- A greedy update moves the average reward. -/
example : (rLearning (1 / 2) (1 / 2) { Q := fun _ _ => 0, rho := 0 } (⟨(), (), 1, (), false⟩ : Trans Unit Unit)).rho = 1 / 4 := by
  rw [C162_rho, if_pos (show Maximises _ _ from fun _ => le_of_eq rfl)]
  norm_num [rowMax]

/-! ### What the optimality equation says -/

omit [DecidableEq S] in
theorem best_bounds {m : RandomMDP S A} (hm : m.Proper) {L : S → Prop} (hc : m.Continuing L) {Q : Table S A} {rho : ℝ} {V : S → ℝ}
    (hV : ∀ s, L s → IsMax (Q s) (V s) ∧ ∀ a, Q s a = ∑ s', m.prob s a s' * (m.reward s a s' - rho + V s')) {K : ℝ}
    (hK : ∀ s, |V s| ≤ K) (n : ℕ) (s : S) (hs : L s) : |m.best n s - (n * rho + V s)| ≤ K := by
  induction n generalizing s with
  | zero => simpa [RandomMDP.best] using hK s
  | succ n ih =>
    have hrow : ∀ a, |(∑ s', m.prob s a s' * (m.reward s a s' + m.best n s')) - ((n + 1) * rho + Q s a)| ≤ K := by
      intro a
      have e : (∑ s', m.prob s a s' * (m.reward s a s' + m.best n s')) - ((n + 1) * rho + Q s a) =
          ∑ s', m.prob s a s' * (m.best n s' - (n * rho + V s')) := by
        rw [(hV s hs).2 a]
        have : ((n : ℝ) + 1) * rho = ∑ s', m.prob s a s' * ((n + 1) * rho) := by rw [← Finset.sum_mul, hm.2, one_mul]
        rw [this, ← Finset.sum_add_distrib, ← Finset.sum_sub_distrib]
        exact Finset.sum_congr rfl fun s' _ => by ring
      rw [e]
      refine (Finset.abs_sum_le_sum_abs _ _).trans ?_
      calc _ ≤ ∑ s', m.prob s a s' * K := Finset.sum_le_sum fun s' _ => by
            rw [abs_mul, abs_of_nonneg (hm.1 s a s')]
            rcases (hm.1 s a s').eq_or_lt with h0 | h0
            · rw [← h0]; simp
            · exact mul_le_mul_of_nonneg_left (ih s' (hc s a s' hs h0).1) h0.le
        _ = K := by rw [← Finset.sum_mul, hm.2, one_mul]
    have hmax : IsMax (fun a => ((n + 1) * rho + Q s a)) ((n + 1) * rho + V s) := by
      obtain ⟨h1, a, ha⟩ := (hV s hs).1
      exact ⟨fun a => by linarith [h1 a], a, by simp only [ha]⟩
    have := isMax_close hrow (rowMax_isMax _) hmax
    simpa [RandomMDP.best] using this

omit [DecidableEq S] in
theorem earned_bounds {m : RandomMDP S A} (hm : m.Proper) {L : S → Prop} (hc : m.Continuing L) {Q : Table S A} {rho : ℝ} {V : S → ℝ}
    (hV : ∀ s, L s → IsMax (Q s) (V s) ∧ ∀ a, Q s a = ∑ s', m.prob s a s' * (m.reward s a s' - rho + V s')) {K : ℝ}
    (hK : ∀ s, |V s| ≤ K) (act : S → A) (hact : ∀ s, L s → Maximises (Q s) (act s)) (n : ℕ) (s : S) (hs : L s) :
    |m.earned act n s - (n * rho + V s)| ≤ K := by
  induction n generalizing s with
  | zero => simpa [RandomMDP.earned] using hK s
  | succ n ih =>
    have hQ : Q s (act s) = V s := isMax_unique ⟨hact s hs, _, rfl⟩ (hV s hs).1
    have e : m.earned act (n + 1) s - (((n + 1 : ℕ) : ℝ) * rho + V s) = ∑ s', m.prob s (act s) s' * (m.earned act n s' - (n * rho + V s')) := by
      rw [← hQ, (hV s hs).2 (act s)]
      have : ((n + 1 : ℕ) : ℝ) * rho = ∑ s', m.prob s (act s) s' * ((n + 1) * rho) := by rw [← Finset.sum_mul, hm.2, one_mul]; push_cast; ring
      rw [this, ← Finset.sum_add_distrib]
      simp only [RandomMDP.earned]
      rw [← Finset.sum_sub_distrib]
      exact Finset.sum_congr rfl fun s' _ => by ring
    rw [e]
    refine (Finset.abs_sum_le_sum_abs _ _).trans ?_
    calc _ ≤ ∑ s', m.prob s (act s) s' * K := Finset.sum_le_sum fun s' _ => by
          rw [abs_mul, abs_of_nonneg (hm.1 s _ s')]
          rcases (hm.1 s (act s) s').eq_or_lt with h0 | h0
          · rw [← h0]; simp
          · exact mul_le_mul_of_nonneg_left (ih s' (hc s _ s' hs h0).1) h0.le
      _ = K := by rw [← Finset.sum_mul, hm.2, one_mul]

theorem average_of_bounds {f : ℕ → ℝ} {rho v K : ℝ} (h : ∀ n : ℕ, |f n - (n * rho + v)| ≤ K) : Tendsto (fun n => f n / n) atTop (𝓝 rho) := by
  have h0 : Tendsto (fun n : ℕ => (K + |v|) / n) atTop (𝓝 0) := tendsto_const_div_atTop_nhds_zero_nat _
  rw [tendsto_iff_norm_sub_tendsto_zero]
  refine squeeze_zero' (Eventually.of_forall fun n => norm_nonneg _) ?_ h0
  filter_upwards [eventually_gt_atTop 0] with n hn
  have hn' : (0 : ℝ) < n := by exact_mod_cast hn
  have e : f n / n - rho = (f n - (n * rho + v) + v) / n := by field_simp; ring
  rw [e, Real.norm_eq_abs, abs_div, abs_of_pos hn']
  refine div_le_div_of_nonneg_right ((abs_add_le _ _).trans ?_) hn'.le
  linarith [h n]

omit [DecidableEq S] in
/-- C162. If values and average reward solve the optimality equation, the average reward is the largest one that can be earned in the long run, from
every state, and the greedy actions earn it. -/
theorem C162_optimal (m : RandomMDP S A) (hm : m.Proper) (L : S → Prop) (hc : m.Continuing L) (Q : Table S A) (rho : ℝ)
    (h : m.AverageOptimalOn L Q rho) (s : S) (hs : L s) :
    Tendsto (fun n => m.best n s / n) atTop (𝓝 rho) ∧
    ∀ act : S → A, (∀ s, L s → Maximises (Q s) (act s)) → Tendsto (fun n => m.earned act n s / n) atTop (𝓝 rho) := by
  obtain ⟨V, hV⟩ := h
  have hK : ∀ s, |V s| ≤ ∑ s, |V s| := fun s => Finset.single_le_sum (f := fun s => |V s|) (fun _ _ => abs_nonneg _) (Finset.mem_univ s)
  exact ⟨average_of_bounds fun n => best_bounds hm hc hV hK n s hs,
    fun act hact => average_of_bounds fun n => earned_bounds hm hc hV hK act hact n s hs⟩

/-! ### Where R-learning settles -/

theorem average_fixed {x a F d : ℕ → ℝ} {xl Fl l : ℝ} (h0 : ∀ n, 0 ≤ a n) (hx : ∀ n, x (n + 1) = x n + a n * (F n - x n) + d n)
    (hxl : Tendsto x atTop (𝓝 xl)) (hFl : Tendsto F atTop (𝓝 Fl)) (hdiv : Tendsto (fun n => ∑ k ∈ Finset.range n, a k) atTop atTop)
    (hd : Tendsto (fun n => ∑ k ∈ Finset.range n, d k) atTop (𝓝 l)) : xl = Fl := by
  have hsum : ∀ n, ∑ k ∈ Finset.range n, a k * (F k - x k) = x n - x 0 - ∑ k ∈ Finset.range n, d k := by
    intro n
    induction n with
    | zero => simp
    | succ n ih => rw [Finset.sum_range_succ, Finset.sum_range_succ, ih, hx]; ring
  have hlim : Tendsto (fun n => ∑ k ∈ Finset.range n, a k * (F k - x k)) atTop (𝓝 (xl - x 0 - l)) := by
    simp only [hsum]
    exact (hxl.sub_const _).sub hd
  have key : ∀ c : ℝ, 0 < c → ∀ b : ℕ → ℝ, (∀ᶠ n in atTop, c ≤ b n) → ∀ l', ¬ Tendsto (fun n => ∑ k ∈ Finset.range n, a k * b k) atTop (𝓝 l') := by
    intro c hc b hb l' hl'
    obtain ⟨n0, hn0⟩ := eventually_atTop.1 hb
    have h1 : Tendsto (fun n => c * (∑ k ∈ Finset.range n, a k - ∑ k ∈ Finset.range n0, a k) + ∑ k ∈ Finset.range n0, a k * b k) atTop atTop :=
      tendsto_atTop_add_const_right _ _ ((tendsto_atTop_add_const_right _ _ hdiv).const_mul_atTop hc)
    refine not_tendsto_nhds_of_tendsto_atTop (tendsto_atTop_mono' _ ?_ h1) l' hl'
    filter_upwards [eventually_ge_atTop n0] with n hn
    rw [← Finset.sum_range_add_sum_Ico _ hn, ← Finset.sum_range_add_sum_Ico (fun k => a k * b k) hn, add_sub_cancel_left, Finset.mul_sum, add_comm]
    refine add_le_add le_rfl (Finset.sum_le_sum fun k hk => ?_)
    rw [mul_comm]
    exact mul_le_mul_of_nonneg_left (hn0 k (Finset.mem_Ico.1 hk).1) (h0 k)
  have hdiff := hFl.sub hxl
  rcases lt_trichotomy xl Fl with h | h | h
  · exfalso
    refine key ((Fl - xl) / 2) (by linarith) _ ?_ _ hlim
    exact (hdiff.eventually (lt_mem_nhds (by linarith : (Fl - xl) / 2 < Fl - xl))).mono fun n hn => le_of_lt hn
  · exact h
  · exfalso
    refine key ((xl - Fl) / 2) (by linarith) (fun n => -(F n - x n)) ?_ (-(xl - x 0 - l)) ?_
    · exact (hdiff.eventually (gt_mem_nhds (by linarith : Fl - xl < -((xl - Fl) / 2)))).mono fun n hn => by linarith
    · have := hlim.neg
      simpa only [mul_neg, Finset.sum_neg_distrib] using this

omit [Fintype S] in
theorem rl_Q (t : ℕ → Trans S A) (α β : ℕ → ℝ) (n : ℕ) (s : S) (a : A) : (rlAfter t α β (n + 1)).Q s a = (rlAfter t α β n).Q s a +
    ratesOf s a t α n * ((t n).reward - (rlAfter t α β n).rho + (if (t n).absorbing then 0 else rowMax ((rlAfter t α β n).Q (t n).next)) -
      (rlAfter t α β n).Q s a) := by
  simp only [rlAfter, rLearning, Table.set, ratesOf, not_ite]
  by_cases h : (t n).state = s ∧ (t n).action = a
  · obtain ⟨rfl, rfl⟩ := h
    simp
  · rw [if_neg h, if_neg fun h' => h ⟨h'.1.symm, h'.2.symm⟩]
    ring

omit [IsProbabilityMeasure μ] in
/-- Values and average reward are known from the past. -/
theorem rl_adapted {m : RandomMDP S A} {L : S → Prop} {t : ℕ → Ω → Trans S A} (ht : Experience μ ℱ m L t) {α β : ℕ → Ω → ℝ}
    (hα : ∀ n, Measurable[ℱ n] (α n)) (hβ : ∀ n, Measurable[ℱ n] (β n)) (n : ℕ) :
    (∀ s a, Measurable[ℱ n] (fun ω => (rlAfter (t · ω) (α · ω) (β · ω) n).Q s a)) ∧
      Measurable[ℱ n] (fun ω => (rlAfter (t · ω) (α · ω) (β · ω) n).rho) := by
  induction n with
  | zero => exact ⟨fun _ _ => measurable_const, measurable_const⟩
  | succ n ih =>
    have hle : ℱ n ≤ ℱ (n + 1) := ℱ.mono (Nat.le_succ n)
    obtain ⟨iQ, iR⟩ := ih
    set g : Ω → RL S A := fun ω => rlAfter (t · ω) (α · ω) (β · ω) n with hg
    have hf : ∀ x : (S × A) × S, MeasurableSet[ℱ (n + 1)] {ω | (((t n ω).state, (t n ω).action), (t n ω).next) = x} := fun x => by
      have e2 : {ω | (((t n ω).state, (t n ω).action), (t n ω).next) = x} =
          {ω | (t n ω).state = x.1.1 ∧ (t n ω).action = x.1.2} ∩ {ω | (t n ω).next = x.2} := by
        ext ω
        simp [Prod.ext_iff]
      rw [e2]
      exact (hle _ (ht.past n _ _)).inter (ht.known n _)
    have htr : ∀ ω, t n ω = (fun x : (S × A) × S => (⟨x.1.1, x.1.2, m.reward x.1.1 x.1.2 x.2, x.2, m.absorbing x.1.1 x.1.2 x.2⟩ : Trans S A))
        (((t n ω).state, (t n ω).action), (t n ω).next) := by
      intro ω
      have h1 := ht.reward n ω
      have h2 := ht.absorbing n ω
      cases hh : t n ω
      rw [hh] at h1 h2
      simp only at h1 h2 ⊢
      rw [← h1, ← h2]
    have jQ : ∀ s a, Measurable[ℱ (n + 1)] (fun ω => (g ω).Q s a) := fun s a => (iQ s a).mono hle le_rfl
    have jR : Measurable[ℱ (n + 1)] (fun ω => (g ω).rho) := iR.mono hle le_rfl
    have jα := (hα n).mono hle le_rfl
    have jβ := (hβ n).mono hle le_rfl
    have hrow : ∀ s, Measurable[ℱ (n + 1)] (fun ω => rowMax ((g ω).Q s)) := fun s =>
      (rowMax_measurable s).comp ((@measurable_pi_iff Ω (S × A) _ (ℱ (n + 1)) _ _).2 fun j => jQ j.1 j.2)
    -- the update with a fixed transition
    have step : ∀ x : Trans S A, (∀ s a, Measurable[ℱ (n + 1)] (fun ω => (rLearning (α n ω) (β n ω) (g ω) x).Q s a)) ∧
        Measurable[ℱ (n + 1)] (fun ω => (rLearning (α n ω) (β n ω) (g ω) x).rho) := by
      intro x
      have hnext : Measurable[ℱ (n + 1)] (fun ω => if !x.absorbing then rowMax ((g ω).Q x.next) else 0) := by
        cases x.absorbing
        · simpa using hrow x.next
        · simp
      have hnew : Measurable[ℱ (n + 1)] (fun ω => (g ω).Q x.state x.action + α n ω * (x.reward - (g ω).rho +
          (if !x.absorbing then rowMax ((g ω).Q x.next) else 0) - (g ω).Q x.state x.action)) :=
        (jQ _ _).add (jα.mul (((measurable_const.sub jR).add hnext).sub (jQ _ _)))
      have hQ' : ∀ s a, Measurable[ℱ (n + 1)] (fun ω => (rLearning (α n ω) (β n ω) (g ω) x).Q s a) := by
        intro s a
        simp only [rLearning, Table.set]
        by_cases h : s = x.state ∧ a = x.action
        · simp only [if_pos h]; exact hnew
        · simp only [if_neg h]; exact jQ s a
      refine ⟨hQ', ?_⟩
      have hrow' : Measurable[ℱ (n + 1)] (fun ω => rowMax ((rLearning (α n ω) (β n ω) (g ω) x).Q x.state)) :=
        (rowMax_measurable x.state).comp ((@measurable_pi_iff Ω (S × A) _ (ℱ (n + 1)) _ _).2 fun j => hQ' j.1 j.2)
      exact Measurable.ite (measurableSet_eq_fun hnew hrow') (jR.add (jβ.mul (((measurable_const.add hnext).sub hrow').sub jR))) jR
    constructor
    · intro s a
      have e : (fun ω => (rlAfter (t · ω) (α · ω) (β · ω) (n + 1)).Q s a) = fun ω => (fun (x : (S × A) × S) ω =>
          (rLearning (α n ω) (β n ω) (g ω) ⟨x.1.1, x.1.2, m.reward x.1.1 x.1.2 x.2, x.2, m.absorbing x.1.1 x.1.2 x.2⟩).Q s a)
          (((t n ω).state, (t n ω).action), (t n ω).next) ω := by
        funext ω
        show (rLearning (α n ω) (β n ω) (g ω) (t n ω)).Q s a = _
        rw [htr ω]
      rw [e]
      exact measurable_pick (X := (S × A) × S) (m0 := ℱ (n + 1)) hf fun x =>
        (step ⟨x.1.1, x.1.2, m.reward x.1.1 x.1.2 x.2, x.2, m.absorbing x.1.1 x.1.2 x.2⟩).1 s a
    · have e : (fun ω => (rlAfter (t · ω) (α · ω) (β · ω) (n + 1)).rho) = fun ω => (fun (x : (S × A) × S) ω =>
          (rLearning (α n ω) (β n ω) (g ω) ⟨x.1.1, x.1.2, m.reward x.1.1 x.1.2 x.2, x.2, m.absorbing x.1.1 x.1.2 x.2⟩).rho)
          (((t n ω).state, (t n ω).action), (t n ω).next) ω := by
        funext ω
        show (rLearning (α n ω) (β n ω) (g ω) (t n ω)).rho = _
        rw [htr ω]
      rw [e]
      exact measurable_pick (X := (S × A) × S) (m0 := ℱ (n + 1)) hf fun x =>
        (step ⟨x.1.1, x.1.2, m.reward x.1.1 x.1.2 x.2, x.2, m.absorbing x.1.1 x.1.2 x.2⟩).2

/-- C162. In a problem without ends, R-learning can settle only at solutions of the optimality equation of the average reward: with probability one, if the
values of the live states and the average reward converge, their limits solve it. -/
theorem C162_settles_partial (m : RandomMDP S A) (hm : m.Proper) (L : S → Prop) (hc : m.Continuing L) (t : ℕ → Ω → Trans S A) (ht : Experience μ ℱ m L t)
    (α β : ℕ → Ω → ℝ) (hα : RobbinsMonro μ ℱ L t α) (hβ : ∀ n, Measurable[ℱ n] (β n)) :
    ∀ᵐ ω ∂μ, ∀ (Q : Table S A) (rho : ℝ), (∀ s, L s → ∀ a, Tendsto (fun n => (rlAfter (t · ω) (α · ω) (β · ω) n).Q s a) atTop (𝓝 (Q s a))) →
      Tendsto (fun n => (rlAfter (t · ω) (α · ω) (β · ω) n).rho) atTop (𝓝 rho) → m.AverageOptimalOn L Q rho := by
  classical
  set g : ℕ → Ω → RL S A := fun n ω => rlAfter (t · ω) (α · ω) (β · ω) n with hg
  have hgm := fun n => rl_adapted (μ := μ) ht hα.known hβ n
  set R : ℝ := ∑ s, ∑ a, ∑ s', |m.reward s a s'| with hR
  have hRr : ∀ s a s', |m.reward s a s'| ≤ R := fun s a s' =>
    calc _ ≤ ∑ s', |m.reward s a s'| := Finset.single_le_sum (f := fun s' => |m.reward s a s'|) (fun _ _ => abs_nonneg _) (Finset.mem_univ s')
      _ ≤ ∑ a, ∑ s', |m.reward s a s'| := Finset.single_le_sum (f := fun a => ∑ s', |m.reward s a s'|)
          (fun _ _ => Finset.sum_nonneg (fun _ _ => abs_nonneg _)) (Finset.mem_univ a)
      _ ≤ _ := Finset.single_le_sum (f := fun s => ∑ a, ∑ s', |m.reward s a s'|)
          (fun _ _ => Finset.sum_nonneg (fun _ _ => Finset.sum_nonneg (fun _ _ => abs_nonneg _))) (Finset.mem_univ s)
  -- the noise, cut off where the values are larger than B
  set G : ℕ → ℕ → Ω → S → A → S → ℝ := fun B n ω s a s' => m.reward s a s' + if |rowMax ((g n ω).Q s')| ≤ B then rowMax ((g n ω).Q s') else 0 with hG
  have hrow : ∀ n s, Measurable[ℱ n] (fun ω => rowMax ((g n ω).Q s)) := fun n s =>
    (rowMax_measurable s).comp ((@measurable_pi_iff Ω (S × A) _ (ℱ n) _ _).2 fun j => (hgm n).1 j.1 j.2)
  have hGm : ∀ B n s a s', Measurable[ℱ n] (fun ω => G B n ω s a s') := fun B n s a s' =>
    measurable_const.add (Measurable.ite (measurableSet_le (continuous_abs.measurable.comp (hrow n s')) measurable_const) (hrow n s') measurable_const)
  have hGB : ∀ B n ω s a s', |G B n ω s a s'| ≤ R + B := by
    intro B n ω s a s'
    refine (abs_add_le _ _).trans (add_le_add (hRr s a s') ?_)
    split
    · assumption
    · simp
  have hR0 : 0 ≤ R := Finset.sum_nonneg fun _ _ => Finset.sum_nonneg fun _ _ => Finset.sum_nonneg fun _ _ => abs_nonneg _
  have hnoise := ae_all_iff.2 fun B : ℕ => ae_all_iff.2 fun s => ae_all_iff.2 fun a => next_sum (B := R + B) (x := fun _ _ _ _ => 0) hm ht hα
    (fun _ _ _ => measurable_const) (fun _ _ _ _ => by simp only [abs_zero]; positivity) (hGm B) (hGB B) s a
  filter_upwards [hnoise, hα.diverge, experience_possible hm ht] with ω hno hdv hpos Q rho hQ hrho
  have hVlim : ∀ s, L s → Tendsto (fun n => rowMax ((g n ω).Q s)) atTop (𝓝 (rowMax (Q s))) := by
    intro s hs
    have : Continuous fun q : A → ℝ => rowMax q := by
      unfold rowMax
      exact Continuous.finset_sup'_apply _ fun a _ => continuous_apply a
    exact (this.tendsto (Q s)).comp (tendsto_pi_nhds.2 fun a => hQ s hs a)
  refine ⟨fun s => rowMax (Q s), fun s hs => ⟨rowMax_isMax _, fun a => ?_⟩⟩
  -- a bound of the values of the live states
  have hbd : ∀ s, ∃ B : ℝ, L s → ∀ n, |rowMax ((g n ω).Q s)| ≤ B := by
    intro s
    by_cases hs : L s
    · obtain ⟨B, hB⟩ := ((hVlim s hs).norm).bddAbove_range
      exact ⟨B, fun _ n => hB ⟨n, rfl⟩⟩
    · exact ⟨0, fun h => absurd h hs⟩
  choose Bs hBs using hbd
  obtain ⟨B, hB⟩ := exists_nat_ge (∑ s, |Bs s|)
  have hle : ∀ s', L s' → ∀ n, |rowMax ((g n ω).Q s')| ≤ B := fun s' hs' n =>
    ((hBs s' hs' n).trans ((le_abs_self _).trans (Finset.single_le_sum (f := fun s => |Bs s|) (fun _ _ => abs_nonneg _) (Finset.mem_univ s')))).trans hB
  obtain ⟨l, hl⟩ := hno B s a
  have hGe : ∀ n s', 0 < m.prob s a s' → G B n ω s a s' = m.reward s a s' + rowMax ((g n ω).Q s') := fun n s' h => by
    simp only [hG, if_pos (hle s' (hc s a s' hs h).1 n)]
  refine average_fixed (x := fun n => (g n ω).Q s a) (a := fun n => ratesOf s a (t · ω) (α · ω) n)
    (F := fun n => (∑ y, m.prob s a y * G B n ω s a y) - (g n ω).rho)
    (d := fun n => ratesOf s a (t · ω) (α · ω) n * (G B n ω s a (t n ω).next - ∑ y, m.prob s a y * G B n ω s a y)) (l := l)
    (fun n => (rates_range (fun k => hα.range k ω) s a n).1) (fun n => ?_) (hQ s hs a) ?_ (hdv s hs a) hl
  · have h1 := rl_Q (t · ω) (α · ω) (β · ω) n s a
    simp only [hg]
    rw [h1]
    by_cases hv : (t n ω).state = s ∧ (t n ω).action = a
    · have hp := hpos n
      rw [hv.1, hv.2] at hp
      have hab : (t n ω).absorbing = false := by rw [ht.absorbing, hv.1, hv.2]; exact (hc s a _ hs hp).2
      have hr : (t n ω).reward = m.reward s a (t n ω).next := by rw [ht.reward, hv.1, hv.2]
      have he := hGe n _ hp
      simp only [hg] at he
      rw [he, hab, hr]
      simp only [Bool.false_eq_true, if_false]
      ring
    · simp [ratesOf, hv]
  · have e : ∑ s', m.prob s a s' * (m.reward s a s' - rho + rowMax (Q s')) = (∑ s', m.prob s a s' * (m.reward s a s' + rowMax (Q s'))) - rho := by
      have : rho = ∑ s', m.prob s a s' * rho := by rw [← Finset.sum_mul, hm.2, one_mul]
      conv_rhs => rw [this]
      rw [← Finset.sum_sub_distrib]
      exact Finset.sum_congr rfl fun s' _ => by ring
    rw [e]
    refine Tendsto.sub ?_ hrho
    refine tendsto_finsetSum _ fun s' _ => ?_
    rcases (hm.1 s a s').eq_or_lt with h0 | h0
    · simp only [← h0, zero_mul]; exact tendsto_const_nhds
    · simp only [hGe _ s' h0]
      exact ((hVlim s' (hc s a s' hs h0).1).const_add _).const_mul _

/-- C162. So, with probability one, if R-learning converges, it has learned the largest average reward and the greedy actions of its limit earn it. -/
theorem C162_average_partial (m : RandomMDP S A) (hm : m.Proper) (L : S → Prop) (hc : m.Continuing L) (t : ℕ → Ω → Trans S A) (ht : Experience μ ℱ m L t)
    (α β : ℕ → Ω → ℝ) (hα : RobbinsMonro μ ℱ L t α) (hβ : ∀ n, Measurable[ℱ n] (β n)) :
    ∀ᵐ ω ∂μ, ∀ (Q : Table S A) (rho : ℝ), (∀ s, L s → ∀ a, Tendsto (fun n => (rlAfter (t · ω) (α · ω) (β · ω) n).Q s a) atTop (𝓝 (Q s a))) →
      Tendsto (fun n => (rlAfter (t · ω) (α · ω) (β · ω) n).rho) atTop (𝓝 rho) → ∀ s, L s → Tendsto (fun n => m.best n s / n) atTop (𝓝 rho) ∧
        ∀ act : S → A, (∀ s, L s → Maximises (Q s) (act s)) → Tendsto (fun n => m.earned act n s / n) atTop (𝓝 rho) := by
  filter_upwards [C162_settles_partial m hm L hc t ht α β hα hβ] with ω h Q rho hQ hrho s hs
  exact C162_optimal m hm L hc Q rho (h Q rho hQ hrho) s hs

/-! ### An example -/

/-- One state and one action with reward 1, without end. -/
def workMDP : RandomMDP Unit Unit := { prob := fun _ _ _ => 1, reward := fun _ _ _ => 1, absorbing := fun _ _ _ => false }

def workTrans (_ : ℕ) (_ : ℕ → Bool) : Trans Unit Unit := { state := (), action := (), reward := 1, next := (), absorbing := false }

theorem work_proper : workMDP.Proper := ⟨fun _ _ _ => by norm_num [workMDP], fun _ _ => by simp [workMDP]⟩

theorem work_continuing : workMDP.Continuing (fun _ => True) := fun _ _ _ _ _ => ⟨trivial, rfl⟩

theorem work_experience : Experience coins tossed workMDP (fun _ => True) workTrans := by
  refine C145_draws workMDP _ (fun _ _ _ => ()) (fun _ _ _ => MeasurableSet.const _) (fun n ω => ω n) (fun n => ?_) coins_indep
    (fun n s _ s' => ?_) workTrans (fun _ _ => trivial) (fun n s a => ?_) (fun _ _ => rfl) (fun _ _ => rfl) (fun _ _ => rfl)
  · refine Measurable.mono (comap_measurable _) ?_ le_rfl
    exact le_biSup (fun k => MeasurableSpace.comap (fun ω : ℕ → Bool => ω k) inferInstance) (show n ∈ Set.Iio (n + 1) by simp)
  · simp [workMDP]
  · simp only [workTrans]
    exact MeasurableSet.const _

theorem work_rates : RobbinsMonro coins tossed (fun _ => True) workTrans
    (fun n ω => rateAt (Policy.decayParam (1 / 2) 1 none none false) (fun _ _ => [0]) (workTrans · ω) n) :=
  C145_decay_rates _ workTrans work_experience.past (fun _ _ => [0]) (fun _ _ _ _ _ => ⟨rfl, rfl⟩) (1 / 2) 1 (by norm_num) (by norm_num) (by norm_num)
    (by norm_num) (ae_of_all _ fun _ _ _ _ n => ⟨n, le_rfl, rfl, rfl⟩)

/-- The limits exist: with rates in `[0, 1 / 2]` for the values and 1/2 for the average reward. -/
theorem work_limits (t : ℕ → Trans Unit Unit) (ht : ∀ n, (t n).reward = 1 ∧ (t n).absorbing = false) (α : ℕ → ℝ) (hα : ∀ n, 0 ≤ α n ∧ α n ≤ 1 / 2) :
    Tendsto (fun n => (rlAfter t α (fun _ => 1 / 2) n).rho) atTop (𝓝 1) ∧
      ∃ q, Tendsto (fun n => (rlAfter t α (fun _ => 1 / 2) n).Q () ()) atTop (𝓝 q) := by
  have hq : ∀ n, (rlAfter t α (fun _ => 1 / 2) (n + 1)).Q () () = (rlAfter t α (fun _ => 1 / 2) n).Q () () + α n * (1 - (rlAfter t α (fun _ => 1 / 2) n).rho) := by
    intro n
    rw [rl_Q, (ht n).1, (ht n).2]
    simp [ratesOf, rowMax_unit]
  have hr : ∀ n, 1 - (rlAfter t α (fun _ => 1 / 2) (n + 1)).rho = (1 - (1 - α n) / 2) * (1 - (rlAfter t α (fun _ => 1 / 2) n).rho) := by
    intro n
    have h := C162_rho (α n) (1 / 2) (rlAfter t α (fun _ => 1 / 2) n) (t n)
    simp only at h
    rw [if_pos (show Maximises _ _ from fun b => le_of_eq rfl), (ht n).1, (ht n).2] at h
    simp only [rlAfter]
    rw [h]
    simp only [Bool.false_eq_true, if_false, rowMax_unit]
    ring
  have hb : ∀ n, 0 ≤ 1 - (rlAfter t α (fun _ => 1 / 2) n).rho ∧ 1 - (rlAfter t α (fun _ => 1 / 2) n).rho ≤ (3 / 4) ^ n := by
    intro n
    induction n with
    | zero => norm_num [rlAfter]
    | succ n ih =>
      rw [hr]
      have := hα n
      refine ⟨mul_nonneg (by linarith) ih.1, ?_⟩
      rw [pow_succ, mul_comm ((3 / 4 : ℝ) ^ n)]
      exact mul_le_mul (by linarith) ih.2 ih.1 (by norm_num)
  have hz : Tendsto (fun n => 1 - (rlAfter t α (fun _ => 1 / 2) n).rho) atTop (𝓝 0) :=
    squeeze_zero (fun n => (hb n).1) (fun n => (hb n).2) (tendsto_pow_atTop_nhds_zero_of_lt_one (by norm_num) (by norm_num))
  refine ⟨by simpa using (tendsto_const_nhds (x := (1 : ℝ))).sub hz, ?_⟩
  have hmono : Monotone fun n => (rlAfter t α (fun _ => 1 / 2) n).Q () () := monotone_nat_of_le_succ fun n => by
    rw [hq]; nlinarith [(hα n).1, (hb n).1]
  have hbd : ∀ n, (rlAfter t α (fun _ => 1 / 2) n).Q () () ≤ 2 - 2 * (3 / 4) ^ n := by
    intro n
    induction n with
    | zero => norm_num [rlAfter]
    | succ n ih =>
      rw [hq]
      have h1 : α n * (1 - (rlAfter t α (fun _ => 1 / 2) n).rho) ≤ 1 / 2 * (3 / 4) ^ n := mul_le_mul (hα n).2 (hb n).2 (hb n).1 (by norm_num)
      rw [pow_succ]
      linarith
  refine ⟨_, tendsto_atTop_ciSup hmono ⟨2, ?_⟩⟩
  rintro _ ⟨n, rfl⟩
  have : (0 : ℝ) < (3 / 4) ^ n := by positivity
  exact (hbd n).trans (by linarith)

/-- The hypotheses of `C162_settles_partial` and `C162_average_partial` are met, and there are limits. -/
example : ∀ᵐ ω ∂coins, ∃ Q : Table Unit Unit, (∀ s a, Tendsto (fun n => (rlAfter (workTrans · ω)
    (rateAt (Policy.decayParam (1 / 2) 1 none none false) (fun _ _ => [0]) (workTrans · ω)) (fun _ => 1 / 2) n).Q s a) atTop (𝓝 (Q s a))) ∧
    workMDP.AverageOptimalOn (fun _ => True) Q 1 := by
  filter_upwards [C162_settles_partial workMDP work_proper _ work_continuing workTrans work_experience _ (fun _ _ => 1 / 2) work_rates
    fun _ => measurable_const] with ω h
  obtain ⟨h1, q, h2⟩ := work_limits (workTrans · ω) (fun _ => ⟨rfl, rfl⟩)
    (rateAt (Policy.decayParam (1 / 2) 1 none none false) (fun _ _ => [0]) (workTrans · ω)) fun n => ⟨(work_rates.range n ω).1, by
      rw [rateAt_decay (fun _ _ _ _ _ => ⟨rfl, rfl⟩), Real.rpow_one]
      exact div_le_self (by norm_num) (by exact_mod_cast Nat.succ_pos _)⟩
  exact ⟨fun _ _ => q, fun _ _ => h2, h (fun _ _ => q) 1 (fun _ _ _ => h2) h1⟩

example : Tendsto (fun n => workMDP.best n () / n) atTop (𝓝 1) :=
  (C162_optimal workMDP work_proper _ work_continuing (fun _ _ => 7) 1 ⟨fun _ => 7, fun _ _ => ⟨⟨fun _ => le_rfl, (), rfl⟩, fun _ => by norm_num [workMDP]⟩⟩
    () trivial).1

/-! ### Problems with ends -/

/-- C162. In problems with ends the average reward is not learned. If every step is an episode of its own, with reward 1, the estimate stays below one by the
first learning rate for ever, whatever the learning rates are. -/
theorem C162_episodes_refuted (t : ℕ → Trans Unit Unit) (ht : ∀ n, (t n).reward = 1 ∧ (t n).absorbing = true) (α β : ℕ → ℝ)
    (hα : ∀ n, 0 ≤ α n ∧ α n ≤ 1) (hβ : ∀ n, 0 ≤ β n ∧ β n ≤ 1) (n : ℕ) : (rlAfter t α β (n + 1)).rho ≤ 1 - α 0 := by
  have hq : ∀ n, (rlAfter t α β (n + 1)).Q () () = (rlAfter t α β n).Q () () + α n * (1 - (rlAfter t α β n).rho - (rlAfter t α β n).Q () ()) := by
    intro n
    rw [rl_Q, (ht n).1, (ht n).2]
    simp [ratesOf]
  have hr : ∀ n, (rlAfter t α β (n + 1)).rho = (rlAfter t α β n).rho + β n * ((1 - α n) * (1 - (rlAfter t α β n).rho - (rlAfter t α β n).Q () ())) := by
    intro n
    have h := C162_rho (α n) (β n) (rlAfter t α β n) (t n)
    simp only at h
    rw [if_pos (show Maximises _ _ from fun b => le_of_eq rfl), (ht n).1, (ht n).2] at h
    simpa [rlAfter] using h
  have he : ∀ n, 0 ≤ 1 - (rlAfter t α β n).rho - (rlAfter t α β n).Q () () := by
    intro n
    induction n with
    | zero => norm_num [rlAfter]
    | succ n ih =>
      have e : 1 - (rlAfter t α β (n + 1)).rho - (rlAfter t α β (n + 1)).Q () () =
          (1 - α n) * (1 - β n) * (1 - (rlAfter t α β n).rho - (rlAfter t α β n).Q () ()) := by rw [hq, hr]; ring
      rw [e]
      exact mul_nonneg (mul_nonneg (by linarith [(hα n).2]) (by linarith [(hβ n).2])) ih
  have hlow : ∀ n, α 0 ≤ (rlAfter t α β (n + 1)).Q () () := by
    intro n
    induction n with
    | zero => rw [hq]; simp [rlAfter]
    | succ n ih => rw [hq]; nlinarith [mul_nonneg (hα (n + 1)).1 (he (n + 1))]
  linarith [he (n + 1), hlow n]

example (n : ℕ) : (rlAfter (fun _ => ⟨(), (), 1, (), true⟩ : ℕ → Trans Unit Unit) (fun _ => 1 / 4) (fun _ => 1 / 2) (n + 1)).rho ≤ 1 - 1 / 4 :=
  C162_episodes_refuted _ (fun _ => ⟨rfl, rfl⟩) _ _ (fun _ => by norm_num) (fun _ => by norm_num) n

/-- The transitions of a problem with two states: at the start (`false`) the short action (`false`) ends the episode with reward 1, and the long one leads to
the second state, which ends the episode with reward 3/2. -/
def tripMove (s a : Bool) : Trans Bool Bool :=
  if s then ⟨true, a, 3 / 2, false, true⟩ else if a then ⟨false, true, 0, true, false⟩ else ⟨false, false, 1, false, true⟩

/-- C162. And the greedy action becomes the wrong one: with learning rate 1, which suits a problem without chance, the agent prefers for ever the long
way, with reward 3/2 in two steps, to the short one, with reward 1 in one step. -/
theorem C162_policy_refuted (t : ℕ → Trans Bool Bool) (ht : ∀ n, ∃ s a, t n = tripMove s a) (hex : ExploresForever (fun _ => True) t) (β : ℕ → ℝ) :
    ∃ N, ∀ n ≥ N, ∀ a, Maximises ((rlAfter t (fun _ => 1) β n).Q false) a ↔ a = true := by
  have hrho : ∀ n, (rlAfter t (fun _ => 1) β n).rho = 0 := by
    intro n
    induction n with
    | zero => rfl
    | succ n ih => rw [rlAfter, C162_rate_one, ih]
  have hstep : ∀ n s a, (rlAfter t (fun _ => 1) β (n + 1)).Q s a = if (t n).state = s ∧ (t n).action = a then
      (t n).reward + (if (t n).absorbing then 0 else rowMax ((rlAfter t (fun _ => 1) β n).Q (t n).next)) else (rlAfter t (fun _ => 1) β n).Q s a := by
    intro n s a
    rw [rl_Q, hrho]
    simp only [ratesOf]
    split <;> ring
  -- a pair whose target does not change has the target as its value after the next visit
  have hold : ∀ s a v N0, (∀ n ≥ N0, (t n).state = s → (t n).action = a →
      (t n).reward + (if (t n).absorbing then 0 else rowMax ((rlAfter t (fun _ => 1) β n).Q (t n).next)) = v) →
      ∃ N, ∀ n ≥ N, (rlAfter t (fun _ => 1) β n).Q s a = v := by
    intro s a v N0 h
    obtain ⟨k, hk, hs, ha⟩ := hex s trivial a N0
    refine ⟨k + 1, fun n hn => ?_⟩
    induction n, hn using Nat.le_induction with
    | base => rw [hstep, if_pos ⟨hs, ha⟩, h k hk hs ha]
    | succ n hn ih =>
      rw [hstep]
      split
      · next hv => exact h n (by omega) hv.1 hv.2
      · exact ih
  have hcase : ∀ n s a, (t n).state = s → (t n).action = a → t n = tripMove s a := by
    intro n s a hs ha
    obtain ⟨s', a', h⟩ := ht n
    rw [h] at hs ha ⊢
    cases s' <;> cases a' <;> simp_all [tripMove]
  have hmid : ∀ a, ∃ N, ∀ n ≥ N, (rlAfter t (fun _ => 1) β n).Q true a = 3 / 2 := fun a =>
    hold true a (3 / 2) 0 fun n _ hs ha => by rw [hcase n _ _ hs ha]; simp [tripMove]
  obtain ⟨N1, h1⟩ := hmid true
  obtain ⟨N2, h2⟩ := hmid false
  obtain ⟨N3, h3⟩ := hold false false 1 0 fun n _ hs ha => by rw [hcase n _ _ hs ha]; simp [tripMove]
  obtain ⟨N4, h4⟩ := hold false true (3 / 2) (max N1 N2) fun n hn hs ha => by
    rw [hcase n _ _ hs ha]
    have : rowMax ((rlAfter t (fun _ => 1) β n).Q true) = 3 / 2 := by
      refine isMax_unique (rowMax_isMax _) ⟨fun b => ?_, true, h1 n (le_trans (le_max_left _ _) hn)⟩
      cases b
      · exact (h2 n (le_trans (le_max_right _ _) hn)).le
      · exact (h1 n (le_trans (le_max_left _ _) hn)).le
    simp [tripMove, this]
  refine ⟨max N3 N4, fun n hn a => ?_⟩
  have e3 := h3 n (le_trans (le_max_left _ _) hn)
  have e4 := h4 n (le_trans (le_max_right _ _) hn)
  cases a
  · simp only [Bool.false_eq_true, iff_false]
    intro h
    have := h true
    rw [e3, e4] at this
    norm_num at this
  · simp only [iff_true]
    intro b
    cases b
    · rw [e3, e4]; norm_num
    · exact le_rfl

/-- The hypotheses are met by going through the four pairs in turn. -/
example : ExploresForever (fun _ => True) (fun n => tripMove (n % 4 / 2 = 1) (n % 2 = 1)) := by
  intro s _ a n
  refine ⟨4 * n + (if s then 2 else 0) + (if a then 1 else 0), by omega, ?_⟩
  have h1 : (4 * n + (if s then 2 else 0) + (if a then 1 else 0)) % 4 / 2 = if s then 1 else 0 := by cases s <;> cases a <;> simp <;> omega
  have h2 : (4 * n + (if s then 2 else 0) + (if a then 1 else 0)) % 2 = if a then 1 else 0 := by cases s <;> cases a <;> (simp; omega)
  simp only [h1, h2]
  cases s <;> cases a <;> simp [tripMove]

end

end Verif.TD
