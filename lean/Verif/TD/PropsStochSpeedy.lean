/-
Property C160: Speedy Q-learning in random problems.
-/
import Verif.TD.PropsStochDemo

namespace Verif.TD

open Filter Topology MeasureTheory ProbabilityTheory

noncomputable section

variable {S A : Type} [DecidableEq S] [DecidableEq A] [Fintype S] [Fintype A] [Nonempty A]
variable {Ω : Type} [mΩ : MeasurableSpace Ω] {μ : Measure Ω} [IsProbabilityMeasure μ] {ℱ : Filtration ℕ mΩ}

/-- The agent after `n` updates with the transitions `t` and the learning rates `α`. -/
def speedyAfter (γ : ℝ) (t : ℕ → Trans S A) (α : ℕ → ℝ) (Q0 : Table S A) : ℕ → Speedy S A
  | 0 => { Q := Q0, oldQ := Q0 }
  | n + 1 => speedyQ γ (α n) (speedyAfter γ t α Q0 n) (t n)

/-- No update bootstraps from the state whose value the update just before it has changed. -/
def NoReturn (t : ℕ → Trans S A) : Prop := ∀ n, (t (n + 1)).absorbing = true ∨ (t (n + 1)).next ≠ (t n).state

omit [Fintype S] in
/-- C160. The second table of Speedy Q-learning is the table before the last update, so it differs from the first in one entry. If no update
bootstraps from the state of the update before it, the agent is Q-learning. -/
theorem C160_q_learning (γ : ℝ) (t : ℕ → Trans S A) (α : ℕ → ℝ) (Q0 : Table S A) (hno : NoReturn t) (n : ℕ) :
    (speedyAfter γ t α Q0 n).Q = tables (fun k Q => qLearning γ (α k) Q (t k)) Q0 n := by
  have hrow : ∀ n, (t n).absorbing = false → (speedyAfter γ t α Q0 n).oldQ (t n).next = (speedyAfter γ t α Q0 n).Q (t n).next := by
    intro n hab
    cases n with
    | zero => rfl
    | succ n =>
      rcases hno n with h | h
      · rw [h] at hab; exact absurd hab (by simp)
      · funext a
        simp [speedyAfter, speedyQ, Table.set, h]
  induction n with
  | zero => rfl
  | succ n ih =>
    simp only [speedyAfter, tables]
    rw [← ih]
    unfold speedyQ qLearning
    cases hab : (t n).absorbing
    · simp [hrow n hab]
    · simp

/-- C160. So with probability one it converges to the optimal values, if no update bootstraps from the state of the update before it. -/
theorem C160_converges_partial (m : RandomMDP S A) (hm : m.Proper) (L : S → Prop) (hcl : m.Closed L) (γ : ℝ) (hγ0 : 0 ≤ γ) (hγ1 : γ < 1)
    (Qs : Table S A) (hQs : m.OptimalOn L γ Qs) (t : ℕ → Ω → Trans S A) (ht : Experience μ ℱ m L t) (α : ℕ → Ω → ℝ)
    (hα : RobbinsMonro μ ℱ L t α) (Q0 : Table S A) (hno : ∀ᵐ ω ∂μ, NoReturn (t · ω)) :
    ∀ᵐ ω ∂μ, ∀ s, L s → ∀ a, Tendsto (fun n => (speedyAfter γ (t · ω) (α · ω) Q0 n).Q s a) atTop (𝓝 (Qs s a)) := by
  filter_upwards [C145_q_learning m hm L hcl γ hγ0 hγ1 Qs hQs t ht α hα Q0, hno] with ω h h' s hs a
  simp only [C160_q_learning γ (t · ω) (α · ω) Q0 h']
  exact h s hs a

/-- An example that meets the hypotheses: three states in a ring, the last one is rewarded. -/
def ringMDP : RandomMDP (Fin 3) Unit :=
  { prob := fun s _ s' => if s' = s + 1 then 1 else 0, reward := fun s _ _ => if s = 2 then 1 else 0, absorbing := fun _ _ _ => false }

def ringTrans (n : ℕ) (_ : ℕ → Bool) : Trans (Fin 3) Unit :=
  { state := Fin.ofNat 3 n, action := (), reward := if Fin.ofNat 3 n = 2 then 1 else 0, next := Fin.ofNat 3 n + 1, absorbing := false }

theorem ring_experience : Experience coins tossed ringMDP (fun _ => True) ringTrans := by
  refine C145_draws ringMDP _ (fun s _ _ => s + 1) (fun s _ s' => MeasurableSet.const (s + 1 = s')) (fun n ω => ω n) (fun n => ?_) coins_indep
    (fun n s _ s' => ?_) ringTrans (fun _ _ => trivial) (fun n s a => ?_) (fun _ _ => rfl) (fun _ _ => rfl) (fun _ _ => rfl)
  · refine Measurable.mono (comap_measurable _) ?_ le_rfl
    exact le_biSup (fun k => MeasurableSpace.comap (fun ω : ℕ → Bool => ω k) inferInstance) (show n ∈ Set.Iio (n + 1) by simp)
  · by_cases h : s' = s + 1
    · simp [ringMDP, h]
    · have e : {ω : ℕ → Bool | s + 1 = s'} = ∅ := by ext ω; simpa using fun h' : s + 1 = s' => h h'.symm
      rw [e]
      simp [ringMDP, h]
  · simp only [ringTrans]
    exact MeasurableSet.const _

theorem ring_noReturn (ω : ℕ → Bool) : NoReturn (ringTrans · ω) := by
  intro n
  right
  simp only [ringTrans]
  intro h
  have := congrArg Fin.val h
  simp [Fin.val_add] at this
  omega

example : ∃ Qs, ringMDP.OptimalOn (fun _ => True) (1 / 2) Qs ∧ ∀ᵐ ω ∂coins, ∀ s, True → ∀ a, Tendsto (fun n => (speedyAfter (1 / 2) (ringTrans · ω)
    (rateAt (Policy.decayParam 1 1 none none false) (fun s _ => [s.val]) (ringTrans · ω)) (fun _ _ => 0) n).Q s a) atTop (𝓝 (Qs s a)) := by
  have hp : ringMDP.Proper := ⟨fun s _ s' => by simp only [ringMDP]; split <;> norm_num, fun s _ => by simp [ringMDP]⟩
  obtain ⟨Qs, hQs⟩ := C145_optimal_exists ringMDP hp (fun _ => True) (1 / 2) (by norm_num) (by norm_num)
  refine ⟨Qs, hQs, C160_converges_partial ringMDP hp _ (fun _ _ _ _ _ _ => trivial) (1 / 2) (by norm_num) (by norm_num) Qs hQs ringTrans ring_experience _
    (C145_decay_rates _ ringTrans ring_experience.past (fun s _ => [s.val]) (fun s a s' a' h => ⟨Fin.ext (by simpa using h), rfl⟩) 1 1 (by norm_num)
      (by norm_num) (by norm_num) (by norm_num) (Eventually.of_forall fun ω s _ a n => ⟨3 * n + s.val, by omega, ?_, rfl⟩)) _
    (Eventually.of_forall ring_noReturn)⟩
  simp only [ringTrans]
  ext
  simp

/-! ### In general it converges to something else -/

/-- From the middle (`none`) a coin leads to the left (reward 1) or to the right (reward -1), and from there back to the middle. -/
def forkMDP : RandomMDP (Option Bool) Unit :=
  { prob := fun s _ s' => match s, s' with
      | none, some _ => 1 / 2
      | some _, none => 1
      | _, _ => 0
    reward := fun s _ s' => match s, s' with
      | none, some b => if b then 1 else -1
      | _, _ => 0
    absorbing := fun _ _ _ => false }

theorem fork_proper : forkMDP.Proper := by
  refine ⟨fun s _ s' => ?_, fun s _ => ?_⟩
  · cases s <;> cases s' <;> norm_num [forkMDP]
  · cases s <;> simp [forkMDP, Fintype.sum_option]

theorem fork_closed : forkMDP.Closed (fun _ => True) := fun _ _ _ _ _ _ => trivial

theorem fork_optimal : forkMDP.OptimalOn (fun _ => True) (1 / 2) (fun _ _ => 0) := by
  refine ⟨fun _ => 0, fun s _ => ⟨⟨fun _ => le_rfl, (), rfl⟩, fun a => ?_⟩⟩
  cases s <;> simp [forkMDP, Fintype.sum_option]

/-- The transitions of the run: every second one leaves the middle. -/
def forkTrans (n : ℕ) (ω : ℕ → Bool) : Trans (Option Bool) Unit :=
  if n % 2 = 0 then { state := none, action := (), reward := if ω n then 1 else -1, next := some (ω n), absorbing := false }
  else { state := some (ω (n - 1)), action := (), reward := 0, next := none, absorbing := false }

/-- One learning rate for all the pairs: `DecayParameter(value=1, exp=1)`. -/
def forkRate (n : ℕ) (_ : ℕ → Bool) : ℝ := 1 / ((n : ℝ) + 1)

theorem toss_in (n k : ℕ) (h : k < n) : Measurable[tossed n] (fun ω : ℕ → Bool => ω k) := by
  refine Measurable.mono (comap_measurable _) ?_ le_rfl
  exact le_biSup (fun k => MeasurableSpace.comap (fun ω : ℕ → Bool => ω k) inferInstance) (show k ∈ Set.Iio n from h)

theorem fork_experience : Experience coins tossed forkMDP (fun _ => True) forkTrans := by
  have hchoose : ∀ (s s' : Option Bool), MeasurableSet {y : Bool | (match s with | none => some y | some _ => none) = s'} := fun _ _ => trivial
  refine C145_draws forkMDP _ (fun s _ y => match s with | none => some y | some _ => none) (fun s _ s' => hchoose s s')
    (fun n ω => ω n) (fun n => toss_in _ _ (Nat.lt_succ_self n)) coins_indep (fun n s _ s' => ?_) forkTrans (fun _ _ => trivial) (fun n s a => ?_)
    (fun n ω => ?_) (fun n ω => ?_) (fun n ω => ?_)
  · cases s with
    | none =>
      cases s' with
      | none => simp [forkMDP]
      | some b =>
        have e : {ω : ℕ → Bool | some (ω n) = some b} = {ω | ω n = b} := by ext ω; simp
        simp only [e, coins_half, forkMDP]
    | some c => cases s' <;> simp [forkMDP]
  · unfold forkTrans
    split
    · exact MeasurableSet.const (none = s ∧ () = a)
    · rename_i h
      have hm : Measurable[tossed n] (fun ω : ℕ → Bool => ω (n - 1)) := toss_in n (n - 1) (by omega)
      have := hm (show MeasurableSet {b : Bool | some b = s ∧ () = a} by trivial)
      exact this
  · unfold forkTrans; split <;> rfl
  · unfold forkTrans; split <;> simp [forkMDP]
  · unfold forkTrans; split <;> rfl

theorem even_diverge : Tendsto (fun n => ∑ i ∈ Finset.range n, (1 : ℝ) / (2 * i + 2)) atTop atTop := by
  have h := Real.tendsto_sum_range_one_div_nat_succ_atTop.const_mul_atTop (by norm_num : (0 : ℝ) < 1 / 2)
  refine h.congr fun n => ?_
  rw [Finset.mul_sum]
  refine Finset.sum_congr rfl fun i _ => ?_
  have : (i : ℝ) + 1 ≠ 0 := by positivity
  field_simp

/-- The steps to each side have an infinite sum of learning rates. -/
theorem side_diverge (b : Bool) : ∀ᵐ ω ∂coins, Tendsto (fun n => ∑ i ∈ Finset.range n, if ω (2 * i) = b then (1 : ℝ) / (2 * i + 2) else 0) atTop atTop := by
  -- the tosses of the even steps
  let 𝒢 : Filtration ℕ (inferInstance : MeasurableSpace (ℕ → Bool)) :=
    { seq := fun n => tossed (2 * n), mono' := fun _ _ h => tossed.mono (by omega), le' := fun _ => tossed.le _ }
  have hd : ∀ᵐ ω ∂coins, ∃ l, Tendsto (fun n => ∑ i ∈ Finset.range n,
      ((if ω (2 * i) = b then (1 : ℝ) else 0) - 1 / 2) * (1 / (2 * i + 2))) atTop (𝓝 l) := by
    have hmeas : ∀ i : ℕ, Measurable[MeasurableSpace.comap (fun ω : ℕ → Bool => ω (2 * i)) inferInstance]
        (fun ω => ((if ω (2 * i) = b then (1 : ℝ) else 0) - 1 / 2) * (1 / (2 * i + 2))) := fun i => by
      have : Measurable fun c : Bool => ((if c = b then (1 : ℝ) else 0) - 1 / 2) * (1 / (2 * i + 2)) := measurable_of_countable _
      exact this.comp (comap_measurable _)
    obtain ⟨C, hC⟩ : ∃ C : ℝ, ∀ N, ∑ i ∈ Finset.range N, (1 / (2 * (i : ℝ) + 2)) ^ 2 ≤ C := by
      have hs : Summable fun i : ℕ => (1 / (2 * (i : ℝ) + 2)) ^ 2 := by
        have h1 : Summable fun i : ℕ => 1 / ((i : ℝ) + 1) ^ 2 := by
          have := (summable_nat_add_iff 1).2 (Real.summable_one_div_nat_pow.2 (by norm_num : 1 < 2))
          simpa using this
        refine (h1.mul_left (1 / 4)).congr fun i => ?_
        have : (i : ℝ) + 1 ≠ 0 := by positivity
        field_simp
        ring
      exact ⟨_, fun N => hs.sum_le_tsum _ fun i _ => sq_nonneg _⟩
    refine noise_sum_converges (ℱ := 𝒢) (C := C) (d := fun i ω => ((if ω (2 * i) = b then (1 : ℝ) else 0) - 1 / 2) * (1 / (2 * i + 2)))
      (fun i => ?_) (fun i => ?_) (fun N ω => ?_)
    · exact ((hmeas i).mono (toss_in (2 * (i + 1)) (2 * i) (by omega)).comap_le le_rfl).stronglyMeasurable
    · have h1 := condExp_indep_eq (measurable_pi_apply (2 * i)).comap_le (tossed.le (2 * i)) (μ := coins) (hmeas i).stronglyMeasurable
        (coins_indep (2 * i))
      have hms : MeasurableSet {ω : ℕ → Bool | ω (2 * i) = b} := (measurableSet_singleton b).preimage (measurable_pi_apply (2 * i))
      have h2 : ∫ ω, ((if ω (2 * i) = b then (1 : ℝ) else 0) - 1 / 2) * (1 / (2 * i + 2)) ∂coins = 0 := by
        rw [integral_mul_const, integral_sub _ (integrable_const _)]
        · have e : (fun ω : ℕ → Bool => if ω (2 * i) = b then (1 : ℝ) else 0) = Set.indicator {ω | ω (2 * i) = b} 1 := by
            funext ω; simp [Set.indicator]
          rw [e, integral_indicator_one hms, coins_half]
          simp
        · refine integrable_of_le (Measurable.stronglyMeasurable ?_) 1 fun ω => by split <;> simp
          exact Measurable.ite hms measurable_const measurable_const
      rw [h2] at h1
      exact h1
    · refine le_trans (Finset.sum_le_sum fun i _ => ?_) (hC N)
      rw [mul_pow]
      refine mul_le_of_le_one_left (sq_nonneg _) ?_
      split <;> norm_num
  filter_upwards [hd] with ω ⟨l, hl⟩
  have h1 := (even_diverge.const_mul_atTop (by norm_num : (0 : ℝ) < 1 / 2)).atTop_add hl
  refine h1.congr fun n => ?_
  rw [Finset.mul_sum, ← Finset.sum_add_distrib]
  refine Finset.sum_congr rfl fun i _ => ?_
  split <;> ring

omit [Fintype S] [Fintype A] [Nonempty A] in
theorem sum_pairs (f : ℕ → ℝ) (n : ℕ) : ∑ k ∈ Finset.range (2 * n), f k = ∑ i ∈ Finset.range n, (f (2 * i) + f (2 * i + 1)) := by
  induction n with
  | zero => simp
  | succ n ih => rw [show 2 * (n + 1) = 2 * n + 1 + 1 by ring, Finset.sum_range_succ, Finset.sum_range_succ, ih, Finset.sum_range_succ]; ring

theorem diverge_pairs {f g : ℕ → ℝ} (hf : ∀ k, 0 ≤ f k) (hg : ∀ i, g i ≤ f (2 * i) + f (2 * i + 1))
    (h : Tendsto (fun n => ∑ i ∈ Finset.range n, g i) atTop atTop) : Tendsto (fun n => ∑ k ∈ Finset.range n, f k) atTop atTop := by
  have hmono : Monotone fun n => ∑ k ∈ Finset.range n, f k := fun a b hab =>
    Finset.sum_le_sum_of_subset_of_nonneg (Finset.range_mono hab) fun k _ _ => hf k
  refine tendsto_atTop_of_monotone_of_subseq (φ := fun n => 2 * n) (l := atTop) hmono ?_
  refine tendsto_atTop_mono (fun n => ?_) h
  simp only [Function.comp_def]
  rw [sum_pairs]
  exact Finset.sum_le_sum fun i _ => hg i

theorem fork_rates : RobbinsMonro coins tossed (fun _ => True) forkTrans forkRate := by
  have hr : ∀ (s : Option Bool) (a : Unit) (ω : ℕ → Bool) (k : ℕ), 0 ≤ ratesOf s a (forkTrans · ω) (forkRate · ω) k ∧
      ratesOf s a (forkTrans · ω) (forkRate · ω) k ≤ 1 / ((k : ℝ) + 1) := by
    intro s a ω k
    unfold ratesOf forkRate
    split
    · exact ⟨by positivity, le_rfl⟩
    · exact ⟨le_rfl, by positivity⟩
  refine ⟨fun n => measurable_const, fun n ω => ⟨by unfold forkRate; positivity, ?_⟩, ?_, ?_⟩
  · unfold forkRate
    rw [div_le_one (by positivity)]
    have : (0 : ℝ) ≤ n := Nat.cast_nonneg n
    linarith
  · have hs : Summable fun i : ℕ => (1 / ((i : ℝ) + 1)) ^ 2 := by
      have := (summable_nat_add_iff 1).2 (Real.summable_one_div_nat_pow.2 (by norm_num : 1 < 2))
      simpa using this
    refine ⟨∑' i : ℕ, (1 / ((i : ℝ) + 1)) ^ 2, fun s a ω N => ?_⟩
    refine le_trans (Finset.sum_le_sum fun k _ => ?_) (hs.sum_le_tsum (Finset.range N) fun i _ => sq_nonneg _)
    exact pow_le_pow_left₀ (hr s a ω k).1 (hr s a ω k).2 2
  · filter_upwards [side_diverge true, side_diverge false] with ω ht hf s _ a
    have hside : ∀ b, Tendsto (fun n => ∑ i ∈ Finset.range n, if ω (2 * i) = b then (1 : ℝ) / (2 * i + 2) else 0) atTop atTop := by
      intro b; cases b
      · exact hf
      · exact ht
    cases s with
    | none =>
      refine diverge_pairs (fun k => (hr _ _ _ _).1) (fun i => ?_) even_diverge
      have h1 : ratesOf none a (forkTrans · ω) (forkRate · ω) (2 * i) = 1 / (2 * (i : ℝ) + 1) := by simp [ratesOf, forkTrans, forkRate]
      have h2 := (hr none a ω (2 * i + 1)).1
      rw [h1]
      have : (1 : ℝ) / (2 * i + 2) ≤ 1 / (2 * i + 1) := one_div_le_one_div_of_le (by positivity) (by linarith)
      linarith
    | some b =>
      refine diverge_pairs (fun k => (hr _ _ _ _).1) (fun i => ?_) (hside b)
      have h1 := (hr (some b) a ω (2 * i)).1
      have h2 : ratesOf (some b) a (forkTrans · ω) (forkRate · ω) (2 * i + 1) = if ω (2 * i) = b then (1 : ℝ) / (2 * i + 2) else 0 := by
        have e : (2 * i + 1) % 2 ≠ 0 := by omega
        by_cases hb : ω (2 * i) = b
        · simp [ratesOf, forkTrans, forkRate, hb]
          ring
        · simp [ratesOf, forkTrans, forkRate, hb]
      rw [h2]
      linarith

theorem rowMax_unit (q : Unit → ℝ) : rowMax q = q () := by
  obtain ⟨a, ha⟩ := (rowMax_isMax q).2
  cases a
  exact ha.symm

/-- One update, written out. -/
theorem speedy_step (γ : ℝ) (t : ℕ → Trans (Option Bool) Unit) (α : ℕ → ℝ) (Q0 : Table (Option Bool) Unit) (n : ℕ) (hab : (t (n + 1)).absorbing = false)
    (s : Option Bool) : (speedyAfter γ t α Q0 (n + 2)).Q s () = if (t (n + 1)).state = s then
      (speedyAfter γ t α Q0 (n + 1)).Q s () + α (n + 1) * ((t (n + 1)).reward + γ * (speedyAfter γ t α Q0 n).Q (t (n + 1)).next () -
        (speedyAfter γ t α Q0 (n + 1)).Q s ()) + (1 - α (n + 1)) * (γ * ((speedyAfter γ t α Q0 (n + 1)).Q (t (n + 1)).next () -
        (speedyAfter γ t α Q0 n).Q (t (n + 1)).next ())) else (speedyAfter γ t α Q0 (n + 1)).Q s () := by
  have h1 : speedyAfter γ t α Q0 (n + 2) = speedyQ γ (α (n + 1)) (speedyAfter γ t α Q0 (n + 1)) (t (n + 1)) := rfl
  have h2 : (speedyAfter γ t α Q0 (n + 1)).oldQ = (speedyAfter γ t α Q0 n).Q := rfl
  rw [h1]
  by_cases h : (t (n + 1)).state = s
  · subst h
    simp only [speedyQ, Table.set, hab, h2, rowMax_unit, if_true, and_self, Bool.not_false]
    ring
  · rw [if_neg h]
    exact if_neg fun h' => h h'.1.symm

/-- C160. Convergence to the optimal values is false in general: in the fork, with learning rates that meet the conditions of Robbins and
Monro and all the states visited forever, the table of Speedy Q-learning converges to the optimal values (which are zero) with probability zero. -/
theorem C160_converges_refuted : forkMDP.Proper ∧ forkMDP.Closed (fun _ => True) ∧ forkMDP.OptimalOn (fun _ => True) (1 / 2) (fun _ _ => 0) ∧
    Experience coins tossed forkMDP (fun _ => True) forkTrans ∧ RobbinsMonro coins tossed (fun _ => True) forkTrans forkRate ∧
    ∀ᵐ ω ∂coins, ¬ ∀ s a, Tendsto (fun n => (speedyAfter (1 / 2) (forkTrans · ω) (forkRate · ω) (fun _ _ => 0) n).Q s a) atTop (𝓝 0) := by
  refine ⟨fork_proper, fork_closed, fork_optimal, fork_experience, fork_rates, ?_⟩
  filter_upwards [side_diverge true, side_diverge false] with ω hA hB hconv
  set q : ℕ → Option Bool → ℝ := fun n s => (speedyAfter (1 / 2) (forkTrans · ω) (forkRate · ω) (fun _ _ => 0) n).Q s () with hq
  have hstep : ∀ n s, q (n + 2) s = if (forkTrans (n + 1) ω).state = s then q (n + 1) s + forkRate (n + 1) ω * ((forkTrans (n + 1) ω).reward +
      1 / 2 * q n (forkTrans (n + 1) ω).next - q (n + 1) s) + (1 - forkRate (n + 1) ω) * (1 / 2 * (q (n + 1) (forkTrans (n + 1) ω).next -
      q n (forkTrans (n + 1) ω).next)) else q (n + 1) s := fun n s =>
    speedy_step (1 / 2) (forkTrans · ω) (forkRate · ω) (fun _ _ => 0) n (by simp only [forkTrans]; split <;> rfl) s
  -- all entries are small from some step on
  have hsmall : ∀ s, ∀ᶠ n in atTop, |q n s| ≤ 1 / 10 := fun s => by
    have := (tendsto_zero_iff_abs_tendsto_zero _).1 (hconv s ())
    exact (this.eventually (gt_mem_nhds (by norm_num : (0 : ℝ) < 1 / 10))).mono fun n h => le_of_lt h
  obtain ⟨n0, hn0⟩ := eventually_atTop.1 (eventually_all.2 hsmall)
  -- the two updates of a round
  have hleft : ∀ j, q (2 * j + 3) (some true) = q (2 * j + 2) (some true) := by
    intro j
    rw [show 2 * j + 3 = (2 * j + 1) + 2 by ring, hstep]
    have : (2 * j + 1 + 1) % 2 = 0 := by omega
    simp [forkTrans, this]
  have hright : ∀ j, ω (2 * j + 2) = false → q (2 * j + 4) (some true) = q (2 * j + 3) (some true) := by
    intro j hj
    rw [show 2 * j + 4 = (2 * j + 2) + 2 by ring, hstep]
    have : (2 * j + 2 + 1) % 2 = 1 := by omega
    simp [forkTrans, this, hj]
  have hmid : ∀ j, ω (2 * j + 2) = true → q (2 * j + 3) none = q (2 * j + 2) none + forkRate (2 * j + 2) ω * (1 + 1 / 2 * q (2 * j + 1) (some true) -
      q (2 * j + 2) none) + (1 - forkRate (2 * j + 2) ω) * (1 / 2 * (q (2 * j + 2) (some true) - q (2 * j + 1) (some true))) := by
    intro j hj
    rw [show 2 * j + 3 = (2 * j + 1) + 2 by ring, hstep]
    have : (2 * j + 1 + 1) % 2 = 0 := by omega
    simp [forkTrans, this, hj]
  have hvisit : ∀ j, ω (2 * j + 2) = true → q (2 * j + 4) (some true) = q (2 * j + 3) (some true) + forkRate (2 * j + 3) ω *
      (1 / 2 * q (2 * j + 2) none - q (2 * j + 3) (some true)) + (1 - forkRate (2 * j + 3) ω) * (1 / 2 * (q (2 * j + 3) none - q (2 * j + 2) none)) := by
    intro j hj
    rw [show 2 * j + 4 = (2 * j + 2) + 2 by ring, hstep]
    have : (2 * j + 2 + 1) % 2 = 1 := by omega
    simp [forkTrans, this, hj]
  -- an update of the left state raises its value, if the one before it did not lower it
  have hraise : ∀ j, n0 ≤ j → q (2 * j + 1) (some true) ≤ q (2 * j + 2) (some true) →
      q (2 * j + 3) (some true) + 1 / 20 * (if ω (2 * (j + 1)) = true then (1 : ℝ) / (2 * (j + 1 : ℕ) + 2) else 0) ≤ q (2 * (j + 1) + 2) (some true) := by
    intro j hj hup
    rw [show 2 * (j + 1) + 2 = 2 * j + 4 by ring, show 2 * (j + 1) = 2 * j + 2 by ring]
    cases hc : ω (2 * j + 2)
    · rw [hright j hc]; simp
    · simp only [if_true]
      have e1 := abs_le.1 (hn0 (2 * j + 1) (by omega) (some true))
      have e2 := abs_le.1 (hn0 (2 * j + 2) (by omega) none)
      have e3 := abs_le.1 (hn0 (2 * j + 3) (by omega) (some true))
      have r1 : forkRate (2 * j + 2) ω = 1 / (2 * (j : ℝ) + 3) := by unfold forkRate; push_cast; congr 1; ring
      have r2 : forkRate (2 * j + 3) ω = 1 / (2 * (j : ℝ) + 4) := by unfold forkRate; push_cast; congr 1; ring
      have hj0 : (0 : ℝ) ≤ j := Nat.cast_nonneg j
      set x := forkRate (2 * j + 2) ω with hx
      set y := forkRate (2 * j + 3) ω with hy
      have hyx : y ≤ x := by rw [r1, r2]; exact one_div_le_one_div_of_le (by positivity) (by linarith)
      have hx1 : x ≤ 1 / 3 := by rw [r1]; exact one_div_le_one_div_of_le (by norm_num) (by linarith)
      have hy0 : 0 < y := by rw [r2]; positivity
      have hy4 : y ≤ 1 / 4 := by rw [r2]; exact one_div_le_one_div_of_le (by norm_num) (by linarith)
      have hgoal : (1 : ℝ) / (2 * (j + 1 : ℕ) + 2) = y := by rw [r2]; push_cast; congr 1; ring
      rw [hgoal, hvisit j hc, hmid j hc]
      have m1 : 0 ≤ (1 - x) * (1 / 2 * (q (2 * j + 2) (some true) - q (2 * j + 1) (some true))) :=
        mul_nonneg (by linarith) (by linarith)
      have m2 : y * (17 / 20) ≤ x * (1 + 1 / 2 * q (2 * j + 1) (some true) - q (2 * j + 2) none) :=
        mul_le_mul hyx (by linarith) (by norm_num) (by linarith)
      have m3 : y * (-(3 / 20)) ≤ y * (1 / 2 * q (2 * j + 2) none - q (2 * j + 3) (some true)) := mul_le_mul_of_nonneg_left (by linarith) hy0.le
      have m4 : (3 / 4) * (1 / 2 * (y * (17 / 20))) ≤ (1 - y) * (1 / 2 * (q (2 * j + 2) none + x * (1 + 1 / 2 * q (2 * j + 1) (some true) -
          q (2 * j + 2) none) + (1 - x) * (1 / 2 * (q (2 * j + 2) (some true) - q (2 * j + 1) (some true))) - q (2 * j + 2) none)) := by
        refine mul_le_mul (by linarith) (by linarith) (by positivity) (by linarith)
      linarith
  -- a visit of the right state, after which the value of the left state is not lowered
  obtain ⟨j1, hj1, hw⟩ : ∃ j, n0 ≤ j ∧ ω (2 * j + 2) = false := by
    by_contra hno
    push Not at hno
    have hbd : ∀ n, ∑ i ∈ Finset.range n, (if ω (2 * i) = false then (1 : ℝ) / (2 * i + 2) else 0) ≤
        ∑ i ∈ Finset.range (n0 + 1), (if ω (2 * i) = false then (1 : ℝ) / (2 * i + 2) else 0) := by
      intro n
      have hnn : ∀ i : ℕ, 0 ≤ (if ω (2 * i) = false then (1 : ℝ) / (2 * i + 2) else 0) := fun i => by split <;> positivity
      rcases le_total n (n0 + 1) with h | h
      · exact Finset.sum_le_sum_of_subset_of_nonneg (Finset.range_mono h) fun i _ _ => hnn i
      · refine le_of_eq (Finset.sum_subset (Finset.range_mono h) fun i _ hi => ?_).symm
        have hi' : n0 + 1 ≤ i := by simpa using hi
        have := hno (i - 1) (by omega)
        rw [show 2 * (i - 1) + 2 = 2 * i by omega] at this
        rw [if_neg this]
    obtain ⟨n, hn⟩ := (hB.eventually (eventually_gt_atTop _)).exists
    exact absurd (hbd n) (not_le.2 hn)
  have hinv : ∀ j, j1 + 1 ≤ j → q (2 * j + 1) (some true) ≤ q (2 * j + 2) (some true) := by
    intro j hj
    induction j, hj using Nat.le_induction with
    | base =>
      have := hright j1 hw
      rw [show 2 * (j1 + 1) + 1 = 2 * j1 + 3 by ring, show 2 * (j1 + 1) + 2 = 2 * j1 + 4 by ring, this]
    | succ j hj ih =>
      have := hraise j (by omega) ih
      rw [show 2 * (j + 1) + 1 = 2 * j + 3 by ring]
      refine le_trans ?_ this
      have : (0 : ℝ) ≤ (if ω (2 * (j + 1)) = true then (1 : ℝ) / (2 * (j + 1 : ℕ) + 2) else 0) := by split <;> positivity
      linarith
  -- so the value of the left state grows without bound
  have hgrow : ∀ k, 1 / 20 * ∑ i ∈ Finset.range k, (if ω (2 * (j1 + 2 + i)) = true then (1 : ℝ) / (2 * (j1 + 2 + i : ℕ) + 2) else 0) ≤
      q (2 * (j1 + 1 + k) + 2) (some true) - q (2 * (j1 + 1) + 2) (some true) := by
    intro k
    induction k with
    | zero => simp
    | succ k ih =>
      rw [Finset.sum_range_succ, mul_add]
      have h1 := hraise (j1 + 1 + k) (by omega) (hinv _ (by omega))
      rw [hleft, show j1 + 1 + k + 1 = j1 + 2 + k by ring] at h1
      rw [show j1 + 1 + (k + 1) = j1 + 2 + k by ring]
      linarith
  have hA' : Tendsto (fun k => ∑ i ∈ Finset.range k, (if ω (2 * (j1 + 2 + i)) = true then (1 : ℝ) / (2 * (j1 + 2 + i : ℕ) + 2) else 0)) atTop atTop := by
    have h1 := hA.comp (tendsto_add_atTop_nat (j1 + 2))
    have h2 := tendsto_atTop_add_const_right atTop
      (-(∑ i ∈ Finset.range (j1 + 2), if ω (2 * i) = true then (1 : ℝ) / (2 * i + 2) else 0)) h1
    refine h2.congr fun k => ?_
    simp only [Function.comp_def]
    rw [add_comm k, Finset.sum_range_add]
    ring
  obtain ⟨k, hk⟩ := (hA'.eventually (eventually_gt_atTop 10)).exists
  have g1 := hgrow k
  have g2 := (abs_le.1 (hn0 (2 * (j1 + 1 + k) + 2) (by omega) (some true))).2
  have g3 := (abs_le.1 (hn0 (2 * (j1 + 1) + 2) (by omega) (some true))).1
  linarith

end

end Verif.TD
