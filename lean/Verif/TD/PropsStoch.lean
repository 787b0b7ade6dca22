/-
Property C145: tabular learning in random problems converges almost surely.
-/
import Verif.TD.SpecStoch
import Verif.TD.Props
import Verif.TD.LemmasNoise
import Mathlib.MeasureTheory.Order.Lattice
import Mathlib.MeasureTheory.Constructions.BorelSpace.Order

namespace Verif.TD

open Filter Topology MeasureTheory

noncomputable section

variable {S A : Type} [DecidableEq S] [DecidableEq A] [Fintype S] [Fintype A] [Nonempty A]
variable {Ω : Type} [mΩ : MeasurableSpace Ω] {μ : Measure Ω} [IsProbabilityMeasure μ] {ℱ : Filtration ℕ mΩ}

/-- The common part: an update rule with targets `target Q s a o`, where `o` is what is random. -/
theorem learning_converges {Y : Type} [Fintype Y] [DecidableEq Y] {L : S → Prop} {t : ℕ → Ω → Trans S A} {α : ℕ → Ω → ℝ}
    {o : ℕ → Ω → Y} {p : S → A → Y → ℝ} {target : Table S A → S → A → Y → ℝ} {upd : ℕ → Ω → Table S A → Table S A}
    {Q0 Qs : Table S A} {γ B : ℝ} (hγ0 : 0 ≤ γ) (hγ1 : γ < 1)
    (hpast : ∀ n s a, MeasurableSet[ℱ n] {ω | (t n ω).state = s ∧ (t n ω).action = a})
    (hknown : ∀ n y, MeasurableSet[ℱ (n + 1)] {ω | o n ω = y})
    (hlaw : ∀ n y, μ[Set.indicator {ω | o n ω = y} (fun _ => (1 : ℝ)) | ℱ n] =ᵐ[μ] fun ω => p (t n ω).state (t n ω).action y)
    (hp0 : ∀ s a y, 0 ≤ p s a y) (hp1 : ∀ s a, ∑ y, p s a y = 1) (hα : RobbinsMonro μ ℱ L t α)
    (hm : ∀ s a y, Measurable (fun v : S × A → ℝ => target (fun s a => v (s, a)) s a y))
    (hB0 : Bounded B Q0) (hB : ∀ Q, Bounded B Q → ∀ s a y, |target Q s a y| ≤ B)
    (hupd : ∀ n ω Q, SetsOnly Q (upd n ω Q) (t n ω).state (t n ω).action (Q (t n ω).state (t n ω).action +
      α n ω * (target Q (t n ω).state (t n ω).action (o n ω) - Q (t n ω).state (t n ω).action)))
    (hF : ∀ (Q : Table S A) (D : ℝ), 0 ≤ D → (∀ s, L s → ∀ a, |Q s a - Qs s a| ≤ D) →
      ∀ s, L s → ∀ a, |∑ y, p s a y * target Q s a y - Qs s a| ≤ γ * D) :
    ∀ᵐ ω ∂μ, ∀ s, L s → ∀ a, Tendsto (fun n => tables (upd · ω) Q0 n s a) atTop (𝓝 (Qs s a)) := by
  obtain ⟨C, hC⟩ := hα.squares
  have := table_converges (ℱ := ℱ) (μ := μ) (I := S × A) (x := fun n ω j => tables (upd · ω) Q0 n j.1 j.2) (x0 := fun j => Q0 j.1 j.2)
    (xs := fun j => Qs j.1 j.2) (G := fun v j y => target (fun s a => v (s, a)) j.1 j.2 y) (p := fun j y => p j.1 j.2 y)
    (i := fun n ω => ((t n ω).state, (t n ω).action)) (y := o) (a := α) (L := fun j => L j.1) (γ := γ) (B := B) (C := C) hγ0 hγ1
    (fun n j => by simpa only [Prod.ext_iff] using hpast n j.1 j.2) hknown (fun n => (hα.known n).stronglyMeasurable)
    (fun n ω => (hα.range n ω).1) (fun n ω => (hα.range n ω).2) hlaw (fun j y => hp0 _ _ y) (fun j => hp1 _ _)
    (fun j y => hm _ _ y) (fun j => hB0 _ _) (fun v hv j y => hB _ (fun s a => hv (s, a)) _ _ y) (fun ω => rfl)
    (fun n ω j => ?_) (fun v D hD h j hj => hF _ D hD (fun s hs a => h (s, a) hs) j.1 hj j.2)
    (fun j N ω => ?_) ?_
  · filter_upwards [this] with ω h s hs a
    exact h (s, a) hs
  · obtain ⟨h1, h2⟩ := hupd n ω (tables (upd · ω) Q0 n)
    show upd n ω (tables (upd · ω) Q0 n) j.1 j.2 = _
    split
    · next h => subst h; exact h1
    · next h => exact h2 _ _ (fun h' => h (Prod.ext h'.1 h'.2))
  · simpa only [ratesOf, Prod.ext_iff] using hC j.1 j.2 ω N
  · filter_upwards [hα.diverge] with ω h j hj
    simpa only [ratesOf, Prod.ext_iff] using h j.1 hj j.2

theorem rowMax_measurable (s : S) : Measurable (fun v : S × A → ℝ => rowMax (fun a => v (s, a))) := by
  unfold rowMax
  have := Finset.measurable_sup' (s := (Finset.univ : Finset A)) Finset.univ_nonempty (f := fun a (v : S × A → ℝ) => v (s, a))
    (fun a _ => measurable_pi_apply _)
  convert this using 1
  funext v
  rw [Finset.sup'_apply]

/-- A bound that no target leaves. -/
def reach (m : RandomMDP S A) (γ : ℝ) (Q0 : Table S A) : ℝ :=
  (∑ s, ∑ a, |Q0 s a|) + (∑ s, ∑ a, ∑ s', |m.reward s a s'|) / (1 - γ)

theorem bounded_reach {m : RandomMDP S A} {γ : ℝ} (hγ1 : γ < 1) {Q0 : Table S A} : Bounded (reach m γ Q0) Q0 := by
  intro s a
  have h1 : |Q0 s a| ≤ ∑ a, |Q0 s a| := Finset.single_le_sum (f := fun a => |Q0 s a|) (fun _ _ => abs_nonneg _) (Finset.mem_univ a)
  have h2 : ∑ a, |Q0 s a| ≤ ∑ s, ∑ a, |Q0 s a| := Finset.single_le_sum (f := fun s => ∑ a, |Q0 s a|)
    (fun _ _ => Finset.sum_nonneg (fun _ _ => abs_nonneg _)) (Finset.mem_univ s)
  have h3 : 0 ≤ (∑ s, ∑ a, ∑ s', |m.reward s a s'|) / (1 - γ) :=
    div_nonneg (Finset.sum_nonneg (fun _ _ => Finset.sum_nonneg (fun _ _ => Finset.sum_nonneg (fun _ _ => abs_nonneg _)))) (by linarith)
  unfold reach
  linarith

theorem target_reach {m : RandomMDP S A} {γ : ℝ} (hγ0 : 0 ≤ γ) (hγ1 : γ < 1) {Q0 : Table S A} {x : ℝ} (hx : |x| ≤ reach m γ Q0) (s : S)
    (a : A) (s' : S) : |m.reward s a s' + γ * x| ≤ reach m γ Q0 := by
  set R := ∑ s, ∑ a, ∑ s', |m.reward s a s'| with hR
  have h0 : |m.reward s a s'| ≤ R :=
    calc _ ≤ ∑ s', |m.reward s a s'| := Finset.single_le_sum (f := fun s' => |m.reward s a s'|) (fun _ _ => abs_nonneg _) (Finset.mem_univ s')
      _ ≤ ∑ a, ∑ s', |m.reward s a s'| := Finset.single_le_sum (f := fun a => ∑ s', |m.reward s a s'|)
          (fun _ _ => Finset.sum_nonneg (fun _ _ => abs_nonneg _)) (Finset.mem_univ a)
      _ ≤ R := Finset.single_le_sum (f := fun s => ∑ a, ∑ s', |m.reward s a s'|)
          (fun _ _ => Finset.sum_nonneg (fun _ _ => Finset.sum_nonneg (fun _ _ => abs_nonneg _))) (Finset.mem_univ s)
  have h1 : 0 ≤ ∑ s, ∑ a, |Q0 s a| := Finset.sum_nonneg (fun _ _ => Finset.sum_nonneg (fun _ _ => abs_nonneg _))
  have h2 := geometric_bound (R := R) hγ1
  refine (abs_add_le _ _).trans ?_
  rw [abs_mul, abs_of_nonneg hγ0]
  have h3 := mul_le_mul_of_nonneg_left hx hγ0
  unfold reach at h3 ⊢
  rw [← hR] at h3 ⊢
  nlinarith

theorem abs_ite_zero {b : Bool} {x B : ℝ} (hB : 0 ≤ B) (h : b = false → |x| ≤ B) : |if b then 0 else x| ≤ B := by
  cases b
  · simpa using h rfl
  · simpa using hB

/-- The mean targets contract when the values of the next states do. -/
theorem mean_contracts {m : RandomMDP S A} (hm : m.Proper) {L : S → Prop} (hcl : m.Closed L) {γ D : ℝ} (hγ0 : 0 ≤ γ) (hD : 0 ≤ D)
    {V W : S → ℝ} (h : ∀ s, L s → |V s - W s| ≤ D) (s : S) (hs : L s) (a : A) :
    |∑ s', m.prob s a s' * (m.reward s a s' + γ * (if m.absorbing s a s' then 0 else V s')) -
      ∑ s', m.prob s a s' * (m.reward s a s' + γ * (if m.absorbing s a s' then 0 else W s'))| ≤ γ * D := by
  rw [← Finset.sum_sub_distrib]
  refine (Finset.abs_sum_le_sum_abs _ _).trans ?_
  calc _ ≤ ∑ s', m.prob s a s' * (γ * D) := by
        refine Finset.sum_le_sum (fun s' _ => ?_)
        have e : m.prob s a s' * (m.reward s a s' + γ * (if m.absorbing s a s' then 0 else V s')) -
            m.prob s a s' * (m.reward s a s' + γ * (if m.absorbing s a s' then 0 else W s')) =
            m.prob s a s' * (γ * (if m.absorbing s a s' then 0 else V s' - W s')) := by
          split <;> ring
        rw [e, abs_mul, abs_mul, abs_of_nonneg (hm.1 s a s'), abs_of_nonneg hγ0]
        rcases (hm.1 s a s').eq_or_lt with h0 | h0
        · rw [← h0]; simp
        · refine mul_le_mul_of_nonneg_left (mul_le_mul_of_nonneg_left ?_ hγ0) h0.le
          exact abs_ite_zero hD (fun hab => h s' (hcl s a s' hs h0 hab))
    _ = γ * D := by rw [← Finset.sum_mul, hm.2, one_mul]

theorem not_ite (b : Bool) (x : ℝ) : (if !b then x else 0) = if b then 0 else x := by cases b <;> rfl

/-- C145. Q-learning: with probability one the table converges to the optimal action values, whatever the exploration and
the initial table are. -/
theorem C145_q_learning (m : RandomMDP S A) (hm : m.Proper) (L : S → Prop) (hcl : m.Closed L) (γ : ℝ) (hγ0 : 0 ≤ γ) (hγ1 : γ < 1)
    (Qs : Table S A) (hQs : m.OptimalOn L γ Qs) (t : ℕ → Ω → Trans S A) (ht : Experience μ ℱ m L t) (α : ℕ → Ω → ℝ)
    (hα : RobbinsMonro μ ℱ L t α) (Q0 : Table S A) :
    ∀ᵐ ω ∂μ, ∀ s, L s → ∀ a,
      Tendsto (fun n => tables (fun k Q => qLearning γ (α k ω) Q (t k ω)) Q0 n s a) atTop (𝓝 (Qs s a)) := by
  obtain ⟨V, hV⟩ := hQs
  have hB := bounded_reach (m := m) hγ1 (Q0 := Q0)
  have hB0 : 0 ≤ reach m γ Q0 := by
    unfold reach
    exact add_nonneg (Finset.sum_nonneg (fun _ _ => Finset.sum_nonneg (fun _ _ => abs_nonneg _)))
      (div_nonneg (Finset.sum_nonneg (fun _ _ => Finset.sum_nonneg (fun _ _ => Finset.sum_nonneg (fun _ _ => abs_nonneg _)))) (by linarith))
  refine learning_converges (ℱ := ℱ) (o := fun n ω => (t n ω).next) (p := m.prob) (B := reach m γ Q0)
    (target := fun Q s a s' => m.reward s a s' + γ * (if m.absorbing s a s' then 0 else rowMax (Q s')))
    (upd := fun k ω Q => qLearning γ (α k ω) Q (t k ω)) hγ0 hγ1 ht.past ht.known ht.law hm.1 hm.2 hα ?_ hB ?_ ?_ ?_
  · intro s a s'
    refine measurable_const.add (measurable_const.mul ?_)
    split
    · exact measurable_const
    · exact rowMax_measurable s'
  · intro Q hQ s a s'
    exact target_reach hγ0 hγ1 (abs_ite_zero hB0 (fun _ => rowMax_bound (hQ s'))) s a s'
  · intro n ω Q
    have := set_setsOnly Q (t n ω).state (t n ω).action (Q (t n ω).state (t n ω).action + α n ω * ((t n ω).reward +
      γ * (if !(t n ω).absorbing then rowMax (Q (t n ω).next) else 0) - Q (t n ω).state (t n ω).action))
    rw [not_ite, ht.reward, ht.absorbing] at this
    have e : qLearning γ (α n ω) Q (t n ω) = Q.set (t n ω).state (t n ω).action (Q (t n ω).state (t n ω).action + α n ω * ((t n ω).reward +
      γ * (if !(t n ω).absorbing then rowMax (Q (t n ω).next) else 0) - Q (t n ω).state (t n ω).action)) := rfl
    rw [e, not_ite, ht.reward, ht.absorbing]
    exact this
  · intro Q D hD h s hs a
    rw [(hV s hs).2 a]
    exact mean_contracts hm hcl hγ0 hD (fun s' hs' => isMax_close (h s' hs') (rowMax_isMax _) (hV s' hs').1) s hs a

/-- Values that end close to `Qs` have their best actions among the best of `Qs`. -/
theorem eventually_maximises {L : S → Prop} {Q : ℕ → Table S A} {Qs : Table S A}
    (h : ∀ s, L s → ∀ a, Tendsto (fun n => Q n s a) atTop (𝓝 (Qs s a))) :
    ∀ᶠ n in atTop, ∀ s, L s → ∀ a, Maximises (Q n s) a → Maximises (Qs s) a := by
  rw [eventually_all]; intro s
  by_cases hs : L s
  swap
  · exact Eventually.of_forall (fun n h' => absurd h' hs)
  have : ∀ a, ∀ᶠ n in atTop, Maximises (Q n s) a → Maximises (Qs s) a := by
    intro a
    by_cases hm : Maximises (Qs s) a
    · exact Eventually.of_forall (fun _ _ => hm)
    · simp only [Maximises, not_forall, not_le] at hm
      obtain ⟨b, hb⟩ := hm
      filter_upwards [(h s hs a).eventually_lt (h s hs b) hb] with n hn hmax
      exact absurd (hmax b) (not_le.2 hn)
  filter_upwards [eventually_all.2 this] with n hn _
  exact hn

/-- C145. From some time on, every greedy action of the learned table is an optimal action. -/
theorem C145_greedy (m : RandomMDP S A) (hm : m.Proper) (L : S → Prop) (hcl : m.Closed L) (γ : ℝ) (hγ0 : 0 ≤ γ) (hγ1 : γ < 1)
    (Qs : Table S A) (hQs : m.OptimalOn L γ Qs) (t : ℕ → Ω → Trans S A) (ht : Experience μ ℱ m L t) (α : ℕ → Ω → ℝ)
    (hα : RobbinsMonro μ ℱ L t α) (Q0 : Table S A) :
    ∀ᵐ ω ∂μ, ∀ᶠ n in atTop, ∀ s, L s → ∀ a,
      Maximises (tables (fun k Q => qLearning γ (α k ω) Q (t k ω)) Q0 n s) a → Maximises (Qs s) a := by
  filter_upwards [C145_q_learning m hm L hcl γ hγ0 hγ1 Qs hQs t ht α hα Q0] with ω h
  exact eventually_maximises h

/-- C145. Expected SARSA with a fixed policy: with probability one the table converges to the action values of the policy,
also when the experience is made with another one. -/
theorem C145_expected_sarsa (m : RandomMDP S A) (hm : m.Proper) (L : S → Prop) (hcl : m.Closed L) (γ : ℝ) (hγ0 : 0 ≤ γ) (hγ1 : γ < 1)
    (policy : S → A → ℝ) (hπ : ∀ s, Prob (policy s)) (Qs : Table S A) (hQs : m.ValuesOn L γ policy Qs) (t : ℕ → Ω → Trans S A)
    (ht : Experience μ ℱ m L t) (α : ℕ → Ω → ℝ) (hα : RobbinsMonro μ ℱ L t α) (Q0 : Table S A) :
    ∀ᵐ ω ∂μ, ∀ s, L s → ∀ a,
      Tendsto (fun n => tables (fun k Q => expectedSarsa γ (α k ω) Q (t k ω) (policy (t k ω).next)) Q0 n s a) atTop (𝓝 (Qs s a)) := by
  have hB := bounded_reach (m := m) hγ1 (Q0 := Q0)
  have hB0 : 0 ≤ reach m γ Q0 := by
    unfold reach
    exact add_nonneg (Finset.sum_nonneg (fun _ _ => Finset.sum_nonneg (fun _ _ => abs_nonneg _)))
      (div_nonneg (Finset.sum_nonneg (fun _ _ => Finset.sum_nonneg (fun _ _ => Finset.sum_nonneg (fun _ _ => abs_nonneg _)))) (by linarith))
  refine learning_converges (ℱ := ℱ) (o := fun n ω => (t n ω).next) (p := m.prob) (B := reach m γ Q0)
    (target := fun Q s a s' => m.reward s a s' + γ * (if m.absorbing s a s' then 0 else ∑ a', policy s' a' * Q s' a'))
    (upd := fun k ω Q => expectedSarsa γ (α k ω) Q (t k ω) (policy (t k ω).next)) hγ0 hγ1 ht.past ht.known ht.law hm.1 hm.2 hα ?_ hB ?_ ?_ ?_
  · intro s a s'
    refine measurable_const.add (measurable_const.mul ?_)
    split
    · exact measurable_const
    · exact Finset.measurable_fun_sum _ (fun a' _ => measurable_const.mul (measurable_pi_apply _))
  · intro Q hQ s a s'
    exact target_reach hγ0 hγ1 (abs_ite_zero hB0 (fun _ => prob_bound (hπ s') (hQ s'))) s a s'
  · intro n ω Q
    have e : expectedSarsa γ (α n ω) Q (t n ω) (policy (t n ω).next) = Q.set (t n ω).state (t n ω).action (Q (t n ω).state (t n ω).action +
      α n ω * ((t n ω).reward + γ * (if !(t n ω).absorbing then ∑ a, Q (t n ω).next a * policy (t n ω).next a else 0) -
        Q (t n ω).state (t n ω).action)) := rfl
    rw [e, not_ite, ht.reward, ht.absorbing]
    simp only [mul_comm (Q _ _)]
    exact set_setsOnly _ _ _ _
  · intro Q D hD h s hs a
    rw [hQs s hs a]
    refine mean_contracts hm hcl hγ0 hD (V := fun s' => ∑ a', policy s' a' * Q s' a') (W := fun s' => ∑ a', policy s' a' * Qs s' a')
      (fun s' hs' => ?_) s hs a
    rw [← Finset.sum_sub_distrib]
    have e : (∑ a', (policy s' a' * Q s' a' - policy s' a' * Qs s' a')) = ∑ a', policy s' a' * (Q s' a' - Qs s' a') :=
      Finset.sum_congr rfl (fun a' _ => by ring)
    rw [e]
    exact prob_bound (hπ s') (h s' hs')

/-- C145. SARSA with a fixed policy: with probability one the table converges to the action values of the policy. -/
theorem C145_sarsa (m : RandomMDP S A) (hm : m.Proper) (L : S → Prop) (hcl : m.Closed L) (γ : ℝ) (hγ0 : 0 ≤ γ) (hγ1 : γ < 1)
    (policy : S → A → ℝ) (hπ : ∀ s, Prob (policy s)) (Qs : Table S A) (hQs : m.ValuesOn L γ policy Qs) (t : ℕ → Ω → Trans S A)
    (ht : Experience μ ℱ m L t) (b : ℕ → Ω → A) (hb : OnPolicy μ ℱ m policy t b) (α : ℕ → Ω → ℝ) (hα : RobbinsMonro μ ℱ L t α)
    (Q0 : Table S A) :
    ∀ᵐ ω ∂μ, ∀ s, L s → ∀ a,
      Tendsto (fun n => tables (fun k Q => sarsa γ (α k ω) Q (t k ω) (b k ω)) Q0 n s a) atTop (𝓝 (Qs s a)) := by
  have hB := bounded_reach (m := m) hγ1 (Q0 := Q0)
  have hB0 : 0 ≤ reach m γ Q0 := by
    unfold reach
    exact add_nonneg (Finset.sum_nonneg (fun _ _ => Finset.sum_nonneg (fun _ _ => abs_nonneg _)))
      (div_nonneg (Finset.sum_nonneg (fun _ _ => Finset.sum_nonneg (fun _ _ => Finset.sum_nonneg (fun _ _ => abs_nonneg _)))) (by linarith))
  refine learning_converges (ℱ := ℱ) (Y := S × A) (o := fun n ω => ((t n ω).next, b n ω))
    (p := fun s a y => m.prob s a y.1 * policy y.1 y.2) (B := reach m γ Q0)
    (target := fun Q s a y => m.reward s a y.1 + γ * (if m.absorbing s a y.1 then 0 else Q y.1 y.2))
    (upd := fun k ω Q => sarsa γ (α k ω) Q (t k ω) (b k ω)) hγ0 hγ1 ht.past
    (fun n y => by simpa only [Prod.ext_iff] using hb.known n y.1 y.2)
    (fun n y => by simpa only [Prod.ext_iff] using hb.law n y.1 y.2)
    (fun s a y => mul_nonneg (hm.1 _ _ _) ((hπ y.1).1 _)) ?_ hα ?_ hB ?_ ?_ ?_
  · intro s a
    rw [Fintype.sum_prod_type]
    simp only [← Finset.mul_sum, (hπ _).2, mul_one, hm.2]
  · intro s a y
    refine measurable_const.add (measurable_const.mul ?_)
    split
    · exact measurable_const
    · exact measurable_pi_apply _
  · intro Q hQ s a y
    exact target_reach hγ0 hγ1 (abs_ite_zero hB0 (fun _ => hQ y.1 y.2)) s a y.1
  · intro n ω Q
    have e : sarsa γ (α n ω) Q (t n ω) (b n ω) = Q.set (t n ω).state (t n ω).action (Q (t n ω).state (t n ω).action +
      α n ω * ((t n ω).reward + γ * (if !(t n ω).absorbing then Q (t n ω).next (b n ω) else 0) -
        Q (t n ω).state (t n ω).action)) := rfl
    rw [e, not_ite, ht.reward, ht.absorbing]
    exact set_setsOnly _ _ _ _
  · intro Q D hD h s hs a
    rw [hQs s hs a, Fintype.sum_prod_type]
    have e : ∀ s', ∑ a', m.prob s a s' * policy s' a' * (m.reward s a s' + γ * (if m.absorbing s a s' then 0 else Q s' a')) =
        m.prob s a s' * (m.reward s a s' + γ * (if m.absorbing s a s' then 0 else ∑ a', policy s' a' * Q s' a')) := by
      intro s'
      have h1 := (hπ s').2
      split
      · simp only [mul_zero, add_zero]
        rw [← Finset.sum_mul, ← Finset.mul_sum, h1, mul_one]
      · have : ∀ a', m.prob s a s' * policy s' a' * (m.reward s a s' + γ * Q s' a') =
            m.prob s a s' * (policy s' a' * m.reward s a s') + m.prob s a s' * (γ * (policy s' a' * Q s' a')) := fun a' => by ring
        simp only [this, Finset.sum_add_distrib, ← Finset.mul_sum, ← Finset.sum_mul, h1]
        ring
    simp only [e]
    refine mean_contracts hm hcl hγ0 hD (V := fun s' => ∑ a', policy s' a' * Q s' a') (W := fun s' => ∑ a', policy s' a' * Qs s' a')
      (fun s' hs' => ?_) s hs a
    rw [← Finset.sum_sub_distrib]
    have e : (∑ a', (policy s' a' * Q s' a' - policy s' a' * Qs s' a')) = ∑ a', policy s' a' * (Q s' a' - Qs s' a') :=
      Finset.sum_congr rfl (fun a' _ => by ring)
    rw [e]
    exact prob_bound (hπ s') (h s' hs')

end

end Verif.TD
