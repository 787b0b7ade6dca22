/-
Property C161: RQ-learning in random problems.
-/
import Verif.TD.SpecRQ
import Verif.TD.LemmasGlie
import Verif.TD.PropsStochWeighted
import Verif.TD.PropsStochSpeedy

namespace Verif.TD

open Filter Topology MeasureTheory ProbabilityTheory

noncomputable section

variable {S A : Type} [DecidableEq S] [DecidableEq A] [Fintype S] [Fintype A] [Nonempty A]
variable {Ω : Type} [mΩ : MeasurableSpace Ω] {μ : Measure Ω} [IsProbabilityMeasure μ] {ℱ : Filtration ℕ mΩ}

/-! ### One history -/

section history

variable {γ : ℝ} {off : Bool} {t : ℕ → Trans S A} {α β : ℕ → ℝ} {b : ℕ → A}

omit [Fintype S] in
theorem rq_Q (n : ℕ) (s : S) (a : A) : (rqAfter γ off t α β b n).Q s a =
    (rqAfter γ off t α β b n).Rt s a + γ * (rqAfter γ off t α β b n).Qt s a := by
  induction n with
  | zero => simp [rqAfter]
  | succ n ih =>
    have h := C73_local_partial γ (α n) (β n) off (rqAfter γ off t α β b n) (t n) (b n)
    by_cases hv : s = (t n).state ∧ a = (t n).action
    · obtain ⟨rfl, rfl⟩ := hv
      exact h.2.1
    · obtain ⟨h1, h2, h3⟩ := h.1 s a hv
      show (rqLearning γ (α n) (β n) off (rqAfter γ off t α β b n) (t n) (b n)).Q s a = _
      rw [h1, ih]
      show _ = (rqLearning γ (α n) (β n) off (rqAfter γ off t α β b n) (t n) (b n)).Rt s a +
        γ * (rqLearning γ (α n) (β n) off (rqAfter γ off t α β b n) (t n) (b n)).Qt s a
      rw [h2, h3]

omit [Fintype S] in
theorem rq_Rt (n : ℕ) : SetsOnly (rqAfter γ off t α β b n).Rt (rqAfter γ off t α β b (n + 1)).Rt (t n).state (t n).action
    ((rqAfter γ off t α β b n).Rt (t n).state (t n).action + α n * ((t n).reward - (rqAfter γ off t α β b n).Rt (t n).state (t n).action)) :=
  set_setsOnly _ _ _ _

/-- The value of the next state that an update uses. -/
def rqNext (off : Bool) (Q : Table S A) (s' : S) (b' : A) : ℝ := if off then rowMax (Q s') else Q s' b'

omit [Fintype S] in
theorem rq_Qt (n : ℕ) : SetsOnly (rqAfter γ off t α β b n).Qt (rqAfter γ off t α β b (n + 1)).Qt (t n).state (t n).action
    ((rqAfter γ off t α β b n).Qt (t n).state (t n).action + β n * ((if (t n).absorbing then (rqAfter γ off t α β b n).Qt (t n).state (t n).action
      else rqNext off (rqAfter γ off t α β b n).Q (t n).next (b n)) - (rqAfter γ off t α β b n).Qt (t n).state (t n).action)) := by
  simp only [rqAfter, rqLearning, rqNext]
  cases (t n).absorbing
  · exact set_setsOnly _ _ _ _
  · exact ⟨by simp, fun _ _ _ => rfl⟩

end history

omit [Fintype S] in
/-- C161. With equal learning rates (`delta=1`), RQ-learning is Q-learning, if the transitions of each pair all end the episode or all do not. -/
theorem C161_q_learning (γ : ℝ) (t : ℕ → Trans S A) (α : ℕ → ℝ) (b : ℕ → A)
    (hend : ∀ i j, (t i).state = (t j).state → (t i).action = (t j).action → (t i).absorbing = (t j).absorbing) (n : ℕ) :
    (rqAfter γ true t α α b n).Q = tables (fun k Q => qLearning γ (α k) Q (t k)) (fun _ _ => 0) n := by
  have hzero : ∀ i, (t i).absorbing = true → ∀ n, (rqAfter γ true t α α b n).Qt (t i).state (t i).action = 0 := by
    intro i hi n
    induction n with
    | zero => rfl
    | succ n ih =>
      obtain ⟨h1, h2⟩ := rq_Qt (γ := γ) (off := true) (t := t) (α := α) (β := α) (b := b) n
      by_cases hv : (t i).state = (t n).state ∧ (t i).action = (t n).action
      · rw [hv.1, hv.2] at ih ⊢
        rw [h1, ← hend i n hv.1 hv.2, hi, if_pos rfl, sub_self, mul_zero, add_zero]
        exact ih
      · exact (h2 _ _ hv).trans ih
  induction n with
  | zero => rfl
  | succ n ih =>
    obtain ⟨r1, r2⟩ := rq_Rt (γ := γ) (off := true) (t := t) (α := α) (β := α) (b := b) n
    obtain ⟨q1, q2⟩ := rq_Qt (γ := γ) (off := true) (t := t) (α := α) (β := α) (b := b) n
    funext s a
    rw [rq_Q]
    simp only [tables, ← ih]
    by_cases hv : s = (t n).state ∧ a = (t n).action
    · obtain ⟨rfl, rfl⟩ := hv
      have e := rq_Q (γ := γ) (off := true) (t := t) (α := α) (β := α) (b := b) n (t n).state (t n).action
      rw [r1, q1]
      simp only [qLearning, Table.set, and_self, if_true, rqNext]
      cases hab : (t n).absorbing
      · simp only [Bool.false_eq_true, if_false, Bool.not_false, if_true]
        rw [e]; ring
      · have h0 := hzero n hab n
        simp only [if_true, Bool.not_true, Bool.false_eq_true, if_false]
        rw [e, h0]; ring
    · rw [r2 s a hv, q2 s a hv, ← rq_Q]
      simp only [qLearning, Table.set, if_neg hv]

example : (rqAfter (1 / 2) true (fun n => ringTrans n (fun _ => true)) (fun _ => 1 / 2) (fun _ => 1 / 2) (fun _ => ()) 7).Q =
    tables (fun k Q => qLearning (1 / 2) (1 / 2) Q (ringTrans k (fun _ => true))) (fun _ _ => 0) 7 :=
  C161_q_learning (1 / 2) (fun n => ringTrans n (fun _ => true)) (fun _ => 1 / 2) (fun _ => ()) (fun _ _ _ _ => rfl) 7

/-! ### Convergence -/

/-- The estimates of the rewards. -/
theorem rq_rewards (m : RandomMDP S A) (hm : m.Proper) (L : S → Prop) (γ : ℝ) (off : Bool) (t : ℕ → Ω → Trans S A) (ht : Experience μ ℱ m L t)
    (α β : ℕ → Ω → ℝ) (hα : RobbinsMonro μ ℱ L t α) (b : ℕ → Ω → A) :
    ∀ᵐ ω ∂μ, ∀ s, L s → ∀ a, Tendsto (fun n => (rqAfter γ off (t · ω) (α · ω) (β · ω) (b · ω) n).Rt s a) atTop (𝓝 (m.meanReward s a)) := by
  refine learning_perturbed (ℱ := ℱ) (x := fun n ω => (rqAfter γ off (t · ω) (α · ω) (β · ω) (b · ω) n).Rt) (o := fun n ω => (t n ω).next)
    (p := fun _ _ => m.prob) (G := fun _ _ => m.reward) (γ := 0) (B := reach m 0 (0 : Table S A)) (Q0 := 0) le_rfl one_pos ht.past ht.known ht.law
    (fun _ _ => hm.1) (fun _ _ => hm.2) (fun _ _ _ _ _ => measurable_const) (fun _ _ _ _ _ => measurable_const) hα (bounded_reach one_pos)
    (fun n ω _ s a y => ?_) (fun ω => rfl) (fun n ω => ?_) (Eventually.of_forall fun ω ε hε => Eventually.of_forall fun n D hD _ s _ a => ?_)
  · have := target_reach (m := m) (γ := 0) (Q0 := 0) le_rfl one_pos (x := 0) (by rw [abs_zero]; exact reach_nonneg one_pos _) s a y
    simpa using this
  · have := rq_Rt (γ := γ) (off := off) (t := (t · ω)) (α := (α · ω)) (β := (β · ω)) (b := (b · ω)) n
    rw [ht.reward] at this
    exact this
  · simp only [RandomMDP.meanReward, sub_self, abs_zero]
    linarith

omit [IsProbabilityMeasure μ] in
/-- They stay in the range of the rewards and depend on the past only. -/
theorem rq_rewards_bound {m : RandomMDP S A} {L : S → Prop} {γ : ℝ} {off : Bool} {t : ℕ → Ω → Trans S A} (ht : Experience μ ℱ m L t)
    {α β : ℕ → Ω → ℝ} (hα : RobbinsMonro μ ℱ L t α) {b : ℕ → Ω → A} (n : ℕ) (ω : Ω) :
    Bounded (∑ s, ∑ a, ∑ s', |m.reward s a s'|) (rqAfter γ off (t · ω) (α · ω) (β · ω) (b · ω) n).Rt := by
  have hR : ∀ s a s', |m.reward s a s'| ≤ ∑ s, ∑ a, ∑ s', |m.reward s a s'| := fun s a s' =>
    calc _ ≤ ∑ s', |m.reward s a s'| := Finset.single_le_sum (f := fun s' => |m.reward s a s'|) (fun _ _ => abs_nonneg _) (Finset.mem_univ s')
      _ ≤ ∑ a, ∑ s', |m.reward s a s'| := Finset.single_le_sum (f := fun a => ∑ s', |m.reward s a s'|)
          (fun _ _ => Finset.sum_nonneg (fun _ _ => abs_nonneg _)) (Finset.mem_univ a)
      _ ≤ _ := Finset.single_le_sum (f := fun s => ∑ a, ∑ s', |m.reward s a s'|)
          (fun _ _ => Finset.sum_nonneg (fun _ _ => Finset.sum_nonneg (fun _ _ => abs_nonneg _))) (Finset.mem_univ s)
  induction n with
  | zero =>
    intro s a
    simp only [rqAfter, abs_zero]
    exact (abs_nonneg _).trans (hR s a s)
  | succ n ih =>
    intro s a
    obtain ⟨h1, h2⟩ := rq_Rt (γ := γ) (off := off) (t := (t · ω)) (α := (α · ω)) (β := (β · ω)) (b := (b · ω)) n
    by_cases hv : s = (t n ω).state ∧ a = (t n ω).action
    · obtain ⟨rfl, rfl⟩ := hv
      rw [h1]
      have h3 := ih (t n ω).state (t n ω).action
      have h4 := hR (t n ω).state (t n ω).action (t n ω).next
      rw [← ht.reward] at h4
      obtain ⟨a0, a1⟩ := hα.range n ω
      rw [abs_le] at h3 h4 ⊢
      constructor <;> nlinarith
    · rw [h2 s a hv]
      exact ih s a

omit [IsProbabilityMeasure μ] in
theorem rq_rewards_known {m : RandomMDP S A} {L : S → Prop} {γ : ℝ} {off : Bool} {t : ℕ → Ω → Trans S A} (ht : Experience μ ℱ m L t)
    {α β : ℕ → Ω → ℝ} (hα : RobbinsMonro μ ℱ L t α) {b : ℕ → Ω → A} (n : ℕ) (s : S) (a : A) :
    Measurable[ℱ n] (fun ω => (rqAfter γ off (t · ω) (α · ω) (β · ω) (b · ω) n).Rt s a) := by
  induction n with
  | zero => exact measurable_const
  | succ n ih =>
    have hle : ℱ n ≤ ℱ (n + 1) := ℱ.mono (Nat.le_succ n)
    have e : (fun ω => (rqAfter γ off (t · ω) (α · ω) (β · ω) (b · ω) (n + 1)).Rt s a) = fun ω =>
        (rqAfter γ off (t · ω) (α · ω) (β · ω) (b · ω) n).Rt s a + ratesOf s a (t · ω) (α · ω) n *
          ((∑ s', (if (t n ω).next = s' then (1 : ℝ) else 0) * m.reward s a s') - (rqAfter γ off (t · ω) (α · ω) (β · ω) (b · ω) n).Rt s a) := by
      funext ω
      obtain ⟨h1, h2⟩ := rq_Rt (γ := γ) (off := off) (t := (t · ω)) (α := (α · ω)) (β := (β · ω)) (b := (b · ω)) n
      by_cases hv : (t n ω).state = s ∧ (t n ω).action = a
      · obtain ⟨rfl, rfl⟩ := hv
        rw [h1, ht.reward]
        simp [ratesOf]
      · rw [h2 s a fun h => hv ⟨h.1.symm, h.2.symm⟩]
        simp [ratesOf, hv]
    rw [e]
    have hr : Measurable[ℱ n] (fun ω => ratesOf s a (t · ω) (α · ω) n) := Measurable.ite (ht.past n s a) (hα.known n) measurable_const
    refine (ih.mono hle le_rfl).add ((hr.mono hle le_rfl).mul (Measurable.sub ?_ (ih.mono hle le_rfl)))
    exact @Finset.measurable_fun_sum _ _ _ _ _ _ (ℱ (n + 1)) _ Finset.univ fun s' _ =>
      (Measurable.ite (ht.known n s') measurable_const measurable_const).mul measurable_const

theorem positive_floor {I : Type} [Fintype I] (q : I → ℝ) (h0 : ∀ i, 0 ≤ q i) : ∃ c, 0 < c ∧ c ≤ 1 ∧ ∀ i, q i ≠ 0 → c ≤ q i := by
  classical
  by_cases hI : Nonempty I
  · obtain ⟨i, -, hi⟩ := Finset.exists_min_image Finset.univ (fun i => if q i = 0 then 1 else q i) ⟨Classical.arbitrary I, Finset.mem_univ _⟩
    have hp : 0 < (if q i = 0 then 1 else q i) := by
      split
      · exact one_pos
      · rename_i h; exact lt_of_le_of_ne (h0 i) (Ne.symm h)
    refine ⟨min 1 (if q i = 0 then 1 else q i), lt_min one_pos hp, min_le_left _ _, fun j hj => (min_le_right _ _).trans ?_⟩
    have := hi j (Finset.mem_univ j)
    simpa only [hj, if_false] using this
  · exact ⟨1, one_pos, le_rfl, fun i => absurd ⟨i⟩ hI⟩

/-- The common part of the two settings: `o` is what is random in an update, and `val Q (o n)` the value of the next state. -/
theorem rq_converges {Y : Type} [Fintype Y] [DecidableEq Y] (m : RandomMDP S A) (hm : m.Proper) (L : S → Prop) (γ : ℝ)
    (hγ0 : 0 ≤ γ) (hγ1 : γ < 1) (off : Bool) (t : ℕ → Ω → Trans S A) (ht : Experience μ ℱ m L t) (α β : ℕ → Ω → ℝ) (hα : RobbinsMonro μ ℱ L t α)
    (hβ : RobbinsMonro μ ℱ L t β) (b : ℕ → Ω → A) {o : ℕ → Ω → Y} {p : S → A → Y → ℝ} {ends : S → A → Y → Bool} {val : Table S A → Y → ℝ}
    (hknown : ∀ n y, MeasurableSet[ℱ (n + 1)] {ω | o n ω = y})
    (hlaw : ∀ n y, μ[Set.indicator {ω | o n ω = y} (fun _ => (1 : ℝ)) | ℱ n] =ᵐ[μ] fun ω => p (t n ω).state (t n ω).action y)
    (hp0 : ∀ s a y, 0 ≤ p s a y) (hp1 : ∀ s a, ∑ y, p s a y = 1)
    (hends : ∀ n ω, ends (t n ω).state (t n ω).action (o n ω) = (t n ω).absorbing)
    (hval : ∀ n ω Q, rqNext off Q (t n ω).next (b n ω) = val Q (o n ω))
    (hgo : ∀ s a, ∑ y, (if ends s a y then 0 else p s a y) = m.goesOn s a)
    (hvm : ∀ y, Measurable (fun v : S × A → ℝ => val (fun s a => v (s, a)) y)) (hvB : ∀ B Q, Bounded B Q → ∀ y, |val Q y| ≤ B)
    (Qs : Table S A)
    (hvc : ∀ Q D, (∀ s, L s → ∀ a, |Q s a - Qs s a| ≤ D) → ∀ s, L s → ∀ a y, 0 < p s a y → ends s a y = false → |val Q y - val Qs y| ≤ D)
    (hQs : ∀ s, L s → ∀ a, Qs s a = m.meanReward s a + γ * if m.goesOn s a = 0 then 0 else
      (∑ y, (if ends s a y then 0 else p s a y) * val Qs y) / m.goesOn s a) :
    ∀ᵐ ω ∂μ, ∀ s, L s → ∀ a, Tendsto (fun n => (rqAfter γ off (t · ω) (α · ω) (β · ω) (b · ω) n).Q s a) atTop (𝓝 (Qs s a)) := by
  set g : ℕ → Ω → RQ S A := fun n ω => rqAfter γ off (t · ω) (α · ω) (β · ω) (b · ω) n with hg
  set Qts : Table S A := fun s a => if m.goesOn s a = 0 then 0 else (∑ y, (if ends s a y then 0 else p s a y) * val Qs y) / m.goesOn s a with hQts
  set R : ℝ := ∑ s, ∑ a, ∑ s', |m.reward s a s'| with hR
  have hq0 : ∀ s a, 0 ≤ m.goesOn s a := fun s a => Finset.sum_nonneg fun s' _ => by
    split
    · exact le_rfl
    · exact hm.1 s a s'
  have hq1 : ∀ s a, m.goesOn s a ≤ 1 := fun s a => by
    rw [← hm.2 s a]
    refine Finset.sum_le_sum fun s' _ => ?_
    split
    · exact hm.1 s a s'
    · exact le_rfl
  obtain ⟨c, hc0, hc1, hc⟩ := positive_floor (fun j : S × A => m.goesOn j.1 j.2) fun j => hq0 _ _
  set B : ℝ := reach m γ (0 : Table S A) with hB
  have hBR : R + γ * B = B := by
    have h1 : (1 - γ) ≠ 0 := by linarith
    simp only [hB, reach, ← hR, Pi.zero_apply, abs_zero, Finset.sum_const_zero, zero_add]
    field_simp
    ring
  have hB0 : 0 ≤ B := reach_nonneg hγ1 _
  have hrew := rq_rewards m hm L γ off t ht α β hα b
  have hQB : ∀ n ω, Bounded B (g n ω).Qt → Bounded B (g n ω).Q := by
    intro n ω h s a
    have h1 := rq_Q (γ := γ) (off := off) (t := (t · ω)) (α := (α · ω)) (β := (β · ω)) (b := (b · ω)) n s a
    have h2 := rq_rewards_bound (γ := γ) (off := off) (β := β) (b := b) ht hα n ω s a
    simp only [hg]
    rw [h1]
    refine (abs_add_le _ _).trans ?_
    rw [abs_mul, abs_of_nonneg hγ0]
    have h3 := mul_le_mul_of_nonneg_left (h s a) hγ0
    rw [← hBR]
    exact add_le_add h2 h3
  have key : ∀ᵐ ω ∂μ, ∀ s, L s → ∀ a, Tendsto (fun n => (g n ω).Qt s a) atTop (𝓝 (Qts s a)) := by
    refine learning_perturbed (ℱ := ℱ) (x := fun n ω => (g n ω).Qt) (o := o) (p := fun _ _ => p)
      (G := fun n ω s a y => if ends s a y then (g n ω).Qt s a else val (g n ω).Q y) (γ := 1 - c * (1 - γ)) (B := B) (Q0 := 0)
      (by nlinarith) (by nlinarith) ht.past hknown hlaw (fun _ _ => hp0) (fun _ _ => hp1) (fun _ _ _ _ _ => measurable_const)
      (fun n hx s a y => ?_) hβ (bounded_reach hγ1) (fun n ω h s a y => ?_) (fun ω => rfl) (fun n ω => ?_) ?_
    · split
      · exact hx s a
      · have hQm : Measurable[ℱ n] fun ω => fun j : S × A => (g n ω).Q j.1 j.2 := by
          refine (@measurable_pi_iff Ω (S × A) _ (ℱ n) _ _).2 fun j => ?_
          have e : (fun ω => (g n ω).Q j.1 j.2) = fun ω => (g n ω).Rt j.1 j.2 + γ * (g n ω).Qt j.1 j.2 := by
            funext ω; exact rq_Q n j.1 j.2
          rw [e]
          exact (rq_rewards_known ht hα n j.1 j.2).add (measurable_const.mul (hx j.1 j.2))
        exact (hvm y).comp hQm
    · split
      · exact h s a
      · exact hvB B _ (hQB n ω h) y
    · have := rq_Qt (γ := γ) (off := off) (t := (t · ω)) (α := (α · ω)) (β := (β · ω)) (b := (b · ω)) n
      rw [hval, ← hends] at this
      exact this
    · filter_upwards [hrew, experience_possible hm ht] with ω hRt hpos ε hε
      have hzero : ∀ s a, m.goesOn s a = 0 → ∀ n, (g n ω).Qt s a = 0 := by
        intro s a h0 n
        induction n with
        | zero => rfl
        | succ n ih =>
          obtain ⟨h1, h2⟩ := rq_Qt (γ := γ) (off := off) (t := (t · ω)) (α := (α · ω)) (β := (β · ω)) (b := (b · ω)) n
          by_cases hv : s = (t n ω).state ∧ a = (t n ω).action
          · obtain ⟨rfl, rfl⟩ := hv
            have hab : (t n ω).absorbing = true := by
              by_contra hab
              have h3 := (Finset.sum_eq_zero_iff_of_nonneg (fun s' _ => by
                split
                · exact le_rfl
                · exact hm.1 _ _ s')).1 h0 (t n ω).next (Finset.mem_univ _)
              rw [← ht.absorbing, if_neg hab] at h3
              exact absurd h3 (hpos n).ne'
            have h1' : (g (n + 1) ω).Qt (t n ω).state (t n ω).action = _ := h1
            rw [h1', hab, if_pos rfl, sub_self, mul_zero, add_zero]
            exact ih
          · exact (h2 s a hv).trans ih
      have hRs : ∀ᶠ n in atTop, ∀ s, L s → ∀ a, |(g n ω).Rt s a - m.meanReward s a| ≤ ε := by
        rw [eventually_all]; intro s
        by_cases hs : L s
        · rw [eventually_imp_distrib_left]
          intro _
          rw [eventually_all]; intro a
          have h1 := (tendsto_iff_norm_sub_tendsto_zero.1 (hRt s hs a)).eventually (gt_mem_nhds hε)
          exact h1.mono fun n h => le_of_lt h
        · exact Eventually.of_forall fun n h => absurd h hs
      filter_upwards [hRs] with n hn D hD hx s hs a
      have hQ : ∀ s, L s → ∀ a, |(g n ω).Q s a - Qs s a| ≤ ε + γ * D := by
        intro s hs a
        have h1 : (g n ω).Q s a = (g n ω).Rt s a + γ * (g n ω).Qt s a := rq_Q n s a
        have h2 : Qs s a = m.meanReward s a + γ * Qts s a := hQs s hs a
        have e : (g n ω).Q s a - Qs s a = ((g n ω).Rt s a - m.meanReward s a) + γ * ((g n ω).Qt s a - Qts s a) := by rw [h1, h2]; ring
        rw [e]
        refine (abs_add_le _ _).trans ?_
        rw [abs_mul, abs_of_nonneg hγ0]
        exact add_le_add (hn s hs a) (mul_le_mul_of_nonneg_left (hx s hs a) hγ0)
      set q := m.goesOn s a with hq
      have hmean : ∑ y, p s a y * (if ends s a y then (g n ω).Qt s a else val (g n ω).Q y) =
          (1 - q) * (g n ω).Qt s a + ∑ y, (if ends s a y then 0 else p s a y) * val (g n ω).Q y := by
        rw [hq, ← hgo, ← hp1 s a, ← Finset.sum_sub_distrib, Finset.sum_mul, ← Finset.sum_add_distrib]
        refine Finset.sum_congr rfl fun y _ => ?_
        split <;> ring
      rw [hmean]
      by_cases h0 : q = 0
      · have hz : ∀ y, (if ends s a y then 0 else p s a y) = 0 := fun y =>
          (Finset.sum_eq_zero_iff_of_nonneg (fun y _ => by
            split
            · exact le_rfl
            · exact hp0 s a y)).1 ((hgo s a).trans h0) y (Finset.mem_univ y)
        have e1 : Qts s a = 0 := if_pos h0
        simp only [hz, zero_mul, Finset.sum_const_zero, e1, h0, hzero s a h0 n]
        simp only [mul_zero, add_zero, sub_zero, abs_zero]
        have : 0 ≤ (1 - c * (1 - γ)) * D := mul_nonneg (by nlinarith) hD
        linarith
      · have e1 : q * Qts s a = ∑ y, (if ends s a y then 0 else p s a y) * val Qs y := by
          simp only [hQts, ← hq, if_neg h0]
          field_simp
        have e2 : (1 - q) * (g n ω).Qt s a + ∑ y, (if ends s a y then 0 else p s a y) * val (g n ω).Q y - Qts s a =
            (1 - q) * ((g n ω).Qt s a - Qts s a) + ∑ y, (if ends s a y then 0 else p s a y) * (val (g n ω).Q y - val Qs y) := by
          simp only [mul_sub, Finset.sum_sub_distrib]
          rw [← e1]; ring
        rw [e2]
        have h1q : 0 ≤ 1 - q := by linarith [hq1 s a]
        have h3 : |∑ y, (if ends s a y then 0 else p s a y) * (val (g n ω).Q y - val Qs y)| ≤ q * (ε + γ * D) := by
          refine (Finset.abs_sum_le_sum_abs _ _).trans ?_
          rw [hq, ← hgo, Finset.sum_mul]
          refine Finset.sum_le_sum fun y _ => ?_
          cases hy : ends s a y
          · simp only [Bool.false_eq_true, if_false]
            rw [abs_mul, abs_of_nonneg (hp0 s a y)]
            rcases (hp0 s a y).eq_or_lt with h | h
            · rw [← h]; simp
            · exact mul_le_mul_of_nonneg_left (hvc _ _ hQ s hs a y h hy) h.le
          · simp
        refine (abs_add_le _ _).trans ?_
        rw [abs_mul, abs_of_nonneg h1q]
        have h4 := mul_le_mul_of_nonneg_left (hx s hs a) h1q
        have h5 : c ≤ q := hc (s, a) h0
        have h6 : (1 - q) * D + q * (ε + γ * D) ≤ (1 - c * (1 - γ)) * D + ε := by
          have h7 : 0 ≤ (q - c) * ((1 - γ) * D) := mul_nonneg (by linarith) (mul_nonneg (by linarith) hD)
          have h8 : q * ε ≤ ε := mul_le_of_le_one_left hε.le (hq1 s a)
          nlinarith
        linarith
  filter_upwards [key, hrew] with ω h1 h2 s hs a
  have e : Qs s a = m.meanReward s a + γ * Qts s a := hQs s hs a
  rw [e]
  have := (h2 s hs a).add ((h1 s hs a).const_mul γ)
  refine this.congr fun n => ?_
  exact (rq_Q n s a).symm

/-! ### The problem whose values are learned -/

omit [DecidableEq S] [DecidableEq A] [Fintype A] [Nonempty A] in
theorem goesOn_range {m : RandomMDP S A} (hm : m.Proper) (s : S) (a : A) : 0 ≤ m.goesOn s a ∧ m.goesOn s a ≤ 1 := by
  refine ⟨Finset.sum_nonneg fun s' _ => ?_, ?_⟩
  · split
    · exact le_rfl
    · exact hm.1 s a s'
  · rw [← hm.2 s a]
    refine Finset.sum_le_sum fun s' _ => ?_
    split
    · exact hm.1 s a s'
    · exact le_rfl

omit [DecidableEq S] [DecidableEq A] [Fintype A] [Nonempty A] in
theorem goesOn_zero {m : RandomMDP S A} (hm : m.Proper) {s : S} {a : A} (h : m.goesOn s a = 0) (s' : S) : (if m.absorbing s a s' then 0 else m.prob s a s') = 0 :=
  (Finset.sum_eq_zero_iff_of_nonneg (fun s' _ => by
    split
    · exact le_rfl
    · exact hm.1 s a s')).1 h s' (Finset.mem_univ s')

omit [DecidableEq S] [DecidableEq A] [Fintype A] [Nonempty A] in
theorem unended_proper {m : RandomMDP S A} (hm : m.Proper) : m.unended.Proper := by
  refine ⟨fun s a s' => ?_, fun s a => ?_⟩
  · simp only [RandomMDP.unended]
    split
    · exact hm.1 s a s'
    · split
      · exact le_rfl
      · exact div_nonneg (hm.1 s a s') (goesOn_range hm s a).1
  · simp only [RandomMDP.unended]
    by_cases h : m.goesOn s a = 0
    · simp only [if_pos h, hm.2]
    · simp only [if_neg h]
      have e : ∀ s', (if m.absorbing s a s' then 0 else m.prob s a s' / m.goesOn s a) = (if m.absorbing s a s' then 0 else m.prob s a s') / m.goesOn s a :=
        fun s' => by split <;> simp
      simp only [e]
      rw [← Finset.sum_div]
      exact div_self h

omit [DecidableEq S] [DecidableEq A] [Fintype A] [Nonempty A] in
theorem unended_value {m : RandomMDP S A} (hm : m.Proper) (γ : ℝ) (s : S) (a : A) (V : S → ℝ) :
    ∑ s', m.unended.prob s a s' * (m.unended.reward s a s' + γ * (if m.unended.absorbing s a s' then 0 else V s')) =
      m.meanReward s a + γ * if m.goesOn s a = 0 then 0 else (∑ s', (if m.absorbing s a s' then 0 else m.prob s a s') * V s') / m.goesOn s a := by
  have h1 := (unended_proper hm).2 s a
  have e : ∑ s', m.unended.prob s a s' * (m.unended.reward s a s' + γ * (if m.unended.absorbing s a s' then 0 else V s')) =
      m.meanReward s a + γ * ∑ s', m.unended.prob s a s' * (if m.absorbing s a s' then 0 else V s') := by
    rw [Finset.mul_sum]
    calc _ = ∑ s', (m.unended.prob s a s' * m.meanReward s a + γ * (m.unended.prob s a s' * (if m.absorbing s a s' then 0 else V s'))) :=
          Finset.sum_congr rfl fun s' _ => by
            show m.unended.prob s a s' * (m.meanReward s a + γ * (if m.absorbing s a s' then 0 else V s')) = _
            ring
      _ = _ := by rw [Finset.sum_add_distrib, ← Finset.sum_mul, h1, one_mul]
  rw [e]
  congr 2
  by_cases h : m.goesOn s a = 0
  · rw [if_pos h]
    refine Finset.sum_eq_zero fun s' _ => ?_
    have := goesOn_zero hm h s'
    simp only [RandomMDP.unended, if_pos h]
    split
    · simp
    · rename_i hab
      rw [if_neg hab] at this
      rw [this, zero_mul]
  · rw [if_neg h, Finset.sum_div]
    refine Finset.sum_congr rfl fun s' _ => ?_
    simp only [RandomMDP.unended, if_neg h]
    split <;> ring

omit [DecidableEq S] [DecidableEq A] [Fintype A] [Nonempty A] in
/-- If no pair ends the episode by chance, the problem has the same values. -/
theorem ends_surely_value {m : RandomMDP S A} (hm : m.Proper) (hend : m.EndsSurely) (γ : ℝ) (s : S) (a : A) (V : S → ℝ) :
    ∑ s', m.prob s a s' * (m.reward s a s' + γ * (if m.absorbing s a s' then 0 else V s')) =
      ∑ s', m.unended.prob s a s' * (m.unended.reward s a s' + γ * (if m.unended.absorbing s a s' then 0 else V s')) := by
  rw [unended_value hm]
  have e : ∑ s', m.prob s a s' * (m.reward s a s' + γ * (if m.absorbing s a s' then 0 else V s')) =
      m.meanReward s a + γ * ∑ s', (if m.absorbing s a s' then 0 else m.prob s a s') * V s' := by
    rw [Finset.mul_sum, RandomMDP.meanReward, ← Finset.sum_add_distrib]
    refine Finset.sum_congr rfl fun s' _ => ?_
    split <;> ring
  rw [e]
  congr 2
  by_cases h : m.goesOn s a = 0
  · rw [if_pos h]
    exact Finset.sum_eq_zero fun s' _ => by rw [goesOn_zero hm h, zero_mul]
  · rw [if_neg h]
    have h1 : m.goesOn s a = 1 := by
      rcases hend s a with h' | h'
      · refine absurd (Finset.sum_eq_zero fun s' _ => ?_) h
        rcases (hm.1 s a s').eq_or_lt with h0 | h0
        · rw [← h0]; simp
        · rw [h' s' h0]; simp
      · rw [← hm.2 s a]
        refine Finset.sum_congr rfl fun s' _ => ?_
        rcases (hm.1 s a s').eq_or_lt with h0 | h0
        · rw [← h0]; simp
        · rw [h' s' h0]; simp
    rw [h1, div_one]

/-! ### The theorems -/

/-- C161. RQ-learning with `off_policy`: with probability one its table converges to the optimal values of the problem in which episodes are not
ended by chance, whatever the exploration is and with two different learning rates. -/
theorem C161_limit (m : RandomMDP S A) (hm : m.Proper) (L : S → Prop) (hcl : m.Closed L) (γ : ℝ) (hγ0 : 0 ≤ γ) (hγ1 : γ < 1)
    (Qs : Table S A) (hQs : m.unended.OptimalOn L γ Qs) (t : ℕ → Ω → Trans S A) (ht : Experience μ ℱ m L t) (α β : ℕ → Ω → ℝ)
    (hα : RobbinsMonro μ ℱ L t α) (hβ : RobbinsMonro μ ℱ L t β) (b : ℕ → Ω → A) :
    ∀ᵐ ω ∂μ, ∀ s, L s → ∀ a, Tendsto (fun n => (rqAfter γ true (t · ω) (α · ω) (β · ω) (b · ω) n).Q s a) atTop (𝓝 (Qs s a)) := by
  obtain ⟨V, hV⟩ := hQs
  have hVs : ∀ s, L s → V s = rowMax (Qs s) := fun s hs => isMax_unique (hV s hs).1 (rowMax_isMax _)
  refine rq_converges m hm L γ hγ0 hγ1 true t ht α β hα hβ b (o := fun n ω => (t n ω).next) (p := m.prob) (ends := m.absorbing)
    (val := fun Q s' => rowMax (Q s')) ht.known ht.law hm.1 hm.2 (fun n ω => (ht.absorbing n ω).symm) (fun n ω Q => rfl) (fun _ _ => rfl)
    rowMax_measurable (fun B Q hQ s' => rowMax_bound (hQ s')) Qs (fun Q D h s hs a s' hp hab => ?_) (fun s hs a => ?_)
  · exact isMax_close (h s' (hcl s a s' hs hp hab)) (rowMax_isMax _) (rowMax_isMax _)
  · rw [(hV s hs).2 a, unended_value hm]
    congr 3
    congr 1
    refine Finset.sum_congr rfl fun s' _ => ?_
    cases hab : m.absorbing s a s'
    · rcases (hm.1 s a s').eq_or_lt with h0 | h0
      · rw [← h0]; simp
      · rw [hVs s' (hcl s a s' hs h0 hab)]
    · simp

/-- C161. So it converges to the optimal values if no pair ends the episode by chance. -/
theorem C161_converges_partial (m : RandomMDP S A) (hm : m.Proper) (L : S → Prop) (hcl : m.Closed L) (hend : m.EndsSurely) (γ : ℝ) (hγ0 : 0 ≤ γ)
    (hγ1 : γ < 1) (Qs : Table S A) (hQs : m.OptimalOn L γ Qs) (t : ℕ → Ω → Trans S A) (ht : Experience μ ℱ m L t) (α β : ℕ → Ω → ℝ)
    (hα : RobbinsMonro μ ℱ L t α) (hβ : RobbinsMonro μ ℱ L t β) (b : ℕ → Ω → A) :
    ∀ᵐ ω ∂μ, ∀ s, L s → ∀ a, Tendsto (fun n => (rqAfter γ true (t · ω) (α · ω) (β · ω) (b · ω) n).Q s a) atTop (𝓝 (Qs s a)) := by
  refine C161_limit m hm L hcl γ hγ0 hγ1 Qs ?_ t ht α β hα hβ b
  obtain ⟨V, hV⟩ := hQs
  exact ⟨V, fun s hs => ⟨(hV s hs).1, fun a => by rw [(hV s hs).2 a, ends_surely_value hm hend]⟩⟩

/-- C161. RQ-learning without `off_policy` and with a fixed policy: with probability one its table converges to the values of the policy in the
problem in which episodes are not ended by chance. -/
theorem C161_policy_limit (m : RandomMDP S A) (hm : m.Proper) (L : S → Prop) (hcl : m.Closed L) (γ : ℝ) (hγ0 : 0 ≤ γ) (hγ1 : γ < 1)
    (policy : S → A → ℝ) (hπ : ∀ s, Prob (policy s)) (Qs : Table S A) (hQs : m.unended.ValuesOn L γ policy Qs) (t : ℕ → Ω → Trans S A)
    (ht : Experience μ ℱ m L t) (b : ℕ → Ω → A) (hb : OnPolicy μ ℱ m policy t b) (α β : ℕ → Ω → ℝ)
    (hα : RobbinsMonro μ ℱ L t α) (hβ : RobbinsMonro μ ℱ L t β) :
    ∀ᵐ ω ∂μ, ∀ s, L s → ∀ a, Tendsto (fun n => (rqAfter γ false (t · ω) (α · ω) (β · ω) (b · ω) n).Q s a) atTop (𝓝 (Qs s a)) := by
  refine rq_converges m hm L γ hγ0 hγ1 false t ht α β hα hβ b (o := fun n ω => ((t n ω).next, b n ω))
    (p := fun s a y => m.prob s a y.1 * policy y.1 y.2) (ends := fun s a y => m.absorbing s a y.1)
    (val := fun Q y => Q y.1 y.2) (fun n y => ?_) (fun n y => ?_) (fun s a y => mul_nonneg (hm.1 _ _ _) ((hπ _).1 _)) (fun s a => ?_)
    (fun n ω => (ht.absorbing n ω).symm) (fun n ω Q => rfl) (fun s a => ?_) (fun y => measurable_pi_apply _)
    (fun B Q hQ y => hQ _ _) Qs (fun Q D h s hs a y hp hab => ?_) (fun s hs a => ?_)
  · simpa only [Prod.ext_iff] using hb.known n y.1 y.2
  · simpa only [Prod.ext_iff] using hb.law n y.1 y.2
  · rw [Fintype.sum_prod_type]
    simp only [← Finset.mul_sum, (hπ _).2, mul_one, hm.2]
  · rw [Fintype.sum_prod_type, RandomMDP.goesOn]
    refine Finset.sum_congr rfl fun s' _ => ?_
    split
    · simp
    · simp only [← Finset.mul_sum, (hπ _).2, mul_one]
  · have h0 : 0 < m.prob s a y.1 := lt_of_le_of_ne (hm.1 _ _ _) fun h => by simp only [← h, zero_mul, lt_irrefl] at hp
    exact h y.1 (hcl s a y.1 hs h0 hab) y.2
  · rw [hQs s hs a, unended_value hm]
    congr 3
    congr 1
    rw [Fintype.sum_prod_type]
    refine Finset.sum_congr rfl fun s' _ => ?_
    rw [Finset.mul_sum]
    refine Finset.sum_congr rfl fun a' _ => ?_
    split <;> ring

/-- C161. So it converges to the values of the policy if no pair ends the episode by chance. -/
theorem C161_policy_partial (m : RandomMDP S A) (hm : m.Proper) (L : S → Prop) (hcl : m.Closed L) (hend : m.EndsSurely) (γ : ℝ) (hγ0 : 0 ≤ γ)
    (hγ1 : γ < 1) (policy : S → A → ℝ) (hπ : ∀ s, Prob (policy s)) (Qs : Table S A) (hQs : m.ValuesOn L γ policy Qs) (t : ℕ → Ω → Trans S A)
    (ht : Experience μ ℱ m L t) (b : ℕ → Ω → A) (hb : OnPolicy μ ℱ m policy t b) (α β : ℕ → Ω → ℝ)
    (hα : RobbinsMonro μ ℱ L t α) (hβ : RobbinsMonro μ ℱ L t β) :
    ∀ᵐ ω ∂μ, ∀ s, L s → ∀ a, Tendsto (fun n => (rqAfter γ false (t · ω) (α · ω) (β · ω) (b · ω) n).Q s a) atTop (𝓝 (Qs s a)) := by
  refine C161_policy_limit m hm L hcl γ hγ0 hγ1 policy hπ Qs (fun s hs a => ?_) t ht b hb α β hα hβ
  rw [hQs s hs a, ends_surely_value hm hend]

/-! ### An example of each kind -/

/-- Meets the hypotheses of the theorems about a policy: the problem of the coin, with the policy of the example of SARSA. -/
theorem coin_onPolicy : OnPolicy coins tossed coinMDP coinPolicy coinTrans (fun n ω => ω n) := by
  have e : ∀ n s' a', {ω : ℕ → Bool | (coinTrans n ω).next = s' ∧ ω n = a'} = if a' = s' then {ω | (coinTrans n ω).next = s'} else ∅ := by
    intro n s' a'
    ext ω
    by_cases h : a' = s'
    · subst h; simp [coinTrans]
    · rw [if_neg h]
      simp only [coinTrans, Set.mem_ofPred_eq, Set.mem_empty_iff_false, iff_false]
      rintro ⟨h1, h2⟩
      exact h (h2.symm.trans h1)
  refine ⟨fun n s' a' => ?_, fun n s' a' => ?_⟩
  · rw [e]
    split
    · exact coin_experience.known n s'
    · exact @MeasurableSet.empty _ (tossed (n + 1))
  · rw [e]
    by_cases h : a' = s'
    · rw [if_pos h]
      filter_upwards [coin_experience.law n s'] with ω h'
      rw [h', coinPolicy, if_pos h, mul_one]
    · rw [if_neg h, Set.indicator_empty]
      have : (fun ω : ℕ → Bool => coinMDP.prob (coinTrans n ω).state (coinTrans n ω).action s' * coinPolicy s' a') = 0 := by
        funext ω; simp [coinPolicy, h]
      rw [this]
      exact Eventually.of_forall (fun ω => by
        have := condExp_zero (μ := coins) (m := tossed n) (m₀ := (inferInstance : MeasurableSpace (ℕ → Bool))) (E := ℝ)
        exact congrFun this ω)

example : ∃ Qs : Table Bool Bool, ∀ᵐ ω ∂coins, ∀ s, s = false → ∀ a, Tendsto (fun n => (rqAfter (1 / 2) false (coinTrans · ω)
    (fun k => rateAt (Policy.decayParam 1 1 none none false) coinKey (coinTrans · ω) k)
    (fun k => rateAt (Policy.decayParam 1 1 none none false) coinKey (coinTrans · ω) k) (ω ·) n).Q s a) atTop (𝓝 (Qs s a)) := by
  have hp : ∀ s : Bool, Prob (coinPolicy s) := fun s => ⟨fun a => by unfold coinPolicy; split <;> norm_num, by simp [coinPolicy]⟩
  obtain ⟨Qs, hQs⟩ := C145_values_exist coinMDP.unended (unended_proper coinMDP_proper) (fun s => s = false) (1 / 2) (by norm_num) (by norm_num)
    coinPolicy hp
  exact ⟨Qs, C161_policy_limit coinMDP coinMDP_proper _ coinMDP_closed (1 / 2) (by norm_num) (by norm_num) coinPolicy hp Qs hQs coinTrans
    coin_experience (fun n ω => ω n) coin_onPolicy _ _ coin_rates coin_rates⟩

/-- The ring of C160 ends no episode at all. -/
theorem ring_ends : ringMDP.EndsSurely := fun _ _ => Or.inr fun _ _ => rfl

theorem ring_rates : RobbinsMonro coins tossed (fun _ => True) ringTrans
    (fun n ω => rateAt (Policy.decayParam 1 1 none none false) (fun s _ => [s.val]) (ringTrans · ω) n) := by
  refine C145_decay_rates _ ringTrans ring_experience.past (fun s _ => [s.val]) (fun s a s' a' h => ⟨Fin.ext (by simpa using h), rfl⟩) 1 1 (by norm_num)
    (by norm_num) (by norm_num) (by norm_num) (Eventually.of_forall fun ω s _ a n => ⟨3 * n + s.val, by omega, ?_, rfl⟩)
  simp only [ringTrans]
  ext
  simp

theorem ring_proper : ringMDP.Proper := ⟨fun s _ s' => by simp only [ringMDP]; split <;> norm_num, fun s _ => by simp [ringMDP]⟩

example : ∃ Qs, ringMDP.OptimalOn (fun _ => True) (1 / 2) Qs ∧ ∀ᵐ ω ∂coins, ∀ s, True → ∀ a, Tendsto (fun n => (rqAfter (1 / 2) true (ringTrans · ω)
    (rateAt (Policy.decayParam 1 1 none none false) (fun s _ => [s.val]) (ringTrans · ω))
    (rateAt (Policy.decayParam 1 1 none none false) (fun s _ => [s.val]) (ringTrans · ω)) (fun _ => ()) n).Q s a) atTop (𝓝 (Qs s a)) := by
  obtain ⟨Qs, hQs⟩ := C145_optimal_exists ringMDP ring_proper (fun _ => True) (1 / 2) (by norm_num) (by norm_num)
  exact ⟨Qs, hQs, C161_converges_partial ringMDP ring_proper _ (fun _ _ _ _ _ _ => trivial) ring_ends (1 / 2) (by norm_num) (by norm_num) Qs hQs
    ringTrans ring_experience _ _ ring_rates ring_rates fun _ _ => ()⟩

example : ∃ Qs, ringMDP.ValuesOn (fun _ => True) (1 / 2) (fun _ _ => 1) Qs ∧ ∀ᵐ ω ∂coins, ∀ s, True → ∀ a, Tendsto (fun n => (rqAfter (1 / 2) false
    (ringTrans · ω) (rateAt (Policy.decayParam 1 1 none none false) (fun s _ => [s.val]) (ringTrans · ω))
    (rateAt (Policy.decayParam 1 1 none none false) (fun s _ => [s.val]) (ringTrans · ω)) (fun _ => ()) n).Q s a) atTop (𝓝 (Qs s a)) := by
  have hp : ∀ s : Fin 3, Prob ((fun _ _ => 1 : Fin 3 → Unit → ℝ) s) := fun _ => ⟨fun _ => zero_le_one, by simp⟩
  obtain ⟨Qs, hQs⟩ := C145_values_exist ringMDP ring_proper (fun _ => True) (1 / 2) (by norm_num) (by norm_num) _ hp
  refine ⟨Qs, hQs, C161_policy_partial ringMDP ring_proper _ (fun _ _ _ _ _ _ => trivial) ring_ends (1 / 2) (by norm_num) (by norm_num) _ hp Qs hQs
    ringTrans ring_experience (fun _ _ => ()) ⟨fun n s' a' => ?_, fun n s' a' => ?_⟩ _ _ ring_rates ring_rates⟩
  · simpa using ring_experience.known n s'
  · simpa using ring_experience.law n s'

/-! ### A problem in which the wrong action is learned -/

/-- One live state (`false`). The first action is safe: the episode goes on, with reward 9/10. The second one is risky: its reward is 1, and a
coin decides whether the episode ends. -/
def riskMDP : RandomMDP Bool Bool :=
  { prob := fun _ a s' => if a then 1 / 2 else if s' then 0 else 1, reward := fun _ a _ => if a then 1 else 9 / 10, absorbing := fun _ _ s' => s' }

theorem risk_proper : riskMDP.Proper := by
  refine ⟨fun _ a s' => ?_, fun _ a => ?_⟩
  · cases a <;> cases s' <;> norm_num [riskMDP]
  · cases a <;> simp [riskMDP]

theorem risk_closed : riskMDP.Closed (fun s => s = false) := fun _ _ _ _ _ h => h

/-- The optimal values: the safe action is the better one. -/
def riskQ : Table Bool Bool := fun _ a => if a then 29 / 20 else 9 / 5

theorem risk_optimal : riskMDP.OptimalOn (fun s => s = false) (1 / 2) riskQ := by
  refine ⟨fun _ => 9 / 5, fun s _ => ⟨⟨fun a => ?_, false, rfl⟩, fun a => ?_⟩⟩
  · cases a <;> norm_num [riskQ]
  · cases a <;> norm_num [riskMDP, riskQ]

/-- What RQ-learning takes for them. -/
def riskLimit : Table Bool Bool := fun _ a => if a then 2 else 19 / 10

theorem risk_limit : riskMDP.unended.OptimalOn (fun s => s = false) (1 / 2) riskLimit := by
  refine ⟨fun _ => 2, fun s _ => ⟨⟨fun a => ?_, true, rfl⟩, fun a => ?_⟩⟩
  · cases a <;> norm_num [riskLimit]
  · rw [unended_value risk_proper]
    cases a <;> norm_num [riskMDP, riskLimit, RandomMDP.goesOn, RandomMDP.meanReward]

/-- The two actions are tried in turn. -/
def riskTrans (n : ℕ) (ω : ℕ → Bool) : Trans Bool Bool :=
  { state := false, action := n % 2 = 1, reward := if decide (n % 2 = 1) then 1 else 9 / 10, next := decide (n % 2 = 1) && ω n,
    absorbing := decide (n % 2 = 1) && ω n }

theorem risk_experience : Experience coins tossed riskMDP (fun s => s = false) riskTrans := by
  refine C145_draws riskMDP _ (fun _ a y => a && y) (fun _ a s' => ?_) (fun n ω => ω n) (fun n => toss_in _ _ (Nat.lt_succ_self n)) coins_indep
    (fun n _ a s' => ?_) riskTrans (fun _ _ => rfl) (fun n s a => ?_) (fun _ _ => rfl) (fun n ω => ?_) (fun _ _ => rfl)
  · trivial
  · cases a
    · cases s' <;> simp [riskMDP]
    · simpa [riskMDP] using coins_half n s'
  · simp only [riskTrans]
    exact MeasurableSet.const _
  · rfl

theorem risk_explores (ω : ℕ → Bool) : ExploresForever (fun s => s = false) (riskTrans · ω) := by
  intro s hs a n
  subst hs
  cases a
  · exact ⟨2 * n, by omega, rfl, by simp [riskTrans]⟩
  · exact ⟨2 * n + 1, by omega, rfl, by simp [riskTrans]⟩

theorem risk_rates : RobbinsMonro coins tossed (fun s => s = false) riskTrans
    (fun n ω => rateAt (Policy.decayParam 1 1 none none false) coinKey (riskTrans · ω) n) :=
  C145_decay_rates _ riskTrans risk_experience.past coinKey coinKey_inj 1 1 (by norm_num) (by norm_num) (by norm_num) (by norm_num)
    (Eventually.of_forall risk_explores)

/-- C161. Convergence to the optimal values is false in general: in the problem with the risky action, whatever the exploration is and with all
learning rates that meet the conditions of Robbins and Monro, the tables converge to other values with probability one, and from some update on only the risky
action is greedy, although only the safe one is optimal. -/
theorem C161_converges_refuted : riskMDP.Proper ∧ riskMDP.Closed (fun s => s = false) ∧ riskMDP.OptimalOn (fun s => s = false) (1 / 2) riskQ ∧
    (∀ a, Maximises (riskQ false) a ↔ a = false) ∧
    (∀ (Ω : Type) (mΩ : MeasurableSpace Ω) (μ : Measure Ω) (_ : IsProbabilityMeasure μ) (ℱ : Filtration ℕ mΩ) (t : ℕ → Ω → Trans Bool Bool)
      (α β : ℕ → Ω → ℝ) (b : ℕ → Ω → Bool), Experience μ ℱ riskMDP (fun s => s = false) t → RobbinsMonro μ ℱ (fun s => s = false) t α →
      RobbinsMonro μ ℱ (fun s => s = false) t β →
      ∀ᵐ ω ∂μ, (∀ a, Tendsto (fun n => (rqAfter (1 / 2) true (t · ω) (α · ω) (β · ω) (b · ω) n).Q false a) atTop (𝓝 (if a then 2 else 19 / 10))) ∧
        ∀ᶠ n in atTop, ∀ a, Maximises ((rqAfter (1 / 2) true (t · ω) (α · ω) (β · ω) (b · ω) n).Q false) a ↔ a = true) ∧
    Experience coins tossed riskMDP (fun s => s = false) riskTrans ∧ RobbinsMonro coins tossed (fun s => s = false) riskTrans
      (fun n ω => rateAt (Policy.decayParam 1 1 none none false) coinKey (riskTrans · ω) n) := by
  refine ⟨risk_proper, risk_closed, risk_optimal, fun a => ?_, fun Ω mΩ μ _ ℱ t α β b ht hα hβ => ?_, risk_experience, risk_rates⟩
  · cases a <;> norm_num [Maximises, riskQ]
  · filter_upwards [C161_limit riskMDP risk_proper _ risk_closed (1 / 2) (by norm_num) (by norm_num) riskLimit risk_limit t ht α β hα hβ b] with ω h
    refine ⟨fun a => h false rfl a, ?_⟩
    filter_upwards [(h false rfl false).eventually_lt (h false rfl true) (by norm_num [riskLimit])] with n hn a
    cases a
    · simp only [Maximises, Bool.forall_bool, Bool.false_eq_true, iff_false, not_and, not_le]
      exact fun _ => hn
    · simp only [Maximises, Bool.forall_bool, iff_true]
      exact ⟨hn.le, le_rfl⟩

end

end Verif.TD
