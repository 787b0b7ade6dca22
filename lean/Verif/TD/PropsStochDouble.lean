/-
Property C147: Double Q-learning in random problems converges almost surely.
-/
import Verif.TD.SpecDouble
import Verif.TD.LemmasDouble

namespace Verif.TD

open Filter Topology MeasureTheory

noncomputable section

variable {S A : Type} [DecidableEq S] [DecidableEq A] [Fintype S] [Fintype A] [Nonempty A]
variable {Ω : Type} [mΩ : MeasurableSpace Ω] {μ : Measure Ω} [IsProbabilityMeasure μ] {ℱ : Filtration ℕ mΩ}

omit [DecidableEq A] [Nonempty A] in
theorem mem_best {q : A → ℝ} {a : A} : a ∈ best q ↔ Maximises q a := by simp [best]

omit [DecidableEq A] in
theorem best_nonempty (q : A → ℝ) : (best q).Nonempty := by
  obtain ⟨a, _, ha⟩ := Finset.exists_max_image Finset.univ q Finset.univ_nonempty
  exact ⟨a, mem_best.2 (fun b => ha b (Finset.mem_univ b))⟩

omit [Nonempty A] in
theorem uniform_prob {M : Finset A} (hM : M.Nonempty) : Prob (uniform M) := by
  refine ⟨fun a => by unfold uniform; split <;> positivity, ?_⟩
  have h : (M.card : ℝ) ≠ 0 := by exact_mod_cast hM.card_pos.ne'
  simp only [uniform, Finset.sum_ite_mem, Finset.univ_inter, Finset.sum_const, nsmul_eq_mul]
  field_simp

/-- A mean over the best actions of what lies between two bounds on them. -/
theorem uniform_between {M : Finset A} (hM : M.Nonempty) {f : A → ℝ} {l u : ℝ} (h : ∀ a, a ∈ M → l ≤ f a ∧ f a ≤ u) :
    l ≤ ∑ a, uniform M a * f a ∧ ∑ a, uniform M a * f a ≤ u := by
  obtain ⟨h0, h1⟩ := uniform_prob hM
  have e : ∀ c : ℝ, c = ∑ a, uniform M a * c := fun c => by rw [← Finset.sum_mul, h1, one_mul]
  constructor
  · rw [e l]
    refine Finset.sum_le_sum (fun a _ => ?_)
    by_cases ha : a ∈ M
    · exact mul_le_mul_of_nonneg_left (h a ha).1 (h0 a)
    · simp [uniform, ha]
  · rw [e u]
    refine Finset.sum_le_sum (fun a _ => ?_)
    by_cases ha : a ∈ M
    · exact mul_le_mul_of_nonneg_left (h a ha).2 (h0 a)
    · simp [uniform, ha]

theorem best_value {q : A → ℝ} {a : A} (h : a ∈ best q) : q a = rowMax q :=
  le_antisymm ((rowMax_isMax q).1 a) (by
    obtain ⟨b, hb⟩ := (rowMax_isMax q).2
    rw [← hb]; exact mem_best.1 h b)

/-- The value of a next state: the best action of one table, evaluated with the other. -/
def crossValue (q q' : A → ℝ) : ℝ := ∑ a, uniform (best q) a * q' a

/-- Close tables give close values, in either order. -/
theorem cross_close {q q' : A → ℝ} {D : ℝ} (h : ∀ a, |q a - q' a| ≤ D) : |crossValue q q' - rowMax q| ≤ D := by
  have := uniform_between (best_nonempty q) (f := q') (l := rowMax q - D) (u := rowMax q + D) (fun a ha => by
    have h1 := abs_le.1 (h a)
    rw [← best_value ha]
    constructor <;> linarith [h1.1, h1.2])
  unfold crossValue
  rw [abs_le]
  constructor <;> linarith [this.1, this.2]

theorem cross_le (q q' : A → ℝ) : crossValue q q' ≤ rowMax q' :=
  (uniform_between (best_nonempty q) (f := q') (l := -∑ a, |q' a|) (u := rowMax q') (fun a _ =>
    ⟨by
      have := Finset.single_le_sum (f := fun a => |q' a|) (fun _ _ => abs_nonneg _) (Finset.mem_univ a)
      linarith [neg_abs_le (q' a)], (rowMax_isMax q').1 a⟩)).2

/-- The two ways of evaluating a state differ at most by the distance of the tables. -/
theorem cross_swap {q q' : A → ℝ} {D : ℝ} (h : ∀ a, |q a - q' a| ≤ D) : |crossValue q q' - crossValue q' q| ≤ D := by
  have h1 := abs_le.1 (cross_close h)
  have h2 := abs_le.1 (cross_close (q := q') (q' := q) (fun a => by rw [abs_sub_comm]; exact h a))
  have h3 := cross_le q q'
  have h4 := cross_le q' q
  rw [abs_le]
  constructor <;> linarith [h1.1, h1.2, h2.1, h2.2]

theorem cross_bound {q q' : A → ℝ} {B : ℝ} (h : ∀ a, |q' a| ≤ B) : |crossValue q q'| ≤ B := by
  have := uniform_between (best_nonempty q) (f := q') (l := -B) (u := B) (fun a _ => abs_le.1 (h a))
  exact abs_le.2 this

theorem uniform_measurable (a : A) : Measurable (fun q : A → ℝ => uniform (best q) a) := by
  classical
  have hset : ∀ b : A, MeasurableSet {q : A → ℝ | Maximises q b} := by
    intro b
    have e : {q : A → ℝ | Maximises q b} = ⋂ c, {q | q c ≤ q b} := by ext q; simp [Maximises]
    rw [e]
    exact MeasurableSet.iInter (fun c => measurableSet_le (measurable_pi_apply c) (measurable_pi_apply b))
  have hcard : (fun q : A → ℝ => ((best q).card : ℝ)) = fun q => ∑ b, if Maximises q b then (1 : ℝ) else 0 := by
    funext q
    simp [best, Finset.sum_boole]
  have e : (fun q : A → ℝ => uniform (best q) a) = fun q => if Maximises q a then 1 / ((best q).card : ℝ) else 0 := by
    funext q; simp only [uniform, mem_best]
  rw [e]
  refine Measurable.ite (hset a) (measurable_const.div ?_) measurable_const
  rw [hcard]
  exact Finset.measurable_fun_sum _ (fun b _ => Measurable.ite (hset b) measurable_const measurable_const)

/-- The mean of the increments of one table, over next state and action. -/
theorem mean_gain {P r : S → ℝ} {ab : S → Bool} {u y : S → A → ℝ} {α γ z : ℝ} (hP : ∑ s, P s = 1) (hu : ∀ s, ∑ a, u s a = 1) :
    ∑ s, ∑ a, 1 / 2 * P s * u s a * (α * (r s + γ * (if ab s then 0 else y s a) - z)) =
      1 / 2 * α * (∑ s, P s * (r s + γ * (if ab s then 0 else ∑ a, u s a * y s a)) - z) := by
  have h1 : ∀ s, ∑ a, 1 / 2 * P s * u s a * (α * (r s + γ * (if ab s then 0 else y s a) - z)) =
      1 / 2 * α * (P s * (r s + γ * (if ab s then 0 else ∑ a, u s a * y s a)) - P s * z) := by
    intro s
    have h2 : ∀ a, 1 / 2 * P s * u s a * (α * (r s + γ * (if ab s then 0 else y s a) - z)) =
        1 / 2 * P s * α * (r s - z) * u s a + 1 / 2 * P s * α * γ * (if ab s then 0 else u s a * y s a) := by
      intro a; split <;> ring
    simp only [h2]
    rw [Finset.sum_add_distrib, ← Finset.mul_sum, hu, ← Finset.mul_sum]
    cases ab s
    · simp; ring
    · simp; ring
  simp only [h1]
  rw [← Finset.mul_sum, Finset.sum_sub_distrib, ← Finset.sum_mul, hP, one_mul]

omit [Fintype S] [Fintype A] [Nonempty A] in
/-- One step of the tables. -/
theorem doubleTables_succ (γ : ℝ) (t : ℕ → Trans S A) (first : ℕ → Bool) (pick : ℕ → A) (α : Bool → ℕ → ℝ) (Q0 : Tables S A) (n : ℕ)
    (c : Bool) (s : S) (a : A) :
    doubleTables γ t first pick α Q0 (n + 1) (tableOf c) s a = doubleTables γ t first pick α Q0 n (tableOf c) s a +
      (if (t n).state = s ∧ (t n).action = a then α c n * (if first n = c then (t n).reward +
        γ * (if (t n).absorbing then 0 else doubleTables γ t first pick α Q0 n (tableOf (!c)) (t n).next (pick n)) -
        doubleTables γ t first pick α Q0 n (tableOf c) s a else 0) else 0) := by
  show doubleQ γ (α (first n) n) (doubleTables γ t first pick α Q0 n) (t n) (first n) (pick n) (tableOf c) s a = _
  generalize doubleTables γ t first pick α Q0 n = Q
  by_cases hf : first n = c
  · subst hf
    have e : (1 - if first n then 0 else 1) = tableOf (!first n) := by cases first n <;> rfl
    simp only [doubleQ, Tables.set, if_true, e]
    rw [show (if first n then 0 else 1) = tableOf (first n) from rfl, if_pos rfl]
    by_cases h : (t n).state = s ∧ (t n).action = a
    · obtain ⟨rfl, rfl⟩ := h
      simp only [Table.set, and_self, if_true]
      rw [not_ite]
    · have h' : ¬ (s = (t n).state ∧ a = (t n).action) := fun g => h ⟨g.1.symm, g.2.symm⟩
      rw [if_neg h, Table.set, if_neg h', add_zero]
  · have hne : tableOf c ≠ if first n then 0 else 1 := by
      revert hf; unfold tableOf; cases first n <;> cases c <;> simp
    simp only [doubleQ, Tables.set]
    rw [if_neg hne, if_neg hf, mul_zero, ite_self, add_zero]

/-- The mean target of table `tableOf c` for a pair. -/
def crossTarget (m : RandomMDP S A) (γ : ℝ) (q q' : Table S A) (s : S) (a : A) : ℝ :=
  ∑ s', m.prob s a s' * (m.reward s a s' + γ * (if m.absorbing s a s' then 0 else crossValue (q s') (q' s')))

/-- C147. Double Q-learning: with probability one both tables converge to the optimal action values, whatever the exploration and the
initial tables are. -/
theorem C147_double (m : RandomMDP S A) (hm : m.Proper) (L : S → Prop) (hcl : m.Closed L) (γ : ℝ) (hγ0 : 0 ≤ γ) (hγ1 : γ < 1)
    (Qs : Table S A) (hQs : m.OptimalOn L γ Qs) (t : ℕ → Ω → Trans S A) (ht : Experience μ ℱ m L t) (first : ℕ → Ω → Bool) (pick : ℕ → Ω → A)
    (α : Bool → ℕ → Ω → ℝ) (hα : DoubleRates μ ℱ L t first α) (Q0 : Tables S A)
    (hd : DoubleDraws μ ℱ m t (fun n ω => doubleTables γ (t · ω) (first · ω) (pick · ω) (fun c k => α c k ω) Q0 n) first pick) :
    ∀ᵐ ω ∂μ, ∀ c s, L s → ∀ a,
      Tendsto (fun n => doubleTables γ (t · ω) (first · ω) (pick · ω) (fun c k => α c k ω) Q0 n (tableOf c) s a) atTop (𝓝 (Qs s a)) := by
  classical
  obtain ⟨V, hV⟩ := hQs
  obtain ⟨C, hC⟩ := hα.squares
  set x : Bool → ℕ → Ω → Table S A := fun c n ω =>
    doubleTables γ (t · ω) (first · ω) (pick · ω) (fun c k => α c k ω) Q0 n (tableOf c) with hx
  have hsucc : ∀ c n ω s a, x c (n + 1) ω s a = x c n ω s a + (if (t n ω).state = s ∧ (t n ω).action = a then
      α c n ω * (if first n ω = c then m.reward s a (t n ω).next +
        γ * (if m.absorbing s a (t n ω).next then 0 else x (!c) n ω (t n ω).next (pick n ω)) - x c n ω s a else 0) else 0) := by
    intro c n ω s a
    have := doubleTables_succ γ (t · ω) (first · ω) (pick · ω) (fun c k => α c k ω) Q0 n c s a
    simp only [hx]
    rw [this]
    by_cases h : (t n ω).state = s ∧ (t n ω).action = a
    · rw [if_pos h, if_pos h, ht.reward, ht.absorbing, h.1, h.2]
    · rw [if_neg h, if_neg h]
  -- all values stay bounded
  set Qb : Table S A := fun s a => |Q0 0 s a| + |Q0 1 s a| with hQb
  set B := reach m γ Qb with hB
  have hB0 : 0 ≤ B := by
    rw [hB]; unfold reach
    exact add_nonneg (Finset.sum_nonneg (fun _ _ => Finset.sum_nonneg (fun _ _ => abs_nonneg _)))
      (div_nonneg (Finset.sum_nonneg (fun _ _ => Finset.sum_nonneg (fun _ _ => Finset.sum_nonneg (fun _ _ => abs_nonneg _)))) (by linarith))
  have hbound : ∀ n c ω s a, |x c n ω s a| ≤ B := by
    intro n
    induction n with
    | zero =>
      intro c ω s a
      refine le_trans ?_ (bounded_reach (m := m) hγ1 (Q0 := Qb) s a)
      refine le_trans ?_ (le_abs_self _)
      show |Q0 (tableOf c) s a| ≤ |Q0 0 s a| + |Q0 1 s a|
      cases c
      · exact le_add_of_nonneg_left (abs_nonneg _)
      · exact le_add_of_nonneg_right (abs_nonneg _)
    | succ n ih =>
      intro c ω s a
      rw [hsucc]
      split
      · split
        · set T := m.reward s a (t n ω).next + γ * (if m.absorbing s a (t n ω).next then 0 else x (!c) n ω (t n ω).next (pick n ω)) with hT
          have hTB : |T| ≤ B := target_reach hγ0 hγ1 (abs_ite_zero hB0 (fun _ => ih _ _ _ _)) s a _
          have e : x c n ω s a + α c n ω * (T - x c n ω s a) = (1 - α c n ω) * x c n ω s a + α c n ω * T := by ring
          obtain ⟨a0, a1⟩ := hα.range c n ω
          rw [e]
          refine (abs_add_le _ _).trans ?_
          rw [abs_mul, abs_mul, abs_of_nonneg a0.le, abs_of_nonneg (by linarith : 0 ≤ 1 - α c n ω)]
          have h2 := mul_le_mul_of_nonneg_left (ih c ω s a) (by linarith : 0 ≤ 1 - α c n ω)
          have h3 := mul_le_mul_of_nonneg_left hTB a0.le
          linarith
        · simpa using ih c ω s a
      · simpa using ih c ω s a
  -- the increments, as functions of coin, next state and action
  set o : ℕ → Ω → Bool × S × A := fun n ω => (first n ω, (t n ω).next, pick n ω) with ho
  have hom : ∀ n y, MeasurableSet[ℱ (n + 1)] {ω | o n ω = y} := fun n y => by
    simpa only [ho, Prod.ext_iff] using hd.known n y.1 y.2.1 y.2.2
  set P : ℕ → Bool × S × A → Ω → ℝ := fun n y ω =>
    1 / 2 * m.prob (t n ω).state (t n ω).action y.2.1 * uniform (best (x y.1 n ω y.2.1)) y.2.2 with hP
  have hlaw : ∀ n y, μ[Set.indicator {ω | o n ω = y} (fun _ => (1 : ℝ)) | ℱ n] =ᵐ[μ] P n y := fun n y => by
    simpa only [ho, hP, Prod.ext_iff] using hd.law n y.1 y.2.1 y.2.2
  set g : Bool → S → A → ℕ → Bool × S × A → Ω → ℝ := fun c s a n y ω =>
    if (t n ω).state = s ∧ (t n ω).action = a then α c n ω * (if y.1 = c then m.reward s a y.2.1 +
      γ * (if m.absorbing s a y.2.1 then 0 else x (!c) n ω y.2.1 y.2.2) - x c n ω s a else 0) else 0 with hg
  have hsucc' : ∀ c n ω s a, x c (n + 1) ω s a = x c n ω s a + g c s a n (o n ω) ω := fun c n ω s a => hsucc c n ω s a
  have hgm' : ∀ c s a n y, (∀ c s a, Measurable[ℱ n] (fun ω => x c n ω s a)) → Measurable[ℱ n] (g c s a n y) := by
    intro c s a n y h
    refine Measurable.ite (ht.past n s a) ((hα.known c n).mul ?_) measurable_const
    split
    · refine Measurable.sub (measurable_const.add (measurable_const.mul ?_)) (h c s a)
      split
      · exact measurable_const
      · exact h _ _ _
    · exact measurable_const
  have hxm : ∀ n c s a, Measurable[ℱ n] (fun ω => x c n ω s a) := by
    intro n
    induction n with
    | zero => intro c s a; exact measurable_const
    | succ n ih =>
      intro c s a
      have e : (fun ω => x c (n + 1) ω s a) = fun ω => x c n ω s a + ∑ y, (if o n ω = y then (1 : ℝ) else 0) * g c s a n y ω := by
        funext ω
        rw [hsucc', Finset.sum_eq_single (o n ω)] <;> simp +contextual [eq_comm]
      rw [e]
      have hle : ℱ n ≤ ℱ (n + 1) := ℱ.mono (Nat.le_succ n)
      refine ((ih c s a).mono hle le_rfl).add ?_
      exact @Finset.measurable_fun_sum _ _ _ _ _ _ (ℱ (n + 1)) _ Finset.univ (fun y _ =>
        (Measurable.ite (hom n y) measurable_const measurable_const).mul ((hgm' c s a n y ih).mono hle le_rfl))
  have hgm : ∀ c s a n y, Measurable[ℱ n] (g c s a n y) := fun c s a n y => hgm' c s a n y (hxm n)
  have hgB : ∀ c s a n y ω, |g c s a n y ω| ≤ 2 * B := by
    intro c s a n y ω
    simp only [hg]
    split
    · obtain ⟨a0, a1⟩ := hα.range c n ω
      rw [abs_mul, abs_of_nonneg a0.le]
      have : |if y.1 = c then m.reward s a y.2.1 + γ * (if m.absorbing s a y.2.1 then 0 else x (!c) n ω y.2.1 y.2.2) - x c n ω s a
          else 0| ≤ 2 * B := by
        split
        · refine (abs_sub _ _).trans ?_
          have h1 : |m.reward s a y.2.1 + γ * (if m.absorbing s a y.2.1 then 0 else x (!c) n ω y.2.1 y.2.2)| ≤ B :=
            target_reach hγ0 hγ1 (abs_ite_zero hB0 (fun _ => hbound n _ _ _ _)) s a _
          linarith [hbound n c ω s a]
        · simpa using hB0
      calc _ ≤ 1 * (2 * B) := mul_le_mul a1 this (abs_nonneg _) zero_le_one
        _ = 2 * B := one_mul _
    · simpa using hB0
  -- the means of the increments
  set M : Bool → ℕ → Ω → S → A → ℝ := fun c n ω s a => crossTarget m γ (x c n ω) (x (!c) n ω) s a with hM
  set β : Bool → ℕ → Ω → S → A → ℝ := fun c n ω s a => if (t n ω).state = s ∧ (t n ω).action = a then 1 / 2 * α c n ω else 0 with hβ
  have hmean : ∀ c s a n ω, ∑ y, P n y ω * g c s a n y ω = β c n ω s a * (M c n ω s a - x c n ω s a) := by
    intro c s a n ω
    simp only [hβ, hg]
    by_cases h : (t n ω).state = s ∧ (t n ω).action = a
    · simp only [if_pos h]
      rw [Fintype.sum_prod_type, Finset.sum_eq_single c]
      · rw [Fintype.sum_prod_type]
        simp only [if_true, hP, h.1, h.2]
        rw [mean_gain (P := m.prob s a) (r := m.reward s a) (ab := m.absorbing s a) (u := fun s' => uniform (best (x c n ω s')))
          (y := fun s' a' => x (!c) n ω s' a') (hm.2 s a) (fun s' => (uniform_prob (best_nonempty _)).2)]
        rfl
      · intro c' _ hc'
        exact Finset.sum_eq_zero (fun y _ => by simp [hc'])
      · simp
    · simp only [if_neg h, mul_zero, Finset.sum_const_zero, zero_mul]
  have hMB : ∀ c n ω s a, |M c n ω s a| ≤ B := by
    intro c n ω s a
    refine (Finset.abs_sum_le_sum_abs _ _).trans ?_
    calc _ ≤ ∑ s', m.prob s a s' * B := Finset.sum_le_sum (fun s' _ => by
          rw [abs_mul, abs_of_nonneg (hm.1 s a s')]
          exact mul_le_mul_of_nonneg_left (target_reach hγ0 hγ1 (abs_ite_zero hB0 (fun _ => cross_bound (hbound n _ _ _))) s a s') (hm.1 s a s'))
      _ = B := by rw [← Finset.sum_mul, hm.2, one_mul]
  have hβ0 : ∀ c n ω s a, 0 ≤ β c n ω s a := fun c n ω s a => by
    simp only [hβ]; split
    · linarith [(hα.range c n ω).1]
    · exact le_refl _
  have hβ1 : ∀ c n ω s a, β c n ω s a ≤ 1 := fun c n ω s a => by
    simp only [hβ]; split
    · linarith [(hα.range c n ω).2]
    · exact zero_le_one
  have hmeanB : ∀ c s a n ω, |∑ y, P n y ω * g c s a n y ω| ≤ 2 * B := by
    intro c s a n ω
    rw [hmean, abs_mul, abs_of_nonneg (hβ0 _ _ _ _ _)]
    have h1 := abs_sub (M c n ω s a) (x c n ω s a)
    calc _ ≤ 1 * (2 * B) := mul_le_mul (hβ1 _ _ _ _ _) (by linarith [hMB c n ω s a, hbound n c ω s a]) (abs_nonneg _) zero_le_one
      _ = 2 * B := one_mul _
  have hmeanm : ∀ c s a n, Measurable[ℱ n] (fun ω => ∑ y, P n y ω * g c s a n y ω) := by
    intro c s a n
    have e : (fun ω => ∑ y, P n y ω * g c s a n y ω) =
        fun ω => ∑ y : Bool × S × A, 1 / 2 * m.prob s a y.2.1 * uniform (best (x y.1 n ω y.2.1)) y.2.2 * g c s a n y ω := by
      funext ω
      refine Finset.sum_congr rfl (fun y _ => ?_)
      simp only [hP, hg]
      by_cases h : (t n ω).state = s ∧ (t n ω).action = a
      · rw [h.1, h.2]
      · simp [if_neg h]
    rw [e]
    refine @Finset.measurable_fun_sum _ _ _ _ _ _ (ℱ n) _ Finset.univ (fun y _ => Measurable.mul (measurable_const.mul ?_) (hgm c s a n y))
    have : Measurable[ℱ n] (fun ω => x y.1 n ω y.2.1) := @measurable_pi_lambda _ _ _ (ℱ n) _ _ (fun a' => hxm n y.1 y.2.1 a')
    exact (uniform_measurable y.2.2).comp this
  -- the noise vanishes
  have hnoise : ∀ c s a, ∀ᵐ ω ∂μ, ∃ l, Tendsto (fun n => ∑ k ∈ Finset.range n,
      (g c s a k (o k ω) ω - ∑ y, P k y ω * g c s a k y ω)) atTop (𝓝 l) := by
    intro c s a
    refine noise_outcomes (ℱ := ℱ) (C := (2 * B) ^ 2 * C) hom hlaw (hgm c s a) (hgB c s a) (hmeanm c s a) (hmeanB c s a) (fun N ω => ?_)
    calc _ ≤ ∑ k ∈ Finset.range N, (2 * B) ^ 2 * usedRates c s a (t · ω) (first · ω) (α c · ω) k ^ 2 := by
          refine Finset.sum_le_sum (fun k _ => ?_)
          simp only [hg, usedRates, ho]
          by_cases h : (t k ω).state = s ∧ (t k ω).action = a
          · by_cases h' : first k ω = c
            · have h3 : first k ω = c ∧ (t k ω).state = s ∧ (t k ω).action = a := ⟨h', h⟩
              rw [if_pos h, if_pos h', if_pos h3, mul_pow, mul_comm]
              refine mul_le_mul_of_nonneg_right ?_ (sq_nonneg _)
              rw [← sq_abs]
              refine pow_le_pow_left₀ (abs_nonneg _) ((abs_sub _ _).trans ?_) 2
              have h1 : |m.reward s a (t k ω).next + γ * (if m.absorbing s a (t k ω).next then 0 else x (!c) k ω (t k ω).next (pick k ω))| ≤ B :=
                target_reach hγ0 hγ1 (abs_ite_zero hB0 (fun _ => hbound k _ _ _ _)) s a _
              linarith [hbound k c ω s a]
            · rw [if_pos h, if_neg h', if_neg (fun k => h' k.1)]; simp
          · rw [if_neg h, if_neg (fun k => h k.2)]; simp
      _ = (2 * B) ^ 2 * ∑ k ∈ Finset.range N, usedRates c s a (t · ω) (first · ω) (α c · ω) k ^ 2 := by rw [Finset.mul_sum]
      _ ≤ _ := mul_le_mul_of_nonneg_left (hC c s a ω N) (sq_nonneg _)
  have hnoise' : ∀ᵐ ω ∂μ, ∀ c s a, ∃ l, Tendsto (fun n => ∑ k ∈ Finset.range n,
      (g c s a k (o k ω) ω - ∑ y, P k y ω * g c s a k y ω)) atTop (𝓝 l) := by
    rw [ae_all_iff]; intro c; rw [ae_all_iff]; intro s; rw [ae_all_iff]; intro a; exact hnoise c s a
  have hstep : ∀ c n ω s a, x c (n + 1) ω s a = x c n ω s a + β c n ω s a * (M c n ω s a - x c n ω s a) +
      (g c s a n (o n ω) ω - ∑ y, P n y ω * g c s a n y ω) := by
    intro c n ω s a
    rw [hsucc', hmean]; ring
  filter_upwards [hnoise', hα.diverge, hα.balanced] with ω hno hdv hbal
  have hdvβ : ∀ c s, L s → ∀ a, Tendsto (fun n => ∑ k ∈ Finset.range n, β c k ω s a) atTop atTop := by
    intro c s hs a
    have h1 : Tendsto (fun n => 1 / 2 * ∑ k ∈ Finset.range n, usedRates c s a (t · ω) (first · ω) (α c · ω) k) atTop atTop :=
      (hdv c s hs a).const_mul_atTop (by norm_num)
    refine tendsto_atTop_mono (fun n => ?_) h1
    rw [Finset.mul_sum]
    refine Finset.sum_le_sum (fun k _ => ?_)
    simp only [hβ, usedRates]
    by_cases h : (t k ω).state = s ∧ (t k ω).action = a
    · rw [if_pos h]
      split
      · exact le_refl _
      · linarith [(hα.range c k ω).1]
    · rw [if_neg h, if_neg (fun k => h k.2), mul_zero]
  -- the difference of the tables vanishes
  have hdiff : ∀ s, L s → ∀ a, Tendsto (fun n => x true n ω s a - x false n ω s a) atTop (𝓝 0) := by
    intro s hs a
    refine history_perturbed (I := S × A) (x := fun n j => x true n ω j.1 j.2 - x false n ω j.1 j.2) (xs := fun _ => 0)
      (F := fun n j => M true n ω j.1 j.2 - M false n ω j.1 j.2 +
        (1 - α false n ω / α true n ω) * (M false n ω j.1 j.2 - x false n ω j.1 j.2))
      (a := fun n j => β true n ω j.1 j.2)
      (d := fun n j => (g true j.1 j.2 n (o n ω) ω - ∑ y, P n y ω * g true j.1 j.2 n y ω) -
        (g false j.1 j.2 n (o n ω) ω - ∑ y, P n y ω * g false j.1 j.2 n y ω)) (L := fun j => L j.1) (γ := γ) (B := 2 * B) hγ0 hγ1
      (fun n j => hβ0 _ _ _ _ _) (fun n j => hβ1 _ _ _ _ _) (fun n j => ?_) (fun ε hε => ?_) (fun n j => ?_) (fun j hj => hdvβ true j.1 hj j.2)
      (fun j => ?_) (s, a) hs
    · have hr : β false n ω j.1 j.2 = β true n ω j.1 j.2 * (α false n ω / α true n ω) := by
        simp only [hβ]
        split
        · have := (hα.range true n ω).1.ne'
          field_simp
        · simp
      rw [hstep, hstep, hr]; ring
    · have h1 : Tendsto (fun n => (1 - α false n ω / α true n ω) * (2 * B)) atTop (𝓝 0) := by
        have := (hbal.const_sub 1).mul_const (2 * B)
        simpa using this
      have h2 := (tendsto_zero_iff_abs_tendsto_zero _).1 h1
      filter_upwards [h2.eventually (gt_mem_nhds hε)] with n hn D hD hcl' j hj _
      rw [sub_zero]
      refine (abs_add_le _ _).trans (add_le_add ?_ ?_)
      · refine mean_contracts hm hcl hγ0 hD (V := fun s' => crossValue (x true n ω s') (x (!true) n ω s'))
          (W := fun s' => crossValue (x false n ω s') (x (!false) n ω s')) (fun s' hs' => ?_) j.1 hj j.2
        exact cross_swap (fun a' => by have := hcl' (s', a') hs'; rwa [sub_zero] at this)
      · refine le_trans ?_ hn.le
        simp only [Function.comp]
        rw [abs_mul, abs_mul, abs_of_nonneg (by linarith : 0 ≤ 2 * B)]
        refine mul_le_mul_of_nonneg_left ((abs_sub _ _).trans ?_) (abs_nonneg _)
        linarith [hMB false n ω j.1 j.2, hbound n false ω j.1 j.2]
    · rw [sub_zero]
      refine (abs_sub _ _).trans ?_
      linarith [hbound n true ω j.1 j.2, hbound n false ω j.1 j.2]
    · obtain ⟨l1, h1⟩ := hno true j.1 j.2
      obtain ⟨l2, h2⟩ := hno false j.1 j.2
      refine ⟨l1 - l2, (h1.sub h2).congr (fun n => ?_)⟩
      rw [← Finset.sum_sub_distrib]
  -- the first table converges
  have htrue : ∀ s, L s → ∀ a, Tendsto (fun n => x true n ω s a) atTop (𝓝 (Qs s a)) := by
    intro s hs a
    refine history_perturbed (I := S × A) (x := fun n j => x true n ω j.1 j.2) (xs := fun j => Qs j.1 j.2)
      (F := fun n j => M true n ω j.1 j.2) (a := fun n j => β true n ω j.1 j.2)
      (d := fun n j => g true j.1 j.2 n (o n ω) ω - ∑ y, P n y ω * g true j.1 j.2 n y ω) (L := fun j => L j.1) (γ := γ)
      (B := B + ∑ j : S × A, |Qs j.1 j.2|) hγ0 hγ1
      (fun n j => hβ0 _ _ _ _ _) (fun n j => hβ1 _ _ _ _ _) (fun n j => hstep true n ω j.1 j.2) (fun ε hε => ?_) (fun n j => ?_)
      (fun j hj => hdvβ true j.1 hj j.2) (fun j => hno true j.1 j.2) (s, a) hs
    · have hev : ∀ᶠ n in atTop, ∀ j : S × A, L j.1 → |x true n ω j.1 j.2 - x false n ω j.1 j.2| ≤ ε := by
        rw [eventually_all]; intro j
        by_cases hj : L j.1
        · have := (tendsto_zero_iff_abs_tendsto_zero _).1 (hdiff j.1 hj j.2)
          exact (this.eventually (gt_mem_nhds hε)).mono (fun n h _ => h.le)
        · exact Eventually.of_forall (fun n h => absurd h hj)
      filter_upwards [hev] with n hn D hD hcl' j hj _
      show |M true n ω j.1 j.2 - Qs j.1 j.2| ≤ _
      rw [(hV j.1 hj).2 j.2]
      have h1 := mean_contracts hm hcl hγ0 (add_nonneg hD hε.le) (V := fun s' => crossValue (x true n ω s') (x (!true) n ω s')) (W := V)
        (fun s' hs' => by
          have k1 := cross_close (q := x true n ω s') (q' := x false n ω s') (fun a' => hn (s', a') hs')
          have k2 := isMax_close (fun a' => hcl' (s', a') hs') (rowMax_isMax (x true n ω s')) (hV s' hs').1
          have e : crossValue (x true n ω s') (x (!true) n ω s') - V s' =
            (crossValue (x true n ω s') (x false n ω s') - rowMax (x true n ω s')) + (rowMax (x true n ω s') - V s') := by
            simp only [Bool.not_true]; ring
          rw [e]
          refine (abs_add_le _ _).trans ?_
          linarith) j.1 hj j.2
      refine h1.trans ?_
      nlinarith
    · refine (abs_sub _ _).trans ?_
      have h3 := Finset.single_le_sum (f := fun j : S × A => |Qs j.1 j.2|) (fun j _ => abs_nonneg _) (Finset.mem_univ j)
      linarith [hbound n true ω j.1 j.2]
  intro c s hs a
  cases c
  · have := (htrue s hs a).sub (hdiff s hs a)
    rw [sub_zero] at this
    refine this.congr (fun n => ?_)
    ring
  · exact htrue s hs a

end

end Verif.TD
