/-
Property C94: what the gradients of REINFORCE and GPOMDP estimate with the baselines that are computed from the episodes themselves.
-/
import Verif.Search.LemmasEpisodes
import Mathlib.Probability.ProductMeasure
import Mathlib.Probability.Independence.InfinitePi
import Mathlib.Analysis.SpecialFunctions.ExpDeriv

namespace Verif.Search

open MeasureTheory ProbabilityTheory Filter Topology Finset

variable {S A O : Type} [Fintype S] [Fintype A] {d : ℕ}

/-! ### The baseline -/

theorem bestBaseline_bound (l : List (ℝ × ℝ)) (C : ℝ) (hC : 0 ≤ C) (hl : ∀ p ∈ l, |p.2| ≤ C) : |bestBaseline l| ≤ C := by
  unfold bestBaseline
  split
  · simpa using hC
  · next hne =>
    have nonneg : ∀ l : List (ℝ × ℝ), 0 ≤ (l.map (fun p => p.1 ^ 2)).sum := by
      intro l
      refine List.sum_nonneg ?_
      intro x hx
      obtain ⟨p, _, rfl⟩ := List.mem_map.1 hx
      positivity
    have key : ∀ l : List (ℝ × ℝ), (∀ p ∈ l, |p.2| ≤ C) →
        |(l.map (fun p => p.1 ^ 2 * p.2)).sum| ≤ C * (l.map (fun p => p.1 ^ 2)).sum := by
      intro l
      induction l with
      | nil => simp
      | cons p l ih =>
        intro hl
        simp only [List.map_cons, List.sum_cons, mul_add]
        refine (abs_add_le _ _).trans (add_le_add ?_ (ih (fun q hq => hl q (List.mem_cons_of_mem _ hq))))
        rw [abs_mul, abs_of_nonneg (sq_nonneg p.1), mul_comm]
        exact mul_le_mul_of_nonneg_right (hl p List.mem_cons_self) (sq_nonneg _)
    have hpos := lt_of_le_of_ne (nonneg l) (Ne.symm hne)
    rw [abs_div, abs_of_pos hpos, div_le_iff₀ hpos]
    exact key l hl

theorem bestBaseline_const (l : List (ℝ × ℝ)) (c : ℝ) (hl : ∀ p ∈ l, p.2 = c) (p : ℝ × ℝ) (hp : p ∈ l) :
    p.1 * (p.2 - bestBaseline l) = 0 := by
  by_cases hz : (l.map (fun p => p.1 ^ 2)).sum = 0
  · have : ∀ l : List (ℝ × ℝ), (l.map (fun p => p.1 ^ 2)).sum = 0 → ∀ p ∈ l, p.1 = 0 := by
      intro l
      induction l with
      | nil => simp
      | cons q l ih =>
        intro hs p hp
        simp only [List.map_cons, List.sum_cons] at hs
        have h2 : 0 ≤ (l.map (fun p : ℝ × ℝ => p.1 ^ 2)).sum := by
          refine List.sum_nonneg ?_
          intro x hx
          obtain ⟨p, _, rfl⟩ := List.mem_map.1 hx
          positivity
        have h1 := sq_nonneg q.1
        rcases List.mem_cons.1 hp with rfl | hp
        · have : p.1 ^ 2 = 0 := by linarith
          exact pow_eq_zero_iff (two_ne_zero) |>.1 this
        · exact ih (by linarith) p hp
    rw [this l hz p hp, zero_mul]
  · have hn : ∀ l : List (ℝ × ℝ), (∀ p ∈ l, p.2 = c) → (l.map (fun p => p.1 ^ 2 * p.2)).sum = (l.map (fun p => p.1 ^ 2)).sum * c := by
      intro l
      induction l with
      | nil => simp
      | cons q l ih =>
        intro hl
        simp only [List.map_cons, List.sum_cons, ih (fun p hp => hl p (List.mem_cons_of_mem _ hp)), hl q List.mem_cons_self]
        ring
    rw [bestBaseline, if_neg hz, hn l hl, mul_div_cancel_left₀ _ hz, hl p hp, sub_self, mul_zero]

theorem average_sub_mul {α : Type} (l : List α) (f g : α → ℝ) (c : ℝ) :
    average l (fun x => f x - c * g x) = average l f - c * average l g := by
  have : (l.map (fun x => f x - c * g x)).sum = (l.map f).sum - c * (l.map g).sum := by
    induction l with
    | nil => simp
    | cons x l ih => simp only [List.map_cons, List.sum_cons, ih]; ring
  rw [average, this, average, average]
  ring

theorem average_sum {α ι : Type} (l : List α) (I : List ι) (f : ι → α → ℝ) :
    average l (fun x => (I.map (fun i => f i x)).sum) = (I.map (fun i => average l (f i))).sum := by
  induction I with
  | nil => simp [average]
  | cons i I ih =>
    have key : ∀ (l : List α) (f g : α → ℝ), (l.map (fun x => f x + g x)).sum = (l.map f).sum + (l.map g).sum := by
      intro l f g
      induction l with
      | nil => simp
      | cons x l ih => simp only [List.map_cons, List.sum_cons, ih]; ring
    simp only [List.map_cons, List.sum_cons, ← ih]
    rw [average, key, add_div]
    rfl

omit [Fintype S] [Fintype A] in
theorem average_congr (l : List (List (Step S A))) (f g : List (Step S A) → ℝ) (hfg : ∀ e ∈ l, f e = g e) : average l f = average l g := by
  rw [average, average, List.map_congr_left hfg]

theorem expected_sum {ι : Type} (P : Process S A) (pol : S → A → ℝ) (h : ℕ) (I : List ι) (f : ι → List (Step S A) → ℝ) :
    expected P pol h (fun e => (I.map (fun i => f i e)).sum) = (I.map (fun i => expected P pol h (f i))).sum := by
  induction I with
  | nil =>
    have := expected_mul P pol h 0 (fun _ => 0)
    simpa using this
  | cons i I ih => simp only [List.map_cons, List.sum_cons, ← ih, expected_add]

/-! ### Consistency -/

variable {Ω : Type} [MeasurableSpace Ω] {μ : Measure Ω} {P : Process S A} {h : ℕ} {X : ℕ → Ω → List (Step S A)}

theorem Episodes.splits (hX : Episodes μ P pol (h + 1) X) : ∀ᵐ ω ∂μ, ∀ n, Splits (firstN X n ω) (batch X n ω) [] := by
  filter_upwards [hX.ae (law_isEpisode P pol h)] with ω hω n
  refine ⟨by simp [firstN, batch], ?_, by simp⟩
  intro e he
  obtain ⟨i, _, rfl⟩ := List.mem_map.1 he
  exact hω i

/-- C94 (REINFORCE). Let a reachable agent be fitted with `n` episodes that are drawn independently with its policy. As `n` grows,
the gradient it gives to its optimizer, computed with the baseline from these very episodes, converges almost surely to the gradient
of the expected discounted return, for any horizon and any finite decision process. -/
theorem C94_reinforce_consistent (hP : P.Proper) (pol : Vec d → S → A → ℝ) (diffLog : Vec d → S → A → Vec d)
    (hscore : IsScore pol diffLog) (γ : ℝ) (opt : O → Vec d → Vec d → O × Vec d) (g : PG (Reinforce d) d O)
    (hg : Reach (reinforce S A d) diffLog γ opt (reinforceNew d) (fun _ => True) g)
    (hX : Episodes μ P (pol g.theta) (h + 1) X) :
    ∃ J' : Vec d, (∀ j, HasDerivAt (fun y => expected P (pol (Function.update g.theta j y)) (h + 1) (ret γ)) (J' j) (g.theta j)) ∧
      ∀ᵐ ω ∂μ, ∃ grad : ℕ → Vec d,
        (∀ n, 2 ≤ n → (pgFit (reinforce S A d) diffLog γ opt g (firstN X n ω)).2 = some (grad n)) ∧
        ∀ j, Tendsto (fun n => grad n j) atTop (𝓝 (J' j)) := by
  have hpol : ∀ s a, 0 ≤ pol g.theta s a := fun s a => (hscore.1 _ _ _).le
  refine ⟨fun j => expected P (pol g.theta) (h + 1) (fun e => scoreSum (diffLog g.theta) e j * ret γ e),
    fun j => expected_deriv P pol diffLog hscore (ret γ) (h + 1) g.theta j, ?_⟩
  obtain ⟨C, hC, hret⟩ := law_bounded P (pol g.theta) (h + 1) (ret γ)
  have l1 : ∀ᵐ ω ∂μ, ∀ j, Tendsto (fun n => average (batch X n ω) (fun e => scoreSum (diffLog g.theta) e j * ret γ e)) atTop
      (𝓝 (expected P (pol g.theta) (h + 1) (fun e => scoreSum (diffLog g.theta) e j * ret γ e))) :=
    ae_all_iff.2 (fun j => hX.strongLaw hP hpol _)
  have l2 : ∀ᵐ ω ∂μ, ∀ j, Tendsto (fun n => average (batch X n ω) (fun e => scoreSum (diffLog g.theta) e j)) atTop (𝓝 0) := by
    refine ae_all_iff.2 (fun j => ?_)
    have := hX.strongLaw hP hpol (fun e => scoreSum (diffLog g.theta) e j)
    rwa [expected_score P hP pol diffLog hscore] at this
  filter_upwards [l1, l2, hX.splits, hX.ae hret] with ω h1 h2 hs hb
  refine ⟨fun n => reinforceSpec (diffLog g.theta) γ (batch X n ω), fun n hn => ?_, fun j => ?_⟩
  · have := (C57_reinforce diffLog γ opt g hg _ _ _ (hs n)).2 (by simp [batch]; omega)
    exact this.1
  · have heq : ∀ n, reinforceSpec (diffLog g.theta) γ (batch X n ω) j =
        average (batch X n ω) (fun e => scoreSum (diffLog g.theta) e j * ret γ e) -
          bestBaseline ((batch X n ω).map (fun e => (scoreSum (diffLog g.theta) e j, ret γ e))) *
            average (batch X n ω) (fun e => scoreSum (diffLog g.theta) e j) := by
      intro n
      rw [← average_sub_mul, reinforceSpec]
      congr 1
      funext e
      ring
    simp only [heq]
    have hz : Tendsto (fun n => bestBaseline ((batch X n ω).map (fun e => (scoreSum (diffLog g.theta) e j, ret γ e))) *
        average (batch X n ω) (fun e => scoreSum (diffLog g.theta) e j)) atTop (𝓝 0) := by
      refine squeeze_zero_norm (fun n => ?_) (by simpa using ((h2 j).abs).const_mul C)
      rw [norm_mul, Real.norm_eq_abs, Real.norm_eq_abs]
      refine mul_le_mul_of_nonneg_right (bestBaseline_bound _ C hC ?_) (abs_nonneg _)
      intro p hp
      obtain ⟨e, he, rfl⟩ := List.mem_map.1 hp
      obtain ⟨i, _, rfl⟩ := List.mem_map.1 he
      exact hb i
    simpa using (h1 j).sub hz

/-- C94 (GPOMDP, partial). If no transition is absorbing, the same holds for GPOMDP: its gradient, with the baselines for the time
steps computed from the episodes themselves, converges almost surely to the gradient of the expected discounted return. Missing:
absorbing transitions, see `C94_gpomdp_refuted`. -/
theorem C94_gpomdp_consistent_partial (hP : P.Proper) (hno : ∀ s a s', P.absorbing s a s' = false) (pol : Vec d → S → A → ℝ)
    (diffLog : Vec d → S → A → Vec d) (hscore : IsScore pol diffLog) (γ : ℝ) (opt : O → Vec d → Vec d → O × Vec d)
    (g : PG (Gpomdp d) d O) (hg : Reach (gpomdp S A d) diffLog γ opt (gpomdpNew d) (fun D => ∃ eps, Splits D eps []) g)
    (hX : Episodes μ P (pol g.theta) (h + 1) X) :
    ∃ J' : Vec d, (∀ j, HasDerivAt (fun y => expected P (pol (Function.update g.theta j y)) (h + 1) (ret γ)) (J' j) (g.theta j)) ∧
      ∀ᵐ ω ∂μ, ∃ grad : ℕ → Vec d,
        (∀ n, 2 ≤ n → (pgFit (gpomdp S A d) diffLog γ opt g (firstN X n ω)).2 = some (grad n)) ∧
        ∀ j, Tendsto (fun n => grad n j) atTop (𝓝 (J' j)) := by
  have hpol : ∀ s a, 0 ≤ pol g.theta s a := fun s a => (hscore.1 _ _ _).le
  have hcongr : ∀ F G : List (Step S A) → ℝ, (∀ e, e.length = h + 1 → F e = G e) →
      expected P (pol g.theta) (h + 1) F = expected P (pol g.theta) (h + 1) G := by
    intro F G hFG
    unfold expected
    exact sum_congr rfl (fun s _ => by rw [expect_congr P hno _ _ s F G hFG])
  set σ : ℕ → Fin d → List (Step S A) → ℝ := fun t j e => scoreSum (diffLog g.theta) (e.take (t + 1)) j with hσ
  -- the derivative
  have hJ : ∀ j, HasDerivAt (fun y => expected P (pol (Function.update g.theta j y)) (h + 1) (ret γ))
      ((List.range (h + 1)).map (fun t => expected P (pol g.theta) (h + 1) (fun e => σ t j e * rewardAt γ e t))).sum (g.theta j) := by
    intro j
    refine (C94_gpomdp_plain P hP pol diffLog hscore γ (h + 1) g.theta j).congr_deriv ?_
    rw [← expected_sum]
    exact hcongr _ _ (fun e he => by rw [he])
  -- the scores up to a time have mean zero
  have hzero : ∀ t, t < h + 1 → ∀ j, expected P (pol g.theta) (h + 1) (σ t j) = 0 := by
    intro t ht j
    have d1 := C94_gpomdp_unbiased_partial P hP hno pol diffLog hscore γ (fun i => if i = t then 1 else 0) (h + 1) g.theta j
    have d2 := C94_gpomdp_plain P hP pol diffLog hscore γ (h + 1) g.theta j
    have e := d1.unique d2
    have e1 : expected P (pol g.theta) (h + 1) (fun e => ((List.range e.length).map (fun i : ℕ =>
        scoreSum (diffLog g.theta) (e.take (i + 1)) j * (rewardAt γ e i - if i = t then 1 else 0))).sum) =
        expected P (pol g.theta) (h + 1) (fun e => ((List.range e.length).map (fun i : ℕ =>
        scoreSum (diffLog g.theta) (e.take (i + 1)) j * rewardAt γ e i)).sum + (-1) * σ t j e) := by
      refine hcongr _ _ (fun e he => ?_)
      have : ∀ n, ((List.range n).map (fun i : ℕ => scoreSum (diffLog g.theta) (e.take (i + 1)) j *
          (rewardAt γ e i - if i = t then 1 else 0))).sum = ((List.range n).map (fun i : ℕ =>
          scoreSum (diffLog g.theta) (e.take (i + 1)) j * rewardAt γ e i)).sum + if t < n then -σ t j e else 0 := by
        intro n
        induction n with
        | zero => simp
        | succ n ih =>
          rw [List.range_succ, List.map_append, List.map_append, List.sum_append, List.sum_append, ih]
          simp only [List.map_cons, List.map_nil, List.sum_cons, List.sum_nil, add_zero]
          rcases lt_trichotomy t n with hlt | rfl | hgt
          · rw [if_pos hlt, if_neg (show ¬ n = t by omega), if_pos (show t < n + 1 by omega)]
            ring
          · rw [if_neg (show ¬ t < t by omega), if_pos rfl, if_pos (show t < t + 1 by omega), hσ]
            ring
          · rw [if_neg (show ¬ t < n by omega), if_neg (show ¬ n = t by omega), if_neg (show ¬ t < n + 1 by omega)]
            ring
      rw [this, he, if_pos ht]
      ring
    rw [e1, expected_add, expected_mul] at e
    linarith
  refine ⟨fun j => ((List.range (h + 1)).map (fun t => expected P (pol g.theta) (h + 1) (fun e => σ t j e * rewardAt γ e t))).sum,
    hJ, ?_⟩
  have l1 : ∀ᵐ ω ∂μ, ∀ t j, Tendsto (fun n => average (batch X n ω) (fun e => σ t j e * rewardAt γ e t)) atTop
      (𝓝 (expected P (pol g.theta) (h + 1) (fun e => σ t j e * rewardAt γ e t))) :=
    ae_all_iff.2 (fun t => ae_all_iff.2 (fun j => hX.strongLaw hP hpol _))
  have l2 : ∀ᵐ ω ∂μ, ∀ t j, Tendsto (fun n => average (batch X n ω) (σ t j)) atTop (𝓝 (expected P (pol g.theta) (h + 1) (σ t j))) :=
    ae_all_iff.2 (fun t => ae_all_iff.2 (fun j => hX.strongLaw hP hpol _))
  have l3 : ∀ᵐ ω ∂μ, ∀ t, ∃ C, 0 ≤ C ∧ ∀ i, |rewardAt γ (X i ω) t| ≤ C := by
    refine ae_all_iff.2 (fun t => ?_)
    obtain ⟨C, hC, hb⟩ := law_bounded P (pol g.theta) (h + 1) (fun e => rewardAt γ e t)
    filter_upwards [hX.ae hb] with ω hω
    exact ⟨C, hC, hω⟩
  filter_upwards [l1, l2, l3, hX.splits, hX.ae (law_length P hno (pol g.theta) (h + 1))] with ω h1 h2 h3 hs hlen
  refine ⟨fun n => gpomdpSpec (diffLog g.theta) γ (batch X n ω) (batch X n ω ++ [[]]), fun n hn => ?_, fun j => ?_⟩
  · have := (C57_gpomdp_partial diffLog γ opt g hg _ _ _ (hs n)).2 (by simp [batch]; omega)
    exact this.1
  · have hbl : ∀ n, ∀ e ∈ batch X n ω, e.length = h + 1 := by
      intro n e he
      obtain ⟨i, _, rfl⟩ := List.mem_map.1 he
      exact hlen i
    set b : ℕ → ℕ → ℝ := fun n t => bestBaseline ((batch X n ω).map (fun e => (σ t j e, rewardAt γ e t))) with hb
    have heq : ∀ n, gpomdpSpec (diffLog g.theta) γ (batch X n ω) (batch X n ω ++ [[]]) j =
        ((List.range (h + 1)).map (fun t => average (batch X n ω) (fun e => σ t j e * rewardAt γ e t) -
          b n t * average (batch X n ω) (σ t j))).sum := by
      intro n
      have hf : ∀ t, t < h + 1 → (batch X n ω ++ [[]]).filter (fun e => t < e.length) = batch X n ω := by
        intro t ht
        rw [List.filter_append]
        simp only [List.length_nil, Nat.not_lt_zero, decide_false, List.filter_cons, Bool.false_eq_true, if_false, List.filter_nil,
          List.append_nil]
        exact List.filter_eq_self.2 (fun e he => by simpa [hbl n e he] using ht)
      rw [gpomdpSpec, average_congr _ _ (fun e => ((List.range (h + 1)).map (fun t =>
        σ t j e * rewardAt γ e t - b n t * σ t j e)).sum), average_sum]
      · congr 1
        refine List.map_congr_left (fun t _ => ?_)
        rw [average_sub_mul]
      · intro e he
        rw [hbl n e he]
        congr 1
        refine List.map_congr_left (fun t ht => ?_)
        rw [hf t (List.mem_range.1 ht)]
        simp only [hσ, hb]
        ring
    simp only [heq]
    have lim : ∀ t, t < h + 1 → Tendsto (fun n => average (batch X n ω) (fun e => σ t j e * rewardAt γ e t) -
        b n t * average (batch X n ω) (σ t j)) atTop (𝓝 (expected P (pol g.theta) (h + 1) (fun e => σ t j e * rewardAt γ e t))) := by
      intro t ht
      obtain ⟨C, hC, hr⟩ := h3 t
      have h2' := h2 t j
      rw [hzero t ht j] at h2'
      have hz : Tendsto (fun n => b n t * average (batch X n ω) (σ t j)) atTop (𝓝 0) := by
        refine squeeze_zero_norm (fun n => ?_) (by simpa using (h2'.abs).const_mul C)
        rw [norm_mul, Real.norm_eq_abs, Real.norm_eq_abs]
        refine mul_le_mul_of_nonneg_right (bestBaseline_bound _ C hC ?_) (abs_nonneg _)
        intro p hp
        obtain ⟨e, he, rfl⟩ := List.mem_map.1 hp
        obtain ⟨i, _, rfl⟩ := List.mem_map.1 he
        exact hr i
      simpa using (h1 t j).sub hz
    have fold : ∀ m, m ≤ h + 1 → Tendsto (fun n => ((List.range m).map (fun t =>
        average (batch X n ω) (fun e => σ t j e * rewardAt γ e t) - b n t * average (batch X n ω) (σ t j))).sum) atTop
        (𝓝 ((List.range m).map (fun t => expected P (pol g.theta) (h + 1) (fun e => σ t j e * rewardAt γ e t))).sum) := by
      intro m hm
      induction m with
      | zero => simp
      | succ m ih =>
        simp only [List.range_succ, List.map_append, List.sum_append, List.map_cons, List.map_nil, List.sum_cons, List.sum_nil, add_zero]
        exact (ih (by omega)).add (lim m (by omega))
    exact fold (h + 1) le_rfl

/-- There are such episodes, for every proper process, policy and horizon. -/
theorem episodes_exist (P : Process S A) (hP : P.Proper) (pol : S → A → ℝ) (hpol : ∀ s a, 0 ≤ pol s a) (hsum : ∀ s, ∑ a, pol s a = 1)
    (h : ℕ) : ∃ μ : Measure (ℕ → List (Step S A)), IsProbabilityMeasure μ ∧ Episodes μ P pol h (fun i ω => ω i) := by
  haveI := law_prob P hP pol hpol hsum h
  refine ⟨Measure.infinitePi (fun _ => law P pol h), inferInstance, fun i => measurable_pi_apply i,
    fun i => Measure.infinitePi_map_eval (fun _ => law P pol h) i, ?_⟩
  intro i j hij
  have := iIndepFun_infinitePi (P := fun _ : ℕ => law P pol h) (X := fun _ x => x) (fun _ => measurable_id)
  exact this.indepFun hij

end Verif.Search
