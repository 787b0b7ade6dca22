/-
Properties C41 and C42: value iteration and policy iteration.
-/
import Verif.Solvers.Spec
import Mathlib.Topology.MetricSpace.Contracting
import Mathlib.Topology.MetricSpace.Pseudo.Pi
import Mathlib.Topology.Algebra.Order.Field
import Mathlib.Topology.Instances.Real.Lemmas
import Mathlib.Analysis.SpecificLimits.Basic
import Mathlib.Order.WellFounded
import Mathlib.Data.Fintype.Pi
import Mathlib.Tactic.Ring
import Mathlib.Tactic.Linarith
import Mathlib.Tactic.FieldSimp
import Mathlib.Tactic.NormNum
import Mathlib.Tactic.Positivity

namespace Verif.Solvers

noncomputable section

variable {S A : ℕ} {prob reward : Fin S → Fin A → Fin S → ℝ} {gamma : ℝ}

/-! ### Maximum over the actions -/

theorem vmaxFold (va : Fin A → ℝ) (l : List (Fin A)) (m : ℝ) :
    ∃ v, l.foldl (vmaxStep va) (some m) = some v ∧ (v = m ∨ ∃ a ∈ l, v = va a) ∧ m ≤ v ∧ ∀ a ∈ l, va a ≤ v := by
  induction l generalizing m with
  | nil => exact ⟨m, rfl, .inl rfl, le_refl _, by simp⟩
  | cons a l ih =>
      obtain ⟨v, h1, h2, h3, h4⟩ := ih (max (va a) m)
      refine ⟨v, h1, ?_, (le_max_right _ _).trans h3, ?_⟩
      · rcases h2 with rfl | ⟨b, hb, rfl⟩
        · rcases max_choice (va a) m with h | h
          · exact .inr ⟨a, by simp, h⟩
          · exact .inl h
        · exact .inr ⟨b, by simp [hb], rfl⟩
      · intro b hb
        simp only [List.mem_cons] at hb
        rcases hb with rfl | hb
        · exact (le_max_left _ _).trans h3
        · exact h4 b hb

theorem vmaxLoop_spec (va : Fin A → ℝ) (hA : 0 < A) :
    (∃ a, (vmaxLoop va).getD 0 = va a) ∧ ∀ a, va a ≤ (vmaxLoop va).getD 0 := by
  have hmem : ∀ a, a ∈ List.finRange A := List.mem_finRange
  unfold vmaxLoop
  cases hl : List.finRange A with
  | nil =>
      have := hmem ⟨0, hA⟩
      rw [hl] at this; simp at this
  | cons b l =>
      rw [List.foldl_cons]
      obtain ⟨v, h1, h2, h3, h4⟩ := vmaxFold va l (va b)
      rw [show vmaxStep va none b = some (va b) from rfl, h1]
      simp only [Option.getD_some]
      refine ⟨?_, ?_⟩
      · rcases h2 with rfl | ⟨a, _, rfl⟩
        · exact ⟨b, rfl⟩
        · exact ⟨a, rfl⟩
      · intro a
        have := hmem a
        rw [hl, List.mem_cons] at this
        rcases this with rfl | h
        · exact h3
        · exact h4 a h

/-! ### Contraction -/

theorem backup_diff (u v : Fin S → ℝ) (s : Fin S) (a : Fin A) :
    backup prob reward gamma u s a - backup prob reward gamma v s a = gamma * ∑ s', prob s a s' * (u s' - v s') := by
  unfold backup
  rw [← Finset.sum_sub_distrib, Finset.mul_sum]
  apply Finset.sum_congr rfl
  intro s' _; ring

theorem weighted_le (hP : IsTransition prob) (s : Fin S) (a : Fin A) (d : Fin S → ℝ) (c : ℝ) (hc : 0 ≤ c)
    (hd : ∀ s', d s' ≤ c) : ∑ s', prob s a s' * d s' ≤ c := by
  calc ∑ s', prob s a s' * d s' ≤ ∑ s', prob s a s' * c :=
        Finset.sum_le_sum (fun s' _ => mul_le_mul_of_nonneg_left (hd s') (hP.1 s a s'))
    _ = (∑ s', prob s a s') * c := by rw [Finset.sum_mul]
    _ ≤ 1 * c := mul_le_mul_of_nonneg_right (hP.2 s a) hc
    _ = c := one_mul c

theorem backup_close (hP : IsTransition prob) (hg : 0 ≤ gamma) (u v : Fin S → ℝ) (c : ℝ) (hc : 0 ≤ c)
    (h : ∀ s, |u s - v s| ≤ c) (s : Fin S) (a : Fin A) :
    |backup prob reward gamma u s a - backup prob reward gamma v s a| ≤ gamma * c := by
  rw [backup_diff, abs_mul, abs_of_nonneg hg]
  apply mul_le_mul_of_nonneg_left _ hg
  rw [abs_le]
  constructor
  · have := weighted_le hP s a (fun s' => -(u s' - v s')) c hc (fun s' => by have := abs_le.mp (h s'); linarith)
    simp only [mul_neg, Finset.sum_neg_distrib] at this
    linarith
  · exact weighted_le hP s a (fun s' => u s' - v s') c hc (fun s' => (abs_le.mp (h s')).2)

theorem sweep_close (hP : IsTransition prob) (hg : 0 ≤ gamma) (hA : 0 < A) (u v : Fin S → ℝ) (c : ℝ) (hc : 0 ≤ c)
    (h : ∀ s, |u s - v s| ≤ c) (s : Fin S) :
    |sweep prob reward gamma u s - sweep prob reward gamma v s| ≤ gamma * c := by
  unfold sweep
  obtain ⟨⟨a, ha⟩, hamax⟩ := vmaxLoop_spec (backup prob reward gamma u s) hA
  obtain ⟨⟨b, hb⟩, hbmax⟩ := vmaxLoop_spec (backup prob reward gamma v s) hA
  have h1 := abs_le.mp (backup_close (reward := reward) hP hg u v c hc h s a)
  have h2 := abs_le.mp (backup_close (reward := reward) hP hg u v c hc h s b)
  rw [abs_le]
  constructor
  · have := hamax b; linarith
  · have := hbmax a; linarith

/-- A map that brings points closer by the factor `gamma` has a fixed point. -/
theorem exists_fixed (F : (Fin S → ℝ) → Fin S → ℝ) (hg : 0 ≤ gamma) (hg1 : gamma < 1)
    (hF : ∀ u v c, 0 ≤ c → (∀ s, |u s - v s| ≤ c) → ∀ s, |F u s - F v s| ≤ gamma * c) : ∃ V, F V = V := by
  have hc : ContractingWith gamma.toNNReal F := by
    refine ⟨by rw [← NNReal.coe_lt_coe, Real.coe_toNNReal _ hg]; exact hg1, ?_⟩
    apply LipschitzWith.of_dist_le_mul
    intro u v
    rw [Real.coe_toNNReal _ hg, dist_pi_le_iff (mul_nonneg hg dist_nonneg)]
    intro s
    rw [Real.dist_eq]
    exact hF u v (dist u v) dist_nonneg (fun s => by rw [← Real.dist_eq]; exact dist_le_pi_dist u v s) s
  exact ⟨hc.fixedPoint F, hc.fixedPoint_isFixedPt⟩

theorem exists_bound (V : Fin S → ℝ) : ∃ B, 0 ≤ B ∧ ∀ s, |V s| ≤ B :=
  ⟨∑ s, |V s|, Finset.sum_nonneg (fun s _ => abs_nonneg _),
    fun s => Finset.single_le_sum (f := fun s => |V s|) (fun s _ => abs_nonneg _) (Finset.mem_univ s)⟩

theorem pow_small (hg : 0 ≤ gamma) (hg1 : gamma < 1) (B ε : ℝ) (hB : 0 ≤ B) (hε : 0 < ε) :
    ∃ N, ∀ n ≥ N, gamma ^ n * B ≤ ε := by
  obtain ⟨N, hN⟩ := exists_pow_lt_of_lt_one (show 0 < ε / (B + 1) by positivity) hg1
  refine ⟨N, fun n hn => ?_⟩
  have h1 : gamma ^ n ≤ gamma ^ N := pow_le_pow_of_le_one hg hg1.le hn
  calc gamma ^ n * B ≤ gamma ^ N * B := mul_le_mul_of_nonneg_right h1 hB
    _ ≤ ε / (B + 1) * B := mul_le_mul_of_nonneg_right hN.le hB
    _ ≤ ε / (B + 1) * (B + 1) := by
        apply mul_le_mul_of_nonneg_left (by linarith); positivity
    _ = ε := by field_simp

theorem return_backup (pi : ℕ → Fin S → Fin A) (n : ℕ) (s : Fin S) :
    expectedReturn prob reward gamma pi (n + 1) s =
      backup prob reward gamma (expectedReturn prob reward gamma (fun t => pi (t + 1)) n) s (pi 0 s) := rfl

/-- A fixed point of the sweep is the optimal value. -/
theorem fixed_optimal (hP : IsTransition prob) (hg : 0 ≤ gamma) (hg1 : gamma < 1) (hA : 0 < A) (V : Fin S → ℝ)
    (hV : sweep prob reward gamma V = V) : IsOptimalValue prob reward gamma V := by
  obtain ⟨B, hB, hVB⟩ := exists_bound V
  have hmax : ∀ s a, backup prob reward gamma V s a ≤ V s := by
    intro s a
    have := (vmaxLoop_spec (backup prob reward gamma V s) hA).2 a
    rw [← congrFun hV s]; exact this
  constructor
  · intro pi s ε hε
    obtain ⟨N, hN⟩ := pow_small hg hg1 B ε hB hε
    refine ⟨N, fun n hn => ?_⟩
    have key : ∀ n (pi : ℕ → Fin S → Fin A) s, expectedReturn prob reward gamma pi n s ≤ V s + gamma ^ n * B := by
      intro n
      induction n with
      | zero => intro pi s; have := abs_le.mp (hVB s); simp [expectedReturn]; linarith
      | succ n ih =>
          intro pi s
          rw [return_backup]
          have h1 := backup_diff (prob := prob) (reward := reward) (gamma := gamma)
            (expectedReturn prob reward gamma (fun t => pi (t + 1)) n) V s (pi 0 s)
          have h2 := weighted_le hP s (pi 0 s)
            (fun s' => expectedReturn prob reward gamma (fun t => pi (t + 1)) n s' - V s') (gamma ^ n * B) (by positivity)
            (fun s' => by have := ih (fun t => pi (t + 1)) s'; linarith)
          have h3 := mul_le_mul_of_nonneg_left h2 hg
          have h4 := hmax s (pi 0 s)
          rw [pow_succ]
          nlinarith
    have := key n pi s
    have := hN n hn
    linarith
  · have hgr : ∀ s, ∃ a, V s = backup prob reward gamma V s a := by
      intro s
      obtain ⟨a, ha⟩ := (vmaxLoop_spec (backup prob reward gamma V s) hA).1
      exact ⟨a, by rw [← ha]; exact (congrFun hV s).symm⟩
    choose pi hpi using hgr
    refine ⟨pi, fun s ε hε => ?_⟩
    obtain ⟨N, hN⟩ := pow_small hg hg1 B ε hB hε
    refine ⟨N, fun n hn => ?_⟩
    have key : ∀ n s, |expectedReturn prob reward gamma (fun _ => pi) n s - V s| ≤ gamma ^ n * B := by
      intro n
      induction n with
      | zero => intro s; simpa [expectedReturn] using hVB s
      | succ n ih =>
          intro s
          rw [return_backup, hpi s]
          have := backup_close (reward := reward) hP hg _ V (gamma ^ n * B) (by positivity) ih s (pi s)
          rw [pow_succ, mul_comm (gamma ^ n), mul_assoc]
          exact this
    exact (key n s).trans (hN n hn)

theorem optimal_le {V W : Fin S → ℝ} (hV : IsOptimalValue prob reward gamma V) (hW : IsOptimalValue prob reward gamma W)
    (s : Fin S) : V s ≤ W s := by
  obtain ⟨pi, hpi⟩ := hV.2
  by_contra hlt
  push Not at hlt
  have hε : 0 < (V s - W s) / 3 := by linarith
  obtain ⟨N1, h1⟩ := hpi s _ hε
  obtain ⟨N2, h2⟩ := hW.1 (fun _ => pi) s _ hε
  have a := abs_le.mp (h1 (max N1 N2) (le_max_left _ _))
  have b := h2 (max N1 N2) (le_max_right _ _)
  linarith

theorem optimal_unique {V W : Fin S → ℝ} (hV : IsOptimalValue prob reward gamma V) (hW : IsOptimalValue prob reward gamma W) :
    V = W := funext fun s => le_antisymm (optimal_le hV hW s) (optimal_le hW hV s)

theorem exists_optimal (hP : IsTransition prob) (hg : 0 ≤ gamma) (hg1 : gamma < 1) (hA : 0 < A) :
    ∃ V, sweep prob reward gamma V = V ∧ IsOptimalValue prob reward gamma V := by
  obtain ⟨V, hV⟩ := exists_fixed (sweep prob reward gamma) hg hg1 (fun u v c hc h => sweep_close hP hg hA u v c hc h)
  exact ⟨V, hV, fixed_optimal hP hg hg1 hA V hV⟩

/-! ### C41 -/

theorem norm2_le (d : Fin S → ℝ) (c : ℝ) (hc : 0 ≤ c) (h : ∀ s, |d s| ≤ c) : norm2 d ≤ S * c := by
  unfold norm2
  apply Real.sqrt_le_iff.mpr
  refine ⟨by positivity, ?_⟩
  calc ∑ s, d s ^ 2 ≤ ∑ _s : Fin S, c ^ 2 := by
        apply Finset.sum_le_sum
        intro s _
        rw [← sq_abs]; exact pow_le_pow_left₀ (abs_nonneg _) (h s) 2
    _ = S * c ^ 2 := by simp
    _ ≤ (S * c) ^ 2 := by
        rw [mul_pow]
        apply mul_le_mul_of_nonneg_right _ (sq_nonneg c)
        rcases Nat.eq_zero_or_pos S with h0 | h0
        · simp [h0]
        · have : (1 : ℝ) ≤ S := by exact_mod_cast h0
          nlinarith

theorem le_norm2 (d : Fin S → ℝ) (s : Fin S) : |d s| ≤ norm2 d := by
  unfold norm2
  apply Real.abs_le_sqrt
  exact Finset.single_le_sum (f := fun s => d s ^ 2) (fun s _ => sq_nonneg _) (Finset.mem_univ s)

theorem valueLoop_unique {eps : ℝ} {v r r' : Fin S → ℝ} (h : ValueLoop prob reward gamma eps v r)
    (h' : ValueLoop prob reward gamma eps v r') : r = r' := by
  induction h with
  | stop v h => cases h' with
    | stop _ _ => rfl
    | next _ _ hn _ => exact absurd h hn
  | next v r hn _ ih => cases h' with
    | stop _ h => exact absurd h hn
    | next _ _ _ hr => exact ih hr

/-- C41. Value iteration always ends, and its result is within `gamma * eps / (1 - gamma)` of the optimal value in every
state. -/
theorem C41_value_iteration (prob reward : Fin S → Fin A → Fin S → ℝ) (gamma eps : ℝ) (hP : IsTransition prob)
    (hg : 0 ≤ gamma) (hg1 : gamma < 1) (hA : 0 < A) (heps : 0 < eps) :
    ∃ V result, IsOptimalValue prob reward gamma V ∧ (∀ W, IsOptimalValue prob reward gamma W → W = V) ∧
      ValueIteration prob reward gamma eps result ∧
      (∀ result', ValueIteration prob reward gamma eps result' → result' = result) ∧
      ∀ s, |result s - V s| ≤ gamma * eps / (1 - gamma) := by
  obtain ⟨V, hV, hopt⟩ := exists_optimal (reward := reward) hP hg hg1 hA
  -- termination
  have hterm : ∀ (k : ℕ) (v : Fin S → ℝ) (c : ℝ), 0 ≤ c → (∀ s, |sweep prob reward gamma v s - v s| ≤ c) →
      S * (gamma ^ k * c) ≤ eps → ∃ r, ValueLoop prob reward gamma eps v r := by
    intro k
    induction k with
    | zero =>
        intro v c hc h hk
        refine ⟨_, .stop v ?_⟩
        have := norm2_le (fun s => sweep prob reward gamma v s - v s) c hc h
        simp at hk; linarith
    | succ k ih =>
        intro v c hc h hk
        by_cases hstop : norm2 (fun s => sweep prob reward gamma v s - v s) ≤ eps
        · exact ⟨_, .stop v hstop⟩
        · obtain ⟨r, hr⟩ := ih (sweep prob reward gamma v) (gamma * c) (by positivity)
            (fun s => sweep_close hP hg hA _ _ c hc h s) (by rw [pow_succ] at hk; linarith [hk, mul_assoc (gamma ^ k) gamma c])
          exact ⟨r, .next v r hstop hr⟩
  obtain ⟨c, hc, hcb⟩ := exists_bound (fun s => sweep prob reward gamma (fun _ => 0) s - 0)
  obtain ⟨N, hN⟩ := pow_small hg hg1 (S * c) eps (by positivity) heps
  obtain ⟨r, hr⟩ := hterm N (fun _ => 0) c hc hcb (by have := hN N (le_refl _); linarith [this, mul_left_comm (S : ℝ) (gamma ^ N) c])
  refine ⟨V, r, hopt, fun W hW => optimal_unique hW hopt, hr, fun r' hr' => valueLoop_unique hr' hr, ?_⟩
  -- accuracy
  have hacc : ∀ v r, ValueLoop prob reward gamma eps v r → ∀ s, |r s - V s| ≤ gamma * eps / (1 - gamma) := by
    intro v r h
    induction h with
    | next _ _ _ _ ih => exact ih
    | stop v h =>
        rcases Nat.eq_zero_or_pos S with h0 | h0
        · intro s; exact absurd s.2 (by omega)
        · haveI : Nonempty (Fin S) := ⟨⟨0, h0⟩⟩
          obtain ⟨s0, hs0⟩ := Finite.exists_max (fun s => |v s - V s|)
          have hclose : ∀ s, |sweep prob reward gamma v s - V s| ≤ gamma * |v s0 - V s0| := by
            intro s
            have := sweep_close (reward := reward) hP hg hA v V |v s0 - V s0| (abs_nonneg _) hs0 s
            rwa [congrFun hV s] at this
          have hd : |v s0 - V s0| ≤ eps + gamma * |v s0 - V s0| := by
            have e1 := (le_norm2 (fun s => sweep prob reward gamma v s - v s) s0).trans h
            have e2 := hclose s0
            have e3 : v s0 - V s0 = -(sweep prob reward gamma v s0 - v s0) + (sweep prob reward gamma v s0 - V s0) := by ring
            calc |v s0 - V s0| ≤ |-(sweep prob reward gamma v s0 - v s0)| + |sweep prob reward gamma v s0 - V s0| := by
                  rw [e3]; exact abs_add_le _ _
              _ ≤ eps + gamma * |v s0 - V s0| := by rw [abs_neg]; linarith
          intro s
          have h1 : 0 < 1 - gamma := by linarith
          have h2 : |v s0 - V s0| ≤ eps / (1 - gamma) := by rw [le_div_iff₀ h1]; linarith
          calc |sweep prob reward gamma v s - V s| ≤ gamma * |v s0 - V s0| := hclose s
            _ ≤ gamma * (eps / (1 - gamma)) := mul_le_mul_of_nonneg_left h2 hg
            _ = gamma * eps / (1 - gamma) := by ring
  exact hacc _ _ hr

/-! ### C42 -/

/-- If `d` is at least `gamma` times its own average from every state, it is not negative. -/
theorem comparison (hP : IsTransition prob) (hg : 0 ≤ gamma) (hg1 : gamma < 1) (policy : Fin S → Fin A) (d : Fin S → ℝ)
    (h : ∀ s, gamma * ∑ s', prob s (policy s) s' * d s' ≤ d s) (s : Fin S) : 0 ≤ d s := by
  haveI : Nonempty (Fin S) := ⟨s⟩
  obtain ⟨s0, hs0⟩ := Finite.exists_min d
  suffices h0 : 0 ≤ d s0 from h0.trans (hs0 s)
  by_contra hneg
  push Not at hneg
  have h1 := weighted_le hP s0 (policy s0) (fun s' => -d s') (-d s0) (by linarith) (fun s' => by have := hs0 s'; linarith)
  simp only [mul_neg, Finset.sum_neg_distrib] at h1
  have h2 := h s0
  have h3 : gamma * d s0 ≤ gamma * ∑ s', prob s0 (policy s0) s' * d s' := mul_le_mul_of_nonneg_left (by linarith) hg
  nlinarith

theorem solves_iff (policy : Fin S → Fin A) (V : Fin S → ℝ) :
    Solves prob reward gamma policy V ↔ ∀ s, V s = backup prob reward gamma V s (policy s) := by
  unfold Solves backup
  apply forall_congr'
  intro s
  have h1 : ∑ s', ((if s = s' then 1 else 0) - gamma * prob s (policy s) s') * V s' =
      V s - gamma * ∑ s', prob s (policy s) s' * V s' := by
    simp only [sub_mul, Finset.sum_sub_distrib, ite_mul, one_mul, zero_mul, Finset.sum_ite_eq, Finset.mem_univ, if_true,
      Finset.mul_sum, mul_assoc]
  have h2 : ∑ s', prob s (policy s) s' * (reward s (policy s) s' + gamma * V s') =
      ∑ s', prob s (policy s) s' * reward s (policy s) s' + gamma * ∑ s', prob s (policy s) s' * V s' := by
    rw [Finset.mul_sum, ← Finset.sum_add_distrib]
    apply Finset.sum_congr rfl
    intro s' _; ring
  rw [h1, h2]
  constructor <;> intro h <;> linarith

theorem solves_unique (hP : IsTransition prob) (hg : 0 ≤ gamma) (hg1 : gamma < 1) {policy : Fin S → Fin A} {V W : Fin S → ℝ}
    (hV : Solves prob reward gamma policy V) (hW : Solves prob reward gamma policy W) : V = W := by
  rw [solves_iff] at hV hW
  have key : ∀ V W : Fin S → ℝ, (∀ s, V s = backup prob reward gamma V s (policy s)) →
      (∀ s, W s = backup prob reward gamma W s (policy s)) → ∀ s, V s ≤ W s := by
    intro V W hV hW s
    have := comparison hP hg hg1 policy (fun s => W s - V s) (fun s => by
      have := backup_diff (prob := prob) (reward := reward) (gamma := gamma) W V s (policy s)
      rw [← hV s, ← hW s] at this
      exact this.ge) s
    linarith
  funext s
  exact le_antisymm (key V W hV hW s) (key W V hW hV s)

theorem solves_exists (hP : IsTransition prob) (hg : 0 ≤ gamma) (hg1 : gamma < 1) (policy : Fin S → Fin A) :
    ∃ V, Solves prob reward gamma policy V := by
  obtain ⟨V, hV⟩ := exists_fixed (fun v s => backup prob reward gamma v s (policy s)) hg hg1
    (fun u v c hc h s => backup_close hP hg u v c hc h s (policy s))
  exact ⟨V, (solves_iff policy V).mpr (fun s => (congrFun hV s).symm)⟩

/-- The solution of the linear system is the expected return of the policy. -/
theorem solves_value (hP : IsTransition prob) (hg : 0 ≤ gamma) (hg1 : gamma < 1) {policy : Fin S → Fin A} {V : Fin S → ℝ}
    (hV : Solves prob reward gamma policy V) : IsValueOf prob reward gamma policy V := by
  rw [solves_iff] at hV
  obtain ⟨B, hB, hVB⟩ := exists_bound V
  intro s ε hε
  obtain ⟨N, hN⟩ := pow_small hg hg1 B ε hB hε
  refine ⟨N, fun n hn => ?_⟩
  have key : ∀ n s, |expectedReturn prob reward gamma (fun _ => policy) n s - V s| ≤ gamma ^ n * B := by
    intro n
    induction n with
    | zero => intro s; simpa [expectedReturn] using hVB s
    | succ n ih =>
        intro s
        rw [return_backup, hV s]
        have := backup_close (reward := reward) hP hg _ V (gamma ^ n * B) (by positivity) ih s (policy s)
        rw [pow_succ, mul_comm (gamma ^ n), mul_assoc]
        exact this
  exact (key n s).trans (hN n hn)

theorem improveFold (va : Fin A → ℝ) (a0 : Fin A) (l : List (Fin A)) (st : Fin A × ℝ × Bool) (h1 : st.2.1 = va st.1)
    (h2 : va a0 ≤ st.2.1) (h3 : st.2.2 = true → va a0 < st.2.1) (h4 : st.2.2 = false → st.1 = a0) :
    (l.foldl (improveStep va) st).2.1 = va (l.foldl (improveStep va) st).1 ∧
    va a0 ≤ (l.foldl (improveStep va) st).2.1 ∧
    ((l.foldl (improveStep va) st).2.2 = true → va a0 < (l.foldl (improveStep va) st).2.1) ∧
    ((l.foldl (improveStep va) st).2.2 = false → (l.foldl (improveStep va) st).1 = a0 ∧ st.2.2 = false ∧
      ∀ a ∈ l, ¬ (va a > va a0 ∧ ¬ isClose (va a) (va a0))) := by
  induction l generalizing st with
  | nil => exact ⟨h1, h2, h3, fun h => ⟨h4 h, h, by simp⟩⟩
  | cons a l ih =>
      rw [List.foldl_cons]
      by_cases hc : a ≠ st.1 ∧ (va a > st.2.1 ∧ ¬ isClose (va a) st.2.1)
      · have e : improveStep va st a = (a, va a, true) := by rw [improveStep, if_pos hc.1, if_pos hc.2]
        rw [e]
        obtain ⟨g1, g2, g3, g4⟩ := ih (a, va a, true) rfl (by have := hc.2.1; simp only; linarith)
          (fun _ => by have := hc.2.1; simp only; linarith) (by simp)
        exact ⟨g1, g2, g3, fun h => absurd (g4 h).2.1 (by simp)⟩
      · have e : improveStep va st a = st := by
          rw [improveStep]
          split
          · rename_i hne; rw [if_neg (fun h => hc ⟨hne, h⟩)]
          · rfl
        rw [e]
        obtain ⟨g1, g2, g3, g4⟩ := ih st h1 h2 h3 h4
        refine ⟨g1, g2, g3, fun h => ?_⟩
        obtain ⟨k1, k2, k3⟩ := g4 h
        refine ⟨k1, k2, ?_⟩
        intro b hb
        simp only [List.mem_cons] at hb
        rcases hb with rfl | hb
        · have hst := h4 k2
          rw [h1, hst] at hc
          intro hgt
          apply hc
          refine ⟨?_, hgt⟩
          rintro rfl
          exact lt_irrefl _ hgt.1
        · exact k3 b hb

theorem improveState_spec (va : Fin A → ℝ) (a0 : Fin A) :
    va a0 ≤ va (improveState va a0 (va a0)).1 ∧
    ((improveState va a0 (va a0)).2.2 = true → va a0 < va (improveState va a0 (va a0)).1) ∧
    ((improveState va a0 (va a0)).2.2 = false → (improveState va a0 (va a0)).1 = a0 ∧
      ∀ a, va a ≤ va a0 ∨ isClose (va a) (va a0)) := by
  obtain ⟨g1, g2, g3, g4⟩ := improveFold va a0 (List.finRange A) (a0, va a0, false) rfl (le_refl _) (by simp) (by simp)
  refine ⟨g2.trans g1.le, fun h => by have := g3 h; rwa [g1] at this, fun h => ?_⟩
  obtain ⟨k1, _, k3⟩ := g4 h
  refine ⟨k1, fun a => ?_⟩
  have := k3 a (List.mem_finRange a)
  by_contra hcon
  push Not at hcon
  exact this ⟨hcon.1, hcon.2⟩

/-- C42. One improvement step never makes the value of a state smaller, and if it reports a change the value of some state
becomes larger. -/
theorem C42_monotone (hP : IsTransition prob) (hg : 0 ≤ gamma) (hg1 : gamma < 1) (policy : Fin S → Fin A) (V W : Fin S → ℝ)
    (hV : Solves prob reward gamma policy V) (hW : Solves prob reward gamma (improve prob reward gamma policy V).1 W) :
    (∀ s, V s ≤ W s) ∧ ((improve prob reward gamma policy V).2 = true → ∃ s, V s < W s) ∧
    ((improve prob reward gamma policy V).2 = false → (improve prob reward gamma policy V).1 = policy ∧
      ∀ s a, backup prob reward gamma V s a ≤ V s ∨ isClose (backup prob reward gamma V s a) (V s)) := by
  rw [solves_iff] at hV hW
  set pol := (improve prob reward gamma policy V).1 with hpol
  have hst : ∀ s, (improveState (backup prob reward gamma V s) (policy s) (V s)) =
      improveState (backup prob reward gamma V s) (policy s) (backup prob reward gamma V s (policy s)) := by
    intro s
    rw [← hV s]
  have hpols : ∀ s, pol s = (improveState (backup prob reward gamma V s) (policy s)
      (backup prob reward gamma V s (policy s))).1 := by
    intro s; rw [← hst]; rfl
  have hge : ∀ s, V s ≤ backup prob reward gamma V s (pol s) := by
    intro s
    have := (improveState_spec (backup prob reward gamma V s) (policy s)).1
    rw [← hpols s, ← hV s] at this; exact this
  have hdiff : ∀ s, W s - V s = (backup prob reward gamma V s (pol s) - V s) +
      gamma * ∑ s', prob s (pol s) s' * (W s' - V s') := by
    intro s
    have := backup_diff (prob := prob) (reward := reward) (gamma := gamma) W V s (pol s)
    rw [← hW s] at this; linarith
  have hnn : ∀ s, 0 ≤ W s - V s :=
    comparison hP hg hg1 pol (fun s => W s - V s) (fun s => by have := hdiff s; have := hge s; linarith)
  refine ⟨fun s => by have := hnn s; linarith, ?_, ?_⟩
  · intro hch
    simp only [improve, List.any_eq_true] at hch
    obtain ⟨s, _, hs⟩ := hch
    refine ⟨s, ?_⟩
    rw [hst s] at hs
    have h1 := (improveState_spec (backup prob reward gamma V s) (policy s)).2.1 hs
    rw [← hpols s, ← hV s] at h1
    have h2 : 0 ≤ gamma * ∑ s', prob s (pol s) s' * (W s' - V s') :=
      mul_nonneg hg (Finset.sum_nonneg (fun s' _ => mul_nonneg (hP.1 _ _ _) (hnn s')))
    have := hdiff s
    linarith
  · intro hch
    simp only [improve, List.any_eq_false] at hch
    have hall : ∀ s, (improveState (backup prob reward gamma V s) (policy s)
        (backup prob reward gamma V s (policy s))).2.2 = false := by
      intro s
      have := hch s (List.mem_finRange s)
      rw [hst s] at this
      simpa using this
    constructor
    · funext s
      rw [hpols s]
      exact ((improveState_spec (backup prob reward gamma V s) (policy s)).2.2 (hall s)).1
    · intro s a
      have := ((improveState_spec (backup prob reward gamma V s) (policy s)).2.2 (hall s)).2 a
      rwa [← hV s] at this

/-- C42. Policy iteration always ends, with one result. The returned value is the expected return of the returned policy,
and it differs from the optimal value by at most the tolerance of `np.isclose` divided by `1 - gamma`. Missing: the returned
policy need not be greedy, because gains within the tolerance are ignored (`C42_refuted`). -/
theorem C42_policy_iteration_partial (prob reward : Fin S → Fin A → Fin S → ℝ) (gamma : ℝ) (hP : IsTransition prob)
    (hg : 0 ≤ gamma) (hg1 : gamma < 1) (start : Fin S → Fin A) :
    ∃ V pol, PolicyLoop prob reward gamma start (V, pol) ∧
      (∀ r, PolicyLoop prob reward gamma start r → r = (V, pol)) ∧
      IsValueOf prob reward gamma pol V ∧
      ∀ Vopt, IsOptimalValue prob reward gamma Vopt → ∀ B, (∀ s, |V s| ≤ B) →
        ∀ s, V s ≤ Vopt s ∧ Vopt s ≤ V s + (1e-8 + 1e-5 * B) / (1 - gamma) := by
  -- uniqueness
  have huniq : ∀ pol r, PolicyLoop prob reward gamma pol r → ∀ r', PolicyLoop prob reward gamma pol r' → r = r' := by
    intro pol r h
    induction h with
    | stop pol V hv hch =>
        intro r' h'
        cases h' with
        | stop _ W hw _ => rw [solves_unique hP hg hg1 hv hw]
        | next _ W _ hw hch' _ =>
            rw [solves_unique hP hg hg1 hv hw] at hch
            rw [hch] at hch'; cases hch'
    | next pol V r hv hch _ ih =>
        intro r' h'
        cases h' with
        | stop _ W hw hch' =>
            rw [solves_unique hP hg hg1 hv hw] at hch
            rw [hch] at hch'; cases hch'
        | next _ W _ hw _ hr' =>
            rw [← solves_unique hP hg hg1 hv hw] at hr'
            exact ih _ hr'
  -- termination
  choose val hval using fun pol => solves_exists (reward := reward) hP hg hg1 pol
  have hterm : ∀ pol, ∃ V pol', PolicyLoop prob reward gamma pol (V, pol') ∧ Solves prob reward gamma pol' V ∧
      (improve prob reward gamma pol' V).2 = false := by
    have hwf : WellFounded (fun p q : Fin S → Fin A => ∑ s, val q s < ∑ s, val p s) := by
      haveI : IsTrans (Fin S → Fin A) (fun p q => ∑ s, val q s < ∑ s, val p s) :=
        ⟨fun a b c h1 h2 => lt_trans h2 h1⟩
      haveI : Std.Irrefl (fun p q : Fin S → Fin A => ∑ s, val q s < ∑ s, val p s) := ⟨fun a => lt_irrefl _⟩
      exact Finite.wellFounded_of_trans_of_irrefl _
    intro pol
    induction pol using hwf.induction with
    | _ pol ih =>
        rcases Bool.eq_false_or_eq_true (improve prob reward gamma pol (val pol)).2 with hch | hch
        · have hm := C42_monotone hP hg hg1 pol (val pol) (val (improve prob reward gamma pol (val pol)).1) (hval _) (hval _)
          have hlt : ∑ s, val pol s < ∑ s, val (improve prob reward gamma pol (val pol)).1 s := by
            obtain ⟨s, hs⟩ := hm.2.1 hch
            exact Finset.sum_lt_sum (fun s _ => hm.1 s) ⟨s, Finset.mem_univ s, hs⟩
          obtain ⟨V, pol', h1, h2, h3⟩ := ih _ hlt
          exact ⟨V, pol', .next pol (val pol) _ (hval _) hch h1, h2, h3⟩
        · have hm := C42_monotone hP hg hg1 pol (val pol) (val (improve prob reward gamma pol (val pol)).1) (hval _) (hval _)
          have heq := (hm.2.2 hch).1
          refine ⟨val pol, (improve prob reward gamma pol (val pol)).1, .stop pol (val pol) (hval _) hch, ?_, ?_⟩
          · rw [heq]; exact hval pol
          · rw [heq]; exact hch
  obtain ⟨V, pol, h1, h2, h3⟩ := hterm start
  refine ⟨V, pol, h1, fun r hr => huniq _ _ hr _ h1, solves_value hP hg hg1 h2, ?_⟩
  intro Vopt hopt B hB
  obtain ⟨W, hW⟩ := solves_exists (reward := reward) hP hg hg1 (improve prob reward gamma pol V).1
  obtain ⟨hpol, hgreedy⟩ := (C42_monotone hP hg hg1 pol V W h2 hW).2.2 h3
  intro s
  have hA : 0 < A := lt_of_le_of_lt (Nat.zero_le _) (pol s).2
  obtain ⟨V', hV', hopt'⟩ := exists_optimal (reward := reward) hP hg hg1 hA
  have hVV : Vopt = V' := optimal_unique hopt hopt'
  subst hVV
  have hB0 : 0 ≤ B := (abs_nonneg _).trans (hB s)
  have hmax : ∀ s a, backup prob reward gamma Vopt s a ≤ Vopt s := by
    intro s a
    have := (vmaxLoop_spec (backup prob reward gamma Vopt s) hA).2 a
    rw [← congrFun hV' s]; exact this
  have hatt : ∀ s, ∃ a, Vopt s = backup prob reward gamma Vopt s a := by
    intro s
    obtain ⟨a, ha⟩ := (vmaxLoop_spec (backup prob reward gamma Vopt s) hA).1
    exact ⟨a, by rw [← ha]; exact (congrFun hV' s).symm⟩
  rw [solves_iff] at h2
  constructor
  · have := comparison hP hg hg1 pol (fun s => Vopt s - V s) (fun s => by
      have e := backup_diff (prob := prob) (reward := reward) (gamma := gamma) Vopt V s (pol s)
      rw [← h2 s] at e
      have := hmax s (pol s)
      linarith) s
    linarith
  · choose pi hpi using hatt
    set tol : ℝ := 1e-8 + 1e-5 * B with htol
    have htol0 : 0 ≤ tol := by rw [htol]; positivity
    have h1g : 0 < 1 - gamma := by linarith
    set c := tol / (1 - gamma) with hc
    have hc0 : 0 ≤ c := by positivity
    have hcmul : c * (1 - gamma) = tol := by rw [hc]; field_simp
    have hle : ∀ s a, backup prob reward gamma V s a ≤ V s + tol := by
      intro s a
      rcases hgreedy s a with h | h
      · linarith
      · have h' := (abs_le.mp h).2
        have : |V s| ≤ B := hB s
        rw [htol]
        have : (1e-5 : ℝ) * |V s| ≤ 1e-5 * B := mul_le_mul_of_nonneg_left this (by norm_num)
        linarith
    have := comparison hP hg hg1 pi (fun s => V s + c - Vopt s) (fun s => by
      have e := backup_diff (prob := prob) (reward := reward) (gamma := gamma) Vopt V s (pi s)
      rw [← hpi s] at e
      have h5 := hle s (pi s)
      have h6 : ∑ s', prob s (pi s) s' * (V s' + c - Vopt s') =
          c * (∑ s', prob s (pi s) s') - ∑ s', prob s (pi s) s' * (Vopt s' - V s') := by
        rw [Finset.mul_sum, ← Finset.sum_sub_distrib]
        apply Finset.sum_congr rfl
        intro s' _; ring
      have h7 : c * (∑ s', prob s (pi s) s') ≤ c := by
        have := mul_le_mul_of_nonneg_left (hP.2 s (pi s)) hc0
        linarith
      have h8 := mul_le_mul_of_nonneg_left h7 hg
      rw [h6, mul_sub]
      linarith) s
    linarith

/-- Two actions in one state, with rewards 1 and 1.000001; the second is better. -/
def exampleProb : Fin 1 → Fin 2 → Fin 1 → ℝ := fun _ _ _ => 1
def exampleReward : Fin 1 → Fin 2 → Fin 1 → ℝ := fun _ a _ => if a = 0 then 1 else 1.000001

theorem example_transition : IsTransition exampleProb := by
  constructor
  · intro s a s'; simp [exampleProb]
  · intro s a; simp [exampleProb]

/-- C42. The returned policy need not be optimal: in the example policy iteration returns the worse action. -/
theorem C42_refuted : PolicyLoop exampleProb exampleReward 0 (fun _ => 0) (fun _ => 1, fun _ => 0) ∧
    ¬ ∀ s a, backup exampleProb exampleReward 0 (fun _ => 1) s a ≤ (fun _ => (1 : ℝ)) s := by
  have hb : ∀ s a, backup exampleProb exampleReward 0 (fun _ => 1) s a = if a = 0 then 1 else 1.000001 := by
    intro s a; simp [backup, exampleProb, exampleReward]
  have hs : ∀ s : Fin 1, improveState (backup exampleProb exampleReward 0 (fun _ => 1) s) 0 1 = (0, 1, false) := by
    intro s
    have hclose : isClose (1.000001 : ℝ) 1 := by
      unfold isClose
      rw [abs_of_nonneg (by norm_num), abs_of_nonneg (by norm_num)]; norm_num
    have hl : List.finRange 2 = [0, 1] := by decide
    unfold improveState
    rw [hl]
    have e0 : improveStep (backup exampleProb exampleReward 0 (fun _ => 1) s) (0, 1, false) 0 = (0, 1, false) := by
      simp [improveStep]
    have e1 : improveStep (backup exampleProb exampleReward 0 (fun _ => 1) s) (0, 1, false) 1 = (0, 1, false) := by
      rw [improveStep, if_pos (by decide), if_neg]
      rw [hb, if_neg (by decide)]
      exact fun h => h.2 hclose
    rw [List.foldl_cons, e0, List.foldl_cons, e1, List.foldl_nil]
  constructor
  · have h1 : (improve exampleProb exampleReward 0 (fun _ => 0) (fun _ => 1)).1 = fun _ => 0 := by
      funext s; simp only [improve]; rw [hs]
    have h2 : (improve exampleProb exampleReward 0 (fun _ => 0) (fun _ => 1)).2 = false := by
      simp only [improve, List.any_eq_false]
      intro s _; rw [hs]; simp
    have := PolicyLoop.stop (prob := exampleProb) (reward := exampleReward) (gamma := 0) (fun _ => 0) (fun _ => 1) (by
      rw [solves_iff]; intro s; rw [hb]; simp) h2
    rwa [h1] at this
  · intro h
    have := h 0 1
    rw [hb] at this
    norm_num at this

example : IsTransition exampleProb ∧ (0 : ℝ) ≤ 0.9 ∧ (0.9 : ℝ) < 1 ∧ 0 < 2 := ⟨example_transition, by norm_num⟩

end

end Verif.Solvers
