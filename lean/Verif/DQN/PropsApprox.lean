/-
C90 with a regressor that is not exact: the errors of the fits of FQI do not accumulate beyond a geometric sum, and the greedy policy of the result is nearly optimal.
-/
import Verif.DQN.PropsBatch
import Mathlib.Algebra.Order.Field.GeomSum

namespace Verif.DQN

open Verif.TD (Trans rowMax IsMax rowMax_isMax isMax_unique isMax_close DetMDP Optimal)

variable {S A : Type} [DecidableEq S] [DecidableEq A] [Fintype A] [Nonempty A] {W : Type}

/-- The discounted rewards of the first `n` steps from `s` of an agent that takes the action `π s` in state `s`. -/
def returnOf (mdp : DetMDP S A) (γ : ℝ) (π : S → A) : ℕ → S → ℝ
  | 0, _ => 0
  | n + 1, s => mdp.reward s (π s) + if mdp.absorbing s (π s) then 0 else γ * returnOf mdp γ π n (mdp.next s (π s))

/-- The Bellman targets of the dataset of a deterministic problem. -/
theorem targets_det (mdp : DetMDP S A) (γ : ℝ) (predict : S → A → ℝ) (batch : List (Trans S A)) (hdata : ∀ t ∈ batch, t = mdp.trans t.state t.action) :
    targets γ false batch (dqnNext predict batch) = batch.map (fun t => (fun s a => mdp.reward s a + (if mdp.absorbing s a then 0 else
      γ * rowMax (predict (mdp.next s a)))) t.state t.action) := by
  obtain ⟨hl, h⟩ := maskedMax_each γ false batch (fun t => predict t.next)
  have hl' : (targets γ false batch (dqnNext predict batch)).length = batch.length := hl
  apply List.ext_getElem?
  intro i
  rcases Nat.lt_or_ge i batch.length with hi | hi
  · have hy : (targets γ false batch (dqnNext predict batch))[i]? = some ((targets γ false batch (dqnNext predict batch))[i]'(by omega)) := List.getElem?_eq_getElem _
    have := h i _ _ (List.getElem?_eq_getElem hi) hy
    rw [hy, List.getElem?_map, List.getElem?_eq_getElem hi, Option.map_some, Option.some.injEq, this]
    have ht := hdata _ (List.getElem_mem hi)
    have hr := congrArg Trans.reward ht
    have ha := congrArg Trans.absorbing ht
    have hn := congrArg Trans.next ht
    simp only [DetMDP.trans] at hr ha hn
    dsimp only
    rw [← hr, ← ha, ← hn]
    simp
  · rw [List.getElem?_eq_none (by omega), List.getElem?_eq_none (by simpa using hi)]

/-- **C90**, approximate: let the dataset contain every transition of a deterministic problem and let each fit of the regressor be within `ε` of its targets. After `k + 1`
iterations, in however many calls of `fit`, the prediction differs from the optimal values by at most `gamma ^ (k + 1)` times their bound plus
`ε (1 + gamma + ... + gamma ^ k)`. -/
theorem C90_approximate (mdp : DetMDP S A) (γ : ℝ) (h0 : 0 ≤ γ) (Q : S → A → ℝ) (hQ : Optimal mdp γ Q) (B : ℝ) (hB : ∀ s a, |Q s a| ≤ B)
    (predict : W → S → A → ℝ) (fitNet : W → List (Trans S A) → List ℝ → W) (batch : List (Trans S A))
    (hdata : ∀ t ∈ batch, t = mdp.trans t.state t.action) (hall : ∀ s a, mdp.trans s a ∈ batch) (ε : ℝ)
    (hfit : ∀ w (f : S → A → ℝ), ∀ t ∈ batch,
      |predict (fitNet w batch (batch.map (fun t => f t.state t.action))) t.state t.action - f t.state t.action| ≤ ε)
    (w0 : W) (k : ℕ) :
    ∃ w q, fqiLoop γ predict fitNet batch (k + 1) (w0, none) = (w, some q) ∧
      ∀ s a, |predict w s a - Q s a| ≤ γ ^ (k + 1) * B + ε * ∑ i ∈ Finset.range (k + 1), γ ^ i := by
  obtain ⟨V, hV, hQV⟩ := hQ
  have hVB : ∀ s, |V s| ≤ B := by
    intro s
    obtain ⟨_, a, ha⟩ := hV s
    rw [← ha]
    exact hB s a
  have hpred : ∀ w (f : S → A → ℝ) s a, |predict (fitNet w batch (batch.map (fun t => f t.state t.action))) s a - f s a| ≤ ε := fun w f s a => hfit w f _ (hall s a)
  induction k with
  | zero =>
    refine ⟨_, _, rfl, fun s a => ?_⟩
    have e : batch.map (·.reward) = batch.map (fun t => mdp.reward t.state t.action) := by
      apply List.map_congr_left
      intro t ht
      have := congrArg Trans.reward (hdata t ht)
      simpa [DetMDP.trans] using this
    show |predict (fitNet w0 batch (batch.map (·.reward))) s a - Q s a| ≤ _
    rw [e]
    have h1 := hpred w0 mdp.reward s a
    have h2 : |mdp.reward s a - Q s a| ≤ γ * B := by
      rw [hQV s a]
      have : mdp.reward s a - (mdp.reward s a + γ * (if mdp.absorbing s a then 0 else V (mdp.next s a))) =
          -(γ * (if mdp.absorbing s a then 0 else V (mdp.next s a))) := by ring
      rw [this, abs_neg, abs_mul, abs_of_nonneg h0]
      apply mul_le_mul_of_nonneg_left _ h0
      split
      · simpa using le_trans (abs_nonneg _) (hB s a)
      · exact hVB _
    have := abs_sub_le (predict (fitNet w0 batch (batch.map (fun t => mdp.reward t.state t.action))) s a) (mdp.reward s a) (Q s a)
    simp only [zero_add, pow_one, Finset.range_one, Finset.sum_singleton, pow_zero, mul_one]
    linarith
  | succ k ih =>
    obtain ⟨w, q, hrun, hclose⟩ := ih
    rw [fqiLoop_succ, hrun]
    refine ⟨_, _, rfl, fun s a => ?_⟩
    show |predict (fitNet w batch (targets γ false batch (dqnNext (predict w) batch))) s a - Q s a| ≤ _
    rw [targets_det mdp γ (predict w) batch hdata]
    have h1 := hpred w (fun s a => mdp.reward s a + (if mdp.absorbing s a then 0 else γ * rowMax (predict w (mdp.next s a)))) s a
    set D := γ ^ (k + 1) * B + ε * ∑ i ∈ Finset.range (k + 1), γ ^ i with hD
    have hD0 : 0 ≤ D := le_trans (abs_nonneg _) (hclose s a)
    have h2 : |(fun s a => mdp.reward s a + (if mdp.absorbing s a then 0 else γ * rowMax (predict w (mdp.next s a)))) s a - Q s a| ≤ γ * D := by
      rw [hQV s a]
      dsimp only
      cases mdp.absorbing s a with
      | true =>
        simp only [if_true, mul_zero, add_zero, sub_self, abs_zero]
        exact mul_nonneg h0 hD0
      | false =>
        simp only [Bool.false_eq_true, if_false]
        have : mdp.reward s a + γ * rowMax (predict w (mdp.next s a)) - (mdp.reward s a + γ * V (mdp.next s a)) =
            γ * (rowMax (predict w (mdp.next s a)) - V (mdp.next s a)) := by ring
        rw [this, abs_mul, abs_of_nonneg h0]
        exact mul_le_mul_of_nonneg_left (isMax_close (fun a => hclose _ a) (rowMax_isMax _) (hV _)) h0
    have h3 := abs_sub_le (predict (fitNet w batch (batch.map (fun t => (fun s a => mdp.reward s a + (if mdp.absorbing s a then 0 else
      γ * rowMax (predict w (mdp.next s a)))) t.state t.action))) s a) ((fun s a => mdp.reward s a + (if mdp.absorbing s a then 0 else
      γ * rowMax (predict w (mdp.next s a)))) s a) (Q s a)
    have h4 : γ ^ (k + 1 + 1) * B + ε * ∑ i ∈ Finset.range (k + 1 + 1), γ ^ i = γ * D + ε := by
      rw [hD, Finset.sum_range_succ' _ (k + 1)]
      simp only [pow_succ' γ, pow_zero, ← Finset.mul_sum]
      ring
    rw [h4]
    linarith

omit [DecidableEq S] [DecidableEq A] [Fintype A] [Nonempty A] in
theorem greedy_loss (mdp : DetMDP S A) (γ : ℝ) (h0 : 0 ≤ γ) (Q : S → A → ℝ) (V : S → ℝ) (hV : ∀ s, IsMax (Q s) (V s))
    (hQV : ∀ s a, Q s a = mdp.reward s a + γ * (if mdp.absorbing s a then 0 else V (mdp.next s a))) (B : ℝ) (hB : ∀ s a, |Q s a| ≤ B)
    (q : S → A → ℝ) (δ : ℝ) (hq : ∀ s a, |q s a - Q s a| ≤ δ) (π : S → A) (hπ : ∀ s a, q s a ≤ q s (π s)) :
    ∀ n s, V s ≤ returnOf mdp γ π n s + γ ^ n * B + 2 * δ * ∑ i ∈ Finset.range n, γ ^ i
  | 0, s => by
    obtain ⟨_, a, ha⟩ := hV s
    have := abs_le.1 (hB s a)
    simp only [returnOf, pow_zero, Finset.range_zero, Finset.sum_empty]
    linarith
  | n + 1, s => by
    obtain ⟨_, a, ha⟩ := hV s
    have h1 := abs_le.1 (hq s a)
    have h2 := abs_le.1 (hq s (π s))
    have h3 := hπ s a
    have h4 : V s ≤ Q s (π s) + 2 * δ := by linarith
    have hδ : 0 ≤ δ := le_trans (abs_nonneg _) (hq s a)
    have hB0 : 0 ≤ B := le_trans (abs_nonneg _) (hB s a)
    have hsum : 2 * δ * ∑ i ∈ Finset.range (n + 1), γ ^ i = γ * (2 * δ * ∑ i ∈ Finset.range n, γ ^ i) + 2 * δ := by
      rw [Finset.sum_range_succ' _ n]
      simp only [pow_succ' γ, pow_zero, ← Finset.mul_sum]
      ring
    have hs0 : 0 ≤ 2 * δ * ∑ i ∈ Finset.range n, γ ^ i := mul_nonneg (by linarith) (Finset.sum_nonneg fun _ _ => pow_nonneg h0 _)
    rw [hsum, returnOf]
    rw [hQV] at h4
    cases hab : mdp.absorbing s (π s) with
    | true =>
      simp only [hab, if_true, mul_zero, add_zero] at h4 ⊢
      have := mul_nonneg (pow_nonneg h0 (n + 1)) hB0
      have := mul_nonneg h0 hs0
      linarith
    | false =>
      simp only [hab, Bool.false_eq_true, if_false] at h4 ⊢
      have ih := mul_le_mul_of_nonneg_left (greedy_loss mdp γ h0 Q V hV hQV B hB q δ hq π hπ n (mdp.next s (π s))) h0
      have : γ * (returnOf mdp γ π n (mdp.next s (π s)) + γ ^ n * B + 2 * δ * ∑ i ∈ Finset.range n, γ ^ i) =
          γ * returnOf mdp γ π n (mdp.next s (π s)) + γ ^ (n + 1) * B + γ * (2 * δ * ∑ i ∈ Finset.range n, γ ^ i) := by ring
      linarith

/-- **C90**, the policy: an agent that acts greedily on the predictions after `k + 1` iterations of FQI, each within `ε` of its targets, collects in `n` steps a discounted return
that is below the optimal value by at most `gamma ^ n B` (the steps not yet made) plus `2 / (1 - gamma)` times `gamma ^ (k + 1) B + ε / (1 - gamma)`. -/
theorem C90_greedy (mdp : DetMDP S A) (γ : ℝ) (h0 : 0 ≤ γ) (h1 : γ < 1) (Q : S → A → ℝ) (hQ : Optimal mdp γ Q) (B : ℝ) (hB : ∀ s a, |Q s a| ≤ B)
    (predict : W → S → A → ℝ) (fitNet : W → List (Trans S A) → List ℝ → W) (batch : List (Trans S A))
    (hdata : ∀ t ∈ batch, t = mdp.trans t.state t.action) (hall : ∀ s a, mdp.trans s a ∈ batch) (ε : ℝ)
    (hfit : ∀ w (f : S → A → ℝ), ∀ t ∈ batch,
      |predict (fitNet w batch (batch.map (fun t => f t.state t.action))) t.state t.action - f t.state t.action| ≤ ε)
    (w0 w : W) (k : ℕ) (q : Option (List ℝ)) (hrun : fqiLoop γ predict fitNet batch (k + 1) (w0, none) = (w, q))
    (π : S → A) (hπ : ∀ s a, predict w s a ≤ predict w s (π s)) (s : S) (v : ℝ) (hv : IsMax (Q s) v) (n : ℕ) :
    v - returnOf mdp γ π n s ≤ γ ^ n * B + 2 / (1 - γ) * (γ ^ (k + 1) * B + ε / (1 - γ)) := by
  obtain ⟨w', q', hrun', hclose⟩ := C90_approximate mdp γ h0 Q hQ B hB predict fitNet batch hdata hall ε hfit w0 k
  rw [hrun] at hrun'
  cases hrun'
  obtain ⟨V, hV, hQV⟩ := hQ
  have hvV : v = V s := isMax_unique hv (hV s)
  have h1' : 0 < 1 - γ := by linarith
  have hgeom : ∀ j, ∑ i ∈ Finset.range j, γ ^ i ≤ 1 / (1 - γ) := by
    intro j
    rw [le_div_iff₀ h1', geom_sum_mul_neg]
    have := pow_nonneg h0 j
    linarith
  have hε : 0 ≤ ε := by
    obtain ⟨a⟩ := (inferInstance : Nonempty A)
    exact le_trans (abs_nonneg _) (hfit w0 Q _ (hall s a))
  have hclose' : ∀ s a, |predict w s a - Q s a| ≤ γ ^ (k + 1) * B + ε / (1 - γ) := fun s a => by
    refine (hclose s a).trans ?_
    have := mul_le_mul_of_nonneg_left (hgeom (k + 1)) hε
    rw [mul_one_div] at this
    linarith
  have hg := greedy_loss mdp γ h0 Q V hV hQV B hB (predict w) _ hclose' π hπ n s
  obtain ⟨a⟩ := (inferInstance : Nonempty A)
  have hδ := le_trans (abs_nonneg _) (hclose' s a)
  have h5 := mul_le_mul_of_nonneg_left (hgeom n) (show 0 ≤ 2 * (γ ^ (k + 1) * B + ε / (1 - γ)) by linarith)
  have h6 : 2 * (γ ^ (k + 1) * B + ε / (1 - γ)) * (1 / (1 - γ)) = 2 / (1 - γ) * (γ ^ (k + 1) * B + ε / (1 - γ)) := by ring
  rw [h6] at h5
  rw [hvV]
  linarith

/-- C90, not vacuous: a regressor that stores its targets with an error of 1/100, on the problem with two states. After ten iterations an agent that acts greedily on its
predictions loses less than 1/10 in the long run: the return of `n` steps from state `false` is at least `3 - 1/10 - 4 / 2 ^ n`. -/
example (π : Bool → Bool) (w : Bool → Bool → ℝ) (q : Option (List ℝ))
    (hrun : fqiLoop (1 / 2) (fun w s a => w s a + 1 / 100) lookup
      [demoMDP.trans false false, demoMDP.trans false true, demoMDP.trans true false, demoMDP.trans true true] (9 + 1) (fun _ _ => 0, none) = (w, q))
    (hπ : ∀ s a, w s a + 1 / 100 ≤ w s (π s) + 1 / 100) (n : ℕ) : 3 - returnOf demoMDP (1 / 2) π n false ≤ (1 / 2) ^ n * 4 + 1 / 10 := by
  have := C90_greedy demoMDP (1 / 2) (by norm_num) (by norm_num) demoQ ⟨fun s => if s then 4 else 3, by
      intro s
      cases s
      · exact ⟨fun a => by cases a <;> norm_num [demoQ], true, by norm_num [demoQ]⟩
      · exact ⟨fun a => by cases a <;> norm_num [demoQ], true, by norm_num [demoQ]⟩, by
      intro s a
      cases s <;> cases a <;> norm_num [demoQ, demoMDP]⟩ 4 (by intro s a; cases s <;> cases a <;> norm_num [demoQ, abs_of_pos])
    (fun (w : Bool → Bool → ℝ) s a => w s a + 1 / 100) lookup _ (by
      intro t ht
      simp only [List.mem_cons, List.not_mem_nil, or_false] at ht
      rcases ht with rfl | rfl | rfl | rfl <;> rfl) (by intro s a; cases s <;> cases a <;> simp) (1 / 100) (by
      intro w f t ht
      rw [lookup_exact w f _ t ht]
      norm_num) (fun _ _ => 0) w 9 q hrun π hπ false 3 ⟨fun a => by cases a <;> norm_num [demoQ], true, by norm_num [demoQ]⟩ n
  norm_num at this ⊢
  linarith

end Verif.DQN
