/-
Properties of the targets of the deep Q-learning agents and of their networks (C89), and of the batch methods
(C55, C56, C90).
-/
import Verif.DQN.Spec
import Verif.TD.Props
import Mathlib.Tactic.Ring
import Mathlib.Tactic.Linarith
import Mathlib.Tactic.FieldSimp
import Mathlib.Tactic.NormNum
import Mathlib.Data.List.GetD

namespace Verif.DQN

open Verif.TD (Trans rowMax IsMax rowMax_isMax isMax_unique DetMDP Optimal)

variable {S A : Type} [DecidableEq S] [DecidableEq A]

/-! ### Rows and masks -/

theorem any_false {batch : List (Trans S A)} (h : ¬ batch.any (·.absorbing) = true) {i : ℕ} {t : Trans S A} (ht : batch[i]? = some t) :
    t.absorbing = false := by
  by_contra hc
  apply h
  rw [List.any_eq_true]
  exact ⟨t, List.mem_of_getElem? ht, by simpa using hc⟩

theorem maskRows_spec (batch : List (Trans S A)) (q : List (A → ℝ)) (hl : q.length = batch.length) :
    (maskRows batch q).length = batch.length ∧
      ∀ (i : ℕ) t row, batch[i]? = some t → q[i]? = some row →
        (maskRows batch q)[i]? = some (fun a => if t.absorbing then 0 else row a) := by
  unfold maskRows
  by_cases h : batch.any (·.absorbing) = true
  · rw [if_pos h]
    refine ⟨by rw [List.length_zipWith, hl, min_self], fun i t row ht hr => ?_⟩
    rw [List.getElem?_zipWith, ht, hr]
    simp only [Option.some.injEq]
    funext a
    rcases t.absorbing.eq_false_or_eq_true with hb | hb <;> simp [alive, hb]
  · rw [if_neg h]
    refine ⟨hl, fun i t row ht hr => ?_⟩
    rw [hr, any_false h ht]
    simp

theorem maskVals_spec (batch : List (Trans S A)) (q : List ℝ) (hl : q.length = batch.length) :
    (maskVals batch q).length = batch.length ∧
      ∀ (i : ℕ) t v, batch[i]? = some t → q[i]? = some v →
        (maskVals batch q)[i]? = some (if t.absorbing then 0 else v) := by
  unfold maskVals
  by_cases h : batch.any (·.absorbing) = true
  · rw [if_pos h]
    refine ⟨by rw [List.length_zipWith, hl, min_self], fun i t v ht hr => ?_⟩
    rw [List.getElem?_zipWith, ht, hr]
    rcases t.absorbing.eq_false_or_eq_true with hb | hb <;> simp [alive, hb]
  · rw [if_neg h]
    refine ⟨hl, fun i t v ht hr => ?_⟩
    rw [hr, any_false h ht]
    simp

theorem targets_each (γ : ℝ) (clip : Bool) (batch : List (Trans S A)) (qNext : List ℝ) (P : Trans S A → ℝ → Prop)
    (hl : qNext.length = batch.length)
    (h : ∀ (i : ℕ) t v, batch[i]? = some t → qNext[i]? = some v → P t (clipReward clip t.reward + γ * v)) :
    Each batch (targets γ clip batch qNext) P := by
  refine ⟨by rw [targets, List.length_zipWith, hl, min_self], fun i t y ht hy => ?_⟩
  have hi : i < qNext.length := by
    rw [hl]
    exact (List.getElem?_eq_some_iff.mp ht).1
  rw [targets, List.getElem?_zipWith, ht, List.getElem?_eq_getElem hi] at hy
  cases hy
  exact h i t _ ht (List.getElem?_eq_getElem hi)

section

variable [Fintype A] [Nonempty A]

theorem rowMax_zero (b : Bool) (row : A → ℝ) : rowMax (fun a => if b then 0 else row a) = if b then 0 else rowMax row := by
  cases b
  · simp
  · simp only [if_true]
    refine isMax_unique (rowMax_isMax _) ⟨fun _ => le_rfl, ?_⟩
    obtain ⟨a⟩ := ‹Nonempty A›
    exact ⟨a, rfl⟩

theorem maskedMax_each (γ : ℝ) (clip : Bool) (batch : List (Trans S A)) (q : Trans S A → A → ℝ) :
    Each batch (targets γ clip batch ((maskRows batch (batch.map q)).map rowMax))
      (fun t y => IsTarget γ clip t (rowMax (q t)) y) := by
  obtain ⟨hl, hm⟩ := maskRows_spec batch (batch.map q) (by simp)
  apply targets_each
  · rw [List.length_map, hl]
  · intro i t v ht hv
    rw [List.getElem?_map, hm i t (q t) ht (by rw [List.getElem?_map, ht]; rfl)] at hv
    simp only [Option.map_some, Option.some.injEq] at hv
    rw [rowMax_zero] at hv
    subst hv
    unfold IsTarget clipReward
    rcases t.absorbing.eq_false_or_eq_true with hb | hb <;> simp [hb]

/-- **C89**, DQN: the target of a transition is its reward, plus the discounted largest value of the target network at
the next state unless the transition is absorbing. -/
theorem C89_dqn (γ : ℝ) (clip : Bool) (qt : S → A → ℝ) (batch : List (Trans S A)) :
    Each batch (targets γ clip batch (dqnNext qt batch))
      (fun t y => ∃ v, IsMax (qt t.next) v ∧ IsTarget γ clip t v y) := by
  obtain ⟨hl, h⟩ := maskedMax_each γ clip batch (fun t => qt t.next)
  exact ⟨hl, fun i t y ht hy => ⟨_, rowMax_isMax _, h i t y ht hy⟩⟩

/-- **C89**, DoubleDQN: the action is chosen by the online network and evaluated by the target network. -/
theorem C89_double (argmax : (A → ℝ) → A) (hg : Greedy argmax) (γ : ℝ) (clip : Bool) (q qt : S → A → ℝ) (batch : List (Trans S A)) :
    Each batch (targets γ clip batch (doubleNext argmax q qt batch))
      (fun t y => ∃ a, IsMax (q t.next) (q t.next a) ∧ IsTarget γ clip t (qt t.next a) y) := by
  unfold doubleNext
  dsimp only
  obtain ⟨hl, hm⟩ := maskVals_spec batch (List.zipWith (fun t a => qt t.next a) batch (batch.map (fun t => argmax (q t.next))))
    (by simp)
  apply targets_each
  · exact hl
  · intro i t v ht hv
    rw [hm i t (qt t.next (argmax (q t.next))) ht (by rw [List.getElem?_zipWith, List.getElem?_map, ht]; rfl)] at hv
    cases hv
    refine ⟨argmax (q t.next), ⟨hg _, _, rfl⟩, ?_⟩
    unfold IsTarget clipReward
    rcases t.absorbing.eq_false_or_eq_true with hb | hb <;> simp [hb]

/-- **C89**, AveragedDQN: the largest value of the average of the used target networks. -/
theorem C89_averaged (γ : ℝ) (clip : Bool) (n : ℕ) (qts : ℕ → S → A → ℝ) (batch : List (Trans S A)) :
    Each batch (targets γ clip batch (averagedNext n qts batch))
      (fun t y => ∃ v, IsMax (fun a => (∑ i ∈ Finset.range n, qts i t.next a) / (n : ℝ)) v ∧ IsTarget γ clip t v y) := by
  obtain ⟨hl, h⟩ := maskedMax_each γ clip batch (fun t a => (∑ i ∈ Finset.range n, qts i t.next a) / (n : ℝ))
  exact ⟨hl, fun i t y ht hy => ⟨_, rowMax_isMax _, h i t y ht hy⟩⟩

/-- **C89**, MaxminDQN: the largest of the smallest values the target networks give to an action. -/
theorem C89_maxmin (γ : ℝ) (clip : Bool) (n : ℕ) (qts : ℕ → S → A → ℝ) (batch : List (Trans S A)) :
    Each batch (targets γ clip batch (maxminNext n qts batch))
      (fun t y => ∃ low v, (∀ a, (∀ i ≤ n, low a ≤ qts i t.next a) ∧ ∃ i ≤ n, low a = qts i t.next a) ∧
        IsMax low v ∧ IsTarget γ clip t v y) := by
  obtain ⟨hl, h⟩ := C89_dqn γ clip (fun s a => (Finset.range (n + 1)).inf' ⟨0, by simp⟩ (fun i => qts i s a)) batch
  refine ⟨hl, fun i t y ht hy => ?_⟩
  obtain ⟨v, hv, hy⟩ := h i t y ht hy
  refine ⟨_, v, fun a => ⟨fun i hi => Finset.inf'_le _ (by simp; omega), ?_⟩, hv, hy⟩
  obtain ⟨i, hi, e⟩ := Finset.exists_mem_eq_inf' (s := Finset.range (n + 1)) ⟨0, by simp⟩ (fun i => qts i t.next a)
  exact ⟨i, by simp at hi; omega, e⟩

/-- **C89**, QuantileDQN: every quantile of the target is the reward plus the discounted quantile of the best action at
the next state; for an absorbing transition all of them are the reward. -/
theorem C89_quantile {n : ℕ} (argmax : (A → ℝ) → A) (hg : Greedy argmax) (γ : ℝ) (clip : Bool) (qt : S → A → ℝ)
    (quant : S → A → Fin n → ℝ) (batch : List (Trans S A)) :
    Each batch (quantileTargets argmax γ clip qt quant batch)
      (fun t y => ∃ a, IsMax (qt t.next) (qt t.next a) ∧ ∀ i, IsTarget γ clip t (quant t.next a i) (y i)) := by
  refine ⟨by simp [quantileTargets], fun i t y ht hy => ?_⟩
  rw [quantileTargets, List.getElem?_map, ht] at hy
  cases hy
  refine ⟨argmax (qt t.next), ⟨hg _, _, rfl⟩, fun i => ?_⟩
  unfold IsTarget clipReward alive
  rcases t.absorbing.eq_false_or_eq_true with hb | hb <;> simp [hb]

/-- **C89**: double Q-learning does not overestimate more than Q-learning: its targets are not larger. -/
theorem C89_double_le (argmax : (A → ℝ) → A) (hg : Greedy argmax) (γ : ℝ) (hγ : 0 ≤ γ) (clip : Bool) (q qt : S → A → ℝ)
    (batch : List (Trans S A)) (i : ℕ) (y y' : ℝ)
    (h : (targets γ clip batch (doubleNext argmax q qt batch))[i]? = some y)
    (h' : (targets γ clip batch (dqnNext qt batch))[i]? = some y') : y ≤ y' := by
  obtain ⟨l1, h1⟩ := C89_double argmax hg γ clip q qt batch
  obtain ⟨l2, h2⟩ := C89_dqn γ clip qt batch
  have hi : i < batch.length := by rw [← l1]; exact (List.getElem?_eq_some_iff.mp h).1
  obtain ⟨a, _, e1⟩ := h1 i _ y (List.getElem?_eq_getElem hi) h
  obtain ⟨v, hv, e2⟩ := h2 i _ y' (List.getElem?_eq_getElem hi) h'
  unfold IsTarget at e1 e2
  rw [e1, e2]
  gcongr
  split
  · exact le_rfl
  · exact mul_le_mul_of_nonneg_left (hv.1 a) hγ

/-- **C89**: the targets of MaxminDQN are not larger than those of DQN with any one of its networks. -/
theorem C89_maxmin_le (γ : ℝ) (hγ : 0 ≤ γ) (clip : Bool) (n : ℕ) (qts : ℕ → S → A → ℝ) (batch : List (Trans S A)) (k : ℕ) (hk : k ≤ n)
    (i : ℕ) (y y' : ℝ)
    (h : (targets γ clip batch (maxminNext n qts batch))[i]? = some y)
    (h' : (targets γ clip batch (dqnNext (qts k) batch))[i]? = some y') : y ≤ y' := by
  obtain ⟨l1, h1⟩ := C89_maxmin γ clip n qts batch
  obtain ⟨l2, h2⟩ := C89_dqn γ clip (qts k) batch
  have hi : i < batch.length := by rw [← l1]; exact (List.getElem?_eq_some_iff.mp h).1
  obtain ⟨low, v, hlow, ⟨_, a, ha⟩, e1⟩ := h1 i _ y (List.getElem?_eq_getElem hi) h
  obtain ⟨v', hv', e2⟩ := h2 i _ y' (List.getElem?_eq_getElem hi) h'
  unfold IsTarget at e1 e2
  rw [e1, e2]
  gcongr
  split
  · exact le_rfl
  · refine mul_le_mul_of_nonneg_left ?_ hγ
    rw [← ha]
    exact le_trans ((hlow a).1 k hk) (hv'.1 a)

/-- **C89**: with clipped rewards the targets of DQN never leave the range of discounted returns
[-1 / (1 - gamma), 1 / (1 - gamma)] as long as the target network is within it. -/
theorem C89_clipped (γ : ℝ) (h0 : 0 ≤ γ) (h1 : γ < 1) (qt : S → A → ℝ) (hq : ∀ s a, |qt s a| ≤ 1 / (1 - γ)) (batch : List (Trans S A)) :
    ∀ y ∈ targets γ true batch (dqnNext qt batch), |y| ≤ 1 / (1 - γ) := by
  intro y hy
  obtain ⟨i, hi, e⟩ := List.getElem_of_mem hy
  obtain ⟨l, h⟩ := C89_dqn γ true qt batch
  have hib : i < batch.length := by omega
  obtain ⟨v, ⟨_, a, ha⟩, ht⟩ := h i _ y (List.getElem?_eq_getElem hib) (by rw [List.getElem?_eq_getElem hi, e])
  unfold IsTarget at ht
  simp only [if_true] at ht
  have hv : |v| ≤ 1 / (1 - γ) := by rw [← ha]; exact hq _ _
  have hr : |max (-1) (min (batch[i]).reward 1)| ≤ 1 := by
    rw [abs_le]
    exact ⟨le_max_left _ _, max_le (by norm_num) (min_le_right _ _)⟩
  have hB : 1 / (1 - γ) = 1 + γ * (1 / (1 - γ)) := by
    have : (1 - γ) ≠ 0 := by linarith
    field_simp
    ring
  have hBpos : 0 ≤ γ * (1 / (1 - γ)) := mul_nonneg h0 (le_trans (abs_nonneg _) hv)
  rw [ht, hB]
  refine le_trans (abs_add_le _ _) (add_le_add hr ?_)
  split
  · simpa using hBpos
  · rw [abs_mul, abs_of_nonneg h0]
    exact mul_le_mul_of_nonneg_left hv h0

example : Greedy (fun q : Bool → ℝ => if q false ≤ q true then true else false) := by
  intro q a
  dsimp only
  by_cases h : q false ≤ q true
  · rw [if_pos h]
    cases a
    · exact h
    · exact le_rfl
  · rw [if_neg h]
    cases a
    · exact le_rfl
    · exact (lt_of_not_ge h).le

example : ∀ (s : Bool) (a : Bool), |(fun _ _ => (2 : ℝ)) s a| ≤ 1 / (1 - 1 / 2) := by
  intro _ _; norm_num

/-! ### Networks -/

/-- **C89**, DuelingDQN with `avg_advantage`: the action values differ by the advantages, so the greedy actions are those of the largest
advantage, and the average of the action values is the value of the state. -/
theorem C89_dueling_partial (value : ℝ) (adv : A → ℝ) :
    ∃ q, dueling true value adv = some q ∧ (∀ a b, q a - q b = adv a - adv b) ∧ (∑ a, q a) / (Fintype.card A : ℝ) = value := by
  refine ⟨_, rfl, fun a b => by ring, ?_⟩
  have hc : (Fintype.card A : ℝ) ≠ 0 := by exact_mod_cast Fintype.card_ne_zero
  rw [Finset.sum_sub_distrib, Finset.sum_add_distrib, Finset.sum_const, Finset.sum_const, Finset.card_univ, nsmul_eq_mul, nsmul_eq_mul]
  field_simp
  ring

/-- Without `avg_advantage` there are no action values: the network raises for every state. -/
theorem C89_dueling_refuted (value : ℝ) (adv : A → ℝ) : dueling false value adv = none := rfl

end

/-- **C89**, QuantileDQN: the quantile levels are the midpoints (2 i + 1) / (2 n) of `n` equal intervals of [0, 1]. -/
theorem C89_levels (n : ℕ) (i : ℕ) (hi : i < n) :
    (tauHat n).length = n ∧ (tauHat n)[i]? = some (((2 * i + 1) / (2 * n) : ℝ)) ∧
      ((0 : ℝ) < (2 * i + 1) / (2 * n)) ∧ ((2 * i + 1) / (2 * n) < (1 : ℝ)) := by
  have hn : (0 : ℝ) < n := by exact_mod_cast (by omega : 0 < n)
  have hin : (i : ℝ) + 1 ≤ n := by exact_mod_cast hi
  refine ⟨by simp [tauHat], ?_, by positivity, ?_⟩
  · unfold tauHat
    rw [List.getElem?_map, List.getElem?_range hi]
    simp only [Option.map_some, Option.some.injEq]
    push_cast
    field_simp
    ring
  · rw [div_lt_one (by positivity)]
    linarith

example : (3 : ℕ) < 200 := by decide

/-- **C89**, QuantileDQN: the loss weighs underestimation with the level and overestimation with its complement, is
never negative, and is zero only without an error. -/
theorem C89_loss (tau input target : ℝ) (h0 : 0 < tau) (h1 : tau < 1) :
    (input ≤ target → quantileHuber tau input target = tau * smoothL1 (input - target)) ∧
      (target < input → quantileHuber tau input target = (1 - tau) * smoothL1 (input - target)) ∧
      0 ≤ quantileHuber tau input target ∧ (quantileHuber tau input target = 0 ↔ input = target) := by
  have hs : ∀ x : ℝ, 0 ≤ smoothL1 x ∧ (smoothL1 x = 0 ↔ x = 0) := by
    intro x
    unfold smoothL1
    split
    · next h => exact ⟨by positivity, by constructor <;> intro h <;> [(have := pow_eq_zero_iff (two_ne_zero) |>.mp (by linarith : x ^ 2 = 0); exact this); (rw [h]; norm_num)]⟩
    · next h =>
      have := not_lt.mp h
      refine ⟨by linarith, ⟨fun h2 => by linarith, fun h2 => by subst h2; norm_num at this⟩⟩
  obtain ⟨hs1, hs2⟩ := hs (input - target)
  have key : quantileHuber tau input target = (if target < input then 1 - tau else tau) * smoothL1 (input - target) := by
    unfold quantileHuber
    by_cases h : target < input
    · rw [if_pos (by linarith), if_pos h, abs_of_neg (by linarith)]; ring
    · rw [if_neg (by linarith), if_neg h, sub_zero, abs_of_pos h0]
  refine ⟨fun h => by rw [key, if_neg (not_lt.mpr h)], fun h => by rw [key, if_pos h], ?_, ?_⟩
  · rw [key]
    apply mul_nonneg _ hs1
    split <;> linarith
  · rw [key, mul_eq_zero, hs2, sub_eq_zero]
    constructor
    · rintro (h | h)
      · split at h <;> linarith
      · exact h
    · exact Or.inr

example : (0 : ℝ) < 1 / 4 ∧ (1 / 4 : ℝ) < 1 := by norm_num

/-- The quantile levels are an attribute of the class: an agent with 2 quantiles uses the levels of an agent with 4
quantiles that is constructed after it; and there are none if the agent was loaded into a new process. -/
theorem C89_shared_levels_refuted :
    lossLevels (constructQuantile none 2) = some (tauHat 2) ∧
      lossLevels (constructQuantile (constructQuantile none 2) 4) ≠ some (tauHat 2) ∧
      lossLevels none = none := by
  refine ⟨rfl, ?_, rfl⟩
  intro h
  have := congrArg (Option.map List.length) h
  simp [lossLevels, constructQuantile, tauHat] at this

/-! ### FQI and DoubleFQI -/

section batch

variable [Fintype A] [Nonempty A] {W : Type}

/-- The target of an iteration of `FQI`. -/
theorem fqiLoop_succ (γ : ℝ) (predict : W → S → A → ℝ) (fitNet : W → List (Trans S A) → List ℝ → W) (batch : List (Trans S A)) (k : ℕ)
    (st : W × Option (List ℝ)) :
    fqiLoop γ predict fitNet batch (k + 1) st =
      fqiLoop γ predict fitNet batch 1 (fqiLoop γ predict fitNet batch k st) := by
  induction k generalizing st with
  | zero => simp [fqiLoop]
  | succ k ih =>
    obtain ⟨w, target⟩ := st
    rw [show fqiLoop γ predict fitNet batch (k + 1 + 1) (w, target) = fqiLoop γ predict fitNet batch (k + 1) (fqiLoop γ predict fitNet batch 1 (w, target)) from rfl, ih]
    rfl

/-- **C56**, FQI: in the first iteration ever the regressor is fitted to the rewards; in every other iteration to the
reward plus, unless the transition is absorbing, the discounted largest value of its own prediction at the next state.
This holds across calls of `fit`, for every regressor. -/
theorem C56_fqi (γ : ℝ) (predict : W → S → A → ℝ) (fitNet : W → List (Trans S A) → List ℝ → W) (batch : List (Trans S A)) (w : W)
    (target : Option (List ℝ)) :
    ∃ q, fqiLoop γ predict fitNet batch 1 (w, target) = (fitNet w batch q, some q) ∧
      (target = none → q = batch.map (·.reward)) ∧
      (target ≠ none → Each batch q (fun t y => ∃ v, IsMax (predict w t.next) v ∧
        y = t.reward + if t.absorbing then 0 else γ * v)) := by
  cases target with
  | none => exact ⟨_, rfl, fun _ => rfl, fun h => absurd rfl h⟩
  | some q0 =>
    refine ⟨_, rfl, fun h => by simp at h, fun _ => ?_⟩
    obtain ⟨hl, h⟩ := C89_dqn γ false (predict w) batch
    refine ⟨hl, fun i t y ht hy => ?_⟩
    obtain ⟨v, hv, hy⟩ := h i t y ht hy
    exact ⟨v, hv, by simpa [IsTarget] using hy⟩

/-- **C56**, DoubleFQI: each of the two models is fitted to its own half of the dataset; the next action is chosen by
the model that is fitted and evaluated by the other one, and not at all for absorbing transitions. -/
theorem C56_doublefqi (argmax : (A → ℝ) → A) (hg : Greedy argmax) (γ : ℝ) (predict : W → S → A → ℝ)
    (fitNet : W → List (Trans S A) → List ℝ → W) (half : Bool → List (Trans S A)) (g : DFQI W) :
    ∃ q, (dfqiStep argmax γ predict fitNet half g).target = some q ∧
      (∀ i, (dfqiStep argmax γ predict fitNet half g).models i = fitNet (g.models i) (half i) (q i)) ∧
      (g.target = none → ∀ i, q i = (half i).map (·.reward)) ∧
      (g.target ≠ none → ∀ i, Each (half i) (q i) (fun t y => ∃ a,
        IsMax (predict (g.models i) t.next) (predict (g.models i) t.next a) ∧
        y = t.reward + if t.absorbing then 0 else γ * predict (g.models (!i)) t.next a)) := by
  unfold dfqiStep
  dsimp only
  refine ⟨_, rfl, fun i => rfl, ?_, ?_⟩
  · intro h i
    rw [h]
  · intro h i
    obtain ⟨q0, hq0⟩ := Option.ne_none_iff_exists'.mp h
    rw [hq0]
    obtain ⟨hl, h⟩ := C89_double argmax hg γ false (predict (g.models i)) (predict (g.models (!i))) (half i)
    refine ⟨hl, fun j t y ht hy => ?_⟩
    obtain ⟨a, ha, hy⟩ := h j t y ht hy
    exact ⟨a, ha, by simpa [IsTarget] using hy⟩

/-- **C56**, DoubleFQI: the halves are disjoint parts of the dataset that cover it up to an odd last sample. -/
theorem C56_halves (data : List (Trans S A)) :
    halves data false ++ halves data true = data.take (2 * (data.length / 2)) ∧
      (halves data false).length = (halves data true).length := by
  unfold halves
  dsimp only
  simp only [Bool.false_eq_true, if_false, if_true]
  constructor
  · rw [two_mul, List.take_add]
  · rw [List.length_take, List.length_take, List.length_drop]
    omega

/-! ### FQI is value iteration for an exact regressor -/

/-- **C90**: let the dataset contain every transition of a deterministic problem and let the regressor represent every
function on it. After `k + 1` iterations, in however many calls of `fit`, the prediction differs from the optimal values
by at most `gamma ^ (k + 1)` times their bound. -/
theorem C90_fqi (mdp : DetMDP S A) (γ : ℝ) (h0 : 0 ≤ γ) (Q : S → A → ℝ) (hQ : Optimal mdp γ Q) (B : ℝ) (hB : ∀ s a, |Q s a| ≤ B)
    (predict : W → S → A → ℝ) (fitNet : W → List (Trans S A) → List ℝ → W) (batch : List (Trans S A))
    (hdata : ∀ t ∈ batch, t = mdp.trans t.state t.action) (hall : ∀ s a, mdp.trans s a ∈ batch)
    (hexact : ∀ w (f : S → A → ℝ), ∀ t ∈ batch,
      predict (fitNet w batch (batch.map (fun t => f t.state t.action))) t.state t.action = f t.state t.action)
    (w0 : W) (k : ℕ) :
    ∃ w q, fqiLoop γ predict fitNet batch (k + 1) (w0, none) = (w, some q) ∧
      ∀ s a, |predict w s a - Q s a| ≤ γ ^ (k + 1) * B := by
  obtain ⟨V, hV, hQV⟩ := hQ
  have hVB : ∀ s, |V s| ≤ B := by
    intro s
    obtain ⟨_, a, ha⟩ := hV s
    rw [← ha]
    exact hB s a
  have hpred : ∀ w (f : S → A → ℝ) s a, predict (fitNet w batch (batch.map (fun t => f t.state t.action))) s a = f s a := by
    intro w f s a
    exact hexact w f _ (hall s a)
  induction k with
  | zero =>
    refine ⟨_, _, rfl, fun s a => ?_⟩
    have e : batch.map (·.reward) = batch.map (fun t => mdp.reward t.state t.action) := by
      apply List.map_congr_left
      intro t ht
      have := congrArg Trans.reward (hdata t ht)
      simpa [DetMDP.trans] using this
    simp only [fqiLoop]
    rw [e, hpred w0 mdp.reward, hQV s a]
    have : mdp.reward s a - (mdp.reward s a + γ * (if mdp.absorbing s a then 0 else V (mdp.next s a))) =
        -(γ * (if mdp.absorbing s a then 0 else V (mdp.next s a))) := by ring
    rw [this, abs_neg, abs_mul, abs_of_nonneg h0, zero_add, pow_one]
    apply mul_le_mul_of_nonneg_left _ h0
    split
    · simpa using le_trans (abs_nonneg _) (hB s a)
    · exact hVB _
  | succ k ih =>
    obtain ⟨w, q, hrun, hclose⟩ := ih
    rw [fqiLoop_succ, hrun]
    refine ⟨_, _, rfl, fun s a => ?_⟩
    have e : targets γ false batch (dqnNext (predict w) batch) =
        batch.map (fun t => mdp.reward t.state t.action + (if mdp.absorbing t.state t.action then 0 else
          γ * rowMax (predict w (mdp.next t.state t.action)))) := by
      obtain ⟨hl, h⟩ := maskedMax_each γ false batch (fun t => predict w t.next)
      apply List.ext_getElem?
      intro i
      rcases Nat.lt_or_ge i batch.length with hi | hi
      · have hy : (targets γ false batch (dqnNext (predict w) batch))[i]? = some ((targets γ false batch (dqnNext (predict w) batch))[i]'(by
            have : (targets γ false batch (dqnNext (predict w) batch)).length = batch.length := hl
            omega)) := List.getElem?_eq_getElem _
        have := h i _ _ (List.getElem?_eq_getElem hi) hy
        rw [hy, List.getElem?_map, List.getElem?_eq_getElem hi, Option.map_some, Option.some.injEq, this]
        have ht := hdata _ (List.getElem_mem hi)
        have hr := congrArg Trans.reward ht
        have ha := congrArg Trans.absorbing ht
        have hn := congrArg Trans.next ht
        simp only [DetMDP.trans] at hr ha hn
        rw [← hr, ← ha, ← hn]
        simp
      · rw [List.getElem?_eq_none (by
            have : (targets γ false batch (dqnNext (predict w) batch)).length = batch.length := hl
            omega), List.getElem?_eq_none (by simpa using hi)]
    simp only [fqiLoop]
    rw [e, hpred w (fun s a => mdp.reward s a + (if mdp.absorbing s a then 0 else γ * rowMax (predict w (mdp.next s a)))), hQV s a]
    cases mdp.absorbing s a with
    | true =>
      simp only [if_true, mul_zero, add_zero, sub_self, abs_zero]
      exact mul_nonneg (pow_nonneg h0 _) (le_trans (abs_nonneg _) (hB s a))
    | false =>
      simp only [Bool.false_eq_true, if_false]
      have : mdp.reward s a + γ * rowMax (predict w (mdp.next s a)) - (mdp.reward s a + γ * V (mdp.next s a)) =
          γ * (rowMax (predict w (mdp.next s a)) - V (mdp.next s a)) := by ring
      rw [this, abs_mul, abs_of_nonneg h0, pow_succ' γ (k + 1), mul_assoc]
      exact mul_le_mul_of_nonneg_left
        (Verif.TD.isMax_close (fun a => hclose _ a) (rowMax_isMax _) (hV _)) h0

/-- A table that stores the targets, and a dataset with each of the four pairs of a problem with a terminal transition once: the hypotheses of `C90_fqi` hold. -/
example (w0 : Bool → Bool → ℝ) (k : ℕ) :
    let mdp : DetMDP Bool Bool := { reward := fun _ a => if a then 1 else 0, next := fun s a => xor s a, absorbing := fun s a => s && !a }
    let batch := [mdp.trans false false, mdp.trans false true, mdp.trans true false, mdp.trans true true]
    ∃ Q : Bool → Bool → ℝ, Optimal mdp (1 / 2) Q ∧ ∃ w q, fqiLoop (1 / 2) (fun w : Bool → Bool → ℝ => w)
      (fun w batch ys s a => (((batch.zip ys).find? fun p => p.1.state == s && p.1.action == a).map Prod.snd).getD (w s a)) batch (k + 1) (w0, none) = (w, some q) ∧
      ∀ s a, |w s a - Q s a| ≤ (1 / 2) ^ (k + 1) * 2 := by
  intro mdp batch
  refine ⟨fun s a => if s && !a then 0 else if a then 2 else 1, ⟨fun _ => 2, fun s => ⟨fun a => ?_, true, by cases s <;> rfl⟩, fun s a => ?_⟩, ?_⟩
  · cases s <;> cases a <;> norm_num
  · cases s <;> cases a <;> norm_num [mdp]
  · refine C90_fqi mdp (1 / 2) (by norm_num) _ ⟨fun _ => 2, fun s => ⟨fun a => ?_, true, by cases s <;> rfl⟩, fun s a => ?_⟩ 2 (fun s a => ?_) _ _ batch (fun t ht => ?_) (fun s a => ?_) (fun w f t ht => ?_) w0 k
    · cases s <;> cases a <;> norm_num
    · cases s <;> cases a <;> norm_num [mdp]
    · cases s <;> cases a <;> norm_num
    · simp only [batch, List.mem_cons, List.not_mem_nil, or_false] at ht
      rcases ht with rfl | rfl | rfl | rfl <;> rfl
    · cases s <;> cases a <;> simp [batch]
    · simp only [batch, List.mem_cons, List.not_mem_nil, or_false] at ht
      rcases ht with rfl | rfl | rfl | rfl <;> simp [batch, DetMDP.trans, List.find?]

end batch

end Verif.DQN
