/-
Properties C28-C30: one-step temporal-difference updates.
-/
import Verif.TD.Lemmas
import Verif.Core.Props
import Mathlib.Tactic.Linarith
import Mathlib.Tactic.Ring
import Mathlib.Topology.MetricSpace.Contracting
import Mathlib.Analysis.SpecificLimits.Basic

namespace Verif.TD

noncomputable section

variable {S A : Type} [DecidableEq S] [DecidableEq A] [Fintype A] [Nonempty A] {E G : Type}

theorem rowMax_isMax (q : A → ℝ) : IsMax q (rowMax q) := by
  constructor
  · intro a; exact Finset.le_sup' q (Finset.mem_univ a)
  · obtain ⟨a, _, h⟩ := Finset.exists_mem_eq_sup' (Finset.univ_nonempty (α := A)) q
    exact ⟨a, h.symm⟩

theorem isMax_unique {q : A → ℝ} {m m' : ℝ} (h : IsMax q m) (h' : IsMax q m') : m = m' := by
  obtain ⟨a, ha⟩ := h.2
  obtain ⟨b, hb⟩ := h'.2
  apply le_antisymm
  · rw [← ha]; exact h'.1 a
  · rw [← hb]; exact h.1 b

theorem set_setsOnly (Q : Table S A) (s : S) (a : A) (v : ℝ) : SetsOnly Q (Q.set s a v) s a v := by
  refine ⟨by simp [Table.set], ?_⟩
  intro s' a' h
  simp only [Table.set, h, if_false]

/-! ### C28 -/

/-- C28. Q-learning changes only the entry of the transition. Its new value moves by the learning rate towards the reward
plus, if the next state is not absorbing, the discounted largest value of the next state. -/
theorem C28_qLearning (γ α : ℝ) (Q : Table S A) (t : Trans S A) :
    ∃ v, SetsOnly Q (qLearning γ α Q t) t.state t.action v ∧
      (t.absorbing = true → v = Q t.state t.action + α * (t.reward - Q t.state t.action)) ∧
      (t.absorbing = false → ∃ m, IsMax (Q t.next) m ∧
        v = Q t.state t.action + α * (t.reward + γ * m - Q t.state t.action)) := by
  refine ⟨_, set_setsOnly _ _ _ _, ?_, ?_⟩
  · intro h; simp [h]
  · intro h; exact ⟨_, rowMax_isMax _, by simp [h]⟩

/-- C28, SARSA: the bootstrap value is the value of the next action. -/
theorem C28_sarsa (γ α : ℝ) (Q : Table S A) (t : Trans S A) (a' : A) :
    ∃ v, SetsOnly Q (sarsa γ α Q t a') t.state t.action v ∧
      (t.absorbing = true → v = Q t.state t.action + α * (t.reward - Q t.state t.action)) ∧
      (t.absorbing = false → v = Q t.state t.action + α * (t.reward + γ * Q t.next a' - Q t.state t.action)) := by
  refine ⟨_, set_setsOnly _ _ _ _, ?_, ?_⟩
  · intro h; simp [h]
  · intro h; simp [h]

/-- C28, expected SARSA: the bootstrap value is the expected value under the policy. -/
theorem C28_expectedSarsa (γ α : ℝ) (Q : Table S A) (t : Trans S A) (p : A → ℝ) :
    ∃ v, SetsOnly Q (expectedSarsa γ α Q t p) t.state t.action v ∧
      (t.absorbing = true → v = Q t.state t.action + α * (t.reward - Q t.state t.action)) ∧
      (t.absorbing = false → v = Q t.state t.action +
        α * (t.reward + γ * (∑ a, p a * Q t.next a) - Q t.state t.action)) := by
  refine ⟨_, set_setsOnly _ _ _ _, ?_, ?_⟩
  · intro h; simp [h]
  · intro h
    have : ∑ a, Q t.next a * p a = ∑ a, p a * Q t.next a := Finset.sum_congr rfl (fun a _ => mul_comm _ _)
    simp [h, this]

/-- C28, double Q-learning: one of the two tables changes, in the entry of the transition; the other table evaluates an
action that maximises this one. -/
theorem C28_doubleQ (γ α : ℝ) (Qs : Tables S A) (t : Trans S A) (first : Bool) (pick : A)
    (hpick : IsMax (Qs (if first then 0 else 1) t.next) (Qs (if first then 0 else 1) t.next pick)) :
    ∃ i j v, ((i = 0 ∧ j = 1) ∨ (i = 1 ∧ j = 0)) ∧ (∀ k, k ≠ i → doubleQ γ α Qs t first pick k = Qs k) ∧
      SetsOnly (Qs i) (doubleQ γ α Qs t first pick i) t.state t.action v ∧
      (t.absorbing = true → v = Qs i t.state t.action + α * (t.reward - Qs i t.state t.action)) ∧
      (t.absorbing = false → ∃ b, IsMax (Qs i t.next) (Qs i t.next b) ∧
        v = Qs i t.state t.action + α * (t.reward + γ * Qs j t.next b - Qs i t.state t.action)) := by
  cases first
  · refine ⟨1, 0, doubleQ γ α Qs t false pick 1 t.state t.action, Or.inr ⟨rfl, rfl⟩, ?_, ?_, ?_, ?_⟩
    · intro k hk; simp [doubleQ, Tables.set, hk]
    · refine ⟨rfl, ?_⟩
      intro s' a' h
      simp only [doubleQ, Tables.set, Table.set, Bool.false_eq_true, if_false, if_true, h]
    · intro h; simp [doubleQ, Tables.set, Table.set, h]
    · intro h; exact ⟨pick, hpick, by simp [doubleQ, Tables.set, Table.set, h]⟩
  · refine ⟨0, 1, doubleQ γ α Qs t true pick 0 t.state t.action, Or.inl ⟨rfl, rfl⟩, ?_, ?_, ?_, ?_⟩
    · intro k hk; simp [doubleQ, Tables.set, hk]
    · refine ⟨rfl, ?_⟩
      intro s' a' h
      simp only [doubleQ, Tables.set, Table.set, if_false, if_true, h]
    · intro h; simp [doubleQ, Tables.set, Table.set, h]
    · intro h; exact ⟨pick, hpick, by simp [doubleQ, Tables.set, Table.set, h]⟩

/-- The second table decides, and its best action in the next state is `false`. -/
example : ∃ i j v, ((i = 0 ∧ j = 1) ∨ (i = 1 ∧ j = 0)) ∧
    SetsOnly ((fun (_ : ℕ) (_ a : Bool) => if a then (1 : ℝ) else 2) i) (doubleQ (1 / 2) 1 (fun _ _ a => if a then (1 : ℝ) else 2) ⟨true, true, 3, false, false⟩ false false i) true true v ∧
    j ≠ i := by
  obtain ⟨i, j, v, hij, -, h, -⟩ := C28_doubleQ (1 / 2) 1 (fun _ _ a => if a then (1 : ℝ) else 2) (⟨true, true, 3, false, false⟩ : Trans Bool Bool) false false
    ⟨fun a => by cases a <;> norm_num, false, rfl⟩
  exact ⟨i, j, v, hij, h, by omega⟩

/-- C28, Maxmin Q-learning: only the chosen table changes; the bootstrap value is the largest, over the actions, of the
smallest value over the tables. -/
theorem C28_maxminQ (n : Nat) (γ α : ℝ) (Qs : Tables S A) (t : Trans S A) (i : Nat) :
    ∃ v, (∀ k, k ≠ i → maxminQ n γ α Qs t i k = Qs k) ∧ SetsOnly (Qs i) (maxminQ n γ α Qs t i i) t.state t.action v ∧
      (t.absorbing = true → v = Qs i t.state t.action + α * (t.reward - Qs i t.state t.action)) ∧
      (t.absorbing = false → ∃ m, ∃ low : A → ℝ, (∀ a, (∀ k, k ≤ n → low a ≤ Qs k t.next a) ∧ ∃ k, k ≤ n ∧ low a = Qs k t.next a) ∧
        IsMax low m ∧ v = Qs i t.state t.action + α * (t.reward + γ * m - Qs i t.state t.action)) := by
  refine ⟨maxminQ n γ α Qs t i i t.state t.action, ?_, ?_, ?_, ?_⟩
  · intro k hk; simp [maxminQ, Tables.set, hk]
  · refine ⟨rfl, ?_⟩
    intro s' a' h
    simp only [maxminQ, Tables.set, Table.set, if_false, if_true, h]
  · intro h; simp [maxminQ, Tables.set, Table.set, h]
  · intro h
    refine ⟨_, predictMin n Qs t.next, ?_, rowMax_isMax _, by simp [maxminQ, Tables.set, Table.set, h]⟩
    intro a
    constructor
    · intro k hk
      exact Finset.inf'_le _ (Finset.mem_range.mpr (by omega))
    · obtain ⟨k, hk, h⟩ := Finset.exists_mem_eq_inf' (s := Finset.range (n + 1)) ⟨0, by simp⟩ (fun i => Qs i t.next a)
      exact ⟨k, by have := Finset.mem_range.mp hk; omega, h⟩

/-- C28, speedy Q-learning. -/
theorem C28_speedyQ (γ α : ℝ) (g : Speedy S A) (t : Trans S A) :
    ∃ v, SetsOnly g.Q (speedyQ γ α g t).Q t.state t.action v ∧ (speedyQ γ α g t).oldQ = g.Q ∧
      (t.absorbing = true → v = g.Q t.state t.action + α * (t.reward - g.Q t.state t.action)) ∧
      (t.absorbing = false → ∃ m mOld, IsMax (g.Q t.next) m ∧ IsMax (g.oldQ t.next) mOld ∧
        v = g.Q t.state t.action + α * ((t.reward + γ * mOld) - g.Q t.state t.action) +
          (1 - α) * ((t.reward + γ * m) - (t.reward + γ * mOld))) := by
  refine ⟨_, set_setsOnly _ _ _ _, rfl, ?_, ?_⟩
  · intro h; simp [h]
  · intro h; exact ⟨_, _, rowMax_isMax _, rowMax_isMax _, by simp [h]⟩

/-- The weights of the weighted estimator are a probability distribution. -/
theorem weights_prob (l : List A) (h : l ≠ []) : Prob (fun a => (l.count a : ℝ) / (l.length : ℝ)) := by
  constructor
  · intro a; positivity
  · have hl : (0 : ℝ) < l.length := by exact_mod_cast List.length_pos_iff.mpr h
    simp only [div_eq_mul_inv]
    rw [← Finset.sum_mul, ← div_eq_mul_inv, div_eq_one_iff_eq hl.ne']
    have : ∑ a, l.count a = l.length := by
      have := Multiset.sum_count_eq_card (s := (Finset.univ : Finset A)) (m := (l : Multiset A)) (fun a _ => Finset.mem_univ a)
      simpa using this
    exact_mod_cast this

/-- C28, weighted Q-learning: the bootstrap value is an average of the values of the next state. -/
theorem C28_weightedQ (γ α : ℝ) (argmax : (A → ℝ) → A) (noise : List (A → ℝ)) (hn : noise ≠ []) (g : Weighted S A) (t : Trans S A) :
    ∃ v, SetsOnly g.Q (weightedQ γ α argmax noise g t).Q t.state t.action v ∧
      (t.absorbing = true → v = g.Q t.state t.action + α * (t.reward - g.Q t.state t.action)) ∧
      (t.absorbing = false → ∃ p, Prob p ∧
        v = g.Q t.state t.action + α * (t.reward + γ * (∑ a, p a * g.Q t.next a) - g.Q t.state t.action)) := by
  refine ⟨_, set_setsOnly _ _ _ _, ?_, ?_⟩
  · intro h; simp [h]
  · intro h
    have hp := weights_prob (noise.map (fun z => argmax (fun a => g.Q t.next a + g.sigma t.next a * z a))) (by simpa using hn)
    rw [List.length_map] at hp
    exact ⟨_, hp, by simp [h, weightedNextQ]⟩

/-- C28, R-learning: rewards are counted relative to the average reward. -/
theorem C28_rLearning (α β : ℝ) (g : RL S A) (t : Trans S A) :
    ∃ v, SetsOnly g.Q (rLearning α β g t).Q t.state t.action v ∧
      (t.absorbing = true → v = g.Q t.state t.action + α * ((t.reward - g.rho) - g.Q t.state t.action)) ∧
      (t.absorbing = false → ∃ m, IsMax (g.Q t.next) m ∧
        v = g.Q t.state t.action + α * ((t.reward - g.rho) + m - g.Q t.state t.action)) := by
  refine ⟨_, set_setsOnly _ _ _ _, ?_, ?_⟩
  · intro h; simp [h]
  · intro h; exact ⟨_, rowMax_isMax _, by simp [h]⟩

/-! ### C73: RQ-learning -/

/-- RQ-learning changes only the entry of the transition, in all of its tables, and the action value is the reward
estimate plus the discounted estimate of the next value. The estimate of the next value moves to the largest value of the next
state with `off_policy`, and to the value of the next action without it. -/
theorem C73_local_partial (γ α β : ℝ) (off : Bool) (g : RQ S A) (t : Trans S A) (pick : A) :
    let g' := rqLearning γ α β off g t pick
    (∀ s a, ¬ (s = t.state ∧ a = t.action) → g'.Q s a = g.Q s a ∧ g'.Rt s a = g.Rt s a ∧ g'.Qt s a = g.Qt s a) ∧
    g'.Q t.state t.action = g'.Rt t.state t.action + γ * g'.Qt t.state t.action ∧
    g'.Rt t.state t.action = g.Rt t.state t.action + α * (t.reward - g.Rt t.state t.action) ∧
    (t.absorbing = true → g'.Qt t.state t.action = g.Qt t.state t.action) ∧
    (t.absorbing = false → ∃ v, (off = true → IsMax (g.Q t.next) v) ∧ (off = false → v = g.Q t.next pick) ∧
      g'.Qt t.state t.action = g.Qt t.state t.action + β * (v - g.Qt t.state t.action)) := by
  refine ⟨?_, ?_, ?_, ?_, ?_⟩
  · intro s a h
    simp only [rqLearning, Table.set, h, if_false, true_and]
    split
    · simp [Table.set, h]
    · rfl
  · simp [rqLearning, Table.set]
  · simp [rqLearning, Table.set]
  · intro h; simp [rqLearning, h]
  · intro h
    refine ⟨if off then rowMax (g.Q t.next) else g.Q t.next pick, ?_, ?_, ?_⟩
    · rintro rfl; exact rowMax_isMax _
    · rintro rfl; simp
    · simp [rqLearning, Table.set, h]

/-- If all the transitions of a pair end the episode, RQ-learning treats it like the other algorithms. -/
theorem C73_always_absorbing_partial (γ α β : ℝ) (off : Bool) (g : RQ S A) (t : Trans S A) (pick : A)
    (habs : t.absorbing = true) (h0 : g.Qt t.state t.action = 0)
    (hinv : g.Q t.state t.action = g.Rt t.state t.action + γ * g.Qt t.state t.action) :
    (rqLearning γ α β off g t pick).Q t.state t.action =
      g.Q t.state t.action + α * (t.reward - g.Q t.state t.action) := by
  have : g.Q t.state t.action = g.Rt t.state t.action := by rw [hinv, h0]; ring
  rw [this]
  simp [rqLearning, Table.set, habs, h0]

/-- The part about absorbing transitions is false of RQ-learning: with learning rates one, a transition that ends the
episode leaves in place the value of the next state of an earlier transition. The action value is then 1 + 10, although
the last target is 1. -/
theorem C73_absorbing_refuted :
    ∃ (g : RQ Bool Unit) (t : Trans Bool Unit), t.absorbing = true ∧ t.reward = 1 ∧
      g = rqLearning 1 1 1 true { Q := fun s _ => if s then 10 else 0, Qt := fun s _ => 0, Rt := fun s _ => if s then 10 else 0 }
        { state := false, action := (), reward := 0, next := true, absorbing := false } () ∧
      (rqLearning 1 1 1 true g t ()).Q t.state t.action = 11 := by
  refine ⟨_, { state := false, action := (), reward := 1, next := true, absorbing := true }, rfl, rfl, rfl, ?_⟩
  have hm : rowMax (fun _ : Unit => (10 : ℝ)) = 10 := isMax_unique (rowMax_isMax _) ⟨fun _ => le_refl _, (), rfl⟩
  simp [rqLearning, Table.set, hm]
  norm_num

/-! ### C29 -/

theorem step_bound {B R γ α q r n : ℝ} (hγ : 0 ≤ γ) (hB : R + γ * B ≤ B) (h0 : 0 ≤ α) (h1 : α ≤ 1) (hq : |q| ≤ B)
    (hr : |r| ≤ R) (hn : |n| ≤ B) : |q + α * (r + γ * n - q)| ≤ B := by
  have e : q + α * (r + γ * n - q) = (1 - α) * q + α * (r + γ * n) := by ring
  have h2 : |r + γ * n| ≤ B := by
    calc |r + γ * n| ≤ |r| + |γ * n| := abs_add_le _ _
      _ = |r| + γ * |n| := by rw [abs_mul, abs_of_nonneg hγ]
      _ ≤ R + γ * B := add_le_add hr (mul_le_mul_of_nonneg_left hn hγ)
      _ ≤ B := hB
  rw [e]
  calc |(1 - α) * q + α * (r + γ * n)| ≤ |(1 - α) * q| + |α * (r + γ * n)| := abs_add_le _ _
    _ = (1 - α) * |q| + α * |r + γ * n| := by rw [abs_mul, abs_mul, abs_of_nonneg h0, abs_of_nonneg (by linarith : 0 ≤ 1 - α)]
    _ ≤ (1 - α) * B + α * B := add_le_add (mul_le_mul_of_nonneg_left hq (by linarith)) (mul_le_mul_of_nonneg_left h2 h0)
    _ = B := by ring

theorem rowMax_bound {B : ℝ} {q : A → ℝ} (h : ∀ a, |q a| ≤ B) : |rowMax q| ≤ B := by
  obtain ⟨a, ha⟩ := (rowMax_isMax q).2
  rw [← ha]; exact h a

theorem bounded_nonneg {B : ℝ} {Q : Table S A} [Nonempty S] (h : Bounded B Q) : 0 ≤ B := by
  obtain ⟨s⟩ := ‹Nonempty S›
  obtain ⟨a⟩ := ‹Nonempty A›
  exact (abs_nonneg _).trans (h s a)

theorem ite_bound {B : ℝ} {b : Bool} {x : ℝ} (hB : 0 ≤ B) (h : b = false → |x| ≤ B) : |if !b then x else 0| ≤ B := by
  cases b
  · simpa using h rfl
  · simpa using hB

theorem set_bounded {B v : ℝ} {Q : Table S A} (h : Bounded B Q) (hv : |v| ≤ B) (s : S) (a : A) :
    Bounded B (Q.set s a v) := by
  intro s' a'
  unfold Table.set
  split
  · exact hv
  · exact h s' a'

theorem prob_bound {B : ℝ} {p q : A → ℝ} (hp : Prob p) (h : ∀ a, |q a| ≤ B) : |∑ a, p a * q a| ≤ B := by
  calc |∑ a, p a * q a| ≤ ∑ a, |p a * q a| := Finset.abs_sum_le_sum_abs _ _
    _ ≤ ∑ a, p a * B := by
        apply Finset.sum_le_sum
        intro a _
        rw [abs_mul, abs_of_nonneg (hp.1 a)]
        exact mul_le_mul_of_nonneg_left (h a) (hp.1 a)
    _ = B := by rw [← Finset.sum_mul, hp.2, one_mul]

theorem qLearning_bounded {B R γ α : ℝ} (hγ : 0 ≤ γ) (hB : R + γ * B ≤ B) (h0 : 0 ≤ α) (h1 : α ≤ 1) {Q : Table S A} (h : Bounded B Q)
    {t : Trans S A} (hr : |t.reward| ≤ R) : Bounded B (qLearning γ α Q t) := by
  have hB0 : 0 ≤ B := (abs_nonneg _).trans (h t.state t.action)
  exact set_bounded h (step_bound hγ hB h0 h1 (h _ _) hr (ite_bound hB0 (fun _ => rowMax_bound (h _)))) _ _

theorem geometric_bound {R γ : ℝ} (h1 : γ < 1) : R + γ * (R / (1 - γ)) ≤ R / (1 - γ) := by
  have h : 1 - γ ≠ 0 := by linarith
  apply le_of_eq
  field_simp
  ring

theorem fitMode_of_learn {W X A' R' P T : Type} {sys : Core.Sys W X A' R' P T} {a b : Option Nat} {c : Core.Cfg X}
    (h : Core.learnCfg sys a b (some 1) none = .ok c) : c.fitMode = .steps 1 := by
  unfold Core.learnCfg at h
  simp only [Core.initializeLearn, Core.datasetCapacity] at h
  split at h
  · cases h
  · cases h; rfl

theorem learn_reach {W X A' R' P T : Type} {sys : Core.Sys W X A' R' P T} {a b : Option Nat} {fuel : Nat}
    {prev s : Core.St W X A' R' P T} (h : Core.learn sys fuel prev a b (some 1) none = some (.ok s)) :
    ∃ c : Core.Cfg X, c.fitMode = .steps 1 ∧ Core.Reach sys c prev s := by
  unfold Core.learn at h
  split at h
  · cases h
  · rename_i c hc
    exact ⟨c, fitMode_of_learn hc, (Core.loop_reach Core.Reach.start h).1⟩

/-- C29. In every run of a Q-learning agent, with any environment, policy, preprocessors, callbacks and learning rates in
[0, 1]: if the rewards of the recorded transitions are within `R` of zero and the initial values within `R / (1 - γ)`, all the
values stay within `R / (1 - γ)`. -/
theorem C29_qLearning (u : User E S A (Table S A)) (γ R : ℝ) (hγ0 : 0 ≤ γ) (hγ1 : γ < 1) (rate : E → S → A → E × ℝ)
    (hrate : ∀ e s a, 0 ≤ (rate e s a).2 ∧ (rate e s a).2 ≤ 1) (fuel : Nat)
    (prev s : Core.St (E × Table S A) S A ℝ Unit Unit) (nSteps nEpisodes : Option Nat)
    (h : Core.learn (tdSys u (qLearningRule γ rate)) fuel prev nSteps nEpisodes (some 1) none = some (.ok s))
    (hr : ∀ t ∈ Core.steps s.trace, |t.reward| ≤ R) (h0 : Bounded (R / (1 - γ)) prev.world.2) :
    Bounded (R / (1 - γ)) s.world.2 := by
  obtain ⟨c, hf, hreach⟩ := learn_reach h
  refine learns_invariant (Bounded (R / (1 - γ))) h0 (fun g hg => hg) ?_ (learns_reach hf hreach)
  intro e Q next t hQ ht
  obtain ⟨smp, hs, rfl⟩ := List.mem_map.mp ht
  obtain ⟨ha, hb⟩ := hrate e smp.state smp.action
  exact qLearning_bounded hγ0 (geometric_bound hγ1) ha hb hQ (hr smp hs)

/-- C29 for the SARSA agent. -/
theorem C29_sarsa (u : User E S A (Table S A)) (γ R : ℝ) (hγ0 : 0 ≤ γ) (hγ1 : γ < 1) (rate : E → S → A → E × ℝ)
    (hrate : ∀ e s a, 0 ≤ (rate e s a).2 ∧ (rate e s a).2 ≤ 1) (fuel : Nat)
    (prev s : Core.St (E × Table S A) S A ℝ Unit Unit) (nSteps nEpisodes : Option Nat)
    (h : Core.learn (tdSys u (sarsaRule u γ rate)) fuel prev nSteps nEpisodes (some 1) none = some (.ok s))
    (hr : ∀ t ∈ Core.steps s.trace, |t.reward| ≤ R) (h0 : Bounded (R / (1 - γ)) prev.world.2) :
    Bounded (R / (1 - γ)) s.world.2 := by
  obtain ⟨c, hf, hreach⟩ := learn_reach h
  refine learns_invariant (Bounded (R / (1 - γ))) h0 (fun g hg => hg) ?_ (learns_reach hf hreach)
  intro e Q next t hQ ht
  obtain ⟨smp, hs, rfl⟩ := List.mem_map.mp ht
  have hB0 : 0 ≤ R / (1 - γ) := (abs_nonneg _).trans (hQ smp.state smp.action)
  simp only [sarsaRule]
  obtain ⟨ha, hb⟩ := hrate (agentDraw u e Q next (toTrans smp).next).1 smp.state smp.action
  exact set_bounded hQ (step_bound hγ0 (geometric_bound hγ1) ha hb (hQ _ _) (hr smp hs)
    (ite_bound hB0 (fun _ => hQ _ _))) _ _

/-- C29 for one update of the other algorithms that average the values of the next state. -/
theorem C29_other_updates (γ R α : ℝ) (hγ0 : 0 ≤ γ) (hγ1 : γ < 1) (h0 : 0 ≤ α) (h1 : α ≤ 1) (t : Trans S A) (hr : |t.reward| ≤ R) :
    (∀ (Q : Table S A) (p : A → ℝ), Prob p → Bounded (R / (1 - γ)) Q →
      Bounded (R / (1 - γ)) (expectedSarsa γ α Q t p)) ∧
    (∀ (Qs : Tables S A) (first : Bool) (pick : A), (∀ i, Bounded (R / (1 - γ)) (Qs i)) →
      ∀ i, Bounded (R / (1 - γ)) (doubleQ γ α Qs t first pick i)) ∧
    (∀ (n : Nat) (Qs : Tables S A) (i : Nat), (∀ i, Bounded (R / (1 - γ)) (Qs i)) →
      ∀ j, Bounded (R / (1 - γ)) (maxminQ n γ α Qs t i j)) ∧
    (∀ (argmax : (A → ℝ) → A) (noise : List (A → ℝ)) (g : Weighted S A), noise ≠ [] → Bounded (R / (1 - γ)) g.Q →
      Bounded (R / (1 - γ)) (weightedQ γ α argmax noise g t).Q) := by
  have hB := geometric_bound (R := R) hγ1
  refine ⟨?_, ?_, ?_, ?_⟩
  · intro Q p hp hQ
    have hB0 : 0 ≤ R / (1 - γ) := (abs_nonneg _).trans (hQ t.state t.action)
    refine set_bounded hQ (step_bound hγ0 hB h0 h1 (hQ _ _) hr (ite_bound hB0 (fun _ => ?_))) _ _
    rw [Finset.sum_congr rfl (fun a _ => mul_comm (Q t.next a) (p a))]
    exact prob_bound hp (hQ _)
  · intro Qs first pick hQ i
    have hB0 : 0 ≤ R / (1 - γ) := (abs_nonneg _).trans (hQ 0 t.state t.action)
    unfold doubleQ Tables.set
    generalize (if first = true then 0 else 1) = k
    show Bounded _ (if i = k then _ else Qs i)
    split
    · exact set_bounded (hQ _) (step_bound hγ0 hB h0 h1 (hQ _ _ _) hr (ite_bound hB0 (fun _ => hQ _ _ _))) _ _
    · exact hQ i
  · intro n Qs i hQ j
    have hB0 : 0 ≤ R / (1 - γ) := (abs_nonneg _).trans (hQ 0 t.state t.action)
    simp only [maxminQ, Tables.set]
    split
    · refine set_bounded (hQ _) (step_bound hγ0 hB h0 h1 (hQ _ _ _) hr (ite_bound hB0 (fun _ => rowMax_bound ?_))) _ _
      intro a
      obtain ⟨k, _, h⟩ := Finset.exists_mem_eq_inf' (s := Finset.range (n + 1)) ⟨0, by simp⟩ (fun i => Qs i t.next a)
      unfold predictMin
      rw [h]
      exact hQ _ _ _
    · exact hQ j
  · intro argmax noise g hn hQ
    have hB0 : 0 ≤ R / (1 - γ) := (abs_nonneg _).trans (hQ t.state t.action)
    refine set_bounded hQ (step_bound hγ0 hB h0 h1 (hQ _ _) hr (ite_bound hB0 (fun _ => ?_))) _ _
    have hp := weights_prob (noise.map (fun z => argmax (fun a => g.Q t.next a + g.sigma t.next a * z a))) (by simpa using hn)
    rw [List.length_map] at hp
    exact prob_bound hp (hQ _)

/-! ### C30 -/

theorem isMax_close {B : ℝ} {q q' : A → ℝ} {m m' : ℝ} (h : ∀ a, |q a - q' a| ≤ B) (hm : IsMax q m) (hm' : IsMax q' m') :
    |m - m'| ≤ B := by
  obtain ⟨a, ha⟩ := hm.2
  obtain ⟨b, hb⟩ := hm'.2
  have h1 := abs_le.mp (h a)
  have h2 := abs_le.mp (h b)
  have h3 := hm'.1 a
  have h4 := hm.1 b
  rw [abs_le]
  constructor <;> linarith

/-- The error of the updated entry. -/
theorem update_error {m : DetMDP S A} {γ α B : ℝ} (hγ : 0 ≤ γ) (h0 : 0 ≤ α) (h1 : α ≤ 1) {Q Qs : Table S A} (hQs : Optimal m γ Qs)
    (h : Close B Q Qs) (s : S) (a : A) :
    |qLearning γ α Q (m.trans s a) s a - Qs s a| ≤ (1 - α) * |Q s a - Qs s a| + α * (γ * B) := by
  obtain ⟨V, hV, hbell⟩ := hQs
  have hB0 : 0 ≤ B := (abs_nonneg _).trans (h s a)
  have hn : |(if !m.absorbing s a then rowMax (Q (m.next s a)) else 0) - (if m.absorbing s a then 0 else V (m.next s a))| ≤ B := by
    cases m.absorbing s a
    · simpa using isMax_close (h _) (rowMax_isMax _) (hV _)
    · simpa using hB0
  have e : qLearning γ α Q (m.trans s a) s a - Qs s a = (1 - α) * (Q s a - Qs s a) +
      α * (γ * ((if !m.absorbing s a then rowMax (Q (m.next s a)) else 0) - (if m.absorbing s a then 0 else V (m.next s a)))) := by
    have hb := hbell s a
    simp only [qLearning, Table.set, DetMDP.trans, and_self, if_true]
    rcases Bool.eq_false_or_eq_true (m.absorbing s a) with hm | hm
    · simp only [hm, if_true, Bool.not_true, Bool.false_eq_true, if_false] at hb ⊢
      rw [hb]; ring
    · simp only [hm, if_true, Bool.not_false, Bool.false_eq_true, if_false] at hb ⊢
      rw [hb]; ring
  rw [e]
  refine (abs_add_le _ _).trans ?_
  rw [abs_mul, abs_mul, abs_mul, abs_of_nonneg h0, abs_of_nonneg hγ, abs_of_nonneg (by linarith : 0 ≤ 1 - α)]
  have := mul_le_mul_of_nonneg_left (mul_le_mul_of_nonneg_left hn hγ) h0
  linarith

theorem other_entry {m : DetMDP S A} {γ α : ℝ} {Q : Table S A} {s s' : S} {a a' : A} (h : ¬ (s' = s ∧ a' = a)) :
    qLearning γ α Q (m.trans s a) s' a' = Q s' a' := by
  simp only [qLearning, Table.set, DetMDP.trans, h, if_false]

/-- C30. In a deterministic problem, an update of any pair with any learning rate in [0, 1] never moves the table farther from
the optimal one. -/
theorem C30_ball (m : DetMDP S A) (γ α B : ℝ) (hγ0 : 0 ≤ γ) (hγ1 : γ ≤ 1) (h0 : 0 ≤ α) (h1 : α ≤ 1) (Q Qs : Table S A)
    (hQs : Optimal m γ Qs) (h : Close B Q Qs) (s : S) (a : A) : Close B (qLearning γ α Q (m.trans s a)) Qs := by
  intro s' a'
  have hB0 : 0 ≤ B := (abs_nonneg _).trans (h s a)
  by_cases he : s' = s ∧ a' = a
  · obtain ⟨rfl, rfl⟩ := he
    refine (update_error hγ0 h0 h1 hQs h s' a').trans ?_
    have h2 := mul_le_mul_of_nonneg_left (h s' a') (by linarith : 0 ≤ 1 - α)
    have h3 : α * (γ * B) ≤ α * B := mul_le_mul_of_nonneg_left (by nlinarith) h0
    linarith
  · rw [other_entry he]; exact h s' a'

/-- A history of updates of a deterministic problem: learning rate, state, action. -/
def sweep (m : DetMDP S A) (γ : ℝ) (Q : Table S A) (l : List (ℝ × S × A)) : Table S A :=
  l.foldl (fun Q u => qLearning γ u.1 Q (m.trans u.2.1 u.2.2)) Q

/-- The same for every history. -/
theorem C30_ball_history (m : DetMDP S A) (γ B : ℝ) (hγ0 : 0 ≤ γ) (hγ1 : γ ≤ 1) (Qs : Table S A) (hQs : Optimal m γ Qs)
    (l : List (ℝ × S × A)) (hl : ∀ u ∈ l, 0 ≤ u.1 ∧ u.1 ≤ 1) : ∀ Q : Table S A, Close B Q Qs → Close B (sweep m γ Q l) Qs := by
  induction l with
  | nil => intro Q h; exact h
  | cons u l ih =>
    intro Q h
    have hu := hl u (by simp)
    exact ih (fun v hv => hl v (by simp [hv])) _ (C30_ball m γ u.1 B hγ0 hγ1 hu.1 hu.2 Q Qs hQs h _ _)

/-- Number of updates of a pair. -/
def updatesOf (s : S) (a : A) (l : List (ℝ × S × A)) : Nat := l.countP (fun u => u.2.1 = s ∧ u.2.2 = a)

/-- With learning rates of at least `α`, the error of a pair after `k` updates of it is at most `γ B + (1 - α)^k (1 - γ) B`. -/
theorem entry_error {m : DetMDP S A} {γ α B : ℝ} (hγ0 : 0 ≤ γ) (hγ1 : γ ≤ 1) (hα0 : 0 ≤ α) (hα1 : α ≤ 1) {Qs : Table S A}
    (hQs : Optimal m γ Qs) (s : S) (a : A) (l : List (ℝ × S × A)) (hl : ∀ u ∈ l, α ≤ u.1 ∧ u.1 ≤ 1) :
    ∀ (Q : Table S A) (c : ℝ), Close B Q Qs → 0 ≤ c → |Q s a - Qs s a| ≤ γ * B + c →
      |sweep m γ Q l s a - Qs s a| ≤ γ * B + (1 - α) ^ updatesOf s a l * c := by
  induction l with
  | nil => intro Q c _ _ h; simpa [sweep, updatesOf] using h
  | cons u l ih =>
    intro Q c hQ hc h
    obtain ⟨hu, hu1⟩ := hl u (by simp)
    have hu0 : 0 ≤ u.1 := hα0.trans hu
    have hQ' := C30_ball m γ u.1 B hγ0 hγ1 hu0 hu1 Q Qs hQs hQ u.2.1 u.2.2
    have ih := ih (fun v hv => hl v (by simp [hv]))
    show |sweep m γ (qLearning γ u.1 Q (m.trans u.2.1 u.2.2)) l s a - Qs s a| ≤ _
    by_cases he : u.2.1 = s ∧ u.2.2 = a
    · have hcnt : updatesOf s a (u :: l) = updatesOf s a l + 1 := by simp [updatesOf, List.countP_cons, he]
      rw [hcnt, pow_succ, mul_assoc]
      apply ih _ _ hQ' (mul_nonneg (by linarith) hc)
      have := update_error hγ0 hu0 hu1 hQs hQ u.2.1 u.2.2
      rw [he.1, he.2] at this ⊢
      have h2 := mul_le_mul_of_nonneg_left h (by linarith : 0 ≤ 1 - u.1)
      have h3 : (1 - u.1) * c ≤ (1 - α) * c := mul_le_mul_of_nonneg_right (by linarith) hc
      linarith
    · have hcnt : updatesOf s a (u :: l) = updatesOf s a l := by
        simp only [updatesOf, List.countP_cons, decide_eq_true_eq, he, if_false, Nat.add_zero]
      rw [hcnt]
      apply ih _ _ hQ' hc
      rw [other_entry (fun h' => he ⟨h'.1.symm, h'.2.symm⟩)]
      exact h

/-- C30. If every pair is updated at least once with learning rate one (and every update in the history has learning rate
one), the distance to the optimal table shrinks by the factor `γ`, in any order of the updates. -/
theorem C30_sweep (m : DetMDP S A) (γ B : ℝ) (hγ0 : 0 ≤ γ) (hγ1 : γ ≤ 1) (Qs : Table S A) (hQs : Optimal m γ Qs)
    (l : List (ℝ × S × A)) (hl : ∀ u ∈ l, u.1 = 1) (hall : ∀ s a, (1, s, a) ∈ l) (Q : Table S A) (h : Close B Q Qs) :
    Close (γ * B) (sweep m γ Q l) Qs := by
  intro s a
  have hB0 : 0 ≤ B := (abs_nonneg _).trans (h s a)
  have := entry_error (α := 1) hγ0 hγ1 (by norm_num) le_rfl hQs s a l
    (fun u hu => by rw [hl u hu]; exact ⟨le_rfl, le_rfl⟩) Q (B - γ * B) h (by nlinarith) (by linarith [h s a])
  have hpos : updatesOf s a l ≠ 0 := by
    have : 0 < updatesOf s a l := List.countP_pos_iff.mpr ⟨_, hall s a, by simp⟩
    omega
  simpa [hpos] using this

/-- C30. Contraction for learning rates bounded away from zero: if every pair is updated at least `k` times with learning rates
in `[α, 1]`, the distance shrinks by the factor `γ + (1 - α)^k (1 - γ)`. -/
theorem C30_contraction (m : DetMDP S A) (γ α B : ℝ) (hγ0 : 0 ≤ γ) (hγ1 : γ ≤ 1) (hα0 : 0 ≤ α) (hα1 : α ≤ 1) (Qs : Table S A)
    (hQs : Optimal m γ Qs) (k : Nat) (l : List (ℝ × S × A)) (hl : ∀ u ∈ l, α ≤ u.1 ∧ u.1 ≤ 1)
    (hall : ∀ s a, k ≤ updatesOf s a l) (Q : Table S A) (h : Close B Q Qs) :
    Close ((γ + (1 - α) ^ k * (1 - γ)) * B) (sweep m γ Q l) Qs := by
  intro s a
  have hB0 : 0 ≤ B := (abs_nonneg _).trans (h s a)
  have := entry_error hγ0 hγ1 hα0 hα1 hQs s a l hl Q (B - γ * B) h (by nlinarith) (by linarith [h s a])
  refine this.trans ?_
  have hp : (1 - α) ^ updatesOf s a l ≤ (1 - α) ^ k := pow_le_pow_of_le_one (by linarith) (by linarith) (hall s a)
  have := mul_le_mul_of_nonneg_right hp (by nlinarith : 0 ≤ B - γ * B)
  nlinarith

/-- C30. Convergence: if an infinite run of updates with learning rates in `[α, 1]`, `α > 0`, can be cut into pieces in each of
which every pair is updated, then the distance to the optimal table tends to zero. -/
theorem C30_convergence (m : DetMDP S A) (γ α B : ℝ) (hγ0 : 0 ≤ γ) (hγ1 : γ < 1) (hα0 : 0 < α) (hα1 : α ≤ 1) (Qs : Table S A)
    (hQs : Optimal m γ Qs) (piece : Nat → List (ℝ × S × A)) (hl : ∀ n, ∀ u ∈ piece n, α ≤ u.1 ∧ u.1 ≤ 1)
    (hall : ∀ n s a, 1 ≤ updatesOf s a (piece n)) (Q : Table S A) (h : Close B Q Qs) :
    ∀ ε > 0, ∃ N, ∀ n, N ≤ n → ∀ s a, |sweep m γ Q ((List.range n).map piece).flatten s a - Qs s a| < ε := by
  set d := γ + (1 - α) * (1 - γ) with hd
  have hd0 : 0 ≤ d := add_nonneg hγ0 (mul_nonneg (by linarith) (by linarith))
  have hd1 : d < 1 := by rw [hd]; nlinarith
  have hclose : ∀ n, Close (d ^ n * B) (sweep m γ Q ((List.range n).map piece).flatten) Qs := by
    intro n
    induction n with
    | zero => simpa [sweep] using h
    | succ n ih =>
      rw [List.range_succ, List.map_append, List.flatten_append]
      have e : sweep m γ Q (((List.range n).map piece).flatten ++ (List.map piece [n]).flatten) =
          sweep m γ (sweep m γ Q ((List.range n).map piece).flatten) (piece n) := by
        simp [sweep, List.foldl_append]
      rw [e]
      have := C30_contraction m γ α (d ^ n * B) hγ0 hγ1.le hα0.le hα1 Qs hQs 1 (piece n) (hl n) (hall n) _ ih
      rw [pow_one] at this
      have e2 : d ^ (n + 1) * B = (γ + (1 - α) * (1 - γ)) * (d ^ n * B) := by rw [pow_succ, ← hd]; ring
      rw [e2]; exact this
  intro ε hε
  have ht : Filter.Tendsto (fun n => d ^ n * B) Filter.atTop (nhds 0) := by
    simpa using (tendsto_pow_atTop_nhds_zero_of_lt_one hd0 hd1).mul_const B
  obtain ⟨N, hN⟩ := (ht.eventually (gt_mem_nhds hε)).exists_forall_of_atTop
  exact ⟨N, fun n hn s a => (hclose n s a).trans_lt (hN n hn)⟩

/-- The optimal table exists and is unique (for finitely many states). -/
theorem C30_optimal_exists_unique [Fintype S] (m : DetMDP S A) (γ : ℝ) (hγ0 : 0 ≤ γ) (hγ1 : γ < 1) : ∃! Q : Table S A, Optimal m γ Q := by
  let T : Table S A → Table S A := fun Q s a => m.reward s a + γ * (if m.absorbing s a then 0 else rowMax (Q (m.next s a)))
  have hT : ContractingWith ⟨γ, hγ0⟩ T := by
    refine ⟨by exact_mod_cast hγ1, LipschitzWith.of_dist_le_mul ?_⟩
    intro Q Q'
    have hd : 0 ≤ γ * dist Q Q' := mul_nonneg hγ0 dist_nonneg
    refine (dist_pi_le_iff hd).mpr (fun s => (dist_pi_le_iff hd).mpr (fun a => ?_))
    rw [Real.dist_eq]
    have e : T Q s a - T Q' s a = γ * ((if m.absorbing s a then 0 else rowMax (Q (m.next s a))) - (if m.absorbing s a then 0 else rowMax (Q' (m.next s a)))) := by
      simp only [T]; ring
    rw [e, abs_mul, abs_of_nonneg hγ0]
    apply mul_le_mul_of_nonneg_left _ hγ0
    cases m.absorbing s a
    · simp only [Bool.false_eq_true, if_false]
      apply isMax_close _ (rowMax_isMax _) (rowMax_isMax _)
      intro b
      rw [← Real.dist_eq]
      exact (dist_le_pi_dist (Q (m.next s a)) (Q' (m.next s a)) b).trans (dist_le_pi_dist Q Q' (m.next s a))
    · simp
  have hiff : ∀ Q, Optimal m γ Q ↔ T Q = Q := by
    intro Q
    constructor
    · rintro ⟨V, hV, hb⟩
      funext s a
      rw [hb s a]
      simp only [T]
      rw [isMax_unique (rowMax_isMax _) (hV (m.next s a))]
    · intro h
      refine ⟨fun s => rowMax (Q s), fun s => rowMax_isMax _, fun s a => ?_⟩
      exact (congrFun (congrFun h s) a).symm
  refine ⟨hT.fixedPoint T, (hiff _).mpr hT.fixedPoint_isFixedPt, ?_⟩
  intro Q hQ
  exact hT.fixedPoint_unique ((hiff Q).mp hQ)

/-- A deterministic problem with two states and two actions, used to show that the hypotheses can be met. -/
def demoMDP : DetMDP Bool Bool :=
  { reward := fun _ a => if a then 1 else 0, next := fun s a => xor s a, absorbing := fun s a => s && !a }

example : ∃! Q : Table Bool Bool, Optimal demoMDP (1 / 2) Q :=
  C30_optimal_exists_unique demoMDP (1 / 2) (by norm_num) (by norm_num)

example : let l : List (ℝ × Bool × Bool) := [(1, true, true), (1, false, true), (1, true, false), (1, false, false)]
    (∀ u ∈ l, u.1 = 1) ∧ ∀ s a, (1, s, a) ∈ l := by
  constructor
  · intro u hu; simp at hu; rcases hu with rfl | rfl | rfl | rfl <;> rfl
  · intro s a; cases s <;> cases a <;> simp

/-- A Q-learning agent in `Core`, for the hypotheses of C29. -/
def demoUser (G : Type) : User Nat Bool Bool G :=
  { horizon := some 3
    envReset := fun e _ => (e + 1, false)
    envStep := fun e a => (e + 1, (a, if a then 1 else -1, false))
    draw := fun e _ _ => (e + 1, e % 2 = 0)
    corePre := [], agentPre := [], callbackStep := fun e _ _ => e, callbacksFit := [] }

example : ∀ fuel, 5 ≤ fuel → ∃ s, Core.learn (tdSys (demoUser (Table Bool Bool)) (qLearningRule (1 / 2) (fun e _ _ => (e, 1 / 2)))) fuel
    { world := (0, fun _ _ => 0), state := none, policyState := none, theta := none, episodeSteps := 0, nextAction := none,
      totalEpisodes := 0, totalSteps := 0, currentEpisodes := 0, currentSteps := 0, last := true, rows := [], thetas := [],
      trace := [] } (some 5) none (some 1) none = some (.ok s) := by
  intro fuel h
  obtain ⟨s, hs⟩ := Core.C01_learn_by_steps (tdSys (demoUser (Table Bool Bool)) (qLearningRule (1 / 2) (fun e _ _ => (e, 1 / 2))))
    { world := (0, fun _ _ => 0), state := none, policyState := none, theta := none, episodeSteps := 0, nextAction := none,
      totalEpisodes := 0, totalSteps := 0, currentEpisodes := 0, currentSteps := 0, last := true, rows := [], thetas := [],
      trace := [] } 5 1 le_rfl
  exact ⟨s, hs.1 fuel h⟩

end

end Verif.TD
