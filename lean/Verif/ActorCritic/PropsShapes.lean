/-
C135: advantages, targets and losses of the deep actor-critic agents hold one value per transition.
-/
import Verif.ActorCritic.LemmasShapes
import Mathlib.Tactic.Linarith
import Mathlib.Tactic.NormNum
import Mathlib.Algebra.BigOperators.Field
import Mathlib.Algebra.Order.BigOperators.Group.Finset

namespace Verif.ActorCritic.Shapes

open Verif.Backend (Tensor)
open Verif.DQN.Nets (squeeze op1 op2 total mean)
open Verif.ValueFn (Data computeGae computeAdvantage computeAdvantageMontecarlo notInt)

noncomputable section

/-! ### Specifications -/

/-- The mean of the first `n` numbers, their deviation, and the standardised numbers. -/
def avg (n : ℕ) (f : ℕ → ℝ) : ℝ := (∑ i ∈ Finset.range n, f i) / n
def dev (n : ℕ) (f : ℕ → ℝ) : ℝ := Real.sqrt ((∑ i ∈ Finset.range n, (f i - avg n f) ^ 2) / (n - 1))
def score (n : ℕ) (f : ℕ → ℝ) (i : ℕ) : ℝ := (f i - avg n f) / (dev n f + 1 / 100000000)

/-- The clipped objective of one transition. -/
def objective (eps ratio adv : ℝ) : ℝ := min (ratio * adv) (min (max ratio (1 - eps)) (1 + eps) * adv)

/-! ### Advantages -/

theorem std_col {t : Tensor ℝ} {n : ℕ} {f : ℕ → ℝ} (hn : 2 ≤ n) (h : IsCol t n f) : ∃ z, standardised t = some z ∧ IsCol z n (score n f) := by
  have hm : mean t = avg n f := mean_col h
  have hp : t.shape.prod = n := by rw [h.1]; simp
  have ht : total t.shape (fun is => (t.entry is - mean t) ^ 2) = ∑ i ∈ Finset.range n, (f i - avg n f) ^ 2 := by
    rw [h.1, hm]
    simp only [total, Finset.sum_range_one]
    exact Finset.sum_congr rfl fun i hi => by rw [h.2 i (Finset.mem_range.1 hi)]
  refine ⟨_, by rw [standardised, if_neg (by rw [hp]; omega)], ?_⟩
  have := op1_col (fun x => (x - mean t) / (Real.sqrt (total t.shape (fun is => (t.entry is - mean t) ^ 2) / ((t.shape.prod : ℕ) - 1)) + 1 / 100000000)) h
  rw [ht, hm, hp] at this
  simp only [ht]
  simp only [hm, hp]
  exact this

theorem std_vec {t : Tensor ℝ} {n : ℕ} {f : ℕ → ℝ} (hn : 2 ≤ n) (h : IsVec t n f) : ∃ z, standardised t = some z ∧ IsVec z n (score n f) := by
  have hm : mean t = avg n f := mean_vec h
  have hp : t.shape.prod = n := by rw [h.1]; simp
  have ht : total t.shape (fun is => (t.entry is - mean t) ^ 2) = ∑ i ∈ Finset.range n, (f i - avg n f) ^ 2 := by
    rw [h.1, hm]
    simp only [total]
    exact Finset.sum_congr rfl fun i hi => by rw [h.2 i (Finset.mem_range.1 hi)]
  refine ⟨_, by rw [standardised, if_neg (by rw [hp]; omega)], ?_⟩
  have := op1_vec (fun x => (x - mean t) / (Real.sqrt (total t.shape (fun is => (t.entry is - mean t) ^ 2) / ((t.shape.prod : ℕ) - 1)) + 1 / 100000000)) h
  rw [ht, hm, hp] at this
  simp only [ht]
  simp only [hm, hp]
  exact this

theorem score_sum (n : ℕ) (hn : 0 < n) (f : ℕ → ℝ) : ∑ i ∈ Finset.range n, score n f i = 0 := by
  simp only [score]
  rw [← Finset.sum_div, Finset.sum_sub_distrib, Finset.sum_const, Finset.card_range, nsmul_eq_mul, avg]
  have : (n : ℝ) ≠ 0 := by exact_mod_cast hn.ne'
  rw [mul_div_cancel₀ _ this, sub_self, zero_div]

theorem gae_col (d : Data) (γ lam : ℝ) (n : ℕ) (g0 : ℕ → ℝ) :
    ∃ q adv, gaeTensors .column d γ lam n g0 = some (q, adv) ∧ IsCol q n (computeGae d γ lam n g0).1 ∧ IsCol adv n (computeGae d γ lam n g0).2 := by
  have ha : IsCol (⟨[n, 1], fun is => (computeGae d γ lam n g0).2 (is.getD 0 0)⟩ : Tensor ℝ) n (computeGae d γ lam n g0).2 := ⟨rfl, fun _ _ => rfl⟩
  obtain ⟨z, hz, hc⟩ := op2_col (fun x y : ℝ => x + y) ha (col_is n d.v)
  refine ⟨z, _, ?_, hc, ha⟩
  show (op2 (fun x y : ℝ => x + y) (⟨[n, 1], fun is => (computeGae d γ lam n g0).2 (is.getD 0 0)⟩ : Tensor ℝ) (col n d.v)).bind _ = _
  rw [hz]; rfl

theorem gae_vec (d : Data) (γ lam : ℝ) (n : ℕ) (g0 : ℕ → ℝ) :
    ∃ q adv, gaeTensors .vector d γ lam n g0 = some (q, adv) ∧ IsVec q n (computeGae d γ lam n g0).1 ∧ IsVec adv n (computeGae d γ lam n g0).2 := by
  have ha : IsVec (⟨[n], fun is => (computeGae d γ lam n g0).2 (is.getD 0 0)⟩ : Tensor ℝ) n (computeGae d γ lam n g0).2 := ⟨rfl, fun _ _ => rfl⟩
  obtain ⟨z, hz, hc⟩ := op2_vec (fun x y : ℝ => x + y) ha (vec_is n d.v)
  refine ⟨z, _, ?_, hc, ha⟩
  show (op2 (fun x y : ℝ => x + y) (⟨[n], fun is => (computeGae d γ lam n g0).2 (is.getD 0 0)⟩ : Tensor ℝ) (vec n d.v)).bind _ = _
  rw [hz]; rfl

theorem mc_col (form : Form) (d : Data) (γ : ℝ) (n : ℕ) (hn : n ≠ 1) :
    ∃ q adv, mcTensors form d γ n = some (q, adv) ∧ IsCol q n (computeAdvantageMontecarlo d γ n).1 ∧
      IsCol adv n (computeAdvantageMontecarlo d γ n).2 := by
  have hl : len (squeeze (vec n d.r)) = some n := by
    rw [len, ((squeeze_vec_flat n d.r).vec_of hn).1]; rfl
  obtain ⟨z, hz, hc⟩ := op2_vec (fun x y : ℝ => x - y) (vec_is n (computeAdvantageMontecarlo d γ n).1) ((squeeze_out_flat form n d.v).vec_of hn)
  obtain ⟨q, hq, cq⟩ := newaxis_vec (vec_is n (computeAdvantageMontecarlo d γ n).1)
  obtain ⟨a, ha, ca⟩ := newaxis_vec hc
  refine ⟨q, a, ?_, cq, ca⟩
  simp only [mcTensors, hl, Option.bind_eq_bind, Option.bind_some, hz, hq, ha]
  rfl

/-- For every critic and every number of transitions other than one, the Monte-Carlo advantages and targets are columns with one value per transition;
the one-step advantages and targets, and with a critic that returns a column the generalised ones, are such columns for every number of transitions. -/
theorem C135_advantages_partial (form : Form) (d : Data) (γ lam : ℝ) (n : ℕ) (g0 : ℕ → ℝ) :
    (n ≠ 1 → ∃ q adv, mcTensors form d γ n = some (q, adv) ∧ IsCol q n (computeAdvantageMontecarlo d γ n).1 ∧
      IsCol adv n (computeAdvantageMontecarlo d γ n).2) ∧
    (∃ q adv, tdTensors form d γ n = some (q, adv) ∧ IsCol q n (computeAdvantage d γ).1 ∧ IsCol adv n (computeAdvantage d γ).2) ∧
    ∃ q adv, gaeTensors .column d γ lam n g0 = some (q, adv) ∧ IsCol q n (computeGae d γ lam n g0).1 ∧ IsCol adv n (computeGae d γ lam n g0).2 := by
  refine ⟨mc_col form d γ n, ?_, gae_col d γ lam n g0⟩
  obtain ⟨x, hx, cx⟩ := op2_flat_vec (fun x y : ℝ => x * y) (squeeze_out_flat form n d.vNext) (vec_is n fun i => notInt (d.absorbing i))
  obtain ⟨y, hy, cy⟩ := op2_vec (fun x y : ℝ => x + y) (vec_is n d.r) (op1_vec (γ * ·) cx)
  obtain ⟨z, hz, cz⟩ := op2_vec_flat (fun x y : ℝ => x - y) cy (squeeze_out_flat form n d.v)
  obtain ⟨q, hq, cq⟩ := newaxis_vec cy
  obtain ⟨a, ha, ca⟩ := newaxis_vec cz
  refine ⟨q, a, ?_, cq, ca⟩
  simp only [tdTensors, Option.bind_eq_bind, Option.bind_some, hx, hy, hz, hq, ha]
  rfl

/-- With one transition the Monte-Carlo advantages raise, whatever the critic returns; so A2C fails when it is fitted after every step. -/
theorem C135_one_transition_refuted (form : Form) (d : Data) (γ entCoeff entropy : ℝ) (logp y : ℕ → ℝ) :
    mcTensors form d γ 1 = none ∧ a2cTensors form d γ 1 entCoeff entropy logp = none ∧ a2cCritic form d γ 1 y = none := by
  have h : mcTensors form d γ 1 = none := by simp [mcTensors, len, squeeze, vec]
  exact ⟨h, by simp [a2cTensors, h], by simp [a2cCritic, h]⟩

/-! ### Losses of the policies -/

theorem ppo_eq (eps entCoeff entropy : ℝ) (logp old adv : Tensor ℝ) :
    ppoTensors eps entCoeff entropy logp old adv = (op2 (fun x y : ℝ => x - y) logp old).bind fun x =>
      (op2 (fun x y : ℝ => x * y) (op1 Real.exp x) adv).bind fun a =>
        (op2 (fun x y : ℝ => x * y) (op1 (clampRatio eps) (op1 Real.exp x)) adv).bind fun b =>
          (op2 min a b).bind fun m => some (-mean m - entCoeff * entropy) := rfl

theorem ppoBatch_eq {form : Form} {d : Data} {γ lam : ℝ} {n : ℕ} {g0 : ℕ → ℝ} {q a adv : Tensor ℝ} (h : gaeTensors form d γ lam n g0 = some (q, a))
    (hs : standardised a = some adv) (eps entCoeff entropy : ℝ) (logp old : ℕ → ℝ) (idx : List ℕ) {l o : Tensor ℝ}
    (hl : newaxis (vec idx.length fun i => logp (idx.getD i 0)) = some l) (ho : newaxis (vec n old) = some o) :
    ppoBatch form d γ lam n g0 eps entCoeff entropy logp old idx = ppoTensors eps entCoeff entropy l (rows idx o) (rows idx adv) := by
  simp only [ppoBatch, h, hs, hl, ho, Option.bind_eq_bind, Option.bind_some]

/-- PPO, with a critic that returns a column: the loss of every minibatch is the mean over its transitions of the clipped objective of the transition's own
ratio and own standardised advantage, minus the entropy bonus. -/
theorem C135_ppo_partial (d : Data) (γ lam : ℝ) (n : ℕ) (hn : 2 ≤ n) (g0 : ℕ → ℝ) (eps entCoeff entropy : ℝ) (logp old : ℕ → ℝ) (idx : List ℕ)
    (hi : ∀ i ∈ idx, i < n) :
    ppoBatch .column d γ lam n g0 eps entCoeff entropy logp old idx =
      some (-((idx.map fun i => objective eps (Real.exp (logp i - old i)) (score n (computeGae d γ lam n g0).2 i)).sum / idx.length)
        - entCoeff * entropy) := by
  obtain ⟨q, a, hg, -, ca⟩ := gae_col d γ lam n g0
  obtain ⟨adv, hs, cs⟩ := std_col hn ca
  obtain ⟨l, hl, cl⟩ := newaxis_vec (vec_is idx.length fun i => logp (idx.getD i 0))
  obtain ⟨o, ho, co⟩ := newaxis_vec (vec_is n old)
  rw [ppoBatch_eq hg hs eps entCoeff entropy logp old idx hl ho, ppo_eq]
  obtain ⟨x, hx, cx⟩ := op2_col (fun x y : ℝ => x - y) cl (rows_col co idx hi)
  obtain ⟨u, hu, cu⟩ := op2_col (fun x y : ℝ => x * y) (op1_col Real.exp cx) (rows_col cs idx hi)
  obtain ⟨w, hw, cw⟩ := op2_col (fun x y : ℝ => x * y) (op1_col (clampRatio eps) (op1_col Real.exp cx)) (rows_col cs idx hi)
  obtain ⟨m, hm, cm⟩ := op2_col min cu cw
  rw [hx, Option.bind_some, hu, Option.bind_some, hw, Option.bind_some, hm, Option.bind_some, mean_col cm]
  rw [← sum_getD (fun i => objective eps (Real.exp (logp i - old i)) (score n (computeGae d γ lam n g0).2 i)) idx]
  rfl

/-- The hypotheses are met by three transitions and a minibatch of two of them. -/
example : ∃ n : ℕ, 2 ≤ n ∧ ∃ idx : List ℕ, (∀ i ∈ idx, i < n) ∧ idx.length = 2 := ⟨3, by decide, [2, 0], by decide, rfl⟩

/-- TRPO, with a critic that returns a column: the objective is the mean over the transitions of ratio times standardised advantage, plus the entropy bonus. -/
theorem C135_trpo_partial (d : Data) (γ lam : ℝ) (n : ℕ) (hn : 2 ≤ n) (g0 : ℕ → ℝ) (entCoeff entropy : ℝ) (logp old : ℕ → ℝ) :
    trpoTensors .column d γ lam n g0 entCoeff entropy logp old =
      some ((∑ i ∈ Finset.range n, Real.exp (logp i - old i) * score n (computeGae d γ lam n g0).2 i) / n + entCoeff * entropy) := by
  obtain ⟨q, a, hg, -, ca⟩ := gae_col d γ lam n g0
  obtain ⟨adv, hs, cs⟩ := std_col hn ca
  obtain ⟨l, hl, cl⟩ := newaxis_vec (vec_is n logp)
  obtain ⟨o, ho, co⟩ := newaxis_vec (vec_is n old)
  obtain ⟨x, hx, cx⟩ := op2_col (fun x y : ℝ => x - y) cl co
  obtain ⟨u, hu, cu⟩ := op2_col (fun x y : ℝ => x * y) (op1_col Real.exp cx) cs
  simp only [trpoTensors, hg, hs, hl, ho, Option.bind_eq_bind, Option.bind_some, hx, hu, mean_col cu]
  rfl

/-- With a critic that returns a vector, PPO pairs the ratio of every transition of the minibatch with the advantage of every other one, without an error:
the loss is the mean over all the pairs. -/
theorem C135_ppo_pairs (d : Data) (γ lam : ℝ) (n : ℕ) (hn : 2 ≤ n) (g0 : ℕ → ℝ) (eps entCoeff entropy : ℝ) (logp old : ℕ → ℝ) (idx : List ℕ)
    (hi : ∀ i ∈ idx, i < n) :
    ppoBatch .vector d γ lam n g0 eps entCoeff entropy logp old idx =
      some (-((idx.map fun i => (idx.map fun j => objective eps (Real.exp (logp i - old i)) (score n (computeGae d γ lam n g0).2 j)).sum).sum /
        (idx.length * idx.length)) - entCoeff * entropy) := by
  obtain ⟨q, a, hg, -, ca⟩ := gae_vec d γ lam n g0
  obtain ⟨adv, hs, cs⟩ := std_vec hn ca
  obtain ⟨l, hl, cl⟩ := newaxis_vec (vec_is idx.length fun i => logp (idx.getD i 0))
  obtain ⟨o, ho, co⟩ := newaxis_vec (vec_is n old)
  rw [ppoBatch_eq hg hs eps entCoeff entropy logp old idx hl ho, ppo_eq]
  obtain ⟨x, hx, cx⟩ := op2_col (fun x y : ℝ => x - y) cl (rows_col co idx hi)
  obtain ⟨u, hu, cu⟩ := op2_col_vec (fun x y : ℝ => x * y) (op1_col Real.exp cx) (rows_vec cs idx hi)
  obtain ⟨w, hw, cw⟩ := op2_col_vec (fun x y : ℝ => x * y) (op1_col (clampRatio eps) (op1_col Real.exp cx)) (rows_vec cs idx hi)
  obtain ⟨m, hm, cm⟩ := op2_mat min cu cw
  rw [hx, Option.bind_some, hu, Option.bind_some, hw, Option.bind_some, hm, Option.bind_some, mean_mat cm]
  rw [← sum_getD (fun i => (idx.map fun j => objective eps (Real.exp (logp i - old i)) (score n (computeGae d γ lam n g0).2 j)).sum) idx]
  simp only [← sum_getD]
  rfl

/-- So, when the minibatch is the whole dataset and no ratio leaves the trust interval, the loss does not depend on the policy at all except for the entropy:
with such a critic the policy is not improved. -/
theorem C135_ppo_vector_refuted (d : Data) (γ lam : ℝ) (n : ℕ) (hn : 2 ≤ n) (g0 : ℕ → ℝ) (eps entCoeff entropy : ℝ) (logp old : ℕ → ℝ)
    (hr : ∀ i < n, 1 - eps ≤ Real.exp (logp i - old i) ∧ Real.exp (logp i - old i) ≤ 1 + eps) :
    ppoBatch .vector d γ lam n g0 eps entCoeff entropy logp old (List.range n) = some (-(entCoeff * entropy)) := by
  rw [C135_ppo_pairs d γ lam n hn g0 eps entCoeff entropy logp old (List.range n) fun i hi => List.mem_range.1 hi]
  have h0 : ((List.range n).map fun i => ((List.range n).map fun j =>
      objective eps (Real.exp (logp i - old i)) (score n (computeGae d γ lam n g0).2 j)).sum).sum = 0 := by
    apply List.sum_eq_zero
    intro x hx
    obtain ⟨i, hi, rfl⟩ := List.mem_map.1 hx
    obtain ⟨h1, h2⟩ := hr i (List.mem_range.1 hi)
    have ho : ∀ a, objective eps (Real.exp (logp i - old i)) a = Real.exp (logp i - old i) * a := fun a => by
      rw [objective, max_eq_left h1, min_eq_left h2, min_self]
    simp only [ho]
    have hs : ((List.range n).map fun j => Real.exp (logp i - old i) * score n (computeGae d γ lam n g0).2 j).sum =
        ∑ j ∈ Finset.range n, Real.exp (logp i - old i) * score n (computeGae d γ lam n g0).2 j := rfl
    rw [hs, ← Finset.mul_sum, score_sum n (by omega), mul_zero]
  rw [h0]
  simp

/-- The hypotheses are met by an unchanged policy, and by changed ones. -/
example : ∀ i < 5, 1 - (1 / 5 : ℝ) ≤ Real.exp ((fun _ => (0 : ℝ)) i - (fun _ => (0 : ℝ)) i) ∧
    Real.exp ((fun _ => (0 : ℝ)) i - (fun _ => (0 : ℝ)) i) ≤ 1 + 1 / 5 := by
  intro i _; simp

/-- The loss with a column, in the same situation, does depend on the policy: two policies with different losses. -/
theorem C135_ppo_column_differs (c : ℝ) (hc : 0 < c) (hc1 : c < 1) :
    let d : Data := ⟨fun i => if i = 0 then 1 else -1, fun _ => 0, fun _ => 0, fun _ => true, fun _ => true⟩
    ppoBatch .column d 0 0 2 (fun _ => 0) 1 0 0 (fun i => if i = 0 then 0 else Real.log c) (fun _ => 0) (List.range 2) ≠
      ppoBatch .vector d 0 0 2 (fun _ => 0) 1 0 0 (fun i => if i = 0 then 0 else Real.log c) (fun _ => 0) (List.range 2) := by
  intro d
  rw [C135_ppo_vector_refuted d 0 0 2 le_rfl (fun _ => 0) 1 0 0 _ _ ?_, C135_ppo_partial d 0 0 2 le_rfl (fun _ => 0) 1 0 0 _ _ (List.range 2)
    fun i hi => List.mem_range.1 hi]
  · have hg0 : (computeGae d 0 0 2 (fun _ => 0)).2 0 = 1 := by
      simp [computeGae, ValueFn.gaeLoop, List.range_succ, ValueFn.gaeStep, ValueFn.put, d]
    have hg1 : (computeGae d 0 0 2 (fun _ => 0)).2 1 = -1 := by
      simp [computeGae, ValueFn.gaeLoop, List.range_succ, ValueFn.gaeStep, ValueFn.put, d]
    have hm : avg 2 (computeGae d 0 0 2 (fun _ => 0)).2 = 0 := by
      simp [avg, Finset.sum_range_succ, hg0, hg1]
    set D := dev 2 (computeGae d 0 0 2 (fun _ => 0)).2 + 1 / 100000000 with hD
    have hDp : 0 < D := by
      have := Real.sqrt_nonneg ((∑ i ∈ Finset.range 2, ((computeGae d 0 0 2 (fun _ => 0)).2 i - avg 2 (computeGae d 0 0 2 (fun _ => 0)).2) ^ 2) /
        (((2 : ℕ) : ℝ) - 1))
      rw [hD, dev]; linarith
    have hs0 : score 2 (computeGae d 0 0 2 (fun _ => 0)).2 0 = 1 / D := by rw [score, hm, hg0, sub_zero]
    have hs1 : score 2 (computeGae d 0 0 2 (fun _ => 0)).2 1 = -1 / D := by rw [score, hm, hg1, sub_zero]
    have e0 : objective 1 1 (1 / D) = 1 / D := by
      rw [objective]; norm_num
    have e1 : objective 1 c (-1 / D) = c * (-1 / D) := by
      rw [objective, sub_self, max_eq_left hc.le, min_eq_left (show c ≤ 1 + 1 by linarith), min_self]
    have hL : ((List.range 2).map fun i => objective 1 (Real.exp ((if i = 0 then 0 else Real.log c) - 0))
        (score 2 (computeGae d 0 0 2 (fun _ => 0)).2 i)).sum = (1 - c) / D := by
      simp only [List.range_succ, List.range_zero, List.nil_append, List.cons_append, List.map_cons, List.map_nil, List.sum_cons, List.sum_nil,
        if_true, one_ne_zero, if_false, sub_zero, Real.exp_zero, Real.exp_log hc, hs0, hs1, e0, e1]
      ring
    simp only [ne_eq, Option.some.injEq]
    rw [hL]
    have : 0 < (1 - c) / D := div_pos (by linarith) hDp
    simp only [List.length_range, Nat.cast_ofNat, zero_mul, sub_zero, neg_zero]
    intro h
    linarith
  · intro i hi
    by_cases h : i = 0
    · simp [h]
    · simp only [h, if_false, sub_zero, Real.exp_log hc]
      constructor <;> linarith

example : ∃ c : ℝ, 0 < c ∧ c < 1 := ⟨1 / 2, by norm_num, by norm_num⟩

/-- A2C with more than one transition, for every critic: the loss of the policy is minus the mean over the transitions of log-probability times Monte-Carlo
advantage, minus the entropy bonus. -/
theorem C135_a2c_partial (form : Form) (d : Data) (γ : ℝ) (n : ℕ) (hn : n ≠ 1) (entCoeff entropy : ℝ) (logp : ℕ → ℝ) :
    a2cTensors form d γ n entCoeff entropy logp =
      some (-((∑ i ∈ Finset.range n, logp i * (computeAdvantageMontecarlo d γ n).2 i) / n) - entCoeff * entropy) := by
  obtain ⟨q, a, h, -, ca⟩ := mc_col form d γ n hn
  obtain ⟨l, hl, cl⟩ := newaxis_vec (vec_is n logp)
  obtain ⟨u, hu, cu⟩ := op2_col (fun x y : ℝ => x * y) cl ca
  simp only [a2cTensors, h, hl, Option.bind_eq_bind, Option.bind_some, hu, mean_col cu]
  rw [mul_neg]
  rfl

/-- The critics of A2C, PPO and TRPO that return a column are fitted to one target per transition. -/
theorem C135_critic_partial (d : Data) (γ lam : ℝ) (n : ℕ) (g0 y : ℕ → ℝ) :
    (n ≠ 1 → a2cCritic .column d γ n y = some ((∑ i ∈ Finset.range n, (y i - (computeAdvantageMontecarlo d γ n).1 i) ^ 2) / n)) ∧
    ppoCritic .column d γ lam n g0 y = some ((∑ i ∈ Finset.range n, (y i - (computeGae d γ lam n g0).1 i) ^ 2) / n) := by
  constructor
  · intro hn
    obtain ⟨q, a, h, cq, -⟩ := mc_col .column d γ n hn
    obtain ⟨u, hu, cu⟩ := op2_col (fun x y : ℝ => (x - y) ^ 2) (col_is n y) cq
    simp only [a2cCritic, h, Option.bind_eq_bind, Option.bind_some, mse, Form.out, hu, Option.map_some, mean_col cu]
  · obtain ⟨q, a, h, cq, -⟩ := gae_col d γ lam n g0
    obtain ⟨u, hu, cu⟩ := op2_col (fun x y : ℝ => (x - y) ^ 2) (col_is n y) cq
    simp only [ppoCritic, h, Option.bind_eq_bind, Option.bind_some, mse, Form.out, hu, Option.map_some, mean_col cu]

/-- A critic of A2C that returns a vector is fitted to the targets of all the transitions at once: its loss is the mean over all the pairs of a transition and
a target, which the true targets do not minimise. -/
theorem C135_a2c_critic_refuted (form : Form) (hf : form ≠ .column) (d : Data) (γ : ℝ) (n : ℕ) (hn : 2 ≤ n) (y : ℕ → ℝ) :
    a2cCritic form d γ n y =
      some ((∑ i ∈ Finset.range n, ∑ j ∈ Finset.range n, (y j - (computeAdvantageMontecarlo d γ n).1 i) ^ 2) / (n * n)) := by
  obtain ⟨q, a, h, cq, -⟩ := mc_col form d γ n (by omega)
  obtain ⟨u, hu, cu⟩ := op2_vec_col (fun x y : ℝ => (x - y) ^ 2) ((out_flat hf n y).vec_of (by omega)) cq
  simp only [a2cCritic, h, Option.bind_eq_bind, Option.bind_some, mse, hu, Option.map_some, mean_mat cu]

example : Form.vector ≠ .column ∧ Form.squeezed ≠ .column := by decide

/-! ### Policies -/

/-- The log-probabilities of the policies are columns with one value per transition: for Gaussian policies, for the Boltzmann policy, and for the recurrent
Gaussian policy if actions have at least two components. -/
theorem C135_log_prob_partial (b k : ℕ) (density : ℕ → (ℕ → ℝ) → ℝ) (act : ℕ → ℕ → ℝ) (logits : ℕ → ℕ → ℝ) (a : ℕ → ℕ) :
    (∃ t, gaussianLogProb b k density act = some t ∧ IsCol t b fun i => density i (act i)) ∧
    (∃ t, boltzmannLogProb b logits a = some t ∧ IsCol t b fun i => logits i (a i)) ∧
    (2 ≤ k → ∃ t, recurrentLogProb b k density act = some t ∧ IsCol t b fun i => density i (act i)) := by
  refine ⟨?_, ?_, fun hk => ?_⟩
  · obtain ⟨t, ht, ct⟩ := newaxis_vec (vec_is b fun i => density i (act i))
    refine ⟨t, ?_, ct⟩
    simp only [gaussianLogProb, logProbs, and_self, if_true, Option.bind_eq_bind, Option.bind_some]
    exact ht
  · obtain ⟨t, ht, ct⟩ := newaxis_vec (vec_is b fun i => logits i (a i))
    by_cases h : b = 1
    · subst h
      obtain ⟨t, ht, ct⟩ := newaxis_vec (vec_is 1 fun i => logits i (a 0))
      refine ⟨t, ?_, ct.1, fun i hi => by rw [ct.2 i hi, show i = 0 by omega]⟩
      rw [← ht]
      simp [boltzmannLogProb, squeeze, col, DQN.Nets.squeezeIdx]
    · refine ⟨t, ?_, ct⟩
      rw [← ht]
      simp [boltzmannLogProb, squeeze, col, h, DQN.Nets.squeezeIdx]
  · by_cases h : b = 1
    · subst h
      obtain ⟨t, ht, ct⟩ := newaxis_vec (vec_is 1 fun i => density i (act 0))
      refine ⟨t, ?_, ct.1, fun i hi => by rw [ct.2 i hi, show i = 0 by omega]⟩
      rw [← ht]
      have h1 : k ≠ 1 := by omega
      simp [recurrentLogProb, logProbs, squeeze, h1, DQN.Nets.squeezeIdx]
    · obtain ⟨t, ht, ct⟩ := newaxis_vec (vec_is b fun i => density i (act i))
      refine ⟨t, ?_, ct⟩
      rw [← ht]
      have h1 : k ≠ 1 := by omega
      simp [recurrentLogProb, logProbs, squeeze, h1, h, DQN.Nets.squeezeIdx]

/-- With actions of one component the recurrent policy cannot evaluate its log-probabilities: `PPO_BPTT` raises in every fit. -/
theorem C135_recurrent_refuted (b : ℕ) (density : ℕ → (ℕ → ℝ) → ℝ) (act : ℕ → ℕ → ℝ) : recurrentLogProb b 1 density act = none := by
  by_cases h : b = 1
  · subst h; simp [recurrentLogProb, logProbs, squeeze]
  · simp [recurrentLogProb, logProbs, squeeze, h]

/-! ### Off-policy agents -/

/-- SAC with a critic that returns a vector or squeezes its column: one target per transition, `r + γ (q - α log p)` and `r` for absorbing transitions, for
every size of the batch; and the loss of the critic and of the policy are the means over the transitions. -/
theorem C135_sac_partial (form : Form) (hf : form ≠ .column) (b : ℕ) (γ α : ℝ) (q q1 logp r y : ℕ → ℝ) (absorbing : ℕ → Bool) :
    (∃ t, sacTarget form b γ α q logp r absorbing = some t ∧ IsVec t b fun i => r i + γ * if absorbing i then 0 else q i - α * logp i) ∧
    sacCritic form b γ α q logp r absorbing y =
      some ((∑ i ∈ Finset.range b, (y i - (r i + γ * if absorbing i then 0 else q i - α * logp i)) ^ 2) / b) ∧
    sacActor form b α q q1 logp = some ((∑ i ∈ Finset.range b, (α * logp i - min (q i) (q1 i))) / b) := by
  have hT : ∃ t, sacTarget form b γ α q logp r absorbing = some t ∧ IsVec t b fun i => r i + γ * if absorbing i then 0 else q i - α * logp i := by
    obtain ⟨x, hx, cx⟩ := op2_flat_vec (fun x y : ℝ => x - y) (out_flat hf b q) (op1_vec (α * ·) (vec_is b logp))
    have hn : IsVec (oneMinusInts (vec b absorbing)) b fun i => notInt (absorbing i) := ⟨rfl, fun _ _ => rfl⟩
    obtain ⟨z, hz, cz⟩ := op2_vec (fun x y : ℝ => x * y) cx hn
    have hi : imul x (oneMinusInts (vec b absorbing)) = some z := by
      rw [imul, hz, Option.bind_some, if_pos (by rw [cz.1, cx.1])]
    obtain ⟨w, hw, cw⟩ := op2_vec (fun x y : ℝ => x + y) (vec_is b r) (op1_vec (γ * ·) cz)
    refine ⟨w, ?_, cw.1, fun i hi => ?_⟩
    · simp only [sacTarget, hx, hi, hw, Option.bind_eq_bind, Option.bind_some]
    · rw [cw.2 i hi]
      cases absorbing i <;> simp [notInt]
  refine ⟨hT, ?_, ?_⟩
  · obtain ⟨t, ht, ct⟩ := hT
    obtain ⟨u, hu, cu⟩ := op2_flat_vec (fun x y : ℝ => (x - y) ^ 2) (out_flat hf b y) ct
    simp only [sacCritic, ht, Option.bind_eq_bind, Option.bind_some, mse, hu, Option.map_some, mean_vec cu]
  · obtain ⟨x, hx, cx⟩ := op2_flat min (out_flat hf b q) (out_flat hf b q1)
    obtain ⟨z, hz, cz⟩ := op2_vec_flat (fun x y : ℝ => x - y) (op1_vec (α * ·) (vec_is b logp)) cx
    simp only [sacActor, hx, hz, Option.bind_eq_bind, Option.bind_some, mean_vec cz]
    rfl

/-- SAC with a critic that returns a column, as PPO, TRPO and A2C need it: the targets are a table in which the next value of every transition meets the reward
and the flag of every other one, and the critic is fitted to all of them, without an error. The loss of the policy keeps its value. -/
theorem C135_sac_column_refuted (b : ℕ) (hb : 0 < b) (γ α : ℝ) (q q1 logp r y : ℕ → ℝ) (absorbing : ℕ → Bool) :
    (∃ t, sacTarget .column b γ α q logp r absorbing = some t ∧ IsMat t b b fun i j => r j + γ * if absorbing j then 0 else q i - α * logp j) ∧
    sacCritic .column b γ α q logp r absorbing y =
      some ((∑ i ∈ Finset.range b, ∑ j ∈ Finset.range b, (y i - (r j + γ * if absorbing j then 0 else q i - α * logp j)) ^ 2) / (b * b)) ∧
    sacActor .column b α q q1 logp = some ((∑ i ∈ Finset.range b, (α * logp i - min (q i) (q1 i))) / b) := by
  have hT : ∃ t, sacTarget .column b γ α q logp r absorbing = some t ∧ IsMat t b b fun i j => r j + γ * if absorbing j then 0 else q i - α * logp j := by
    obtain ⟨x, hx, cx⟩ := op2_col_vec (fun x y : ℝ => x - y) (col_is b q) (op1_vec (α * ·) (vec_is b logp))
    have hn : IsVec (oneMinusInts (vec b absorbing)) b fun i => notInt (absorbing i) := ⟨rfl, fun _ _ => rfl⟩
    obtain ⟨z, hz, cz⟩ := op2_mat_vec (fun x y : ℝ => x * y) cx hn hb
    have hi : imul x (oneMinusInts (vec b absorbing)) = some z := by
      rw [imul, hz, Option.bind_some, if_pos (by rw [cz.1, cx.1])]
    obtain ⟨w, hw, cw⟩ := op2_vec_mat (fun x y : ℝ => x + y) (vec_is b r) (op1_mat (γ * ·) cz) hb
    refine ⟨w, ?_, cw.1, fun i hi j hj => ?_⟩
    · simp only [sacTarget, Form.out, hx, hi, hw, Option.bind_eq_bind, Option.bind_some]
    · rw [cw.2 i hi j hj]
      cases absorbing j <;> simp [notInt]
  refine ⟨hT, ?_, ?_⟩
  · obtain ⟨t, ht, ct⟩ := hT
    have : ∃ u, op2 (fun x y : ℝ => (x - y) ^ 2) (col b y) t = some u ∧
        IsMat u b b fun i j => (y i - (r j + γ * if absorbing j then 0 else q i - α * logp j)) ^ 2 := op2_col_mat _ (col_is b y) ct
    obtain ⟨u, hu, cu⟩ := this
    simp only [sacCritic, ht, Option.bind_eq_bind, Option.bind_some, mse, Form.out, hu, Option.map_some, mean_mat cu]
  · obtain ⟨x, hx, cx⟩ := op2_col min (col_is b q) (col_is b q1)
    obtain ⟨z, hz, cz⟩ := op2_vec_col (fun x y : ℝ => x - y) (op1_vec (α * ·) (vec_is b logp)) cx
    simp only [sacActor, Form.out, hx, hz, Option.bind_eq_bind, Option.bind_some, mean_mat cz]
    have hb' : (b : ℝ) ≠ 0 := by exact_mod_cast hb.ne'
    simp only [Finset.sum_sub_distrib, Finset.sum_const, Finset.card_range, nsmul_eq_mul, ← Finset.mul_sum]
    show some _ = some _
    congr 1
    field_simp

/-- DDPG and TD3 raise in every fit: their replay memory holds PyTorch booleans, which cannot be subtracted from one. -/
theorem C135_ddpg_refuted (form : Form) (b : ℕ) (γ : ℝ) (q r : ℕ → ℝ) (absorbing : ℕ → Bool) : ddpgTarget ddpgLib form b γ q r absorbing = none := by
  simp [ddpgTarget, ddpgLib, oneMinusFlags]

/-- If the flags were NumPy booleans, DDPG and TD3 would have one target per transition with a critic that returns a vector; they would still raise for
squeezed critics with batches of one transition, and for columns with larger batches. -/
theorem C135_ddpg_partial (b : ℕ) (γ : ℝ) (q r : ℕ → ℝ) (absorbing : ℕ → Bool) :
    (∃ t, ddpgTarget .numpy .vector b γ q r absorbing = some t ∧ IsVec t b fun i => r i + γ * if absorbing i then 0 else q i) ∧
    (b ≠ 1 → ∃ t, ddpgTarget .numpy .squeezed b γ q r absorbing = some t ∧ IsVec t b fun i => r i + γ * if absorbing i then 0 else q i) ∧
    ddpgTarget .numpy .squeezed 1 γ q r absorbing = none ∧
    (2 ≤ b → ddpgTarget .numpy .column b γ q r absorbing = none) := by
  have hn : ∀ b, IsVec (op1 notInt (vec b absorbing)) b fun i => notInt (absorbing i) := fun b => ⟨rfl, fun _ _ => rfl⟩
  have key : ∀ form : Form, IsVec (form.out b q) b q →
      ∃ t, ddpgTarget .numpy form b γ q r absorbing = some t ∧ IsVec t b fun i => r i + γ * if absorbing i then 0 else q i := by
    intro form cq
    obtain ⟨z, hz, cz⟩ := op2_vec (fun x y : ℝ => x * y) cq (hn b)
    have hi : imul (form.out b q) (op1 notInt (vec b absorbing)) = some z := by
      rw [imul, hz, Option.bind_some, if_pos (by rw [cz.1, cq.1])]
    obtain ⟨w, hw, cw⟩ := op2_vec (fun x y : ℝ => x + y) (vec_is b r) (op1_vec (γ * ·) cz)
    refine ⟨w, ?_, cw.1, fun i hi => ?_⟩
    · simp only [ddpgTarget, oneMinusFlags, hi, hw, Option.bind_eq_bind, Option.bind_some]
    · rw [cw.2 i hi]
      cases absorbing i <;> simp [notInt]
  refine ⟨key .vector (vec_is b q), fun hb => key .squeezed ((squeeze_col_flat b q).vec_of hb), ?_, fun hb => ?_⟩
  · have cq : IsNum (Form.squeezed.out 1 q) (q 0) := by
      rcases squeeze_col_flat 1 q with h | h
      · have := h.1
        simp [squeeze, col] at this
      · exact h.2
    obtain ⟨z, hz, cz⟩ := op2_num_vec (fun x y : ℝ => x * y) cq (hn 1)
    have hi : imul (Form.squeezed.out 1 q) (op1 notInt (vec 1 absorbing)) = none := by
      rw [imul, hz, Option.bind_some, if_neg (by rw [cz.1, cq.1]; simp)]
    simp [ddpgTarget, oneMinusFlags, hi]
  · obtain ⟨z, hz, cz⟩ := op2_col_vec (fun x y : ℝ => x * y) (col_is b q) (hn b)
    have hi : imul (Form.column.out b q) (op1 notInt (vec b absorbing)) = none := by
      show imul (col b q) _ = none
      rw [imul, hz, Option.bind_some, if_neg (by rw [cz.1, (col_is b q).1]; simp; omega)]
    simp [ddpgTarget, oneMinusFlags, hi]

end

end Verif.ActorCritic.Shapes
