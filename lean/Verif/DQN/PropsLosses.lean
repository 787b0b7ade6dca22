/-
Property C165: what the distributional agents learn when they minimise their losses. The predictions for one state and action are the same in
every row of the batch; the targets are those that were sampled for it.
-/
import Verif.DQN.PropsNets
import Verif.DQN.PropsValues
import Mathlib.Algebra.BigOperators.Field
import Mathlib.Tactic.IntervalCases

namespace Verif.DQN.Losses

open Verif.Backend (Tensor)
open Verif.DQN.Nets

noncomputable section

/-! ### Specification -/

/-- A batch in which every row has the same predictions. -/
def same (b n : ℕ) (q : ℕ → ℝ) : Tensor ℝ := ⟨[b, n], fun is => q (is.getD 1 0)⟩

/-- The number of targets of the batch with a property. -/
def count (b n : ℕ) (target : ℕ → ℕ → ℝ) (P : ℝ → Prop) [DecidablePred P] : ℕ :=
  ((Finset.range n ×ˢ Finset.range b).filter (fun x => P (target x.2 x.1))).card

/-- No other predictions have a smaller quantile loss. -/
def Fitted (b n : ℕ) (tgt : Tensor ℝ) (q : ℕ → ℝ) : Prop :=
  ∀ q' l l', quantileLoss (tauHat n) (same b n q) tgt = some l → quantileLoss (tauHat n) (same b n q') tgt = some l' → l ≤ l'

/-! ### The quantile Huber loss -/

/-- `u` clipped to the interval from 0 to 1. -/
def clip01 (u : ℝ) : ℝ := max 0 (min u 1)

/-- The Huber loss of the positive part. -/
def hub (u : ℝ) : ℝ := if u ≤ 0 then 0 else if u < 1 then u ^ 2 / 2 else u - 1 / 2

theorem clip01_cases (u : ℝ) : (u ≤ 0 ∧ clip01 u = 0 ∧ hub u = 0) ∨ (0 < u ∧ u < 1 ∧ clip01 u = u ∧ hub u = u ^ 2 / 2) ∨
    (1 ≤ u ∧ clip01 u = 1 ∧ hub u = u - 1 / 2) := by
  unfold clip01 hub
  rcases le_or_gt u 0 with h | h
  · left; exact ⟨h, by rw [min_eq_left (by linarith), max_eq_left h], by rw [if_pos h]⟩
  · right
    rcases lt_or_ge u 1 with h1 | h1
    · left; exact ⟨h, h1, by rw [min_eq_left h1.le, max_eq_right h.le], by rw [if_neg (by linarith), if_pos h1]⟩
    · right; exact ⟨h1, by rw [min_eq_right h1]; norm_num, by rw [if_neg (by linarith), if_neg (by linarith)]⟩

theorem hub_lower (u v : ℝ) : hub u + clip01 u * (v - u) ≤ hub v := by
  rcases clip01_cases u with ⟨h1, h2, h3⟩ | ⟨h1, h1', h2, h3⟩ | ⟨h1, h2, h3⟩ <;>
  rcases clip01_cases v with ⟨g1, g2, g3⟩ | ⟨g1, g1', g2, g3⟩ | ⟨g1, g2, g3⟩ <;> rw [h2, h3, g3] <;>
  nlinarith [sq_nonneg (u - v), sq_nonneg (u - 1), sq_nonneg (v - 1), sq_nonneg u, sq_nonneg v]

theorem hub_upper (u v : ℝ) : hub v ≤ hub u + clip01 u * (v - u) + (v - u) ^ 2 / 2 := by
  rcases clip01_cases u with ⟨h1, h2, h3⟩ | ⟨h1, h1', h2, h3⟩ | ⟨h1, h2, h3⟩ <;>
  rcases clip01_cases v with ⟨g1, g2, g3⟩ | ⟨g1, g1', g2, g3⟩ | ⟨g1, g2, g3⟩ <;> rw [h2, h3, g3] <;>
  nlinarith [sq_nonneg (u - v), sq_nonneg (u - 1), sq_nonneg (v - 1), sq_nonneg u, sq_nonneg v]

theorem quantileHuber_eq {τ : ℝ} (h0 : 0 < τ) (h1 : τ < 1) (x z : ℝ) : quantileHuber τ x z = τ * hub (z - x) + (1 - τ) * hub (x - z) := by
  obtain ⟨e1, e2, -, -⟩ := C89_loss τ x z h0 h1
  rcases le_or_gt x z with h | h
  · rw [e1 h]
    have : hub (x - z) = 0 := by unfold hub; rw [if_pos (by linarith)]
    rw [this]
    unfold smoothL1 hub
    rw [abs_of_nonpos (by linarith)]
    rcases h.eq_or_lt with rfl | h'
    · simp
    · rw [if_neg (by linarith : ¬ z - x ≤ 0)]
      by_cases g : -(x - z) < 1
      · rw [if_pos g, if_pos (by linarith)]; ring
      · rw [if_neg g, if_neg (by linarith)]; ring
  · rw [e2 h]
    have : hub (z - x) = 0 := by unfold hub; rw [if_pos (by linarith)]
    rw [this]
    unfold smoothL1 hub
    rw [abs_of_pos (by linarith), if_neg (by linarith : ¬ x - z ≤ 0)]
    by_cases g : x - z < 1
    · rw [if_pos g]; ring
    · rw [if_neg g]; ring

section one

variable {ι : Type} (s : Finset ι) (z : ι → ℝ) (τ : ℝ)

/-- The slope of the loss. -/
def slope (x : ℝ) : ℝ := (1 - τ) * ∑ i ∈ s, clip01 (x - z i) - τ * ∑ i ∈ s, clip01 (z i - x)

variable {s z τ}

theorem loss_lower (h0 : 0 < τ) (h1 : τ < 1) (x y : ℝ) :
    ∑ i ∈ s, quantileHuber τ x (z i) + slope s z τ x * (y - x) ≤ ∑ i ∈ s, quantileHuber τ y (z i) := by
  unfold slope
  rw [sub_mul, Finset.mul_sum, Finset.mul_sum, Finset.sum_mul, Finset.sum_mul, ← Finset.sum_sub_distrib, ← Finset.sum_add_distrib]
  refine Finset.sum_le_sum fun i _ => ?_
  rw [quantileHuber_eq h0 h1, quantileHuber_eq h0 h1]
  have a := mul_le_mul_of_nonneg_left (hub_lower (z i - x) (z i - y)) h0.le
  have b := mul_le_mul_of_nonneg_left (hub_lower (x - z i) (y - z i)) (by linarith : 0 ≤ 1 - τ)
  nlinarith

theorem loss_upper (h0 : 0 < τ) (h1 : τ < 1) (x y : ℝ) :
    ∑ i ∈ s, quantileHuber τ y (z i) ≤ ∑ i ∈ s, quantileHuber τ x (z i) + slope s z τ x * (y - x) + s.card * ((y - x) ^ 2 / 2) := by
  unfold slope
  rw [sub_mul, Finset.mul_sum, Finset.mul_sum, Finset.sum_mul, Finset.sum_mul, ← Finset.sum_sub_distrib, ← Finset.sum_add_distrib,
    ← nsmul_eq_mul, ← Finset.sum_const, ← Finset.sum_add_distrib]
  refine Finset.sum_le_sum fun i _ => ?_
  rw [quantileHuber_eq h0 h1, quantileHuber_eq h0 h1]
  have a := mul_le_mul_of_nonneg_left (hub_upper (z i - x) (z i - y)) h0.le
  have b := mul_le_mul_of_nonneg_left (hub_upper (x - z i) (y - z i)) (by linarith : 0 ≤ 1 - τ)
  nlinarith

/-- A prediction minimises the loss exactly if the slope is zero. -/
theorem best_iff (h0 : 0 < τ) (h1 : τ < 1) (x : ℝ) :
    (∀ y, ∑ i ∈ s, quantileHuber τ x (z i) ≤ ∑ i ∈ s, quantileHuber τ y (z i)) ↔ slope s z τ x = 0 := by
  constructor
  · intro h
    rcases s.eq_empty_or_nonempty with rfl | hs
    · simp [slope]
    have hN : (0 : ℝ) < s.card := by exact_mod_cast hs.card_pos
    have h2 := h (x - slope s z τ x / s.card)
    have h3 := loss_upper (s := s) (z := z) h0 h1 x (x - slope s z τ x / s.card)
    have e : slope s z τ x * (x - slope s z τ x / s.card - x) + s.card * ((x - slope s z τ x / s.card - x) ^ 2 / 2) =
        -(slope s z τ x ^ 2 / (2 * s.card)) := by field_simp; ring
    have h4 : slope s z τ x ^ 2 / (2 * s.card) ≤ 0 := by linarith
    have h5 : slope s z τ x ^ 2 ≤ 0 := by
      by_contra h6
      push Not at h6
      have : 0 < slope s z τ x ^ 2 / (2 * s.card) := by positivity
      linarith
    exact pow_eq_zero_iff two_ne_zero |>.1 (le_antisymm h5 (sq_nonneg _))
  · intro h y
    have := loss_lower (s := s) (z := z) h0 h1 x y
    rw [h] at this
    linarith

theorem clip01_nonneg (u : ℝ) : 0 ≤ clip01 u := le_max_left _ _

theorem clip01_le (u : ℝ) : clip01 u ≤ 1 := max_le (by norm_num) (min_le_right _ _)

theorem card_sum (P : ι → Prop) [DecidablePred P] : ((s.filter P).card : ℝ) = ∑ i ∈ s, if P i then (1 : ℝ) else 0 := by
  rw [Finset.sum_boole]

theorem below_le (h0 : 0 < τ) (h1 : τ < 1) {x : ℝ} (h : slope s z τ x = 0) : ((s.filter fun i => z i ≤ x - 1).card : ℝ) ≤ τ * s.card := by
  have a : ((s.filter fun i => z i ≤ x - 1).card : ℝ) ≤ ∑ i ∈ s, clip01 (x - z i) := by
    rw [card_sum]
    refine Finset.sum_le_sum fun i _ => ?_
    split
    · rcases clip01_cases (x - z i) with ⟨h1, h2, -⟩ | ⟨h1, h1', h2, -⟩ | ⟨h1, h2, -⟩ <;> rw [h2] <;> linarith
    · exact clip01_nonneg _
  have b : ∑ i ∈ s, clip01 (z i - x) ≤ s.card - ((s.filter fun i => z i ≤ x - 1).card : ℝ) := by
    rw [card_sum, show (s.card : ℝ) = ∑ i ∈ s, (1 : ℝ) by simp, ← Finset.sum_sub_distrib]
    refine Finset.sum_le_sum fun i _ => ?_
    split
    · rcases clip01_cases (z i - x) with ⟨h1, h2, -⟩ | ⟨h1, h1', h2, -⟩ | ⟨h1, h2, -⟩ <;> rw [h2] <;> linarith
    · have := clip01_le (z i - x); linarith
  unfold slope at h
  have a' := mul_le_mul_of_nonneg_left a (by linarith : 0 ≤ 1 - τ)
  have b' := mul_le_mul_of_nonneg_left b h0.le
  nlinarith

theorem above_le (h0 : 0 < τ) (h1 : τ < 1) {x : ℝ} (h : slope s z τ x = 0) : ((s.filter fun i => x + 1 ≤ z i).card : ℝ) ≤ (1 - τ) * s.card := by
  have a : ((s.filter fun i => x + 1 ≤ z i).card : ℝ) ≤ ∑ i ∈ s, clip01 (z i - x) := by
    rw [card_sum]
    refine Finset.sum_le_sum fun i _ => ?_
    split
    · rcases clip01_cases (z i - x) with ⟨h1, h2, -⟩ | ⟨h1, h1', h2, -⟩ | ⟨h1, h2, -⟩ <;> rw [h2] <;> linarith
    · exact clip01_nonneg _
  have b : ∑ i ∈ s, clip01 (x - z i) ≤ s.card - ((s.filter fun i => x + 1 ≤ z i).card : ℝ) := by
    rw [card_sum, show (s.card : ℝ) = ∑ i ∈ s, (1 : ℝ) by simp, ← Finset.sum_sub_distrib]
    refine Finset.sum_le_sum fun i _ => ?_
    split
    · rcases clip01_cases (x - z i) with ⟨h1, h2, -⟩ | ⟨h1, h1', h2, -⟩ | ⟨h1, h2, -⟩ <;> rw [h2] <;> linarith
    · have := clip01_le (x - z i); linarith
  unfold slope at h
  have a' := mul_le_mul_of_nonneg_left a h0.le
  have b' := mul_le_mul_of_nonneg_left b (by linarith : 0 ≤ 1 - τ)
  nlinarith

theorem exact_of_gap (h0 : 0 < τ) (h1 : τ < 1) {x : ℝ} (h : slope s z τ x = 0) (hg : ∀ i ∈ s, z i = x ∨ 1 ≤ |z i - x|) :
    ((s.filter fun i => z i < x).card : ℝ) ≤ τ * s.card ∧ τ * s.card ≤ ((s.filter fun i => z i ≤ x).card : ℝ) := by
  have a : ((s.filter fun i => z i < x).card : ℝ) = ∑ i ∈ s, clip01 (x - z i) := by
    rw [card_sum]
    refine Finset.sum_congr rfl fun i hi => ?_
    rcases clip01_cases (x - z i) with ⟨h1, h2, -⟩ | ⟨h1, h1', h2, -⟩ | ⟨h1, h2, -⟩
    · rw [h2, if_neg (by linarith)]
    · exfalso
      rcases hg i hi with e | e
      · linarith
      · rw [abs_of_neg (by linarith)] at e; linarith
    · rw [h2, if_pos (by linarith)]
  have b : ((s.filter fun i => z i ≤ x).card : ℝ) = s.card - ∑ i ∈ s, clip01 (z i - x) := by
    rw [card_sum, show (s.card : ℝ) = ∑ i ∈ s, (1 : ℝ) by simp, ← Finset.sum_sub_distrib]
    refine Finset.sum_congr rfl fun i hi => ?_
    rcases clip01_cases (z i - x) with ⟨h1, h2, -⟩ | ⟨h1, h1', h2, -⟩ | ⟨h1, h2, -⟩
    · rw [h2, if_pos (by linarith)]; norm_num
    · exfalso
      rcases hg i hi with e | e
      · linarith
      · rw [abs_of_pos (by linarith)] at e; linarith
    · rw [h2, if_neg (by linarith)]; norm_num
  have c : ((s.filter fun i => z i < x).card : ℝ) ≤ ((s.filter fun i => z i ≤ x).card : ℝ) := by
    rw [card_sum, card_sum]
    refine Finset.sum_le_sum fun i _ => ?_
    by_cases e : z i < x
    · rw [if_pos e, if_pos e.le]
    · rw [if_neg e]; split <;> norm_num
  unfold slope at h
  rw [← a] at h
  have hb : ∑ i ∈ s, clip01 (z i - x) = s.card - ((s.filter fun i => z i ≤ x).card : ℝ) := by linarith
  rw [hb] at h
  constructor <;> nlinarith

end one

/-! ### The batch -/

theorem level (n k : ℕ) (hk : k < n) : (tauHat n).getD k 0 = (2 * k + 1) / (2 * n) ∧ (0 : ℝ) < (2 * k + 1) / (2 * n) ∧ (2 * k + 1) / (2 * n) < (1 : ℝ) := by
  obtain ⟨-, h1, h2, h3⟩ := C89_levels n k hk
  exact ⟨by rw [List.getD_eq_getElem?_getD, h1]; rfl, h2, h3⟩

/-- The loss of a batch with the same predictions in every row. -/
theorem same_loss (b n : ℕ) (hn : 2 ≤ n) (target : ℕ → ℕ → ℝ) (tgt : Tensor ℝ) (ht : Matrix tgt b n target) (q : ℕ → ℝ) :
    quantileLoss (tauHat n) (same b n q) tgt = some ((∑ k ∈ Finset.range n, ∑ x ∈ Finset.range n ×ˢ Finset.range b,
      quantileHuber ((2 * k + 1) / (2 * n)) (q k) (target x.2 x.1)) / (n * b * n)) := by
  have hl : (tauHat n).length = n := by simp [tauHat]
  rw [C124_quantile_loss b n hn (tauHat n) hl (fun _ => q) target (same b n q) tgt ht (Or.inl ⟨rfl, fun i _ j _ => rfl⟩)]
  congr 2
  rw [Finset.sum_congr rfl fun j _ => Finset.sum_comm, Finset.sum_comm]
  refine Finset.sum_congr rfl fun k hk => ?_
  rw [Finset.sum_product]
  refine Finset.sum_congr rfl fun j _ => Finset.sum_congr rfl fun i _ => ?_
  rw [(level n k (Finset.mem_range.1 hk)).1]

theorem fitted_iff (b n : ℕ) (hb : 0 < b) (hn : 2 ≤ n) (target : ℕ → ℕ → ℝ) (tgt : Tensor ℝ) (ht : Matrix tgt b n target) (q : ℕ → ℝ) :
    Fitted b n tgt q ↔ ∀ k < n, slope (Finset.range n ×ˢ Finset.range b) (fun x => target x.2 x.1) ((2 * k + 1) / (2 * n)) (q k) = 0 := by
  have hpos : (0 : ℝ) < n * b * n := by
    have : (0 : ℝ) < n := by exact_mod_cast (by omega : 0 < n)
    have : (0 : ℝ) < b := by exact_mod_cast hb
    positivity
  unfold Fitted
  simp only [same_loss b n hn target tgt ht, Option.some.injEq]
  constructor
  · intro h k hk
    obtain ⟨-, l0, l1⟩ := level n k hk
    rw [← best_iff l0 l1]
    intro y
    have := h (Function.update q k y) _ _ rfl rfl
    rw [div_le_div_iff_of_pos_right hpos, ← Finset.add_sum_erase _ _ (Finset.mem_range.2 hk),
      ← Finset.add_sum_erase (a := k) (Finset.range n) (fun k' => ∑ x ∈ Finset.range n ×ˢ Finset.range b,
        quantileHuber ((2 * k' + 1) / (2 * n)) (Function.update q k y k') (target x.2 x.1)) (Finset.mem_range.2 hk)] at this
    have e : ∑ k' ∈ (Finset.range n).erase k, ∑ x ∈ Finset.range n ×ˢ Finset.range b,
        quantileHuber ((2 * k' + 1) / (2 * n)) (Function.update q k y k') (target x.2 x.1) =
        ∑ k' ∈ (Finset.range n).erase k, ∑ x ∈ Finset.range n ×ˢ Finset.range b,
        quantileHuber ((2 * k' + 1) / (2 * n)) (q k') (target x.2 x.1) :=
      Finset.sum_congr rfl fun k' hk' => by rw [Function.update_of_ne (Finset.ne_of_mem_erase hk')]
    rw [e, Function.update_self] at this
    simpa using this
  · rintro h q' l l' rfl rfl
    rw [div_le_div_iff_of_pos_right hpos]
    refine Finset.sum_le_sum fun k hk => ?_
    obtain ⟨-, l0, l1⟩ := level n k (Finset.mem_range.1 hk)
    exact (best_iff l0 l1 (q k)).2 (h k (Finset.mem_range.1 hk)) (q' k)

/-- **C165.** The predictions of QuantileDQN for a state and action that minimise the loss are, up to 1, quantiles of the targets: at most the
fraction `τ_k` of the targets is smaller than the `k`-th prediction by at least 1, and at most `1 - τ_k` is larger by at least 1. They are exact
quantiles if all the targets differ from them by at least 1 or not at all. -/
theorem C165_quantiles_partial (b n : ℕ) (hb : 0 < b) (hn : 2 ≤ n) (target : ℕ → ℕ → ℝ) (tgt : Tensor ℝ) (ht : Matrix tgt b n target) (q : ℕ → ℝ)
    (hq : Fitted b n tgt q) (k : ℕ) (hk : k < n) :
    (count b n target (· ≤ q k - 1) : ℝ) ≤ (2 * k + 1) / (2 * n) * (n * b) ∧
    (count b n target (q k + 1 ≤ ·) : ℝ) ≤ (1 - (2 * k + 1) / (2 * n)) * (n * b) ∧
    ((∀ i < b, ∀ j < n, target i j = q k ∨ 1 ≤ |target i j - q k|) →
      (count b n target (· < q k) : ℝ) ≤ (2 * k + 1) / (2 * n) * (n * b) ∧ ((2 * k + 1) / (2 * n) * (n * b) : ℝ) ≤ (count b n target (· ≤ q k) : ℝ)) := by
  obtain ⟨-, l0, l1⟩ := level n k hk
  have hs := (fitted_iff b n hb hn target tgt ht q).1 hq k hk
  have hc : ((Finset.range n ×ˢ Finset.range b).card : ℝ) = n * b := by simp
  refine ⟨?_, ?_, fun hg => ?_⟩
  · have := below_le l0 l1 hs; rw [hc] at this; exact this
  · have := above_le l0 l1 hs; rw [hc] at this; exact this
  · have := exact_of_gap l0 l1 hs (fun x hx => by
      rw [Finset.mem_product, Finset.mem_range, Finset.mem_range] at hx
      exact hg x.2 hx.2 x.1 hx.1)
    rw [hc] at this
    exact this

/-- The targets 0 and 4: the levels 1/4 and 3/4 are fitted by 1/3 and 11/3. -/
example : Fitted 1 2 ⟨[1, 2], fun is => if is.getD 1 0 = 0 then 0 else 4⟩ (fun k => if k = 0 then 1 / 3 else 11 / 3) := by
  rw [fitted_iff 1 2 (by norm_num) (by norm_num) (fun _ j => if j = 0 then 0 else 4) _ ⟨rfl, fun i _ j _ => rfl⟩]
  intro k hk
  interval_cases k
  · simp only [slope, Finset.sum_product, Finset.sum_range_succ, Finset.sum_range_zero, clip01]
    norm_num
  · simp only [slope, Finset.sum_product, Finset.sum_range_succ, Finset.sum_range_zero, clip01]
    norm_num

/-- **C165 is false in general**: for targets that are closer than 1 to each other the predictions are not quantiles. The targets are 0 and 1/2,
so that 0 is the only quantile of the level 1/4, but 1/8 is predicted: half of the targets are smaller. -/
theorem C165_quantiles_refuted : ∃ (target : ℕ → ℕ → ℝ) (tgt : Tensor ℝ) (q : ℕ → ℝ), Matrix tgt 1 2 target ∧ Fitted 1 2 tgt q ∧
    ¬ (count 1 2 target (· < q 0) : ℝ) ≤ (2 * (0 : ℕ) + 1) / (2 * (2 : ℕ)) * ((2 : ℕ) * (1 : ℕ)) := by
  refine ⟨fun _ j => if j = 0 then 0 else 1 / 2, ⟨[1, 2], fun is => if is.getD 1 0 = 0 then 0 else 1 / 2⟩, fun k => if k = 0 then 1 / 8 else 3 / 8,
    ⟨rfl, fun i _ j _ => rfl⟩, ?_, ?_⟩
  · rw [fitted_iff 1 2 (by norm_num) (by norm_num) (fun _ j => if j = 0 then 0 else 1 / 2) _ ⟨rfl, fun i _ j _ => rfl⟩]
    intro k hk
    interval_cases k
    · simp only [slope, Finset.sum_product, Finset.sum_range_succ, Finset.sum_range_zero, clip01]
      norm_num
    · simp only [slope, Finset.sum_product, Finset.sum_range_succ, Finset.sum_range_zero, clip01]
      norm_num
  · have : count 1 2 (fun _ j => if j = 0 then 0 else 1 / 2 : ℕ → ℕ → ℝ) (· < 1 / 8) = 1 := by
      unfold count
      rw [Finset.card_filter, Finset.sum_product]
      simp only [Finset.sum_range_succ, Finset.sum_range_zero]
      norm_num
    simp only [if_true]
    rw [this]
    norm_num

/-! ### The categorical loss -/

/-- The mean of the target distributions. -/
def meanTarget (b : ℕ) (target : ℕ → ℕ → ℝ) (j : ℕ) : ℝ := (∑ i ∈ Finset.range b, target i j) / b

theorem same_categorical (b k : ℕ) (target : ℕ → ℕ → ℝ) (tgt : Tensor ℝ) (ht : Matrix tgt b k target) (p : ℕ → ℝ) :
    ∃ m, categoricalLoss (same b k p) tgt "sum" = some m ∧ m.entry [] = rowLoss k (meanTarget b target) p := by
  obtain ⟨-, m, -, h1, -, -, h2⟩ := C124_categorical_loss b k (fun _ => p) target (same b k p) tgt ht (Or.inl ⟨rfl, fun i _ j _ => rfl⟩)
  refine ⟨m, h1, ?_⟩
  rw [h2]
  unfold rowLoss meanTarget
  rw [Finset.sum_neg_distrib, neg_div, Finset.sum_comm, Finset.sum_div]
  congr 1
  refine Finset.sum_congr rfl fun j _ => ?_
  rw [← Finset.sum_mul]; ring

theorem gibbs (k : ℕ) (m p : ℕ → ℝ) (hm : ∀ j < k, 0 < m j) (hp : ∀ j < k, 0 < p j) (h : ∑ j ∈ Finset.range k, p j = ∑ j ∈ Finset.range k, m j) :
    -∑ j ∈ Finset.range k, m j * Real.log (m j) ≤ -∑ j ∈ Finset.range k, m j * Real.log (p j) ∧
      (-∑ j ∈ Finset.range k, m j * Real.log (m j) = -∑ j ∈ Finset.range k, m j * Real.log (p j) → ∀ j < k, p j = m j) := by
  have key : ∀ j < k, m j * Real.log (p j) - m j * Real.log (m j) ≤ p j - m j ∧
      (m j * Real.log (p j) - m j * Real.log (m j) = p j - m j → p j = m j) := by
    intro j hj
    have a := hm j hj
    have b := hp j hj
    have e : m j * Real.log (p j) - m j * Real.log (m j) = m j * Real.log (p j / m j) := by
      rw [Real.log_div b.ne' a.ne']; ring
    have e2 : p j - m j = m j * (p j / m j - 1) := by field_simp
    rw [e]
    constructor
    · rw [e2]
      exact mul_le_mul_of_nonneg_left (Real.log_le_sub_one_of_pos (by positivity)) a.le
    · intro h
      by_contra hne
      have : Real.log (p j / m j) < p j / m j - 1 := Real.log_lt_sub_one_of_pos (by positivity) (fun h' => hne (by
        rw [div_eq_one_iff_eq a.ne'] at h'; exact h'))
      have := mul_lt_mul_of_pos_left this a
      rw [← e2] at this
      linarith
  have hs : ∑ j ∈ Finset.range k, (m j * Real.log (p j) - m j * Real.log (m j)) ≤ ∑ j ∈ Finset.range k, (p j - m j) :=
    Finset.sum_le_sum fun j hj => (key j (Finset.mem_range.1 hj)).1
  have hz : ∑ j ∈ Finset.range k, (p j - m j) = 0 := by rw [Finset.sum_sub_distrib, h, sub_self]
  have hd : ∑ j ∈ Finset.range k, (m j * Real.log (p j) - m j * Real.log (m j)) =
      ∑ j ∈ Finset.range k, m j * Real.log (p j) - ∑ j ∈ Finset.range k, m j * Real.log (m j) := Finset.sum_sub_distrib _ _
  refine ⟨by linarith, fun he j hj => (key j hj).2 ?_⟩
  have hall := (Finset.sum_eq_sum_iff_of_le (s := Finset.range k) (f := fun j => m j * Real.log (p j) - m j * Real.log (m j))
    (g := fun j => p j - m j) (fun j hj => (key j (Finset.mem_range.1 hj)).1)).1 (by linarith)
  exact hall j (Finset.mem_range.2 hj)

/-- **C165.** Among the predictions for a state and action with probabilities of at least 1e-5, the one that minimises the loss of CategoricalDQN
and Rainbow is the mean of the target distributions, if its probabilities are at least 1e-5; its expected value is the mean of the expected
values of the targets. -/
theorem C165_categorical_partial (b k : ℕ) (hb : 0 < b) (target : ℕ → ℕ → ℝ) (tgt : Tensor ℝ) (ht : Matrix tgt b k target)
    (h1 : ∀ i < b, ∑ j ∈ Finset.range k, target i j = 1) (hm : ∀ j < k, 1 / 10 ^ 5 ≤ meanTarget b target j) :
    (∀ p l l' : _, (∀ j < k, 1 / 10 ^ 5 ≤ p j) → ∑ j ∈ Finset.range k, p j = 1 → categoricalLoss (same b k (meanTarget b target)) tgt "sum" = some l →
      categoricalLoss (same b k p) tgt "sum" = some l' → l.entry [] ≤ l'.entry [] ∧ (l.entry [] = l'.entry [] → ∀ j < k, p j = meanTarget b target j)) ∧
    ∀ z : ℕ → ℝ, ∑ j ∈ Finset.range k, z j * meanTarget b target j = (∑ i ∈ Finset.range b, ∑ j ∈ Finset.range k, z j * target i j) / b := by
  have hb' : (b : ℝ) ≠ 0 := by exact_mod_cast hb.ne'
  have hsum : ∑ j ∈ Finset.range k, meanTarget b target j = 1 := by
    unfold meanTarget
    rw [← Finset.sum_div, Finset.sum_comm, Finset.sum_congr rfl fun i hi => h1 i (Finset.mem_range.1 hi)]
    simp [hb']
  constructor
  · intro p l l' hp hp1 hl hl'
    obtain ⟨m1, a1, a2⟩ := same_categorical b k target tgt ht (meanTarget b target)
    obtain ⟨m2, b1, b2⟩ := same_categorical b k target tgt ht p
    obtain rfl : l = m1 := Option.some.inj (hl.symm.trans a1)
    obtain rfl : l' = m2 := Option.some.inj (hl'.symm.trans b1)
    rw [a2, b2]
    have e : ∀ q : ℕ → ℝ, (∀ j < k, 1 / 10 ^ 5 ≤ q j) → rowLoss k (meanTarget b target) q = -∑ j ∈ Finset.range k, meanTarget b target j * Real.log (q j) := by
      intro q hq
      unfold rowLoss
      congr 1
      exact Finset.sum_congr rfl fun j hj => by rw [max_eq_right (hq j (Finset.mem_range.1 hj))]
    rw [e _ hm, e _ hp]
    exact gibbs k _ p (fun j hj => lt_of_lt_of_le (by norm_num) (hm j hj)) (fun j hj => lt_of_lt_of_le (by norm_num) (hp j hj)) (by rw [hp1, hsum])
  · intro z
    unfold meanTarget
    rw [Finset.sum_comm, Finset.sum_div]
    refine Finset.sum_congr rfl fun j _ => ?_
    rw [← Finset.mul_sum]; ring

example : (∀ i < 2, ∑ j ∈ Finset.range 2, (fun i j => if i = j then (1 : ℝ) else 0) i j = 1) ∧
    ∀ j < 2, 1 / 10 ^ 5 ≤ meanTarget 2 (fun i j => if i = j then (1 : ℝ) else 0) j := by
  refine ⟨fun i hi => ?_, fun j hj => ?_⟩
  · interval_cases i <;> simp
  · interval_cases j <;> norm_num [meanTarget, Finset.sum_range_succ]

/-- **C165 is false in general**: probabilities are raised to 1e-5 in the loss, so that a prediction with a smaller probability than that of the
target, here half of it, has a smaller loss than the target distribution itself. -/
theorem C165_categorical_refuted : ∃ (tgt : Tensor ℝ) (m p : ℕ → ℝ), Matrix tgt 1 2 (fun _ => m) ∧ IsDistribution 2 m ∧ IsDistribution 2 p ∧
    ∃ l l', categoricalLoss (same 1 2 m) tgt "sum" = some l ∧ categoricalLoss (same 1 2 p) tgt "sum" = some l' ∧ l'.entry [] < l.entry [] := by
  set m : ℕ → ℝ := fun j => if j = 0 then 1 / 10 ^ 5 else 1 - 1 / 10 ^ 5 with hm
  set p : ℕ → ℝ := fun j => if j = 0 then 1 / (2 * 10 ^ 5) else 1 - 1 / (2 * 10 ^ 5) with hp
  have ht : Matrix ⟨[1, 2], fun is => m (is.getD 1 0)⟩ 1 2 (fun _ => m) := ⟨rfl, fun i _ j _ => rfl⟩
  obtain ⟨m1, a1, a2⟩ := same_categorical 1 2 (fun _ => m) _ ht m
  obtain ⟨m2, b1, b2⟩ := same_categorical 1 2 (fun _ => m) _ ht p
  refine ⟨_, m, p, ht, ⟨fun j hj => ?_, ?_⟩, ⟨fun j hj => ?_, ?_⟩, m1, m2, a1, b1, ?_⟩
  · interval_cases j <;> norm_num [hm]
  · norm_num [hm, Finset.sum_range_succ]
  · interval_cases j <;> norm_num [hp]
  · norm_num [hp, Finset.sum_range_succ]
  · rw [a2, b2]
    have e : meanTarget 1 (fun _ => m) = m := by funext j; simp [meanTarget]
    rw [e]
    unfold rowLoss
    simp only [Finset.sum_range_succ, Finset.sum_range_zero, zero_add]
    have m0 : m 0 = 1 / 10 ^ 5 := rfl
    have m1 : m 1 = 1 - 1 / 10 ^ 5 := rfl
    have p0 : p 0 = 1 / (2 * 10 ^ 5) := rfl
    have p1 : p 1 = 1 - 1 / (2 * 10 ^ 5) := rfl
    rw [m0, m1, p0, p1, max_eq_left (by norm_num : (1 / (2 * 10 ^ 5) : ℝ) ≤ 1 / 10 ^ 5), max_self,
      max_eq_right (by norm_num : (1 / 10 ^ 5 : ℝ) ≤ 1 - 1 / 10 ^ 5), max_eq_right (by norm_num : (1 / 10 ^ 5 : ℝ) ≤ 1 - 1 / (2 * 10 ^ 5))]
    have hlog : Real.log (1 - 1 / 10 ^ 5) < Real.log (1 - 1 / (2 * 10 ^ 5)) := Real.log_lt_log (by norm_num) (by norm_num)
    nlinarith

end

end Verif.DQN.Losses
