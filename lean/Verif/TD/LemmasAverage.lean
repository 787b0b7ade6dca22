/-
Deterministic part of the convergence of tabular stochastic approximation: along one history, an entry that is averaged
towards a contraction plus a summable noise approaches the fixed point.
-/
import Mathlib.Analysis.SpecialFunctions.Log.Basic
import Mathlib.Analysis.SpecialFunctions.Exp
import Mathlib.Topology.Algebra.InfiniteSum.Real
import Mathlib.Topology.Instances.Real.Lemmas
import Mathlib.Analysis.SpecificLimits.Basic

namespace Verif.TD

open Filter Topology

/-- A product of `1 - a` vanishes when the sum of `a` diverges. -/
theorem prod_vanishes {a : ℕ → ℝ} (h0 : ∀ n, 0 ≤ a n) (h1 : ∀ n, a n ≤ 1)
    (hdiv : Tendsto (fun n => ∑ j ∈ Finset.range n, a j) atTop atTop) :
    Tendsto (fun n => ∏ j ∈ Finset.range n, (1 - a j)) atTop (𝓝 0) := by
  refine squeeze_zero (g := fun n => Real.exp (-(∑ j ∈ Finset.range n, a j))) (fun n => ?_) (fun n => ?_) ?_
  · exact Finset.prod_nonneg (fun j _ => by linarith [h1 j])
  · rw [← Finset.sum_neg_distrib, Real.exp_sum]
    refine Finset.prod_le_prod (fun j _ => by linarith [h1 j]) (fun j _ => ?_)
    linarith [Real.add_one_le_exp (-(a j))]
  · exact Real.tendsto_exp_neg_atTop_nhds_zero.comp hdiv

/-- An average towards values below `c` ends below `c` plus any margin. -/
theorem average_below {a v : ℕ → ℝ} {c : ℝ} (h0 : ∀ n, 0 ≤ a n) (h1 : ∀ n, a n ≤ 1)
    (hdiv : Tendsto (fun n => ∑ j ∈ Finset.range n, a j) atTop atTop) (n0 : ℕ)
    (hv : ∀ n, n0 ≤ n → v (n + 1) ≤ (1 - a n) * v n + a n * c) {ε : ℝ} (hε : 0 < ε) : ∀ᶠ n in atTop, v n ≤ c + ε := by
  have hdiv' : Tendsto (fun n => ∑ j ∈ Finset.range n, a (n0 + j)) atTop atTop := by
    have h2 : Tendsto (fun n => ∑ j ∈ Finset.range (n0 + n), a j) atTop atTop :=
      hdiv.comp (tendsto_atTop_mono (fun n => Nat.le_add_left n n0) tendsto_id)
    have h3 := tendsto_atTop_add_const_right atTop (-(∑ j ∈ Finset.range n0, a j)) h2
    refine h3.congr (fun n => ?_)
    rw [Finset.sum_range_add]; ring
  have hp := prod_vanishes (fun n => h0 (n0 + n)) (fun n => h1 (n0 + n)) hdiv'
  have hb : ∀ n, v (n0 + n) - c ≤ (∏ j ∈ Finset.range n, (1 - a (n0 + j))) * |v n0 - c| := by
    intro n
    induction n with
    | zero => simpa using le_abs_self (v n0 - c)
    | succ n ih =>
      have h2 := hv (n0 + n) (Nat.le_add_right _ _)
      have h3 := mul_le_mul_of_nonneg_left ih (by linarith [h1 (n0 + n)] : 0 ≤ 1 - a (n0 + n))
      rw [Finset.prod_range_succ, ← Nat.add_assoc]
      nlinarith
  have ht : Tendsto (fun n => (∏ j ∈ Finset.range n, (1 - a (n0 + j))) * |v n0 - c|) atTop (𝓝 0) := by
    simpa using hp.mul_const |v n0 - c|
  obtain ⟨N, hN⟩ := (eventually_atTop.1 (ht.eventually (gt_mem_nhds hε)))
  refine eventually_atTop.2 ⟨n0 + N, fun n hn => ?_⟩
  obtain ⟨k, rfl⟩ := Nat.exists_eq_add_of_le (le_trans (Nat.le_add_right n0 N) hn)
  have := hN k (by omega)
  linarith [hb k]

/-- Convergence along one history. `x` is the table, `i n` the entry that is updated with rate `a n`, towards the mean
target `F (x n)` with noise `w n`. Only the entries `L` matter. -/
theorem history_converges {I : Type} [Fintype I] [DecidableEq I] {x : ℕ → I → ℝ} {xs : I → ℝ} {F : (I → ℝ) → I → ℝ}
    {L : I → Prop} {i : ℕ → I} {a w : ℕ → ℝ} {γ B : ℝ} (hγ0 : 0 ≤ γ) (hγ1 : γ < 1)
    (h0 : ∀ n, 0 ≤ a n) (h1 : ∀ n, a n ≤ 1)
    (hx : ∀ n j, x (n + 1) j = if j = i n then x n j + a n * (F (x n) j + w n - x n j) else x n j)
    (hF : ∀ (y : I → ℝ) (D : ℝ), 0 ≤ D → (∀ j, L j → |y j - xs j| ≤ D) → ∀ j, L j → |F y j - xs j| ≤ γ * D)
    (hB : ∀ n j, |x n j - xs j| ≤ B)
    (hdiv : ∀ j, L j → Tendsto (fun n => ∑ k ∈ Finset.range n, if i k = j then a k else 0) atTop atTop)
    (hsum : ∀ j, ∃ l, Tendsto (fun n => ∑ k ∈ Finset.range n, if i k = j then a k * w k else 0) atTop (𝓝 l)) (j : I) (hj : L j) :
    Tendsto (fun n => x n j) atTop (𝓝 (xs j)) := by
  have key : ∀ (D ε : ℝ), 0 ≤ D → 0 < ε → (∀ᶠ n in atTop, ∀ j, L j → |x n j - xs j| ≤ D) →
      ∀ᶠ n in atTop, ∀ j, L j → |x n j - xs j| ≤ γ * D + ε := by
    intro D ε hD0 hε hD
    rw [eventually_all]
    intro j
    by_cases hj : L j
    swap
    · exact Eventually.of_forall (fun n h => absurd h hj)
    obtain ⟨l, hl⟩ := hsum j
    set R : ℕ → ℝ := fun n => l - ∑ k ∈ Finset.range n, if i k = j then a k * w k else 0 with hR
    have hR0 : Tendsto R atTop (𝓝 0) := by simpa [hR] using hl.const_sub l
    have hRs : ∀ᶠ n in atTop, |R n| ≤ ε / 3 := by
      have := (tendsto_zero_iff_abs_tendsto_zero R).1 hR0
      exact (this.eventually (gt_mem_nhds (by positivity : (0 : ℝ) < ε / 3))).mono (fun n h => le_of_lt h)
    obtain ⟨n0, hn0⟩ := eventually_atTop.1 (hD.and hRs)
    have hz := average_below (a := fun n => if i n = j then a n else 0) (v := fun n => |x n j - xs j + R n|)
      (c := γ * D + ε / 3) (fun n => by split <;> simp [h0]) (fun n => by split <;> simp [h1]) (hdiv j hj) n0
      (fun n hn => ?_) (by positivity : (0 : ℝ) < ε / 3)
    · filter_upwards [hz, hRs] with n hz hr _
      have : |x n j - xs j| ≤ |x n j - xs j + R n| + |R n| := by
        have := abs_sub (x n j - xs j + R n) (R n)
        simpa using this
      linarith
    · obtain ⟨hd, hr⟩ := hn0 n hn
      have hRn : R (n + 1) = R n - (if i n = j then a n * w n else 0) := by
        simp only [hR, Finset.sum_range_succ]; ring
      by_cases hi : i n = j
      · have hxn : x (n + 1) j - xs j + R (n + 1) =
            (1 - a n) * (x n j - xs j + R n) + a n * (F (x n) j - xs j + R n) := by
          rw [hx, hRn, if_pos hi.symm, if_pos hi]; ring
        simp only [hi, if_true]
        rw [hxn]
        refine (abs_add_le _ _).trans ?_
        rw [abs_mul, abs_mul, abs_of_nonneg (h0 n), abs_of_nonneg (by linarith [h1 n] : 0 ≤ 1 - a n)]
        have h2 : |F (x n) j - xs j + R n| ≤ γ * D + ε / 3 := (abs_add_le _ _).trans (by linarith [hF (x n) D hD0 hd j hj])
        linarith [mul_le_mul_of_nonneg_left h2 (h0 n)]
      · have hxn : x (n + 1) j - xs j + R (n + 1) = x n j - xs j + R n := by
          rw [hx, hRn, if_neg (fun h => hi h.symm), if_neg hi]; ring
        rw [hxn]
        simp [hi]
  have hB0 : 0 ≤ B := (abs_nonneg _).trans (hB 0 j)
  set q := (1 + γ) / 2 with hq
  have hpow : ∀ k : ℕ, ∀ᶠ n in atTop, ∀ j, L j → |x n j - xs j| ≤ q ^ k * (B + 1) := by
    intro k
    induction k with
    | zero => exact Eventually.of_forall (fun n j _ => by simpa using (hB n j).trans (by linarith))
    | succ k ih =>
      have hpos : 0 < q ^ k * (B + 1) := by
        have : 0 < q := by rw [hq]; linarith
        positivity
      have := key (q ^ k * (B + 1)) ((1 - γ) / 2 * (q ^ k * (B + 1))) hpos.le (mul_pos (by linarith) hpos) ih
      refine this.mono (fun n h j hj => (h j hj).trans (le_of_eq ?_))
      rw [pow_succ, hq]; ring
  have hq0 : Tendsto (fun k : ℕ => q ^ k * (B + 1)) atTop (𝓝 0) := by
    have := tendsto_pow_atTop_nhds_zero_of_lt_one (r := q) (by rw [hq]; linarith) (by rw [hq]; linarith)
    simpa using this.mul_const (B + 1)
  rw [Metric.tendsto_atTop]
  intro ε hε
  obtain ⟨k, hk⟩ := (hq0.eventually (gt_mem_nhds hε)).exists
  obtain ⟨N, hN⟩ := eventually_atTop.1 (hpow k)
  exact ⟨N, fun n hn => by rw [Real.dist_eq]; exact lt_of_le_of_lt (hN n hn j hj) hk⟩

end Verif.TD
