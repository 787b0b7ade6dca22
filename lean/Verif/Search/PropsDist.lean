/-
Property C58: reading and writing the parameters of the search distributions, and maximum likelihood with weights.
-/
import Verif.Search.SpecDist
import Mathlib.Tactic.Ring
import Mathlib.Tactic.Linarith
import Mathlib.Tactic.FieldSimp
import Mathlib.Tactic.NormNum
import Mathlib.Data.List.GetD
import Mathlib.Data.List.FinRange
import Mathlib.Algebra.BigOperators.Intervals
import Mathlib.LinearAlgebra.Matrix.Block

namespace Verif.Search

open Matrix

variable {n : ℕ}

/-! ### Parameters -/

theorem ofFn_getD (l : List ℝ) (h : l.length = n) : List.ofFn (fun i : Fin n => l.getD i 0) = l := by
  subst h
  apply List.ext_getElem
  · simp
  · intro i h1 h2; simp

theorem getD_ofFn (v : Vec n) (i : Fin n) : (List.ofFn v).getD i 0 = v i := by simp

/-- C58. The mean written to a Gaussian distribution is read back, and writing back what was read changes nothing. -/
theorem C58_gauss (g : Gauss n) :
    (∀ rho : List ℝ, rho.length = n → ∃ g', g.set rho = some g' ∧ g'.get = rho ∧ g'.sigma = g.sigma) ∧
    g.get.length = n ∧ g.set g.get = some g := by
  refine ⟨fun rho h => ⟨_, if_pos h, ofFn_getD rho h, rfl⟩, by simp [Gauss.get], ?_⟩
  rw [Gauss.set, if_pos (by simp [Gauss.get])]
  congr 1
  rcases g with ⟨mu, s, i⟩
  simp [Gauss.get]

/-- C58. The same for the distribution with a diagonal covariance. -/
theorem C58_diag (g : Diag n) :
    (∀ rho : List ℝ, rho.length = 2 * n → ∃ g', g.set rho = some g' ∧ g'.get = rho) ∧
    g.get.length = 2 * n ∧ g.set g.get = some g := by
  refine ⟨fun rho h => ⟨_, if_pos h, ?_⟩, by simp [Diag.get]; omega, ?_⟩
  · unfold Diag.get
    rw [ofFn_getD _ (by simp; omega), ofFn_getD _ (by simp; omega), List.take_append_drop]
  · rw [Diag.set, if_pos (by simp [Diag.get]; omega)]
    congr 1
    rcases g with ⟨mu, s⟩
    have h1 : ((Diag.mk mu s).get).take n = List.ofFn mu := by
      unfold Diag.get; rw [List.take_left' (by simp)]
    have h2 : ((Diag.mk mu s).get).drop n = List.ofFn s := by
      unfold Diag.get; rw [List.drop_left' (by simp)]
    rw [h1, h2]
    simp

theorem mem_tril {p : Fin n × Fin n} : p ∈ tril n ↔ p.2 ≤ p.1 := by
  simp only [tril, List.mem_flatMap, List.mem_finRange, true_and, List.mem_map, List.mem_filter, decide_eq_true_eq]
  constructor
  · rintro ⟨i, j, h, rfl⟩; exact h
  · intro h; exact ⟨p.1, p.2, h, rfl⟩

theorem nodup_tril : (tril n).Nodup := by
  unfold tril
  rw [List.nodup_flatMap]
  constructor
  · intro i _
    exact ((List.nodup_finRange n).filter _).map (fun a b h => by simpa using h)
  · refine (List.nodup_finRange n).pairwise_of_forall_ne ?_
    intro i _ i' _ h
    simp only [Function.onFun, List.disjoint_left, List.mem_map, List.mem_filter]
    rintro p ⟨j, _, rfl⟩ ⟨j', _, h'⟩
    exact h (by simpa using (congrArg Prod.fst h').symm)

theorem length_tril : n + (tril n).length = Chol.size n := by
  have h1 : (tril n).length = ∑ i ∈ Finset.range n, (i + 1) := by
    unfold tril
    rw [List.length_flatMap]
    have : ∀ i : Fin n, (((List.finRange n).filter (fun j => j ≤ i)).map (fun j => (i, j))).length = (i : ℕ) + 1 := by
      intro i
      rw [List.length_map, ← List.countP_eq_length_filter]
      have h := List.countP_eq_length_filter (p := fun j : Fin n => decide (j ≤ i)) (l := List.finRange n)
      rw [h]
      have hn : ((List.finRange n).filter (fun j => j ≤ i)).Nodup := (List.nodup_finRange n).filter _
      rw [← List.toFinset_card_of_nodup hn]
      have : ((List.finRange n).filter (fun j => decide (j ≤ i))).toFinset = Finset.Iic i := by
        ext j; simp
      rw [this, Fin.card_Iic]
    simp only [this]
    rw [show (List.finRange n).map (fun i : Fin n => (i : ℕ) + 1) = List.ofFn (fun i : Fin n => (i : ℕ) + 1) from by
      rw [List.ofFn_eq_map], List.sum_ofFn]
    exact Fin.sum_univ_eq_sum_range (fun i => i + 1) n
  have h2 : (∑ i ∈ Finset.range n, (i + 1)) = (n * n - n) / 2 + n := by
    rw [Finset.sum_add_distrib, Finset.sum_range_id]
    simp [Nat.mul_sub]
  rw [h1, h2, Chol.size]
  omega

theorem writeTril_of_not_mem (m : Matrix (Fin n) (Fin n) ℝ) (idx : List (Fin n × Fin n)) (values : List ℝ) (i j : Fin n)
    (h : (i, j) ∉ idx) : writeTril m idx values i j = m i j := by
  unfold writeTril
  induction idx generalizing m values with
  | nil => rfl
  | cons p idx ih =>
    cases values with
    | nil => rfl
    | cons v values =>
      rw [List.zip_cons_cons, List.foldl_cons, ih _ _ (fun h' => h (List.mem_cons_of_mem _ h'))]
      exact if_neg (fun h' : (i, j) = p => h (h' ▸ List.mem_cons_self))

theorem read_writeTril (m : Matrix (Fin n) (Fin n) ℝ) (idx : List (Fin n × Fin n)) (hn : idx.Nodup) (values : List ℝ)
    (hl : idx.length = values.length) : idx.map (fun p => writeTril m idx values p.1 p.2) = values := by
  induction idx generalizing m values with
  | nil => simp at hl; simp [List.length_eq_zero_iff.1 hl.symm]
  | cons p idx ih =>
    cases values with
    | nil => simp at hl
    | cons v values =>
      rw [List.nodup_cons] at hn
      rw [List.map_cons]
      have hw : ∀ m', writeTril m' (p :: idx) (v :: values) =
          writeTril (writeEntry m' (p, v)) idx values := fun m' => rfl
      congr 1
      · rw [hw, writeTril_of_not_mem _ _ _ _ _ (by simpa using hn.1)]
        simp [writeEntry]
      · simp only [hw]
        exact ih _ hn.2 _ (by simpa using hl)

theorem writeTril_read (m : Matrix (Fin n) (Fin n) ℝ) (idx : List (Fin n × Fin n)) :
    writeTril m idx (idx.map (fun p => m p.1 p.2)) = m := by
  unfold writeTril
  induction idx with
  | nil => rfl
  | cons p idx ih =>
    rw [List.map_cons, List.zip_cons_cons, List.foldl_cons]
    have : writeEntry m (p, m p.1 p.2) = m := by
      ext i j
      show (if (i, j) = p then m p.1 p.2 else m i j) = m i j
      by_cases h : (i, j) = p
      · rw [if_pos h, ← h]
      · rw [if_neg h]
    rw [this]
    exact ih

/-- C58. The same for the distribution given by a Cholesky factor. Moreover writing parameters keeps the factor lower triangular. -/
theorem C58_chol (g : Chol n) :
    (∀ rho : List ℝ, rho.length = Chol.size n → ∃ g', g.set rho = some g' ∧ g'.get = rho ∧
      ((∀ i j, i < j → g.chol i j = 0) → ∀ i j, i < j → g'.chol i j = 0)) ∧
    g.get.length = Chol.size n ∧ g.set g.get = some g := by
  refine ⟨fun rho h => ⟨_, if_pos h, ?_, ?_⟩, by simp [Chol.get, ← length_tril], ?_⟩
  · unfold Chol.get
    rw [ofFn_getD _ (by rw [List.length_take, h, ← length_tril]; omega), read_writeTril _ _ nodup_tril _ (by
      rw [List.length_drop, h, ← length_tril]; omega), List.take_append_drop]
  · intro hz i j hij
    show writeTril _ _ _ i j = 0
    rw [writeTril_of_not_mem _ _ _ _ _ (by rw [mem_tril]; exact not_le.2 hij)]
    exact hz i j hij
  · rw [Chol.set, if_pos (by simp [Chol.get, ← length_tril])]
    congr 1
    rcases g with ⟨mu, c⟩
    have h1 : ((Chol.mk mu c).get).take n = List.ofFn mu := by
      unfold Chol.get; rw [List.take_left' (by simp)]
    have h2 : ((Chol.mk mu c).get).drop n = (tril n).map (fun p => c p.1 p.2) := by
      unfold Chol.get; rw [List.drop_left' (by simp)]
    rw [h1, h2]
    simp [writeTril_read]

/-- C58. Whatever is written to the parameters, the covariance of the diagonal and of the Cholesky distribution is symmetric and
positive semidefinite, and positive definite as long as no standard deviation, or no diagonal entry of the factor, is zero. -/
theorem C58_covariance (x : Vec n) (g : Diag n) (c : Chol n) :
    g.sigma.IsSymm ∧ 0 ≤ x ⬝ᵥ (g.sigma *ᵥ x) ∧ ((∀ j, g.std j ≠ 0) → x ≠ 0 → 0 < x ⬝ᵥ (g.sigma *ᵥ x)) ∧
    c.sigma.IsSymm ∧ 0 ≤ x ⬝ᵥ (c.sigma *ᵥ x) ∧
      ((∀ i j, i < j → c.chol i j = 0) → (∀ i, c.chol i i ≠ 0) → x ≠ 0 → 0 < x ⬝ᵥ (c.sigma *ᵥ x)) := by
  have hd : x ⬝ᵥ (g.sigma *ᵥ x) = ∑ j, (g.std j * x j) ^ 2 := by
    simp only [dotProduct, Diag.sigma, mulVec_diagonal]
    exact Finset.sum_congr rfl (fun j _ => by ring)
  have hc : x ⬝ᵥ (c.sigma *ᵥ x) = ∑ j, ((c.cholᵀ *ᵥ x) j) ^ 2 := by
    rw [Chol.sigma, ← mulVec_mulVec, dotProduct_mulVec, ← mulVec_transpose]
    simp only [dotProduct, sq]
  refine ⟨Matrix.isSymm_diagonal _, ?_, ?_, ?_, ?_, ?_⟩
  · rw [hd]; exact Finset.sum_nonneg (fun j _ => sq_nonneg _)
  · intro hs hx
    rw [hd]
    obtain ⟨j, hj⟩ := Function.ne_iff.1 hx
    exact Finset.sum_pos' (fun j _ => sq_nonneg _) ⟨j, Finset.mem_univ _, by
      have := mul_ne_zero (hs j) hj
      positivity⟩
  · exact Matrix.isSymm_mul_transpose_self _
  · rw [hc]; exact Finset.sum_nonneg (fun j _ => sq_nonneg _)
  · intro hlow hdiag hx
    rw [hc]
    have hne : c.cholᵀ *ᵥ x ≠ 0 := by
      intro h0
      have hu : IsUnit c.cholᵀ.det := by
        rw [det_transpose, det_of_lowerTriangular _ (fun i j h => hlow i j h)]
        exact isUnit_iff_ne_zero.2 (Finset.prod_ne_zero_iff.2 (fun i _ => hdiag i))
      exact hx (by
        have := congrArg (fun v => (c.cholᵀ)⁻¹ *ᵥ v) h0
        simpa [mulVec_mulVec, nonsing_inv_mul _ hu] using this)
    obtain ⟨j, hj⟩ := Function.ne_iff.1 hne
    exact Finset.sum_pos' (fun j _ => sq_nonneg _) ⟨j, Finset.mem_univ _, by
      have : (c.cholᵀ *ᵥ x) j ≠ 0 := hj
      positivity⟩

/-! ### Maximum likelihood -/

theorem wmean_spec (l : List (ℝ × Vec n)) (h : sumD l ≠ 0) : IsWeightedMean l (wmean l) := by
  intro j
  show sumD l * ((l.map (fun p => p.1 * p.2 j)).sum / sumD l) = _
  field_simp

theorem weighted_sum_dot (l : List (ℝ × Vec n)) (m v : Vec n) (hm : IsWeightedMean l m) :
    (l.map (fun p => p.1 * ((p.2 - m) ⬝ᵥ v))).sum = 0 := by
  have h1 : (l.map (fun p => p.1 * ((p.2 - m) ⬝ᵥ v))).sum =
      ∑ j, ((l.map (fun p => p.1 * p.2 j)).sum - (l.map (fun p => p.1)).sum * m j) * v j := by
    clear hm
    induction l with
    | nil => simp
    | cons p l ih =>
      rw [List.map_cons, List.sum_cons, ih, dotProduct, Finset.mul_sum, ← Finset.sum_add_distrib]
      simp only [List.map_cons, List.sum_cons, Pi.sub_apply]
      exact Finset.sum_congr rfl (fun j _ => by ring)
  rw [h1]
  refine Finset.sum_eq_zero (fun j _ => ?_)
  rw [← hm j]
  ring

theorem quad_expand (M : Matrix (Fin n) (Fin n) ℝ) (a b : Vec n) :
    (a + b) ⬝ᵥ (M *ᵥ (a + b)) = a ⬝ᵥ (M *ᵥ a) + a ⬝ᵥ (M *ᵥ b) + a ⬝ᵥ (Mᵀ *ᵥ b) + b ⬝ᵥ (M *ᵥ b) := by
  have : b ⬝ᵥ (M *ᵥ a) = a ⬝ᵥ (Mᵀ *ᵥ b) := by
    rw [dotProduct_mulVec, ← mulVec_transpose, dotProduct_comm]
  rw [mulVec_add, dotProduct_add, add_dotProduct, add_dotProduct, this]
  ring

theorem weighted_quad (l : List (ℝ × Vec n)) (m c : Vec n) (hm : IsWeightedMean l m) (M : Matrix (Fin n) (Fin n) ℝ) :
    (l.map (fun p => p.1 * ((p.2 - c) ⬝ᵥ (M *ᵥ (p.2 - c))))).sum =
      (l.map (fun p => p.1 * ((p.2 - m) ⬝ᵥ (M *ᵥ (p.2 - m))))).sum + sumD l * ((m - c) ⬝ᵥ (M *ᵥ (m - c))) := by
  have h1 := weighted_sum_dot l m (M *ᵥ (m - c)) hm
  have h2 := weighted_sum_dot l m (Mᵀ *ᵥ (m - c)) hm
  have h3 : (l.map (fun p => p.1 * ((p.2 - c) ⬝ᵥ (M *ᵥ (p.2 - c))))).sum =
      (l.map (fun p => p.1 * ((p.2 - m) ⬝ᵥ (M *ᵥ (p.2 - m))))).sum + (l.map (fun p => p.1 * ((p.2 - m) ⬝ᵥ (M *ᵥ (m - c))))).sum +
      (l.map (fun p => p.1 * ((p.2 - m) ⬝ᵥ (Mᵀ *ᵥ (m - c))))).sum + sumD l * ((m - c) ⬝ᵥ (M *ᵥ (m - c))) := by
    clear h1 h2 hm
    unfold sumD
    induction l with
    | nil => simp
    | cons p l ih =>
      simp only [List.map_cons, List.sum_cons, ih]
      have : p.2 - c = (p.2 - m) + (m - c) := by abel
      rw [this, quad_expand]
      ring
  rw [h3, h1, h2]
  ring

/-- C58. Maximum likelihood with weights of positive sum gives the Gaussian distribution the weighted mean of the samples, and no
other mean has a higher weighted log-likelihood. The covariance is kept. -/
theorem C58_mean (g : Gauss n) (l : List (ℝ × Vec n)) (hl : 0 < sumD l) (hs : ∀ x : Vec n, 0 ≤ x ⬝ᵥ (g.sigma⁻¹ *ᵥ x)) :
    ∃ g', g.wmle l = some g' ∧ IsWeightedMean l g'.mu ∧ g'.sigma = g.sigma ∧
      ∀ c : Vec n, (l.map (fun p => p.1 * logPdf p.2 c g.sigma)).sum ≤ (l.map (fun p => p.1 * logPdf p.2 g'.mu g.sigma)).sum := by
  refine ⟨_, if_neg hl.ne', wmean_spec l hl.ne', rfl, fun c => ?_⟩
  have key := weighted_quad l (wmean l) c (wmean_spec l hl.ne') g.sigma⁻¹
  have hexp : ∀ c : Vec n, (l.map (fun p => p.1 * logPdf p.2 c g.sigma)).sum =
      -(1 / 2) * (sumD l * (n * Real.log (2 * Real.pi) + Real.log g.sigma.det)) -
      (1 / 2) * (l.map (fun p => p.1 * ((p.2 - c) ⬝ᵥ (g.sigma⁻¹ *ᵥ (p.2 - c))))).sum := by
    intro c
    clear key hl
    unfold sumD
    induction l with
    | nil => simp
    | cons p l ih =>
      simp only [List.map_cons, List.sum_cons]
      rw [ih]
      unfold logPdf
      ring
  rw [hexp, hexp, key]
  have := mul_nonneg hl.le (hs (wmean l - c))
  show _ ≤ _ - (1 / 2) * (l.map (fun p => p.1 * ((p.2 - wmean l) ⬝ᵥ (g.sigma⁻¹ *ᵥ (p.2 - wmean l))))).sum
  linarith

/-- The normaliser is nonnegative for nonnegative weights, and positive if two of them are positive. -/
theorem zOf_nonneg (l : List (ℝ × Vec n)) (hw : ∀ p ∈ l, 0 ≤ p.1) : 0 ≤ zOf l ∧
    (∀ l1 l2 l3 p q, l = l1 ++ p :: l2 ++ q :: l3 → 0 < p.1 → 0 < q.1 → 0 < zOf l) := by
  have hsum : ∀ l : List (ℝ × Vec n), (∀ p ∈ l, 0 ≤ p.1) → 0 ≤ sumD l ∧ sumD2 l ≤ sumD l ^ 2 := by
    intro l
    induction l with
    | nil => intro _; simp [sumD, sumD2]
    | cons p l ih =>
      intro h
      obtain ⟨h1, h2⟩ := ih (fun q hq => h q (List.mem_cons_of_mem _ hq))
      have hp := h p List.mem_cons_self
      simp only [sumD, sumD2, List.map_cons, List.sum_cons] at h1 h2 ⊢
      exact ⟨by linarith, by nlinarith [mul_nonneg hp h1]⟩
  obtain ⟨h1, h2⟩ := hsum l hw
  constructor
  · unfold zOf
    rcases h1.eq_or_lt with h | h
    · rw [← h]; simp
    · have : sumD2 l / sumD l ≤ sumD l := by rw [div_le_iff₀ h]; nlinarith
      linarith
  · intro l1 l2 l3 p q hl hp hq
    have e1 : sumD l = sumD l1 + p.1 + sumD l2 + q.1 + sumD l3 := by subst hl; simp [sumD]; ring
    have e2 : sumD2 l = sumD2 l1 + p.1 ^ 2 + sumD2 l2 + q.1 ^ 2 + sumD2 l3 := by subst hl; simp [sumD2]; ring
    obtain ⟨a1, b1⟩ := hsum l1 (fun x hx => hw x (by subst hl; simp [hx]))
    obtain ⟨a2, b2⟩ := hsum l2 (fun x hx => hw x (by subst hl; simp [hx]))
    obtain ⟨a3, b3⟩ := hsum l3 (fun x hx => hw x (by subst hl; simp [hx]))
    have hpos : 0 < sumD l := by rw [e1]; linarith
    have hlt : sumD2 l < sumD l ^ 2 := by
      rw [e2, e1]
      nlinarith [mul_pos hp hq, mul_nonneg a1 a2, mul_nonneg a1 a3, mul_nonneg a2 a3, mul_nonneg a1 hp.le, mul_nonneg a1 hq.le,
        mul_nonneg a2 hp.le, mul_nonneg a2 hq.le, mul_nonneg a3 hp.le, mul_nonneg a3 hq.le]
    unfold zOf
    have : sumD2 l / sumD l < sumD l := by rw [div_lt_iff₀ hpos]; nlinarith
    linarith

/-- C58 (partial: at least two samples with positive weight are needed, see `C58_single_refuted`). Maximum likelihood with
nonnegative weights gives the diagonal distribution the weighted mean, and the standard deviations whose squares are the weighted
sums of squared deviations divided by the sum of the weights minus the sum of their squares over their sum. -/
theorem C58_diag_wmle_partial (g : Diag n) (l l1 l2 l3 : List (ℝ × Vec n)) (p q : ℝ × Vec n) (hl : l = l1 ++ p :: l2 ++ q :: l3)
    (hp : 0 < p.1) (hq : 0 < q.1) (hw : ∀ p ∈ l, 0 ≤ p.1) :
    ∃ g', g.wmle l = some g' ∧ IsWeightedMean l g'.mu ∧ (∀ j, 0 ≤ g'.std j) ∧
      ∀ j, g'.std j ^ 2 * ((l.map (fun p => p.1)).sum - (l.map (fun p => p.1 ^ 2)).sum / (l.map (fun p => p.1)).sum) =
        (l.map (fun p => p.1 * (p.2 j - g'.mu j) ^ 2)).sum := by
  have hz := (zOf_nonneg l hw).2 l1 l2 l3 p q hl hp hq
  have hD : sumD l ≠ 0 := by
    intro h0
    unfold zOf at hz
    rw [h0] at hz
    simp at hz
  have hnn : ∀ (m : Vec n) j, 0 ≤ (l.map (fun p => p.1 * (p.2 j - m j) ^ 2)).sum := by
    intro m j
    refine List.sum_nonneg ?_
    intro x hx
    obtain ⟨p, hp, rfl⟩ := List.mem_map.1 hx
    exact mul_nonneg (hw p hp) (sq_nonneg _)
  have hq' : ∀ j, 0 ≤ (l.map (fun p => p.1 * (p.2 j - wmean l j) ^ 2)).sum / zOf l := fun j => div_nonneg (hnn _ j) hz.le
  refine ⟨_, if_neg ?_, wmean_spec l hD, fun j => Real.sqrt_nonneg _, fun j => ?_⟩
  · rintro (h | h | ⟨j, h⟩)
    · exact hD h
    · exact hz.ne' h
    · exact absurd h (not_lt.2 (hq' j))
  · show Real.sqrt _ ^ 2 * zOf l = _
    rw [Real.sq_sqrt (hq' j), div_mul_cancel₀ _ hz.ne']

/-- C58 (partial, as above). The same for the Cholesky distribution: its covariance is the weighted covariance. -/
theorem C58_chol_wmle_partial (cholesky : Matrix (Fin n) (Fin n) ℝ → Option (Matrix (Fin n) (Fin n) ℝ)) (hc : IsCholesky cholesky)
    (g g' : Chol n) (l : List (ℝ × Vec n)) (h : g.wmle cholesky l = some g') :
    IsWeightedMean l g'.mu ∧ (∀ i j, i < j → g'.chol i j = 0) ∧ ∀ a b, g'.sigma a b *
      ((l.map (fun p => p.1)).sum - (l.map (fun p => p.1 ^ 2)).sum / (l.map (fun p => p.1)).sum) =
        (l.map (fun p => p.1 * (p.2 a - g'.mu a) * (p.2 b - g'.mu b))).sum := by
  unfold Chol.wmle at h
  split at h
  · simp at h
  · rename_i hn
    obtain ⟨hD, hz⟩ := not_or.1 hn
    rcases hs : cholesky (wcov l) with _ | c
    · rw [hs] at h; simp at h
    · rw [hs] at h
      simp only [Option.map_some, Option.some.injEq] at h
      subst h
      obtain ⟨c1, _, c3⟩ := hc _ _ hs
      refine ⟨wmean_spec l hD, c1, fun a b => ?_⟩
      show (c * cᵀ) a b * zOf l = _
      rw [c3, wcov, div_mul_cancel₀ _ hz]

/-- C58 fails for a single sample: the normaliser vanishes, whatever the weight. -/
theorem C58_single_refuted (w : ℝ) (x : Vec n) (g : Diag n) (c : Chol n)
    (cholesky : Matrix (Fin n) (Fin n) ℝ → Option (Matrix (Fin n) (Fin n) ℝ)) :
    g.wmle [(w, x)] = none ∧ c.wmle cholesky [(w, x)] = none := by
  have : sumD [(w, x)] = 0 ∨ zOf [(w, x)] = 0 := by
    by_cases hw : w = 0
    · left; simp [sumD, hw]
    · right; simp [zOf, sumD, sumD2]; field_simp; ring
  exact ⟨if_pos (this.elim Or.inl (fun h => Or.inr (Or.inl h))), if_pos this⟩

/-- C58. Multiplying all the weights by a positive constant changes nothing. -/
theorem C58_scale (c : ℝ) (hc : 0 < c) (l : List (ℝ × Vec n)) (g : Diag n) (h : Chol n) (k : Gauss n)
    (cholesky : Matrix (Fin n) (Fin n) ℝ → Option (Matrix (Fin n) (Fin n) ℝ)) :
    g.wmle (l.map (fun p : ℝ × Vec n => (c * p.1, p.2))) = g.wmle l ∧ h.wmle cholesky (l.map (fun p : ℝ × Vec n => (c * p.1, p.2))) = h.wmle cholesky l ∧
    k.wmle (l.map (fun p : ℝ × Vec n => (c * p.1, p.2))) = k.wmle l := by
  set l' := l.map (fun p : ℝ × Vec n => (c * p.1, p.2)) with hl'
  have pull : ∀ f : ℝ × Vec n → ℝ, (l.map (fun p => c * f p)).sum = c * (l.map f).sum := by
    intro f
    induction l with
    | nil => simp
    | cons p l ih => simp only [List.map_cons, List.sum_cons, ih]; ring
  have pull2 : ∀ f : Vec n → ℝ, (l'.map (fun p => p.1 * f p.2)).sum = c * (l.map (fun p => p.1 * f p.2)).sum := by
    intro f
    rw [← pull, hl', List.map_map]
    congr 1
    exact List.map_congr_left (fun p _ => by simp [mul_assoc])
  have e1 : sumD l' = c * sumD l := by
    have := pull2 (fun _ => 1)
    simpa [sumD] using this
  have e2 : sumD2 l' = c ^ 2 * sumD2 l := by
    unfold sumD2
    rw [hl', List.map_map]
    have : ((fun p : ℝ × Vec n => p.1 ^ 2) ∘ fun p : ℝ × Vec n => (c * p.1, p.2)) = fun p => c * (c * p.1 ^ 2) := by
      funext p; simp; ring
    rw [this, pull (fun p => c * p.1 ^ 2), pull (fun p => p.1 ^ 2)]
    ring
  have e3 : zOf l' = c * zOf l := by
    unfold zOf
    rw [e1, e2]
    by_cases h0 : sumD l = 0
    · simp [h0]
    · field_simp
  have e4 : wmean l' = wmean l := by
    funext j
    unfold wmean
    rw [pull2 (fun v => v j), e1, mul_div_mul_left _ _ hc.ne']
  have z1 : sumD l' = 0 ↔ sumD l = 0 := by rw [e1]; simp [hc.ne']
  have z2 : zOf l' = 0 ↔ zOf l = 0 := by rw [e3]; simp [hc.ne']
  have e5 : ∀ j, (l'.map (fun p => p.1 * (p.2 j - wmean l j) ^ 2)).sum / zOf l' =
      (l.map (fun p => p.1 * (p.2 j - wmean l j) ^ 2)).sum / zOf l := by
    intro j
    rw [pull2 (fun v => (v j - wmean l j) ^ 2), e3, mul_div_mul_left _ _ hc.ne']
  have e6 : wcov l' = wcov l := by
    funext a b
    unfold wcov
    rw [e4, e3]
    have := pull2 (fun v => (v a - wmean l a) * (v b - wmean l b))
    simp only [← mul_assoc] at this
    rw [this, mul_div_mul_left _ _ hc.ne']
  refine ⟨?_, ?_, ?_⟩
  · unfold Diag.wmle
    simp only [e4, e5, z1, z2]
  · unfold Chol.wmle
    simp only [e4, e6, z1, z2]
  · unfold Gauss.wmle
    simp only [e4, z1]

/-- C58. The weighted covariance is an unbiased estimate: for samples with a common mean and covariance, two different ones being
uncorrelated, and any fixed weights for which it is defined, its expectation is the covariance. (The squares of the standard
deviations of the diagonal distribution are the diagonal entries.) -/
theorem C58_unbiased {Ω : Type} [Fintype Ω] {N : ℕ} (prob : Ω → ℝ) (X : Fin N → Ω → Vec n) (m : Vec n)
    (C : Matrix (Fin n) (Fin n) ℝ) (hX : Sampled prob X m C) (w : Fin N → ℝ)
    (hz : (∑ i, w i) - (∑ i, w i ^ 2) / (∑ i, w i) ≠ 0) (a b : Fin n) :
    ev prob (fun ω => wcov (List.ofFn (fun i => (w i, X i ω))) a b) = C a b := by
  set W := ∑ i, w i with hW
  have hW0 : W ≠ 0 := by
    intro h0
    rw [h0] at hz
    simp at hz
  have s1 : ∀ ω, sumD (List.ofFn (fun i => (w i, X i ω))) = W := by
    intro ω; simp [sumD, List.map_ofFn, List.sum_ofFn, Function.comp_def, hW]
  have s2 : ∀ ω, sumD2 (List.ofFn (fun i => (w i, X i ω))) = ∑ i, w i ^ 2 := by
    intro ω; simp [sumD2, List.map_ofFn, List.sum_ofFn, Function.comp_def]
  set Z := W - (∑ i, w i ^ 2) / W with hZ
  have s3 : ∀ ω c, wmean (List.ofFn (fun i => (w i, X i ω))) c = (∑ i, w i * X i ω c) / W := by
    intro ω c; simp [wmean, s1, List.map_ofFn, List.sum_ofFn, Function.comp_def]
  have pt : ∀ ω, wcov (List.ofFn (fun i => (w i, X i ω))) a b =
      (∑ i, w i * ((X i ω a - m a) * (X i ω b - m b)) -
        (∑ i, ∑ j, w i * w j * ((X i ω a - m a) * (X j ω b - m b))) / W) / Z := by
    intro ω
    unfold wcov
    rw [zOf, s1, s2, ← hZ]
    congr 1
    simp only [List.map_ofFn, List.sum_ofFn, Function.comp_def, s3]
    set A := ∑ i, w i * (X i ω a - m a) with hA
    set B := ∑ i, w i * (X i ω b - m b) with hB
    have ha : (∑ i, w i * X i ω a) / W = m a + A / W := by
      have : ∑ i, w i * X i ω a = W * m a + A := by
        rw [hA, hW, Finset.sum_mul, ← Finset.sum_add_distrib]
        exact Finset.sum_congr rfl (fun i _ => by ring)
      rw [this]; field_simp
    have hb : (∑ i, w i * X i ω b) / W = m b + B / W := by
      have : ∑ i, w i * X i ω b = W * m b + B := by
        rw [hB, hW, Finset.sum_mul, ← Finset.sum_add_distrib]
        exact Finset.sum_congr rfl (fun i _ => by ring)
      rw [this]; field_simp
    rw [ha, hb]
    have e : ∀ i, w i * (X i ω a - (m a + A / W)) * (X i ω b - (m b + B / W)) =
        w i * ((X i ω a - m a) * (X i ω b - m b)) - w i * (X i ω a - m a) * (B / W) - w i * (X i ω b - m b) * (A / W) +
          w i * (A / W * (B / W)) := fun i => by ring
    simp only [e, Finset.sum_add_distrib, Finset.sum_sub_distrib, ← Finset.sum_mul, ← hA, ← hB, ← hW]
    have hd : ∑ i, ∑ j, w i * w j * ((X i ω a - m a) * (X j ω b - m b)) = A * B := by
      rw [hA, hB, Finset.sum_mul_sum]
      exact Finset.sum_congr rfl (fun i _ => Finset.sum_congr rfl (fun j _ => by ring))
    rw [hd]
    field_simp
    ring
  have lin : ev prob (fun ω => wcov (List.ofFn (fun i => (w i, X i ω))) a b) =
      (∑ i, w i * ev prob (fun ω => (X i ω a - m a) * (X i ω b - m b)) -
        (∑ i, ∑ j, w i * w j * ev prob (fun ω => (X i ω a - m a) * (X j ω b - m b))) / W) / Z := by
    have h1 : ∑ i, w i * ev prob (fun ω => (X i ω a - m a) * (X i ω b - m b)) =
        ∑ ω, prob ω * ∑ i, w i * ((X i ω a - m a) * (X i ω b - m b)) := by
      simp only [ev, Finset.mul_sum]
      rw [Finset.sum_comm]
      exact Finset.sum_congr rfl (fun i _ => Finset.sum_congr rfl (fun ω _ => by ring))
    have h2 : ∑ i, ∑ j, w i * w j * ev prob (fun ω => (X i ω a - m a) * (X j ω b - m b)) =
        ∑ ω, prob ω * ∑ i, ∑ j, w i * w j * ((X i ω a - m a) * (X j ω b - m b)) := by
      simp only [ev, Finset.mul_sum]
      rw [Finset.sum_comm (s := (Finset.univ : Finset Ω))]
      refine Finset.sum_congr rfl (fun i _ => ?_)
      rw [Finset.sum_comm]
      exact Finset.sum_congr rfl (fun ω _ => Finset.sum_congr rfl (fun j _ => by ring))
    rw [h1, h2, div_eq_mul_inv _ Z, div_eq_mul_inv _ W, Finset.sum_mul, ← Finset.sum_sub_distrib, Finset.sum_mul]
    unfold ev
    exact Finset.sum_congr rfl (fun ω _ => (congrArg (prob ω * ·) (pt ω)).trans (by ring))
  rw [lin]
  simp only [hX.2, if_true]
  have : ∑ i : Fin N, ∑ j : Fin N, w i * w j * (if i = j then C a b else 0) = (∑ i, w i ^ 2) * C a b := by
    rw [Finset.sum_mul]
    refine Finset.sum_congr rfl (fun i _ => ?_)
    simp [sq]
  rw [this, ← Finset.sum_mul, ← hW]
  rw [div_eq_iff hz]
  ring

/-- C58 (partial: the diagonal distribution differs, see `C58_unweighted_refuted`). For the Gaussian with a fixed covariance and,
with at least two variables, for the Cholesky distribution, equal positive weights and no weights at all give the same result. -/
theorem C58_unweighted_partial (w : ℝ) (hw : 0 < w) (l : List (Vec n)) (g : Gauss n) (c : Chol n)
    (cholesky : Matrix (Fin n) (Fin n) ℝ → Option (Matrix (Fin n) (Fin n) ℝ)) :
    g.wmle (l.map (fun v => (w, v))) = g.mle l ∧
    (n ≠ 1 → c.wmle cholesky (l.map (fun v => (w, v))) = c.mle cholesky l) := by
  have pull : ∀ f : Vec n → ℝ, ((l.map (fun v => (w, v))).map (fun p => p.1 * f p.2)).sum = w * (l.map f).sum := by
    intro f
    induction l with
    | nil => simp
    | cons p l ih => simp only [List.map_cons, List.sum_cons, ih]; ring
  have e1 : sumD (l.map (fun v => (w, v))) = w * l.length := by
    have := pull (fun _ => 1)
    simpa [sumD] using this
  have e2 : sumD2 (l.map (fun v => (w, v))) = w ^ 2 * l.length := by
    simp [sumD2, List.map_map, Function.comp_def, mul_comm]
  have e3 : wmean (l.map (fun v => (w, v))) = mean0 l := by
    funext j
    unfold wmean mean0
    rw [pull (fun v => v j), e1, mul_div_mul_left _ _ hw.ne']
  constructor
  · unfold Gauss.wmle Gauss.mle
    rw [e3, e1]
    by_cases h : l.length = 0
    · rw [if_pos (by simp [h]), if_pos h]
    · rw [if_neg (mul_ne_zero hw.ne' (Nat.cast_ne_zero.2 h)), if_neg h]
  · intro hn
    have e4 : l.length ≠ 0 → zOf (l.map (fun v => (w, v))) = w * (l.length - 1) := by
      intro h
      have : (l.length : ℝ) ≠ 0 := Nat.cast_ne_zero.2 h
      unfold zOf
      rw [e1, e2]
      field_simp
    unfold Chol.wmle Chol.mle
    by_cases h : l.length ≤ 1
    · rw [if_pos (Or.inl h)]
      refine if_pos ?_
      rcases Nat.le_one_iff_eq_zero_or_eq_one.1 h with h0 | h0
      · left; simp [e1, h0]
      · right; rw [e4 (by omega), h0]; simp
    · have hl : (1 : ℝ) < l.length := by exact_mod_cast not_le.1 h
      have hz : zOf (l.map (fun v => (w, v))) ≠ 0 := by
        rw [e4 (by omega)]
        exact (mul_pos hw (by linarith)).ne'
      rw [if_neg (by rw [e1]; exact not_or.2 ⟨(mul_pos hw (by linarith)).ne', hz⟩), if_neg (not_or.2 ⟨h, hn⟩), e3]
      have : wcov (l.map (fun v => (w, v))) = cov l := by
        funext a b
        unfold wcov cov
        rw [e3, e4 (by omega)]
        have := pull (fun v => (v a - mean0 l a) * (v b - mean0 l b))
        simp only [← mul_assoc] at this
        rw [this, mul_div_mul_left _ _ hw.ne']
      rw [this]

/-- C58 fails without weights: the diagonal distribution then uses the biased estimate, so that it disagrees with equal weights on
the samples `0` and `2`; and the Cholesky distribution with one variable fails on any samples. -/
theorem C58_unweighted_refuted :
    (∃ (g g1 g2 : Diag 1) (l : List (Vec 1)), g.mle l = some g1 ∧ g.wmle (l.map (fun v => (1, v))) = some g2 ∧
      g1.std 0 ^ 2 = 1 ∧ g2.std 0 ^ 2 = 2) ∧
    ∀ (c : Chol 1) (l : List (Vec 1)) (cholesky : Matrix (Fin 1) (Fin 1) ℝ → Option (Matrix (Fin 1) (Fin 1) ℝ)),
      c.mle cholesky l = none := by
  refine ⟨⟨⟨fun _ => 0, fun _ => 1⟩, _, _, [fun _ => 0, fun _ => 2], if_neg (by simp), if_neg ?_, ?_, ?_⟩,
    fun c l cholesky => if_pos (Or.inr rfl)⟩
  · simp only [sumD, zOf, sumD2, wmean, List.map_cons, List.map_nil, List.sum_cons, List.sum_nil]
    rintro (h | h | ⟨j, h⟩) <;> norm_num at h
  · show Real.sqrt _ ^ 2 = 1
    rw [Real.sq_sqrt] <;> simp only [mean0, List.map_cons, List.map_nil, List.sum_cons, List.sum_nil, List.length_cons,
      List.length_nil] <;> norm_num
  · show Real.sqrt _ ^ 2 = 2
    rw [Real.sq_sqrt] <;> simp only [sumD, zOf, sumD2, wmean, List.map_cons, List.map_nil, List.sum_cons, List.sum_nil] <;> norm_num

/-! ### The hypotheses are met -/

/-- Two samples with different weights. -/
example : ∃ g' : Diag 1, (⟨fun _ => 0, fun _ => 1⟩ : Diag 1).wmle [(1, fun _ => 0), (3, fun _ => 4)] = some g' ∧
    g'.mu 0 = 3 ∧ g'.std 0 ^ 2 = 8 := by
  obtain ⟨g', h1, h2, _, h4⟩ := C58_diag_wmle_partial (⟨fun _ => 0, fun _ => 1⟩ : Diag 1) [(1, fun _ => 0), (3, fun _ => 4)]
    [] [] [] (1, fun _ => 0) (3, fun _ => 4) rfl (by norm_num) (by norm_num) (by simp)
  have a := h2 0
  have b := h4 0
  simp only [List.map_cons, List.map_nil, List.sum_cons, List.sum_nil] at a b
  have hm : g'.mu 0 = 3 := by linarith
  refine ⟨g', h1, hm, ?_⟩
  rw [hm] at b
  norm_num at b
  linarith

/-- One fair coin, thrown twice, with weights `1` and `2`. -/
example : Sampled (n := 1) (ι := Fin 2) (fun _ : Bool × Bool => 1 / 4)
    (fun i ω _ => if (if i = 0 then ω.1 else ω.2) then 1 else -1) (fun _ => 0) (fun _ _ => 1) ∧
    ((1 : ℝ) + 2) - (1 ^ 2 + 2 ^ 2) / (1 + 2) ≠ 0 := by
  refine ⟨⟨?_, ?_⟩, by norm_num⟩
  · rw [Fintype.sum_prod_type]; norm_num
  · intro i j a b
    unfold ev
    rw [Fintype.sum_prod_type]
    fin_cases i <;> fin_cases j <;> simp <;> norm_num

end Verif.Search
