/-
Property C98: the update of MORE.
-/
import Verif.Search.SpecBB
import Verif.Search.PropsCon
import Verif.Features.PropsBasis

namespace Verif.Search

open Matrix

variable {n : ℕ}

/-- A quadratic function completed to a square. -/
theorem complete_square (P : Matrix (Fin n) (Fin n) ℝ) (hP : P.PosDef) (f m : Vec n) :
    -(1 / 2) * (m ⬝ᵥ (P *ᵥ m)) + m ⬝ᵥ f =
      (1 / 2) * (f ⬝ᵥ (P⁻¹ *ᵥ f)) - (1 / 2) * ((m - P⁻¹ *ᵥ f) ⬝ᵥ (P *ᵥ (m - P⁻¹ *ᵥ f))) := by
  have hu : IsUnit P.det := isUnit_iff_ne_zero.2 hP.det_pos.ne'
  have hPf : P *ᵥ (P⁻¹ *ᵥ f) = f := by rw [mulVec_mulVec, mul_nonsing_inv _ hu, one_mulVec]
  have hsym : Pᵀ = P := by
    have := hP.1.eq
    rwa [conjTranspose_eq_transpose_of_trivial] at this
  have h1 : (P⁻¹ *ᵥ f) ⬝ᵥ (P *ᵥ m) = m ⬝ᵥ f := by
    rw [dotProduct_mulVec, ← mulVec_transpose, hsym, hPf, dotProduct_comm]
  rw [mulVec_sub, hPf, sub_dotProduct, dotProduct_sub, dotProduct_sub, h1, dotProduct_comm (P⁻¹ *ᵥ f) f]
  ring

theorem more_posDef (Q R : Matrix (Fin n) (Fin n) ℝ) (hQ : Q.PosDef) (hR : Rᵀ = R) (hneg : ∀ x : Vec n, x ⬝ᵥ (R *ᵥ x) ≤ 0)
    (eta : ℝ) (he : 0 < eta) : (eta • Q⁻¹ - (2 : ℝ) • R).PosDef := by
  have h1 : (-((2 : ℝ) • R)).PosSemidef := by
    refine PosSemidef.of_dotProduct_mulVec_nonneg ?_ ?_
    · rw [IsHermitian, conjTranspose_eq_transpose_of_trivial, transpose_neg, transpose_smul, hR]
    · intro x
      rw [star_trivial, neg_mulVec, dotProduct_neg, smul_mulVec, dotProduct_smul, smul_eq_mul]
      linarith [hneg x]
  rw [sub_eq_add_neg]
  exact PosDef.add_posSemidef (PosDef.smul hQ.inv he) h1

theorem more_objective_eq (Q : Matrix (Fin n) (Fin n) ℝ) (b : Vec n) (R : Matrix (Fin n) (Fin n) ℝ) (r : Vec n)
    (hQ : Q.PosDef) (hR : Rᵀ = R) (hneg : ∀ x : Vec n, x ⬝ᵥ (R *ᵥ x) ≤ 0)
    (r0 eps beta eta omg : ℝ) (he : 0 < eta) (m : Vec n) (s : Matrix (Fin n) (Fin n) ℝ) :
    moreObjective Q b R r r0 eps beta eta omg m s =
      r0 + eta * eps - omg * beta + (1 / 2) * (moreVec Q b r eta ⬝ᵥ (moreF Q R eta *ᵥ moreVec Q b r eta)) -
      (1 / 2) * eta * (b ⬝ᵥ (Q⁻¹ *ᵥ b)) + (1 / 2) * (eta + omg) * n - (1 / 2) * eta * Real.log Q.det +
      (1 / 2) * omg * n * Real.log (2 * Real.pi) +
      (1 / 2) * ((eta + omg) * Real.log s.det - ((eta • Q⁻¹ - (2 : ℝ) • R) * s).trace) -
      (1 / 2) * ((m - moreF Q R eta *ᵥ moreVec Q b r eta) ⬝ᵥ
        ((eta • Q⁻¹ - (2 : ℝ) • R) *ᵥ (m - moreF Q R eta *ᵥ moreVec Q b r eta))) := by
  have hP := more_posDef Q R hQ hR hneg eta he
  have hc := complete_square _ hP (moreVec Q b r eta) m
  have htr : ((eta • Q⁻¹ - (2 : ℝ) • R) * s).trace = eta * (Q⁻¹ * s).trace - 2 * (R * s).trace := by
    rw [sub_mul, trace_sub, Matrix.smul_mul, Matrix.smul_mul, trace_smul, trace_smul, smul_eq_mul, smul_eq_mul]
  have hsym : (Q⁻¹)ᵀ = Q⁻¹ := by
    have := hQ.inv.1.eq
    rwa [conjTranspose_eq_transpose_of_trivial] at this
  have hbm : b ⬝ᵥ (Q⁻¹ *ᵥ m) = m ⬝ᵥ (Q⁻¹ *ᵥ b) := by
    rw [dotProduct_mulVec, ← mulVec_transpose, hsym, dotProduct_comm]
  have hq : m ⬝ᵥ ((eta • Q⁻¹ - (2 : ℝ) • R) *ᵥ m) = eta * (m ⬝ᵥ (Q⁻¹ *ᵥ m)) - 2 * (m ⬝ᵥ (R *ᵥ m)) := by
    rw [sub_mulVec, dotProduct_sub, smul_mulVec, smul_mulVec, dotProduct_smul, dotProduct_smul, smul_eq_mul, smul_eq_mul]
  have hf : m ⬝ᵥ moreVec Q b r eta = eta * (m ⬝ᵥ (Q⁻¹ *ᵥ b)) + m ⬝ᵥ r := by
    unfold moreVec
    rw [dotProduct_add, dotProduct_smul, smul_eq_mul]
  have hd : (b - m) ⬝ᵥ (Q⁻¹ *ᵥ (b - m)) = b ⬝ᵥ (Q⁻¹ *ᵥ b) - 2 * (m ⬝ᵥ (Q⁻¹ *ᵥ b)) + m ⬝ᵥ (Q⁻¹ *ᵥ m) := by
    rw [mulVec_sub, sub_dotProduct, dotProduct_sub, dotProduct_sub, hbm]; ring
  rw [htr]
  unfold moreF
  rw [hq, hf] at hc
  unfold moreObjective surrogateMean gaussKL gaussEntropy
  rw [hd]
  linarith

/-- C98. For a concave surrogate and any multipliers the covariance that MORE computes is positive definite, and no Gaussian has a
higher value of the expected surrogate penalised by the divergence from the previous distribution and by the entropy; up to half of
the constant of the surrogate, the function that is minimised over the multipliers is this highest value, so it bounds the expected
surrogate of all the distributions that satisfy the two constraints. -/
theorem C98_closed_form (Q : Matrix (Fin n) (Fin n) ℝ) (b : Vec n) (R : Matrix (Fin n) (Fin n) ℝ) (r : Vec n)
    (hQ : Q.PosDef) (hR : Rᵀ = R) (hneg : ∀ x : Vec n, x ⬝ᵥ (R *ᵥ x) ≤ 0)
    (r0 eps beta eta omg : ℝ) (he : 0 < eta) (ho : 0 ≤ omg) :
    (moreClosed Q b R r eta omg).2.PosDef ∧
    moreObjective Q b R r r0 eps beta eta omg (moreClosed Q b R r eta omg).1 (moreClosed Q b R r eta omg).2 =
      moreDual Q b R r r0 eps beta eta omg + r0 / 2 ∧
    ∀ (m : Vec n) (s : Matrix (Fin n) (Fin n) ℝ), s.PosDef →
      moreObjective Q b R r r0 eps beta eta omg m s ≤ moreDual Q b R r r0 eps beta eta omg + r0 / 2 ∧
      (gaussKL m s b Q ≤ eps → beta ≤ gaussEntropy s → surrogateMean R r r0 m s ≤ moreDual Q b R r r0 eps beta eta omg + r0 / 2) := by
  have hP := more_posDef Q R hQ hR hneg eta he
  have hk : 0 < eta + omg := by linarith
  have hF : (moreF Q R eta).PosDef := hP.inv
  have hA : ((eta + omg) • moreF Q R eta).PosDef := PosDef.smul hF hk
  have hu : IsUnit (eta • Q⁻¹ - (2 : ℝ) • R).det := isUnit_iff_ne_zero.2 hP.det_pos.ne'
  have hpi : (2 * Real.pi) ≠ 0 := by positivity
  have hval : moreObjective Q b R r r0 eps beta eta omg (moreClosed Q b R r eta omg).1 (moreClosed Q b R r eta omg).2 =
      moreDual Q b R r r0 eps beta eta omg + r0 / 2 := by
    rw [more_objective_eq Q b R r hQ hR hneg r0 eps beta eta omg he]
    have htr : ((eta • Q⁻¹ - (2 : ℝ) • R) * ((eta + omg) • moreF Q R eta)).trace = (eta + omg) * n := by
      unfold moreF
      rw [Matrix.mul_smul, mul_nonsing_inv _ hu, trace_smul, trace_one, Fintype.card_fin, smul_eq_mul]
    simp only [moreClosed]
    rw [htr, sub_self, zero_dotProduct]
    unfold moreDual
    simp only []
    rw [det_smul Q (2 * Real.pi), det_smul ((eta + omg) • moreF Q R eta) (2 * Real.pi), Fintype.card_fin,
      Real.log_mul (pow_ne_zero _ hpi) hQ.det_pos.ne', Real.log_mul (pow_ne_zero _ hpi) hA.det_pos.ne', Real.log_pow]
    ring
  refine ⟨hA, hval, fun m s hS => ?_⟩
  have hmax : moreObjective Q b R r r0 eps beta eta omg m s ≤ moreDual Q b R r r0 eps beta eta omg + r0 / 2 := by
    rw [← hval, more_objective_eq Q b R r hQ hR hneg r0 eps beta eta omg he,
      more_objective_eq Q b R r hQ hR hneg r0 eps beta eta omg he]
    have htr : ((eta • Q⁻¹ - (2 : ℝ) • R) * ((eta + omg) • moreF Q R eta)).trace = (eta + omg) * n := by
      unfold moreF
      rw [Matrix.mul_smul, mul_nonsing_inv _ hu, trace_smul, trace_one, Fintype.card_fin, smul_eq_mul]
    simp only [moreClosed]
    rw [htr, sub_self, zero_dotProduct]
    have h1 := log_det_le s _ hS hA
    have hinv : ((eta + omg) • moreF Q R eta)⁻¹ = (eta + omg)⁻¹ • (eta • Q⁻¹ - (2 : ℝ) • R) := by
      refine inv_eq_left_inv ?_
      unfold moreF
      rw [Matrix.smul_mul, Matrix.mul_smul, smul_smul, mul_nonsing_inv _ hu, inv_mul_cancel₀ hk.ne', one_smul]
    rw [hinv, Matrix.smul_mul, trace_smul, smul_eq_mul] at h1
    have h2 := mul_le_mul_of_nonneg_left h1 hk.le
    rw [mul_sub, mul_sub, ← mul_assoc, mul_inv_cancel₀ hk.ne', one_mul] at h2
    have h3 := hP.posSemidef.dotProduct_mulVec_nonneg (m - moreF Q R eta *ᵥ moreVec Q b r eta)
    rw [star_trivial] at h3
    linarith
  refine ⟨hmax, fun h1 h2 => le_trans ?_ hmax⟩
  unfold moreObjective
  nlinarith [mul_nonneg he.le (sub_nonneg.2 h1), mul_nonneg ho (sub_nonneg.2 h2)]

/-- C98. If the new distribution satisfies the constraints, and those whose multiplier is not zero with equality, then no Gaussian
that satisfies them has a higher expected surrogate. -/
theorem C98_optimal (Q : Matrix (Fin n) (Fin n) ℝ) (b : Vec n) (R : Matrix (Fin n) (Fin n) ℝ) (r : Vec n)
    (hQ : Q.PosDef) (hR : Rᵀ = R) (hneg : ∀ x : Vec n, x ⬝ᵥ (R *ᵥ x) ≤ 0)
    (r0 eps beta eta omg : ℝ) (he : 0 < eta) (ho : 0 ≤ omg)
    (htight : gaussKL (moreClosed Q b R r eta omg).1 (moreClosed Q b R r eta omg).2 b Q = eps)
    (hent : omg = 0 ∨ gaussEntropy (moreClosed Q b R r eta omg).2 = beta)
    (m : Vec n) (s : Matrix (Fin n) (Fin n) ℝ) (hs : s.PosDef) (h1 : gaussKL m s b Q ≤ eps) (h2 : beta ≤ gaussEntropy s) :
    surrogateMean R r r0 m s ≤ surrogateMean R r r0 (moreClosed Q b R r eta omg).1 (moreClosed Q b R r eta omg).2 := by
  obtain ⟨_, hval, hmax⟩ := C98_closed_form Q b R r hQ hR hneg r0 eps beta eta omg he ho
  refine ((hmax m s hs).2 h1 h2).trans (le_of_eq ?_)
  rw [← hval]
  unfold moreObjective
  rw [htight]
  rcases hent with h | h
  · rw [h]; ring
  · rw [h]; ring

example : (1 : Matrix (Fin 2) (Fin 2) ℝ).PosDef ∧ (-1 : Matrix (Fin 2) (Fin 2) ℝ)ᵀ = -1 ∧
    ∀ x : Vec 2, x ⬝ᵥ ((-1 : Matrix (Fin 2) (Fin 2) ℝ) *ᵥ x) ≤ 0 := by
  refine ⟨PosDef.one, by rw [transpose_neg, transpose_one], fun x => ?_⟩
  rw [neg_mulVec, one_mulVec, dotProduct_neg, neg_nonpos]
  exact Finset.sum_nonneg (fun i _ => mul_self_nonneg (x i))

/-- C98. The expectation of the surrogate used above is the expectation, for every random vector with this mean and covariance. -/
theorem C98_expected {Ω : Type} [Fintype Ω] (prob : Ω → ℝ) (X : Ω → Vec n) (m : Vec n) (s R : Matrix (Fin n) (Fin n) ℝ) (r : Vec n)
    (r0 : ℝ) (h : HasMoments prob X m s) : ev prob (fun ω => surrogateAt R r r0 (X ω)) = surrogateMean R r r0 m s := by
  have hq := ev_quad prob X m 0 s R h
  simp only [sub_zero, zero_sub, mulVec_neg, neg_dotProduct, dotProduct_neg, neg_neg] at hq
  obtain ⟨h0, h1, _⟩ := h
  have hm : ∀ a, ∑ ω, prob ω * X ω a = m a := by
    intro a
    have := h1 a
    simp only [ev, mul_sub, Finset.sum_sub_distrib, ← Finset.sum_mul, h0, one_mul] at this
    linarith
  have hr : ∑ ω, prob ω * (X ω ⬝ᵥ r) = m ⬝ᵥ r := by
    simp only [dotProduct, Finset.mul_sum]
    rw [Finset.sum_comm]
    refine Finset.sum_congr rfl (fun a _ => ?_)
    rw [← hm a, Finset.sum_mul]
    exact Finset.sum_congr rfl (fun ω _ => by ring)
  unfold ev at hq ⊢
  unfold surrogateAt surrogateMean
  simp only [mul_add, Finset.sum_add_distrib, ← Finset.sum_mul, h0, one_mul]
  rw [hq, hr]

/-- C98. The matrix of the surrogate is symmetric and its quadratic form is never positive, whatever the eigenvalues and the
eigenvectors; if all the eigenvalues are negative it is the fitted one. -/
theorem C98_concave (w : Vec n) (v : Matrix (Fin n) (Fin n) ℝ) :
    (negativeOf w v)ᵀ = negativeOf w v ∧ (∀ x : Vec n, x ⬝ᵥ (negativeOf w v *ᵥ x) ≤ 0) ∧
    ((∀ k, w k < 0) → negativeOf w v = v * diagonal w * vᵀ) := by
  have hsym : ∀ d : Vec n, (v * diagonal d * vᵀ)ᵀ = v * diagonal d * vᵀ := by
    intro d
    rw [transpose_mul, transpose_mul, transpose_transpose, diagonal_transpose, Matrix.mul_assoc]
  have hN : negativeOf w v = v * diagonal (clipEig w) * vᵀ := by
    unfold negativeOf
    simp only []
    rw [hsym, ← two_smul ℝ, smul_smul]
    norm_num
  refine ⟨by rw [hN, hsym], fun x => ?_, fun hw => ?_⟩
  · rw [hN, ← mulVec_mulVec, ← mulVec_mulVec, dotProduct_mulVec, ← mulVec_transpose]
    simp only [dotProduct, mulVec_diagonal]
    refine Finset.sum_nonpos (fun k _ => ?_)
    have hk : clipEig w k ≤ 0 := by
      unfold clipEig
      split_ifs with h
      · norm_num
      · exact (not_le.1 h).le
    have : (vᵀ *ᵥ x) k * (clipEig w k * (vᵀ *ᵥ x) k) = clipEig w k * (vᵀ *ᵥ x) k ^ 2 := by ring
    rw [this]
    exact mul_nonpos_of_nonpos_of_nonneg hk (sq_nonneg _)
  · rw [hN]
    congr 2
    congr 1
    funext k
    exact if_neg (not_le.2 (hw k))

theorem mem_triu {p : Fin n × Fin n} : p ∈ triu n ↔ p.1 ≤ p.2 := by
  rcases p with ⟨i, j⟩
  simp [triu]

theorem nodup_triu : (triu n).Nodup := by
  unfold triu
  refine List.nodup_flatMap.2 ⟨fun i _ => ?_, ?_⟩
  · refine List.Nodup.map ?_ ((List.nodup_finRange n).filter _)
    intro a b h
    exact (Prod.mk.injEq _ _ _ _ ▸ h : i = i ∧ a = b).2
  · refine (List.nodup_finRange n).imp ?_
    intro a b hab
    rw [Function.onFun, List.disjoint_left]
    intro p hp hq
    obtain ⟨x, _, rfl⟩ := List.mem_map.1 hp
    obtain ⟨y, _, hy⟩ := List.mem_map.1 hq
    exact hab (congrArg Prod.fst hy).symm

theorem symmetricOf_apply (values : List ℝ) (hl : values.length = (triu n).length) (k : ℕ) (hk : k < (triu n).length) :
    symmetricOf values ((triu n)[k]).1 ((triu n)[k]).2 = values.getD k 0 ∧
    symmetricOf values ((triu n)[k]).2 ((triu n)[k]).1 = values.getD k 0 := by
  have hmem : ((triu n)[k]).1 ≤ ((triu n)[k]).2 := mem_triu.1 (List.getElem_mem hk)
  have h := read_writeTril (0 : Matrix (Fin n) (Fin n) ℝ) (triu n) nodup_triu values hl.symm
  have h' := congrArg (fun l => l.getD k 0) h
  simp only [List.getD_eq_getElem?_getD, List.getElem?_map, List.getElem?_eq_getElem hk, Option.map_some, Option.getD_some] at h'
  rw [List.getD_eq_getElem?_getD]
  unfold symmetricOf
  simp only [of_apply]
  refine ⟨by rw [if_pos hmem]; exact h', ?_⟩
  by_cases he : ((triu n)[k]).2 ≤ ((triu n)[k]).1
  · have : ((triu n)[k]).1 = ((triu n)[k]).2 := le_antisymm hmem he
    rw [if_pos he, ← this]
    rw [← this] at h'
    exact h'
  · rw [if_neg he]; exact h'

/-! ### The quadratic features -/

open Verif.Features in
theorem exponents_two (m : ℕ) (ys : List (List ℕ)) (q : List ℕ) (h : ComputeExponents (m + 1) 2 ys q) :
    ys = visits m 1 ++ visits m 2 := by
  obtain ⟨z1, h1, w1⟩ := while_visits m 1
  obtain ⟨z2, h2, w2⟩ := while_visits m 2
  have hset : ∀ k, (List.replicate (m + 1) 0).set 0 k = firstPattern m k := by
    intro k; simp [firstPattern, List.replicate_succ]
  have hclear : ∀ k, (lastPattern m k).set ((lastPattern m k).length - 1) 0 = List.replicate (m + 1) 0 := by
    intro k; simp [lastPattern, List.replicate_succ']
  have e1 := ComputeExponents.succ 0 [] z1 _ _ ComputeExponents.zero (by rw [hset]; exact w1)
  rw [hclear] at e1
  have e2 := ComputeExponents.succ 1 _ z2 _ _ e1 (by rw [hset]; exact w2)
  rw [(exponents_det h e2).1, hset, hset, h1, h2]
  simp

/-- The value of a monomial. -/
def monomial (e : List ℕ) (xs : List ℝ) : ℝ := (List.zipWith (fun d x => x ^ d) e xs).prod

open Verif.Features in
theorem visits_zero (m : ℕ) (xs : List ℝ) (h : xs.length = m + 1) : (visits m 0).map (fun e => monomial e xs) = [1] := by
  induction m generalizing xs with
  | zero =>
    obtain ⟨x, rfl⟩ := List.length_eq_one_iff.1 h
    simp [visits, monomial]
  | succ m ih =>
    obtain ⟨x, xs, rfl⟩ : ∃ x l, xs = x :: l := List.exists_cons_of_length_eq_add_one h
    have := ih xs (by simpa using h)
    have hr : (List.range (0 + 1)).reverse = [0] := rfl
    rw [visits, hr, List.flatMap_cons, List.flatMap_nil, List.append_nil, List.map_map, ← this]
    refine List.map_congr_left (fun e _ => ?_)
    simp [monomial]

open Verif.Features in
theorem visits_one (m : ℕ) (xs : List ℝ) (h : xs.length = m + 1) : (visits m 1).map (fun e => monomial e xs) = xs := by
  induction m generalizing xs with
  | zero =>
    obtain ⟨x, rfl⟩ := List.length_eq_one_iff.1 h
    simp [visits, monomial]
  | succ m ih =>
    obtain ⟨x, xs, rfl⟩ : ∃ x l, xs = x :: l := List.exists_cons_of_length_eq_add_one h
    have h1 := ih xs (by simpa using h)
    have h0 := visits_zero m xs (by simpa using h)
    have hr : (List.range (1 + 1)).reverse = [1, 0] := rfl
    have g1 : ((visits m (1 - 1)).map (1 :: ·)).map (fun e => monomial e (x :: xs)) = [x] := by
      have := congrArg (List.map (fun y => x * y)) h0
      rw [List.map_map, List.map_singleton, mul_one] at this
      rw [List.map_map, ← this]
      refine List.map_congr_left (fun e _ => ?_)
      simp [monomial]
    have g0 : ((visits m (1 - 0)).map (0 :: ·)).map (fun e => monomial e (x :: xs)) = xs := by
      rw [List.map_map]
      refine Eq.trans (List.map_congr_left (fun e _ => ?_)) h1
      simp [monomial]
    rw [visits, hr, List.flatMap_cons, List.flatMap_cons, List.flatMap_nil, List.append_nil, List.map_append, g1, g0]
    rfl

/-- The products of two components, row by row. -/
def products : List ℝ → List ℝ
  | [] => []
  | x :: xs => (x :: xs).map (fun y => x * y) ++ products xs

open Verif.Features in
theorem visits_two (m : ℕ) (xs : List ℝ) (h : xs.length = m + 1) : (visits m 2).map (fun e => monomial e xs) = products xs := by
  induction m generalizing xs with
  | zero =>
    obtain ⟨x, rfl⟩ := List.length_eq_one_iff.1 h
    simp [visits, monomial, products, sq]
  | succ m ih =>
    obtain ⟨x, xs, rfl⟩ : ∃ x l, xs = x :: l := List.exists_cons_of_length_eq_add_one h
    have h2 := ih xs (by simpa using h)
    have h1 := visits_one m xs (by simpa using h)
    have h0 := visits_zero m xs (by simpa using h)
    have hr : (List.range (2 + 1)).reverse = [2, 1, 0] := rfl
    have g2 : ((visits m (2 - 2)).map (2 :: ·)).map (fun e => monomial e (x :: xs)) = [x * x] := by
      have := congrArg (List.map (fun y => x ^ 2 * y)) h0
      rw [List.map_map, List.map_singleton, mul_one, sq] at this
      rw [List.map_map, ← this]
      refine List.map_congr_left (fun e _ => ?_)
      simp [monomial, sq]
    have g1 : ((visits m (2 - 1)).map (1 :: ·)).map (fun e => monomial e (x :: xs)) = xs.map (fun y => x * y) := by
      conv_rhs => rw [← h1]
      rw [List.map_map, List.map_map]
      refine List.map_congr_left (fun e _ => ?_)
      simp [monomial]
    have g0 : ((visits m (2 - 0)).map (0 :: ·)).map (fun e => monomial e (x :: xs)) = products xs := by
      rw [List.map_map]
      refine Eq.trans (List.map_congr_left (fun e _ => ?_)) h2
      simp [monomial]
    rw [visits, hr, List.flatMap_cons, List.flatMap_cons, List.flatMap_cons, List.flatMap_nil, List.append_nil, List.map_append,
      List.map_append, g2, g1, g0]
    rfl

theorem triu_succ (n : ℕ) : triu (n + 1) = (List.finRange (n + 1)).map (fun j => (0, j)) ++ (triu n).map (fun p => (p.1.succ, p.2.succ)) := by
  unfold triu
  rw [List.finRange_succ, List.flatMap_cons]
  congr 1
  · congr 1
    rw [List.filter_eq_self]
    intro a _
    simp
  · rw [List.flatMap_map, List.map_flatMap]
    congr 1
    funext i
    rw [List.filter_cons_of_neg (by simp), List.filter_map, List.map_map, List.map_map]
    congr 1
    congr 1
    funext j
    simp

theorem products_ofFn (x : Vec n) : products (List.ofFn x) = (triu n).map (fun p => x p.1 * x p.2) := by
  induction n with
  | zero => simp [products, triu]
  | succ n ih =>
    rw [triu_succ, List.map_append, List.map_map, List.map_map]
    have := ih (fun i => x i.succ)
    rw [List.ofFn_succ, products, this, ← List.ofFn_succ, List.map_ofFn, List.ofFn_eq_map]
    rfl

open Verif.Features in
theorem monomial_value (e : List ℕ) (x : Vec n) (he : e.length = n) :
    (PolyBasis.ofExponent e).call none (fun i => (List.ofFn x).getD i 0) = monomial e (List.ofFn x) := by
  rw [poly_value, monomial, he]
  simp only [polyNormalize]
  have hz : List.zipWith (fun d y => y ^ d) e (List.ofFn x) = (List.range n).map (fun i => (List.ofFn x).getD i 0 ^ e.getD i 0) := by
    apply List.ext_getElem
    · simp [he]
    · intro i h1 h2
      have hi : i < n := by simpa using h2
      simp [hi, he]
  rw [hz, Finset.prod_eq_multiset_prod, Finset.range_val, ← Multiset.coe_range, Multiset.map_coe, Multiset.prod_coe]

open Verif.Features in
/-- C98. The features of the quadratic regression are the constant, the variables, and the products of two of them in the order in
which their coefficients are written to the matrix. -/
theorem C98_features (hn : 0 < n) (bs : List PolyBasis) (h : PolyGenerate 2 n bs) (x : Vec n) :
    bs.map (fun b => b.call none (fun i => (List.ofFn x).getD i 0)) = 1 :: (List.ofFn x ++ (triu n).map (fun p => x p.1 * x p.2)) := by
  obtain ⟨m, rfl⟩ : ∃ m, n = m + 1 := ⟨n - 1, by omega⟩
  obtain ⟨ys, q, h1, rfl⟩ := h
  rw [exponents_two m ys q h1, List.map_cons, List.map_map, List.map_append]
  congr 1
  rw [← products_ofFn, ← visits_two m (List.ofFn x) (by simp)]
  congr 1
  · conv_rhs => rw [← visits_one m (List.ofFn x) (by simp)]
    refine List.map_congr_left (fun e he => ?_)
    exact monomial_value e x ((mem_visits _ _ _).1 he).1
  · refine List.map_congr_left (fun e he => ?_)
    exact monomial_value e x ((mem_visits _ _ _).1 he).1

/-! ### The matrix of the surrogate -/

theorem symmetricOf_symm (values : List ℝ) : (symmetricOf values : Matrix (Fin n) (Fin n) ℝ)ᵀ = symmetricOf values := by
  ext i j
  simp only [transpose_apply, symmetricOf, of_apply]
  rcases lt_trichotomy i j with h | h | h
  · rw [if_neg (not_le.2 h), if_pos h.le]
  · subst h; rfl
  · rw [if_pos h.le, if_neg (not_le.2 h)]

theorem sum_triu (g : Fin n → Fin n → ℝ) (hg : ∀ i j, g i j = g j i) :
    ∑ i, ∑ j, g i j = ((triu n).map (fun p => (if p.1 = p.2 then 1 else 2) * g p.1 p.2)).sum := by
  induction n with
  | zero => simp [triu]
  | succ n ih =>
    rw [triu_succ, List.map_append, List.sum_append, List.map_map, List.map_map]
    have := ih (fun i j => g i.succ j.succ) (fun i j => hg _ _)
    have e2 : ((triu n).map ((fun p : Fin (n + 1) × Fin (n + 1) => (if p.1 = p.2 then 1 else 2) * g p.1 p.2) ∘
        fun p => (p.1.succ, p.2.succ))).sum = ∑ i, ∑ j, g (Fin.succ i) (Fin.succ j) := by
      rw [this]
      congr 1
      refine List.map_congr_left (fun p _ => ?_)
      simp [Function.comp]
    have e1 : ((List.finRange (n + 1)).map ((fun p : Fin (n + 1) × Fin (n + 1) => (if p.1 = p.2 then 1 else 2) * g p.1 p.2) ∘
        fun j => (0, j))).sum = g 0 0 + 2 * ∑ j, g 0 (Fin.succ j) := by
      rw [← Fin.sum_univ_def, Fin.sum_univ_succ, Finset.mul_sum]
      simp [Function.comp, (Fin.succ_ne_zero _).symm]
    rw [e1, e2]
    simp only [Fin.sum_univ_succ, Finset.sum_add_distrib]
    have : ∑ i : Fin n, g i.succ 0 = ∑ j : Fin n, g 0 j.succ := Finset.sum_congr rfl (fun i _ => hg _ _)
    rw [this]
    ring

theorem quadratic_eq (values : List ℝ) (hl : values.length = (triu n).length) (x : Vec n) :
    x ⬝ᵥ (symmetricOf values *ᵥ x) = (List.zipWith (fun b (p : Fin n × Fin n) => b * (x p.1 * x p.2)) values (triu n)).sum +
      (List.zipWith (fun b (p : Fin n × Fin n) => if p.1 = p.2 then 0 else b * (x p.1 * x p.2)) values (triu n)).sum := by
  have h1 : x ⬝ᵥ (symmetricOf values *ᵥ x) = ∑ i, ∑ j, symmetricOf values i j * (x i * x j) := by
    simp only [dotProduct, mulVec, Finset.mul_sum]
    exact Finset.sum_congr rfl (fun i _ => Finset.sum_congr rfl (fun j _ => by ring))
  rw [h1, sum_triu _ (fun i j => by
    have := congrFun (congrFun (symmetricOf_symm (n := n) values) i) j
    rw [transpose_apply] at this
    rw [← this]; ring)]
  have h2 : (triu n).map (fun p => (if p.1 = p.2 then 1 else 2) * (symmetricOf values p.1 p.2 * (x p.1 * x p.2))) =
      List.zipWith (fun b (p : Fin n × Fin n) => b * (x p.1 * x p.2) + if p.1 = p.2 then 0 else b * (x p.1 * x p.2)) values (triu n) := by
    apply List.ext_getElem
    · simp [hl]
    · intro k hk1 hk2
      have hk : k < (triu n).length := by simpa using hk1
      have hv := (symmetricOf_apply values hl k hk).1
      have hkv : k < values.length := by omega
      rw [List.getD_eq_getElem?_getD, List.getElem?_eq_getElem hkv, Option.getD_some] at hv
      simp only [List.getElem_map, List.getElem_zipWith, hv]
      split_ifs <;> ring
  rw [h2]
  have gen : ∀ (vs : List ℝ) (ps : List (Fin n × Fin n)) (f g : ℝ → Fin n × Fin n → ℝ),
      (List.zipWith (fun b p => f b p + g b p) vs ps).sum = (List.zipWith f vs ps).sum + (List.zipWith g vs ps).sum := by
    intro vs
    induction vs with
    | nil => simp
    | cons v vs ih =>
      intro ps f g
      cases ps with
      | nil => simp
      | cons p ps => simp only [List.zipWith_cons_cons, List.sum_cons, ih]; ring
  exact gen _ _ _ _

/-- C98. The matrix of the surrogate, with the linear coefficients and the constant of the regression, gives the value of the
regression plus its mixed terms once more. -/
theorem C98_surrogate_partial (beta : List ℝ) (hl : beta.length = 1 + n + (triu n).length) (x : Vec n) :
    surrogateAt (symmetricOf (beta.drop (1 + n))) (fun i => beta.getD (1 + i) 0) (beta.getD 0 0) x =
      (List.zipWith (fun b f => b * f) beta (1 :: (List.ofFn x ++ (triu n).map (fun p => x p.1 * x p.2)))).sum +
      (List.zipWith (fun b (p : Fin n × Fin n) => if p.1 = p.2 then 0 else b * (x p.1 * x p.2)) (beta.drop (1 + n)) (triu n)).sum := by
  unfold surrogateAt
  rw [quadratic_eq _ (by rw [List.length_drop]; omega)]
  obtain ⟨b0, l1, l2, rfl, h1⟩ : ∃ b0 l1 l2, beta = b0 :: (l1 ++ l2) ∧ l1.length = n := by
    obtain ⟨b0, l, rfl⟩ : ∃ x l, beta = x :: l := List.exists_cons_of_length_pos (by omega)
    exact ⟨b0, l.take n, l.drop n, by rw [List.take_append_drop], by rw [List.length_take]; simp at hl; omega⟩
  have hd : (b0 :: (l1 ++ l2)).drop (1 + n) = l2 := by
    rw [add_comm, List.drop_succ_cons, List.drop_left' h1]
  rw [hd]
  have hz : (List.zipWith (fun b f => b * f) (b0 :: (l1 ++ l2)) (1 :: (List.ofFn x ++ (triu n).map (fun p => x p.1 * x p.2)))).sum =
      b0 + (x ⬝ᵥ (fun i => (b0 :: (l1 ++ l2)).getD (1 + i) 0) + (List.zipWith (fun b (p : Fin n × Fin n) => b * (x p.1 * x p.2)) l2 (triu n)).sum) := by
    rw [List.zipWith_cons_cons, List.sum_cons, mul_one, List.zipWith_append (by simp [h1]), List.sum_append, List.zipWith_map_right]
    congr 2
    have : List.zipWith (fun b f => b * f) l1 (List.ofFn x) = List.ofFn (fun i : Fin n => x i * (b0 :: (l1 ++ l2)).getD (1 + i) 0) := by
      apply List.ext_getElem
      · simp [h1]
      · intro i hi1 hi2
        have hi : i < n := by simpa using hi2
        rw [List.getElem_zipWith, List.getElem_ofFn, List.getElem_ofFn, add_comm 1 i, List.getD_cons_succ,
          List.getD_append _ _ _ _ (by omega), List.getD_eq_getElem _ _ (by omega), mul_comm]
    rw [this, List.sum_ofFn]
    rfl
  rw [hz]
  simp only [List.getD_cons_zero]
  ring

/-- C98 fails for the surrogate: for two variables the coefficient of their product counts twice. -/
theorem C98_surrogate_refuted : ∃ (beta : List ℝ) (x : Vec 2), beta.length = 1 + 2 + (triu 2).length ∧
    surrogateAt (symmetricOf (beta.drop (1 + 2))) (fun i => beta.getD (1 + i) 0) (beta.getD 0 0) x ≠
      (List.zipWith (fun b f => b * f) beta (1 :: (List.ofFn x ++ (triu 2).map (fun p => x p.1 * x p.2)))).sum := by
  refine ⟨[0, 0, 0, -1, 1, -1], fun _ => 1, rfl, ?_⟩
  rw [C98_surrogate_partial _ rfl]
  have ht : triu 2 = [(0, 0), (0, 1), (1, 1)] := rfl
  rw [ht]
  norm_num

example (x : Vec 1) : surrogateAt (symmetricOf [-1]) (fun _ => 3) 5 x = 5 + 3 * x 0 - x 0 * x 0 := by
  have := C98_surrogate_partial (n := 1) [5, 3, -1] rfl x
  have ht : triu 1 = [(0, 0)] := rfl
  rw [ht] at this
  simp at this
  rw [this]
  ring

/-! ### The update -/

/-- C98. The update gives the distribution the mean and the covariance of the closed form, computed from those of the previous one. -/
theorem C98_update (cholesky : Matrix (Fin n) (Fin n) ℝ → Option (Matrix (Fin n) (Fin n) ℝ)) (hc : IsCholesky cholesky)
    (g : Chol n) (hg : ∀ i j, i < j → g.chol i j = 0) (R : Matrix (Fin n) (Fin n) ℝ) (r : Vec n) (eta omg : ℝ)
    (hs : (cholesky (moreClosed g.sigma g.mu R r eta omg).2).isSome) :
    ∃ g', moreUpdate cholesky g R r eta omg = some g' ∧ g'.mu = (moreClosed g.sigma g.mu R r eta omg).1 ∧
      g'.sigma = (moreClosed g.sigma g.mu R r eta omg).2 ∧ ∀ i j, i < j → g'.chol i j = 0 := by
  have hmu : (fun i : Fin n => (g.get.take n).getD i 0) = g.mu := by
    funext i
    unfold Chol.get
    rw [List.take_left' (by simp), getD_ofFn]
  have hlow : ∀ (m c : Matrix (Fin n) (Fin n) ℝ), (∀ i j, i < j → m i j = c i j) →
      writeTril m (tril n) ((tril n).map (fun p => c p.1 p.2)) = c := by
    intro m c hm
    ext i j
    by_cases h : j ≤ i
    · have hr := read_writeTril m (tril n) nodup_tril ((tril n).map (fun p => c p.1 p.2)) (by simp)
      obtain ⟨k, hk, hk'⟩ := List.getElem_of_mem (mem_tril.2 (show (i, j).2 ≤ (i, j).1 from h))
      have := congrArg (fun l => l[k]?) hr
      simp only [List.getElem?_map, List.getElem?_eq_getElem hk, Option.map_some, hk', Option.some.injEq] at this
      exact this
    · rw [writeTril_of_not_mem _ _ _ _ _ (by rw [mem_tril]; exact h)]
      exact hm i j (not_le.1 h)
  have hch : writeTril 0 (tril n) (g.get.drop n) = g.chol := by
    unfold Chol.get
    rw [List.drop_left' (by simp)]
    exact hlow _ _ (fun i j hij => (hg i j hij).symm)
  obtain ⟨c', hc'⟩ := Option.isSome_iff_exists.1 hs
  obtain ⟨hz, _, hcc⟩ := hc _ _ hc'
  have hlen : (List.ofFn (moreClosed g.sigma g.mu R r eta omg).1 ++ (tril n).map (fun p => c' p.1 p.2)).length = Chol.size n := by
    simp [← length_tril]
  obtain ⟨g', h1, _, _⟩ := (C58_chol g).1 _ hlen
  have hup : moreUpdate cholesky g R r eta omg = some g' := by
    unfold moreUpdate
    simp only []
    rw [hmu, hch]
    show (cholesky (moreClosed g.sigma g.mu R r eta omg).2).bind _ = _
    rw [hc', Option.bind_some]
    exact h1
  rw [Chol.set, if_pos hlen, Option.some.injEq] at h1
  subst h1
  have hcol : writeTril g.chol (tril n) ((List.ofFn (moreClosed g.sigma g.mu R r eta omg).1 ++ (tril n).map (fun p => c' p.1 p.2)).drop n) = c' := by
    rw [List.drop_left' (by simp)]
    exact hlow _ _ (fun i j hij => by rw [hg i j hij, hz i j hij])
  refine ⟨_, hup, ?_, ?_, ?_⟩
  · funext i
    simp only []
    rw [List.take_left' (by simp), getD_ofFn]
  · show writeTril _ _ _ * (writeTril _ _ _)ᵀ = _
    rw [hcol, hcc]
  · simp only []
    rw [hcol]
    exact hz

/-- A Cholesky factorization for one variable. -/
noncomputable def chol1 (m : Matrix (Fin 1) (Fin 1) ℝ) : Option (Matrix (Fin 1) (Fin 1) ℝ) :=
  open Classical in if 0 < m 0 0 then some (diagonal (fun _ => Real.sqrt (m 0 0))) else none

example : IsCholesky chol1 ∧ (chol1 (moreClosed (⟨0, 1⟩ : Chol 1).sigma (⟨0, 1⟩ : Chol 1).mu (-1) 3 1 2).2).isSome := by
  constructor
  · intro m c h
    unfold chol1 at h
    split_ifs at h with h0
    simp only [Option.some.injEq] at h
    subst h
    refine ⟨fun i j hij => absurd hij (by simp [Subsingleton.elim i j]), fun i => by simpa using h0, ?_⟩
    ext i j
    fin_cases i; fin_cases j
    simp [Real.mul_self_sqrt h0.le]
  · have hA : (moreClosed (⟨0, 1⟩ : Chol 1).sigma (⟨0, 1⟩ : Chol 1).mu (-1) 3 1 2).2.PosDef := by
      refine (C98_closed_form (n := 1) _ _ _ _ ?_ ?_ ?_ 0 0 0 1 2 (by norm_num) (by norm_num)).1
      · simp [Chol.sigma, PosDef.one]
      · rw [transpose_neg, transpose_one]
      · intro x
        rw [neg_mulVec, one_mulVec, dotProduct_neg, neg_nonpos]
        exact Finset.sum_nonneg (fun i _ => mul_self_nonneg (x i))
    have := hA.diag_pos (i := 0)
    rw [chol1, if_pos this]
    rfl

end Verif.Search
