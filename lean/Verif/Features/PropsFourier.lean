/-
Properties C51, the values of the Fourier basis, and C129, the factory of Voronoi tilings.
-/
import Verif.Features.ModelFourier
import Verif.Features.PropsBasis
import Mathlib.Analysis.SpecialFunctions.Trigonometric.Chebyshev.Basic
import Mathlib.Algebra.Polynomial.Roots
import Mathlib.Tactic

namespace Verif.Features

noncomputable section

/-- The inputs of the box between `low` and `high`. -/
def InBox (low high x : List ℝ) : Prop := x.length = low.length ∧ ∀ k < low.length, low.getD k 0 ≤ x.getD k 0 ∧ x.getD k 0 ≤ high.getD k 0

/-- The documented value of the basis function with the coefficients `c`: the cosine of pi times the scalar product of the coefficients with the input
scaled to the unit cube. -/
def fourierFormula (low high : List ℝ) (c : List ℕ) (x : List ℝ) : ℝ :=
  Real.cos (Real.pi * ∑ k ∈ Finset.range low.length, (c.getD k 0 : ℝ) * ((x.getD k 0 - low.getD k 0) / (high.getD k 0 - low.getD k 0)))

theorem fourier_sum (d : ℕ) : ∀ (low high x : List ℝ) (c : List ℕ), low.length = d → high.length = d → x.length = d → c.length = d →
    (List.zipWith (fun (s : ℝ) (c : ℕ) => s * (c : ℝ)) (List.zipWith (· / ·) (List.zipWith (· - ·) x low) (List.zipWith (· - ·) high low)) c).sum =
    ∑ k ∈ Finset.range d, (c.getD k 0 : ℝ) * ((x.getD k 0 - low.getD k 0) / (high.getD k 0 - low.getD k 0)) := by
  induction d with
  | zero => intro low high x c hl _ _ _; simp [List.length_eq_zero_iff.1 hl]
  | succ d ih =>
    intro low high x c hl hh hx hc
    obtain ⟨l, low, rfl⟩ := List.exists_cons_of_length_eq_add_one hl
    obtain ⟨h, high, rfl⟩ := List.exists_cons_of_length_eq_add_one hh
    obtain ⟨x0, x, rfl⟩ := List.exists_cons_of_length_eq_add_one hx
    obtain ⟨c0, c, rfl⟩ := List.exists_cons_of_length_eq_add_one hc
    simp only [List.length_cons, Nat.add_right_cancel_iff] at hl hh hx hc
    rw [Finset.sum_range_succ']
    simp only [List.zipWith_cons_cons, List.sum_cons, ih low high x c hl hh hx hc, List.getD_cons_succ, List.getD_cons_zero]
    ring

/-- Reads the selected dimensions of an input. -/
def pick (dims : Option (List ℕ)) (x : List ℝ) : List ℝ :=
  match dims with
  | none => x
  | some dims => dims.map (x.getD · 0)

theorem mapM_get (x : List ℝ) (dims : List ℕ) (h : ∀ k ∈ dims, k < x.length) : dims.mapM (x[·]?) = some (dims.map (x.getD · 0)) := by
  induction dims with
  | nil => rfl
  | cons k dims ih =>
    have hk := h k (by simp)
    rw [List.mapM_cons, ih (fun j hj => h j (by simp [hj]))]
    simp [hk]

/-- C51. `FourierBasis.generate` succeeds for bounds and dimensions of the same length. Its functions are the documented cosines of the chosen dimensions
of the input, one for every vector of coefficients. -/
theorem C51_fourier_value (low high : List ℝ) (n : ℕ) (dims : Option (List ℕ)) (hl : low.length = high.length)
    (hd : ∀ d, dims = some d → d.length = low.length) :
    ∃ phi, fourierFactory low high n dims = some phi ∧ phi.length = (n + 1) ^ low.length ∧
    ∀ (i : ℕ) (hi : i < phi.length), ∃ c, (fourierGenerate n low.length)[i]? = some c ∧ ∀ x : List ℝ,
      (∀ d, dims = some d → ∀ k ∈ d, k < x.length) → (dims = none → x.length = low.length) →
      phi[i].call x = some (fourierFormula low high c (pick dims x)) := by
  have hcond : ((dims.all fun d => low.length = d.length) && low.length = high.length) = true := by
    cases dims with
    | none => simp [hl]
    | some d => have := hd d rfl; simp [hl]; omega
  refine ⟨_, by rw [fourierFactory, if_pos hcond], by simp [fourierGenerate], ?_⟩
  intro i hi
  have hi' : i < (fourierGenerate n low.length).length := by simpa using hi
  refine ⟨(fourierGenerate n low.length)[i], List.getElem?_eq_getElem hi', ?_⟩
  intro x hx hx'
  have hc : ((fourierGenerate n low.length)[i]).length = low.length := (((C51_fourier n low.length).2 _).1 (List.getElem_mem hi')).1
  rw [List.getElem_map]
  simp only [FourierFun.call]
  cases dims with
  | none =>
    simp only [Option.bind_some, hx' rfl, if_true, pick, fourierFormula]
    rw [fourier_sum low.length low high x _ rfl hl.symm (hx' rfl) hc]
  | some d =>
    simp only [mapM_get x d (hx d rfl), Option.bind_some, List.length_map, hd d rfl, if_true, pick, fourierFormula]
    rw [fourier_sum low.length low high _ _ rfl hl.symm (by simp [hd d rfl]) hc]

/-- Two dimensions of an input of three. -/
example : ∃ phi, fourierFactory [0, -1] [1, 1] 1 (some [2, 0]) = some phi ∧ phi.length = 4 := by
  obtain ⟨phi, h1, h2, _⟩ := C51_fourier_value [0, -1] [1, 1] 1 (some [2, 0]) rfl (by intro d h; cases h; rfl)
  exact ⟨phi, h1, by simpa using h2⟩

/-- C51. Fourier features are between minus one and one; at the lower bounds they are one, at the upper bounds plus or minus one by the parity of the sum of
the coefficients. -/
theorem C51_fourier_range (low high : List ℝ) (c : List ℕ) (x : List ℝ) (hlt : ∀ k < low.length, low.getD k 0 < high.getD k 0) :
    -1 ≤ fourierFormula low high c x ∧ fourierFormula low high c x ≤ 1 ∧ fourierFormula low high c low = 1 ∧
    (c.length = low.length → fourierFormula low high c high = (-1) ^ c.sum) := by
  refine ⟨Real.neg_one_le_cos _, Real.cos_le_one _, by simp [fourierFormula], fun hc => ?_⟩
  have h1 : ∑ k ∈ Finset.range low.length, (c.getD k 0 : ℝ) * ((high.getD k 0 - low.getD k 0) / (high.getD k 0 - low.getD k 0)) = (c.sum : ℝ) := by
    rw [Finset.sum_congr rfl (g := fun k => (c.getD k 0 : ℝ))
      (fun k hk => by rw [div_self (by have := hlt k (Finset.mem_range.1 hk); linarith), mul_one])]
    rw [← hc]
    clear * -
    induction c with
    | nil => simp
    | cons a c ih =>
      rw [List.length_cons, Finset.sum_range_succ']
      simp only [List.getD_cons_succ, List.getD_cons_zero, ih, List.sum_cons, Nat.cast_add]
      ring
  rw [fourierFormula, h1, mul_comm, Real.cos_nat_mul_pi]

example : ∀ k < ([0, -1] : List ℝ).length, ([0, -1] : List ℝ).getD k 0 < ([1, 1] : List ℝ).getD k 0 := by
  intro k hk
  have : k = 0 ∨ k = 1 := by simp at hk; omega
  rcases this with rfl | rfl <;> norm_num

theorem cheb_indep (m : ℕ) (w : ℕ → ℝ) (h : ∑ i ∈ Finset.range m, Polynomial.C (w i) * Polynomial.Chebyshev.T ℝ i = 0) : ∀ i < m, w i = 0 := by
  induction m with
  | zero => intro i hi; omega
  | succ m ih =>
    have hdeg : ∀ i : ℕ, (Polynomial.Chebyshev.T ℝ i).natDegree = i := fun i => by simpa using Polynomial.Chebyshev.natDegree_T ℝ (i : ℤ)
    have hlow : ∀ i ∈ Finset.range m, (Polynomial.C (w i) * Polynomial.Chebyshev.T ℝ i).coeff m = 0 := by
      intro i hi
      rw [Polynomial.coeff_C_mul, Polynomial.coeff_eq_zero_of_natDegree_lt (by rw [hdeg]; exact Finset.mem_range.1 hi), mul_zero]
    have hm : w m = 0 := by
      have h2 := congrArg (fun p => Polynomial.coeff p m) h
      simp only [Finset.sum_range_succ, Polynomial.coeff_add, Polynomial.finset_sum_coeff, Finset.sum_eq_zero hlow, zero_add, Polynomial.coeff_zero] at h2
      rw [Polynomial.coeff_C_mul] at h2
      rcases mul_eq_zero.1 h2 with h2 | h2
      · exact h2
      · exfalso
        have h3 : (Polynomial.Chebyshev.T ℝ (m : ℤ)).leadingCoeff = 0 := by rw [Polynomial.leadingCoeff, hdeg, h2]
        rw [Polynomial.leadingCoeff_eq_zero] at h3
        have h4 : (Polynomial.Chebyshev.T ℝ (m : ℤ)).eval (Real.cos 0) = 0 := by rw [h3]; simp
        rw [Polynomial.Chebyshev.T_real_cos] at h4
        simp at h4
    have h5 : ∑ i ∈ Finset.range m, Polynomial.C (w i) * Polynomial.Chebyshev.T ℝ i = 0 := by
      rw [Finset.sum_range_succ, hm] at h
      simpa using h
    intro i hi
    rcases Nat.lt_succ_iff_lt_or_eq.1 hi with hi | rfl
    · exact ih h5 i hi
    · exact hm

theorem digits_sum (n : ℕ) : ∀ d i, i < (n + 1) ^ d → ∑ k ∈ Finset.range d, ((fourierCoeffs n d i).getD k 0 : ℝ) * ((n : ℝ) + 1) ^ k = i := by
  intro d
  induction d with
  | zero => intro i hi; simp at hi; simp [hi]
  | succ d ih =>
    intro i hi
    have hi' : i / (n + 1) < (n + 1) ^ d := by
      rw [Nat.div_lt_iff_lt_mul (by omega)]; rwa [pow_succ] at hi
    rw [Finset.sum_range_succ']
    simp only [fourierCoeffs, List.getD_cons_succ, List.getD_cons_zero, pow_succ, pow_zero, mul_one]
    have h1 := ih _ hi'
    have h2 : ∑ k ∈ Finset.range d, ((fourierCoeffs n d (i / (n + 1))).getD k 0 : ℝ) * (((n : ℝ) + 1) ^ k * ((n : ℝ) + 1)) =
        ((i / (n + 1) : ℕ) : ℝ) * ((n : ℝ) + 1) := by
      rw [← h1, Finset.sum_mul]
      exact Finset.sum_congr rfl fun k _ => by ring
    rw [h2]
    have h3 := Nat.div_add_mod i (n + 1)
    have h4 : ((n + 1 : ℕ) : ℝ) * ((i / (n + 1) : ℕ) : ℝ) + ((i % (n + 1) : ℕ) : ℝ) = (i : ℝ) := by exact_mod_cast h3
    push_cast at h4 ⊢
    linarith

/-- C51. The Fourier basis is linearly independent on the box between the bounds, for every number of harmonics and dimensions: a combination of the
features that is zero for all inputs of the box has only zero weights, so different weights are different functions. -/
theorem C51_fourier_independent (low high : List ℝ) (n : ℕ) (hl : low.length = high.length)
    (hlt : ∀ k < low.length, low.getD k 0 < high.getD k 0) (phi : List FourierFun) (hphi : fourierFactory low high n none = some phi) (w : ℕ → ℝ)
    (h : ∀ x, InBox low high x → ∑ i ∈ Finset.range phi.length, w i * ((phi[i]?).bind (·.call x)).getD 0 = 0) :
    ∀ i < phi.length, w i = 0 := by
  obtain ⟨phi', hp1, hp2, hp3⟩ := C51_fourier_value low high n none hl (by simp)
  rw [hphi, Option.some.injEq] at hp1
  subst hp1
  set d := low.length with hdd
  set N : ℝ := (n : ℝ) + 1 with hN
  have hN1 : 1 ≤ N := by simp [hN]
  have hNd : 0 < N ^ d := by positivity
  -- points of a line inside the box
  have key : ∀ t : ℝ, 0 ≤ t → t ≤ 1 → ∑ i ∈ Finset.range phi.length, w i * Real.cos (i * (Real.pi * t / N ^ d)) = 0 := by
    intro t ht0 ht1
    set x : List ℝ := (List.range d).map fun k : ℕ => low.getD k 0 + (high.getD k 0 - low.getD k 0) * (t * N ^ k / N ^ d) with hx
    have hxg : ∀ k < d, x.getD k 0 = low.getD k 0 + (high.getD k 0 - low.getD k 0) * (t * N ^ k / N ^ d) := by
      intro k hk
      rw [List.getD_eq_getElem _ _ (by simpa [hx] using hk)]
      simp [hx]
    have hbox : InBox low high x := by
      refine ⟨by simp [hx, hdd], fun k hk => ?_⟩
      rw [hxg k hk]
      have h1 := hlt k hk
      have h2 : 0 ≤ t * N ^ k / N ^ d := by positivity
      have h3 : t * N ^ k / N ^ d ≤ 1 := by
        rw [div_le_one hNd]
        calc t * N ^ k ≤ 1 * N ^ k := by gcongr
          _ = N ^ k := one_mul _
          _ ≤ N ^ d := pow_le_pow_right₀ hN1 hk.le
      constructor <;> nlinarith
    rw [← h x hbox]
    refine Finset.sum_congr rfl fun i hi => ?_
    have hi' := Finset.mem_range.1 hi
    obtain ⟨c, hc1, hc2⟩ := hp3 i hi'
    have hc3 := hc2 x (by simp) (fun _ => hbox.1)
    rw [List.getElem?_eq_getElem hi', Option.bind_some, hc3, Option.getD_some]
    congr 1
    have hci : c = fourierCoeffs n d i := by
      rw [hp2] at hi'
      simp only [fourierGenerate, List.getElem?_map, List.getElem?_range hi', Option.map_some, Option.some.injEq] at hc1
      exact hc1.symm
    rw [fourierFormula, pick, hci]
    congr 1
    have h4 := digits_sum n d i (by rw [← hp2]; exact hi')
    rw [Finset.sum_congr rfl (g := fun k => (((fourierCoeffs n d i).getD k 0 : ℝ) * ((n : ℝ) + 1) ^ k) * (t / N ^ d)) (fun k hk => by
      have hk' := Finset.mem_range.1 hk
      have := hlt k hk'
      have hne : high.getD k 0 - low.getD k 0 ≠ 0 := by linarith
      rw [hxg k hk', add_sub_cancel_left, mul_comm (high.getD k 0 - low.getD k 0), mul_div_cancel_right₀ _ hne]
      ring), ← Finset.sum_mul, h4]
    ring
  -- a polynomial with infinitely many roots
  have hpoly : ∑ i ∈ Finset.range phi.length, Polynomial.C (w i) * Polynomial.Chebyshev.T ℝ i = 0 := by
    apply Polynomial.eq_zero_of_infinite_isRoot
    have hinf : (Set.Icc (0 : ℝ) 1).Infinite := Set.Icc_infinite zero_lt_one
    have hinj : Set.InjOn (fun t : ℝ => Real.cos (Real.pi * t / N ^ d)) (Set.Icc 0 1) := by
      intro a ha b hb hab
      have hm : ∀ t ∈ Set.Icc (0 : ℝ) 1, Real.pi * t / N ^ d ∈ Set.Icc 0 Real.pi := by
        intro t ht
        have hp := Real.pi_pos
        refine ⟨by have := ht.1; positivity, ?_⟩
        rw [div_le_iff₀ hNd]
        have := one_le_pow₀ hN1 (n := d)
        have := ht.2
        nlinarith
      have h1 := Real.injOn_cos (hm a ha) (hm b hb) hab
      have hp := Real.pi_pos
      field_simp at h1
      exact h1
    refine (hinf.image hinj).mono ?_
    rintro _ ⟨t, ht, rfl⟩
    show Polynomial.IsRoot _ _
    rw [Polynomial.IsRoot.def, Polynomial.eval_finset_sum, ← key t ht.1 ht.2]
    refine Finset.sum_congr rfl fun i _ => ?_
    rw [Polynomial.eval_mul, Polynomial.eval_C, Polynomial.Chebyshev.T_real_cos]
    simp
  exact cheb_indep _ w hpoly

example : ∃ phi, fourierFactory [0, -1] [1, 1] 2 none = some phi ∧ phi.length = 9 := by
  obtain ⟨phi, h1, h2, _⟩ := C51_fourier_value [0, -1] [1, 1] 2 none rfl (by simp)
  exact ⟨phi, h1, by simpa using h2⟩

/-! ### Voronoi tilings -/

theorem ceil_log (a : ℕ) (ha : 1 ≤ a) (m : ℤ) : ⌈Real.log a / Real.log 2⌉ ≤ m ↔ (a : ℝ) ≤ 2 ^ m := by
  have h2 : 0 < Real.log 2 := Real.log_pos (by norm_num)
  rw [Int.ceil_le, div_le_iff₀ h2, ← Real.log_zpow, Real.log_le_log_iff (by exact_mod_cast ha) (by positivity)]

/-- C129. The automatic number of Voronoi tilings is the square of the smallest exponent for which the power of two reaches four times the dimension of the
space and the number of prototypes; other positive numbers are used as they are, and all others fail. -/
theorem C129_count_partial (dim nPrototypes : ℕ) (hd : 1 ≤ dim) (hn : 1 ≤ nPrototypes) :
    (∃ m : ℕ, voronoiCount true dim nPrototypes (-1) = some (m ^ 2) ∧ IsLeast {m : ℕ | 4 * dim ≤ 2 ^ m ∧ nPrototypes ≤ 2 ^ m} m) ∧
    (∀ uniform, ∀ n : ℕ, 0 < n → voronoiCount uniform dim nPrototypes n = some n) ∧
    ∀ uniform, ∀ n : ℤ, n ≤ 0 → n ≠ -1 → voronoiCount uniform dim nPrototypes n = none := by
  refine ⟨?_, ?_, ?_⟩
  · set M : ℤ := max ⌈Real.log (4 * dim) / Real.log 2⌉ ⌈Real.log nPrototypes / Real.log 2⌉ with hM
    have hiff : ∀ m : ℕ, M ≤ m ↔ 4 * dim ≤ 2 ^ m ∧ nPrototypes ≤ 2 ^ m := by
      intro m
      have h1 := ceil_log (4 * dim) (by omega) m
      have h2 := ceil_log nPrototypes hn m
      push_cast at h1
      rw [hM, max_le_iff, h1, h2, zpow_natCast]
      norm_cast
    have hpos : 0 ≤ M := by
      have h1 : ¬ M ≤ ((0 : ℕ) : ℤ) := by rw [hiff]; omega
      push_cast at h1
      omega
    refine ⟨M.toNat, ?_, ?_⟩
    · simp only [voronoiCount, or_true, if_true]
      rw [← hM]
      congr 1
      rw [← Int.toNat_pow_of_nonneg hpos]
    · constructor
      · rw [Set.mem_setOf_eq, ← hiff]; omega
      · intro m hm
        have := (hiff m).2 hm
        omega
  · intro uniform n hn
    rw [voronoiCount, if_pos (Or.inl (by exact_mod_cast hn)), if_neg (by omega)]
    simp
  · intro uniform n h1 h2
    rw [voronoiCount, if_neg (by omega)]

example : voronoiCount true 1 1 7 = some 7 := ((C129_count_partial 1 1 le_rfl le_rfl).2.1 true 7 (by norm_num))

/-- C129, refuted for Gaussian prototypes: the automatic number of tilings ignores the dimension of the space. With five dimensions and one prototype it makes
four tilings, while uniform prototypes give twenty-five. -/
theorem C129_count_refuted : (∀ dim dim' nPrototypes, voronoiCount false dim nPrototypes (-1) = voronoiCount false dim' nPrototypes (-1)) ∧
    voronoiCount false 5 1 (-1) = some 4 ∧ voronoiCount true 5 1 (-1) = some 25 := by
  refine ⟨fun dim dim' n => rfl, ?_, ?_⟩
  · have h : voronoiCount false 5 1 (-1) = voronoiCount true 1 1 (-1) := rfl
    obtain ⟨m, h1, h2, h3⟩ := (C129_count_partial 1 1 le_rfl le_rfl).1
    rw [h, h1]
    have h4 : m ≤ 2 := h3 ⟨by norm_num, by norm_num⟩
    have h5 := h2.1
    interval_cases m <;> simp_all
  · obtain ⟨m, h1, h2, h3⟩ := (C129_count_partial 5 1 (by norm_num) le_rfl).1
    rw [h1]
    have h4 : m ≤ 5 := h3 ⟨by norm_num, by norm_num⟩
    have h5 := h2.1
    interval_cases m <;> simp_all

/-- C129. Every uniform Voronoi tiling has the required number of prototypes, all of them inside the box. -/
theorem C129_prototypes (low high : List ℝ) (n : ℕ) (nTilings : ℤ) (u : ℕ → ℕ → ℕ → ℝ) (hu : ∀ i j k, 0 ≤ u i j k ∧ u i j k < 1)
    (hlt : ∀ k < low.length, low.getD k 0 < high.getD k 0) (ts : List (List (List ℝ))) (h : voronoiUniform low high n nTilings u = some ts) :
    (0 < nTilings → (ts.length : ℤ) = nTilings) ∧ ∀ t ∈ ts, t.length = n ∧ ∀ p ∈ t, InBox low high p := by
  unfold voronoiUniform at h
  split at h
  · rw [Option.map_eq_some_iff] at h
    obtain ⟨m, hm, rfl⟩ := h
    refine ⟨fun hpos => ?_, ?_⟩
    · rw [voronoiCount, if_pos (Or.inl hpos), if_neg (by omega), Option.some.injEq] at hm
      rw [List.length_map, List.length_range, ← hm]; omega
    · intro t ht
      obtain ⟨i, _, rfl⟩ := List.mem_map.1 ht
      refine ⟨by simp, ?_⟩
      intro p hp
      obtain ⟨j, _, rfl⟩ := List.mem_map.1 hp
      refine ⟨by simp, ?_⟩
      intro k hk
      have hg : ((List.range low.length).map fun k : ℕ => low.getD k 0 + (high.getD k 0 - low.getD k 0) * u i j k).getD k 0 =
          low.getD k 0 + (high.getD k 0 - low.getD k 0) * u i j k := by
        rw [List.getD_eq_getElem _ _ (by simpa using hk)]
        simp
      rw [hg]
      have h1 := hlt k hk
      have h2 := hu i j k
      constructor <;> nlinarith
  · cases h

example : voronoiUniform [0, 0] [1, 2] 3 2 (fun _ _ _ => 1 / 2) ≠ none := by
  simp [voronoiUniform, voronoiCount]

end

end Verif.Features
