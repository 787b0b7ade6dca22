/-
Lemmas for Weighted Q-learning: the tables along one history, and how far its estimate is below the largest value.
-/
import Verif.TD.SpecWeighted
import Verif.TD.LemmasGlie

namespace Verif.TD

open Filter Topology MeasureTheory ProbabilityTheory

noncomputable section

/-- Convergence to a neighbourhood along one history: as `history_perturbed`, with a further perturbation `u` that only lowers the entries,
at most at rate `δ` up to a noise `d'` whose sum converges. -/
theorem history_near {I : Type} [Fintype I] {x F a d d' u : ℕ → I → ℝ} {xs : I → ℝ} {L : I → Prop} {γ δ B : ℝ} (hγ0 : 0 ≤ γ) (hγ1 : γ < 1)
    (hδ : 0 ≤ δ) (h0 : ∀ n j, 0 ≤ a n j) (h1 : ∀ n j, a n j ≤ 1)
    (hx : ∀ n j, x (n + 1) j = x n j + a n j * (F n j - x n j) + d n j - u n j)
    (hF : ∀ n D, 0 ≤ D → (∀ j, L j → |x n j - xs j| ≤ D) → ∀ j, L j → |F n j - xs j| ≤ γ * D)
    (hu : ∀ᶠ n in atTop, ∀ j, L j → 0 ≤ u n j ∧ u n j ≤ a n j * δ + d' n j)
    (hB : ∀ n j, |x n j - xs j| ≤ B)
    (hdiv : ∀ j, L j → Tendsto (fun n => ∑ k ∈ Finset.range n, a k j) atTop atTop)
    (hsum : ∀ j, ∃ l, Tendsto (fun n => ∑ k ∈ Finset.range n, d k j) atTop (𝓝 l))
    (hsum' : ∀ j, ∃ l, Tendsto (fun n => ∑ k ∈ Finset.range n, d' k j) atTop (𝓝 l)) {ε : ℝ} (hε : 0 < ε) :
    ∀ᶠ n in atTop, ∀ j, L j → |x n j - xs j| ≤ δ / (1 - γ) + ε := by
  have small : ∀ {e : ℕ → I → ℝ}, (∀ j, ∃ l, Tendsto (fun n => ∑ k ∈ Finset.range n, e k j) atTop (𝓝 l)) → ∀ j, ∃ R : ℕ → ℝ,
      (∀ n, R (n + 1) = R n - e n j) ∧ ∀ η, 0 < η → ∀ᶠ n in atTop, |R n| ≤ η := by
    intro e he j
    obtain ⟨l, hl⟩ := he j
    refine ⟨fun n => l - ∑ k ∈ Finset.range n, e k j, fun n => by simp only [Finset.sum_range_succ]; ring, fun η hη => ?_⟩
    have hR0 : Tendsto (fun n => l - ∑ k ∈ Finset.range n, e k j) atTop (𝓝 0) := by simpa using hl.const_sub l
    have := (tendsto_zero_iff_abs_tendsto_zero _).1 hR0
    exact (this.eventually (gt_mem_nhds hη)).mono (fun n h => le_of_lt h)
  have key : ∀ (D η : ℝ), 0 ≤ D → 0 < η → (∀ᶠ n in atTop, ∀ j, L j → |x n j - xs j| ≤ D) →
      ∀ᶠ n in atTop, ∀ j, L j → |x n j - xs j| ≤ γ * D + δ + η := by
    intro D η hD0 hη hD
    rw [eventually_all]
    intro j
    by_cases hj : L j
    swap
    · exact Eventually.of_forall (fun n h => absurd h hj)
    obtain ⟨R, hRn, hRs⟩ := small hsum j
    obtain ⟨T, hTn, hTs⟩ := small hsum' j
    have hη4 : 0 < η / 4 := by positivity
    obtain ⟨n0, hn0⟩ := eventually_atTop.1 (hD.and ((hRs _ hη4).and ((hTs _ hη4).and hu)))
    have hup := average_below (a := fun n => a n j) (v := fun n => x n j - xs j + R n)
      (c := γ * D + η / 4) (fun n => h0 n j) (fun n => h1 n j) (hdiv j hj) n0 (fun n hn => ?_) hη4
    have hlo := average_below (a := fun n => a n j) (v := fun n => -(x n j - xs j + R n) + T n)
      (c := γ * D + δ + η / 2) (fun n => h0 n j) (fun n => h1 n j) (hdiv j hj) n0 (fun n hn => ?_) (by positivity : (0 : ℝ) < η / 4 / 2)
    · obtain ⟨m0, hm0⟩ := eventually_atTop.1 ((hRs _ (by positivity : (0 : ℝ) < η / 16)).and (hTs _ (by positivity : (0 : ℝ) < η / 16)))
      filter_upwards [hup, hlo, eventually_ge_atTop m0] with n h2 h3 hn _
      obtain ⟨r, s⟩ := hm0 n hn
      have r' := abs_le.1 r
      have s' := abs_le.1 s
      rw [abs_le]
      constructor <;> linarith
    · obtain ⟨hd, hr, ht, hf⟩ := hn0 n hn
      have g1 := (abs_le.1 (hF n D hD0 hd j hj)).1
      have g2 := (abs_le.1 hr).1
      have g4 := (abs_le.1 ht).2
      have g3 := (hf j hj).2
      have e : -(x (n + 1) j - xs j + R (n + 1)) + T (n + 1) =
          (1 - a n j) * (-(x n j - xs j + R n) + T n) + a n j * (-(F n j - xs j + R n) + T n) + u n j - d' n j := by
        rw [hx, hRn, hTn]; ring
      rw [e]
      have := mul_le_mul_of_nonneg_left (by linarith : -(F n j - xs j + R n) + T n ≤ γ * D + η / 2) (h0 n j)
      linarith
    · obtain ⟨hd, hr, -, hf⟩ := hn0 n hn
      have g1 := (abs_le.1 (hF n D hD0 hd j hj)).2
      have g2 := (abs_le.1 hr).2
      have g3 := (hf j hj).1
      have e : x (n + 1) j - xs j + R (n + 1) = (1 - a n j) * (x n j - xs j + R n) + a n j * (F n j - xs j + R n) - u n j := by
        rw [hx, hRn]; ring
      rw [e]
      have := mul_le_mul_of_nonneg_left (by linarith : F n j - xs j + R n ≤ γ * D + η / 4) (h0 n j)
      linarith
  by_cases hI : ∃ j : I, L j
  swap
  · exact Eventually.of_forall (fun n j hj => absurd ⟨j, hj⟩ hI)
  obtain ⟨j0, -⟩ := hI
  have hB0 : 0 ≤ B := (abs_nonneg _).trans (hB 0 j0)
  set q := (1 + γ) / 2 with hq
  set c := δ / (1 - γ) with hc
  have hc0 : 0 ≤ c := div_nonneg hδ (by linarith)
  have hcδ : γ * c + δ = c := by
    have : (1 - γ) * c = δ := by rw [hc]; field_simp [(by linarith : (1 - γ) ≠ 0)]
    linarith
  have hpow : ∀ k : ℕ, ∀ᶠ n in atTop, ∀ j, L j → |x n j - xs j| ≤ c + q ^ k * (B + 1) := by
    intro k
    induction k with
    | zero => exact Eventually.of_forall (fun n j _ => by simpa using (hB n j).trans (by linarith))
    | succ k ih =>
      have hpos : 0 < q ^ k * (B + 1) := by
        have : 0 < q := by rw [hq]; linarith
        positivity
      have := key (c + q ^ k * (B + 1)) ((1 - γ) / 2 * (q ^ k * (B + 1))) (by positivity) (mul_pos (by linarith) hpos) ih
      refine this.mono (fun n h j hj => (h j hj).trans (le_of_eq ?_))
      rw [pow_succ, mul_add]
      have : q = γ + (1 - γ) / 2 := by rw [hq]; ring
      rw [this]
      linear_combination hcδ
  have hq0 : Tendsto (fun k : ℕ => q ^ k * (B + 1)) atTop (𝓝 0) := by
    have := tendsto_pow_atTop_nhds_zero_of_lt_one (r := q) (by rw [hq]; linarith) (by rw [hq]; linarith)
    simpa using this.mul_const (B + 1)
  obtain ⟨k, hk⟩ := (hq0.eventually (gt_mem_nhds hε)).exists
  exact (hpow k).mono (fun n h j hj => (h j hj).trans (by linarith))

variable {S A : Type} [DecidableEq S] [DecidableEq A] [Fintype S] [Fintype A] [Nonempty A]

omit [Nonempty A] in
theorem sum_count (l : List A) (q : A → ℝ) : ∑ a, (l.count a : ℝ) * q a = (l.map q).sum := by
  induction l with
  | nil => simp
  | cons b l ih =>
    simp only [List.count_cons, List.map_cons, List.sum_cons, ← ih]
    push_cast
    simp only [add_mul, Finset.sum_add_distrib]
    rw [add_comm]
    congr 1
    simp

omit [DecidableEq S] [Fintype S] [Nonempty A] in
/-- The estimate is the mean of the values of the sampled actions. -/
theorem weightedNextQ_eq {N : ℕ} (argmax : (A → ℝ) → A) (Z : Fin N → A → ℝ) (g : Weighted S A) (s : S) :
    weightedNextQ argmax (List.ofFn Z) g s = (∑ j, g.Q s (argmax (fun a => g.Q s a + g.sigma s a * Z j a))) / N := by
  unfold weightedNextQ
  simp only [div_mul_eq_mul_div, ← Finset.sum_div]
  rw [sum_count, List.length_ofFn, List.map_map, List.map_ofFn, List.sum_ofFn]
  rfl

omit [DecidableEq S] [Fintype S] in
/-- The estimate lies between the smallest and the largest value, and below the largest at most by the size of the samples. -/
theorem weightedNextQ_gap {N : ℕ} (hN : 0 < N) {argmax : (A → ℝ) → A} (hmax : ∀ q, Maximises q (argmax q)) (Z : Fin N → A → ℝ) (g : Weighted S A)
    (s : S) {B c : ℝ} (hB : ∀ a, |g.Q s a| ≤ B) :
    |weightedNextQ argmax (List.ofFn Z) g s| ≤ B ∧ 0 ≤ rowMax (g.Q s) - weightedNextQ argmax (List.ofFn Z) g s ∧
    ((∀ a, g.sigma s a = c) → 0 ≤ c →
      rowMax (g.Q s) - weightedNextQ argmax (List.ofFn Z) g s ≤ min (2 * c / N * ∑ j, ∑ a, |Z j a|) (2 * B)) := by
  have hN' : (0 : ℝ) < N := by exact_mod_cast hN
  rw [weightedNextQ_eq]
  set k : Fin N → A := fun j => argmax (fun a => g.Q s a + g.sigma s a * Z j a) with hk
  have e : rowMax (g.Q s) - (∑ j, g.Q s (k j)) / N = (∑ j, (rowMax (g.Q s) - g.Q s (k j))) / N := by
    rw [Finset.sum_sub_distrib]
    simp only [Finset.sum_const, Finset.card_univ, Fintype.card_fin, nsmul_eq_mul]
    field_simp
  have hle : ∀ j, 0 ≤ rowMax (g.Q s) - g.Q s (k j) := fun j => sub_nonneg.2 ((rowMax_isMax _).1 _)
  have habs : |(∑ j, g.Q s (k j)) / N| ≤ B := by
    rw [abs_div, abs_of_pos hN', div_le_iff₀ hN']
    refine (Finset.abs_sum_le_sum_abs _ _).trans ((Finset.sum_le_sum fun j _ => hB (k j)).trans (le_of_eq ?_))
    simp [mul_comm]
  refine ⟨habs, ?_, fun hσ hc => le_min ?_ ?_⟩
  · rw [e]; exact div_nonneg (Finset.sum_nonneg fun j _ => hle j) hN'.le
  · rw [e, div_mul_eq_mul_div, Finset.mul_sum]
    refine div_le_div_of_nonneg_right (Finset.sum_le_sum fun j _ => ?_) hN'.le
    obtain ⟨b, hb⟩ := (rowMax_isMax (g.Q s)).2
    have h1 := hmax (fun a => g.Q s a + g.sigma s a * Z j a) b
    simp only [hσ] at h1
    have hkj : k j = argmax (fun a => g.Q s a + c * Z j a) := by simp only [hk, hσ]
    rw [← hkj] at h1
    have z1 := Finset.single_le_sum (f := fun a => |Z j a|) (fun _ _ => abs_nonneg _) (Finset.mem_univ b)
    have z2 := Finset.single_le_sum (f := fun a => |Z j a|) (fun _ _ => abs_nonneg _) (Finset.mem_univ (k j))
    have y1 := neg_abs_le (Z j b)
    have y2 := le_abs_self (Z j (k j))
    have x1 : c * (-(∑ a, |Z j a|)) ≤ c * Z j b := mul_le_mul_of_nonneg_left (by linarith) hc
    have x2 : c * Z j (k j) ≤ c * ∑ a, |Z j a| := mul_le_mul_of_nonneg_left (by linarith) hc
    linarith
  · have h1 := (abs_le.1 habs).1
    have h2 := (abs_le.1 (rowMax_bound hB)).2
    linarith

omit [Nonempty A] in
/-- A standard normal number has mean absolute value at most one. -/
theorem normal_abs : Integrable (fun x : ℝ => |x|) (gaussianReal 0 1) ∧ ∫ x, |x| ∂(gaussianReal 0 1) ≤ 1 := by
  have h1 : MemLp (id : ℝ → ℝ) 1 (gaussianReal 0 1) := memLp_id_gaussianReal' 1 (by simp)
  have h2 : MemLp (id : ℝ → ℝ) 2 (gaussianReal 0 1) := memLp_id_gaussianReal' 2 (by simp)
  have hi : Integrable (fun x : ℝ => |x|) (gaussianReal 0 1) := (memLp_one_iff_integrable.1 h1).abs
  have hs : Integrable (fun x : ℝ => x ^ 2) (gaussianReal 0 1) := h2.integrable_sq
  have hv : ∫ x, x ^ 2 ∂(gaussianReal 0 1) = 1 := by
    have := variance_of_integral_eq_zero (X := (id : ℝ → ℝ)) (μ := gaussianReal 0 1) aemeasurable_id (by simp [integral_id_gaussianReal])
    rw [variance_id_gaussianReal] at this
    simpa using this.symm
  refine ⟨hi, ?_⟩
  have : ∫ x, |x| ∂(gaussianReal 0 1) ≤ ∫ x, (1 / 2 + 1 / 2 * x ^ 2 : ℝ) ∂(gaussianReal 0 1) := by
    refine integral_mono hi ((integrable_const _).add (hs.const_mul _)) (fun x => ?_)
    have : 0 ≤ (|x| - 1) ^ 2 := sq_nonneg _
    have h3 : |x| ^ 2 = x ^ 2 := sq_abs x
    simp only
    nlinarith
  rw [integral_add (integrable_const _) (hs.const_mul _), integral_const_mul, hv] at this
  simp at this
  linarith

/-! ### The tables along one history -/

section History

variable {γ B : ℝ} {argmax : (A → ℝ) → A} {N : ℕ} {t : ℕ → Trans S A} {α : ℕ → ℝ} {Z : ℕ → Fin N → A → ℝ}

/-- The target of the `n`-th update. -/
def weightedTarget (γ : ℝ) (argmax : (A → ℝ) → A) {N : ℕ} (t : ℕ → Trans S A) (α : ℕ → ℝ) (Z : ℕ → Fin N → A → ℝ) (n : ℕ) : ℝ :=
  (t n).reward + γ * (if !(t n).absorbing then weightedNextQ argmax (List.ofFn (Z n)) (weightedAfter γ argmax t α Z n) (t n).next else 0)

omit [Fintype S] [Nonempty A] in
theorem after_Q (n : ℕ) (s : S) (a : A) : (weightedAfter γ argmax t α Z (n + 1)).Q s a = (weightedAfter γ argmax t α Z n).Q s a +
    ratesOf s a t α n * (weightedTarget γ argmax t α Z n - (weightedAfter γ argmax t α Z n).Q s a) := by
  by_cases h : (t n).state = s ∧ (t n).action = a
  · obtain ⟨rfl, rfl⟩ := h
    simp [weightedAfter, weightedQ, ratesOf, Table.set, weightedTarget]
  · have h' : ¬ (s = (t n).state ∧ a = (t n).action) := fun h' => h ⟨h'.1.symm, h'.2.symm⟩
    simp [weightedAfter, weightedQ, ratesOf, Table.set, h, h']

omit [Fintype S] [Nonempty A] in
theorem after_Q2 (n : ℕ) (s : S) (a : A) : (weightedAfter γ argmax t α Z (n + 1)).Q2 s a = (weightedAfter γ argmax t α Z n).Q2 s a +
    ratesOf s a t α n * (weightedTarget γ argmax t α Z n ^ 2 - (weightedAfter γ argmax t α Z n).Q2 s a) := by
  by_cases h : (t n).state = s ∧ (t n).action = a
  · obtain ⟨rfl, rfl⟩ := h
    simp [weightedAfter, weightedQ, ratesOf, Table.set, weightedTarget]
  · have h' : ¬ (s = (t n).state ∧ a = (t n).action) := fun h' => h ⟨h'.1.symm, h'.2.symm⟩
    simp [weightedAfter, weightedQ, ratesOf, Table.set, h, h']

omit [Fintype S] [Nonempty A] in
theorem after_w2 (n : ℕ) (s : S) (a : A) : (weightedAfter γ argmax t α Z (n + 1)).w2 s a =
    (1 - ratesOf s a t α n) ^ 2 * (weightedAfter γ argmax t α Z n).w2 s a + ratesOf s a t α n ^ 2 := by
  by_cases h : (t n).state = s ∧ (t n).action = a
  · obtain ⟨rfl, rfl⟩ := h
    simp [weightedAfter, weightedQ, ratesOf, Table.set]
  · have h' : ¬ (s = (t n).state ∧ a = (t n).action) := fun h' => h ⟨h'.1.symm, h'.2.symm⟩
    simp [weightedAfter, weightedQ, ratesOf, Table.set, h, h']

omit [Fintype S] [Nonempty A] in
theorem after_w1 (n : ℕ) (s : S) (a : A) : (weightedAfter γ argmax t α Z (n + 1)).w1 s a =
    (1 - ratesOf s a t α n) * (weightedAfter γ argmax t α Z n).w1 s a + ratesOf s a t α n := by
  by_cases h : (t n).state = s ∧ (t n).action = a
  · obtain ⟨rfl, rfl⟩ := h
    simp [weightedAfter, weightedQ, ratesOf, Table.set]
  · have h' : ¬ (s = (t n).state ∧ a = (t n).action) := fun h' => h ⟨h'.1.symm, h'.2.symm⟩
    simp [weightedAfter, weightedQ, ratesOf, Table.set, h, h']

omit [Fintype S] [Nonempty A] in
theorem after_nUpdates (n : ℕ) (s : S) (a : A) : (weightedAfter γ argmax t α Z (n + 1)).nUpdates s a =
    (weightedAfter γ argmax t α Z n).nUpdates s a + (if (t n).state = s ∧ (t n).action = a then 1 else 0) := by
  by_cases h : (t n).state = s ∧ (t n).action = a
  · obtain ⟨rfl, rfl⟩ := h
    simp [weightedAfter, weightedQ, Table.set]
  · have h' : ¬ (s = (t n).state ∧ a = (t n).action) := fun h' => h ⟨h'.1.symm, h'.2.symm⟩
    simp [weightedAfter, weightedQ, Table.set, h, h']

/-- The standard deviation that the tables give to a pair. -/
def sigmaOf (g : Weighted S A) (s : S) (a : A) : ℝ :=
  Real.sqrt (max ((g.Q2 s a - g.Q s a ^ 2) * (g.w2 s a / (g.w1 s a * 2 + 1 / 10 ^ 10))) (1 / 10 ^ 10))

omit [Fintype S] [Nonempty A] in
theorem after_sigma (n : ℕ) (s : S) (a : A) :
    (weightedAfter γ argmax t α Z n).sigma s a = (if 1 < (weightedAfter γ argmax t α Z n).nUpdates s a then
      sigmaOf (weightedAfter γ argmax t α Z n) s a else 10 ^ 10) := by
  induction n with
  | zero => rw [if_neg (by simp [weightedAfter, weightedInit])]; rfl
  | succ n ih =>
    by_cases h : (t n).state = s ∧ (t n).action = a
    · have hn : 0 ≤ (weightedAfter γ argmax t α Z n).nUpdates s a := by
        clear ih h
        induction n with
        | zero => simp [weightedAfter, weightedInit]
        | succ n ih => rw [after_nUpdates]; split <;> linarith
      obtain ⟨rfl, rfl⟩ := h
      by_cases h1 : 1 < (weightedAfter γ argmax t α Z n).nUpdates (t n).state (t n).action + 1
      · simp [weightedAfter, weightedQ, Table.set, h1, sigmaOf]
      · have h2 : ¬ 1 < (weightedAfter γ argmax t α Z n).nUpdates (t n).state (t n).action := by intro h3; linarith
        rw [if_neg h2] at ih
        simp [weightedAfter, weightedQ, Table.set, h1, ih]
    · have h' : ¬ (s = (t n).state ∧ a = (t n).action) := fun h' => h ⟨h'.1.symm, h'.2.symm⟩
      have e : ∀ (c : Prop) [Decidable c] (f : Table S A) (v : ℝ), (if c then f.set (t n).state (t n).action v else f) s a = f s a := by
        intro c _ f v
        split
        · simp [Table.set, h']
        · rfl
      have e2 : (weightedAfter γ argmax t α Z (n + 1)).sigma s a = (weightedAfter γ argmax t α Z n).sigma s a := by
        simp only [weightedAfter, weightedQ]
        exact e _ _ _
      have e3 : sigmaOf (weightedAfter γ argmax t α Z (n + 1)) s a = sigmaOf (weightedAfter γ argmax t α Z n) s a := by
        have hr : ratesOf s a t α n = 0 := by simp [ratesOf, h]
        simp only [sigmaOf, after_Q, after_Q2, after_w1, after_w2, hr]
        norm_num
      rw [e2, e3, after_nUpdates, if_neg h, add_zero, ih]

/-- The rates are between zero and one. -/
theorem rates_range (hα : ∀ n, 0 ≤ α n ∧ α n ≤ 1) (s : S) (a : A) (n : ℕ) : 0 ≤ ratesOf s a t α n ∧ ratesOf s a t α n ≤ 1 := by
  unfold ratesOf; split
  · exact hα n
  · exact ⟨le_rfl, zero_le_one⟩

theorem move_abs {x β y B : ℝ} (h0 : 0 ≤ β) (h1 : β ≤ 1) (hx : |x| ≤ B) (hy : |y| ≤ B) : |x + β * (y - x)| ≤ B := by
  have e : x + β * (y - x) = (1 - β) * x + β * y := by ring
  rw [e]
  refine (abs_add_le _ _).trans ?_
  rw [abs_mul, abs_mul, abs_of_nonneg h0, abs_of_nonneg (by linarith : 0 ≤ 1 - β)]
  nlinarith

/-- All the tables stay bounded. -/
theorem after_bounded (hN : 0 < N) (hmax : ∀ q, Maximises q (argmax q)) (hα : ∀ n, 0 ≤ α n ∧ α n ≤ 1) (hB : 0 ≤ B)
    (hT : ∀ n x, |x| ≤ B → |(t n).reward + γ * x| ≤ B) (n : ℕ) :
    Bounded B (weightedAfter γ argmax t α Z n).Q ∧ Bounded (B ^ 2) (weightedAfter γ argmax t α Z n).Q2 ∧
      (∀ s a, 0 ≤ (weightedAfter γ argmax t α Z n).w1 s a) ∧ (∀ s a, 0 ≤ (weightedAfter γ argmax t α Z n).w2 s a) ∧
      |weightedTarget γ argmax t α Z n| ≤ B := by
  have htgt : Bounded B (weightedAfter γ argmax t α Z n).Q → |weightedTarget γ argmax t α Z n| ≤ B := by
    intro h
    unfold weightedTarget
    refine hT n _ ?_
    rw [not_ite]
    exact abs_ite_zero hB fun _ => (weightedNextQ_gap (c := 0) hN hmax (Z n) _ _ (fun a => h _ a)).1
  suffices h : Bounded B (weightedAfter γ argmax t α Z n).Q ∧ Bounded (B ^ 2) (weightedAfter γ argmax t α Z n).Q2 ∧
      (∀ s a, 0 ≤ (weightedAfter γ argmax t α Z n).w1 s a) ∧ (∀ s a, 0 ≤ (weightedAfter γ argmax t α Z n).w2 s a) from
    ⟨h.1, h.2.1, h.2.2.1, h.2.2.2, htgt h.1⟩
  induction n with
  | zero => refine ⟨fun s a => ?_, fun s a => ?_, fun s a => ?_, fun s a => ?_⟩ <;> simp [weightedAfter, weightedInit, hB, sq_nonneg]
  | succ n ih =>
    have htgt' : |weightedTarget γ argmax t α Z n| ≤ B := by
      unfold weightedTarget
      refine hT n _ ?_
      rw [not_ite]
      exact abs_ite_zero hB fun _ => (weightedNextQ_gap (c := 0) hN hmax (Z n) _ _ (fun a => ih (fun h => by
        unfold weightedTarget
        refine hT n _ ?_
        rw [not_ite]
        exact abs_ite_zero hB fun _ => (weightedNextQ_gap (c := 0) hN hmax (Z n) _ _ (fun a => h _ a)).1) |>.1 _ a)).1
    obtain ⟨i1, i2, i3, i4⟩ := ih (fun _ => htgt')
    refine ⟨fun s a => ?_, fun s a => ?_, fun s a => ?_, fun s a => ?_⟩
    all_goals obtain ⟨r0, r1⟩ := rates_range (t := t) hα s a n
    · rw [after_Q]; exact move_abs r0 r1 (i1 s a) htgt'
    · rw [after_Q2]
      refine move_abs r0 r1 (i2 s a) ?_
      rw [abs_pow]
      exact pow_le_pow_left₀ (abs_nonneg _) htgt' 2
    · rw [after_w1]
      have := i3 s a
      have := mul_nonneg (by linarith : 0 ≤ 1 - ratesOf s a t α n) this
      linarith
    · rw [after_w2]
      have := i4 s a
      positivity

/-- If the learning rates of a pair have an infinite sum and a bounded sum of squares, the weights of its targets spread out. -/
theorem after_w2_small (hα : ∀ n, 0 ≤ α n ∧ α n ≤ 1) {C : ℝ} (s : S) (a : A) (hC : ∀ M, ∑ k ∈ Finset.range M, ratesOf s a t α k ^ 2 ≤ C)
    (hdiv : Tendsto (fun n => ∑ k ∈ Finset.range n, ratesOf s a t α k) atTop atTop) {ε : ℝ} (hε : 0 < ε) :
    ∀ᶠ n in atTop, (weightedAfter γ argmax t α Z n).w2 s a ≤ ε := by
  have hw0 : ∀ n, 0 ≤ (weightedAfter γ argmax t α Z n).w2 s a := by
    intro n
    induction n with
    | zero => simp [weightedAfter, weightedInit]
    | succ n ih => rw [after_w2]; positivity
  have hsum : Summable (fun k => ratesOf s a t α k ^ 2) := summable_of_sum_range_le (fun k => sq_nonneg _) hC
  set l := ∑' k, ratesOf s a t α k ^ 2 with hl
  set R : ℕ → ℝ := fun n => l - ∑ k ∈ Finset.range n, ratesOf s a t α k ^ 2 with hR
  have hR0 : ∀ n, 0 ≤ R n := fun n => sub_nonneg.2 (hsum.sum_le_tsum _ (fun k _ => sq_nonneg _))
  have hRl : Tendsto R atTop (𝓝 0) := by
    have := hsum.hasSum.tendsto_sum_nat.const_sub l
    rwa [← hl, sub_self] at this
  obtain ⟨n0, hn0⟩ := eventually_atTop.1 (hRl.eventually (gt_mem_nhds (by positivity : (0 : ℝ) < ε / 2)))
  have := average_below (a := fun n => ratesOf s a t α n) (v := fun n => (weightedAfter γ argmax t α Z n).w2 s a + R n) (c := ε / 2)
    (fun n => (rates_range hα s a n).1) (fun n => (rates_range hα s a n).2) hdiv n0 (fun n hn => ?_) (by positivity : (0 : ℝ) < ε / 2)
  · filter_upwards [this] with n hn
    linarith [hR0 n]
  · obtain ⟨r0, r1⟩ := rates_range (t := t) hα s a n
    have h1 : R (n + 1) = R n - ratesOf s a t α n ^ 2 := by simp only [hR, Finset.sum_range_succ]; ring
    rw [after_w2, h1]
    have h2 := hn0 n hn
    have h3 := hw0 n
    set β := ratesOf s a t α n
    have h4 : (1 - β) ^ 2 * (weightedAfter γ argmax t α Z n).w2 s a ≤ (1 - β) * (weightedAfter γ argmax t α Z n).w2 s a := by
      refine mul_le_mul_of_nonneg_right ?_ h3
      nlinarith
    have h5 := mul_le_mul_of_nonneg_left h2.le r0
    nlinarith

/-- From some time on the standard deviation of a pair is the smallest that the agent uses. -/
theorem after_sigma_floor (hN : 0 < N) (hmax : ∀ q, Maximises q (argmax q)) (hα : ∀ n, 0 ≤ α n ∧ α n ≤ 1) (hB : 0 ≤ B)
    (hT : ∀ n x, |x| ≤ B → |(t n).reward + γ * x| ≤ B) {C : ℝ} (s : S) (a : A) (hC : ∀ M, ∑ k ∈ Finset.range M, ratesOf s a t α k ^ 2 ≤ C)
    (hdiv : Tendsto (fun n => ∑ k ∈ Finset.range n, ratesOf s a t α k) atTop atTop) :
    ∀ᶠ n in atTop, (weightedAfter γ argmax t α Z n).sigma s a = 1 / 10 ^ 5 := by
  have hcount : ∀ n, ∑ k ∈ Finset.range n, ratesOf s a t α k ≤ (weightedAfter γ argmax t α Z n).nUpdates s a := by
    intro n
    induction n with
    | zero => simp [weightedAfter, weightedInit]
    | succ n ih =>
      rw [Finset.sum_range_succ, after_nUpdates]
      have : ratesOf s a t α n ≤ if (t n).state = s ∧ (t n).action = a then 1 else 0 := by
        unfold ratesOf; split
        · exact (hα n).2
        · exact le_rfl
      linarith
  filter_upwards [hdiv.eventually (eventually_gt_atTop 1), after_w2_small (γ := γ) (argmax := argmax) (Z := Z) hα s a hC hdiv
    (by positivity : (0 : ℝ) < 1 / 10 ^ 20 / (B ^ 2 + 1))] with n h1 h2
  rw [after_sigma, if_pos (lt_of_lt_of_le h1 (hcount n))]
  obtain ⟨-, b2, b3, b4, -⟩ := after_bounded (γ := γ) (Z := Z) hN hmax hα hB hT n
  unfold sigmaOf
  set g := weightedAfter γ argmax t α Z n
  have hw : g.w2 s a / (g.w1 s a * 2 + 1 / 10 ^ 10) ≤ 1 / 10 ^ 10 / (B ^ 2 + 1) := by
    rw [div_le_iff₀ (by have := b3 s a; positivity)]
    refine h2.trans ?_
    have : 1 / 10 ^ 10 / (B ^ 2 + 1) * (1 / 10 ^ 10) ≤ 1 / 10 ^ 10 / (B ^ 2 + 1) * (g.w1 s a * 2 + 1 / 10 ^ 10) := by
      refine mul_le_mul_of_nonneg_left ?_ (by positivity)
      linarith [b3 s a]
    refine le_trans (le_of_eq ?_) this
    field_simp
  have hw0 : 0 ≤ g.w2 s a / (g.w1 s a * 2 + 1 / 10 ^ 10) := by
    have := b3 s a
    have := b4 s a
    positivity
  have hv : g.Q2 s a - g.Q s a ^ 2 ≤ B ^ 2 + 1 := by
    have := (abs_le.1 (b2 s a)).2
    nlinarith [sq_nonneg (g.Q s a)]
  have hm : (g.Q2 s a - g.Q s a ^ 2) * (g.w2 s a / (g.w1 s a * 2 + 1 / 10 ^ 10)) ≤ 1 / 10 ^ 10 := by
    calc _ ≤ (B ^ 2 + 1) * (1 / 10 ^ 10 / (B ^ 2 + 1)) := mul_le_mul hv hw hw0 (by positivity)
      _ = 1 / 10 ^ 10 := by field_simp
  rw [max_eq_right hm, show (1 : ℝ) / 10 ^ 10 = (1 / 10 ^ 5) ^ 2 by norm_num]
  exact Real.sqrt_sq (by norm_num)

end History

end

end Verif.TD
