/-
Properties C33, C34 and C75: advantage estimation.
-/
import Verif.ValueFn.Spec
import Mathlib.Algebra.BigOperators.Ring.Finset
import Mathlib.Algebra.Order.BigOperators.Group.Finset
import Mathlib.Tactic.Ring
import Mathlib.Tactic.Linarith
import Mathlib.Tactic.NormNum

namespace Verif.ValueFn

noncomputable section

theorem put_same (g : ℕ → ℝ) (k : ℕ) (x : ℝ) : put g k x k = x := by simp [put]

theorem put_other (g : ℕ → ℝ) {k i : ℕ} (x : ℝ) (h : i ≠ k) : put g k x i = g i := by simp [put, h]

/-- One round of the loop writes only its own cell. -/
theorem gaeStep_other (d : Data) (γ lam : ℝ) (n : ℕ) (g : ℕ → ℝ) (revK i : ℕ) (h : i ≠ n - revK - 1) :
    gaeStep d γ lam n g revK i = g i := by
  unfold gaeStep
  dsimp only
  split
  · split
    · rw [put_other _ _ h, put_other _ _ h]
    · rw [put_other _ _ h]
  · rw [put_other _ _ h]

/-- The first `m` rounds write only the last `m` cells. -/
theorem gaeRounds_other (d : Data) (γ lam : ℝ) (n : ℕ) (g0 : ℕ → ℝ) (m i : ℕ) (hm : m ≤ n) (h : i < n - m) :
    (List.range m).foldl (gaeStep d γ lam n) g0 i = g0 i := by
  induction m with
  | zero => rfl
  | succ m ih =>
      rw [List.range_succ, List.foldl_append, List.foldl_cons, List.foldl_nil,
        gaeStep_other _ _ _ _ _ _ _ (by omega), ih (by omega) (by omega)]

/-- Later rounds leave a cell as the round of the cell wrote it. -/
theorem gaeRounds_keep (d : Data) (γ lam : ℝ) (n : ℕ) (g0 : ℕ → ℝ) (j m i : ℕ) (hm : j + m ≤ n) (h : n - j ≤ i) :
    (List.range (j + m)).foldl (gaeStep d γ lam n) g0 i = (List.range j).foldl (gaeStep d γ lam n) g0 i := by
  induction m with
  | zero => rfl
  | succ m ih =>
      rw [← Nat.add_assoc, List.range_succ, List.foldl_append, List.foldl_cons, List.foldl_nil,
        gaeStep_other _ _ _ _ _ _ _ (by omega), ih (by omega)]

/-- The recursion satisfied by the array that the loop computes. -/
theorem gaeLoop_eq (d : Data) (γ lam : ℝ) (n : ℕ) (g0 : ℕ → ℝ) (k : ℕ) (hk : k < n) :
    gaeLoop d γ lam n g0 k =
      if d.last k = true ∨ k + 1 = n then tdError d γ k
      else d.r k + γ * d.vNext k - d.v k + γ * lam * gaeLoop d γ lam n g0 (k + 1) := by
  have hround : ∀ i, n - (n - k) ≤ i → gaeLoop d γ lam n g0 i =
      (List.range (n - k)).foldl (gaeStep d γ lam n) g0 i := by
    intro i hi
    have := gaeRounds_keep d γ lam n g0 (n - k) k i (by omega) hi
    rwa [Nat.sub_add_cancel (by omega)] at this
  rw [hround k (by omega)]
  have hnk : n - k = (n - k - 1) + 1 := by omega
  rw [hnk, List.range_succ, List.foldl_append, List.foldl_cons, List.foldl_nil]
  have hidx : n - (n - k - 1) - 1 = k := by omega
  unfold gaeStep
  simp only [hidx]
  have hz : n - k - 1 = 0 ↔ k + 1 = n := by omega
  by_cases hc : d.last k = true ∨ k + 1 = n
  · rw [if_pos (by rwa [hz]), if_pos hc]
    by_cases ha : d.absorbing k = true
    · simp [ha, put_same, tdError, future]
    · simp only [Bool.not_eq_true] at ha
      simp only [ha, put_same, if_true, tdError, future]
      simp; ring
  · rw [if_neg (by rwa [hz]), if_neg hc, put_same, hround (k + 1) (by omega), hnk]
    have hne : ¬ k + 1 = n := fun h => hc (Or.inr h)
    congr 2
    conv_rhs => rw [List.range_succ, List.foldl_append, List.foldl_cons, List.foldl_nil]
    exact (gaeStep_other _ _ _ _ _ _ _ (by omega)).symm

theorem generalizedAdvantage_end (d : Data) (γ lam : ℝ) (e : ℕ) :
    generalizedAdvantage d γ lam e e = tdError d γ e := by
  simp [generalizedAdvantage]

theorem generalizedAdvantage_step (d : Data) (γ lam : ℝ) {t e : ℕ} (h : t < e) :
    generalizedAdvantage d γ lam t e = tdError d γ t + γ * lam * generalizedAdvantage d γ lam (t + 1) e := by
  unfold generalizedAdvantage
  have : e - t + 1 = (e - (t + 1) + 1) + 1 := by omega
  rw [this, Finset.sum_range_succ', Finset.mul_sum, add_comm]
  congr 1
  · simp
  · apply Finset.sum_congr rfl
    intro k _
    rw [pow_succ, show t + (k + 1) = t + 1 + k by omega]
    ring

/-- C33. The advantage that `compute_gae` returns for a step is the sum, over the steps from it to the end of its own
trajectory, of the temporal-difference errors weighted by the powers of `γ λ`. The returned value target is the advantage
plus the predicted value. The content of the uninitialised array does not matter. -/
theorem C33_gae (d : Data) (γ lam : ℝ) (n : ℕ) (g0 : ℕ → ℝ) (hd : AbsorbingIsLast d) (t e : ℕ)
    (h : EndsAt d n t e) :
    (computeGae d γ lam n g0).2 t = generalizedAdvantage d γ lam t e ∧
    (computeGae d γ lam n g0).1 t = generalizedAdvantage d γ lam t e + d.v t := by
  have key : gaeLoop d γ lam n g0 t = generalizedAdvantage d γ lam t e := by
    obtain ⟨hle, hin, hend, hfirst⟩ := h
    obtain ⟨m, rfl⟩ := Nat.exists_eq_add_of_le hle
    induction m generalizing t with
    | zero =>
        rw [gaeLoop_eq d γ lam n g0 t hin, if_pos (by simpa using hend)]
        exact (generalizedAdvantage_end d γ lam t).symm
    | succ m ih =>
        have hl : d.last t = false := hfirst t (le_refl _) (by omega)
        have ha : d.absorbing t = false := by
          rcases Bool.eq_false_or_eq_true (d.absorbing t) with ha | ha
          · rw [hd t ha] at hl; cases hl
          · exact ha
        rw [gaeLoop_eq d γ lam n g0 t (by omega), if_neg (by simp [hl]; omega),
          generalizedAdvantage_step d γ lam (by omega)]
        have heq : t + (m + 1) = t + 1 + m := by omega
        rw [heq] at hin hend hfirst ⊢
        rw [ih (t + 1) (by omega) hin hend (fun i hi hi' => hfirst i (by omega) hi')]
        simp [tdError, future, ha]
  exact ⟨key, by simp [computeGae, key]⟩

/-- C33. Every step of a dataset belongs to a trajectory, so the previous theorem covers every returned entry. -/
theorem C33_every_step (d : Data) (n t : ℕ) (ht : t < n) : ∃ e, EndsAt d n t e := by
  obtain ⟨m, hm⟩ : ∃ m, n = t + 1 + m := ⟨n - t - 1, by omega⟩
  induction m generalizing t with
  | zero => exact ⟨t, le_refl _, ht, Or.inr (by omega), fun i h1 h2 => by omega⟩
  | succ m ih =>
      rcases Bool.eq_false_or_eq_true (d.last t) with hl | hl
      · exact ⟨t, le_refl _, ht, Or.inl hl, fun i h1 h2 => by omega⟩
      · obtain ⟨e, h1, h2, h3, h4⟩ := ih (t + 1) (by omega) (by omega)
        refine ⟨e, by omega, h2, h3, fun i hi hi' => ?_⟩
        rcases Nat.eq_or_lt_of_le hi with rfl | hlt
        · exact hl
        · exact h4 i hlt hi'

/-- C33. The advantages of a trajectory depend on that trajectory only: two datasets that agree on the steps from `t` to
the end of its trajectory give the same advantage at `t`, whatever their other trajectories and their lengths are. -/
theorem C33_independent (d d' : Data) (γ lam : ℝ) (n n' : ℕ) (g0 g0' : ℕ → ℝ) (hd : AbsorbingIsLast d)
    (hd' : AbsorbingIsLast d') (t t' e e' : ℕ) (h : EndsAt d n t e) (h' : EndsAt d' n' t' e') (hlen : e - t = e' - t')
    (hsame : ∀ k, t + k ≤ e → d.r (t + k) = d'.r (t' + k) ∧ d.v (t + k) = d'.v (t' + k) ∧
      d.vNext (t + k) = d'.vNext (t' + k) ∧ d.absorbing (t + k) = d'.absorbing (t' + k)) :
    (computeGae d γ lam n g0).2 t = (computeGae d' γ lam n' g0').2 t' := by
  rw [(C33_gae d γ lam n g0 hd t e h).1, (C33_gae d' γ lam n' g0' hd' t' e' h').1]
  unfold generalizedAdvantage
  rw [← hlen]
  apply Finset.sum_congr rfl
  intro k hk
  have hk' := Finset.mem_range.mp hk
  obtain ⟨h1, h2, h3, h4⟩ := hsame k (by have := h.le; omega)
  simp [tdError, future, h1, h2, h3, h4]

/-- C33. With `λ = 0` the advantage is the one-step temporal-difference error, as in `compute_advantage`. -/
theorem C33_lambda_zero (d : Data) (γ : ℝ) (n : ℕ) (g0 : ℕ → ℝ) (hd : AbsorbingIsLast d) (t : ℕ) (ht : t < n) :
    (computeGae d γ 0 n g0).2 t = tdError d γ t ∧ (computeAdvantage d γ).2 t = tdError d γ t ∧
    (computeAdvantage d γ).1 t = d.r t + γ * future d t := by
  obtain ⟨e, h⟩ := C33_every_step d n t ht
  refine ⟨?_, ?_, ?_⟩
  · rw [(C33_gae d γ 0 n g0 hd t e h).1]
    unfold generalizedAdvantage
    rw [Finset.sum_range_succ']
    simp
  · simp only [computeAdvantage, tdError, future, notInt]
    split <;> simp
  · simp only [computeAdvantage, future, notInt]
    split <;> simp

/-- C33 needs absorbing states to be flagged as last: otherwise the value after an absorbing state is counted. -/
theorem C33_needs_last : ∃ (d : Data) (γ lam : ℝ) (n : ℕ) (g0 : ℕ → ℝ) (t e : ℕ), EndsAt d n t e ∧
    (computeGae d γ lam n g0).2 t ≠ generalizedAdvantage d γ lam t e := by
  refine ⟨⟨fun _ => 0, fun _ => 0, fun _ => 1, fun i => i == 0, fun _ => false⟩, 1, 0, 2, fun _ => 0, 0, 1,
    ⟨by omega, by omega, Or.inr (by omega), fun _ _ _ => rfl⟩, ?_⟩
  have : (computeGae ⟨fun _ => 0, fun _ => 0, fun _ => 1, fun i => i == 0, fun _ => false⟩ 1 0 2 (fun _ => 0)).2 0
      = 1 := by
    simp [computeGae, gaeLoop, gaeStep, put, List.range_succ]
  rw [this]
  simp [generalizedAdvantage, Finset.sum_range_succ, tdError, future]

/-- A dataset with a truncated trajectory of two steps, an absorbing one of two steps and an unfinished one. -/
def demo : Data where
  r := fun i => i + 1
  v := fun i => 2 * i
  vNext := fun i => 2 * i + 2
  absorbing := fun i => i == 3
  last := fun i => i == 1 || i == 3

example : AbsorbingIsLast demo := by
  intro i h; simp only [demo] at *; simp [h]
example : EndsAt demo 5 0 1 :=
  ⟨by omega, by omega, Or.inl rfl, fun i _ h => by obtain rfl : i = 0 := by omega
                                                   rfl⟩
example : EndsAt demo 5 2 3 :=
  ⟨by omega, by omega, Or.inl rfl, fun i h h' => by obtain rfl : i = 2 := by omega
                                                    rfl⟩
example : EndsAt demo 5 4 4 := ⟨by omega, by omega, Or.inr rfl, fun i h h' => by omega⟩

/-! ### C75: returns -/

theorem bootstrappedReturn_step (d : Data) (γ : ℝ) {t e : ℕ} (h : t < e) :
    bootstrappedReturn d γ t e = d.r t + γ * bootstrappedReturn d γ (t + 1) e := by
  unfold bootstrappedReturn
  have : e - t + 1 = (e - (t + 1) + 1) + 1 := by omega
  rw [this, Finset.sum_range_succ', mul_add, Finset.mul_sum]
  have h1 : ∑ k ∈ Finset.range (e - (t + 1) + 1), γ ^ (k + 1) * d.r (t + (k + 1)) =
      ∑ k ∈ Finset.range (e - (t + 1) + 1), γ * (γ ^ k * d.r (t + 1 + k)) := by
    apply Finset.sum_congr rfl
    intro k _
    rw [pow_succ, show t + (k + 1) = t + 1 + k by omega]
    ring
  rw [h1, pow_succ γ (e - (t + 1) + 1)]
  simp
  ring

/-- C75. With `λ = 1` the value target of `compute_gae` is the discounted return of the trajectory from the step on,
completed with the predicted value of the final state when it is not absorbing. -/
theorem C75_lambda_one (d : Data) (γ : ℝ) (n : ℕ) (g0 : ℕ → ℝ) (hd : AbsorbingIsLast d) (t e : ℕ)
    (h : EndsAt d n t e) (hc : Chained d t e) :
    (computeGae d γ 1 n g0).1 t = bootstrappedReturn d γ t e ∧
    (computeGae d γ 1 n g0).2 t = bootstrappedReturn d γ t e - d.v t := by
  have key : generalizedAdvantage d γ 1 t e = bootstrappedReturn d γ t e - d.v t := by
    obtain ⟨hle, hin, hend, hfirst⟩ := h
    obtain ⟨m, rfl⟩ := Nat.exists_eq_add_of_le hle
    clear hin hend hle
    induction m generalizing t with
    | zero =>
        simp [generalizedAdvantage, tdError, bootstrappedReturn]
    | succ m ih =>
        have hl : d.last t = false := hfirst t (le_refl _) (by omega)
        have ha : d.absorbing t = false := by
          rcases Bool.eq_false_or_eq_true (d.absorbing t) with ha | ha
          · rw [hd t ha] at hl; cases hl
          · exact ha
        rw [generalizedAdvantage_step d γ 1 (by omega), bootstrappedReturn_step d γ (by omega)]
        have heq : t + (m + 1) = t + 1 + m := by omega
        have hv := hc t (le_refl _) (by omega)
        rw [heq] at hfirst hc ⊢
        rw [ih (t + 1) (fun i hi hi' => hc i (by omega) hi') (fun i hi hi' => hfirst i (by omega) hi')]
        simp only [tdError, future, ha, hv]
        simp; ring
  obtain ⟨h1, h2⟩ := C33_gae d γ 1 n g0 hd t e h
  rw [h1, h2, key]
  exact ⟨by ring, rfl⟩

theorem nStepReturn_zero (d : Data) (γ : ℝ) (t : ℕ) : nStepReturn d γ t 0 = d.r t + γ * future d t := by
  simp [nStepReturn, bootstrappedReturn]

theorem nStepReturn_succ (d : Data) (γ : ℝ) (t m : ℕ) :
    nStepReturn d γ t (m + 1) = d.r t + γ * nStepReturn d γ (t + 1) m := by
  unfold nStepReturn
  rw [bootstrappedReturn_step d γ (by omega), show t + (m + 1) = t + 1 + m by omega]

/-- C75. For every `λ` the value target of `compute_gae` is the `λ`-return: the average of the returns of `1, 2, ...`
steps with weights `(1 - λ) λ^m`, in which the return of the whole rest of the trajectory takes the remaining weight. -/
theorem C75_lambda_return (d : Data) (γ lam : ℝ) (n : ℕ) (g0 : ℕ → ℝ) (hd : AbsorbingIsLast d) (t e : ℕ)
    (h : EndsAt d n t e) (hc : Chained d t e) :
    (computeGae d γ lam n g0).1 t =
      (∑ m ∈ Finset.range (e - t), (1 - lam) * lam ^ m * nStepReturn d γ t m) +
        lam ^ (e - t) * nStepReturn d γ t (e - t) := by
  have key : generalizedAdvantage d γ lam t e + d.v t =
      (∑ m ∈ Finset.range (e - t), (1 - lam) * lam ^ m * nStepReturn d γ t m) +
        lam ^ (e - t) * nStepReturn d γ t (e - t) := by
    obtain ⟨hle, hin, hend, hfirst⟩ := h
    obtain ⟨m, rfl⟩ := Nat.exists_eq_add_of_le hle
    clear hin hend hle
    induction m generalizing t with
    | zero =>
        simp [generalizedAdvantage, tdError, nStepReturn, bootstrappedReturn]
    | succ m ih =>
        have hl : d.last t = false := hfirst t (le_refl _) (by omega)
        have ha : d.absorbing t = false := by
          rcases Bool.eq_false_or_eq_true (d.absorbing t) with ha | ha
          · rw [hd t ha] at hl; cases hl
          · exact ha
        rw [generalizedAdvantage_step d γ lam (by omega)]
        have heq : t + (m + 1) = t + 1 + m := by omega
        have hv := hc t (le_refl _) (by omega)
        have hlen : t + (m + 1) - t = m + 1 := by omega
        rw [hlen, Finset.sum_range_succ', nStepReturn_succ, nStepReturn_zero]
        rw [heq] at hfirst hc ⊢
        have := ih (t + 1) (fun i hi hi' => hc i (by omega) hi') (fun i hi hi' => hfirst i (by omega) hi')
        rw [show t + 1 + m - (t + 1) = m by omega] at this
        have hG : generalizedAdvantage d γ lam (t + 1) (t + 1 + m) =
            (∑ k ∈ Finset.range m, (1 - lam) * lam ^ k * nStepReturn d γ (t + 1) k) +
              lam ^ m * nStepReturn d γ (t + 1) m - d.v (t + 1) := by linarith
        rw [hG]
        have hsum : ∑ k ∈ Finset.range m, (1 - lam) * lam ^ (k + 1) * nStepReturn d γ t (k + 1) =
            (∑ k ∈ Finset.range m, (1 - lam) * lam ^ (k + 1)) * d.r t +
            γ * lam * ∑ k ∈ Finset.range m, (1 - lam) * lam ^ k * nStepReturn d γ (t + 1) k := by
          rw [Finset.sum_mul, Finset.mul_sum, ← Finset.sum_add_distrib]
          apply Finset.sum_congr rfl
          intro k _
          rw [nStepReturn_succ]; ring
        have hgeo : ∀ m : ℕ, ∑ k ∈ Finset.range m, (1 - lam) * lam ^ (k + 1) = lam - lam ^ (m + 1) := by
          intro m
          induction m with
          | zero => simp
          | succ m ih' => rw [Finset.sum_range_succ, ih']; ring
        rw [hsum, hgeo]
        simp only [tdError, future, ha, hv]
        simp; ring
  rw [(C33_gae d γ lam n g0 hd t e h).2, key]

example : Chained demo 0 1 ∧ Chained demo 2 3 := by
  constructor <;> intro i _ _ <;> simp only [demo] <;> push_cast <;> ring

/-! ### C34 -/

/-- The value written by the loop of `compute_advantage_montecarlo` and kept in `q_next`. -/
theorem mcRounds (d : Data) (γ : ℝ) (n m : ℕ) (q0 : (ℕ → ℝ) × ℝ) (hm : m ≤ n) :
    ((∀ i, n - m ≤ i → i + 1 < n → ((List.range m).foldl (mcStep d γ n) q0).1 i =
        d.r i + γ * ((List.range m).foldl (mcStep d γ n) q0).1 (i + 1) * notInt (d.absorbing i)) ∧
     (0 < m → ((List.range m).foldl (mcStep d γ n) q0).1 (n - 1) =
        d.r (n - 1) + γ * q0.2 * notInt (d.absorbing (n - 1)))) ∧
    ((List.range m).foldl (mcStep d γ n) q0).2 =
      (if m = 0 then q0.2 else ((List.range m).foldl (mcStep d γ n) q0).1 (n - m)) := by
  induction m with
  | zero => simp; intro i h1 h2; omega
  | succ m ih =>
      obtain ⟨⟨h1, h2⟩, h3⟩ := ih (by omega)
      rw [List.range_succ, List.foldl_append, List.foldl_cons, List.foldl_nil]
      set g := (List.range m).foldl (mcStep d γ n) q0
      have hidx : n - m - 1 = n - (m + 1) := by omega
      refine ⟨⟨?_, ?_⟩, ?_⟩
      · intro i hi hi'
        simp only [mcStep]
        by_cases hik : i = n - m - 1
        · have hm0 : m ≠ 0 := by omega
          rw [hik, put_same, put_other _ _ (by omega), h3, if_neg hm0]
          rw [show n - m - 1 + 1 = n - m by omega]
        · rw [put_other _ _ hik, put_other _ _ (by omega)]
          exact h1 i (by omega) hi'
      · intro _
        simp only [mcStep]
        by_cases hm0 : m = 0
        · subst hm0
          rw [if_pos rfl] at h3
          simp only [Nat.sub_zero, put_same, h3]
        · rw [put_other _ _ (by omega)]
          exact h2 (by omega)
      · simp only [mcStep, hidx, put_same]
        simp

theorem mc_eq (d : Data) (γ : ℝ) (n k : ℕ) (hk : k < n) :
    (computeAdvantageMontecarlo d γ n).1 k =
      d.r k + γ * (if k + 1 = n then d.vNext k else (computeAdvantageMontecarlo d γ n).1 (k + 1)) *
        notInt (d.absorbing k) := by
  obtain ⟨⟨h1, h2⟩, -⟩ := mcRounds d γ n n (fun _ => 0, d.vNext (n - 1)) (le_refl _)
  by_cases hkn : k + 1 = n
  · rw [if_pos hkn]
    have hk' : k = n - 1 := by omega
    rw [hk']
    exact h2 (by omega)
  · rw [if_neg hkn]
    exact h1 k (by omega) (by omega)

/-- C34 (partial). When every trajectory that ends before the end of the dataset ends in an absorbing state, the value
target of `compute_advantage_montecarlo` at a step is the discounted return from it to the end of its own trajectory,
completed with the predicted value of the final state when that is not absorbing; the advantage is the target minus the
predicted value of the state. Missing: trajectories that are ended by the horizon inside of the dataset. -/
theorem C34_montecarlo_partial (d : Data) (γ : ℝ) (n : ℕ) (hd : AbsorbingIsLast d) (t e : ℕ) (h : EndsAt d n t e)
    (habs : e + 1 < n → d.absorbing e = true) :
    (computeAdvantageMontecarlo d γ n).1 t = bootstrappedReturn d γ t e ∧
    (computeAdvantageMontecarlo d γ n).2 t = bootstrappedReturn d γ t e - d.v t := by
  have key : (computeAdvantageMontecarlo d γ n).1 t = bootstrappedReturn d γ t e := by
    obtain ⟨hle, hin, hend, hfirst⟩ := h
    obtain ⟨m, rfl⟩ := Nat.exists_eq_add_of_le hle
    clear hle
    induction m generalizing t with
    | zero =>
        rw [mc_eq d γ n t hin]
        simp only [Nat.add_zero] at *
        by_cases hn : t + 1 = n
        · rw [if_pos hn]
          simp only [bootstrappedReturn, future, notInt]
          split <;> simp
        · simp only [bootstrappedReturn, future, notInt, habs (by omega)]
          simp
    | succ m ih =>
        have hl : d.last t = false := hfirst t (le_refl _) (by omega)
        have ha : d.absorbing t = false := by
          rcases Bool.eq_false_or_eq_true (d.absorbing t) with ha | ha
          · rw [hd t ha] at hl; cases hl
          · exact ha
        rw [mc_eq d γ n t (by omega), if_neg (by omega), bootstrappedReturn_step d γ (by omega)]
        have heq : t + (m + 1) = t + 1 + m := by omega
        rw [heq] at hin hend hfirst habs ⊢
        rw [ih (t + 1) habs hin hend (fun i hi hi' => hfirst i (by omega) hi')]
        simp [notInt, ha]
  exact ⟨key, by rw [← key]; rfl⟩

/-- C34 is violated: after a trajectory that is ended by the horizon the return of the next trajectory is added. Here the
first of two one-step trajectories is truncated; its target changes with the reward of the second one. -/
theorem C34_montecarlo_refuted : ∃ (d d' : Data) (γ : ℝ) (n t e : ℕ), AbsorbingIsLast d ∧ AbsorbingIsLast d' ∧
    EndsAt d n t e ∧ EndsAt d' n t e ∧
    (∀ i, t ≤ i → i ≤ e → d.r i = d'.r i ∧ d.v i = d'.v i ∧ d.vNext i = d'.vNext i ∧ d.absorbing i = d'.absorbing i) ∧
    (computeAdvantageMontecarlo d γ n).2 t ≠ (computeAdvantageMontecarlo d' γ n).2 t := by
  refine ⟨⟨fun i => if i = 1 then 1 else 0, fun _ => 0, fun _ => 0, fun i => i == 1, fun _ => true⟩,
    ⟨fun i => if i = 1 then 5 else 0, fun _ => 0, fun _ => 0, fun i => i == 1, fun _ => true⟩, 1, 2, 0, 0,
    fun _ _ => rfl, fun _ _ => rfl, ⟨by omega, by omega, Or.inl rfl, fun i h h' => by omega⟩,
    ⟨by omega, by omega, Or.inl rfl, fun i h h' => by omega⟩, ?_, ?_⟩
  · intro i h h'
    obtain rfl : i = 0 := by omega
    simp
  · simp [computeAdvantageMontecarlo, List.range_succ, mcStep, put, notInt]

/-- The exact meaning of the Monte-Carlo targets: trajectories are only told apart by absorbing states. -/
theorem C34_montecarlo_actual (d : Data) (γ : ℝ) (n t e : ℕ) (hle : t ≤ e) (hin : e < n)
    (hend : d.absorbing e = true ∨ e + 1 = n) (hfirst : ∀ i, t ≤ i → i < e → d.absorbing i = false) :
    (computeAdvantageMontecarlo d γ n).1 t = bootstrappedReturn d γ t e := by
  have := C34_montecarlo_partial { d with last := d.absorbing } γ n (fun _ h => h) t e ⟨hle, hin, hend, hfirst⟩
    (fun h => by rcases hend with h' | h' <;> [exact h'; omega])
  exact this.1

example : AbsorbingIsLast { demo with last := fun i => i == 3 } := fun _ h => h
example : EndsAt { demo with last := fun i => i == 3 } 5 0 3 ∧ demo.absorbing 3 = true := by
  refine ⟨⟨by omega, by omega, Or.inl rfl, fun i h h' => ?_⟩, rfl⟩
  simp only [beq_eq_false_iff_ne]
  omega

end

end Verif.ValueFn
