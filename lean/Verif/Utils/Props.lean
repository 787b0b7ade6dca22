/-
Properties C38, C39 and C80: angles, minibatches, numerical gradients.
-/
import Verif.Utils.Spec
import Mathlib.Algebra.Order.Floor.Semiring
import Mathlib.Data.List.Perm.Basic
import Mathlib.Tactic.Ring
import Mathlib.Tactic.Linarith
import Mathlib.Tactic.FieldSimp
import Mathlib.Tactic.NormNum
import Mathlib.Tactic.Positivity

namespace Verif.Utils

noncomputable section

open Real

/-! ### C38 -/

theorem fmod_same (x y : ℝ) : ∃ k : ℤ, fmod x y = x + k * y :=
  ⟨-trunc (x / y), by unfold fmod; push_cast; ring⟩

theorem fmod_nonneg {x y : ℝ} (hy : 0 < y) (hx : 0 ≤ x) : 0 ≤ fmod x y ∧ fmod x y < y := by
  unfold fmod trunc
  rw [if_pos (by positivity)]
  have h1 := Int.floor_le (x / y)
  have h2 := Int.lt_floor_add_one (x / y)
  rw [le_div_iff₀ hy] at h1
  rw [div_lt_iff₀ hy] at h2
  constructor
  · linarith
  · linarith

theorem fmod_neg {x y : ℝ} (hy : 0 < y) (hx : x < 0) : -y < fmod x y ∧ fmod x y ≤ 0 := by
  unfold fmod trunc
  rw [if_neg (by rw [not_le]; exact div_neg_of_neg_of_pos hx hy)]
  have h1 := Int.le_ceil (x / y)
  have h2 := Int.ceil_lt_add_one (x / y)
  rw [div_le_iff₀ hy] at h1
  rw [← sub_lt_iff_lt_add, lt_div_iff₀ hy] at h2
  constructor
  · linarith
  · linarith

theorem fmod_gt {x y : ℝ} (hy : 0 < y) : -y < fmod x y := by
  rcases le_or_gt 0 x with h | h
  · linarith [(fmod_nonneg hy h).1]
  · exact (fmod_neg hy h).1

/-- C38. `normalize_angle_positive` returns the angle in `[0, 2π)` that describes the same rotation. -/
theorem C38_positive (a : ℝ) : SameRotation (normalizeAnglePositive a) a ∧ 0 ≤ normalizeAnglePositive a ∧
    normalizeAnglePositive a < 2 * π := by
  have hpi : 0 < 2 * π := by positivity
  obtain ⟨k, hk⟩ := fmod_same a (2 * π)
  obtain ⟨k', hk'⟩ := fmod_same (fmod a (2 * π) + 2 * π) (2 * π)
  refine ⟨⟨k + 1 + k', ?_⟩, ?_⟩
  · unfold normalizeAnglePositive
    rw [hk', hk]; push_cast; ring
  · exact fmod_nonneg hpi (by linarith [fmod_gt (x := a) hpi])

/-- C38. `normalize_angle` returns the angle in `(-π, π]` that describes the same rotation. -/
theorem C38_normalize (a : ℝ) : SameRotation (normalizeAngle a) a ∧ -π < normalizeAngle a ∧ normalizeAngle a ≤ π := by
  obtain ⟨⟨k, hk⟩, h1, h2⟩ := C38_positive a
  unfold normalizeAngle
  simp only
  split
  · exact ⟨⟨k - 1, by rw [hk]; push_cast; ring⟩, by linarith, by linarith⟩
  · have := pi_pos
    exact ⟨⟨k, hk⟩, by linarith, by linarith⟩

/-- C38. There is only one such angle, so `normalize_angle` is determined by its range, depends only on the rotation, and
applying it twice is applying it once. -/
theorem C38_unique (a b : ℝ) (hs : SameRotation b a) (h1 : -π < b) (h2 : b ≤ π) : normalizeAngle a = b := by
  obtain ⟨⟨k, hk⟩, h3, h4⟩ := C38_normalize a
  obtain ⟨k', hk'⟩ := hs
  have hpi := pi_pos
  have hdiff : normalizeAngle a - b = ((k - k' : ℤ) : ℝ) * (2 * π) := by rw [hk, hk']; push_cast; ring
  have hlt : ((k - k' : ℤ) : ℝ) < 1 := by
    by_contra h
    rw [not_lt] at h
    nlinarith
  have hgt : (-1 : ℝ) < ((k - k' : ℤ) : ℝ) := by
    by_contra h
    rw [not_lt] at h
    nlinarith
  have h0 : k - k' = 0 := by
    have a1 : k - k' < 1 := by exact_mod_cast hlt
    have a2 : -1 < k - k' := by exact_mod_cast hgt
    omega
  rw [h0] at hdiff
  simp at hdiff
  linarith

theorem C38_idempotent (a : ℝ) : normalizeAngle (normalizeAngle a) = normalizeAngle a := by
  obtain ⟨_, h1, h2⟩ := C38_normalize a
  exact C38_unique _ _ ⟨0, by simp⟩ h1 h2

/-- C38. The shortest angular distance leads from the first angle to the second, lies in `(-π, π]`, and no other rotation
between them is shorter. -/
theorem C38_shortest (a b : ℝ) : SameRotation (a + shortestAngularDistance a b) b ∧
    -π < shortestAngularDistance a b ∧ shortestAngularDistance a b ≤ π ∧
    ∀ d, SameRotation (a + d) b → |shortestAngularDistance a b| ≤ |d| := by
  obtain ⟨⟨k, hk⟩, h1, h2⟩ := C38_normalize (b - a)
  refine ⟨⟨k, by unfold shortestAngularDistance; rw [hk]; ring⟩, h1, h2, ?_⟩
  rintro d ⟨k', hk'⟩
  unfold shortestAngularDistance
  have hpi := pi_pos
  set s := normalizeAngle (b - a)
  have hd : d = s + ((k' - k : ℤ) : ℝ) * (2 * π) := by rw [hk]; push_cast; linarith
  by_cases h0 : k' - k = 0
  · rw [hd, h0]; simp
  · have hs : |s| ≤ π := abs_le.mpr ⟨by linarith, h2⟩
    have hm : (1 : ℝ) ≤ |((k' - k : ℤ) : ℝ)| := by
      have : (1 : ℤ) ≤ |k' - k| := Int.one_le_abs h0
      exact_mod_cast this
    have h3 : |((k' - k : ℤ) : ℝ) * (2 * π)| ≤ |d| + |s| := by
      have : ((k' - k : ℤ) : ℝ) * (2 * π) = d - s := by rw [hd]; ring
      rw [this]; exact abs_sub _ _
    rw [abs_mul, abs_of_pos (by positivity : (0 : ℝ) < 2 * π)] at h3
    nlinarith

example : SameRotation (-π / 2) (3 * π / 2) ∧ -π < -π / 2 ∧ -π / 2 ≤ π := by
  have := pi_pos
  exact ⟨⟨-1, by push_cast; ring⟩, by linarith, by linarith⟩

/-! ### C39 -/

/-- The number of batches is the quotient rounded up: enough batches, none of them empty. -/
theorem minibatchNumber_spec (size b : ℕ) (hb : 0 < b) :
    size ≤ minibatchNumber size b * b ∧ (∀ i, i < minibatchNumber size b → i * b < size) := by
  have hbr : (0 : ℝ) < b := by exact_mod_cast hb
  constructor
  · have h := Nat.le_ceil ((size : ℝ) / b)
    rw [div_le_iff₀ hbr] at h
    exact_mod_cast h
  · intro i hi
    have h := Nat.lt_ceil.mp hi
    rw [lt_div_iff₀ hbr] at h
    exact_mod_cast h

/-- C39. With `n` samples and batch size `b` there are `⌈n / b⌉` batches. -/
theorem C39_number (size b : ℕ) (hb : 0 < b) : minibatchNumber size b = (size + b - 1) / b := by
  obtain ⟨h1, h2⟩ := minibatchNumber_spec size b hb
  symm
  apply Nat.div_eq_of_lt_le
  · rcases Nat.eq_zero_or_pos (minibatchNumber size b) with h | h
    · rw [h]; omega
    · have h3 := h2 (minibatchNumber size b - 1) (by omega)
      have h4 : minibatchNumber size b * b = (minibatchNumber size b - 1) * b + b := by
        obtain ⟨m, hm⟩ : ∃ m, minibatchNumber size b = m + 1 := ⟨minibatchNumber size b - 1, by omega⟩
        rw [hm]; simp [Nat.succ_mul]
      omega
  · rw [Nat.succ_mul]; omega

theorem concat_chunks {X : Type} (l : List X) (b m : ℕ) :
    ((List.range m).map (fun i => (l.take ((i + 1) * b)).drop (i * b))).flatten = l.take (m * b) := by
  induction m with
  | zero => simp
  | succ m ih =>
      rw [List.range_succ, List.map_append, List.flatten_append, ih]
      simp only [List.map_cons, List.map_nil, List.flatten_cons, List.flatten_nil, List.append_nil]
      have hle : m * b ≤ (m + 1) * b := Nat.mul_le_mul_right b (by omega)
      conv_rhs => rw [← List.take_append_drop (m * b) (l.take ((m + 1) * b))]
      rw [List.take_take, Nat.min_eq_left hle]

/-- C39. In one pass the batches contain every sample index exactly once; in the order of the shuffled indexes. -/
theorem C39_partition (size b : ℕ) (hb : 0 < b) (indexes : List ℕ) (hperm : indexes.Perm (List.range size)) :
    (batchIndexes size b indexes).flatten = indexes ∧
    ∀ j, (batchIndexes size b indexes).flatten.count j = if j < size then 1 else 0 := by
  have hlen : indexes.length = size := by rw [hperm.length_eq, List.length_range]
  obtain ⟨h1, h2⟩ := minibatchNumber_spec size b hb
  have hflat : (batchIndexes size b indexes).flatten = indexes := by
    have : batchIndexes size b indexes =
        (List.range (minibatchNumber size b)).map (fun i => (indexes.take ((i + 1) * b)).drop (i * b)) := by
      unfold batchIndexes
      apply List.map_congr_left
      intro i _
      congr 1
      rcases Nat.le_total size ((i + 1) * b) with h | h
      · rw [Nat.min_eq_left h, List.take_of_length_le (by omega), List.take_of_length_le (by omega)]
      · rw [Nat.min_eq_right h]
    rw [this, concat_chunks, List.take_of_length_le (by omega)]
  refine ⟨hflat, fun j => ?_⟩
  rw [hflat, hperm.count_eq]
  split
  · rename_i h
    exact List.count_eq_one_of_mem List.nodup_range (List.mem_range.mpr h)
  · rename_i h
    exact List.count_eq_zero_of_not_mem (fun hm => h (List.mem_range.mp hm))

/-- C39. All batches have the requested size, except that the last one may be smaller; no batch is empty. -/
theorem C39_sizes (size b : ℕ) (hb : 0 < b) (indexes : List ℕ) (hperm : indexes.Perm (List.range size)) (i : ℕ)
    (hi : i < (batchIndexes size b indexes).length) :
    ((batchIndexes size b indexes)[i]).length = min b (size - i * b) ∧ 0 < ((batchIndexes size b indexes)[i]).length ∧
    (i + 1 < (batchIndexes size b indexes).length → ((batchIndexes size b indexes)[i]).length = b) := by
  have hlen : indexes.length = size := by rw [hperm.length_eq, List.length_range]
  obtain ⟨h1, h2⟩ := minibatchNumber_spec size b hb
  have hn : (batchIndexes size b indexes).length = minibatchNumber size b := by simp [batchIndexes]
  have hL : ((batchIndexes size b indexes)[i]).length = min b (size - i * b) := by
    simp only [batchIndexes, List.getElem_map, List.getElem_range, List.length_drop, List.length_take, hlen,
      Nat.succ_mul]
    omega
  rw [hn] at hi
  have h3 := h2 i hi
  refine ⟨hL, by rw [hL]; omega, ?_⟩
  intro hi'
  rw [hn] at hi'
  have h4 := h2 (i + 1) hi'
  rw [Nat.succ_mul] at h4
  rw [hL]; omega

/-- C39. Every batch selects the same samples from all the arrays of the dataset. -/
theorem C39_aligned {X : Type} [Inhabited X] (b : ℕ) (dataset : List (List X)) (indexes : List ℕ) (i c k : ℕ)
    (hi : i < (minibatchGenerator b dataset indexes).length) (hc : c < dataset.length) :
    ∃ idx, (batchIndexes (dataset.headD []).length b indexes)[i]? = some idx ∧
      ((minibatchGenerator b dataset indexes)[i]).length = dataset.length ∧
      (((minibatchGenerator b dataset indexes)[i]).getD c []).length = idx.length ∧
      (k < idx.length → (((minibatchGenerator b dataset indexes)[i]).getD c []).getD k default =
        (dataset.getD c []).getD (idx.getD k 0) default) := by
  have hi' : i < (batchIndexes (dataset.headD []).length b indexes).length := by
    simpa [minibatchGenerator] using hi
  have hget : (minibatchGenerator b dataset indexes)[i] = dataset.map (fun column =>
      ((batchIndexes (dataset.headD []).length b indexes)[i]).map (fun j => column.getD j default)) := by
    simp [minibatchGenerator]
  refine ⟨_, List.getElem?_eq_getElem hi', ?_⟩
  rw [hget]
  generalize (batchIndexes (dataset.headD []).length b indexes)[i] = idx
  refine ⟨by simp, by simp [List.getD_eq_getElem?_getD, hc], fun hk => ?_⟩
  simp [List.getD_eq_getElem?_getD, hc, List.getElem?_eq_getElem hk]

example : [2, 0, 3, 1, 4].Perm (List.range 5) ∧
    minibatchNumber 5 2 = 3 := by
  refine ⟨by decide, ?_⟩
  rw [C39_number 5 2 (by omega)]

/-! ### C80 -/

/-- C80. The numerical gradient is exact for every function of degree at most two in each component. -/
theorem C80_function {n : ℕ} (f : (Fin n → ℝ) → ℝ) (w : Fin n → ℝ) (eps : ℝ) (heps : eps ≠ 0) (i : Fin n) (d : ℝ)
    (h : QuadraticIn f w i d) : numericalDiffFunction f w eps i = d := by
  obtain ⟨c, q, h⟩ := h
  unfold numericalDiffFunction perturb
  rw [h, h]
  field_simp
  ring

theorem numericalDiff_loop {P : Type} {n : ℕ} (pol : Pol P n) (hp : pol.Lawful) (p : P) (wStart : Fin n → ℝ) (eps : ℝ)
    (is : List (Fin n)) (st : P × (Fin n → ℝ)) (hst : ∃ w, st.1 = pol.set p w) (hnd : is.Nodup) :
    let r := is.foldl (fun (st : P × (Fin n → ℝ)) i =>
      let p := pol.set st.1 (perturb wStart i (-eps))
      let v1 := pol.value p
      let p := pol.set p (perturb wStart i eps)
      let v2 := pol.value p
      (p, fun j => if j = i then (v2 - v1) / (2 * eps) else st.2 j)) st
    (∃ w, r.1 = pol.set p w) ∧ ∀ j, r.2 j = if j ∈ is then
      numericalDiffFunction (fun w => pol.value (pol.set p w)) wStart eps j else st.2 j := by
  induction is generalizing st with
  | nil => simpa using hst
  | cons i is ih =>
      obtain ⟨w0, hw0⟩ := hst
      rw [List.foldl_cons]
      have hnd' := List.nodup_cons.mp hnd
      have := ih (pol.set (pol.set st.1 (perturb wStart i (-eps))) (perturb wStart i eps),
        fun j => if j = i then (pol.value (pol.set (pol.set st.1 (perturb wStart i (-eps))) (perturb wStart i eps)) -
          pol.value (pol.set st.1 (perturb wStart i (-eps)))) / (2 * eps) else st.2 j)
        ⟨perturb wStart i eps, by rw [hp.set_set, hw0, hp.set_set]⟩ hnd'.2
      obtain ⟨h1, h2⟩ := this
      refine ⟨h1, fun j => ?_⟩
      rw [h2 j]
      by_cases hji : j = i
      · subst hji
        rw [if_neg hnd'.1]
        simp only [if_true, List.mem_cons, true_or, numericalDiffFunction]
        rw [hp.set_set, hw0, hp.set_set, hp.set_set]
      · simp [hji]

/-- C80. `numerical_diff_policy` leaves the policy as it was, and it returns the numerical gradient of the policy as a
function of its weights. -/
theorem C80_policy {P : Type} {n : ℕ} (pol : Pol P n) (hp : pol.Lawful) (p : P) (eps : ℝ) :
    (numericalDiffPolicy pol p eps).1 = p ∧
    ∀ i, (numericalDiffPolicy pol p eps).2 i =
      numericalDiffFunction (fun w => pol.value (pol.set p w)) (pol.get p) eps i := by
  obtain ⟨⟨w, hw⟩, h2⟩ := numericalDiff_loop pol hp p (pol.get p) eps (List.finRange n) (p, fun _ => 0)
    ⟨pol.get p, by rw [hp.set_get]⟩ (List.nodup_finRange n)
  constructor
  · unfold numericalDiffPolicy
    simp only
    rw [hw, hp.set_set, hp.set_get]
  · intro i
    have := h2 i
    rw [if_pos (List.mem_finRange i)] at this
    exact this

/-- A policy whose value is the product of its two weights. -/
example : (⟨fun p => p, fun _ w => w, fun p => p 0 * p 1⟩ : Pol (Fin 2 → ℝ) 2).Lawful :=
  ⟨fun _ _ => rfl, fun _ => rfl, fun _ _ _ => rfl⟩
example : QuadraticIn (fun w : Fin 2 → ℝ => w 0 * w 1 + w 0 ^ 2) (fun _ => 1) 0 3 :=
  ⟨2, 1, fun h => by simp; ring⟩

end

end Verif.Utils
