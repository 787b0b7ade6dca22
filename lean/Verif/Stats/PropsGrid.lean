/-
C77: statistics of observations with two axes.
-/
import Verif.Stats.ModelGrid
import Verif.Stats.Props

namespace Verif.Stats

noncomputable section

theorem gridRun_append (alpha : ℝ) (r : ℕ) (xs : List (ℕ → ℕ → ℝ)) (x : ℕ → ℕ → ℝ) (i j : ℕ) :
    gridRun alpha r (xs ++ [x]) i j = (gridRun alpha r xs i j).update alpha ((List.range r).map fun k => x k j) := by
  simp [gridRun, gridUpdate, List.foldl_append]

/-- For observations with two axes the statistics of a component are those of its whole column: the rows of every observation count as separate samples
of the column, and all the rows have the same statistics. -/
theorem C77_grid_columns (alpha : ℝ) (r : ℕ) (xs : List (ℕ → ℕ → ℝ)) (i j : ℕ) :
    gridRun alpha r xs i j = runAll alpha (xs.map fun x => (List.range r).map fun k => x k j) := by
  induction xs using List.reverseRecOn with
  | nil => rfl
  | append_singleton xs x ih => rw [gridRun_append, ih, List.map_append, List.map_singleton, runAll_append]

/-- The observation is standardised, component by component, with the statistics of the column. -/
theorem C77_grid_call (c alpha : ℝ) (hc : 0 ≤ c) (r : ℕ) (xs : List (ℕ → ℕ → ℝ)) (x : ℕ → ℕ → ℝ) (i j : ℕ) :
    gridCall c (gridRun alpha r xs) x i j = standardize c (runAll alpha (xs.map fun x => (List.range r).map fun k => x k j)) (x i j) ∧
    |gridCall c (gridRun alpha r xs) x i j| ≤ c := by
  have h : gridCall c (gridRun alpha r xs) x i j = standardize c (runAll alpha (xs.map fun x => (List.range r).map fun k => x k j)) (x i j) := by
    rw [gridCall, C77_grid_columns]
  refine ⟨h, ?_⟩
  rw [h, standardize, abs_le]
  unfold clip
  exact ⟨le_min (le_max_right _ _) (by linarith), min_le_right _ _⟩

/-- So the mean of a component is not the mean of the values of that component: if an observation with the rows 0 and 2 is seen again and again, the mean of
the first component, which was always 0, is `2 k / (2 k + 1)` after `k` observations. -/
theorem C77_grid_refuted (alpha : ℝ) (k : ℕ) (ha : alpha * (1 + 2 * k) ≤ 1) :
    let x : ℕ → ℕ → ℝ := fun i _ => if i = 0 then 0 else 2
    (gridRun alpha 2 (List.replicate k x) 0 0).m = 2 * k / (2 * k + 1) := by
  intro x
  rw [C77_grid_columns, List.map_replicate]
  have hx : ((List.range 2).map fun k => x k 0) = [0, 2] := by simp [x, List.range_succ]
  rw [hx]
  have hl : (samples (List.replicate k [(0 : ℝ), 2])).length = 2 * k := by
    rw [samples, List.length_flatten]; simp [mul_comm]
  have hsum : (samples (List.replicate k [(0 : ℝ), 2])).sum = 2 * k := by
    rw [samples, List.sum_flatten]; simp [mul_comm]
  rw [C35_mean alpha _ (by intro b hb; rw [List.eq_of_mem_replicate hb]; simp) (by rw [hl]; push_cast; exact ha), average]
  rw [List.sum_cons, List.length_cons, hl, hsum]
  push_cast
  ring

/-- The hypothesis is met by the default minimum learning rate. -/
example : (1 / 10 ^ 32 : ℝ) * (1 + 2 * (1000 : ℕ)) ≤ 1 := by norm_num

end

end Verif.Stats
