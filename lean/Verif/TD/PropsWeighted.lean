/-
Property C141: the statistics of WeightedQLearning.
-/
import Verif.TD.Props

namespace Verif.TD

noncomputable section

variable {S A : Type} [DecidableEq S] [DecidableEq A] [Fintype A] [Nonempty A]

/-! ### Specification -/

/-- The weights that the updates with the learning rates `rates` give to the targets: each update multiplies the weights of
the previous targets by one minus its learning rate. -/
def weightsOf (rates : List ℝ) : List ℝ := rates.foldl (fun ws α => ws.map ((1 - α) * ·) ++ [α]) []

/-- The weighted sum of a function of the targets. A history is a list of learning rates and targets. -/
def weightedSum (h : List (ℝ × ℝ)) (f : ℝ → ℝ) : ℝ := ((weightsOf (h.map (·.1))).zipWith (fun w x => w * f x) (h.map (·.2))).sum

/-- The agents that are reached from the constructor, with the learning rates and targets of the updates of every pair. The
learning rate, the samples of the estimator and the way `np.argmax` breaks ties may change from update to update. -/
inductive WeightedRun (γ : ℝ) : Weighted S A → (S → A → List (ℝ × ℝ)) → Prop
  | init : WeightedRun γ weightedInit (fun _ _ => [])
  | update {g h} (α : ℝ) (argmax : (A → ℝ) → A) (noise : List (A → ℝ)) (t : Trans S A) : WeightedRun γ g h →
      WeightedRun γ (weightedQ γ α argmax noise g t) (fun s a => if s = t.state ∧ a = t.action then
        h s a ++ [(α, t.reward + γ * (if t.absorbing then 0 else weightedNextQ argmax noise g t.next))] else h s a)

/-! ### Lemmas -/

theorem weightsOf_snoc (l : List ℝ) (α : ℝ) : weightsOf (l ++ [α]) = (weightsOf l).map ((1 - α) * ·) ++ [α] := by
  simp [weightsOf, List.foldl_append]

theorem weightsOf_length (l : List ℝ) : (weightsOf l).length = l.length := by
  induction l using List.reverseRecOn with
  | nil => rfl
  | append_singleton l α ih => rw [weightsOf_snoc]; simp [ih]

theorem weightedSum_snoc (h : List (ℝ × ℝ)) (α x : ℝ) (f : ℝ → ℝ) :
    weightedSum (h ++ [(α, x)]) f = (1 - α) * weightedSum h f + α * f x := by
  simp only [weightedSum, List.map_append, List.map_cons, List.map_nil, weightsOf_snoc]
  rw [List.zipWith_append (by simp [weightsOf_length]), List.sum_append]
  congr 1
  · rw [List.zipWith_map_left]
    generalize weightsOf (h.map (·.1)) = ws
    generalize h.map (·.2) = xs
    induction ws generalizing xs with
    | nil => simp
    | cons w ws ih =>
      cases xs with
      | nil => simp
      | cons y xs => simp only [List.zipWith_cons_cons, List.sum_cons, ih]; ring
  · simp

theorem sum_snoc (l : List ℝ) (α : ℝ) : (weightsOf (l ++ [α])).sum = (1 - α) * (weightsOf l).sum + α := by
  rw [weightsOf_snoc, List.sum_append, List.sum_map_mul_left]; simp

theorem sumSq_snoc (l : List ℝ) (α : ℝ) :
    ((weightsOf (l ++ [α])).map (· ^ 2)).sum = (1 - α) ^ 2 * ((weightsOf l).map (· ^ 2)).sum + α ^ 2 := by
  rw [weightsOf_snoc, List.map_append, List.sum_append, List.map_map]
  have : ((fun x : ℝ => x ^ 2) ∘ fun x => (1 - α) * x) = fun x => (1 - α) ^ 2 * x ^ 2 := by funext x; simp only [Function.comp]; ring
  rw [this, ← List.sum_map_mul_left]
  simp

/-! ### Theorems -/

/-- C141. The values are the weighted sums of the targets, `Q2` those of the squared targets, and `w1`, `w2` the sum of the
weights and of their squares. -/
theorem C141_moments (γ : ℝ) (g : Weighted S A) (h : S → A → List (ℝ × ℝ)) (hrun : WeightedRun γ g h) (s : S) (a : A) :
    g.Q s a = weightedSum (h s a) id ∧ g.Q2 s a = weightedSum (h s a) (· ^ 2) ∧
    g.w1 s a = (weightsOf ((h s a).map (·.1))).sum ∧ g.w2 s a = ((weightsOf ((h s a).map (·.1))).map (· ^ 2)).sum ∧
    g.nUpdates s a = (h s a).length := by
  induction hrun with
  | init => simp [weightedInit, weightedSum, weightsOf]
  | @update g h α argmax noise t _ ih =>
    obtain ⟨i1, i2, i3, i4, i5⟩ := ih
    by_cases he : s = t.state ∧ a = t.action
    · obtain ⟨rfl, rfl⟩ := he
      simp only [weightedQ, Table.set, and_self, if_true]
      rw [weightedSum_snoc, weightedSum_snoc, List.map_append, List.map_cons, List.map_nil, sum_snoc, sumSq_snoc, i1, i2, i3, i4, i5]
      have ht : (if (!t.absorbing) = true then weightedNextQ argmax noise g t.next else 0) =
          (if t.absorbing = true then 0 else weightedNextQ argmax noise g t.next) := by cases t.absorbing <;> simp
      rw [ht]
      refine ⟨by simp only [id]; ring, by ring, rfl, rfl, by simp⟩
    · simp only [weightedQ, Table.set, he, if_false]
      exact ⟨i1, i2, i3, i4, i5⟩

/-- C141. If the first learning rate of a pair is one, its weights sum to one, whatever the other learning rates. -/
theorem C141_normalised (rates : List ℝ) : (weightsOf (1 :: rates)).sum = 1 := by
  induction rates using List.reverseRecOn with
  | nil => simp [weightsOf]
  | append_singleton l α ih => rw [← List.cons_append, sum_snoc, ih]; ring

/-- The learning rates 1, 1/2, 1/3, ... -/
def harmonic (n : ℕ) : List ℝ := (List.range n).map (fun i => 1 / ((i : ℝ) + 1))

/-- C141. With the learning rates 1, 1/2, 1/3, ... all the targets have the same weight: the value is their mean. -/
theorem C141_mean (n : ℕ) : weightsOf (harmonic n) = List.replicate n (1 / (n : ℝ)) := by
  induction n with
  | zero => rfl
  | succ n ih =>
    have e : harmonic (n + 1) = harmonic n ++ [1 / ((n : ℝ) + 1)] := by simp [harmonic, List.range_succ]
    rw [e, weightsOf_snoc, ih, List.replicate_succ', List.map_replicate]
    rcases Nat.eq_zero_or_pos n with h | h
    · subst h; simp
    · push_cast
      congr 2
      have : (n : ℝ) ≠ 0 := by positivity
      have : (n : ℝ) + 1 ≠ 0 := by positivity
      field_simp
      ring

/-- C141. The width that the estimator uses for a pair: very wide until its second update, and then
`sqrt(max(variance * w2 / (2 w1 + 1e-10), 1e-10))`, where the variance is that of the weighted targets. -/
theorem C141_sigma_partial (γ : ℝ) (g : Weighted S A) (h : S → A → List (ℝ × ℝ)) (hrun : WeightedRun γ g h) (s : S) (a : A) :
    g.sigma s a = if (h s a).length < 2 then 10 ^ 10 else
      Real.sqrt (max ((weightedSum (h s a) (· ^ 2) - weightedSum (h s a) id ^ 2) *
        (((weightsOf ((h s a).map (·.1))).map (· ^ 2)).sum / ((weightsOf ((h s a).map (·.1))).sum * 2 + 1 / 10 ^ 10))) (1 / 10 ^ 10)) := by
  have hrun' := hrun
  induction hrun with
  | init => simp [weightedInit]
  | @update g h α argmax noise t hr ih =>
    obtain ⟨m1, m2, m3, m4, m5⟩ := C141_moments γ _ _ hrun' s a
    by_cases he : s = t.state ∧ a = t.action
    · rw [← m1, ← m2, ← m3, ← m4]
      obtain ⟨rfl, rfl⟩ := he
      have hn : (weightedQ γ α argmax noise g t).nUpdates t.state t.action = ((h t.state t.action).length : ℝ) + 1 := by
        rw [m5]; simp
      have ho := (C141_moments γ _ _ hr t.state t.action).2.2.2.2
      simp only [weightedQ, Table.set, and_self, if_true] at hn ⊢
      simp only [hn, List.length_append, List.length_singleton]
      by_cases hl : (h t.state t.action).length = 0
      · have hold := ih hr
        have h2 : (h t.state t.action).length < 2 := by omega
        rw [if_pos h2] at hold
        rw [hl]
        simp [hold]
      · have h1 : (1 : ℝ) < ((h t.state t.action).length : ℝ) + 1 := by
          have : 0 < ((h t.state t.action).length : ℝ) := by exact_mod_cast Nat.pos_of_ne_zero hl
          linarith
        have h2 : ¬ (h t.state t.action).length + 1 < 2 := by omega
        rw [if_pos h1, if_neg h2]
        simp [Table.set]
    · have hold := ih hr
      simp only [he, if_false] at hold ⊢
      rw [← hold]
      simp only [weightedQ]
      split
      · simp only [Table.set, he, if_false]
      · rfl

/-- Two transitions of one pair, with the targets 0 and 2. -/
def demoTargets : Weighted Bool Bool :=
  weightedQ 0 (1 / 2) (fun _ => true) [] (weightedQ 0 1 (fun _ => true) [] weightedInit ⟨true, true, 0, true, true⟩) ⟨true, true, 2, true, true⟩

theorem demoTargets_run : WeightedRun 0 demoTargets
    (fun s a => if s = true ∧ a = true then [(1, 0), (1 / 2, 2)] else []) := by
  have h := (WeightedRun.init (S := Bool) (A := Bool) (γ := 0)).update 1 (fun _ => true) [] ⟨true, true, 0, true, true⟩
  have h := h.update (1 / 2) (fun _ => true) [] ⟨true, true, 2, true, true⟩
  refine Eq.mp (congrArg _ ?_) h
  · funext s a
    by_cases hs : s = true ∧ a = true
    · simp [hs]
    · simp only [hs, if_false]

/-- C141. The width is not the standard error of the weighted mean, whose square is `variance * w2 / w1 ^ 2`: the code divides
by `w1 * 2` instead of `w1 ** 2`. With two targets of weight 1/2 the square of the standard error is 1/2, that of the width is
less than 1/4. -/
theorem C141_sigma_refuted : ∃ (g : Weighted Bool Bool) (h : Bool → Bool → List (ℝ × ℝ)), WeightedRun 0 g h ∧
    (weightedSum (h true true) (· ^ 2) - weightedSum (h true true) id ^ 2) *
      (((weightsOf ((h true true).map (·.1))).map (· ^ 2)).sum / (weightsOf ((h true true).map (·.1))).sum ^ 2) = 1 / 2 ∧
    g.sigma true true ^ 2 < 1 / 4 := by
  refine ⟨demoTargets, _, demoTargets_run, ?_, ?_⟩
  · norm_num [weightedSum, weightsOf]
  · rw [C141_sigma_partial 0 _ _ demoTargets_run]
    simp only [and_self, if_true, List.length_cons, List.length_nil]
    rw [if_neg (by norm_num), Real.sq_sqrt (le_max_of_le_right (by norm_num))]
    apply max_lt
    · norm_num [weightedSum, weightsOf]
    · norm_num

end

end Verif.TD
