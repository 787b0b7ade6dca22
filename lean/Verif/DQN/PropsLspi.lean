/-
C154: LSPI with one feature per state and action is policy iteration on the empirical model of the dataset: it ends and its values are optimal up to its tolerance.
-/
import Verif.DQN.PropsApprox
import Mathlib.Topology.MetricSpace.Contracting

namespace Verif.DQN

open Verif.TD (Trans rowMax IsMax rowMax_isMax isMax_unique isMax_close DetMDP Optimal)
open Matrix

variable {S A : Type} [DecidableEq S] [DecidableEq A] [Fintype A] [Nonempty A]

/-- The sum of `g` over the transitions of the dataset from state `s` with action `a`. -/
def sumAt (batch : List (Trans S A)) (s : S) (a : A) (g : Trans S A → ℝ) : ℝ := ((batch.filter fun t => decide (t.state = s ∧ t.action = a)).map g).sum

/-- `Q` are the optimal values of the empirical model of the dataset: every value is the average, over the transitions from this state with this action, of the reward plus the
discounted largest value of the next state. -/
def EmpiricalOptimal (γ : ℝ) (batch : List (Trans S A)) (Q : S → A → ℝ) : Prop :=
  ∀ s a, sumAt batch s a (fun t => t.reward + γ * rowMax (Q t.next) - Q s a) = 0

/-- The Euclidean norm, `np.linalg.norm`. -/
noncomputable def euclid {d : ℕ} (v : Fin d → ℝ) : ℝ := Real.sqrt (∑ i, v i ^ 2)

/-- One feature per state and action. -/
def OneHot {d : ℕ} (x : LspiData S A d) (e : S × A ≃ Fin d) : Prop := ∀ s a i, x.phi s a i = if i = e (s, a) then 1 else 0

section sums

omit [Fintype A] [Nonempty A]

theorem sumAt_mono {batch : List (Trans S A)} {s : S} {a : A} {g h : Trans S A → ℝ} (hgh : ∀ t, g t ≤ h t) : sumAt batch s a g ≤ sumAt batch s a h :=
  List.sum_le_sum fun t _ => hgh t

theorem sumAt_sub (batch : List (Trans S A)) (s : S) (a : A) (g h : Trans S A → ℝ) : sumAt batch s a (fun t => g t - h t) = sumAt batch s a g - sumAt batch s a h := by
  unfold sumAt
  induction batch.filter fun t => decide (t.state = s ∧ t.action = a) with
  | nil => simp
  | cons t l ih => simp only [List.map_cons, List.sum_cons, ih]; ring

theorem sumAt_const (batch : List (Trans S A)) (s : S) (a : A) (c : ℝ) : sumAt batch s a (fun _ => c) = sumAt batch s a (fun _ => 1) * c := by
  unfold sumAt
  induction batch.filter fun t => decide (t.state = s ∧ t.action = a) with
  | nil => simp
  | cons t l ih => simp only [List.map_cons, List.sum_cons, ih]; ring

theorem sumAt_pos {batch : List (Trans S A)} {s : S} {a : A} (h : ∃ t ∈ batch, t.state = s ∧ t.action = a) : 0 < sumAt batch s a (fun _ => 1) := by
  obtain ⟨t, ht, hs⟩ := h
  have hm : t ∈ batch.filter fun t => decide (t.state = s ∧ t.action = a) := by simp [ht, hs]
  unfold sumAt
  rw [List.map_const', List.sum_replicate, nsmul_eq_mul, mul_one]
  have := List.length_pos_of_mem hm
  exact_mod_cast this

/-- A sum over the whole dataset against a feature. -/
theorem sum_onehot (batch : List (Trans S A)) {d : ℕ} (e : S × A ≃ Fin d) (s : S) (a : A) (g : Trans S A → ℝ) :
    (batch.map fun t => (if e (s, a) = e (t.state, t.action) then 1 else 0) * g t).sum = sumAt batch s a g := by
  unfold sumAt
  induction batch with
  | nil => rfl
  | cons t l ih =>
    rw [List.map_cons, List.sum_cons, ih, List.filter_cons]
    simp only [EmbeddingLike.apply_eq_iff_eq, Prod.mk.injEq]
    by_cases h : t.state = s ∧ t.action = a
    · simp [h]
    · have : ¬ (s = t.state ∧ a = t.action) := fun h' => h ⟨h'.1.symm, h'.2.symm⟩
      simp [h, this]

end sums

variable [Fintype S]

omit [Nonempty A] in
/-- A function that is at least the discounted average of its values at the next pairs is nonnegative. -/
theorem min_principle {γ : ℝ} (h0 : 0 ≤ γ) (h1 : γ < 1) {batch : List (Trans S A)} (hall : ∀ s a, ∃ t ∈ batch, t.state = s ∧ t.action = a)
    (next : Trans S A → S × A) (f : S → A → ℝ) (hf : ∀ s a, sumAt batch s a (fun t => γ * f (next t).1 (next t).2) ≤ sumAt batch s a (fun _ => f s a)) (s : S) (a : A) : 0 ≤ f s a := by
  obtain ⟨p, -, hp⟩ := Finset.exists_min_image Finset.univ (fun p : S × A => f p.1 p.2) ⟨(s, a), Finset.mem_univ _⟩
  have hmin : ∀ s a, f p.1 p.2 ≤ f s a := fun s a => hp (s, a) (Finset.mem_univ _)
  have hn := sumAt_pos (hall p.1 p.2)
  have h2 : sumAt batch p.1 p.2 (fun _ => γ * f p.1 p.2) ≤ sumAt batch p.1 p.2 (fun _ => f p.1 p.2) :=
    (sumAt_mono fun t => mul_le_mul_of_nonneg_left (hmin _ _) h0).trans (hf p.1 p.2)
  rw [sumAt_const, sumAt_const batch p.1 p.2 (f p.1 p.2)] at h2
  have h3 : γ * f p.1 p.2 ≤ f p.1 p.2 := le_of_mul_le_mul_left h2 hn
  have h4 : 0 ≤ f p.1 p.2 := by nlinarith
  exact h4.trans (hmin s a)

section lspi

variable {d : ℕ} {x : LspiData S A d} {e : S × A ≃ Fin d} {γ : ℝ} {argmax : (A → ℝ) → A} {pinv : Matrix (Fin d) (Fin d) ℝ → Matrix (Fin d) (Fin d) ℝ}

/-- The values that the weights stand for. -/
def tableOf (e : S × A ≃ Fin d) (w : Fin d → ℝ) : S → A → ℝ := fun s a => w (e (s, a))

omit [Nonempty A] [Fintype S] [DecidableEq S] [DecidableEq A] [Fintype A] in
theorem predict_onehot (hx : OneHot x e) (w : Fin d → ℝ) (s : S) (a : A) : x.phi s a ⬝ᵥ w = tableOf e w s a := by
  unfold dotProduct tableOf
  simp [hx s a]

/-- The equation of the weights after an iteration. -/
def Evaluates (γ : ℝ) (batch : List (Trans S A)) (π : S → A) (z : S → A → ℝ) : Prop :=
  ∀ s a, sumAt batch s a (fun t => t.reward + γ * z t.next (π t.next)) = sumAt batch s a (fun _ => z s a)

omit [Nonempty A] [Fintype S] [DecidableEq S] [DecidableEq A] [Fintype A] in
theorem action_onehot (hx : OneHot x e) (hab : ∀ t ∈ x.batch, t.absorbing = false) (w : Fin d → ℝ) (t : Trans S A) :
    lspiAction argmax x w t = argmax (tableOf e w t.next) := by
  have hany : x.batch.any (·.absorbing) = false := by
    rw [List.any_eq_false]
    intro t ht
    simp [hab t ht]
  unfold lspiAction
  simp only [hany, Bool.false_eq_true, if_false, mul_one, predict_onehot hx]

omit [Nonempty A] [Fintype S] [Fintype A] in
/-- A product with the matrix of an iteration. -/
theorem matrix_onehot (hx : OneHot x e) (hab : ∀ t ∈ x.batch, t.absorbing = false) (w z : Fin d → ℝ) (s : S) (a : A) :
    (lspiA argmax γ x w).mulVec z (e (s, a)) = sumAt x.batch s a (fun t => tableOf e z s a - γ * tableOf e z t.next (argmax (tableOf e w t.next))) := by
  have expand : ∀ l : List (Trans S A),
      ∑ j, (l.map (fun t => x.phi t.state t.action (e (s, a)) * (x.phi t.state t.action j - γ * x.phi t.next (lspiAction argmax x w t) j))).sum * z j =
        (l.map (fun t => (if e (s, a) = e (t.state, t.action) then 1 else 0) * (tableOf e z t.state t.action - γ * tableOf e z t.next (argmax (tableOf e w t.next))))).sum := by
    intro l
    induction l with
    | nil => simp
    | cons t l ih =>
      simp only [List.map_cons, List.sum_cons, add_mul, Finset.sum_add_distrib]
      rw [ih, ← predict_onehot hx, ← predict_onehot hx, action_onehot hx hab, hx t.state t.action (e (s, a))]
      congr 1
      unfold dotProduct
      rw [Finset.mul_sum, ← Finset.sum_sub_distrib, Finset.mul_sum]
      exact Finset.sum_congr rfl fun j _ => by ring
  unfold Matrix.mulVec dotProduct lspiA
  rw [expand, sum_onehot x.batch e s a (fun t => tableOf e z t.state t.action - γ * tableOf e z t.next (argmax (tableOf e w t.next)))]
  unfold sumAt
  congr 1
  refine List.map_congr_left fun t ht => ?_
  have := (List.mem_filter.1 ht).2
  simp only [decide_eq_true_eq] at this
  rw [this.1, this.2]

omit [Nonempty A] in
theorem lspiA_unit (hx : OneHot x e) (hab : ∀ t ∈ x.batch, t.absorbing = false) (hall : ∀ s a, ∃ t ∈ x.batch, t.state = s ∧ t.action = a) (h0 : 0 ≤ γ) (h1 : γ < 1)
    (w : Fin d → ℝ) : IsUnit (lspiA argmax γ x w).det := by
  rw [← Matrix.isUnit_iff_isUnit_det, ← Matrix.mulVec_injective_iff_isUnit]
  intro y z hyz
  have key : ∀ z : Fin d → ℝ, (lspiA argmax γ x w).mulVec z = 0 → ∀ s a, 0 ≤ tableOf e z s a := by
    intro z hz s a
    refine min_principle h0 h1 hall (fun t => (t.next, argmax (tableOf e w t.next))) (tableOf e z) (fun s a => ?_) s a
    have := congrFun hz (e (s, a))
    rw [matrix_onehot hx hab, sumAt_sub] at this
    simp only [Pi.zero_apply] at this
    linarith
  have h2 := key (y - z) (by rw [Matrix.mulVec_sub]; exact sub_eq_zero.2 hyz)
  have h3 := key (z - y) (by rw [Matrix.mulVec_sub]; exact sub_eq_zero.2 hyz.symm)
  funext i
  obtain ⟨⟨s, a⟩, rfl⟩ := e.surjective i
  have h2 := h2 s a
  have h3 := h3 s a
  simp only [tableOf, Pi.sub_apply] at h2 h3
  linarith

omit [Nonempty A] in
/-- An iteration of LSPI evaluates the greedy policy of the weights. -/
theorem step_evaluates (hx : OneHot x e) (hab : ∀ t ∈ x.batch, t.absorbing = false) (hall : ∀ s a, ∃ t ∈ x.batch, t.state = s ∧ t.action = a) (h0 : 0 ≤ γ) (h1 : γ < 1)
    (w : Fin d → ℝ) : Evaluates γ x.batch (fun s => argmax (tableOf e w s)) (tableOf e (lspiStep argmax γ pinv x w)) := by
  have hu := lspiA_unit (argmax := argmax) hx hab hall h0 h1 w
  have hsol : (lspiA argmax γ x w).mulVec (lspiStep argmax γ pinv x w) = lspiB x := by
    unfold lspiStep
    dsimp only
    rw [if_pos hu, Matrix.mulVec_mulVec, Matrix.mul_nonsing_inv _ hu, Matrix.one_mulVec]
  intro s a
  have hi := congrFun hsol (e (s, a))
  rw [matrix_onehot hx hab] at hi
  have hb : lspiB x (e (s, a)) = sumAt x.batch s a (fun t => t.reward) := by
    unfold lspiB
    simp only [hx _ _ _]
    exact sum_onehot x.batch e s a _
  rw [hb, sumAt_sub] at hi
  have : sumAt x.batch s a (fun t => t.reward + γ * tableOf e (lspiStep argmax γ pinv x w) t.next (argmax (tableOf e w t.next))) =
      sumAt x.batch s a (fun t => t.reward) + sumAt x.batch s a (fun t => γ * tableOf e (lspiStep argmax γ pinv x w) t.next (argmax (tableOf e w t.next))) := by
    have := sumAt_sub x.batch s a (fun t => t.reward + γ * tableOf e (lspiStep argmax γ pinv x w) t.next (argmax (tableOf e w t.next)))
      (fun t => γ * tableOf e (lspiStep argmax γ pinv x w) t.next (argmax (tableOf e w t.next)))
    simp only [add_sub_cancel_right] at this
    linarith
  rw [this]
  linarith

end lspi

section iteration

variable {γ : ℝ} {batch : List (Trans S A)} {Q z w : S → A → ℝ} {π : S → A}

/-- The values of a policy are at most the optimal ones. -/
theorem below (h0 : 0 ≤ γ) (h1 : γ < 1) (hall : ∀ s a, ∃ t ∈ batch, t.state = s ∧ t.action = a) (hQ : EmpiricalOptimal γ batch Q) (hz : Evaluates γ batch π z) (s : S) (a : A) :
    z s a ≤ Q s a := by
  have := min_principle h0 h1 hall (fun t => (t.next, π t.next)) (fun s a => Q s a - z s a) (fun s a => ?_) s a
  · linarith
  · have h2 := hQ s a
    have h3 := hz s a
    rw [sumAt_sub] at h2
    have h4 : sumAt batch s a (fun t => γ * (Q t.next (π t.next) - z t.next (π t.next))) ≤
        sumAt batch s a (fun t => (t.reward + γ * rowMax (Q t.next)) - (t.reward + γ * z t.next (π t.next))) := sumAt_mono fun t => by
      have := mul_le_mul_of_nonneg_left ((rowMax_isMax (Q t.next)).1 (π t.next)) h0
      linarith
    rw [sumAt_sub] at h4
    rw [sumAt_sub]
    linarith

/-- Values that are almost their own greedy backup are almost optimal. -/
theorem nearly (h0 : 0 ≤ γ) (h1 : γ < 1) (hall : ∀ s a, ∃ t ∈ batch, t.state = s ∧ t.action = a) (hQ : EmpiricalOptimal γ batch Q) (η : ℝ)
    (hz : ∀ s a, sumAt batch s a (fun t => t.reward + γ * rowMax (z t.next) - η) ≤ sumAt batch s a (fun _ => z s a)) (s : S) (a : A) : Q s a - η / (1 - γ) ≤ z s a := by
  have h1' : 0 < 1 - γ := by linarith
  have h5 : η = η / (1 - γ) - γ * (η / (1 - γ)) := by field_simp
  have hsel : ∀ s, ∃ b, rowMax (Q s) = Q s b := fun s => by
    obtain ⟨b, hb⟩ := (rowMax_isMax (Q s)).2
    exact ⟨b, hb.symm⟩
  choose b hb using hsel
  have := min_principle h0 h1 hall (fun t => (t.next, b t.next)) (fun s a => z s a - Q s a + η / (1 - γ)) (fun s a => ?_) s a
  · linarith
  · have h2 := hQ s a
    have h3 := hz s a
    rw [sumAt_sub] at h2
    have h4 : sumAt batch s a (fun t => γ * (z t.next (b t.next) - Q t.next (b t.next) + η / (1 - γ))) ≤
        sumAt batch s a (fun t => (t.reward + γ * rowMax (z t.next) - η) - ((t.reward + γ * rowMax (Q t.next)) - η / (1 - γ))) := sumAt_mono fun t => by
      have := mul_le_mul_of_nonneg_left ((rowMax_isMax (z t.next)).1 (b t.next)) h0
      rw [hb]
      nlinarith
    rw [sumAt_sub, sumAt_sub batch s a (fun t => t.reward + γ * rowMax (Q t.next))] at h4
    have h6 : sumAt batch s a (fun _ => z s a - Q s a + η / (1 - γ)) = sumAt batch s a (fun _ => z s a) - (sumAt batch s a (fun _ => Q s a) - sumAt batch s a (fun _ => η / (1 - γ))) := by
      rw [← sumAt_sub, ← sumAt_sub]
      congr 1
      funext t
      ring
    rw [h6]
    linarith

/-- Policy improvement: if `w` are the values of a policy, those of its greedy policy are closer to the optimal ones by a factor `γ`. -/
theorem improves (h0 : 0 ≤ γ) (h1 : γ < 1) (hall : ∀ s a, ∃ t ∈ batch, t.state = s ∧ t.action = a) (hQ : EmpiricalOptimal γ batch Q) {π' : S → A} (hw : Evaluates γ batch π' w)
    (hπ : ∀ s a, w s a ≤ w s (π s)) (hz : Evaluates γ batch π z) (E : ℝ) (hE : ∀ s a, Q s a - w s a ≤ E) : (∀ s a, w s a ≤ z s a) ∧ ∀ s a, Q s a - z s a ≤ γ * E := by
  have hmono : ∀ s a, 0 ≤ z s a - w s a := by
    refine min_principle h0 h1 hall (fun t => (t.next, π t.next)) _ fun s a => ?_
    have h2 := hw s a
    have h3 := hz s a
    have h4 : sumAt batch s a (fun t => γ * (z t.next (π t.next) - w t.next (π t.next))) ≤
        sumAt batch s a (fun t => (t.reward + γ * z t.next (π t.next)) - (t.reward + γ * w t.next (π' t.next))) := sumAt_mono fun t => by
      have := mul_le_mul_of_nonneg_left (hπ t.next (π' t.next)) h0
      linarith
    rw [sumAt_sub] at h4
    rw [sumAt_sub]
    linarith
  refine ⟨fun s a => by have := hmono s a; linarith, fun s a => ?_⟩
  have h2 := hQ s a
  have h3 := hz s a
  rw [sumAt_sub] at h2
  have hsel : ∀ s, rowMax (Q s) ≤ w s (π s) + E := fun s => by
    obtain ⟨b, hb⟩ := (rowMax_isMax (Q s)).2
    have := hE s b
    have := hπ s b
    linarith
  have h4 : sumAt batch s a (fun t => (t.reward + γ * rowMax (Q t.next)) - (t.reward + γ * z t.next (π t.next))) ≤ sumAt batch s a (fun _ => γ * E) := sumAt_mono fun t => by
    have h5 := hsel t.next
    have h6 := hmono t.next (π t.next)
    have := mul_le_mul_of_nonneg_left (show rowMax (Q t.next) - z t.next (π t.next) ≤ E by linarith) h0
    linarith
  rw [sumAt_sub] at h4
  have h5 : sumAt batch s a (fun _ => Q s a - z s a) ≤ sumAt batch s a (fun _ => γ * E) := by
    rw [sumAt_sub]
    linarith
  rw [sumAt_const batch s a (Q s a - z s a), sumAt_const batch s a (γ * E)] at h5
  exact le_of_mul_le_mul_left h5 (sumAt_pos (hall s a))

end iteration

omit [Fintype S] [DecidableEq S] in
theorem isMax_row_close (f g : A → ℝ) (B : ℝ) (h : ∀ a, |f a - g a| ≤ B) : |rowMax f - rowMax g| ≤ B := by
  obtain ⟨i, hi⟩ := (rowMax_isMax f).2
  obtain ⟨j, hj⟩ := (rowMax_isMax g).2
  have h1 := (rowMax_isMax g).1 i
  have h2 := (rowMax_isMax f).1 j
  have h3 := abs_le.1 (h i)
  have h4 := abs_le.1 (h j)
  rw [abs_le]
  constructor <;> linarith

/-- The empirical model of a dataset that contains every pair has optimal values. -/
theorem optimal_exists {γ : ℝ} {batch : List (Trans S A)} (h0 : 0 ≤ γ) (h1 : γ < 1) (hall : ∀ s a, ∃ t ∈ batch, t.state = s ∧ t.action = a) : ∃ Q, EmpiricalOptimal γ batch Q := by
  let T : (S → A → ℝ) → (S → A → ℝ) := fun Q s a => sumAt batch s a (fun t => t.reward + γ * rowMax (Q t.next)) / sumAt batch s a (fun _ => 1)
  have hT : ContractingWith ⟨γ, h0⟩ T := by
    refine ⟨by exact_mod_cast h1, LipschitzWith.of_dist_le_mul fun Q R => ?_⟩
    have hd : ∀ s a, |Q s a - R s a| ≤ dist Q R := fun s a => by
      rw [← Real.dist_eq]
      exact (dist_le_pi_dist (Q s) (R s) a).trans (dist_le_pi_dist Q R s)
    have hB : (0 : ℝ) ≤ γ * dist Q R := mul_nonneg h0 dist_nonneg
    show dist (T Q) (T R) ≤ γ * dist Q R
    refine (dist_pi_le_iff hB).2 fun s => (dist_pi_le_iff hB).2 fun a => ?_
    have hn := sumAt_pos (hall s a)
    rw [Real.dist_eq]
    show |_ / _ - _ / _| ≤ _
    rw [← sub_div, ← sumAt_sub, abs_div, abs_of_pos hn, div_le_iff₀ hn, abs_le]
    have hr : ∀ t : Trans S A, |(t.reward + γ * rowMax (Q t.next)) - (t.reward + γ * rowMax (R t.next))| ≤ γ * dist Q R := fun t => by
      rw [add_sub_add_left_eq_sub, ← mul_sub, abs_mul, abs_of_nonneg h0]
      exact mul_le_mul_of_nonneg_left (isMax_row_close _ _ _ (hd t.next)) h0
    rw [mul_comm, ← mul_neg, ← sumAt_const, ← sumAt_const]
    exact ⟨sumAt_mono fun t => (abs_le.1 (hr t)).1, sumAt_mono fun t => (abs_le.1 (hr t)).2⟩
  refine ⟨hT.fixedPoint T, fun s a => ?_⟩
  have hfix := congrFun (congrFun hT.fixedPoint_isFixedPt s) a
  have hn := sumAt_pos (hall s a)
  rw [sumAt_sub, sumAt_const batch s a (ContractingWith.fixedPoint T hT s a)]
  change sumAt batch s a (fun t => t.reward + γ * rowMax (ContractingWith.fixedPoint T hT t.next)) / sumAt batch s a (fun _ => 1) = _ at hfix
  rw [div_eq_iff hn.ne'] at hfix
  linarith

theorem euclid_le {d : ℕ} (v : Fin d → ℝ) (B : ℝ) (hB : 0 ≤ B) (h : ∀ i, |v i| ≤ B) : euclid v ≤ Real.sqrt d * B := by
  unfold euclid
  rw [← Real.sqrt_sq hB, ← Real.sqrt_mul (Nat.cast_nonneg d)]
  apply Real.sqrt_le_sqrt
  calc ∑ i, v i ^ 2 ≤ ∑ _i : Fin d, B ^ 2 := Finset.sum_le_sum fun i _ => sq_le_sq' (by linarith [(abs_le.1 (h i)).1]) (abs_le.1 (h i)).2
    _ = d * B ^ 2 := by simp

theorem le_euclid {d : ℕ} (v : Fin d → ℝ) (i : Fin d) : |v i| ≤ euclid v := by
  unfold euclid
  rw [← Real.sqrt_sq_eq_abs]
  exact Real.sqrt_le_sqrt (Finset.single_le_sum (f := fun i => v i ^ 2) (fun _ _ => sq_nonneg _) (Finset.mem_univ i))

variable {d : ℕ} {x : LspiData S A d} {e : S × A ≃ Fin d} {γ eps : ℝ} {argmax : (A → ℝ) → A} {pinv : Matrix (Fin d) (Fin d) ℝ → Matrix (Fin d) (Fin d) ℝ}

/-- **C154**, the values: let LSPI have one feature per state and action and let the dataset contain every pair and no absorbing transition. Whenever `fit` returns, from whatever
weights it started, its values are below the optimal values of the empirical model of the dataset by at most `2 gamma epsilon / (1 - gamma)`, and never above. -/
theorem C154_values (hg : Greedy argmax) (hx : OneHot x e) (hab : ∀ t ∈ x.batch, t.absorbing = false) (hall : ∀ s a, ∃ t ∈ x.batch, t.state = s ∧ t.action = a)
    (h0 : 0 ≤ γ) (h1 : γ < 1) {Q : S → A → ℝ} (hQ : EmpiricalOptimal γ x.batch Q) {w w' : Fin d → ℝ} (h : Lspi argmax γ pinv euclid eps x w w') (s : S) (a : A) :
    w' (e (s, a)) ≤ Q s a ∧ Q s a ≤ w' (e (s, a)) + 2 * γ * eps / (1 - γ) := by
  induction h with
  | more w w' h next ih => exact ih
  | stop v hv =>
    have hz := step_evaluates (argmax := argmax) (pinv := pinv) hx hab hall h0 h1 v
    refine ⟨below h0 h1 hall hQ hz s a, ?_⟩
    have hclose : ∀ s a, |tableOf e (lspiStep argmax γ pinv x v) s a - tableOf e v s a| ≤ eps := fun s a => (le_euclid (lspiStep argmax γ pinv x v - v) (e (s, a))).trans (not_lt.1 hv)
    have := nearly h0 h1 hall hQ (z := tableOf e (lspiStep argmax γ pinv x v)) (2 * γ * eps) (fun s a => ?_) s a
    · unfold tableOf at this
      linarith
    · rw [← hz s a]
      refine sumAt_mono fun t => ?_
      obtain ⟨b, hb⟩ := (rowMax_isMax (tableOf e (lspiStep argmax γ pinv x v) t.next)).2
      have h2 := abs_le.1 (hclose t.next b)
      have h3 := hg (tableOf e v t.next) b
      have h4 := abs_le.1 (hclose t.next (argmax (tableOf e v t.next)))
      have := mul_le_mul_of_nonneg_left
        (show rowMax (tableOf e (lspiStep argmax γ pinv x v) t.next) - 2 * eps ≤ tableOf e (lspiStep argmax γ pinv x v) t.next (argmax (tableOf e v t.next)) by rw [← hb]; linarith) h0
      linarith

omit [Fintype S] in
/-- **C154**, for a deterministic problem: when the dataset comes from a deterministic problem that never ends, the optimal values of the empirical model are those of the problem. -/
theorem C154_deterministic {mdp : DetMDP S A} {Q : S → A → ℝ} (hopt : Optimal mdp γ Q) (hdata : ∀ t ∈ x.batch, t = mdp.trans t.state t.action)
    (hab : ∀ t ∈ x.batch, t.absorbing = false) : EmpiricalOptimal γ x.batch Q := by
  obtain ⟨V, hV, hB⟩ := hopt
  intro s a
  unfold sumAt
  refine List.sum_eq_zero fun y hy => ?_
  obtain ⟨t, ht, rfl⟩ := List.mem_map.1 hy
  obtain ⟨hm, hp⟩ := List.mem_filter.1 ht
  rw [decide_eq_true_eq] at hp
  have h1 := hdata t hm
  have h2 := hab t hm
  rw [hp.1, hp.2] at h1
  subst h1
  have h3 : mdp.absorbing s a = false := h2
  show mdp.reward s a + γ * rowMax (Q (mdp.next s a)) - Q s a = 0
  rw [isMax_unique (rowMax_isMax (Q (mdp.next s a))) (hV _), hB s a, h3]
  simp

/-- **C154**, termination: under the same conditions every call of `fit` with a positive `epsilon` returns. -/
theorem C154_ends (hg : Greedy argmax) (hx : OneHot x e) (hab : ∀ t ∈ x.batch, t.absorbing = false) (hall : ∀ s a, ∃ t ∈ x.batch, t.state = s ∧ t.action = a)
    (h0 : 0 ≤ γ) (h1 : γ < 1) (heps : 0 < eps) (w : Fin d → ℝ) : ∃ w', Lspi argmax γ pinv euclid eps x w w' := by
  obtain ⟨Q, hQ⟩ := optimal_exists h0 h1 hall
  have key : ∀ (k : ℕ) (v : Fin d → ℝ) (π : S → A) (E : ℝ), Evaluates γ x.batch π (tableOf e v) → 0 ≤ E → (∀ s a, Q s a - tableOf e v s a ≤ E) →
      Real.sqrt d * (γ ^ k * E) ≤ eps → ∃ w', Lspi argmax γ pinv euclid eps x v w' := by
    intro k
    induction k with
    | zero =>
      intro v π E hv hE0 hE hk
      have hz := step_evaluates (argmax := argmax) (pinv := pinv) hx hab hall h0 h1 v
      refine ⟨_, Lspi.stop v ?_⟩
      rw [not_lt]
      refine (euclid_le _ E hE0 fun i => ?_).trans (by simpa using hk)
      obtain ⟨⟨s, a⟩, rfl⟩ := e.surjective i
      have h2 := below h0 h1 hall hQ hz s a
      have h3 := (improves h0 h1 hall hQ hv (fun s => hg (tableOf e v s)) hz E hE).1 s a
      have h4 := hE s a
      simp only [tableOf] at h2 h3 h4
      rw [Pi.sub_apply, abs_le]
      constructor <;> linarith
    | succ k ih =>
      intro v π E hv hE0 hE hk
      have hz := step_evaluates (argmax := argmax) (pinv := pinv) hx hab hall h0 h1 v
      by_cases hn : euclid (lspiStep argmax γ pinv x v - v) > eps
      · obtain ⟨w', hw'⟩ := ih (lspiStep argmax γ pinv x v) _ (γ * E) hz (mul_nonneg h0 hE0) (improves h0 h1 hall hQ hv (fun s => hg (tableOf e v s)) hz E hE).2
          (by rw [← mul_assoc (γ ^ k), ← pow_succ]; exact hk)
        exact ⟨w', Lspi.more v w' hn hw'⟩
      · exact ⟨_, Lspi.stop v hn⟩
  by_cases hn : euclid (lspiStep argmax γ pinv x w - w) > eps
  · set v := lspiStep argmax γ pinv x w with hv
    have hz := step_evaluates (argmax := argmax) (pinv := pinv) hx hab hall h0 h1 w
    set E := ∑ p : S × A, |Q p.1 p.2 - tableOf e v p.1 p.2| with hE
    have hE0 : 0 ≤ E := Finset.sum_nonneg fun _ _ => abs_nonneg _
    have hEb : ∀ s a, Q s a - tableOf e v s a ≤ E := fun s a => (le_abs_self _).trans
      (Finset.single_le_sum (f := fun p : S × A => |Q p.1 p.2 - tableOf e v p.1 p.2|) (fun _ _ => abs_nonneg _) (Finset.mem_univ (s, a)))
    have hlim : Filter.Tendsto (fun k : ℕ => Real.sqrt d * (γ ^ k * E)) Filter.atTop (nhds (Real.sqrt d * (0 * E))) :=
      ((tendsto_pow_atTop_nhds_zero_of_lt_one h0 h1).mul_const E).const_mul _
    rw [zero_mul, mul_zero] at hlim
    obtain ⟨k, hk⟩ := (hlim.eventually (gt_mem_nhds heps)).exists
    obtain ⟨w', hw'⟩ := key k v _ E hz hE0 hEb hk.le
    exact ⟨w', Lspi.more w w' hn hw'⟩
  · exact ⟨_, Lspi.stop w hn⟩

/-! ### A dataset -/

/-- Two states; the action is the next state and action `true` earns one. -/
def switchBatch : List (Trans Bool Bool) :=
  [⟨false, false, 0, false, false⟩, ⟨false, true, 1, true, false⟩, ⟨true, false, 0, false, false⟩, ⟨true, true, 1, true, false⟩, ⟨true, true, 1, true, false⟩]

/-- The optimal values with `gamma = 1 / 2`. -/
noncomputable def switchQ (_ a : Bool) : ℝ := if a then 2 else 1

theorem switch_optimal : EmpiricalOptimal (1 / 2) switchBatch switchQ := by
  have hmax : ∀ s, rowMax (switchQ s) = 2 := fun s => isMax_unique (rowMax_isMax _) ⟨fun a => by cases a <;> norm_num [switchQ], true, by norm_num [switchQ]⟩
  intro s a
  simp only [hmax]
  cases s <;> cases a <;> norm_num [sumAt, switchBatch, switchQ]

/-- With `epsilon = 1 / 100` LSPI returns from any weights, with values that are the optimal ones up to `1 / 50`. -/
example (e : Bool × Bool ≃ Fin 4) (argmax : (Bool → ℝ) → Bool) (hg : Greedy argmax) (pinv : Matrix (Fin 4) (Fin 4) ℝ → Matrix (Fin 4) (Fin 4) ℝ) (w : Fin 4 → ℝ) :
    ∃ w', Lspi argmax (1 / 2) pinv euclid (1 / 100) ⟨switchBatch, fun s a i => if i = e (s, a) then 1 else 0⟩ w w' ∧
      ∀ s, |w' (e (s, true)) - 2| ≤ 1 / 50 ∧ |w' (e (s, false)) - 1| ≤ 1 / 50 := by
  have hab : ∀ t ∈ switchBatch, t.absorbing = false := by simp [switchBatch]
  have hall : ∀ s a, ∃ t ∈ switchBatch, t.state = s ∧ t.action = a := by
    intro s a
    cases s <;> cases a <;> simp [switchBatch]
  obtain ⟨w', h⟩ := C154_ends (x := ⟨switchBatch, fun s a i => if i = e (s, a) then 1 else 0⟩) (e := e) (γ := 1 / 2) (eps := 1 / 100) (pinv := pinv) hg (fun _ _ _ => rfl) hab hall
    (by norm_num) (by norm_num) (by norm_num) w
  refine ⟨w', h, fun s => ?_⟩
  have h1 := C154_values hg (e := e) (fun _ _ _ => rfl) hab hall (by norm_num) (by norm_num) switch_optimal h s true
  have h2 := C154_values hg (e := e) (fun _ _ _ => rfl) hab hall (by norm_num) (by norm_num) switch_optimal h s false
  norm_num [switchQ] at h1 h2
  rw [abs_le, abs_le]
  refine ⟨⟨?_, ?_⟩, ?_, ?_⟩ <;> linarith

end Verif.DQN
