/-
C101: exploration noise and deterministic policies. C102: movement primitives.
-/
import Verif.Explore.Model
import Mathlib.Tactic.Ring
import Mathlib.Tactic.Linarith
import Mathlib.Tactic.FieldSimp
import Mathlib.Tactic.NormNum
import Mathlib.Algebra.BigOperators.Intervals
import Mathlib.Algebra.Order.BigOperators.Group.Finset
import Mathlib.Analysis.SpecificLimits.Normed
import Mathlib.Data.List.Basic

namespace Verif.Explore

open Finset

/-! ### C101 -/

theorem ou_draw {S : Type} {n : ℕ} (p : OU S n) (s : S) (x xi : Vec n) (j : Fin n) :
    (p.drawAction s x xi).1 j = p.mu s j + (p.drawAction s x xi).2 j
    ∧ (p.drawAction s x xi).2 j = (1 - p.theta * p.dt) * x j + p.sigma j * Real.sqrt p.dt * xi j := by
  refine ⟨rfl, ?_⟩
  simp only [OU.drawAction]; ring

theorem ou_length {S : Type} {n : ℕ} (p : OU S n) (l : List (S × Vec n)) : ∀ x, (p.actions x l).length = l.length := by
  induction l with
  | nil => intro x; rfl
  | cons a l ih => intro x; simp only [OU.actions, List.length_cons, ih]

/-- C101: in an episode of any length the `k`-th action is the mean of the `k`-th state plus a noise in which the initial value is
damped by a factor `1 - theta dt` per step, and the number drawn `i` steps ago by the `i`-th power of it. The noise does not depend on
the states or on other episodes. -/
theorem C101_ou {S : Type} {n : ℕ} (p : OU S n) (x : Vec n) (l : List (S × Vec n)) :
    (p.actions x l).length = l.length ∧
    ∀ (k : ℕ) (hk : k < l.length) (a : Vec n), (p.actions x l)[k]? = some a → ∀ j,
      a j = p.mu (l[k]).1 j + ((1 - p.theta * p.dt) ^ (k + 1) * x j
        + p.sigma j * Real.sqrt p.dt * ∑ i ∈ range (k + 1), (1 - p.theta * p.dt) ^ (k - i) * ((l.map Prod.snd).getD i 0) j) := by
  refine ⟨ou_length p l x, ?_⟩
  induction l generalizing x with
  | nil => intro k hk; exact absurd hk (by simp)
  | cons sxi l ih =>
    obtain ⟨s, xi⟩ := sxi
    intro k hk a ha j
    obtain ⟨h1, h2⟩ := ou_draw p s x xi j
    cases k with
    | zero =>
      simp only [OU.actions, List.getElem?_cons_zero, Option.some.injEq] at ha
      rw [← ha, h1, h2]
      simp
    | succ k =>
      simp only [OU.actions, List.getElem?_cons_succ] at ha
      have hk' : k < l.length := by simpa using hk
      rw [ih _ k hk' a ha j, h2]
      simp only [List.getElem_cons_succ]
      rw [sum_range_succ' _ (k + 1)]
      simp only [List.map_cons, List.getD_cons_succ, List.getD_cons_zero, Nat.sub_zero, Nat.add_sub_add_right]
      ring

example : ∃ (p : OU ℕ 1) (l : List (ℕ × Vec 1)), l.length = 2 ∧ (p.actions p.reset l).length = 2 :=
  ⟨⟨fun s _ => s, fun _ => 1, 1, 1, none⟩, [(3, fun _ => 1), (4, fun _ => 2)], rfl, rfl⟩

/-- C101: an episode starts from the given initial noise, or from none. -/
theorem C101_ou_start {S : Type} {n : ℕ} (p : OU S n) :
    (∀ x, p.x0 = some x → p.reset = x) ∧ (p.x0 = none → p.reset = fun _ => 0) := by
  constructor
  · intro x h; simp only [OU.reset, h]
  · intro h; simp only [OU.reset, h]

example : (⟨fun s _ => s, fun _ => 1, 1, 1, some (fun _ => 7)⟩ : OU ℝ 1).reset = fun _ => 7 := rfl

/-- C101: for a time interval below `2 / theta` the noise is stable: numbers bounded by `c` give a noise bounded for ever, and the sum of the
squares of the weights of all the numbers drawn (the variance of the noise for independent standard numbers) stays below that of the
stationary process. -/
theorem C101_ou_stable {S : Type} {n : ℕ} (p : OU S n) (hdt : 0 < p.dt) (hth : 0 < p.theta) (hst : p.theta * p.dt < 2)
    (j : Fin n) (k : ℕ) :
    (∀ (e : ℕ → ℝ) (c : ℝ), (∀ i, |e i| ≤ c) →
      |∑ i ∈ range (k + 1), (1 - p.theta * p.dt) ^ (k - i) * e i| ≤ c * (1 - |1 - p.theta * p.dt|)⁻¹)
    ∧ ∑ i ∈ range (k + 1), (p.sigma j * Real.sqrt p.dt * (1 - p.theta * p.dt) ^ (k - i)) ^ 2
      ≤ p.sigma j ^ 2 / (p.theta * (2 - p.theta * p.dt)) := by
  have hpos : 0 < p.theta * p.dt := mul_pos hth hdt
  have hr : |1 - p.theta * p.dt| < 1 := by rw [abs_lt]; constructor <;> linarith
  set r := 1 - p.theta * p.dt with hrdef
  have hgeo : ∀ q : ℝ, 0 ≤ q → q < 1 → ∑ i ∈ range (k + 1), q ^ i ≤ (1 - q)⁻¹ := by
    intro q h0 h1
    exact sum_le_hasSum _ (fun i _ => pow_nonneg h0 i) (hasSum_geometric_of_lt_one h0 h1)
  constructor
  · intro e c he
    have hc : 0 ≤ c := le_trans (abs_nonneg _) (he 0)
    calc |∑ i ∈ range (k + 1), r ^ (k - i) * e i| ≤ ∑ i ∈ range (k + 1), |r ^ (k - i) * e i| := abs_sum_le_sum_abs _ _
      _ ≤ ∑ i ∈ range (k + 1), c * |r| ^ (k - i) := by
          apply sum_le_sum
          intro i _
          rw [abs_mul, abs_pow, mul_comm]
          exact mul_le_mul_of_nonneg_right (he i) (pow_nonneg (abs_nonneg _) _)
      _ = c * ∑ i ∈ range (k + 1), |r| ^ i := by
          rw [← mul_sum]
          congr 1
          have := sum_range_reflect (fun i => |r| ^ i) (k + 1)
          simpa using this
      _ ≤ c * (1 - |r|)⁻¹ := mul_le_mul_of_nonneg_left (hgeo _ (abs_nonneg _) hr) hc
  · have hr2 : r ^ 2 < 1 := by
      have := abs_lt.1 hr
      nlinarith
    have h1 : ∑ i ∈ range (k + 1), (p.sigma j * Real.sqrt p.dt * r ^ (k - i)) ^ 2
        = p.sigma j ^ 2 * p.dt * ∑ i ∈ range (k + 1), (r ^ 2) ^ i := by
      rw [mul_sum]
      have := sum_range_reflect (fun i => p.sigma j ^ 2 * p.dt * (r ^ 2) ^ i) (k + 1)
      rw [← this]
      apply sum_congr rfl
      intro i _
      have hs : Real.sqrt p.dt ^ 2 = p.dt := Real.sq_sqrt hdt.le
      rw [mul_pow, mul_pow, hs, ← pow_mul, ← pow_mul]
      congr 2
      simp [mul_comm]
    rw [h1]
    have h2 : p.sigma j ^ 2 / (p.theta * (2 - p.theta * p.dt)) = p.sigma j ^ 2 * p.dt * (1 - r ^ 2)⁻¹ := by
      have h3 : 1 - r ^ 2 = p.dt * (p.theta * (2 - p.theta * p.dt)) := by rw [hrdef]; ring
      rw [h3]
      have : p.theta * (2 - p.theta * p.dt) ≠ 0 := (mul_pos hth (by linarith)).ne'
      field_simp
    rw [h2]
    exact mul_le_mul_of_nonneg_left (hgeo _ (sq_nonneg _) hr2) (mul_nonneg (sq_nonneg _) hdt.le)

example : ∃ p : OU ℕ 1, 0 < p.dt ∧ 0 < p.theta ∧ p.theta * p.dt < 2 :=
  ⟨⟨fun _ _ => 0, fun _ => 2 / 10, 15 / 100, 1 / 100, none⟩, by norm_num, by norm_num, by norm_num⟩

/-- C101: the clipped Gaussian policy stays in its range, does not change a sample that is in the range, and otherwise takes the bound on
the side of the sample. -/
theorem C101_clipped {S : Type} {n : ℕ} (p : ClippedGaussian S n) (h : ∀ j, p.low j ≤ p.high j) (s : S) (xi : Vec n) (j : Fin n) :
    let raw := p.mu s j + ∑ i, p.cholSigma j i * xi i
    (p.low j ≤ p.drawAction s xi j ∧ p.drawAction s xi j ≤ p.high j)
    ∧ (p.low j ≤ raw → raw ≤ p.high j → p.drawAction s xi j = raw)
    ∧ (raw < p.low j → p.drawAction s xi j = p.low j)
    ∧ (p.high j < raw → p.drawAction s xi j = p.high j) := by
  intro raw
  have hd : p.drawAction s xi j = clip raw (p.low j) (p.high j) := rfl
  rw [hd]
  have := h j
  refine ⟨⟨?_, ?_⟩, ?_, ?_, ?_⟩
  · exact le_min (le_max_right _ _) this
  · exact min_le_right _ _
  · intro h1 h2; rw [clip, max_eq_left h1, min_eq_left h2]
  · intro h1; rw [clip, max_eq_right h1.le, min_eq_left this]
  · intro h1; rw [clip, max_eq_left (this.trans h1.le), min_eq_right h1.le]

example : ∃ p : ClippedGaussian ℕ 2, ∀ j, p.low j ≤ p.high j :=
  ⟨⟨fun _ _ => 0, 1, fun _ => -1, fun _ => 1⟩, fun _ => by norm_num⟩

/-- C101: a deterministic policy gives probability one to the action that it draws, and zero to all others. -/
theorem C101_deterministic {S A : Type} [DecidableEq A] (mu : S → A) (s : S) (a : A) :
    (a = detDraw mu s → detProb mu s a = 1) ∧ (a ≠ detDraw mu s → detProb mu s a = 0) :=
  ⟨fun h => if_pos h, fun h => if_neg h⟩

example : detProb (fun s : ℕ => s + 1) 3 4 = 1 ∧ detProb (fun s : ℕ => s + 1) 3 5 = 0 := by decide

/-! ### C102 -/

/-- C102, not the claim about drawn actions (see `C102_promp_refuted`): the time of a movement grows by one per step until the
duration, for ever if the movement is periodic, so that the phase goes from zero to one and stays there. -/
theorem C102_time_partial {A : Type} (p : ProMP A) (n : ℕ) :
    (p.periodic = true → (p.updateTime)^[n] 0 = n)
    ∧ (p.periodic = false → (p.updateTime)^[n] 0 = min n p.duration)
    ∧ (p.periodic = false → 0 < p.duration → p.phase ((p.updateTime)^[n] 0) = min ((n : ℚ) / p.duration) 1) := by
  have h1 : p.periodic = true → (p.updateTime)^[n] 0 = n := by
    intro h
    induction n with
    | zero => rfl
    | succ n ih => rw [Function.iterate_succ_apply', ih]; simp [ProMP.updateTime, h]
  have h2 : p.periodic = false → (p.updateTime)^[n] 0 = min n p.duration := by
    intro h
    clear h1
    induction n with
    | zero => simp
    | succ n ih =>
      rw [Function.iterate_succ_apply', ih]
      simp only [ProMP.updateTime, h, Bool.not_false, Bool.true_and, decide_eq_true_eq]
      split_ifs with hd <;> omega
  refine ⟨h1, h2, ?_⟩
  intro h hd
  rw [h2 h]
  have hd' : (0 : ℚ) < p.duration := by exact_mod_cast hd
  simp only [ProMP.phase]
  rcases le_total n p.duration with hn | hn
  · rw [min_eq_left hn, min_eq_left]
    rw [div_le_one hd']; exact_mod_cast hn
  · rw [min_eq_right hn, min_eq_right, div_self hd'.ne']
    rw [one_le_div hd']; exact_mod_cast hn

example : (⟨fun z => z, 3, false⟩ : ProMP ℚ).phase ((⟨fun z => z, 3, false⟩ : ProMP ℚ).updateTime^[2] 0) = 2 / 3 := by
  simp only [ProMP.phase, Function.iterate_succ, Function.iterate_zero, Function.comp, id, ProMP.updateTime]
  norm_num

/-- C102 is false of `ProMP`: no state and no time gives an action, because the phase is computed without the time. -/
theorem C102_promp_refuted {S A : Type} (p : ProMP A) (s : S) (t : ℕ) : p.drawAction s t = none := rfl

/-- C102 is false of `set_duration`: it gives the movement one step less than the constructor does with the same number. -/
theorem C102_duration_refuted {A : Type} (p : ProMP A) (d : ℕ) (hd : 2 ≤ d) :
    ∃ q, p.setDuration d = some q ∧ q ≠ { p with duration := d } ∧ q = { p with duration := d - 1 } := by
  refine ⟨{ p with duration := d - 1 }, if_pos hd, ?_, rfl⟩
  intro h
  have := congrArg ProMP.duration h
  simp only at this
  omega

example : ∃ q, (⟨fun z => z, 3, false⟩ : ProMP ℚ).setDuration 10 = some q ∧ q.duration = 9 := ⟨_, rfl, rfl⟩

/-- C102: the goal at rest is an equilibrium of the dynamic movement primitive, for all weights of the forcing regressor. -/
theorem C102_equilibrium {n : ℕ} (p : DMP n) (hy : p.y = p.goal) (hz : p.z = 0) (hv : p.v = 0) : p.update = p := by
  cases p
  simp only at hy hz hv
  subst hy hz hv
  simp only [DMP.update]
  congr 1 <;> funext j <;> simp

example : ∃ p : DMP 1, p.y = p.goal ∧ p.z = 0 ∧ p.v = 0 ∧ p.goal ≠ 0 :=
  ⟨⟨fun _ _ => 5, fun _ => 1, 1, 1, 1, 1, 1, 1, 0, 0, 0, fun _ => 1⟩, rfl, rfl, rfl, fun h => by
    have := congrFun h 0; simp at this⟩

theorem update_consts {n : ℕ} (p : DMP n) : ∀ k, (DMP.update^[k] p).force = p.force ∧ (DMP.update^[k] p).goal = p.goal
    ∧ (DMP.update^[k] p).dt = p.dt ∧ (DMP.update^[k] p).tau = p.tau ∧ (DMP.update^[k] p).alphaZ = p.alphaZ
    ∧ (DMP.update^[k] p).betaZ = p.betaZ := by
  intro k
  induction k with
  | zero => simp
  | succ k ih => rw [Function.iterate_succ_apply']; exact ih

/-- C102: without a forcing term and with critical damping (`beta_z = alpha_z / 4`) the distance to the goal after `k` steps of the
integration is a linear function of `k` times the `k`-th power of `1 - alpha_z dt / (2 tau)`. -/
theorem C102_unforced {n : ℕ} (p : DMP n) (hf : ∀ x j, p.force x j = 0) (hb : p.betaZ = p.alphaZ / 4) (ht : p.tau ≠ 0) (k : ℕ)
    (j : Fin n) :
    (DMP.update^[k] p).y j - p.goal j
      = (1 - p.alphaZ * p.dt / (2 * p.tau)) ^ k * (p.y j - p.goal j)
        + k * (1 - p.alphaZ * p.dt / (2 * p.tau)) ^ (k - 1) * (p.dt / p.tau) * (p.z j + p.alphaZ / 2 * (p.y j - p.goal j)) := by
  suffices h : (DMP.update^[k] p).y j - p.goal j
      = (1 - p.alphaZ * p.dt / (2 * p.tau)) ^ k * (p.y j - p.goal j)
        + k * (1 - p.alphaZ * p.dt / (2 * p.tau)) ^ (k - 1) * (p.dt / p.tau) * (p.z j + p.alphaZ / 2 * (p.y j - p.goal j))
      ∧ (DMP.update^[k] p).z j + p.alphaZ / 2 * ((DMP.update^[k] p).y j - p.goal j)
        = (1 - p.alphaZ * p.dt / (2 * p.tau)) ^ k * (p.z j + p.alphaZ / 2 * (p.y j - p.goal j)) from h.1
  induction k with
  | zero => simp
  | succ k ih =>
    obtain ⟨h1, h2⟩ := ih
    obtain ⟨c1, c2, c3, c4, c5, c6⟩ := update_consts p k
    rw [Function.iterate_succ_apply']
    set q := DMP.update^[k] p with hq
    have hy : q.update.y j = q.y j + q.z j / p.tau * p.dt := by
      simp only [DMP.update, c1, hf, c3, c4]; ring
    have hz : q.update.z j = q.z j + p.alphaZ * (p.alphaZ / 4 * (p.goal j - q.y j) - q.z j) / p.tau * p.dt := by
      simp only [DMP.update, c2, c3, c4, c5, c6, hb]
    set lam := 1 - p.alphaZ * p.dt / (2 * p.tau) with hlam
    have hdamp : p.alphaZ * p.dt / (2 * p.tau) = p.alphaZ / 2 * (p.dt / p.tau) := by field_simp
    have e1 : q.update.y j - p.goal j
        = lam * (q.y j - p.goal j) + p.dt / p.tau * (q.z j + p.alphaZ / 2 * (q.y j - p.goal j)) := by
      rw [hy, hlam, hdamp]; ring
    have e2 : q.update.z j + p.alphaZ / 2 * (q.update.y j - p.goal j)
        = lam * (q.z j + p.alphaZ / 2 * (q.y j - p.goal j)) := by
      rw [hz, hy, hlam, hdamp]; ring
    constructor
    · rw [e1, h2, h1]
      cases k with
      | zero => simp
      | succ k =>
        simp only [Nat.add_sub_cancel]
        push_cast
        ring
    · rw [e2, h2]; ring

/-- C102: such a movement reaches the goal in the limit if the step is small enough. -/
theorem C102_converges {n : ℕ} (p : DMP n) (hf : ∀ x j, p.force x j = 0) (hb : p.betaZ = p.alphaZ / 4) (ht : 0 < p.tau)
    (ha : 0 < p.alphaZ) (hdt : 0 < p.dt) (hs : p.alphaZ * p.dt < 4 * p.tau) (j : Fin n) :
    Filter.Tendsto (fun k => (DMP.update^[k] p).y j) Filter.atTop (nhds (p.goal j)) := by
  set lam := 1 - p.alphaZ * p.dt / (2 * p.tau) with hlam
  have h1 : |lam| < 1 := by
    have hpos : 0 < p.alphaZ * p.dt / (2 * p.tau) := by positivity
    have hlt : p.alphaZ * p.dt / (2 * p.tau) < 2 := by rw [div_lt_iff₀ (by positivity)]; linarith
    rw [abs_lt]; constructor <;> linarith
  have t1 : Filter.Tendsto (fun k : ℕ => lam ^ k) Filter.atTop (nhds 0) := tendsto_pow_atTop_nhds_zero_of_abs_lt_one h1
  have t2 : Filter.Tendsto (fun k : ℕ => (k : ℝ) * lam ^ (k - 1)) Filter.atTop (nhds 0) := by
    have h3 := tendsto_self_mul_const_pow_of_abs_lt_one h1
    have h4 : Filter.Tendsto (fun k : ℕ => ((k + 1 : ℕ) : ℝ) * lam ^ ((k + 1) - 1)) Filter.atTop (nhds 0) := by
      have : (fun k : ℕ => ((k + 1 : ℕ) : ℝ) * lam ^ ((k + 1) - 1)) = fun k : ℕ => (k : ℝ) * lam ^ k + lam ^ k := by
        funext k; simp only [Nat.add_sub_cancel]; push_cast; ring
      rw [this]; simpa using h3.add t1
    exact (Filter.tendsto_add_atTop_iff_nat (f := fun k : ℕ => (k : ℝ) * lam ^ (k - 1)) 1).1 h4
  have h5 : (fun k => (DMP.update^[k] p).y j) = fun k : ℕ => p.goal j + (lam ^ k * (p.y j - p.goal j)
      + (k : ℝ) * lam ^ (k - 1) * (p.dt / p.tau * (p.z j + p.alphaZ / 2 * (p.y j - p.goal j)))) := by
    funext k
    have := C102_unforced p hf hb ht.ne' k j
    rw [← hlam] at this
    linarith
  rw [h5]
  have := ((t1.mul_const (p.y j - p.goal j)).add
    (t2.mul_const (p.dt / p.tau * (p.z j + p.alphaZ / 2 * (p.y j - p.goal j))))).const_add (p.goal j)
  simpa using this

example : ∃ p : DMP 1, (∀ x j, p.force x j = 0) ∧ p.betaZ = p.alphaZ / 4 ∧ 0 < p.tau ∧ 0 < p.alphaZ ∧ 0 < p.dt
    ∧ p.alphaZ * p.dt < 4 * p.tau ∧ p.goal 0 = 1 :=
  ⟨⟨fun _ _ => 0, fun _ => 1, 1 / 100, 1, 25, 25 / 4, 25, 25 / 4, 0, 0, 0, 0⟩, fun _ _ => rfl, by norm_num, by norm_num, by norm_num,
    by norm_num, by norm_num, rfl⟩

/-- The movement that differs from `p` in the forcing regressor only. -/
def withForce {n : ℕ} (p : DMP n) (force : Vec n → Vec n) : DMP n := { p with force := force }

/-- C102 is false of the canonical system: it is driven by the output, so the phase depends on the forcing regressor. -/
theorem C102_phase_refuted : ∃ (p : DMP 1) (force : Vec 1 → Vec 1),
    (DMP.update^[4] p.reset).x ≠ (DMP.update^[4] (withForce p force).reset).x := by
  refine ⟨⟨fun _ _ => 0, fun _ => 1, 1, 1, 1, 1, 1, 1, 0, 0, 0, 0⟩, fun _ _ => 1, ?_⟩
  intro h
  have := congrFun h 0
  simp only [withForce, DMP.reset, DMP.update, Function.iterate_succ, Function.iterate_zero, Function.comp, id, Pi.zero_apply] at this
  norm_num at this

/-- C102 is false of the returned actions of `DMP`: they are one array, so earlier actions change with every call. -/
theorem C102_actions_refuted : ∃ p : DMP 1, p.reset.returned 3 ≠ p.reset.outputs 3 := by
  refine ⟨⟨fun _ _ => 0, fun _ => 1, 1, 1, 1, 1, 1, 1, 0, 0, 0, 0⟩, ?_⟩
  intro h
  have h0 := congrArg (fun l => l.head?.map (fun v => v 0)) h
  simp [DMP.returned, DMP.outputs, DMP.reset, DMP.update, List.range_succ] at h0

/-- C102 is false of `DMP`: no agent can be constructed with it, because it has no `policy_state_shape`. -/
theorem C102_agent_refuted : agentInit dmpInit = none := by decide

/-- C102, for the other policies: an agent can be constructed and knows the shape of the state of its policy. -/
theorem C102_agent_partial (own : List String) (h : "policy_state_shape" ∉ own) (shape : Option (List ℕ)) :
    agentInit (otherInit own shape) = some shape := by
  induction own with
  | nil => rfl
  | cons a own ih =>
    have ha : ("policy_state_shape" == a) = false := by
      simp only [List.mem_cons, not_or] at h
      simpa using h.1
    simp only [agentInit, otherInit, List.map_cons, List.cons_append, List.lookup_cons, ha]
    exact ih (fun h' => h (by simp [h']))

example : "policy_state_shape" ∉ ["_approximator", "_phi", "_duration", "_sigma", "_periodic"] := by decide

end Verif.Explore
