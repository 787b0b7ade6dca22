/-
Properties C97 (REPS, RWR, PGPE), C98 (MORE) and C99 (black-box agents in vectorised environments).
-/
import Verif.Search.SpecBB
import Verif.Search.PropsPG
import Verif.Search.PropsCon
import Mathlib.Analysis.SpecialFunctions.Log.Deriv
import Mathlib.Analysis.SpecialFunctions.ExpDeriv
import Mathlib.Analysis.Calculus.Deriv.Inv

namespace Verif.Search

open Matrix

variable {n : ℕ}

/-! ### REPS: the dual function -/

theorem expSum_pos (f : ℝ → ℝ) (J : List ℝ) (hJ : J ≠ []) : 0 < (J.map (fun x => Real.exp (f x))).sum := by
  refine List.sum_pos _ ?_ (by simpa using hJ)
  intro x hx
  obtain ⟨y, _, rfl⟩ := List.mem_map.1 hx
  exact Real.exp_pos _

theorem length_pos' {J : List ℝ} (hJ : J ≠ []) : (0 : ℝ) < J.length := by
  exact_mod_cast List.length_pos_iff.2 hJ

theorem list_hasDeriv (J : List ℝ) (f f' : ℝ → ℝ → ℝ) (t : ℝ) (h : ∀ x, HasDerivAt (f x) (f' x t) t) :
    HasDerivAt (fun s => (J.map (fun x => f x s)).sum) (J.map (fun x => f' x t)).sum t := by
  induction J with
  | nil => simpa using hasDerivAt_const t (0 : ℝ)
  | cons x J ih =>
    simp only [List.map_cons, List.sum_cons]
    exact (h x).fun_add ih

/-- C97. The gradient given to the minimiser is the derivative of the dual function given to it. -/
theorem C97_dual_gradient (eps : ℝ) (J : List ℝ) (hJ : J ≠ []) (eta : ℝ) (he : 0 < eta) :
    HasDerivAt (repsDual eps J) (repsDiff eps J eta) eta := by
  set r : ℝ → ℝ := fun x => x - maxJ J
  have hS := expSum_pos (fun x => r x / eta) J hJ
  have hL := length_pos' hJ
  have h1 : ∀ x, HasDerivAt (fun s => Real.exp (r x / s)) (Real.exp (r x / eta) * (-(r x) / eta ^ 2)) eta := by
    intro x
    have : HasDerivAt (fun s => r x / s) (-(r x) / eta ^ 2) eta := by
      refine ((hasDerivAt_const eta (r x)).fun_div (hasDerivAt_id' eta) he.ne').congr_deriv ?_
      simp
    exact this.exp
  have h2 := list_hasDeriv J (fun x s => Real.exp (r x / s)) (fun x t => Real.exp (r x / t) * (-(r x) / t ^ 2)) eta h1
  have h3 : HasDerivAt (fun s => avg (J.map (fun x => Real.exp (r x / s))))
      ((J.map (fun x => Real.exp (r x / eta) * (-(r x) / eta ^ 2))).sum / J.length) eta := by
    unfold avg
    simp only [List.length_map]
    exact h2.div_const _
  have hpos : avg (J.map (fun x => Real.exp (r x / eta))) ≠ 0 := by
    unfold avg
    rw [List.length_map]
    exact (div_pos hS hL).ne'
  have h4 := (((hasDerivAt_id' eta).mul_const eps).fun_add ((hasDerivAt_id' eta).fun_mul (h3.log hpos))).add_const (maxJ J)
  refine h4.congr_deriv ?_
  have hsum : (J.map (fun x => Real.exp (r x / eta) * (-(r x) / eta ^ 2))).sum =
      -(J.map (fun x => Real.exp (r x / eta) * r x)).sum / eta ^ 2 := by
    clear h1 h2 h3 h4 hpos hS hL hJ
    generalize r = r
    induction J with
    | nil => simp
    | cons x J ih => simp only [List.map_cons, List.sum_cons, ih]; ring
  rw [hsum]
  show _ = eps + Real.log (avg (J.map (fun x => Real.exp (r x / eta)))) -
    avg (J.map (fun x => Real.exp (r x / eta) * r x)) / (eta * avg (J.map (fun x => Real.exp (r x / eta))))
  unfold avg at hpos ⊢
  simp only [List.length_map] at hpos ⊢
  have := hS.ne'
  field_simp
  ring

theorem gibbs (l : List (ℝ × ℝ)) (Z : ℝ) (hZ : 0 < Z) (hq : ∀ p ∈ l, 0 ≤ p.1) :
    (l.map (fun p => p.1 * (p.2 - Real.log p.1 - Real.log Z))).sum ≤
      (l.map (fun p => Real.exp p.2)).sum / Z - (l.map (fun p => p.1)).sum := by
  induction l with
  | nil => simp
  | cons p l ih =>
    have ih' := ih (fun q hq' => hq q (List.mem_cons_of_mem _ hq'))
    have hp := hq p List.mem_cons_self
    simp only [List.map_cons, List.sum_cons]
    have key : p.1 * (p.2 - Real.log p.1 - Real.log Z) ≤ Real.exp p.2 / Z - p.1 := by
      rcases hp.eq_or_lt with h0 | h0
      · rw [← h0]
        simp only [zero_mul, sub_zero]
        exact (div_pos (Real.exp_pos _) hZ).le
      · have ht : 0 < Real.exp p.2 / (p.1 * Z) := div_pos (Real.exp_pos _) (mul_pos h0 hZ)
        have h1 := Real.log_le_sub_one_of_pos ht
        rw [Real.log_div (Real.exp_ne_zero _) (mul_pos h0 hZ).ne', Real.log_exp, Real.log_mul h0.ne' hZ.ne'] at h1
        have h2 := mul_le_mul_of_nonneg_left h1 h0.le
        have h3 : p.1 * (Real.exp p.2 / (p.1 * Z) - 1) = Real.exp p.2 / Z - p.1 := by field_simp
        rw [h3] at h2
        linarith
    have : (Real.exp p.2 + (l.map (fun p => Real.exp p.2)).sum) / Z = Real.exp p.2 / Z + (l.map (fun p => Real.exp p.2)).sum / Z :=
      add_div _ _ _
    linarith

theorem klUniform_eq (q : List ℝ) (hq : IsProb q) :
    klUniform q = Real.log q.length + (q.map (fun x => x * Real.log x)).sum := by
  have hne : q ≠ [] := by rintro rfl; simpa using hq.2
  have hL := length_pos' hne
  have gen : ∀ l : List ℝ, (l.map (fun x => x * Real.log (q.length * x))).sum =
      l.sum * Real.log q.length + (l.map (fun x => x * Real.log x)).sum := by
    intro l
    induction l with
    | nil => simp
    | cons x l ih =>
      simp only [List.map_cons, List.sum_cons, ih]
      by_cases hx : x = 0
      · simp [hx]
      · rw [Real.log_mul hL.ne' hx]; ring
  unfold klUniform
  rw [gen, hq.2, one_mul]

theorem expectedJ_eq (q J : List ℝ) : expectedJ q J = ((q.zip J).map (fun p => p.1 * p.2)).sum := by
  unfold expectedJ
  rw [← List.zipWith_map_left, ← List.zipWith_map_right]
  simp [List.zip, List.map_zipWith]

theorem zip_map_fst {q J : List ℝ} (h : q.length = J.length) (f : ℝ → ℝ) :
    ((q.zip J).map (fun p => f p.1)) = q.map f := by
  rw [show (fun p : ℝ × ℝ => f p.1) = f ∘ Prod.fst from rfl, ← List.map_map, List.map_fst_zip (by omega)]

theorem zip_map_snd {q J : List ℝ} (h : q.length = J.length) (f : ℝ → ℝ) :
    ((q.zip J).map (fun p => f p.2)) = J.map f := by
  rw [show (fun p : ℝ × ℝ => f p.2) = f ∘ Prod.snd from rfl, ← List.map_map, List.map_snd_zip (by omega)]

/-- C97. For every multiplier the dual function is at least the expected return of every distribution over the episodes whose
divergence from the uniform one is at most `eps`. -/
theorem C97_dual_bound (eps : ℝ) (q J : List ℝ) (hl : q.length = J.length) (hq : IsProb q) (hkl : klUniform q ≤ eps)
    (eta : ℝ) (he : 0 < eta) : expectedJ q J ≤ repsDual eps J eta := by
  have hne : q ≠ [] := by rintro rfl; simpa using hq.2
  have hJ : J ≠ [] := by rintro rfl; simp at hl; exact hne hl
  set M := maxJ J with hM
  have hS := expSum_pos (fun x => (x - M) / eta) J hJ
  set Z := (J.map (fun x => Real.exp ((x - M) / eta))).sum with hZ
  have hg := gibbs ((q.zip J).map (fun p => (p.1, (p.2 - M) / eta))) Z hS (by
    intro p hp
    obtain ⟨p', hp', rfl⟩ := List.mem_map.1 hp
    exact hq.1 _ (List.of_mem_zip hp').1)
  simp only [List.map_map, Function.comp_def] at hg
  rw [zip_map_snd hl (fun x => Real.exp ((x - M) / eta)), ← hZ, zip_map_fst hl (fun x => x), List.map_id', hq.2,
    div_self hS.ne', sub_self] at hg
  have hsplit : ((q.zip J).map (fun p => p.1 * ((p.2 - M) / eta - Real.log p.1 - Real.log Z))).sum =
      (expectedJ q J - M) / eta - (q.map (fun x => x * Real.log x)).sum - Real.log Z := by
    have e1 : ((q.zip J).map (fun p => p.1)).sum = 1 := by
      rw [zip_map_fst hl (fun x => x), List.map_id', hq.2]
    have e2 : ((q.zip J).map (fun p => p.1 * Real.log p.1)).sum = (q.map (fun x => x * Real.log x)).sum := by
      rw [zip_map_fst hl (fun x => x * Real.log x)]
    have gen : ∀ l : List (ℝ × ℝ), (l.map (fun p => p.1 * ((p.2 - M) / eta - Real.log p.1 - Real.log Z))).sum =
        ((l.map (fun p => p.1 * p.2)).sum - M * (l.map (fun p => p.1)).sum) / eta - (l.map (fun p => p.1 * Real.log p.1)).sum -
          Real.log Z * (l.map (fun p => p.1)).sum := by
      intro l
      induction l with
      | nil => simp
      | cons p l ih => simp only [List.map_cons, List.sum_cons, ih]; ring
    rw [gen, e1, e2, expectedJ_eq, mul_one, mul_one]
  rw [hsplit] at hg
  rw [klUniform_eq q hq] at hkl
  have hL := length_pos' hJ
  unfold repsDual avg
  rw [List.length_map, ← hM, ← hZ, Real.log_div hS.ne' hL.ne']
  rw [hl] at hkl
  have h1 : (expectedJ q J - M) / eta ≤ eps + Real.log Z - Real.log J.length := by linarith
  rw [div_le_iff₀ he] at h1
  nlinarith

theorem repsWeights_sum_pos (eta : ℝ) (J : List ℝ) (hJ : J ≠ []) : 0 < (repsWeights eta J).sum :=
  expSum_pos (fun x => (x - maxJ J) / eta) J hJ

theorem sum_map_div (l : List ℝ) (f : ℝ → ℝ) (c : ℝ) : (l.map (fun x => f x / c)).sum = (l.map f).sum / c := by
  induction l with
  | nil => simp
  | cons x l ih => simp only [List.map_cons, List.sum_cons, ih]; ring

theorem normalise_prob (eta : ℝ) (J : List ℝ) (hJ : J ≠ []) : IsProb (normalise (repsWeights eta J)) := by
  have h := repsWeights_sum_pos eta J hJ
  constructor
  · intro x hx
    obtain ⟨y, hy, rfl⟩ := List.mem_map.1 hx
    obtain ⟨z, _, rfl⟩ := List.mem_map.1 hy
    exact (div_pos (Real.exp_pos _) h).le
  · unfold normalise
    rw [sum_map_div (repsWeights eta J) (fun x => x), List.map_id', div_self h.ne']

/-- C97. The gradient of the dual function is `eps` minus the divergence, from the uniform distribution, of the weights that REPS
uses, once they are normalised. Where it vanishes these weights satisfy the bound, and no distribution over the episodes that does
has a higher expected return. -/
theorem C97_reps_optimal (eps : ℝ) (J : List ℝ) (hJ : J ≠ []) (eta : ℝ) (he : 0 < eta) :
    IsProb (normalise (repsWeights eta J)) ∧ repsDiff eps J eta = eps - klUniform (normalise (repsWeights eta J)) ∧
    (repsDiff eps J eta = 0 → ∀ q : List ℝ, q.length = J.length → IsProb q → klUniform q ≤ eps →
      expectedJ q J ≤ expectedJ (normalise (repsWeights eta J)) J) := by
  have hp := normalise_prob eta J hJ
  have hZ := repsWeights_sum_pos eta J hJ
  have hL := length_pos' hJ
  set M := maxJ J with hM
  set Z := (repsWeights eta J).sum with hZd
  have hkl : klUniform (normalise (repsWeights eta J)) = Real.log J.length - Real.log Z +
      (J.map (fun x => Real.exp ((x - M) / eta) * (x - M))).sum / (eta * Z) := by
    rw [klUniform_eq _ hp]
    have e1 : (normalise (repsWeights eta J)).length = J.length := by simp [normalise, repsWeights]
    rw [e1]
    have e2 : ((normalise (repsWeights eta J)).map (fun x => x * Real.log x)).sum =
        (J.map (fun x => Real.exp ((x - M) / eta) * (x - M))).sum / (eta * Z) -
          Real.log Z * (J.map (fun x => Real.exp ((x - M) / eta))).sum / Z := by
      unfold normalise
      rw [List.map_map, ← hZd]
      unfold repsWeights
      rw [List.map_map, ← hM]
      have gen : ∀ l : List ℝ, (l.map ((((fun x => x * Real.log x) ∘ fun x => x / Z)) ∘ fun x => Real.exp ((x - M) / eta))).sum =
          (l.map (fun x => Real.exp ((x - M) / eta) * (x - M))).sum / (eta * Z) -
          Real.log Z * (l.map (fun x => Real.exp ((x - M) / eta))).sum / Z := by
        intro l
        induction l with
        | nil => simp
        | cons x l ih =>
          simp only [List.map_cons, List.sum_cons, ih, Function.comp]
          rw [Real.log_div (Real.exp_ne_zero _) hZ.ne', Real.log_exp]
          field_simp
          ring
      exact gen J
    have e3 : (J.map (fun x => Real.exp ((x - M) / eta))).sum = Z := rfl
    rw [e2, e3]
    field_simp
    ring
  have hd : repsDiff eps J eta = eps - klUniform (normalise (repsWeights eta J)) := by
    rw [hkl]
    unfold repsDiff avg
    simp only [List.length_map]
    have e3 : (J.map (fun x => Real.exp ((x - maxJ J) / eta))).sum = Z := rfl
    rw [e3, Real.log_div hZ.ne' hL.ne', ← hM]
    field_simp
    ring
  refine ⟨hp, hd, fun h0 q hq1 hq2 hq3 => ?_⟩
  refine (C97_dual_bound eps q J hq1 hq2 hq3 eta he).trans (le_of_eq ?_)
  have hE : expectedJ (normalise (repsWeights eta J)) J = (J.map (fun x => Real.exp ((x - M) / eta) * (x - M))).sum / Z + M := by
    unfold expectedJ normalise
    rw [← hZd]
    unfold repsWeights
    rw [List.map_map, List.zipWith_map_left, List.zipWith_self, ← hM]
    have gen : ∀ l : List ℝ, (l.map (fun x => ((fun x => x / Z) ∘ fun x => Real.exp ((x - M) / eta)) x * x)).sum =
        (l.map (fun x => Real.exp ((x - M) / eta) * (x - M))).sum / Z + M * ((l.map (fun x => Real.exp ((x - M) / eta))).sum / Z) := by
      intro l
      induction l with
      | nil => simp
      | cons x l ih =>
        simp only [List.map_cons, List.sum_cons]
        rw [ih]
        simp only [Function.comp]
        ring
    rw [gen J]
    have e3 : (J.map (fun x => Real.exp ((x - M) / eta))).sum = Z := rfl
    rw [e3, div_self hZ.ne', mul_one]
  rw [hE]
  have h0' : eps = Real.log J.length - Real.log Z + (J.map (fun x => Real.exp ((x - M) / eta) * (x - M))).sum / (eta * Z) := by
    rw [← hkl]; linarith
  unfold repsDual avg
  rw [List.length_map]
  have e3 : (J.map (fun x => Real.exp ((x - maxJ J) / eta))).sum = Z := rfl
  rw [e3, Real.log_div hZ.ne' hL.ne', h0', ← hM]
  field_simp
  ring

example : IsProb [(3 / 4 : ℝ), 1 / 4] ∧ klUniform [(3 / 4 : ℝ), 1 / 4] ≤ 1 ∧ expectedJ [(3 / 4 : ℝ), 1 / 4] [2, 1] = 7 / 4 := by
  refine ⟨⟨by intro x hx; fin_cases hx <;> norm_num, by norm_num⟩, ?_, by norm_num [expectedJ]⟩
  have h1 : Real.log (3 / 2) ≤ 1 / 2 := by
    have := Real.log_le_sub_one_of_pos (show (0 : ℝ) < 3 / 2 by norm_num); linarith
  have h2 : Real.log (1 / 2) ≤ 0 := Real.log_nonpos (by norm_num) (by norm_num)
  have e1 : (2 : ℝ) * (3 / 4) = 3 / 2 := by norm_num
  have e2 : (2 : ℝ) * (1 / 4) = 1 / 2 := by norm_num
  simp only [klUniform, List.length_cons, List.length_nil, List.map_cons, List.map_nil, List.sum_cons, List.sum_nil]
  push_cast
  norm_num only [e1, e2]
  linarith

/-! ### The weights and the update of REPS and RWR -/

theorem le_maxJ (J : List ℝ) : ∀ x ∈ J, x ≤ maxJ J := by
  fun_induction maxJ J with
  | case1 => simp
  | case2 x => simp
  | case3 x y l ih =>
    intro z hz
    rcases List.mem_cons.1 hz with rfl | hz
    · exact le_max_left _ _
    · exact (ih z hz).trans (le_max_right _ _)

theorem maxJ_mem (J : List ℝ) (hJ : J ≠ []) : maxJ J ∈ J := by
  fun_induction maxJ J with
  | case1 => exact absurd rfl hJ
  | case2 x => simp
  | case3 x y l ih =>
    rcases max_choice x (maxJ (y :: l)) with h | h <;> rw [h]
    · simp
    · exact List.mem_cons_of_mem _ (ih (by simp))

theorem maxJ_shift (J : List ℝ) (hJ : J ≠ []) (c : ℝ) : maxJ (J.map (fun x => x + c)) = maxJ J + c := by
  apply le_antisymm
  · obtain ⟨x, hx, h⟩ := List.mem_map.1 (maxJ_mem (J.map (fun x => x + c)) (by simpa using hJ))
    rw [← h]
    linarith [le_maxJ J x hx]
  · exact le_maxJ _ _ (List.mem_map.2 ⟨_, maxJ_mem J hJ, rfl⟩)

theorem repsWeights_eq_rwr (beta : ℝ) (J : List ℝ) : rwrWeights beta J = repsWeights beta⁻¹ J := by
  unfold rwrWeights repsWeights
  refine List.map_congr_left (fun x _ => ?_)
  rw [div_inv_eq_mul, mul_comm]

/-- C97. The weight of an episode is a strictly increasing function of its return, positive and at most one, and one for the best
episode, so that the exponentials never overflow; a constant added to all the returns changes nothing. RWR is REPS with a fixed
multiplier. -/
theorem C97_weights (J : List ℝ) (hJ : J ≠ []) (eta beta : ℝ) (he : 0 < eta) (hb : 0 < beta) (c : ℝ) :
    (∃ f : ℝ → ℝ, StrictMono f ∧ repsWeights eta J = J.map f ∧ (∀ x ∈ J, 0 < f x ∧ f x ≤ 1) ∧ ∃ x ∈ J, f x = 1) ∧
    (∃ f : ℝ → ℝ, StrictMono f ∧ rwrWeights beta J = J.map f ∧ (∀ x ∈ J, 0 < f x ∧ f x ≤ 1) ∧ ∃ x ∈ J, f x = 1) ∧
    repsWeights eta (J.map (fun x => x + c)) = repsWeights eta J ∧ rwrWeights beta (J.map (fun x => x + c)) = rwrWeights beta J ∧
    rwrWeights eta⁻¹ J = repsWeights eta J := by
  have key : ∀ eta : ℝ, 0 < eta → ∃ f : ℝ → ℝ, StrictMono f ∧ repsWeights eta J = J.map f ∧
      (∀ x ∈ J, 0 < f x ∧ f x ≤ 1) ∧ ∃ x ∈ J, f x = 1 := by
    intro eta he
    refine ⟨fun x => Real.exp ((x - maxJ J) / eta), ?_, rfl, ?_, maxJ J, maxJ_mem J hJ, by simp⟩
    · intro x y hxy
      exact Real.exp_lt_exp.2 (div_lt_div_of_pos_right (by linarith) he)
    · intro x hx
      refine ⟨Real.exp_pos _, Real.exp_le_one_iff.2 ?_⟩
      exact div_nonpos_of_nonpos_of_nonneg (by linarith [le_maxJ J x hx]) he.le
  have shift : ∀ eta : ℝ, repsWeights eta (J.map (fun x => x + c)) = repsWeights eta J := by
    intro eta
    unfold repsWeights
    rw [maxJ_shift J hJ c, List.map_map]
    refine List.map_congr_left (fun x _ => ?_)
    simp
  refine ⟨key eta he, ?_, shift eta, ?_, ?_⟩
  · rw [repsWeights_eq_rwr]; exact key _ (inv_pos.2 hb)
  · rw [repsWeights_eq_rwr, repsWeights_eq_rwr, shift]
  · rw [repsWeights_eq_rwr, inv_inv]

example : (∃ f : ℝ → ℝ, StrictMono f ∧ repsWeights 2 [3, 1] = [3, 1].map f ∧ (∀ x ∈ [(3 : ℝ), 1], 0 < f x ∧ f x ≤ 1) ∧
    ∃ x ∈ [(3 : ℝ), 1], f x = 1) := (C97_weights [3, 1] (by simp) 2 1 (by norm_num) (by norm_num) 0).1

theorem klUniform_uniform (J : List ℝ) (hJ : J ≠ []) :
    IsProb (J.map (fun _ => 1 / (J.length : ℝ))) ∧ klUniform (J.map (fun _ => 1 / (J.length : ℝ))) = 0 := by
  have hL := length_pos' hJ
  refine ⟨⟨?_, ?_⟩, ?_⟩
  · intro x hx
    obtain ⟨_, _, rfl⟩ := List.mem_map.1 hx
    positivity
  · simp [hL.ne']
  · simp [klUniform, hL.ne']

theorem expectedJ_map (f : ℝ → ℝ) (J : List ℝ) : expectedJ (J.map f) J = (J.map (fun x => f x * x)).sum := by
  unfold expectedJ
  rw [List.zipWith_map_left, List.zipWith_self]

/-- C97. Under the weights of REPS or RWR the expected return is at least the average return. -/
theorem C97_improvement (J : List ℝ) (hJ : J ≠ []) (eta beta : ℝ) (he : 0 < eta) (hb : 0 < beta) :
    average J (fun x => x) ≤ expectedJ (normalise (repsWeights eta J)) J ∧
    average J (fun x => x) ≤ expectedJ (normalise (rwrWeights beta J)) J := by
  have key : ∀ eta : ℝ, 0 < eta → average J (fun x => x) ≤ expectedJ (normalise (repsWeights eta J)) J := by
    intro eta he
    have hu := klUniform_uniform J hJ
    have h0 := (C97_reps_optimal (klUniform (normalise (repsWeights eta J))) J hJ eta he).2
    have h1 := h0.2 (by rw [h0.1]; ring) (J.map (fun _ => 1 / (J.length : ℝ))) (by simp) hu.1 (by
      rw [hu.2]
      -- the divergence is nonnegative
      have hp := normalise_prob eta J hJ
      have hL := length_pos' hJ
      have e1 : (normalise (repsWeights eta J)).length = J.length := by simp [normalise, repsWeights]
      have hg := gibbs ((normalise (repsWeights eta J)).map (fun q => (q, (0 : ℝ)))) J.length hL (by
        intro p hp'
        obtain ⟨q, hq, rfl⟩ := List.mem_map.1 hp'
        exact hp.1 q hq)
      simp only [List.map_map, Function.comp_def, List.map_id', hp.2, Real.exp_zero] at hg
      have e2 : ((normalise (repsWeights eta J)).map (fun _ => (1 : ℝ))).sum = J.length := by simp [e1]
      rw [e2, div_self hL.ne', sub_self] at hg
      have e3 : ((normalise (repsWeights eta J)).map (fun x => x * (0 - Real.log x - Real.log J.length))).sum =
          -klUniform (normalise (repsWeights eta J)) := by
        rw [klUniform_eq _ hp, e1]
        have gen : ∀ l : List ℝ, (l.map (fun x => x * (0 - Real.log x - Real.log J.length))).sum =
            -(l.sum * Real.log J.length + (l.map (fun x => x * Real.log x)).sum) := by
          intro l
          induction l with
          | nil => simp
          | cons x l ih => simp only [List.map_cons, List.sum_cons, ih]; ring
        rw [gen, hp.2, one_mul]
      rw [e3] at hg
      linarith)
    refine le_trans (le_of_eq ?_) h1
    rw [expectedJ_map]
    unfold average
    rw [← sum_map_div]
    congr 1
    refine List.map_congr_left (fun x _ => ?_)
    ring
  exact ⟨key eta he, by rw [repsWeights_eq_rwr]; exact key _ (inv_pos.2 hb)⟩

theorem weighted_between (l : List (ℝ × Vec n)) (hw : ∀ p ∈ l, 0 ≤ p.1) (j : Fin n) (lo hi : ℝ)
    (hl : ∀ p ∈ l, lo ≤ p.2 j ∧ p.2 j ≤ hi) :
    lo * (l.map (fun p => p.1)).sum ≤ (l.map (fun p => p.1 * p.2 j)).sum ∧
      (l.map (fun p => p.1 * p.2 j)).sum ≤ hi * (l.map (fun p => p.1)).sum := by
  induction l with
  | nil => simp
  | cons p l ih =>
    have ih' := ih (fun q hq => hw q (List.mem_cons_of_mem _ hq)) (fun q hq => hl q (List.mem_cons_of_mem _ hq))
    have hp := hw p List.mem_cons_self
    have hb := hl p List.mem_cons_self
    simp only [List.map_cons, List.sum_cons]
    constructor
    · nlinarith [mul_le_mul_of_nonneg_left hb.1 hp]
    · nlinarith [mul_le_mul_of_nonneg_left hb.2 hp]

/-- C97. With a Gaussian distribution the new mean is the weighted mean of the parameters of the episodes, it lies among them in
every coordinate, and the covariance does not change. -/
theorem C97_update (g : Gauss n) (J : List ℝ) (hJ : J ≠ []) (theta : List (Vec n)) (hl : theta.length = J.length) (eta beta : ℝ) :
    (∃ g', repsUpdate g eta J theta = some g' ∧ IsWeightedMean ((repsWeights eta J).zip theta) g'.mu ∧ g'.sigma = g.sigma ∧
      ∀ j lo hi, (∀ x ∈ theta, lo ≤ x j ∧ x j ≤ hi) → lo ≤ g'.mu j ∧ g'.mu j ≤ hi) ∧
    (∃ g', rwrUpdate g beta J theta = some g' ∧ IsWeightedMean ((rwrWeights beta J).zip theta) g'.mu ∧ g'.sigma = g.sigma ∧
      ∀ j lo hi, (∀ x ∈ theta, lo ≤ x j ∧ x j ≤ hi) → lo ≤ g'.mu j ∧ g'.mu j ≤ hi) := by
  have key : ∀ eta, ∃ g', g.wmle ((repsWeights eta J).zip theta) = some g' ∧ IsWeightedMean ((repsWeights eta J).zip theta) g'.mu ∧
      g'.sigma = g.sigma ∧ ∀ j lo hi, (∀ x ∈ theta, lo ≤ x j ∧ x j ≤ hi) → lo ≤ g'.mu j ∧ g'.mu j ≤ hi := by
    intro eta
    have hlen : (repsWeights eta J).length = theta.length := by simp [repsWeights, hl]
    have hs : sumD ((repsWeights eta J).zip theta) = (repsWeights eta J).sum := by
      unfold sumD
      rw [show (fun p : ℝ × Vec n => p.1) = Prod.fst from rfl, List.map_fst_zip (by omega)]
    have hpos : 0 < sumD ((repsWeights eta J).zip theta) := by rw [hs]; exact repsWeights_sum_pos eta J hJ
    have hm := wmean_spec _ hpos.ne'
    refine ⟨_, if_neg hpos.ne', hm, rfl, fun j lo hi hb => ?_⟩
    have h := weighted_between ((repsWeights eta J).zip theta) (by
      intro p hp
      obtain ⟨x, _, hx⟩ := List.mem_map.1 (List.of_mem_zip hp).1
      rw [← hx]; exact (Real.exp_pos _).le) j lo hi (fun p hp => hb _ (List.of_mem_zip hp).2)
    have hj := hm j
    rw [← hj] at h
    have hpos' : 0 < (((repsWeights eta J).zip theta).map (fun p => p.1)).sum := hpos
    constructor
    · exact le_of_mul_le_mul_left (by linarith [h.1]) hpos'
    · exact le_of_mul_le_mul_left (by linarith [h.2]) hpos'
  refine ⟨key eta, ?_⟩
  unfold rwrUpdate
  rw [repsWeights_eq_rwr]
  exact key _

example : average [3, 1] (fun x => x) ≤ expectedJ (normalise (repsWeights 2 [3, 1])) [3, 1] :=
  (C97_improvement [3, 1] (by simp) 2 1 (by norm_num) (by norm_num)).1

example (g : Gauss 1) : ∃ g', repsUpdate g 2 [3, 1] [fun _ => 5, fun _ => 7] = some g' ∧ 5 ≤ g'.mu 0 ∧ g'.mu 0 ≤ 7 := by
  obtain ⟨g', h1, _, _, h⟩ := (C97_update g [3, 1] (by simp) [fun _ => 5, fun _ => 7] rfl 2 1).1
  exact ⟨g', h1, h 0 5 7 (by intro x hx; fin_cases hx <;> norm_num)⟩

/-- C97 fails for the divergence of the new distribution from the previous one, which the documentation of `eps` bounds: the bound is
only imposed on the weights of the samples. Two equally good samples far from the mean move it to their middle, whatever the
multiplier. -/
theorem C97_kl_refuted : ∃ (g : Gauss 1) (J : List ℝ) (theta : List (Vec 1)), ∀ eta : ℝ, 0 < eta → ∃ g', repsUpdate g eta J theta = some g' ∧
    klUniform (normalise (repsWeights eta J)) = 0 ∧ 50 < gaussKL g'.mu g'.sigma g.mu g.sigma := by
  refine ⟨⟨0, 1, 1⟩, [0, 0], [fun _ => 10, fun _ => 11], fun eta he => ?_⟩
  have hw : repsWeights eta [0, 0] = [1, 1] := by simp [repsWeights, maxJ]
  have hs : sumD (([1, 1] : List ℝ).zip [(fun _ => 10 : Vec 1), fun _ => 11]) ≠ 0 := by norm_num [sumD]
  refine ⟨_, by unfold repsUpdate; rw [hw]; exact if_neg hs, ?_, ?_⟩
  · rw [hw]; norm_num [normalise, klUniform]
  · have hm : wmean (([1, 1] : List ℝ).zip [(fun _ => 10 : Vec 1), fun _ => 11]) = fun _ => 21 / 2 := by
      funext j; norm_num [wmean, sumD]
    show 50 < gaussKL (wmean _) 1 0 1
    rw [hm]
    simp [gaussKL, dotProduct]
    norm_num

/-! ### PGPE -/

/-- C97. The gradient of PGPE is the average of the scores times the returns minus, in every component, the baseline that minimises
the second moment of the estimate; a constant added to all the returns changes nothing. -/
theorem C97_pgpe {α : Type} {d : ℕ} (l : List α) (s : α → Vec d) (J : α → ℝ) (c : ℝ) (j : Fin d) :
    (∃ b, pgpeGrad (l.map s) (l.map J) j = average l (fun a => s a j * (J a - b)) ∧
      ∀ b', average l (fun a => (s a j * (J a - b)) ^ 2) ≤ average l (fun a => (s a j * (J a - b')) ^ 2)) ∧
    pgpeGrad (l.map s) (l.map (fun a => J a + c)) j = pgpeGrad (l.map s) (l.map J) j := by
  have value : ∀ J : α → ℝ, pgpeGrad (l.map s) (l.map J) j =
      average l (fun a => s a j * (J a - bestBaseline (l.map (fun a => (s a j, J a))))) := by
    intro J
    unfold pgpeGrad
    simp only [zipWith_map_map, List.map_map, vmean_map, Function.comp_def]
    rw [baselineOf_map l s J (fun a => fun j => J a * s a j ^ 2) (fun a _ j => mul_comm _ _) j]
  refine ⟨⟨_, value J, fun b' => ?_⟩, ?_⟩
  · have h := C94_baseline (l.map (fun a => (s a j, J a))) b'
    simp only [List.map_map, Function.comp_def] at h
    unfold average
    simp only [mul_pow]
    exact div_le_div_of_nonneg_right h (by positivity)
  · rw [value, value]
    unfold bestBaseline
    simp only [List.map_map, Function.comp_def]
    by_cases h0 : (l.map (fun a => s a j ^ 2)).sum = 0
    · have hz : ∀ a ∈ l, s a j = 0 := by
        intro a ha
        have := (List.all_zero_of_le_zero_le_of_sum_eq_zero (l := l.map (fun a => s a j ^ 2)) (by
          intro x hx; obtain ⟨a, _, rfl⟩ := List.mem_map.1 hx; positivity) h0) (List.mem_map.2 ⟨a, ha, rfl⟩)
        exact pow_eq_zero_iff (two_ne_zero) |>.1 this
      unfold average
      congr 2
      refine List.map_congr_left (fun a ha => ?_)
      rw [hz a ha, zero_mul, zero_mul]
    · rw [if_neg h0, if_neg h0]
      have e : (l.map (fun a => s a j ^ 2 * (J a + c))).sum = (l.map (fun a => s a j ^ 2 * J a)).sum + c * (l.map (fun a => s a j ^ 2)).sum := by
        clear h0 value
        induction l with
        | nil => simp
        | cons a l ih => simp only [List.map_cons, List.sum_cons, ih]; ring
      rw [e, add_div, mul_div_assoc, div_self h0]
      unfold average
      congr 2
      refine List.map_congr_left (fun a _ => ?_)
      ring

end Verif.Search
