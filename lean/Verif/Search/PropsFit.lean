/-
Property C179: when an update with a full covariance fails, and what it leaves behind.
-/
import Verif.Search.ModelFit
import Verif.Search.SpecFit
import Verif.Search.PropsRwrChol
import Mathlib.LinearAlgebra.Dimension.Finrank
import Mathlib.LinearAlgebra.FiniteDimensional.Lemmas

namespace Verif.Search

open Matrix

variable {n : ℕ}

/-- As many points as there are dimensions, or fewer, lie in a hyperplane. -/
theorem inHyperplane_of_few (points : List (Vec n)) (h0 : 0 < n) (h : points.length ≤ n) : InHyperplane points := by
  match points, h with
  | [], _ => exact ⟨fun _ => 1, fun h => by simpa using congrFun h ⟨0, h0⟩, by simp⟩
  | p :: t, h =>
    let F : Vec n →ₗ[ℝ] (Fin t.length → ℝ) :=
      { toFun := fun x i => ∑ j, x j * (t[i] j - p j)
        map_add' := fun x y => by
          funext i
          simp only [Pi.add_apply, add_mul, Finset.sum_add_distrib]
        map_smul' := fun c x => by
          funext i
          simp only [Pi.smul_apply, smul_eq_mul, RingHom.id_apply, Finset.mul_sum, mul_assoc] }
    have hF := LinearMap.ker_ne_bot_of_finrank_lt (f := F) (by simpa using h)
    obtain ⟨x, hx, hx0⟩ := Submodule.exists_mem_ne_zero_of_ne_bot hF
    have hp : ∀ q ∈ p :: t, ∑ j, x j * q j = ∑ j, x j * p j := by
      intro q hq
      rcases List.mem_cons.1 hq with rfl | hq
      · rfl
      · obtain ⟨i, hi, rfl⟩ := List.mem_iff_getElem.1 hq
        have := congrFun (LinearMap.mem_ker.1 hx) ⟨i, hi⟩
        simp only [F, LinearMap.coe_mk, AddHom.coe_mk, Pi.zero_apply, mul_sub, Finset.sum_sub_distrib] at this
        simpa using sub_eq_zero.1 this
    exact ⟨x, hx0, fun a ha b hb => (hp a ha).trans (hp b hb).symm⟩

/-- The quadratic form of the weighted covariance. -/
theorem wcov_quad (l : List (ℝ × Vec n)) (x : Vec n) :
    x ⬝ᵥ (wcov l *ᵥ x) = (l.map (fun p => p.1 * (x ⬝ᵥ (p.2 - wmean l)) ^ 2)).sum / zOf l := by
  have h : ∀ l' : List (ℝ × Vec n), ∀ m : Vec n, ∑ a, ∑ b, x a * (((l'.map (fun p => p.1 * (p.2 a - m a) * (p.2 b - m b))).sum) * x b) =
      (l'.map (fun p => p.1 * (x ⬝ᵥ (p.2 - m)) ^ 2)).sum := by
    intro l' m
    induction l' with
    | nil => simp
    | cons p t ih =>
      simp only [List.map_cons, List.sum_cons, ← ih, add_mul, mul_add, Finset.sum_add_distrib]
      congr 1
      rw [sq, dotProduct, Finset.sum_mul_sum, Finset.mul_sum]
      refine Finset.sum_congr rfl fun a _ => ?_
      rw [Finset.mul_sum]
      exact Finset.sum_congr rfl fun b _ => by simp only [Pi.sub_apply]; ring
  rw [← h l (wmean l), Finset.sum_div]
  simp only [dotProduct, mulVec, wcov, Finset.mul_sum, Finset.sum_div]
  exact Finset.sum_congr rfl fun a _ => Finset.sum_congr rfl fun b _ => by ring

theorem wmean_dot (l : List (ℝ × Vec n)) (x : Vec n) (hs : sumD l ≠ 0) :
    sumD l * (x ⬝ᵥ wmean l) = (l.map (fun p => p.1 * (x ⬝ᵥ p.2))).sum := by
  have h : ∀ l' : List (ℝ × Vec n), ∑ j, x j * (l'.map (fun p => p.1 * p.2 j)).sum = (l'.map (fun p => p.1 * (x ⬝ᵥ p.2))).sum := by
    intro l'
    induction l' with
    | nil => simp
    | cons p t ih =>
      simp only [List.map_cons, List.sum_cons, ← ih, mul_add, Finset.sum_add_distrib]
      congr 1
      rw [dotProduct, Finset.mul_sum]
      exact Finset.sum_congr rfl fun j _ => by ring
  rw [← h, dotProduct, Finset.mul_sum]
  refine Finset.sum_congr rfl fun j _ => ?_
  unfold wmean
  field_simp

theorem sumD_pos (l : List (ℝ × Vec n)) (hl : l ≠ []) (hw : ∀ p ∈ l, 0 < p.1) : 0 < sumD l := by
  unfold sumD
  refine List.sum_pos _ ?_ (by simpa using hl)
  intro y hy
  obtain ⟨p, hp, rfl⟩ := List.mem_map.1 hy
  exact hw p hp

/-- Whether all points have the same product with `x`. -/
theorem same_iff (l : List (ℝ × Vec n)) (x : Vec n) (hl : l ≠ []) (hw : ∀ p ∈ l, 0 < p.1) :
    (∀ p ∈ l, x ⬝ᵥ (p.2 - wmean l) = 0) ↔ ∀ p ∈ l.map Prod.snd, ∀ q ∈ l.map Prod.snd, ∑ j, x j * p j = ∑ j, x j * q j := by
  have hs := (sumD_pos l hl hw).ne'
  constructor
  · intro h a ha b hb
    obtain ⟨p, hp, rfl⟩ := List.mem_map.1 ha
    obtain ⟨q, hq, rfl⟩ := List.mem_map.1 hb
    have h1 := h p hp
    have h2 := h q hq
    rw [dotProduct_sub, sub_eq_zero] at h1 h2
    exact h1.trans h2.symm
  · intro h p hp
    have hc : ∀ q ∈ l, x ⬝ᵥ q.2 = x ⬝ᵥ p.2 := fun q hq => h _ (List.mem_map.2 ⟨q, hq, rfl⟩) _ (List.mem_map.2 ⟨p, hp, rfl⟩)
    have h1 := wmean_dot l x hs
    have h2 : l.map (fun q => q.1 * (x ⬝ᵥ q.2)) = l.map (fun q => q.1 * (x ⬝ᵥ p.2)) := List.map_congr_left fun q hq => by rw [hc q hq]
    rw [h2, List.sum_map_mul_right] at h1
    have h3 : x ⬝ᵥ wmean l = x ⬝ᵥ p.2 := mul_left_cancel₀ hs h1
    rw [dotProduct_sub, h3, sub_self]

/-- C179 (when). The fit of a full covariance to the parameters of episodes with positive weights raises exactly if the parameters lie in a
common hyperplane. In any case the mean becomes the weighted mean; the covariance stays as it was if the fit raises, and becomes the
weighted covariance otherwise. -/
theorem C179_raises (cholesky : Matrix (Fin n) (Fin n) ℝ → Option (Matrix (Fin n) (Fin n) ℝ)) (hc : IsCholesky cholesky)
    (hd : ∀ M, M.PosDef → (cholesky M).isSome) (hn : 0 < n) (g : Chol n) (l : List (ℝ × Vec n)) (hl : l ≠ []) (hw : ∀ p ∈ l, 0 < p.1) :
    ((g.fit cholesky l).1 = .error .linAlg ↔ InHyperplane (l.map Prod.snd)) ∧
    IsWeightedMean l (g.fit cholesky l).2.mu ∧
    ((g.fit cholesky l).1 = .error .linAlg → (g.fit cholesky l).2.chol = g.chol) ∧
    ((g.fit cholesky l).1 = .ok () → ∀ a b, (g.fit cholesky l).2.sigma a b *
      ((l.map (fun p => p.1)).sum - (l.map (fun p => p.1 ^ 2)).sum / (l.map (fun p => p.1)).sum) =
        (l.map (fun p => p.1 * (p.2 a - (g.fit cholesky l).2.mu a) * (p.2 b - (g.fit cholesky l).2.mu b))).sum) := by
  have hs := sumD_pos l hl hw
  have hz0 := (zOf_nonneg l fun p hp => (hw p hp).le).1
  have hmean : IsWeightedMean l (wmean l) := by
    intro j
    unfold wmean
    show sumD l * _ = _
    field_simp
  have hzpos : ¬ InHyperplane (l.map Prod.snd) → 0 < zOf l := by
    intro hh
    match l, hl with
    | [p], _ => exact absurd (inHyperplane_of_few _ hn (by simp; omega)) hh
    | p :: q :: t, _ =>
      exact (zOf_nonneg _ fun p hp => (hw p hp).le).2 [] [] t p q rfl (hw p (by simp)) (hw q (by simp))
  have hpos : ¬ InHyperplane (l.map Prod.snd) → (wcov l).PosDef := by
    intro hh
    refine Matrix.PosDef.of_dotProduct_mulVec_pos ?_ fun x hx => ?_
    · ext a b
      simp only [conjTranspose_apply, star_trivial, wcov]
      congr 3
      funext p
      ring
    · simp only [star_trivial]
      rw [wcov_quad]
      refine div_pos ?_ (hzpos hh)
      have hnn : ∀ y ∈ l.map (fun p => p.1 * (x ⬝ᵥ (p.2 - wmean l)) ^ 2), 0 ≤ y := by
        intro y hy
        obtain ⟨p, hp, rfl⟩ := List.mem_map.1 hy
        exact mul_nonneg (hw p hp).le (sq_nonneg _)
      refine lt_of_le_of_ne (List.sum_nonneg hnn) fun h0 => hh ⟨x, hx, (same_iff l x hl hw).1 fun p hp => ?_⟩
      have hmem := List.mem_map_of_mem (f := fun p : ℝ × Vec n => p.1 * (x ⬝ᵥ (p.2 - wmean l)) ^ 2) hp
      have := le_antisymm ((List.single_le_sum hnn _ hmem).trans h0.symm.le) (hnn _ hmem)
      rcases mul_eq_zero.1 this with h1 | h1
      · exact absurd h1 (hw p hp).ne'
      · exact pow_eq_zero_iff two_ne_zero |>.1 h1
  have hneg : InHyperplane (l.map Prod.snd) → ∀ c, cholesky (wcov l) ≠ some c := by
    rintro ⟨x, hx, hxs⟩ c hcs
    obtain ⟨h1, h2, h3⟩ := hc _ _ hcs
    have hdet : c.det ≠ 0 := by
      rw [det_of_lowerTriangular c (fun i j hij => h1 i j (OrderDual.toDual_lt_toDual.1 hij))]
      exact Finset.prod_ne_zero_iff.2 fun i _ => (h2 i).ne'
    have hp := Pgpe.posDef_chol c hdet
    rw [h3] at hp
    have hq : 0 < x ⬝ᵥ (wcov l *ᵥ x) := by simpa using hp.dotProduct_mulVec_pos hx
    rw [wcov_quad] at hq
    have hz : l.map (fun p => p.1 * (x ⬝ᵥ (p.2 - wmean l)) ^ 2) = l.map (fun _ => (0 : ℝ)) :=
      List.map_congr_left fun p hp => by rw [(same_iff l x hl hw).2 hxs p hp]; ring
    rw [hz] at hq
    simp at hq
  by_cases hh : InHyperplane (l.map Prod.snd)
  · have hr : g.fit cholesky l = (.error .linAlg, { g with mu := wmean l }) := by
      unfold Chol.fit
      by_cases hz : zOf l = 0
      · simp [hz]
      · cases hcs : cholesky (wcov l) with
        | none => simp [hz, hcs]
        | some c => exact absurd hcs (hneg hh c)
    rw [hr]
    exact ⟨by simp [hh], hmean, fun _ => rfl, by simp⟩
  · obtain ⟨c, hcs⟩ := Option.isSome_iff_exists.1 (hd _ (hpos hh))
    have hz := hzpos hh
    have hr : g.fit cholesky l = (.ok (), { mu := wmean l, chol := c }) := by
      unfold Chol.fit
      simp [hz.ne', hcs]
    rw [hr]
    refine ⟨by simp [hh], hmean, by simp, fun _ a b => ?_⟩
    have : (⟨wmean l, c⟩ : Chol n).sigma = wcov l := (hc _ _ hcs).2.2
    rw [this]
    show wcov l a b * zOf l = _
    unfold wcov
    rw [div_mul_cancel₀ _ hz.ne']

theorem weights_pos (F : ℝ → ℝ) (J : List ℝ) (theta : List (Vec n)) (h : J.length = theta.length) (h0 : J ≠ []) :
    ((J.map fun x => Real.exp (F x)).zip theta) ≠ [] ∧ (∀ p ∈ (J.map fun x => Real.exp (F x)).zip theta, 0 < p.1) ∧
    ((J.map fun x => Real.exp (F x)).zip theta).map Prod.snd = theta := by
  refine ⟨?_, fun p hp => ?_, ?_⟩
  · intro h1
    have := congrArg List.length h1
    simp [← h] at this
    exact h0 this
  · obtain ⟨x, _, hx⟩ := List.mem_map.1 (List.of_mem_zip hp).1
    rw [← hx]
    exact Real.exp_pos _
  · exact List.map_snd_zip (by simp [h])

/-- C179 (updates). The updates of RWR and REPS with a full covariance raise exactly if the parameters of the episodes lie in a common
hyperplane, for all returns; in particular whenever there are not more episodes than parameters. -/
theorem C179_updates (cholesky : Matrix (Fin n) (Fin n) ℝ → Option (Matrix (Fin n) (Fin n) ℝ)) (hc : IsCholesky cholesky)
    (hd : ∀ M, M.PosDef → (cholesky M).isSome) (hn : 0 < n) (g : Chol n) (J : List ℝ) (theta : List (Vec n))
    (h : J.length = theta.length) (h0 : J ≠ []) (beta eta : ℝ) :
    ((rwrFit cholesky g beta J theta).1 = .error .linAlg ↔ InHyperplane theta) ∧
    ((repsFit cholesky g eta J theta).1 = .error .linAlg ↔ InHyperplane theta) ∧
    (theta.length ≤ n →
      (rwrFit cholesky g beta J theta).1 = .error .linAlg ∧ (repsFit cholesky g eta J theta).1 = .error .linAlg) := by
  have h1 := weights_pos (fun x => beta * (x - maxJ J)) J theta h h0
  have h2 := weights_pos (fun x => (x - maxJ J) / eta) J theta h h0
  have r1 := (C179_raises cholesky hc hd hn g _ h1.1 h1.2.1).1
  have r2 := (C179_raises cholesky hc hd hn g _ h2.1 h2.2.1).1
  rw [h1.2.2] at r1
  rw [h2.2.2] at r2
  exact ⟨r1, r2, fun hle => ⟨r1.2 (inHyperplane_of_few _ hn hle), r2.2 (inHyperplane_of_few _ hn hle)⟩⟩

/-- Three points in the plane that are not on a line: the update succeeds, and with two of them it raises. -/
example : ∃ (cholesky : Matrix (Fin 2) (Fin 2) ℝ → Option (Matrix (Fin 2) (Fin 2) ℝ)), IsCholesky cholesky ∧
    (∀ M, M.PosDef → (cholesky M).isSome) ∧ ¬ InHyperplane [(![0, 0] : Vec 2), ![1, 0], ![1, 1]] ∧
    InHyperplane [(![0, 0] : Vec 2), ![1, 0]] := by
  obtain ⟨cholesky, h1, h2⟩ := Pgpe.cholesky_exists (n := 2)
  refine ⟨cholesky, h1, h2, ?_, inHyperplane_of_few _ (by norm_num) (by simp)⟩
  rintro ⟨x, hx, h⟩
  have a := h ![1, 0] (by simp) ![0, 0] (by simp)
  have b := h ![1, 1] (by simp) ![0, 0] (by simp)
  simp [Fin.sum_univ_two] at a b
  apply hx
  funext i
  fin_cases i
  · simpa using a
  · have : x 1 = 0 := by linarith
    simpa using this

/-- C179 (atomic), refuted. An update that raises does not leave the distribution as it was: the mean is already the new one. -/
theorem C179_atomic_refuted (cholesky : Matrix (Fin n) (Fin n) ℝ → Option (Matrix (Fin n) (Fin n) ℝ)) (hc : IsCholesky cholesky)
    (hd : ∀ M, M.PosDef → (cholesky M).isSome) (hn : 0 < n) (g : Chol n) (J : List ℝ) (theta : List (Vec n))
    (h : J.length = theta.length) (h0 : J ≠ []) (beta : ℝ) (hr : (rwrFit cholesky g beta J theta).1 = .error .linAlg)
    (i : Fin n) (hi : ∀ v ∈ theta, g.mu i < v i) :
    (rwrFit cholesky g beta J theta).2.chol = g.chol ∧ g.mu i < (rwrFit cholesky g beta J theta).2.mu i := by
  have h1 := weights_pos (fun x => beta * (x - maxJ J)) J theta h h0
  obtain ⟨-, r2, r3, -⟩ := C179_raises cholesky hc hd hn g _ h1.1 h1.2.1
  refine ⟨r3 hr, ?_⟩
  have e := r2 i
  show g.mu i < (g.fit cholesky ((J.map fun x => Real.exp (beta * (x - maxJ J))).zip theta)).2.mu i
  set l := (J.map fun x => Real.exp (beta * (x - maxJ J))).zip theta with hl
  have hs : 0 < (l.map fun p => p.1).sum := sumD_pos l h1.1 h1.2.1
  have hlt : ∀ l' : List (ℝ × Vec n), l' ≠ [] → (∀ p ∈ l', 0 < p.1 ∧ g.mu i < p.2 i) →
      (l'.map fun p => p.1).sum * g.mu i < (l'.map fun p => p.1 * p.2 i).sum := by
    intro l' hne hall
    rw [← List.sum_map_mul_right]
    refine List.sum_lt_sum_of_ne_nil hne _ _ fun p hp => ?_
    exact mul_lt_mul_of_pos_left (hall p hp).2 (hall p hp).1
  have := hlt l h1.1 fun p hp => ⟨h1.2.1 p hp, hi _ (by rw [← h1.2.2]; exact List.mem_map.2 ⟨p, hp, rfl⟩)⟩
  rw [← e] at this
  exact lt_of_mul_lt_mul_left this hs.le

/-- Two episodes for two parameters. -/
example : ∃ (cholesky : Matrix (Fin 2) (Fin 2) ℝ → Option (Matrix (Fin 2) (Fin 2) ℝ)), IsCholesky cholesky ∧
    (∀ M, M.PosDef → (cholesky M).isSome) ∧ (rwrFit cholesky ⟨![0, 0], 1⟩ 3 [1, 5] [![1, 0], ![2, 3]]).1 = .error .linAlg ∧
    ∀ v ∈ [(![1, 0] : Vec 2), ![2, 3]], (⟨![0, 0], 1⟩ : Chol 2).mu 0 < v 0 := by
  obtain ⟨cholesky, h1, h2⟩ := Pgpe.cholesky_exists (n := 2)
  refine ⟨cholesky, h1, h2, ?_, by simp⟩
  exact ((C179_updates cholesky h1 h2 (by norm_num) ⟨![0, 0], 1⟩ [1, 5] [![1, 0], ![2, 3]] rfl (by simp) 3 1).2.2 (by simp)).1

/-- C179 (atomic), for the constrained update: if it raises the distribution is as before. -/
theorem C179_atomic_partial (cholesky : Matrix (Fin n) (Fin n) ℝ → Option (Matrix (Fin n) (Fin n) ℝ)) (g : Chol n) (l : List (ℝ × Vec n))
    (eta omg : ℝ) (hr : (g.conFit cholesky l eta omg).1 = .error .linAlg) : (g.conFit cholesky l eta omg).2 = g := by
  unfold Chol.conFit at hr ⊢
  cases h : cholesky (conCov l g.mu g.sigma eta omg) with
  | none => simp [h]
  | some c => simp [h] at hr

/-- A constrained update that raises: the multiplier of the entropy is larger than the sum of the weights and the other multiplier. -/
example : ∃ (cholesky : Matrix (Fin 1) (Fin 1) ℝ → Option (Matrix (Fin 1) (Fin 1) ℝ)), IsCholesky cholesky ∧
    (∀ M, M.PosDef → (cholesky M).isSome) ∧ ((⟨![0], 1⟩ : Chol 1).conFit cholesky [(1, ![2])] 1 3).1 = .error .linAlg := by
  obtain ⟨cholesky, h1, h2⟩ := Pgpe.cholesky_exists (n := 1)
  refine ⟨cholesky, h1, h2, ?_⟩
  unfold Chol.conFit
  cases h : cholesky (conCov [(1, ![2])] (⟨![0], 1⟩ : Chol 1).mu (⟨![0], 1⟩ : Chol 1).sigma 1 3) with
  | none => simp [h]
  | some c =>
    exfalso
    have := congrFun (congrFun (h1 _ _ h).2.2 0) 0
    simp [conCov, conMean, sumD, Chol.sigma, Matrix.mul_apply] at this
    nlinarith [mul_self_nonneg (c 0 0)]

end Verif.Search
