/-
C148: whole calls of the `fit` method of TRPO.
-/
import Verif.ActorCritic.ModelTRPO
import Verif.ActorCritic.PropsProximal
import Verif.ActorCritic.PropsTRPO

namespace Verif.ActorCritic.Trust

open Verif.Policy (Param constantParam)
open Verif.ActorCritic.Proximal (PpoSys Row Err preAll updAll asInt IsInteger after asInt_int isInteger_call after_succ after_after valueAt_after dataOf isInteger_const)

noncomputable section

variable {S A P V R κ O : Type} [Fintype κ]

/-! ### Specification -/

/-- The objective of TRPO at the weights `θ`, for the coefficient `c` of the entropy: the mean over the transitions of probability ratio times advantage, plus
the entropy bonus. The ratio compares the policy `θ` in the states as the preprocessors `pre` show them with the policy `θ₀` in the states as `pre₀` show them. -/
def objective (y : TrpoSys S A P V R κ O) (θ₀ : κ → ℝ) (pre₀ pre : List P) (n : ℕ) (d : ℕ → Row S A) (adv : List ℝ) (c : ℝ) (θ : κ → ℝ) : ℝ :=
  ((List.range n).map fun i => Real.exp (y.logp θ (preAll y.toPpoSys pre (d i).state) (d i).action -
    y.logp θ₀ (preAll y.toPpoSys pre₀ (d i).state) (d i).action) * adv.getD i 0).sum / n + c * y.entropy θ ((List.range n).map fun i => preAll y.toPpoSys pre (d i).state)

/-- The mean divergence of the policy `θ` from the policy `θ₀`. -/
def divergence (y : TrpoSys S A P V R κ O) (θ₀ : κ → ℝ) (pre₀ pre : List P) (n : ℕ) (d : ℕ → Row S A) (θ : κ → ℝ) : ℝ :=
  y.kl θ₀ ((List.range n).map fun i => preAll y.toPpoSys pre₀ (d i).state) θ ((List.range n).map fun i => preAll y.toPpoSys pre (d i).state)

/-- The preprocessors after a fit. -/
def preAfter (y : TrpoSys S A P V R κ O) (g : Trpo P V R κ) (n : ℕ) (d : ℕ → Row S A) : List P :=
  updAll y.toPpoSys g.pre ((List.range n).map fun i => (d i).state)

/-- The generalised advantages of the dataset and the targets of the critic, from the critic BEFORE the fit and the preprocessors AFTER their update. -/
def gaeOf (y : TrpoSys S A P V R κ O) (g0 : ℕ → ℝ) (g : Trpo P V R κ) (n : ℕ) (d : ℕ → Row S A) : (ℕ → ℝ) × (ℕ → ℝ) :=
  ValueFn.computeGae (dataOf y.toPpoSys g.critic (preAfter y g n d) d) y.gamma (valueAt g.lam 1) n g0

/-- What the line search asks of the weights `θ`: the divergence is at most one and a half times the limit, and the objective, with the coefficient `c` of the
entropy, is at least the objective of the old weights with the coefficient `c₀`. -/
structure Accepted (y : TrpoSys S A P V R κ O) (θ₀ : κ → ℝ) (pre₀ pre : List P) (n : ℕ) (d : ℕ → Row S A) (adv : List ℝ) (maxKl c₀ c : ℝ) (θ : κ → ℝ) : Prop where
  near : divergence y θ₀ pre₀ pre n d θ ≤ 3 / 2 * maxKl
  better : objective y θ₀ pre₀ pre n d adv c₀ θ₀ ≤ objective y θ₀ pre₀ pre n d adv c θ

/-! ### Lemmas -/

theorem zip_ratio (y : TrpoSys S A P V R κ O) (θ : κ → ℝ) (s : ℕ → S) (act : ℕ → A) (old adv : ℕ → ℝ) (idx : List ℕ) :
    List.zipWith (· * ·) ((List.zipWith (fun l o => l - o) (List.zipWith (y.logp θ) (idx.map s) (idx.map act)) (idx.map old)).map Real.exp) (idx.map adv) =
      idx.map fun i => Real.exp (y.logp θ (s i) (act i) - old i) * adv i := by
  induction idx with
  | nil => rfl
  | cons i l ih => simp only [List.map_cons, List.zipWith_cons_cons, ih]

theorem eq_map_getD (l : List ℝ) (n : ℕ) (h : l.length = n) : l = (List.range n).map fun i => l.getD i 0 := by
  apply List.ext_getElem
  · simp [h]
  · intro i h1 h2
    simp [List.getD, h1]

/-- The arrays of a call. -/
def arraysOf (y : TrpoSys S A P V R κ O) (θ₀ : κ → ℝ) (pre₀ pre : List P) (n : ℕ) (d : ℕ → Row S A) (adv : Option (List ℝ)) : Arrays S A where
  obs := (List.range n).map fun i => preAll y.toPpoSys pre (d i).state
  act := (List.range n).map fun i => (d i).action
  adv := adv
  old := (List.range n).map fun i => y.logp θ₀ (preAll y.toPpoSys pre₀ (d i).state) (d i).action
  obsOld := (List.range n).map fun i => preAll y.toPpoSys pre₀ (d i).state

theorem lossAt_eq (y : TrpoSys S A P V R κ O) (θ₀ : κ → ℝ) (pre₀ pre : List P) (n : ℕ) (d : ℕ → Row S A) (adv : List ℝ) (h : adv.length = n) (c : ℝ) (θ : κ → ℝ) :
    lossAt y (arraysOf y θ₀ pre₀ pre n d (some adv)) c θ = some (objective y θ₀ pre₀ pre n d adv c θ) := by
  simp only [lossAt, arraysOf, Option.map_some, objective]
  congr 2
  conv_lhs => rw [eq_map_getD adv n h, zip_ratio]
  simp [meanOf]

/-- A candidate of the line search is accepted. -/
def Acc (y : TrpoSys S A P V R κ O) (a : Arrays S A) (prev m : ℝ) (old : κ → ℝ) (c : ℝ) (new : κ → ℝ) : Prop :=
  ∃ l, lossAt y a c new = some l ∧ y.kl old a.obsOld new a.obs ≤ m * (3 / 2) ∧ 0 ≤ l - prev

theorem search_spec (y : TrpoSys S A P V R κ O) (a : Arrays S A) (prev m : ℝ) (old f : κ → ℝ) (k : ℕ) (ent : Param) (s : ℝ) :
    (search y a (some prev) m old (some f) k ent s = (after ent k, old) ∧
      ∀ j < k, ¬ Acc y a prev m old (valueAt ent (j + 1)) (old + (s * (1 / 2) ^ j) • f)) ∨
    ∃ j < k, search y a (some prev) m old (some f) k ent s = (after ent (j + 1), old + (s * (1 / 2) ^ j) • f) ∧
      Acc y a prev m old (valueAt ent (j + 1)) (old + (s * (1 / 2) ^ j) • f) ∧
      ∀ i < j, ¬ Acc y a prev m old (valueAt ent (i + 1)) (old + (s * (1 / 2) ^ i) • f) := by
  induction k generalizing ent s with
  | zero => exact .inl ⟨rfl, fun j hj => absurd hj (by omega)⟩
  | succ k ih =>
    have hv : (ent.call []).2 = valueAt ent 1 := rfl
    have hshift : ∀ j, valueAt (ent.call []).1 (j + 1) = valueAt ent (j + 1 + 1) := fun j => valueAt_succ ent (j + 1)
    have hpow : ∀ j : ℕ, s * (1 / 2) * (1 / 2) ^ j = s * (1 / 2) ^ (j + 1) := fun j => by ring
    by_cases hA : Acc y a prev m old (valueAt ent 1) (old + s • f)
    · refine .inr ⟨0, by omega, ?_, by simpa using hA, fun i hi => absurd hi (by omega)⟩
      obtain ⟨l, h1, h2, h3⟩ := hA
      rw [← hv] at h1
      simp only [search, h1, h2, h3, and_self, if_true, pow_zero, mul_one]
      rfl
    · have hstep : search y a (some prev) m old (some f) (k + 1) ent s =
          search y a (some prev) m old (some f) k (ent.call []).1 (s * (1 / 2)) := by
        rw [search]
        cases hl : lossAt y a (ent.call []).2 (old + s • f) with
        | none => rfl
        | some l =>
          dsimp only
          rw [if_neg]
          rintro ⟨h2, h3⟩
          exact hA ⟨l, by rw [← hv]; exact hl, h2, h3⟩
      rw [hstep]
      rcases ih (ent.call []).1 (s * (1 / 2)) with ⟨h1, h2⟩ | ⟨j, hj, h1, h2, h3⟩
      · refine .inl ⟨by rw [h1, after_succ], fun j hj => ?_⟩
        cases j with
        | zero => simpa using hA
        | succ j =>
          have := h2 j (by omega)
          rwa [hshift, hpow] at this
      · refine .inr ⟨j + 1, by omega, ?_, ?_, ?_⟩
        · rw [h1, after_succ, hpow]
        · rwa [hshift, hpow] at h2
        · intro i hi
          cases i with
          | zero => simpa using hA
          | succ i =>
            have := h3 i (by omega)
            rwa [hshift, hpow] at this

theorem search_none (y : TrpoSys S A P V R κ O) (a : Arrays S A) (prev : Option ℝ) (m : ℝ) (old : κ → ℝ) (full : Option (κ → ℝ)) (h : full = none ∨ prev = none)
    (k : ℕ) (ent : Param) (s : ℝ) : search y a prev m old full k ent s = (after ent k, old) := by
  induction k generalizing ent s with
  | zero => rfl
  | succ k ih =>
    have hstep : search y a prev m old full (k + 1) ent s = search y a prev m old full k (ent.call []).1 (s * (1 / 2)) := by
      rcases h with rfl | rfl
      · cases prev <;> rfl
      · cases full <;> rfl
    rw [hstep, ih, after_succ]

theorem cgIter_params (F : ℝ → (κ → ℝ) → κ → ℝ) (k : ℕ) (ps : Param × Param) (c : Option (CgVars κ)) :
    ∃ j ≤ k, (cgIter F k ps c).1 = (after ps.1 j, after ps.2 j) := by
  induction k generalizing ps c with
  | zero => exact ⟨0, le_rfl, rfl⟩
  | succ k ih =>
    rw [cgIter]
    split
    · exact ⟨1, by omega, rfl⟩
    · obtain ⟨j, hj, h⟩ := ih ((ps.1.call []).1, (ps.2.call []).1) (c.bind (cgBody (F (ps.1.call []).2)))
      exact ⟨j + 1, by omega, by rw [h]; simp only [after_succ]⟩

/-! ### One fit -/

/-- C148. One call of `fit` with a dataset of `n ≥ 2` transitions, at most `K` iterations of the conjugate gradient and `E` trials of the line search.
(1) The preprocessors are updated with the states of the dataset before anything is computed.
(2) The critic is fitted, after the policy, to the targets that the critic BEFORE the fit defines.
(3) The gradient is that of the objective at the weights before the fit; the direction is what the conjugate gradient makes of it, with the Hessian of the
divergence (plus damping) as matrix; the full step is the direction, rescaled.
(4) The policy is left with the LONGEST step, among the full step and its halvings, that the line search accepts, and with its old weights, unchanged, if
it accepts none or if there is no finite full step.
(5) The coefficient of the entropy moves on once for the gradient and once for every trial; the `j`-th trial is compared, with the `j + 1`-st value, to the
objective of the old weights with the FIRST value. -/
theorem C148_fit (y : TrpoSys S A P V R κ O) (g0 : ℕ → ℝ) (g : Trpo P V R κ) (n : ℕ) (hn : 2 ≤ n) (d : ℕ → Row S A) (K E : ℕ)
    (hK : IsInteger g.nCg K) (hE : IsInteger g.nSearch E) :
    ∃ (g' : Trpo P V R κ) (adv : List ℝ) (dir full : Option (κ → ℝ)) (j : ℕ), fit y g0 g n d = .ok g' ∧ j ≤ K ∧
      g'.pre = preAfter y g n d ∧
      (g'.rng, g'.critic) = y.fitCritic g.rng g.critic ((List.range n).map fun i => (preAll y.toPpoSys g'.pre (d i).state, (gaeOf y g0 g n d).1 i)) ∧
      standardise ((List.range n).map (gaeOf y g0 g n d).2) = some adv ∧ adv.length = n ∧ adv.sum = 0 ∧
      g'.oldPolicy = some g.weights ∧ g'.grad = y.grad (objective y g.weights g.pre g'.pre n d adv (valueAt g.ent 1)) g.weights ∧
      cgSolve (fun damping p => y.hess (divergence y g.weights g.pre g'.pre n d) g.weights p + damping • p) K (g.damping, g.tol) (some g'.grad) =
        ((after g.damping j, after g.tol j), dir) ∧
      full = stepOf (fun p => y.hess (divergence y g.weights g.pre g'.pre n d) g.weights p + valueAt g.damping (j + 1) • p) (valueAt g.maxKl 1) dir ∧
      ((g'.weights = g.weights ∧ g'.ent = after g.ent (1 + E) ∧ ∀ f, full = some f → ∀ i < E,
          ¬ Accepted y g.weights g.pre g'.pre n d adv (valueAt g.maxKl 1) (valueAt g.ent 1) (valueAt g.ent (i + 2)) (g.weights + ((1 / 2 : ℝ) ^ i) • f)) ∨
        ∃ f, full = some f ∧ ∃ t < E, g'.weights = g.weights + ((1 / 2 : ℝ) ^ t) • f ∧ g'.ent = after g.ent (t + 2) ∧
          Accepted y g.weights g.pre g'.pre n d adv (valueAt g.maxKl 1) (valueAt g.ent 1) (valueAt g.ent (t + 2)) g'.weights ∧
          ∀ i < t, ¬ Accepted y g.weights g.pre g'.pre n d adv (valueAt g.maxKl 1) (valueAt g.ent 1) (valueAt g.ent (i + 2)) (g.weights + ((1 / 2 : ℝ) ^ i) • f)) ∧
      g'.lam = after g.lam 1 ∧ g'.maxKl = after g.maxKl 1 ∧ g'.damping = after g.damping (j + 1) ∧ g'.tol = after g.tol j ∧
      g'.iter = g.iter + 1 ∧ IsInteger g'.nCg K ∧ IsInteger g'.nSearch E := by
  let pre := preAfter y g n d
  obtain ⟨adv, hadv, hlen, hmean, -⟩ := C92_standardise_partial ((List.range n).map (gaeOf y g0 g n d).2) (by simpa using hn)
  have hl : adv.length = n := by simpa using hlen
  have hsum : adv.sum = 0 := by
    have hn' : (n : ℝ) ≠ 0 := by
      have : 0 < n := by omega
      positivity
    rw [meanOf, hl] at hmean
    rcases div_eq_zero_iff.1 hmean with h | h
    · exact h
    · exact absurd h hn'
  let a := arraysOf y g.weights g.pre pre n d (some adv)
  have hloss : ∀ c θ, lossAt y a c θ = some (objective y g.weights g.pre pre n d adv c θ) := lossAt_eq y g.weights g.pre pre n d adv hl
  have hgrad : gradAt y a (valueAt g.ent 1) g.weights = some (y.grad (objective y g.weights g.pre pre n d adv (valueAt g.ent 1)) g.weights) := by
    have : (fun θ => (lossAt y a (valueAt g.ent 1) θ).getD 0) = objective y g.weights g.pre pre n d adv (valueAt g.ent 1) := by
      funext θ; rw [hloss]; rfl
    show some (y.grad (fun θ => (lossAt y a (valueAt g.ent 1) θ).getD 0) g.weights) = _
    rw [this]
  let b := y.grad (objective y g.weights g.pre pre n d adv (valueAt g.ent 1)) g.weights
  let F : ℝ → (κ → ℝ) → κ → ℝ := fun damping p => y.hess (divergence y g.weights g.pre pre n d) g.weights p + damping • p
  let cg := cgSolve F K (g.damping, g.tol) (some b)
  obtain ⟨j, hj, hps⟩ := cgIter_params F K (g.damping, g.tol) (some ⟨b, none, 0, b ⬝ᵥ b⟩)
  have hps' : cg.1 = (after g.damping j, after g.tol j) := hps
  let full := stepOf (F (valueAt g.damping (j + 1))) (valueAt g.maxKl 1) cg.2
  let s := search y a (some (objective y g.weights g.pre pre n d adv (valueAt g.ent 1) g.weights)) (valueAt g.maxKl 1) g.weights full E (g.ent.call []).1 1
  let fc := y.fitCritic g.rng g.critic ((List.range n).map fun i => (preAll y.toPpoSys pre (d i).state, (gaeOf y g0 g n d).1 i))
  let g' : Trpo P V R κ := { g with
        pre := pre, lam := (g.lam.call []).1, grad := b, oldPolicy := some g.weights, ent := s.1, nCg := (g.nCg.call []).1, damping := after g.damping (j + 1)
        tol := after g.tol j, maxKl := (g.maxKl.call []).1, nSearch := (g.nSearch.call []).1, weights := s.2, rng := fc.1, critic := fc.2, iter := g.iter + 1 }
  have hd1 : (after g.damping j).call [] = (after g.damping (j + 1), valueAt g.damping (j + 1)) := by
    refine Prod.ext ?_ ?_
    · show after (after g.damping j) 1 = _
      rw [after_after]
    · show valueAt (after g.damping j) 1 = _
      rw [valueAt_after, Nat.add_comm]
  have hfit : fit y g0 g n d = .ok g' := by
    have hstd : standardise ((List.range n).map (ValueFn.computeGae ⟨fun i => (d i).reward, fun i => y.value g.critic (preAll y.toPpoSys pre (d i).state),
      fun i => y.value g.critic (preAll y.toPpoSys pre (d i).next), fun i => (d i).absorbing, fun i => (d i).last⟩ y.gamma (g.lam.call []).2 n g0).2) = some adv := hadv
    have hcg : cgSolve (fisher y a g.weights g.weights) K (g.damping, g.tol) (gradAt y a (g.ent.call []).2 g.weights) = cg := by
      have : gradAt y a (g.ent.call []).2 g.weights = some b := hgrad
      rw [this]; rfl
    have hprev : lossAt y a (g.ent.call []).2 g.weights = some (objective y g.weights g.pre pre n d adv (valueAt g.ent 1) g.weights) := hloss _ _
    simp only [fit]
    rw [show updAll y.toPpoSys g.pre ((List.range n).map fun i => (d i).state) = pre from rfl, hstd, asInt_int _ _ hK, asInt_int _ _ hE]
    dsimp only
    rw [show (⟨(List.range n).map fun i => preAll y.toPpoSys pre (d i).state, (List.range n).map fun i => (d i).action, some adv,
      (List.range n).map fun i => y.logp g.weights (preAll y.toPpoSys g.pre (d i).state) (d i).action,
      (List.range n).map fun i => preAll y.toPpoSys g.pre (d i).state⟩ : Arrays S A) = a from rfl]
    rw [Int.toNat_natCast, Int.toNat_natCast, hcg, hprev, show gradAt y a (g.ent.call []).2 g.weights = some b from hgrad, hps']
    dsimp only
    rw [hd1]
    rfl
  refine ⟨g', adv, cg.2, full, j, hfit, hj, rfl, rfl, hadv, hl, hsum, rfl, rfl, Prod.ext hps' rfl, rfl, ?_, rfl, rfl, rfl, rfl, rfl, isInteger_call _ _ hK,
    isInteger_call _ _ hE⟩
  have hacc : ∀ c θ, Acc y a (objective y g.weights g.pre pre n d adv (valueAt g.ent 1) g.weights) (valueAt g.maxKl 1) g.weights c θ ↔
      Accepted y g.weights g.pre pre n d adv (valueAt g.maxKl 1) (valueAt g.ent 1) c θ := by
    intro c θ
    constructor
    · rintro ⟨l, h1, h2, h3⟩
      rw [hloss] at h1
      cases h1
      exact ⟨by rw [mul_comm]; exact h2, sub_nonneg.1 h3⟩
    · rintro ⟨h1, h2⟩
      exact ⟨_, hloss _ _, by rw [mul_comm]; exact h1, sub_nonneg.2 h2⟩
  have hval : ∀ i, valueAt (g.ent.call []).1 (i + 1) = valueAt g.ent (i + 2) := fun i => valueAt_succ g.ent (i + 1)
  have haft : ∀ i, after (g.ent.call []).1 i = after g.ent (i + 1) := fun i => after_succ _ _
  show (s.2 = g.weights ∧ s.1 = _ ∧ _) ∨ _
  rcases hfull : full with _ | f
  · left
    have hs : s = (after (g.ent.call []).1 E, g.weights) := search_none y a _ _ _ full (.inl hfull) _ _ _
    exact ⟨by rw [hs], by rw [hs, haft, Nat.add_comm], fun f hf => by cases hf⟩
  · have hs0 : s = search y a (some (objective y g.weights g.pre pre n d adv (valueAt g.ent 1) g.weights)) (valueAt g.maxKl 1) g.weights (some f) E
      (g.ent.call []).1 1 := by rw [← hfull]
    rcases search_spec y a (objective y g.weights g.pre pre n d adv (valueAt g.ent 1) g.weights) (valueAt g.maxKl 1) g.weights f E (g.ent.call []).1 1 with
      ⟨h1, h2⟩ | ⟨t, ht, h1, h2, h3⟩
    · left
      rw [← hs0] at h1
      refine ⟨by rw [h1], by rw [h1, haft, Nat.add_comm], ?_⟩
      rintro f' hf' i hi
      cases hf'
      have := h2 i hi
      rw [hacc, hval, one_mul] at this
      exact this
    · right
      rw [← hs0] at h1
      refine ⟨f, rfl, t, ht, ?_, ?_, ?_, ?_⟩
      · show s.2 = _
        rw [h1, one_mul]
      · show s.1 = _
        rw [h1, haft]
      · show Accepted y g.weights g.pre pre n d adv _ _ _ s.2
        rw [h1]
        rw [hacc, hval] at h2
        exact h2
      · intro i hi
        have := h3 i hi
        rw [hacc, hval, one_mul] at this
        exact this


/-- C148. After a fit the policy has its old weights, or weights whose divergence from the old policy is at most one and a half times the limit and whose objective
is at least that of the old weights (where the coefficients of the entropy are those of two different calls of its parameter). Whatever the policy, the critic,
the dataset, the Hessian and the schedules are, the weights are numbers. -/
theorem C148_safe (y : TrpoSys S A P V R κ O) (g0 : ℕ → ℝ) (g g' : Trpo P V R κ) (n : ℕ) (hn : 2 ≤ n) (d : ℕ → Row S A) (K E : ℕ)
    (hK : IsInteger g.nCg K) (hE : IsInteger g.nSearch E) (h : fit y g0 g n d = .ok g') :
    g'.weights = g.weights ∨ ∃ adv t, standardise ((List.range n).map (gaeOf y g0 g n d).2) = some adv ∧ t < E ∧
      divergence y g.weights g.pre g'.pre n d g'.weights ≤ 3 / 2 * valueAt g.maxKl 1 ∧
      objective y g.weights g.pre g'.pre n d adv (valueAt g.ent 1) g.weights ≤ objective y g.weights g.pre g'.pre n d adv (valueAt g.ent (t + 2)) g'.weights := by
  obtain ⟨g₁, adv, dir, full, j, h1, -, -, -, h2, -, -, -, -, -, -, h3, -⟩ := C148_fit y g0 g n hn d K E hK hE
  cases h.symm.trans h1
  rcases h3 with h3 | ⟨f, -, t, ht, -, -, h4, -⟩
  · exact .inl h3.1
  · exact .inr ⟨adv, t, h2, ht, h4.near, h4.better⟩

/-- C148. Without preprocessors the ratios are one at the old weights and the advantages have mean zero: the objective of the old weights is the entropy bonus alone. -/
theorem C148_start (y : TrpoSys S A P V R κ O) (θ : κ → ℝ) (n : ℕ) (d : ℕ → Row S A) (adv : List ℝ) (hl : adv.length = n) (hs : adv.sum = 0) (c : ℝ) :
    objective y θ [] [] n d adv c θ = c * y.entropy θ ((List.range n).map fun i => (d i).state) := by
  simp only [objective, sub_self, Real.exp_zero, one_mul, preAll, List.foldl_nil]
  rw [← eq_map_getD adv n hl, hs]
  simp

/-- C148. Without preprocessors and with a constant coefficient of the entropy a fit never makes the objective worse: the mean of ratio times advantage gains at least
what the entropy bonus loses. -/
theorem C148_improves_partial (y : TrpoSys S A P V R κ O) (g0 : ℕ → ℝ) (g g' : Trpo P V R κ) (n : ℕ) (hn : 2 ≤ n) (d : ℕ → Row S A) (K E : ℕ)
    (hK : IsInteger g.nCg K) (hE : IsInteger g.nSearch E) (c : ℝ) (hc : ∀ k, valueAt g.ent k = c) (hp : g.pre = []) (h : fit y g0 g n d = .ok g') :
    ∃ adv, standardise ((List.range n).map (gaeOf y g0 g n d).2) = some adv ∧
      c * (y.entropy g.weights ((List.range n).map fun i => (d i).state) - y.entropy g'.weights ((List.range n).map fun i => (d i).state)) ≤
      ((List.range n).map fun i => Real.exp (y.logp g'.weights (d i).state (d i).action - y.logp g.weights (d i).state (d i).action) * adv.getD i 0).sum / n := by
  obtain ⟨g₁, adv, dir, full, j, h1, -, hpre, -, h2, hl, hs, -, -, -, -, h3, -⟩ := C148_fit y g0 g n hn d K E hK hE
  cases h.symm.trans h1
  have hpre' : g'.pre = [] := by rw [hpre, preAfter, hp]; rfl
  have key : objective y g.weights [] [] n d adv c g.weights ≤ objective y g.weights [] [] n d adv c g'.weights := by
    rcases h3 with h3 | ⟨f, -, t, ht, -, -, h4, -⟩
    · rw [h3.1]
    · have := h4.better
      rwa [hp, hpre', hc, hc] at this
  refine ⟨adv, h2, ?_⟩
  rw [C148_start y g.weights n d adv hl hs] at key
  simp only [objective, preAll, List.foldl_nil] at key
  linarith

/-- C148. The full step has the length that the quadratic model of the divergence allows, and points along the direction: half of `step · F step` is the limit. -/
theorem C148_length (F : (κ → ℝ) → κ → ℝ) (hF : ∀ (c : ℝ) p, F (c • p) = c • F p) (m : ℝ) (hm : m ≠ 0) (dir : Option (κ → ℝ)) (f : κ → ℝ)
    (h : stepOf F m dir = some f) : (1 / 2) * (f ⬝ᵥ F f) = m ∧ ∃ v, ∃ c : ℝ, dir = some v ∧ 0 < c ∧ f = c • v := by
  cases dir with
  | none => simp [stepOf] at h
  | some v =>
    simp only [stepOf, Option.bind_some, if_neg hm] at h
    by_cases hle : (1 / 2) * (v ⬝ᵥ F v) / m ≤ 0
    · rw [if_pos hle] at h; cases h
    · rw [if_neg hle] at h
      have hpos : 0 < (1 / 2) * (v ⬝ᵥ F v) / m := not_le.1 hle
      simp only [Option.some.injEq] at h
      subst h
      refine ⟨?_, v, 1 / Real.sqrt ((1 / 2) * (v ⬝ᵥ F v) / m), rfl, div_pos one_pos (Real.sqrt_pos.2 hpos), rfl⟩
      rw [hF, dotProduct_smul, smul_dotProduct, smul_eq_mul, smul_eq_mul]
      have hsq : Real.sqrt ((1 / 2) * (v ⬝ᵥ F v) / m) * Real.sqrt ((1 / 2) * (v ⬝ᵥ F v) / m) = (1 / 2) * (v ⬝ᵥ F v) / m := Real.mul_self_sqrt hpos.le
      have hne : Real.sqrt ((1 / 2) * (v ⬝ᵥ F v) / m) ≠ 0 := (Real.sqrt_pos.2 hpos).ne'
      have hv : (1 / 2) * (v ⬝ᵥ F v) ≠ 0 := by
        intro h0
        rw [h0, zero_div] at hpos
        exact lt_irrefl _ hpos
      generalize Real.sqrt ((1 / 2) * (v ⬝ᵥ F v) / m) = q at hsq hne
      have : (1 / 2) * (1 / q * (1 / q * (v ⬝ᵥ F v))) = ((1 / 2) * (v ⬝ᵥ F v)) / (q * q) := by field_simp
      rw [this, hsq]
      field_simp
      exact div_self fun h => hv (by rw [h, mul_zero])

/-- C148. With one iteration of the conjugate gradient the direction is the gradient, times a number that is positive if the matrix is positive definite. -/
theorem C148_one_iteration (F : ℝ → (κ → ℝ) → κ → ℝ) (damping tol : Param) (b : κ → ℝ) (hb : b ⬝ᵥ F (valueAt damping 1) b ≠ 0) (hb' : b ≠ 0) :
    cgSolve F 1 (damping, tol) (some b) = ((after damping 1, after tol 1), some ((b ⬝ᵥ b / (b ⬝ᵥ F (valueAt damping 1) b)) • b)) := by
  have h0 : b ⬝ᵥ b ≠ 0 := fun h => hb' (dotProduct_self_eq_zero.1 h)
  have hbody : ∃ w, cgBody (F (damping.call []).2) ⟨b, none, 0, b ⬝ᵥ b⟩ = some w ∧ w.x = (b ⬝ᵥ b / (b ⬝ᵥ F (valueAt damping 1) b)) • b := by
    refine ⟨_, if_neg (by rintro (h | h); exacts [hb h, h0 h]), ?_⟩
    show 0 + _ = _
    rw [zero_add]; rfl
  obtain ⟨w, hw, hx⟩ := hbody
  simp only [cgSolve, cgIter, Option.map_some, Option.bind_some, hw]
  split <;> exact Prod.ext rfl (congrArg some hx)

/-- C148. With constant damping and tolerance the direction is what `_conjugate_gradient` of C59 returns for the Hessian plus damping, unless a denominator is zero. -/
theorem C148_direction {m : ℕ} (H : Matrix (Fin m) (Fin m) ℝ) (dmp tl : ℝ) (damping tol : Param) (hd : ∀ k, valueAt damping k = dmp) (ht : ∀ k, valueAt tol k = tl)
    (K : ℕ) (b : Fin m → ℝ) (dir : Fin m → ℝ)
    (h : (cgSolve (fun c p => H.mulVec p + c • p) K (damping, tol) (some b)).2 = some dir) : dir = (conjugateGradient (H + dmp • 1) tl K b).1 := by
  have hmul : ∀ p, H.mulVec p + dmp • p = (H + dmp • (1 : Matrix (Fin m) (Fin m) ℝ)).mulVec p := by
    intro p; rw [Matrix.add_mulVec, Matrix.smul_mulVec, Matrix.one_mulVec]
  let F := H + dmp • (1 : Matrix (Fin m) (Fin m) ℝ)
  let conv : CgVars (Fin m) → Cg m := fun c => ⟨c.store, c.p, c.x, c.r2⟩
  have hdir : ∀ c : CgVars (Fin m), (conv c).dir = c.dir := fun c => by cases c with | mk st p x r => cases p <;> rfl
  have hbody : ∀ c w, cgBody (fun p => H.mulVec p + dmp • p) c = some w → conv w = cgStep F (conv c) := by
    intro c w hw
    simp only [cgBody] at hw
    split at hw
    · cases hw
    · simp only [Option.some.injEq] at hw
      rw [← hw]
      simp only [cgStep, hdir, hmul]
      obtain ⟨st, p, x, r⟩ := c
      cases p <;> rfl
  have hnone : ∀ K ps, ((cgIter (fun c p => H.mulVec p + c • p) K ps none).2 : Option (CgVars (Fin m))) = none := by
    intro K
    induction K with
    | zero => intro ps; rfl
    | succ K ih =>
      intro ps
      rw [cgIter, if_neg (by simp)]
      exact ih _
  have hloop : ∀ K damping tol (c : CgVars (Fin m)), (∀ k, valueAt damping k = dmp) → (∀ k, valueAt tol k = tl) → ∀ w,
      (cgIter (fun c p => H.mulVec p + c • p) K (damping, tol) (some c)).2 = some w → conv w = cgLoop F tl K (conv c) := by
    intro K
    induction K with
    | zero =>
      intro damping tol c _ _ w hw
      simp only [cgIter, Option.some.injEq] at hw
      rw [hw]; rfl
    | succ K ih =>
      intro damping tol c hd ht w hw
      have e1 : (damping.call []).2 = dmp := hd 1
      have e2 : (tol.call []).2 = tl := ht 1
      rw [cgIter] at hw
      dsimp only at hw
      rw [e1, e2, Option.bind_some] at hw
      cases hc : cgBody (fun p => H.mulVec p + dmp • p) c with
      | none =>
        rw [hc, if_neg (by simp), hnone] at hw
        cases hw
      | some w' =>
        rw [hc] at hw
        have hs := hbody c w' hc
        rw [cgLoop]
        rw [← hs]
        by_cases hr : w'.r2 < tl
        · rw [if_pos ⟨w', rfl, hr⟩] at hw
          rw [if_pos (show (conv w').r2 < tl from hr)]
          cases hw; rfl
        · rw [if_neg (by rintro ⟨w'', h1, h2⟩; cases h1; exact hr h2)] at hw
          rw [if_neg (show ¬ (conv w').r2 < tl from hr)]
          exact ih _ _ w' (fun k => by rw [valueAt_succ]; exact hd _) (fun k => by rw [valueAt_succ]; exact ht _) w hw
  simp only [cgSolve, Option.map_some, Option.map_eq_some_iff] at h
  obtain ⟨w, hw, rfl⟩ := h
  have := hloop K damping tol _ hd ht w hw
  simp only [conjugateGradient]
  have hx : (conv w).x = w.x := rfl
  rw [← hx, this]
  rfl

/-- C148. A dataset of fewer than two transitions, whose standardised advantages are NaN, leaves the weights of the policy as they are; the critic is fitted as usual. -/
theorem C148_single (y : TrpoSys S A P V R κ O) (g0 : ℕ → ℝ) (g : Trpo P V R κ) (n : ℕ) (hn : n < 2) (d : ℕ → Row S A) (K E : ℕ)
    (hK : IsInteger g.nCg K) (hE : IsInteger g.nSearch E) :
    ∃ g', fit y g0 g n d = .ok g' ∧ g'.weights = g.weights ∧ g'.pre = preAfter y g n d ∧
      (g'.rng, g'.critic) = y.fitCritic g.rng g.critic ((List.range n).map fun i => (preAll y.toPpoSys g'.pre (d i).state, (gaeOf y g0 g n d).1 i)) ∧
      g'.iter = g.iter + 1 ∧ IsInteger g'.nCg K ∧ IsInteger g'.nSearch E := by
  have hstd : ∀ l : List ℝ, l.length < 2 → standardise l = none := fun l hl => by simp [standardise, torchStd, hl]
  simp only [fit]
  rw [hstd _ (by simpa using hn), asInt_int _ _ hK, asInt_int _ _ hE]
  exact ⟨_, rfl, by
    rw [search_none]
    exact .inr rfl, rfl, rfl, rfl, isInteger_call _ _ hK, isInteger_call _ _ hE⟩

/-- C148. What is left in the gradient buffers, and the policy kept from the fit before, never matter. -/
theorem C148_buffers (y : TrpoSys S A P V R κ O) (g0 : ℕ → ℝ) (g : Trpo P V R κ) (b : κ → ℝ) (o : Option (κ → ℝ)) (n : ℕ) (d : ℕ → Row S A) :
    fit y g0 { g with grad := b, oldPolicy := o } n d = fit y g0 g n d := rfl

/-- C148. The numbers of iterations may be parameters, but every parameter that is not constant gives floats: each call of `fit` raises TypeError. -/
theorem C148_schedule_refuted (y : TrpoSys S A P V R κ O) (g0 : ℕ → ℝ) (g : Trpo P V R κ) (n : ℕ) (d : ℕ → Row S A)
    (h : g.nCg.kind ≠ .constant ∨ g.nSearch.kind ≠ .constant) : fit y g0 g n d = .error .type := by
  have hnone : ∀ (p : Param) x, p.kind ≠ .constant → asInt (p.call []).1 x = none := by
    intro p x hp
    unfold asInt
    exact if_neg fun hc => hp hc.1
  simp only [fit]
  rcases h with h | h
  · rw [hnone _ _ h]
  · rw [hnone g.nSearch _ h]
    cases asInt (g.nCg.call []).1 (g.nCg.call []).2 <;> rfl

/-- A sequence of calls of `fit`, until one fails: the agents after each call. -/
def run (y : TrpoSys S A P V R κ O) (g0 : ℕ → ℝ) : Trpo P V R κ → List (ℕ × (ℕ → Row S A)) → Except Err (List (Trpo P V R κ))
  | _, [] => .ok []
  | g, d :: ds => match fit y g0 g d.1 d.2 with
    | .error e => .error e
    | .ok g' => (run y g0 g' ds).map (g' :: ·)

/-- C148. However many datasets are fitted, of whatever sizes, no call fails, and the policy after each call has the weights it had before the call, or is within one
and a half times the limit of the policy before the call. -/
theorem C148_run (y : TrpoSys S A P V R κ O) (g0 : ℕ → ℝ) (K E : ℕ) (m : ℝ) (ds : List (ℕ × (ℕ → Row S A))) (g : Trpo P V R κ) (hK : IsInteger g.nCg K)
    (hE : IsInteger g.nSearch E) (hm : ∀ k, valueAt g.maxKl k = m) :
    ∃ gs, run y g0 g ds = .ok gs ∧ gs.length = ds.length ∧
      ∀ k (hk : k < ds.length) a b, (g :: gs)[k]? = some a → gs[k]? = some b → b.iter = a.iter + 1 ∧ b.pre = preAfter y a ds[k].1 ds[k].2 ∧
        (b.weights = a.weights ∨ divergence y a.weights a.pre b.pre ds[k].1 ds[k].2 b.weights ≤ 3 / 2 * m) := by
  induction ds generalizing g with
  | nil => exact ⟨[], rfl, rfl, fun k hk => absurd hk (by simp)⟩
  | cons d ds ih =>
    have h1 : ∃ g', fit y g0 g d.1 d.2 = .ok g' ∧ g'.iter = g.iter + 1 ∧ g'.pre = preAfter y g d.1 d.2 ∧
        (g'.weights = g.weights ∨ divergence y g.weights g.pre g'.pre d.1 d.2 g'.weights ≤ 3 / 2 * m) ∧ IsInteger g'.nCg K ∧ IsInteger g'.nSearch E ∧
        ∀ k, valueAt g'.maxKl k = m := by
      by_cases hn : d.1 < 2
      · obtain ⟨g', a1, a2, a3, -, a4, a5, a6⟩ := C148_single y g0 g d.1 hn d.2 K E hK hE
        refine ⟨g', a1, a4, a3, .inl a2, a5, a6, ?_⟩
        have : g'.maxKl = (g.maxKl.call []).1 := by
          simp only [fit] at a1
          rw [asInt_int _ _ hK, asInt_int _ _ hE] at a1
          cases a1; rfl
        intro k; rw [this, valueAt_succ]; exact hm _
      · obtain ⟨g', adv, dir, full, j, a1, -, a2, -, -, -, -, -, -, -, -, a3, -, a4, -, -, a5, a6, a7⟩ := C148_fit y g0 g d.1 (not_lt.1 hn) d.2 K E hK hE
        refine ⟨g', a1, a5, a2, ?_, a6, a7, fun k => ?_⟩
        · rcases a3 with a3 | ⟨f, -, t, -, -, -, a8, -⟩
          · exact .inl a3.1
          · have := a8.near
            rw [hm] at this
            exact .inr this
        · rw [a4, valueAt_after]; exact hm _
    obtain ⟨g', a1, a2, a3, a4, a5, a6, a7⟩ := h1
    obtain ⟨gs, b1, b2, b3⟩ := ih g' a5 a6 a7
    refine ⟨g' :: gs, by simp only [run, a1, b1]; rfl, by simp [b2], ?_⟩
    intro k hk a b ha hb
    cases k with
    | zero =>
      simp only [List.getElem?_cons_zero, Option.some.injEq] at ha hb
      subst ha; subst hb
      exact ⟨a2, a3, a4⟩
    | succ k =>
      simp only [List.getElem?_cons_succ] at ha hb
      exact b3 k (by simpa using hk) a b ha hb


/-! ### An agent -/

/-- One weight; the action `a` has log-probability `a (θ - θ²)`; the divergence is half of the squared distance of the weights; the entropy is `-1`; two transitions. -/
def demo : TrpoSys ℝ ℝ ℝ ℝ Unit Unit Unit :=
  { pre := fun p s => s - p, upd := fun _ ss => ss.sum / ss.length, value := fun v s => v * s, fitCritic := fun _ v _ => ((), v + 1)
    logp := fun θ _ a => a * (θ () - θ () ^ 2), entropy := fun _ _ => -1, grad := fun f θ _ => deriv (fun x => f fun _ => x) (θ ())
    step := fun _ w gr => ((), fun i => w i - gr i), shuffle := fun _ n => ((), List.range n), gamma := 9 / 10
    kl := fun θ₀ _ θ _ => (θ () - θ₀ ()) ^ 2 / 2
    hess := fun f θ p _ => deriv (deriv fun x => f fun _ => x) (θ ()) * p () }

/-- The coefficient of the entropy falls linearly from 4 to 0 in four calls, or is constant. -/
def falling : Param := { kind := .linear (-1), initial := 4, minV := some 0, maxV := none, single := true, counts := fun _ => 0 }

def demoAgent (ent : Param) : Trpo ℝ ℝ Unit Unit :=
  ⟨[], 0, fun _ => 0, fun _ => 7, none, constantParam (1 : ℕ) none none true, constantParam (1 : ℕ) none none true, constantParam 0 none none true,
    constantParam 1 none none true, constantParam 2 none none true, ent, constantParam 1 none none true, 1, ()⟩

def demoRows : ℕ → Row ℝ ℝ := fun i => if i = 0 then ⟨0, 1, 1, 0, true, true⟩ else ⟨0, 0, -1, 0, true, true⟩

theorem falling_linear : Policy.linearParam 4 0 4 true = some falling := by
  simp [Policy.linearParam, falling]

theorem falling_value (k : ℕ) (hk : k ≤ 4) : valueAt falling k = 4 - k := by
  have h : ∀ k : ℕ, (fun p : Param => (p.call []).1)^[k] falling = { falling with counts := fun c => if c = [] then k else 0 } := by
    intro k
    induction k with
    | zero => simp [falling]
    | succ k ih =>
      rw [Function.iterate_succ_apply', ih]
      simp only [Param.call, Policy.Param.update, Policy.Param.cell, falling]
      congr 1
      funext c
      by_cases hc : c = [] <;> simp [hc]
  have hk' : (k : ℝ) ≤ 4 := by exact_mod_cast hk
  rw [valueAt, h]
  simp only [Policy.Param.getValue, Policy.Param.compute, Policy.Param.cell, falling, Policy.clip, if_true]
  rw [max_eq_left (by linarith)]
  ring


theorem demo_hess (pre₀ pre : List ℝ) (n : ℕ) (d : ℕ → Row ℝ ℝ) (p : Unit → ℝ) : demo.hess (divergence demo (fun _ => 0) pre₀ pre n d) (fun _ => 0) p = p := by
  have h1 : (deriv fun x : ℝ => divergence demo (fun _ => 0) pre₀ pre n d fun _ => x) = fun x => x := by
    funext x
    show deriv (fun x : ℝ => (x - 0) ^ 2 / 2) x = x
    have : HasDerivAt (fun x : ℝ => (x - 0) ^ 2 / 2) ((2 * (x - 0) ^ 1 * 1) / 2) x := (((hasDerivAt_id x).sub_const 0).pow 2).div_const 2
    rw [this.deriv]; ring
  funext u
  show deriv (deriv fun x : ℝ => divergence demo (fun _ => 0) pre₀ pre n d fun _ => x) 0 * p () = p u
  rw [h1]
  simp

/-- The advantages of the two transitions. -/
theorem demo_advantages (ent : Param) (adv : List ℝ) (h : standardise ((List.range 2).map (gaeOf demo (fun _ => 0) (demoAgent ent) 2 demoRows).2) = some adv) :
    ∃ z, adv = [z, -z] ∧ 0 < z ∧ z ≤ 1 := by
  let D := dataOf demo.toPpoSys 0 (preAfter demo (demoAgent ent) 2 demoRows) demoRows
  have habs : ∀ i, D.absorbing i = true ∧ D.last i = true := by
    intro i
    by_cases hi : i = 0 <;> simp [D, dataOf, demoRows, hi]
  have hga : ∀ t < 2, (gaeOf demo (fun _ => 0) (demoAgent ent) 2 demoRows).2 t = D.r t := by
    intro t ht
    have := (ValueFn.C33_gae D demo.gamma (valueAt (demoAgent ent).lam 1) 2 (fun _ => 0) (fun i _ => (habs i).2) t t
      ⟨le_rfl, ht, .inl (habs t).2, fun i h1 h2 => absurd h1 (by omega)⟩).1
    refine this.trans ?_
    simp [ValueFn.generalizedAdvantage, ValueFn.tdError, ValueFn.future, (habs t).1]
    simp [D, dataOf, demo]
  have hg : (List.range 2).map (gaeOf demo (fun _ => 0) (demoAgent ent) 2 demoRows).2 = [1, -1] := by
    have h0 := hga 0 (by norm_num)
    have h1 := hga 1 (by norm_num)
    show [_, _] = _
    rw [h0, h1]
    simp [D, dataOf, demoRows]
  rw [hg] at h
  obtain ⟨out, h1, h2, h3, h4, h5⟩ := C92_standardise_partial [1, -1] (by simp)
  cases h.symm.trans h1
  match adv, h2 with
  | [u, v], _ =>
    have hs : u + v = 0 := by simpa [meanOf] using h3
    have hv : v = -u := by linarith
    subst hv
    refine ⟨u, rfl, ?_, ?_⟩
    · have := (h5 1 0 (-1) 1 (-u) u rfl rfl rfl rfl).1 (by norm_num)
      linarith
    · have : u ^ 2 + u ^ 2 ≤ 1 := by
        have := h4
        rw [h3] at this
        simp at this
        linarith
      nlinarith

/-- The gradient of the objective at the old weights is positive. -/
theorem demo_gradient (z : ℝ) (hz : 0 < z) (c : ℝ) : ∃ b > 0, demo.grad (objective demo (fun _ => 0) [] [] 2 demoRows [z, -z] c) (fun _ => 0) = fun _ => b := by
  have hobj : (fun x : ℝ => objective demo (fun _ => 0) [] [] 2 demoRows [z, -z] c fun _ => x) = fun x => (Real.exp (x - x ^ 2) * z + -z) / 2 + c * -1 := by
    funext x
    simp [objective, List.range_succ, demo, demoRows, preAll]
  have hd : HasDerivAt (fun x : ℝ => (Real.exp (x - x ^ 2) * z + -z) / 2 + c * -1) ((Real.exp (0 - 0 ^ 2) * (1 - 2 * 0 ^ 1 * 1) * z) / 2) (0 : ℝ) :=
    ((((((hasDerivAt_id (0 : ℝ)).sub ((hasDerivAt_id (0 : ℝ)).pow 2)).exp).mul_const z).add_const (-z)).div_const 2).add_const (c * -1)
  refine ⟨z / 2, by positivity, ?_⟩
  funext u
  show deriv (fun x : ℝ => objective demo (fun _ => 0) [] [] 2 demoRows [z, -z] c fun _ => x) 0 = _
  rw [hobj, hd.deriv]
  norm_num

/-- C148. A scheduled coefficient of the entropy breaks the comparison of the line search: the old weights are judged with the first value, the new ones with a
later value. The agent above accepts weights that are worse for EVERY single coefficient (its entropy does not depend on the weights), because the falling
coefficient made the bonus less negative. -/
theorem C148_entropy_refuted : ∃ (g' : Trpo ℝ ℝ Unit Unit) (adv : List ℝ), Policy.linearParam 4 0 4 true = some falling ∧
    fit demo (fun _ => 0) (demoAgent falling) 2 demoRows = .ok g' ∧ standardise ((List.range 2).map (gaeOf demo (fun _ => 0) (demoAgent falling) 2 demoRows).2) = some adv ∧
    ∀ c, objective demo (fun _ => 0) [] [] 2 demoRows adv c g'.weights < objective demo (fun _ => 0) [] [] 2 demoRows adv c (fun _ => 0) := by
  obtain ⟨g', adv, dir, full, j, h1, hj, h2, -, h3, -, -, -, h4, h5, h6, h7, -⟩ :=
    C148_fit demo (fun _ => 0) (demoAgent falling) 2 le_rfl demoRows 1 1 (isInteger_const 1) (isInteger_const 1)
  obtain ⟨z, rfl, hz, hz1⟩ := demo_advantages falling adv h3
  have hp : g'.pre = [] := h2
  rw [hp] at h4 h5 h6 h7
  obtain ⟨b, hb, hgr⟩ := demo_gradient z hz (valueAt falling 1)
  have hgrad : g'.grad = fun _ => b := h4.trans hgr
  have hdamp : ∀ k, valueAt (demoAgent falling).damping k = 0 := fun k => valueAt_constant 0 k true
  have hkl : ∀ k, valueAt (demoAgent falling).maxKl k = 2 := fun k => valueAt_constant 2 k true
  have hF : ∀ (c : ℝ) (p : Unit → ℝ), demo.hess (divergence demo (fun _ => 0) [] [] 2 demoRows) (fun _ => 0) p + c • p = p + c • p := fun c p => by rw [demo_hess]
  have hdir : dir = some fun _ => b := by
    have e := C148_one_iteration (fun damping p => demo.hess (divergence demo (fun _ => 0) [] [] 2 demoRows) (fun _ => 0) p + damping • p)
      (demoAgent falling).damping (demoAgent falling).tol (fun _ : Unit => b) (by
        rw [hF, hdamp]
        simp [dotProduct]; positivity) (by
        intro h0
        exact hb.ne' (congrFun h0 ()))
    rw [hgrad] at h5
    have := congrArg Prod.snd (h5.symm.trans e)
    simp only [hF, hdamp] at this
    rw [this]
    congr 1
    funext u
    simp [dotProduct]
    field_simp
  have hfull : full = some fun _ => 2 := by
    have h6' : full = stepOf (fun p : Unit → ℝ => p + (0 : ℝ) • p) 2 dir := by
      rw [h6, hkl, hdamp]
      congr 1
      funext p
      exact congrArg (· + (0 : ℝ) • p) (demo_hess [] [] 2 demoRows p)
    rw [h6', hdir]
    have hpos : ¬ (1 / 2 * ((fun _ : Unit => b) ⬝ᵥ (fun _ : Unit => b)) / 2 : ℝ) ≤ 0 := by
      simp [dotProduct]; positivity
    simp only [stepOf, Option.bind_some, zero_smul, add_zero]
    rw [if_neg (by norm_num), if_neg hpos]
    congr 1
    funext u
    have : (1 / 2 * ((fun _ : Unit => b) ⬝ᵥ (fun _ : Unit => b)) / 2 : ℝ) = (b / 2) ^ 2 := by
      simp [dotProduct]; ring
    rw [this, Real.sqrt_sq (by positivity)]
    simp
    field_simp
  have hobj : ∀ c x, objective demo (fun _ => 0) [] [] 2 demoRows [z, -z] c (fun _ => x) = (Real.exp (x - x ^ 2) * z + -z) / 2 + c * -1 := by
    intro c x
    simp [objective, List.range_succ, demo, demoRows, preAll]
  have hexp : Real.exp ((2 : ℝ) - 2 ^ 2) < 1 := by
    rw [Real.exp_lt_one_iff]; norm_num
  have hexp0 : 0 < Real.exp ((2 : ℝ) - 2 ^ 2) := Real.exp_pos _
  have hw2 : ((fun _ => 0 : Unit → ℝ) + ((1 / 2 : ℝ) ^ 0) • fun _ => 2) = fun _ => (2 : ℝ) := by funext u; simp
  have hacc : Accepted demo (fun _ => 0) [] [] 2 demoRows [z, -z] (valueAt (demoAgent falling).maxKl 1) (valueAt falling 1) (valueAt falling 2) (fun _ => 2) := by
    refine ⟨?_, ?_⟩
    · rw [hkl]
      show ((2 : ℝ) - 0) ^ 2 / 2 ≤ _
      norm_num
    · rw [hobj, hobj, falling_value 1 (by norm_num), falling_value 2 (by norm_num)]
      norm_num at hexp0 ⊢
      nlinarith
  have hw : g'.weights = fun _ => 2 := by
    rcases h7 with ⟨-, -, h7⟩ | ⟨f, hf, t, ht, h7, -⟩
    · exact absurd (by
        have e : (demoAgent falling).weights + ((1 / 2 : ℝ) ^ 0) • (fun _ => 2) = fun _ => (2 : ℝ) := hw2
        rw [e]; exact hacc) (h7 _ hfull 0 one_pos)
    · rw [hfull] at hf
      cases hf
      obtain rfl : t = 0 := by omega
      rw [h7]; exact hw2
  refine ⟨g', [z, -z], falling_linear, h1, h3, fun c => ?_⟩
  rw [hw, hobj, hobj]
  have : Real.exp ((0 : ℝ) - 0 ^ 2) = 1 := by norm_num
  rw [this]
  have hlt := mul_lt_mul_of_pos_right hexp hz
  clear hacc hobj
  generalize Real.exp ((2 : ℝ) - 2 ^ 2) = e at hlt ⊢
  linarith

/-! ### Satisfiable hypotheses -/

-- C148_fit, C148_safe, C148_improves_partial: the agent above, with a constant coefficient.
example := C148_fit demo (fun _ => 0) (demoAgent (constantParam 1 none none true)) 2 le_rfl demoRows 1 1 (isInteger_const 1) (isInteger_const 1)
example : ∀ k, valueAt (demoAgent (constantParam 1 none none true)).ent k = 1 := fun k => valueAt_constant 1 k true
example : ∃ g', fit demo (fun _ => 0) (demoAgent (constantParam 1 none none true)) 2 demoRows = .ok g' ∧ g'.iter = 2 := by
  obtain ⟨g', _, _, _, _, h, _, _, _, _, _, _, _, _, _, _, _, _, _, _, _, h2, _⟩ :=
    C148_fit demo (fun _ => 0) (demoAgent (constantParam 1 none none true)) 2 le_rfl demoRows 1 1 (isInteger_const 1) (isInteger_const 1)
  exact ⟨g', h, h2⟩

-- C148_start: two opposite advantages.
example := C148_start demo (fun _ => 0) 2 demoRows [1, -1] rfl (by norm_num) 3

-- C148_length, C148_one_iteration, C148_direction: the identity on one unknown.
example : stepOf (fun p : Unit → ℝ => p) 2 (some fun _ => 1) = some ((1 / Real.sqrt ((1 / 2) * 1 / 2)) • fun _ => 1) := by
  simp only [stepOf, Option.bind_some]
  rw [if_neg (by norm_num), if_neg (by simp [dotProduct])]
  simp [dotProduct]
example := C148_one_iteration (fun c (p : Unit → ℝ) => p + c • p) (constantParam 0 none none true) (constantParam 1 none none true) (fun _ => 3)
  (by rw [valueAt_constant]; simp [dotProduct]) (by intro h; simpa using congrFun h ())

example : ∃ dir, (cgSolve (fun c p => (1 : Matrix (Fin 1) (Fin 1) ℝ).mulVec p + c • p) 1 (constantParam 0 none none true, constantParam 1 none none true)
    (some ![3])).2 = some dir :=
  ⟨_, congrArg Prod.snd (C148_one_iteration _ _ _ _ (by rw [valueAt_constant]; simp [dotProduct]) (by intro h; simpa using congrFun h 0))⟩

-- C148_single: one transition.
example := C148_single demo (fun _ => 0) (demoAgent falling) 1 (by norm_num) demoRows 1 1 (isInteger_const 1) (isInteger_const 1)

-- C148_schedule_refuted: a linear parameter.
example := C148_schedule_refuted demo (fun _ => 0) { demoAgent falling with nCg := falling } 2 demoRows (.inl (by simp [falling]))

-- C148_run: three datasets.
example := C148_run demo (fun _ => 0) 1 1 2 [(2, demoRows), (1, demoRows), (5, demoRows)] (demoAgent falling) (isInteger_const 1) (isInteger_const 1)
  fun k => valueAt_constant 2 k true

end

end Verif.ActorCritic.Trust
