/-
Properties of BoostedFQI (C55) and LSPI (C56).
-/
import Verif.DQN.PropsValues
import Mathlib.LinearAlgebra.Matrix.Determinant.Basic
import Mathlib.Algebra.BigOperators.Ring.List

namespace Verif.DQN

open Verif.TD (Trans rowMax IsMax rowMax_isMax isMax_unique DetMDP Optimal)

variable {S A : Type} [DecidableEq S] [DecidableEq A]

/-! ### A concrete exact regressor, to show that the hypotheses of C90 can be met -/

/-- A regressor that stores its targets. -/
noncomputable def lookup (_ : S → A → ℝ) (batch : List (Trans S A)) (q : List ℝ) : S → A → ℝ := fun s a =>
  (((batch.zip q).find? (fun tq => decide (tq.1.state = s ∧ tq.1.action = a))).map (·.2)).getD 0

theorem lookup_exact (w f : S → A → ℝ) (batch : List (Trans S A)) (t : Trans S A) (ht : t ∈ batch) :
    lookup w batch (batch.map (fun t => f t.state t.action)) t.state t.action = f t.state t.action := by
  unfold lookup
  have hz : batch.zip (batch.map (fun t => f t.state t.action)) = batch.map (fun t => (t, f t.state t.action)) := by
    clear ht
    induction batch with
    | nil => rfl
    | cons a l ih => simp [ih]
  rw [hz]
  cases hf : (batch.map (fun t => (t, f t.state t.action))).find? (fun tq => decide (tq.1.state = t.state ∧ tq.1.action = t.action)) with
  | none =>
    rw [List.find?_eq_none] at hf
    have := hf (t, f t.state t.action) (List.mem_map.mpr ⟨t, ht, rfl⟩)
    simp at this
  | some tq =>
    have h1 := List.find?_some hf
    have h2 := List.mem_of_find?_eq_some hf
    obtain ⟨t', _, e⟩ := List.mem_map.mp h2
    subst e
    simp only [decide_eq_true_eq] at h1
    simp only [Option.map_some, Option.getD_some]
    rw [h1.1, h1.2]

/-- A problem with two states; action `true` changes the state; leaving state `true` this way ends the episode. -/
def demoMDP : DetMDP Bool Bool where
  reward s a := if s && a then 4 else 1
  next s a := xor s a
  absorbing s a := s && a

/-- Its optimal values for a discount of one half. -/
noncomputable def demoQ (s a : Bool) : ℝ := match s, a with
  | false, false => 5 / 2
  | false, true => 3
  | true, false => 3
  | true, true => 4

example : Optimal demoMDP (1 / 2) demoQ ∧ (∀ s a, |demoQ s a| ≤ 4) ∧
    (∀ t ∈ [demoMDP.trans false false, demoMDP.trans false true, demoMDP.trans true false, demoMDP.trans true true],
      t = demoMDP.trans t.state t.action) ∧
    (∀ s a, demoMDP.trans s a ∈ [demoMDP.trans false false, demoMDP.trans false true, demoMDP.trans true false, demoMDP.trans true true]) := by
  refine ⟨⟨fun s => if s then 4 else 3, ?_, ?_⟩, ?_, ?_, ?_⟩
  · intro s
    cases s
    · exact ⟨fun a => by cases a <;> norm_num [demoQ], true, by norm_num [demoQ]⟩
    · exact ⟨fun a => by cases a <;> norm_num [demoQ], true, by norm_num [demoQ]⟩
  · intro s a
    cases s <;> cases a <;> norm_num [demoQ, demoMDP]
  · intro s a
    cases s <;> cases a <;> norm_num [demoQ, abs_of_pos]
  · intro t ht
    simp only [List.mem_cons, List.not_mem_nil, or_false] at ht
    rcases ht with rfl | rfl | rfl | rfl <;> rfl
  · intro s a
    cases s <;> cases a <;> simp

/-! ### BoostedFQI -/

section boosted

variable [Fintype A] [Nonempty A] {W : Type}

/-- The sum of the predictions of the first `k` models. -/
noncomputable def ensembleSum (predict : W → S → A → ℝ) (models : List W) (k : ℕ) (s : S) (a : A) : ℝ :=
  ((models.take k).map (fun w => predict w s a)).sum

/-- The sum of the entries `i` of the targets given to the regressors. -/
noncomputable def column (fitted : List (List ℝ)) (i : ℕ) : ℝ := (fitted.map (fun q => q.getD i 0)).sum

/-- The Bellman target of iteration `k` (counted from 1) for a transition: the reward; from the second iteration on
also, unless the transition is absorbing, the discounted largest sum of the models fitted before. -/
def BoostedTarget (γ : ℝ) (predict : W → S → A → ℝ) (models : List W) (k : ℕ) (t : Trans S A) (y : ℝ) : Prop :=
  if k ≤ 1 ∨ t.absorbing then y = t.reward
  else ∃ v, IsMax (ensembleSum predict models (k - 1) t.next) v ∧ y = t.reward + γ * v

structure BoostedInv (γ : ℝ) (predict : W → S → A → ℝ) (batch : List (Trans S A)) (n k : ℕ) (g : Boosted A W) (fitted : List (List ℝ)) : Prop where
  idx : g.idx = k
  len : g.models.length = n
  started : g.target = none ↔ k = 0
  fittedLen : fitted.length = k
  predLen : g.prediction.length = batch.length
  nextLen : g.nextQ.length = batch.length
  next : ∀ (i : ℕ) t, batch[i]? = some t →
    g.nextQ[i]? = some (fun a => if t.absorbing then 0 else ensembleSum predict g.models (k - 1) t.next a)
  pred : ∀ (i : ℕ) t, batch[i]? = some t → g.prediction[i]? = some (column fitted i)
  bellman : 0 < k → ∀ (i : ℕ) t, batch[i]? = some t → BoostedTarget γ predict g.models k t (column fitted i)

theorem getElem?_sub (a b : List ℝ) (i : ℕ) (x y : ℝ) (ha : a[i]? = some x) (hb : b[i]? = some y) :
    (List.zipWith (· - ·) a b)[i]? = some (x - y) := by
  rw [List.getElem?_zipWith, ha, hb]

theorem getElem?_add (a b : List ℝ) (i : ℕ) (x y : ℝ) (ha : a[i]? = some x) (hb : b[i]? = some y) :
    (List.zipWith (· + ·) a b)[i]? = some (x + y) := by
  rw [List.getElem?_zipWith, ha, hb]

theorem take_succ_sum (predict : W → S → A → ℝ) (models : List W) (k : ℕ) (w : W) (h : models[k]? = some w) (s : S) (a : A) :
    ensembleSum predict models (k + 1) s a = ensembleSum predict models k s a + predict w s a := by
  unfold ensembleSum
  rw [List.take_add_one, h]
  simp

theorem ensembleSum_set (predict : W → S → A → ℝ) (models : List W) (k j : ℕ) (w : W) (h : k ≤ j) (s : S) (a : A) :
    ensembleSum predict (models.set j w) k s a = ensembleSum predict models k s a := by
  unfold ensembleSum
  rw [List.take_set_of_le h]

/-- One iteration keeps the invariant. -/
theorem boostedStep_inv (γ : ℝ) (predict : W → S → A → ℝ) (fitNet : W → List (Trans S A) → List ℝ → W) (batch : List (Trans S A))
    (n k : ℕ) (hk : k < n) (g : Boosted A W) (fitted : List (List ℝ)) (h : BoostedInv γ predict batch n k g fitted) :
    ∃ g' q w, boostedStep γ predict fitNet batch g = some g' ∧ g'.target = some q ∧ q.length = batch.length ∧
      g.models[k]? = some w ∧ g'.models = g.models.set k (fitNet w batch q) ∧
      BoostedInv γ predict batch n (k + 1) g' (fitted ++ [q]) := by
  obtain ⟨w, hw⟩ : ∃ w, g.models[k]? = some w := ⟨g.models[k]'(by rw [h.len]; exact hk), List.getElem?_eq_getElem _⟩
  -- the new accumulated predictions and the Bellman targets
  obtain ⟨nextQ, bell, hstart, hnl, hbl, hnext, hbell⟩ : ∃ nextQ bell,
      boostedStart γ predict batch g = some (nextQ, bell) ∧
      nextQ.length = batch.length ∧ bell.length = batch.length ∧
      (∀ (i : ℕ) t, batch[i]? = some t → nextQ[i]? = some (fun a => if t.absorbing then 0 else ensembleSum predict g.models k t.next a)) ∧
      (∀ (i : ℕ) t, batch[i]? = some t → ∃ y, bell[i]? = some y ∧ BoostedTarget γ predict g.models (k + 1) t y) := by
    rcases Nat.eq_zero_or_pos k with hk0 | hk0
    · subst hk0
      unfold boostedStart
      rw [h.started.mpr rfl]
      refine ⟨_, _, rfl, h.nextLen, by simp, fun i t ht => by have := h.next i t ht; simpa using this, fun i t ht => ?_⟩
      refine ⟨t.reward, by rw [List.getElem?_map, ht]; rfl, ?_⟩
      unfold BoostedTarget
      rw [if_pos (Or.inl le_rfl)]
    · obtain ⟨q0, hq0⟩ := Option.ne_none_iff_exists'.mp (fun e => by have := h.started.mp e; omega)
      unfold boostedStart
      rw [hq0]
      obtain ⟨wp, hwp⟩ : ∃ wp, g.models[k - 1]? = some wp :=
        ⟨g.models[k - 1]'(by rw [h.len]; omega), List.getElem?_eq_getElem _⟩
      have hzl : (List.zipWith (fun row t => fun a => row a + predict wp t.next a) g.nextQ batch).length = batch.length := by
        rw [List.length_zipWith, h.nextLen, min_self]
      obtain ⟨hml, hm⟩ := maskRows_spec batch _ hzl
      have hrow : ∀ (i : ℕ) t, batch[i]? = some t →
          (maskRows batch (List.zipWith (fun row t => fun a => row a + predict wp t.next a) g.nextQ batch))[i]? =
            some (fun a => if t.absorbing then 0 else ensembleSum predict g.models k t.next a) := by
        intro i t ht
        rw [hm i t _ ht (by rw [List.getElem?_zipWith, h.next i t ht, ht])]
        congr 1
        funext a
        cases hab : t.absorbing with
        | true => simp
        | false =>
          simp only [Bool.false_eq_true, if_false]
          obtain ⟨j, rfl⟩ : ∃ j, k = j + 1 := ⟨k - 1, by omega⟩
          rw [take_succ_sum predict g.models j wp (by simpa using hwp)]
          simp
      refine ⟨_, _, by rw [h.idx]; simp only [hwp, Option.map_some]; rfl, hml, ?_, hrow, ?_⟩
      · rw [targets, List.length_zipWith, List.length_map, hml, min_self]
      · intro i t ht
        refine ⟨t.reward + γ * rowMax (fun a => if t.absorbing then 0 else ensembleSum predict g.models k t.next a), ?_, ?_⟩
        · rw [targets, List.getElem?_zipWith, List.getElem?_map, hrow i t ht, ht]
          simp [clipReward]
        · rw [rowMax_zero]
          unfold BoostedTarget
          cases hab : t.absorbing with
          | true => simp
          | false =>
            rw [if_neg (by simp; omega)]
            exact ⟨_, rowMax_isMax _, by simp⟩
  refine ⟨{ models := g.models.set k (fitNet w batch (List.zipWith (· - ·) bell g.prediction))
            target := some (List.zipWith (· - ·) bell g.prediction)
            prediction := List.zipWith (· + ·) g.prediction (List.zipWith (· - ·) bell g.prediction)
            nextQ := nextQ, idx := k + 1 }, List.zipWith (· - ·) bell g.prediction, w, ?_, rfl, ?_, hw, rfl, ?_⟩
  · unfold boostedStep
    rw [hstart]
    simp only [Option.bind_some, h.idx, hw, Option.map_some]
  · rw [List.length_zipWith, hbl, h.predLen, min_self]
  · have hcol : ∀ (i : ℕ) t y, batch[i]? = some t → bell[i]? = some y → column (fitted ++ [List.zipWith (· - ·) bell g.prediction]) i = y := by
      intro i t y ht hy
      unfold column
      rw [List.map_append, List.sum_append, List.map_singleton, List.sum_singleton, List.getD_eq_getElem?_getD,
        getElem?_sub _ _ i _ _ hy (h.pred i t ht)]
      unfold column
      simp
    constructor
    · rfl
    · simp [h.len]
    · simp
    · simp [h.fittedLen]
    · simp only [List.length_zipWith, h.predLen, hbl, min_self]
    · exact hnl
    · intro i t ht
      simp only [Nat.add_sub_cancel]
      rw [hnext i t ht]
      congr 1
      funext a
      rw [ensembleSum_set _ _ _ _ _ le_rfl]
    · intro i t ht
      obtain ⟨y, hy, _⟩ := hbell i t ht
      simp only
      rw [getElem?_add _ _ i _ _ (h.pred i t ht) (getElem?_sub _ _ i _ _ hy (h.pred i t ht)), hcol i t y ht hy]
      congr 1
      ring
    · intro _ i t ht
      obtain ⟨y, hy, hb⟩ := hbell i t ht
      rw [hcol i t y ht hy]
      unfold BoostedTarget at hb ⊢
      split
      · next hc => rw [if_pos hc] at hb; exact hb
      · next hc =>
        rw [if_neg hc] at hb
        obtain ⟨v, hv, e⟩ := hb
        refine ⟨v, ?_, e⟩
        simp only [Nat.add_sub_cancel] at hv ⊢
        have : ensembleSum predict (g.models.set k (fitNet w batch (List.zipWith (· - ·) bell g.prediction))) k t.next =
            ensembleSum predict g.models k t.next := by
          funext a
          rw [ensembleSum_set _ _ _ _ _ le_rfl]
        rw [this]
        exact hv

theorem boostedLoop_inv (γ : ℝ) (predict : W → S → A → ℝ) (fitNet : W → List (Trans S A) → List ℝ → W) (batch : List (Trans S A))
    (n j : ℕ) : ∀ (k : ℕ) (_ : k + j ≤ n) (g : Boosted A W) (fitted : List (List ℝ)), BoostedInv γ predict batch n k g fitted →
    ∃ g' fitted', boostedLoop γ predict fitNet batch j (g, fitted) = some (g', fitted') ∧
      BoostedInv γ predict batch n (k + j) g' fitted' := by
  induction j with
  | zero => exact fun k _ g fitted h => ⟨g, fitted, rfl, h⟩
  | succ j ih =>
    intro k hk g fitted h
    obtain ⟨g1, q, w, e1, ht, _, _, _, h1⟩ := boostedStep_inv γ predict fitNet batch n k (by omega) g fitted h
    obtain ⟨g2, f2, e2, h2⟩ := ih (k + 1) (by omega) g1 (fitted ++ [q]) h1
    refine ⟨g2, f2, ?_, by rw [show k + (j + 1) = k + 1 + j by omega]; exact h2⟩
    rw [boostedLoop, e1]
    simp only [Option.bind_some, ht, Option.getD_some]
    exact e2

theorem boostedInit_inv (γ : ℝ) (predict : W → S → A → ℝ) (batch : List (Trans S A)) (models : List W) :
    BoostedInv γ predict batch models.length 0 (boostedInit models batch.length : Boosted A W) [] := by
  have hlt : ∀ (i : ℕ) (t : Trans S A), batch[i]? = some t → i < batch.length := fun i t h => (List.getElem?_eq_some_iff.mp h).1
  constructor
  · rfl
  · rfl
  · simp [boostedInit]
  · rfl
  · simp [boostedInit]
  · simp [boostedInit]
  · intro i t ht
    simp [boostedInit, hlt i t ht, ensembleSum]
  · intro i t ht
    simp [boostedInit, hlt i t ht, column]
  · intro h; omega

/-- **C55**: with an ensemble of `n` models, after any number `k ≤ n` of iterations the targets the regressors were
fitted to add up, for every transition, to the Bellman target of the last iteration: the reward, plus (from the second
iteration on and unless the transition is absorbing) the discounted largest sum of the models fitted before it. -/
theorem C55_boosted (γ : ℝ) (predict : W → S → A → ℝ) (fitNet : W → List (Trans S A) → List ℝ → W) (batch : List (Trans S A))
    (models : List W) (k : ℕ) (h0 : 0 < k) (hk : k ≤ models.length) :
    ∃ g fitted, boostedLoop γ predict fitNet batch k (boostedInit models batch.length, []) = some (g, fitted) ∧
      fitted.length = k ∧ g.models.length = models.length ∧
      ∀ (i : ℕ) t, batch[i]? = some t → ∃ y, (fitted.map (fun q => q.getD i 0)).sum = y ∧
        if k ≤ 1 ∨ t.absorbing then y = t.reward
        else ∃ v, IsMax (fun a => ((g.models.take (k - 1)).map (fun w => predict w t.next a)).sum) v ∧ y = t.reward + γ * v := by
  obtain ⟨g, fitted, e, h⟩ := boostedLoop_inv γ predict fitNet batch models.length k 0 (by omega) _ _
    (boostedInit_inv γ predict batch models)
  rw [zero_add] at h
  exact ⟨g, fitted, e, h.fittedLen, h.len, fun i t ht => ⟨_, rfl, h.bellman h0 i t ht⟩⟩

example : 0 < 3 ∧ 3 ≤ ([(), (), (), ()] : List Unit).length := by decide

/-- **C55**: if moreover every regressor fits its targets exactly, the sum of the models predicts the Bellman target. -/
theorem C55_exact (γ : ℝ) (predict : W → S → A → ℝ) (fitNet : W → List (Trans S A) → List ℝ → W) (batch : List (Trans S A))
    (hexact : ∀ w q (i : ℕ) t y, q.length = batch.length → batch[i]? = some t → q[i]? = some y →
      predict (fitNet w batch q) t.state t.action = y)
    (models : List W) (k : ℕ) (hk : k ≤ models.length) :
    ∃ g fitted, boostedLoop γ predict fitNet batch k (boostedInit models batch.length, []) = some (g, fitted) ∧
      ∀ (i : ℕ) t, batch[i]? = some t →
        ((g.models.take k).map (fun w => predict w t.state t.action)).sum = (fitted.map (fun q => q.getD i 0)).sum := by
  have loop : ∀ (j k : ℕ) (_ : k + j ≤ models.length) (g : Boosted A W) (fitted : List (List ℝ)),
      BoostedInv γ predict batch models.length k g fitted →
      (∀ (i : ℕ) t, batch[i]? = some t → ensembleSum predict g.models k t.state t.action = column fitted i) →
      ∃ g' fitted', boostedLoop γ predict fitNet batch j (g, fitted) = some (g', fitted') ∧
        (∀ (i : ℕ) t, batch[i]? = some t → ensembleSum predict g'.models (k + j) t.state t.action = column fitted' i) := by
    intro j
    induction j with
    | zero => exact fun k _ g fitted _ h => ⟨g, fitted, rfl, h⟩
    | succ j ih =>
      intro k hk g fitted h hsum
      obtain ⟨g1, q, w, e1, ht, hql, hw, hm, h1⟩ := boostedStep_inv γ predict fitNet batch models.length k (by omega) g fitted h
      obtain ⟨g2, f2, e2, h2⟩ := ih (k + 1) (by omega) g1 (fitted ++ [q]) h1 (by
        intro i t hti
        have hi : i < q.length := by rw [hql]; exact (List.getElem?_eq_some_iff.mp hti).1
        rw [take_succ_sum predict g1.models k (fitNet w batch q) (by
          rw [hm, List.getElem?_set_self (by rw [h.len]; omega)]), hm, ensembleSum_set _ _ _ _ _ le_rfl, hsum i t hti]
        rw [hexact w q i t _ hql hti (List.getElem?_eq_getElem hi)]
        unfold column
        rw [List.map_append, List.sum_append, List.map_singleton, List.sum_singleton, List.getD_eq_getElem _ _ hi])
      refine ⟨g2, f2, ?_, by rw [show k + (j + 1) = k + 1 + j by omega]; exact h2⟩
      rw [boostedLoop, e1]
      simp only [Option.bind_some, ht, Option.getD_some]
      exact e2
  obtain ⟨g, f, e, h⟩ := loop k 0 (by omega) _ _ (boostedInit_inv γ predict batch models) (by
    intro i t _; simp [ensembleSum, column])
  rw [zero_add] at h
  exact ⟨g, f, e, h⟩

/-- A regressor that stores the target of a single transition is exact. -/
example (t0 : Trans S A) : ∀ (w : ℝ) (q : List ℝ) (i : ℕ) (t : Trans S A) (y : ℝ), q.length = [t0].length → [t0][i]? = some t → q[i]? = some y →
    (fun (w : ℝ) (_ : S) (_ : A) => w) ((fun (_ : ℝ) (_ : List (Trans S A)) (q : List ℝ) => q.getD 0 0) w [t0] q) t.state t.action = y := by
  intro w q i t y _ ht hy
  have hi : i < 1 := (List.getElem?_eq_some_iff.mp ht).1
  have : i = 0 := by omega
  subst this
  simp [hy]

/-- **C55**: the ensemble can be fitted only once: when all models are used, another iteration (another call of `fit`)
fails. -/
theorem C55_once (γ : ℝ) (predict : W → S → A → ℝ) (fitNet : W → List (Trans S A) → List ℝ → W) (batch : List (Trans S A))
    (g : Boosted A W) (h : g.models.length ≤ g.idx) : boostedStep γ predict fitNet batch g = none := by
  unfold boostedStep
  rw [List.getElem?_eq_none h]
  simp

end boosted

/-! ### LSPI -/

/-- **C56**, LSPI: whenever `fit` returns, the weights have moved by at most `epsilon` in the last iteration, and (if
the matrix was invertible) they solve the fixed-point equation of the policy that was greedy before it: the errors
`r + gamma q(s', a') - q(s, a)` are orthogonal to the features. The value of the next state enters also for absorbing
transitions, which is why this is partial. -/
theorem C56_lspi_partial (argmax : (A → ℝ) → A) (hg : Greedy argmax) (γ : ℝ) {d : ℕ}
    (pinv : Matrix (Fin d) (Fin d) ℝ → Matrix (Fin d) (Fin d) ℝ) (norm : (Fin d → ℝ) → ℝ) (eps : ℝ) (x : LspiData S A d)
    (w w' : Fin d → ℝ) (h : Lspi argmax γ pinv norm eps x w w') :
    ∃ v, norm (w' - v) ≤ eps ∧
      (IsUnit (lspiA argmax γ x v).det → ∃ next : Trans S A → A,
        (∀ t ∈ x.batch, t.absorbing = false → ∀ a, x.phi t.next a ⬝ᵥ v ≤ x.phi t.next (next t) ⬝ᵥ v) ∧
        ∀ i, (x.batch.map (fun t => x.phi t.state t.action i *
          (t.reward + γ * (x.phi t.next (next t) ⬝ᵥ w') - x.phi t.state t.action ⬝ᵥ w'))).sum = 0) := by
  induction h with
  | more w w' h next ih => exact ih
  | stop v hv =>
    refine ⟨v, not_lt.mp hv, fun hu => ⟨lspiAction argmax x v, ?_, ?_⟩⟩
    · intro t _ hab a
      have := hg (fun a => (x.phi t.next a ⬝ᵥ v) * (if x.batch.any (·.absorbing) then alive t.absorbing else 1)) a
      rw [hab] at this
      unfold lspiAction
      rw [hab]
      simpa [alive] using this
    · intro i
      set z := lspiStep argmax γ pinv x v with hz
      have hsol : (lspiA argmax γ x v).mulVec z = lspiB x := by
        rw [hz]
        unfold lspiStep
        dsimp only
        rw [if_pos hu, Matrix.mulVec_mulVec, Matrix.mul_nonsing_inv _ hu, Matrix.one_mulVec]
      have hi := congrFun hsol i
      unfold Matrix.mulVec dotProduct lspiA lspiB at hi
      have expand : ∀ l : List (Trans S A),
          ∑ j, (l.map (fun t => x.phi t.state t.action i * (x.phi t.state t.action j - γ * x.phi t.next (lspiAction argmax x v t) j))).sum * z j =
            (l.map (fun t => x.phi t.state t.action i * (x.phi t.state t.action ⬝ᵥ z - γ * (x.phi t.next (lspiAction argmax x v t) ⬝ᵥ z)))).sum := by
        intro l
        induction l with
        | nil => simp
        | cons t l ih =>
          simp only [List.map_cons, List.sum_cons, add_mul, Finset.sum_add_distrib]
          rw [ih]
          congr 1
          unfold dotProduct
          rw [Finset.mul_sum, ← Finset.sum_sub_distrib, Finset.mul_sum]
          apply Finset.sum_congr rfl
          intro j _
          ring
      rw [expand] at hi
      have diff : ∀ l : List (Trans S A),
          (l.map (fun t => x.phi t.state t.action i * (t.reward + γ * (x.phi t.next (lspiAction argmax x v t) ⬝ᵥ z) - x.phi t.state t.action ⬝ᵥ z))).sum =
            (l.map (fun t => x.phi t.state t.action i * t.reward)).sum -
            (l.map (fun t => x.phi t.state t.action i * (x.phi t.state t.action ⬝ᵥ z - γ * (x.phi t.next (lspiAction argmax x v t) ⬝ᵥ z)))).sum := by
        intro l
        induction l with
        | nil => simp
        | cons t l ih =>
          simp only [List.map_cons, List.sum_cons]
          rw [ih]; ring
      rw [diff, hi, sub_self]

/-- One absorbing transition with reward 1 and one feature; the feature of the next state is `c`. -/
def lspiDemo (c : ℝ) : LspiData Bool Unit 1 where
  batch := [{ state := false, action := (), reward := 1, next := true, absorbing := true }]
  phi := fun s _ _ => if s then c else 1

theorem lspiDemo_step (pinv : Matrix (Fin 1) (Fin 1) ℝ → Matrix (Fin 1) (Fin 1) ℝ) (c : ℝ) (hc : 1 - 1 / 2 * c ≠ 0) (w : Fin 1 → ℝ) :
    lspiStep (fun _ => ()) (1 / 2) pinv (lspiDemo c) w = fun _ => 1 / (1 - 1 / 2 * c) := by
  have hA : lspiA (fun _ => ()) (1 / 2) (lspiDemo c) w = Matrix.diagonal (fun _ => 1 - 1 / 2 * c) := by
    ext i j
    have hi : i = j := Subsingleton.elim _ _
    subst hi
    rw [Matrix.diagonal_apply_eq]
    simp [lspiA, lspiDemo]
  have hdet : (lspiA (fun _ => ()) (1 / 2) (lspiDemo c) w).det = 1 - 1 / 2 * c := by
    rw [hA, Matrix.det_diagonal]
    simp
  unfold lspiStep
  dsimp only
  rw [if_pos (by rw [hdet]; exact isUnit_iff_ne_zero.mpr hc)]
  have hB : (lspiB (lspiDemo c)) = (lspiA (fun _ => ()) (1 / 2) (lspiDemo c) w).mulVec (fun _ => 1 / (1 - 1 / 2 * c)) := by
    rw [hA]
    funext i
    rw [Matrix.mulVec_diagonal]
    rw [mul_one_div_cancel hc]
    simp [lspiB, lspiDemo]
  rw [hB, Matrix.mulVec_mulVec, Matrix.nonsing_inv_mul _ (by rw [hdet]; exact isUnit_iff_ne_zero.mpr hc), Matrix.one_mulVec]

/-- LSPI does bootstrap from absorbing states: with discount 1/2, from one absorbing transition with reward 1 it learns
the weight 1 if the feature of the absorbing state is 0, and the weight 2 if it is 1. -/
theorem C56_lspi_refuted (pinv : Matrix (Fin 1) (Fin 1) ℝ → Matrix (Fin 1) (Fin 1) ℝ) (norm : (Fin 1 → ℝ) → ℝ) (h0 : norm 0 = 0)
    (w : Fin 1 → ℝ) :
    ∃ w0 w1, Lspi (fun _ => ()) (1 / 2) pinv norm (1 / 100) (lspiDemo 0) w w0 ∧
      Lspi (fun _ => ()) (1 / 2) pinv norm (1 / 100) (lspiDemo 1) w w1 ∧ w0 0 = 1 ∧ w1 0 = 2 := by
  have run : ∀ c : ℝ, 1 - 1 / 2 * c ≠ 0 →
      Lspi (fun _ => ()) (1 / 2) pinv norm (1 / 100) (lspiDemo c) w (fun _ => 1 / (1 - 1 / 2 * c)) := by
    intro c hc
    by_cases h : norm (lspiStep (fun _ => ()) (1 / 2) pinv (lspiDemo c) w - w) > 1 / 100
    · refine Lspi.more w _ h ?_
      rw [lspiDemo_step pinv c hc]
      have := Lspi.stop (argmax := fun _ => ()) (γ := 1 / 2) (pinv := pinv) (norm := norm) (eps := 1 / 100) (x := lspiDemo c)
        (fun _ => 1 / (1 - 1 / 2 * c)) (by rw [lspiDemo_step pinv c hc, sub_self, h0]; norm_num)
      rw [lspiDemo_step pinv c hc] at this
      exact this
    · have := Lspi.stop (argmax := fun _ => ()) (γ := 1 / 2) (pinv := pinv) (norm := norm) (eps := 1 / 100) (x := lspiDemo c) w h
      rw [lspiDemo_step pinv c hc] at this
      exact this
  exact ⟨_, _, run 0 (by norm_num), run 1 (by norm_num), by norm_num, by norm_num⟩

end Verif.DQN
