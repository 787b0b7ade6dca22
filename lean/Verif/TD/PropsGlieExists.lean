/-
Property C151, continued: every finite problem and every way to choose actions make random experience of the kind that the theorems are about.
-/
import Verif.TD.PropsGlieRun
import Verif.TD.LemmasTraj

namespace Verif.TD

open Filter Topology MeasureTheory

noncomputable section

variable {S A : Type} [DecidableEq S] [DecidableEq A] [Fintype S] [Fintype A] [Nonempty A]

section
variable (m : RandomMDP S A) (s0 : S) (other : S → A → S)

/-- The `n`-th action: element `2 n + 1` of the sequence of random draws. -/
def actionOf (ω : ℕ → Draw (A × S)) (n : ℕ) : A := (ω (2 * n + 1)).val.1

open Classical in
/-- The next state: element `2 n + 2`, or some possible state if this one has no probability. -/
def landsIn (s : S) (a : A) (y : S) : S := if 0 < m.prob s a y then y else other s a

/-- Where the `n`-th transition starts. -/
def startOf (ω : ℕ → Draw (A × S)) : ℕ → S
  | 0 => s0
  | n + 1 =>
    if m.absorbing (startOf ω n) (actionOf ω n) (landsIn m other (startOf ω n) (actionOf ω n) (ω (2 * n + 2)).val.2) then s0
    else landsIn m other (startOf ω n) (actionOf ω n) (ω (2 * n + 2)).val.2

/-- The `n`-th transition. -/
def madeAt (n : ℕ) (ω : ℕ → Draw (A × S)) : Trans S A :=
  { state := startOf m s0 other ω n
    action := actionOf ω n
    reward := m.reward (startOf m s0 other ω n) (actionOf ω n) (landsIn m other (startOf m s0 other ω n) (actionOf ω n) (ω (2 * n + 2)).val.2)
    next := landsIn m other (startOf m s0 other ω n) (actionOf ω n) (ω (2 * n + 2)).val.2
    absorbing := m.absorbing (startOf m s0 other ω n) (actionOf ω n) (landsIn m other (startOf m s0 other ω n) (actionOf ω n) (ω (2 * n + 2)).val.2) }

omit [DecidableEq S] [DecidableEq A] [Fintype S] [Fintype A] [Nonempty A] in
theorem startOf_depends (n : ℕ) : DependsOn (2 * n) (fun ω => startOf m s0 other ω n) := by
  intro ω ω' h
  induction n with
  | zero => rfl
  | succ n ih =>
    have e := ih (fun i hi => h i (by omega))
    simp only at e
    have e1 : actionOf ω n = actionOf ω' n := by simp only [actionOf, h (2 * n + 1) (by omega)]
    simp only [startOf, e, e1, h (2 * n + 2) (by omega)]

omit [DecidableEq S] [DecidableEq A] [Fintype S] [Fintype A] [Nonempty A] in
theorem madeAt_depends (n : ℕ) : DependsOn (2 * n + 2) (madeAt m s0 other n) := by
  intro ω ω' h
  have e := startOf_depends m s0 other n ω ω' (fun i hi => h i (by omega))
  simp only at e
  have e1 : actionOf ω n = actionOf ω' n := by simp only [actionOf, h (2 * n + 1) (by omega)]
  simp only [madeAt, e, e1, h (2 * n + 2) (by omega)]

/-- The probabilities of the draws: actions by the plan, next states by the problem. -/
def weights (plan : List (Trans S A) → S → A → ℝ) (a0 : A) (b : ℕ) (ω : ℕ → Draw (A × S)) (y : Draw (A × S)) : ℝ :=
  if b % 2 = 0 then
    if y.val.2 = s0 then plan ((List.range (b / 2)).map (madeAt m s0 other · ω)) (startOf m s0 other ω (b / 2)) y.val.1 else 0
  else if y.val.1 = a0 then m.prob (startOf m s0 other ω (b / 2)) (actionOf ω (b / 2)) y.val.2 else 0

theorem sum_draw (f : A × S → ℝ) : ∑ y : Draw (A × S), f y.val = ∑ a, ∑ s, f (a, s) := by
  rw [← Fintype.sum_prod_type]
  exact (Equiv.sum_comp (Draw.equiv (A × S)) f)

theorem weights_even (plan : List (Trans S A) → S → A → ℝ) (a0 : A) (n : ℕ) (ω : ℕ → Draw (A × S)) (g : A → ℝ) :
    ∑ y : Draw (A × S), weights m s0 other plan a0 (2 * n) ω y * g y.val.1 =
      ∑ a, plan ((List.range n).map (madeAt m s0 other · ω)) (startOf m s0 other ω n) a * g a := by
  have h1 : 2 * n % 2 = 0 := by omega
  have h2 : 2 * n / 2 = n := by omega
  simp only [weights, h1, h2, if_true]
  rw [sum_draw (fun y => (if y.2 = s0 then plan ((List.range n).map (madeAt m s0 other · ω)) (startOf m s0 other ω n) y.1 else 0) * g y.1)]
  refine Finset.sum_congr rfl fun a _ => ?_
  simp only [ite_mul, zero_mul, Finset.sum_ite_eq', Finset.mem_univ, if_true]

theorem weights_odd (plan : List (Trans S A) → S → A → ℝ) (a0 : A) (n : ℕ) (ω : ℕ → Draw (A × S)) (g : S → ℝ) :
    ∑ y : Draw (A × S), weights m s0 other plan a0 (2 * n + 1) ω y * g y.val.2 =
      ∑ s, m.prob (startOf m s0 other ω n) (actionOf ω n) s * g s := by
  have h1 : ¬ (2 * n + 1) % 2 = 0 := by omega
  have h2 : (2 * n + 1) / 2 = n := by omega
  simp only [weights, h1, h2, if_false]
  rw [sum_draw (fun y => (if y.1 = a0 then m.prob (startOf m s0 other ω n) (actionOf ω n) y.2 else 0) * g y.2), Finset.sum_comm]
  refine Finset.sum_congr rfl fun s _ => ?_
  simp only [ite_mul, zero_mul, Finset.sum_ite_eq', Finset.mem_univ, if_true]

end

/-- C151. For every finite problem and every plan, which gives probabilities to the actions from the transitions so far and the state, there is random experience: the
actions have the probabilities of the plan, the next states have those of the problem, and episodes start in `s0`. -/
theorem C151_experience_exists (m : RandomMDP S A) (hm : m.Proper) (L : S → Prop) (hcl : m.Closed L) (s0 : S) (h0 : L s0)
    (plan : List (Trans S A) → S → A → ℝ) (hplan : ∀ h s, Prob (plan h s)) :
    ∃ (Ω : Type) (mΩ : MeasurableSpace Ω) (μ : Measure Ω) (_ : IsProbabilityMeasure μ) (ℱ 𝒢 : Filtration ℕ mΩ) (t : ℕ → Ω → Trans S A),
      Experience μ ℱ m L t ∧ ActionDraws μ ℱ 𝒢 (fun n ω s => plan ((List.range n).map (t · ω)) s) t ∧
      (∀ n s', MeasurableSet[𝒢 (n + 1)] {ω | (t n ω).next = s'}) ∧ ∀ ω, Restarts s0 (t · ω) ∧ (t 0 ω).state = s0 := by
  classical
  obtain ⟨a0⟩ := ‹Nonempty A›
  have hpos : ∀ s a, ∃ s', 0 < m.prob s a s' := by
    intro s a
    by_contra hno
    push Not at hno
    have h1 : ∑ s', m.prob s a s' = 0 := Finset.sum_eq_zero fun s' _ => le_antisymm (hno s') (hm.1 _ _ _)
    rw [hm.2] at h1
    exact one_ne_zero h1
  choose other hother using hpos
  have hland : ∀ s a y, 0 < m.prob s a (landsIn m other s a y) := by
    intro s a y
    unfold landsIn
    split
    · assumption
    · exact hother s a
  have hsum : ∀ s a s', ∑ y, m.prob s a y * (if landsIn m other s a y = s' then (1 : ℝ) else 0) = m.prob s a s' := by
    intro s a s'
    have : ∀ y, m.prob s a y * (if landsIn m other s a y = s' then (1 : ℝ) else 0) = if y = s' then m.prob s a y else 0 := by
      intro y
      by_cases hy : 0 < m.prob s a y
      · simp [landsIn, hy]
      · have : m.prob s a y = 0 := le_antisymm (not_lt.1 hy) (hm.1 _ _ _)
        rw [this]; simp
    simp only [this, Finset.sum_ite_eq', Finset.mem_univ, if_true]
  have hlive : ∀ n ω, L (startOf m s0 other ω n) := by
    intro n ω
    induction n with
    | zero => exact h0
    | succ n ih =>
      simp only [startOf]
      split
      · exact h0
      · rename_i hab
        exact hcl _ _ _ ih (hland _ _ _) (by simpa using hab)
  have hpast : ∀ n, DependsOn (2 * n) (fun ω => (List.range n).map (madeAt m s0 other · ω)) := by
    intro n ω ω' h
    refine List.map_congr_left fun k hk => ?_
    have : k < n := List.mem_range.1 hk
    exact madeAt_depends m s0 other k ω ω' fun i hi => h i (by omega)
  have hw : ∀ b ω, Prob (weights m s0 other plan a0 b ω) := by
    intro b ω
    constructor
    · intro y
      unfold weights
      split
      · split
        · exact (hplan _ _).1 _
        · exact le_rfl
      · split
        · exact hm.1 _ _ _
        · exact le_rfl
    · rcases Nat.even_or_odd' b with ⟨n, rfl | rfl⟩
      · have := weights_even m s0 other plan a0 n ω (fun _ => 1)
        simp only [mul_one] at this
        rw [this]
        exact (hplan _ _).2
      · have := weights_odd m s0 other plan a0 n ω (fun _ => 1)
        simp only [mul_one] at this
        rw [this]
        exact hm.2 _ _
  have hdep : ∀ b, DependsOn b (weights m s0 other plan a0 b) := by
    intro b ω ω' h
    funext y
    rcases Nat.even_or_odd' b with ⟨n, rfl | rfl⟩
    · have h1 : 2 * n % 2 = 0 := by omega
      have h2 : 2 * n / 2 = n := by omega
      have e1 := hpast n ω ω' h
      have e2 := startOf_depends m s0 other n ω ω' h
      simp only at e1 e2
      simp only [weights, h1, h2, if_true, e1, e2]
    · have h1 : ¬ (2 * n + 1) % 2 = 0 := by omega
      have h2 : (2 * n + 1) / 2 = n := by omega
      have e2 := startOf_depends m s0 other n ω ω' (fun i hi => h i (by omega))
      simp only at e2
      have e3 : actionOf ω n = actionOf ω' n := by simp only [actionOf, h (2 * n + 1) (by omega)]
      simp only [weights, h1, h2, if_false, e2, e3]
  obtain ⟨μ, hμ, hlaw⟩ := random_sequence (Y := A × S) ⟨(a0, s0)⟩ (weights m s0 other plan a0) hw hdep
  have hset : ∀ b (B : Set (ℕ → Draw (A × S))), DependsOn b (fun ω => ω ∈ B) → MeasurableSet[Filtration.piLE (X := fun _ : ℕ => Draw (A × S)) b] B := by
    intro b B hB
    have := dependsOn_measurable (β := Prop) ⟨(a0, s0)⟩ hB
    exact (@measurableSet_setOf _ (Filtration.piLE (X := fun _ : ℕ => Draw (A × S)) b) _).2 this
  let ℱ : Filtration ℕ (inferInstance : MeasurableSpace (ℕ → Draw (A × S))) :=
    { seq := fun n => Filtration.piLE (X := fun _ : ℕ => Draw (A × S)) (2 * n + 1)
      mono' := fun i j h => Filtration.piLE.mono (by omega)
      le' := fun n => Filtration.piLE.le _ }
  let 𝒢 : Filtration ℕ (inferInstance : MeasurableSpace (ℕ → Draw (A × S))) :=
    { seq := fun n => Filtration.piLE (X := fun _ : ℕ => Draw (A × S)) (2 * n)
      mono' := fun i j h => Filtration.piLE.mono (by omega)
      le' := fun n => Filtration.piLE.le _ }
  refine ⟨ℕ → Draw (A × S), inferInstance, μ, hμ, ℱ, 𝒢, madeAt m s0 other, ⟨fun n ω => hlive n ω, fun n s a => ?_, fun n s' => ?_, fun n s' => ?_, fun n ω => rfl,
    fun n ω => rfl⟩, ⟨fun n => Filtration.piLE.mono (by omega), fun n => Filtration.piLE.mono (by omega), fun n s => ?_, fun n a => ?_⟩, fun n s' => ?_, fun ω => ⟨fun n => rfl, rfl⟩⟩
  · refine hset (2 * n + 1) _ fun ω ω' h => ?_
    have e := startOf_depends m s0 other n ω ω' (fun i hi => h i (by omega))
    simp only at e
    have e3 : actionOf ω n = actionOf ω' n := by simp only [actionOf, h (2 * n + 1) (by omega)]
    simp only [Set.mem_setOf_eq, madeAt, e, e3]
  · refine hset (2 * (n + 1) + 1) _ fun ω ω' h => ?_
    simp only [Set.mem_setOf_eq, madeAt_depends m s0 other n ω ω' (fun i hi => h i (by omega))]
  · have h1 := hlaw (2 * n + 1) (fun ω y => if landsIn m other (startOf m s0 other ω n) (actionOf ω n) y.val.2 = s' then (1 : ℝ) else 0) (fun ω ω' h => by
      have e := startOf_depends m s0 other n ω ω' (fun i hi => h i (by omega))
      simp only at e
      have e3 : actionOf ω n = actionOf ω' n := by simp only [actionOf, h (2 * n + 1) (by omega)]
      simp only [e, e3])
    have e : Set.indicator {ω | (madeAt m s0 other n ω).next = s'} (fun _ => (1 : ℝ)) = fun ω : ℕ → Draw (A × S) =>
        if landsIn m other (startOf m s0 other ω n) (actionOf ω n) (ω (2 * n + 1 + 1)).val.2 = s' then (1 : ℝ) else 0 := by
      funext ω
      simp only [Set.indicator_apply, Set.mem_setOf_eq]
      congr
    rw [e]
    filter_upwards [h1] with ω h
    refine h.trans ?_
    rw [weights_odd m s0 other plan a0 n ω (fun y => if landsIn m other (startOf m s0 other ω n) (actionOf ω n) y = s' then (1 : ℝ) else 0)]
    exact hsum _ _ _
  · refine hset (2 * n) _ fun ω ω' h => ?_
    have e := startOf_depends m s0 other n ω ω' h
    simp only at e
    simp only [Set.mem_setOf_eq, madeAt, e]
  · have h1 := hlaw (2 * n) (fun ω y => if y.val.1 = a then (1 : ℝ) else 0) (fun ω ω' h => rfl)
    have e : Set.indicator {ω | (madeAt m s0 other n ω).action = a} (fun _ => (1 : ℝ)) = fun ω : ℕ → Draw (A × S) =>
        if (ω (2 * n + 1)).val.1 = a then (1 : ℝ) else 0 := by
      funext ω
      simp only [Set.indicator_apply, Set.mem_setOf_eq]
      congr
    rw [e]
    filter_upwards [h1] with ω h
    refine h.trans ?_
    rw [weights_even m s0 other plan a0 n ω (fun y => if y = a then (1 : ℝ) else 0)]
    simp only [mul_ite, mul_one, mul_zero, Finset.sum_ite_eq', Finset.mem_univ, if_true]
    rfl
  · refine hset (2 * (n + 1)) _ fun ω ω' h => ?_
    simp only [Set.mem_setOf_eq, madeAt_depends m s0 other n ω ω' (fun i hi => h i (by omega))]

theorem epsAt_congr (p : Policy.Param) (key : S → Policy.Index) {t t' : ℕ → Trans S A} {n : ℕ} (h : ∀ k, k < n → t k = t' k) (s : S) :
    epsAt p key t n s = epsAt p key t' n s := by
  unfold epsAt epsAfter
  rw [List.map_congr_left (fun k hk => by rw [h k (List.mem_range.1 hk)] : ∀ k ∈ List.range n, Policy.Op.call (key (t k).state) = .call (key (t' k).state))]

theorem rateAt_congr (p : Policy.Param) (key : S → A → Policy.Index) {t t' : ℕ → Trans S A} {n : ℕ} (h : ∀ k, k ≤ n → t k = t' k) :
    rateAt p key t n = rateAt p key t' n := by
  unfold rateAt paramAfter
  rw [List.map_congr_left (fun k hk => by rw [h k (List.mem_range.1 hk).le] :
    ∀ k ∈ List.range n, Policy.Op.call (key (t k).state (t k).action) = .call (key (t' k).state (t' k).action)), h n le_rfl]

theorem tables_congr {upd upd' : ℕ → Table S A → Table S A} {Q0 : Table S A} {n : ℕ} (h : ∀ k, k < n → upd k = upd' k) :
    tables upd Q0 n = tables upd' Q0 n := by
  induction n with
  | zero => rfl
  | succ n ih => simp only [tables, ih (fun k hk => h k (by omega)), h n (Nat.lt_succ_self n)]

/-- C151. The hypotheses of `C151_q_learning` can be met in every finite problem: there is random experience in which the agent chooses its actions itself, with `EpsGreedy`,
its table and its parameters. So Q-learning finds the optimal values with probability one in every finite problem in which every live state can be reached from every other one. -/
theorem C151_runs_exist (m : RandomMDP S A) (hm : m.Proper) (L : S → Prop) (hcl : m.Closed L) (s0 : S) (h0 : L s0) (hcom : m.Communicating L s0) (γ : ℝ) (hγ0 : 0 ≤ γ)
    (hγ1 : γ < 1) (Qs : Table S A) (hQs : m.OptimalOn L γ Qs) (key : S → Policy.Index) (hkey : ∀ s s', key s = key s' → s = s')
    (v p : ℝ) (hv0 : 0 < v) (hv1 : v ≤ 1) (hp0 : 0 < p) (hp1 : p ≤ 1)
    (key2 : S → A → Policy.Index) (hkey2 : ∀ s a s' a', key2 s a = key2 s' a' → s = s' ∧ a = a') (w r : ℝ) (hw0 : 0 < w) (hw1 : w ≤ 1) (hr0 : 1 / 2 < r) (hr1 : r ≤ 1)
    (Q0 : Table S A) :
    ∃ (Ω : Type) (mΩ : MeasurableSpace Ω) (μ : Measure Ω) (_ : IsProbabilityMeasure μ) (ℱ 𝒢 : Filtration ℕ mΩ) (t : ℕ → Ω → Trans S A) (Q : ℕ → Ω → Table S A),
      Experience μ ℱ m L t ∧ (∀ ω, Restarts s0 (t · ω)) ∧
      (∀ n ω, Q n ω = tables (fun k Q => qLearning γ (rateAt (Policy.decayParam w r none none false) key2 (t · ω) k) Q (t k ω)) Q0 n) ∧
      ActionDraws μ ℱ 𝒢 (fun n ω s => epsGreedy (epsAt (Policy.decayParam v p none none false) key (t · ω) n s) (Q n ω s)) t ∧
      ∀ᵐ ω ∂μ, ∀ s, L s → ∀ a, Tendsto (fun n => Q n ω s a) atTop (𝓝 (Qs s a)) := by
  classical
  obtain ⟨a0⟩ := id ‹Nonempty A›
  let d : Trans S A := { state := s0, action := a0, reward := 0, next := s0, absorbing := false }
  let plan : List (Trans S A) → S → A → ℝ := fun h s => epsGreedy (epsAt (Policy.decayParam v p none none false) key (fun k => h.getD k d) h.length s)
    (tables (fun k Q => qLearning γ (rateAt (Policy.decayParam w r none none false) key2 (fun k => h.getD k d) k) Q (h.getD k d)) Q0 h.length s)
  obtain ⟨Ω, mΩ, μ, hμ, ℱ, 𝒢, t, ht, hd, -, hre⟩ := C151_experience_exists m hm L hcl s0 h0 plan
    (fun h s => epsGreedy_prob (epsAt_range hkey hv0 hv1 hp0.le _ _ _).1 (epsAt_range hkey hv0 hv1 hp0.le _ _ _).2 _)
  have hsame : ∀ n ω s, plan ((List.range n).map (t · ω)) s = epsGreedy (epsAt (Policy.decayParam v p none none false) key (t · ω) n s)
      (tables (fun k Q => qLearning γ (rateAt (Policy.decayParam w r none none false) key2 (t · ω) k) Q (t k ω)) Q0 n s) := by
    intro n ω s
    have hk : ∀ k, k < n → ((List.range n).map (t · ω)).getD k d = t k ω := fun k hk => by simp [hk]
    simp only [plan, List.length_map, List.length_range]
    rw [epsAt_congr _ _ hk, tables_congr (upd' := fun k Q => qLearning γ (rateAt (Policy.decayParam w r none none false) key2 (t · ω) k) Q (t k ω)) (fun k hlt => ?_)]
    funext Q
    rw [hk k hlt, rateAt_congr _ _ (fun j hj => hk j (by omega))]
  simp only [hsame] at hd
  refine ⟨Ω, mΩ, μ, hμ, ℱ, 𝒢, t, _, ht, fun ω => (hre ω).1, fun n ω => rfl, hd, ?_⟩
  filter_upwards [C151_q_learning m hm L hcl s0 hcom γ hγ0 hγ1 Qs hQs t ht (fun ω => (hre ω).1) key hkey v p hv0 hv1 hp0 hp1 key2 hkey2 w r hw0 hw1 hr0 hr1 Q0 _ (fun n ω => rfl) hd]
    with ω h s hs
  exact (h s hs).1

end

end Verif.TD
