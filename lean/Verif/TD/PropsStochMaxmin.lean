/-
Property C145, continued: Maxmin Q-learning.
-/
import Verif.TD.PropsStochDemo

namespace Verif.TD

open Filter Topology MeasureTheory

noncomputable section

variable {S A : Type} [DecidableEq S] [DecidableEq A] [Fintype S] [Fintype A] [Nonempty A]
variable {Ω : Type} [mΩ : MeasurableSpace Ω] {μ : Measure Ω} [IsProbabilityMeasure μ] {ℱ : Filtration ℕ mΩ}

/-- The rates used for a pair in table `k`: 0 at the transitions that do not update it. -/
def ratesOfTable (k : ℕ) (s : S) (a : A) (t : ℕ → Trans S A) (idx : ℕ → ℕ) (α : ℕ → ℝ) (n : ℕ) : ℝ :=
  if idx n = k ∧ (t n).state = s ∧ (t n).action = a then α n else 0

/-- The conditions of Robbins and Monro for each of the tables `0, ..., N`, of which `idx n` is updated at the `n`-th transition. -/
structure RobbinsMonroTables (μ : Measure Ω) (ℱ : Filtration ℕ mΩ) (L : S → Prop) (N : ℕ) (t : ℕ → Ω → Trans S A) (idx : ℕ → Ω → ℕ)
    (α : ℕ → Ω → ℝ) : Prop where
  known : ∀ n, Measurable[ℱ n] (α n)
  chosen : ∀ n, Measurable[ℱ n] (idx n)
  valid : ∀ n ω, idx n ω ≤ N
  range : ∀ n ω, 0 ≤ α n ω ∧ α n ω ≤ 1
  squares : ∃ C, ∀ k s a ω M, ∑ i ∈ Finset.range M, ratesOfTable k s a (t · ω) (idx · ω) (α · ω) i ^ 2 ≤ C
  diverge : ∀ᵐ ω ∂μ, ∀ k, k ≤ N → ∀ s, L s → ∀ a,
    Tendsto (fun n => ∑ i ∈ Finset.range n, ratesOfTable k s a (t · ω) (idx · ω) (α · ω) i) atTop atTop

/-- The ensembles of an agent: `upd n` is its update with the `n`-th transition. -/
def ensembles (upd : ℕ → Tables S A → Tables S A) (Q0 : Tables S A) : ℕ → Tables S A
  | 0 => Q0
  | n + 1 => upd n (ensembles upd Q0 n)

omit [DecidableEq S] [DecidableEq A] [Fintype S] [Fintype A] [Nonempty A] in
theorem predictMin_close {N : ℕ} {Qs : Tables S A} {Q : Table S A} {s : S} {a : A} {D : ℝ} (h : ∀ k, k ≤ N → |Qs k s a - Q s a| ≤ D) :
    |predictMin N Qs s a - Q s a| ≤ D := by
  obtain ⟨k, hk, he⟩ := Finset.exists_mem_eq_inf' (s := Finset.range (N + 1)) ⟨0, by simp⟩ (fun i => Qs i s a)
  have hk' : k ≤ N := by have := Finset.mem_range.1 hk; omega
  unfold predictMin
  rw [he]
  exact h k hk'

omit [DecidableEq S] [DecidableEq A] [Fintype S] [Fintype A] [Nonempty A] in
theorem predictMin_congr {N : ℕ} {Qs Qs' : Tables S A} {s : S} {a : A} (h : ∀ k, k ≤ N → Qs k s a = Qs' k s a) :
    predictMin N Qs s a = predictMin N Qs' s a := by
  unfold predictMin
  exact Finset.inf'_congr _ rfl (fun k hk => h k (by have := Finset.mem_range.1 hk; omega))

omit [DecidableEq S] [DecidableEq A] [Fintype S] [Fintype A] [Nonempty A] in
theorem predictMin_measurable {E : Type} [MeasurableSpace E] {f : E → Tables S A} {s : S} {a : A} {N : ℕ}
    (h : ∀ k, k ≤ N → Measurable (fun v => f v k s a)) : Measurable (fun v => predictMin N (f v) s a) := by
  induction N with
  | zero => simpa [predictMin] using h 0 (le_refl 0)
  | succ N ih =>
    have e : (fun v => predictMin (N + 1) (f v) s a) = fun v => min (f v (N + 1) s a) (predictMin N (f v) s a) := by
      funext v
      unfold predictMin
      have := Finset.inf'_insert (s := Finset.range (N + 1)) ⟨0, by simp⟩ (b := N + 1) (fun i => f v i s a)
      rw [← this]
      exact Finset.inf'_congr _ Finset.range_add_one (fun _ _ => rfl)
    rw [e]
    exact (h _ (le_refl _)).min (ih (fun k hk => h k (by omega)))

/-- C145. Maxmin Q-learning: with probability one every table of the ensemble converges to the optimal values, and so does
their minimum, which the policy uses. -/
theorem C145_maxmin (m : RandomMDP S A) (hm : m.Proper) (L : S → Prop) (hcl : m.Closed L) (γ : ℝ) (hγ0 : 0 ≤ γ) (hγ1 : γ < 1)
    (Qs : Table S A) (hQs : m.OptimalOn L γ Qs) (N : ℕ) (t : ℕ → Ω → Trans S A) (ht : Experience μ ℱ m L t) (idx : ℕ → Ω → ℕ)
    (α : ℕ → Ω → ℝ) (hα : RobbinsMonroTables μ ℱ L N t idx α) (Q0 : Tables S A) :
    ∀ᵐ ω ∂μ, ∀ s, L s → ∀ a,
      (∀ k, k ≤ N → Tendsto (fun n => ensembles (fun i Q => maxminQ N γ (α i ω) Q (t i ω) (idx i ω)) Q0 n k s a) atTop (𝓝 (Qs s a))) ∧
      Tendsto (fun n => predictMin N (ensembles (fun i Q => maxminQ N γ (α i ω) Q (t i ω) (idx i ω)) Q0 n) s a) atTop (𝓝 (Qs s a)) := by
  obtain ⟨V, hV⟩ := hQs
  obtain ⟨C, hC⟩ := hα.squares
  -- the largest initial value over the tables
  set Qb : Table S A := fun s a => ∑ k ∈ Finset.range (N + 1), |Q0 k s a| with hQb
  set B := reach m γ Qb with hB
  have hB0 : 0 ≤ B := by
    rw [hB]; unfold reach
    exact add_nonneg (Finset.sum_nonneg (fun _ _ => Finset.sum_nonneg (fun _ _ => abs_nonneg _)))
      (div_nonneg (Finset.sum_nonneg (fun _ _ => Finset.sum_nonneg (fun _ _ => Finset.sum_nonneg (fun _ _ => abs_nonneg _)))) (by linarith))
  have hQ0 : ∀ k, k ≤ N → ∀ s a, |Q0 k s a| ≤ B := by
    intro k hk s a
    refine le_trans ?_ (bounded_reach (m := m) hγ1 (Q0 := Qb) s a)
    refine le_trans ?_ (le_abs_self _)
    exact Finset.single_le_sum (f := fun k => |Q0 k s a|) (fun _ _ => abs_nonneg _) (Finset.mem_range.2 (by omega))
  let ext : (Fin (N + 1) × S × A → ℝ) → Tables S A := fun v k s a => if h : k < N + 1 then v (⟨k, h⟩, s, a) else 0
  have hext : ∀ v k (hk : k ≤ N) s a, ext v k s a = v (⟨k, Nat.lt_succ_of_le hk⟩, s, a) := fun v k hk s a =>
    dif_pos (Nat.lt_succ_of_le hk)
  have := table_converges (ℱ := ℱ) (μ := μ) (I := Fin (N + 1) × S × A) (Y := S)
    (x := fun n ω j => ensembles (fun i Q => maxminQ N γ (α i ω) Q (t i ω) (idx i ω)) Q0 n j.1 j.2.1 j.2.2)
    (x0 := fun j => Q0 j.1 j.2.1 j.2.2) (xs := fun j => Qs j.2.1 j.2.2)
    (G := fun v j s' => m.reward j.2.1 j.2.2 s' +
      γ * (if m.absorbing j.2.1 j.2.2 s' then 0 else rowMax (predictMin N (ext v) s')))
    (p := fun j s' => m.prob j.2.1 j.2.2 s')
    (i := fun n ω => (⟨idx n ω, Nat.lt_succ_of_le (hα.valid n ω)⟩, (t n ω).state, (t n ω).action)) (y := fun n ω => (t n ω).next)
    (a := α) (L := fun j => L j.2.1) (γ := γ) (B := B) (C := C) hγ0 hγ1 (fun n j => ?_) ht.known
    (fun n => (hα.known n).stronglyMeasurable) (fun n ω => (hα.range n ω).1) (fun n ω => (hα.range n ω).2) ht.law
    (fun j s' => hm.1 _ _ _) (fun j => hm.2 _ _) (fun j s' => ?_) (fun j => hQ0 _ (by have := j.1.2; omega) _ _) (fun v hv j s' => ?_)
    (fun ω => rfl) (fun n ω j => ?_) (fun v D hD h j hj => ?_) (fun j M ω => ?_) ?_
  · filter_upwards [this] with ω h s hs a
    have hk : ∀ k, k ≤ N → Tendsto (fun n => ensembles (fun i Q => maxminQ N γ (α i ω) Q (t i ω) (idx i ω)) Q0 n k s a) atTop
        (𝓝 (Qs s a)) := fun k hk => h (⟨k, by omega⟩, s, a) hs
    refine ⟨hk, ?_⟩
    rw [Metric.tendsto_atTop]
    intro ε hε
    have hev : ∀ᶠ n in atTop, ∀ k ∈ Finset.range (N + 1),
        |ensembles (fun i Q => maxminQ N γ (α i ω) Q (t i ω) (idx i ω)) Q0 n k s a - Qs s a| ≤ ε / 2 := by
      rw [eventually_all_finset]
      intro k hk'
      have := (Metric.tendsto_atTop.1 (hk k (by have := Finset.mem_range.1 hk'; omega))) (ε / 2) (by positivity)
      obtain ⟨M, hM⟩ := this
      exact eventually_atTop.2 ⟨M, fun n hn => by have := hM n hn; rw [Real.dist_eq] at this; exact this.le⟩
    obtain ⟨M, hM⟩ := eventually_atTop.1 hev
    refine ⟨M, fun n hn => ?_⟩
    rw [Real.dist_eq]
    have := predictMin_close (N := N) (Q := Qs) (fun k hk' => hM n hn k (Finset.mem_range.2 (by omega)))
    linarith
  · have e : {ω | ((⟨idx n ω, Nat.lt_succ_of_le (hα.valid n ω)⟩ : Fin (N + 1)), (t n ω).state, (t n ω).action) = j} =
        {ω | idx n ω = j.1} ∩ {ω | (t n ω).state = j.2.1 ∧ (t n ω).action = j.2.2} := by
      ext ω
      simp only [Set.mem_setOf_eq, Set.mem_inter_iff, Prod.ext_iff, Fin.ext_iff]
    rw [e]
    exact ((hα.chosen n) (measurableSet_singleton _)).inter (ht.past n _ _)
  · refine measurable_const.add (measurable_const.mul ?_)
    split
    · exact measurable_const
    · have hmin : ∀ a, Measurable (fun v => predictMin N (ext v) s' a) := by
        intro a
        refine predictMin_measurable (f := ext) (fun k hk => ?_)
        have : (fun v => ext v k s' a) = fun v => v (⟨k, Nat.lt_succ_of_le hk⟩, s', a) := funext (fun v => hext v k hk s' a)
        rw [this]
        exact measurable_pi_apply _
      have := Finset.measurable_sup' (s := (Finset.univ : Finset A)) Finset.univ_nonempty
        (f := fun a (v : Fin (N + 1) × S × A → ℝ) => predictMin N (ext v) s' a) (fun a _ => hmin a)
      convert this using 1
      funext v
      rw [Finset.sup'_apply]
      rfl
  · refine target_reach hγ0 hγ1 (abs_ite_zero hB0 (fun _ => rowMax_bound (fun a => ?_))) _ _ _
    have := predictMin_close (N := N) (Qs := ext v) (Q := fun _ _ => 0) (s := s') (a := a) (D := B) (fun k hk => by
      rw [hext v k hk, sub_zero]
      exact hv (⟨k, by omega⟩, s', a))
    simpa using this
  · show maxminQ N γ (α n ω) (ensembles _ Q0 n) (t n ω) (idx n ω) j.1 j.2.1 j.2.2 = _
    have hmin : ∀ s', rowMax (predictMin N (ensembles (fun i Q => maxminQ N γ (α i ω) Q (t i ω) (idx i ω)) Q0 n) s') =
        rowMax (predictMin N (ext (fun j => ensembles (fun i Q => maxminQ N γ (α i ω) Q (t i ω) (idx i ω)) Q0 n j.1 j.2.1 j.2.2)) s') := by
      intro s'
      congr 1
      funext a
      exact predictMin_congr (fun k hk => (hext (fun j => ensembles (fun i Q => maxminQ N γ (α i ω) Q (t i ω) (idx i ω)) Q0 n j.1 j.2.1 j.2.2) k hk s' a).symm)
    revert hmin
    generalize ensembles (fun i Q => maxminQ N γ (α i ω) Q (t i ω) (idx i ω)) Q0 n = E
    intro hmin
    simp only [maxminQ, Tables.set, Table.set]
    rw [not_ite, ht.reward, ht.absorbing]
    by_cases h1 : (j.1 : ℕ) = idx n ω
    · by_cases h2 : j.2.1 = (t n ω).state ∧ j.2.2 = (t n ω).action
      · have hj : j = (⟨idx n ω, Nat.lt_succ_of_le (hα.valid n ω)⟩, (t n ω).state, (t n ω).action) :=
          Prod.ext (Fin.ext h1) (Prod.ext h2.1 h2.2)
        subst hj
        simp only [if_true, Table.set, and_self, hmin]
      · have hj : j ≠ (⟨idx n ω, Nat.lt_succ_of_le (hα.valid n ω)⟩, (t n ω).state, (t n ω).action) :=
          fun h => h2 ⟨by rw [h], by rw [h]⟩
        rw [if_pos h1, Table.set, if_neg h2, if_neg hj, h1]
    · have hj : j ≠ (⟨idx n ω, Nat.lt_succ_of_le (hα.valid n ω)⟩, (t n ω).state, (t n ω).action) :=
        fun h => h1 (by rw [h])
      rw [if_neg h1, if_neg hj]
  · show |(∑ s', m.prob j.2.1 j.2.2 s' * _) - _| ≤ _
    rw [(hV j.2.1 hj).2 j.2.2]
    refine mean_contracts hm hcl hγ0 hD (V := fun s' => rowMax (predictMin N (ext v) s')) (W := V) (fun s' hs' => ?_) j.2.1 hj j.2.2
    refine isMax_close (fun a => ?_) (rowMax_isMax _) (hV s' hs').1
    refine predictMin_close (fun k hk => ?_)
    rw [hext v k hk]
    exact h (⟨k, by omega⟩, s', a) hs'
  · simpa only [ratesOfTable, Prod.ext_iff, Fin.ext_iff] using hC j.1 j.2.1 j.2.2 ω M
  · filter_upwards [hα.diverge] with ω h j hj
    simpa only [ratesOfTable, Prod.ext_iff, Fin.ext_iff] using h j.1 (by have := j.1.2; omega) j.2.1 hj j.2.2

/-! ### The learning rates of the tables -/

/-- `self._alpha_mm[k]` after the first `n` transitions: maxmin_q_learning.py L27, L42. It is called only when table `k` is updated. -/
def tableParam (p : Policy.Param) (key : S → A → Policy.Index) (t : ℕ → Trans S A) (idx : ℕ → ℕ) (k n : ℕ) : Policy.Param :=
  p.run (((List.range n).filter (fun i => idx i = k)).map (fun i => .call (key (t i).state (t i).action)))

/-- `self._alpha_mm[approximator_idx](state, action)` at the `n`-th transition: maxmin_q_learning.py L42. -/
def maxminRate (p : Policy.Param) (key : S → A → Policy.Index) (t : ℕ → Trans S A) (idx : ℕ → ℕ) (n : ℕ) : ℝ :=
  ((tableParam p key t idx (idx n) n).call (key (t n).state (t n).action)).2

/-- Every table is updated again and again with every pair of a live state and an action. -/
def UpdatesForever (L : S → Prop) (N : ℕ) (t : ℕ → Trans S A) (idx : ℕ → ℕ) : Prop :=
  ∀ k, k ≤ N → ∀ s, L s → ∀ a, ∀ n, ∃ i, n ≤ i ∧ idx i = k ∧ (t i).state = s ∧ (t i).action = a

/-- The transitions, with the table they update in the state. -/
def tagged {N : ℕ} (t : ℕ → Trans S A) (idx : ℕ → Fin (N + 1)) (n : ℕ) : Trans (Fin (N + 1) × S) A :=
  { state := (idx n, (t n).state), action := (t n).action, reward := (t n).reward, next := (idx n, (t n).next), absorbing := (t n).absorbing }

omit [Fintype S] [Fintype A] [Nonempty A] in
theorem visits_tagged {key : S → A → Policy.Index} (hkey : ∀ s a s' a', key s a = key s' a' → s = s' ∧ a = a') {N : ℕ} (s : S) (a : A)
    (t : ℕ → Trans S A) (idx : ℕ → Fin (N + 1)) (k : Fin (N + 1)) (n : ℕ) :
    Policy.visits false (key s a) (((List.range n).filter (fun i => (idx i : ℕ) = k)).map (fun i => .call (key (t i).state (t i).action))) =
      timesSeen (k, s) a (tagged t idx) n := by
  induction n with
  | zero => simp [timesSeen, Policy.visits]
  | succ n ih =>
    rw [List.range_succ, List.filter_append, List.map_append, Policy.visits_append, ih]
    simp only [timesSeen, Finset.sum_range_succ]
    congr 1
    by_cases h1 : idx n = k
    · have h1' : (idx n : ℕ) = k := by rw [h1]
      simp only [List.filter_cons, h1', decide_true, if_true, List.filter_nil, List.map_cons, List.map_nil, Policy.visits, Nat.add_zero, tagged]
      by_cases h : (t n).state = s ∧ (t n).action = a
      · have h3 : (idx n, (t n).state) = (k, s) ∧ (t n).action = a := ⟨by rw [h1, h.1], h.2⟩
        have h2 : key (t n).state (t n).action = key s a := by rw [h.1, h.2]
        rw [if_pos (Or.inr h2)]
        exact (if_pos h3).symm
      · have h2 : ¬ (key (t n).state (t n).action = key s a) := fun h' => h (hkey _ _ _ _ h')
        have h3 : ¬ ((idx n, (t n).state) = (k, s) ∧ (t n).action = a) := fun h' => h ⟨congrArg Prod.snd h'.1, h'.2⟩
        rw [if_neg (by simpa using h2)]
        exact (if_neg h3).symm
    · have h1' : ¬ (idx n : ℕ) = k := fun h => h1 (Fin.ext h)
      have h3 : ¬ ((idx n, (t n).state) = (k, s) ∧ (t n).action = a) := fun h' => h1 (congrArg Prod.fst h'.1)
      simp only [List.filter_cons, h1', decide_false, List.filter_nil, List.map_nil, Policy.visits, Bool.false_eq_true, if_false]
      exact (if_neg h3).symm

/-- C145. With the library's `DecayParameter(value, exp, size=mdp.info.size)`, of which every table has its own copy, the rates of Maxmin
Q-learning meet the conditions of Robbins and Monro, if every table is updated again and again with every pair. -/
theorem C145_maxmin_rates (L : S → Prop) (N : ℕ) (t : ℕ → Ω → Trans S A)
    (hpast : ∀ n s a, MeasurableSet[ℱ n] {ω | (t n ω).state = s ∧ (t n ω).action = a}) (idx : ℕ → Ω → ℕ)
    (hidx : ∀ n, Measurable[ℱ n] (idx n)) (hN : ∀ n ω, idx n ω ≤ N) (key : S → A → Policy.Index)
    (hkey : ∀ s a s' a', key s a = key s' a' → s = s' ∧ a = a') (v p : ℝ) (hv0 : 0 < v) (hv1 : v ≤ 1) (hp0 : 1 / 2 < p) (hp1 : p ≤ 1)
    (hexp : ∀ᵐ ω ∂μ, UpdatesForever L N (t · ω) (idx · ω)) :
    RobbinsMonroTables μ ℱ L N t idx (fun n ω => maxminRate (Policy.decayParam v p none none false) key (t · ω) (idx · ω) n) := by
  let ix : ℕ → Ω → Fin (N + 1) := fun n ω => ⟨idx n ω, Nat.lt_succ_of_le (hN n ω)⟩
  let key' : Fin (N + 1) × S → A → Policy.Index := fun s a => s.1 :: key s.2 a
  have hkey' : ∀ s a s' a', key' s a = key' s' a' → s = s' ∧ a = a' := by
    intro s a s' a' h
    obtain ⟨h1, h2⟩ := List.cons.inj h
    obtain ⟨h3, h4⟩ := hkey _ _ _ _ h2
    exact ⟨Prod.ext (Fin.ext h1) h3, h4⟩
  have hrate : ∀ n ω, maxminRate (Policy.decayParam v p none none false) key (t · ω) (idx · ω) n =
      rateAt (Policy.decayParam v p none none false) key' (tagged (t · ω) (ix · ω)) n := by
    intro n ω
    rw [rateAt_decay hkey']
    unfold maxminRate tableParam
    rw [Policy.C25_decay_call]
    have := visits_tagged hkey (t n ω).state (t n ω).action (t · ω) (ix · ω) (ix n ω) n
    exact congrArg (fun k : ℕ => v / ((k + 1 : ℕ) : ℝ) ^ p) this
  have hset : ∀ n s a, {ω | (tagged (t · ω) (ix · ω) n).state = s ∧ (tagged (t · ω) (ix · ω) n).action = a} =
      {ω | idx n ω = s.1} ∩ {ω | (t n ω).state = s.2 ∧ (t n ω).action = a} := by
    intro n s a
    ext ω
    simp only [tagged, ix, Set.mem_setOf_eq, Set.mem_inter_iff, Prod.ext_iff, Fin.ext_iff, and_assoc]
  have hr := C145_decay_rates (μ := μ) (ℱ := ℱ) (fun s : Fin (N + 1) × S => L s.2) (fun n ω => tagged (t · ω) (ix · ω) n)
    (fun n s a => by
      rw [hset]
      exact ((hidx n) (measurableSet_singleton _)).inter (hpast n _ _)) key' hkey' v p hv0 hv1 hp0 hp1
    (by
      filter_upwards [hexp] with ω h s hs a n
      obtain ⟨i, hi, h1, h2, h3⟩ := h s.1 (by have := s.1.2; omega) s.2 hs a n
      exact ⟨i, hi, Prod.ext (Fin.ext h1) h2, h3⟩)
  have hof : ∀ (k : Fin (N + 1)) s a ω n,
      ratesOfTable k s a (t · ω) (idx · ω) (fun n => maxminRate (Policy.decayParam v p none none false) key (t · ω) (idx · ω) n) n =
      ratesOf (k, s) a (tagged (t · ω) (ix · ω)) (fun n => rateAt (Policy.decayParam v p none none false) key' (tagged (t · ω) (ix · ω)) n) n := by
    intro k s a ω n
    unfold ratesOfTable ratesOf
    simp only [hrate, tagged, ix, Prod.ext_iff, Fin.ext_iff, and_assoc]
  refine ⟨fun n => ?_, hidx, hN, fun n ω => ?_, ?_, ?_⟩
  · simp only [hrate]; exact hr.known n
  · rw [hrate]; exact hr.range n ω
  · obtain ⟨C, hC⟩ := hr.squares
    refine ⟨max C 0, fun k s a ω M => ?_⟩
    by_cases hk : k ≤ N
    · refine le_trans ?_ (le_max_left _ _)
      have := hC (⟨k, by omega⟩, s) a ω M
      refine le_trans (le_of_eq (Finset.sum_congr rfl (fun n _ => ?_))) this
      exact congrArg (· ^ 2) (hof ⟨k, by omega⟩ s a ω n)
    · refine le_trans (le_of_eq ?_) (le_max_right _ _)
      refine Finset.sum_eq_zero (fun n _ => ?_)
      have : ¬ (idx n ω = k ∧ (t n ω).state = s ∧ (t n ω).action = a) := fun h => hk (h.1 ▸ hN n ω)
      simp [ratesOfTable, this]
  · filter_upwards [hr.diverge] with ω h k hk s hs a
    have := h (⟨k, by omega⟩, s) hs a
    refine this.congr (fun n => Finset.sum_congr rfl (fun i _ => ?_))
    exact (hof ⟨k, by omega⟩ s a ω i).symm

/-! ### An example: two tables in the problem of the coin, updated in turn -/

def coinIdx (n : ℕ) (_ : ℕ → Bool) : ℕ := n / 2 % 2

theorem coin_updates (ω : ℕ → Bool) : UpdatesForever (fun s => s = false) 1 (coinTrans · ω) (coinIdx · ω) := by
  intro k hk s hs a n
  subst hs
  refine ⟨4 * n + 2 * k + a.toNat, by omega, ?_, rfl, ?_⟩
  · have : a.toNat ≤ 1 := by cases a <;> simp
    show (4 * n + 2 * k + a.toNat) / 2 % 2 = k
    omega
  · cases a <;> simp [coinTrans] <;> omega

example : ∃ Qs, coinMDP.OptimalOn (fun s => s = false) (1 / 2) Qs ∧ ∀ᵐ ω ∂coins, ∀ s, s = false → ∀ a,
    Tendsto (fun n => predictMin 1 (ensembles (fun k Q => maxminQ 1 (1 / 2)
      (maxminRate (Policy.decayParam 1 1 none none false) coinKey (coinTrans · ω) (coinIdx · ω) k) Q (coinTrans k ω) (coinIdx k ω))
      (fun _ _ _ => 0) n) s a) atTop (𝓝 (Qs s a)) := by
  obtain ⟨Qs, hQs⟩ := C145_optimal_exists coinMDP coinMDP_proper (fun s => s = false) (1 / 2) (by norm_num) (by norm_num)
  refine ⟨Qs, hQs, ?_⟩
  have := C145_maxmin coinMDP coinMDP_proper _ coinMDP_closed (1 / 2) (by norm_num) (by norm_num) Qs hQs 1 coinTrans coin_experience coinIdx
    _ (C145_maxmin_rates _ 1 coinTrans coin_experience.past coinIdx (fun n => measurable_const) (fun n _ => by unfold coinIdx; omega)
      coinKey coinKey_inj 1 1 (by norm_num) (by norm_num) (by norm_num) (by norm_num) (Eventually.of_forall coin_updates)) (fun _ _ _ => 0)
  filter_upwards [this] with ω h s hs a
  exact (h s hs a).2

/-! ### Examples for the policy evaluation theorems, in the problem of the coin -/

theorem coin_rates : RobbinsMonro coins tossed (fun s => s = false) coinTrans
    (fun n ω => rateAt (Policy.decayParam 1 1 none none false) coinKey (coinTrans · ω) n) :=
  C145_decay_rates _ coinTrans coin_experience.past coinKey coinKey_inj 1 1 (by norm_num) (by norm_num) (by norm_num) (by norm_num)
    (Eventually.of_forall coin_explores)

example : ∃ Qs, coinMDP.ValuesOn (fun s => s = false) (1 / 2) (fun _ _ => 1 / 2) Qs ∧ ∀ᵐ ω ∂coins, ∀ s, s = false → ∀ a,
    Tendsto (fun n => tables (fun k Q => expectedSarsa (1 / 2)
      (rateAt (Policy.decayParam 1 1 none none false) coinKey (coinTrans · ω) k) Q (coinTrans k ω) (fun _ => 1 / 2)) (fun _ _ => 0) n s a)
      atTop (𝓝 (Qs s a)) := by
  have hp : ∀ s : Bool, Prob ((fun _ _ => 1 / 2 : Bool → Bool → ℝ) s) := fun _ => ⟨fun _ => by norm_num, by simp⟩
  obtain ⟨Qs, hQs⟩ := C145_values_exist coinMDP coinMDP_proper (fun s => s = false) (1 / 2) (by norm_num) (by norm_num) (fun _ _ => 1 / 2) hp
  exact ⟨Qs, hQs, C145_expected_sarsa coinMDP coinMDP_proper _ coinMDP_closed (1 / 2) (by norm_num) (by norm_num) _ hp Qs hQs coinTrans
    coin_experience _ coin_rates _⟩

/-- The policy takes the second action in the state that ends the episode, and the first one in the live state. -/
def coinPolicy (s a : Bool) : ℝ := if a = s then 1 else 0

example : ∃ Qs, coinMDP.ValuesOn (fun s => s = false) (1 / 2) coinPolicy Qs ∧ ∀ᵐ ω ∂coins, ∀ s, s = false → ∀ a,
    Tendsto (fun n => tables (fun k Q => sarsa (1 / 2)
      (rateAt (Policy.decayParam 1 1 none none false) coinKey (coinTrans · ω) k) Q (coinTrans k ω) (ω k)) (fun _ _ => 0) n s a)
      atTop (𝓝 (Qs s a)) := by
  have hp : ∀ s : Bool, Prob (coinPolicy s) := fun s => ⟨fun a => by unfold coinPolicy; split <;> norm_num, by simp [coinPolicy]⟩
  obtain ⟨Qs, hQs⟩ := C145_values_exist coinMDP coinMDP_proper (fun s => s = false) (1 / 2) (by norm_num) (by norm_num) coinPolicy hp
  refine ⟨Qs, hQs, C145_sarsa coinMDP coinMDP_proper _ coinMDP_closed (1 / 2) (by norm_num) (by norm_num) _ hp Qs hQs coinTrans
    coin_experience (fun n ω => ω n) ?_ _ coin_rates _⟩
  have e : ∀ n s' a', {ω : ℕ → Bool | (coinTrans n ω).next = s' ∧ ω n = a'} = if a' = s' then {ω | (coinTrans n ω).next = s'} else ∅ := by
    intro n s' a'
    ext ω
    by_cases h : a' = s'
    · subst h; simp [coinTrans]
    · rw [if_neg h]
      simp only [coinTrans, Set.mem_setOf_eq, Set.mem_empty_iff_false, iff_false]
      rintro ⟨h1, h2⟩
      exact h (h2.symm.trans h1)
  refine ⟨fun n s' a' => ?_, fun n s' a' => ?_⟩
  · rw [e]
    split
    · exact coin_experience.known n s'
    · exact @MeasurableSet.empty _ (tossed (n + 1))
  · rw [e]
    by_cases h : a' = s'
    · rw [if_pos h]
      filter_upwards [coin_experience.law n s'] with ω h'
      rw [h', coinPolicy, if_pos h, mul_one]
    · rw [if_neg h, Set.indicator_empty]
      have : (fun ω : ℕ → Bool => coinMDP.prob (coinTrans n ω).state (coinTrans n ω).action s' * coinPolicy s' a') = 0 := by
        funext ω; simp [coinPolicy, h]
      rw [this]
      exact Eventually.of_forall (fun ω => by
        have := condExp_zero (μ := coins) (m := tossed n) (m₀ := (inferInstance : MeasurableSpace (ℕ → Bool))) (E := ℝ)
        exact congrFun this ω)

end

end Verif.TD
