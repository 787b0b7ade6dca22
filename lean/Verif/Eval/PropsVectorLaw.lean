/-
Property C153, continued: the returns of a vectorized evaluation are, up to their order, independent draws with the law of the returns of a sequential one.
-/
import Verif.Eval.LemmasVectorJoint
import Verif.Eval.PropsVector

namespace Verif.Eval

open MeasureTheory ProbabilityTheory Filter Topology
open Verif.Dataset (Row)
open Verif.Vector (Logic freshLogic)
open Verif.System (toRow)

noncomputable section

variable {S X A P T U E : Type} {m : Sim S X A P T U} {γ C : ℝ} {n H N : ℕ} {episodic : Bool} {noReward : ℝ} {garbage : ℕ → ℕ → ℕ → Bool × P × P}
variable [MeasurableSpace S] [MeasurableSpace X] [MeasurableSpace A] [MeasurableSpace P] [MeasurableSpace U] {ν : Measure U} [IsProbabilityMeasure ν]

/-- The returns in the order in which their episodes start. -/
theorem joint (hm : m.Regular C) (hn : 1 < n) (hH : 1 ≤ H) (hN : 1 ≤ N) (l : Logic) (hl : ∀ k, l.perFitEps = some k → N ≤ k)
    (hid : ℕ → S) (now : Draws U) (x0 : ℕ → X) (p0 : ℕ → P) (fuel : ℕ)
    (s : (ℕ → Draws U) → Vector.St ((ℕ → S) × Draws U × (ℕ → Draws U)) X A ℝ P T) (rows : (ℕ → Draws U) → List (Row X A ℝ Unit))
    (h : ∀ ω, Vector.evaluate (vecSys m episodic noReward garbage) l n (some H) none (some N) (H * N) (hid, now, ω) x0 p0 fuel = .ok (some (s ω, some (rows ω)))) :
    ∃ K : Fin N → (ℕ → Draws U) → ℝ, (∀ k, Measurable (K k)) ∧ (∀ ω, (Dataset.computeJ γ (rows ω)).Perm (List.ofFn fun k => K k ω)) ∧
      (draws (draws (quad ν))).map (fun ω k => K k ω) = Measure.pi fun _ => lawOf m ν γ H m.start := by
  have hlaw := lawOf_prob (ν := ν) (γ := γ) hm H hm.start
  have hp := (measurable_play (γ := γ) hm H hm.start).fst
  have hsim : ∀ ω, (Dataset.computeJ γ (rows ω) : Multiset ℝ) = (procE m γ n H N (initialE hid p0) fuel ω).done.map Prod.snd ∧
      (procE m γ n H N (initialE hid p0) fuel ω).done.map Prod.fst = Multiset.range N ∧ ¬ (procE m γ n H N (initialE hid p0) fuel ω).base.totE < N := by
    intro ω
    have hω := h ω
    rw [Vector.C23_evaluate_partial _ l n N (H * N) (some H) _ x0 p0 fuel hl] at hω
    obtain ⟨r, hr, h1, h2, h3⟩ := evaluate_simE (γ := γ) hn hH hN rfl (hid, now, ω) x0 p0 fuel hω
    cases hr
    exact ⟨h1, h2, h3⟩
  set J : ℕ → (ℕ → Draws U) → ℝ := fun j ω => returnNo (procE m γ n H N (initialE hid p0) fuel ω).done j with hJ
  have hJm : ∀ j, Measurable (J j) := fun j => (measE_proc hm n H N (initialE hid p0) fuel).returnNo j
  refine ⟨fun k => J k, fun k => hJm k, fun ω => ?_, ?_⟩
  · rw [← Multiset.coe_eq_coe, (hsim ω).1, done_eq (hsim ω).2.1, Multiset.map_map]
    have hc : (Prod.snd ∘ fun j => (j, returnNo (procE m γ n H N (initialE hid p0) fuel ω).done j)) = fun j => J j ω := rfl
    rw [hc, ← Multiset.coe_range, Multiset.map_coe]
    congr 1
    refine List.ext_getElem (by simp) fun i h1 h2 => by simp
  · refine (Measure.pi_eq fun t ht => ?_).symm
    rw [Measure.map_apply (measurable_pi_iff.2 fun k : Fin N => hJm k) (MeasurableSet.pi Set.countable_univ fun i _ => ht i)]
    set g : ℕ → ℝ → ENNReal := fun j x => if hj : j < N then (t ⟨j, hj⟩).indicator 1 x else 1 with hg
    have hgm : ∀ j, Measurable (g j) := fun j => by
      simp only [hg]
      split
      · exact (measurable_const (a := (1 : ENNReal))).indicator (ht _)
      · exact measurable_const
    have hmean := procE_mean (ν := ν) (γ := γ) (n := n) (N := N) hm hH hgm fuel (initialE hid p0) (initialE_inv n H N hid p0) fun ω => (hsim ω).2.2
    have hval : ∀ ω, value g (procE m γ n H N (initialE hid p0) fuel ω).done = ((fun ω (k : Fin N) => J k ω) ⁻¹' Set.univ.pi t).indicator 1 ω := by
      intro ω
      unfold value
      rw [done_eq (hsim ω).2.1, Multiset.map_map]
      have h1 : (Multiset.map ((fun p : ℕ × ℝ => g p.1 p.2) ∘ fun j => (j, returnNo (procE m γ n H N (initialE hid p0) fuel ω).done j)) (Multiset.range N)).prod =
          ∏ j ∈ Finset.range N, g j (J j ω) := rfl
      rw [h1, ← Fin.prod_univ_eq_prod_range (fun j => g j (J j ω)) N]
      simp only [hg, Fin.is_lt, dite_true, Fin.eta]
      by_cases hω : ω ∈ (fun ω (k : Fin N) => J k ω) ⁻¹' Set.univ.pi t
      · rw [Set.indicator_of_mem hω]
        refine Finset.prod_eq_one fun k _ => ?_
        rw [Set.indicator_of_mem (hω k trivial)]
        rfl
      · rw [Set.indicator_of_notMem hω]
        have : ∃ k : Fin N, J k ω ∉ t k := by
          by_contra hc
          push Not at hc
          exact hω fun k _ => hc k
        obtain ⟨k, hk⟩ := this
        exact Finset.prod_eq_zero (Finset.mem_univ k) (Set.indicator_of_notMem hk _)
    simp only [hval] at hmean
    rw [lintegral_indicator_one ((measurable_pi_iff.2 fun k : Fin N => hJm k) (MeasurableSet.pi Set.countable_univ fun i _ => ht i))] at hmean
    rw [hmean]
    unfold expected
    have hb : (initialE hid p0 : Es S P).begun = 0 := rfl
    have hd : value g (initialE hid p0 : Es S P).done = 1 := by simp [value, initialE]
    have hlive : ∀ i, liveOf (initialE hid p0 : Es S P) i = false := fun i => rfl
    simp only [hb, hd, hlive, Bool.false_eq_true, if_false, Finset.prod_const_one, mul_one, one_mul]
    rw [← Finset.range_eq_Ico, ← Fin.prod_univ_eq_prod_range (fun j => one_of m ν γ H g j) N]
    refine Finset.prod_congr rfl fun k _ => ?_
    unfold one_of lawOf
    simp only [hg, Fin.is_lt, dite_true, Fin.eta]
    rw [Measure.map_apply hp (ht k), ← lintegral_indicator_one (hp (ht k))]
    rfl

theorem sequential_joint (hm : m.Regular C) (H N : ℕ) :
    (draws ν).map (fun ω (k : Fin N) => returns m γ H (fun _ => m.start) k ω) = Measure.pi fun _ => lawOf m ν γ H m.start := by
  have hst : ∀ _ : ℕ, Measurable m.start := fun _ => hm.start
  have h1 := (returns_independent (ν := ν) (γ := γ) hm H hst).precomp (g := fun k : Fin N => (k : ℕ)) Fin.val_injective
  rw [iIndepFun_iff_map_fun_eq_pi_map (fun k : Fin N => (measurable_returns hm H hst (k : ℕ)).aemeasurable)] at h1
  simpa only [returns_one hm H hst] using h1

/-- **C153**, the law. Compare an evaluation with a `VectorCore` and one with a `Core`, both over `N` episodes. Every statistic of the returns that does not depend on their order,
like their mean, median, smallest and largest value, has the same distribution in both. -/
theorem C153_law (hm : m.Regular C) (hn : 1 < n) (hH : 1 ≤ H) (hN : 1 ≤ N) (l : Logic) (hl : ∀ k, l.perFitEps = some k → N ≤ k)
    (hid : ℕ → S) (now : Draws U) (x0 : ℕ → X) (p0 : ℕ → P) (fuel : ℕ)
    (s : (ℕ → Draws U) → Vector.St ((ℕ → S) × Draws U × (ℕ → Draws U)) X A ℝ P T) (rows : (ℕ → Draws U) → List (Row X A ℝ Unit))
    (h : ∀ ω, Vector.evaluate (vecSys m episodic noReward garbage) l n (some H) none (some N) (H * N) (hid, now, ω) x0 p0 fuel = .ok (some (s ω, some (rows ω))))
    {callback : E → Core.Sample X A ℝ P → E} (prev s' : (ℕ → U) → Core.St (E × S × (ℕ → U)) X A ℝ P T) (hprev : ∀ ω, (prev ω).world.2.2 = ω) (fuel' : (ℕ → U) → ℕ)
    (h' : ∀ ω, Core.evaluate (simSys m H episodic callback) (fuel' ω) (prev ω) none none (some N) = some (.ok (s' ω)))
    {β : Type} [MeasurableSpace β] (F : List ℝ → β) (hF : ∀ a b : List ℝ, a.Perm b → F a = F b) (hFm : Measurable fun x : Fin N → ℝ => F (List.ofFn x)) :
    IdentDistrib (fun ω => F (Dataset.computeJ γ (rows ω))) (fun ω => F (Dataset.computeJ γ ((s' ω).rows.map toRow))) (draws (draws (quad ν))) (draws ν) := by
  obtain ⟨K, hK, hp, hlaw⟩ := joint (ν := ν) (γ := γ) hm hn hH hN l hl hid now x0 p0 fuel s rows h
  have hst : ∀ _ : ℕ, Measurable m.start := fun _ => hm.start
  have e1 : (fun ω => F (Dataset.computeJ γ (rows ω))) = (fun x : Fin N → ℝ => F (List.ofFn x)) ∘ fun ω k => K k ω := funext fun ω => hF _ _ (hp ω)
  have e2 : (fun ω => F (Dataset.computeJ γ ((s' ω).rows.map toRow))) = (fun x : Fin N → ℝ => F (List.ofFn x)) ∘ fun ω k => returns m γ H (fun _ => m.start) k ω := by
    funext ω
    rw [C152_returns (γ := γ) (prev ω) (s' ω) (fuel' ω) N hN hH (h' ω), hprev]
    show F _ = F _
    congr 1
    refine List.ext_getElem (by simp) fun i h1 h2 => by simp
  rw [e1, e2]
  refine IdentDistrib.comp ⟨(measurable_pi_iff.2 hK).aemeasurable, (measurable_pi_iff.2 fun k : Fin N => measurable_returns hm H hst k).aemeasurable, ?_⟩ hFm
  rw [hlaw, sequential_joint hm H N]

/-- **C153**, independence. In the order in which their episodes start, the returns of a vectorized evaluation are independent and identically distributed. -/
theorem C153_independent (hm : m.Regular C) (hC : 0 ≤ C) (hn : 1 < n) (hH : 1 ≤ H) (hN : 1 ≤ N) (l : Logic) (hl : ∀ k, l.perFitEps = some k → N ≤ k)
    (hid : ℕ → S) (now : Draws U) (x0 : ℕ → X) (p0 : ℕ → P) (fuel : ℕ)
    (s : (ℕ → Draws U) → Vector.St ((ℕ → S) × Draws U × (ℕ → Draws U)) X A ℝ P T) (rows : (ℕ → Draws U) → List (Row X A ℝ Unit))
    (h : ∀ ω, Vector.evaluate (vecSys m episodic noReward garbage) l n (some H) none (some N) (H * N) (hid, now, ω) x0 p0 fuel = .ok (some (s ω, some (rows ω)))) :
    ∃ K : Fin N → (ℕ → Draws U) → ℝ, (∀ ω, (Dataset.computeJ γ (rows ω)).Perm (List.ofFn fun k => K k ω)) ∧ iIndepFun K (draws (draws (quad ν))) ∧
      (∀ k k', IdentDistrib (K k) (K k') (draws (draws (quad ν))) (draws (draws (quad ν)))) ∧ ∀ k, ∫ ω, K k ω ∂draws (draws (quad ν)) = m.performance ν γ H m.start := by
  obtain ⟨K, hK, hp, hlaw⟩ := joint (ν := ν) (γ := γ) hm hn hH hN l hl hid now x0 p0 fuel s rows h
  have hprob := lawOf_prob (ν := ν) (γ := γ) hm H hm.start
  have hone : ∀ k, (draws (draws (quad ν))).map (K k) = lawOf m ν γ H m.start := by
    intro k
    have := congrArg (Measure.map (Function.eval k)) hlaw
    rw [Measure.map_map (measurable_pi_apply k) (measurable_pi_iff.2 hK), (measurePreserving_eval (fun _ : Fin N => lawOf m ν γ H m.start) k).map_eq] at this
    exact this
  refine ⟨K, hp, ?_, fun k k' => ⟨(hK k).aemeasurable, (hK k').aemeasurable, by rw [hone, hone]⟩, fun k => ?_⟩
  · rw [iIndepFun_iff_map_fun_eq_pi_map (fun k => (hK k).aemeasurable), hlaw]
    simp only [hone]
  · have h1 : ∫ ω, K k ω ∂draws (draws (quad ν)) = ∫ x, x ∂(draws (draws (quad ν))).map (K k) := (integral_map (hK k).aemeasurable measurable_id.aestronglyMeasurable).symm
    rw [h1, hone, lawOf, ← lawOf_mean hm hC H hm.start]
    exact integral_map (measurable_play hm H hm.start).fst.aemeasurable measurable_id.aestronglyMeasurable

/-- **C153**, how far off. The mean of the returns of a vectorized evaluation is further than `ε` from the performance of the policy with probability at most
`2 exp (-N ε² / (2 B²))`, where `B` bounds the discounted returns, whatever the number of environments. -/
theorem C153_confidence (hm : m.Regular C) (hC : 0 < C) (hn : 1 < n) (hH : 1 ≤ H) (hN : 1 ≤ N) (l : Logic) (hl : ∀ k, l.perFitEps = some k → N ≤ k)
    (hid : ℕ → S) (now : Draws U) (x0 : ℕ → X) (p0 : ℕ → P) (fuel : ℕ)
    (s : (ℕ → Draws U) → Vector.St ((ℕ → S) × Draws U × (ℕ → Draws U)) X A ℝ P T) (rows : (ℕ → Draws U) → List (Row X A ℝ Unit))
    (h : ∀ ω, Vector.evaluate (vecSys m episodic noReward garbage) l n (some H) none (some N) (H * N) (hid, now, ω) x0 p0 fuel = .ok (some (s ω, some (rows ω))))
    (ε : ℝ) (hε : 0 ≤ ε) :
    (draws (draws (quad ν))).real {ω | ε ≤ |(Dataset.computeJ γ (rows ω)).sum / (Dataset.computeJ γ (rows ω)).length - m.performance ν γ H m.start|} ≤
      2 * Real.exp (-(N * ε ^ 2) / (2 * (C * ∑ i ∈ Finset.range H, |γ| ^ i) ^ 2)) := by
  obtain ⟨K, hK, hp, hlaw⟩ := joint (ν := ν) (γ := γ) hm hn hH hN l hl hid now x0 p0 fuel s rows h
  have hst : ∀ _ : ℕ, Measurable m.start := fun _ => hm.start
  refine le_trans (le_of_eq ?_) (returns_confidence (ν := ν) (γ := γ) hm hC hH N hN ε hε)
  have hset : MeasurableSet {x : Fin N → ℝ | ε ≤ |(∑ k, x k) / N - m.performance ν γ H m.start|} :=
    measurableSet_le measurable_const (((Finset.measurable_sum _ fun k _ => measurable_pi_apply k).div_const _).sub_const _).abs
  have e1 : {ω | ε ≤ |(Dataset.computeJ γ (rows ω)).sum / (Dataset.computeJ γ (rows ω)).length - m.performance ν γ H m.start|} =
      (fun ω k => K k ω) ⁻¹' {x : Fin N → ℝ | ε ≤ |(∑ k, x k) / N - m.performance ν γ H m.start|} := by
    ext ω
    rw [Set.mem_preimage, Set.mem_ofPred_eq, Set.mem_ofPred_eq, (hp ω).sum_eq, (hp ω).length_eq, List.sum_ofFn, List.length_ofFn]
  have e2 : {ω | ε ≤ |(∑ k ∈ Finset.range N, returns m γ H (fun _ => m.start) k ω) / N - m.performance ν γ H m.start|} =
      (fun ω (k : Fin N) => returns m γ H (fun _ => m.start) k ω) ⁻¹' {x : Fin N → ℝ | ε ≤ |(∑ k, x k) / N - m.performance ν γ H m.start|} := by
    ext ω
    rw [Set.mem_preimage, Set.mem_ofPred_eq, Set.mem_ofPred_eq, ← Fin.sum_univ_eq_sum_range (fun k => returns m γ H (fun _ => m.start) k ω) N]
  rw [e1, e2, ← map_measureReal_apply (measurable_pi_iff.2 hK) hset, ← map_measureReal_apply (measurable_pi_iff.2 fun k : Fin N => measurable_returns hm H hst k) hset, hlaw,
    sequential_joint hm H N]

/-- `N` episodes of the coin of C152 with `n` environments: the mean return is within 1/4 of its expectation with high probability. -/
example (n N : ℕ) (hn : 1 < n) (hN : 1 ≤ N) :
    ∃ (s : (ℕ → Draws Bool) → Vector.St ((ℕ → Bool) × Draws Bool × (ℕ → Draws Bool)) Bool Unit ℝ Unit Unit) (rows : (ℕ → Draws Bool) → List (Row Bool Unit ℝ Unit)),
      (∀ ω, Vector.evaluate (vecSys coin true 0 fun _ _ _ => (false, (), ())) freshLogic n (some 2) none (some N) (2 * N) (fun _ => false, fun _ => (false, false, false, false), ω)
        (fun _ => false) (fun _ => ()) (N * 2) = .ok (some (s ω, some (rows ω)))) ∧
      (draws (draws (quad fair))).real {ω | 1 / 4 ≤ |(Dataset.computeJ 1 (rows ω)).sum / (Dataset.computeJ 1 (rows ω)).length - 3 / 4|} ≤ 2 * Real.exp (-(N * (1 / 4) ^ 2) / (2 * (1 * 2) ^ 2)) := by
  have := fun ω => C153_returns (m := coin) (γ := 1) (episodic := true) (noReward := 0) (garbage := fun _ _ _ => (false, (), ())) (n := n) (H := 2) (N := N) hn (by norm_num) hN
    freshLogic (fun k h => by cases h) (fun _ => false, fun _ => (false, false, false, false), ω) (fun _ => false) (fun _ => ()) (N * 2) le_rfl
  choose s rows hs using this
  refine ⟨s, rows, fun ω => (hs ω).1, ?_⟩
  have h := C153_confidence (ν := fair) (γ := 1) coin_regular zero_lt_one hn (by norm_num) hN freshLogic (fun k h => by cases h) _ _ _ _ _ s rows (fun ω => (hs ω).1) (1 / 4) (by norm_num)
  rw [coin_performance] at h
  simpa using h

/-- The number of games without heads has the same law with `n` environments and with one. -/
example (n N : ℕ) (hn : 1 < n) (hN : 1 ≤ N) :
    ∃ (rows : (ℕ → Draws Bool) → List (Row Bool Unit ℝ Unit)) (s' : (ℕ → Bool) → Core.St (Unit × Bool × (ℕ → Bool)) Bool Unit ℝ Unit Unit),
      (∀ ω, ∃ s, Vector.evaluate (vecSys coin true 0 fun _ _ _ => (false, (), ())) freshLogic n (some 2) none (some N) (2 * N)
        (fun _ => false, fun _ => (false, false, false, false), ω) (fun _ => false) (fun _ => ()) (N * 2) = .ok (some (s, some (rows ω)))) ∧
      (∀ ω, Core.evaluate (simSys coin 2 true fun e _ => e) (N * 2) (coinPrev ω) none none (some N) = some (.ok (s' ω))) ∧
      IdentDistrib (fun ω => (Dataset.computeJ 1 (rows ω)).countP fun x => x ≤ 0) (fun ω => (Dataset.computeJ 1 ((s' ω).rows.map toRow)).countP fun x => x ≤ 0)
        (draws (draws (quad fair))) (draws fair) := by
  have := fun ω => C153_returns (m := coin) (γ := 1) (episodic := true) (noReward := 0) (garbage := fun _ _ _ => (false, (), ())) (n := n) (H := 2) (N := N) hn (by norm_num) hN
    freshLogic (fun k h => by cases h) (fun _ => false, fun _ => (false, false, false, false), ω) (fun _ => false) (fun _ => ()) (N * 2) le_rfl
  choose s rows hs using this
  obtain ⟨s', hs'⟩ := coin_runs N
  refine ⟨rows, s', fun ω => ⟨s ω, (hs ω).1⟩, hs', ?_⟩
  refine C153_law (ν := fair) (γ := 1) coin_regular hn (by norm_num) hN freshLogic (fun k h => by cases h) _ _ _ _ _ s rows (fun ω => (hs ω).1) coinPrev s' (fun _ => rfl) (fun _ => N * 2) hs'
    (fun l : List ℝ => l.countP fun x => x ≤ 0) (fun a b h => h.countP_eq _) ?_
  have : (fun x : Fin N → ℝ => (List.ofFn x).countP fun x => x ≤ 0) = fun x => ∑ k, if x k ≤ 0 then 1 else 0 := by
    funext x
    have hc : ∀ l : List ℝ, l.countP (fun x => x ≤ 0) = (l.map fun x => if x ≤ 0 then 1 else 0).sum := by
      intro l
      induction l with
      | nil => rfl
      | cons a l ih => rw [List.countP_cons, ih, List.map_cons, List.sum_cons, add_comm]; simp
    rw [hc, List.map_ofFn, List.sum_ofFn]
    rfl
  rw [this]
  exact Finset.measurable_sum _ fun k _ => Measurable.ite (measurableSet_le (measurable_pi_apply k) measurable_const) measurable_const measurable_const

end

end Verif.Eval
