/-
Property C159, continued: problems and samples that meet the hypotheses.
-/
import Verif.TD.PropsStochWeighted
import Verif.TD.PropsStochDemo

namespace Verif.TD

open Filter Topology MeasureTheory ProbabilityTheory

noncomputable section

/-- A coin and two pairs of standard normal numbers. -/
abbrev Toss := Bool × (Fin 2 → Bool → ℝ)

def tossW : Measure Toss := coin.prod (Measure.pi fun _ => Measure.pi fun _ => gaussianReal 0 1)

instance : IsProbabilityMeasure tossW := by unfold tossW; infer_instance

def tossesW : Measure (ℕ → Toss) := Measure.infinitePi (fun _ => tossW)

instance : IsProbabilityMeasure tossesW := by unfold tossesW; infer_instance

/-- What the first `n` tosses tell. -/
def tossedW : Filtration ℕ (inferInstance : MeasurableSpace (ℕ → Toss)) :=
  { seq := fun n => ⨆ k ∈ Set.Iio n, MeasurableSpace.comap (fun ω : ℕ → Toss => ω k) inferInstance
    mono' := fun _ _ h => biSup_mono (fun _ hk => lt_of_lt_of_le hk h)
    le' := fun _ => iSup₂_le (fun k _ => (measurable_pi_apply k).comap_le) }

theorem tossesW_indep (n : ℕ) : Indep (MeasurableSpace.comap (fun ω : ℕ → Toss => ω n) inferInstance) (tossedW n) tossesW := by
  have h1 : iIndepFun (fun (i : ℕ) (ω : ℕ → Toss) => ω i) tossesW := iIndepFun_infinitePi (X := fun _ x => x) (fun _ => measurable_id)
  have h2 := indep_iSup_of_disjoint (S := {n}) (T := Set.Iio n)
    (fun i => (measurable_pi_apply i).comap_le) ((iIndepFun_iff_iIndep _ _ _).1 h1) (by simp)
  rw [iSup_singleton] at h2
  exact h2

theorem tossW_known (n : ℕ) : Measurable[tossedW (n + 1)] (fun ω : ℕ → Toss => ω n) := by
  refine Measurable.mono (comap_measurable _) ?_ le_rfl
  exact le_biSup (fun k => MeasurableSpace.comap (fun ω : ℕ → Toss => ω k) inferInstance) (show n ∈ Set.Iio (n + 1) by simp)

theorem tossesW_map (n : ℕ) : tossesW.map (fun ω => ω n) = tossW := Measure.infinitePi_map_eval (fun _ : ℕ => tossW) n

theorem tossesW_normal : NormalDraws tossesW tossedW (fun n ω => (ω n).2) := by
  refine ⟨fun n => measurable_snd.comp (tossW_known n), fun n => ?_, fun n => ?_⟩
  · refine indep_of_indep_of_le_left (tossesW_indep n) ?_
    rintro _ ⟨s, hs, rfl⟩
    exact ⟨Prod.snd ⁻¹' s, measurable_snd hs, rfl⟩
  · have e : (fun ω : ℕ → Toss => (ω n).2) = Prod.snd ∘ fun ω => ω n := rfl
    rw [e, ← Measure.map_map measurable_snd (measurable_pi_apply n), tossesW_map, tossW, Measure.map_snd_prod, measure_univ, one_smul]

/-- `np.argmax` with two entries. -/
def argmaxW (q : Bool → ℝ) : Bool := if q false < q true then true else false

theorem argmaxW_max (q : Bool → ℝ) : Maximises q (argmaxW q) := by
  intro b
  unfold argmaxW
  split <;> cases b <;> linarith

theorem argmaxW_measurable (a : Bool) : MeasurableSet {q | argmaxW q = a} := by
  have h : MeasurableSet {q : Bool → ℝ | q false < q true} := measurableSet_lt (measurable_pi_apply _) (measurable_pi_apply _)
  cases a
  · have e : {q | argmaxW q = false} = {q : Bool → ℝ | q false < q true}ᶜ := by ext q; simp [argmaxW]
    rw [e]; exact h.compl
  · have e : {q | argmaxW q = true} = {q : Bool → ℝ | q false < q true} := by ext q; simp [argmaxW]
    rw [e]; exact h

/-- The transitions of the coin problem. -/
def coinTransW (n : ℕ) (ω : ℕ → Toss) : Trans Bool Bool := coinTrans n (fun k => (ω k).1)

theorem coinW_experience : Experience tossesW tossedW coinMDP (fun s => s = false) coinTransW := by
  refine C145_draws coinMDP _ (fun _ _ (y : Toss) => y.1) (fun _ _ s' => measurable_fst (measurableSet_singleton s')) (fun n ω => ω n) tossW_known
    tossesW_indep (fun n _ _ s' => ?_) coinTransW (fun _ _ => rfl) (fun n s a => ?_) (fun _ _ => rfl) (fun _ _ => rfl) (fun _ _ => rfl)
  · have h1 : tossesW {ω | (ω n).1 = s'} = coin {s'} := by
      have h2 : tossesW {ω | (ω n).1 = s'} = (tossesW.map (fun ω => ω n)) {y | y.1 = s'} := by
        rw [Measure.map_apply (measurable_pi_apply n) (measurable_fst (measurableSet_singleton s'))]; rfl
      have h3 : {y : Toss | y.1 = s'} = {s'} ×ˢ Set.univ := by ext y; simp
      rw [h2, tossesW_map, tossW, h3, Measure.prod_prod, measure_univ, mul_one]
    rw [Measure.real, h1]
    cases s' <;> simp [coin, coinMDP]
  · simp only [coinTransW, coinTrans]
    exact MeasurableSet.const _

/-- The learning rates of the example: `1 / k` for the `k`-th update of a pair. -/
theorem coinW_rates : RobbinsMonro tossesW tossedW (fun s => s = false) coinTransW
    (fun k ω => rateAt (Policy.decayParam 1 1 none none false) coinKey (coinTransW · ω) k) :=
  C145_decay_rates _ coinTransW coinW_experience.past coinKey coinKey_inj 1 1 (by norm_num) (by norm_num) (by norm_num) (by norm_num)
    (Eventually.of_forall fun ω => coin_explores fun k => (ω k).1)

/-- The hypotheses of `C159_sigma` and `C159_near_partial` are met. -/
example : ∃ Qs, coinMDP.OptimalOn (fun s => s = false) (1 / 2) Qs ∧ ∀ᵐ ω ∂tossesW, ∀ ε, 0 < ε → ∀ᶠ n in atTop, ∀ s, s = false → ∀ a,
    |(weightedAfter (1 / 2) argmaxW (coinTransW · ω) (rateAt (Policy.decayParam 1 1 none none false) coinKey (coinTransW · ω))
      (fun n => (ω n).2) n).Q s a - Qs s a| ≤ 2 * (1 / 2) * Fintype.card Bool / 10 ^ 5 / (1 - 1 / 2) + ε := by
  obtain ⟨Qs, hQs⟩ := C145_optimal_exists coinMDP coinMDP_proper (fun s => s = false) (1 / 2) (by norm_num) (by norm_num)
  exact ⟨Qs, hQs, C159_near_partial coinMDP coinMDP_proper _ coinMDP_closed (1 / 2) (by norm_num) (by norm_num) Qs hQs coinTransW coinW_experience _
    coinW_rates argmaxW argmaxW_max argmaxW_measurable 2 (by norm_num) _ tossesW_normal⟩

/-- The transitions of the loop: the two actions are tried in turn. -/
def loopTrans (n : ℕ) (_ : ℕ → Toss) : Trans Unit Bool :=
  { state := (), action := n % 2 = 1, reward := if n % 2 = 1 then 1 else 0, next := (), absorbing := false }

theorem loop_experience : Experience tossesW tossedW loopMDP (fun _ => True) loopTrans := by
  refine C145_draws loopMDP _ (fun _ _ (_ : Toss) => ()) (fun _ _ _ => by simp) (fun n ω => ω n) tossW_known
    tossesW_indep (fun n _ _ s' => by simp [loopMDP]) loopTrans (fun _ _ => trivial) (fun n s a => ?_) (fun _ _ => rfl) (fun n ω => by
      simp [loopTrans, loopMDP]) (fun _ _ => rfl)
  simp only [loopTrans]
  exact MeasurableSet.const _

def loopKey (_ : Unit) (a : Bool) : Policy.Index := [a.toNat]

theorem loop_rates : RobbinsMonro tossesW tossedW (fun _ => True) loopTrans
    (fun k ω => rateAt (Policy.decayParam 1 1 none none false) loopKey (loopTrans · ω) k) := by
  refine C145_decay_rates _ loopTrans loop_experience.past loopKey (by decide) 1 1 (by norm_num) (by norm_num) (by norm_num) (by norm_num)
    (Eventually.of_forall fun ω s _ a n => ?_)
  cases a
  · exact ⟨2 * n, by omega, rfl, by simp [loopTrans]⟩
  · exact ⟨2 * n + 1, by omega, rfl, by simp [loopTrans]⟩

/-- The hypotheses of `C159_greedy_partial` are met: in the loop the rewarded action becomes greedy, -/
example : ∀ᵐ ω ∂tossesW, ∀ᶠ n in atTop, ∀ s, True → ∀ a, Maximises ((weightedAfter (1 / 2) argmaxW (loopTrans · ω)
    (rateAt (Policy.decayParam 1 1 none none false) loopKey (loopTrans · ω)) (fun n => (ω n).2) n).Q s) a → Maximises (loopQ s) a := by
  refine C159_greedy_partial loopMDP loop_proper _ loop_closed (1 / 2) (by norm_num) (by norm_num) loopQ loop_optimal loopTrans loop_experience _
    loop_rates argmaxW argmaxW_max argmaxW_measurable 2 (by norm_num) _ tossesW_normal ?_
  intro s _ a b ha hb
  have h1 := ha true
  cases a
  · simp [loopQ] at h1
  cases b
  · norm_num [loopQ]
  · exact absurd ha hb

/-- and the hypotheses inside `C159_exact_refuted` are met by the same run. -/
example : ∃ (t : ℕ → (ℕ → Toss) → Trans Unit Bool) (α : ℕ → (ℕ → Toss) → ℝ) (Z : ℕ → (ℕ → Toss) → Fin 2 → Bool → ℝ),
    Experience tossesW tossedW loopMDP (fun _ => True) t ∧ RobbinsMonro tossesW tossedW (fun _ => True) t α ∧ NormalDraws tossesW tossedW Z :=
  ⟨loopTrans, _, _, loop_experience, loop_rates, tossesW_normal⟩

end

end Verif.TD
