/-
Lemmas for C153: the expectation of what a vectorized evaluation collects.
-/
import Verif.Eval.LemmasVector

namespace Verif.Eval

open MeasureTheory ProbabilityTheory
open Verif.Vector (cnt anyOf getMask Masked midway freshLogic cnt_split cnt_congr cnt_false cnt_pos cnt_eq_zero getMask_fresh getMask_regular)

noncomputable section

variable {S X A P T U : Type} [MeasurableSpace S] [MeasurableSpace X] [MeasurableSpace A] [MeasurableSpace P] [MeasurableSpace U]
variable {Ω : Type} [MeasurableSpace Ω]

/-- A random state, all parts of which are measurable. -/
structure Meas (σ : Ω → Cs S P) : Prop where
  run : ∀ i, Measurable fun ω => (σ ω).run i
  last : ∀ i, Measurable fun ω => (σ ω).last i
  totE : Measurable fun ω => (σ ω).totE
  steps : ∀ i, Measurable fun ω => (σ ω).steps i
  hid : ∀ i, Measurable fun ω => (σ ω).hid i
  ps : ∀ i, Measurable fun ω => (σ ω).ps i
  acc : Measurable fun ω => (σ ω).acc

theorem measurable_cnt {f : Ω → ℕ → Bool} (hf : ∀ i, Measurable fun ω => f ω i) : ∀ n, Measurable fun ω => cnt (f ω) n
  | 0 => measurable_const
  | n + 1 => by
    have h1 := measurable_cnt hf n
    exact (measurable_of_countable (fun x : ℕ × Bool => x.1 + if x.2 then 1 else 0)).comp (h1.prodMk (hf n))

theorem measurable_grant (n H N i : ℕ) {run last : Ω → ℕ → Bool} {tot : Ω → ℕ} (hr : ∀ i, Measurable fun ω => run ω i) (hl : ∀ i, Measurable fun ω => last ω i)
    (ht : Measurable tot) : Measurable fun ω => grant n H N (run ω) (last ω) (tot ω) i := by
  have c1 := measurable_cnt (f := fun ω i => last ω i && run ω i) (fun i => (measurable_of_countable (fun x : Bool × Bool => x.1 && x.2)).comp ((hl i).prodMk (hr i))) n
  have c2 := measurable_cnt (f := fun ω i => !last ω i && run ω i) (fun i => (measurable_of_countable (fun x : Bool × Bool => !x.1 && x.2)).comp ((hl i).prodMk (hr i))) n
  have c3 := measurable_cnt hl n
  have c4 := measurable_cnt hl i
  have hall := c1.prodMk (c2.prodMk (c3.prodMk (c4.prodMk (ht.prodMk ((hr i).prodMk (hl i))))))
  set G : ℕ × ℕ × ℕ × ℕ × ℕ × Bool × Bool → Bool := fun x =>
    if 0 < x.2.2.1 then
      (let first := decide (x.2.1 = 0 ∧ x.1 = 0)
       let term := if first then n else x.1
       let maxRuns := min (N - x.2.2.2.2.1 - x.2.1) term
       if first then decide (i < maxRuns)
       else if x.2.2.1 = term then (if x.2.2.2.2.2.2 then decide (x.2.2.2.1 < maxRuns) else x.2.2.2.2.2.1)
       else if term = 1 then (if x.2.2.2.2.2.2 then decide (0 < maxRuns) else x.2.2.2.2.2.1)
       else x.2.2.2.2.2.1)
    else x.2.2.2.2.2.1 with hG
  have hcomp := (measurable_of_countable G).comp hall
  have heq : (fun ω => grant n H N (run ω) (last ω) (tot ω) i) = G ∘ fun ω => (cnt (fun i => last ω i && run ω i) n, cnt (fun i => !last ω i && run ω i) n,
      cnt (last ω) n, cnt (last ω) i, tot ω, run ω i, last ω i) := by
    funext ω
    simp only [Function.comp_apply, hG, grant]
    by_cases h0 : 0 < cnt (last ω) n
    · rw [if_pos (show anyOf (last ω) n = true by simp [anyOf, h0]), if_pos h0]
      simp only [decide_eq_true_eq, getMask, Vector.Logic.evaluateCfg, Vector.Logic.initializeEvaluate, freshLogic]
      by_cases h1 : cnt (fun i => !last ω i && run ω i) n = 0 ∧ cnt (fun i => last ω i && run ω i) n = 0
      · simp only [if_pos h1]
      · simp only [if_neg h1]
        by_cases h2 : cnt (last ω) n = cnt (fun i => last ω i && run ω i) n
        · simp only [if_pos h2]
        · simp only [if_neg h2]
          by_cases h3 : cnt (fun i => last ω i && run ω i) n = 1
          · simp only [if_pos h3]
          · simp only [if_neg h3]
    · rw [if_neg (show ¬ anyOf (last ω) n = true by simpa [anyOf] using h0), if_neg h0]
  rw [heq]
  exact hcomp

variable {m : Sim S X A P T U} {γ C : ℝ} {ν : Measure U} [IsProbabilityMeasure ν]

theorem measurable_one (hm : m.Regular C) {f : Ω → Bool} {s : Ω → S} {p : Ω → P} {v : Ω → U × U × U × U} (hf : Measurable f) (hs : Measurable s) (hp : Measurable p)
    (hv : Measurable v) : Measurable fun ω => one m (f ω) (s ω) (p ω) (v ω) := by
  have hset : MeasurableSet {ω | f ω = true} := hf (measurableSet_singleton true)
  have h1 : Measurable fun ω => if f ω = true then m.start (v ω).1 else s ω := Measurable.ite hset (hm.start.comp hv.fst) hs
  have h2 : Measurable fun ω => if f ω = true then (m.begins (m.see (if f ω = true then m.start (v ω).1 else s ω)) (v ω).2.1).1 else p ω :=
    Measurable.ite hset (hm.begins.comp ((hm.see.comp h1).prodMk hv.snd.fst)) hp
  have h3 := hm.act.comp ((hm.see.comp h1).prodMk (h2.prodMk hv.snd.snd.fst))
  have h4 := hm.next.comp (h1.prodMk (h3.fst.prodMk hv.snd.snd.snd))
  have h5 := h1.prodMk (h3.fst.prodMk h4)
  refine h4.prodMk (h3.snd.prodMk ((hm.reward.comp h5).prodMk ?_))
  refine measurable_to_bool ?_
  exact h5 hm.absorbing

theorem meas_step (hm : m.Regular C) (n H N : ℕ) {σ : Ω → Cs S P} (hσ : Meas σ) {v : Ω → Draws U} (hv : Measurable v) : Meas fun ω => step m γ n H N (σ ω) (v ω) := by
  have hg : ∀ i, Measurable fun ω => grant n H N (σ ω).run (σ ω).last (σ ω).totE i := fun i => measurable_grant n H N i hσ.run hσ.last hσ.totE
  have hgs : ∀ i, MeasurableSet {ω | grant n H N (σ ω).run (σ ω).last (σ ω).totE i = true} := fun i => hg i (measurableSet_singleton true)
  have ho : ∀ i, Measurable fun ω => one m ((σ ω).last i) ((σ ω).hid i) ((σ ω).ps i) (v ω i) := fun i =>
    measurable_one hm (hσ.last i) (hσ.hid i) (hσ.ps i) ((measurable_pi_apply i).comp hv)
  have hk : ∀ i, Measurable fun ω => stepsOf ((σ ω).last i) ((σ ω).steps i) := fun i =>
    (measurable_of_countable fun x : Bool × ℕ => stepsOf x.1 x.2).comp ((hσ.last i).prodMk (hσ.steps i))
  have hst : ∀ i, Measurable fun ω => (step m γ n H N (σ ω) (v ω)).steps i := fun i =>
    (measurable_of_countable fun x : Bool × ℕ => if x.1 then x.2 + 1 else x.2).comp ((hg i).prodMk (hk i))
  have hl : ∀ i, Measurable fun ω => (step m γ n H N (σ ω) (v ω)).last i := fun i =>
    (measurable_of_countable fun x : Bool × Bool × ℕ => (x.1 && x.2.1) || decide (H ≤ x.2.2)).comp ((hg i).prodMk ((ho i).snd.snd.snd.prodMk (hst i)))
  constructor
  · exact hg
  · exact hl
  · have := measurable_cnt (f := fun ω i => (step m γ n H N (σ ω) (v ω)).last i && grant n H N (σ ω).run (σ ω).last (σ ω).totE i)
      (fun i => (measurable_of_countable (fun x : Bool × Bool => x.1 && x.2)).comp ((hl i).prodMk (hg i))) n
    exact (measurable_of_countable fun x : ℕ × ℕ => x.1 + x.2).comp (hσ.totE.prodMk this)
  · exact hst
  · exact fun i => Measurable.ite (hgs i) (ho i).fst (hσ.hid i)
  · exact fun i => Measurable.ite (hgs i) (ho i).snd.fst (hσ.ps i)
  · refine hσ.acc.add (Finset.measurable_sum _ fun i _ => Measurable.ite (hgs i) (Measurable.mul ?_ (ho i).snd.snd.fst) measurable_const)
    exact (measurable_of_countable fun k : ℕ => γ ^ k).comp (hk i)

theorem meas_ite {σ τ : Ω → Cs S P} (hσ : Meas σ) (hτ : Meas τ) {p : Ω → Prop} [DecidablePred p] (hp : MeasurableSet {ω | p ω}) : Meas fun ω => if p ω then σ ω else τ ω := by
  have key : ∀ {α : Type} [MeasurableSpace α] (f : Cs S P → α), (Measurable fun ω => f (σ ω)) → (Measurable fun ω => f (τ ω)) →
      Measurable fun ω => f (if p ω then σ ω else τ ω) := by
    intro α _ f h1 h2
    simp only [apply_ite f]
    exact Measurable.ite hp h1 h2
  exact ⟨fun i => key (·.run i) (hσ.run i) (hτ.run i), fun i => key (·.last i) (hσ.last i) (hτ.last i), key (·.totE) hσ.totE hτ.totE,
    fun i => key (·.steps i) (hσ.steps i) (hτ.steps i), fun i => key (·.hid i) (hσ.hid i) (hτ.hid i), fun i => key (·.ps i) (hσ.ps i) (hτ.ps i),
    key (·.acc) hσ.acc hτ.acc⟩

theorem meas_proc (hm : m.Regular C) (n H N : ℕ) (c : Cs S P) : ∀ t, Meas fun ω : ℕ → Draws U => proc m γ n H N c t ω
  | 0 => by
    show Meas fun _ => c
    constructor <;> first | exact fun _ => measurable_const | exact measurable_const
  | t + 1 => by
    have ih := meas_proc hm n H N c t
    exact meas_ite (meas_step hm n H N ih (measurable_pi_apply t)) ih (ih.totE (Set.to_countable {x | x < N}).measurableSet)

/-! ### The value -/

theorem value_bound (hm : m.Regular C) (hC : 0 ≤ C) (h : ℕ) (s : S) (p : P) : |m.value ν γ h s p| ≤ bound C γ h := by
  rw [← playFrom_mean (ν := ν) hm hC]
  refine (norm_integral_le_of_norm_le_const (μ := draws ν) (f := fun ω => (playFrom m γ h s p ω).1) (C := bound C γ h) (Filter.Eventually.of_forall fun ω => playFrom_bound hm hC h s p ω)).trans ?_
  simp

theorem measurable_value (hm : m.Regular C) (hC : 0 ≤ C) (h : ℕ) : Measurable fun x : S × P => m.value ν γ h x.1 x.2 := by
  simp only [← playFrom_mean (ν := ν) (γ := γ) hm hC]
  have hj : Measurable fun x : (S × P) × (ℕ → U) => (playFrom m γ h x.1.1 x.1.2 x.2).1 :=
    ((measurable_playFrom hm h).comp (measurable_fst.fst.prodMk (measurable_fst.snd.prodMk measurable_snd))).fst
  exact (hj.stronglyMeasurable.integral_prod_right (ν := draws ν)).measurable

/-- The law of the four random numbers of one environment in one iteration. -/
def quad (ν : Measure U) : Measure (U × U × U × U) := ν.prod (ν.prod (ν.prod ν))

instance : IsProbabilityMeasure (quad ν) := by unfold quad; infer_instance

theorem integral_quad {f : U × U × U × U → ℝ} (hf : Measurable f) {B : ℝ} (hB : ∀ x, |f x| ≤ B) :
    ∫ x, f x ∂quad ν = ∫ a, ∫ b, ∫ c, ∫ d, f (a, b, c, d) ∂ν ∂ν ∂ν ∂ν := by
  unfold quad
  rw [integral_prod _ (Integrable.of_bound hf.aestronglyMeasurable B (Filter.Eventually.of_forall hB))]
  refine integral_congr_ae (Filter.Eventually.of_forall fun a => ?_)
  have h1 : Measurable fun y : U × U × U => f (a, y) := hf.comp (measurable_const.prodMk measurable_id)
  simp only
  rw [integral_prod _ (Integrable.of_bound h1.aestronglyMeasurable B (Filter.Eventually.of_forall fun y => hB _))]
  refine integral_congr_ae (Filter.Eventually.of_forall fun b => ?_)
  have h2 : Measurable fun y : U × U => f (a, b, y) := h1.comp (measurable_const.prodMk measurable_id)
  simp only
  rw [integral_prod _ (Integrable.of_bound h2.aestronglyMeasurable B (Filter.Eventually.of_forall fun y => hB _))]

/-- Reward of an iteration for one environment, and value after it. -/
def ahead (m : Sim S X A P T U) (ν : Measure U) (γ : ℝ) (h : ℕ) (fresh : Bool) (s : S) (p : P) (v : U × U × U × U) : ℝ :=
  (one m fresh s p v).2.2.1 + γ * if (one m fresh s p v).2.2.2 then 0 else m.value ν γ h (one m fresh s p v).1 (one m fresh s p v).2.1

theorem measurable_ahead (hm : m.Regular C) (hC : 0 ≤ C) (h : ℕ) (fresh : Bool) (s : S) (p : P) : Measurable (ahead m ν γ h fresh s p) := by
  have ho := measurable_one hm (Ω := U × U × U × U) (f := fun _ => fresh) (s := fun _ => s) (p := fun _ => p) (v := id) measurable_const measurable_const measurable_const measurable_id
  refine ho.snd.snd.fst.add (measurable_const.mul (Measurable.ite (ho.snd.snd.snd (measurableSet_singleton true)) measurable_const ?_))
  exact (measurable_value hm hC h).comp (ho.fst.prodMk ho.snd.fst)

theorem ahead_bound (hm : m.Regular C) (hC : 0 ≤ C) (h : ℕ) (fresh : Bool) (s : S) (p : P) (v : U × U × U × U) : |ahead m ν γ h fresh s p v| ≤ bound C γ (h + 1) := by
  unfold ahead
  rw [bound_succ]
  refine (abs_add_le _ _).trans (add_le_add (hm.bound _ _ _) ?_)
  rw [abs_mul]
  refine mul_le_mul_of_nonneg_left ?_ (abs_nonneg _)
  split
  · simpa using bound_nonneg hC h
  · exact value_bound hm hC h _ _

theorem ahead_running (hm : m.Regular C) (hC : 0 ≤ C) (h : ℕ) (s : S) (p : P) : ∫ v, ahead m ν γ h false s p v ∂quad ν = m.value ν γ (h + 1) s p := by
  rw [integral_quad (measurable_ahead hm hC h false s p) (ahead_bound hm hC h false s p)]
  simp only [ahead, one, Bool.false_eq_true, if_false, Sim.value, integral_const, probReal_univ, one_smul]

theorem ahead_fresh (hm : m.Regular C) (hC : 0 ≤ C) (h : ℕ) (s : S) (p : P) : ∫ v, ahead m ν γ h true s p v ∂quad ν = m.performance ν γ (h + 1) m.start := by
  rw [integral_quad (measurable_ahead hm hC h true s p) (ahead_bound hm hC h true s p)]
  simp only [ahead, one, if_true, Sim.performance, Sim.value]

/-! ### The potential -/

/-- What environment `i` is expected to add to the sum of the returns, beyond one performance. -/
def pot (m : Sim S X A P T U) (ν : Measure U) (γ : ℝ) (H : ℕ) (c : Cs S P) (i : ℕ) : ℝ :=
  if c.run i && !c.last i then γ ^ c.steps i * m.value ν γ (H - c.steps i) (c.hid i) (c.ps i) - m.performance ν γ H m.start else 0

/-- The expected sum of all the returns, given the present. -/
def total (m : Sim S X A P T U) (ν : Measure U) (γ : ℝ) (n H N : ℕ) (c : Cs S P) : ℝ :=
  c.acc + ∑ i ∈ Finset.range n, pot m ν γ H c i + ((N : ℝ) - c.totE) * m.performance ν γ H m.start

omit [MeasurableSpace Ω] [MeasurableSpace S] [MeasurableSpace X] [MeasurableSpace A] [MeasurableSpace P] [MeasurableSpace U] in
theorem cnt_sum (f : ℕ → Bool) : ∀ n, (cnt f n : ℝ) = ∑ i ∈ Finset.range n, if f i then 1 else 0
  | 0 => by simp [cnt]
  | n + 1 => by rw [Finset.sum_range_succ, ← cnt_sum f n]; simp only [cnt]; split <;> simp

theorem total_step (n N : ℕ) {H : ℕ} (hH : 1 ≤ H) {c : Cs S P} (hi : CInv n H N c) (v : Draws U) :
    total m ν γ n H N (step m γ n H N c v) = c.acc + ((N : ℝ) - c.totE) * m.performance ν γ H m.start +
      ∑ i ∈ Finset.range n, if grant n H N c.run c.last c.totE i then
        γ ^ stepsOf (c.last i) (c.steps i) * ahead m ν γ (H - stepsOf (c.last i) (c.steps i) - 1) (c.last i) (c.hid i) (c.ps i) (v i) - m.performance ν γ H m.start else 0 := by
  have hle : ∀ i < n, grant n H N c.run c.last c.totE i = true → stepsOf (c.last i) (c.steps i) < H := by
    intro i hin hg
    unfold stepsOf
    cases hl : c.last i
    · rw [(grant_spec hi).1 i hin hl] at hg
      simpa using hi.lens i hin hg hl
    · simp; omega
  have hacc : (step m γ n H N c v).acc = c.acc + ∑ i ∈ Finset.range n, if grant n H N c.run c.last c.totE i then
      γ ^ stepsOf (c.last i) (c.steps i) * (one m (c.last i) (c.hid i) (c.ps i) (v i)).2.2.1 else 0 := rfl
  have htot : ((step m γ n H N c v).totE : ℝ) = c.totE + ∑ i ∈ Finset.range n, if (step m γ n H N c v).last i && grant n H N c.run c.last c.totE i then 1 else 0 := by
    rw [← cnt_sum (fun i => (step m γ n H N c v).last i && grant n H N c.run c.last c.totE i)]
    exact_mod_cast rfl
  unfold total
  rw [hacc, htot]
  have hring : ∀ a s1 s2 s3 p t : ℝ, a + s1 + s2 + (N - (t + s3)) * p = a + (N - t) * p + (s1 + s2 - s3 * p) := by intros; ring
  rw [hring, Finset.sum_mul, ← Finset.sum_add_distrib, ← Finset.sum_sub_distrib]
  congr 1
  refine Finset.sum_congr rfl fun i hin => ?_
  have hin := Finset.mem_range.1 hin
  by_cases hg : grant n H N c.run c.last c.totE i = true
  · have hk := hle i hin hg
    have hrun : (step m γ n H N c v).run i = true := hg
    have hsteps : (step m γ n H N c v).steps i = stepsOf (c.last i) (c.steps i) + 1 := by simp only [step, hg, if_true]
    have hhid : (step m γ n H N c v).hid i = (one m (c.last i) (c.hid i) (c.ps i) (v i)).1 := by simp only [step, hg, if_true]
    have hps : (step m γ n H N c v).ps i = (one m (c.last i) (c.hid i) (c.ps i) (v i)).2.1 := by simp only [step, hg, if_true]
    have hlast : (step m γ n H N c v).last i = ((one m (c.last i) (c.hid i) (c.ps i) (v i)).2.2.2 || decide (H ≤ stepsOf (c.last i) (c.steps i) + 1)) := by
      simp only [step, hg, if_true, Bool.true_and]
    simp only [pot, hrun, hsteps, hhid, hps, hlast, hg, if_true, ahead, Bool.true_and, Bool.and_true]
    have hsub : H - (stepsOf (c.last i) (c.steps i) + 1) = H - stepsOf (c.last i) (c.steps i) - 1 := by omega
    rw [hsub]
    generalize stepsOf (c.last i) (c.steps i) = k at *
    cases hab : (one m (c.last i) (c.hid i) (c.ps i) (v i)).2.2.2
    · by_cases hh : H ≤ k + 1
      · have h0 : H - k - 1 = 0 := by omega
        simp [hh, h0, Sim.value]
      · simp [hh]
        ring
    · simp
  · have hrun : (step m γ n H N c v).run i = false := Bool.eq_false_iff.2 hg
    simp [pot, hrun, hg]

/-- On average an iteration does not change the expected sum of the returns. -/
theorem total_mean (hm : m.Regular C) (hC : 0 ≤ C) (n N : ℕ) {H : ℕ} (hH : 1 ≤ H) {c : Cs S P} (hi : CInv n H N c) :
    ∫ v, total m ν γ n H N (step m γ n H N c v) ∂draws (quad ν) = total m ν γ n H N c := by
  simp only [total_step n N hH hi]
  have hmeas : ∀ i, Measurable fun x => γ ^ stepsOf (c.last i) (c.steps i) * ahead m ν γ (H - stepsOf (c.last i) (c.steps i) - 1) (c.last i) (c.hid i) (c.ps i) x -
      m.performance ν γ H m.start := fun i => (measurable_const.mul (measurable_ahead hm hC _ _ _ _)).sub measurable_const
  have hmeas' : ∀ i, Measurable fun v : Draws U => γ ^ stepsOf (c.last i) (c.steps i) * ahead m ν γ (H - stepsOf (c.last i) (c.steps i) - 1) (c.last i) (c.hid i) (c.ps i) (v i) -
      m.performance ν γ H m.start := fun i => (hmeas i).comp (measurable_pi_apply i)
  have hint : ∀ i, Integrable (fun v : Draws U => γ ^ stepsOf (c.last i) (c.steps i) *
      ahead m ν γ (H - stepsOf (c.last i) (c.steps i) - 1) (c.last i) (c.hid i) (c.ps i) (v i) - m.performance ν γ H m.start) (draws (quad ν)) := by
    intro i
    refine Integrable.of_bound (hmeas' i).aestronglyMeasurable
      (|γ ^ stepsOf (c.last i) (c.steps i)| * bound C γ (H - stepsOf (c.last i) (c.steps i) - 1 + 1) + |m.performance ν γ H m.start|) (Filter.Eventually.of_forall fun v => ?_)
    rw [Real.norm_eq_abs]
    refine (abs_sub _ _).trans (add_le_add ?_ le_rfl)
    rw [abs_mul]
    exact mul_le_mul_of_nonneg_left (ahead_bound hm hC _ _ _ _ _) (abs_nonneg _)
  rw [integral_add (integrable_const _) (integrable_finsetSum _ fun i _ => by split; exacts [hint i, integrable_zero _ _ _]), integral_const, probReal_univ, one_smul,
    integral_finsetSum _ (fun i _ => by split; exacts [hint i, integrable_zero _ _ _])]
  unfold total
  have hring : ∀ a b s : ℝ, a + b + s = a + s + b := by intros; ring
  rw [hring]
  congr 2
  refine Finset.sum_congr rfl fun i hin => ?_
  have hin := Finset.mem_range.1 hin
  have hev : ∀ f : U × U × U × U → ℝ, Measurable f → ∫ v : Draws U, f (v i) ∂draws (quad ν) = ∫ x, f x ∂quad ν := by
    intro f hf
    have := integral_map (μ := draws (quad ν)) (φ := fun v : Draws U => v i) (measurable_pi_apply i).aemeasurable (f := f) hf.aestronglyMeasurable
    rw [show (draws (quad ν)).map (fun v : Draws U => v i) = quad ν from Measure.infinitePi_map_eval (fun _ => quad ν) i] at this
    exact this.symm
  have hval : ∀ k, k < H → H - k - 1 + 1 = H - k := fun k hk => by omega
  cases hl : c.last i
  · simp only [(grant_spec hi).1 i hin hl, stepsOf, pot, hl, Bool.not_false, Bool.and_true, Bool.false_eq_true, if_false]
    cases hr : c.run i
    · simp
    · simp only [if_true]
      have hm' := hmeas i
      simp only [hl, stepsOf, Bool.false_eq_true, if_false] at hm'
      rw [hev _ hm', integral_sub ?_ (integrable_const _), integral_const_mul, ahead_running hm hC, integral_const, probReal_univ, one_smul, hval _ (hi.lens i hin hr hl)]
      refine Integrable.const_mul ?_ _
      exact Integrable.of_bound (measurable_ahead hm hC _ _ _ _).aestronglyMeasurable _ (Filter.Eventually.of_forall fun v => ahead_bound hm hC _ _ _ _ v)
  · simp only [stepsOf, pot, hl, Bool.not_true, Bool.and_false, Bool.false_eq_true, if_false, if_true, pow_zero, one_mul, Nat.sub_zero]
    split
    · have hm' := hmeas i
      simp only [hl, stepsOf, if_true, pow_zero, one_mul, Nat.sub_zero] at hm'
      rw [hev _ hm', integral_sub ?_ (integrable_const _), ahead_fresh hm hC, integral_const, probReal_univ, one_smul, Nat.sub_add_cancel hH, sub_self]
      exact Integrable.of_bound (measurable_ahead hm hC _ _ _ _).aestronglyMeasurable _ (Filter.Eventually.of_forall fun v => ahead_bound hm hC _ _ _ _ v)
    · simp

omit [MeasurableSpace S] [MeasurableSpace X] [MeasurableSpace A] [MeasurableSpace P] [MeasurableSpace U] in
theorem proc_inv {n H N : ℕ} (hH : 1 ≤ H) {c : Cs S P} (hi : CInv n H N c) (ω : ℕ → Draws U) : ∀ t, CInv n H N (proc m γ n H N c t ω)
  | 0 => hi
  | t + 1 => by
    rw [proc]
    split
    · exact step_inv m γ hH (proc_inv hH hi ω t) _
    · exact proc_inv hH hi ω t

omit [MeasurableSpace S] [MeasurableSpace X] [MeasurableSpace A] [MeasurableSpace P] [MeasurableSpace U] in
theorem gpow {k H : ℕ} (hk : k ≤ H) : |γ ^ k| ≤ max 1 |γ| ^ H := by
  rw [abs_pow]
  exact (pow_le_pow_left₀ (abs_nonneg _) (le_max_right _ _) k).trans (pow_le_pow_right₀ (le_max_left _ _) hk)

theorem acc_bound (hm : m.Regular C) (hC : 0 ≤ C) {n H N : ℕ} (hH : 1 ≤ H) {c : Cs S P} (hi : CInv n H N c) (ω : ℕ → Draws U) :
    ∀ t, |(proc m γ n H N c t ω).acc| ≤ |c.acc| + t * (n * (max 1 |γ| ^ H * C))
  | 0 => by simp [proc]
  | t + 1 => by
    have ih := acc_bound hm hC hH hi ω t
    have hM : 0 ≤ max 1 |γ| ^ H * C := mul_nonneg (pow_nonneg (le_trans zero_le_one (le_max_left _ _)) _) hC
    have hn : 0 ≤ (n : ℝ) * (max 1 |γ| ^ H * C) := mul_nonneg (Nat.cast_nonneg _) hM
    have hinv := proc_inv (m := m) (γ := γ) hH hi ω t
    rw [proc]
    push_cast
    split
    · have hs : |∑ i ∈ Finset.range n, if grant n H N (proc m γ n H N c t ω).run (proc m γ n H N c t ω).last (proc m γ n H N c t ω).totE i then
          γ ^ stepsOf ((proc m γ n H N c t ω).last i) ((proc m γ n H N c t ω).steps i) *
            (one m ((proc m γ n H N c t ω).last i) ((proc m γ n H N c t ω).hid i) ((proc m γ n H N c t ω).ps i) (ω t i)).2.2.1 else 0| ≤ n * (max 1 |γ| ^ H * C) := by
        refine (Finset.abs_sum_le_sum_abs _ _).trans ((Finset.sum_le_card_nsmul _ _ (max 1 |γ| ^ H * C) fun i hin => ?_).trans (by simp))
        have hin := Finset.mem_range.1 hin
        split
        · rename_i hg
          rw [abs_mul]
          refine mul_le_mul (gpow ?_) (hm.bound _ _ _) (abs_nonneg _) (pow_nonneg (le_trans zero_le_one (le_max_left _ _)) _)
          unfold stepsOf
          cases hl : (proc m γ n H N c t ω).last i
          · rw [(grant_spec hinv).1 i hin hl] at hg
            simpa using (hinv.lens i hin hg hl).le
          · simp
        · simpa using hM
      have : (step m γ n H N (proc m γ n H N c t ω) (ω t)).acc = (proc m γ n H N c t ω).acc + ∑ i ∈ Finset.range n,
          if grant n H N (proc m γ n H N c t ω).run (proc m γ n H N c t ω).last (proc m γ n H N c t ω).totE i then
          γ ^ stepsOf ((proc m γ n H N c t ω).last i) ((proc m γ n H N c t ω).steps i) *
            (one m ((proc m γ n H N c t ω).last i) ((proc m γ n H N c t ω).hid i) ((proc m γ n H N c t ω).ps i) (ω t i)).2.2.1 else 0 := rfl
      rw [this]
      have := abs_add_le (proc m γ n H N c t ω).acc (∑ i ∈ Finset.range n,
          if grant n H N (proc m γ n H N c t ω).run (proc m γ n H N c t ω).last (proc m γ n H N c t ω).totE i then
          γ ^ stepsOf ((proc m γ n H N c t ω).last i) ((proc m γ n H N c t ω).steps i) *
            (one m ((proc m γ n H N c t ω).last i) ((proc m γ n H N c t ω).hid i) ((proc m γ n H N c t ω).ps i) (ω t i)).2.2.1 else 0)
      linarith
    · linarith

theorem bound_mono (hC : 0 ≤ C) {h H : ℕ} (hh : h ≤ H) : bound C γ h ≤ bound C γ H :=
  mul_le_mul_of_nonneg_left (Finset.sum_le_sum_of_subset_of_nonneg (Finset.range_mono hh) fun _ _ _ => pow_nonneg (abs_nonneg _) _) hC

theorem total_bound (hm : m.Regular C) (hC : 0 ≤ C) {n H N : ℕ} (hH : 1 ≤ H) {c : Cs S P} (hi : CInv n H N c) (t : ℕ) :
    ∃ B, ∀ ω : ℕ → Draws U, |total m ν γ n H N (proc m γ n H N c t ω)| ≤ B := by
  refine ⟨|c.acc| + t * (n * (max 1 |γ| ^ H * C)) + n * (max 1 |γ| ^ H * bound C γ H + |m.performance ν γ H m.start|) + N * |m.performance ν γ H m.start|, fun ω => ?_⟩
  have hinv := proc_inv (m := m) (γ := γ) hH hi ω t
  have h1 := acc_bound (γ := γ) hm hC hH hi ω t
  have hpos : 0 ≤ max 1 |γ| ^ H * bound C γ H + |m.performance ν γ H m.start| :=
    add_nonneg (mul_nonneg (pow_nonneg (le_trans zero_le_one (le_max_left _ _)) _) (bound_nonneg hC H)) (abs_nonneg _)
  have h2 : |∑ i ∈ Finset.range n, pot m ν γ H (proc m γ n H N c t ω) i| ≤ n * (max 1 |γ| ^ H * bound C γ H + |m.performance ν γ H m.start|) := by
    refine (Finset.abs_sum_le_sum_abs _ _).trans ((Finset.sum_le_card_nsmul _ _ _ fun i hin => ?_).trans (by simp; rfl))
    have hin := Finset.mem_range.1 hin
    unfold pot
    split
    · rename_i h
      simp only [Bool.and_eq_true, Bool.not_eq_true'] at h
      refine (abs_sub _ _).trans (add_le_add ?_ le_rfl)
      rw [abs_mul]
      exact mul_le_mul (gpow (hinv.lens i hin h.1 h.2).le) ((value_bound hm hC _ _ _).trans (bound_mono hC (Nat.sub_le _ _))) (abs_nonneg _)
        (pow_nonneg (le_trans zero_le_one (le_max_left _ _)) _)
    · simpa using hpos
  have h3 : |((N : ℝ) - (proc m γ n H N c t ω).totE) * m.performance ν γ H m.start| ≤ N * |m.performance ν γ H m.start| := by
    rw [abs_mul]
    refine mul_le_mul_of_nonneg_right ?_ (abs_nonneg _)
    have : ((proc m γ n H N c t ω).totE : ℝ) ≤ N := by exact_mod_cast (Nat.le_add_right _ _).trans hinv.total
    rw [abs_of_nonneg (by linarith)]
    have : (0 : ℝ) ≤ ((proc m γ n H N c t ω).totE : ℝ) := Nat.cast_nonneg _
    linarith
  unfold total
  refine (abs_add_le _ _).trans (add_le_add ((abs_add_le _ _).trans (add_le_add h1 h2)) h3)

theorem measurable_total (hm : m.Regular C) (hC : 0 ≤ C) (n H N : ℕ) {σ : Ω → Cs S P} (hσ : Meas σ) : Measurable fun ω => total m ν γ n H N (σ ω) := by
  refine (hσ.acc.add (Finset.measurable_sum _ fun i _ => ?_)).add ((measurable_const.sub ((measurable_of_countable fun k : ℕ => (k : ℝ)).comp hσ.totE)).mul measurable_const)
  refine Measurable.ite ?_ (((measurable_of_countable fun k : ℕ => γ ^ k).comp (hσ.steps i)).mul ?_ |>.sub measurable_const) measurable_const
  · exact ((measurable_of_countable fun x : Bool × Bool => x.1 && !x.2).comp ((hσ.run i).prodMk (hσ.last i))) (measurableSet_singleton true)
  · have : Measurable fun x : (S × P) × ℕ => m.value ν γ (H - x.2) x.1.1 x.1.2 := by
      refine measurable_from_prod_countable_left fun k => ?_
      exact measurable_value hm hC (H - k)
    exact this.comp (((hσ.hid i).prodMk (hσ.ps i)).prodMk (hσ.steps i))

/-- The expected sum of all the returns, given the start, is the mean of what is expected after any number of iterations. -/
theorem proc_mean (hm : m.Regular C) (hC : 0 ≤ C) {n H N : ℕ} (hH : 1 ≤ H) : ∀ (t : ℕ) (c : Cs S P), CInv n H N c →
    ∫ ω, total m ν γ n H N (proc m γ n H N c t ω) ∂draws (draws (quad ν)) = total m ν γ n H N c
  | 0, c, _ => by simp [proc]
  | t + 1, c, hi => by
    by_cases hc : c.totE < N
    · obtain ⟨B, hB⟩ := total_bound (ν := ν) (γ := γ) hm hC hH hi (t + 1)
      rw [integral_draws (measurable_total hm hC n H N (meas_proc hm n H N c (t + 1))) hB]
      simp only [proc_front m γ n H N c hc, cons_zero, shift_cons]
      simp only [fun v => proc_mean hm hC hH t (step m γ n H N c v) (step_inv m γ hH hi v)]
      exact total_mean hm hC n N hH hi
    · simp [proc_done m γ n H N c hc]

end

end Verif.Eval
