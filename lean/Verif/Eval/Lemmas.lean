/-
Lemmas for C152: sequences of independent draws, and episodes that read them.
-/
import Verif.Eval.Spec
import Mathlib.Probability.Independence.InfinitePi

namespace Verif.Eval

open MeasureTheory ProbabilityTheory

noncomputable section

variable {S X A P T U : Type} [MeasurableSpace S] [MeasurableSpace X] [MeasurableSpace A] [MeasurableSpace P] [MeasurableSpace U]
variable {ν : Measure U} [IsProbabilityMeasure ν]

instance : IsProbabilityMeasure (draws ν) := by unfold draws; infer_instance

/-! ### The sequence of draws -/

/-- The sequence that begins with `u` and goes on with `ω`. -/
def cons (x : U × (ℕ → U)) : ℕ → U
  | 0 => x.1
  | n + 1 => x.2 n

def shift (ω : ℕ → U) : ℕ → U := fun n => ω (n + 1)

theorem measurable_shift : Measurable (shift (U := U)) := measurable_pi_iff.2 fun n => measurable_pi_apply (n + 1)

theorem measurable_cons : Measurable (cons (U := U)) := by
  refine measurable_pi_iff.2 fun n => ?_
  cases n with
  | zero => exact measurable_fst
  | succ n => exact (measurable_pi_apply n).comp measurable_snd

omit [MeasurableSpace U] in
@[simp] theorem cons_zero (x : U × (ℕ → U)) : cons x 0 = x.1 := rfl
omit [MeasurableSpace U] in
@[simp] theorem shift_cons (x : U × (ℕ → U)) : shift (cons x) = x.2 := rfl

/-- The first draw is independent of the others, which are again such a sequence. -/
theorem map_cons : Measure.map cons (ν.prod (draws ν)) = draws ν := by
  unfold draws
  refine Measure.eq_infinitePi _ (fun s t ht => ?_)
  rw [Measure.map_apply measurable_cons (MeasurableSet.pi s.countable_toSet fun i _ => ht i)]
  have hset : cons ⁻¹' (Set.pi (s : Set ℕ) t) = (if 0 ∈ s then t 0 else Set.univ) ×ˢ (Set.pi ((s.erase 0).image Nat.pred : Finset ℕ) fun i => t (i + 1)) := by
    ext x
    simp only [Set.mem_preimage, Set.mem_pi, Set.mem_prod, Finset.coe_image, Finset.mem_coe]
    constructor
    · intro h
      refine ⟨?_, ?_⟩
      · split
        · rename_i h0; exact h 0 h0
        · trivial
      · rintro i ⟨j, hj, rfl⟩
        rcases j with _ | j
        · simp at hj
        · exact h (j + 1) (Finset.mem_of_mem_erase hj)
    · rintro ⟨h0, h⟩ i hi
      rcases i with _ | i
      · rw [if_pos hi] at h0; exact h0
      · exact h i ⟨i + 1, by simp [hi], rfl⟩
  rw [hset, Measure.prod_prod, Measure.infinitePi_pi _ (fun i _ => ht (i + 1))]
  have him : ∏ i ∈ (s.erase 0).image Nat.pred, ν (t (i + 1)) = ∏ j ∈ s.erase 0, ν (t j) := by
    rw [Finset.prod_image]
    · refine Finset.prod_congr rfl fun j hj => ?_
      rcases j with _ | j
      · simp at hj
      · rfl
    · intro a ha b hb hab
      rcases a with _ | a
      · simp at ha
      · rcases b with _ | b
        · simp at hb
        · simp at hab; rw [hab]
  rw [him]
  by_cases h0 : 0 ∈ s
  · rw [if_pos h0, Finset.mul_prod_erase s (fun j => ν (t j)) h0]
  · rw [if_neg h0, measure_univ, one_mul, Finset.erase_eq_of_notMem h0]

theorem lintegral_draws {F : (ℕ → U) → ENNReal} (hF : Measurable F) : ∫⁻ ω, F ω ∂draws ν = ∫⁻ u, ∫⁻ ω, F (cons (u, ω)) ∂draws ν ∂ν := by
  conv_lhs => rw [← map_cons (ν := ν)]
  rw [lintegral_map hF measurable_cons]
  exact lintegral_prod _ (hF.comp measurable_cons).aemeasurable

theorem integral_draws {F : (ℕ → U) → ℝ} (hF : Measurable F) {B : ℝ} (hB : ∀ ω, |F ω| ≤ B) : ∫ ω, F ω ∂draws ν = ∫ u, ∫ ω, F (cons (u, ω)) ∂draws ν ∂ν := by
  conv_lhs => rw [← map_cons (ν := ν)]
  rw [integral_map measurable_cons.aemeasurable hF.aestronglyMeasurable, integral_prod]
  exact Integrable.of_bound (hF.comp measurable_cons).aestronglyMeasurable B (Filter.Eventually.of_forall fun x => hB _)

theorem lintegral_two {F : (ℕ → U) → ENNReal} (hF : Measurable F) :
    ∫⁻ ω, F ω ∂draws ν = ∫⁻ u, ∫⁻ v, ∫⁻ ω, F (cons (u, cons (v, ω))) ∂draws ν ∂ν ∂ν := by
  rw [lintegral_draws hF]
  exact lintegral_congr fun u => lintegral_draws (F := fun ω => F (cons (u, ω))) (hF.comp (measurable_cons.comp (measurable_const.prodMk measurable_id)))

theorem integral_two {F : (ℕ → U) → ℝ} (hF : Measurable F) {B : ℝ} (hB : ∀ ω, |F ω| ≤ B) :
    ∫ ω, F ω ∂draws ν = ∫ u, ∫ v, ∫ ω, F (cons (u, cons (v, ω))) ∂draws ν ∂ν ∂ν := by
  rw [integral_draws hF hB]
  exact integral_congr_ae (Filter.Eventually.of_forall fun u =>
    integral_draws (F := fun ω => F (cons (u, ω))) (hF.comp (measurable_cons.comp (measurable_const.prodMk measurable_id))) fun ω => hB _)

/-! ### An episode that reads the draws -/

variable (m : Sim S X A P T U) (γ : ℝ)

/-- Discounted return of at most `h` further steps, and the draws that are left. -/
def playFrom : ℕ → S → P → (ℕ → U) → ℝ × (ℕ → U)
  | 0, _, _, ω => (0, ω)
  | h + 1, s, p, ω =>
    let d := m.act (m.see s) p (ω 0)
    let s' := m.next s d.1 (ω 1)
    if m.absorbing s d.1 s' then (m.reward s d.1 s', shift (shift ω))
    else (m.reward s d.1 s' + γ * (playFrom h s' d.2 (shift (shift ω))).1, (playFrom h s' d.2 (shift (shift ω))).2)

/-- An episode that starts in the random state `st`: the environment is reset, the agent begins, at most `H` steps. -/
def play (H : ℕ) (st : U → S) (ω : ℕ → U) : ℝ × (ℕ → U) :=
  playFrom m γ H (st (ω 0)) (m.begins (m.see (st (ω 0))) (ω 1)).1 (shift (shift ω))

/-- The draws left after `k` episodes, that start in the random states `st`. -/
def leftAfter (H : ℕ) : ℕ → (ℕ → U → S) → (ℕ → U) → (ℕ → U)
  | 0, _, ω => ω
  | k + 1, st, ω => leftAfter H k (fun i => st (i + 1)) (play m γ H (st 0) ω).2

/-- The return of the episode number `k`. -/
def returns (H : ℕ) (st : ℕ → U → S) (k : ℕ) (ω : ℕ → U) : ℝ := (play m γ H (st k) (leftAfter m γ H k st ω)).1

variable {m γ} {C : ℝ}

theorem measurable_playFrom (hm : m.Regular C) (h : ℕ) : Measurable fun x : S × P × (ℕ → U) => playFrom m γ h x.1 x.2.1 x.2.2 := by
  induction h with
  | zero => exact measurable_const.prodMk measurable_snd.snd
  | succ h ih =>
    have hu : ∀ n, Measurable fun x : S × P × (ℕ → U) => x.2.2 n := fun n => (measurable_pi_apply n).comp measurable_snd.snd
    have hd : Measurable fun x : S × P × (ℕ → U) => m.act (m.see x.1) x.2.1 (x.2.2 0) :=
      hm.act.comp ((hm.see.comp measurable_fst).prodMk (measurable_snd.fst.prodMk (hu 0)))
    have hs : Measurable fun x : S × P × (ℕ → U) => m.next x.1 (m.act (m.see x.1) x.2.1 (x.2.2 0)).1 (x.2.2 1) :=
      hm.next.comp (measurable_fst.prodMk (hd.fst.prodMk (hu 1)))
    have htri : Measurable fun x : S × P × (ℕ → U) =>
        (x.1, (m.act (m.see x.1) x.2.1 (x.2.2 0)).1, m.next x.1 (m.act (m.see x.1) x.2.1 (x.2.2 0)).1 (x.2.2 1)) := measurable_fst.prodMk (hd.fst.prodMk hs)
    have hsh : Measurable fun x : S × P × (ℕ → U) => shift (shift x.2.2) := measurable_shift.comp (measurable_shift.comp measurable_snd.snd)
    have hrec : Measurable fun x : S × P × (ℕ → U) =>
        playFrom m γ h (m.next x.1 (m.act (m.see x.1) x.2.1 (x.2.2 0)).1 (x.2.2 1)) (m.act (m.see x.1) x.2.1 (x.2.2 0)).2 (shift (shift x.2.2)) :=
      ih.comp (hs.prodMk (hd.snd.prodMk hsh))
    unfold playFrom
    refine Measurable.ite (hm.absorbing.preimage htri) ((hm.reward.comp htri).prodMk hsh) ?_
    exact ((hm.reward.comp htri).add (measurable_const.mul hrec.fst)).prodMk hrec.snd

theorem measurable_play (hm : m.Regular C) (H : ℕ) {st : U → S} (hst : Measurable st) : Measurable (play m γ H st) := by
  have h0 : Measurable fun ω : ℕ → U => ω 0 := measurable_pi_apply 0
  have h1 : Measurable fun ω : ℕ → U => ω 1 := measurable_pi_apply 1
  have hs := hst.comp h0
  exact (measurable_playFrom hm H).comp (hs.prodMk ((hm.begins.comp ((hm.see.comp hs).prodMk h1)).prodMk (measurable_shift.comp measurable_shift)))

theorem measurable_leftAfter (hm : m.Regular C) (H k : ℕ) : ∀ {st : ℕ → U → S}, (∀ i, Measurable (st i)) → Measurable (leftAfter m γ H k st) := by
  induction k with
  | zero => intro st _; exact measurable_id
  | succ k ih => intro st hst; exact (ih fun i => hst (i + 1)).comp (measurable_play hm H (hst 0)).snd

theorem measurable_returns (hm : m.Regular C) (H : ℕ) {st : ℕ → U → S} (hst : ∀ i, Measurable (st i)) (k : ℕ) : Measurable (returns m γ H st k) :=
  ((measurable_play hm H (hst k)).comp (measurable_leftAfter hm H k hst)).fst

omit [MeasurableSpace S] [MeasurableSpace X] [MeasurableSpace A] [MeasurableSpace P] [MeasurableSpace U] in
theorem returns_succ (H : ℕ) (st : ℕ → U → S) (k : ℕ) (ω : ℕ → U) :
    returns m γ H st (k + 1) ω = returns m γ H (fun i => st (i + 1)) k (play m γ H (st 0) ω).2 := rfl

omit [MeasurableSpace S] [MeasurableSpace X] [MeasurableSpace A] [MeasurableSpace P] [MeasurableSpace U] in
theorem leftAfter_succ (H k : ℕ) : ∀ (st : ℕ → U → S) (ω : ℕ → U), leftAfter m γ H (k + 1) st ω = (play m γ H (st k) (leftAfter m γ H k st ω)).2 := by
  induction k with
  | zero => intro st ω; rfl
  | succ k ih => intro st ω; exact ih (fun i => st (i + 1)) _

/-! ### What is left after an episode is independent of it -/

theorem playFrom_left (hm : m.Regular C) (h : ℕ) : ∀ (s : S) (p : P) {F : ℝ × (ℕ → U) → ENNReal}, Measurable F →
    ∫⁻ ω, F (playFrom m γ h s p ω) ∂draws ν = ∫⁻ ω, ∫⁻ ω', F ((playFrom m γ h s p ω).1, ω') ∂draws ν ∂draws ν := by
  induction h with
  | zero =>
    intro s p F hF
    simp [playFrom]
  | succ h ih =>
    intro s p F hF
    have hpl : ∀ h s p, Measurable fun ω : ℕ → U => playFrom m γ h s p ω := fun h s p =>
      (measurable_playFrom hm h).comp (measurable_const.prodMk (measurable_const.prodMk measurable_id))
    have hL : Measurable fun ω : ℕ → U => F (playFrom m γ (h + 1) s p ω) := hF.comp (hpl _ s p)
    have hR : Measurable fun ω : ℕ → U => ∫⁻ ω', F ((playFrom m γ (h + 1) s p ω).1, ω') ∂draws ν :=
      (Measurable.lintegral_prod_right' (f := fun x : ℝ × (ℕ → U) => F x) hF).comp (hpl _ s p).fst
    rw [lintegral_two hL, lintegral_two hR]
    refine lintegral_congr fun u => ?_
    refine lintegral_congr fun v => ?_
    unfold playFrom
    simp only [cons_zero, shift_cons]
    have h1 : ∀ ω : ℕ → U, cons (u, cons (v, ω)) 1 = v := fun ω => rfl
    simp only [h1]
    split
    · simp
    · exact ih _ _ (F := fun x => F (m.reward s _ _ + γ * x.1, x.2)) (hF.comp ((measurable_const.add (measurable_const.mul measurable_fst)).prodMk measurable_snd))

theorem play_left (hm : m.Regular C) (H : ℕ) {st : U → S} (hst : Measurable st) {F : ℝ × (ℕ → U) → ENNReal} (hF : Measurable F) :
    ∫⁻ ω, F (play m γ H st ω) ∂draws ν = ∫⁻ ω, ∫⁻ ω', F ((play m γ H st ω).1, ω') ∂draws ν ∂draws ν := by
  have hL : Measurable fun ω : ℕ → U => F (play m γ H st ω) := hF.comp (measurable_play hm H hst)
  have hR : Measurable fun ω : ℕ → U => ∫⁻ ω', F ((play m γ H st ω).1, ω') ∂draws ν :=
    (Measurable.lintegral_prod_right' (f := fun x : ℝ × (ℕ → U) => F x) hF).comp (measurable_play hm H hst).fst
  rw [lintegral_two hL, lintegral_two hR]
  refine lintegral_congr fun u => ?_
  refine lintegral_congr fun v => ?_
  exact playFrom_left (ν := ν) (γ := γ) hm H (st u) (m.begins (m.see (st u)) v).1 hF

/-! ### The returns of the episodes are independent -/

/-- The law of the return of one episode. -/
def lawOf (m : Sim S X A P T U) (ν : Measure U) [IsProbabilityMeasure ν] (γ : ℝ) (H : ℕ) (st : U → S) : Measure ℝ := (draws ν).map fun ω => (play m γ H st ω).1

theorem lawOf_prob (hm : m.Regular C) (H : ℕ) {st : U → S} (hst : Measurable st) : IsProbabilityMeasure (lawOf m ν γ H st) :=
  Measure.isProbabilityMeasure_map (μ := draws ν) (measurable_play hm H hst).fst.aemeasurable

theorem returns_box (hm : m.Regular C) (H n : ℕ) : ∀ (st : ℕ → U → S), (∀ i, Measurable (st i)) → ∀ (t : ℕ → Set ℝ), (∀ i, MeasurableSet (t i)) →
    draws ν {ω | ∀ i < n, returns m γ H st i ω ∈ t i} = ∏ i ∈ Finset.range n, lawOf m ν γ H (st i) (t i) := by
  induction n with
  | zero => intro st hst t ht; simp
  | succ n ih =>
    intro st hst t ht
    have hst' : ∀ i, Measurable ((fun i => st (i + 1)) i) := fun i => hst (i + 1)
    have hB : MeasurableSet {ω : ℕ → U | ∀ i < n, returns m γ H (fun i => st (i + 1)) i ω ∈ t (i + 1)} := by
      have : {ω : ℕ → U | ∀ i < n, returns m γ H (fun i => st (i + 1)) i ω ∈ t (i + 1)} =
          ⋂ i ∈ Finset.range n, (returns m γ H (fun i => st (i + 1)) i) ⁻¹' (t (i + 1)) := by ext; simp
      rw [this]
      exact Finset.measurableSet_biInter _ fun i _ => measurable_returns hm H hst' i (ht _)
    have hset : {ω : ℕ → U | ∀ i < n + 1, returns m γ H st i ω ∈ t i} =
        play m γ H (st 0) ⁻¹' (t 0 ×ˢ {ω | ∀ i < n, returns m γ H (fun i => st (i + 1)) i ω ∈ t (i + 1)}) := by
      ext ω
      simp only [Set.mem_setOf_eq, Set.mem_preimage, Set.mem_prod]
      constructor
      · intro h
        exact ⟨h 0 (by omega), fun i hi => h (i + 1) (by omega)⟩
      · rintro ⟨h0, h⟩ i hi
        rcases i with _ | i
        · exact h0
        · exact h i (by omega)
    have hih := ih (fun i => st (i + 1)) hst' (fun i => t (i + 1)) (fun i => ht _)
    rw [hset]
    generalize {ω : ℕ → U | ∀ i < n, returns m γ H (fun i => st (i + 1)) i ω ∈ t (i + 1)} = B at hB hih
    have hT := (ht 0).prod hB
    have hp := (measurable_play (γ := γ) hm H (hst 0)).fst
    rw [← lintegral_indicator_one ((measurable_play hm H (hst 0)) hT)]
    have e1 : ∀ ω, (play m γ H (st 0) ⁻¹' (t 0 ×ˢ B)).indicator (1 : (ℕ → U) → ENNReal) ω = (t 0 ×ˢ B).indicator 1 (play m γ H (st 0) ω) := fun ω => rfl
    simp only [e1]
    rw [play_left (γ := γ) (ν := ν) hm H (hst 0) (measurable_one.indicator hT)]
    have e2 : ∀ ω ω' : ℕ → U, (t 0 ×ˢ B).indicator (1 : ℝ × (ℕ → U) → ENNReal) ((play m γ H (st 0) ω).1, ω') =
        ((fun ω => (play m γ H (st 0) ω).1) ⁻¹' t 0).indicator 1 ω * B.indicator 1 ω' := by
      intro ω ω'
      by_cases ha : (play m γ H (st 0) ω).1 ∈ t 0 <;> by_cases hb : ω' ∈ B <;> simp [Set.mem_prod, ha, hb]
    simp only [e2]
    simp_rw [lintegral_const_mul _ (measurable_one.indicator hB)]
    rw [lintegral_mul_const _ (measurable_one.indicator (hp (ht 0))), lintegral_indicator_one hB, lintegral_indicator_one (hp (ht 0)), hih, Finset.prod_range_succ']
    rw [mul_comm, lawOf, Measure.map_apply hp (ht 0)]

theorem returns_law (hm : m.Regular C) (H : ℕ) {st : ℕ → U → S} (hst : ∀ i, Measurable (st i)) :
    (draws ν).map (fun ω k => returns m γ H st k ω) = Measure.infinitePi fun k => lawOf m ν γ H (st k) := by
  have := fun k => lawOf_prob (ν := ν) (γ := γ) hm H (hst k)
  refine Measure.eq_infinitePi _ (fun s t ht => ?_)
  rw [Measure.map_apply (measurable_pi_iff.2 fun k => measurable_returns hm H hst k) (MeasurableSet.pi s.countable_toSet fun i _ => ht i)]
  have hset : (fun ω k => returns m γ H st k ω) ⁻¹' (Set.pi (s : Set ℕ) t) =
      {ω | ∀ i < s.sup id + 1, returns m γ H st i ω ∈ (if i ∈ s then t i else Set.univ)} := by
    ext ω
    simp only [Set.mem_preimage, Set.mem_pi, Finset.mem_coe, Set.mem_setOf_eq]
    constructor
    · intro h i _
      split
      · rename_i hi; exact h i hi
      · trivial
    · intro h i hi
      have := h i (Nat.lt_succ_of_le (Finset.le_sup (f := id) hi))
      rwa [if_pos hi] at this
  rw [hset, returns_box hm H _ st hst _ (fun i => by split; exacts [ht i, MeasurableSet.univ])]
  have hsub : s ⊆ Finset.range (s.sup id + 1) := fun i hi => Finset.mem_range.2 (Nat.lt_succ_of_le (Finset.le_sup (f := id) hi))
  rw [← Finset.prod_subset hsub]
  · exact Finset.prod_congr rfl fun i hi => by rw [if_pos hi]
  · intro i _ hi
    rw [if_neg hi, measure_univ]

theorem returns_one (hm : m.Regular C) (H : ℕ) {st : ℕ → U → S} (hst : ∀ i, Measurable (st i)) (k : ℕ) :
    (draws ν).map (returns m γ H st k) = lawOf m ν γ H (st k) := by
  have := fun k => lawOf_prob (ν := ν) (γ := γ) hm H (hst k)
  have h := congrArg (Measure.map (Function.eval k)) (returns_law (ν := ν) (γ := γ) hm H hst)
  rw [Measure.infinitePi_map_eval, Measure.map_map (measurable_pi_apply k) (measurable_pi_iff.2 fun k => measurable_returns hm H hst k)] at h
  exact h

theorem returns_independent (hm : m.Regular C) (H : ℕ) {st : ℕ → U → S} (hst : ∀ i, Measurable (st i)) : iIndepFun (returns m γ H st) (draws ν) := by
  rw [iIndepFun_iff_map_fun_eq_infinitePi_map (fun k => measurable_returns hm H hst k), returns_law hm H hst]
  simp only [returns_one hm H hst]

/-! ### Their mean is the performance of the policy -/

/-- A bound of the discounted return of `h` steps. -/
def bound (C γ : ℝ) (h : ℕ) : ℝ := C * ∑ i ∈ Finset.range h, |γ| ^ i

theorem bound_succ (h : ℕ) : bound C γ (h + 1) = C + |γ| * bound C γ h := by
  unfold bound
  rw [Finset.sum_range_succ', Finset.mul_sum]
  simp only [pow_succ', pow_zero]
  rw [mul_add, Finset.mul_sum, Finset.mul_sum]
  have : ∀ i, C * (|γ| * |γ| ^ i) = |γ| * (C * |γ| ^ i) := fun i => by ring
  simp only [this]
  ring

theorem bound_nonneg (hC : 0 ≤ C) (h : ℕ) : 0 ≤ bound C γ h := mul_nonneg hC (Finset.sum_nonneg fun _ _ => pow_nonneg (abs_nonneg _) _)

theorem playFrom_bound (hm : m.Regular C) (hC : 0 ≤ C) (h : ℕ) : ∀ (s : S) (p : P) (ω : ℕ → U), |(playFrom m γ h s p ω).1| ≤ bound C γ h := by
  induction h with
  | zero => intro s p ω; simp [playFrom, bound]
  | succ h ih =>
    intro s p ω
    rw [bound_succ]
    have hb := mul_nonneg (abs_nonneg γ) (bound_nonneg (γ := γ) hC h)
    unfold playFrom
    simp only
    split
    · have := hm.bound s (m.act (m.see s) p (ω 0)).1 (m.next s (m.act (m.see s) p (ω 0)).1 (ω 1))
      simp only; linarith
    · simp only
      refine (abs_add_le _ _).trans (add_le_add (hm.bound _ _ _) ?_)
      rw [abs_mul]
      exact mul_le_mul_of_nonneg_left (ih _ _ _) (abs_nonneg _)

theorem playFrom_mean (hm : m.Regular C) (hC : 0 ≤ C) (h : ℕ) : ∀ (s : S) (p : P), ∫ ω, (playFrom m γ h s p ω).1 ∂draws ν = m.value ν γ h s p := by
  induction h with
  | zero => intro s p; simp [playFrom, Sim.value]
  | succ h ih =>
    intro s p
    have hpl : ∀ h s p, Measurable fun ω : ℕ → U => (playFrom m γ h s p ω).1 := fun h s p =>
      ((measurable_playFrom hm h).comp (measurable_const.prodMk (measurable_const.prodMk measurable_id))).fst
    rw [integral_two (hpl _ s p) (playFrom_bound hm hC _ s p)]
    unfold Sim.value
    refine integral_congr_ae (Filter.Eventually.of_forall fun u => ?_)
    refine integral_congr_ae (Filter.Eventually.of_forall fun v => ?_)
    beta_reduce
    unfold playFrom
    simp only [cons_zero, shift_cons]
    have h1 : ∀ ω : ℕ → U, cons (u, cons (v, ω)) 1 = v := fun ω => rfl
    simp only [h1]
    split
    · simp
    · simp only
      rw [integral_add (integrable_const _), integral_const_mul, ih]
      · simp
      · refine Integrable.const_mul (Integrable.of_bound (hpl _ _ _).aestronglyMeasurable (bound C γ h) (Filter.Eventually.of_forall fun ω => ?_)) γ
        exact playFrom_bound hm hC h _ _ ω

theorem returns_bound (hm : m.Regular C) (hC : 0 ≤ C) (H : ℕ) (st : ℕ → U → S) (k : ℕ) (ω : ℕ → U) : |returns m γ H st k ω| ≤ bound C γ H :=
  playFrom_bound hm hC H _ _ _

theorem lawOf_mean (hm : m.Regular C) (hC : 0 ≤ C) (H : ℕ) {st : U → S} (hst : Measurable st) : ∫ ω, (play m γ H st ω).1 ∂draws ν = m.performance ν γ H st := by
  have hr := (measurable_play (γ := γ) hm H hst).fst
  have hb : ∀ ω, |(play m γ H st ω).1| ≤ bound C γ H := fun ω => playFrom_bound hm hC H _ _ _
  rw [integral_two hr hb]
  unfold Sim.performance
  refine integral_congr_ae (Filter.Eventually.of_forall fun u => ?_)
  refine integral_congr_ae (Filter.Eventually.of_forall fun v => ?_)
  exact playFrom_mean (ν := ν) (γ := γ) hm hC H (st u) (m.begins (m.see (st u)) v).1

theorem returns_mean (hm : m.Regular C) (hC : 0 ≤ C) (H : ℕ) {st : ℕ → U → S} (hst : ∀ i, Measurable (st i)) (k : ℕ) :
    ∫ ω, returns m γ H st k ω ∂draws ν = m.performance ν γ H (st k) := by
  have h1 : ∫ ω, returns m γ H st k ω ∂draws ν = ∫ x, x ∂(draws ν).map (returns m γ H st k) :=
    (integral_map (measurable_returns hm H hst k).aemeasurable measurable_id.aestronglyMeasurable).symm
  rw [h1, returns_one hm H hst, lawOf, ← lawOf_mean hm hC H (hst k)]
  exact integral_map (measurable_play hm H (hst k)).fst.aemeasurable measurable_id.aestronglyMeasurable

end

end Verif.Eval
