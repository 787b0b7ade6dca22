/-
Property C172, continued: the moving target networks.
-/
import Verif.ActorCritic.PropsPlain

namespace Verif.ActorCritic.Plain

open MeasureTheory Filter Topology
open Verif.TD (Trans)
open Verif.Policy (Param constantParam)
open Verif.ActorCritic.Determ
open Verif.ActorCritic.Soft (Net)
open Verif.ActorCritic.MaxEnt (Problem ahead Regular ahead_close lesser lesser_regular)

noncomputable section

variable {S A D M ι κ O : Type} [Fintype S] [MeasurableSpace A] [MeasurableSpace M]

/-- Rounds of learning with a fixed actor: in each the critics are fitted, with an error of at most `δ`, to the expectation of the targets computed from the target networks, and the target
networks follow (`moveTargets`: ddpg.py L110-113). -/
def Rounds (y : Sys S A D M ι κ O) (ν : Measure M) (m : Problem S A) (δ : ℝ) (g : ℕ → Agent M ι κ O) : Prop :=
  ∀ k, ∃ ns : List (Net ι O), ns.length = (g k).targetCritic.length ∧
    (∀ n ∈ ns, ∀ s a, |y.value n.weights s a - expectedTarget y ν m (g k).targetActor (g k).targetCritic s a| ≤ δ) ∧ g (k + 1) = moveTargets { g k with critic := ns }

/-- The coefficient of the target networks is a constant. -/
def Constant (p : Param) (c : ℝ) : Prop := p.kind = .constant ∧ p.minV = none ∧ p.maxV = none ∧ p.initial = c

theorem Constant.call {p : Param} {c : ℝ} (h : Constant p c) : Constant (p.call []).1 c ∧ (p.call []).2 = c ∧ p.getValue [] = c := by
  obtain ⟨h1, h2, h3, h4⟩ := h
  refine ⟨⟨by simpa [Param.call, Param.update] using h1, by simpa [Param.call, Param.update] using h2, by simpa [Param.call, Param.update] using h3,
    by simpa [Param.call, Param.update] using h4⟩, ?_, ?_⟩
  · have := valueAt_const' p h1 h2 h3 1
    rw [← h4, ← this]
    rfl
  · have := valueAt_const' p h1 h2 h3 0
    rw [← h4, ← this]
    rfl

/-- One round: a mixture of a critic near its targets and of a target critic near the values. -/
theorem mixed {c γ x x' e z D δ : ℝ} (hc : 0 ≤ c) (hc1 : c ≤ 1) (h1 : |x - e| ≤ δ) (h2 : |e - z| ≤ γ * D) (h3 : |x' - z| ≤ D) :
    |(c * x + (1 - c) * x') - z| ≤ (1 - c * (1 - γ)) * D + c * δ := by
  have e1 : (c * x + (1 - c) * x') - z = c * ((x - e) + (e - z)) + (1 - c) * (x' - z) := by ring
  rw [e1]
  refine (abs_add_le _ _).trans ?_
  rw [abs_mul, abs_mul, abs_of_nonneg hc, abs_of_nonneg (by linarith : 0 ≤ 1 - c)]
  have h4 := (abs_add_le (x - e) (e - z)).trans (add_le_add h1 h2)
  nlinarith [mul_le_mul_of_nonneg_left h4 hc, mul_le_mul_of_nonneg_left h3 (by linarith : 0 ≤ 1 - c)]

theorem rate {c γ δ C : ℝ} (h1 : γ < 1) (k : ℕ) :
    (1 - c * (1 - γ)) * ((1 - c * (1 - γ)) ^ k * C + δ / (1 - γ)) + c * δ = (1 - c * (1 - γ)) ^ (k + 1) * C + δ / (1 - γ) := by
  have : (1 - γ) ≠ 0 := by linarith
  field_simp
  ring

/-- C172. DDPG with a fixed actor, a constant coefficient `c` of the target networks, and critics that are linear in their weights: if every fit predicts the expected targets with an error of
at most `δ`, the error of the target critic is at most `(1 - c (1 - γ))^k` times the initial one, plus `δ / (1 - γ)`, after `k` fits. -/
theorem C172_ddpg_moving (y : Sys S A D M ι κ O) (hq : y.nextQ = ddpgNextQ y.pick y.value y.act) (hp : ∀ x, y.pick [x] = x) (h0 : 0 ≤ y.gamma) (h1 : y.gamma < 1) (c : ℝ) (hc : 0 ≤ c) (hc1 : c ≤ 1)
    (hlin : ∀ a b s x, y.value (fun i => c * a i + (1 - c) * b i) s x = c * y.value a s x + (1 - c) * y.value b s x) (hr : ∀ w, Regular (y.value w)) (ν : Measure M) [IsProbabilityMeasure ν]
    (m : Problem S A) (δ : ℝ) (hδ : 0 ≤ δ) (g : ℕ → Agent M ι κ O) (hg : Rounds y ν m δ g) (htau : (g 0).tau = constantParam c none none true) (ha : (g 0).targetActor = (g 0).actor.weights)
    (v : ι → ℝ) (hv : (g 0).targetCritic = [v]) (Q : S → A → ℝ) (hQ : Values m y.gamma (always (y.act (g 0).actor.weights)) Q) (C : ℝ) (hC : ∀ s a, |y.value v s a - Q s a| ≤ C) (k : ℕ) :
    ∃ v', (g k).targetCritic = [v'] ∧ ∀ s a, |y.value v' s a - Q s a| ≤ (1 - c * (1 - y.gamma)) ^ k * C + δ / (1 - y.gamma) := by
  rw [values_iff h0 h1 (always_prob _)] at hQ
  have hg1 : (0 : ℝ) < 1 - y.gamma := by linarith
  suffices h : Constant (g k).tau c ∧ (g k).actor.weights = (g 0).actor.weights ∧ (g k).targetActor = (g 0).actor.weights ∧ ∃ v', (g k).targetCritic = [v'] ∧
      ∀ s a, |y.value v' s a - Q s a| ≤ (1 - c * (1 - y.gamma)) ^ k * C + δ / (1 - y.gamma) from h.2.2.2
  induction k with
  | zero =>
    refine ⟨by rw [htau]; exact ⟨rfl, rfl, rfl, rfl⟩, rfl, ha, v, hv, fun s a => ?_⟩
    have : 0 ≤ δ / (1 - y.gamma) := by positivity
    rw [pow_zero, one_mul]
    linarith [hC s a]
  | succ k ih =>
    obtain ⟨i1, i2, i3, v', i4, i5⟩ := ih
    obtain ⟨ns, hl, hn, he⟩ := hg k
    rw [i4] at hl
    obtain ⟨n, rfl⟩ : ∃ n, ns = [n] := List.length_eq_one_iff.1 (by simpa using hl)
    obtain ⟨c1, c2, -⟩ := i1.call
    obtain ⟨d1, d2, d3⟩ := c1.call
    rw [he]
    refine ⟨?_, ?_, ?_, fun i => c * n.weights i + (1 - c) * v' i, ?_, fun s a => ?_⟩
    · simpa [moveTargets, updateTarget, i4] using d1
    · simpa [moveTargets] using i2
    · funext i
      simp only [moveTargets, updateTarget, i4, List.map_cons, List.map_nil, d2, d1.call.2.2, i2, i3]
      ring
    · simp only [moveTargets, updateTarget, i4, List.map_cons, List.map_nil, c2, d3]
    · rw [hlin, ← rate h1]
      have hD : 0 ≤ (1 - c * (1 - y.gamma)) ^ k * C + δ / (1 - y.gamma) := (abs_nonneg _).trans (i5 s a)
      have e1 := hn n (by simp) s a
      rw [i3, i4, ddpg_target y hq hp _ _ (hr v').1] at e1
      refine mixed hc hc1 e1 ?_ (i5 s a)
      have e : Q s a = ahead m y.gamma (mean (always (y.act (g 0).actor.weights)) Q) s a := congrFun (congrFun hQ s) a
      rw [e]
      exact ahead_close h0 hD (fun s => mean_close (always_prob _) (hr v') hQ.regular (i5 s)) s a

/-- C172. The same for the two critics of TD3, whose target critics approach the values of the policy with the noise. -/
theorem C172_td3_moving {d : ℕ} (y : Sys S (Fin d → ℝ) D M ι κ O) (low high : Fin d → ℝ) (noise : M → M × ℝ × List (Fin d → ℝ)) (hq : y.nextQ = td3NextQ y.value y.act low high noise)
    (b : ℝ) (draw : M → Fin d → ℝ) (hd : Measurable draw) (hn : ∀ g, (noise g).2.1 = b ∧ (noise g).2.2.head? = some (draw g)) (h0 : 0 ≤ y.gamma) (h1 : y.gamma < 1) (c : ℝ) (hc : 0 ≤ c) (hc1 : c ≤ 1)
    (hlin : ∀ a b s x, y.value (fun i => c * a i + (1 - c) * b i) s x = c * y.value a s x + (1 - c) * y.value b s x) (hr : ∀ w, Regular (y.value w)) (ν : Measure M) [IsProbabilityMeasure ν]
    (m : Problem S (Fin d → ℝ)) (δ : ℝ) (hδ : 0 ≤ δ) (g : ℕ → Agent M ι κ O) (hg : Rounds y ν m δ g) (htau : (g 0).tau = constantParam c none none true) (ha : (g 0).targetActor = (g 0).actor.weights)
    (v w : ι → ℝ) (hv : (g 0).targetCritic = [v, w]) (Q : S → (Fin d → ℝ) → ℝ) (hQ : Values m y.gamma (noisy ν draw b low high (y.act (g 0).actor.weights)) Q) (C : ℝ)
    (hC : ∀ s a, |y.value v s a - Q s a| ≤ C ∧ |y.value w s a - Q s a| ≤ C) (k : ℕ) :
    ∃ v' w', (g k).targetCritic = [v', w'] ∧ ∀ s a, |y.value v' s a - Q s a| ≤ (1 - c * (1 - y.gamma)) ^ k * C + δ / (1 - y.gamma) ∧
      |y.value w' s a - Q s a| ≤ (1 - c * (1 - y.gamma)) ^ k * C + δ / (1 - y.gamma) := by
  have hπ := noisy_prob (ν := ν) hd b low high (y.act (g 0).actor.weights)
  rw [values_iff h0 h1 hπ] at hQ
  have hg1 : (0 : ℝ) < 1 - y.gamma := by linarith
  suffices h : Constant (g k).tau c ∧ (g k).actor.weights = (g 0).actor.weights ∧ (g k).targetActor = (g 0).actor.weights ∧ ∃ v' w', (g k).targetCritic = [v', w'] ∧
      ∀ s a, |y.value v' s a - Q s a| ≤ (1 - c * (1 - y.gamma)) ^ k * C + δ / (1 - y.gamma) ∧
      |y.value w' s a - Q s a| ≤ (1 - c * (1 - y.gamma)) ^ k * C + δ / (1 - y.gamma) from h.2.2.2
  induction k with
  | zero =>
    refine ⟨by rw [htau]; exact ⟨rfl, rfl, rfl, rfl⟩, rfl, ha, v, w, hv, fun s a => ?_⟩
    have : 0 ≤ δ / (1 - y.gamma) := by positivity
    rw [pow_zero, one_mul]
    constructor <;> linarith [(hC s a).1, (hC s a).2]
  | succ k ih =>
    obtain ⟨i1, i2, i3, v', w', i4, i5⟩ := ih
    obtain ⟨ns, hl, hns, he⟩ := hg k
    rw [i4] at hl
    obtain ⟨n, n', rfl⟩ : ∃ n n', ns = [n, n'] := List.length_eq_two.1 (by simpa using hl)
    obtain ⟨c1, c2, -⟩ := i1.call
    obtain ⟨d1, d2, d3⟩ := c1.call
    obtain ⟨f1, f2, f3⟩ := d1.call
    rw [he]
    refine ⟨?_, ?_, ?_, fun i => c * n.weights i + (1 - c) * v' i, fun i => c * n'.weights i + (1 - c) * w' i, ?_, fun s a => ?_⟩
    · simpa [moveTargets, updateTarget, i4] using f1
    · simpa [moveTargets] using i2
    · funext i
      simp only [moveTargets, updateTarget, i4, List.map_cons, List.map_nil, f2, f1.call.2.2, i2, i3]
      ring
    · simp only [moveTargets, updateTarget, i4, List.map_cons, List.map_nil, c2, d2, d3, f3]
    · rw [hlin, hlin, ← rate h1]
      have hD : 0 ≤ (1 - c * (1 - y.gamma)) ^ k * C + δ / (1 - y.gamma) := (abs_nonneg _).trans (i5 s a).1
      have e1 := hns n (by simp) s a
      have e2 := hns n' (by simp) s a
      rw [i3, i4, td3_target y low high noise hq b draw hd hn _ _ _ (hr v') (hr w')] at e1 e2
      have e : Q s a = ahead m y.gamma (mean (noisy ν draw b low high (y.act (g 0).actor.weights)) Q) s a := congrFun (congrFun hQ s) a
      have e3 : |ahead m y.gamma (mean (noisy ν draw b low high (y.act (g 0).actor.weights)) (lesser (y.value v') (y.value w'))) s a - Q s a| ≤
          y.gamma * ((1 - c * (1 - y.gamma)) ^ k * C + δ / (1 - y.gamma)) := by
        rw [e]
        refine ahead_close h0 hD (fun s => mean_close hπ (lesser_regular (hr v') (hr w')) hQ.regular fun a => ?_) s a
        unfold lesser
        rcases min_choice (y.value v' s a) (y.value w' s a) with h | h <;> rw [h]
        · exact (i5 s a).1
        · exact (i5 s a).2
      exact ⟨mixed hc hc1 e1 e3 (i5 s a).1, mixed hc hc1 e2 e3 (i5 s a).2⟩

/-! ### Concrete rounds -/

/-- The agents of the problem `line` with the action 0 of the actor: the target critics start at 10, the critics are fitted to the expected targets without error, the coefficient is 1/2.
`cost` is the expected cost of the noise. -/
def lineRounds (n : ℕ) (cost : ℝ) : ℕ → Agent ℝ Unit Unit Unit
  | 0 => { memory := 0, critic := [], targetCritic := List.replicate n fun _ => 10, actor := ⟨fun _ => 0, fun _ => 0, ()⟩, targetActor := fun _ => 0
           tau := constantParam (1 / 2) none none true, delay := constantParam 1 none none true, fitCount := 0 }
  | k + 1 => moveTargets { lineRounds n cost k with critic := (lineRounds n cost k).targetCritic.map fun v => ⟨fun _ => (v () - cost) / 2, fun _ => 0, ()⟩ }

theorem line_rounds_ddpg (k : ℕ) : Constant (lineRounds 1 0 k).tau (1 / 2) ∧ (lineRounds 1 0 k).actor.weights = (fun _ => 0) ∧ (lineRounds 1 0 k).targetActor = (fun _ => 0) ∧
    ∃ x, (lineRounds 1 0 k).targetCritic = [fun _ => x] := by
  induction k with
  | zero => exact ⟨⟨rfl, rfl, rfl, rfl⟩, rfl, rfl, 10, rfl⟩
  | succ k ih =>
    obtain ⟨i1, i2, i3, x, i4⟩ := ih
    obtain ⟨c1, c2, -⟩ := i1.call
    obtain ⟨d1, d2, d3⟩ := c1.call
    refine ⟨?_, ?_, ?_, 1 / 2 * ((x - 0) / 2) + (1 - 1 / 2) * x, ?_⟩
    · simpa [lineRounds, moveTargets, updateTarget, i4] using d1
    · simpa [lineRounds, moveTargets] using i2
    · funext i
      simp only [lineRounds, moveTargets, updateTarget, i4, List.map_cons, List.map_nil, d2, d1.call.2.2, i2, i3]
      norm_num
    · simp only [lineRounds, moveTargets, updateTarget, i4, List.map_cons, List.map_nil, c2, d3]

theorem line_rounds_td3 (k : ℕ) : Constant (lineRounds 2 lineCost k).tau (1 / 2) ∧ (lineRounds 2 lineCost k).actor.weights = (fun _ => 0) ∧ (lineRounds 2 lineCost k).targetActor = (fun _ => 0) ∧
    ∃ x, (lineRounds 2 lineCost k).targetCritic = [fun _ => x, fun _ => x] := by
  induction k with
  | zero => exact ⟨⟨rfl, rfl, rfl, rfl⟩, rfl, rfl, 10, rfl⟩
  | succ k ih =>
    obtain ⟨i1, i2, i3, x, i4⟩ := ih
    obtain ⟨c1, c2, -⟩ := i1.call
    obtain ⟨d1, d2, d3⟩ := c1.call
    obtain ⟨f1, f2, f3⟩ := d1.call
    refine ⟨?_, ?_, ?_, 1 / 2 * ((x - lineCost) / 2) + (1 - 1 / 2) * x, ?_⟩
    · simpa [lineRounds, moveTargets, updateTarget, i4] using f1
    · simpa [lineRounds, moveTargets] using i2
    · funext i
      simp only [lineRounds, moveTargets, updateTarget, i4, List.map_cons, List.map_nil, f2, f1.call.2.2, i2, i3]
      norm_num
    · simp only [lineRounds, moveTargets, updateTarget, i4, List.map_cons, List.map_nil, c2, d2, d3, f3]

theorem line_mixes (a b : Unit → ℝ) (s : Unit) (x : Fin 1 → ℝ) :
    lineValue (fun i => 1 / 2 * a i + (1 - 1 / 2) * b i) s x = 1 / 2 * lineValue a s x + (1 - 1 / 2) * lineValue b s x := by
  unfold lineValue
  ring

theorem line_rounds_fit : Rounds lineDdpg normal line 0 (lineRounds 1 0) := by
  intro k
  obtain ⟨-, -, i3, x, i4⟩ := line_rounds_ddpg k
  refine ⟨_, by simp, fun n hn s a => ?_, rfl⟩
  rw [i4] at hn
  obtain rfl := List.mem_singleton.1 hn
  rw [i3, i4, ddpg_target lineDdpg rfl meanOf_one _ (fun _ => x) (line_regular fun _ => x).1]
  simp only [ahead, mean_always (Q := lineDdpg.value fun _ => x) (line_regular fun _ => x).1, Finset.univ_unique, Finset.sum_singleton]
  simp [lineDdpg, lineAgent, line, lineValue, lineAct]
  ring_nf

/-- `C172_ddpg_moving`: the target critic of this agent starts with an error of 10 and approaches the values of the action 0. -/
example (k : ℕ) : ∃ v, (lineRounds 1 0 k).targetCritic = [v] ∧ ∀ s a, |lineValue v s a - lineValue (fun _ => 0) s a| ≤ (3 / 4) ^ k * 10 := by
  have hs := line_ddpg_settled 0
  simp only [abs_zero, zero_le_one, min_eq_left, neg_zero] at hs
  have hv := (C172_ddpg_critic lineDdpg rfl meanOf_one (by norm_num [lineDdpg, lineAgent]) (by norm_num [lineDdpg, lineAgent]) _ (fun _ => 0) (line_regular fun _ => 0)).1 hs
  have h := C172_ddpg_moving lineDdpg rfl meanOf_one (by norm_num [lineDdpg, lineAgent]) (by norm_num [lineDdpg, lineAgent]) (1 / 2) (by norm_num) (by norm_num) line_mixes line_regular normal line 0 le_rfl
    (lineRounds 1 0) line_rounds_fit rfl rfl (fun _ => 10) rfl (lineValue fun _ => 0) hv 10 (fun s a => by simp [lineDdpg, lineAgent, lineValue]) k
  obtain ⟨v, h1, h2⟩ := h
  refine ⟨v, h1, fun s a => (h2 s a).trans (le_of_eq ?_)⟩
  norm_num [lineDdpg, lineAgent]

theorem line_td3_fit : Rounds lineTd3 normal line 0 (lineRounds 2 lineCost) := by
  have hd : Measurable fun (g : ℝ) (_ : Fin 1) => g := measurable_pi_lambda _ fun _ => measurable_id
  have hself : ∀ q : Unit → (Fin 1 → ℝ) → ℝ, lesser q q = q := fun q => by funext s a; exact min_self _
  intro k
  obtain ⟨-, -, i3, x, i4⟩ := line_rounds_td3 k
  refine ⟨_, by simp, fun n hn s a => ?_, rfl⟩
  rw [i4] at hn
  obtain rfl : n = ⟨fun _ => (x - lineCost) / 2, fun _ => 0, ()⟩ := by simpa using hn
  rw [i3, i4, td3_target lineTd3 _ _ _ rfl (1 / 2) (fun g _ => g) hd (fun g => ⟨rfl, rfl⟩) _ (fun _ => x) (fun _ => x) (line_regular fun _ => x) (line_regular fun _ => x), hself]
  simp only [ahead, Finset.univ_unique, Finset.sum_singleton]
  rw [show (default : Unit) = () from rfl]
  have e := line_mean x
  rw [e]
  simp [lineTd3, lineAgent, line, lineValue]
  ring_nf

/-- `C172_td3_moving`: the target critics of this agent approach the values of the actions with the noise. -/
example (k : ℕ) : ∃ v w, (lineRounds 2 lineCost k).targetCritic = [v, w] ∧ ∀ s a, |lineValue v s a - lineValue (fun _ => -lineCost) s a| ≤ (3 / 4) ^ k * |10 + lineCost| := by
  have hd : Measurable fun (g : ℝ) (_ : Fin 1) => g := measurable_pi_lambda _ fun _ => measurable_id
  have hv := ((C172_td3_critic lineTd3 _ _ _ rfl (1 / 2) (fun g _ => g) hd (fun g => ⟨rfl, rfl⟩) (by norm_num [lineTd3, lineAgent]) (by norm_num [lineTd3, lineAgent]) _ (fun _ => -lineCost) (fun _ => -lineCost)
    (line_regular fun _ => -lineCost) (line_regular fun _ => -lineCost)).1 line_td3_settled).1
  have h := C172_td3_moving lineTd3 _ _ _ rfl (1 / 2) (fun g _ => g) hd (fun g => ⟨rfl, rfl⟩) (by norm_num [lineTd3, lineAgent]) (by norm_num [lineTd3, lineAgent]) (1 / 2) (by norm_num) (by norm_num)
    line_mixes line_regular normal line 0 le_rfl (lineRounds 2 lineCost) line_td3_fit rfl rfl (fun _ => 10) (fun _ => 10) rfl (lineValue fun _ => -lineCost) hv |10 + lineCost|
    (fun s a => by simp [lineTd3, lineAgent, lineValue]) k
  obtain ⟨v, w, h1, h2⟩ := h
  refine ⟨v, w, h1, fun s a => (h2 s a).1.trans (le_of_eq ?_)⟩
  norm_num [lineTd3, lineAgent]

end

end Verif.ActorCritic.Plain
