/-
Concrete cases for C173: a problem in which a coin decides whether the episode ends, and a network that fits a replay memory with every outcome exactly.
-/
import Verif.DQN.PropsLearned

namespace Verif.DQN.Learned

open Verif.TD (Trans RandomMDP rowMax IsMax Prob)

noncomputable section

/-- A coin decides whether the episode ends (`true`); the second action is rewarded at the end. -/
def tossing : RandomMDP Bool Bool :=
  { prob := fun _ _ _ => 1 / 2, reward := fun _ a s' => if a && s' then 1 else 0, absorbing := fun _ _ s' => s' }

theorem tossing_proper : tossing.Proper := ⟨fun _ _ _ => by norm_num [tossing], fun _ _ => by simp [tossing]⟩

/-- Its optimal values for γ = 1/2. -/
def tossingBest (_ : Bool) (a : Bool) : ℝ := if a then 2 / 3 else 1 / 6

theorem tossing_best (clip : Bool) : Best (rewarded clip tossing) (1 / 2) tossingBest := by
  refine ⟨fun _ => 2 / 3, fun s _ => ⟨⟨fun a => ?_, true, rfl⟩, fun a => ?_⟩⟩
  · cases a <;> norm_num [tossingBest]
  · cases a <;> cases clip <;> norm_num [tossingBest, tossing, rewarded]

/-- A memory with every action and every outcome, and a network whose predictions for an action are, after `fit`, the mean of the targets for the action. -/
def evenly (f : ℕ) : Parts Bool Bool Unit Unit (Bool → ℝ) where
  add := fun m _ => m
  initialized := fun _ => true
  get := fun m => (m, [⟨false, false, 0, false, false⟩, ⟨false, false, 0, true, true⟩, ⟨false, true, 0, false, false⟩, ⟨false, true, 1, true, true⟩])
  predict := fun w _ a => w a
  update := fun m _ _ _ => m
  fitNet := fun _ _ _ q a => if a then (q.getD 2 0 + q.getD 3 0) / 2 else (q.getD 0 0 + q.getD 1 0) / 2
  freq := f
  gamma := 1 / 2
  clip := true

example (f : ℕ) : Fits ((evenly f).predict fun a => tossingBest false a) ((dqn (evenly f)).targets (fun a => tossingBest false a) fun a => tossingBest false a) tossing 0 :=
  (C173_dqn (evenly f) tossing _).2 (tossing_best _)

example (f : ℕ) : Greedy argmax2 ∧ Fits ((evenly f).predict fun a => tossingBest false a) ((doubleDqn argmax2 (evenly f)).targets (fun a => tossingBest false a) fun a => tossingBest false a) tossing 0 :=
  ⟨argmax2_greedy, (C173_double argmax2 argmax2_greedy (evenly f) tossing _).2 (tossing_best _)⟩

example (f : ℕ) : Fits ((evenly f).predict fun a => tossingBest false a) ((averagedDqn 3 (evenly f)).targets (fun a => tossingBest false a) ⟨fun _ a => tossingBest false a, 2⟩) tossing 0 :=
  (C173_averaged 3 (evenly f) tossing _ ⟨fun _ a => tossingBest false a, 2⟩ (by norm_num) fun _ _ => rfl).2 (tossing_best _)

theorem top_pair (x y : ℝ) (h : x ≤ y) : rowMax (fun a : Bool => if a then y else x) = y :=
  top_unique (top_isMax _) ⟨fun a => by cases a <;> simp [h], true, rfl⟩

/-- A network that is wrong by 1/3 for the second action. -/
def guess (a : Bool) : ℝ := if a then 1 else 1 / 6

theorem guess_fits : Fits ((evenly 2).predict guess) ((dqn (evenly 2)).targets guess guess) tossing (1 / 4) := by
  intro s a
  have e : rowMax guess = 1 := top_pair (1 / 6) 1 (by norm_num)
  simp only [dqn, dqn_target, ahead, evenly]
  rw [show (rowMax fun a => guess a) = 1 from e]
  cases a <;> norm_num [rewarded, tossing, guess]

/-- The hypotheses of `C173_error`: the network is wrong, the greedy policy takes the second action. -/
example : (∀ s a, |guess a - tossingBest s a| ≤ 1 / 2) ∧ ∀ Q', (rewarded true tossing).ValuesOn (fun _ => True) (1 / 2) (fun _ a => if a then 1 else 0) Q' → ∀ s a, tossingBest s a ≤ Q' s a + 1 := by
  have := C173_error (evenly 2) tossing tossing_proper (by norm_num [evenly]) (by norm_num [evenly]) guess (1 / 4) (by norm_num) guess_fits tossingBest (tossing_best _)
  refine ⟨fun s a => (this.1 s a).trans (by norm_num [evenly]), fun Q' hQ' s a => ?_⟩
  refine ((this.2 _ (fun s => ⟨fun a => by cases a <;> norm_num, by simp⟩) (fun s a ha b => ?_) Q' hQ' s a).1).trans (by norm_num [evenly])
  cases a
  · simp at ha
  · cases b <;> norm_num [evenly, guess]

/-- The hypotheses of `C173_maxmin`: two networks, one of which is wrong. -/
example : ∀ i, i ≤ 1 → Fits ((fun i _ a => if i = 0 then guess a else tossingBest false a) i : Bool → Bool → ℝ)
    (fun b => targets (1 / 2) true b (maxminNext 1 (fun i _ a => if i = 0 then guess a else tossingBest false a) b)) tossing (1 / 3) := by
  intro i hi s a
  have e : ∀ a : Bool, (Finset.range (1 + 1)).inf' ⟨0, by simp⟩ (fun i => if i = 0 then guess a else tossingBest false a) = if a then 2 / 3 else 1 / 6 := by
    intro a
    apply le_antisymm
    · refine (Finset.inf'_le _ (b := 1) (by simp)).trans ?_
      cases a <;> simp [tossingBest]
    · refine Finset.le_inf' _ _ fun j _ => ?_
      cases a <;> by_cases hj : j = 0 <;> simp only [hj, if_true, if_false] <;> norm_num [guess, tossingBest]
  have e2 : rowMax (fun a : Bool => if a then (2 / 3 : ℝ) else 1 / 6) = 2 / 3 := top_pair _ _ (by norm_num)
  simp only [maxminNext, dqn_target, ahead, e, e2]
  cases a <;> by_cases hj : i = 0 <;> simp only [hj, if_true, if_false] <;> norm_num [guess, tossingBest, rewarded, tossing]

/-- What one call of `fit` does to the network. -/
theorem evenly_fit (f : ℕ) (w : Bool → ℝ) (t : Bool → ℝ) (s a : Bool) :
    (evenly f).fitNet () w ((evenly f).get ()).2 ((dqn (evenly f)).targets w t ((evenly f).get ()).2) a = expectedTarget ((dqn (evenly f)).targets w t) tossing s a := by
  have h0 : rowMax (fun _ : Bool => (0 : ℝ)) = 0 := top_unique (top_isMax _) ⟨fun _ => le_rfl, true, rfl⟩
  simp only [dqn, dqn_target, ahead, evenly]
  cases a <;> simp [targets, dqnNext, maskRows, alive, clipReward, rewarded, tossing, h0] <;> ring

/-- The agents after `k` calls of `fit`. -/
def trained (f : ℕ) : ℕ → Agent Unit (Bool → ℝ) (Bool → ℝ)
  | 0 => create () fun _ => 0
  | k + 1 => (fit (dqn (evenly f)) (trained f k) ()).getD (trained f k)

theorem trained_fit (f : ℕ) (hf : 0 < f) (k : ℕ) : fit (dqn (evenly f)) (trained f k) () = some (trained f (k + 1)) := by
  have : ∃ g, fit (dqn (evenly f)) (trained f k) () = some g := by
    unfold fit countUpdate
    have : (dqn (evenly f)).freq = f := rfl
    simp only [this, if_neg hf.ne']
    split <;> exact ⟨_, rfl⟩
  obtain ⟨g, hg⟩ := this
  rw [hg]
  simp [trained, hg]

theorem trained_online (f : ℕ) (hf : 0 < f) (k : ℕ) : Fits ((evenly f).predict (trained f (k + 1)).online) ((dqn (evenly f)).targets (trained f k).online (trained f k).target) tossing 0 := by
  intro s a
  have h := trained_fit f hf k
  have e : (trained f (k + 1)).online = (evenly f).fitNet () (trained f k).online ((evenly f).get ()).2 ((dqn (evenly f)).targets (trained f k).online (trained f k).target ((evenly f).get ()).2) := by
    unfold fit countUpdate at h
    have : (dqn (evenly f)).freq = f := rfl
    simp only [this, if_neg hf.ne'] at h
    split at h <;> (rw [← Option.some.inj h]; rfl)
  rw [← evenly_fit f _ _ s a, e]
  simp [evenly]

/-- The hypotheses of `C173_dqn_run`: the error of the target network halves every third call of `fit`. -/
example (k : ℕ) (s a : Bool) : |(trained 3 k).target a - tossingBest s a| ≤ (1 / 2) ^ (k / 3) * (2 / 3) := by
  have := C173_dqn_run (evenly 3) (by norm_num [evenly]) tossing tossing_proper (by norm_num [evenly]) (by norm_num [evenly]) tossingBest (tossing_best _) 0 le_rfl (trained 3) (fun _ => ())
    (trained_fit 3 (by norm_num)) rfl (fun k _ => trained_online 3 (by norm_num) k) (2 / 3) (by norm_num)
    (fun s a => by cases a <;> norm_num [trained, create, evenly, tossingBest, abs_of_pos]) k s a
  simpa [evenly] using this

/-- The same for AveragedDQN. -/
def trainedAvg (n f : ℕ) : ℕ → Agent Unit (Bool → ℝ) (Snapshots (Bool → ℝ))
  | 0 => createAveraged () fun _ => 0
  | k + 1 => (fit (averagedDqn n (evenly f)) (trainedAvg n f k) ()).getD (trainedAvg n f k)

theorem trainedAvg_fit (n f : ℕ) (hf : 0 < f) (k : ℕ) : fit (averagedDqn n (evenly f)) (trainedAvg n f k) () = some (trainedAvg n f (k + 1)) := by
  have : ∃ g, fit (averagedDqn n (evenly f)) (trainedAvg n f k) () = some g := by
    unfold fit countUpdate
    have : (averagedDqn n (evenly f)).freq = f := rfl
    simp only [this, if_neg hf.ne']
    split <;> exact ⟨_, rfl⟩
  obtain ⟨g, hg⟩ := this
  rw [hg]
  simp [trainedAvg, hg]

theorem trainedAvg_online (n f : ℕ) (hf : 0 < f) (k : ℕ) :
    Fits ((evenly f).predict (trainedAvg n f (k + 1)).online) ((averagedDqn n (evenly f)).targets (trainedAvg n f k).online (trainedAvg n f k).target) tossing 0 := by
  intro s a
  have h := trainedAvg_fit n f hf k
  have e : (trainedAvg n f (k + 1)).online =
      (evenly f).fitNet () (trainedAvg n f k).online ((evenly f).get ()).2 ((averagedDqn n (evenly f)).targets (trainedAvg n f k).online (trainedAvg n f k).target ((evenly f).get ()).2) := by
    unfold fit countUpdate at h
    have : (averagedDqn n (evenly f)).freq = f := rfl
    simp only [this, if_neg hf.ne'] at h
    split at h <;> (rw [← Option.some.inj h]; rfl)
  have e2 := evenly_fit f (trainedAvg n f k).online (fun a => (∑ i ∈ Finset.range (trainedAvg n f k).target.fitted, (trainedAvg n f k).target.models i a) / ((trainedAvg n f k).target.fitted : ℝ)) s a
  rw [e]
  rw [abs_nonpos_iff, sub_eq_zero]
  exact e2

example (k i : ℕ) (hi : i < (trainedAvg 2 3 k).target.fitted) (s a : Bool) : |(trainedAvg 2 3 k).target.models i a - tossingBest s a| ≤ (1 / 2) ^ (k / 3 / 2) * (2 / 3) := by
  have := C173_averaged_run 2 (by norm_num) (evenly 3) (by norm_num [evenly]) tossing tossing_proper (by norm_num [evenly]) (by norm_num [evenly]) tossingBest (tossing_best _) 0 le_rfl (trainedAvg 2 3)
    (fun _ => ()) (trainedAvg_fit 2 3 (by norm_num)) () (fun _ => 0) rfl (fun k _ => trainedAvg_online 2 3 (by norm_num) k) (2 / 3) (by norm_num)
    (fun s a => by cases a <;> norm_num [evenly, tossingBest, abs_of_pos]) k i hi s a
  simpa [evenly] using this

end

end Verif.DQN.Learned
