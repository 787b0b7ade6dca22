/-
Properties of the target networks (C52).
-/
import Verif.DQN.Spec
import Mathlib.Tactic.Ring
import Mathlib.Tactic.Linarith
import Mathlib.Algebra.BigOperators.Intervals
import Mathlib.Algebra.BigOperators.Group.Finset.Basic
import Mathlib.Data.List.Induction

namespace Verif.DQN

open Verif.TD (Trans rowMax)

variable {S A D M W T : Type}

theorem runFits_append (step : Agent M W T → D → Option (Agent M W T)) (g : Agent M W T) (ds ds' : List D) :
    runFits step g (ds ++ ds') = (runFits step g ds).bind (fun g' => runFits step g' ds') := by
  induction ds generalizing g with
  | nil => simp [runFits]
  | cons d ds ih =>
    simp only [List.cons_append, runFits]
    cases h : step g d with
    | none => rfl
    | some g' => simp [ih]

theorem runFits_snoc (step : Agent M W T → D → Option (Agent M W T)) (g : Agent M W T) (ds : List D) (d : D) :
    runFits step g (ds ++ [d]) = (runFits step g ds).bind (fun g' => step g' d) := by
  rw [runFits_append]
  congr 1
  funext g'
  simp [runFits]

theorem innerFit_target (y : Sys S A D M W T) (g : Agent M W T) (d : D) :
    (innerFit y g d).target = g.target ∧ (innerFit y g d).nUpdates = g.nUpdates := by
  unfold innerFit
  dsimp only
  split <;> exact ⟨rfl, rfl⟩

theorem innerFit_online (y : Sys S A D M W T) (g : Agent M W T) (d : D) (h : y.initialized (y.add g.memory d) = false) :
    (innerFit y g d).online = g.online := by
  unfold innerFit
  simp [h]

theorem countUpdate_some (y : Sys S A D M W T) (hf : 0 < y.freq) (g : Agent M W T) :
    ∃ g', countUpdate y g = some g' ∧ g'.online = g.online ∧ g'.nUpdates = g.nUpdates + 1 ∧
      g'.target = if (g.nUpdates + 1) % y.freq = 0 then y.sync (g.nUpdates + 1) g.online g.target else g.target := by
  unfold countUpdate
  dsimp only
  rw [if_neg (by omega)]
  split
  · exact ⟨_, rfl, rfl, rfl, rfl⟩
  · exact ⟨_, rfl, rfl, rfl, rfl⟩

theorem fit_some (y : Sys S A D M W T) (hf : 0 < y.freq) (g : Agent M W T) (d : D) :
    ∃ g', fit y g d = some g' ∧ g'.nUpdates = g.nUpdates + 1 ∧
      g'.target = if (g.nUpdates + 1) % y.freq = 0 then y.sync (g.nUpdates + 1) g'.online g.target else g.target := by
  obtain ⟨g', h, ho, hn, ht⟩ := countUpdate_some y hf (innerFit y g d)
  obtain ⟨h1, h2⟩ := innerFit_target y g d
  refine ⟨g', h, by rw [hn, h2], ?_⟩
  rw [ht, h1, h2, ho]

/-- Learning never fails because of the schedule if the frequency is positive. -/
theorem run_total (y : Sys S A D M W T) (hf : 0 < y.freq) (g : Agent M W T) (ds : List D) :
    ∃ g', runFits (fit y) g ds = some g' ∧ g'.nUpdates = g.nUpdates + ds.length := by
  induction ds using List.reverseRecOn with
  | nil => exact ⟨g, rfl, rfl⟩
  | append_singleton ds d ih =>
    obtain ⟨g1, h1, hn⟩ := ih
    obtain ⟨g2, h2, hn2, _⟩ := fit_some y hf g1 d
    refine ⟨g2, ?_, ?_⟩
    · rw [runFits_snoc, h1]; exact h2
    · rw [hn2, hn, List.length_append]; simp; omega

/-- **C52**, DQN, DoubleDQN, DuelingDQN, NoisyDQN (and MaxminDQN, see below): after `k` calls of `fit` the target
network is the online network as it was after the last call whose number is a multiple of the frequency; 0, the network
of the constructor, counts as a multiple. -/
theorem C52_target (y : Sys S A D M W W) (hf : 0 < y.freq) (hs : y.sync = copyOnline) (m : M) (w : W) (ds : List D) :
    ∃ g, runFits (fit y) (create m w) ds = some g ∧
      ∃ j g', IsLast (fun i => y.freq ∣ i) ds.length j ∧
        runFits (fit y) (create m w) (ds.take j) = some g' ∧ g.target = g'.online := by
  induction ds using List.reverseRecOn with
  | nil => exact ⟨_, rfl, 0, _, ⟨le_rfl, dvd_zero _, fun i h1 h2 => by simp at h2; omega⟩, rfl, rfl⟩
  | append_singleton ds d ih =>
    obtain ⟨g1, h1, j, g', ⟨hj1, hj2, hj3⟩, hr, ht⟩ := ih
    obtain ⟨g2, h2, hn2, ht2⟩ := fit_some y hf g1 d
    obtain ⟨g1', h1', hn1⟩ := run_total y hf (create m w) ds
    rw [h1] at h1'
    cases h1'
    have hn : g1.nUpdates = ds.length := by rw [hn1]; simp [create]
    have hrun : runFits (fit y) (create m w) (ds ++ [d]) = some g2 := by rw [runFits_snoc, h1]; exact h2
    refine ⟨g2, hrun, ?_⟩
    by_cases hd : (g1.nUpdates + 1) % y.freq = 0
    · refine ⟨(ds ++ [d]).length, g2, ⟨le_rfl, ?_, fun i h1 h2 => by omega⟩, by rw [List.take_length]; exact hrun, ?_⟩
      · rw [List.length_append, ← hn]; exact Nat.dvd_of_mod_eq_zero hd
      · rw [ht2, if_pos hd, hs]; rfl
    · refine ⟨j, g', ⟨by rw [List.length_append]; omega, hj2, ?_⟩, ?_, ?_⟩
      · intro i hi1 hi2 hdvd
        rw [List.length_append, List.length_singleton] at hi2
        rcases Nat.lt_or_ge ds.length i with h | h
        · have : i = ds.length + 1 := by omega
          subst this
          rw [hn] at hd
          exact hd (Nat.mod_eq_zero_of_dvd hdvd)
        · exact hj3 i hi1 h hdvd
      · rw [List.take_append_of_le_length hj1]; exact hr
      · rw [ht2, if_neg hd]; exact ht

/-- **C52**, MaxminDQN: the same for every one of the `n` networks of the ensemble, although each call of `fit` changes
only one of the online networks. -/
theorem C52_maxmin (y : Sys S A D M (ℕ → W) (ℕ → W)) (hf : 0 < y.freq) (n : ℕ) (hs : y.sync = maxminSync n) (m : M) (w : ℕ → W)
    (ds : List D) :
    ∃ g, runFits (fit y) (create m w) ds = some g ∧
      ∃ j g', IsLast (fun i => y.freq ∣ i) ds.length j ∧
        runFits (fit y) (create m w) (ds.take j) = some g' ∧ ∀ i < n, g.target i = g'.online i := by
  induction ds using List.reverseRecOn with
  | nil => exact ⟨_, rfl, 0, _, ⟨le_rfl, dvd_zero _, fun i h1 h2 => by simp at h2; omega⟩, rfl, fun i _ => rfl⟩
  | append_singleton ds d ih =>
    obtain ⟨g1, h1, j, g', ⟨hj1, hj2, hj3⟩, hr, ht⟩ := ih
    obtain ⟨g2, h2, hn2, ht2⟩ := fit_some y hf g1 d
    obtain ⟨g1', h1', hn1⟩ := run_total y hf (create m w) ds
    rw [h1] at h1'
    cases h1'
    have hn : g1.nUpdates = ds.length := by rw [hn1]; simp [create]
    have hrun : runFits (fit y) (create m w) (ds ++ [d]) = some g2 := by rw [runFits_snoc, h1]; exact h2
    refine ⟨g2, hrun, ?_⟩
    by_cases hd : (g1.nUpdates + 1) % y.freq = 0
    · refine ⟨(ds ++ [d]).length, g2, ⟨le_rfl, ?_, fun i h1 h2 => by omega⟩, by rw [List.take_length]; exact hrun, ?_⟩
      · rw [List.length_append, ← hn]; exact Nat.dvd_of_mod_eq_zero hd
      · intro i hi; rw [ht2, if_pos hd, hs]; simp [maxminSync, hi]
    · refine ⟨j, g', ⟨by rw [List.length_append]; omega, hj2, ?_⟩, ?_, ?_⟩
      · intro i hi1 hi2 hdvd
        rw [List.length_append, List.length_singleton] at hi2
        rcases Nat.lt_or_ge ds.length i with h | h
        · have : i = ds.length + 1 := by omega
          subst this
          rw [hn] at hd
          exact hd (Nat.mod_eq_zero_of_dvd hdvd)
        · exact hj3 i hi1 h hdvd
      · rw [List.take_append_of_le_length hj1]; exact hr
      · intro i hi; rw [ht2, if_neg hd]; exact ht i hi

/-- One call of `fit` of `MaxminDQN` leaves all but one of the online networks as they are. -/
theorem C52_maxmin_one (fitModel : W → List (Trans S A) → List ℝ → W) (idx : ℕ) (w : ℕ → W) (b : List (Trans S A)) (q : List ℝ) :
    fitOne fitModel idx w b q idx = fitModel (w idx) b q ∧ ∀ i, i ≠ idx → fitOne fitModel idx w b q i = w i :=
  ⟨by simp [fitOne], fun i h => by simp [fitOne, h]⟩

theorem fitCounting_some (y : Sys S A D M W W) (hf : 0 < y.freq) (hs : y.sync = copyOnline) (g : Agent M W W) (d : D) :
    ∃ g', fitCounting y g d = some g' ∧
      ((y.initialized (y.add g.memory d) = true ∧ g'.nUpdates = g.nUpdates + 1 ∧
          g'.target = if (g.nUpdates + 1) % y.freq = 0 then g'.online else g.target) ∨
        (y.initialized (y.add g.memory d) = false ∧ g'.nUpdates = g.nUpdates ∧ g'.online = g.online ∧ g'.target = g.target)) := by
  unfold fitCounting
  dsimp only
  obtain ⟨h1, h2⟩ := innerFit_target y g d
  rcases Bool.eq_false_or_eq_true (y.initialized (y.add g.memory d)) with h | h
  · obtain ⟨g', hc, ho, hn, ht⟩ := countUpdate_some y hf (innerFit y g d)
    rw [if_pos h]
    refine ⟨g', hc, Or.inl ⟨h, by rw [hn, h2], ?_⟩⟩
    rw [ht, h1, h2, hs, ho]
    rfl
  · rw [if_neg (by simp [h])]
    exact ⟨_, rfl, Or.inr ⟨h, h2, innerFit_online y g d h, h1⟩⟩

/-- **C52**, CategoricalDQN, QuantileDQN, Rainbow: only the calls that update the network are counted; the target is
the online network as it was after the last call at which the number of updates was a multiple of the frequency. -/
theorem C52_counting (y : Sys S A D M W W) (hf : 0 < y.freq) (hs : y.sync = copyOnline) (m : M) (w : W) (ds : List D) :
    ∃ g, runFits (fitCounting y) (create m w) ds = some g ∧
      ∃ j g', IsLast (fun i => ∃ gi, runFits (fitCounting y) (create m w) (ds.take i) = some gi ∧ y.freq ∣ gi.nUpdates) ds.length j ∧
        runFits (fitCounting y) (create m w) (ds.take j) = some g' ∧ g.target = g'.online := by
  induction ds using List.reverseRecOn with
  | nil =>
    exact ⟨_, rfl, 0, _, ⟨le_rfl, ⟨_, rfl, by simp [create]⟩, fun i h1 h2 => by simp at h2; omega⟩, rfl, rfl⟩
  | append_singleton ds d ih =>
    obtain ⟨g1, h1, j, g', ⟨hj1, hj2, hj3⟩, hr, ht⟩ := ih
    obtain ⟨g2, h2, hcase⟩ := fitCounting_some y hf hs g1 d
    have hrun : runFits (fitCounting y) (create m w) (ds ++ [d]) = some g2 := by rw [runFits_snoc, h1]; exact h2
    refine ⟨g2, hrun, ?_⟩
    by_cases hd : y.freq ∣ g2.nUpdates
    · refine ⟨(ds ++ [d]).length, g2, ⟨le_rfl, ⟨g2, by rw [List.take_length]; exact hrun, hd⟩, fun i h1 h2 => by omega⟩,
        by rw [List.take_length]; exact hrun, ?_⟩
      rcases hcase with ⟨_, hn, ht2⟩ | ⟨_, hn, ho, ht2⟩
      · rw [ht2, if_pos (by rw [← hn]; exact Nat.mod_eq_zero_of_dvd hd)]
      · rw [ht2, ht, ho]
        -- the last multiple before is the previous call itself
        have : j = ds.length := by
          by_contra hne
          exact hj3 ds.length (by omega) le_rfl ⟨g1, by rw [List.take_length]; exact h1, by rw [← hn]; exact hd⟩
        subst this
        rw [List.take_length, h1] at hr
        cases hr
        rfl
    · refine ⟨j, g', ⟨by rw [List.length_append]; omega, ?_, ?_⟩, ?_, ?_⟩
      · obtain ⟨gi, hgi, hdi⟩ := hj2
        exact ⟨gi, by rw [List.take_append_of_le_length hj1]; exact hgi, hdi⟩
      · rintro i hi1 hi2 ⟨gi, hgi, hdi⟩
        rw [List.length_append, List.length_singleton] at hi2
        rcases Nat.lt_or_ge ds.length i with h | h
        · have : i = (ds ++ [d]).length := by rw [List.length_append, List.length_singleton]; omega
          subst this
          rw [List.take_length, hrun] at hgi
          cases hgi
          exact hd hdi
        · exact hj3 i hi1 h ⟨gi, by rw [List.take_append_of_le_length h] at hgi; exact hgi, hdi⟩
      · rw [List.take_append_of_le_length hj1]; exact hr
      · rcases hcase with ⟨_, hn, ht2⟩ | ⟨_, hn, ho, ht2⟩
        · rw [ht2, if_neg (by rw [← hn]; exact fun h => hd (Nat.dvd_of_mod_eq_zero h))]; exact ht
        · rw [ht2]; exact ht

/-- **C52**: a call of `fit` counts as an update exactly if the memory is initialised after the new samples are added;
otherwise the network is not changed. -/
theorem C52_counted (y : Sys S A D M W W) (hf : 0 < y.freq) (hs : y.sync = copyOnline) (g : Agent M W W) (d : D) :
    ∃ g', fitCounting y g d = some g' ∧
      (g'.nUpdates = g.nUpdates + 1 ↔ y.initialized (y.add g.memory d) = true) ∧
      (g'.nUpdates = g.nUpdates ∨ g'.nUpdates = g.nUpdates + 1) ∧ (g'.nUpdates = g.nUpdates → g'.online = g.online) := by
  obtain ⟨g', h, hc⟩ := fitCounting_some y hf hs g d
  refine ⟨g', h, ?_⟩
  rcases hc with ⟨hi, hn, _⟩ | ⟨hi, hn, ho, _⟩
  · exact ⟨by simp [hi, hn], Or.inr hn, fun h => by omega⟩
  · refine ⟨?_, Or.inl hn, fun _ => ho⟩
    rw [hi, hn]
    simp

/-- **C52**: a frequency of zero makes every call fail. -/
theorem C52_zero (y : Sys S A D M W T) (hf : y.freq = 0) (g : Agent M W T) (d : D) : fit y g d = none := by
  simp [fit, countUpdate, hf]

/-! ### AveragedDQN -/

/-- The network after `j` synchronisations. -/
def snapshot (y : Sys S A D M W T) (g : Agent M W T) (ds : List D) (j : ℕ) : W :=
  ((runFits (fit y) g (ds.take (j * y.freq))).map (·.online)).getD g.online

theorem averaged_inv (y : Sys S A D M W (Snapshots W)) (hf : 0 < y.freq) (n : ℕ) (hn : 1 < n) (hs : y.sync = averagedSync n y.freq)
    (m : M) (w : W) (ds : List D) :
    ∃ g, runFits (fit y) (createAveraged m w) ds = some g ∧
      g.target.fitted = min (ds.length / y.freq + 1) n ∧
      ∀ j, j ≤ ds.length / y.freq → ds.length / y.freq < j + n →
        g.target.models (j % n) = snapshot y (createAveraged m w) ds j := by
  induction ds using List.reverseRecOn with
  | nil =>
    refine ⟨_, rfl, ?_, ?_⟩
    · simp [createAveraged]; omega
    · intro j hj _
      have : j = 0 := by simpa using hj
      subst this
      simp [createAveraged, snapshot, runFits]
  | append_singleton ds d ih =>
    obtain ⟨g1, h1, hfit, hmod⟩ := ih
    obtain ⟨g2, h2, hn2, ht2⟩ := fit_some y hf g1 d
    obtain ⟨g1', h1', hn1⟩ := run_total y hf (createAveraged m w) ds
    rw [h1] at h1'
    cases h1'
    have hnu : g1.nUpdates = ds.length := by rw [hn1]; simp [createAveraged]
    have hrun : runFits (fit y) (createAveraged m w) (ds ++ [d]) = some g2 := by rw [runFits_snoc, h1]; exact h2
    rw [hnu] at ht2
    -- earlier snapshots are not changed by more calls
    have hsnap : ∀ j, j * y.freq ≤ ds.length →
        snapshot y (createAveraged m w) (ds ++ [d]) j = snapshot y (createAveraged m w) ds j := by
      intro j hj
      unfold snapshot
      rw [List.take_append_of_le_length hj]
    refine ⟨g2, hrun, ?_⟩
    rw [List.length_append, List.length_singleton]
    by_cases hd : (ds.length + 1) % y.freq = 0
    · have hq : (ds.length + 1) / y.freq = ds.length / y.freq + 1 := by
        rw [Nat.succ_div_of_dvd (Nat.dvd_of_mod_eq_zero hd)]
      rw [if_pos hd, hs] at ht2
      refine ⟨?_, ?_⟩
      · rw [ht2, hq]
        simp only [averagedSync, hfit]
        split <;> omega
      · intro j hj1 hj2
        rw [hq] at hj1 hj2
        rw [ht2]
        simp only [averagedSync, hq]
        rcases Nat.lt_or_ge (ds.length / y.freq) j with h | h
        · have : j = ds.length / y.freq + 1 := by omega
          subst this
          rw [if_pos rfl]
          unfold snapshot
          have hmul : (ds.length / y.freq + 1) * y.freq = (ds ++ [d]).length := by
            rw [List.length_append, List.length_singleton, ← hq]
            exact Nat.div_mul_cancel (Nat.dvd_of_mod_eq_zero hd)
          rw [hmul, List.take_length, hrun]
          rfl
        · have hne : j % n ≠ (ds.length / y.freq + 1) % n := by
            intro heq
            have h3 := Nat.ModEq.dvd (show j ≡ ds.length / y.freq + 1 [MOD n] from heq)
            have h4 : (n : ℤ) ∣ ((ds.length / y.freq + 1 : ℕ) : ℤ) - (j : ℤ) := h3
            have h5 := Int.le_of_dvd (by omega) h4
            omega
          rw [if_neg hne, hmod j h (by omega), hsnap j (by
            calc j * y.freq ≤ (ds.length / y.freq) * y.freq := Nat.mul_le_mul_right _ h
              _ ≤ ds.length := Nat.div_mul_le_self _ _)]
    · have hq : (ds.length + 1) / y.freq = ds.length / y.freq := by
        rw [Nat.succ_div_of_not_dvd (fun h => hd (Nat.mod_eq_zero_of_dvd h))]
      rw [if_neg hd] at ht2
      rw [hq, ht2]
      refine ⟨hfit, ?_⟩
      intro j hj1 hj2
      rw [hmod j hj1 hj2, hsnap j (by
            calc j * y.freq ≤ (ds.length / y.freq) * y.freq := Nat.mul_le_mul_right _ hj1
              _ ≤ ds.length := Nat.div_mul_le_self _ _)]

/-- **C52**, AveragedDQN: after `k` calls of `fit`, hence `m = k / freq` synchronisations, the agent uses the last
`min (m + 1) n` snapshots of the online network (the one of the constructor included), each exactly once: every sum over
the used models is the sum over these snapshots. -/
theorem C52_averaged (y : Sys S A D M W (Snapshots W)) (hf : 0 < y.freq) (n : ℕ) (hn : 1 < n) (hs : y.sync = averagedSync n y.freq)
    (m : M) (w : W) (ds : List D) :
    ∃ g, runFits (fit y) (createAveraged m w) ds = some g ∧
      g.target.fitted = min (ds.length / y.freq + 1) n ∧
      ∀ F : W → ℝ, ∑ i ∈ Finset.range g.target.fitted, F (g.target.models i) =
        ∑ j ∈ Finset.Ico (ds.length / y.freq + 1 - g.target.fitted) (ds.length / y.freq + 1),
          F (snapshot y (createAveraged m w) ds j) := by
  obtain ⟨g, hrun, hfit, hmod⟩ := averaged_inv y hf n hn hs m w ds
  refine ⟨g, hrun, hfit, fun F => ?_⟩
  symm
  generalize hk : ds.length / y.freq = k at hfit hmod ⊢
  refine Finset.sum_bij (fun j _ => j % n) ?_ ?_ ?_ ?_
  · intro j hj
    rw [Finset.mem_Ico] at hj
    rw [Finset.mem_range, hfit]
    rcases Nat.lt_or_ge k n with h | h
    · rw [Nat.mod_eq_of_lt (by omega)]; omega
    · have := Nat.mod_lt j (show n > 0 by omega)
      omega
  · intro j hj j' hj' heq
    rw [Finset.mem_Ico] at hj hj'
    have h1 : j ≡ j' [MOD n] := heq
    have h2 := h1.dvd
    by_contra hne
    rcases Nat.lt_or_gt_of_ne hne with h | h
    · have := Int.le_of_dvd (by omega) h2
      omega
    · have h3 := h1.symm.dvd
      have := Int.le_of_dvd (by omega) h3
      omega
  · intro i hi
    rw [Finset.mem_range, hfit] at hi
    rcases Nat.lt_or_ge k n with h | h
    · exact ⟨i, by rw [Finset.mem_Ico]; omega, Nat.mod_eq_of_lt (by omega)⟩
    · -- the last number up to `k` with remainder `i`
      refine ⟨k - (k + n - i) % n, ?_, ?_⟩
      · have := Nat.mod_lt (k + n - i) (show n > 0 by omega)
        rw [Finset.mem_Ico]
        omega
      · have hlt := Nat.mod_lt (k + n - i) (show n > 0 by omega)
        have hdm := Nat.div_add_mod (k + n - i) n
        have e : k - (k + n - i) % n + n = i + n * ((k + n - i) / n) := by omega
        have : (k - (k + n - i) % n + n) % n = (i + n * ((k + n - i) / n)) % n := by rw [e]
        rw [Nat.add_mod_right, Nat.add_mul_mod_self_left, Nat.mod_eq_of_lt (show i < n by omega)] at this
        exact this
  · intro j hj
    rw [Finset.mem_Ico] at hj
    rw [hmod j (by omega) (by omega)]

/-- The hypotheses are met: a counter as a network that grows by one with every call, synchronised every second call. -/
def demoSys (T : Type) (sync : ℕ → ℕ → T → T) : Sys Unit Unit Unit Unit ℕ T where
  add _ _ := ()
  initialized _ := true
  get _ := ((), [])
  targets _ _ _ := []
  update _ _ _ _ := ()
  fitNet _ w _ _ := w + 1
  sync := sync
  freq := 2

example : (runFits (fit (demoSys ℕ copyOnline)) (create () 0) [(), (), (), (), ()]).map (fun g => (g.online, g.target)) = some (5, 4) := rfl

example : ((runFits (fit (demoSys (Snapshots ℕ) (averagedSync 2 2))) (createAveraged () 0) (List.replicate 9 ())).map
    (fun g => (g.target.models 0, g.target.models 1, g.target.fitted))) = some (8, 6, 2) := rfl

example : 0 < (demoSys ℕ copyOnline).freq ∧ (demoSys ℕ copyOnline).sync = copyOnline := ⟨by decide, rfl⟩

end Verif.DQN
