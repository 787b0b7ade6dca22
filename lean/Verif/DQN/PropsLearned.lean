/-
Property C173: what the deep Q-learning agents learn.
-/
import Verif.DQN.SpecLearned
import Verif.DQN.PropsSpecial
import Verif.TD.PropsStochRun

namespace Verif.DQN.Learned

open Verif.TD (Trans RandomMDP rowMax IsMax mean_contracts Prob Table)

noncomputable section

variable {S A D M W : Type} [Fintype S] [Fintype A] [Nonempty A]
variable {m : RandomMDP S A} {γ δ : ℝ}

theorem top_isMax (f : A → ℝ) : IsMax f (rowMax f) := by
  classical
  exact Verif.TD.rowMax_isMax f

theorem top_unique {f : A → ℝ} {x y : ℝ} (h : IsMax f x) (h' : IsMax f y) : x = y := by
  classical
  exact Verif.TD.isMax_unique h h'

theorem top_close {f f' : A → ℝ} {x y D : ℝ} (h : ∀ a, |f a - f' a| ≤ D) (hx : IsMax f x) (hy : IsMax f' y) : |x - y| ≤ D := by
  classical
  exact Verif.TD.isMax_close h hx hy

/-- Expected reward, plus the discounted expectation of `V` unless the transition is absorbing. -/
def ahead (m : RandomMDP S A) (γ : ℝ) (V : S → ℝ) (s : S) (a : A) : ℝ := ∑ s', m.prob s a s' * (m.reward s a s' + γ * (if m.absorbing s a s' then 0 else V s'))

omit [Fintype A] [Nonempty A] in
theorem rewarded_proper (clip : Bool) (hm : m.Proper) : (rewarded clip m).Proper := hm

theorem ahead_close (hm : m.Proper) (h0 : 0 ≤ γ) {D : ℝ} (hD : 0 ≤ D) {V V' : S → ℝ} (h : ∀ s, |V s - V' s| ≤ D) (s : S) (a : A) : |ahead m γ V s a - ahead m γ V' s a| ≤ γ * D := by
  classical
  exact mean_contracts hm (L := fun _ => True) (fun _ _ _ _ _ _ => trivial) h0 hD (fun s _ => h s) s trivial a

omit [Fintype A] [Nonempty A] in
/-- A quantity on finitely many points that contracts up to `δ`. -/
theorem settle {I : Type} [Finite I] {d : I → ℝ} (h1 : γ < 1) (hδ : 0 ≤ δ) (h : ∀ D, 0 ≤ D → (∀ i, d i ≤ D) → ∀ i, d i ≤ γ * D + δ) (i : I) : d i ≤ δ / (1 - γ) := by
  have hg : (0 : ℝ) < 1 - γ := by linarith
  have : Nonempty I := ⟨i⟩
  obtain ⟨j, hj⟩ := Finite.exists_max d
  refine (hj i).trans ?_
  by_cases h0 : d j ≤ 0
  · exact h0.trans (by positivity)
  · have := h (d j) (by linarith) hj j
    rw [le_div_iff₀ hg]
    linarith

theorem best_iff (Q : S → A → ℝ) : Best m γ Q ↔ ∀ s a, Q s a = ahead m γ (fun s => rowMax (Q s)) s a := by
  constructor
  · rintro ⟨V, h⟩ s a
    rw [(h s trivial).2 a]
    have : V = fun s => rowMax (Q s) := funext fun s => top_unique (h s trivial).1 (top_isMax _)
    rw [this]
    rfl
  · intro h
    exact ⟨fun s => rowMax (Q s), fun s _ => ⟨top_isMax _, fun a => h s a⟩⟩

/-! ### The expected targets -/

omit [Fintype S] in
theorem dqn_single (γ : ℝ) (clip : Bool) (qt : S → A → ℝ) (t : Trans S A) :
    (targets γ clip [t] (dqnNext qt [t])).sum = clipReward clip t.reward + γ * (if t.absorbing then 0 else rowMax (qt t.next)) := by
  obtain ⟨s, a, r, s', b⟩ := t
  cases b
  · simp [targets, dqnNext, maskRows]
  · have : rowMax (fun _ : A => (0 : ℝ)) = 0 := top_unique (top_isMax _) ⟨fun _ => le_rfl, Classical.arbitrary A, rfl⟩
    simp [targets, dqnNext, maskRows, alive, this]

theorem dqn_target (clip : Bool) (qt : S → A → ℝ) (s : S) (a : A) :
    expectedTarget (fun b => targets γ clip b (dqnNext qt b)) m s a = ahead (rewarded clip m) γ (fun s => rowMax (qt s)) s a := by
  unfold expectedTarget ahead
  refine Finset.sum_congr rfl fun s' _ => ?_
  rw [dqn_single]
  rfl

theorem double_target (argmax : (A → ℝ) → A) (clip : Bool) (q qt : S → A → ℝ) (s : S) (a : A) :
    expectedTarget (fun b => targets γ clip b (doubleNext argmax q qt b)) m s a = ahead (rewarded clip m) γ (fun s => qt s (argmax (q s))) s a := by
  unfold expectedTarget ahead
  refine Finset.sum_congr rfl fun s' _ => ?_
  congr 1
  cases h : m.absorbing s a s' <;> simp [targets, doubleNext, maskVals, alive, rewarded, clipReward, h]

theorem averaged_target (clip : Bool) (n : ℕ) (qts : ℕ → S → A → ℝ) (s : S) (a : A) :
    expectedTarget (fun b => targets γ clip b (averagedNext n qts b)) m s a = ahead (rewarded clip m) γ (fun s => rowMax fun a => (∑ i ∈ Finset.range n, qts i s a) / (n : ℝ)) s a :=
  dqn_target clip (fun s a => (∑ i ∈ Finset.range n, qts i s a) / (n : ℝ)) s a

/-! ### Networks with nothing left to learn -/

theorem near_best (hm : m.Proper) (h0 : 0 ≤ γ) (h1 : γ < 1) (hδ : 0 ≤ δ) {q Q : S → A → ℝ} (h : ∀ s a, |q s a - ahead m γ (fun s => rowMax (q s)) s a| ≤ δ) (hQ : Best m γ Q) (s : S) (a : A) :
    |q s a - Q s a| ≤ δ / (1 - γ) := by
  rw [best_iff] at hQ
  have := settle (I := S × A) (d := fun i => |q i.1 i.2 - Q i.1 i.2|) h1 hδ (fun D hD hd i => ?_) (s, a)
  · exact this
  · have e := ahead_close hm h0 hD (V := fun s => rowMax (q s)) (V' := fun s => rowMax (Q s)) (fun s => top_close (fun a => hd (s, a)) (top_isMax _) (top_isMax _)) i.1 i.2
    rw [← hQ] at e
    have := abs_sub_le (q i.1 i.2) (ahead m γ (fun s => rowMax (q s)) i.1 i.2) (Q i.1 i.2)
    linarith [h i.1 i.2]

/-- C173. A network of DQN predicts, for every state and action, the expectation of the targets computed from itself if and only if it predicts the optimal action values of the problem, with
clipped rewards if `clip_reward` is set. -/
theorem C173_dqn (p : Parts S A D M W) (m : RandomMDP S A) (w : W) :
    Fits (p.predict w) ((dqn p).targets w w) m 0 ↔ Best (rewarded p.clip m) p.gamma (p.predict w) := by
  rw [best_iff]
  simp only [Fits, dqn, dqn_target, abs_nonpos_iff, sub_eq_zero]

/-- C173. The same for DoubleDQN, when the target network has the weights of the network. -/
theorem C173_double (argmax : (A → ℝ) → A) (hg : Greedy argmax) (p : Parts S A D M W) (m : RandomMDP S A) (w : W) :
    Fits (p.predict w) ((doubleDqn argmax p).targets w w) m 0 ↔ Best (rewarded p.clip m) p.gamma (p.predict w) := by
  rw [best_iff]
  have e : ∀ s, p.predict w s (argmax (p.predict w s)) = rowMax (p.predict w s) := fun s => top_unique ⟨fun a => hg _ a, _, rfl⟩ (top_isMax _)
  simp only [Fits, doubleDqn, double_target, abs_nonpos_iff, sub_eq_zero, e]

/-- C173. The same for AveragedDQN, when all the target networks in use have the weights of the network. -/
theorem C173_averaged (n : ℕ) (p : Parts S A D M W) (m : RandomMDP S A) (w : W) (t : Snapshots W) (ht : 0 < t.fitted) (hw : ∀ i, i < t.fitted → t.models i = w) :
    Fits (p.predict w) ((averagedDqn n p).targets w t) m 0 ↔ Best (rewarded p.clip m) p.gamma (p.predict w) := by
  rw [best_iff]
  have e : ∀ s a, (∑ i ∈ Finset.range t.fitted, p.predict (t.models i) s a) / (t.fitted : ℝ) = p.predict w s a := by
    intro s a
    have ht' : (t.fitted : ℝ) ≠ 0 := by exact_mod_cast ht.ne'
    rw [Finset.sum_congr rfl fun i hi => by rw [hw i (Finset.mem_range.1 hi)], Finset.sum_const, Finset.card_range, nsmul_eq_mul]
    field_simp
  simp only [Fits, averagedDqn, averaged_target, abs_nonpos_iff, sub_eq_zero, e]

/-- C173. An error of at most `δ` in predicting the expectation of the targets is an error of at most `δ / (1 - γ)` in predicting the optimal values, and any policy that only takes actions with
the largest prediction loses at most `2 δ / (1 - γ)`. -/
theorem C173_error (p : Parts S A D M W) (m : RandomMDP S A) (hm : m.Proper) (h0 : 0 ≤ p.gamma) (h1 : p.gamma < 1) (w : W) (δ : ℝ) (hδ : 0 ≤ δ) (h : Fits (p.predict w) ((dqn p).targets w w) m δ)
    (Q : S → A → ℝ) (hQ : Best (rewarded p.clip m) p.gamma Q) :
    (∀ s a, |p.predict w s a - Q s a| ≤ δ / (1 - p.gamma)) ∧
    ∀ policy, (∀ s, Prob (policy s)) → GreedyFor policy (p.predict w) → ∀ Q', (rewarded p.clip m).ValuesOn (fun _ => True) p.gamma policy Q' → ∀ s a,
      Q s a ≤ Q' s a + 2 * δ / (1 - p.gamma) ∧ Q s a ≤ (∑ b, policy s b * Q' s b) + 2 * δ / (1 - p.gamma) := by
  simp only [Fits, dqn, dqn_target] at h
  have hm' := rewarded_proper p.clip hm
  have e1 := near_best hm' h0 h1 hδ h hQ
  refine ⟨e1, fun policy hπ hg Q' hQ' => ?_⟩
  have hgr : ∀ s, ∑ b, policy s b * p.predict w s b = rowMax (p.predict w s) := by
    intro s
    have : ∀ b, policy s b * p.predict w s b = policy s b * rowMax (p.predict w s) := by
      intro b
      by_cases hb : policy s b = 0
      · rw [hb, zero_mul, zero_mul]
      · rw [top_unique ⟨hg s b hb, b, rfl⟩ (top_isMax (p.predict w s))]
    rw [Finset.sum_congr rfl fun b _ => this b, ← Finset.sum_mul, (hπ s).2, one_mul]
  have hsum : ∀ s (f f' : A → ℝ) (D : ℝ), (∀ b, |f b - f' b| ≤ D) → |∑ b, policy s b * f b - ∑ b, policy s b * f' b| ≤ D := by
    intro s f f' D hD
    rw [← Finset.sum_sub_distrib]
    refine (Finset.abs_sum_le_sum_abs _ _).trans ?_
    calc _ ≤ ∑ b, policy s b * D := Finset.sum_le_sum fun b _ => by
          rw [← mul_sub, abs_mul, abs_of_nonneg ((hπ s).1 b)]
          exact mul_le_mul_of_nonneg_left (hD b) ((hπ s).1 b)
      _ = D := by rw [← Finset.sum_mul, (hπ s).2, one_mul]
  have e2 : ∀ s a, |p.predict w s a - Q' s a| ≤ δ / (1 - p.gamma) := by
    intro s a
    refine settle (I := S × A) (d := fun i => |p.predict w i.1 i.2 - Q' i.1 i.2|) h1 hδ (fun D hD hd i => ?_) (s, a)
    have e := ahead_close hm' h0 hD (V := fun s => rowMax (p.predict w s)) (V' := fun s => ∑ b, policy s b * Q' s b)
      (fun s => by rw [← hgr]; exact hsum s _ _ D fun b => hd (s, b)) i.1 i.2
    have e' : Q' i.1 i.2 = ahead (rewarded p.clip m) p.gamma (fun s => ∑ b, policy s b * Q' s b) i.1 i.2 := hQ' i.1 trivial i.2
    rw [← e'] at e
    have := abs_sub_le (p.predict w i.1 i.2) (ahead (rewarded p.clip m) p.gamma (fun s => rowMax (p.predict w s)) i.1 i.2) (Q' i.1 i.2)
    linarith [h i.1 i.2]
  intro s a
  have e3 : 2 * δ / (1 - p.gamma) = δ / (1 - p.gamma) + δ / (1 - p.gamma) := by ring
  constructor
  · have k1 := (abs_le.1 (e1 s a)).1
    have k2 := (abs_le.1 (e2 s a)).2
    linarith
  · have k1 := (abs_le.1 (e1 s a)).1
    have k2 := (abs_le.1 (hsum s _ _ _ fun b => e2 s b)).2
    have k3 := (top_isMax (p.predict w s)).1 a
    rw [hgr] at k2
    linarith

/-- C173. MaxminDQN: if each of the `n + 1` networks predicts the expectation of the targets computed from all of them with an error of at most `δ`, each predicts the optimal values with an
error of at most `δ / (1 - γ)`. -/
theorem C173_maxmin (m : RandomMDP S A) (hm : m.Proper) (γ : ℝ) (h0 : 0 ≤ γ) (h1 : γ < 1) (clip : Bool) (n : ℕ) (q : ℕ → S → A → ℝ) (δ : ℝ) (hδ : 0 ≤ δ)
    (h : ∀ i, i ≤ n → Fits (q i) (fun b => targets γ clip b (maxminNext n q b)) m δ) (Q : S → A → ℝ) (hQ : Best (rewarded clip m) γ Q) (i : ℕ) (hi : i ≤ n) (s : S) (a : A) :
    |q i s a - Q s a| ≤ δ / (1 - γ) := by
  have hm' := rewarded_proper clip hm
  simp only [Fits, maxminNext, dqn_target] at h
  have hne : (Finset.range (n + 1)).Nonempty := ⟨0, by simp⟩
  have hmin : ∀ s a, |(Finset.range (n + 1)).inf' hne (fun i => q i s a) - ahead (rewarded clip m) γ (fun s => rowMax fun a => (Finset.range (n + 1)).inf' hne fun i => q i s a) s a| ≤ δ := by
    intro s a
    obtain ⟨j, hj, e⟩ := Finset.exists_mem_eq_inf' hne fun i => q i s a
    rw [e]
    exact h j (by simpa [Nat.lt_succ_iff] using hj) s a
  have e1 := near_best hm' h0 h1 hδ hmin hQ
  have hg : (0 : ℝ) < 1 - γ := by linarith
  have e2 := ahead_close hm' h0 (D := δ / (1 - γ)) (by positivity) (V := fun s => rowMax fun a => (Finset.range (n + 1)).inf' hne fun i => q i s a) (V' := fun s => rowMax (Q s))
    (fun s => top_close (fun a => e1 s a) (top_isMax _) (top_isMax _)) s a
  rw [← (best_iff Q).1 hQ] at e2
  have e3 := abs_sub_le (q i s a) (ahead (rewarded clip m) γ (fun s => rowMax fun a => (Finset.range (n + 1)).inf' hne fun i => q i s a) s a) (Q s a)
  have e4 : δ + γ * (δ / (1 - γ)) = δ / (1 - γ) := by field_simp; ring
  linarith [h i hi s a]

/-! ### Runs -/

omit [Fintype S] in
theorem fit_steps (y : Sys S A D M W T) (hf : 0 < y.freq) (g g' : Agent M W T) (d : D) (h : fit y g d = some g') :
    g'.nUpdates = g.nUpdates + 1 ∧ (y.freq ∣ g.nUpdates + 1 → g'.target = y.sync (g.nUpdates + 1) g'.online g.target) ∧ (¬ y.freq ∣ g.nUpdates + 1 → g'.target = g.target) := by
  have e1 : (innerFit y g d).nUpdates = g.nUpdates := by unfold innerFit; simp only; split <;> rfl
  have e2 : (innerFit y g d).target = g.target := by unfold innerFit; simp only; split <;> rfl
  unfold fit countUpdate at h
  simp only [e1, e2, if_neg hf.ne'] at h
  split at h
  · rename_i hd
    cases h
    exact ⟨rfl, fun _ => rfl, fun hn => absurd (Nat.dvd_of_mod_eq_zero hd) hn⟩
  · rename_i hd
    cases h
    exact ⟨rfl, fun hn => absurd (Nat.mod_eq_zero_of_dvd hn) hd, fun _ => rfl⟩

/-- The bound after `b` rounds. -/
theorem next_round {b : ℕ} {γ C x e z : ℝ} (h1 : γ < 1) (hx : |x - e| ≤ δ) (he : |e - z| ≤ γ * (γ ^ b * C + δ / (1 - γ))) : |x - z| ≤ γ ^ (b + 1) * C + δ / (1 - γ) := by
  have hg : (1 - γ) ≠ 0 := by linarith
  have e4 : δ + γ * (δ / (1 - γ)) = δ / (1 - γ) := by field_simp; ring
  have := abs_sub_le x e z
  rw [pow_succ]
  nlinarith

/-- C173. DQN: if, whenever the target network is updated, the network predicts the expectation of the last targets with an error of at most `δ`, then after `k` calls of `fit` the error of the
target network is at most `γ^(k / freq)` times the initial one, plus `δ / (1 - γ)`. -/
theorem C173_dqn_run (p : Parts S A D M W) (hf : 0 < p.freq) (m : RandomMDP S A) (hm : m.Proper) (h0 : 0 ≤ p.gamma) (h1 : p.gamma < 1) (Q : S → A → ℝ) (hQ : Best (rewarded p.clip m) p.gamma Q)
    (δ : ℝ) (hδ : 0 ≤ δ) (g : ℕ → Agent M W W) (d : ℕ → D) (hrun : ∀ k, fit (dqn p) (g k) (d k) = some (g (k + 1))) (hstart : (g 0).nUpdates = 0)
    (hfit : ∀ k, p.freq ∣ k + 1 → Fits (p.predict (g (k + 1)).online) ((dqn p).targets (g k).online (g k).target) m δ) (C : ℝ) (hC0 : 0 ≤ C)
    (hC : ∀ s a, |p.predict (g 0).target s a - Q s a| ≤ C) (k : ℕ) (s : S) (a : A) :
    |p.predict (g k).target s a - Q s a| ≤ p.gamma ^ (k / p.freq) * C + δ / (1 - p.gamma) := by
  have hm' := rewarded_proper p.clip hm
  have hg : (0 : ℝ) < 1 - p.gamma := by linarith
  have hcount : ∀ k, (g k).nUpdates = k := by
    intro k
    induction k with
    | zero => exact hstart
    | succ k ih => rw [(fit_steps (dqn p) hf _ _ _ (hrun k)).1, ih]
  induction k generalizing s a with
  | zero =>
    have : 0 ≤ δ / (1 - p.gamma) := by positivity
    simp only [Nat.zero_div, pow_zero, one_mul]
    linarith [hC s a]
  | succ k ih =>
    obtain ⟨-, h2, h3⟩ := fit_steps (dqn p) hf _ _ _ (hrun k)
    rw [hcount] at h2 h3
    by_cases hd : p.freq ∣ k + 1
    · have e : (g (k + 1)).target = (g (k + 1)).online := h2 hd
      have hk := hfit k hd s a
      simp only [dqn, dqn_target] at hk
      rw [e, Nat.succ_div_of_dvd hd]
      have hQ' := (best_iff Q).1 hQ s a
      refine next_round h1 hk ?_
      rw [hQ']
      exact ahead_close hm' h0 (by positivity) (fun s => top_close (fun a => ih s a) (top_isMax _) (top_isMax _)) s a
    · rw [h3 hd, Nat.succ_div_of_not_dvd hd]
      exact ih s a

/-- C173. AveragedDQN with `n` target networks: under the same condition the errors of all the target networks in use are at most `γ^(k / freq / n)` times the initial one, plus `δ / (1 - γ)`. -/
theorem C173_averaged_run (n : ℕ) (hn : 0 < n) (p : Parts S A D M W) (hf : 0 < p.freq) (m : RandomMDP S A) (hm : m.Proper) (h0 : 0 ≤ p.gamma) (h1 : p.gamma < 1) (Q : S → A → ℝ)
    (hQ : Best (rewarded p.clip m) p.gamma Q) (δ : ℝ) (hδ : 0 ≤ δ) (g : ℕ → Agent M W (Snapshots W)) (d : ℕ → D) (hrun : ∀ k, fit (averagedDqn n p) (g k) (d k) = some (g (k + 1)))
    (mem : M) (w : W) (hstart : g 0 = createAveraged mem w)
    (hfit : ∀ k, p.freq ∣ k + 1 → Fits (p.predict (g (k + 1)).online) ((averagedDqn n p).targets (g k).online (g k).target) m δ) (C : ℝ) (hC0 : 0 ≤ C)
    (hC : ∀ s a, |p.predict w s a - Q s a| ≤ C) (k i : ℕ) (hi : i < (g k).target.fitted) (s : S) (a : A) :
    |p.predict ((g k).target.models i) s a - Q s a| ≤ p.gamma ^ (k / p.freq / n) * C + δ / (1 - p.gamma) := by
  have hm' := rewarded_proper p.clip hm
  have hg : (0 : ℝ) < 1 - p.gamma := by linarith
  have hanti : ∀ {b b' : ℕ}, b ≤ b' → p.gamma ^ b' * C + δ / (1 - p.gamma) ≤ p.gamma ^ b * C + δ / (1 - p.gamma) := by
    intro b b' hb
    have := mul_le_mul_of_nonneg_right (pow_le_pow_of_le_one h0 h1.le hb) hC0
    linarith
  have hcount : ∀ k, (g k).nUpdates = k := by
    intro k
    induction k with
    | zero => rw [hstart]; rfl
    | succ k ih => rw [(fit_steps (averagedDqn n p) hf _ _ _ (hrun k)).1, ih]
  have main : ∀ k, (g k).target.fitted = min (k / p.freq + 1) n ∧ ∀ i, i < (g k).target.fitted → ∃ l, l ≤ k / p.freq ∧ k / p.freq < l + n ∧ l % n = i ∧
      ∀ s a, |p.predict ((g k).target.models i) s a - Q s a| ≤ p.gamma ^ ((l + n - 1) / n) * C + δ / (1 - p.gamma) := by
    intro k
    induction k with
    | zero =>
      rw [hstart]
      refine ⟨by simp [createAveraged]; omega, fun i hi => ?_⟩
      have hi0 : i = 0 := by simpa [createAveraged] using hi
      refine ⟨0, by simp, by simpa using hn, by simp [hi0], fun s a => ?_⟩
      have : (0 + n - 1) / n = 0 := Nat.div_eq_of_lt (by omega)
      have h3 : 0 ≤ δ / (1 - p.gamma) := by positivity
      rw [this, pow_zero, one_mul]
      have := hC s a
      simp only [createAveraged]
      linarith
    | succ k ih =>
      obtain ⟨ihf, ihm⟩ := ih
      obtain ⟨-, h2, h3⟩ := fit_steps (averagedDqn n p) hf _ _ _ (hrun k)
      rw [hcount] at h2 h3
      by_cases hd : p.freq ∣ k + 1
      · have e : (g (k + 1)).target = averagedSync n p.freq (k + 1) (g (k + 1)).online (g k).target := h2 hd
        have hdiv : (k + 1) / p.freq = k / p.freq + 1 := Nat.succ_div_of_dvd hd
        rw [hdiv]
        generalize hj : k / p.freq = j at *
        have hidx : ∀ i, (g (k + 1)).target.models i = if i = (j + 1) % n then (g (k + 1)).online else (g k).target.models i := by
          intro i
          rw [e]
          simp only [averagedSync, hdiv]
        have hfit' : (g (k + 1)).target.fitted = min (j + 1 + 1) n := by
          rw [e]
          simp only [averagedSync, ihf]
          split <;> omega
        refine ⟨hfit', fun i hi => ?_⟩
        rw [hfit'] at hi
        rw [hidx]
        by_cases hii : i = (j + 1) % n
        · refine ⟨j + 1, le_rfl, by omega, hii.symm, fun s a => ?_⟩
          rw [if_pos hii]
          have hk := hfit k hd s a
          simp only [averagedDqn, averaged_target] at hk
          have e1 : (j + 1 + n - 1) / n = j / n + 1 := by
            rw [show j + 1 + n - 1 = j + n by omega, Nat.add_div_right _ hn]
          rw [e1]
          refine next_round h1 hk ?_
          rw [(best_iff Q).1 hQ s a]
          refine ahead_close hm' h0 (by positivity) (fun s => top_close (fun a => ?_) (top_isMax _) (top_isMax _)) s a
          have hpos : 0 < (g k).target.fitted := by rw [ihf]; omega
          have hpos' : (0 : ℝ) < (g k).target.fitted := by exact_mod_cast hpos
          have e2 : (∑ i ∈ Finset.range (g k).target.fitted, p.predict ((g k).target.models i) s a) / ((g k).target.fitted : ℝ) - Q s a =
              (∑ i ∈ Finset.range (g k).target.fitted, (p.predict ((g k).target.models i) s a - Q s a)) / ((g k).target.fitted : ℝ) := by
            rw [Finset.sum_sub_distrib, Finset.sum_const, Finset.card_range, nsmul_eq_mul]
            field_simp
          rw [e2, abs_div, abs_of_pos hpos', div_le_iff₀ hpos']
          refine (Finset.abs_sum_le_sum_abs _ _).trans ?_
          calc _ ≤ ∑ _i ∈ Finset.range (g k).target.fitted, (p.gamma ^ (j / n) * C + δ / (1 - p.gamma)) := Finset.sum_le_sum fun i hi => by
                obtain ⟨l, l1, l2, -, l4⟩ := ihm i (Finset.mem_range.1 hi)
                exact (l4 s a).trans (hanti (Nat.div_le_div_right (by omega)))
            _ = _ := by rw [Finset.sum_const, Finset.card_range, nsmul_eq_mul, mul_comm]
        · rw [if_neg hii]
          have hi' : i < (g k).target.fitted := by
            rw [ihf]
            by_contra hc
            have hin : i = j + 1 := by omega
            exact hii (by rw [hin, Nat.mod_eq_of_lt (by omega)])
          obtain ⟨l, l1, l2, l3, l4⟩ := ihm i hi'
          refine ⟨l, by omega, ?_, l3, l4⟩
          by_contra hc
          have : j + 1 = l + n := by omega
          apply hii
          rw [this, Nat.add_mod_right, l3]
      · have hdiv : (k + 1) / p.freq = k / p.freq := Nat.succ_div_of_not_dvd hd
        rw [h3 hd, hdiv]
        exact ⟨ihf, ihm⟩
  obtain ⟨l, l1, l2, -, l4⟩ := (main k).2 i hi
  exact (l4 s a).trans (hanti (Nat.div_le_div_right (by omega)))

end

end Verif.DQN.Learned
