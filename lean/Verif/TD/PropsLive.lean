/-
Property C140, general part: whole learning runs of Q-learning in a deterministic problem with terminal states.
-/
import Verif.TD.SpecLive
import Verif.TD.Props

namespace Verif.TD

noncomputable section

variable {S A : Type} [DecidableEq S] [DecidableEq A] [Fintype A] [Nonempty A] {E : Type}

theorem update_error_on {L : S → Prop} {m : DetMDP S A} {γ α B : ℝ} (hγ : 0 ≤ γ) (h0 : 0 ≤ α) (h1 : α ≤ 1) {Q Qs : Table S A}
    (hst : Stays m L) (hQs : OptimalOn L m γ Qs) (h : CloseOn L B Q Qs) (s : S) (hs : L s) (a : A) :
    |qLearning γ α Q (m.trans s a) s a - Qs s a| ≤ (1 - α) * |Q s a - Qs s a| + α * (γ * B) := by
  obtain ⟨V, hV⟩ := hQs
  have hB0 : 0 ≤ B := (abs_nonneg _).trans (h s hs a)
  have hn : |(if !m.absorbing s a then rowMax (Q (m.next s a)) else 0) - (if m.absorbing s a then 0 else V (m.next s a))| ≤ B := by
    rcases Bool.eq_false_or_eq_true (m.absorbing s a) with hm | hm
    · simpa [hm] using hB0
    · have hl := hst s a hs hm
      simpa [hm] using isMax_close (h _ hl) (rowMax_isMax _) (hV _ hl).1
  have e : qLearning γ α Q (m.trans s a) s a - Qs s a = (1 - α) * (Q s a - Qs s a) +
      α * (γ * ((if !m.absorbing s a then rowMax (Q (m.next s a)) else 0) - (if m.absorbing s a then 0 else V (m.next s a)))) := by
    have hb := (hV s hs).2 a
    simp only [qLearning, Table.set, DetMDP.trans, and_self, if_true]
    rcases Bool.eq_false_or_eq_true (m.absorbing s a) with hm | hm
    · simp only [hm, if_true, Bool.not_true, Bool.false_eq_true, if_false] at hb ⊢
      rw [hb]; ring
    · simp only [hm, if_true, Bool.not_false, Bool.false_eq_true, if_false] at hb ⊢
      rw [hb]; ring
  rw [e]
  refine (abs_add_le _ _).trans ?_
  rw [abs_mul, abs_mul, abs_mul, abs_of_nonneg h0, abs_of_nonneg hγ, abs_of_nonneg (by linarith : 0 ≤ 1 - α)]
  have := mul_le_mul_of_nonneg_left (mul_le_mul_of_nonneg_left hn hγ) h0
  linarith

theorem ball_on {L : S → Prop} {m : DetMDP S A} {γ α B : ℝ} (hγ0 : 0 ≤ γ) (hγ1 : γ ≤ 1) (h0 : 0 ≤ α) (h1 : α ≤ 1) {Q Qs : Table S A}
    (hst : Stays m L) (hQs : OptimalOn L m γ Qs) (h : CloseOn L B Q Qs) (s : S) (hs : L s) (a : A) :
    CloseOn L B (qLearning γ α Q (m.trans s a)) Qs := by
  intro s' hs' a'
  have hB0 : 0 ≤ B := (abs_nonneg _).trans (h s hs a)
  by_cases he : s' = s ∧ a' = a
  · obtain ⟨rfl, rfl⟩ := he
    refine (update_error_on hγ0 h0 h1 hst hQs h s' hs a').trans ?_
    have h2 := mul_le_mul_of_nonneg_left (h s' hs a') (by linarith : 0 ≤ 1 - α)
    have h3 : α * (γ * B) ≤ α * B := mul_le_mul_of_nonneg_left (by nlinarith) h0
    linarith
  · rw [other_entry he]; exact h s' hs' a'

theorem sweep_ball_on {L : S → Prop} {m : DetMDP S A} {γ B : ℝ} (hγ0 : 0 ≤ γ) (hγ1 : γ ≤ 1) {Qs : Table S A}
    (hst : Stays m L) (hQs : OptimalOn L m γ Qs) (l : List (ℝ × S × A)) (hl : ∀ u ∈ l, (0 ≤ u.1 ∧ u.1 ≤ 1) ∧ L u.2.1) :
    ∀ Q : Table S A, CloseOn L B Q Qs → CloseOn L B (sweep m γ Q l) Qs := by
  induction l with
  | nil => intro Q h; exact h
  | cons u l ih =>
    intro Q h
    have hu := hl u (by simp)
    exact ih (fun v hv => hl v (by simp [hv])) _ (ball_on hγ0 hγ1 hu.1.1 hu.1.2 hst hQs h _ hu.2 _)

theorem entry_error_on {L : S → Prop} {m : DetMDP S A} {γ α B : ℝ} (hγ0 : 0 ≤ γ) (hγ1 : γ ≤ 1) (hα0 : 0 ≤ α) {Qs : Table S A}
    (hst : Stays m L) (hQs : OptimalOn L m γ Qs) (s : S) (hs : L s) (a : A) (l : List (ℝ × S × A))
    (hl : ∀ u ∈ l, (α ≤ u.1 ∧ u.1 ≤ 1) ∧ L u.2.1) :
    ∀ (Q : Table S A) (c : ℝ), CloseOn L B Q Qs → 0 ≤ c → |Q s a - Qs s a| ≤ γ * B + c →
      |sweep m γ Q l s a - Qs s a| ≤ γ * B + (1 - α) ^ updatesOf s a l * c := by
  induction l with
  | nil => intro Q c _ _ h; simpa [sweep, updatesOf] using h
  | cons u l ih =>
    intro Q c hQ hc h
    obtain ⟨⟨hu, hu1⟩, huL⟩ := hl u (by simp)
    have hu0 : 0 ≤ u.1 := hα0.trans hu
    have hQ' := ball_on hγ0 hγ1 hu0 hu1 hst hQs hQ u.2.1 huL u.2.2
    have ih := ih (fun v hv => hl v (by simp [hv]))
    show |sweep m γ (qLearning γ u.1 Q (m.trans u.2.1 u.2.2)) l s a - Qs s a| ≤ _
    by_cases he : u.2.1 = s ∧ u.2.2 = a
    · have hcnt : updatesOf s a (u :: l) = updatesOf s a l + 1 := by simp [updatesOf, List.countP_cons, he]
      rw [hcnt, pow_succ, mul_assoc]
      apply ih _ _ hQ' (mul_nonneg (by linarith) hc)
      have := update_error_on hγ0 hu0 hu1 hst hQs hQ u.2.1 huL u.2.2
      rw [he.1, he.2] at this ⊢
      have h2 := mul_le_mul_of_nonneg_left h (by linarith : 0 ≤ 1 - u.1)
      have h3 : (1 - u.1) * c ≤ (1 - α) * c := mul_le_mul_of_nonneg_right (by linarith) hc
      linarith
    · have hcnt : updatesOf s a (u :: l) = updatesOf s a l := by
        simp only [updatesOf, List.countP_cons, decide_eq_true_eq, he, if_false, Nat.add_zero]
      rw [hcnt]
      apply ih _ _ hQ' hc
      rw [other_entry (fun h' => he ⟨h'.1.symm, h'.2.symm⟩)]
      exact h

/-- One piece of a history that updates every live pair at least `k` times. -/
theorem piece_on {L : S → Prop} {m : DetMDP S A} {γ α B : ℝ} (hγ0 : 0 ≤ γ) (hγ1 : γ ≤ 1) (hα0 : 0 ≤ α) (hα1 : α ≤ 1) (hB : 0 ≤ B)
    {Qs : Table S A} (hst : Stays m L) (hQs : OptimalOn L m γ Qs) {k : ℕ} {l : List (ℝ × S × A)}
    (hl : ∀ u ∈ l, (α ≤ u.1 ∧ u.1 ≤ 1) ∧ L u.2.1) (hall : ∀ s, L s → ∀ a, k ≤ updatesOf s a l) {Q : Table S A}
    (h : CloseOn L B Q Qs) : CloseOn L ((γ + (1 - α) ^ k * (1 - γ)) * B) (sweep m γ Q l) Qs := by
  intro s hs a
  have := entry_error_on hγ0 hγ1 hα0 hst hQs s hs a l hl Q (B - γ * B) h (by nlinarith) (by linarith [h s hs a])
  have h2 : (1 - α) ^ updatesOf s a l ≤ (1 - α) ^ k := pow_le_pow_of_le_one (by linarith) (by linarith) (hall s hs a)
  have h3 : (1 - α) ^ updatesOf s a l * (B - γ * B) ≤ (1 - α) ^ k * (B - γ * B) :=
    mul_le_mul_of_nonneg_right h2 (by nlinarith)
  calc _ ≤ _ := this
    _ ≤ γ * B + (1 - α) ^ k * (B - γ * B) := by linarith
    _ = _ := by ring

/-! ### The samples of a run -/

section Run

variable {u : User E S A (Table S A)} {rate : E → S → A → E × ℝ} {m : DetMDP S A} {L : S → Prop} {cur : E → S} {γ : ℝ}
  {c : Core.Cfg S}

theorem fitPhase_cur (hsim : Simulates u rate m L cur) (s : Core.St (E × Table S A) S A ℝ Unit Unit) :
    cur (Core.fitPhase (tdSys u (qLearningRule γ rate)) c s).world.1 = cur s.world.1 := by
  have hcb : ∀ (fs : List (E → Table S A → List (Core.Sample S A ℝ Unit) → E)) (w : E × Table S A)
      (b : List (Core.Sample S A ℝ Unit)), (∀ f ∈ fs, ∀ e g b, cur (f e g b) = cur e) →
      cur ((fs.map (fun f => fun (w : E × Table S A) (b : List (Core.Sample S A ℝ Unit)) => (f w.1 w.2 b, w.2))).foldl
        (fun w cb => cb w b) w).1 = cur w.1 := by
    intro fs
    induction fs with
    | nil => intro w b _; rfl
    | cons f fs ih =>
      intro w b hf
      simp only [List.map_cons, List.foldl_cons]
      rw [ih _ _ (fun g hg => hf g (by simp [hg]))]
      exact hf f (by simp) _ _ _
  unfold Core.fitPhase
  split
  · refine (hcb u.callbacksFit _ _ hsim.callbacksFit).trans ?_
    simp only [tdSys]
    split
    · exact hsim.rate _ _ _
    · rfl
  · rfl

/-- Where the run is between two iterations. -/
def Here (L : S → Prop) (cur : E → S) (s : Core.St (E × Table S A) S A ℝ Unit Unit) : Prop :=
  s.last = false → ∃ x, s.state = some x ∧ cur s.world.1 = x ∧ L x

theorem step_sample (hsim : Simulates u rate m L cur) (hst : Stays m L) {s s' : Core.St (E × Table S A) S A ℝ Unit Unit} {x : S}
    (hc : cur s.world.1 = x) (hL : L x) (h : Core.step (tdSys u (qLearningRule γ rate)) c s x = .ok s') :
    Here L cur s' ∧ ∃ t, Core.steps s'.trace = Core.steps s.trace ++ [t] ∧ toTrans t = m.trans x t.action := by
  have hno := hsim.noPre
  have key : ∀ (w : E × Table S A) (a : A), cur w.1 = x →
      ((tdSys u (qLearningRule γ rate)).envStep w a).2 = (m.next x a, m.reward x a, m.absorbing x a) ∧
        cur ((tdSys u (qLearningRule γ rate)).envStep w a).1.1 = m.next x a := by
    intro w a hw
    have := hsim.step w.1 a
    rw [hw] at this
    exact ⟨this.2, this.1⟩
  have hdraw : cur (Core.drawAction (tdSys u (qLearningRule γ rate)) s.world s.nextAction x s.policyState).1.1 = x := by
    unfold Core.drawAction
    split
    · show cur (u.draw _ _ _).1 = x
      rw [hsim.draw, hc]
    · exact hc
  unfold Core.step at h
  obtain ⟨h1, h2⟩ := key _ (Core.drawAction (tdSys u (qLearningRule γ rate)) s.world s.nextAction x s.policyState).2.2.1 hdraw
  set d := Core.drawAction (tdSys u (qLearningRule γ rate)) s.world s.nextAction x s.policyState with hd
  simp only at h
  have hpre : ∀ (w : E × Table S A) (y : S), Core.preprocess (tdSys u (qLearningRule γ rate)).corePre w y = (w, y) := by
    intro w y
    simp [tdSys, hno, Core.preprocess]
  rw [hpre] at h
  simp only [h1] at h
  split at h
  · cases h
  · simp only [Except.ok.injEq] at h
    subst h
    constructor
    · intro hl
      refine ⟨_, rfl, ?_, ?_⟩
      · show cur (u.callbackStep _ _ _) = _
        rw [hsim.callbackStep]
        exact h2
      · apply hst x _ hL
        simp only [Core.isLast, Bool.or_eq_false_iff] at hl
        exact hl.2
    · refine ⟨_, by simp only [Core.steps_append]; rfl, rfl⟩

theorem run_samples (hsim : Simulates u rate m L cur) (hst : Stays m L) (hini : c.initialStates = none)
    {prev s : Core.St (E × Table S A) S A ℝ Unit Unit}
    (h : Core.Reach (tdSys u (qLearningRule γ rate)) c prev s) :
    Here L cur s ∧ ∀ t ∈ Core.steps s.trace, L t.state ∧ toTrans t = m.trans t.state t.action := by
  induction h with
  | start => exact ⟨fun h => by simp [Core.start] at h, by simp [Core.start, Core.steps]⟩
  | @iter s s' hr hm hi ih =>
    obtain ⟨ih1, ih2⟩ := ih
    obtain ⟨s1, x, s2, h1, hx, h2, rfl⟩ := Core.iter_cases hi
    have h0 : cur s1.world.1 = x ∧ L x ∧ Core.steps s1.trace = Core.steps s.trace := by
      rcases Bool.eq_false_or_eq_true s.last with hl | hl
      · rw [hl, if_pos rfl] at h1
        unfold Core.reset at h1
        simp only [Core.getInitialState, hini] at h1
        have hno := hsim.noPre
        simp only [tdSys, hno, List.map_nil, Core.preprocess, Except.ok.injEq] at h1
        subst h1
        simp only [Option.some.injEq] at hx
        have := hsim.reset s.world.1
        rw [hx] at this
        exact ⟨this.1, this.2, by simp [Core.steps_append, Core.steps]⟩
      · simp only [hl, Bool.false_eq_true, if_false, Except.ok.injEq] at h1
        subst h1
        obtain ⟨y, hy, hcur, hLy⟩ := ih1 hl
        rw [hx] at hy
        cases hy
        exact ⟨hcur, hLy, rfl⟩
    obtain ⟨g1, t, g2, g3⟩ := step_sample hsim hst h0.1 h0.2.1 h2
    have hstate : t.state = x := congrArg Trans.state g3
    constructor
    · intro hl
      rw [(Core.fitPhase_fields _ _ _).1] at hl
      rw [(Core.fitPhase_fields _ _ _).2.1, fitPhase_cur hsim]
      exact g1 hl
    · have e : Core.steps (Core.fitPhase (tdSys u (qLearningRule γ rate)) c s2).trace = Core.steps s.trace ++ [t] := by
        rw [← h0.2.2, ← g2]
        rcases (Core.fitPhase_fields (tdSys u (qLearningRule γ rate)) c s2).2.2.2.2.2.2 with hf | ⟨n, hf, -⟩
        · rw [hf.1]
        · rw [hf, Core.steps_append]; simp [Core.steps]
      rw [e]
      intro t' ht'
      rcases List.mem_append.mp ht' with ht' | ht'
      · exact ih2 t' ht'
      · simp only [List.mem_singleton] at ht'
        subst ht'
        rw [hstate]
        exact ⟨h0.2.1, g3⟩

/-- The table of the agent is the result of the updates with the transitions of the run, in their order. -/
theorem learns_sweep {α : ℝ} (hrate : ∀ e s a, α ≤ (rate e s a).2 ∧ (rate e s a).2 ≤ 1) {Q0 Q : Table S A}
    {es : List (Core.Event S A ℝ Unit Unit)} (h : Learns (qLearningRule γ rate) Q0 es Q) :
    (∀ t ∈ Core.steps es, L t.state ∧ toTrans t = m.trans t.state t.action) →
    ∃ l : List (ℝ × S × A), l.map (·.2) = (Core.steps es).map (fun t => (t.state, t.action)) ∧
      (∀ v ∈ l, (α ≤ v.1 ∧ v.1 ≤ 1) ∧ L v.2.1) ∧ Q = sweep m γ Q0 l := by
  induction h with
  | nil => intro _; exact ⟨[], rfl, by simp, rfl⟩
  | reset req obs x ps th _ ih =>
    intro hs
    rw [Core.steps_append] at hs ⊢
    simp only [Core.steps, List.append_nil] at hs ⊢
    exact ih hs
  | @update es g asked act obs rew abs smp ths e e' g' next hl hu ih =>
    intro hs
    rw [Core.steps_append] at hs ⊢
    have e1 : Core.steps [Core.Event.step asked act obs rew abs smp, Core.Event.fit [smp] ths next] = [smp] := by
      simp [Core.steps]
    rw [e1] at hs ⊢
    obtain ⟨l, i1, i2, i3⟩ := ih (fun t ht => hs t (by simp [ht]))
    have h1 := hs smp (by simp)
    simp only [qLearningRule, Prod.mk.injEq] at hu
    refine ⟨l ++ [((rate e smp.state smp.action).2, smp.state, smp.action)], by simp [i1], ?_, ?_⟩
    · intro v hv
      rcases List.mem_append.mp hv with hv | hv
      · exact i2 v hv
      · simp only [List.mem_singleton] at hv
        subst hv
        exact ⟨hrate _ _ _, h1.1⟩
    · rw [← hu.2.1, i3, sweep, sweep, List.foldl_append]
      show _ = qLearning γ _ _ (m.trans smp.state smp.action)
      rw [← h1.2]
      rfl

theorem updatesOf_eq {ts : List (Core.Sample S A ℝ Unit)} {l : List (ℝ × S × A)}
    (h : l.map (·.2) = ts.map (fun t => (t.state, t.action))) (s : S) (a : A) :
    updatesOf s a l = ts.countP (fun t => decide (Visits s a t)) := by
  have e1 : updatesOf s a l = (l.map (·.2)).countP (fun p => decide (p.1 = s ∧ p.2 = a)) := by
    rw [List.countP_map]; rfl
  have e2 : ts.countP (fun t => decide (Visits s a t)) =
      (ts.map (fun t => (t.state, t.action))).countP (fun p => decide (p.1 = s ∧ p.2 = a)) := by
    rw [List.countP_map]; rfl
  rw [e1, e2, h]

theorem sweep_pieces {α B : ℝ} (hγ0 : 0 ≤ γ) (hγ1 : γ ≤ 1) (hα0 : 0 ≤ α) (hα1 : α ≤ 1) (hB : 0 ≤ B)
    {Qs : Table S A} (hst : Stays m L) (hQs : OptimalOn L m γ Qs) {k : ℕ} (rest : List (Core.Sample S A ℝ Unit)) :
    ∀ (pieces : List (List (Core.Sample S A ℝ Unit))) (B : ℝ), 0 ≤ B → ∀ (Q : Table S A) (l : List (ℝ × S × A)),
      (∀ p ∈ pieces, ∀ s, L s → ∀ a, k ≤ p.countP (fun t => decide (Visits s a t))) →
      l.map (·.2) = (pieces.flatten ++ rest).map (fun t => (t.state, t.action)) →
      (∀ v ∈ l, (α ≤ v.1 ∧ v.1 ≤ 1) ∧ L v.2.1) → CloseOn L B Q Qs →
      CloseOn L ((γ + (1 - α) ^ k * (1 - γ)) ^ pieces.length * B) (sweep m γ Q l) Qs := by
  intro pieces
  induction pieces with
  | nil =>
    intro B hB Q l _ _ hl h
    simp only [List.length_nil, pow_zero, one_mul]
    exact sweep_ball_on hγ0 hγ1 hst hQs l (fun v hv => ⟨⟨hα0.trans (hl v hv).1.1, (hl v hv).1.2⟩, (hl v hv).2⟩) Q h
  | cons p ps ih =>
    intro B hB Q l hcov hmap hl h
    simp only [List.flatten_cons, List.append_assoc, List.map_append] at hmap
    obtain ⟨l1, l2, rfl, hm1, hm2⟩ := List.map_eq_append_iff.mp hmap
    have h1 := piece_on hγ0 hγ1 hα0 hα1 hB hst hQs (k := k) (l := l1) (fun v hv => hl v (by simp [hv]))
      (fun s hs a => by rw [updatesOf_eq hm1]; exact hcov p (by simp) s hs a) h
    have hd : 0 ≤ γ + (1 - α) ^ k * (1 - γ) :=
      add_nonneg hγ0 (mul_nonneg (pow_nonneg (by linarith) _) (by linarith))
    have h2 := ih _ (mul_nonneg hd hB) (sweep m γ Q l1) l2 (fun q hq => hcov q (by simp [hq]))
      (by rw [hm2, List.map_append]) (fun v hv => hl v (by simp [hv])) h1
    have e : sweep m γ Q (l1 ++ l2) = sweep m γ (sweep m γ Q l1) l2 := by simp [sweep, List.foldl_append]
    rw [e, List.length_cons, pow_succ, mul_assoc]
    exact h2

end Run

/-- C140. A whole call of `learn` of Q-learning in a deterministic problem: if every action was taken at least `k` times
in every live state in each of `K` consecutive pieces of the run, the distance to the optimal values has shrunk by the
factor `γ + (1 - α)^k (1 - γ)` in each of them. (With `K = 0`: it never grows.) The run `demoEnd` of
Verif.System.PropsGridQ meets the hypotheses. -/
theorem C140_learn (u : User E S A (Table S A)) (rate : E → S → A → E × ℝ) (m : DetMDP S A) (L : S → Prop) (cur : E → S)
    (hsim : Simulates u rate m L cur) (hst : Stays m L) (γ α B : ℝ) (hγ0 : 0 ≤ γ) (hγ1 : γ ≤ 1) (hα0 : 0 ≤ α) (hα1 : α ≤ 1)
    (hB : 0 ≤ B) (hrate : ∀ e s a, α ≤ (rate e s a).2 ∧ (rate e s a).2 ≤ 1) (Qs : Table S A) (hQs : OptimalOn L m γ Qs)
    (fuel : ℕ) (nSteps nEpisodes : Option ℕ) (prev s : Core.St (E × Table S A) S A ℝ Unit Unit)
    (h : Core.learn (tdSys u (qLearningRule γ rate)) fuel prev nSteps nEpisodes (some 1) none = some (.ok s))
    (hprev : CloseOn L B prev.world.2 Qs) (k K : ℕ) (hcov : Covers L k K (Core.steps s.trace)) :
    CloseOn L ((γ + (1 - α) ^ k * (1 - γ)) ^ K * B) s.world.2 Qs := by
  unfold Core.learn at h
  split at h
  · cases h
  · rename_i c hc
    have hr := (Core.loop_reach Core.Reach.start h).1
    have hcfg : c.fitMode = .steps 1 ∧ c.initialStates = none := by
      unfold Core.learnCfg at hc
      simp only [Core.initializeLearn, Core.datasetCapacity] at hc
      split at hc
      · cases hc
      · simp only [Except.ok.injEq] at hc
        subst hc
        exact ⟨rfl, rfl⟩
    obtain ⟨-, hs⟩ := run_samples hsim hst hcfg.2 hr
    obtain ⟨l, l1, l2, l3⟩ := learns_sweep hrate (learns_reach hcfg.1 hr) hs
    obtain ⟨pieces, rest, p1, p2, p3⟩ := hcov
    rw [l3, ← p1]
    exact sweep_pieces hγ0 hγ1 hα0 hα1 hB hst hQs rest pieces B hB _ l p3 (by rw [l1, p2]) l2 hprev

end

end Verif.TD
