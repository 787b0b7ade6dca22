/- Lemmas about the temporal-difference agents inside `Core`. -/
import Verif.TD.Spec

namespace Verif.TD

noncomputable section

variable {S A : Type} [DecidableEq S] [DecidableEq A] [Fintype A] [Nonempty A] {E G : Type}

theorem preprocess_snd (u : User E S A G) (rule : Rule E S A G) (w : E × G) (x : S) :
    (Core.preprocess (tdSys u rule).corePre w x).1.2 = w.2 := by
  have : ∀ (ps : List (Core.Preproc E S)) (w : E × G) (x : S),
      (Core.preprocess (ps.map (fun p => ({ update := fun w x => (p.update w.1 x, w.2), apply := fun w x => p.apply w.1 x }
        : Core.Preproc (E × G) S))) w x).1.2 = w.2 := by
    intro ps
    induction ps with
    | nil => intro w x; rfl
    | cons p ps ih => intro w x; simp only [List.map_cons, Core.preprocess]; rw [ih]
  exact this _ _ _

theorem callbacks_snd (u : User E S A G) (rule : Rule E S A G) (b : List (Core.Sample S A ℝ Unit)) (w : E × G) :
    ((tdSys u rule).callbacksFit.foldl (fun w cb => cb w b) w).2 = w.2 := by
  have : ∀ (l : List (E → G → List (Core.Sample S A ℝ Unit) → E)) (w : E × G),
      ((l.map (fun f => fun (w : E × G) b => (f w.1 w.2 b, w.2))).foldl (fun w cb => cb w b) w).2 = w.2 := by
    intro l
    induction l with
    | nil => intro w; rfl
    | cons f l ih => intro w; simp only [List.map_cons, List.foldl_cons]; rw [ih]
  exact this _ _

theorem drawAction_snd (u : User E S A G) (rule : Rule E S A G) (w : E × G) (next : Option A) (x : S) (ps : Option Unit) :
    (Core.drawAction (tdSys u rule) w next x ps).1.2 = w.2 := by
  cases next <;> rfl

theorem reset_world {u : User E S A G} {rule : Rule E S A G} {c : Core.Cfg S} {s s' : Core.St (E × G) S A ℝ Unit Unit}
    (h : Core.reset (tdSys u rule) c s = .ok s') : s'.world.2 = rule.start s.world.2 := by
  unfold Core.reset at h
  split at h
  · cases h
  · simp only [Except.ok.injEq] at h
    subst h
    exact preprocess_snd u rule _ _

theorem step_world {u : User E S A G} {rule : Rule E S A G} {c : Core.Cfg S} {s s' : Core.St (E × G) S A ℝ Unit Unit} {x : S}
    (h : Core.step (tdSys u rule) c s x = .ok s') : s'.world.2 = s.world.2 := by
  unfold Core.step at h
  simp only at h
  split at h
  · cases h
  · simp only [Except.ok.injEq] at h
    subst h
    exact (preprocess_snd u rule _ _).trans (drawAction_snd u rule _ _ _ _)

/-- With `n_steps_per_fit = 1` the dataset is empty at the beginning of every iteration. -/
theorem rows_empty {u : User E S A G} {rule : Rule E S A G} {c : Core.Cfg S} (hf : c.fitMode = .steps 1)
    {prev s : Core.St (E × G) S A ℝ Unit Unit} (h : Core.Reach (tdSys u rule) c prev s) : s.rows = [] := by
  have hI := (Core.inv_reach h).hrows
  cases hr : s.rows with
  | nil => rfl
  | cons a l =>
    exact absurd (by rw [hf]; simp [Core.Due, hr]) (hI s.rows (List.prefix_refl _) (by simp [hr]))

/-- One iteration. -/
theorem td_iter {u : User E S A G} {rule : Rule E S A G} {c : Core.Cfg S} (hf : c.fitMode = .steps 1)
    {prev s s' : Core.St (E × G) S A ℝ Unit Unit} (h : Core.Reach (tdSys u rule) c prev s)
    (hi : Core.iter (tdSys u rule) c s = .ok s') :
    ∃ asked act obs rew abs, ∃ smp : Core.Sample S A ℝ Unit, ∃ ths e e',
      smp.action = act ∧ smp.reward = rew ∧ smp.absorbing = abs ∧
      s'.state = some smp.nextState ∧ s'.last = smp.last ∧
      rule.update e (if s.last then rule.start s.world.2 else s.world.2) none (toTrans smp) =
        (e', s'.world.2, s'.nextAction) ∧
      (s.last = false → s.state = some smp.state ∧ (∀ a, s.nextAction = some a → asked = none ∧ act = a) ∧
        s'.trace = s.trace ++ [.step asked act obs rew abs smp, .fit [smp] ths s'.nextAction]) ∧
      (s.last = true → ∃ req obs' x ps th w', asked = some (Core.agentPreprocess (tdSys u rule).agentPre w' smp.state, ps) ∧
        s'.trace = s.trace ++ [.reset req obs' x ps th] ++
          [.step asked act obs rew abs smp, .fit [smp] ths s'.nextAction]) := by
  have hrows := rows_empty hf h
  obtain ⟨s1, x, s2, h1, hx, h2, rfl⟩ := Core.iter_cases hi
  have hw2 := step_world h2
  obtain ⟨asked, act, obs, rew, abs, w, smp, f1, f2, f3, f4, f5, f6, f7, f8, f9, r1, r2, r3, r4, r5, r6, r7, r8, r9, r10,
    -, r11⟩ := Core.step_fields h2
  have hreq : Core.fitRequired c.fitMode s2 = true := by
    rw [hf]; simp [Core.fitRequired, r3]
  have hrows1 : s1.rows = [] := by
    split at h1
    · rw [(Core.reset_fields h1).1, hrows]
    · simp only [Except.ok.injEq] at h1; rw [← h1, hrows]
  have hrows2 : s2.rows = [smp] := by rw [r1, hrows1]; rfl
  have hw1 : s1.world.2 = if s.last then rule.start s.world.2 else s.world.2 := by
    split at h1
    · rename_i hl; rw [if_pos hl]; exact reset_world h1
    · rename_i hl; rw [if_neg hl]; simp only [Except.ok.injEq] at h1; rw [← h1]
  refine ⟨asked, act, obs, rew, abs, smp, s2.thetas, s2.world.1,
    (rule.update s2.world.1 s2.world.2 s2.nextAction (toTrans smp)).1, f4, f5, f6, ?_, ?_, ?_, ?_, ?_⟩
  · rw [(Core.fitPhase_fields _ _ _).2.1, r7]
  · rw [(Core.fitPhase_fields _ _ _).1, r6]
  · rw [← hw1, ← hw2]
    have e1 : (Core.fitPhase (tdSys u rule) c s2).world.2 =
        (rule.update s2.world.1 s2.world.2 s2.nextAction (toTrans smp)).2.1 := by
      unfold Core.fitPhase
      rw [if_pos hreq]
      refine (callbacks_snd u rule _ _).trans ?_
      rw [hrows2]
      rfl
    have e2 : (Core.fitPhase (tdSys u rule) c s2).nextAction =
        (rule.update s2.world.1 s2.world.2 s2.nextAction (toTrans smp)).2.2 := by
      unfold Core.fitPhase
      rw [if_pos hreq]
      show ((tdSys u rule).fit s2.world s2.nextAction s2.rows s2.thetas).2 = _
      rw [hrows2]
      rfl
    rw [e1, e2, r9]
  · intro hl
    simp only [hl, Bool.false_eq_true, if_false, Except.ok.injEq] at h1
    subst h1
    refine ⟨by rw [hx, f1], ?_, ?_⟩
    · intro a ha
      rw [ha] at f9
      exact f9
    · unfold Core.fitPhase
      rw [if_pos hreq]
      show s2.trace ++ [Core.Event.fit s2.rows s2.thetas _] = _
      rw [r11, hrows2, List.append_assoc]
      rfl
  · intro hl
    simp only [hl, if_true] at h1
    obtain ⟨-, -, -, -, -, -, -, hna, req, obs', x', w', th, -, hx', -, ht, -⟩ := Core.reset_fields h1
    rw [hna] at f9
    obtain ⟨w'', hw''⟩ := f9
    refine ⟨req, obs', x', s1.policyState, th, w'', by rw [hw'', f1], ?_⟩
    unfold Core.fitPhase
    rw [if_pos hreq]
    show s2.trace ++ [Core.Event.fit s2.rows s2.thetas _] = _
    rw [r11, ht, hrows2]
    simp only [List.append_assoc, List.cons_append, List.nil_append]

/-- In every run the agent is in the state that the recorded events lead to. -/
theorem learns_reach {u : User E S A G} {rule : Rule E S A G} {c : Core.Cfg S} (hf : c.fitMode = .steps 1)
    {prev s : Core.St (E × G) S A ℝ Unit Unit} (h : Core.Reach (tdSys u rule) c prev s) :
    Learns rule prev.world.2 s.trace s.world.2 := by
  induction h with
  | start => exact Learns.nil
  | @iter s s' hr hm hi ih =>
    obtain ⟨asked, act, obs, rew, abs, smp, ths, e, e', -, -, -, -, -, hup, hF, hT⟩ := td_iter hf hr hi
    rcases Bool.eq_false_or_eq_true s.last with hl | hl
    · obtain ⟨req, obs', x, ps, th, w', -, ht⟩ := hT hl
      rw [hl, if_pos rfl] at hup
      rw [ht]
      exact Learns.update asked act obs rew abs smp ths e e' _ _ (Learns.reset req obs' x ps th ih) hup
    · obtain ⟨-, -, ht⟩ := hF hl
      rw [hl] at hup
      simp only [Bool.false_eq_true, if_false] at hup
      rw [ht]
      exact Learns.update asked act obs rew abs smp ths e e' _ _ ih hup

/-- An invariant of the agent: kept by `episode_start` and by the update. -/
theorem learns_invariant {rule : Rule E S A G} {g0 g : G} {es : List (Core.Event S A ℝ Unit Unit)} (I : G → Prop)
    (h0 : I g0) (hstart : ∀ g, I g → I (rule.start g))
    (hup : ∀ e g next t, I g → t ∈ (Core.steps es).map toTrans → I (rule.update e g next t).2.1)
    (h : Learns rule g0 es g) : I g := by
  induction h with
  | nil => exact h0
  | reset req obs x ps th _ ih =>
    apply hstart
    apply ih
    intro e g next t hg ht
    exact hup e g next t hg (by simpa [Core.steps_append, Core.steps] using ht)
  | @update es g asked act obs rew abs smp ths e e' g' next hl hu ih =>
    have hg := ih (by
      intro e g next t hg ht
      apply hup e g next t hg
      rw [Core.steps_append, List.map_append]
      exact List.mem_append_left _ ht)
    have := hup e g none (toTrans smp) hg (by
      rw [Core.steps_append, List.map_append]
      apply List.mem_append_right
      simp [Core.steps])
    rw [hu] at this
    exact this

end

end Verif.TD
