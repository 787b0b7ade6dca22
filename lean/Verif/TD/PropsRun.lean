/-
Properties C31, C32, C74: SARSA and eligibility traces inside `Core`.
-/
import Verif.TD.Props

namespace Verif.TD

noncomputable section

variable {S A : Type} [DecidableEq S] [DecidableEq A] [Fintype A] [Nonempty A] {E G : Type}

/-! ### C31 -/

/-- C31. Two consecutive iterations of a learning run of SARSA. The first makes the transition `t1`, the second the
transition `t2`. If the episode goes on, `t2` starts where `t1` ended and the table was updated with exactly the value of
the action of `t2` in that state (0 if absorbing); if it does not, the policy was asked for the action of `t2`. -/
theorem C31_sarsa (u : User E S A (Table S A)) (γ : ℝ) (rate : E → S → A → E × ℝ) (c : Core.Cfg S)
    (hf : c.fitMode = .steps 1) (prev s s' s'' : Core.St (E × Table S A) S A ℝ Unit Unit)
    (h : Core.Reach (tdSys u (sarsaRule u γ rate)) c prev s) (hm : Core.moveRequired c.budget s = true)
    (hi : Core.iter (tdSys u (sarsaRule u γ rate)) c s = .ok s')
    (hi' : Core.iter (tdSys u (sarsaRule u γ rate)) c s' = .ok s'') :
    ∃ t1 t2, ∃ α : ℝ, Core.steps s'.trace = Core.steps s.trace ++ [t1] ∧ Core.steps s''.trace = Core.steps s'.trace ++ [t2] ∧
      (t1.last = false → t2.state = t1.nextState ∧
        SetsOnly s.world.2 s'.world.2 t1.state t1.action
          (s.world.2 t1.state t1.action + α * (t1.reward +
            γ * (if t1.absorbing then 0 else s.world.2 t2.state t2.action) - s.world.2 t1.state t1.action))) ∧
      (t1.last = true → ∃ es req obs x ps th x' ps' act obs' rew abs ths next,
        s''.trace = es ++ [.reset req obs x ps th, .step (some (x', ps')) act obs' rew abs t2, .fit [t2] ths next]) := by
  obtain ⟨asked, act, obs, rew, abs, t1, ths, e, e', f1, f2, f3, f4, f5, hup, hF, hT⟩ := td_iter hf h hi
  have h' := h.iter hm hi
  obtain ⟨asked2, act2, obs2, rew2, abs2, t2, ths2, e2, e2', g1, g2, g3, g4, g5, hup2, hF2, hT2⟩ := td_iter hf h' hi'
  have hstart : (if s.last = true then (sarsaRule u γ rate).start s.world.2 else s.world.2) = s.world.2 := by
    split <;> rfl
  rw [hstart] at hup
  simp only [sarsaRule, Prod.mk.injEq] at hup
  obtain ⟨-, hQ, hn⟩ := hup
  set a' := (agentDraw u e s.world.2 none (toTrans t1).next).2
  refine ⟨t1, t2, (rate (agentDraw u e s.world.2 none (toTrans t1).next).1 t1.state t1.action).2, ?_, ?_, ?_, ?_⟩
  · rcases Bool.eq_false_or_eq_true s.last with hl | hl
    · obtain ⟨_, _, _, _, _, _, -, ht⟩ := hT hl
      rw [ht]; simp [Core.steps_append, Core.steps]
    · obtain ⟨-, -, ht⟩ := hF hl
      rw [ht]; simp [Core.steps_append, Core.steps]
  · rcases Bool.eq_false_or_eq_true s'.last with hl | hl
    · obtain ⟨_, _, _, _, _, _, -, ht⟩ := hT2 hl
      rw [ht]; simp [Core.steps_append, Core.steps]
    · obtain ⟨-, -, ht⟩ := hF2 hl
      rw [ht]; simp [Core.steps_append, Core.steps]
  · intro hl
    rw [← f5] at hl
    obtain ⟨hs, ha, -⟩ := hF2 hl
    rw [f4] at hs
    have hs : t2.state = t1.nextState := (Option.some.inj hs).symm
    have ha := ha a' hn.symm
    refine ⟨hs, ?_⟩
    rw [hs, g1, ha.2, ← hQ]
    have := C28_sarsa γ (rate (agentDraw u e s.world.2 none (toTrans t1).next).1 t1.state t1.action).2 s.world.2
      (toTrans t1) a'
    obtain ⟨v, h1, h2, h3⟩ := this
    rcases Bool.eq_false_or_eq_true t1.absorbing with hb | hb
    · rw [h2 hb] at h1
      simp only [hb, if_true, mul_zero, add_zero]
      exact h1
    · rw [h3 hb] at h1
      simp only [hb, Bool.false_eq_true, if_false]
      exact h1
  · intro hl
    rw [← f5] at hl
    obtain ⟨req, obs', x, ps, th, w', hask, ht⟩ := hT2 hl
    refine ⟨s'.trace, req, obs', x, ps, th, Core.agentPreprocess (tdSys u (sarsaRule u γ rate)).agentPre w' t2.state, ps, act2, obs2, rew2, abs2, ths2, s''.nextAction, ?_⟩
    rw [ht, hask]
    simp

/-- The start of the demo. -/
def demoStart (G : Type) (g : G) : Core.St (Nat × G) Bool Bool ℝ Unit Unit :=
  { world := (0, g), state := none, policyState := none, theta := none, episodeSteps := 0, nextAction := none,
    totalEpisodes := 0, totalSteps := 0, currentEpisodes := 0, currentSteps := 0, last := true, rows := [], thetas := [],
    trace := [] }

/-- Two iterations are possible from the start of the demo. -/
example : ∃ s' s'', Core.iter (tdSys (demoUser (Table Bool Bool)) (sarsaRule (demoUser _) (1 / 2) (fun e _ _ => (e, 1 / 2))))
      { budget := .steps 5, fitMode := .steps 1, initialStates := none, capacity := some 1 }
      (Core.start (demoStart _ (fun _ _ => 0))) = .ok s' ∧
    Core.iter (tdSys (demoUser (Table Bool Bool)) (sarsaRule (demoUser _) (1 / 2) (fun e _ _ => (e, 1 / 2))))
      { budget := .steps 5, fitMode := .steps 1, initialStates := none, capacity := some 1 } s' = .ok s'' ∧ s'.last = false :=
  ⟨_, _, rfl, rfl, rfl⟩

/-! ### C32 -/

theorem discountedVisits_append (d : ℝ) (s : S) (a : A) (l : List (Core.Sample S A ℝ Unit)) (t : Core.Sample S A ℝ Unit) :
    discountedVisits d s a (l ++ [t]) = d * discountedVisits d s a l + (if Visits s a t then 1 else 0) := by
  induction l with
  | nil => simp [discountedVisits]
  | cons x l ih =>
    simp only [List.cons_append, discountedVisits, ih, List.length_append, List.length_singleton]
    split
    · rw [pow_succ]; ring
    · ring

theorem lastVisit_none (d : ℝ) (s : S) (a : A) (l : List (Core.Sample S A ℝ Unit)) (h : ∀ t ∈ l, ¬ Visits s a t) :
    lastVisit d s a l = 0 := by
  cases l with
  | nil => rfl
  | cons x l =>
    have h1 : ¬ ∃ t' ∈ l, Visits s a t' := by
      rintro ⟨t', ht, hv⟩; exact h t' (by simp [ht]) hv
    simp only [lastVisit, h1, h x (by simp), if_false]

theorem lastVisit_append (d : ℝ) (s : S) (a : A) (l : List (Core.Sample S A ℝ Unit)) (t : Core.Sample S A ℝ Unit) :
    lastVisit d s a (l ++ [t]) = if Visits s a t then 1 else d * lastVisit d s a l := by
  induction l with
  | nil => simp [lastVisit]
  | cons x l ih =>
    rw [List.cons_append]
    by_cases ht : Visits s a t
    · rw [if_pos ht] at ih ⊢
      have : ∃ t' ∈ l ++ [t], Visits s a t' := ⟨t, by simp, ht⟩
      rw [lastVisit, if_pos this]
      exact ih
    · rw [if_neg ht] at ih ⊢
      by_cases hl : ∃ t' ∈ l, Visits s a t'
      · have hl' : ∃ t' ∈ l ++ [t], Visits s a t' := by
          obtain ⟨t', h1, h2⟩ := hl; exact ⟨t', by simp [h1], h2⟩
        rw [lastVisit, if_pos hl', lastVisit, if_pos hl]
        exact ih
      · have hl' : ¬ ∃ t' ∈ l ++ [t], Visits s a t' := by
          rintro ⟨t', h1, h2⟩
          rcases List.mem_append.mp h1 with h1 | h1
          · exact hl ⟨t', h1, h2⟩
          · rw [List.mem_singleton.mp h1] at h2; exact ht h2
        rw [lastVisit, if_neg hl', lastVisit, if_neg hl]
        split
        · rw [List.length_append, List.length_singleton, pow_succ]; ring
        · simp

theorem episodeSoFar_append (es : List (Core.Event S A ℝ Unit Unit)) (e : Core.Event S A ℝ Unit Unit) :
    episodeSoFar (es ++ [e]) = match e with
      | .reset .. => []
      | .step _ _ _ _ _ s => episodeSoFar es ++ [s]
      | .fit .. => episodeSoFar es := by
  simp only [episodeSoFar, List.foldl_append, List.foldl_cons, List.foldl_nil]
  cases e <;> rfl

/-- The trace of every pair, after the decay, is its discounted credit. -/
def TraceOK (k : TraceKind) (d : ℝ) (l : List (Core.Sample S A ℝ Unit)) (g : Lam S A) : Prop :=
  ∀ s a, g.e s a = d * credit k d s a l

theorem trace_credit {k : TraceKind} {d : ℝ} {l : List (Core.Sample S A ℝ Unit)} {g : Lam S A} (h : TraceOK k d l g)
    (t : Core.Sample S A ℝ Unit) (s : S) (a : A) :
    traceUpdate k g.e t.state t.action s a = credit k d s a (l ++ [t]) := by
  have hv : (s = t.state ∧ a = t.action) ↔ Visits s a t := by
    unfold Visits; constructor <;> rintro ⟨h1, h2⟩ <;> exact ⟨h1.symm, h2.symm⟩
  have he := h s a
  cases k
  · simp only [traceUpdate, credit, Table.set, lastVisit_append] at he ⊢
    by_cases hvt : Visits s a t
    · rw [if_pos hvt, if_pos (hv.mpr hvt)]
    · rw [if_neg hvt, if_neg (fun h' => hvt (hv.mp h')), he]
  · simp only [traceUpdate, credit, Table.set, discountedVisits_append] at he ⊢
    by_cases hvt : Visits s a t
    · have h' := hv.mpr hvt
      rw [if_pos hvt, if_pos h', ← h'.1, ← h'.2, he]
    · rw [if_neg hvt, if_neg (fun h' => hvt (hv.mp h')), he, add_zero]

theorem lamUpdate_ok {k : TraceKind} {γ lam α delta : ℝ} {l : List (Core.Sample S A ℝ Unit)} {g : Lam S A}
    (h : TraceOK k (γ * lam) l g) (t : Core.Sample S A ℝ Unit) :
    TraceOK k (γ * lam) (l ++ [t]) (lamUpdate k γ lam α delta g t.state t.action) ∧
    ∀ s a, (lamUpdate k γ lam α delta g t.state t.action).Q s a =
      g.Q s a + α * delta * credit k (γ * lam) s a (l ++ [t]) := by
  constructor
  · intro s a
    simp only [lamUpdate]
    rw [trace_credit h t s a]; ring
  · intro s a
    simp only [lamUpdate]
    rw [trace_credit h t s a]

/-- A rule whose update is an eligibility trace update with the temporal difference error `delta`. -/
def IsLamRule (rule : Rule E S A (Lam S A)) (k : TraceKind) (γ lam : ℝ) (bootstrap : Table S A → S → Option A → ℝ) : Prop :=
  rule.start = lamStart ∧ ∀ e g t, ∃ α, (rule.update e g none t).2.1 =
    lamUpdate k γ lam α (t.reward + γ * (if t.absorbing then 0 else bootstrap g.Q t.next (rule.update e g none t).2.2) -
      g.Q t.state t.action) g t.state t.action

theorem trace_ok_reach {u : User E S A (Lam S A)} {rule : Rule E S A (Lam S A)} {k : TraceKind} {γ lam : ℝ}
    {bootstrap : Table S A → S → Option A → ℝ} (hrule : IsLamRule rule k γ lam bootstrap) {c : Core.Cfg S}
    (hf : c.fitMode = .steps 1) {prev s : Core.St (E × Lam S A) S A ℝ Unit Unit} (h : Core.Reach (tdSys u rule) c prev s) :
    s.last = true ∨ TraceOK k (γ * lam) (episodeSoFar s.trace) s.world.2 := by
  induction h with
  | start => left; rfl
  | @iter s s' hr hm hi ih =>
    right
    obtain ⟨asked, act, obs, rew, abs, t, ths, e, e', -, -, -, -, -, hup, hF, hT⟩ := td_iter hf hr hi
    obtain ⟨hstart, hupd⟩ := hrule
    rcases Bool.eq_false_or_eq_true s.last with hl | hl
    · obtain ⟨req, obs', x, ps, th, w', -, ht⟩ := hT hl
      rw [hl, if_pos rfl, hstart] at hup
      obtain ⟨α, hα⟩ := hupd e (lamStart s.world.2) (toTrans t)
      rw [hup] at hα
      rw [ht]
      have e1 : episodeSoFar (s.trace ++ [.reset req obs' x ps th] ++
          [.step asked act obs rew abs t, .fit [t] ths s'.nextAction]) = [t] := by
        rw [show s.trace ++ [Core.Event.reset req obs' x ps th] ++ [Core.Event.step asked act obs rew abs t,
          Core.Event.fit [t] ths s'.nextAction] = ((s.trace ++ [Core.Event.reset req obs' x ps th]) ++
          [Core.Event.step asked act obs rew abs t]) ++ [Core.Event.fit [t] ths s'.nextAction] from by simp]
        rw [episodeSoFar_append, episodeSoFar_append, episodeSoFar_append]
        rfl
      rw [e1]
      have h0 : TraceOK k (γ * lam) [] (lamStart s.world.2) := by
        intro s a; cases k <;> simp [lamStart, credit, discountedVisits, lastVisit]
      have := (lamUpdate_ok (α := α) (delta := (toTrans t).reward + γ * (if (toTrans t).absorbing then 0 else
        bootstrap (lamStart s.world.2).Q (toTrans t).next s'.nextAction) - (lamStart s.world.2).Q (toTrans t).state (toTrans t).action)
        h0 t).1
      simp only [List.nil_append] at this
      simp only [] at hα
      rw [hα]
      exact this
    · obtain ⟨-, -, ht⟩ := hF hl
      have ih := ih.resolve_left (by simp [hl])
      rw [hl] at hup
      simp only [Bool.false_eq_true, if_false] at hup
      obtain ⟨α, hα⟩ := hupd e s.world.2 (toTrans t)
      rw [hup] at hα
      rw [ht]
      have e1 : episodeSoFar (s.trace ++ [.step asked act obs rew abs t, .fit [t] ths s'.nextAction]) =
          episodeSoFar s.trace ++ [t] := by
        rw [show s.trace ++ [Core.Event.step asked act obs rew abs t, Core.Event.fit [t] ths s'.nextAction] =
          (s.trace ++ [Core.Event.step asked act obs rew abs t]) ++ [Core.Event.fit [t] ths s'.nextAction] from by simp]
        rw [episodeSoFar_append, episodeSoFar_append]
      rw [e1]
      have := (lamUpdate_ok (α := α) (delta := (toTrans t).reward + γ * (if (toTrans t).absorbing then 0 else
        bootstrap s.world.2.Q (toTrans t).next s'.nextAction) - s.world.2.Q (toTrans t).state (toTrans t).action)
        ih t).1
      simp only [] at hα
      rw [hα]
      exact this

/-- What one iteration of an eligibility trace agent does to its table. -/
theorem credit_iter {u : User E S A (Lam S A)} {rule : Rule E S A (Lam S A)} {k : TraceKind} {γ lam : ℝ}
    {bootstrap : Table S A → S → Option A → ℝ} (hrule : IsLamRule rule k γ lam bootstrap) {c : Core.Cfg S}
    (hf : c.fitMode = .steps 1) {prev s s' : Core.St (E × Lam S A) S A ℝ Unit Unit}
    (h : Core.Reach (tdSys u rule) c prev s) (hi : Core.iter (tdSys u rule) c s = .ok s') :
    ∃ t, ∃ α : ℝ, Core.steps s'.trace = Core.steps s.trace ++ [t] ∧ (∃ l, episodeSoFar s'.trace = l ++ [t]) ∧
      ∀ x b, s'.world.2.Q x b = s.world.2.Q x b + α * (t.reward +
        γ * (if t.absorbing then 0 else bootstrap s.world.2.Q t.nextState s'.nextAction) - s.world.2.Q t.state t.action) *
          credit k (γ * lam) x b (episodeSoFar s'.trace) := by
  have hok := trace_ok_reach hrule hf h
  obtain ⟨asked, act, obs, rew, abs, t, ths, e, e', -, -, -, -, -, hup, hF, hT⟩ := td_iter hf h hi
  obtain ⟨hstart, hupd⟩ := hrule
  rcases Bool.eq_false_or_eq_true s.last with hl | hl
  · obtain ⟨req, obs', x, ps, th, w', -, ht⟩ := hT hl
    rw [hl, if_pos rfl, hstart] at hup
    obtain ⟨α, hα⟩ := hupd e (lamStart s.world.2) (toTrans t)
    rw [hup] at hα
    have e1 : episodeSoFar s'.trace = [t] := by
      rw [ht]
      rw [show s.trace ++ [Core.Event.reset req obs' x ps th] ++ [Core.Event.step asked act obs rew abs t,
        Core.Event.fit [t] ths s'.nextAction] = ((s.trace ++ [Core.Event.reset req obs' x ps th]) ++
        [Core.Event.step asked act obs rew abs t]) ++ [Core.Event.fit [t] ths s'.nextAction] from by simp]
      rw [episodeSoFar_append, episodeSoFar_append, episodeSoFar_append]
      rfl
    refine ⟨t, α, ?_, ⟨[], e1⟩, ?_⟩
    · rw [ht]; simp [Core.steps_append, Core.steps]
    · intro x b
      have h0 : TraceOK k (γ * lam) [] (lamStart s.world.2) := by
        intro s a; cases k <;> simp [lamStart, credit, discountedVisits, lastVisit]
      have := (lamUpdate_ok (α := α) (delta := (toTrans t).reward + γ * (if (toTrans t).absorbing then 0 else
        bootstrap (lamStart s.world.2).Q (toTrans t).next s'.nextAction) - (lamStart s.world.2).Q (toTrans t).state (toTrans t).action)
        h0 t).2 x b
      simp only [] at hα
      rw [e1, hα]
      exact this
  · obtain ⟨-, -, ht⟩ := hF hl
    have hok := hok.resolve_left (by simp [hl])
    rw [hl] at hup
    simp only [Bool.false_eq_true, if_false] at hup
    obtain ⟨α, hα⟩ := hupd e s.world.2 (toTrans t)
    rw [hup] at hα
    have e1 : episodeSoFar s'.trace = episodeSoFar s.trace ++ [t] := by
      rw [ht]
      rw [show s.trace ++ [Core.Event.step asked act obs rew abs t, Core.Event.fit [t] ths s'.nextAction] =
        (s.trace ++ [Core.Event.step asked act obs rew abs t]) ++ [Core.Event.fit [t] ths s'.nextAction] from by simp]
      rw [episodeSoFar_append, episodeSoFar_append]
    refine ⟨t, α, ?_, ⟨_, e1⟩, ?_⟩
    · rw [ht]; simp [Core.steps_append, Core.steps]
    · intro x b
      have := (lamUpdate_ok (α := α) (delta := (toTrans t).reward + γ * (if (toTrans t).absorbing then 0 else
        bootstrap s.world.2.Q (toTrans t).next s'.nextAction) - s.world.2.Q (toTrans t).state (toTrans t).action)
        hok t).2 x b
      simp only [] at hα
      rw [e1, hα]
      exact this

/-- C32, SARSA(lambda). In every learning run, the iteration that makes the transition `t` changes the value of every pair by
the learning rate times the temporal difference error times the credit of the pair in the current episode, with decay
`γ * lam`. The value bootstrapped from is that of the action left for the next step. -/
theorem C32_sarsaLambda (u : User E S A (Lam S A)) (k : TraceKind) (γ lam : ℝ) (rate : E → S → A → E × ℝ) (lamPar : E → E × ℝ)
    (hlam : ∀ e, (lamPar e).2 = lam) (c : Core.Cfg S) (hf : c.fitMode = .steps 1)
    (prev s s' : Core.St (E × Lam S A) S A ℝ Unit Unit)
    (h : Core.Reach (tdSys u (sarsaLambdaRule u k γ rate lamPar)) c prev s)
    (hi : Core.iter (tdSys u (sarsaLambdaRule u k γ rate lamPar)) c s = .ok s') :
    ∃ t a', ∃ α : ℝ, Core.steps s'.trace = Core.steps s.trace ++ [t] ∧ (∃ l, episodeSoFar s'.trace = l ++ [t]) ∧
      s'.nextAction = some a' ∧
      ∀ x b, s'.world.2.Q x b = s.world.2.Q x b + α * (t.reward +
        γ * (if t.absorbing then 0 else s.world.2.Q t.nextState a') - s.world.2.Q t.state t.action) *
          credit k (γ * lam) x b (episodeSoFar s'.trace) := by
  have hrule : IsLamRule (sarsaLambdaRule u k γ rate lamPar) k γ lam (fun Q s a => match a with | some a => Q s a | none => 0) := by
    refine ⟨rfl, ?_⟩
    intro e g t
    refine ⟨(rate (agentDraw u e g none t.next).1 t.state t.action).2, ?_⟩
    simp only [sarsaLambdaRule, sarsaLambda, hlam]
    cases t.absorbing <;> simp
  obtain ⟨t, α, h1, h2, h3⟩ := credit_iter hrule hf h hi
  have hn : ∃ a', s'.nextAction = some a' := by
    obtain ⟨_, _, _, _, _, smp, _, e, e', -, -, -, -, -, hup, -, -⟩ := td_iter hf h hi
    simp only [sarsaLambdaRule, Prod.mk.injEq] at hup
    exact ⟨_, hup.2.2.symm⟩
  obtain ⟨a', ha'⟩ := hn
  exact ⟨t, a', α, h1, h2, ha', by simpa only [ha'] using h3⟩

/-- C32, Q(lambda): the same with the largest value of the next state. -/
theorem C32_qLambda (u : User E S A (Lam S A)) (k : TraceKind) (γ lam : ℝ) (rate : E → S → A → E × ℝ) (lamPar : E → E × ℝ)
    (hlam : ∀ e, (lamPar e).2 = lam) (c : Core.Cfg S) (hf : c.fitMode = .steps 1)
    (prev s s' : Core.St (E × Lam S A) S A ℝ Unit Unit)
    (h : Core.Reach (tdSys u (qLambdaRule k γ rate lamPar)) c prev s)
    (hi : Core.iter (tdSys u (qLambdaRule k γ rate lamPar)) c s = .ok s') :
    ∃ t, ∃ α m : ℝ, Core.steps s'.trace = Core.steps s.trace ++ [t] ∧ (∃ l, episodeSoFar s'.trace = l ++ [t]) ∧
      IsMax (s.world.2.Q t.nextState) m ∧
      ∀ x b, s'.world.2.Q x b = s.world.2.Q x b + α * (t.reward +
        γ * (if t.absorbing then 0 else m) - s.world.2.Q t.state t.action) *
          credit k (γ * lam) x b (episodeSoFar s'.trace) := by
  have hrule : IsLamRule (qLambdaRule (E := E) (S := S) (A := A) k γ rate lamPar) k γ lam (fun Q s _ => rowMax (Q s)) := by
    refine ⟨rfl, ?_⟩
    intro e g t
    refine ⟨(rate e t.state t.action).2, ?_⟩
    simp only [qLambdaRule, qLambda, hlam]
    cases t.absorbing <;> simp
  obtain ⟨t, α, h1, h2, h3⟩ := credit_iter hrule hf h hi
  exact ⟨t, α, _, h1, h2, rowMax_isMax _, h3⟩

/-- C32. A pair that has not been visited in the current episode gets no credit, whatever happened in earlier episodes. -/
theorem C32_unvisited (k : TraceKind) (d : ℝ) (s : S) (a : A) (l : List (Core.Sample S A ℝ Unit))
    (h : ∀ t ∈ l, ¬ Visits s a t) : credit k d s a l = 0 := by
  cases k
  · exact lastVisit_none d s a l h
  · simp only [credit]
    induction l with
    | nil => rfl
    | cons x l ih =>
      simp only [discountedVisits, h x (by simp), if_false, zero_add]
      exact ih (fun t ht => h t (by simp [ht]))

/-- C32. The pair visited by the last transition gets full credit (at least one), and with replacing traces all credits are in
[0, 1]. -/
theorem C32_credit_range (d : ℝ) (hd0 : 0 ≤ d) (hd1 : d ≤ 1) (s : S) (a : A) (l : List (Core.Sample S A ℝ Unit)) :
    0 ≤ credit .replacing d s a l ∧ credit .replacing d s a l ≤ 1 ∧ 0 ≤ credit .accumulating d s a l ∧
    credit .replacing d s a l ≤ credit .accumulating d s a l ∧
    (∀ init t, l = init ++ [t] → Visits s a t → credit .replacing d s a l = 1 ∧ 1 ≤ credit .accumulating d s a l) := by
  have hacc : ∀ l : List (Core.Sample S A ℝ Unit), 0 ≤ discountedVisits d s a l := by
    intro l
    induction l with
    | nil => simp [discountedVisits]
    | cons x l ih =>
      simp only [discountedVisits]
      apply add_nonneg _ ih
      split
      · exact pow_nonneg hd0 _
      · exact le_rfl
  have hrep : ∀ l : List (Core.Sample S A ℝ Unit), 0 ≤ lastVisit d s a l ∧ lastVisit d s a l ≤ 1 ∧
      lastVisit d s a l ≤ discountedVisits d s a l := by
    intro l
    induction l with
    | nil => simp [lastVisit, discountedVisits]
    | cons x l ih =>
      simp only [lastVisit, discountedVisits]
      have h1 : 0 ≤ (if Visits s a x then d ^ l.length else 0) := by
        split
        · exact pow_nonneg hd0 _
        · exact le_rfl
      split
      · exact ⟨ih.1, ih.2.1, by linarith [ih.2.2]⟩
      · refine ⟨h1, ?_, by linarith [hacc l]⟩
        split
        · exact pow_le_one₀ hd0 hd1
        · norm_num
  refine ⟨(hrep l).1, (hrep l).2.1, hacc l, (hrep l).2.2, ?_⟩
  rintro init t rfl hv
  simp only [credit, lastVisit_append, discountedVisits_append, hv, if_true, true_and]
  have := mul_nonneg hd0 (hacc init)
  linarith

example : credit .accumulating (1 / 2) true true
    [({ state := true, action := true, reward := 0, nextState := true, absorbing := false, last := false, policyState := none,
        policyNextState := none } : Core.Sample Bool Bool ℝ Unit),
     { state := true, action := true, reward := 0, nextState := true, absorbing := false, last := false, policyState := none,
        policyNextState := none }] = 3 / 2 := by
  norm_num [credit, discountedVisits, Visits]

/-! ### C74: with lambda = 0 the traces change nothing -/

/-- With `lam = 0` and a reset trace, SARSA(lambda) is SARSA, Q(lambda) is Q-learning, and the trace is reset again after
the update, so that this holds for all further updates. -/
theorem C74_lambda_zero (k : TraceKind) (γ α : ℝ) (g : Lam S A) (he : ∀ s a, g.e s a = 0) (t : Trans S A) (a' : A) :
    (sarsaLambda k γ 0 α g t a').Q = sarsa γ α g.Q t a' ∧ (∀ s a, (sarsaLambda k γ 0 α g t a').e s a = 0) ∧
    (qLambda k γ 0 α g t).Q = qLearning γ α g.Q t ∧ (∀ s a, (qLambda k γ 0 α g t).e s a = 0) := by
  have htr : ∀ s a, traceUpdate k g.e t.state t.action s a = if s = t.state ∧ a = t.action then 1 else 0 := by
    intro s a
    cases k <;> simp only [traceUpdate, Table.set, he] <;> split <;> simp
  refine ⟨?_, ?_, ?_, ?_⟩
  · funext s a
    simp only [sarsaLambda, lamUpdate, htr, sarsa, Table.set]
    by_cases h : s = t.state ∧ a = t.action
    · rw [if_pos h, if_pos h, h.1, h.2, mul_one]
    · rw [if_neg h, if_neg h, mul_zero, add_zero]
  · intro s a; simp [sarsaLambda, lamUpdate]
  · funext s a
    simp only [qLambda, lamUpdate, htr, qLearning, Table.set]
    by_cases h : s = t.state ∧ a = t.action
    · rw [if_pos h, if_pos h, h.1, h.2, mul_one]
    · rw [if_neg h, if_neg h, mul_zero, add_zero]
  · intro s a; simp [qLambda, lamUpdate]

/-- The linear agents with `lam = 0`: both change the weights by the learning rate times the one-step temporal difference error
times the features, whatever the trace and `_q_old` were. -/
theorem C74_linear_lambda_zero {d : Nat} (γ α : ℝ) (w e : Fin d → ℝ) (qOld : Option ℝ) (phi phi' : Fin d → ℝ) (r : ℝ) (abs : Bool) (i : Fin d) :
    (trueOnline γ 0 α { w := w, e := e, qOld := qOld } phi phi' r abs).w i =
      w i + α * (r + γ * (if abs then 0 else dot w phi') - dot w phi) * phi i ∧
    (linLam γ 0 α { w := w, e := e } phi phi' r abs).w i =
      w i + α * (r + γ * (if abs then 0 else dot w phi') - dot w phi) * phi i := by
  constructor
  · simp only [trueOnline]
    cases abs <;> simp <;> ring
  · simp only [linLam]
    cases abs <;> simp

/-- The first update of an episode is the same for every lambda: the trace has just been reset. -/
theorem C74_first_update {d : Nat} (γ lam α : ℝ) (g : TrueOnline d) (g' : LinLam d) (hw : g.w = g'.w) (phi phi' : Fin d → ℝ) (r : ℝ)
    (abs : Bool) (i : Fin d) :
    (trueOnline γ lam α (trueOnlineStart g) phi phi' r abs).w i =
      g.w i + α * (r + γ * (if abs then 0 else dot g.w phi') - dot g.w phi) * phi i ∧
    (linLam γ lam α (linLamStart g') phi phi' r abs).w i =
      g.w i + α * (r + γ * (if abs then 0 else dot g.w phi') - dot g.w phi) * phi i := by
  rw [hw]
  constructor
  · simp only [trueOnline, trueOnlineStart, hw]
    cases abs <;> simp [dot] <;> ring
  · simp only [linLam, linLamStart]
    cases abs <;> simp

end

end Verif.TD
