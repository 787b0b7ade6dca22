/-
Property C151, continued: the policy of the model of policies, and whole runs.
-/
import Verif.TD.PropsGlie

namespace Verif.TD

open Filter Topology MeasureTheory

noncomputable section

/-! ### The policy -/

/-- C151. The probabilities used here are those of `EpsGreedy` in the model of the policies (C27). -/
theorem C151_policy {n : ℕ} (q : Fin n → ℝ) (ε : ℝ) (a : Fin n) : Policy.epsGreedyProb (List.ofFn q) ε a = epsGreedy ε q a := by
  classical
  have hmem : ∀ b : Fin n, (b : ℕ) ∈ Policy.argmaxes (List.ofFn q) ↔ b ∈ best q := by
    intro b
    rw [Policy.mem_argmaxes, mem_best]
    unfold Policy.Greedy
    constructor
    · rintro ⟨x, hx, h⟩ c
      simp only [List.getElem?_ofFn, b.2, dif_pos, Option.some.injEq] at hx
      rw [hx]
      exact h (q c) (by rw [List.mem_ofFn]; exact ⟨c, rfl⟩)
    · intro h
      refine ⟨q b, by simp, ?_⟩
      intro y hy
      rw [List.mem_ofFn] at hy
      obtain ⟨c, rfl⟩ := hy
      exact h c
  have hlen : (Policy.argmaxes (List.ofFn q)).length = (best q).card := by
    have hnd : (Policy.argmaxes (List.ofFn q)).Nodup := List.nodup_range.filter _
    have e : (best q).map Fin.valEmbedding = (Policy.argmaxes (List.ofFn q)).toFinset := by
      ext k
      simp only [Finset.mem_map, List.mem_toFinset, Fin.valEmbedding_apply]
      constructor
      · rintro ⟨b, hb, rfl⟩; exact (hmem b).2 hb
      · intro hk
        have hlt : k < n := by
          have : k ∈ (List.range (List.ofFn q).length) := List.mem_of_mem_filter hk
          simpa using this
        exact ⟨⟨k, hlt⟩, (hmem ⟨k, hlt⟩).1 hk, rfl⟩
    rw [← List.toFinset_card_of_nodup hnd, ← e, Finset.card_map]
  unfold Policy.epsGreedyProb epsGreedy uniform
  simp only [List.length_ofFn, Fintype.card_fin, hlen, hmem a]
  split
  · rw [mul_one_div]
  · simp

/-! ### Whole runs -/

variable {S A : Type} [DecidableEq S] [DecidableEq A] [Fintype S] [Fintype A] [Nonempty A] {E : Type}
variable {Ω : Type} [mΩ : MeasurableSpace Ω] {μ : Measure Ω} [IsProbabilityMeasure μ] {ℱ 𝒢 : Filtration ℕ mΩ}

/-- Episodes of unlimited length that start in `s0`, no preprocessors, and an exploration parameter, which `eps` reads from the world, that is called by every draw of the
policy with the state (`self._epsilon(state)`: td_policy.py L81) and is touched by nothing else. -/
structure OwnsEps (u : User E S A (Table S A)) (eps : E → Policy.Param) (key : S → Policy.Index) (s0 : S) : Prop where
  horizon : u.horizon = none
  corePre : u.corePre = []
  agentPre : u.agentPre = []
  start : ∀ e x, (u.envReset e x).2 = s0
  reset : ∀ e x, eps (u.envReset e x).1 = eps e
  step : ∀ e a, eps (u.envStep e a).1 = eps e
  draw : ∀ e Q s, eps (u.draw e Q s).1 = ((eps e).call (key s)).1
  callbackStep : ∀ e Q t, eps (u.callbackStep e Q t) = eps e
  callbacksFit : ∀ f ∈ u.callbacksFit, ∀ e Q b, eps (f e Q b) = eps e

omit [Fintype S] in
theorem callbacks_eps {u : User E S A (Table S A)} {rule : Rule E S A (Table S A)} {eps : E → Policy.Param} {key : S → Policy.Index} {s0 : S}
    (ho : OwnsEps u eps key s0) (b : List (Core.Sample S A ℝ Unit)) (w : E × Table S A) :
    eps ((tdSys u rule).callbacksFit.foldl (fun w cb => cb w b) w).1 = eps w.1 := by
  have : ∀ (l : List (E → Table S A → List (Core.Sample S A ℝ Unit) → E)), (∀ f ∈ l, ∀ e Q b, eps (f e Q b) = eps e) →
      ∀ (w : E × Table S A), eps ((l.map (fun f => fun (w : E × Table S A) b => (f w.1 w.2 b, w.2))).foldl (fun w cb => cb w b) w).1 =
        eps w.1 := by
    intro l
    induction l with
    | nil => intro _ w; rfl
    | cons f l ih =>
      intro hl w
      simp only [List.map_cons, List.foldl_cons]
      rw [ih (fun g hg => hl g (by simp [hg]))]
      exact hl f (by simp) _ _ _
  exact this u.callbacksFit ho.callbacksFit w

omit [Fintype S] in
/-- One iteration of a run: one draw, which calls the parameter, and where the transition starts. -/
theorem iter_eps {u : User E S A (Table S A)} {eps : E → Policy.Param} {keyE : S → Policy.Index} {s0 : S} (ho : OwnsEps u eps keyE s0)
    {param : E → Policy.Param} {write : E → Policy.Param → E} {key : S → A → Policy.Index} (hw : ∀ e p, eps (write e p) = eps e) {γ : ℝ} {c : Core.Cfg S}
    (hf : c.fitMode = .steps 1) {prev s s' : Core.St (E × Table S A) S A ℝ Unit Unit}
    (h : Core.Reach (tdSys u (qLearningRule γ (rateOf param write key))) c prev s)
    (hi : Core.iter (tdSys u (qLearningRule γ (rateOf param write key))) c s = .ok s') (hn : s.last = true ∨ s.nextAction = none) :
    ∃ smp : Core.Sample S A ℝ Unit, Core.steps s'.trace = Core.steps s.trace ++ [smp] ∧
      eps s'.world.1 = ((eps s.world.1).call (keyE smp.state)).1 ∧ (s.last = true → smp.state = s0) ∧ (s.last = false → s.state = some smp.state) ∧
      s'.state = some smp.nextState ∧ s'.last = smp.absorbing ∧ s'.nextAction = none := by
  set rule := qLearningRule γ (rateOf param write key) with hrule
  have hrows := rows_empty hf h
  obtain ⟨s1, x, s2, h1, hx, h2, rfl⟩ := Core.iter_cases hi
  have hpre : (tdSys u rule).corePre = [] := by simp [tdSys, ho.corePre]
  have hapre : (tdSys u rule).agentPre = [] := by simp [tdSys, ho.agentPre]
  have hp1 : eps s1.world.1 = eps s.world.1 ∧ s1.nextAction = none ∧ (s.last = true → x = s0) ∧ (s.last = false → s.state = some x) := by
    split at h1
    · rename_i hl
      unfold Core.reset at h1
      split at h1
      · cases h1
      · simp only [Except.ok.injEq] at h1
        subst h1
        simp only [hpre, Core.preprocess, Option.some.injEq] at hx ⊢
        refine ⟨ho.reset _ _, trivial, fun _ => ?_, fun h' => by rw [hl] at h'; cases h'⟩
        rw [← hx]
        exact ho.start _ _
    · rename_i hl
      simp only [Except.ok.injEq] at h1
      subst h1
      exact ⟨rfl, hn.resolve_left hl, fun h' => absurd h' hl, fun _ => hx⟩
  have hp2 : eps s2.world.1 = ((eps s1.world.1).call (keyE x)).1 := by
    unfold Core.step at h2
    simp only at h2
    split at h2
    · cases h2
    · simp only [Except.ok.injEq] at h2
      subst h2
      refine (ho.callbackStep _ _ _).trans ?_
      rw [hp1.2.1, hpre]
      simp only [Core.preprocess, Core.drawAction, hapre, Core.agentPreprocess]
      refine (ho.step _ _).trans ?_
      exact ho.draw _ _ _
  obtain ⟨asked, act, obs, rew, abs, w, smp, f1, f2, f3, f4, f5, f6, f7, f8, f9, r1, r2, r3, r4, r5, r6, r7, r8, r9, r10,
    -, r11⟩ := Core.step_fields h2
  have hreq : Core.fitRequired c.fitMode s2 = true := by
    rw [hf]; simp [Core.fitRequired, r3]
  have hrows1 : s1.rows = [] := by
    split at h1
    · rw [(Core.reset_fields h1).1, hrows]
    · simp only [Except.ok.injEq] at h1; rw [← h1, hrows]
  have hrows2 : s2.rows = [smp] := by rw [r1, hrows1]; rfl
  have ht1 : Core.steps s1.trace = Core.steps s.trace := by
    split at h1
    · obtain ⟨-, -, -, -, -, -, -, hna, req, obs', x', w', th, -, hx', -, ht, -⟩ := Core.reset_fields h1
      rw [ht, Core.steps_append]; simp [Core.steps]
    · simp only [Except.ok.injEq] at h1; rw [← h1]
  have hfit : Core.fitPhase (tdSys u rule) c s2 = { s2 with
      world := (tdSys u rule).callbacksFit.foldl (fun w cb => cb w s2.rows) ((tdSys u rule).fit s2.world s2.nextAction s2.rows s2.thetas).1
      nextAction := ((tdSys u rule).fit s2.world s2.nextAction s2.rows s2.thetas).2
      currentEpisodes := 0, currentSteps := 0, rows := [], thetas := []
      trace := s2.trace ++ [.fit s2.rows s2.thetas ((tdSys u rule).fit s2.world s2.nextAction s2.rows s2.thetas).2] } := by
    unfold Core.fitPhase
    rw [if_pos hreq]
  refine ⟨smp, ?_, ?_, fun h' => f1.trans (hp1.2.2.1 h'), fun h' => ?_, ?_, ?_, ?_⟩
  · rw [hfit]
    simp only
    rw [Core.steps_append, r11, Core.steps_append, ht1]
    simp [Core.steps]
  · rw [hfit]
    refine (callbacks_eps ho _ _).trans ?_
    rw [hrows2, f1, ← hp1.1, ← hp2]
    exact hw _ _
  · rw [f1]; exact hp1.2.2.2 h'
  · rw [hfit]; exact r7
  · rw [hfit]
    show s2.last = smp.absorbing
    rw [r6, f8, f6]
    have : (tdSys u rule).horizon = none := ho.horizon
    rw [this]
    simp [Core.isLast]
  · rw [hfit, hrows2]
    show s2.nextAction = none
    exact r9

/-- C151. Whole runs: a Q-learning agent whose policy is `EpsGreedy` with `DecayParameter(v, p, size=n_states)`, p in (0, 1], and whose learning rate is
`DecayParameter(w, r, size=mdp.info.size)`, r in (1/2, 1], is run by `learn` for `n` steps with one step per fit. `s n ω` is the state of the program after `n` steps and
`t` are the transitions it recorded. The next states have the probabilities of the problem, and the actions have those that the policy gives to them with the table and
the parameter that the program has at that moment. If every live state can be reached from every other one, then with probability one the table converges to the optimal
values as `n` grows, and every action is taken again and again in every live state although the policy becomes greedy. -/
theorem C151_learn (u : User E S A (Table S A)) (param eps : E → Policy.Param) (write : E → Policy.Param → E) (key : S → A → Policy.Index) (keyE : S → Policy.Index)
    (s0 : S) (ho : OwnsRate u param) (hoe : OwnsEps u eps keyE s0) (hw : ∀ e p, param (write e p) = p) (hwe : ∀ e p, eps (write e p) = eps e)
    (hkey : ∀ s a s' a', key s a = key s' a' → s = s' ∧ a = a') (hkeyE : ∀ s s', keyE s = keyE s' → s = s')
    (v p : ℝ) (hv0 : 0 < v) (hv1 : v ≤ 1) (hp0 : 0 < p) (hp1 : p ≤ 1) (w r : ℝ) (hw0 : 0 < w) (hw1 : w ≤ 1) (hr0 : 1 / 2 < r) (hr1 : r ≤ 1)
    (m : RandomMDP S A) (hm : m.Proper) (L : S → Prop) (hcl : m.Closed L) (hcom : m.Communicating L s0) (γ : ℝ) (hγ0 : 0 ≤ γ) (hγ1 : γ < 1)
    (Qs : Table S A) (hQs : m.OptimalOn L γ Qs) (Q0 : Table S A)
    (prev : Ω → Core.St (E × Table S A) S A ℝ Unit Unit) (s : ℕ → Ω → Core.St (E × Table S A) S A ℝ Unit Unit)
    (hrun : ∀ n ω, ∃ fuel, Core.learn (tdSys u (qLearningRule γ (rateOf param write key))) fuel (prev ω) (some n) none (some 1) none =
      some (.ok (s n ω)))
    (hprev : ∀ ω, (prev ω).world.2 = Q0 ∧ param (prev ω).world.1 = Policy.decayParam w r none none false ∧
      eps (prev ω).world.1 = Policy.decayParam v p none none false)
    (t : ℕ → Ω → Trans S A) (hrec : ∀ n ω, (Core.steps (s n ω).trace).map toTrans = (List.range n).map (t · ω))
    (ht : Experience μ ℱ m L t)
    (hd : ActionDraws μ ℱ 𝒢 (fun n ω x => epsGreedy ((eps (s n ω).world.1).call (keyE x)).2 ((s n ω).world.2 x)) t) :
    ∀ᵐ ω ∂μ, (∀ x, L x → ∀ a, Tendsto (fun n => (s n ω).world.2 x a) atTop (𝓝 (Qs x a))) ∧ ExploresForever L (t · ω) ∧
      ∀ x, L x → ∀ a, ¬ Maximises (Qs x) a → Tendsto (fun n => epsGreedy ((eps (s n ω).world.1).call (keyE x)).2 ((s n ω).world.2 x) a) atTop (𝓝 0) := by
  have hinv : ∀ ω n, eps (s n ω).world.1 = epsAfter (Policy.decayParam v p none none false) keyE (t · ω) n ∧
      ((s n ω).last = true ∨ (s n ω).nextAction = none) ∧
      (0 < n → (s n ω).state = some (t (n - 1) ω).next ∧ (s n ω).last = (t (n - 1) ω).absorbing) ∧
      (0 < n → (t 0 ω).state = s0) ∧ ∀ k, k + 1 < n → (t (k + 1) ω).state = if (t k ω).absorbing then s0 else (t k ω).next := by
    intro ω n
    induction n with
    | zero =>
      obtain ⟨fuel, hr⟩ := hrun 0 ω
      have : s 0 ω = Core.start (prev ω) := by
        have e : Core.learn (tdSys u (qLearningRule γ (rateOf param write key))) fuel (prev ω) (some 0) none (some 1) none =
          some (.ok (Core.start (prev ω))) := by cases fuel <;> rfl
        rw [e] at hr
        simpa using hr.symm
      rw [this]
      exact ⟨(hprev ω).2.2, Or.inl rfl, fun h => absurd h (Nat.lt_irrefl _), fun h => absurd h (Nat.lt_irrefl _), fun k h => by omega⟩
    | succ n ih =>
      obtain ⟨fuel, hr⟩ := hrun n ω
      obtain ⟨fuel', hr'⟩ := hrun (n + 1) ω
      obtain ⟨hreach, hi⟩ := learn_continues hr hr'
      obtain ⟨smp, g1, g2, g3, g4, g5, g6, g7⟩ := iter_eps hoe hwe rfl hreach hi ih.2.1
      have hsmp : toTrans smp = t n ω := by
        have := hrec (n + 1) ω
        rw [g1, List.map_append, hrec n ω, List.range_succ, List.map_append] at this
        simpa using this
      have e1 : smp.state = (t n ω).state := by rw [← hsmp]; rfl
      have e2 : smp.nextState = (t n ω).next := by rw [← hsmp]; rfl
      have e3 : smp.absorbing = (t n ω).absorbing := by rw [← hsmp]; rfl
      refine ⟨?_, Or.inr g7, fun _ => ⟨by rw [g5, e2]; rfl, by rw [g6, e3]; rfl⟩, fun _ => ?_, fun k hk => ?_⟩
      · rw [g2, ih.1, e1]
        unfold epsAfter
        rw [List.range_succ, List.map_append, Policy.run_append]
        rfl
      · rcases Nat.eq_zero_or_pos n with rfl | hn
        · obtain ⟨fuel, hr⟩ := hrun 0 ω
          have h0 : (s 0 ω).last = true := by
            have e : Core.learn (tdSys u (qLearningRule γ (rateOf param write key))) fuel (prev ω) (some 0) none (some 1) none =
              some (.ok (Core.start (prev ω))) := by cases fuel <;> rfl
            rw [e] at hr
            have : s 0 ω = Core.start (prev ω) := by simpa using hr.symm
            rw [this]; rfl
          rw [← e1]; exact g3 h0
        · exact ih.2.2.2.1 hn
      · rcases Nat.lt_or_ge (k + 1) n with h | h
        · exact ih.2.2.2.2 k h
        · obtain rfl : n = k + 1 := by omega
          obtain ⟨i1, i2⟩ := ih.2.2.1 (Nat.succ_pos _)
          simp only [Nat.add_sub_cancel] at i1 i2
          rw [← e1]
          cases hb : (t k ω).absorbing with
          | true => rw [hb] at i2; rw [if_pos rfl]; exact g3 i2
          | false =>
            rw [hb] at i2
            have := g4 i2
            rw [i1] at this
            rw [if_neg (by simp)]
            exact (Option.some.inj this).symm
  have hre : ∀ ω, Restarts s0 (t · ω) := fun ω k => (hinv ω (k + 2)).2.2.2.2 k (by omega)
  have heps : ∀ n ω x, ((eps (s n ω).world.1).call (keyE x)).2 = epsAt (Policy.decayParam v p none none false) keyE (t · ω) n x := fun n ω x => by
    rw [(hinv ω n).1]; rfl
  simp only [heps] at hd ⊢
  have hexp := C151_explores_all m L s0 hcom t ht hre keyE hkeyE v p hv0 hv1 hp0.le hp1 _ hd
  have hconv := C145_learn u param write key ho hw hkey w r hw0 hw1 hr0 hr1 m hm L hcl γ hγ0 hγ1 Qs hQs Q0 prev s hrun (fun ω => ⟨(hprev ω).1, (hprev ω).2.1⟩) t hrec ht
    (hexp.mono fun ω h => h.2)
  filter_upwards [hexp, hconv] with ω h1 h2
  refine ⟨h2, h1.2, fun x hx a ha => ?_⟩
  have hz := C151_eps_vanishes (v := v) hkeyE hp0 (h1.1 x hx)
  refine squeeze_zero' (Eventually.of_forall fun n => (epsGreedy_prob (epsAt_range hkeyE hv0 hv1 hp0.le _ _ _).1 (epsAt_range hkeyE hv0 hv1 hp0.le _ _ _).2 _).1 a) ?_ hz
  filter_upwards [eventually_maximises h2] with n hn
  have hnot : a ∉ best ((s n ω).world.2 x) := fun h => ha (hn x hx a (mem_best.1 h))
  have h4 := (epsGreedy_rest (epsAt_range hkeyE hv0 hv1 hp0.le (t · ω) n x).1 ((s n ω).world.2 x)).2
  exact (Finset.single_le_sum (fun a _ => (epsGreedy_prob (epsAt_range hkeyE hv0 hv1 hp0.le _ _ _).1 (epsAt_range hkeyE hv0 hv1 hp0.le _ _ _).2 _).1 a)
    (Finset.mem_compl.2 hnot)).trans h4

end

end Verif.TD
