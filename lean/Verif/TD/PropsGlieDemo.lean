/-
Property C151, continued: the hypotheses about whole runs can be met in every finite problem.
-/
import Verif.TD.PropsGlieExists

namespace Verif.TD

open Filter Topology MeasureTheory

noncomputable section

variable {S A : Type} [DecidableEq S] [DecidableEq A] [Fintype S] [Fintype A] [Nonempty A]

/-- A world in which all the random outcomes are written on a tape, with the two parameters of the agent. -/
structure Taped (S A : Type) where
  tape : ℕ → Trans S A
  used : ℕ
  rate : Policy.Param
  eps : Policy.Param

/-- The environment and the policy read their outcomes from the tape; the policy calls its parameter. -/
def tapeUser (s0 : S) (keyE : S → Policy.Index) : User (Taped S A) S A (Table S A) :=
  { horizon := none
    envReset := fun e _ => (e, s0)
    envStep := fun e _ => ({ e with used := e.used + 1 }, ((e.tape e.used).next, (e.tape e.used).reward, (e.tape e.used).absorbing))
    draw := fun e _ s => ({ e with eps := (e.eps.call (keyE s)).1 }, (e.tape e.used).action)
    corePre := [], agentPre := [], callbackStep := fun e _ _ => e, callbacksFit := [] }

def tapeWrite (e : Taped S A) (p : Policy.Param) : Taped S A := { e with rate := p }

omit [Fintype S] [DecidableEq S] [DecidableEq A] [Fintype A] [Nonempty A] in
theorem tape_ownsRate (s0 : S) (keyE : S → Policy.Index) : OwnsRate (tapeUser (A := A) s0 keyE) Taped.rate :=
  ⟨by simp [tapeUser], fun _ _ => rfl, fun _ _ => rfl, fun _ _ _ => rfl, fun _ _ _ => rfl, by simp [tapeUser]⟩

omit [Fintype S] [DecidableEq S] [DecidableEq A] [Fintype A] [Nonempty A] in
theorem tape_ownsEps (s0 : S) (keyE : S → Policy.Index) : OwnsEps (tapeUser (A := A) s0 keyE) Taped.eps keyE s0 :=
  ⟨rfl, rfl, rfl, fun _ _ => rfl, fun _ _ => rfl, fun _ _ => rfl, fun _ _ _ => rfl, fun _ _ _ => rfl, by simp [tapeUser]⟩

def tapePrev (τ : ℕ → Trans S A) (rate eps : Policy.Param) (Q0 : Table S A) : Core.St (Taped S A × Table S A) S A ℝ Unit Unit :=
  { world := (⟨τ, 0, rate, eps⟩, Q0), state := none, policyState := none, theta := none,
    episodeSteps := 0, nextAction := none, totalEpisodes := 0, totalSteps := 0, currentEpisodes := 0, currentSteps := 0, last := true,
    rows := [], thetas := [], trace := [] }

def tapeSys (γ : ℝ) (s0 : S) (keyE : S → Policy.Index) (key : S → A → Policy.Index) : Core.Sys (Taped S A × Table S A) S A ℝ Unit Unit :=
  tdSys (tapeUser s0 keyE) (qLearningRule γ (rateOf Taped.rate tapeWrite key))

/-- What a run has done after `n` steps. -/
structure TapeInv (γ : ℝ) (s0 : S) (keyE : S → Policy.Index) (key : S → A → Policy.Index) (τ : ℕ → Trans S A) (rate eps : Policy.Param) (Q0 : Table S A) (n : ℕ)
    (s : Core.St (Taped S A × Table S A) S A ℝ Unit Unit) : Prop where
  next : s.nextAction = none
  going : s.last = false → s.state = some (τ n).state
  over : s.last = true → (τ n).state = s0
  tape : s.world.1.tape = τ
  used : s.world.1.used = n
  rateIs : s.world.1.rate = paramAfter rate key τ n
  epsIs : s.world.1.eps = epsAfter eps keyE τ n
  table : s.world.2 = tables (fun k Q => qLearning γ (rateAt rate key τ k) Q (τ k)) Q0 n
  trace : (Core.steps s.trace).map toTrans = (List.range n).map τ

theorem tape_iter {γ : ℝ} {s0 : S} {keyE : S → Policy.Index} {key : S → A → Policy.Index} {τ : ℕ → Trans S A} {rate eps : Policy.Param} {Q0 : Table S A} {n : ℕ}
    (hre : Restarts s0 τ) {c : Core.Cfg S} (hf : c.fitMode = .steps 1) (hc : c.capacity = some 1) (hini : c.initialStates = none)
    {s s' : Core.St (Taped S A × Table S A) S A ℝ Unit Unit} (hrows : s.rows = []) (hI : TapeInv γ s0 keyE key τ rate eps Q0 n s)
    (h : Core.iter (tapeSys γ s0 keyE key) c s = .ok s') : TapeInv γ s0 keyE key τ rate eps Q0 (n + 1) s' := by
  obtain ⟨h1, h2, h3, h4, h5, h6, h7, h8, h9⟩ := hI
  have hpar : paramAfter rate key τ (n + 1) = ((paramAfter rate key τ n).call (key (τ n).state (τ n).action)).1 := by
    unfold paramAfter
    rw [List.range_succ, List.map_append, Policy.run_append]
    rfl
  have heps : epsAfter eps keyE τ (n + 1) = ((epsAfter eps keyE τ n).call (keyE (τ n).state)).1 := by
    unfold epsAfter
    rw [List.range_succ, List.map_append, Policy.run_append]
    rfl
  have hs := hre n
  unfold Core.iter at h
  rcases Bool.eq_false_or_eq_true s.last with hl | hl
  · have e0 := h3 hl
    simp [hl, Core.reset, Core.getInitialState, hini, tapeSys, tdSys, tapeUser, Core.preprocess, Core.step, Core.drawAction, hrows,
      Core.isFull, hc, Core.agentPreprocess, Core.isLast, h4, h5, qLearningRule] at h
    subst h
    refine ⟨?_, fun hab => ?_, fun hab => ?_, ?_, ?_, ?_, ?_, ?_, ?_⟩
    · simp [Core.fitPhase, Core.fitRequired, hf]
    · simp [Core.fitPhase, Core.fitRequired, hf] at hab ⊢
      rw [hs, hab]; simp
    · simp [Core.fitPhase, Core.fitRequired, hf] at hab
      rw [hs, hab]; simp
    · simp [Core.fitPhase, Core.fitRequired, hf, rateOf, tapeWrite, h4]
    · simp [Core.fitPhase, Core.fitRequired, hf, rateOf, tapeWrite, h5]
    · simp [Core.fitPhase, Core.fitRequired, hf, rateOf, tapeWrite, toTrans, h6, hpar, e0]
    · simp [Core.fitPhase, Core.fitRequired, hf, rateOf, tapeWrite, toTrans, h7, heps, e0]
    · simp [Core.fitPhase, Core.fitRequired, hf, rateOf, tapeWrite, toTrans, h6, h8, tables, rateAt]
      rw [← e0]
    · simp [Core.fitPhase, Core.fitRequired, hf, Core.steps_append]
      rw [h9, List.range_succ, List.map_append, ← e0]
      rfl
  · have e0 := h2 hl
    simp [hl, e0, tapeSys, tdSys, tapeUser, Core.preprocess, Core.step, Core.drawAction, hrows, h1,
      Core.isFull, hc, Core.agentPreprocess, Core.isLast, h4, h5, qLearningRule] at h
    subst h
    refine ⟨?_, fun hab => ?_, fun hab => ?_, ?_, ?_, ?_, ?_, ?_, ?_⟩
    · simp [Core.fitPhase, Core.fitRequired, hf]
    · simp [Core.fitPhase, Core.fitRequired, hf] at hab ⊢
      rw [hs, hab]; simp
    · simp [Core.fitPhase, Core.fitRequired, hf] at hab
      rw [hs, hab]; simp
    · simp [Core.fitPhase, Core.fitRequired, hf, rateOf, tapeWrite, h4]
    · simp [Core.fitPhase, Core.fitRequired, hf, rateOf, tapeWrite, h5]
    · simp [Core.fitPhase, Core.fitRequired, hf, rateOf, tapeWrite, toTrans, h6, hpar]
    · simp [Core.fitPhase, Core.fitRequired, hf, rateOf, tapeWrite, toTrans, h7, heps]
    · simp [Core.fitPhase, Core.fitRequired, hf, rateOf, tapeWrite, toTrans, h6, h8, tables, rateAt]
    · simp [Core.fitPhase, Core.fitRequired, hf, Core.steps_append]
      rw [h9, List.range_succ, List.map_append]
      rfl

theorem tape_reach {γ : ℝ} {s0 : S} {keyE : S → Policy.Index} {key : S → A → Policy.Index} {τ : ℕ → Trans S A} {rate eps : Policy.Param} {Q0 : Table S A} {n : ℕ}
    (hre : Restarts s0 τ) (h0 : (τ 0).state = s0) {s : Core.St (Taped S A × Table S A) S A ℝ Unit Unit}
    (h : Core.Reach (tapeSys γ s0 keyE key) (stepsCfg n) (tapePrev τ rate eps Q0) s) : TapeInv γ s0 keyE key τ rate eps Q0 s.totalSteps s := by
  induction h with
  | start => exact ⟨rfl, by simp [Core.start], fun _ => h0, rfl, rfl, rfl, rfl, rfl, by simp [Core.start, Core.steps]⟩
  | @iter s s' hr hm hi ih =>
    rw [iter_totalSteps hi]
    exact tape_iter hre rfl rfl rfl (rows_empty rfl hr) ih hi

/-- C151. The hypotheses of `C151_learn` can be met in every finite problem in which every live state can be reached from every other one: there is a program, with random
outcomes, whose runs by `learn` find the optimal values with probability one. -/
theorem C151_learn_exists (m : RandomMDP S A) (hm : m.Proper) (L : S → Prop) (hcl : m.Closed L) (s0 : S) (h0 : L s0) (hcom : m.Communicating L s0) (γ : ℝ) (hγ0 : 0 ≤ γ)
    (hγ1 : γ < 1) (Qs : Table S A) (hQs : m.OptimalOn L γ Qs) (keyE : S → Policy.Index) (hkeyE : ∀ s s', keyE s = keyE s' → s = s')
    (v p : ℝ) (hv0 : 0 < v) (hv1 : v ≤ 1) (hp0 : 0 < p) (hp1 : p ≤ 1)
    (key : S → A → Policy.Index) (hkey : ∀ s a s' a', key s a = key s' a' → s = s' ∧ a = a') (w r : ℝ) (hw0 : 0 < w) (hw1 : w ≤ 1) (hr0 : 1 / 2 < r) (hr1 : r ≤ 1)
    (Q0 : Table S A) :
    ∃ (Ω : Type) (mΩ : MeasurableSpace Ω) (μ : Measure Ω) (_ : IsProbabilityMeasure μ) (ℱ 𝒢 : Filtration ℕ mΩ) (t : ℕ → Ω → Trans S A)
      (s : ℕ → Ω → Core.St (Taped S A × Table S A) S A ℝ Unit Unit),
      (∀ n ω, Core.learn (tapeSys γ s0 keyE key) n (tapePrev (t · ω) (Policy.decayParam w r none none false) (Policy.decayParam v p none none false) Q0) (some n) none (some 1) none =
        some (.ok (s n ω))) ∧
      Experience μ ℱ m L t ∧
      ActionDraws μ ℱ 𝒢 (fun n ω x => epsGreedy (((s n ω).world.1.eps).call (keyE x)).2 ((s n ω).world.2 x)) t ∧
      ∀ᵐ ω ∂μ, ∀ x, L x → ∀ a, Tendsto (fun n => (s n ω).world.2 x a) atTop (𝓝 (Qs x a)) := by
  obtain ⟨a0⟩ := id ‹Nonempty A›
  let d : Trans S A := { state := s0, action := a0, reward := 0, next := s0, absorbing := false }
  let plan : List (Trans S A) → S → A → ℝ := fun h s => epsGreedy (epsAt (Policy.decayParam v p none none false) keyE (fun k => h.getD k d) h.length s)
    (tables (fun k Q => qLearning γ (rateAt (Policy.decayParam w r none none false) key (fun k => h.getD k d) k) Q (h.getD k d)) Q0 h.length s)
  obtain ⟨Ω, mΩ, μ, hμ, ℱ, 𝒢, t, ht, hd, -, hre⟩ := C151_experience_exists m hm L hcl s0 h0 plan
    (fun h s => epsGreedy_prob (epsAt_range hkeyE hv0 hv1 hp0.le _ _ _).1 (epsAt_range hkeyE hv0 hv1 hp0.le _ _ _).2 _)
  have hsame : ∀ n ω s, plan ((List.range n).map (t · ω)) s = epsGreedy (epsAt (Policy.decayParam v p none none false) keyE (t · ω) n s)
      (tables (fun k Q => qLearning γ (rateAt (Policy.decayParam w r none none false) key (t · ω) k) Q (t k ω)) Q0 n s) := by
    intro n ω s
    have hk : ∀ k, k < n → ((List.range n).map (t · ω)).getD k d = t k ω := fun k hk => by simp [hk]
    simp only [plan, List.length_map, List.length_range]
    rw [epsAt_congr _ _ hk, tables_congr (upd' := fun k Q => qLearning γ (rateAt (Policy.decayParam w r none none false) key (t · ω) k) Q (t k ω)) (fun k hlt => ?_)]
    funext Q
    rw [hk k hlt, rateAt_congr _ _ (fun j hj => hk j (by omega))]
  have hex : ∀ n ω, ∃ s, Core.learn (tapeSys γ s0 keyE key) n (tapePrev (t · ω) (Policy.decayParam w r none none false) (Policy.decayParam v p none none false) Q0) (some n) none
      (some 1) none = some (.ok s) := fun n ω => by
    obtain ⟨s, hs⟩ := Core.C01_learn_by_steps (tapeSys γ s0 keyE key) (tapePrev (t · ω) (Policy.decayParam w r none none false) (Policy.decayParam v p none none false) Q0) n 1 le_rfl
    exact ⟨s, hs.1 n le_rfl⟩
  choose s hs using hex
  have hinv : ∀ n ω, TapeInv γ s0 keyE key (t · ω) (Policy.decayParam w r none none false) (Policy.decayParam v p none none false) Q0 n (s n ω) := by
    intro n ω
    obtain ⟨q, hn⟩ := learn_steps_reach (hs n ω)
    have hle := (reach_mono (Nat.le_refl n) q).2
    have := tape_reach (hre ω).1 (hre ω).2 q
    rwa [Nat.le_antisymm hle hn] at this
  have hd' : ActionDraws μ ℱ 𝒢 (fun n ω x => epsGreedy (((s n ω).world.1.eps).call (keyE x)).2 ((s n ω).world.2 x)) t := by
    have e : (fun n ω x => epsGreedy (((s n ω).world.1.eps).call (keyE x)).2 ((s n ω).world.2 x)) = fun n ω x => plan ((List.range n).map (t · ω)) x := by
      funext n ω x
      rw [hsame, (hinv n ω).epsIs, (hinv n ω).table]
      rfl
    rw [e]
    exact hd
  refine ⟨Ω, mΩ, μ, hμ, ℱ, 𝒢, t, s, hs, ht, hd', ?_⟩
  refine (C151_learn (tapeUser s0 keyE) Taped.rate Taped.eps tapeWrite key keyE s0 (tape_ownsRate s0 keyE) (tape_ownsEps s0 keyE) (fun _ _ => rfl) (fun _ _ => rfl) hkey hkeyE
    v p hv0 hv1 hp0 hp1 w r hw0 hw1 hr0 hr1 m hm L hcl hcom γ hγ0 hγ1 Qs hQs Q0 _ s (fun n ω => ⟨n, hs n ω⟩) (fun ω => ⟨rfl, rfl, rfl⟩) t (fun n ω => (hinv n ω).trace) ht hd').mono
    fun ω h => h.1

end

end Verif.TD
