/-
Lemmas for C152: the dataset that `evaluate` returns holds one episode after the other, each played from the draws that the one before has left.
-/
import Verif.Eval.Model

namespace Verif.Eval

open Verif.System (WholeEpisode returnOf toRow)
open Verif.Core (Sample)

noncomputable section

variable {E S X A P T U : Type} {m : Sim S X A P T U} {γ : ℝ} {H : ℕ} {episodic : Bool} {callback : E → Sample X A ℝ P → E}

theorem returnOf_append (γ : ℝ) (e : List (Sample X A ℝ P)) (a : Sample X A ℝ P) : returnOf γ (e ++ [a]) = returnOf γ e + γ ^ e.length * a.reward := by
  unfold returnOf
  rw [List.zipIdx_append]
  simp

/-- In the middle of an episode, that will be played to the end from the draws that are left. -/
structure Mid (m : Sim S X A P T U) (γ : ℝ) (H : ℕ) (whole : ℝ × (ℕ → U)) (cur : List (Sample X A ℝ P)) (p : P)
    (s : Core.St (E × S × (ℕ → U)) X A ℝ P T) : Prop where
  next : s.nextAction = none
  policy : s.policyState = some p
  state : s.state = some (m.see s.world.2.1)
  going : ∀ a ∈ cur, a.last = false
  steps : s.episodeSteps = cur.length
  short : cur.length < H
  rest : whole = (returnOf γ cur + γ ^ cur.length * (playFrom m γ (H - cur.length) s.world.2.1 p s.world.2.2).1,
    (playFrom m γ (H - cur.length) s.world.2.1 p s.world.2.2).2)

/-- What a run has done. -/
structure RunInv (m : Sim S X A P T U) (γ : ℝ) (H : ℕ) (st : ℕ → U → S) (ω : ℕ → U) (eps : List (List (Sample X A ℝ P))) (cur : List (Sample X A ℝ P))
    (s : Core.St (E × S × (ℕ → U)) X A ℝ P T) : Prop where
  rows : s.rows = eps.flatten ++ cur
  whole : ∀ e ∈ eps, WholeEpisode e
  returns : eps.map (returnOf γ) = (List.range s.totalEpisodes).map fun k => returns m γ H st k ω
  over : s.last = true → cur = [] ∧ s.world.2.2 = leftAfter m γ H s.totalEpisodes st ω
  mid : s.last = false → ∃ p, Mid m γ H (play m γ H (st s.totalEpisodes) (leftAfter m γ H s.totalEpisodes st ω)) cur p s

theorem reset_mid {c : Core.Cfg X} {s s' : Core.St (E × S × (ℕ → U)) X A ℝ P T} {st : U → S} {ω : ℕ → U} (hH : 1 ≤ H)
    (hget : ∀ req, Core.getInitialState c s = .ok req → ∀ u, m.startOf req u = st u) (hω : s.world.2.2 = ω)
    (h : Core.reset (simSys m H episodic callback) c s = .ok s') : ∃ p, Mid m γ H (play m γ H st ω) [] p s' := by
  unfold Core.reset at h
  split at h
  · cases h
  · rename_i req hreq
    simp only [simSys, Core.preprocess, Except.ok.injEq] at h
    subst h
    have hs := hget req hreq
    subst hω
    refine ⟨(m.begins (m.see (m.startOf req (s.world.2.2 0))) (s.world.2.2 1)).1, rfl, rfl, rfl, by simp, rfl, hH, ?_⟩
    simp [play, returnOf, hs]

theorem step_run {c : Core.Cfg X} {s s' : Core.St (E × S × (ℕ → U)) X A ℝ P T} {st : ℕ → U → S} {ω : ℕ → U} {eps : List (List (Sample X A ℝ P))} {cur : List (Sample X A ℝ P)}
    {p : P} (hrows : s.rows = eps.flatten ++ cur) (hwhole : ∀ e ∈ eps, WholeEpisode e)
    (hret : eps.map (returnOf γ) = (List.range s.totalEpisodes).map fun k => returns m γ H st k ω)
    (hmid : Mid m γ H (play m γ H (st s.totalEpisodes) (leftAfter m γ H s.totalEpisodes st ω)) cur p s)
    (h : Core.step (simSys m H episodic callback) c s (m.see s.world.2.1) = .ok s') : ∃ eps' cur', RunInv m γ H st ω eps' cur' s' := by
  obtain ⟨h1, h2, h3, h4, h5, h6, h7⟩ := hmid
  unfold Core.step at h
  simp only [Core.drawAction, h1, h2, h5, simSys, Core.agentPreprocess, Core.preprocess, Option.getD_some] at h
  split at h
  · cases h
  · simp only [Except.ok.injEq] at h
    generalize hd : m.act (m.see s.world.2.1) p (s.world.2.2 0) = d at h
    generalize hs' : m.next s.world.2.1 d.1 (shift s.world.2.2 0) = s1 at h
    obtain ⟨r, hr⟩ : ∃ r, H - cur.length = r + 1 := ⟨H - cur.length - 1, by omega⟩
    have hun : playFrom m γ (H - cur.length) s.world.2.1 p s.world.2.2 =
        if m.absorbing s.world.2.1 d.1 s1 then (m.reward s.world.2.1 d.1 s1, shift (shift s.world.2.2))
        else (m.reward s.world.2.1 d.1 s1 + γ * (playFrom m γ r s1 d.2 (shift (shift s.world.2.2))).1, (playFrom m γ r s1 d.2 (shift (shift s.world.2.2))).2) := by
      rw [hr, ← hs', ← hd]
      rfl
    obtain ⟨smp, hsmp⟩ : ∃ smp : Sample X A ℝ P, smp = ⟨m.see s.world.2.1, d.1, m.reward s.world.2.1 d.1 s1, m.see s1, m.absorbing s.world.2.1 d.1 s1,
        Core.isLast (some H) (cur.length + 1) (m.absorbing s.world.2.1 d.1 s1), some p, some d.2⟩ := ⟨_, rfl⟩
    rw [← hsmp] at h
    have hlast : smp.last = Core.isLast (some H) (cur.length + 1) (m.absorbing s.world.2.1 d.1 s1) := by rw [hsmp]
    have hrew : smp.reward = m.reward s.world.2.1 d.1 s1 := by rw [hsmp]
    rw [← hlast] at h
    by_cases hl : smp.last = true
    · rw [hl] at hlast
      have hw : play m γ H (st s.totalEpisodes) (leftAfter m γ H s.totalEpisodes st ω) = (returnOf γ (cur ++ [smp]), shift (shift s.world.2.2)) := by
        rw [h7, hun, returnOf_append, hrew]
        by_cases hab : m.absorbing s.world.2.1 d.1 s1 = true
        · simp [hab]
        · have hr0 : r = 0 := by
            simp [Core.isLast, hab] at hlast
            omega
          simp [hab, hr0, playFrom]
      subst h
      refine ⟨eps ++ [cur ++ [smp]], [], ?_, ?_, ?_, ?_, ?_⟩
      · simp [hrows]
      · intro e he
        rcases List.mem_append.1 he with he | he
        · exact hwhole e he
        · obtain rfl := List.mem_singleton.1 he
          exact ⟨cur, smp, rfl, hl, h4⟩
      · simp only [hl, if_true, List.map_append, List.range_succ, hret]
        simp [returns, hw]
      · intro _
        refine ⟨rfl, ?_⟩
        simp only [hl, if_true, leftAfter_succ, hw]
      · intro hf
        simp only [hl] at hf
        cases hf
    · have hl' : smp.last = false := by simpa using hl
      rw [hl'] at hlast
      have hab : m.absorbing s.world.2.1 d.1 s1 = false := by
        cases hab : m.absorbing s.world.2.1 d.1 s1 with
        | false => rfl
        | true => simp [Core.isLast, hab] at hlast
      have hlen : cur.length + 1 < H := by
        simp [Core.isLast, hab] at hlast
        omega
      subst h
      refine ⟨eps, cur ++ [smp], ?_, hwhole, ?_, ?_, ?_⟩
      · simp [hrows]
      · simp only [hl', hret]
        rfl
      · intro hf
        simp only [hl'] at hf
        cases hf
      · intro _
        refine ⟨d.2, rfl, rfl, rfl, ?_, ?_, ?_, ?_⟩
        · intro a ha
          rcases List.mem_append.1 ha with ha | ha
          · exact h4 a ha
          · obtain rfl := List.mem_singleton.1 ha; exact hl'
        · simp
        · simpa using hlen
        · simp only [hl', Bool.false_eq_true, if_false]
          have hr' : H - (cur ++ [smp]).length = r := by simp; omega
          rw [h7, hun, hr', returnOf_append, hrew]
          simp [hab, pow_succ]
          ring

theorem run_inv {c : Core.Cfg X} {prev s : Core.St (E × S × (ℕ → U)) X A ℝ P T} {st : ℕ → U → S} {N : ℕ} (hH : 1 ≤ H) (hb : c.budget = .episodes N) (hf : c.fitMode = .never)
    (hget : ∀ s : Core.St (E × S × (ℕ → U)) X A ℝ P T, s.totalEpisodes < N → ∀ req, Core.getInitialState c s = .ok req → ∀ u, m.startOf req u = st s.totalEpisodes u)
    (h : Core.Reach (simSys m H episodic callback) c prev s) : ∃ eps cur, RunInv m γ H st prev.world.2.2 eps cur s := by
  induction h with
  | start => exact ⟨[], [], by simp [Core.start], by simp, by simp [Core.start], fun _ => ⟨rfl, rfl⟩, fun h => by simp [Core.start] at h⟩
  | @iter s s' hr hm hi ih =>
    obtain ⟨eps, cur, hI⟩ := ih
    have hN : s.totalEpisodes < N := by
      rw [hb] at hm
      simpa [Core.moveRequired] using hm
    obtain ⟨s1, x, s2, q1, q2, q3, q4⟩ := Core.iter_cases hi
    have hfit : ∀ s2 : Core.St (E × S × (ℕ → U)) X A ℝ P T, Core.fitPhase (simSys m H episodic callback) c s2 = s2 := fun s2 => by
      unfold Core.fitPhase
      simp [hf, Core.fitRequired]
    rw [hfit] at q4
    subst q4
    by_cases hl : s.last = true
    · rw [if_pos hl] at q1
      obtain ⟨p, hp⟩ := reset_mid (γ := γ) hH (hget s hN) (hI.over hl).2 q1
      obtain ⟨f1, -, f3, -⟩ := Core.reset_fields q1
      have hx : x = m.see s1.world.2.1 := by
        have := hp.state
        rw [q2] at this
        exact Option.some.inj this
      subst hx
      refine step_run (cur := []) (p := p) (by rw [f1, hI.rows, (hI.over hl).1]) hI.whole (by rw [f3]; exact hI.returns) ?_ q3
      rw [f3]
      exact hp
    · rw [if_neg hl] at q1
      cases q1
      obtain ⟨p, hp⟩ := hI.mid (by simpa using hl)
      have hx : x = m.see s.world.2.1 := by
        have := hp.state
        rw [q2] at this
        exact Option.some.inj this
      subst hx
      exact step_run hI.rows hI.whole hI.returns hp q3

end

end Verif.Eval
