/-
Lemmas about the datasets of whole runs.
-/
import Verif.System.Spec
import Verif.System.Lemmas

namespace Verif.System

noncomputable section

open Verif.Core (Sample Event Cfg St Reach steps fits endings)
open Verif.Dataset (Row)

variable {W X A R P T : Type}

theorem continuous_of_chained {H : Option ℕ} {pre : X → X → Prop} (es : List (Event X A R P T)) (cur : Option (X × Option P × ℕ))
    (h : Core.Chained H pre cur es) : Continuous (steps es) ∧
      ∀ b ∈ (steps es).head?, ∀ x ps t, cur = some (x, ps, t) → b.state = x ∧ b.policyState = ps := by
  induction es generalizing cur with
  | nil => exact ⟨⟨by simp [steps], by simp [steps]⟩, by simp [steps]⟩
  | cons e es ih =>
    cases e with
    | reset req obs x0 ps th =>
      cases cur with
      | some c => exact absurd h (by simp [Core.Chained])
      | none =>
        simp only [Core.Chained] at h
        exact ⟨(ih _ h.2).1, fun _ _ _ _ _ hc => by simp at hc⟩
    | fit b ths next =>
      have h' : Core.Chained H pre cur es := by cases cur <;> simpa [Core.Chained] using h
      exact ih _ h'
    | step asked act obs rew abs s =>
      cases cur with
      | none => exact absurd h (by simp [Core.Chained])
      | some c =>
        obtain ⟨x, ps, t⟩ := c
        simp only [Core.Chained] at h
        obtain ⟨h1, h2, -, -, h3, -, h4, h5⟩ := h
        obtain ⟨⟨i1, i2⟩, i3⟩ := ih _ h5
        refine ⟨⟨?_, ?_⟩, ?_⟩
        · simp only [steps]
          rw [List.isChain_cons]
          refine ⟨?_, i1⟩
          intro b hb hl
          exact i3 b hb _ _ _ (by rw [hl]; rfl)
        · intro a ha habs
          rcases List.mem_cons.1 ha with rfl | ha
          · rw [h4]; left; rw [← h3]; exact habs
          · exact i2 a ha habs
        · intro b hb x' ps' t' hc
          simp only [steps, List.head?_cons, Option.mem_def, Option.some.injEq, Prod.mk.injEq] at hb hc
          subst hb
          exact ⟨h1.trans hc.1, h2.trans hc.2.1⟩

theorem Continuous.infix {l l' : List (Sample X A R P)} (h : Continuous l) (hi : l' <:+: l) : Continuous l' :=
  ⟨h.chain.infix hi, fun a ha => h.absorbing a (hi.subset ha)⟩

theorem steps_continuous {sys : Core.Sys W X A R P T} {c : Cfg X} {prev s : St W X A R P T} (h : Reach sys c prev s) :
    Continuous (steps s.trace) :=
  (continuous_of_chained s.trace none (Core.C03_chained sys c prev s (fun _ _ => True) (fun _ _ => trivial) h)).1

theorem fits_continuous {sys : Core.Sys W X A R P T} {c : Cfg X} {prev s : St W X A R P T} (h : Reach sys c prev s) :
    ∀ b ∈ fits s.trace, Continuous b := by
  intro b hb
  refine (steps_continuous h).infix ?_
  rw [(steps_fits h).1]
  obtain ⟨l1, l2, h1⟩ := List.append_of_mem hb
  exact ⟨l1.flatten, l2.flatten ++ s.rows, by rw [h1]; simp⟩

/-! ### Episodes -/

theorem episodes_of (l : List (Sample X A R P)) (hend : l = [] ∨ ∃ init s, l = init ++ [s] ∧ s.last = true) :
    ∃ eps : List (List (Sample X A R P)), eps.flatten = l ∧ (∀ e ∈ eps, WholeEpisode e) ∧ eps.length = endings l := by
  induction l with
  | nil => exact ⟨[], rfl, by simp, rfl⟩
  | cons a l ih =>
    obtain ⟨init, s, h1, h2⟩ : ∃ init s, a :: l = init ++ [s] ∧ s.last = true := by
      rcases hend with h | h
      · cases h
      · exact h
    have hl : l = [] ∨ ∃ init s, l = init ++ [s] ∧ s.last = true := by
      cases init with
      | nil => simp at h1; exact Or.inl h1.2
      | cons b init =>
        simp only [List.cons_append, List.cons.injEq] at h1
        exact Or.inr ⟨init, s, h1.2, h2⟩
    obtain ⟨eps, e1, e2, e3⟩ := ih hl
    cases ha : a.last with
    | true =>
      refine ⟨[a] :: eps, by simp [e1], ?_, by simp [e3, endings, ha]⟩
      intro e he
      rcases List.mem_cons.1 he with rfl | he
      · exact ⟨[], a, rfl, ha, by simp⟩
      · exact e2 e he
    | false =>
      cases eps with
      | nil =>
        simp only [List.flatten_nil] at e1
        subst e1
        cases init with
        | nil => simp at h1; subst h1; simp [ha] at h2
        | cons b init => simp at h1
      | cons e0 eps =>
        refine ⟨(a :: e0) :: eps, by simpa using e1, ?_, by simpa [endings, ha] using e3⟩
        intro e he
        rcases List.mem_cons.1 he with rfl | he
        · obtain ⟨i0, s0, q1, q2, q3⟩ := e2 e0 (by simp)
          refine ⟨a :: i0, s0, by simp [q1], q2, ?_⟩
          intro b hb
          rcases List.mem_cons.1 hb with rfl | hb
          · exact ha
          · exact q3 b hb
        · exact e2 e (by simp [he])

theorem isEpisodes_of {eps : List (List (Sample X A R P))} (h : ∀ e ∈ eps, WholeEpisode e) :
    Dataset.IsEpisodes (eps.flatten.map toRow) (eps.map fun e => e.map toRow) := by
  have key : ∀ e ∈ eps.map (fun e => e.map toRow), ∃ pre r, e = pre ++ [r] ∧ r.last = true ∧ ∀ q ∈ pre, q.last = false := by
    intro e he
    obtain ⟨e', he', rfl⟩ := List.mem_map.1 he
    obtain ⟨init, s, h1, h2, h3⟩ := h e' he'
    refine ⟨init.map toRow, toRow s, by simp [h1], h2, ?_⟩
    intro q hq
    obtain ⟨a, ha, rfl⟩ := List.mem_map.1 hq
    exact h3 a ha
  refine ⟨by rw [List.map_flatten], ?_, ?_⟩
  · intro e he
    obtain ⟨pre, r, h1, -, h3⟩ := key e he
    exact ⟨pre, r, h1, h3⟩
  · intro e he
    obtain ⟨pre, r, h1, h2, -⟩ := key e (List.dropLast_subset _ he)
    exact ⟨pre, r, h1, h2⟩

theorem endings_flatten {eps : List (List (Sample X A R P))} (h : ∀ e ∈ eps, WholeEpisode e) : endings eps.flatten = eps.length := by
  induction eps with
  | nil => rfl
  | cons e eps ih =>
    obtain ⟨init, s, h1, h2, h3⟩ := h e (by simp)
    have := ih fun e he => h e (by simp [he])
    unfold endings at this ⊢
    rw [List.flatten_cons, List.countP_append, this, h1, List.countP_append]
    have : List.countP (fun x : Sample X A R P => x.last) init = 0 := by
      rw [List.countP_eq_zero]
      intro a ha
      simp [h3 a ha]
    rw [this]
    simp [h2]
    omega

/-! ### The parameters of the episodes -/

theorem rollouts_snoc (es : List (Event X A R P T)) (e : Event X A R P T) : rollouts (es ++ [e]) = grow (rollouts es) e := by
  simp [rollouts]

/-- What the loop keeps of the episodes since the last fit. -/
structure Kept (s : St W X A R P T) : Prop where
  thetas : s.thetas = (rollouts s.trace).map (·.1)
  rows : s.rows = (rollouts s.trace).flatMap (·.2)
  whole : s.last = true → ∀ e ∈ rollouts s.trace, WholeEpisode e.2
  openEp : s.last = false → ∃ l th e, rollouts s.trace = l ++ [(th, e)] ∧ (∀ e ∈ l, WholeEpisode e.2) ∧ ∀ a ∈ e, a.last = false

/-- A fit got whole episodes and their parameters. -/
def FitOf (pre : List (Event X A R P T)) (b : List (Sample X A R P)) (ths : List T) : Prop :=
  ths = (rollouts pre).map (·.1) ∧ b = (rollouts pre).flatMap (·.2) ∧ ∀ e ∈ rollouts pre, WholeEpisode e.2

theorem kept_reach {sys : Core.Sys W X A R P T} {c : Cfg X} {prev s : St W X A R P T} {k : ℕ}
    (hep : sys.isEpisodic = true) (hf : c.fitMode = .episodes k) (hk : 1 ≤ k) (h : Reach sys c prev s) :
    Kept s ∧ ∀ pre b ths next post, s.trace = pre ++ .fit b ths next :: post → FitOf pre b ths := by
  induction h with
  | start =>
    refine ⟨⟨by simp [Core.start, rollouts], by simp [Core.start, rollouts], by simp [Core.start, rollouts], by simp [Core.start]⟩, ?_⟩
    intro pre b ths next post h
    simp [Core.start] at h
  | @iter s s' hr hm hi ih =>
    have hr' := hr.iter hm hi
    obtain ⟨s1, o, s2, h1, hx, h2, hs'⟩ := Core.iter_cases hi
    obtain ⟨asked, act, obs, rew, abs, w, smp, -, -, -, -, -, -, -, -, -, r2, -, -, -, -, l2, -, -, -, th2, -, tr2⟩ := Core.step_fields h2
    obtain ⟨ihK, ihF⟩ := ih
    -- after the reset, if any, an episode is open
    have hs1 : ∃ l th e, rollouts s1.trace = l ++ [(th, e)] ∧ (∀ e ∈ l, WholeEpisode e.2) ∧ (∀ a ∈ e, a.last = false) ∧
        s1.thetas = (rollouts s1.trace).map (·.1) ∧ s1.rows = (rollouts s1.trace).flatMap (·.2) ∧
        (∀ pre b ths next post, s1.trace = pre ++ .fit b ths next :: post → FitOf pre b ths) := by
      split at h1
      · rename_i hl
        obtain ⟨hrw, -, -, -, hce, -, -, -, req, ob, x, w, th, -, -, -, ht, hth⟩ := Core.reset_fields h1
        refine ⟨rollouts s.trace, th, [], by rw [ht, rollouts_snoc]; rfl, ihK.whole hl, by simp, ?_, ?_, ?_⟩
        · rw [hth, hep, ht, rollouts_snoc, ihK.thetas]; simp [grow]
        · rw [hrw, ht, rollouts_snoc, ihK.rows]; simp [grow]
        · intro pre b ths next post hp
          rw [ht] at hp
          rcases List.eq_nil_or_concat post with rfl | ⟨post', e, rfl⟩
          · have := congrArg List.getLast? hp
            simp at this
          · have hp' : s.trace ++ [Event.reset req ob x s1.policyState th] = (pre ++ .fit b ths next :: post') ++ [e] := by simpa using hp
            exact ihF _ _ _ _ post' (List.append_inj_left' hp' rfl)
      · rename_i hl
        cases h1
        obtain ⟨l, th, e, q1, q2, q3⟩ := ihK.openEp (by simpa using hl)
        exact ⟨l, th, e, q1, q2, q3, ihK.thetas, ihK.rows, ihF⟩
    obtain ⟨l, th, e, q1, q2, q3, q4, q5, q6⟩ := hs1
    have hroll : rollouts s2.trace = l ++ [(th, e ++ [smp])] := by
      rw [tr2, rollouts_snoc, q1]; simp [grow]
    have hK2 : Kept s2 := by
      refine ⟨by rw [th2, q4, q1, hroll]; simp, by rw [r2, q5, q1, hroll]; simp, ?_, ?_⟩
      · intro hl e' he'
        rw [hroll] at he'
        rcases List.mem_append.1 he' with h | h
        · exact q2 _ h
        · simp only [List.mem_singleton] at h
          subst h
          exact ⟨e, smp, rfl, by rw [← l2]; exact hl, q3⟩
      · intro hl
        refine ⟨l, th, e ++ [smp], hroll, q2, ?_⟩
        intro a ha
        rcases List.mem_append.1 ha with h | h
        · exact q3 a h
        · simp only [List.mem_singleton] at h
          subst h
          rw [← l2]; exact hl
    have hF2 : ∀ pre b ths next post, s2.trace = pre ++ .fit b ths next :: post → FitOf pre b ths := by
      intro pre b ths next post hp
      rw [tr2] at hp
      rcases List.eq_nil_or_concat post with rfl | ⟨post', e', rfl⟩
      · have := congrArg List.getLast? hp
        simp at this
      · have hp' : s1.trace ++ [Event.step asked act obs rew abs smp] = (pre ++ .fit b ths next :: post') ++ [e'] := by simpa using hp
        exact q6 _ _ _ _ post' (List.append_inj_left' hp' rfl)
    subst hs'
    obtain ⟨fl, -, -, -, -, -, hcase⟩ := Core.fitPhase_fields sys c s2
    rcases hcase with ⟨c1, -, c2, c3⟩ | ⟨next, c1, -, c2, c3⟩
    · refine ⟨⟨by rw [c2, c1]; exact hK2.thetas, by rw [c3, c1]; exact hK2.rows, by rw [fl, c1]; exact hK2.whole, by rw [fl, c1]; exact hK2.openEp⟩, ?_⟩
      rw [c1]; exact hF2
    · have hlast : s2.last = true := by
        have hb : s2.rows ∈ fits (Core.fitPhase sys c s2).trace := by
          rw [← calls_fits, c1, calls_append]; simp [calls]
        have := (steps_fits hr').2 _ hb
        rw [hf] at this
        obtain ⟨-, init, x, hx1, hx2⟩ := Core.shortestDue_episodes hk this
        rw [r2] at hx1
        have := congrArg List.getLast? hx1
        simp at this
        rw [l2, this]; exact hx2
      refine ⟨⟨by rw [c2, c1, rollouts_snoc]; rfl, by rw [c3, c1, rollouts_snoc]; rfl, by rw [c1, rollouts_snoc]; simp [grow], by rw [fl, hlast]; simp⟩, ?_⟩
      intro pre b ths next' post hp
      rw [c1] at hp
      rcases List.eq_nil_or_concat post with rfl | ⟨post', e', rfl⟩
      · have h3 := List.append_inj' hp rfl
        simp only [List.cons.injEq, Event.fit.injEq, and_true] at h3
        obtain ⟨rfl, rfl, rfl, -⟩ := h3
        exact ⟨hK2.thetas, hK2.rows, hK2.whole hlast⟩
      · have hp' : s2.trace ++ [Event.fit s2.rows s2.thetas next] = (pre ++ .fit b ths next' :: post') ++ [e'] := by simpa using hp
        exact hF2 _ _ _ _ post' (List.append_inj_left' hp' rfl)

end

end Verif.System
