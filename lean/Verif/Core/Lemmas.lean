/- Helper lemmas for the run of `Core`. -/
import Verif.Core.Spec

namespace Verif.Core

variable {W X A R P T : Type}

@[simp] theorem steps_append (a b : List (Event X A R P T)) : steps (a ++ b) = steps a ++ steps b := by
  induction a with
  | nil => rfl
  | cons e a ih => cases e <;> simp [steps, ih]

@[simp] theorem fits_append (a b : List (Event X A R P T)) : fits (a ++ b) = fits a ++ fits b := by
  induction a with
  | nil => rfl
  | cons e a ih => cases e <;> simp [fits, ih]

@[simp] theorem resetRequests_append (a b : List (Event X A R P T)) :
    resetRequests (a ++ b) = resetRequests a ++ resetRequests b := by
  induction a with
  | nil => rfl
  | cons e a ih => cases e <;> simp [resetRequests, ih]

@[simp] theorem work_append (a b : List (Event X A R P T)) : work (a ++ b) = work a ++ work b := by
  induction a with
  | nil => rfl
  | cons e a ih => cases e <;> simp [work, ih]

theorem endings_append (a b : List (Sample X A R P)) : endings (a ++ b) = endings a + endings b := by
  simp [endings]

@[simp] theorem endings_nil : endings ([] : List (Sample X A R P)) = 0 := rfl

theorem endings_single (s : Sample X A R P) : endings [s] = if s.last then 1 else 0 := by
  unfold endings; cases h : s.last <;> simp [h]

/-- `steps` and `fits` can be read off the work log. -/
def didsOf : List (Work X A R P) → List (Sample X A R P)
  | [] => []
  | .did s :: es => s :: didsOf es
  | .fitted _ :: es => didsOf es

def fittedOf : List (Work X A R P) → List (List (Sample X A R P))
  | [] => []
  | .did _ :: es => fittedOf es
  | .fitted b :: es => b :: fittedOf es

theorem steps_eq_didsOf (l : List (Event X A R P T)) : steps l = didsOf (work l) := by
  induction l with
  | nil => rfl
  | cons e l ih => cases e <;> simp [steps, work, didsOf, ih]

theorem fits_eq_fittedOf (l : List (Event X A R P T)) : fits l = fittedOf (work l) := by
  induction l with
  | nil => rfl
  | cons e l ih => cases e <;> simp [fits, work, fittedOf, ih]

theorem didsOf_append (a b : List (Work X A R P)) : didsOf (a ++ b) = didsOf a ++ didsOf b := by
  induction a with
  | nil => rfl
  | cons e a ih => cases e <;> simp [didsOf, ih]

theorem fittedOf_append (a b : List (Work X A R P)) : fittedOf (a ++ b) = fittedOf a ++ fittedOf b := by
  induction a with
  | nil => rfl
  | cons e a ih => cases e <;> simp [fittedOf, ih]

theorem didsOf_map_did (l : List (Sample X A R P)) : didsOf (l.map .did) = l := by
  induction l with
  | nil => rfl
  | cons e a ih => simp [didsOf, ih]

theorem fittedOf_map_did (l : List (Sample X A R P)) : fittedOf (l.map .did) = [] := by
  induction l with
  | nil => rfl
  | cons e a ih => simp [fittedOf, ih]

theorem didsOf_workOf (bs : List (List (Sample X A R P))) (r : List (Sample X A R P)) :
    didsOf (workOf bs r) = bs.flatten ++ r := by
  induction bs with
  | nil => simp [workOf, didsOf_map_did]
  | cons b bs ih =>
    simp only [workOf, List.flatMap_cons, List.append_assoc, didsOf_append, didsOf_map_did] at ih ⊢
    simp [ih, didsOf]

theorem fittedOf_workOf (bs : List (List (Sample X A R P))) (r : List (Sample X A R P)) :
    fittedOf (workOf bs r) = bs := by
  induction bs with
  | nil => simp [workOf, fittedOf_map_did]
  | cons b bs ih =>
    simp only [workOf, List.flatMap_cons, List.append_assoc, fittedOf_append, fittedOf_map_did] at ih ⊢
    simp [ih, fittedOf]

theorem workOf_snoc_row (bs : List (List (Sample X A R P))) (r : List (Sample X A R P)) (s : Sample X A R P) :
    workOf bs (r ++ [s]) = workOf bs r ++ [.did s] := by
  simp [workOf]

theorem workOf_snoc_batch (bs : List (List (Sample X A R P))) (r : List (Sample X A R P)) :
    workOf (bs ++ [r]) [] = workOf bs r ++ [.fitted r] := by
  simp [workOf]

/-- Prefixes of a list extended by one element. -/
theorem prefix_snoc_cases {α} {p l : List α} {x : α} (h : p <+: l ++ [x]) : p <+: l ∨ p = l ++ [x] := by
  rcases (List.prefix_concat_iff).1 h with h | h
  · right; simpa using h
  · left; exact h

theorem isLast_iff (h : Option Nat) (t : Nat) (a : Bool) : isLast h t a = true ↔ EndsHere h t a := by
  unfold isLast EndsHere
  cases h <;> simp [Or.comm]

/-- Loop position seen from outside: `none` when a new episode must start. -/
def cursor (s : St W X A R P T) : Option (X × Option P × Nat) :=
  if s.last then none else s.state.map (fun x => (x, s.policyState, s.episodeSteps))

/-- Counting and bookkeeping part of the loop invariant; holds between iterations. -/
structure Inv (c : Cfg X) (s : St W X A R P T) : Prop where
  hwork : ∃ batches, work s.trace = workOf batches s.rows ∧ ∀ b ∈ batches, ShortestDue c.fitMode b
  hrows : ∀ p, p <+: s.rows → p ≠ [] → ¬ Due c.fitMode p
  tot : s.totalSteps = (steps s.trace).length
  totE : s.totalEpisodes = endings (steps s.trace)
  cur : s.currentSteps = s.rows.length
  curE : s.currentEpisodes = endings s.rows
  hlast : (steps s.trace = [] ∧ s.last = true) ∨ ∃ init x, steps s.trace = init ++ [x] ∧ s.last = x.last
  hstate : s.last = false → ∃ x, s.state = some x
  budget : match c.budget with
    | .steps n => s.totalSteps ≤ n
    | .episodes n => s.totalEpisodes ≤ n ∧ (s.totalEpisodes = n → s.last = true)

theorem inv_start (c : Cfg X) (prev : St W X A R P T) : Inv c (start prev) := by
  constructor
  · exact ⟨[], by simp [start, work, workOf], by simp⟩
  · intro p hp hne; simp [start] at hp; exact absurd hp hne
  · simp [start, steps]
  · simp [start, steps]
  · simp [start]
  · simp [start]
  · left; simp [start, steps]
  · simp [start]
  · cases c.budget <;> simp [start]

/-- What `reset` does to the fields the invariant looks at. -/
theorem reset_fields {sys : Sys W X A R P T} {c : Cfg X} {s s' : St W X A R P T} (h : reset sys c s = .ok s') :
    s'.rows = s.rows ∧ s'.totalSteps = s.totalSteps ∧ s'.totalEpisodes = s.totalEpisodes ∧
    s'.currentSteps = s.currentSteps ∧ s'.currentEpisodes = s.currentEpisodes ∧ s'.last = s.last ∧
    s'.episodeSteps = 0 ∧ s'.nextAction = none ∧
    ∃ req obs x w th, getInitialState c s = .ok req ∧ s'.state = some x ∧
      (preprocess sys.corePre w obs).2 = x ∧
      s'.trace = s.trace ++ [.reset req obs x s'.policyState th] ∧
      s'.thetas = if sys.isEpisodic then s.thetas ++ [th] else s.thetas := by
  unfold reset at h
  split at h
  · cases h
  · rename_i req hreq
    simp only [Except.ok.injEq] at h
    subst h
    simp only [true_and]
    exact ⟨req, _, _, _, _, hreq, rfl, rfl, rfl, rfl⟩

/-- What `step` does. -/
theorem step_fields {sys : Sys W X A R P T} {c : Cfg X} {s s' : St W X A R P T} {x : X}
    (h : step sys c s x = .ok s') :
    ∃ asked act obs rew abs w, ∃ smp : Sample X A R P,
      smp.state = x ∧ smp.policyState = s.policyState ∧ s'.policyState = smp.policyNextState ∧ smp.action = act ∧ smp.reward = rew ∧ smp.absorbing = abs ∧
      (preprocess sys.corePre w obs).2 = smp.nextState ∧
      smp.last = isLast sys.horizon (s.episodeSteps + 1) abs ∧
      (match s.nextAction with
        | none => ∃ w', asked = some (agentPreprocess sys.agentPre w' x, s.policyState)
        | some a => asked = none ∧ act = a) ∧
      s'.rows = s.rows ++ [smp] ∧ s'.totalSteps = s.totalSteps + 1 ∧ s'.currentSteps = s.currentSteps + 1 ∧
      s'.totalEpisodes = s.totalEpisodes + (if smp.last then 1 else 0) ∧
      s'.currentEpisodes = s.currentEpisodes + (if smp.last then 1 else 0) ∧
      s'.last = smp.last ∧ s'.state = some smp.nextState ∧ s'.episodeSteps = s.episodeSteps + 1 ∧
      s'.nextAction = none ∧ s'.thetas = s.thetas ∧
      (∀ cap, c.capacity = some cap → s.rows.length < cap) ∧
      s'.trace = s.trace ++ [.step asked act obs rew abs smp] := by
  unfold step at h
  simp only at h
  split at h
  · cases h
  · rename_i hcap
    simp only [Except.ok.injEq] at h
    subst h
    refine ⟨_, _, _, _, _, _, _, rfl, rfl, rfl, rfl, rfl, rfl, rfl, rfl, ?_, rfl, rfl, rfl, ?_, ?_, rfl, rfl, rfl, rfl, rfl,
      ?_, rfl⟩
    · unfold drawAction
      cases s.nextAction with
      | none => exact ⟨s.world, rfl⟩
      | some a => exact ⟨rfl, rfl⟩
    · dsimp only; split <;> rfl
    · dsimp only; split <;> rfl
    · intro cap hc
      simpa [isFull, hc] using hcap

theorem fitRequired_iff (f : FitMode) (s : St W X A R P T) (h1 : s.currentSteps = s.rows.length)
    (h2 : s.currentEpisodes = endings s.rows) : fitRequired f s = true ↔ Due f s.rows := by
  cases f <;> simp [fitRequired, Due, h1, h2]

/-- One iteration preserves the bookkeeping invariant. -/
theorem inv_iter {sys : Sys W X A R P T} {c : Cfg X} {s s' : St W X A R P T} (hI : Inv c s)
    (hm : moveRequired c.budget s = true) (h : iter sys c s = .ok s') : Inv c s' := by
  unfold iter at h
  simp only at h
  split at h
  · cases h
  · rename_i s1 h1
    -- facts about the state after the optional reset
    have hs1 : s1.rows = s.rows ∧ s1.totalSteps = s.totalSteps ∧ s1.totalEpisodes = s.totalEpisodes ∧
        s1.currentSteps = s.currentSteps ∧ s1.currentEpisodes = s.currentEpisodes ∧
        steps s1.trace = steps s.trace ∧ work s1.trace = work s.trace := by
      split at h1
      · obtain ⟨a, b, d, e, f, _, _, _, _, _, _, _, _, _, _, _, ht, _⟩ := reset_fields h1
        refine ⟨a, b, d, e, f, ?_, ?_⟩ <;> simp [ht, steps, work]
      · cases h1; simp
    obtain ⟨hrow, htot, htotE, hcur, hcurE, hst, hwk⟩ := hs1
    split at h
    · cases h
    · rename_i x hx
      split at h
      · cases h
      · rename_i s2 h2
        obtain ⟨asked, act, obs, rew, abs, w, smp, _, _, _, _, _, _, _, _, _, r2, t2, c2, te2, ce2, l2, st2, _, _, _, _, tr2⟩ :=
          step_fields h2
        have r2' : s2.rows = s.rows ++ [smp] := by rw [r2, hrow]
        have hst2 : steps s2.trace = steps s.trace ++ [smp] := by
          simp [tr2, steps, hst]
        have hwk2 : work s2.trace = work s.trace ++ [.did smp] := by
          simp [tr2, work, hwk]
        have hcs : s2.currentSteps = s2.rows.length := by
          rw [c2, hcur, hI.cur, r2']; simp
        have hce : s2.currentEpisodes = endings s2.rows := by
          rw [ce2, hcurE, hI.curE, r2', endings_append, endings_single]
        have hdue := fitRequired_iff c.fitMode s2 hcs hce
        obtain ⟨batches, hb1, hb2⟩ := hI.hwork
        have hpre : ∀ p, p <+: s2.rows → p ≠ [] → p ≠ s2.rows → ¬ Due c.fitMode p := by
          intro p hp hne hne2
          rw [r2'] at hp hne2
          rcases prefix_snoc_cases hp with hp | hp
          · exact hI.hrows p hp hne
          · exact absurd hp hne2
        -- the budget part
        have hbud : match c.budget with
            | .steps n => s2.totalSteps ≤ n
            | .episodes n => s2.totalEpisodes ≤ n ∧ (s2.totalEpisodes = n → s2.last = true) := by
          have hb := hI.budget
          cases hbb : c.budget with
          | steps n =>
            simp only [hbb, moveRequired, decide_eq_true_eq] at hm ⊢
            omega
          | episodes n =>
            simp only [hbb, moveRequired, decide_eq_true_eq] at hm ⊢
            rw [te2, l2]
            cases smp.last <;> simp <;> omega
        have htS : s2.totalSteps = (steps s2.trace).length := by
          rw [t2, htot, hI.tot, hst2]; simp
        have htE : s2.totalEpisodes = endings (steps s2.trace) := by
          rw [te2, htotE, hI.totE, hst2, endings_append, endings_single]
        simp only [Except.ok.injEq] at h
        subst h
        unfold fitPhase
        split
        · rename_i hf
          have hd := hdue.1 hf
          constructor
          · refine ⟨batches ++ [s2.rows], ?_, ?_⟩
            · show work (s2.trace ++ [_]) = _
              simp only [work_append, hwk2, hb1, workOf_snoc_batch]
              rw [r2', workOf_snoc_row]
              simp [work]
            · intro b hb
              rcases List.mem_append.1 hb with hb | hb
              · exact hb2 b hb
              · simp only [List.mem_singleton] at hb
                subst hb
                exact ⟨by rw [r2']; simp, hd, hpre⟩
          · intro p hp hne; simp at hp; exact absurd hp hne
          · simpa [steps] using htS
          · simpa [steps] using htE
          · rfl
          · rfl
          · right; exact ⟨steps s.trace, smp, by simp [steps, hst2], l2⟩
          · intro _; exact ⟨_, st2⟩
          · exact hbud
        · rename_i hf
          constructor
          · refine ⟨batches, ?_, hb2⟩
            rw [hwk2, hb1, r2', workOf_snoc_row]
          · intro p hp hne hd
            by_cases hpe : p = s2.rows
            · subst hpe; exact hf (hdue.2 hd)
            · exact hpre p hp hne hpe hd
          · exact htS
          · exact htE
          · exact hcs
          · exact hce
          · right; exact ⟨steps s.trace, smp, hst2, l2⟩
          · intro _; exact ⟨_, st2⟩
          · exact hbud

/-- States reachable at the top of the loop: any number of complete iterations after `start`. -/
inductive Reach (sys : Sys W X A R P T) (c : Cfg X) (prev : St W X A R P T) : St W X A R P T → Prop
  | start : Reach sys c prev (start prev)
  | iter {s s'} : Reach sys c prev s → moveRequired c.budget s = true → iter sys c s = .ok s' → Reach sys c prev s'

theorem inv_reach {sys : Sys W X A R P T} {c : Cfg X} {prev s : St W X A R P T} (h : Reach sys c prev s) :
    Inv c s := by
  induction h with
  | start => exact inv_start c prev
  | iter _ hm hi ih => exact inv_iter ih hm hi

theorem loop_reach {sys : Sys W X A R P T} {c : Cfg X} {prev : St W X A R P T} :
    ∀ {fuel : Nat} {s s' : St W X A R P T}, Reach sys c prev s → loop sys c fuel s = some (.ok s') →
      Reach sys c prev s' ∧ moveRequired c.budget s' = false
  | 0, s, s', hr, h => by
    unfold loop at h
    split at h
    · cases h
    · rename_i hm
      simp only [Option.some.injEq, Except.ok.injEq] at h
      subst h
      exact ⟨hr, by simpa using hm⟩
  | fuel + 1, s, s', hr, h => by
    unfold loop at h
    split at h
    · rename_i hm
      split at h
      · cases h
      · rename_i s1 h1
        exact loop_reach (hr.iter hm h1) h
    · rename_i hm
      simp only [Option.some.injEq, Except.ok.injEq] at h
      subst h
      exact ⟨hr, by simpa using hm⟩

theorem loop_error {sys : Sys W X A R P T} {c : Cfg X} {prev : St W X A R P T} :
    ∀ {fuel : Nat} {s : St W X A R P T} {e}, Reach sys c prev s → loop sys c fuel s = some (.error e) →
      ∃ s', Reach sys c prev s' ∧ moveRequired c.budget s' = true ∧ iter sys c s' = .error e
  | 0, s, e, hr, h => by
    unfold loop at h
    split at h <;> simp at h
  | fuel + 1, s, e, hr, h => by
    unfold loop at h
    split at h
    · rename_i hm
      split at h
      · rename_i e' h1
        simp only [Option.some.injEq, Except.error.injEq] at h
        subst h
        exact ⟨s, hr, hm, h1⟩
      · rename_i s1 h1
        exact loop_error (hr.iter hm h1) h
    · simp at h

/-- More fuel does not change the result. -/
theorem loop_mono {sys : Sys W X A R P T} {c : Cfg X} :
    ∀ {fuel : Nat} {s : St W X A R P T} {r} (k : Nat), loop sys c fuel s = some r → loop sys c (fuel + k) s = some r
  | 0, s, r, k, h => by
    unfold loop at h
    split at h
    · cases h
    · rename_i hm
      cases k with
      | zero => unfold loop; simp [hm, h]
      | succ k => unfold loop; simp [hm, h]
  | fuel + 1, s, r, k, h => by
    have : fuel + 1 + k = (fuel + k) + 1 := by omega
    rw [this]
    unfold loop at h ⊢
    split at h
    · rename_i hm
      rw [if_pos hm]
      split at h
      · exact h
      · exact loop_mono k h
    · rename_i hm
      rw [if_neg hm]; exact h

end Verif.Core
