/-
Two programs that a run of `Core` cannot tell apart: if every plugged-in part gives the same answers in related worlds and leaves related worlds behind, whole runs are the same.
-/
import Verif.Core.Model
import Mathlib.Data.List.Forall2
import Mathlib.Data.Nat.Notation

namespace Verif.Core

variable {W W' X A R P T : Type}

/-- The parts of two programs give the same answers in worlds that are related by `rel`, and lead to related worlds. -/
structure Alike (rel : W → W' → Prop) (y : Sys W X A R P T) (z : Sys W' X A R P T) : Prop where
  horizon : y.horizon = z.horizon
  isEpisodic : y.isEpisodic = z.isEpisodic
  envReset : ∀ v w x, rel v w → rel (y.envReset v x).1 (z.envReset w x).1 ∧ (y.envReset v x).2 = (z.envReset w x).2
  episodeStart : ∀ v w x, rel v w → rel (y.episodeStart v x).1 (z.episodeStart w x).1 ∧ (y.episodeStart v x).2 = (z.episodeStart w x).2
  envStep : ∀ v w a, rel v w → rel (y.envStep v a).1 (z.envStep w a).1 ∧ (y.envStep v a).2 = (z.envStep w a).2
  policyDraw : ∀ v w x ps, rel v w → rel (y.policyDraw v x ps).1 (z.policyDraw w x ps).1 ∧ (y.policyDraw v x ps).2 = (z.policyDraw w x ps).2
  fit : ∀ v w next rows thetas, rel v w →
    rel (y.fit v next rows thetas).1 (z.fit w next rows thetas).1 ∧ (y.fit v next rows thetas).2 = (z.fit w next rows thetas).2
  corePre : List.Forall₂ (fun p q => ∀ v w x, rel v w → rel (p.update v x) (q.update w x) ∧ p.apply v x = q.apply w x) y.corePre z.corePre
  agentPre : List.Forall₂ (fun p q => ∀ v w x, rel v w → p v x = q w x) y.agentPre z.agentPre
  callbackStep : ∀ v w s, rel v w → rel (y.callbackStep v s) (z.callbackStep w s)
  callbacksFit : List.Forall₂ (fun f g => ∀ v w b, rel v w → rel (f v b) (g w b)) y.callbacksFit z.callbacksFit

/-- The state of a run with another world. -/
def St.withWorld (s : St W X A R P T) (w : W') : St W' X A R P T :=
  { world := w
    state := s.state
    policyState := s.policyState
    theta := s.theta
    episodeSteps := s.episodeSteps
    nextAction := s.nextAction
    totalEpisodes := s.totalEpisodes
    totalSteps := s.totalSteps
    currentEpisodes := s.currentEpisodes
    currentSteps := s.currentSteps
    last := s.last
    rows := s.rows
    thetas := s.thetas
    trace := s.trace }

/-- Two states of a run agree in everything but the worlds, which are related. -/
def SameRun (rel : W → W' → Prop) (s : St W X A R P T) (t : St W' X A R P T) : Prop :=
  ∃ w, rel s.world w ∧ t = s.withWorld w

/-- Two results agree: the same exception, or states that agree. -/
def SameResult (rel : W → W' → Prop) : Except Err (St W X A R P T) → Except Err (St W' X A R P T) → Prop
  | .error e, .error e' => e = e'
  | .ok s, .ok t => SameRun rel s t
  | _, _ => False

variable {rel : W → W' → Prop} {y : Sys W X A R P T} {z : Sys W' X A R P T}

theorem preprocess_alike {ps : List (Preproc W X)} {qs : List (Preproc W' X)}
    (h : List.Forall₂ (fun p q => ∀ v w x, rel v w → rel (p.update v x) (q.update w x) ∧ p.apply v x = q.apply w x) ps qs) :
    ∀ v w x, rel v w → rel (preprocess ps v x).1 (preprocess qs w x).1 ∧ (preprocess ps v x).2 = (preprocess qs w x).2 := by
  induction h with
  | nil => intro v w x hr; exact ⟨hr, rfl⟩
  | cons hp _ ih =>
    intro v w x hr
    have h1 := (hp v w x hr).1
    have h2 := (hp _ _ x h1).2
    simp only [preprocess]
    rw [h2]
    exact ih _ _ _ h1

theorem agentPreprocess_alike {ps : List (W → X → X)} {qs : List (W' → X → X)} (h : List.Forall₂ (fun p q => ∀ v w x, rel v w → p v x = q w x) ps qs) :
    ∀ v w x, rel v w → agentPreprocess ps v x = agentPreprocess qs w x := by
  induction h with
  | nil => intro v w x _; rfl
  | cons hp _ ih => intro v w x hr; simp only [agentPreprocess]; rw [hp v w x hr]; exact ih _ _ _ hr

theorem drawAction_alike (h : Alike rel y z) (v : W) (w : W') (hr : rel v w) (next : Option A) (x : X) (ps : Option P) :
    rel (drawAction y v next x ps).1 (drawAction z w next x ps).1 ∧ (drawAction y v next x ps).2 = (drawAction z w next x ps).2 := by
  cases next with
  | some a => exact ⟨hr, rfl⟩
  | none =>
    have hp := agentPreprocess_alike h.agentPre v w x hr
    have hd := h.policyDraw v w (agentPreprocess z.agentPre w x) ps hr
    rcases e1 : y.policyDraw v (agentPreprocess z.agentPre w x) ps with ⟨v1, a1, p1⟩
    rcases e2 : z.policyDraw w (agentPreprocess z.agentPre w x) ps with ⟨v2, a2, p2⟩
    rw [e1, e2] at hd
    simp only [drawAction, hp, e1, e2]
    obtain ⟨h1, h2⟩ := hd
    simp only at h2
    exact ⟨h1, by rw [h2]⟩

theorem callbacks_alike {fs : List (W → List (Sample X A R P) → W)} {gs : List (W' → List (Sample X A R P) → W')}
    (h : List.Forall₂ (fun f g => ∀ v w b, rel v w → rel (f v b) (g w b)) fs gs) (b : List (Sample X A R P)) :
    ∀ v w, rel v w → rel (fs.foldl (fun w cb => cb w b) v) (gs.foldl (fun w cb => cb w b) w) := by
  induction h with
  | nil => intro v w hr; exact hr
  | cons hf _ ih => intro v w hr; exact ih _ _ (hf v w b hr)

theorem reset_alike (h : Alike rel y z) (c : Cfg X) {s : St W X A R P T} {t : St W' X A R P T} (hs : SameRun rel s t) :
    SameResult rel (reset y c s) (reset z c t) := by
  obtain ⟨w, hr, rfl⟩ := hs
  unfold reset
  have hg : getInitialState c s = getInitialState c (s.withWorld w) := rfl
  rw [← hg]
  cases getInitialState c s with
  | error e => exact rfl
  | ok req =>
    have h1 := h.envReset s.world w req hr
    rcases e1 : y.envReset s.world req with ⟨v1, o⟩
    rcases e2 : z.envReset w req with ⟨w1, o'⟩
    rw [e1, e2] at h1
    obtain ⟨h1, h1'⟩ := h1
    simp only at h1 h1'
    subst h1'
    have h2 := h.episodeStart v1 w1 o h1
    rcases e3 : y.episodeStart v1 o with ⟨v2, p, th⟩
    rcases e4 : z.episodeStart w1 o with ⟨w2, p', th'⟩
    rw [e3, e4] at h2
    obtain ⟨h2, h2'⟩ := h2
    simp only [Prod.mk.injEq] at h2 h2'
    obtain ⟨rfl, rfl⟩ := h2'
    have h3 := preprocess_alike h.corePre v2 w2 o h2
    rcases e5 : preprocess y.corePre v2 o with ⟨v3, x⟩
    rcases e6 : preprocess z.corePre w2 o with ⟨w3, x'⟩
    rw [e5, e6] at h3
    obtain ⟨h3, h3'⟩ := h3
    simp only at h3 h3'
    subst h3'
    simp only [St.withWorld, e1, e2, e3, e4, e5, e6, SameResult, SameRun]
    exact ⟨w3, h3, by rw [h.isEpisodic]⟩

theorem step_alike (h : Alike rel y z) (c : Cfg X) {s : St W X A R P T} {t : St W' X A R P T} (hs : SameRun rel s t) (x : X) :
    SameResult rel (step y c s x) (step z c t x) := by
  obtain ⟨w, hr, rfl⟩ := hs
  have h1 := drawAction_alike h s.world w hr s.nextAction x s.policyState
  rcases e1 : drawAction y s.world s.nextAction x s.policyState with ⟨v1, k, a, p⟩
  rcases e2 : drawAction z w s.nextAction x s.policyState with ⟨w1, k', a', p'⟩
  rw [e1, e2] at h1
  obtain ⟨h1, h1'⟩ := h1
  simp only [Prod.mk.injEq] at h1 h1'
  obtain ⟨rfl, rfl, rfl⟩ := h1'
  have h2 := h.envStep v1 w1 a h1
  rcases e3 : y.envStep v1 a with ⟨v2, o, r, b⟩
  rcases e4 : z.envStep w1 a with ⟨w2, o', r', b'⟩
  rw [e3, e4] at h2
  obtain ⟨h2, h2'⟩ := h2
  simp only [Prod.mk.injEq] at h2 h2'
  obtain ⟨rfl, rfl, rfl⟩ := h2'
  have h3 := preprocess_alike h.corePre v2 w2 o h2
  rcases e5 : preprocess y.corePre v2 o with ⟨v3, x1⟩
  rcases e6 : preprocess z.corePre w2 o with ⟨w3, x2⟩
  rw [e5, e6] at h3
  obtain ⟨h3, h3'⟩ := h3
  simp only at h3 h3'
  subst h3'
  unfold step
  simp only [St.withWorld, e1, e2, e3, e4, e5, e6, h.horizon]
  by_cases hc : isFull c.capacity s.rows.length = true
  · rw [if_pos hc, if_pos hc]; exact rfl
  · rw [if_neg hc, if_neg hc]; exact ⟨_, h.callbackStep _ _ _ h3, rfl⟩

theorem fitPhase_alike (h : Alike rel y z) (c : Cfg X) {s : St W X A R P T} {t : St W' X A R P T} (hs : SameRun rel s t) :
    SameRun rel (fitPhase y c s) (fitPhase z c t) := by
  obtain ⟨w, hr, rfl⟩ := hs
  have h1 := h.fit s.world w s.nextAction s.rows s.thetas hr
  rcases e1 : y.fit s.world s.nextAction s.rows s.thetas with ⟨v1, n⟩
  rcases e2 : z.fit w s.nextAction s.rows s.thetas with ⟨w1, n'⟩
  rw [e1, e2] at h1
  obtain ⟨h1, h1'⟩ := h1
  simp only at h1 h1'
  subst h1'
  have hf : fitRequired c.fitMode (s.withWorld w) = fitRequired c.fitMode s := by unfold fitRequired; cases c.fitMode <;> rfl
  unfold fitPhase
  rw [hf]
  simp only [St.withWorld, e1, e2]
  by_cases hc : fitRequired c.fitMode s = true
  · rw [if_pos hc, if_pos hc]; exact ⟨_, callbacks_alike h.callbacksFit s.rows _ _ h1, rfl⟩
  · rw [if_neg hc, if_neg hc]; exact ⟨w, hr, rfl⟩

theorem iter_alike (h : Alike rel y z) (c : Cfg X) {s : St W X A R P T} {t : St W' X A R P T} (hs : SameRun rel s t) :
    SameResult rel (iter y c s) (iter z c t) := by
  have hl : s.last = t.last := by obtain ⟨w, _, rfl⟩ := hs; rfl
  have h1 : SameResult rel (if s.last then reset y c s else .ok s) (if t.last then reset z c t else .ok t) := by
    rw [← hl]
    split
    · exact reset_alike h c hs
    · exact hs
  unfold iter
  simp only
  generalize (if s.last = true then reset y c s else .ok s) = a at h1 ⊢
  generalize (if t.last = true then reset z c t else .ok t) = b at h1 ⊢
  match a, b, h1 with
  | .error e, .error e', h1 => exact h1
  | .ok a, .ok b, h1 =>
    have hx : a.state = b.state := by obtain ⟨w, _, rfl⟩ := h1; rfl
    simp only
    rw [hx]
    cases b.state with
    | none => exact rfl
    | some x =>
      have h2 := step_alike h c h1 x
      simp only
      generalize step y c a x = a at h2 ⊢
      generalize step z c b x = b at h2 ⊢
      match a, b, h2 with
      | .error e, .error e', h2 => exact h2
      | .ok a, .ok b, h2 => exact fitPhase_alike h c h2

theorem loop_alike (h : Alike rel y z) (c : Cfg X) (fuel : ℕ) : ∀ {s : St W X A R P T} {t : St W' X A R P T}, SameRun rel s t →
    Option.Rel (SameResult rel) (loop y c fuel s) (loop z c fuel t) := by
  induction fuel with
  | zero =>
    intro s t hs
    have hm : moveRequired c.budget s = moveRequired c.budget t := by obtain ⟨w, _, rfl⟩ := hs; unfold moveRequired; cases c.budget <;> rfl
    unfold loop
    rw [← hm]
    split
    · exact .none
    · exact .some hs
  | succ fuel ih =>
    intro s t hs
    have hm : moveRequired c.budget s = moveRequired c.budget t := by obtain ⟨w, _, rfl⟩ := hs; unfold moveRequired; cases c.budget <;> rfl
    unfold loop
    rw [← hm]
    split
    · have h2 := iter_alike h c hs
      generalize iter y c s = a at h2 ⊢
      generalize iter z c t = b at h2 ⊢
      match a, b, h2 with
      | .error e, .error e', h2 => exact .some h2
      | .ok a, .ok b, h2 => exact ih h2
    · exact .some hs

theorem start_alike {s : St W X A R P T} {t : St W' X A R P T} (hs : SameRun rel s t) : SameRun rel (start s) (start t) := by
  obtain ⟨w, hr, rfl⟩ := hs
  exact ⟨w, hr, rfl⟩

/-- **Calls of `learn` and `evaluate` of programs that are alike are the same**: they end or do not end, with the same exception or with states that differ in the worlds only. -/
theorem learn_alike (h : Alike rel y z) (fuel : ℕ) {s : St W X A R P T} {t : St W' X A R P T} (hs : SameRun rel s t) (nSteps nEpisodes nStepsPerFit nEpisodesPerFit : Option ℕ) :
    Option.Rel (SameResult rel) (learn y fuel s nSteps nEpisodes nStepsPerFit nEpisodesPerFit) (learn z fuel t nSteps nEpisodes nStepsPerFit nEpisodesPerFit) := by
  have hc : learnCfg y nSteps nEpisodes nStepsPerFit nEpisodesPerFit = learnCfg z nSteps nEpisodes nStepsPerFit nEpisodesPerFit := by unfold learnCfg; rw [h.horizon]
  unfold learn
  rw [hc]
  cases learnCfg z nSteps nEpisodes nStepsPerFit nEpisodesPerFit with
  | error e => exact .some rfl
  | ok c => exact loop_alike h c fuel (start_alike hs)

theorem evaluate_alike (h : Alike rel y z) (fuel : ℕ) {s : St W X A R P T} {t : St W' X A R P T} (hs : SameRun rel s t) (xs : Option (List X)) (nSteps nEpisodes : Option ℕ) :
    Option.Rel (SameResult rel) (evaluate y fuel s xs nSteps nEpisodes) (evaluate z fuel t xs nSteps nEpisodes) := by
  have hc : evaluateCfg y xs nSteps nEpisodes = evaluateCfg z xs nSteps nEpisodes := by unfold evaluateCfg; rw [h.horizon]
  unfold evaluate
  rw [hc]
  cases evaluateCfg z xs nSteps nEpisodes with
  | error e => exact .some rfl
  | ok c => exact loop_alike h c fuel (start_alike hs)

/-- A call of a method of `Core`. -/
inductive Call (X : Type) where
  | learn (nSteps nEpisodes nStepsPerFit nEpisodesPerFit : Option ℕ)
  | evaluate (initialStates : Option (List X)) (nSteps nEpisodes : Option ℕ)

/-- A call on the state that the previous calls have left, with the given fuel. -/
def Call.run (y : Sys W X A R P T) (fuel : ℕ) (s : St W X A R P T) : Call X → Option (Except Err (St W X A R P T))
  | .learn nSteps nEpisodes nStepsPerFit nEpisodesPerFit => Core.learn y fuel s nSteps nEpisodes nStepsPerFit nEpisodesPerFit
  | .evaluate xs nSteps nEpisodes => Core.evaluate y fuel s xs nSteps nEpisodes

/-- A whole session: calls one after the other, until one raises an exception or does not end. With it the events and the dataset of every completed call. -/
def session (y : Sys W X A R P T) (fuel : ℕ) : List (Call X) → St W X A R P T →
    List (List (Event X A R P T) × List (Sample X A R P)) × Option (Except Err (St W X A R P T))
  | [], s => ([], some (.ok s))
  | c :: cs, s =>
    match c.run y fuel s with
    | some (.ok s') => let r := session y fuel cs s'; ((s'.trace, s'.rows) :: r.1, r.2)
    | r => ([], r)

/-- **Sessions of programs that are alike are the same**: the same events and datasets in every call, the same exception if there is one, and at the end related worlds. -/
theorem session_alike (h : Alike rel y z) (fuel : ℕ) (cs : List (Call X)) : ∀ {s : St W X A R P T} {t : St W' X A R P T}, SameRun rel s t →
    (session y fuel cs s).1 = (session z fuel cs t).1 ∧ Option.Rel (SameResult rel) (session y fuel cs s).2 (session z fuel cs t).2 := by
  induction cs with
  | nil => intro s t hs; exact ⟨rfl, .some hs⟩
  | cons c cs ih =>
    intro s t hs
    have hc : Option.Rel (SameResult rel) (c.run y fuel s) (c.run z fuel t) := by
      cases c with
      | learn a b c d => exact learn_alike h fuel hs a b c d
      | evaluate a b c => exact evaluate_alike h fuel hs a b c
    unfold session
    generalize c.run y fuel s = a at hc ⊢
    generalize c.run z fuel t = b at hc ⊢
    cases hc with
    | none => exact ⟨rfl, .none⟩
    | @some a b hab =>
      match a, b, hab with
      | .error e, .error e', hab => exact ⟨rfl, .some hab⟩
      | .ok a, .ok b, hab =>
        have := ih hab
        have ht : a.trace = b.trace ∧ a.rows = b.rows := by obtain ⟨w, _, rfl⟩ := hab; exact ⟨rfl, rfl⟩
        simp only [ht.1, ht.2]
        exact ⟨by rw [this.1], this.2⟩

end Verif.Core
