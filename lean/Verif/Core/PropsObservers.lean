/-
Property C168: callbacks that only observe do not change a run.
-/
import Verif.Core.Sim

namespace Verif.Core

variable {W C X A R P T : Type}

/-! ### Specification -/

/-- The program `y` with other callbacks. They have a memory of their own (`C`: what they have collected, the files and windows they write to), see the world and what `Core` gives them, and
change nothing but their memory. -/
def observed (y : Sys W X A R P T) (onStep : C → W → Sample X A R P → C) (onFit : List (C → W → List (Sample X A R P) → C)) : Sys (W × C) X A R P T :=
  { horizon := y.horizon
    isEpisodic := y.isEpisodic
    envReset := fun w x => (((y.envReset w.1 x).1, w.2), (y.envReset w.1 x).2)
    episodeStart := fun w x => (((y.episodeStart w.1 x).1, w.2), (y.episodeStart w.1 x).2)
    envStep := fun w a => (((y.envStep w.1 a).1, w.2), (y.envStep w.1 a).2)
    policyDraw := fun w x ps => (((y.policyDraw w.1 x ps).1, w.2), (y.policyDraw w.1 x ps).2)
    fit := fun w next rows thetas => (((y.fit w.1 next rows thetas).1, w.2), (y.fit w.1 next rows thetas).2)
    corePre := y.corePre.map fun p => { update := fun w x => (p.update w.1 x, w.2), apply := fun w x => p.apply w.1 x }
    agentPre := y.agentPre.map fun f w x => f w.1 x
    callbackStep := fun w s => (w.1, onStep w.2 w.1 s)
    callbacksFit := onFit.map fun f w b => (w.1, f w.2 w.1 b) }

/-- A program without callbacks. -/
def Unobserved (y : Sys W X A R P T) : Prop := (∀ w s, y.callbackStep w s = w) ∧ y.callbacksFit = []

theorem forall2_right {α β : Type} (l : List α) (f : α → β) {Q : β → α → Prop} (h : ∀ a, Q (f a) a) : List.Forall₂ Q (l.map f) l := by
  induction l with
  | nil => exact .nil
  | cons a l ih => exact .cons (h a) ih

/-- The callbacks on fit of a list, as one. -/
def allOnFit (onFit : List (C → W → List (Sample X A R P) → C)) : C → W → List (Sample X A R P) → C := fun c w b => onFit.foldl (fun c f => f c w b) c

theorem foldl_onFit (onFit : List (C → W → List (Sample X A R P) → C)) (b : List (Sample X A R P)) :
    ∀ w : W × C, (onFit.map fun f (w : W × C) (b : List (Sample X A R P)) => (w.1, f w.2 w.1 b)).foldl (fun w cb => cb w b) w = (w.1, allOnFit onFit w.2 w.1 b) := by
  induction onFit with
  | nil => intro w; rfl
  | cons f l ih => intro w; simp only [List.map_cons, List.foldl_cons]; rw [ih]; rfl

/-- One callback that calls all those of the list does the same. -/
theorem observed_one (y : Sys W X A R P T) (onStep : C → W → Sample X A R P → C) (onFit : List (C → W → List (Sample X A R P) → C)) (c : Cfg X) (s : St (W × C) X A R P T) :
    fitPhase (observed y onStep onFit) c s = fitPhase (observed y onStep [allOnFit onFit]) c s := by
  have h : ∀ w : W × C, (observed y onStep onFit).callbacksFit.foldl (fun w cb => cb w s.rows) w = (observed y onStep [allOnFit onFit]).callbacksFit.foldl (fun w cb => cb w s.rows) w := by
    intro w
    have := foldl_onFit onFit s.rows w
    simp only [observed] at this ⊢
    rw [this]
    rfl
  unfold fitPhase
  simp only [h]
  rfl

theorem iter_one (y : Sys W X A R P T) (onStep : C → W → Sample X A R P → C) (onFit : List (C → W → List (Sample X A R P) → C)) (c : Cfg X) :
    iter (observed y onStep onFit) c = iter (observed y onStep [allOnFit onFit]) c := by
  funext s
  unfold iter
  have hr : ∀ s, reset (observed y onStep onFit) c s = reset (observed y onStep [allOnFit onFit]) c s := fun s => rfl
  have hs : ∀ s x, step (observed y onStep onFit) c s x = step (observed y onStep [allOnFit onFit]) c s x := fun s x => rfl
  simp only [hr, hs, observed_one y onStep onFit c]

theorem loop_one (y : Sys W X A R P T) (onStep : C → W → Sample X A R P → C) (onFit : List (C → W → List (Sample X A R P) → C)) (c : Cfg X) (fuel : ℕ) :
    ∀ s, loop (observed y onStep onFit) c fuel s = loop (observed y onStep [allOnFit onFit]) c fuel s := by
  induction fuel with
  | zero => intro s; rfl
  | succ n ih => intro s; unfold loop; simp only [iter_one y onStep onFit c, ih]

theorem session_one (y : Sys W X A R P T) (onStep : C → W → Sample X A R P → C) (onFit : List (C → W → List (Sample X A R P) → C)) (fuel : ℕ) (cs : List (Call X)) :
    ∀ s, session (observed y onStep onFit) fuel cs s = session (observed y onStep [allOnFit onFit]) fuel cs s := by
  have hc : ∀ (c : Call X) s, c.run (observed y onStep onFit) fuel s = c.run (observed y onStep [allOnFit onFit]) fuel s := by
    intro c s
    cases c with
    | learn a b c d =>
      simp only [Call.run, learn]
      have : learnCfg (observed y onStep onFit) a b c d = learnCfg (observed y onStep [allOnFit onFit]) a b c d := rfl
      rw [this]
      simp only [loop_one y onStep onFit]
    | evaluate a b c =>
      simp only [Call.run, evaluate]
      have : evaluateCfg (observed y onStep onFit) a b c = evaluateCfg (observed y onStep [allOnFit onFit]) a b c := rfl
      rw [this]
      simp only [loop_one y onStep onFit]
  induction cs with
  | nil => intro s; rfl
  | cons c cs ih => intro s; unfold session; simp only [hc, ih]

/-! ### Theorem -/

/-- A program with one callback on fit that does nothing is the program without it. -/
def idle (y : Sys W X A R P T) : Sys W X A R P T := { y with callbackStep := fun w _ => w, callbacksFit := [fun w _ => w] }

theorem session_idle (y : Sys W X A R P T) (hy : Unobserved y) (fuel : ℕ) (cs : List (Call X)) : ∀ s, session (idle y) fuel cs s = session y fuel cs s := by
  have hf : ∀ c s, fitPhase (idle y) c s = fitPhase y c s := by
    intro c s
    unfold fitPhase
    simp only [idle, hy.2, List.foldl_cons, List.foldl_nil]
  have hcb : y.callbackStep = fun w _ => w := by funext w s; exact hy.1 w s
  have hs : ∀ c s x, step (idle y) c s x = step y c s x := by
    intro c s x
    have : step (idle y) c s x = step { y with callbackStep := fun w _ => w } c s x := rfl
    rw [this, ← hcb]
  have hr : ∀ c s, reset (idle y) c s = reset y c s := fun c s => rfl
  have hi : ∀ c s, iter (idle y) c s = iter y c s := by
    intro c s
    unfold iter
    simp only [hr, hs, hf]
  have hl : ∀ c fuel s, loop (idle y) c fuel s = loop y c fuel s := by
    intro c fuel
    induction fuel with
    | zero => intro s; rfl
    | succ n ih => intro s; unfold loop; simp only [hi, ih]
  have hc : ∀ (c : Call X) s, c.run (idle y) fuel s = c.run y fuel s := by
    intro c s
    cases c with
    | learn a b c d =>
      simp only [Call.run, learn]
      have : learnCfg (idle y) a b c d = learnCfg y a b c d := rfl
      rw [this]
      simp only [hl]
    | evaluate a b c =>
      simp only [Call.run, evaluate]
      have : evaluateCfg (idle y) a b c = evaluateCfg y a b c := rfl
      rw [this]
      simp only [hl]
  induction cs with
  | nil => intro s; rfl
  | cons c cs ih => intro s; unfold session; simp only [hc, ih]

/-- **C168.** Callbacks that only observe, whatever they are and however many, change nothing: in every session of calls of `learn` and `evaluate` the events and datasets of all calls are those
of the program without callbacks, so is an exception, and the final states of the program agree in everything but the memory of the callbacks. -/
theorem C168_observers (y : Sys W X A R P T) (hy : Unobserved y) (onStep : C → W → Sample X A R P → C) (onFit : List (C → W → List (Sample X A R P) → C))
    (fuel : ℕ) (cs : List (Call X)) (s : St W X A R P T) (c : C) :
    (session (observed y onStep onFit) fuel cs (s.withWorld (s.world, c))).1 = (session y fuel cs s).1 ∧
    Option.Rel (SameResult fun v w => v.1 = w) (session (observed y onStep onFit) fuel cs (s.withWorld (s.world, c))).2 (session y fuel cs s).2 := by
  rw [session_one, ← session_idle y hy]
  refine session_alike (rel := fun (v : W × C) w => v.1 = w) ?_ fuel cs ⟨s.world, rfl, rfl⟩
  constructor
  · rfl
  · rfl
  · rintro v w x rfl; exact ⟨rfl, rfl⟩
  · rintro v w x rfl; exact ⟨rfl, rfl⟩
  · rintro v w x rfl; exact ⟨rfl, rfl⟩
  · rintro v w x ps rfl; exact ⟨rfl, rfl⟩
  · rintro v w next rows thetas rfl; exact ⟨rfl, rfl⟩
  · exact forall2_right _ _ fun p v w x h => by subst h; exact ⟨rfl, rfl⟩
  · exact forall2_right _ _ fun p v w x h => by subst h; rfl
  · rintro v w s rfl; rfl
  · exact .cons (fun v w b h => h) .nil

/-- A counter: the agent adds its action, the episode ends at three. -/
def counter : Sys ℕ ℕ ℕ ℕ Unit Unit :=
  { horizon := some 5
    isEpisodic := false
    envReset := fun _ x => (x.getD 0, x.getD 0)
    episodeStart := fun w _ => (w, none, ())
    envStep := fun w a => (w + a, (w + a, a, decide (3 ≤ w + a)))
    policyDraw := fun w x _ => (w, x % 2 + 1, none)
    fit := fun w next _ _ => (w, next)
    corePre := []
    agentPre := []
    callbackStep := fun w _ => w
    callbacksFit := [] }

/-- Before the first call. -/
def newCore : St ℕ ℕ ℕ ℕ Unit Unit :=
  { world := 0
    state := none
    policyState := none
    theta := none
    episodeSteps := 0
    nextAction := none
    totalEpisodes := 0
    totalSteps := 0
    currentEpisodes := 0
    currentSteps := 0
    last := true
    rows := []
    thetas := []
    trace := [] }

/-- A call of `learn` and one of `evaluate`. -/
def twoCalls : List (Call ℕ) := [.learn (some 4) none (some 2) none, .evaluate none none (some 1)]

/-- The counter with a collector of all the samples given to `fit` (`CollectDataset`: collect_dataset.py L17-24), one of the worlds after the fits, and a step callback that counts. -/
def watched : Sys (ℕ × List ℕ × List ℕ × ℕ) ℕ ℕ ℕ Unit Unit :=
  observed counter (fun (c : List ℕ × List ℕ × ℕ) _ _ => (c.1, c.2.1, c.2.2 + 1)) [fun c _ b => (c.1 ++ b.map (·.state), c.2), fun c w _ => (c.1, c.2.1 ++ [w], c.2.2)]

/-- The session has the same events, and the callbacks have collected something. -/
example : (session watched 10 twoCalls (newCore.withWorld (0, [], [], 0))).1 = (session counter 10 twoCalls newCore).1 ∧
    (session watched 10 twoCalls (newCore.withWorld (0, [], [], 0))).2.map (fun r => match r with | .ok s => s.world.2 | .error _ => ([], [], 0)) = some ([0, 1, 0, 1], [3, 3], 6) := by
  refine ⟨(C168_observers counter ⟨fun _ _ => rfl, rfl⟩ _ _ 10 twoCalls newCore ([], [], 0)).1, ?_⟩
  decide +kernel

end Verif.Core
