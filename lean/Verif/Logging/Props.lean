/-
C149: a logger only observes.
-/
import Verif.Logging.Model
import Verif.ActorCritic.PropsTrust
import Mathlib.Analysis.Complex.ExponentialBounds

namespace Verif.Logging

open Verif.ActorCritic (meanOf valueAt valueAt_constant)
open Verif.ActorCritic.Proximal (Row preAll updAll Ppo IsInteger isInteger_const dataOf)
open Verif.ActorCritic.Trust (TrpoSys Trpo divergence preAfter)
open Verif.Policy (constantParam)

noncomputable section

/-! ### Specification -/

/-- Two runs of the same calls, without and with a logger: the same agents and the same exception, if there is one, and one message for every call that returned, which
`desc` relates to the agent before the call, the dataset and the agent after it. -/
structure OnlyObserves {E G D Msg : Type} (desc : G → D → G → Msg → Prop) (g : G) (ds : List D) (plain logged : Trail E G Msg) : Prop where
  same : logged.agents = plain.agents
  stop : logged.stop = plain.stop
  silent : plain.messages = []
  count : logged.messages.length = plain.agents.length
  messages : ∀ (k : ℕ) g₀ d g₁ msg, (g :: plain.agents)[k]? = some g₀ → ds[k]? = some d → plain.agents[k]? = some g₁ → logged.messages[k]? = some msg → desc g₀ d g₁ msg

section critic

variable {S A P V R κ O : Type} [Fintype κ]

/-- The mean squared error of model `idx` of the critic `v` for these targets. -/
def errorOf (c : Critic V S) (v : V) (idx : ℕ) (x : ℕ → S) (target : ℕ → ℝ) (n : ℕ) : ℝ := ((List.range n).map fun i => (c.value v idx (x i) - target i) ^ 2).sum / n

theorem mse_eq (f : S → ℝ) (x : ℕ → S) (target : ℕ → ℝ) (n : ℕ) :
    mse (((List.range n).map x).map f) ((List.range n).map target) = ((List.range n).map fun i => (f (x i) - target i) ^ 2).sum / n := by
  have : List.zipWith (fun p t => (p - t) ^ 2) (((List.range n).map x).map f) ((List.range n).map target) = (List.range n).map fun i => (f (x i) - target i) ^ 2 := by
    generalize List.range n = l
    induction l with
    | nil => rfl
    | cons i l ih => simp only [List.map_cons, List.zipWith_cons_cons, ih]
  rw [mse, this]
  simp [meanOf]

theorem mapM_ok' {α β : Type} (f : α → Except LogErr β) (g : α → β) (l : List α) (h : ∀ a ∈ l, f a = .ok (g a)) : l.mapM f = .ok (l.map g) := by
  induction l with
  | nil => rfl
  | cons a l ih =>
    rw [List.mapM_cons, h a (by simp), ih fun b hb => h b (by simp [hb])]
    rfl

/-- The errors of the models of an ensemble. -/
theorem valueErrors_ensemble (c : Critic V S) (m : ℕ) (hc : c.nModels = some m) (v : V) (x : ℕ → S) (target : ℕ → ℝ) (n : ℕ) :
    valueErrors c v ((List.range n).map x) ((List.range n).map target) = .ok ((List.range m).map fun idx => errorOf c v idx x target n) := by
  unfold valueErrors
  rw [hc]
  refine mapM_ok' _ _ _ fun idx h => ?_
  have hi : idx < m := by simpa [Approx.Reg.len] using h
  simp only [predictIdx, hc, if_pos hi]
  show Except.ok _ = _
  rw [mse_eq]; rfl

/-- The error of a single critic whose network accepts the number. -/
theorem valueErrors_accepts (c : Critic V S) (hc : c.nModels = none) (ha : c.acceptsIdx = true) (v : V) (x : ℕ → S) (target : ℕ → ℝ) (n : ℕ) :
    valueErrors c v ((List.range n).map x) ((List.range n).map target) = .ok [errorOf c v 0 x target n] := by
  have h : predictIdx c v 0 = .ok (c.value v 0) := by simp [predictIdx, hc, ha]
  unfold valueErrors
  rw [hc]
  show [0].mapM _ = _
  rw [List.mapM_cons, h]
  show Except.ok [mse _ _] = _
  rw [mse_eq]; rfl

/-- An ordinary critic: no `n_models`, and a network that has no argument `idx`. -/
structure Ordinary (c : Critic V S) : Prop where
  single : c.nModels = none
  noKeyword : c.acceptsIdx = false

theorem valueErrors_ordinary (c : Critic V S) (hc : Ordinary c) (v : V) (x : List S) (target : List ℝ) : valueErrors c v x target = .error .type := by
  have h : predictIdx c v 0 = .error .type := by simp [predictIdx, hc.single, hc.noKeyword]
  unfold valueErrors
  rw [hc.single]
  show [0].mapM _ = _
  rw [List.mapM_cons, h]
  rfl

/-- The number of models whose error is reported. -/
def Reports (c : Critic V S) (m : ℕ) : Prop := c.nModels = some m ∨ c.nModels = none ∧ c.acceptsIdx = true ∧ m = 1

theorem valueErrors_reports (c : Critic V S) (m : ℕ) (hc : Reports c m) (v : V) (x : ℕ → S) (target : ℕ → ℝ) (n : ℕ) :
    valueErrors c v ((List.range n).map x) ((List.range n).map target) = .ok ((List.range m).map fun idx => errorOf c v idx x target n) := by
  rcases hc with h | ⟨h, ha, rfl⟩
  · exact valueErrors_ensemble c m h v x target n
  · exact valueErrors_accepts c h ha v x target n

/-- The message about one fit of a policy with weights `θ₀` (before) and `θ` (after): the errors of the `m` models of the critic AFTER the fit with respect to the targets
that the critic before the fit defined, the entropy of the policy after the fit, both in the states as the updated preprocessors show them. -/
structure Describes (y : TrpoSys S A P V R κ O) (c : Critic V S) (m : ℕ) (ret : (ℕ → Row S A) → ℕ → ℝ) (g0 : ℕ → ℝ) (v₀ v : V) (pre : List P) (lam : ℝ)
    (θ : κ → ℝ) (iter n : ℕ) (d : ℕ → Row S A) (kl : ℝ) (msg : Message) : Prop where
  iteration : msg.iteration = iter
  rewards : msg.rewards = ret d n
  errors : msg.vfLoss = (List.range m).map fun idx => errorOf c v idx (fun i => preAll y.toPpoSys pre (d i).state)
    (ValueFn.computeGae (dataOf y.toPpoSys v₀ pre d) y.gamma lam n g0).1 n
  entropy : msg.entropy = y.entropy θ ((List.range n).map fun i => preAll y.toPpoSys pre (d i).state)
  divergence : msg.kl = kl

end critic

/-! ### PPO and TRPO -/

section onpolicy

variable {S A P V R κ O : Type} [Fintype κ]

theorem ppoInfo_reports (y : TrpoSys S A P V R κ O) (c : Critic V S) (m : ℕ) (hc : Reports c m) (ret : (ℕ → Row S A) → ℕ → ℝ) (g0 : ℕ → ℝ) (g : Ppo P V R κ O) (n : ℕ)
    (d : ℕ → Row S A) (g' : Ppo P V R κ O) : ∃ msg, ppoInfo y c ret g0 g n d g' = .ok msg ∧
      Describes y c m ret g0 g.critic g'.critic g'.pre (valueAt g.lam 1) g'.actor.weights g'.iter n d
        (divergence y g'.actor.weights g'.pre g.pre n d g.actor.weights) msg := by
  have h := valueErrors_reports c m hc g'.critic (fun i => preAll y.toPpoSys g'.pre (d i).state)
    (ValueFn.computeGae (dataOf y.toPpoSys g.critic g'.pre d) y.gamma (valueAt g.lam 1) n g0).1 n
  refine ⟨⟨g'.iter, ret d n, _, y.entropy g'.actor.weights (statesOf y g'.pre n d), y.kl g'.actor.weights (statesOf y g'.pre n d) g.actor.weights (statesOf y g.pre n d)⟩,
    ?_, ⟨rfl, rfl, rfl, rfl, rfl⟩⟩
  simp only [ppoInfo]
  rw [show valueErrors c g'.critic (statesOf y g'.pre n d) (targetsOf y g0 g.critic g'.pre (g.lam.call []).2 n d) = _ from h]
  rfl

theorem trpoInfo_reports (y : TrpoSys S A P V R κ O) (c : Critic V S) (m : ℕ) (hc : Reports c m) (ret : (ℕ → Row S A) → ℕ → ℝ) (g0 : ℕ → ℝ) (g : Trpo P V R κ) (n : ℕ)
    (d : ℕ → Row S A) (g' : Trpo P V R κ) : ∃ msg, trpoInfo y c ret g0 g n d g' = .ok msg ∧
      Describes y c m ret g0 g.critic g'.critic g'.pre (valueAt g.lam 1) g'.weights g'.iter n d (divergence y g.weights g.pre g'.pre n d g'.weights) msg := by
  have h := valueErrors_reports c m hc g'.critic (fun i => preAll y.toPpoSys g'.pre (d i).state)
    (ValueFn.computeGae (dataOf y.toPpoSys g.critic g'.pre d) y.gamma (valueAt g.lam 1) n g0).1 n
  refine ⟨⟨g'.iter, ret d n, _, y.entropy g'.weights (statesOf y g'.pre n d), y.kl g.weights (statesOf y g.pre n d) g'.weights (statesOf y g'.pre n d)⟩,
    ?_, ⟨rfl, rfl, rfl, rfl, rfl⟩⟩
  simp only [trpoInfo]
  rw [show valueErrors c g'.critic (statesOf y g'.pre n d) (targetsOf y g0 g.critic g'.pre (g.lam.call []).2 n d) = _ from h]
  rfl

/-- C149. PPO whose critic is an ensemble (or a network that accepts `idx`): a call with a logger fails exactly when the call without one does, leaves the same agent, and
logs one message, which describes the fit. The divergence in it is that of the OLD policy from the NEW one. -/
theorem C149_ppo_partial (y : TrpoSys S A P V R κ O) (c : Critic V S) (m : ℕ) (hc : Reports c m) (ret : (ℕ → Row S A) → ℕ → ℝ) (g0 : ℕ → ℝ) (g : Ppo P V R κ O) (n : ℕ)
    (d : ℕ → Row S A) : (∃ e, ppoFit y c ret false g0 g n d = .failed e ∧ ppoFit y c ret true g0 g n d = .failed e) ∨
      ∃ g' msg, ppoFit y c ret false g0 g n d = .done g' none ∧ ppoFit y c ret true g0 g n d = .done g' (some msg) ∧
        Describes y c m ret g0 g.critic g'.critic g'.pre (valueAt g.lam 1) g'.actor.weights g.iter n d
          (divergence y g'.actor.weights g'.pre g.pre n d g.actor.weights) msg := by
  unfold ppoFit withLog
  cases h : ActorCritic.Proximal.fit y.toPpoSys g0 g n d with
  | error e => exact .inl ⟨e, rfl, rfl⟩
  | ok g' =>
    obtain ⟨msg, h1, h2⟩ := ppoInfo_reports y c m hc ret g0 g n d { g' with iter := g.iter }
    exact .inr ⟨g', msg, rfl, by simp only [if_true, h1], h2⟩

/-- C149. TRPO whose critic is an ensemble (or a network that accepts `idx`): as PPO, but the divergence is that of the NEW policy from the OLD one. -/
theorem C149_trpo_partial (y : TrpoSys S A P V R κ O) (c : Critic V S) (m : ℕ) (hc : Reports c m) (ret : (ℕ → Row S A) → ℕ → ℝ) (g0 : ℕ → ℝ) (g : Trpo P V R κ) (n : ℕ)
    (d : ℕ → Row S A) : (∃ e, trpoFit y c ret false g0 g n d = .failed e ∧ trpoFit y c ret true g0 g n d = .failed e) ∨
      ∃ g' msg, trpoFit y c ret false g0 g n d = .done g' none ∧ trpoFit y c ret true g0 g n d = .done g' (some msg) ∧
        Describes y c m ret g0 g.critic g'.critic g'.pre (valueAt g.lam 1) g'.weights g.iter n d (divergence y g.weights g.pre g'.pre n d g'.weights) msg := by
  unfold trpoFit withLog
  cases h : ActorCritic.Trust.fit y g0 g n d with
  | error e => exact .inl ⟨e, rfl, rfl⟩
  | ok g' =>
    obtain ⟨msg, h1, h2⟩ := trpoInfo_reports y c m hc ret g0 g n d { g' with iter := g.iter }
    exact .inr ⟨g', msg, rfl, by simp only [if_true, h1], h2⟩

/-- C149. The divergence that TRPO logs is the one it limits: at most one and a half times the limit whenever the policy has moved. -/
theorem C149_trpo_divergence (y : TrpoSys S A P V R κ O) (c : Critic V S) (m : ℕ) (hc : Reports c m) (ret : (ℕ → Row S A) → ℕ → ℝ) (g0 : ℕ → ℝ) (g g' : Trpo P V R κ) (n : ℕ)
    (hn : 2 ≤ n) (d : ℕ → Row S A) (K E : ℕ) (hK : IsInteger g.nCg K) (hE : IsInteger g.nSearch E) (msg : Message)
    (h : trpoFit y c ret true g0 g n d = .done g' (some msg)) : g'.weights = g.weights ∨ msg.kl ≤ 3 / 2 * valueAt g.maxKl 1 := by
  rcases C149_trpo_partial y c m hc ret g0 g n d with ⟨e, -, h2⟩ | ⟨g₁, msg₁, h1, h2, h3⟩
  · rw [h] at h2; cases h2
  · rw [h] at h2
    cases h2
    have hf : ActorCritic.Trust.fit y g0 g n d = .ok g' := by
      unfold trpoFit withLog at h1
      cases hfit : ActorCritic.Trust.fit y g0 g n d with
      | error e => rw [hfit] at h1; cases h1
      | ok g₂ => rw [hfit] at h1; cases h1; rfl
    rcases ActorCritic.Trust.C148_safe y g0 g g' n hn d K E hK hE hf with hw | ⟨adv, t, -, -, hd, -⟩
    · exact .inl hw
    · right
      rw [h3.divergence]; exact hd

/-- C149. With an ordinary critic (no `n_models`, a network without an argument `idx`) every call of `PPO.fit` that succeeds without a logger raises TypeError with one. The
policy and the critic have been updated by then; the counter of the iterations has not, and nothing has been logged. -/
theorem C149_ppo_refuted (y : TrpoSys S A P V R κ O) (c : Critic V S) (hc : Ordinary c) (ret : (ℕ → Row S A) → ℕ → ℝ) (g0 : ℕ → ℝ) (g g' : Ppo P V R κ O) (n : ℕ)
    (d : ℕ → Row S A) (h : ppoFit y c ret false g0 g n d = .done g' none) : ppoFit y c ret true g0 g n d = .raised .type { g' with iter := g.iter } := by
  unfold ppoFit withLog at h ⊢
  cases hf : ActorCritic.Proximal.fit y.toPpoSys g0 g n d with
  | error e => rw [hf] at h; cases h
  | ok g₁ =>
    rw [hf] at h
    cases h
    simp only [if_true, ppoInfo, valueErrors_ordinary c hc]
    rfl

/-- C149. With an ordinary critic every call of `TRPO.fit` that succeeds without a logger raises TypeError with one. -/
theorem C149_trpo_refuted (y : TrpoSys S A P V R κ O) (c : Critic V S) (hc : Ordinary c) (ret : (ℕ → Row S A) → ℕ → ℝ) (g0 : ℕ → ℝ) (g g' : Trpo P V R κ) (n : ℕ)
    (d : ℕ → Row S A) (h : trpoFit y c ret false g0 g n d = .done g' none) : trpoFit y c ret true g0 g n d = .raised .type { g' with iter := g.iter } := by
  unfold trpoFit withLog at h ⊢
  cases hf : ActorCritic.Trust.fit y g0 g n d with
  | error e => rw [hf] at h; cases h
  | ok g₁ =>
    rw [hf] at h
    cases h
    simp only [if_true, trpoInfo, valueErrors_ordinary c hc]
    rfl

/-! ### Runs -/

theorem calls_observe {E G D Msg : Type} (desc : G → D → G → Msg → Prop) (plain logged : G → D → Outcome E G Msg)
    (h : ∀ g d, (∃ e, plain g d = .failed e ∧ logged g d = .failed e) ∨ ∃ g' msg, plain g d = .done g' none ∧ logged g d = .done g' (some msg) ∧ desc g d g' msg)
    (g : G) (ds : List D) : OnlyObserves desc g ds (calls plain g ds) (calls logged g ds) := by
  induction ds generalizing g with
  | nil => exact ⟨rfl, rfl, rfl, rfl, fun k _ _ _ _ _ h => by simp at h⟩
  | cons d ds ih =>
    rcases h g d with ⟨e, h1, h2⟩ | ⟨g', m, h1, h2, h3⟩
    · simp only [calls, h1, h2]
      exact ⟨rfl, rfl, rfl, rfl, fun k _ _ _ _ _ _ h => by simp at h⟩
    · obtain ⟨i1, i2, i3, i4, i5⟩ := ih g'
      simp only [calls, h1, h2]
      refine ⟨by simp only [i1], i2, by simp [i3], by simp [i4], ?_⟩
      intro k g₀ d₀ g₁ msg e1 e2 e3 e4
      cases k with
      | zero => simp at e1 e2 e3 e4; subst e1 e2 e3 e4; exact h3
      | succ k =>
        refine i5 k g₀ d₀ g₁ msg ?_ (by simpa using e2) (by simpa using e3) (by simpa using e4)
        simpa using e1

/-- The datasets of a run: the content of the uninitialised array of the call, the number of the transitions, and the transitions. -/
abbrev Batch (S A : Type) := (ℕ → ℝ) × ℕ × (ℕ → Row S A)

theorem epochs_iter (y : ActorCritic.Proximal.PpoSys S A P V R κ O) (c : ActorCritic.Proximal.Arrays S A) (n k : ℕ) (g g' : Ppo P V R κ O)
    (h : ActorCritic.Proximal.epochs y c n k g = .ok g') : g'.iter = g.iter := by
  have hb : ∀ (l : List (List ℕ)) (g : Ppo P V R κ O), (l.foldl (ActorCritic.Proximal.batchStep y c) g).iter = g.iter := by
    intro l
    induction l with
    | nil => intro g; rfl
    | cons a l ih => intro g; rw [List.foldl_cons, ih]; rfl
  induction k generalizing g with
  | zero => cases h; rfl
  | succ k ih =>
    simp only [ActorCritic.Proximal.epochs] at h
    cases he : ActorCritic.Proximal.epoch y c n g with
    | error e => rw [he] at h; cases h
    | ok g₁ =>
      rw [he] at h
      rw [ih g₁ h]
      simp only [ActorCritic.Proximal.epoch] at he
      split at he
      · cases he
      · split at he
        · cases he; rw [hb]
        · cases he

theorem ppo_iter (y : ActorCritic.Proximal.PpoSys S A P V R κ O) (g0 : ℕ → ℝ) (g g' : Ppo P V R κ O) (n : ℕ) (d : ℕ → Row S A)
    (h : ActorCritic.Proximal.fit y g0 g n d = .ok g') : g'.iter = g.iter + 1 := by
  simp only [ActorCritic.Proximal.fit] at h
  split at h
  · cases h
  · simp only [ActorCritic.Proximal.updatePolicy] at h
    split at h
    · cases h
    · next z _ =>
      revert h
      generalize hr : ActorCritic.Proximal.epochs y _ n _ _ = r
      intro h
      cases r with
      | error e => cases h
      | ok g₁ =>
        cases h
        have := epochs_iter y _ n _ _ g₁ hr
        exact congrArg (· + 1) this

theorem trpo_iter (y : TrpoSys S A P V R κ O) (g0 : ℕ → ℝ) (g g' : Trpo P V R κ) (n : ℕ) (d : ℕ → Row S A)
    (h : ActorCritic.Trust.fit y g0 g n d = .ok g') : g'.iter = g.iter + 1 := by
  simp only [ActorCritic.Trust.fit] at h
  repeat' split at h
  all_goals first | (cases h; done) | (cases h; rfl)

/-- The numbers of the iterations are consecutive. -/
theorem numbered {E G D : Type} (iter : G → ℕ) (desc : G → D → G → Message → Prop) (hd : ∀ g d g' m, desc g d g' m → m.iteration = iter g ∧ iter g' = iter g + 1) (g : G)
    (ds : List D) (plain logged : Trail E G Message) (h : OnlyObserves desc g ds plain logged) (hl : plain.agents.length ≤ ds.length) :
    logged.messages.map (·.iteration) = List.range' (iter g) plain.agents.length := by
  have key : ∀ k < plain.agents.length, ∃ g₀ msg, (g :: plain.agents)[k]? = some g₀ ∧ iter g₀ = iter g + k ∧ logged.messages[k]? = some msg ∧ msg.iteration = iter g₀ ∧
      ∃ g₁, plain.agents[k]? = some g₁ ∧ iter g₁ = iter g₀ + 1 := by
    intro k
    induction k with
    | zero =>
      intro hk
      have e3 := List.getElem?_eq_getElem hk
      have e2 := List.getElem?_eq_getElem (show 0 < ds.length by omega)
      have e4 := List.getElem?_eq_getElem (show 0 < logged.messages.length by rw [h.count]; exact hk)
      have := hd _ _ _ _ (h.messages 0 g _ _ _ (by simp) e2 e3 e4)
      exact ⟨g, _, by simp, by simp, e4, this.1, _, e3, this.2⟩
    | succ k ih =>
      intro hk
      obtain ⟨g₀, -, -, hi, -, -, g₁, hg, hi'⟩ := ih (by omega)
      have e3 := List.getElem?_eq_getElem hk
      have e2 := List.getElem?_eq_getElem (show k + 1 < ds.length by omega)
      have e4 := List.getElem?_eq_getElem (show k + 1 < logged.messages.length by rw [h.count]; exact hk)
      have e1 : (g :: plain.agents)[k + 1]? = some g₁ := by simpa using hg
      have := hd _ _ _ _ (h.messages (k + 1) g₁ _ _ _ e1 e2 e3 e4)
      exact ⟨g₁, _, e1, by omega, e4, this.1, _, e3, this.2⟩
  refine List.ext_getElem? fun k => ?_
  by_cases hk : k < plain.agents.length
  · obtain ⟨g₀, msg, -, hi, hm, hmi, -⟩ := key k hk
    rw [List.getElem?_map, hm, List.getElem?_range' hk]
    simp [hmi, hi]
  · rw [List.getElem?_eq_none (by simp [h.count]; omega), List.getElem?_eq_none (by simp; omega)]

theorem calls_length {E G D Msg : Type} (f : G → D → Outcome E G Msg) (g : G) (ds : List D) : (calls f g ds).agents.length ≤ ds.length := by
  induction ds generalizing g with
  | nil => simp [calls]
  | cons d ds ih =>
    simp only [calls]
    split
    · simp
    · simp
    · next g' m _ => simpa using ih g'

/-- C149. Whole runs of PPO with an ensemble of critics: with a logger the same agents after each call, the same end, and one message for each call, numbered
consecutively, which describes the fit. -/
theorem C149_ppo_run_partial (y : TrpoSys S A P V R κ O) (c : Critic V S) (m : ℕ) (hc : Reports c m) (ret : (ℕ → Row S A) → ℕ → ℝ) (g : Ppo P V R κ O)
    (ds : List (Batch S A)) :
    let plain := calls (fun g d => ppoFit y c ret false d.1 g d.2.1 d.2.2) g ds
    let logged := calls (fun g d => ppoFit y c ret true d.1 g d.2.1 d.2.2) g ds
    OnlyObserves (fun g d g' msg => Describes y c m ret d.1 g.critic g'.critic g'.pre (valueAt g.lam 1) g'.actor.weights g.iter d.2.1 d.2.2
        (divergence y g'.actor.weights g'.pre g.pre d.2.1 d.2.2 g.actor.weights) msg) g ds plain logged ∧
      logged.messages.map (·.iteration) = List.range' g.iter plain.agents.length := by
  intro plain logged
  have main : OnlyObserves (fun g d g' msg => Describes y c m ret d.1 g.critic g'.critic g'.pre (valueAt g.lam 1) g'.actor.weights g.iter d.2.1 d.2.2
        (divergence y g'.actor.weights g'.pre g.pre d.2.1 d.2.2 g.actor.weights) msg ∧ g'.iter = g.iter + 1) g ds plain logged := by
    refine calls_observe _ _ _ (fun g d => ?_) g ds
    rcases C149_ppo_partial y c m hc ret d.1 g d.2.1 d.2.2 with h | ⟨g', msg, h1, h2, h3⟩
    · exact .inl h
    · refine .inr ⟨g', msg, h1, h2, h3, ?_⟩
      unfold ppoFit withLog at h1
      cases hf : ActorCritic.Proximal.fit y.toPpoSys d.1 g d.2.1 d.2.2 with
      | error e => rw [hf] at h1; cases h1
      | ok g₁ => rw [hf] at h1; cases h1; exact ppo_iter y.toPpoSys d.1 g g' d.2.1 d.2.2 hf
  exact ⟨⟨main.same, main.stop, main.silent, main.count, fun k g₀ d g₁ msg a b c e => (main.messages k g₀ d g₁ msg a b c e).1⟩,
    numbered (fun g => g.iter) _ (fun g d g' msg h => ⟨h.1.iteration, h.2⟩) g ds plain logged main (calls_length _ _ _)⟩

/-- C149. Whole runs of TRPO with an ensemble of critics. -/
theorem C149_trpo_run_partial (y : TrpoSys S A P V R κ O) (c : Critic V S) (m : ℕ) (hc : Reports c m) (ret : (ℕ → Row S A) → ℕ → ℝ) (g : Trpo P V R κ)
    (ds : List (Batch S A)) :
    let plain := calls (fun g d => trpoFit y c ret false d.1 g d.2.1 d.2.2) g ds
    let logged := calls (fun g d => trpoFit y c ret true d.1 g d.2.1 d.2.2) g ds
    OnlyObserves (fun g d g' msg => Describes y c m ret d.1 g.critic g'.critic g'.pre (valueAt g.lam 1) g'.weights g.iter d.2.1 d.2.2
        (divergence y g.weights g.pre g'.pre d.2.1 d.2.2 g'.weights) msg) g ds plain logged ∧
      logged.messages.map (·.iteration) = List.range' g.iter plain.agents.length := by
  intro plain logged
  have main : OnlyObserves (fun g d g' msg => Describes y c m ret d.1 g.critic g'.critic g'.pre (valueAt g.lam 1) g'.weights g.iter d.2.1 d.2.2
        (divergence y g.weights g.pre g'.pre d.2.1 d.2.2 g'.weights) msg ∧ g'.iter = g.iter + 1) g ds plain logged := by
    refine calls_observe _ _ _ (fun g d => ?_) g ds
    rcases C149_trpo_partial y c m hc ret d.1 g d.2.1 d.2.2 with h | ⟨g', msg, h1, h2, h3⟩
    · exact .inl h
    · refine .inr ⟨g', msg, h1, h2, h3, ?_⟩
      unfold trpoFit withLog at h1
      cases hf : ActorCritic.Trust.fit y d.1 g d.2.1 d.2.2 with
      | error e => rw [hf] at h1; cases h1
      | ok g₁ => rw [hf] at h1; cases h1; exact trpo_iter y d.1 g g' d.2.1 d.2.2 hf
  exact ⟨⟨main.same, main.stop, main.silent, main.count, fun k g₀ d g₁ msg a b c e => (main.messages k g₀ d g₁ msg a b c e).1⟩,
    numbered (fun g => g.iter) _ (fun g d g' msg h => ⟨h.1.iteration, h.2⟩) g ds plain logged main (calls_length _ _ _)⟩

/-- C149. With an ordinary critic no call of either algorithm ever returns, and nothing is ever logged: no run is longer than its first call. -/
theorem C149_run_refuted (y : TrpoSys S A P V R κ O) (c : Critic V S) (hc : Ordinary c) (ret : (ℕ → Row S A) → ℕ → ℝ) (g : Ppo P V R κ O) (g' : Trpo P V R κ)
    (ds : List (Batch S A)) (hds : ds ≠ []) :
    let ppo := calls (fun g (d : Batch S A) => ppoFit y c ret true d.1 g d.2.1 d.2.2) g ds
    let trpo := calls (fun g (d : Batch S A) => trpoFit y c ret true d.1 g d.2.1 d.2.2) g' ds
    (ppo.agents = [] ∧ ppo.messages = [] ∧ ppo.stop ≠ none) ∧ trpo.agents = [] ∧ trpo.messages = [] ∧ trpo.stop ≠ none := by
  intro ppo trpo
  obtain ⟨d, ds, rfl⟩ : ∃ d ds', ds = d :: ds' := by cases ds with
    | nil => exact absurd rfl hds
    | cons d ds => exact ⟨d, ds, rfl⟩
  constructor
  · simp only [ppo, calls]
    unfold ppoFit withLog
    cases ActorCritic.Proximal.fit y.toPpoSys d.1 g d.2.1 d.2.2 with
    | error e => exact ⟨rfl, rfl, by simp⟩
    | ok g₁ =>
      simp only [if_true, ppoInfo, valueErrors_ordinary c hc]
      exact ⟨rfl, rfl, by simp [bind, Except.bind]⟩
  · simp only [trpo, calls]
    unfold trpoFit withLog
    cases ActorCritic.Trust.fit y d.1 g' d.2.1 d.2.2 with
    | error e => exact ⟨rfl, rfl, by simp⟩
    | ok g₁ =>
      simp only [if_true, trpoInfo, valueErrors_ordinary c hc]
      exact ⟨rfl, rfl, by simp [bind, Except.bind]⟩

end onpolicy

/-! ### The divergence that PPO reports -/

/-- The divergence of the normal distribution of mean zero and logarithm of the deviation `ρ` from the one with `ρ₀`: `KL(ρ₀ ‖ ρ)`. -/
def normalKl (ρ₀ ρ : ℝ) : ℝ := ρ - ρ₀ + Real.exp (2 * (ρ₀ - ρ)) / 2 - 1 / 2

/-- A policy whose only weight is the logarithm of the deviation, and an optimizer that increases it by one. -/
def spread : TrpoSys ℝ ℝ ℝ ℝ Unit Unit Unit :=
  { ActorCritic.Trust.demo with step := fun _ w _ => ((), fun i => w i + 1), kl := fun θ₀ _ θ _ => normalKl (θ₀ ()) (θ ()) }

/-- One epoch, with minibatches of two transitions. -/
def spreadAgent : Ppo ℝ ℝ Unit Unit Unit :=
  { ActorCritic.Proximal.demoAgent with nEpochs := constantParam (1 : ℕ) none none true, pre := [] }

/-- Two critics, and one network that has no argument `idx`. -/
def twoCritics : Critic ℝ ℝ := ⟨some 2, false, fun v idx s => v * s + idx⟩
def oneCritic : Critic ℝ ℝ := ⟨none, false, fun v _ s => v * s⟩

/-- C149. The number that PPO reports as KL is not the divergence of its new policy from its old one, the quantity that the trust region limits and that TRPO reports:
here it reports more than 2 although the divergence is below 1. -/
theorem C149_divergence_refuted : ∃ g' msg, ppoFit spread twoCritics (fun _ _ => 0) true (fun _ => 0) spreadAgent 2 ActorCritic.Trust.demoRows = .done g' (some msg) ∧
    divergence spread spreadAgent.actor.weights spreadAgent.pre g'.pre 2 ActorCritic.Trust.demoRows g'.actor.weights < 1 ∧ 2 < msg.kl := by
  obtain ⟨g', bs, adv, h1, h2, h3, -, -, -, h4, -, -, h5, -⟩ := ActorCritic.Proximal.C142_fit spread.toPpoSys (fun _ n => List.Perm.refl _) (fun _ => 0) spreadAgent 2 le_rfl
    ActorCritic.Trust.demoRows 1 2 (by norm_num) (isInteger_const 1) (isInteger_const 2)
  have hw : g'.actor.weights () = 1 := by
    obtain ⟨b, hb⟩ : ∃ b, bs.flatten = [b] := List.length_eq_one_iff.1 (by rw [h5])
    rw [hb] at h4
    have := congrFun (congrArg Prod.snd h4) ()
    rw [show g'.actor.weights () = _ from this]
    simp [ActorCritic.Soft.descend, spread, spreadAgent, ActorCritic.Proximal.demoAgent]
  rcases C149_ppo_partial spread twoCritics 2 (.inl rfl) (fun _ _ => 0) (fun _ => 0) spreadAgent 2 ActorCritic.Trust.demoRows with ⟨e, h, -⟩ | ⟨g₁, msg, h, h', hm⟩
  · unfold ppoFit withLog at h; rw [h1] at h; cases h
  · have : g₁ = g' := by unfold ppoFit withLog at h; rw [h1] at h; cases h; rfl
    subst this
    refine ⟨g₁, msg, h', ?_, ?_⟩
    · show normalKl 0 (g₁.actor.weights ()) < 1
      rw [hw, normalKl]
      have : Real.exp (2 * (0 - 1)) < 1 := by rw [Real.exp_lt_one_iff]; norm_num
      generalize Real.exp (2 * (0 - 1)) = x at this ⊢
      linarith
    · rw [hm.divergence]
      show 2 < normalKl (g₁.actor.weights ()) 0
      rw [hw, normalKl]
      have h1 : (2.7 : ℝ) < Real.exp 1 := lt_trans (by norm_num) Real.exp_one_gt_d9
      have h2 : Real.exp (2 * (1 - 0)) = Real.exp 1 * Real.exp 1 := by rw [← Real.exp_add]; norm_num
      rw [h2]
      generalize Real.exp 1 = x at h1 ⊢
      nlinarith

/-! ### DQN -/

section dqn

variable {S A D M W T L : Type}

/-- The agent without its logger. -/
def plainAgent (g : DQN.Agent M (Logged W L) T) : DQN.Agent M W T := ⟨g.memory, g.online.net, g.target, g.nUpdates⟩

theorem innerFit_logged (y : DQN.Sys S A D M W T) (losses : W → L) (g : DQN.Agent M (Logged W L) T) (d : D) :
    plainAgent (DQN.innerFit (loggedSys y losses) g d) = DQN.innerFit y (plainAgent g) d ∧
      (DQN.innerFit (loggedSys y losses) g d).online.file =
        g.online.file ++ if y.initialized (y.add g.memory d) then [losses (DQN.innerFit y (plainAgent g) d).online] else [] := by
  simp only [DQN.innerFit, loggedSys, plainAgent]
  by_cases h : y.initialized (y.add g.memory d) = true
  · simp [h]
  · simp [h]

theorem fit_logged (y : DQN.Sys S A D M W T) (losses : W → L) (g : DQN.Agent M (Logged W L) T) (d : D) :
    (DQN.fit (loggedSys y losses) g d).map plainAgent = DQN.fit y (plainAgent g) d ∧
      ∀ g', DQN.fit (loggedSys y losses) g d = some g' →
        g'.online.file = g.online.file ++ if y.initialized (y.add g.memory d) then [losses g'.online.net] else [] := by
  obtain ⟨h1, h2⟩ := innerFit_logged y losses g d
  unfold DQN.fit
  rw [← h1] at h2 ⊢
  revert h2
  generalize DQN.innerFit (loggedSys y losses) g d = g₁
  intro h2
  simp only [DQN.countUpdate, show (loggedSys y losses).freq = y.freq from rfl, show (loggedSys y losses).sync = fun n w t => y.sync n w.net t from rfl]
  constructor
  · show Option.map plainAgent _ = if y.freq = 0 then none else if (g₁.nUpdates + 1) % y.freq = 0 then _ else _
    split_ifs <;> rfl
  · intro g' h
    split_ifs at h with a b <;> cases h <;> exact h2

/-- C149. DQN with a logger that has a directory: the networks, the memory, the target and the counter are those of the agent without logger after every call, and the file
grows by exactly one row, the losses of the network just fitted, in each call that finds the memory initialised. -/
theorem C149_dqn (y : DQN.Sys S A D M W T) (losses : W → L) (g : DQN.Agent M (Logged W L) T) (ds : List D) :
    let logged := calls (dqnFit y losses true) g ds
    (∀ k < ds.length, (logged.agents[k]?).map plainAgent = DQN.runFits (DQN.fit y) (plainAgent g) (ds.take (k + 1))) ∧
    (∀ (k : ℕ) (g₀ : DQN.Agent M (Logged W L) T) (d : D) (g₁ : DQN.Agent M (Logged W L) T), (g :: logged.agents)[k]? = some g₀ → ds[k]? = some d → logged.agents[k]? = some g₁ →
      g₁.online.file = g₀.online.file ++ if y.initialized (y.add g₀.memory d) then [losses g₁.online.net] else []) ∧
    (∀ e, logged.stop ≠ some (.inr e)) := by
  intro logged
  simp only [logged]
  clear logged
  induction ds generalizing g with
  | nil => exact ⟨by simp, fun k _ _ _ _ h => by simp at h, by simp [calls]⟩
  | cons d ds ih =>
    obtain ⟨h1, h2⟩ := fit_logged y losses g d
    have hd : dqnFit y losses true g d = match DQN.fit (loggedSys y losses) g d with
        | none => .failed ()
        | some g' => .done g' none := if_neg (by simp)
    cases hf : DQN.fit (loggedSys y losses) g d with
    | none =>
      rw [hf] at h1 hd
      simp only [calls, hd]
      refine ⟨fun k hk => ?_, fun k _ _ _ _ _ h => by simp at h, by simp⟩
      simp [DQN.runFits, ← h1]
    | some g' =>
      rw [hf] at h1 hd
      obtain ⟨i1, i2, i3⟩ := ih g'
      simp only [calls, hd]
      refine ⟨fun k hk => ?_, fun k g₀ d₀ g₁ e1 e2 e3 => ?_, i3⟩
      · rw [List.take_succ_cons, DQN.runFits, ← h1]
        cases k with
        | zero => simp [DQN.runFits]
        | succ k =>
          simp only [List.getElem?_cons_succ, Option.map_some, Option.bind_some]
          exact i1 k (by simpa using hk)
      · cases k with
        | zero => simp at e1 e2 e3; subst e1 e2 e3; exact h2 _ hf
        | succ k => exact i2 k g₀ d₀ g₁ (by simpa using e1) (by simpa using e2) (by simpa using e3)

/-- C149. With a logger made without a directory, every call that finds the memory initialised raises TypeError. The network has been fitted by then; the update has not been
counted, the target network has not been updated, and nothing has been written. Until then the calls are those of a logger with a directory. -/
theorem C149_directory_refuted (y : DQN.Sys S A D M W T) (losses : W → L) (g : DQN.Agent M (Logged W L) T) (d : D) :
    (y.initialized (y.add g.memory d) = true → ∃ g', dqnFit y losses false g d = .raised .type g' ∧ g'.memory = (DQN.innerFit y (plainAgent g) d).memory ∧
      g'.online.net = (DQN.innerFit y (plainAgent g) d).online ∧ g'.nUpdates = g.nUpdates ∧ g'.target = g.target ∧ g'.online.file = g.online.file) ∧
    (y.initialized (y.add g.memory d) = false → dqnFit y losses false g d = dqnFit y losses true g d) := by
  constructor
  · intro h
    have hi := (innerFit_logged y losses g d).1
    unfold dqnFit
    rw [if_pos ⟨h, by simp⟩]
    refine ⟨_, rfl, ?_, ?_, ?_, ?_, rfl⟩
    · rw [← hi]; rfl
    · rw [← hi]; rfl
    · simp only [DQN.innerFit]; split <;> rfl
    · simp only [DQN.innerFit]; split <;> rfl
  · intro h
    unfold dqnFit
    rw [if_neg (by simp [h]), if_neg (by simp)]

end dqn

/-! ### Satisfiable hypotheses -/

example : Reports twoCritics 2 := .inl rfl
example : Reports (⟨none, true, fun v _ s => v * s⟩ : Critic ℝ ℝ) 1 := .inr ⟨rfl, rfl, rfl⟩
example : Ordinary oneCritic := ⟨rfl, rfl⟩

/-- With one ordinary critic a logger stops PPO in its first call, which has changed the policy. -/
example : ∃ g' : Ppo ℝ ℝ Unit Unit Unit, ppoFit spread oneCritic (fun _ _ => 0) true (fun _ => 0) spreadAgent 2 ActorCritic.Trust.demoRows = .raised .type g' ∧
    g'.iter = spreadAgent.iter := by
  obtain ⟨g', bs, adv, h1, -⟩ := ActorCritic.Proximal.C142_fit spread.toPpoSys (fun _ n => List.Perm.refl _) (fun _ => 0) spreadAgent 2 le_rfl
    ActorCritic.Trust.demoRows 1 2 (by norm_num) (isInteger_const 1) (isInteger_const 2)
  have h : ppoFit spread oneCritic (fun _ _ => 0) false (fun _ => 0) spreadAgent 2 ActorCritic.Trust.demoRows = .done g' none := by unfold ppoFit withLog; rw [h1]; rfl
  exact ⟨_, C149_ppo_refuted spread oneCritic ⟨rfl, rfl⟩ (fun _ _ => 0) (fun _ => 0) spreadAgent g' 2 ActorCritic.Trust.demoRows h, rfl⟩

example : ∃ g', trpoFit ActorCritic.Trust.demo oneCritic (fun _ _ => 0) false (fun _ => 0) (ActorCritic.Trust.demoAgent ActorCritic.Trust.falling) 2
    ActorCritic.Trust.demoRows = .done g' none := by
  obtain ⟨g', adv, dir, full, j, h1, -⟩ := ActorCritic.Trust.C148_fit ActorCritic.Trust.demo (fun _ => 0) (ActorCritic.Trust.demoAgent ActorCritic.Trust.falling) 2 le_rfl
    ActorCritic.Trust.demoRows 1 1 (isInteger_const 1) (isInteger_const 1)
  exact ⟨g', by unfold trpoFit withLog; rw [h1]; rfl⟩

/-- A memory that is initialised with two transitions, a network that is a number and loses its value. -/
def counterSys : DQN.Sys Unit Unit ℕ ℕ ℝ ℝ :=
  ⟨fun m d => m + d, fun m => decide (2 ≤ m), fun m => (m, []), fun _ _ _ => [], fun m _ _ _ => m, fun _ w _ _ => w + 1, fun _ w _ => w, 2⟩

example : ((calls (dqnFit counterSys (fun w => -w) true) ⟨0, ⟨0, []⟩, 0, 0⟩ [1, 1, 1]).agents.map fun g => g.online.file) = [[], [-(0 + 1)], [-(0 + 1), -(0 + 1 + 1)]] := rfl

end

end Verif.Logging
