/-
C150: whole fits of recurrent PPO.
-/
import Verif.ActorCritic.ModelBPTT
import Verif.ActorCritic.PropsProximal

namespace Verif.ActorCritic.Bptt

open Verif.ActorCritic.Proximal (Row Ppo PpoSys preAll updAll asInt updatePolicy Arrays IsInteger IsEpoch after clippedGain epochs_eq lossOf_eq asInt_int isInteger_call
  after_after isInteger_const)
open Verif.ActorCritic.Soft (descend)
open Verif.ValueFn (StartsAt stepsFrom computeGae Data)
open Verif.Policy (Param constantParam)

noncomputable section

variable {S H A P V R κ O : Type}

/-! ### Specification -/

/-- The window of step `i` in a trajectory that starts with step `s`: the last `L` steps of the trajectory up to step `i`, or all of them if there are fewer, padded with
zeros to the length `L`, with the policy state of the first of them. -/
structure IsWindow (zero : S) (L s i : ℕ) (states : ℕ → S) (hidden : ℕ → H) (w : Window S H) : Prop where
  length : w.length = i + 1 - max s (i + 1 - L)
  steps : ∀ j < w.length, w.seq[j]? = some (states (max s (i + 1 - L) + j))
  padding : ∀ j, w.length ≤ j → j < L → w.seq[j]? = some zero
  size : w.seq.length = L
  hidden : w.hidden = hidden (max s (i + 1 - L))

/-- The step `i` is in the trajectory that starts with step `s`, and it is a step that the code cuts properly: in the first trajectory, or not among the first `L` steps of
the dataset. -/
structure Proper (L n : ℕ) (d : ℕ → SRow S A H) (s i : ℕ) : Prop where
  le : s ≤ i
  inside : i < n
  isStart : s = 0 ∨ (d (s - 1)).last = true
  one : ∀ j, s ≤ j → j < i → (d j).last = false
  cut : L ≤ i ∨ s = 0

/-- A recurrent policy: `next` is the policy state after a state, `out` the log-probability of an action in a policy state and a state; a sequence is read from its first
state, with the policy state given for it. -/
structure Recurrent (y : BpttSys S H A P V R κ O) (next : (κ → ℝ) → H → S → H) (out : (κ → ℝ) → H → S → A → ℝ) : Prop where
  law : ∀ θ w a s, 0 < w.length → w.seq[w.length - 1]? = some s → y.logp θ w a = out θ ((w.seq.take (w.length - 1)).foldl (next θ) w.hidden) s a

/-- The dataset was collected by the policy with these weights and preprocessors: inside a trajectory each policy state is the one that the network returned. -/
def Collected (y : BpttSys S H A P V R κ O) (next : (κ → ℝ) → H → S → H) (θ : κ → ℝ) (pre : List P) (n : ℕ) (d : ℕ → SRow S A H) : Prop :=
  ∀ j, j + 1 < n → (d j).last = false → (d (j + 1)).hidden = next θ (d j).hidden (preAll y.states pre (d j).state)

/-! ### Windows -/

theorem getD_range (n : ℕ) (f : ℕ → Bool) (j : ℕ) : ((List.range n).map f).getD j false = if j < n then f j else false := by
  by_cases h : j < n
  · simp [List.getD_eq_getElem?_getD, List.getElem?_map, List.getElem?_range h, h]
  · rw [List.getD_eq_getElem?_getD, List.getElem?_eq_none (by simpa using h)]
    simp [h]

theorem window (y : BpttSys S H A P V R κ O) (hL : 0 < y.trunc) (n : ℕ) (d : ℕ → SRow S A H) (habs : ∀ i, (d i).absorbing = true → (d i).last = true) (s i : ℕ)
    (h : Proper y.trunc n d s i) (states : ℕ → S) (hidden : ℕ → H) : IsWindow y.zero y.trunc s i states hidden (windowOf y n d states hidden i) := by
  have hs : StartsAt ((List.range n).map fun j => (d j).last) s i := by
    refine ⟨h.le, by simpa using h.inside, ?_, fun j h1 h2 => ?_⟩
    · rcases h.isStart with hs | hs
      · exact .inl hs
      · have := h.inside
        have := h.le
        exact .inr (by rw [getD_range, if_pos (by omega), hs])
    · have := h.inside
      rw [getD_range, if_pos (by omega)]; exact h.one j h1 h2
  obtain ⟨h1, h2, h3⟩ := ValueFn.C76_sequences_partial y.zero ((List.range n).map states) ((List.range n).map fun j => (d j).last) ((List.range n).map fun j => (d j).absorbing)
    y.trunc i s (by simp) (by simp) (fun j hj => by
      rw [getD_range] at hj ⊢
      by_cases hjn : j < n
      · rw [if_pos hjn] at hj ⊢; exact habs j hj
      · rw [if_neg hjn] at hj; cases hj) hs hL h.cut
  have hle := h.le
  have hin := h.inside
  have hl : (stepsFrom ((List.range n).map states) (max s (i + 1 - y.trunc)) i).length = i + 1 - max s (i + 1 - y.trunc) := by
    simp [stepsFrom]; omega
  have e1 : (windowOf y n d states hidden i).length = i + 1 - max s (i + 1 - y.trunc) := by simp only [windowOf, h3]
  refine ⟨e1, ?_, ?_, h2, by simp only [windowOf, h3]⟩
  · intro j hj
    rw [e1] at hj
    show (ValueFn.sequenceOf _ _ _ _ _ _).1[j]? = _
    rw [h1, List.getElem?_append_left (by rw [hl]; exact hj)]
    simp only [stepsFrom, List.getElem?_take, List.getElem?_drop, List.getElem?_map]
    rw [if_pos hj, List.getElem?_range (by omega)]
    rfl
  · intro j hj hj'
    rw [e1] at hj
    show (ValueFn.sequenceOf _ _ _ _ _ _).1[j]? = _
    rw [h1, List.getElem?_append_right (by rw [hl]; exact hj), hl, List.getElem?_replicate, if_pos (by omega)]

/-! ### One call -/

/-- C150. A call of `fit` with at least two transitions, actions with at least two components, a fixed number of epochs and a fixed size of the minibatches.
(1) The preprocessors are updated with the states. Three windows are made for each transition: of the states as the old preprocessors show them, of the states and of the next
states as the new ones do, the last one with the policy states after the transitions. They are the proper windows for all steps except the first `truncation_length` ones of
later trajectories.
(2) The critic is fitted to the windows and to the targets that it defined before.
(3) The policy makes one step of its optimiser per minibatch; in every epoch each transition is used exactly once, with its own window, its own advantage and its own
probability from before the fit. -/
theorem C150_fit_partial (y : BpttSys S H A P V R κ O) (hsh : ∀ r n, (y.shuffle r n).2.Perm (List.range n)) (hL : 0 < y.trunc) (hA : y.actionDim ≠ 1) (g0 : ℕ → ℝ)
    (g : Ppo P V R κ O) (n : ℕ) (hn : 2 ≤ n) (d : ℕ → SRow S A H) (habs : ∀ i, (d i).absorbing = true → (d i).last = true) (E b : ℕ) (hb : 0 < b)
    (hE : IsInteger g.nEpochs E) (hB : IsInteger g.batchSize b) :
    ∃ (g' : Ppo P V R κ O) (old seq next : ℕ → Window S H) (batches : List (List (List ℕ))) (adv : List ℝ), fit y g0 g n d = .ok g' ∧
      (∀ s i, Proper y.trunc n d s i → IsWindow y.zero y.trunc s i (fun i => preAll y.states g.pre (d i).state) (fun i => (d i).hidden) (old i) ∧
        IsWindow y.zero y.trunc s i (fun i => preAll y.states g'.pre (d i).state) (fun i => (d i).hidden) (seq i) ∧
        IsWindow y.zero y.trunc s i (fun i => preAll y.states g'.pre (d i).next) (fun i => (d i).hiddenNext) (next i)) ∧
      (g.pre = [] → old = seq) ∧ batches.length = E ∧ (∀ e ∈ batches, IsEpoch n b e) ∧
      let data : Data := ⟨fun i => (d i).reward, fun i => y.value g.critic (seq i), fun i => y.value g.critic (next i), fun i => (d i).absorbing, fun i => (d i).last⟩
      let gae := computeGae data y.gamma (valueAt g.lam 1) n g0
      g'.pre = updAll y.states g.pre ((List.range n).map fun i => (d i).state) ∧
      g'.critic = (y.fitCritic g.rng g.critic ((List.range n).map fun i => (seq i, gae.1 i))).2 ∧
      standardise ((List.range n).map gae.2) = some adv ∧
      (g'.actor.opt, g'.actor.weights) = (batches.flatten.mapIdx fun k idx θ =>
        -((idx.map fun i => clippedGain (valueAt g.eps (k + 1)) (Real.exp (y.logp θ (seq i) (d i).action - y.logp g.actor.weights (old i) (d i).action))
            (adv.getD i 0)).sum / idx.length) - valueAt g.ent (k + 1) * y.entropy θ).foldl (descend y.step y.grad) (g.actor.opt, g.actor.weights) ∧
      g'.eps = after g.eps batches.flatten.length ∧ g'.ent = after g.ent batches.flatten.length ∧ batches.flatten.length = E * ((n + b - 1) / b) ∧
      g'.lam = after g.lam 1 ∧ g'.iter = g.iter + 1 ∧ IsInteger g'.nEpochs E ∧ IsInteger g'.batchSize b := by
  let pre := updAll y.states g.pre ((List.range n).map fun i => (d i).state)
  let old := windowOf y n d (fun i => preAll y.states g.pre (d i).state) (fun i => (d i).hidden)
  let seq := windowOf y n d (fun i => preAll y.states pre (d i).state) (fun i => (d i).hidden)
  let next := windowOf y n d (fun i => preAll y.states pre (d i).next) (fun i => (d i).hiddenNext)
  let data : Data := ⟨fun i => (d i).reward, fun i => y.value g.critic (seq i), fun i => y.value g.critic (next i), fun i => (d i).absorbing, fun i => (d i).last⟩
  let gae := computeGae data y.gamma (valueAt g.lam 1) n g0
  obtain ⟨adv, hadv, -⟩ := C92_standardise_partial ((List.range n).map gae.2) (by simpa using hn)
  let f := y.fitCritic g.rng g.critic ((List.range n).map fun i => (seq i, gae.1 i))
  let c : Arrays (Window S H) A := ⟨seq, fun i => (d i).action, fun i => adv.getD i 0, fun i => y.logp g.actor.weights (old i) (d i).action⟩
  obtain ⟨g', bs, h1, h2, h3, h4, h5, h6, h7, h8, h9, h10, h11, h12⟩ := epochs_eq y.loop hsh c n b hb E
    { g with pre := pre, lam := (g.lam.call []).1, rng := f.1, critic := f.2, nEpochs := (g.nEpochs.call []).1 } hB
  have hfit : fit y g0 g n d = .ok { g' with iter := g'.iter + 1 } := by
    have hu : updatePolicy y.loop c n { g with pre := pre, lam := (g.lam.call []).1, rng := f.1, critic := f.2 } = .ok g' := by
      simp only [updatePolicy, asInt_int _ _ hE]
      simpa using h1
    simp only [fit]
    rw [if_neg (by omega)]
    rw [show standardise ((List.range n).map (computeGae ⟨fun i => (d i).reward, fun i => y.value g.critic (windowOf y n d (fun i => preAll y.states pre (d i).state)
      (fun i => (d i).hidden) i), fun i => y.value g.critic (windowOf y n d (fun i => preAll y.states pre (d i).next) (fun i => (d i).hiddenNext) i),
      fun i => (d i).absorbing, fun i => (d i).last⟩ y.gamma (g.lam.call []).2 n g0).2) = some adv from hadv]
    show (match updatePolicy y.loop c n { g with pre := pre, lam := (g.lam.call []).1, rng := f.1, critic := f.2 } with
      | .error e => Except.error (Err.ppo e)
      | .ok g' => if y.actionDim = 1 ∧ 0 < epochsOf g then Except.error Err.shape else Except.ok { g' with iter := g'.iter + 1 }) = _
    rw [hu]
    exact if_neg fun h => hA h.1
  have hcount : bs.flatten.length = E * ((n + b - 1) / b) := by
    rw [List.length_flatten, ← h2]
    clear h4 h5 h6 h1 h2 hfit
    induction bs with
    | nil => simp
    | cons e bs ih =>
      rw [List.map_cons, List.sum_cons, ih fun e he => h3 e (by simp [he]), (h3 e (by simp)).number, List.length_cons]
      ring
  dsimp only at h7 h8 h9 h10 h11
  have h7' : ({ g' with iter := g'.iter + 1 } : Ppo P V R κ O).pre = pre := h7
  refine ⟨_, old, seq, next, bs, adv, hfit, ?_, ?_, h2, h3, h7', h8, hadv, ?_, h5, h6, hcount, h10, by rw [← h9], ?_, h12⟩
  · intro s i hp
    rw [h7']
    exact ⟨window y hL n d habs s i hp _ _, window y hL n d habs s i hp _ _, window y hL n d habs s i hp _ _⟩
  · intro hpre
    simp only [old, seq, pre, hpre, updAll]
  · refine Eq.trans h4 ?_
    congr 1
    congr 1
    funext k idx θ
    exact lossOf_eq y.loop c _ _ idx θ
  · show IsInteger g'.nEpochs E
    rw [h11]; exact isInteger_call _ _ hE

/-! ### The probabilities before the fit -/

/-- Reading a piece of a trajectory leads to the policy state that was recorded after it. -/
theorem unroll (y : BpttSys S H A P V R κ O) (next : (κ → ℝ) → H → S → H) (θ : κ → ℝ) (pre : List P) (n : ℕ) (d : ℕ → SRow S A H)
    (hc : Collected y next θ pre n d) (b k : ℕ) (hk : b + k < n) (hone : ∀ j, b ≤ j → j < b + k → (d j).last = false) :
    (((List.range k).map fun j => preAll y.states pre (d (b + j)).state)).foldl (next θ) (d b).hidden = (d (b + k)).hidden := by
  induction k with
  | zero => rfl
  | succ k ih =>
    rw [List.range_succ, List.map_append, List.foldl_append, ih (by omega) fun j h1 h2 => hone j h1 (by omega)]
    exact (hc (b + k) (by omega) (hone _ (by omega) (by omega))).symm

/-- C150. For a recurrent network and a dataset collected with the present weights and preprocessors, the probability from before the fit with which every properly cut step
enters the objective is the probability with which its action was drawn: that of the policy in its recorded policy state and the state of that step alone, whatever the
truncation. -/
theorem C150_behaviour_partial (y : BpttSys S H A P V R κ O) (next : (κ → ℝ) → H → S → H) (out : (κ → ℝ) → H → S → A → ℝ) (hr : Recurrent y next out) (hL : 0 < y.trunc)
    (θ : κ → ℝ) (pre : List P) (n : ℕ) (d : ℕ → SRow S A H) (hc : Collected y next θ pre n d) (s i : ℕ) (hp : Proper y.trunc n d s i) (w : Window S H)
    (hw : IsWindow y.zero y.trunc s i (fun i => preAll y.states pre (d i).state) (fun i => (d i).hidden) w) (a : A) :
    y.logp θ w a = out θ (d i).hidden (preAll y.states pre (d i).state) a := by
  have hle := hp.le
  have hin := hp.inside
  have hl := hw.length
  obtain ⟨k, hk⟩ : ∃ k, w.length = k + 1 := ⟨i - max s (i + 1 - y.trunc), by omega⟩
  have hbi : max s (i + 1 - y.trunc) + k = i := by omega
  have hlast := hw.steps (w.length - 1) (by omega)
  rw [hr.law θ w a _ (by omega) hlast]
  have htake : w.seq.take (w.length - 1) = (List.range k).map fun j => preAll y.states pre (d (max s (i + 1 - y.trunc) + j)).state := by
    apply List.ext_getElem?
    intro j
    by_cases hj : j < k
    · rw [List.getElem?_take, if_pos (by omega), hw.steps j (by omega), List.getElem?_map, List.getElem?_range hj]
      rfl
    · rw [List.getElem?_eq_none (by rw [List.length_take, hw.size]; omega), List.getElem?_eq_none (by simpa using hj)]
  rw [htake, hw.hidden, unroll y next θ pre n d hc _ k (by omega) (fun j h1 h2 => hp.one j (by omega) (by omega)), hbi]
  congr 2
  rw [hk, Nat.add_sub_cancel, hbi]

/-! ### Refutations -/

/-- C150. If the actions have one component, every call with at least one epoch raises ValueError, after the critic has been fitted. -/
theorem C150_one_component_refuted (y : BpttSys S H A P V R κ O) (hsh : ∀ r n, (y.shuffle r n).2.Perm (List.range n)) (hL : 0 < y.trunc) (hA : y.actionDim = 1) (g0 : ℕ → ℝ)
    (g : Ppo P V R κ O) (n : ℕ) (hn : 2 ≤ n) (d : ℕ → SRow S A H) (E b : ℕ) (hE0 : 0 < E) (hb : 0 < b) (hE : IsInteger g.nEpochs E) (hB : IsInteger g.batchSize b) :
    fit y g0 g n d = .error .shape := by
  simp only [fit]
  rw [if_neg (by omega)]
  generalize computeGae _ _ _ _ _ = gae
  obtain ⟨adv, hadv, -⟩ := C92_standardise_partial ((List.range n).map gae.2) (by simpa using hn)
  rw [hadv]
  simp only [updatePolicy, asInt_int _ _ hE]
  obtain ⟨g', bs, h1, -⟩ := epochs_eq y.loop hsh ⟨windowOf y n d (fun i => preAll y.states (updAll y.states g.pre ((List.range n).map fun i => (d i).state)) (d i).state)
      (fun i => (d i).hidden), fun i => (d i).action, fun i => adv.getD i 0, fun i => y.logp g.actor.weights (windowOf y n d (fun i => preAll y.states g.pre (d i).state)
      (fun i => (d i).hidden) i) (d i).action⟩ n b hb E
    { g with
      pre := updAll y.states g.pre ((List.range n).map fun i => (d i).state), lam := (g.lam.call []).1, nEpochs := (g.nEpochs.call []).1
      rng := (y.fitCritic g.rng g.critic ((List.range n).map fun i => (windowOf y n d (fun i => preAll y.states (updAll y.states g.pre ((List.range n).map fun i =>
        (d i).state)) (d i).state) (fun i => (d i).hidden) i, gae.1 i))).1
      critic := (y.fitCritic g.rng g.critic ((List.range n).map fun i => (windowOf y n d (fun i => preAll y.states (updAll y.states g.pre ((List.range n).map fun i =>
        (d i).state)) (d i).state) (fun i => (d i).hidden) i, gae.1 i))).2 } hB
  rw [Int.toNat_natCast, h1]
  exact if_pos ⟨hA, by simpa [epochsOf, asInt_int _ _ hE] using hE0⟩

/-- C150. The schedules and the single transition are as for PPO: a dataset with fewer than two transitions makes the weights NaN. -/
theorem C150_single_refuted (y : BpttSys S H A P V R κ O) (hL : 0 < y.trunc) (g0 : ℕ → ℝ) (g : Ppo P V R κ O) (n : ℕ) (hn : n < 2) (d : ℕ → SRow S A H) :
    fit y g0 g n d = .error (.ppo .nan) := by
  simp only [fit]
  rw [if_neg (by omega), show ∀ l : List ℝ, l.length < 2 → standardise l = none from fun l hl => by simp [standardise, torchStd, hl]]
  simpa using hn

/-! ### Runs -/

/-- C150. Runs of any length over datasets of at least two transitions: every call succeeds, the parameters move on by the number of the minibatches. -/
theorem C150_run (y : BpttSys S H A P V R κ O) (hsh : ∀ r n, (y.shuffle r n).2.Perm (List.range n)) (hL : 0 < y.trunc) (hA : y.actionDim ≠ 1) (g0 : ℕ → ℝ) (E b : ℕ)
    (hb : 0 < b) (ds : List (ℕ × (ℕ → SRow S A H))) (hds : ∀ d ∈ ds, 2 ≤ d.1 ∧ ∀ i, (d.2 i).absorbing = true → (d.2 i).last = true) (g : Ppo P V R κ O)
    (hE : IsInteger g.nEpochs E) (hB : IsInteger g.batchSize b) :
    ∃ g', run y g0 g ds = .ok g' ∧ g'.iter = g.iter + ds.length ∧ g'.lam = after g.lam ds.length ∧
      g'.eps = after g.eps (ds.map fun d => E * ((d.1 + b - 1) / b)).sum ∧ g'.ent = after g.ent (ds.map fun d => E * ((d.1 + b - 1) / b)).sum := by
  induction ds generalizing g with
  | nil => exact ⟨g, rfl, rfl, rfl, rfl, rfl⟩
  | cons d ds ih =>
    obtain ⟨g1, old, seq, next, bs, adv, h1, -, -, -, -, -, -, -, -, h2, h3, h4, h5, h6, h7, h8⟩ :=
      C150_fit_partial y hsh hL hA g0 g d.1 (hds d (by simp)).1 d.2 (hds d (by simp)).2 E b hb hE hB
    obtain ⟨g', r1, r2, r3, r4, r5⟩ := ih (fun d hd => hds d (by simp [hd])) g1 h7 h8
    refine ⟨g', by simp only [run, h1, r1], by rw [r2, h6, List.length_cons]; omega, ?_, ?_, ?_⟩
    · rw [r3, h5, after_after, List.length_cons, Nat.add_comm]
    · rw [r4, h2, h4, after_after, List.map_cons, List.sum_cons]
    · rw [r5, h3, h4, after_after, List.map_cons, List.sum_cons]

/-! ### An agent -/

/-- The policy state counts up by the state; the action `a` has log-probability `h * a` in the policy state `h`. -/
def demo (L k : ℕ) : BpttSys ℝ ℝ ℝ ℝ ℝ Unit Unit Unit :=
  { pre := fun p s => s - p, upd := fun _ ss => ss.sum / ss.length, zero := 0, value := fun v w => v * w.hidden, fitCritic := fun _ v _ => ((), v + 1)
    logp := fun θ w a => θ () * ((w.seq.take (w.length - 1)).foldl (fun h s => h + s) w.hidden * a), entropy := fun θ => θ ()
    grad := fun f θ _ => deriv (fun x => f fun _ => x) (θ ()), step := fun _ w gr => ((), fun i => w i - gr i), shuffle := fun _ n => ((), List.range n), gamma := 9 / 10
    trunc := L, actionDim := k }

theorem demo_recurrent (L k : ℕ) : Recurrent (demo L k) (fun _ h s => h + s) (fun θ h _ a => θ () * (h * a)) := ⟨fun _ _ _ _ _ _ => rfl⟩

/-- Two trajectories: one of a single step, and one of two steps. Both start from the policy state 0; the states are 5. -/
def demoRows : ℕ → SRow ℝ ℝ ℝ := fun i =>
  { state := 5, action := 1, reward := 1, next := 5, absorbing := false, last := i == 0, hidden := if i = 2 then 5 else 0
    hiddenNext := if i = 2 then 10 else 5 }

theorem demo_collected (L k : ℕ) : Collected (demo L k) (fun _ h s => h + s) (fun _ => 1) [] 3 demoRows := by
  intro j hj hl
  rcases j with _ | _ | j
  · simp [demoRows] at hl
  · simp [demoRows, preAll]
  · omega

/-- C150. The first `truncation_length` steps of the dataset are not cut at the end of a trajectory: the probability from before the fit that belongs to the first step of the
second trajectory is not the one with which its action was drawn. It is computed from the state of the trajectory before. -/
theorem C150_behaviour_refuted : ∃ (y : BpttSys ℝ ℝ ℝ ℝ ℝ Unit Unit Unit) (next : (Unit → ℝ) → ℝ → ℝ → ℝ) (out : (Unit → ℝ) → ℝ → ℝ → ℝ → ℝ) (θ : Unit → ℝ) (n : ℕ)
    (d : ℕ → SRow ℝ ℝ ℝ), Recurrent y next out ∧ Collected y next θ [] n d ∧ (∀ i, (d i).absorbing = true → (d i).last = true) ∧ 0 < y.trunc ∧ (d 0).last = true ∧ 1 < n ∧
      y.logp θ (windowOf y n d (fun i => (d i).state) (fun i => (d i).hidden) 1) (d 1).action ≠ out θ (d 1).hidden (d 1).state (d 1).action := by
  refine ⟨demo 2 2, _, _, fun _ => 1, 3, demoRows, demo_recurrent 2 2, demo_collected 2 2, fun i h => by simp [demoRows] at h, by simp [demo], rfl, by norm_num, ?_⟩
  have hb : ValueFn.seqBegin ((List.range 3).map fun j => (demoRows j).last) ((List.range 3).map fun j => (demoRows j).absorbing) 2 1 = 0 :=
    ValueFn.C76_first_steps _ _ 2 1 (by simp) (by simp) (by norm_num)
  have hw : windowOf (demo 2 2) 3 demoRows (fun i => (demoRows i).state) (fun i => (demoRows i).hidden) 1 = ⟨[5, 5], 0, 2⟩ := by
    have hd : (demo 2 2).trunc = 2 := rfl
    simp only [windowOf, ValueFn.sequenceOf, hd, hb]
    have : Dataset.pySlice ((List.range 3).map fun i => (demoRows i).state) (some ((0 : ℕ) : Int)) (some (((1 : ℕ) : Int) + 1)) = [5, 5] := by
      rw [show (((1 : ℕ) : Int) + 1) = ((2 : ℕ) : Int) by norm_num, ValueFn.pySlice_nat _ 0 2 (by simp) (by simp)]
      simp [demoRows, List.range_succ]
    rw [this]
    simp [demoRows]
  rw [hw]
  simp [demo, demoRows]

/-! ### Satisfiable hypotheses -/

def demoAgent : Ppo ℝ ℝ Unit Unit Unit :=
  ⟨[], 1, ⟨fun _ => 1, fun _ => 7, ()⟩, constantParam (4 : ℕ) none none true, constantParam (2 : ℕ) none none true, constantParam (1 / 5) none none true,
    constantParam (19 / 20) none none true, constantParam 0 none none true, 1, ()⟩

example := C150_fit_partial (demo 1 2) (fun _ n => List.Perm.refl _) (by simp [demo]) (by simp [demo]) (fun _ => 0) demoAgent 3 (by norm_num) demoRows
  (fun i h => by simp [demoRows] at h) 4 2 (by norm_num) (isInteger_const 4) (isInteger_const 2)

/-- With truncation length 1 the steps of the second trajectory are properly cut. -/
example : Proper 1 3 demoRows 1 2 ∧ Proper 1 3 demoRows 1 1 :=
  ⟨⟨by norm_num, by norm_num, .inr rfl, fun j h1 h2 => by obtain rfl : j = 1 := by omega
                                                          rfl, .inl (by norm_num)⟩,
   ⟨le_rfl, by norm_num, .inr rfl, fun j h1 h2 => by omega, .inl le_rfl⟩⟩

example := C150_one_component_refuted (demo 1 1) (fun _ n => List.Perm.refl _) (by simp [demo]) rfl (fun _ => 0) demoAgent 3 (by norm_num) demoRows 4 2 (by norm_num) (by norm_num)
  (isInteger_const 4) (isInteger_const 2)

example := C150_run (demo 1 2) (fun _ n => List.Perm.refl _) (by simp [demo]) (by simp [demo]) (fun _ => 0) 4 2 (by norm_num) [(3, demoRows), (2, demoRows)]
  (by intro d hd; simp at hd; rcases hd with rfl | rfl <;> exact ⟨by norm_num, fun i h => by simp [demoRows] at h⟩) demoAgent (isInteger_const 4) (isInteger_const 2)

end

end Verif.ActorCritic.Bptt
