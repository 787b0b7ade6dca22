/-
When deep Q-learning agents of different classes learn the same (C169).
-/
import Verif.DQN.ModelAgents
import Verif.DQN.PropsTarget
import Verif.DQN.PropsValues

namespace Verif.DQN

open Verif.TD (Trans rowMax IsMax rowMax_isMax)

noncomputable section

variable {S A D M W T T' : Type} [Fintype A] [Nonempty A]

/-! ### Specification -/

/-- What can be seen of an agent: its network, its replay memory, and the number of its updates; `none` if learning raised. -/
def seen (g : Option (Agent M W T)) : Option (W × M × ℕ) := g.map (fun g => (g.online, g.memory, g.nUpdates))

/-- The two agents cannot be told apart by the networks, the memories and the exceptions of the first `k` fits, whatever
the datasets are. -/
def SameFits (step : Agent M W T → D → Option (Agent M W T)) (step' : Agent M W T' → D → Option (Agent M W T'))
    (g : Agent M W T) (g' : Agent M W T') (k : ℕ) : Prop :=
  ∀ ds : List D, ds.length ≤ k → seen (runFits step g ds) = seen (runFits step' g' ds)

/-! ### Simulation -/

omit [Fintype A] [Nonempty A] in
/-- Two agents that differ in the targets: it is enough that a relation between the networks makes their targets equal
and survives an update. -/
theorem runFits_alike (y : Sys S A D M W T) (z : Sys S A D M W T')
    (hadd : z.add = y.add) (hini : z.initialized = y.initialized) (hget : z.get = y.get) (hupd : z.update = y.update)
    (hfit : z.fitNet = y.fitNet) (hfreq : (z.freq = 0) = (y.freq = 0)) (rel : ℕ → W → T → T' → Prop)
    (htar : ∀ n w t t' m, rel n w t t' → z.targets w t' (y.get m).2 = y.targets w t (y.get m).2)
    (hrel : ∀ n w w' t t', y.freq ≠ 0 → rel n w t t' →
      rel (n + 1) w' (if (n + 1) % y.freq = 0 then y.sync (n + 1) w' t else t)
        (if (n + 1) % z.freq = 0 then z.sync (n + 1) w' t' else t'))
    (g : Agent M W T) (g' : Agent M W T') (ho : g'.online = g.online) (hm : g'.memory = g.memory)
    (hn : g'.nUpdates = g.nUpdates) (h : rel g.nUpdates g.online g.target g'.target) (ds : List D) :
    seen (runFits (fit y) g ds) = seen (runFits (fit z) g' ds) := by
  induction ds generalizing g g' with
  | nil => simp [runFits, seen, ho, hm, hn]
  | cons d ds ih =>
    by_cases hf : y.freq = 0
    · have hz : z.freq = 0 := by rw [hfreq]; exact hf
      simp [runFits, fit, countUpdate, hf, hz, seen]
    · have hz : z.freq ≠ 0 := fun h => hf (by rw [← hfreq]; exact h)
      have hmem : (innerFit z g' d).memory = (innerFit y g d).memory ∧ (innerFit z g' d).online = (innerFit y g d).online := by
        unfold innerFit
        dsimp only
        rw [hadd, hini, hget, hupd, hfit, hm, ho, htar _ _ _ _ _ h]
        split <;> exact ⟨rfl, by first | rfl | exact ho⟩
      obtain ⟨t1, n1⟩ := innerFit_target y g d
      obtain ⟨t2, n2⟩ := innerFit_target z g' d
      have e1 : fit y g d = some { innerFit y g d with
          nUpdates := g.nUpdates + 1
          target := if (g.nUpdates + 1) % y.freq = 0 then y.sync (g.nUpdates + 1) (innerFit y g d).online g.target else g.target } := by
        unfold fit countUpdate
        dsimp only
        rw [if_neg hf, n1, t1]
        split <;> rfl
      have e2 : fit z g' d = some { innerFit z g' d with
          nUpdates := g.nUpdates + 1
          target := if (g.nUpdates + 1) % z.freq = 0 then z.sync (g.nUpdates + 1) (innerFit y g d).online g'.target else g'.target } := by
        unfold fit countUpdate
        dsimp only
        rw [if_neg hz, n2, t2, hn, hmem.2]
        split <;> rfl
      simp only [runFits, e1, e2, Option.bind_some]
      exact ih _ _ hmem.2 hmem.1 rfl (hrel _ _ _ _ _ hf h)

omit [Fintype A] [Nonempty A] in
theorem each_unique {B : Type} (batch : List (Trans S A)) (ys ys' : List B) (P P' : Trans S A → B → Prop)
    (h : Each batch ys P) (h' : Each batch ys' P') (hu : ∀ t ∈ batch, ∀ y y', P t y → P' t y' → y = y') : ys = ys' := by
  obtain ⟨l, h⟩ := h
  obtain ⟨l', h'⟩ := h'
  apply List.ext_getElem (by omega)
  intro i h1 h2
  have hi : i < batch.length := by omega
  exact hu _ (List.getElem_mem hi) _ _ (h i _ _ (List.getElem?_eq_getElem hi) (List.getElem?_eq_getElem h1))
    (h' i _ _ (List.getElem?_eq_getElem hi) (List.getElem?_eq_getElem h2))

omit [Fintype A] [Nonempty A] in
theorem isMax_unique {f : A → ℝ} {v v' : ℝ} (h : IsMax f v) (h' : IsMax f v') : v = v' := by
  obtain ⟨u, a, ha⟩ := h
  obtain ⟨u', a', ha'⟩ := h'
  exact le_antisymm (ha ▸ u' a) (ha' ▸ u a')

/-! ### Theorems -/

/-- **C169**: with a target network that is updated at every fit, DoubleDQN is DQN. -/
theorem C169_double (argmax : (A → ℝ) → A) (hg : Greedy argmax) (p : Parts S A D M W) (hf : p.freq = 1) (m : M) (w : W) (k : ℕ) :
    SameFits (fit (dqn p)) (fit (doubleDqn argmax p)) (create m w) (create m w) k := by
  classical
  intro ds _
  refine runFits_alike (dqn p) (doubleDqn argmax p) rfl rfl rfl rfl rfl rfl (fun _ w t t' => t = w ∧ t' = w) ?_ ?_ _ _ rfl rfl rfl
    ⟨rfl, rfl⟩ ds
  · rintro n w t t' m ⟨rfl, rfl⟩
    refine each_unique _ _ _ _ _ (C89_double argmax hg p.gamma p.clip (p.predict _) (p.predict _) _)
      (C89_dqn p.gamma p.clip (p.predict _) _) ?_
    rintro x _ y y' ⟨a, ha, e⟩ ⟨v, hv, e'⟩
    rw [isMax_unique ha hv] at e
    exact e.trans e'.symm
  · intro n w w' t t' _ _
    simp [dqn, doubleDqn, hf, Nat.mod_one, copyOnline]

/-- **C169**: up to the first update of its target, AveragedDQN is DQN. -/
theorem C169_averaged (n : ℕ) (p : Parts S A D M W) (m : M) (w : W) :
    SameFits (fit (dqn p)) (fit (averagedDqn n p)) (create m w) (createAveraged m w) p.freq := by
  have key : ∀ ds : List D, ds.length ≤ p.freq → ∀ (j : ℕ), (ds = [] ∨ j + ds.length ≤ p.freq) →
      ∀ (m : M) (w w0 : W),
      seen (runFits (fit (dqn p)) ⟨m, w, w0, j⟩ ds) =
      seen (runFits (fit (averagedDqn n p)) ⟨m, w, ⟨fun _ => w0, 1⟩, j⟩ ds) := by
    intro ds
    induction ds with
    | nil => intros; rfl
    | cons d ds ih =>
      intro hl j hj m w w0
      have hj : j + (d :: ds).length ≤ p.freq := hj.resolve_left (by simp)
      simp only [List.length_cons] at hj hl
      have ht : ∀ b : List (Trans S A), (averagedDqn n p).targets w ⟨fun _ => w0, 1⟩ b = (dqn p).targets w w0 b := by
        intro b
        simp [averagedDqn, dqn, averagedNext, dqnNext]
      have hin : innerFit (averagedDqn n p) ⟨m, w, ⟨fun _ => w0, 1⟩, j⟩ d =
          ⟨(innerFit (dqn p) ⟨m, w, w0, j⟩ d).memory, (innerFit (dqn p) ⟨m, w, w0, j⟩ d).online, ⟨fun _ => w0, 1⟩, j⟩ := by
        unfold innerFit
        dsimp only
        simp only [ht]
        change (if p.initialized (p.add m d) = true then _ else _) = _
        by_cases hi : p.initialized (p.add m d) = true
        · have hi' : (dqn p).initialized ((dqn p).add m d) = true := hi
          simp only [hi, hi', if_true]
          rfl
        · have hi' : ¬ (dqn p).initialized ((dqn p).add m d) = true := hi
          simp only [hi, hi']
          rfl
      have hid : innerFit (dqn p) ⟨m, w, w0, j⟩ d =
          ⟨(innerFit (dqn p) ⟨m, w, w0, j⟩ d).memory, (innerFit (dqn p) ⟨m, w, w0, j⟩ d).online, w0, j⟩ := by
        obtain ⟨h1, h2⟩ := innerFit_target (dqn p) ⟨m, w, w0, j⟩ d
        generalize innerFit (dqn p) ⟨m, w, w0, j⟩ d = g at h1 h2
        cases g
        simp only at h1 h2
        simp [h1, h2]
      have hf : p.freq ≠ 0 := by omega
      by_cases hlast : ds = []
      · subst hlast
        simp only [runFits]
        unfold fit
        rw [hin, hid]
        generalize (innerFit (dqn p) ⟨m, w, w0, j⟩ d).memory = m'
        generalize (innerFit (dqn p) ⟨m, w, w0, j⟩ d).online = w'
        unfold countUpdate
        dsimp only
        have e1 : (dqn p).freq = p.freq := rfl
        have e2 : (averagedDqn n p).freq = p.freq := rfl
        rw [e1, e2, if_neg hf, if_neg hf]
        by_cases hm : (j + 1) % p.freq = 0
        · rw [if_pos hm, if_pos hm]; rfl
        · rw [if_neg hm, if_neg hm]; rfl
      · have hpos : 0 < ds.length := List.length_pos_iff.mpr hlast
        have hm : (j + 1) % p.freq ≠ 0 := by rw [Nat.mod_eq_of_lt (by omega)]; omega
        have f1 : fit (dqn p) ⟨m, w, w0, j⟩ d =
            some ⟨(innerFit (dqn p) ⟨m, w, w0, j⟩ d).memory, (innerFit (dqn p) ⟨m, w, w0, j⟩ d).online, w0, j + 1⟩ := by
          unfold fit
          rw [hid]
          generalize (innerFit (dqn p) ⟨m, w, w0, j⟩ d).memory = m'
          generalize (innerFit (dqn p) ⟨m, w, w0, j⟩ d).online = w'
          unfold countUpdate
          have e1 : (dqn p).freq = p.freq := rfl
          dsimp only
          rw [e1, if_neg hf, if_neg hm]
        have f2 : fit (averagedDqn n p) ⟨m, w, ⟨fun _ => w0, 1⟩, j⟩ d =
            some ⟨(innerFit (dqn p) ⟨m, w, w0, j⟩ d).memory, (innerFit (dqn p) ⟨m, w, w0, j⟩ d).online, ⟨fun _ => w0, 1⟩, j + 1⟩ := by
          unfold fit
          rw [hin]
          unfold countUpdate
          have e2 : (averagedDqn n p).freq = p.freq := rfl
          dsimp only
          rw [e2, if_neg hf, if_neg hm]
        simp only [runFits, f1, f2, Option.bind_some]
        exact ih (by omega) (j + 1) (Or.inr (by omega)) _ _ _
  intro ds hl
  exact key ds hl 0 (Or.inr (by omega)) m w w

/-- **C169**: without a future (`gamma = 0`) the class and the frequency make no difference: DoubleDQN and AveragedDQN
with any positive frequencies are DQN with any positive frequency. -/
theorem C169_myopic (argmax : (A → ℝ) → A) (hg : Greedy argmax) (n : ℕ) (p : Parts S A D M W) (hγ : p.gamma = 0) (hf : 0 < p.freq)
    (f : ℕ) (hf' : 0 < f) (m : M) (w : W) (k : ℕ) :
    SameFits (fit (dqn p)) (fit (dqn { p with freq := f })) (create m w) (create m w) k ∧
    SameFits (fit (dqn p)) (fit (doubleDqn argmax { p with freq := f })) (create m w) (create m w) k ∧
    SameFits (fit (dqn p)) (fit (averagedDqn n { p with freq := f })) (create m w) (createAveraged m w) k := by
  classical
  have hfr : (f = 0) = (p.freq = 0) := by simp; omega
  refine ⟨?_, ?_, ?_⟩ <;> intro ds _
  · refine runFits_alike (dqn p) (dqn { p with freq := f }) rfl rfl rfl rfl rfl hfr (fun _ _ _ _ => True)
      ?_ (fun _ _ _ _ _ _ _ => trivial) _ _ rfl rfl rfl trivial ds
    intro j w t t' m _
    refine each_unique _ _ _ _ _ (C89_dqn p.gamma p.clip (p.predict t') _) (C89_dqn p.gamma p.clip (p.predict t) _) ?_
    rintro x _ y y' ⟨v, _, e⟩ ⟨v', _, e'⟩
    unfold IsTarget at e e'
    rw [e, e', hγ]
    simp
  · refine runFits_alike (dqn p) (doubleDqn argmax { p with freq := f }) rfl rfl rfl rfl rfl hfr (fun _ _ _ _ => True)
      ?_ (fun _ _ _ _ _ _ _ => trivial) _ _ rfl rfl rfl trivial ds
    intro j w t t' m _
    refine each_unique _ _ _ _ _ (C89_double argmax hg p.gamma p.clip (p.predict w) (p.predict t') _)
      (C89_dqn p.gamma p.clip (p.predict t) _) ?_
    rintro x _ y y' ⟨v, _, e⟩ ⟨v', _, e'⟩
    unfold IsTarget at e e'
    rw [e, e', hγ]
    simp
  · refine runFits_alike (dqn p) (averagedDqn n { p with freq := f }) rfl rfl rfl rfl rfl hfr (fun _ _ _ _ => True)
      ?_ (fun _ _ _ _ _ _ _ => trivial) _ _ rfl rfl rfl trivial ds
    intro j w t t' m _
    refine each_unique _ _ _ _ _ (C89_averaged p.gamma p.clip t'.fitted (fun i => p.predict (t'.models i)) _)
      (C89_dqn p.gamma p.clip (p.predict t) _) ?_
    rintro x _ y y' ⟨v, _, e⟩ ⟨v', _, e'⟩
    unfold IsTarget at e e'
    rw [e, e', hγ]
    simp

/-- **C169**: clipping the rewards makes no difference if the rewards the memory returns are between -1 and 1. -/
theorem C169_clip (p : Parts S A D M W) (hr : ∀ m, ∀ t ∈ (p.get m).2, -1 ≤ t.reward ∧ t.reward ≤ 1) (m : M) (w : W) (k : ℕ) :
    SameFits (fit (dqn { p with clip := true })) (fit (dqn { p with clip := false })) (create m w) (create m w) k := by
  classical
  intro ds _
  refine runFits_alike (dqn { p with clip := true }) (dqn { p with clip := false }) rfl rfl rfl rfl rfl rfl (fun _ _ t t' => t' = t)
    ?_ ?_ _ _ rfl rfl rfl rfl ds
  · rintro n w t t' m rfl
    refine each_unique _ _ _ _ _ (C89_dqn p.gamma false (p.predict t') _) (C89_dqn p.gamma true (p.predict t') _) ?_
    rintro x hx y y' ⟨v, hv, e⟩ ⟨v', hv', e'⟩
    obtain ⟨h1, h2⟩ := hr m x hx
    unfold IsTarget at e e'
    rw [e, e', isMax_unique hv hv']
    simp [min_eq_left h2, max_eq_right h1]
  · rintro n w w' t t' _ rfl
    rfl

/-! ### Examples -/

/-- A memory that always returns one transition, and a network with one weight per action that learns by heart: `fit`
stores the target as the value of the action. -/
def byHeart (f : ℕ) (γ : ℝ) (t : Trans Unit Bool) : Parts Unit Bool Unit Unit (Bool → ℝ) where
  add := fun m _ => m
  initialized := fun _ => true
  get := fun m => (m, [t])
  predict := fun w _ a => w a
  update := fun m _ _ _ => m
  fitNet := fun _ w b q => fun a => if b.any (fun t => t.action = a) then q.headD 0 else w a
  freq := f
  gamma := γ
  clip := false

/-- The largest of two values, the first one if they are equal: `np.argmax`. -/
def argmax2 (q : Bool → ℝ) : Bool := decide (q false < q true)

theorem argmax2_greedy : Greedy argmax2 := by
  intro q a
  unfold argmax2
  by_cases h : q false < q true <;> cases a <;> simp [h] <;> first | exact h.le | exact not_lt.mp h

/-- **C169**: the frequency 1 is necessary for DoubleDQN: with frequency 2 two fits tell it from DQN. -/
theorem C169_double_two : ∃ (p : Parts Unit Bool Unit Unit (Bool → ℝ)) (w : Bool → ℝ), p.freq = 2 ∧
    ¬ SameFits (fit (dqn p)) (fit (doubleDqn argmax2 p)) (create () w) (create () w) 2 := by
  refine ⟨byHeart 2 (1 / 2) ⟨(), true, -1, (), false⟩, fun a => if a then 1 else 0, rfl, fun h => ?_⟩
  have h := h [(), ()] (by simp)
  have hm : ∀ f : Bool → ℝ, rowMax f = max (f false) (f true) := by
    intro f
    refine isMax_unique (rowMax_isMax f) ⟨fun a => by cases a <;> simp, ?_⟩
    rcases max_choice (f false) (f true) with e | e
    · exact ⟨false, e.symm⟩
    · exact ⟨true, e.symm⟩
  simp [runFits, fit, countUpdate, innerFit, seen, dqn, doubleDqn, byHeart, create, targets, dqnNext, doubleNext, maskRows, maskVals,
    clipReward, hm, argmax2, copyOnline] at h
  have := congrFun h true
  norm_num at this

/-- **C169**: AveragedDQN is not DQN any more at the first fit after the update of the target. -/
theorem C169_averaged_next : ∃ (p : Parts Unit Bool Unit Unit (Bool → ℝ)) (w : Bool → ℝ), 0 < p.freq ∧
    ¬ SameFits (fit (dqn p)) (fit (averagedDqn 2 p)) (create () w) (createAveraged () w) (p.freq + 1) := by
  refine ⟨byHeart 1 (1 / 2) ⟨(), true, 1, (), false⟩, fun _ => 0, by simp [byHeart], fun h => ?_⟩
  have h := h [(), ()] (by simp [byHeart])
  have hm : ∀ f : Bool → ℝ, rowMax f = max (f false) (f true) := by
    intro f
    refine isMax_unique (rowMax_isMax f) ⟨fun a => by cases a <;> simp, ?_⟩
    rcases max_choice (f false) (f true) with e | e
    · exact ⟨false, e.symm⟩
    · exact ⟨true, e.symm⟩
  simp [runFits, fit, countUpdate, innerFit, seen, dqn, averagedDqn, byHeart, create, createAveraged, targets, dqnNext, averagedNext,
    maskRows, clipReward, hm, copyOnline, averagedSync, Finset.sum_range_succ] at h
  have := congrFun h true
  norm_num at this

/-- The hypotheses are met: agents that learn by heart from a transition of reward 1. -/
example : Greedy argmax2 ∧ (byHeart 1 (1 / 2) ⟨(), true, 1, (), false⟩).freq = 1 ∧
    (byHeart 3 0 ⟨(), true, 1, (), false⟩).gamma = 0 ∧ 0 < (byHeart 3 0 ⟨(), true, 1, (), false⟩).freq ∧
    (∀ m, ∀ t ∈ ((byHeart 1 (1 / 2) ⟨(), true, 1, (), false⟩).get m).2, -1 ≤ t.reward ∧ t.reward ≤ 1) :=
  ⟨argmax2_greedy, rfl, rfl, by simp [byHeart], by intro m t ht; simp [byHeart] at ht; subst ht; norm_num⟩

end

end Verif.DQN
