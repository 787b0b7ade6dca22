/-
Property C54: target networks and targets of DDPG, TD3 and SAC.
-/
import Verif.ActorCritic.Spec
import Verif.DQN.Spec

namespace Verif.ActorCritic

open Verif.TD (Trans)
open Verif.DQN (alive Each)
open Verif.Policy (Param constantParam)

variable {ι : Type}

/-! ### Soft updates -/

theorem valueAt_succ (tau : Param) (k : ℕ) : valueAt (tau.call []).1 k = valueAt tau (k + 1) := by
  simp [valueAt, Function.iterate_succ_apply]

/-- What one call of `_update_target` does to the model with number `j`. -/
theorem updateTarget_get (tau : Param) (os ts : List (ι → ℝ)) (j : ℕ) (o t : ι → ℝ) (ho : os[j]? = some o)
    (ht : ts[j]? = some t) :
    (updateTarget tau os ts).2[j]? =
      some (fun i => valueAt tau (j + 1) * o i + (1 - valueAt tau (j + 1)) * t i) := by
  induction os generalizing tau ts j with
  | nil => simp at ho
  | cons a os ih =>
    cases ts with
    | nil => simp at ht
    | cons c ts =>
      cases j with
      | zero =>
        simp only [List.getElem?_cons_zero, Option.some.injEq] at ho ht
        subst ho ht
        simp [updateTarget, valueAt, Param.call]
      | succ j =>
        simp only [List.getElem?_cons_succ] at ho ht
        have := ih (tau.call []).1 ts j ho ht
        rw [valueAt_succ] at this
        simpa [updateTarget] using this

theorem updateTarget_length (tau : Param) (os ts : List (ι → ℝ)) : (updateTarget tau os ts).2.length = ts.length := by
  induction os generalizing tau ts with
  | nil => simp [updateTarget]
  | cons a os ih =>
    cases ts with
    | nil => simp [updateTarget]
    | cons c ts => simp [updateTarget, ih]

theorem between_soft {c o t : ℝ} (h0 : 0 ≤ c) (h1 : c ≤ 1) : Between o t (c * o + (1 - c) * t) := by
  constructor
  · rcases min_cases o t with ⟨h, hle⟩ | ⟨h, hle⟩ <;> rw [h] <;> nlinarith
  · rcases max_cases o t with ⟨h, hle⟩ | ⟨h, hle⟩ <;> rw [h] <;> nlinarith

/-- C54. A soft update keeps the number of models, and every weight of every target model ends up between the weight of the
online model and its old value. -/
theorem C54_between (tau : Param) (hτ : Coefficient tau) (os ts : List (ι → ℝ)) :
    (updateTarget tau os ts).2.length = ts.length ∧
      ∀ (j : ℕ) o t w, os[j]? = some o → ts[j]? = some t → (updateTarget tau os ts).2[j]? = some w →
        ∀ i, Between (o i) (t i) (w i) := by
  refine ⟨updateTarget_length tau os ts, ?_⟩
  intro j o t w ho ht hw i
  rw [updateTarget_get tau os ts j o t ho ht, Option.some.injEq] at hw
  subst hw
  exact between_soft (hτ _).1 (hτ _).2

theorem valueAt_constant (c : ℝ) (k : ℕ) (single : Bool) : valueAt (constantParam c none none single) k = c := by
  have : ∀ (k : ℕ) (p : Param), p.kind = .constant → p.minV = none → p.maxV = none →
      ((fun p : Param => (p.call []).1)^[k] p).getValue [] = p.initial := by
    intro k
    induction k with
    | zero => intro p h1 h2 h3; simp [Param.getValue, Param.compute, h1, h2, h3, Policy.clip]
    | succ k ih =>
      intro p h1 h2 h3
      rw [Function.iterate_succ_apply, ih _ (by simpa [Param.call, Param.update] using h1)
        (by simpa [Param.call, Param.update] using h2) (by simpa [Param.call, Param.update] using h3)]
      simp [Param.call, Param.update]
  exact this k _ rfl rfl rfl

theorem constant_call (c : ℝ) (single : Bool) (os ts : List (ι → ℝ)) (p : Param) (h1 : p.kind = .constant)
    (h2 : p.minV = none) (h3 : p.maxV = none) :
    (updateTarget p os ts).1.kind = .constant ∧ (updateTarget p os ts).1.minV = none ∧
      (updateTarget p os ts).1.maxV = none ∧ (updateTarget p os ts).1.initial = p.initial := by
  induction os generalizing p ts with
  | nil => simp [updateTarget, h1, h2, h3]
  | cons a os ih =>
    cases ts with
    | nil => simp [updateTarget, h1, h2, h3]
    | cons b ts =>
      have := ih ts (p.call []).1 (by simpa [Param.call, Param.update] using h1)
        (by simpa [Param.call, Param.update] using h2) (by simpa [Param.call, Param.update] using h3)
      simpa [updateTarget, Param.call, Param.update] using this

theorem valueAt_const' (p : Param) (h1 : p.kind = .constant) (h2 : p.minV = none) (h3 : p.maxV = none) (k : ℕ) :
    valueAt p k = p.initial := by
  induction k generalizing p with
  | zero => simp [valueAt, Param.getValue, Param.compute, h1, h2, h3, Policy.clip]
  | succ k ih =>
    rw [← valueAt_succ, ih _ (by simpa [Param.call, Param.update] using h1)
        (by simpa [Param.call, Param.update] using h2) (by simpa [Param.call, Param.update] using h3)]
    simp [Param.call, Param.update]

/-- C54. With a constant coefficient and fixed online weights, the distance of a target weight to the online weight after `k`
updates is `(1 - tau)^k` times the initial one. -/
theorem C54_geometric (c : ℝ) (os ts : List (ι → ℝ)) (k j : ℕ) (o t : ι → ℝ) (ho : os[j]? = some o)
    (ht : ts[j]? = some t) :
    ∃ w, ((fun st => updateTarget st.1 os st.2)^[k] (constantParam c none none true, ts)).2[j]? = some w ∧
      ∀ i, w i - o i = (1 - c) ^ k * (t i - o i) := by
  have gen : ∀ (k : ℕ) (p : Param) (ts : List (ι → ℝ)) (t : ι → ℝ), p.kind = .constant → p.minV = none →
      p.maxV = none → p.initial = c → ts[j]? = some t →
      ∃ w, ((fun st => updateTarget st.1 os st.2)^[k] (p, ts)).2[j]? = some w ∧
        ∀ i, w i - o i = (1 - c) ^ k * (t i - o i) := by
    intro k
    induction k with
    | zero => intro p ts t _ _ _ _ ht; exact ⟨t, ht, fun i => by simp⟩
    | succ k ih =>
      intro p ts t h1 h2 h3 h4 ht
      rw [Function.iterate_succ_apply]
      obtain ⟨a1, a2, a3, a4⟩ := constant_call c true os ts p h1 h2 h3
      obtain ⟨w, hw, hi⟩ := ih (updateTarget p os ts).1 (updateTarget p os ts).2 _ a1 a2 a3 (a4.trans h4)
        (updateTarget_get p os ts j o t ho ht)
      refine ⟨w, hw, fun i => ?_⟩
      rw [hi, valueAt_const' p h1 h2 h3, h4]
      ring
  exact gen k _ ts t rfl rfl rfl rfl ht

example : Coefficient (constantParam (1 / 1000) none none true) := fun k => by
  rw [valueAt_constant]; norm_num

/-- Two updates with tau = 1/2 leave a quarter of the distance. -/
example : ∃ w, ((fun st => updateTarget st.1 [fun _ : Fin 1 => (1 : ℝ)] st.2)^[2]
    (constantParam (1 / 2) none none true, [fun _ => 5])).2[0]? = some w ∧ ∀ i, w i - 1 = (1 - 1 / 2) ^ 2 * (5 - 1) :=
  C54_geometric (1 / 2) _ _ 2 0 _ _ rfl rfl

/-! ### Whole runs of DDPG and TD3 -/

theorem initTarget_mem (os ts : List (ι → ℝ)) (h : ts.length ≤ os.length) : ∀ w ∈ initTarget os ts, w ∈ os := by
  induction os generalizing ts with
  | nil =>
    have : ts = [] := List.length_eq_zero_iff.1 (by simpa using h)
    subst this; simp [initTarget]
  | cons o os ih =>
    cases ts with
    | nil => simp [initTarget]
    | cons t ts =>
      intro w hw
      simp only [initTarget, List.mem_cons] at hw ⊢
      exact hw.imp id (ih ts (by simpa using h) w)

/-- C54. After construction the target networks are copies of the online networks. -/
theorem C54_init {M κ : Type} (m : M) (critic tc : List (ι → ℝ)) (actor ta : List (κ → ℝ)) (tau : Param)
    (hc : tc.length = critic.length) (ha : ta.length = actor.length) :
    (ddpgInit m critic tc actor ta tau).targetCritic = (ddpgInit m critic tc actor ta tau).critic ∧
      (ddpgInit m critic tc actor ta tau).targetActor = (ddpgInit m critic tc actor ta tau).actor := by
  have : ∀ {ι : Type} (os ts : List (ι → ℝ)), ts.length = os.length → initTarget os ts = os := by
    intro ι os
    induction os with
    | nil => intro ts h; simpa [initTarget] using h
    | cons o os ih =>
      intro ts h
      cases ts with
      | nil => simp at h
      | cons t ts => simp [initTarget, ih ts (by simpa using h)]
  exact ⟨this critic tc hc, this actor ta ha⟩

theorem coefficient_update (tau : Param) (hτ : Coefficient tau) (os ts : List (ι → ℝ)) :
    Coefficient (updateTarget tau os ts).1 := by
  induction os generalizing tau ts with
  | nil => simpa [updateTarget] using hτ
  | cons o os ih =>
    cases ts with
    | nil => simpa [updateTarget] using hτ
    | cons t ts =>
      have : Coefficient (tau.call []).1 := fun k => by rw [valueAt_succ]; exact hτ _
      simpa [updateTarget] using ih _ this ts

theorem within_update (lo hi : ι → ℝ) (tau : Param) (hτ : Coefficient tau) (os ts : List (ι → ℝ))
    (ho : Within lo hi os) (ht : Within lo hi ts) : Within lo hi (updateTarget tau os ts).2 := by
  intro w hw i
  obtain ⟨j, hj, rfl⟩ := List.getElem_of_mem hw
  have hjt : j < ts.length := by rw [updateTarget_length] at hj; exact hj
  by_cases hjo : j < os.length
  · have := updateTarget_get tau os ts j os[j] ts[j] (List.getElem?_eq_getElem hjo) (List.getElem?_eq_getElem hjt)
    rw [List.getElem?_eq_getElem hj, Option.some.injEq] at this
    rw [this]
    have b1 := ho _ (List.getElem_mem hjo) i
    have b2 := ht _ (List.getElem_mem hjt) i
    have c := hτ (j + 1)
    constructor <;> nlinarith [b1.1, b1.2, b2.1, b2.2, c.1, c.2]
  · have keep : ∀ (tau : Param) (os ts : List (ι → ℝ)) (j : ℕ), os.length ≤ j →
        (updateTarget tau os ts).2[j]? = ts[j]? := by
      intro tau os
      induction os generalizing tau with
      | nil => intro ts j _; simp [updateTarget]
      | cons o os ih =>
        intro ts j hj
        cases ts with
        | nil => simp [updateTarget]
        | cons t ts =>
          cases j with
          | zero => simp at hj
          | succ j => simpa [updateTarget] using ih (tau.call []).1 ts j (by simpa using hj)
    have := keep tau os ts j (not_lt.1 hjo)
    rw [List.getElem?_eq_getElem hj, List.getElem?_eq_getElem hjt, Option.some.injEq] at this
    rw [this]
    exact ht _ (List.getElem_mem hjt) i

section run

variable {S A D M κ : Type}

/-- One call: the bounds of the target weights are kept as long as the new online weights respect them. -/
theorem ddpgFit_within (y : DdpgSys S A D M ι κ) (g g' : Ddpg M ι κ) (d : D) (h : ddpgFit y g d = some g')
    (hτ : Coefficient g.tau) (lo hi : ι → ℝ) (lo' hi' : κ → ℝ) (hc : Within lo hi g'.critic)
    (ha : Within lo' hi' g'.actor) (htc : Within lo hi g.targetCritic) (hta : Within lo' hi' g.targetActor) :
    Coefficient g'.tau ∧ Within lo hi g'.targetCritic ∧ Within lo' hi' g'.targetActor := by
  unfold ddpgFit at h
  dsimp only at h
  by_cases hi1 : y.initialized (y.add g.memory d) = true
  · rw [if_pos hi1] at h
    unfold ddpgUpdate at h
    dsimp only at h
    by_cases hd : y.delay = 0
    · simp [hd] at h
    · rw [if_neg hd, Option.some.injEq] at h
      subst h
      dsimp only at hc ha ⊢
      exact ⟨coefficient_update _ (coefficient_update g.tau hτ _ g.targetCritic) _ _,
        within_update lo hi _ hτ _ _ hc htc,
        within_update lo' hi' _ (coefficient_update g.tau hτ _ g.targetCritic) _ _ ha hta⟩
  · rw [if_neg hi1, Option.some.injEq] at h
    subst h
    exact ⟨hτ, htc, hta⟩

/-- C54. In every run of DDPG or TD3, from construction and for every replay memory, optimiser and schedule of the coefficient in
[0, 1], the weights of the target networks never leave an interval that contains the weights the online networks had so far. -/
theorem C54_history (y : DdpgSys S A D M ι κ) (m : M) (critic tc : List (ι → ℝ)) (actor ta : List (κ → ℝ)) (tau : Param)
    (hτ : Coefficient tau) (hlc : tc.length = critic.length) (hla : ta.length = actor.length) (ds : List D)
    (states : List (Ddpg M ι κ)) (hrun : ddpgRun y (ddpgInit m critic tc actor ta tau) ds = some states)
    (lo hi : ι → ℝ) (lo' hi' : κ → ℝ) (hc0 : Within lo hi critic) (ha0 : Within lo' hi' actor)
    (hc : ∀ g ∈ states, Within lo hi g.critic) (ha : ∀ g ∈ states, Within lo' hi' g.actor) :
    ∀ g ∈ states, Within lo hi g.targetCritic ∧ Within lo' hi' g.targetActor := by
  have gen : ∀ (ds : List D) (g : Ddpg M ι κ) (states : List (Ddpg M ι κ)), ddpgRun y g ds = some states →
      Coefficient g.tau → Within lo hi g.targetCritic → Within lo' hi' g.targetActor →
      (∀ g ∈ states, Within lo hi g.critic) → (∀ g ∈ states, Within lo' hi' g.actor) →
      ∀ g ∈ states, Within lo hi g.targetCritic ∧ Within lo' hi' g.targetActor := by
    intro ds
    induction ds with
    | nil =>
      intro g states h
      simp only [ddpgRun, Option.some.injEq] at h
      subst h
      simp
    | cons d ds ih =>
      intro g states h hτ h1 h2 h3 h4
      simp only [ddpgRun, Option.bind_eq_some_iff, Option.map_eq_some_iff] at h
      obtain ⟨g', hg', l, hl, rfl⟩ := h
      obtain ⟨e1, e2, e3⟩ := ddpgFit_within y g g' d hg' hτ lo hi lo' hi' (h3 g' (by simp)) (h4 g' (by simp)) h1 h2
      intro s hs
      rcases List.mem_cons.1 hs with rfl | hs
      · exact ⟨e2, e3⟩
      · exact ih g' l hl e1 e2 e3 (fun g hg => h3 g (List.mem_cons_of_mem _ hg))
          (fun g hg => h4 g (List.mem_cons_of_mem _ hg)) s hs
  obtain ⟨i1, i2⟩ := C54_init m critic tc actor ta tau hlc hla
  exact gen ds _ states hrun hτ (by rw [i1]; exact hc0) (by rw [i2]; exact ha0) hc ha

/-- Number of calls made with an initialised memory. -/
noncomputable def updatesIn (y : DdpgSys S A D M ι κ) (g : Ddpg M ι κ) : List D → ℕ
  | [] => 0
  | d :: ds =>
    (if y.initialized (y.add g.memory d) = true then 1 else 0) +
      match ddpgFit y g d with
      | some g' => updatesIn y g' ds
      | none => 0

theorem count_step (k d : ℕ) (hd : d ≠ 0) :
    (k + 1 + d - 1) / d = (k + d - 1) / d + if k % d = 0 then 1 else 0 := by
  have hp : 0 < d := Nat.pos_of_ne_zero hd
  have e1 : k + 1 + d - 1 = k + d := by omega
  rw [e1, Nat.add_div_right k hp]
  by_cases h : k % d = 0
  · rw [if_pos h]
    have hk : k = d * (k / d) := by have := Nat.div_add_mod k d; omega
    have : (k + d - 1) / d = k / d := by
      rw [Nat.div_eq_of_lt_le]
      · rw [Nat.mul_comm]; omega
      · rw [Nat.add_mul, Nat.mul_comm]; omega
    omega
  · rw [if_neg h]
    have hk := Nat.div_add_mod k d
    have hlt := Nat.mod_lt k hp
    have : (k + d - 1) / d = k / d + 1 := by
      rw [Nat.div_eq_of_lt_le]
      · rw [Nat.add_mul, Nat.mul_comm]; omega
      · rw [Nat.add_mul, Nat.add_mul, Nat.mul_comm]; omega
    omega

/-- C54. The actor is updated at the first, the `(delay + 1)`-th, the `(2 delay + 1)`-th ... update of the critic: whatever
quantity counts the actor updates has grown by the number of critic updates divided by the delay, rounded up. -/
theorem C54_delay (y : DdpgSys S A D M ι κ) (m : M) (critic tc : List (ι → ℝ)) (actor ta : List (κ → ℝ)) (tau : Param)
    (hd : y.delay ≠ 0) (count : List (κ → ℝ) → ℕ)
    (hcount : ∀ m a c b, count (y.fitActor m a c b) = count a + 1) (ds : List D) :
    ∃ states, ddpgRun y (ddpgInit m critic tc actor ta tau) ds = some states ∧ states.length = ds.length ∧
      ∀ g, states.getLast? = some g →
        g.fitCount = updatesIn y (ddpgInit m critic tc actor ta tau) ds ∧
        count g.actor = count actor + (g.fitCount + y.delay - 1) / y.delay := by
  have step : ∀ (g : Ddpg M ι κ) (d : D), ∃ g', ddpgFit y g d = some g' ∧
      g'.fitCount = g.fitCount + (if y.initialized (y.add g.memory d) = true then 1 else 0) ∧
      (count g.actor = count actor + (g.fitCount + y.delay - 1) / y.delay →
        count g'.actor = count actor + (g'.fitCount + y.delay - 1) / y.delay) := by
    intro g d
    unfold ddpgFit
    dsimp only
    by_cases hi1 : y.initialized (y.add g.memory d) = true
    · rw [if_pos hi1, if_pos hi1]
      unfold ddpgUpdate
      dsimp only
      rw [if_neg hd]
      refine ⟨_, rfl, rfl, ?_⟩
      intro hg
      dsimp only
      rw [count_step _ _ hd]
      by_cases hm : g.fitCount % y.delay = 0
      · rw [if_pos hm, if_pos hm, hcount, hg]; omega
      · rw [if_neg hm, if_neg hm, hg]; omega
    · rw [if_neg hi1, if_neg hi1]
      exact ⟨_, rfl, rfl, fun h => h⟩
  have gen : ∀ (ds : List D) (g : Ddpg M ι κ), count g.actor = count actor + (g.fitCount + y.delay - 1) / y.delay →
      ∃ states, ddpgRun y g ds = some states ∧ states.length = ds.length ∧
        ∀ s, states.getLast? = some s → s.fitCount = g.fitCount + updatesIn y g ds ∧
          count s.actor = count actor + (s.fitCount + y.delay - 1) / y.delay := by
    intro ds
    induction ds with
    | nil => intro g _; exact ⟨[], rfl, rfl, by simp⟩
    | cons d ds ih =>
      intro g hg
      obtain ⟨g', h1, h2, h3⟩ := step g d
      obtain ⟨l, hl, hlen, hlast⟩ := ih g' (h3 hg)
      refine ⟨g' :: l, by simp [ddpgRun, h1, hl], by simp [hlen], ?_⟩
      intro s hs
      have hu : updatesIn y g (d :: ds) =
          (if y.initialized (y.add g.memory d) = true then 1 else 0) + updatesIn y g' ds := by
        simp [updatesIn, h1]
      cases l with
      | nil =>
        have hds : ds = [] := List.length_eq_zero_iff.1 (by simpa using hlen.symm)
        subst hds
        simp only [List.getLast?_singleton, Option.some.injEq] at hs
        subst hs
        refine ⟨?_, h3 hg⟩
        rw [hu, h2]; simp [updatesIn]
      | cons a l =>
        rw [List.getLast?_cons_cons] at hs
        obtain ⟨e1, e2⟩ := hlast s hs
        refine ⟨?_, e2⟩
        rw [e1, hu, h2]; omega
  obtain ⟨states, h1, h2, h3⟩ := gen ds (ddpgInit m critic tc actor ta tau) (by
    have : (0 + y.delay - 1) / y.delay = 0 := Nat.div_eq_of_lt (by omega)
    show count actor = count actor + (0 + y.delay - 1) / y.delay
    rw [this]; rfl)
  refine ⟨states, h1, h2, fun g hg => ?_⟩
  obtain ⟨e1, e2⟩ := h3 g hg
  exact ⟨by simpa [ddpgInit] using e1, e2⟩

end run

/-- A system with delay 2 whose actor weight counts its updates. -/
def countingSys : DdpgSys Unit Unit Unit Unit (Fin 1) (Fin 1) where
  add := fun _ _ => ()
  initialized := fun _ => true
  get := fun _ => ((), [])
  nextQ := fun _ _ _ _ => []
  fitCritic := fun _ c _ _ => c
  fitActor := fun _ a _ _ => (fun _ => 0) :: a
  gamma := 1
  delay := 2

example : ∃ states, ddpgRun countingSys (ddpgInit () [fun _ => 0] [fun _ => 3] [fun _ => 0] [fun _ => 3]
    (constantParam (1 / 2) none none true)) [(), (), ()] = some states ∧ states.length = 3 ∧
      ∀ g, states.getLast? = some g → g.fitCount = updatesIn countingSys (ddpgInit () [fun _ => 0] [fun _ => 3]
        [fun _ => 0] [fun _ => 3] (constantParam (1 / 2) none none true)) [(), (), ()] ∧
        g.actor.length = 1 + (g.fitCount + 2 - 1) / 2 :=
  C54_delay countingSys () _ _ _ _ _ (by decide) List.length (fun _ _ _ _ => rfl) _

/-! ### Targets -/

section targets

variable {S A : Type}

theorem mask_bellman (γ : ℝ) (batch : List (Trans S A)) (q : List ℝ) (h : q.length = batch.length) :
    (bellman γ batch (mask batch q)).length = batch.length ∧
      ∀ (i : ℕ) t v y, batch[i]? = some t → q[i]? = some v → (bellman γ batch (mask batch q))[i]? = some y →
        IsCriticTarget γ t v y := by
  constructor
  · simp [bellman, mask, h]
  · intro i t v y ht hv hy
    simp only [bellman, mask, List.getElem?_zipWith, ht, hv, Option.some.injEq] at hy
    subst hy
    refine ⟨fun hb => ?_, fun hb => ?_⟩ <;> simp [alive, hb]

/-- C54. The targets of DDPG: one per transition, the reward for absorbing transitions, and otherwise the reward plus the discounted
value the target critic gives to the action of the target actor. -/
theorem C54_ddpg (γ : ℝ) (critic : S → A → ℝ) (actor : S → A) (batch : List (Trans S A)) :
    Each batch (bellman γ batch (ddpgNext critic actor batch))
      (fun t y => IsCriticTarget γ t (critic t.next (actor t.next)) y) := by
  obtain ⟨h1, h2⟩ := mask_bellman γ batch (batch.map (fun t => critic t.next (actor t.next))) (by simp)
  exact ⟨h1, fun i t y ht hy => h2 i t _ y ht (by simp [ht]) hy⟩

theorem minOf_isLeast (l : List ℝ) (h : l ≠ []) : IsLeast' l (minOf l) := by
  induction l with
  | nil => exact absurd rfl h
  | cons x l ih =>
    cases l with
    | nil => simp [minOf, IsLeast']
    | cons y l =>
      obtain ⟨h1, h2⟩ := ih (by simp)
      simp only [minOf]
      constructor
      · rcases min_choice x (minOf (y :: l)) with h | h
        · rw [h]; simp
        · rw [h]; exact List.mem_cons_of_mem _ h1
      · intro z hz
        rcases List.mem_cons.1 hz with rfl | hz
        · exact min_le_left _ _
        · exact (min_le_right _ _).trans (h2 z hz)

theorem clip_mem (x lo hi : ℝ) (h : lo ≤ hi) : lo ≤ clip x lo hi ∧ clip x lo hi ≤ hi := by
  unfold clip
  exact ⟨le_min (le_max_right _ _) h, min_le_right _ _⟩

/-- C54. The action at which TD3 evaluates its critics always lies in the action space; if the action of the target actor does, it is
at most the noise clip away from it. -/
theorem C54_smoothing {d : ℕ} (c : ℝ) (hc : 0 ≤ c) (low high a eps : Fin d → ℝ) (hb : ∀ j, low j ≤ high j) (j : Fin d) :
    (low j ≤ smooth c low high a eps j ∧ smooth c low high a eps j ≤ high j) ∧
      (low j ≤ a j → a j ≤ high j → |smooth c low high a eps j - a j| ≤ c) := by
  refine ⟨clip_mem _ _ _ (hb j), fun h1 h2 => ?_⟩
  obtain ⟨e1, e2⟩ := clip_mem (eps j) (-c) c (by linarith)
  unfold smooth
  generalize clip (eps j) (-c) c = e at *
  unfold clip
  rw [abs_le]
  constructor
  · have : a j - c ≤ min (max (a j + e) (low j)) (high j) :=
      le_min (le_max_of_le_left (by linarith)) (by linarith)
    linarith
  · have : min (max (a j + e) (low j)) (high j) ≤ a j + c :=
      (min_le_left _ _).trans (max_le (by linarith) (by linarith))
    linarith

/-- Small noise is not changed by the clipping. -/
theorem C54_smoothing_inside {d : ℕ} (c : ℝ) (low high a eps : Fin d → ℝ) (j : Fin d) (he : |eps j| ≤ c)
    (h1 : low j ≤ a j + eps j) (h2 : a j + eps j ≤ high j) : smooth c low high a eps j = a j + eps j := by
  rw [abs_le] at he
  simp only [smooth, clip, max_eq_left he.1, min_eq_left he.2, max_eq_left h1, min_eq_left h2]

example : smooth (1 / 2) (fun _ : Fin 1 => -1) (fun _ => 1) (fun _ => 1 / 4) (fun _ => -1 / 4) 0 = 1 / 4 + -1 / 4 :=
  C54_smoothing_inside (1 / 2) _ _ _ _ 0 (by rw [abs_le]; norm_num) (by norm_num) (by norm_num)

/-- C54. The targets of TD3: the reward for absorbing transitions, and otherwise the reward plus the discounted least value among the
target critics, all at the same smoothed action. -/
theorem C54_td3 {d : ℕ} (γ : ℝ) (critics : List (S → (Fin d → ℝ) → ℝ)) (hn : critics ≠ []) (actor : S → Fin d → ℝ)
    (c : ℝ) (low high : Fin d → ℝ) (batch : List (Trans S A)) (eps : List (Fin d → ℝ))
    (he : eps.length = batch.length) :
    (bellman γ batch (td3Next critics actor c low high batch eps)).length = batch.length ∧
      ∀ (i : ℕ) t e y, batch[i]? = some t → eps[i]? = some e →
        (bellman γ batch (td3Next critics actor c low high batch eps))[i]? = some y →
        ∃ v, IsLeast' (critics.map (fun q => q t.next (smooth c low high (actor t.next) e))) v ∧
          IsCriticTarget γ t v y := by
  obtain ⟨h1, h2⟩ := mask_bellman γ batch (List.zipWith (fun t e =>
    minOf (critics.map (fun q => q t.next (smooth c low high (actor t.next) e)))) batch eps) (by simp [he])
  refine ⟨h1, fun i t e y ht hE hy => ⟨_, minOf_isLeast _ (by simpa using hn), h2 i t _ y ht ?_ hy⟩⟩
  simp [List.getElem?_zipWith, ht, hE]

/-- C54. The targets of SAC: the reward for absorbing transitions, and otherwise the reward plus the discounted soft value: the least
value among the target critics minus the temperature times the log-probability, both at the same sampled action. -/
theorem C54_sac {B : Type} (γ : ℝ) (critics : List (S → B → ℝ)) (hn : critics ≠ []) (logAlpha : ℝ)
    (batch : List (Trans S A)) (samples : List (B × ℝ)) (he : samples.length = batch.length) :
    (bellman γ batch (sacNext critics logAlpha batch samples)).length = batch.length ∧
      ∀ (i : ℕ) t a logp y, batch[i]? = some t → samples[i]? = some (a, logp) →
        (bellman γ batch (sacNext critics logAlpha batch samples))[i]? = some y →
        ∃ v alpha, IsLeast' (critics.map (fun q => q t.next a)) v ∧ 0 < alpha ∧ Real.log alpha = logAlpha ∧
          IsCriticTarget γ t (v - alpha * logp) y := by
  obtain ⟨h1, h2⟩ := mask_bellman γ batch (List.zipWith (fun t (s : B × ℝ) =>
    minOf (critics.map (fun q => q t.next s.1)) - Real.exp logAlpha * s.2) batch samples) (by simp [he])
  refine ⟨h1, fun i t a logp y ht hE hy => ⟨_, _, minOf_isLeast _ (by simpa using hn), Real.exp_pos _,
    Real.log_exp _, h2 i t _ y ht ?_ hy⟩⟩
  simp [List.getElem?_zipWith, ht, hE]

/-- Two transitions, one absorbing. -/
example : bellman (1 / 2) [⟨0, 0, 3, 1, true⟩, ⟨0, 0, 3, 1, false⟩]
    (ddpgNext (fun (s a : ℕ) => (s : ℝ) + a) (fun s => s + 1)
      ([⟨0, 0, 3, 1, true⟩, ⟨0, 0, 3, 1, false⟩] : List (Trans ℕ ℕ))) = [3, 3 + 1 / 2 * 3] := by
  simp [bellman, ddpgNext, mask, alive]; norm_num

end targets

end Verif.ActorCritic
