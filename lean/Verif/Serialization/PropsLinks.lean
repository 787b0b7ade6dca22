/-
C134: learning goes on after loading.
-/
import Verif.Serialization.ModelLinks
import Mathlib.Data.List.Basic
import Mathlib.Data.List.GetD
import Mathlib.Tactic.Common

namespace Verif.Serialization.Links

open Verif.Serialization.Table

variable {W B : Type}

set_option maxRecDepth 100000

/-! ### Specification -/

/-- The weights after the fits, if `fit` with the data `b` turns the weights `w` into `upd b c w`, where `c` is whether the gradient is clipped. -/
def learned (upd : B → Bool → W → W) (clip : Bool) (w : W) (bs : List B) : W := bs.foldl (fun w b => upd b clip w) w

/-! ### Lemmas -/

/-- All the attributes that matter refer to the same location. -/
def Linked (l : Learner) (ref : Slot → Option Slot) (x : Slot) : Prop :=
  ref l.grads = some x ∧ ref l.learns = some x ∧ (∀ c ∈ l.clips, ref c = some x) ∧ ∀ s ∈ l.acts, ref s = some x

theorem fits_linked (l : Learner) (ref : Slot → Option Slot) (x : Slot) (hl : Linked l ref x) (upd : B → Bool → W → W) (bs : List B) :
    ∀ h : Slot → W, ∃ h', fits l ref upd h bs = some h' ∧ h' x = learned upd l.clips.isSome (h x) bs := by
  obtain ⟨h1, h2, h3, _⟩ := hl
  induction bs with
  | nil => intro h; exact ⟨h, rfl, rfl⟩
  | cons b bs ih =>
    intro h
    have : fit l ref upd h b = some (Function.update h x (upd b l.clips.isSome (h x))) := by
      unfold fit
      rw [h1, h2]
      cases hc : l.clips with
      | none => simp
      | some c => simp [h3 c (by simp [hc])]
    obtain ⟨h', e1, e2⟩ := ih (Function.update h x (upd b l.clips.isSome (h x)))
    refine ⟨h', by simp only [fits, this, Option.bind_some, e1], ?_⟩
    rw [e2]; simp [learned]

theorem acting_linked (l : Learner) (ref : Slot → Option Slot) (x : Slot) (hl : Linked l ref x) (h : Slot → W) :
    acting l ref h = some (l.acts.map fun _ => h x) := by
  obtain ⟨_, _, _, h4⟩ := hl
  unfold acting
  generalize l.acts = acts at h4 ⊢
  induction acts with
  | nil => rfl
  | cons s acts ih =>
    rw [List.mapM_cons, h4 s (by simp), ih (fun t ht => h4 t (by simp [ht]))]
    rfl

instance (l : Learner) (ref : Slot → Option Slot) (x : Slot) : Decidable (Linked l ref x) := by
  unfold Linked; infer_instance

/-- The table: new agents and loaded ones. -/
theorem linked_all : ∀ l ∈ linkedAgents, ∃ y ∈ l.slots, Linked l l.built y ∧ ∀ full : Bool, ∃ x ∈ l.slots, Linked l (l.loaded full) x := by
  decide +kernel

theorem built_of (l : Learner) (y : Slot) (hy : Linked l l.built y) {x : Slot} (hx : x ∈ l.slots) : l.built x = some y := by
  obtain ⟨h, _⟩ := hy
  unfold Learner.built at h ⊢
  rw [if_pos hx]
  split at h
  · exact h
  · cases h

/-! ### Properties -/

/-- C134. For the agents in `linkedAgents`, for both kinds of saving: an agent that is saved after the fits `bs`, loaded, and then fitted with `bs'`, draws its
next action with the weights that all these fits produce, the same as if it had not been saved; and gradients are clipped as before. Missing: the agents of the
refutations below. -/
theorem C134_learns_partial (l : Learner) (hl : l ∈ linkedAgents) (full : Bool) (upd : B → Bool → W → W) (w : W) (bs bs' : List B) :
    withSaving full l upd w bs bs' = some (l.acts.map fun _ => learned upd l.clips.isSome w (bs ++ bs')) ∧
    withoutSaving l upd w (bs ++ bs') = some (l.acts.map fun _ => learned upd l.clips.isSome w (bs ++ bs')) := by
  obtain ⟨y, hy, hb, hx⟩ := linked_all l hl
  obtain ⟨x, hxs, hx⟩ := hx full
  constructor
  · obtain ⟨h, e1, e2⟩ := fits_linked l l.built y hb upd bs (fun _ => w)
    obtain ⟨h', e3, e4⟩ := fits_linked l (l.loaded full) x hx upd bs' (written l w h)
    simp only [withSaving, e1, Option.bind_some, e3, acting_linked l _ x hx, e4, written, built_of l y hb hxs, e2]
    simp [learned]
  · obtain ⟨h, e1, e2⟩ := fits_linked l l.built y hb upd (bs ++ bs') (fun _ => w)
    simp only [withoutSaving, e1, Option.bind_some, acting_linked l _ y hb, e2]

/-- There are 118 combinations of agents and policies, among them these; and `draw_action` reads something in all of them. -/
example : linkedAgents.length = 118 ∧ tdAgent sarsa boltzmann ∈ linkedAgents ∧ qAgent rainbow epsGreedy ∈ linkedAgents ∧
    ddpgAgent td3 clippedGaussianPolicy ∈ linkedAgents ∧ deepAgent sac sACPolicy ._mu_approximator ∈ linkedAgents := by
  refine ⟨by decide +kernel, ?_, ?_, ?_, ?_⟩ <;> simp [linkedAgents, tdClasses, qClasses, actorPolicies]

theorem acts_nonempty : ∀ l ∈ linkedAgents, l.acts ≠ [] := by decide +kernel

/-- The links are needed: without the assignments of `_post_load` no agent of the first four families goes on learning. -/
example : ∀ l ∈ [tdAgent qLearning epsGreedy, qAgent dqn epsGreedy, ddpgAgent ddpg ornsteinUhlenbeckPolicy, ppoAgent ppo gaussianTorchPolicy ._mu],
    ∀ x : Slot, x ∈ l.slots → ¬ Linked { l with post := [] } (Learner.loaded true { l with post := [] }) x := by decide +kernel

/-- C134, refuted for COPDAC_Q, with every policy that it can be used with: after loading, fits have no effect on the policy, which draws actions with the weights it
had when it was saved, forever. -/
theorem C134_copdac_refuted (full : Bool) (p : Cls × Attr) (hp : p ∈ meanPolicies) (upd : B → Bool → W → W) (w : W) (bs bs' : List B) :
    withSaving full (copdacAgent p.1 p.2) upd w bs bs' = some [learned upd false w bs] ∧
    withoutSaving (copdacAgent p.1 p.2) upd w (bs ++ bs') = some [learned upd false w (bs ++ bs')] := by
  have key : ∀ p ∈ meanPolicies, ∀ full : Bool,
      Linked (copdacAgent p.1 p.2) (copdacAgent p.1 p.2).built (.agent, ._mu) ∧
      (copdacAgent p.1 p.2).loaded full (.agent, ._mu) = some (.agent, ._mu) ∧
      (copdacAgent p.1 p.2).loaded full (.policy, p.2) = some (.policy, p.2) := by decide +kernel
  obtain ⟨hb, h1, h2⟩ := key p hp full
  generalize hl : copdacAgent p.1 p.2 = l at *
  have hg : l.grads = (.agent, ._mu) := by rw [← hl]; rfl
  have hw : l.learns = (.agent, ._mu) := by rw [← hl]; rfl
  have hc : l.clips = none := by rw [← hl]; rfl
  have ha : l.acts = [(.policy, p.2)] := by rw [← hl]; rfl
  have hm : (.policy, p.2) ∈ l.slots := by rw [← hl]; simp [copdacAgent]
  have stay : ∀ (bs : List B) (h : Slot → W), ∃ h', fits l (l.loaded full) upd h bs = some h' ∧ h' (.policy, p.2) = h (.policy, p.2) := by
    intro bs
    induction bs with
    | nil => intro h; exact ⟨h, rfl, rfl⟩
    | cons b bs ih =>
      intro h
      obtain ⟨h', e1, e2⟩ := ih (Function.update h (.agent, ._mu) (upd b false (h (.agent, ._mu))))
      refine ⟨h', ?_, ?_⟩
      · simp only [fits, fit, hg, hw, h1, hc, if_true, Option.bind_some, e1]
      · rw [e2, Function.update_of_ne (by simp)]
  constructor
  · obtain ⟨h, e1, e2⟩ := fits_linked l l.built _ hb upd bs (fun _ => w)
    obtain ⟨h', e3, e4⟩ := stay bs' (written l w h)
    simp only [withSaving, e1, Option.bind_some, e3, acting, ha, List.mapM_cons, List.mapM_nil, h2, Option.map_some, e4, written, built_of l _ hb hm, e2, hc]
    rfl
  · obtain ⟨h, e1, e2⟩ := fits_linked l l.built _ hb upd (bs ++ bs') (fun _ => w)
    simp only [withoutSaving, e1, Option.bind_some, acting_linked l _ _ hb, e2, ha, hc]
    rfl

example : (gaussianPolicy, Attr._approximator) ∈ meanPolicies ∧ learned (fun (b : Nat) _ w => w + b) false 0 [1, 2] = 3 := by
  refine ⟨by simp [meanPolicies], rfl⟩

/-- C134, refuted for ePPO: after loading, the optimizer has parameters of its own, without gradients, and the distribution never changes. -/
theorem C134_eppo_refuted (full : Bool) (upd : B → Bool → W → W) (w : W) (bs bs' : List B) :
    withSaving full ePPOAgent upd w bs bs' = some [learned upd false w bs] ∧
    withoutSaving ePPOAgent upd w (bs ++ bs') = some [learned upd false w (bs ++ bs')] := by
  have key : ∀ full : Bool, Linked ePPOAgent ePPOAgent.built (.agent, .distribution) ∧
      ePPOAgent.loaded full (.agent, .distribution) = some (.agent, .distribution) ∧
      ePPOAgent.loaded full (.group, ._optimizer) = some (.group, ._optimizer) := by decide +kernel
  obtain ⟨hb, h1, h2⟩ := key full
  have stay : ∀ (bs : List B) (h : Slot → W), fits ePPOAgent (ePPOAgent.loaded full) upd h bs = some h := by
    intro bs
    induction bs with
    | nil => intro h; rfl
    | cons b bs ih =>
      intro h
      have : fit ePPOAgent (ePPOAgent.loaded full) upd h b = some h := by
        unfold fit
        rw [show ePPOAgent.grads = (.agent, .distribution) from rfl, show ePPOAgent.learns = (.group, ._optimizer) from rfl, h1, h2,
          show ePPOAgent.clips = none from rfl]
        simp
      rw [fits, this, Option.bind_some, ih]
  constructor
  · obtain ⟨h, e1, e2⟩ := fits_linked ePPOAgent ePPOAgent.built _ hb upd bs (fun _ => w)
    have hbx := built_of ePPOAgent _ hb (x := (.agent, .distribution)) (by simp [ePPOAgent])
    simp only [withSaving, e1, Option.bind_some, stay, acting, show ePPOAgent.acts = [(.agent, .distribution)] from rfl, List.mapM_cons, List.mapM_nil, h1,
      Option.map_some, written, hbx, e2]
    rfl
  · obtain ⟨h, e1, e2⟩ := fits_linked ePPOAgent ePPOAgent.built _ hb upd (bs ++ bs') (fun _ => w)
    simp only [withoutSaving, e1, Option.bind_some, acting_linked ePPOAgent _ _ hb, e2]
    rfl

/-- C134, refuted for agents with a Mellowmax policy: after loading, the policy draws actions with the function that is learned, but chooses the temperature
with the function it had when it was saved. -/
theorem C134_mellowmax_refuted (full : Bool) (c : Cls × Attr) (hc : c ∈ tdClasses.map (·, Attr.Q) ++ qClasses.map (·, Attr.approximator))
    (upd : B → Bool → W → W) (w : W) (bs bs' : List B) :
    withSaving full (mellowmaxAgent c.1 c.2) upd w bs bs' = some [learned upd false w (bs ++ bs'), learned upd false w bs] ∧
    withoutSaving (mellowmaxAgent c.1 c.2) upd w (bs ++ bs') = some [learned upd false w (bs ++ bs'), learned upd false w (bs ++ bs')] := by
  have key : ∀ c ∈ tdClasses.map (·, Attr.Q) ++ qClasses.map (·, Attr.approximator), ∀ full : Bool,
      Linked (mellowmaxAgent c.1 c.2) (mellowmaxAgent c.1 c.2).built (.agent, c.2) ∧
      (mellowmaxAgent c.1 c.2).loaded full (.agent, c.2) = some (.agent, c.2) ∧
      (mellowmaxAgent c.1 c.2).loaded full (.policy, ._approximator) = some (.agent, c.2) ∧
      (mellowmaxAgent c.1 c.2).loaded full (.parameter, ._outer) = some (.parameter, ._outer) := by decide +kernel
  obtain ⟨hb, h1, h2, h3⟩ := key c hc full
  generalize hl : mellowmaxAgent c.1 c.2 = l at *
  have hg : l.grads = (.agent, c.2) := by rw [← hl]; rfl
  have hw : l.learns = (.agent, c.2) := by rw [← hl]; rfl
  have hcl : l.clips = none := by rw [← hl]; rfl
  have ha : l.acts = [(.policy, ._approximator), (.parameter, ._outer)] := by rw [← hl]; rfl
  have hm1 : (.agent, c.2) ∈ l.slots := by rw [← hl]; simp [mellowmaxAgent]
  have hm2 : (.parameter, ._outer) ∈ l.slots := by rw [← hl]; simp [mellowmaxAgent]
  have go : ∀ (bs : List B) (h : Slot → W), ∃ h', fits l (l.loaded full) upd h bs = some h' ∧
      h' (.agent, c.2) = learned upd false (h (.agent, c.2)) bs ∧ h' (.parameter, ._outer) = h (.parameter, ._outer) := by
    intro bs
    induction bs with
    | nil => intro h; exact ⟨h, rfl, rfl, rfl⟩
    | cons b bs ih =>
      intro h
      obtain ⟨h', e1, e2, e3⟩ := ih (Function.update h (.agent, c.2) (upd b false (h (.agent, c.2))))
      refine ⟨h', ?_, ?_, ?_⟩
      · simp only [fits, fit, hg, hw, h1, hcl, if_true, Option.bind_some, e1]
      · rw [e2]; simp [learned]
      · rw [e3, Function.update_of_ne (by simp)]
  constructor
  · obtain ⟨h, e1, e2⟩ := fits_linked l l.built _ hb upd bs (fun _ => w)
    obtain ⟨h', e3, e4, e5⟩ := go bs' (written l w h)
    simp only [withSaving, e1, Option.bind_some, e3, acting, ha, List.mapM_cons, List.mapM_nil, h2, h3, Option.map_some, e4, e5, written, built_of l _ hb hm1,
      built_of l _ hb hm2, e2, hcl]
    simp [learned]
  · obtain ⟨h, e1, e2⟩ := fits_linked l l.built _ hb upd (bs ++ bs') (fun _ => w)
    simp only [withoutSaving, e1, Option.bind_some, acting_linked l _ _ hb, e2, ha, hcl]
    rfl

example : (qLearning, Attr.Q) ∈ tdClasses.map (·, Attr.Q) ++ qClasses.map (·, Attr.approximator) := by simp [tdClasses]

/-! ### Optimizers -/

section Optimizers

variable {P S G : Type} [DecidableEq P]

theorem moveState_other (empty : S) (l : List (P × P)) : ∀ (st : P → Option S) (q : P), (∀ p ∈ l, q ≠ p.1 ∧ q ≠ p.2) →
    moveState empty l st q = st q := by
  induction l with
  | nil => intro st q _; rfl
  | cons p l ih =>
    intro st q h
    obtain ⟨old, new⟩ := p
    rw [moveState, ih _ _ (fun p hp => h p (by simp [hp]))]
    have := h (old, new) (by simp)
    rw [Function.update_of_ne this.2, Function.update_of_ne this.1]

theorem moveState_spec (empty : S) (old : List P) : ∀ (new : List P) (st : P → Option S), old.Nodup → new.Nodup → old.length = new.length →
    (∀ p ∈ old, p ∉ new) →
    (∀ i (h : i < old.length) (h' : i < new.length), moveState empty (old.zip new) st new[i] = some ((st old[i]).getD empty)) ∧
    ∀ p ∈ old, moveState empty (old.zip new) st p = none := by
  induction old with
  | nil => intro new st _ _ _ _; exact ⟨by simp, by simp⟩
  | cons o old ih =>
    intro new st ho hn hl hd
    cases new with
    | nil => simp at hl
    | cons n new =>
      rw [List.nodup_cons] at ho hn
      have hd' : ∀ p ∈ old, p ∉ new := fun p hp hq => hd p (by simp [hp]) (by simp [hq])
      obtain ⟨h1, h2⟩ := ih new (Function.update (Function.update st o none) n (some ((st o).getD empty))) ho.2 hn.2 (by simpa using hl) hd'
      have hon : o ≠ n := fun h => hd o (by simp) (by simp [h])
      constructor
      · intro i hi hi'
        cases i with
        | zero =>
          simp only [List.zip_cons_cons, moveState, List.getElem_cons_zero]
          rw [moveState_other]
          · simp
          · intro p hp
            obtain ⟨hp1, hp2⟩ := List.of_mem_zip hp
            exact ⟨fun h => hd p.1 (by simp [hp1]) (by simp [← h]), fun h => hn.1 (h ▸ hp2)⟩
        | succ i =>
          simp only [List.zip_cons_cons, moveState, List.getElem_cons_succ]
          rw [h1 i (by simpa using hi) (by simpa using hi')]
          have hio : old[i]'(by simpa using hi) ∈ old := List.getElem_mem _
          rw [Function.update_of_ne (fun h => hd _ (List.mem_cons_of_mem _ hio) (by simp [h])), Function.update_of_ne (fun h => ho.1 (by rw [← h]; exact hio))]
      · intro p hp
        simp only [List.zip_cons_cons, moveState]
        rcases List.mem_cons.1 hp with rfl | hp
        · rw [moveState_other]
          · rw [Function.update_of_ne hon]; simp
          · intro q hq
            obtain ⟨hq1, hq2⟩ := List.of_mem_zip hq
            exact ⟨fun h => ho.1 (h ▸ hq1), fun h => hd p (by simp) (by simp [h, hq2])⟩
        · exact h2 p hp

/-- C134. After `update_optimizer_parameters` with as many new parameters as there were old ones, the optimizer has the new parameters, every new one has the state
of the old one at the same position, and the old ones have no state any more. -/
theorem C134_optimizer_state (empty : S) (isEmpty : Bool) (o : Optim P S) (new : List P) (ho : o.params.Nodup) (hn : new.Nodup)
    (hl : o.params.length = new.length) (hd : ∀ p ∈ o.params, p ∉ new) (hs : ∀ p, p ∉ o.params → o.state p = none)
    (he : isEmpty = true ↔ ∀ p, o.state p = none) :
    (o.update empty isEmpty new).params = new ∧
    (∀ i (h : i < o.params.length) (h' : i < new.length),
      ((o.update empty isEmpty new).state new[i]).getD empty = (o.state o.params[i]).getD empty) ∧
    ∀ p, p ∉ new → (o.update empty isEmpty new).state p = none := by
  refine ⟨rfl, ?_, ?_⟩
  · intro i h h'
    simp only [Optim.update]
    cases hE : isEmpty with
    | true =>
      have := he.1 hE
      simp [this]
    | false =>
      rw [if_neg (by simp), (moveState_spec empty o.params new o.state ho hn hl hd).1 i h h']
      simp
  · intro p hp
    simp only [Optim.update]
    cases hE : isEmpty with
    | true => simp [he.1 hE p]
    | false =>
      rw [if_neg (by simp)]
      by_cases hpo : p ∈ o.params
      · exact (moveState_spec empty o.params new o.state ho hn hl hd).2 p hpo
      · rw [moveState_other, hs p hpo]
        intro q hq
        obtain ⟨hq1, hq2⟩ := List.of_mem_zip hq
        exact ⟨fun h => hpo (h ▸ hq1), fun h => hp (h ▸ hq2)⟩

/-- Several steps; `grads k p` is the gradient of `p` before step `k`. -/
def steps (empty : S) (rule : G → W → S → W × S) (grads : List (P → Option G)) (o : Optim P S) (h : P → W) : Optim P S × (P → W) :=
  grads.foldl (fun (acc : Optim P S × (P → W)) g => acc.1.step empty rule g acc.2) (o, h)

/-- A step, parameter by parameter. -/
theorem step_spec (empty : S) (rule : G → W → S → W × S) (o : Optim P S) (grad : P → Option G) (h : P → W) (ho : o.params.Nodup) :
    (o.step empty rule grad h).1.params = o.params ∧
    ∀ p ∈ o.params, match grad p with
      | none => ((o.step empty rule grad h).1.state p).getD empty = (o.state p).getD empty ∧ (o.step empty rule grad h).2 p = h p
      | some g => ((o.step empty rule grad h).1.state p).getD empty = (rule g (h p) ((o.state p).getD empty)).2 ∧
          (o.step empty rule grad h).2 p = (rule g (h p) ((o.state p).getD empty)).1 := by
  have key : ∀ (l : List P) (acc : Optim P S × (P → W)), l.Nodup →
      let r := l.foldl (fun (acc : Optim P S × (P → W)) p => match grad p with
        | none => acc
        | some g =>
          let r := rule g (acc.2 p) ((acc.1.state p).getD empty)
          ({ acc.1 with state := Function.update acc.1.state p (some r.2) }, Function.update acc.2 p r.1)) acc
      r.1.params = acc.1.params ∧ (∀ p, p ∉ l → r.1.state p = acc.1.state p ∧ r.2 p = acc.2 p) ∧
      ∀ p ∈ l, match grad p with
        | none => (r.1.state p).getD empty = (acc.1.state p).getD empty ∧ r.2 p = acc.2 p
        | some g => (r.1.state p).getD empty = (rule g (acc.2 p) ((acc.1.state p).getD empty)).2 ∧
            r.2 p = (rule g (acc.2 p) ((acc.1.state p).getD empty)).1 := by
    intro l
    induction l with
    | nil => intro acc _; exact ⟨rfl, fun _ _ => ⟨rfl, rfl⟩, by simp⟩
    | cons q l ih =>
      intro acc hnd
      rw [List.nodup_cons] at hnd
      simp only [List.foldl_cons]
      cases hg : grad q with
      | none =>
        obtain ⟨a, b, c⟩ := ih acc hnd.2
        refine ⟨a, fun p hp => b p (fun h => hp (by simp [h])), fun p hp => ?_⟩
        rcases List.mem_cons.1 hp with rfl | hp
        · obtain ⟨b1, b2⟩ := b p hnd.1
          simp only [hg]
          exact ⟨by rw [b1], b2⟩
        · exact c p hp
      | some g =>
        obtain ⟨a, b, c⟩ := ih _ hnd.2
        refine ⟨a, fun p hp => ?_, fun p hp => ?_⟩
        · obtain ⟨b1, b2⟩ := b p (fun h => hp (by simp [h]))
          have : p ≠ q := fun h => hp (by simp [h])
          exact ⟨by rw [b1]; simp [this], by rw [b2]; simp [this]⟩
        · rcases List.mem_cons.1 hp with rfl | hp
          · obtain ⟨b1, b2⟩ := b p hnd.1
            simp only [hg]
            exact ⟨by rw [b1]; simp, by rw [b2]; simp⟩
          · have hne : p ≠ q := fun h => hnd.1 (h ▸ hp)
            have := c p hp
            cases hgp : grad p with
            | none => rw [hgp] at this; simpa [hne] using this
            | some g' => rw [hgp] at this; simpa [hne] using this
  obtain ⟨a, _, c⟩ := key o.params (o, h) ho
  exact ⟨a, c⟩

/-- C134. A loaded network goes on as if it had not been saved: if the new parameters have the weights of the old ones and get the gradients that those would
have got, then after any number of steps of the optimizer they have the weights that those would have. The rule of the optimizer is arbitrary. -/
theorem C134_optimizer_steps (empty : S) (rule : G → W → S → W × S) (isEmpty : Bool) (o : Optim P S) (new : List P) (ho : o.params.Nodup)
    (hn : new.Nodup) (hl : o.params.length = new.length) (hd : ∀ p ∈ o.params, p ∉ new) (hs : ∀ p, p ∉ o.params → o.state p = none)
    (he : isEmpty = true ↔ ∀ p, o.state p = none) (h h' : P → W)
    (hh : ∀ i (a : i < o.params.length) (b : i < new.length), h' new[i] = h o.params[i])
    (grads grads' : List (P → Option G)) (hlen : grads.length = grads'.length)
    (hg : ∀ (k : Nat) (g g' : P → Option G), grads[k]? = some g → grads'[k]? = some g' → ∀ i (a : i < o.params.length) (b : i < new.length), g' new[i] = g o.params[i]) :
    ∀ i (a : i < o.params.length) (b : i < new.length),
      (steps empty rule grads' (o.update empty isEmpty new) h').2 new[i] = (steps empty rule grads o h).2 o.params[i] := by
  obtain ⟨s1, s2, _⟩ := C134_optimizer_state empty isEmpty o new ho hn hl hd hs he
  have key : ∀ (grads grads' : List (P → Option G)) (o1 o2 : Optim P S) (h1 h2 : P → W), grads.length = grads'.length →
      o1.params = o.params → o2.params = new →
      (∀ i (a : i < o.params.length) (b : i < new.length), (o2.state new[i]).getD empty = (o1.state o.params[i]).getD empty ∧
        h2 new[i] = h1 o.params[i]) →
      (∀ (k : Nat) (g g' : P → Option G), grads[k]? = some g → grads'[k]? = some g' → ∀ i (a : i < o.params.length) (b : i < new.length), g' new[i] = g o.params[i]) →
      ∀ i (a : i < o.params.length) (b : i < new.length),
        (steps empty rule grads' o2 h2).2 new[i] = (steps empty rule grads o1 h1).2 o.params[i] := by
    intro grads
    induction grads with
    | nil =>
      intro grads' o1 o2 h1 h2 hlen _ _ hst _ i a b
      rw [List.length_nil] at hlen
      rw [List.length_eq_zero_iff.1 hlen.symm]
      exact (hst i a b).2
    | cons g grads ih =>
      intro grads' o1 o2 h1 h2 hlen hp1 hp2 hst hgr i a b
      cases grads' with
      | nil => simp at hlen
      | cons g' grads' =>
        obtain ⟨q1, r1⟩ := step_spec empty rule o1 g h1 (hp1 ▸ ho)
        obtain ⟨q2, r2⟩ := step_spec empty rule o2 g' h2 (hp2 ▸ hn)
        refine ih grads' _ _ _ _ (by simpa using hlen) (q1.trans hp1) (q2.trans hp2) ?_ (fun k => hgr (k + 1)) i a b
        intro i a b
        have e1 := r1 o.params[i] (by rw [hp1]; exact List.getElem_mem _)
        have e2 := r2 new[i] (by rw [hp2]; exact List.getElem_mem _)
        have eg := hgr 0 g g' rfl rfl i a b
        obtain ⟨t1, t2⟩ := hst i a b
        rw [eg] at e2
        cases hgi : g o.params[i] with
        | none =>
          rw [hgi] at e1 e2
          exact ⟨e2.1.trans (t1.trans e1.1.symm), e2.2.trans (t2.trans e1.2.symm)⟩
        | some v =>
          rw [hgi] at e1 e2
          rw [t1, t2] at e2
          exact ⟨e2.1.trans e1.1.symm, e2.2.trans e1.2.symm⟩
  exact key grads grads' o (o.update empty isEmpty new) h h' hlen rfl s1 (fun i a b => ⟨s2 i a b, hh i a b⟩) hg

/-- Two parameters of which one has state; gradient descent with momentum. -/
example : (steps 0 (fun g w m => (w - (m + g), m + g)) [fun p => if p = 3 then some 1 else none]
      ((⟨[1, 2], fun p => if p = 1 then some 5 else none⟩ : Optim Nat Int).update 0 false [3, 4]) (fun _ => 10)).2 3 = 4 ∧
    ([1, 2] : List Nat).Nodup ∧ ([3, 4] : List Nat).Nodup ∧ ∀ p ∈ ([1, 2] : List Nat), p ∉ ([3, 4] : List Nat) := by decide

end Optimizers

end Verif.Serialization.Links
