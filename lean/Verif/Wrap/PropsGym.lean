/-
Properties of the environments that wrap other libraries (C106, C107).
-/
import Verif.Wrap.ModelGym
import Verif.Wrap.PropsAtari
import Mathlib.Tactic.NormNum

namespace Verif.Wrap

variable {S A : Type}

/-! ### C106: time limits -/

/-- The limits that are not infinite. -/
def active (layers : List (Option TL)) : List TL := (layers.filterMap id).filter (fun t => t.max.isSome)

theorem no_active (layers : List (Option TL)) (h : active layers = []) : layers.any (fun l => (tickLayer l).2) = false := by
  rw [List.any_eq_false]
  intro l hl
  cases l with
  | none => simp [tickLayer]
  | some t =>
    have : t.max.isSome = false := by
      by_contra hc
      have : t ∈ active layers := by
        simp only [active, List.mem_filter, List.mem_filterMap, id]
        exact ⟨⟨some t, hl, rfl⟩, by rw [Bool.not_eq_false] at hc; exact hc⟩
      rw [h] at this
      simp at this
    cases hm : t.max with
    | none => simp [tickLayer, hm]
    | some m => rw [hm] at this; simp at this

/-- The settings of the limits. -/
def maxes (layers : List (Option TL)) : List (Option (Option ℕ)) := layers.map (fun l => l.map TL.max)

theorem active_of_maxes (layers layers' : List (Option TL)) (h : maxes layers = maxes layers') (ha : active layers = []) : active layers' = [] := by
  induction layers generalizing layers' with
  | nil =>
    cases layers' with
    | nil => rfl
    | cons a l => simp [maxes] at h
  | cons a l ih =>
    cases layers' with
    | nil => simp [maxes] at h
    | cons b l' =>
      simp only [maxes, List.map_cons, List.cons.injEq] at h
      cases a with
      | none =>
        cases b with
        | none => exact ih l' h.2 ha
        | some t => simp at h
      | some t =>
        cases b with
        | none => simp at h
        | some t' =>
          have h1 : t.max = t'.max := by simpa using h.1
          cases hm : t.max with
          | some m => simp [active, hm] at ha
          | none =>
            rw [hm] at h1
            have ha' : active l = [] := by simpa [active, hm] using ha
            have := ih l' h.2 ha'
            simpa [active, ← h1] using this

theorem calls_maxes (t : Task S A) (l : List (GymCall S A)) : ∀ s : Stack S, s.layers ≠ [] →
    maxes (gymCalls t s l).layers = maxes s.layers ∧ (gymCalls t s l).layers ≠ [] := by
  induction l with
  | nil => intro s h; exact ⟨rfl, h⟩
  | cons c l ih =>
    intro s h
    have key : ∀ s' : Stack S, maxes s'.layers = maxes s.layers → s'.layers ≠ [] →
        maxes (gymCalls t s' l).layers = maxes s.layers ∧ (gymCalls t s' l).layers ≠ [] := by
      intro s' h1 h2
      exact ⟨(ih s' h2).1.trans h1, (ih s' h2).2⟩
    have hreset : maxes (s.reset t).layers = maxes s.layers := by
      simp only [maxes, Stack.reset, List.map_map]
      apply List.map_congr_left
      intro x _; cases x <;> rfl
    have hr2 : (s.reset t).layers ≠ [] := by simpa [Stack.reset] using h
    cases c with
    | reset x =>
      cases x with
      | none => exact key (s.reset t) hreset hr2
      | some x =>
        have : gymCalls t s (.reset (some x) :: l) = gymCalls t (s.reset t) l := by
          simp only [gymCalls, List.foldl_cons, gymReset, if_neg h]
        rw [this]
        exact key (s.reset t) hreset hr2
    | step a =>
      apply key (gymStep t s a).1
      · simp only [maxes, gymStep, Stack.step, List.map_map]
        apply List.map_congr_left
        intro x _; cases x <;> rfl
      · simpa [gymStep, Stack.step] using h

theorem setFirst_active (layers : List (Option TL)) (h : (layers.filterMap id).length ≤ 1) : active (setFirst none layers) = [] := by
  induction layers with
  | nil => rfl
  | cons a l ih =>
    cases a with
    | none =>
      have : active (setFirst none (none :: l)) = active (setFirst none l) := by simp [setFirst, active]
      rw [this]; exact ih (by simpa using h)
    | some t =>
      have hl : l.filterMap id = [] := by
        simp only [List.filterMap_cons_some (show id (some t) = some t from rfl), List.length_cons] at h
        exact List.eq_nil_of_length_eq_zero (by omega)
      have : active (setFirst none (some t :: l)) = active l := by simp [setFirst, active]
      rw [this, active, hl]
      rfl

theorem setFirst_ne (m : Option ℕ) (layers : List (Option TL)) (h : layers ≠ []) : setFirst m layers ≠ [] := by
  cases layers with
  | nil => exact absurd rfl h
  | cons a l => cases a <;> simp [setFirst]

/-- C106, only for environments with one time limit (see `C106_gym_refuted`): a `Gym` environment never reports the end of the time as the end
of the task, after any calls. -/
theorem C106_gym_partial (t : Task S A) (s : Stack S) (horizon h : Option ℕ) (layers : List (Option TL))
    (hh : setHorizonGym s.layers horizon = some (h, layers)) (hone : (s.layers.filterMap id).length ≤ 1) (l : List (GymCall S A)) (a : A) :
    let s' := gymCalls t ⟨layers, s.state⟩ l
    (gymStep t s' a).2.2 = (t.step s'.state a).2.2 ∧ (gymStep t s' a).2.1 = (t.step s'.state a).2.1
      ∧ (gymStep t s' a).1.state = (t.step s'.state a).1 := by
  intro s'
  have hl : layers = setFirst none s.layers ∧ s.layers ≠ [] := by
    unfold setHorizonGym at hh
    split_ifs at hh with hne
    refine ⟨?_, hne⟩
    cases horizon with
    | some x => simp only [Option.some.injEq, Prod.mk.injEq] at hh; exact hh.2.symm
    | none =>
      simp only [Option.map_eq_some_iff, Prod.mk.injEq] at hh
      obtain ⟨_, _, _, h2⟩ := hh
      exact h2.symm
  obtain ⟨rfl, hne⟩ := hl
  have h1 := calls_maxes t l ⟨setFirst none s.layers, s.state⟩ (setFirst_ne _ _ hne)
  have h2 := active_of_maxes _ _ h1.1.symm (setFirst_active _ hone)
  refine ⟨?_, rfl, rfl⟩
  simp only [gymStep, Stack.step]
  rw [no_active _ h2, Bool.or_false]

/-- A task that never ends. -/
def forever : Task ℕ Unit := ⟨0, fun s _ => (s + 1, 1, false)⟩

example : ∃ layers, setHorizonGym [none, some ⟨some 5, 0⟩] none = some (some 5, layers) := ⟨_, rfl⟩

/-- C106 is false of `Gym` environments with two time limits, of which only the outermost one is removed. -/
theorem C106_gym_refuted : ∃ layers, setHorizonGym [some ⟨some 5, 0⟩, some ⟨some 2, 0⟩] none = some (some 5, layers)
    ∧ (gymStep forever (gymCalls forever ⟨layers, 0⟩ [.reset none, .step ()]) ()).2.2 = true := ⟨_, rfl, rfl⟩

theorem steps_layers (t : Task S A) (acts : List A) : ∀ s : Stack S,
    (gymCalls t s (acts.map GymCall.step)).layers = s.layers.map (fun l => l.map (fun u => { u with elapsed := u.elapsed + acts.length })) := by
  induction acts with
  | nil =>
    intro s
    have : (fun l : Option TL => l.map (fun u => { u with elapsed := u.elapsed + 0 })) = id := by
      funext l; cases l <;> rfl
    simp only [List.map_nil, List.length_nil, this, List.map_id]
    rfl
  | cons a l ih =>
    intro s
    have h1 : gymCalls t s ((a :: l).map GymCall.step) = gymCalls t (gymStep t s a).1 (l.map GymCall.step) := rfl
    rw [h1, ih]
    simp only [gymStep, Stack.step, List.map_map]
    apply List.map_congr_left
    intro x _
    cases x with
    | none => rfl
    | some u => simp [tickLayer, Nat.add_comm, Nat.add_left_comm]

/-- C106, for any wrappers: after any history, `reset()` and `k` steps, the next step of a `Gym` environment is reported as the end of the task
exactly if the task ends there or one of the time limits that were not removed is at most `k + 1`. The steps before the `reset()` do not
count. -/
theorem C106_gym_steps (t : Task S A) (s : Stack S) (l : List (GymCall S A)) (hne : s.layers ≠ []) (x : Option S) (acts : List A) (a : A) :
    let s' := gymCalls t s (l ++ .reset x :: acts.map GymCall.step)
    (gymStep t s' a).2.2 = true ↔ (t.step s'.state a).2.2 = true ∨ ∃ m : ℕ, some (some m) ∈ maxes s.layers ∧ m ≤ acts.length + 1 := by
  intro s'
  have hc := calls_maxes t l s hne
  obtain ⟨s0, hs0⟩ : ∃ s0, gymCalls t s l = s0 := ⟨_, rfl⟩
  rw [hs0] at hc
  have h1 : s' = gymCalls t (s0.reset t) (acts.map GymCall.step) := by
    simp only [s', gymCalls, List.foldl_append, List.foldl_cons] at hs0 ⊢
    rw [hs0]
    cases x with
    | none => rfl
    | some x => simp only [gymReset, if_neg hc.2]
  have h2 : s'.layers = s0.layers.map (fun l => l.map (fun u => { u with elapsed := acts.length })) := by
    rw [h1, steps_layers]
    simp only [Stack.reset, List.map_map]
    apply List.map_congr_left
    intro y _
    cases y <;> simp
  have h3 : (gymStep t s' a).2.2 = ((t.step s'.state a).2.2 || s'.layers.any (fun l => (tickLayer l).2)) := rfl
  rw [h3, Bool.or_eq_true, List.any_eq_true, h2, ← hc.1]
  refine or_congr Iff.rfl ?_
  simp only [maxes, List.mem_map]
  constructor
  · rintro ⟨y, ⟨z, hz, rfl⟩, hy⟩
    cases z with
    | none => simp [tickLayer] at hy
    | some u =>
      cases hm : u.max with
      | none => simp [tickLayer, hm] at hy
      | some m => exact ⟨m, ⟨some u, hz, by simp [hm]⟩, by simpa [tickLayer, hm] using hy⟩
  · rintro ⟨m, ⟨z, hz, hzm⟩, hle⟩
    cases z with
    | none => simp at hzm
    | some u =>
      have hm : u.max = some m := by simpa using hzm
      exact ⟨_, ⟨some u, hz, rfl⟩, by simp [tickLayer, hm, hle]⟩

example : (gymStep forever (gymCalls forever ⟨[some ⟨none, 0⟩, some ⟨some 2, 0⟩], 0⟩ [.step (), .step (), .reset none]) ()).2.2 = false
    ∧ (gymStep forever (gymCalls forever ⟨[some ⟨none, 0⟩, some ⟨some 2, 0⟩], 0⟩ [.step (), .reset none, .step ()]) ()).2.2 = true := ⟨rfl, rfl⟩

/-- C106: `Gymnasium` environments never report the end of the time as the end of the task, whatever the wrappers. -/
theorem C106_gymnasium (t : Task S A) (s : Stack S) (a : A) :
    (gymnasiumStep t s a).2.2 = (t.step s.state a).2.2 ∧ (gymnasiumStep t s a).2.1 = (t.step s.state a).2.1
      ∧ (gymnasiumStep t s a).1.state = (t.step s.state a).1 := ⟨rfl, rfl, rfl⟩

/-- C106: the horizon is the given one, or that of the outermost time limit (for gymnasium ten thousand if this is infinite); without either
the constructor fails. -/
theorem C106_horizon (layers : List (Option TL)) (hne : layers ≠ []) :
    (∀ h : ℕ, (setHorizonGym layers (some h)).map Prod.fst = some (some h) ∧ (setHorizonGymnasium layers (some h)).map Prod.fst = some h)
    ∧ (∀ (front : ℕ) (tl : TL) (rest : List (Option TL)), layers = List.replicate front none ++ some tl :: rest →
        (setHorizonGym layers none).map Prod.fst = some tl.max ∧
        (setHorizonGymnasium layers none).map Prod.fst = some (tl.max.getD 10000))
    ∧ ((∀ l ∈ layers, l = none) → setHorizonGym layers none = none ∧ setHorizonGymnasium layers none = none) := by
  have h1 : ∀ (front : ℕ) (tl : TL) (rest : List (Option TL)), firstLimit (List.replicate front none ++ some tl :: rest) = some tl := by
    intro front tl rest
    induction front with
    | zero => rfl
    | succ n ih => rw [List.replicate_succ]; exact ih
  have h2 : ∀ layers : List (Option TL), (∀ l ∈ layers, l = none) → firstLimit layers = none := by
    intro layers
    induction layers with
    | nil => intro _; rfl
    | cons a l ih =>
      intro h
      rw [h a (by simp)]
      exact ih (fun x hx => h x (List.mem_cons_of_mem _ hx))
  refine ⟨?_, ?_, ?_⟩
  · intro h
    simp [setHorizonGym, setHorizonGymnasium, hne]
  · intro front tl rest h
    have := h1 front tl rest
    rw [← h] at this
    simp [setHorizonGym, setHorizonGymnasium, hne, this]
  · intro h
    simp [setHorizonGym, setHorizonGymnasium, hne, h2 layers h]

example : ([none, some ⟨some 5, 0⟩] : List (Option TL)) = List.replicate 1 none ++ some ⟨some 5, 0⟩ :: [] := rfl

/-- C106 is false of `reset(state)`: whatever state is given (and returned), an environment that could be constructed goes on from its own
initial state. -/
theorem C106_reset_refuted (t : Task S A) (s : Stack S) (horizon h : Option ℕ) (layers : List (Option TL))
    (hh : setHorizonGym s.layers horizon = some (h, layers)) (l : List (GymCall S A)) (x : S) (a : A) :
    let s' := (gymReset t (gymCalls t ⟨layers, s.state⟩ l) (some x)).1
    (gymReset t (gymCalls t ⟨layers, s.state⟩ l) (some x)).2 = x ∧ (gymStep t s' a).1.state = (t.step t.init a).1 := by
  intro s'
  have hne : layers ≠ [] := by
    unfold setHorizonGym at hh
    split_ifs at hh with hne
    cases horizon with
    | some y => simp only [Option.some.injEq, Prod.mk.injEq] at hh; rw [← hh.2]; exact setFirst_ne _ _ hne
    | none =>
      simp only [Option.map_eq_some_iff, Prod.mk.injEq] at hh
      obtain ⟨_, _, _, h2⟩ := hh
      rw [← h2]; exact setFirst_ne _ _ hne
  have h1 := (calls_maxes t l ⟨layers, s.state⟩ hne).2
  refine ⟨rfl, ?_⟩
  have : s'.state = t.init := by
    simp only [s', gymReset]
    rw [if_neg h1]
    rfl
  simp only [gymStep, Stack.step, this]

example : (gymStep forever (gymReset forever ⟨[none], 3⟩ (some 7)).1 ()).1.state = 1 := rfl

/-! ### Limits inside the tasks -/

/-- The environment never ends an episode for the time before or at the horizon. -/
def Hidden (o : Obj) (name : String) (horizon : Option ℕ) : Prop :=
  ∀ k, (∀ h, horizon = some h → k ≤ h) → o.expires name k = false

theorem set_bare (o : Obj) (h : o.layers = []) (name : String) (v : Option ℕ) : (o.set name v).base.lookup name = some v := by
  simp [Obj.set, h, List.lookup_cons]

theorem set_wrapped (o : Obj) (h : o.layers ≠ []) (name : String) (v : Option ℕ) : (o.set name v).base = o.base := by
  unfold Obj.set
  split
  · contradiction
  · rfl

/-- C106, only for vector observations (see `C106_dm_refuted`): the time limit of dm_control is hidden. -/
theorem C106_dm_partial (o o' : Obj) (hbare : o.layers = []) (horizon h : Option ℕ) (hc : dmControl o horizon = some (h, o')) :
    Hidden o' "_step_limit" h ∧ (∀ x, horizon = some x → h = some x) := by
  simp only [dmControl, Option.map_eq_some_iff, Prod.mk.injEq] at hc
  obtain ⟨x, hx, h1, h2⟩ := hc
  subst h1 h2
  refine ⟨?_, ?_⟩
  · intro k _
    rw [Obj.expires, set_bare o hbare]
  · intro y hy
    rw [hy] at hx
    simpa using hx.symm

/-- C106 is false of DMControl with pixels: the limit is removed from the wrapper only, so that with the default horizon the last step of
every episode that lasts to the horizon is reported as absorbing. -/
theorem C106_dm_refuted (o : Obj) (hw : o.layers ≠ []) (limit : ℕ) (hl : o.base.lookup "_step_limit" = some (some limit))
    (hn : ∀ l ∈ o.layers, l.lookup "_step_limit" = none) :
    ∃ o', dmControl o none = some (some limit, o') ∧ o'.expires "_step_limit" limit = true := by
  have hget : o.get "_step_limit" = some (some limit) := by
    rw [Obj.get, List.findSome?_append]
    have : o.layers.findSome? (fun l => l.lookup "_step_limit") = none := by
      rw [List.findSome?_eq_none_iff]; exact hn
    rw [this]
    simp [hl]
  refine ⟨o.set "_step_limit" none, by simp [dmControl, hget], ?_⟩
  rw [Obj.expires, set_wrapped o hw, hl]
  simp

example : ∃ o', dmControl ⟨[[]], [("_step_limit", some 1000)]⟩ none = some (some 1000, o') ∧ o'.expires "_step_limit" 1000 = true :=
  C106_dm_refuted _ (by simp) _ rfl (by simp)

example : ∃ o', dmControl ⟨[], [("_step_limit", some 1000)]⟩ none = some (some 1000, o') := ⟨_, rfl⟩

/-- C106 is false of MiniGrid: the new limit is an attribute of the wrapper only, so that with the default horizon the last step of
every episode that lasts to the horizon is reported as absorbing; and with a longer horizon episodes still end there. -/
theorem C106_minigrid_refuted (o : Obj) (hw : o.layers ≠ []) (limit : ℕ) (hl : o.base.lookup "max_steps" = some (some limit))
    (hn : ∀ l ∈ o.layers, l.lookup "max_steps" = none) :
    (∃ o', miniGrid o none = some (limit, o') ∧ o'.expires "max_steps" limit = true) ∧
    (∀ h, ∃ o', miniGrid o (some h) = some (h, o') ∧ o'.expires "max_steps" limit = true) := by
  have hget : o.get "max_steps" = some (some limit) := by
    rw [Obj.get, List.findSome?_append]
    have : o.layers.findSome? (fun l => l.lookup "max_steps") = none := by
      rw [List.findSome?_eq_none_iff]; exact hn
    rw [this]
    simp [hl]
  have hex : ∀ v, (o.set "max_steps" v).expires "max_steps" limit = true := by
    intro v
    rw [Obj.expires, set_wrapped o hw, hl]
    simp
  exact ⟨⟨o.set "max_steps" (some (limit + 1)), by simp [miniGrid, hget], hex _⟩,
    fun h => ⟨o.set "max_steps" (some (h + 1)), by simp [miniGrid], hex _⟩⟩

example : ∃ o', miniGrid ⟨[[]], [("max_steps", some 100)]⟩ none = some (100, o') ∧ o'.expires "max_steps" 100 = true :=
  (C106_minigrid_refuted _ (by simp) _ rfl (by simp)).1

/-- C106: Habitat hides its time limit. -/
theorem C106_habitat (o o' : Obj) (hbare : o.layers = []) (horizon : Option ℕ) (h : ℕ) (hc : habitat o horizon = some (h, o')) :
    Hidden o' "MAX_EPISODE_STEPS" (some h) ∧ (∀ x, horizon = some x → h = x) := by
  simp only [habitat, Option.map_eq_some_iff, Prod.mk.injEq] at hc
  obtain ⟨x, hx, h1, h2⟩ := hc
  subst h1 h2
  refine ⟨?_, ?_⟩
  · intro k hk
    have := hk x rfl
    rw [Obj.expires, set_bare o hbare]
    simp only [decide_eq_false_iff_not]
    omega
  · intro y hy
    rw [hy] at hx
    simpa using hx.symm

example : ∃ o', habitat ⟨[], [("MAX_EPISODE_STEPS", some 500)]⟩ none = some (500, o') := ⟨_, rfl⟩

/-- C106, only for the default horizon (see `C106_igibson_refuted`): iGibson hides its time limit. -/
theorem C106_igibson_partial (o o' : Obj) (hbare : o.layers = []) (h : ℕ) (hc : iGibson o none = some (h, o')) :
    Hidden o' "max_step" (some h) := by
  simp only [iGibson, Option.map_eq_some_iff, Prod.mk.injEq] at hc
  obtain ⟨x, hx, h1, h2⟩ := hc
  subst h1 h2
  intro k hk
  have := hk x rfl
  rw [Obj.expires, set_bare o hbare]
  simp only [decide_eq_false_iff_not]
  omega

example : ∃ o', iGibson ⟨[], [("max_step", some 500)]⟩ none = some (500, o') := ⟨_, rfl⟩

/-- C106 is false of iGibson with a given horizon, which is made the limit of the simulator too. -/
theorem C106_igibson_refuted (o : Obj) (hbare : o.layers = []) (h : ℕ) :
    ∃ o', iGibson o (some h) = some (h, o') ∧ o'.expires "max_step" h = true := by
  refine ⟨_, rfl, ?_⟩
  rw [Obj.expires, set_bare o hbare]
  simp

/-! ### C107: shapes -/

/-- C107: the vector observations of DMControl consist of all the entries of all the arrays, in order, and have the declared length. -/
theorem C107_vector (obs : List (String × Arr)) :
    dmVector obs = (obs.map (fun p => p.2.entries)).flatten ∧
    (dmVector obs).length = dmVectorShape (obs.map (fun p => (p.1, p.2.shape))) := by
  have h1 : ∀ (obs : List (String × Arr)) (acc : List (List ℝ)),
      obs.foldl (fun acc p => acc ++ [p.2.entries]) acc = acc ++ obs.map (fun p => p.2.entries) := by
    intro obs
    induction obs with
    | nil => intro acc; simp
    | cons p l ih => intro acc; rw [List.foldl_cons, ih]; simp
  have h2 : ∀ (dims : List ℕ) (v : ℕ), dims.foldl (fun var dim => var * dim) v = v * dims.prod := by
    intro dims
    induction dims with
    | nil => intro v; simp
    | cons d l ih => intro v; rw [List.foldl_cons, ih, List.prod_cons, Nat.mul_assoc]
  have h3 : ∀ (obs : List (String × Arr)) (n : ℕ),
      (obs.map (fun p => (p.1, p.2.shape))).foldl (fun total p => total + p.2.foldl (fun var dim => var * dim) 1) n
        = n + ((obs.map (fun p => p.2.entries)).flatten).length := by
    intro obs
    induction obs with
    | nil => intro n; simp
    | cons p l ih =>
      intro n
      rw [List.map_cons, List.foldl_cons, ih, h2, List.map_cons, List.flatten_cons, List.length_append, p.2.ok, Nat.one_mul, Nat.add_assoc]
  refine ⟨by rw [dmVector, h1, List.nil_append], ?_⟩
  rw [dmVector, h1, List.nil_append, dmVectorShape, h3, Nat.zero_add]

example : dmVectorShape [("position", [2, 3]), ("height", []), ("velocity", [4])] = 11 := rfl

/-- C107: the images of DMControl have the declared shape, and channel, row and column are those of the original. -/
theorem C107_pixels (i : Img) (h3 : i.shape.2.2 = 3) :
    (transpose201 i).shape = dmPixelsShape i.shape ∧ ∀ c y x, (transpose201 i).at_ c y x = i.at_ y x c := by
  refine ⟨?_, fun _ _ _ => rfl⟩
  simp [transpose201, dmPixelsShape, h3]

example : (transpose201 ⟨(64, 48, 3), fun _ _ _ => 0⟩).shape = (3, 64, 48) := rfl

/-- C107, only for square images (see `C107_simulators_refuted`): the images of iGibson and Habitat have the declared shape. -/
theorem C107_simulators_partial (i : Img) (h3 : i.shape.2.2 = 3) (hsq : i.shape.1 = i.shape.2.1) :
    (transpose201 i).shape = simulatorShape i.shape := by
  simp [transpose201, simulatorShape, h3, hsq]

example : (transpose201 ⟨(64, 64, 3), fun _ _ _ => 0⟩).shape = simulatorShape (64, 64, 3) := rfl

/-- C107 is false of all other images of iGibson and Habitat. -/
theorem C107_simulators_refuted (i : Img) (hsq : i.shape.1 ≠ i.shape.2.1) : (transpose201 i).shape ≠ simulatorShape i.shape := by
  intro h
  simp only [transpose201, simulatorShape, Prod.mk.injEq] at h
  exact hsq h.2.1

/-- The frames and rewards of a world for some actions. -/
def MiniWorld.run {W F Seed : Type} (m : MiniWorld W F Seed) (w : W) : List ℕ → List (F × ℝ × Bool)
  | [] => []
  | a :: l => (m.step w a).2 :: m.run (m.step w a).1 l

/-- The observations, rewards and flags of the environment for some actions. -/
noncomputable def MiniWorld.runs {W F P Seed : Type} (m : MiniWorld W F Seed) (prep : F → P) (history : ℕ) (s : W × List P) : List ℕ →
    List (List P × ℝ × Bool)
  | [] => []
  | a :: l => ((m.move prep history s a).1.2, (m.move prep history s a).2) :: m.runs prep history (m.move prep history s a).1 l

/-- C107: in an episode of MiniGrid the observation after every step consists of the last `history_length` frames (the first one counted as
often as necessary), the reward is one if that of the world is positive and the same otherwise, and the flag is that of the world. -/
theorem C107_minigrid {W F P Seed : Type} (m : MiniWorld W F Seed) (prep : F → P) (history : ℕ) (hh : 0 < history)
    (fixedSeed : Option Seed) (w : W) (actions : List ℕ) :
    let start := m.restart prep history fixedSeed none w
    let real := m.run (m.reset none w).1 actions
    start.2 = List.replicate history (prep (m.reset none w).2) ∧
    (m.runs prep history start actions).length = actions.length ∧
    ∀ (k : ℕ) (o : List P) (r : ℝ) (d : Bool), (m.runs prep history start actions)[k]? = some (o, r, d) →
      o = lastN history (List.replicate history (prep (m.reset none w).2) ++ (real.take (k + 1)).map (fun x => prep x.1)) ∧
      o.length = history ∧
      ∃ f q, real[k]? = some (f, q, d) ∧ (0 < q → r = 1) ∧ (q ≤ 0 → r = q) := by
  intro start real
  have hlen : ∀ (actions : List ℕ) (s : W × List P), (m.runs prep history s actions).length = actions.length := by
    intro actions
    induction actions with
    | nil => intro s; rfl
    | cons a l ih => intro s; simp [MiniWorld.runs, ih]
  refine ⟨rfl, hlen _ _, ?_⟩
  have key : ∀ (actions : List ℕ) (w : W) (l acc : List P), l = lastN history acc → history ≤ acc.length →
      ∀ (k : ℕ) (o : List P) (r : ℝ) (d : Bool), (m.runs prep history (w, l) actions)[k]? = some (o, r, d) →
      o = lastN history (acc ++ ((m.run w actions).take (k + 1)).map (fun x => prep x.1)) ∧ o.length = history ∧
      ∃ f q, (m.run w actions)[k]? = some (f, q, d) ∧ (0 < q → r = 1) ∧ (q ≤ 0 → r = q) := by
    intro actions
    induction actions with
    | nil => intro w l acc _ _ k o r d hk; simp [MiniWorld.runs] at hk
    | cons a rest ih =>
      intro w l acc hl ha k o r d hk
      have hp := push_lastN history l acc (prep (m.step w a).2.1) hl
      cases k with
      | zero =>
        simp only [MiniWorld.runs, MiniWorld.move, List.getElem?_cons_zero, Option.some.injEq, Prod.mk.injEq] at hk
        obtain ⟨h1, h2, h3⟩ := hk
        refine ⟨?_, ?_, (m.step w a).2.1, (m.step w a).2.2.1, ?_, ?_, ?_⟩
        · rw [← h1, hp]; simp [MiniWorld.run]
        · rw [← h1, hp]; apply lastN_length; simp only [List.length_append]; omega
        · rw [← h3]; rfl
        · intro h; rw [← h2, if_pos h]
        · intro h; rw [← h2, if_neg (not_lt.2 h)]
      | succ k =>
        have hk' : (m.runs prep history ((m.step w a).1, push history l (prep (m.step w a).2.1)) rest)[k]? = some (o, r, d) := hk
        have := ih _ _ _ hp (by simp only [List.length_append]; omega) k o r d hk'
        refine ⟨?_, this.2.1, this.2.2⟩
        rw [this.1]
        simp [MiniWorld.run]
  exact key actions _ _ _ (by simp [lastN]) (by simp)

/-- A world with a counter that pays from the second step on. -/
noncomputable def miniCounter : MiniWorld ℕ ℕ ℕ := ⟨fun s w => (s.getD w, s.getD w), fun w a => (w + a, w + a, if w + a > 3 then 1 / 2 else 0, false)⟩

example : (miniCounter.runs id 2 (miniCounter.restart id 2 (some 5) none 0) [1, 4]).map Prod.fst = [[0, 1], [1, 5]] := rfl

/-- C107: these observations have the shape that is declared. -/
theorem C107_minigrid_shape (history : ℕ) (hh : 0 < history) (obs : ℕ × ℕ) (frames : List (ℕ × ℕ)) (hl : frames.length = history)
    (hf : ∀ f ∈ frames, f = preprocessShape obs) : lazyShape history frames = some (miniGridShape history obs) := by
  cases frames with
  | nil => simp only [List.length_nil] at hl; omega
  | cons f rest =>
    have := hf f (by simp)
    simp [lazyShape, miniGridShape, hl, this, preprocessShape]
    simpa using hl

example : lazyShape 2 [preprocessShape (56, 48), preprocessShape (56, 48)] = some [2, 48, 56] := rfl

/-- C107 is false of `fixed_seed`: it says that with it the environment is the same at every reset, but the first frame depends on the
state of the world in which the reset happens. -/
theorem C107_fixed_seed_refuted : ∃ w1 w2 : ℕ,
    (miniCounter.restart id 2 (some 5) none w1).2 ≠ (miniCounter.restart id 2 (some 5) none w2).2
    ∧ (miniCounter.reset (some 5) w1).2 = (miniCounter.reset (some 5) w2).2 := by
  refine ⟨0, 1, ?_, rfl⟩
  decide

end Verif.Wrap
