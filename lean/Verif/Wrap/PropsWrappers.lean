/-
Property C131: wrappers, pictures and actions of wrapped environments.
-/
import Verif.Wrap.ModelWrappers
import Mathlib.Tactic

namespace Verif.Wrap.Stack

/-! ### Specification -/

/-- The environment with the given wrappers around it, the first one innermost, each one with its own arguments. -/
def wrapped {E V : Type} (env : E) : List (Wrapper E V × Kw V) → Option E
  | [] => some env
  | (w, kw) :: rest => (w env kw).bind fun e => wrapped e rest

/-- The class of an element of `wrappers` and the arguments meant for it: those of `wrappers_args` and those of the tuple. -/
def meant {E V : Type} : Item E V × Kw V → Wrapper E V × Kw V
  | (.plain w, args) => (w, args)
  | (.tuple w kw, args) => (w, args ++ kw)

/-- No argument is given twice. -/
def NoClash {E V : Type} : Item E V × Kw V → Prop
  | (.plain _, _) => True
  | (.tuple _ kw, args) => ∀ p ∈ args, ∀ q ∈ kw, p.1 ≠ q.1

/-- A tuple. -/
def Item.isTuple {E V : Type} : Item E V → Bool
  | .plain _ => false
  | .tuple _ _ => true

/-! ### Wrappers -/

theorem merge_ok {V : Type} (a b : Kw V) (h : ∀ p ∈ a, ∀ q ∈ b, p.1 ≠ q.1) : merge a b = some (a ++ b) := by
  rw [merge, if_neg]
  simp only [List.any_eq_true, not_exists, beq_iff_eq, not_and]
  intro p hp q hq
  exact h p hp q hq

theorem merge_nil {V : Type} (a : Kw V) : merge a [] = some a := by
  have := merge_ok a [] (by simp)
  simpa using this

theorem fold_wrapped {E V : Type} (envArgs : Kw V) (l : List (Item E V × Kw V)) (hc : ∀ p ∈ l, NoClash p)
    (hp : envArgs = [] ∨ ∀ p ∈ l, p.1.isTuple = true) : ∀ env : E, l.foldlM (wrapOne envArgs) env = wrapped env (l.map meant) := by
  induction l with
  | nil => intro env; rfl
  | cons p l ih =>
    intro env
    have ih' := ih (fun q hq => hc q (by simp [hq])) (hp.imp id fun h q hq => h q (by simp [hq]))
    have hone : wrapOne envArgs env p = (meant p).1 env (meant p).2 := by
      obtain ⟨w, args⟩ := p
      cases w with
      | plain w =>
        rcases hp with h | h
        · simp only [wrapOne, h, merge_nil, meant, Option.bind_some]
        · exact absurd (h (.plain w, args) (by simp)) (by simp [Item.isTuple])
      | tuple w kw =>
        have := hc (.tuple w kw, args) (by simp)
        simp only [wrapOne, merge_ok args kw this, meant, Option.bind_some]
    rw [List.foldlM_cons, hone]
    simp only [List.map_cons, wrapped]
    cases h : (meant p).1 env (meant p).2 with
    | none => rfl
    | some e => exact ih' e

/-- C131. If all wrappers are tuples or the environment has no arguments, and `wrappers_args` has an element for every wrapper or is not given, the
environment gets all the wrappers in the order of the list, the first one innermost, each one with its own arguments and no others. Without wrappers it is the
plain environment. Missing: the other
cases, see the refutations. -/
theorem C131_wrappers_partial {E V : Type} (make : Kw V → Option E) (envArgs : Kw V) (ws : List (Item E V)) (args : Option (List (Kw V)))
    (hlen : ∀ a, args = some a → a.length = ws.length) (hp : envArgs = [] ∨ ∀ w ∈ ws, w.isTuple = true)
    (hc : ∀ p ∈ ws.zip (args.getD (List.replicate ws.length [])), NoClash p) :
    build make envArgs (some ws) args = (make envArgs).bind (fun env => wrapped env ((ws.zip (args.getD (List.replicate ws.length []))).map meant)) ∧
    (ws.zip (args.getD (List.replicate ws.length []))).map Prod.fst = ws ∧ build make envArgs none args = make envArgs := by
  have hl : (args.getD (List.replicate ws.length [])).length = ws.length := by
    cases args with
    | none => simp
    | some a => exact hlen a rfl
  refine ⟨?_, List.map_fst_zip hl.ge, by simp [build]⟩
  rw [build]
  congr 1
  funext env
  exact fold_wrapped envArgs _ hc (hp.imp id fun h p hp' => h p.1 (List.of_mem_zip hp').1) env

/-- Environments that are lists of names of wrappers, and a wrapper that takes only the argument `k`. -/
def named (name : String) : Wrapper (List String) ℕ := fun e kw => if kw.all (fun p => p.1 == "k") then some (name :: e) else none

/-- Two wrappers that meet the hypotheses. -/
example : build (fun _ => some []) [] (some [.plain (named "a"), .tuple (named "b") [("k", 1)]]) none = some ["b", "a"] ∧
    ∀ p ∈ [Item.plain (named "a"), .tuple (named "b") [("k", 1)]].zip (List.replicate 2 ([] : Kw ℕ)), NoClash p := by
  constructor
  · rfl
  · intro p hp
    simp [List.replicate] at hp
    rcases hp with rfl | rfl <;> simp [NoClash]

/-- C131, refuted: wrappers that are not tuples get the arguments of the environment too. A wrapper that does not know one of them makes the constructor fail,
although the environment and the wrapper accept the arguments meant for them. -/
theorem C131_wrappers_refuted {E V : Type} (make : Kw V → Option E) (envArgs : Kw V) (w : Wrapper E V) (env : E) (hm : make envArgs = some env)
    (hw : ∀ kw, (∃ p ∈ envArgs, p ∈ kw) → w env kw = none) (hne : envArgs ≠ []) : build make envArgs (some [.plain w]) none = none := by
  have h : merge [] envArgs = some envArgs := merge_ok [] envArgs (by simp)
  obtain ⟨p, hp⟩ := List.exists_mem_of_ne_nil _ hne
  simp [build, hm, wrapOne, h, hw envArgs ⟨p, hp, hp⟩]

/-- A wrapper that takes no arguments of the environment but works without arguments. -/
example : (∀ kw : Kw ℕ, (∃ p ∈ [("size", 3)], p ∈ kw) → named "a" [] kw = none) ∧ named "a" [] [] = some ["a"] := by
  constructor
  · rintro kw ⟨p, hp, hk⟩
    simp only [List.mem_singleton] at hp
    subst hp
    rw [named, if_neg]
    intro h
    have := List.all_eq_true.1 h _ hk
    simp at this
  · rfl

/-- C131, refuted: with fewer dictionaries than wrappers, the last wrappers are left out, without an error. -/
theorem C131_short_args_refuted {E V : Type} (make : Kw V → Option E) (envArgs : Kw V) (ws vs : List (Item E V)) (args : List (Kw V))
    (h : args.length = ws.length) : build make envArgs (some (ws ++ vs)) (some args) = build make envArgs (some ws) (some args) := by
  simp only [build, Option.getD_some]
  congr 1
  funext env
  rw [show (ws ++ vs).zip args = ws.zip args by
    have := List.zip_append (l₁ := ws) (r₁ := vs) (l₂ := args) (r₂ := []) h.symm
    simpa using this]

example : build (fun _ => some []) [] (some ([.plain (named "a")] ++ [.plain (named "b")])) (some [[]]) = some ["a"] := rfl

/-! ### Rendering -/

/-- What the environment shows after a history. -/
def now {I : Type} (start : I) : List (View I) → I
  | [] => start
  | .reset o :: l => now o l
  | .step o :: l => now o l

theorem call_current {I : Type} (l : List (View I)) : ∀ s : Shown I, (l.foldl Shown.call s).current = now s.current l := by
  induction l with
  | nil => intro s; rfl
  | cons v l ih => intro s; cases v <;> (rw [List.foldl_cons, ih]; rfl)

/-- C131. After a step, rendering an iGibson or Habitat environment shows the present observation, whatever happened before. -/
theorem C131_render_partial {I : Type} (s : Shown I) (l : List (View I)) (obs : I) :
    ((l ++ [View.step obs]).foldl Shown.call s).render = some obs ∧ now s.current (l ++ [View.step obs]) = obs := by
  constructor
  · rw [List.foldl_append]; rfl
  · rw [← call_current, List.foldl_append]; rfl

example : ([View.reset 1, .step 2, .reset 3] ++ [View.step 4]).foldl Shown.call ⟨0, none⟩ = ⟨4, some 4⟩ := rfl

/-- C131, refuted after a reset: the picture is the one of the last step of the previous episode, and before the first step rendering fails. -/
theorem C131_render_refuted {I : Type} (start old new : I) (l : List (View I)) :
    ((l ++ [View.step old, View.reset new]).foldl Shown.call ⟨start, none⟩).render = some old ∧
    ([View.reset new].foldl Shown.call ⟨start, none⟩).render = none := by
  constructor
  · rw [List.foldl_append]; rfl
  · rfl

/-- C131. Interfaces of gym and gymnasium show every frame and return it if it is to be recorded, unless the environment is one of pybullet. -/
theorem C131_gym_render_partial (g : GymView) (records : List Bool) (h : g.notPybullet = true) (record : Bool) :
    ((records.foldl (fun g r => (g.render r).1) g).render record).2 = (true, record) := by
  have key : ∀ (l : List Bool) (g : GymView), g.notPybullet = true → (l.foldl (fun g r => (g.render r).1) g).notPybullet = true := by
    intro l
    induction l with
    | nil => intro g h; exact h
    | cons r l ih =>
      intro g h
      rw [List.foldl_cons]
      refine ih _ ?_
      simp [GymView.render, h]
  have := key records g h
  generalize records.foldl (fun g r => (GymView.render g r).1) g = g' at this ⊢
  simp [GymView.render, this]

example : ((⟨true, true⟩ : GymView).render true).2 = (true, true) := rfl

/-- C131, refuted for environments of pybullet: after the first frame no frame is shown and nothing is returned for recording. -/
theorem C131_gym_render_refuted (g : GymView) (records : List Bool) (h : g.notPybullet = false) (hne : records ≠ []) :
    ((records.foldl (fun g r => (g.render r).1) g).render true).2 = (false, false) := by
  have stay : ∀ l : List Bool, l.foldl (fun g r => (GymView.render g r).1) ⟨false, false⟩ = (⟨false, false⟩ : GymView) := by
    intro l
    induction l with
    | nil => rfl
    | cons r l ih => rw [List.foldl_cons]; exact ih
  obtain ⟨r, l, rfl⟩ := List.exists_cons_of_ne_nil hne
  rw [List.foldl_cons]
  have h1 : (g.render r).1 = ⟨false, false⟩ := by
    obtain ⟨n, f⟩ := g
    simp only at h
    subst h
    cases f <;> rfl
  rw [h1, stay]
  rfl

example : ([true] : List Bool) ≠ [] := by simp

/-! ### Habitat -/

/-- C131. The first entries of an action of the rearrange task move the arm and the last `grip` entries move the gripper, if there is a gripper. -/
theorem C131_rearrange_partial {α : Type} (arm grip : List α) (h : grip ≠ []) : rearrange (arm ++ grip) grip.length = (arm, grip) := by
  have hl : 0 < grip.length := List.length_pos_iff.2 h
  have hb : bound (arm ++ grip).length (-grip.length) = arm.length := by
    rw [bound, if_pos (by omega), List.length_append]
    push_cast
    omega
  rw [rearrange, hb]
  simp

example : rearrange [1, 2, 3, 4] 1 = ([1, 2, 3], [4]) := by decide

/-- C131, refuted without a gripper: the arm gets nothing and all entries go to the gripper. -/
theorem C131_rearrange_refuted {α : Type} (arm : List α) : rearrange arm 0 = ([], arm) := by
  simp [rearrange, bound]

/-- The rewards up to the first step that ends the episode. -/
def untilDone : List (ℚ × Bool) → List ℚ
  | [] => []
  | (r, done) :: l => if done then [r] else r :: untilDone l

/-- C131. `get_optimal_policy_return` is the sum of the rewards of the path up to the end of the episode; without a path it fails. -/
theorem C131_path_return (l : List (ℚ × Bool)) : pathReturn (some l) = some (untilDone l).sum ∧ pathReturn none = none := by
  refine ⟨?_, rfl⟩
  have stop : ∀ (l : List (ℚ × Bool)) (a : ℚ), l.foldl (fun (acc : ℚ × Bool) x => if acc.2 then acc else (acc.1 + x.1, x.2)) (a, true) = (a, true) := by
    intro l
    induction l with
    | nil => intro a; rfl
    | cons x l ih => intro a; rw [List.foldl_cons]; exact ih a
  have key : ∀ (l : List (ℚ × Bool)) (a : ℚ),
      (l.foldl (fun (acc : ℚ × Bool) x => if acc.2 then acc else (acc.1 + x.1, x.2)) (a, false)).1 = a + (untilDone l).sum := by
    intro l
    induction l with
    | nil => intro a; simp [untilDone]
    | cons x l ih =>
      intro a
      obtain ⟨r, d⟩ := x
      rw [List.foldl_cons]
      cases d with
      | true => simp [stop, untilDone]
      | false => simp only [Bool.false_eq_true, if_false, ih, untilDone, List.sum_cons]; ring
  rw [pathReturn, key]
  simp

end Verif.Wrap.Stack
