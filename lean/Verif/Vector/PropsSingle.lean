/-
Properties of the interface of a single environment and of initial states in vectorised environments (C108).
-/
import Verif.Vector.ModelSingle
import Mathlib.Data.List.Range
import Mathlib.Tactic.NormNum

namespace Verif.Vector.Single

variable {E X : Type}

/-- The environment that an identifier selects. -/
def Selects (n : ℕ) (id : ℤ) (k : ℕ) : Prop := k < n ∧ ((k : ℤ) = id ∨ (k : ℤ) = n + id ∧ id < 0)

theorem filter_one (n k : ℕ) (hk : k < n) (m : ℕ → Bool) (hm : ∀ j, j < n → (m j = true ↔ j = k)) : (List.range n).filter m = [k] := by
  induction n with
  | zero => omega
  | succ n ih =>
    rw [List.range_succ, List.filter_append]
    by_cases h : k = n
    · subst h
      have h1 : (List.range k).filter m = [] := by
        rw [List.filter_eq_nil_iff]
        intro a ha
        rw [List.mem_range] at ha
        rw [hm a (by omega)]
        omega
      rw [h1]
      simp [(hm k (by omega)).2 rfl]
    · rw [ih (by omega) (fun j hj => hm j (by omega))]
      have : m n = false := by
        rw [← Bool.not_eq_true, hm n (by omega)]
        omega
      simp [this]

theorem mask_of (n : ℕ) (id : ℤ) (k : ℕ) (h : Selects n id k) :
    ∃ m, defaultMask n id = some m ∧ (List.range n).filter m = [k] := by
  obtain ⟨hk, h1 | ⟨h1, h2⟩⟩ := h
  · have hc : 0 ≤ id ∧ id < n := by omega
    refine ⟨_, if_pos hc, filter_one n k hk _ ?_⟩
    intro j _
    rw [decide_eq_true_iff]
    omega
  · have hc : ¬ (0 ≤ id ∧ id < n) := by omega
    have hd : -(n : ℤ) ≤ id ∧ id < 0 := by omega
    refine ⟨_, by rw [defaultMask, if_neg hc, if_pos hd], filter_one n k hk _ ?_⟩
    intro j _
    rw [decide_eq_true_iff]
    omega

/-- C108, only for matrices of actions with one row per environment (see `C108_action_refuted`): a step of a vectorised environment is a step of
the selected environment with its own row, and of no other; it is reported in the row of this environment. -/
theorem C108_step_partial (env : Env E X) (n : ℕ) (id : ℤ) (k : ℕ) (hs : Selects n id k) (rows : List (List ℝ)) (a : List ℝ)
    (ha : rows[k]? = some a) (s : Multi E X) (e : E) (x : X) (r : ℝ) (b : Bool) (he : env.step (s.envs k) (.vec a) = some (e, x, r, b)) :
    ∃ s' res, step env n id (.mat rows) s = some (s', res)
      ∧ s'.envs k = e ∧ (∀ j, j ≠ k → s'.envs j = s.envs j)
      ∧ s'.states = res.states ∧ res.states k = x ∧ (∀ j, j ≠ k → res.states j = s.states j)
      ∧ res.rewards k = some r ∧ res.absorbing k = b ∧ (∀ j, j ≠ k → res.absorbing j = false) := by
  obtain ⟨m, h1, h2⟩ := mask_of n id k hs
  refine ⟨⟨upd s.envs k e, upd s.states k x⟩,
    ⟨upd s.states k x, upd (fun _ => none) k (some r), upd (fun _ => false) k b⟩, ?_, ?_, ?_, rfl, ?_, ?_, ?_, ?_, ?_⟩
  · simp only [step, h1, Option.bind_some, stepAll, h2, List.foldlM_cons, List.foldlM_nil]
    simp [stepOne, Val.row, ha, he]
  · simp [upd]
  · intro j hj; simp [upd, hj]
  · simp [upd]
  · intro j hj; simp [upd, hj]
  · simp [upd]
  · simp [upd]
  · intro j hj; simp [upd, hj]

/-- An environment whose state is the sum of the first actions. -/
noncomputable def adder : Env ℝ ℝ where
  step := fun e v => match v with
    | .vec (a :: _) => some (e + a, e + a, a, false)
    | _ => none
  reset := fun _ v => match v with
    | none => some (0, 0)
    | some (.vec (x :: _)) => some (x, x)
    | _ => none

example : Selects 3 1 1 ∧ Selects 3 (-1) 2 := by constructor <;> constructor <;> simp

example : ∃ r, adder.step 0 (.vec [2]) = some r := ⟨_, rfl⟩

/-- C108: a reset without a state is a reset of the selected environment and of no other. -/
theorem C108_reset_partial (env : Env E X) (n : ℕ) (id : ℤ) (k : ℕ) (hs : Selects n id k) (s : Multi E X) (e : E) (x : X)
    (he : env.reset (s.envs k) none = some (e, x)) :
    ∃ s', reset env n id none s = some s' ∧ s'.envs k = e ∧ (∀ j, j ≠ k → s'.envs j = s.envs j)
      ∧ s'.states k = x ∧ (∀ j, j ≠ k → s'.states j = s.states j) := by
  obtain ⟨m, h1, h2⟩ := mask_of n id k hs
  refine ⟨⟨upd s.envs k e, upd s.states k x⟩, ?_, ?_, ?_, ?_, ?_⟩
  · simp only [reset, h1, Option.bind_some, resetAll, h2, List.foldlM_cons, List.foldlM_nil]
    simp [resetOne, he]
  · simp [upd]
  · intro j hj; simp [upd, hj]
  · simp [upd]
  · intro j hj; simp [upd, hj]

example : adder.reset 5 none = some (0, 0) := rfl

/-- C108: `set_default_env` accepts exactly the identifiers below the number of environments; it accepts all negative ones, of which only those
down to minus the number of environments can be used. -/
theorem C108_default (n : ℕ) (id : ℤ) :
    (setDefault n id = some id ↔ id < n) ∧ (setDefault n id = none ↔ (n : ℤ) ≤ id) ∧
    (∀ j, setDefault n id = some j → j = id) ∧ ((∃ k, Selects n id k) ↔ -(n : ℤ) ≤ id ∧ id < n) ∧
    ((defaultMask n id).isSome ↔ -(n : ℤ) ≤ id ∧ id < n) := by
  refine ⟨?_, ?_, ?_, ?_, ?_⟩
  · unfold setDefault; split_ifs with h <;> simp [h]
  · unfold setDefault; split_ifs with h <;> simp <;> omega
  · unfold setDefault; intro j; split_ifs with h <;> simp; intro hh; exact hh.symm
  · constructor
    · rintro ⟨k, hk, h⟩; omega
    · intro h
      by_cases h0 : 0 ≤ id
      · exact ⟨id.toNat, by omega, by omega⟩
      · exact ⟨(n + id).toNat, by omega, by omega⟩
  · unfold defaultMask
    split_ifs with h1 h2 <;> simp <;> omega

/-- C108 is false of an action for the selected environment, as any other environment takes it: every such call fails. -/
theorem C108_action_refuted (env : Env E X) (n : ℕ) (id : ℤ) (a : List ℝ) (s : Multi E X) : step env n id (.vec a) s = none := by
  cases hm : defaultMask n id with
  | none => simp [step, hm]
  | some m =>
    have : ∃ k, Selects n id k := ((C108_default n id).2.2.2.1).2 (((C108_default n id).2.2.2.2).1 (by rw [hm]; rfl))
    obtain ⟨k, hk⟩ := this
    obtain ⟨m', h1, h2⟩ := mask_of n id k hk
    rw [step, h1, Option.bind_some, stepAll, h2, List.foldlM_cons]
    simp [stepOne, Val.row]

/-- C108 is false of initial states: no environment is ever reset to its row of the given states, since the workers take the first number
of the row. -/
theorem C108_initial_states_refuted (env : Env E X) (rows : List (List ℝ)) (i : ℕ) (x : ℝ) (row : List ℝ) (hr : rows[i]? = some (x :: row))
    (s : Multi E X) :
    resetOne env (some (.mat rows)) s i = (env.reset (s.envs i) (some (.scalar x))).map (fun r => ⟨upd s.envs i r.1, upd s.states i r.2⟩) := by
  simp [resetOne, Val.row, Val.item, hr]

/-- So an environment that accepts vectors only cannot be reset to a state. -/
example (s : Multi ℝ ℝ) : resetAll adder 2 (fun _ => true) (some (.mat [[1, 2], [3, 4]])) s = none := by
  have : (List.range 2).filter (fun _ => true) = [0, 1] := rfl
  rw [resetAll, this, List.foldlM_cons, C108_initial_states_refuted adder _ 0 1 [2] rfl]
  rfl

theorem foldlM_none {α β : Type} (f : α → β → Option α) (a : α) (b : β) (l : List β) (h : f a b = none) : (b :: l).foldlM f a = none := by
  rw [List.foldlM_cons, h]; rfl

/-- C108 is false of the evaluation of `VectorCore` from initial states, given one per row: every reset of an environment fails. -/
theorem C108_evaluate_refuted (env : Env E X) (n : ℕ) (mask : ℕ → Bool) (k : ℕ) (hk : k < n) (hm : mask k = true) (rows : List (List ℝ))
    (episodes : ℕ) (he : episodes < rows.length) (s : Multi E X) :
    coreReset env n mask (some (.mat rows)) episodes rows.length s = none := by
  have h1 : initialState (some (.mat rows)) episodes rows.length = some (some (.vec rows[episodes])) := by
    simp [initialState, Nat.not_le.2 he, Val.item, he]
  have h2 : k ∈ (List.range n).filter mask := List.mem_filter.2 ⟨List.mem_range.2 hk, hm⟩
  rw [coreReset, h1, Option.bind_some, resetAll]
  cases hl : (List.range n).filter mask with
  | nil => rw [hl] at h2; simp at h2
  | cons i l =>
    apply foldlM_none
    simp [resetOne, Val.row]

example : coreReset adder 2 (fun _ => true) (some (.mat [[1, 2]])) 0 1 ⟨fun _ => 0, fun _ => 0⟩ = none :=
  C108_evaluate_refuted adder 2 _ 0 (by norm_num) rfl [[1, 2]] 0 (by simp) _

end Verif.Vector.Single
