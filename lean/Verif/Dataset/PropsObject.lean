/-
Properties of whole `Dataset` objects (C133).
-/
import Verif.Dataset.ModelObject
import Mathlib.Data.List.Induction

namespace Verif.Dataset.Object

variable {X A R P T : Type}

/-! ### Specification: histories of calls -/

/-- A call on a dataset: `append` of a step (with policy states for a stateful agent), `append_theta`, `clear`. -/
inductive Call (X A R P T : Type) where
  | append (s : Step X A R) (p : Option (P × P))
  | theta (t : T)
  | clear
deriving DecidableEq

/-- The calls after the last `clear`. -/
def sinceClear (calls : List (Call X A R P T)) : List (Call X A R P T) :=
  calls.foldl (fun acc c => match c with
    | .clear => []
    | c => acc ++ [c]) []

/-- The steps, policy states and parameters given by a list of calls, in order. -/
def stepsOf (calls : List (Call X A R P T)) : List (Step X A R) :=
  calls.filterMap (fun c => match c with | .append s _ => some s | _ => none)

def policiesOf (calls : List (Call X A R P T)) : List (P × P) :=
  calls.filterMap (fun c => match c with | .append _ p => p | _ => none)

def thetasOf (calls : List (Call X A R P T)) : List T :=
  calls.filterMap (fun c => match c with | .theta t => some t | _ => none)

/-- Policy states are given with every step of a stateful agent and with no step of a stateless one. -/
def Consistent (stateful : Bool) (calls : List (Call X A R P T)) : Prop :=
  ∀ s p, Call.append s p ∈ calls → p.isSome = stateful

/-- There are never more than `cap` steps between two `clear`s. -/
def Room (cap : Nat) (calls : List (Call X A R P T)) : Prop :=
  ∀ k, (stepsOf (sinceClear (calls.take k))).length ≤ cap

/-- One call, and a list of calls, executed on the model. -/
def Obj.call (d : Obj X A R P T) : Call X A R P T → Except Err (Obj X A R P T)
  | .append s p => d.append s p
  | .theta t => d.appendTheta t
  | .clear => .ok d.clear

def Obj.run (d : Obj X A R P T) (calls : List (Call X A R P T)) : Except Err (Obj X A R P T) :=
  calls.foldlM (fun d c => d.call c) d

theorem sinceClear_snoc (calls : List (Call X A R P T)) (c : Call X A R P T) :
    sinceClear (calls ++ [c]) = match c with
      | .clear => []
      | c => sinceClear calls ++ [c] := by
  simp [sinceClear]

theorem run_snoc (d : Obj X A R P T) (calls : List (Call X A R P T)) (c : Call X A R P T) :
    d.run (calls ++ [c]) = match d.run calls with
      | .error e => .error e
      | .ok d' => d'.call c := by
  simp only [Obj.run, List.foldlM_append]
  cases List.foldlM (fun d c => Obj.call d c) d calls with
  | error e => rfl
  | ok d' =>
    simp only [bind, Except.bind, List.foldlM_cons, List.foldlM_nil]
    cases d'.call c <;> rfl

/-- C133, histories. After any sequence of `append`, `append_theta` and `clear` on a new dataset of any back-end, the
dataset holds exactly the steps and the parameters given since the last `clear`, in order; it is stateful exactly if
the agent is; and with numpy and torch storage its policy states are those given with these steps. -/
theorem C133_history (kind : Kind) (cap : Nat) (stateful : Bool) (calls : List (Call X A R P T))
    (hc : Consistent stateful calls) (hr : Room cap calls) :
    ∃ d, (Obj.new kind cap stateful : Obj X A R P T).run calls = .ok d ∧
      d.rows = stepsOf (sinceClear calls) ∧ d.thetas = some (thetasOf (sinceClear calls)) ∧
      d.isStateful = stateful ∧ d.shaped = stateful ∧
      (kind ≠ .list → stateful = true → d.policyStates = .ok (policiesOf (sinceClear calls))) := by
  suffices h : ∃ d, (Obj.new kind cap stateful : Obj X A R P T).run calls = .ok d ∧
      d.rows = stepsOf (sinceClear calls) ∧ d.thetas = some (thetasOf (sinceClear calls)) ∧ d.kind = kind ∧
      d.cap = cap ∧ d.flag = stateful ∧ d.shaped = stateful ∧ (kind = .list → d.policy ≠ none) ∧
      (kind ≠ .list → d.policy = if stateful then some (policiesOf (sinceClear calls)) else none) by
    obtain ⟨d, h1, h2, h3, h4, h5, h6, h7, h8, h9⟩ := h
    refine ⟨d, h1, h2, h3, ?_, h7, ?_⟩
    · cases kind <;> simp only [Obj.isStateful, h4, h6] <;> (rw [h9 (by simp)]; cases stateful <;> simp)
    · intro hk hs
      cases kind <;> simp only [Obj.policyStates, h4] <;> first
        | exact absurd rfl hk
        | (rw [h9 (by simp), hs]; rfl)
  induction calls using List.reverseRecOn with
  | nil =>
    refine ⟨_, rfl, rfl, rfl, rfl, rfl, rfl, rfl, ?_, ?_⟩
    · intro h; simp [Obj.new, h]
    · intro h; simp only [Obj.new, h, false_or]; rfl
  | append_singleton calls c ih =>
    obtain ⟨d, h1, h2, h3, h4, h5, h6, h7, h8, h9⟩ := ih (fun s p h => hc s p (by simp [h])) (by
      intro k
      by_cases hk : k ≤ calls.length
      · have := hr k
        rwa [List.take_append_of_le_length hk] at this
      · have := hr calls.length
        rw [List.take_append_of_le_length le_rfl] at this
        rwa [List.take_of_length_le (by omega)] at this ⊢)
    rw [run_snoc, h1]
    rw [sinceClear_snoc]
    cases c with
    | clear =>
      refine ⟨_, rfl, ?_⟩
      cases kind <;> simp [Obj.clear, h4, h5, h6, h7, stepsOf, thetasOf, policiesOf] <;>
        first
          | exact h8 rfl
          | (rw [h9 (by simp)]; cases stateful <;> simp)
    | theta t =>
      refine ⟨{ d with thetas := some (thetasOf (sinceClear calls) ++ [t]) }, ?_, ?_⟩
      · simp only [Obj.call, Obj.appendTheta, h3]
      · refine ⟨?_, ?_, h4, h5, h6, h7, h8, ?_⟩
        · simp [h2, stepsOf]
        · simp [thetasOf]
        · intro hk; simp only [h9 hk, policiesOf]; simp
    | append s p =>
      have hp := hc s p (by simp)
      have hroom : d.rows.length < d.cap := by
        have := hr (calls.length + 1)
        rw [List.take_of_length_le (by simp), sinceClear_snoc] at this
        simp only [stepsOf, List.filterMap_append, List.length_append] at this
        rw [h2, h5, stepsOf]
        simp at this
        omega
      by_cases hk : kind = .list
      · obtain ⟨l, hl⟩ := Option.ne_none_iff_exists'.mp (h8 hk)
        cases stateful with
        | false =>
          refine ⟨{ d with rows := d.rows ++ [s] }, ?_, ?_⟩
          · simp only [Obj.call, Obj.append, h4, hk, h6]
          · exact ⟨by simp [h2, stepsOf], by simp [h3, thetasOf], h4, h5, h6, h7, h8, fun h => absurd hk h⟩
        | true =>
          refine ⟨{ d with rows := d.rows ++ [s], policy := some (l ++ p.toList) }, ?_, ?_⟩
          · simp only [Obj.call, Obj.append, h4, hk, h6, hl]
          · exact ⟨by simp [h2, stepsOf], by simp [h3, thetasOf], h4, h5, h6, h7, by simp, fun h => absurd hk h⟩
      · have h9 := h9 hk
        cases stateful with
        | false =>
          obtain rfl : p = none := by simpa using hp
          simp only [Bool.false_eq_true, if_false] at h9
          refine ⟨{ d with rows := d.rows ++ [s] }, ?_, ?_⟩
          · cases kind <;> first
              | exact absurd rfl hk
              | simp [Obj.call, Obj.append, h4, hroom, h9]
          · exact ⟨by simp [h2, stepsOf], by simp [h3, thetasOf], h4, h5, h6, h7, fun h => absurd h hk,
              fun _ => by simp [h9]⟩
        | true =>
          obtain ⟨q, rfl⟩ := Option.isSome_iff_exists.mp hp
          simp only [if_true] at h9
          refine ⟨{ d with rows := d.rows ++ [s], policy := some (policiesOf (sinceClear calls) ++ [q]) }, ?_, ?_⟩
          · cases kind <;> first
              | exact absurd rfl hk
              | simp [Obj.call, Obj.append, h4, hroom, h9]
          · exact ⟨by simp [h2, stepsOf], by simp [h3, thetasOf], h4, h5, h6, h7, fun h => absurd h hk,
              fun _ => by simp [policiesOf]⟩

/-- Steps of a small example: state and next state count, every second step is the last of an episode. -/
def st (i : Nat) : Step Nat Nat Nat :=
  { state := i, action := 10 * i, reward := 100 * i, nextState := i + 1, absorbing := false, last := i % 2 == 1 }

def demoCalls : List (Call Nat Nat Nat Nat Nat) :=
  [.theta 7, .append (st 0) (some (0, 1)), .clear, .theta 8, .append (st 1) (some (5, 6)), .append (st 2) (some (6, 7)),
    .theta 9]

example : Consistent true demoCalls ∧ Room 2 demoCalls ∧ stepsOf (sinceClear demoCalls) = [st 1, st 2] ∧
    policiesOf (sinceClear demoCalls) = [(5, 6), (6, 7)] ∧ thetasOf (sinceClear demoCalls) = [8, 9] := by
  refine ⟨?_, ?_, by decide, by decide, by decide⟩
  · intro s p h
    simp only [demoCalls, List.mem_cons, Call.append.injEq, reduceCtorEq, List.not_mem_nil, or_false, false_or] at h
    rcases h with ⟨_, rfl⟩ | ⟨_, rfl⟩ | ⟨_, rfl⟩ <;> rfl
  · intro k
    by_cases hk : k < 8
    · revert k; decide
    · rw [List.take_of_length_le (by simp [demoCalls]; omega)]; decide

/-- C133 fails for the list storage: the policy states of a stateful agent can never be read back, whatever has been
appended. -/
theorem C133_list_policy_refuted (cap : Nat) (calls : List (Call X A R P T)) (hc : Consistent true calls)
    (hr : Room cap calls) (hne : stepsOf (sinceClear calls) ≠ []) :
    ∃ d, (Obj.new .list cap true : Obj X A R P T).run calls = .ok d ∧ d.isStateful = true ∧
      d.policyStates = .error .index := by
  obtain ⟨d, h1, h2, _, h4, _⟩ := C133_history .list cap true calls hc hr
  refine ⟨d, h1, h4, ?_⟩
  have hk : ∀ (calls : List (Call X A R P T)) d, (Obj.new .list cap true : Obj X A R P T).run calls = .ok d →
      d.kind = .list := by
    intro calls
    induction calls using List.reverseRecOn with
    | nil => intro d h; simp only [Obj.run, List.foldlM_nil] at h; cases h; rfl
    | append_singleton calls c ih =>
      intro d h
      rw [run_snoc] at h
      cases hd : (Obj.new .list cap true : Obj X A R P T).run calls with
      | error e => simp [hd] at h
      | ok d' =>
        have := ih d' hd
        simp only [hd] at h
        cases c with
        | clear =>
          simp only [Obj.call, Obj.clear, this, Except.ok.injEq] at h
          rw [← h]
        | theta t =>
          simp only [Obj.call, Obj.appendTheta] at h
          split at h
          · cases h; exact this
          · cases h
        | append s p =>
          simp only [Obj.call, Obj.append, this] at h
          split at h <;> cases h <;> rfl
  simp only [Obj.policyStates, hk calls d h1, h2, hne, if_false]

example : stepsOf (sinceClear demoCalls) ≠ [] := by decide

/-! ### Views and selections -/

/-- Rows `a, …, b - 1`. -/
def segment {α : Type} (l : List α) (a b : Nat) : List α := (l.take b).drop a

theorem pySlice_segment {α : Type} (l : List α) (a b : Nat) : pySlice l (some (a : Int)) (some (b : Int)) = segment l a b := by
  have ha : ¬ (a : Int) < 0 := by omega
  have hb : ¬ (b : Int) < 0 := by omega
  simp only [pySlice, clampIdx, ha, hb, if_false, Int.toNat_natCast, segment]
  rw [← List.take_eq_take_min, List.drop_eq_drop_iff.mpr]
  simp only [List.length_take]
  omega

/-- C133, views. `dataset[a:b]` of a dataset with array storage (and `get_view(slice(a, b), copy=True)`) shows exactly
the rows `a, …, b - 1` with their policy states, and is stateful if the dataset is. -/
theorem C133_view (d : Obj X A R P T) (hk : d.kind ≠ .list) (a b : Nat) (copy : Bool) :
    ∃ v, d.view a b copy = .ok v ∧ v.rows = segment d.rows a b ∧ v.policy = d.policy.map (segment · a b) ∧
      v.isStateful = d.isStateful ∧ v.kind = d.kind := by
  have e : (fun l : List (P × P) => pySlice l (some (a : Int)) (some (b : Int))) = (segment · a b) :=
    funext (fun l => pySlice_segment l a b)
  obtain ⟨kind, cap, rows, policy, flag, thetas, shaped⟩ := d
  cases kind with
  | list => exact absurd rfl hk
  | numpy => exact ⟨_, rfl, pySlice_segment _ _ _, by simp only [e], by simp [Obj.isStateful], rfl⟩
  | torch => exact ⟨_, rfl, pySlice_segment _ _ _, by simp only [e], by simp [Obj.isStateful], rfl⟩

/-- C133, views of the list storage: the rows are right, but there are no policy states behind them, and a copy cannot
be made. -/
theorem C133_list_view_partial (d : Obj X A R P T) (hk : d.kind = .list) (a b : Nat) :
    (∃ v, d.view a b false = .ok v ∧ v.rows = segment d.rows a b ∧ v.isStateful = d.isStateful ∧ v.policy = none) ∧
      d.view a b true = .error .attribute := by
  obtain ⟨kind, cap, rows, policy, flag, thetas, shaped⟩ := d
  obtain rfl : kind = .list := hk
  exact ⟨⟨_, rfl, pySlice_segment _ _ _, rfl, rfl⟩, rfl⟩

/-- C133 fails for views: a view has lost the policy parameters of its dataset, it accepts no new ones, and two views
cannot be concatenated, so that `dataset[:k] + dataset[k:]` always raises. -/
theorem C133_view_thetas_refuted (d e v w : Obj X A R P T) (a b a' b' : Nat) (c c' : Bool) (hv : d.view a b c = .ok v)
    (hw : e.view a' b' c' = .ok w) (t : T) :
    v.thetas = none ∧ v.appendTheta t = .error .attribute ∧ v.add w = .error .type ∧ v.add d = .error .type := by
  have hnone : ∀ (d v : Obj X A R P T) a b c, d.view a b c = .ok v → v.thetas = none := by
    intro d v a b c h
    obtain ⟨kind, cap, rows, policy, flag, thetas, shaped⟩ := d
    cases kind <;> simp only [Obj.view] at h
    · cases h; rfl
    · cases h; rfl
    · split at h
      · cases h
      · cases h; rfl
  have h1 := hnone d v a b c hv
  refine ⟨h1, ?_, ?_, ?_⟩ <;> simp [Obj.appendTheta, Obj.add, h1]

/-- A dataset of two steps with numpy storage. -/
def demoObj : Obj Nat Nat Nat Nat Nat :=
  { kind := .numpy, cap := 3, rows := [st 0, st 1], policy := some [(0, 1), (5, 6)], flag := true, thetas := some [7]
    shaped := true }

example : ∃ v w, demoObj.view 0 1 false = .ok v ∧ demoObj.view 1 2 false = .ok w ∧ v.rows = [st 0] ∧ w.rows = [st 1] ∧
    v.policy = some [(0, 1)] := ⟨_, _, rfl, rfl, by decide, by decide, by decide⟩

/-- Datasets that can be reached: parameters, storage and policy columns fit together. -/
def WellFormed (d : Obj X A R P T) : Prop := d.kind ≠ .list → ∀ p, d.policy = some p → p.length = d.rows.length

/-- C133, selection. `dataset[indices]`, and `select_random_samples(n)` with the drawn row numbers, show the rows with
these numbers, in that order, with their policy states (array storage). -/
theorem C133_take (d : Obj X A R P T) (hk : d.kind ≠ .list) (hw : WellFormed d) (l : List Nat)
    (hl : ∀ i ∈ l, i < d.rows.length) :
    ∃ v, d.getItem (.array l) = .ok (.data v) ∧ v.rows.map some = l.map (fun i => d.rows[i]?) ∧
      (∀ p, d.policy = some p → ∃ q, v.policy = some q ∧ q.map some = l.map (fun i => p[i]?)) ∧
      (∀ n : Int, 0 < n → d.selectRandom n l = .ok (some v)) := by
  have hm : ∀ {α : Type} (r : List α), (∀ i ∈ l, i < r.length) →
      ∃ q, l.mapM (fun i => r[i]?) = some q ∧ q.map some = l.map (fun i => r[i]?) := by
    intro α r hr
    clear hl
    induction l with
    | nil => exact ⟨[], rfl, rfl⟩
    | cons i l ih =>
      obtain ⟨q, h1, h2⟩ := ih (fun j hj => hr j (by simp [hj]))
      have hi := hr i (by simp)
      refine ⟨r[i] :: q, ?_, ?_⟩
      · simp [List.mapM_cons, h1, List.getElem?_eq_getElem hi]
      · simp [h2, List.getElem?_eq_getElem hi]
  obtain ⟨rows, h1, h2⟩ := hm d.rows hl
  have hkind : ∀ x : Option (List (P × P)), (match d.kind with | .list => none | _ => x) = x := by
    intro x; cases h : d.kind <;> simp_all
  refine ⟨{ d with cap := rows.length, rows := rows, thetas := none
                   policy := d.policy.bind (fun p => l.mapM (fun i => p[i]?)) }, ?_, h2, ?_, ?_⟩
  · simp only [Obj.getItem, Obj.take, h1, hkind]; rfl
  · intro p hp
    obtain ⟨q, h3, h4⟩ := hm p (fun i hi => by rw [hw hk p hp]; exact hl i hi)
    exact ⟨q, by simp [hp, h3], h4⟩
  · intro n hn
    have h0 : 0 ≤ n := by omega
    have h1' : n ≠ 0 := by omega
    simp only [Obj.selectRandom, h0, h1', if_true, if_false, Obj.take, h1, hkind]; rfl

example : WellFormed demoObj ∧ demoObj.kind ≠ .list ∧ ∀ i ∈ [1, 0, 1], i < demoObj.rows.length := by
  refine ⟨?_, by decide, by decide⟩
  intro _ p h
  simp only [demoObj, Option.some.injEq] at h
  subst h; rfl

/-- C133 fails for no samples and for numpy integers: `select_random_samples(0)` is not a dataset, and a row number
computed by numpy (as `np.argmax` or `np.random.randint` return it) cannot be used to read a row that can be read with
the Python integer of the same value. -/
theorem C133_index_refuted (d : Obj X A R P T) (i : Nat) (hi : i < d.rows.length) (idx : List Nat) :
    d.getItem (.int i) = .ok (.step d.rows[i]) ∧ d.getItem (.npInt i) = .error .index ∧
      d.selectRandom 0 idx = .ok none := by
  refine ⟨?_, rfl, rfl⟩
  simp [Obj.getItem, List.getElem?_eq_getElem hi]

/-! ### Concatenation and arrays -/

/-- C133, concatenation of two array datasets that hold parameters (none of them a view), the first nonempty, both of a
stateful agent or both not: rows, policy states and parameters of the first followed by those of the second; only the
last flag of the last row of the first is set. -/
theorem C133_add (d e : Obj X A R P T) (hk : d.kind ≠ .list) (t u : List T) (ht : d.thetas = some t)
    (hu : e.thetas = some u) (pre : List (Step X A R)) (r : Step X A R) (hd : d.rows = pre ++ [r])
    (hp : d.policy.isSome = e.policy.isSome) :
    ∃ s, d.add e = .ok s ∧ s.rows = pre ++ [{ r with last := true }] ++ e.rows ∧ s.thetas = some (t ++ u) ∧
      s.isStateful = d.isStateful ∧
      (∀ p q, d.policy = some p → e.policy = some q → s.policyStates = .ok (p ++ q)) := by
  have hmod : (pre ++ [r] ++ e.rows).modify ((pre ++ [r]).length - 1) (fun s => { s with last := true }) =
      pre ++ [{ r with last := true }] ++ e.rows := by
    have : (pre ++ [r]).length - 1 = pre.length := by simp
    rw [this]
    clear this hk hp hd
    induction pre with
    | nil => simp
    | cons x pre ih => simpa using ih
  have hne : pre ++ [r] ++ e.rows ≠ [] := by simp
  have hne2 : pre ++ [r] ≠ [] := by simp
  have key : ∀ p q, d.policy = p → e.policy = q → p.isSome = q.isSome →
      d.add e = .ok { d with rows := pre ++ [{ r with last := true }] ++ e.rows, cap := (pre ++ [r] ++ e.rows).length
                             thetas := some (t ++ u), policy := p.bind (fun p => q.map (p ++ ·)) } := by
    intro p q h1 h2 h3
    rw [← hmod]
    cases hkind : d.kind with
    | list => exact absurd hkind hk
    | numpy => cases p <;> cases q <;> simp_all [Obj.add]
    | torch => cases p <;> cases q <;> simp_all [Obj.add]
  refine ⟨_, key _ _ rfl rfl hp, rfl, rfl, ?_, ?_⟩
  · cases hkind : d.kind with
    | list => exact absurd hkind hk
    | numpy => cases h1 : d.policy <;> cases h2 : e.policy <;> simp_all [Obj.isStateful]
    | torch => cases h1 : d.policy <;> cases h2 : e.policy <;> simp_all [Obj.isStateful]
  · intro p q h1 h2
    cases hkind : d.kind with
    | list => exact absurd hkind hk
    | numpy => simp [Obj.policyStates, hkind, h1, h2]
    | torch => simp [Obj.policyStates, hkind, h1, h2]

example : ∃ s, demoObj.add demoObj = .ok s ∧ s.thetas = some [7, 7] ∧ s.rows.length = 4 := ⟨_, rfl, rfl, rfl⟩

/-- C133, arrays. `Dataset.from_array` keeps the transitions and the parameters it is given (no parameters: an empty
list), and the result can be concatenated. -/
theorem C133_from_array_partial (kind : Kind) (rows : List (Step X A R)) (p : Option (List (P × P)))
    (thetas : Option (List T)) (hp : ∀ q, p = some q → q.length = rows.length) :
    ∃ d, fromArray kind rows p thetas = .ok d ∧ d.rows = rows ∧ d.thetas = some (thetas.getD []) := by
  have : p.all (fun q => q.length = rows.length) = true := by
    cases p with
    | none => rfl
    | some q => simpa using hp q rfl
  exact ⟨_, by simp only [fromArray, this, if_true]; rfl, rfl, rfl⟩

/-- C133 fails for arrays: the policy states given to `Dataset.from_array` are lost. The dataset is not stateful, although
its description has a shape of policy states, and reading them raises (unless a list dataset is empty). -/
theorem C133_from_array_refuted (kind : Kind) (rows : List (Step X A R)) (p : List (P × P)) (thetas : Option (List T))
    (hp : p.length = rows.length) (hne : rows ≠ []) :
    ∃ d, fromArray kind rows (some p) thetas = .ok d ∧ d.shaped = true ∧ d.isStateful = false ∧
      ∃ e, d.policyStates = .error e := by
  cases kind
  · exact ⟨_, by simp only [fromArray, Option.all_some, hp, decide_true, if_true]; rfl, rfl, rfl, _, rfl⟩
  · exact ⟨_, by simp only [fromArray, Option.all_some, hp, decide_true, if_true]; rfl, rfl, rfl, _, rfl⟩
  · exact ⟨_, by simp only [fromArray, Option.all_some, hp, decide_true, if_true]; rfl, rfl, rfl, .index,
      by simp [Obj.policyStates, hne]⟩

example : ([(0, 1), (5, 6)] : List (Nat × Nat)).length = [st 0, st 1].length ∧ [st 0, st 1] ≠ [] := by decide

end Verif.Dataset.Object
