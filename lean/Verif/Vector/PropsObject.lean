/-
Properties of the datasets that the vectorised loop hands to the agent (C133): policy states and a single environment.
-/
import Verif.Vector.Props
import Verif.Dataset.PropsObject

namespace Verif.Vector

open Verif.Dataset (Row)
open Verif.Dataset.Object (Obj Kind Step fromArray)

variable {W X A R P T : Type}

/-- The six columns of a transition other than the policy states. -/
def toStep (r : Row X A R P) : Step X A R :=
  { state := r.state, action := r.action, reward := r.reward, nextState := r.nextState, absorbing := r.absorbing
    last := r.last }

/-- dataset.py L590-632: `flatten` as an object. The columns, those of the policy states included if the storage has
them (L607-609, L619-621), are packed and given to `Dataset.from_array`. -/
def flattenObj (kind : Kind) (n : Nat) (stateful : Bool) (perFitSteps : Option Nat) (data : List (Nat → Row X A R P))
    (masks : List (Nat → Bool)) (thetas : Nat → List T) : Except Dataset.Object.Err (Option (Obj X A R P T)) :=
  if data.length = 0 then .ok none
  else
    let rows := pack (closeLast data) masks n
    let rows := match perFitSteps with
      | some k => rows.take k
      | none => rows
    let policy := if stateful then some (rows.map (fun r => (r.policyState, r.policyNextState))) else none
    (fromArray kind (rows.map toStep) policy (some ((List.range n).map thetas).flatten)).map some

/-- The object is the flattened dataset of the model of the loop. -/
theorem flattenObj_rows (kind : Kind) (n : Nat) (stateful : Bool) (k : Option Nat) (data : List (Nat → Row X A R P))
    (masks : List (Nat → Bool)) (thetas : Nat → List T) (hne : data ≠ []) :
    ∃ d rows, flattenObj kind n stateful k data masks thetas = .ok (some d) ∧
      (flatten n k data masks thetas).1 = some (rows, ((List.range n).map thetas).flatten) ∧
      d.rows = rows.map toStep ∧ d.thetas = some ((List.range n).map thetas).flatten ∧ d.isStateful = false ∧
      d.shaped = stateful ∧ d.kind = kind := by
  have h0 : data.length ≠ 0 := by simpa using hne
  let rows : List (Row X A R P) := match k with
    | some k => (pack (closeLast data) masks n).take k
    | none => pack (closeLast data) masks n
  have hcomp : (toStep : Row X A R Unit → Step X A R) ∘ (stateless : Row X A R P → Row X A R Unit) = toStep := rfl
  have hf : (flatten n k data masks thetas).1 = some (rows.map stateless, ((List.range n).map thetas).flatten) := by
    simp only [flatten, h0, if_false, rows]
    rfl
  cases stateful
  · refine ⟨{ kind := kind, cap := rows.length, rows := rows.map toStep, policy := match kind with
        | .list => some []
        | _ => none, flag := false, thetas := some ((List.range n).map thetas).flatten, shaped := false },
      rows.map stateless, ?_, hf, ?_, rfl, ?_, rfl, rfl⟩
    · simp only [flattenObj, h0, if_false, fromArray, List.length_map]
      rfl
    · simp [hcomp]
    · cases kind <;> rfl
  · refine ⟨{ kind := kind, cap := rows.length, rows := rows.map toStep, policy := match kind with
        | .list => some []
        | _ => none, flag := false, thetas := some ((List.range n).map thetas).flatten, shaped := true },
      rows.map stateless, ?_, hf, ?_, rfl, ?_, rfl, rfl⟩
    · simp only [flattenObj, h0, if_false, fromArray, List.length_map, if_true, Option.all_some,
        decide_true]
      rfl
    · simp [hcomp]
    · cases kind <;> rfl

/-- C133 fails for the vectorised loop: whatever has been collected, the dataset that a stateful agent is given to fit
holds the collected transitions (environment after environment) and parameters, but no policy states: it is not
stateful, although its description has a shape of policy states, and reading them raises. So the agents that parse the
policy states of their data cannot be trained with `VectorCore`. -/
theorem C133_flatten_refuted (kind : Kind) (hk : kind ≠ .list) (n : Nat) (h : History X A R P) (th : Nat → List T)
    (hne : h ≠ []) (hs : StopsAtEnd n h) :
    ∃ d, flattenObj kind n true none (rowsOf h) (masksOf h) th = .ok (some d) ∧
      d.rows = (blocks n h).map toStep ∧ d.thetas = some ((List.range n).map th).flatten ∧
      d.shaped = true ∧ d.isStateful = false ∧ d.policyStates = .error .type := by
  have hr : rowsOf h ≠ [] := by simpa [rowsOf] using hne
  obtain ⟨d, rows, h1, h2, h3, h4, h5, h6, h7⟩ := flattenObj_rows kind n true none (rowsOf h) (masksOf h) th hr
  rw [C21_flatten n h th hne hs] at h2
  simp only [Option.some.injEq, Prod.mk.injEq, and_true] at h2
  refine ⟨d, h1, ?_, h4, h6, h5, ?_⟩
  · rw [h3, ← h2, noPolicyStates, List.map_map]; rfl
  · simp only [Dataset.Object.Obj.isStateful, h7] at h5
    cases kind with
    | list => exact absurd rfl hk
    | numpy =>
      have : d.policy = none := by simpa using h5
      simp [Dataset.Object.Obj.policyStates, h7, this]
    | torch =>
      have : d.policy = none := by simpa using h5
      simp [Dataset.Object.Obj.policyStates, h7, this]

/-- One environment that has made a step with policy state 3. -/
example :
    let r : Row Nat Unit Nat Nat :=
      { state := 0, action := (), reward := 1, nextState := 1, absorbing := false, last := false, policyState := 3
        policyNextState := 4 }
    let h : History Nat Unit Nat Nat := [(fun _ => true, fun _ => r, 0)]
    h ≠ [] ∧ StopsAtEnd 2 h := by
  refine ⟨by simp, ?_⟩
  intro t e e' _ he'
  simp at he'

/-- C133 fails for a single environment: with a vectorised environment that runs one environment, `learn` and `evaluate`
raise at the first step, whatever the agent and the environment do, because the dataset has no masks. -/
theorem C133_one_environment_refuted (sys : Sys W X A R P T) (c : Cfg) (cap : Nat) (w : W) (x0 : Nat → X)
    (p0 : Nat → P) (fuel : Nat) (hn : c.n = 1) (hcap : 0 < cap)
    (hmove : moveRequired c (start w x0 p0 : St W X A R P T) = true) :
    loop sys c cap (fuel + 1) (start w x0 p0) = .error .type := by
  have hreset : ∃ s1, resetPart sys c (start w x0 p0) = .ok s1 ∧ s1.data = [] := by
    have hany : anyOf (start w x0 p0 : St W X A R P T).last c.n = true := by
      simp [anyOf, start, hn, cnt]
    simp only [resetPart, hany, if_true]
    have hm : ∃ m, getMask c (start w x0 p0 : St W X A R P T).running (start w x0 p0 : St W X A R P T).last
        (start w x0 p0 : St W X A R P T).totE (start w x0 p0 : St W X A R P T).curE = .ok m := by
      simp [getMask, start, hn, cnt]
    obtain ⟨m, hm⟩ := hm
    rw [hm]
    exact ⟨_, rfl, rfl⟩
  obtain ⟨s1, h1, h2⟩ := hreset
  have h3 := stepPart_one sys c cap s1 (by rw [h2]; exact hcap) hn
  simp only [loop, hmove, if_true, iter, h1, h3]

example : moveRequired (freshLogic.evaluateCfg 1 (some 2) none (some 2))
    (start [0] (fun _ => 0) (fun _ => ()) : St (List Nat) Nat Unit Nat Unit Nat) = true ∧
    errOf (loop (demo true) (freshLogic.evaluateCfg 1 (some 2) none (some 2)) 4 9
      (start [0] (fun _ => 0) (fun _ => ()))) = some .type := by decide +kernel

end Verif.Vector
