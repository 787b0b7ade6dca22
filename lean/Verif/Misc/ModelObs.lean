/-
Model of /repo/mushroom_rl/utils/mujoco/observation_helper.py.

An observation is described by a list of entries in the order of `observation_spec`, followed by those that were added. The two
dictionaries `obs_idx_map` and `build_omit_idx` have the same keys, but for the added ones, which only the first has; they are kept
in one list of records. The limits `obs_low` and `obs_high` are treated alike by the code and are one list here, of pairs say.
`get_state` returns views of the arrays of the simulator; they are lists here, and writing to them is returning new ones.
-/
import Mathlib.Data.List.Basic
import Mathlib.Data.List.Range

namespace Verif.Misc

/-- What the helper knows of one observation: its key, its indices in the observation, and the omitted indices (`none` for the
observations that were added). -/
structure Entry (K : Type) where
  key : K
  idx : List ℕ
  omitted : Option (List ℕ)

/-- `ObservationHelper`: the entries, the limits, and the indices of the joints (positions and velocities are treated alike by
the code, the two lists `joint_pos_idx` and `joint_vel_idx` are one here). observation_helper.py L33-51. -/
structure Helper (K L : Type) where
  entries : List (Entry K)
  limits : List L
  joints : List ℕ

/-- One observation of the specification: its key, whether it is a joint with one entry, and the limits of its entries. -/
structure Spec (K L : Type) where
  key : K
  joint : Bool
  limits : List L

/-- The loop of the constructor. observation_helper.py L54-82. -/
def initLoop {K L : Type} : List (Spec K L) → ℕ → List (Entry K) × List L × List ℕ
  | [], _ => ([], [], [])
  | s :: rest, current =>
    let r := initLoop rest (current + s.limits.length)
    (⟨s.key, List.range' current s.limits.length, some []⟩ :: r.1, s.limits ++ r.2.1,
      if s.joint && s.limits.length == 1 then current :: r.2.2 else r.2.2)

/-- The constructor: fails for an empty specification and for duplicate keys. observation_helper.py L33-85. -/
def Helper.new {K L : Type} [DecidableEq K] (spec : List (Spec K L)) : Option (Helper K L) :=
  if spec = [] ∨ ¬ (spec.map Spec.key).Nodup then none
  else
    let r := initLoop spec 0
    some ⟨r.1, r.2.1, r.2.2⟩

/-- The position that a Python index refers to in a list of the given length. -/
def pyPos (len : ℕ) (i : ℤ) : Option ℕ :=
  if 0 ≤ i ∧ i < len then some i.toNat
  else if -(len : ℤ) ≤ i ∧ i < 0 then some (i + len).toNat
  else none

/-- `if obs_list[idx] > cutoff: obs_list[idx] -= 1`. observation_helper.py L103-104. -/
def shift (cutoff i : ℕ) : ℕ := if cutoff < i then i - 1 else i

/-- `remove_obs`. observation_helper.py L88-114. -/
def Helper.remove {K L : Type} [DecidableEq K] (h : Helper K L) (key : K) (index : ℕ) : Option (Helper K L) :=
  match h.entries.find? (fun e => e.key = key) with
  | none => none
  | some e =>
    match e.omitted with
    | none => none
    | some om =>
      match pyPos e.idx.length ((index : ℤ) - om.length) with
      | none => none
      | some pos =>
        let cutoff := e.idx.getD pos 0
        some
          { entries := h.entries.map (fun x =>
              if x.key = key then ⟨x.key, (x.idx.eraseIdx pos).map (shift cutoff), x.omitted.map (fun o => o ++ [index])⟩
              else ⟨x.key, x.idx.map (shift cutoff), x.omitted⟩)
            limits := h.limits.eraseIdx cutoff
            joints := h.joints.map (shift cutoff) }

/-- `add_obs` for a key that is not in use; the values are the limits of the new entries. observation_helper.py L116-132. -/
def Helper.add {K L : Type} (h : Helper K L) (key : K) (values : List L) : Helper K L :=
  { h with
    entries := h.entries ++ [⟨key, List.range' h.limits.length values.length, none⟩]
    limits := h.limits ++ values }

/-- `np.delete(obs, omit)`. observation_helper.py L166. -/
def npDelete {α : Type} (l : List α) (om : List ℕ) : Option (List α) :=
  if ∀ i ∈ om, i < l.length then some ((l.zipIdx.filter (fun p => p.2 ∉ om)).map Prod.fst) else none

/-- The part of the observation that an entry of the specification gives; `state` is what `get_state` returns for the keys.
Added observations give nothing. observation_helper.py L164-169. -/
def piece {K α : Type} (state : K → List α) (e : Entry K) : Option (List α) :=
  match e.omitted with
  | none => some []
  | some om => npDelete (state e.key) om

/-- `_build_obs`. observation_helper.py L154-170. -/
def build {K α : Type} (state : K → List α) : List (Entry K) → Option (List α)
  | [] => some []
  | e :: rest => do
    let a ← piece state e
    let b ← build state rest
    pure (a ++ b)

/-- The inner loop of `_modify_data` from index `i`: the new array and the rest of the observation. observation_helper.py
L180-183. -/
def fill {α : Type} (om : List ℕ) : ℕ → List α → List α → Option (List α × List α)
  | _, [], obs => some ([], obs)
  | i, x :: l, obs =>
    if i ∈ om then (fill om (i + 1) l obs).map (fun r => (x :: r.1, r.2))
    else
      match obs with
      | [] => none
      | y :: obs => (fill om (i + 1) l obs).map (fun r => (y :: r.1, r.2))

/-- `_modify_data`: the new arrays of the keys, in order. observation_helper.py L172-184. -/
def modify {K α : Type} (state : K → List α) : List (Entry K) → List α → Option (List (K × List α))
  | [], _ => some []
  | e :: rest, obs =>
    match e.omitted with
    | none => modify state rest obs
    | some om =>
      match fill om 0 (state e.key) obs with
      | none => none
      | some r => (modify state rest r.2).map (fun m => (e.key, r.1) :: m)

/-- `get_from_obs`: a slice from the first to the last index. observation_helper.py L134-137. -/
def getFrom {K L α : Type} [DecidableEq K] (h : Helper K L) (obs : List α) (key : K) : Option (List α) :=
  match h.entries.find? (fun e => e.key = key) with
  | none => none
  | some e =>
    match e.idx.head?, e.idx.getLast? with
    | some a, some b => some ((obs.take (b + 1)).drop a)
    | _, _ => none

end Verif.Misc
