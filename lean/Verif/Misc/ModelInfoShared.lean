/-
Model of the sharing between an `ExtraInfo` and its views: /repo/mushroom_rl/core/extra_info.py L42-96, L217-244. For the single object and for
what is left out see `ModelInfo`.
-/
import Verif.Misc.ModelInfo

namespace Verif.Misc

/-- An object without its dictionary of names. extra_info.py L17-26. -/
structure Member (V : Type) where
  storage : List (Step V)
  structured : Arrays V
  data : Arrays V

/-- An object and its views, and the views of these, which all hold the same dictionary `_key_mapping`. extra_info.py L227. -/
structure Family (V : Type) where
  keys : List (String × Path)
  members : List (Member V)

/-- One of the objects, with the dictionary it holds. -/
def Member.extra {V : Type} (m : Member V) (keys : List (String × Path)) : Extra V := ⟨m.storage, keys, m.structured, m.data⟩

/-- The family of an object without views. -/
def Family.of {V : Type} (e : Extra V) : Family V := ⟨e.keyMapping, [⟨e.storage, e.structured, e.data⟩]⟩

/-- What is called on one of the objects, given by its number. -/
inductive FamilyCall (V : Type) where
  | append (i : ℕ) (step : Step V)
  | parse (i : ℕ)
  | view (i : ℕ) (index : List ℕ)

/-- The number of the object. -/
def FamilyCall.target {V : Type} : FamilyCall V → ℕ
  | .append i _ => i
  | .parse i => i
  | .view i _ => i

/-- `parse` of the object `i`, and whether it returns: the shared dictionary is updated first, also if a `KeyError` follows.
extra_info.py L42-96. -/
def Family.parse {V : Type} (f : Family V) (i : ℕ) : Family V × Bool :=
  match f.members[i]? with
  | none => (f, false)
  | some m =>
    let keys := updateKeys f.keys m.storage
    match columns (m.extra f.keys) keys with
    | none => ({ f with keys := keys }, false)
    | some output => (⟨keys, f.members.set i ⟨[], output, output⟩⟩, true)

/-- A call, and whether it returns. A view becomes the last of the objects. extra_info.py L28-40, L42-96, L217-244. -/
def Family.call {V : Type} (f : Family V) : FamilyCall V → Family V × Bool
  | .append i step =>
    match f.members[i]? with
    | none => (f, false)
    | some m => ({ f with members := f.members.set i { m with storage := m.storage ++ [step] } }, true)
  | .parse i => f.parse i
  | .view i index =>
    match f.parse i with
    | (f, false) => (f, false)
    | (f, true) =>
      match f.members[i]? with
      | none => (f, false)
      | some m =>
        let sel : Arrays V → Arrays V := fun d => d.map (fun a => (a.1, index.filterMap (fun i => a.2[i]?)))
        ({ f with members := f.members ++ [⟨[], sel m.structured, sel m.data⟩] }, true)

/-- A sequence of calls; an exception is caught by the caller. -/
def Family.run {V : Type} (f : Family V) (calls : List (FamilyCall V)) : Family V := calls.foldl (fun f c => (f.call c).1) f

end Verif.Misc
