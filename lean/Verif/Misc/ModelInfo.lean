/-
Model of /repo/mushroom_rl/core/extra_info.py for one environment, or for step informations that are dictionaries of arrays with one
row per environment (`V` is then the type of these arrays).

The nested dictionary of a step is the list of its leaves with their paths. Shapes, dtypes, devices and the conversion between
backends are left out: a value that is missing (NaN in the arrays) is `none`. A key that leads to a value in one step and to a dictionary in another
is not modelled, nor is the order of the keys. Views and flattened copies share the dictionaries of names and shapes with their original; here they are copied, see `ModelInfoShared`.
-/
import Mathlib.Data.List.Basic

namespace Verif.Misc

/-- The keys that lead to a value in a nested dictionary. -/
abbrev Path := List String

/-- A step information: the leaves of a nested dictionary. -/
abbrev Step (V : Type) := List (Path × V)

/-- A flat dictionary of arrays. -/
abbrev Arrays (V : Type) := List (String × List (Option V))

/-- `ExtraInfo`. extra_info.py L17-26. -/
structure Extra (V : Type) where
  storage : List (Step V)
  keyMapping : List (String × Path)
  structured : Arrays V
  data : Arrays V

/-- The constructor. extra_info.py L10-26. -/
def Extra.new {V : Type} : Extra V := ⟨[], [], [], []⟩

/-- `append`. extra_info.py L28-40. -/
def Extra.append {V : Type} (e : Extra V) (info : Step V) : Extra V := { e with storage := e.storage ++ [info] }

/-- `_create_key`: the name of a path. extra_info.py L363-375. -/
def joinKey (p : Path) : String := "_".intercalate p

/-- `dict[k] = v`. -/
def setKey {β : Type} (l : List (String × β)) (k : String) (v : β) : List (String × β) :=
  if k ∈ l.map Prod.fst then l.map (fun p => if p.1 = k then (k, v) else p) else l ++ [(k, v)]

/-- `_update_key_mapping` for one leaf. extra_info.py L270-291, L373-374. -/
def addPath (m : List (String × Path)) (p : Path) : List (String × Path) :=
  if p ∈ m.map Prod.snd then m else setKey m (joinKey p) p

/-- `_update_key_mapping` for the steps of the storage. extra_info.py L56-62. -/
def updateKeys {V : Type} (m : List (String × Path)) (storage : List (Step V)) : List (String × Path) :=
  storage.foldl (fun m step => step.foldl (fun m leaf => addPath m leaf.1) m) m

/-- The length of the arrays that are already there. extra_info.py L65-68. -/
def structuredLength {V : Type} (s : Arrays V) : ℕ :=
  match s with
  | [] => 0
  | a :: _ => a.2.length

/-- The array of a key: what was there, `None` of which is a `KeyError` if anything was there, and the values of the storage.
extra_info.py L78-90. -/
def column {V : Type} (e : Extra V) (key : String) (path : Path) : Option (List (Option V)) :=
  let new := e.storage.map (fun step => step.lookup path)
  match e.structured with
  | [] => some new
  | _ :: _ => (e.structured.lookup key).map (fun old => old ++ new)

/-- The arrays of the keys. extra_info.py L72-90. -/
def columns {V : Type} (e : Extra V) : List (String × Path) → Option (Arrays V)
  | [] => some []
  | kp :: rest =>
    match column e kp.1 kp.2, columns e rest with
    | some c, some r => some ((kp.1, c) :: r)
    | _, _ => none

/-- `parse`. extra_info.py L42-96. -/
def Extra.parse {V : Type} (e : Extra V) : Option (Extra V) :=
  let m := updateKeys e.keyMapping e.storage
  (columns e m).map (fun output => ⟨[], m, output, output⟩)

/-- `_concatenate_array` for a key of either dictionary. extra_info.py L154-176, L201-204. -/
def concatKey {V : Type} (d1 d2 : Arrays V) (n1 n2 : ℕ) (key : String) : String × List (Option V) :=
  (key, (d1.lookup key).getD (List.replicate n1 none) ++ (d2.lookup key).getD (List.replicate n2 none))

/-- `_concatenate_dictionary`. extra_info.py L178-205. -/
def concatDict {V : Type} (d1 d2 : Arrays V) : Arrays V :=
  if d1.isEmpty then d2
  else if d2.isEmpty then d1
  else
    let n1 := structuredLength d1
    let n2 := structuredLength d2
    let keys := d1.map Prod.fst ++ (d2.map Prod.fst).filter (fun k => k ∉ d1.map Prod.fst)
    keys.map (concatKey d1 d2 n1 n2)

/-- `__add__`. extra_info.py L129-152. -/
def Extra.add {V : Type} (e f : Extra V) : Extra V :=
  { storage := e.storage ++ f.storage
    keyMapping := f.keyMapping.foldl (fun m kp => setKey m kp.1 kp.2) e.keyMapping
    structured := concatDict e.structured f.structured
    data := concatDict e.data f.data }

/-- `copy`: the structured storage is not copied. extra_info.py L208-215. -/
def Extra.copy {V : Type} (e : Extra V) : Extra V := { e with structured := [] }

/-- `get_view` with a list of positions. extra_info.py L217-244. -/
def Extra.view {V : Type} (e : Extra V) (index : List ℕ) : Option (Extra V) :=
  e.parse.map (fun e =>
    { e with
      structured := e.structured.map (fun a => (a.1, index.filterMap (fun i => a.2[i]?)))
      data := e.data.map (fun a => (a.1, index.filterMap (fun i => a.2[i]?))) })

/-- `clear`. extra_info.py L246-251. -/
def Extra.clear {V : Type} (_ : Extra V) : Extra V := ⟨[], [], [], []⟩

end Verif.Misc
