/-
Model of saving and loading.

File: mushroom_rl/core/serialization.py.

A saved file is a list of named entries (a zip file). The name of an entry is modelled by the list of the components
that the code joins with '/': attribute names are Python identifiers, so the joined string determines the components.
What the external encoders (pickle, numpy, torch, json) give back for a value is an argument of the model (`codec`).
-/

namespace Verif.Serialization

/-- L162-183: the save methods; `other` stands for a method for which no `_save_...` exists. -/
inductive Meth where
  | primitive | none | numpy | torch | json | pickle | mushroom | other
deriving DecidableEq, Repr

inductive Err where
  | notImplemented   -- NotImplementedError
  | attribute        -- AttributeError: `save_zip` of something that is not Serializable
deriving DecidableEq, Repr

/-! An object: its class, and its attributes registered with `_add_save_attr`, in order, with their method, the '!'
flag and their current value. Attribute values are `None`, an opaque datum, an object, or a list. -/
mutual
inductive Obj (D : Type) where
  | mk (cls : Nat) (attrs : Attrs D)
inductive Attrs (D : Type) where
  | nil
  | cons (name : String) (m : Meth) (bang : Bool) (v : Val D) (rest : Attrs D)
inductive Val (D : Type) where
  | none
  | data (d : D)
  | obj (o : Obj D)
  | list (l : Vals D)
inductive Vals (D : Type) where
  | nil
  | cons (v : Val D) (rest : Vals D)
end

/-- Components of the names in the zip file: L60 and L119-121 `"{}.{}".format(att, method)`, L148 and L261 `str(i)`, and
'config'. -/
inductive Comp where
  | file (att : String) (m : Meth)
  | idx (i : Nat)
  | config
deriving DecidableEq, Repr

abbrev Path := List Comp

/-- Content of an entry: an encoded datum, the configuration of an object (L72-76), or the one of a list (L253-257). -/
inductive Entry (D : Type) where
  | data (m : Meth) (d : D)
  | config (cls : Nat) (attrs : List (String × Meth × Bool)) (prims : List (String × D))
  | configList (len : Nat)
deriving Repr

abbrev Zip (D : Type) := List (Path × Entry D)

variable {D : Type}

/-- `_save_attributes`. -/
def Attrs.schema : Attrs D → List (String × Meth × Bool)
  | .nil => []
  | .cons n m b _ rest => (n, m, b) :: rest.schema

def Vals.length : Vals D → Nat
  | .nil => 0
  | .cons _ rest => rest.length + 1

/-- L52: is the attribute considered at all by `save_zip`? -/
def skipped (full bang : Bool) : Bool := bang && !full

mutual
/-- L38-78: `save_zip` of an object in the given folder. -/
def saveObj (full : Bool) (folder : Path) : Obj D → Except Err (Zip D)
  | .mk cls attrs =>
    match saveAttrs full folder attrs with
    | .error e => .error e
    | .ok (z, prims) => .ok (z ++ [(folder ++ [.config], .config cls attrs.schema prims)])
/-- L50-70: the loop over the attributes: the entries written and the primitive dictionary. -/
def saveAttrs (full : Bool) (folder : Path) : Attrs D → Except Err (Zip D × List (String × D))
  | .nil => .ok ([], [])
  | .cons name m bang v rest =>
    match saveAttrs full folder rest with
    | .error e => (match saveAttr full folder name m bang v with   -- an earlier attribute raises first
      | .error e' => .error e'
      | .ok _ => .error e)
    | .ok (z, prims) => match saveAttr full folder name m bang v with
      | .error e => .error e
      | .ok (z1, p1) => .ok (z1 ++ z, p1 ++ prims)
/-- L52-70: one attribute. Opaque data cannot be saved with `mushroom`; objects and lists of objects can only be saved
with `mushroom` in this model (an object that is pickled as a whole is an opaque datum). -/
def saveAttr (full : Bool) (folder : Path) (name : String) (m : Meth) (bang : Bool) :
    Val D → Except Err (Zip D × List (String × D))
  | .none => .ok ([], [])
  | .data d =>
    if skipped full bang then .ok ([], [])
    else match m with
      | .primitive => .ok ([], [(name, d)])
      | .none => .ok ([], [])
      | .other => .error .notImplemented
      | .mushroom => .error .attribute
      | .numpy | .torch | .json | .pickle => .ok ([(folder ++ [.file name m], .data m d)], [])
  | .obj o =>
    if skipped full bang then .ok ([], [])
    else match m with
      | .none => .ok ([], [])
      | .mushroom => (match saveObj full (folder ++ [.file name m]) o with
        | .error e => .error e
        | .ok z => .ok (z, []))
      | _ => .error .notImplemented
  | .list l =>
    if skipped full bang then .ok ([], [])
    else match m with
      | .none => .ok ([], [])
      | .mushroom => (match saveVals full (folder ++ [.file name m]) 0 l with
        | .error e => .error e
        | .ok z => .ok ((folder ++ [.file name m] ++ [.config], .configList l.length) :: z, []))
      | _ => .error .notImplemented
/-- L260-262: the elements of a list. -/
def saveVals (full : Bool) (folder : Path) (i : Nat) : Vals D → Except Err (Zip D)
  | .nil => .ok []
  | .cons v rest =>
    match v with
    | .obj o => (match saveObj full (folder ++ [.idx i]) o with
      | .error e => .error e
      | .ok z => match saveVals full folder (i + 1) rest with
        | .error e => .error e
        | .ok z' => .ok (z ++ z'))
    | _ => .error .attribute
end

/-- Opening an entry of a zip file by name: the last one with that name. -/
def lookup {α β : Type} [DecidableEq α] : List (α × β) → α → Option β
  | [], _ => none
  | (k, x) :: rest, p => match lookup rest p with
    | some y => some y
    | none => if k = p then some x else none

/-- `attrs` with the values given by `f`. -/
def build (f : String → Meth → Bool → Val D) : List (String × Meth × Bool) → Attrs D
  | [] => .nil
  | (n, m, b) :: rest => .cons n m b (f n m b) (build f rest)

/-- The elements `f i, f (i+1), ..., f (i+n-1)`. -/
def buildList (f : Nat → Val D) : Nat → Nat → Vals D
  | _, 0 => .nil
  | i, n + 1 => .cons (f i) (buildList f (i + 1) n)

/-- L101-152 and L220-222: `load_zip`, `_load_list` and `_load_mushroom`. `post cls` is the `_post_load` of the class. The fuel bounds
the nesting depth of the recursion. -/
def loadZip (codec : Meth → D → D) (post : Nat → Attrs D → Attrs D) (z : Zip D) : Nat → Path → Val D
  | 0, _ => .none
  | fuel + 1, folder =>
    match lookup z (folder ++ [.config]) with
    | none => .none                                                          -- L109-110
    | some (.data _ _) => .none                                              -- never: configurations are not data
    | some (.configList len) =>
      .list (buildList (fun i => loadZip codec post z fuel (folder ++ [.idx i])) 0 len)
    | some (.config cls schema prims) =>
      .obj (.mk cls (post cls (build (fun name m bang =>
        match (if m = .primitive then lookup prims name else none) with      -- L125-126
        | some d => .data (codec m d)
        | none => match lookup z (folder ++ [.file name m]) with             -- L127-137
          | some (.data m' d) => .data (codec m' d)
          | some _ => .none                                                  -- never: files are data
          | none =>
            if m = .mushroom ∧ bang = false then loadZip codec post z fuel (folder ++ [.file name m])
            else .none) schema)))

end Verif.Serialization
