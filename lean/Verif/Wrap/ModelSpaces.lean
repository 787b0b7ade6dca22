/-
Model of spaces, of the information about an environment and of the registry of environments:
/repo/mushroom_rl/rl_utils/spaces.py, /repo/mushroom_rl/core/environment.py.
-/
import Mathlib.Data.Real.Basic
import Mathlib.Data.List.Basic
import Mathlib.Algebra.BigOperators.Group.List.Basic

namespace Verif.Wrap.Space

/-! ### spaces.py -/

/-- A bound: a Python number, or an array with its shape and its entries. -/
inductive Bound
  | num (x : ℝ)
  | arr (shape : List ℕ) (entries : List ℝ)

/-- `.shape`; numbers have none. -/
def Bound.shape : Bound → Option (List ℕ)
  | .num _ => none
  | .arr s _ => some s

/-- `x + np.zeros(shape)` for a number. -/
def full (shape : List ℕ) (x : ℝ) : Bound := .arr shape (List.replicate shape.prod x)

/-- A `Box`; the data type is left out. -/
structure Box where
  low : Bound
  high : Bound
  shape : List ℕ

/-- `Box.__init__`: `none` for the assertion and for missing attributes. spaces.py L12-52. -/
def mkBox (low high : Bound) : Option (List ℕ) → Option Box
  | none => low.shape.bind (fun s => if high.shape = some s then some ⟨low, high, s⟩ else none)
  | some shape =>
    match low, high with
    | .num l, .num h => some ⟨full shape l, full shape h, shape⟩
    | _, _ => low.shape.bind (fun s => if high.shape = some s then some ⟨low, high, shape⟩ else none)

/-- Saving writes the bounds, and loading takes the shape of the lower one. spaces.py L48-52, L85-86. -/
def Box.reload (b : Box) : Option Box := b.low.shape.map (fun s => ⟨b.low, b.high, s⟩)

/-- A space. -/
inductive Space
  | box (b : Box)
  | discrete (n : ℕ)

/-- `Discrete.values`. spaces.py L103. -/
def discreteValues (n : ℕ) : List ℕ := List.range n

/-- `Space.size`: boxes have none. spaces.py L111-118. -/
def Space.size : Space → Option (List ℕ)
  | .box _ => none
  | .discrete n => some [n]

/-- `Space.shape`. spaces.py L72-79, L120-127. -/
def Space.shape : Space → List ℕ
  | .box b => b.shape
  | .discrete _ => [1]

/-- `MDPInfo.size`. environment.py L41-48. -/
def infoSize (o a : Space) : Option (List ℕ) := o.size.bind (fun x => a.size.map (fun y => x ++ y))

/-- `MDPInfo.shape`. environment.py L50-57. -/
def infoShape (o a : Space) : List ℕ := o.shape ++ a.shape

/-- `Environment._bound`, per entry. environment.py L201-215. -/
noncomputable def bound (x lo hi : ℝ) : ℝ := max lo (min x hi)

/-! ### environment.py: the registry -/

/-- A class: its name, whether it has a `generate` method, and an identity. -/
structure Cls where
  name : List Char
  generator : Bool
  key : ℕ
deriving DecidableEq

/-- The registered classes with their names, in the order of registration. -/
abbrev Registry := List (List Char × Cls)

/-- `register`. environment.py L66-75. -/
def register (r : Registry) (c : Cls) : Registry := if c.name ∈ r.map Prod.fst then r else r ++ [(c.name, c)]

/-- `list_registered`. environment.py L77-86. -/
def listRegistered (r : Registry) : List (List Char) := r.map Prod.fst

/-- `str.split('.')`. -/
def split (sep : Char) : List Char → List (List Char)
  | [] => [[]]
  | c :: l =>
    if c = sep then [] :: split sep l
    else match split sep l with
      | [] => [[c]]
      | p :: rest => (c :: p) :: rest

/-- How an environment is made. -/
inductive Made (Arg : Type)
  | generated (c : Cls) (args : List (List Char ⊕ Arg))
  | constructed (c : Cls) (args : List (List Char ⊕ Arg))

/-- `make`: `none` for an unknown name; keyword arguments are left out. environment.py L88-117. -/
def make {Arg : Type} (r : Registry) (name : List Char) (args : List Arg) : Option (Made Arg) :=
  let parts := if '.' ∈ name then split '.' name else [name]
  let all : List (List Char ⊕ Arg) := parts.tail.map Sum.inl ++ args.map Sum.inr
  (r.lookup (parts.headD [])).map (fun c => if c.generator then .generated c all else .constructed c all)

end Verif.Wrap.Space
