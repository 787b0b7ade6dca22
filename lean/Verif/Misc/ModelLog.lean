/-
Model of /repo/mushroom_rl/utils/plots/databuffer.py and /repo/mushroom_rl/core/logger/data_logger.py.
-/
import Mathlib.Data.EReal.Basic
import Mathlib.Data.List.Basic

namespace Verif.Misc

/-! ### databuffer.py -/

/-- A `deque` with its `maxlen`. -/
structure Deque (α : Type) where
  maxlen : Option ℕ
  items : List α

/-- `deque.append`: a full deque drops its first item. -/
def Deque.append {α : Type} (d : Deque α) (x : α) : Deque α :=
  match d.maxlen with
  | none => { d with items := d.items ++ [x] }
  | some 0 => d
  | some (n + 1) => { d with items := if d.items.length < n + 1 then d.items ++ [x] else d.items.drop 1 ++ [x] }

/-- `deque.extend`. -/
def Deque.extend {α : Type} (d : Deque α) (l : List α) : Deque α := l.foldl Deque.append d

/-- `DataBuffer`. databuffer.py L22-24. -/
structure Buffer (α : Type) where
  deque : Deque α
  tracking : Bool

/-- The methods that change a buffer. databuffer.py L37-84. -/
inductive BufferCall (α : Type)
  | update (data : List α)
  | set (buffer : Deque α)
  | reset
  | enable (status : Bool)

/-- `DataBuffer(name, length)`. databuffer.py L11-26. -/
def Buffer.new {α : Type} (length : Option ℕ) : Buffer α := ⟨⟨length, []⟩, true⟩

/-- A call of a method. databuffer.py L37-84. -/
def Buffer.call {α : Type} (b : Buffer α) : BufferCall α → Buffer α
  | .update data => if b.tracking then { b with deque := b.deque.extend data } else b
  | .set buffer => { b with deque := buffer }
  | .reset => { b with deque := { b.deque with items := [] } }
  | .enable status => { b with tracking := status }

/-! ### data_logger.py -/

/-- File names without the extension are lists of characters. -/
abbrev Name := List Char

/-- `re.split(r'-\d+$', stem)[0]`: a final `-` followed by digits is dropped. data_logger.py L129. -/
def stripSeed (stem : Name) : Name :=
  let digits := stem.reverse.takeWhile Char.isDigit
  match stem.reverse.drop digits.length with
  | '-' :: rest => if digits = [] then stem else rest.reverse
  | _ => stem

/-- The `.npy` files of the directory, in the order of `iterdir`. -/
abbrev Dir (V : Type) := List (Name × List V)

/-- The logger: the suffix, the lists of values by name, and the best performance; `none` is `-inf`. data_logger.py L26-30. -/
structure Logger (V : Type) where
  suffix : Name
  data : List (Name × List V)

/-- Writes to a dictionary. -/
def put {β : Type} (l : List (Name × β)) (k : Name) (v : β) : List (Name × β) :=
  if (l.map Prod.fst).contains k then l.map (fun p => if p.1 = k then (k, v) else p) else l ++ [(k, v)]

/-- `_load_numpy`. data_logger.py L125-131. -/
def loadNumpy {V : Type} (suffix : Name) (dir : Dir V) : List (Name × List V) :=
  dir.foldl (fun d f => if suffix.isSuffixOf f.1 then put d (stripSeed f.1) f.2 else d) []

/-- The constructor. data_logger.py L13-33. -/
def Logger.new {V : Type} (suffix : Name) (append : Bool) (dir : Dir V) : Logger V :=
  ⟨suffix, if append then loadNumpy suffix dir else []⟩

/-- `log_numpy` with one named value. data_logger.py L35-53. -/
def Logger.logNumpy {V : Type} (l : Logger V) (dir : Dir V) (name : Name) (v : V) : Logger V × Dir V :=
  let values := ((l.data.lookup name).getD []) ++ [v]
  ({ l with data := put l.data name values }, put dir (name ++ l.suffix) values)


/-- The best performance of a logger and the file of the best agent. data_logger.py L30. -/
structure Best (A : Type) where
  best : EReal
  file : Option A

/-- `log_best_agent`. data_logger.py L89-108. -/
noncomputable def Best.log {A : Type} (b : Best A) (agent : A) (J : Option EReal) : Best A :=
  match J with
  | none => b
  | some J => open Classical in if b.best ≤ J then ⟨J, some agent⟩ else b

/-- A new logger: the performance is forgotten, the file stays. data_logger.py L30. -/
noncomputable def Best.new {A : Type} (file : Option A) : Best A := ⟨⊥, file⟩

end Verif.Misc
