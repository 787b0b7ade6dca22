/-
Specification of what a loaded object has (C115). `Table.lean` lists the classes.
-/
import Verif.Serialization.Table
import Verif.Serialization.Spec

namespace Verif.Serialization

variable {D : Type}

/-- The value of an attribute: `getattr`, where `none` is an `AttributeError`. -/
def Attrs.get? : Attrs D → String → Option (Val D)
  | .nil, _ => none
  | .cons n _ _ v rest, x => if n = x then some v else rest.get? x

def Obj.get? : Obj D → String → Option (Val D)
  | .mk _ attrs, x => attrs.get? x

def Obj.cls : Obj D → Nat
  | .mk k _ => k

namespace Table

/-- The names that a loaded instance of the class has: the registered ones, and those that `_post_load` sets. -/
def restoredNames (c : Cls) : List String := (c.registered.map (·.1.name)) ++ c.post.map Attr.name

/-- The `_save_attributes` of an object are those that the constructor registers; the method of an attribute registered
with `_get_serialization_method` can be anything. -/
def Matches : List (String × Meth × Bool) → List (Attr × Option Meth × Bool) → Prop
  | [], [] => True
  | (n, m, b) :: s, (a, om, b') :: r => n = a.name ∧ b = b' ∧ (om = none ∨ om = some m) ∧ Matches s r
  | _, _ => False

/-! `o` and the objects in it are instances of the classes of the table (class numbers are positions), whose
`_save_attributes` are what their constructor registers, and `P` holds for all their classes. -/
mutual
def InstObj (P : Cls → Prop) : Obj D → Prop
  | .mk k attrs => (∃ c, allClasses[k]? = some c ∧ Matches attrs.schema c.registered ∧ P c) ∧ InstAttrs P attrs
def InstAttrs (P : Cls → Prop) : Attrs D → Prop
  | .nil => True
  | .cons _ _ _ v rest => InstVal P v ∧ InstAttrs P rest
def InstVal (P : Cls → Prop) : Val D → Prop
  | .none => True
  | .data _ => True
  | .obj o => InstObj P o
  | .list l => InstVals P l
def InstVals (P : Cls → Prop) : Vals D → Prop
  | .nil => True
  | .cons v rest => InstVal P v ∧ InstVals P rest
end

/-! `o` and the objects in it have all the attributes `need c` of their class `c`: no `getattr` of them raises. -/
mutual
def HasObj (need : Cls → List Attr) : Obj D → Prop
  | .mk k attrs => (∃ c, allClasses[k]? = some c ∧ ∀ a ∈ need c, (attrs.get? a.name).isSome) ∧ HasAttrs need attrs
def HasAttrs (need : Cls → List Attr) : Attrs D → Prop
  | .nil => True
  | .cons _ _ _ v rest => HasVal need v ∧ HasAttrs need rest
def HasVal (need : Cls → List Attr) : Val D → Prop
  | .none => True
  | .data _ => True
  | .obj o => HasObj need o
  | .list l => HasVals need l
def HasVals (need : Cls → List Attr) : Vals D → Prop
  | .nil => True
  | .cons v rest => HasVal need v ∧ HasVals need rest
end

/-- `post` does what the `_post_load` methods do to the set of attributes of an object: it adds those of the table. -/
def PostNames (post : Nat → Attrs D → Attrs D) : Prop :=
  ∀ k c a x, allClasses[k]? = some c → (x ∈ (post k a).names ↔ x ∈ a.names ∨ x ∈ c.post.map Attr.name)

/-- Objects that `post` creates have what they need. -/
def PostHas (need : Cls → List Attr) (post : Nat → Attrs D → Attrs D) : Prop :=
  ∀ k a, HasAttrs need a → HasAttrs need (post k a)

/-- The classes with a method that reads an attribute that a loaded instance does not have, and these attributes.
`DeepAC` is abstract, and its concrete subclasses are not in the list. -/
def lossy : List (String × List Attr) := [
  ("DeepAC", [._parameters]),
  ("PPO_BPTT", [._truncation_length]),
  ("MORE", [.phi_quadratic_, .phi_linear_, .regressor_quadratic, .regressor_linear]),
  ("Regressor", [._loss_filename]),
  ("ExtraInfo", [._n_envs, ._device, ._array_backend]),
  ("ListDataset", [._mask]),
  ("TorchDataset", [._mask]),
  ("RecurrentGaussianTorchPolicy", [._log_std_min, ._log_std_max]),
  ("AdamOptimizer", [._eps])]

/-- The attributes that the constructor assigns, that no method of the class reads, and that a loaded instance does not
have. -/
def lossyUnread : List (String × List Attr) := [
  ("DatasetInfo", [.device]),
  ("OrnsteinUhlenbeckPolicy", [._x_prev])]

/-- Names of the classes in a list. -/
def Listed (l : List (String × List Attr)) (c : Cls) : Prop := c.name ∈ l.map (·.1)

end Table

end Verif.Serialization
