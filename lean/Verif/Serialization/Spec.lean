/-
Specification vocabulary for saving and loading.
-/
import Verif.Serialization.Model

namespace Verif.Serialization

variable {D : Type}

/-- What the documentation promises: everything but `none` attributes is restored, '!' attributes only after a full
save. -/
def promised (full : Bool) (m : Meth) (bang : Bool) : Bool := m != .none && (!bang || full)

/-- What the code does: in addition, `mushroom!` attributes are never restored. -/
def restored (full : Bool) (m : Meth) (bang : Bool) : Bool := promised full m bang && !(m == .mushroom && bang)

/-! The object in which the attributes that are not kept are `None`, recursively; `codec` is applied to the data and
`post` (the `_post_load` methods) to the objects. -/
mutual
def Obj.restrict (keep : Meth → Bool → Bool) (codec : Meth → D → D) (post : Nat → Attrs D → Attrs D) : Obj D → Obj D
  | .mk cls attrs => .mk cls (post cls (attrs.restrict keep codec post))
def Attrs.restrict (keep : Meth → Bool → Bool) (codec : Meth → D → D) (post : Nat → Attrs D → Attrs D) :
    Attrs D → Attrs D
  | .nil => .nil
  | .cons n m b v rest =>
    .cons n m b (if keep m b then v.restrict keep codec post m else .none) (rest.restrict keep codec post)
def Val.restrict (keep : Meth → Bool → Bool) (codec : Meth → D → D) (post : Nat → Attrs D → Attrs D) (m : Meth) :
    Val D → Val D
  | .none => .none
  | .data d => .data (codec m d)
  | .obj o => .obj (o.restrict keep codec post)
  | .list l => .list (l.restrict keep codec post)
def Vals.restrict (keep : Meth → Bool → Bool) (codec : Meth → D → D) (post : Nat → Attrs D → Attrs D) :
    Vals D → Vals D
  | .nil => .nil
  | .cons v rest => .cons (v.restrict keep codec post .mushroom) (rest.restrict keep codec post)
end

/-- Names of the attributes. -/
def Attrs.names : Attrs D → List String
  | .nil => []
  | .cons n _ _ _ rest => n :: rest.names

/-! Attribute names are pairwise different (they are the keys of a dictionary), recursively. -/
mutual
def Obj.Keys : Obj D → Prop
  | .mk _ attrs => attrs.names.Nodup ∧ attrs.Keys
def Attrs.Keys : Attrs D → Prop
  | .nil => True
  | .cons _ _ _ v rest => v.Keys ∧ rest.Keys
def Val.Keys : Val D → Prop
  | .none => True
  | .data _ => True
  | .obj o => o.Keys
  | .list l => l.Keys
def Vals.Keys : Vals D → Prop
  | .nil => True
  | .cons v rest => v.Keys ∧ rest.Keys
end

/-! Values fit their save methods: data with one of the data methods, objects and lists of objects with `mushroom`. -/
mutual
def Obj.Savable : Obj D → Prop
  | .mk _ attrs => attrs.Savable
def Attrs.Savable : Attrs D → Prop
  | .nil => True
  | .cons _ m _ v rest => v.Savable m ∧ rest.Savable
def Val.Savable (m : Meth) : Val D → Prop
  | .none => True
  | .data _ => m ≠ .mushroom ∧ m ≠ .other
  | .obj o => m = .mushroom ∧ o.Savable
  | .list l => m = .mushroom ∧ l.Savable
def Vals.Savable : Vals D → Prop
  | .nil => True
  | .cons v rest => (∃ o, v = .obj o) ∧ v.Savable .mushroom ∧ rest.Savable
end

/-! No attribute registered as `mushroom!` has a value, recursively. -/
mutual
def Obj.NoBangMushroom : Obj D → Prop
  | .mk _ attrs => attrs.NoBangMushroom
def Attrs.NoBangMushroom : Attrs D → Prop
  | .nil => True
  | .cons _ m b v rest => (m = .mushroom → b = true → v = .none) ∧ v.NoBangMushroom ∧ rest.NoBangMushroom
def Val.NoBangMushroom : Val D → Prop
  | .none => True
  | .data _ => True
  | .obj o => o.NoBangMushroom
  | .list l => l.NoBangMushroom
def Vals.NoBangMushroom : Vals D → Prop
  | .nil => True
  | .cons v rest => v.NoBangMushroom ∧ rest.NoBangMushroom
end

/-- `load(save(obj, full_save))`: the file is read with enough recursion depth (any larger depth gives the same). -/
def LoadsTo (codec : Meth → D → D) (post : Nat → Attrs D → Attrs D) (z : Zip D) (v : Val D) : Prop :=
  ∃ n0, ∀ n, n0 ≤ n → loadZip codec post z n [] = v

end Verif.Serialization
