/-
Properties of saving and loading: C20.
-/
import Verif.Serialization.Lemmas

namespace Verif.Serialization

variable {D : Type}

/-- C20, what the code does, exactly. Every object whose values fit their save methods can be saved, and loading the
file gives the object with the same class and the same attributes, in which the values registered as `none`, the '!'
ones (unless `full_save`) and the `mushroom!` ones are `None`, recursively in objects and lists of objects. -/
theorem C20_load_save (codec : Meth → D → D) (post : Nat → Attrs D → Attrs D) (full : Bool) (o : Obj D)
    (hs : o.Savable) (hk : o.Keys) :
    ∃ z, saveObj full [] o = .ok z ∧ LoadsTo codec post z (.obj (o.restrict (restored full) codec post)) := by
  obtain ⟨z, hz⟩ := save_obj_ok full o hs []
  exact ⟨z, hz, load_obj codec post full o hk [] z z hz (fun _ _ => rfl)⟩

/-- C20 (partial: no attribute registered as `mushroom!` has a value). Loading gives back everything the
documentation promises. -/
theorem C20_load_save_partial (codec : Meth → D → D) (post : Nat → Attrs D → Attrs D) (full : Bool) (o : Obj D)
    (hs : o.Savable) (hk : o.Keys) (hb : o.NoBangMushroom) :
    ∃ z, saveObj full [] o = .ok z ∧ LoadsTo codec post z (.obj (o.restrict (promised full) codec post)) := by
  rw [← restrict_obj codec post full o hb]
  exact C20_load_save codec post full o hs hk

/-! With faithful encoders and no `_post_load`, and with no `none` attribute, a full save is the identity. -/
mutual
def Obj.NoNone : Obj D → Prop
  | .mk _ attrs => attrs.NoNone
def Attrs.NoNone : Attrs D → Prop
  | .nil => True
  | .cons _ m _ v rest => m ≠ .none ∧ v.NoNone ∧ rest.NoNone
def Val.NoNone : Val D → Prop
  | .none => True
  | .data _ => True
  | .obj o => o.NoNone
  | .list l => l.NoNone
def Vals.NoNone : Vals D → Prop
  | .nil => True
  | .cons v rest => v.NoNone ∧ rest.NoNone
end

mutual
theorem restrict_id_obj (o : Obj D) (h : o.NoNone) : o.restrict (promised true) (fun _ d => d) (fun _ a => a) = o := by
  match o with
  | .mk cls attrs => simp only [Obj.restrict, restrict_id_attrs attrs h]
theorem restrict_id_attrs (as : Attrs D) (h : as.NoNone) :
    as.restrict (promised true) (fun _ d => d) (fun _ a => a) = as := by
  match as with
  | .nil => rfl
  | .cons n m b v rest =>
    simp only [Attrs.restrict, restrict_id_attrs rest h.2.2, restrict_id_val v m h.2.1]
    have : promised true m b = true := by
      have := h.1
      cases m <;> cases b <;> simp_all [promised]
    rw [if_pos this]
theorem restrict_id_val (v : Val D) (m : Meth) (h : v.NoNone) :
    v.restrict (promised true) (fun _ d => d) (fun _ a => a) m = v := by
  match v with
  | .none => rfl
  | .data d => rfl
  | .obj o => simp only [Val.restrict, restrict_id_obj o h]
  | .list l => simp only [Val.restrict, restrict_id_vals l h]
theorem restrict_id_vals (l : Vals D) (h : l.NoNone) :
    l.restrict (promised true) (fun _ d => d) (fun _ a => a) = l := by
  match l with
  | .nil => rfl
  | .cons v rest => simp only [Vals.restrict, restrict_id_val v _ h.1, restrict_id_vals rest h.2]
end

/-- C20, the round trip of a full save: with encoders that give back what they were given, an object with no `none`
and no `mushroom!` attributes is loaded unchanged. -/
theorem C20_full_round_trip_partial (o : Obj D) (hs : o.Savable) (hk : o.Keys) (hb : o.NoBangMushroom) (hn : o.NoNone) :
    ∃ z, saveObj true [] o = .ok z ∧ LoadsTo (fun _ d => d) (fun _ a => a) z (.obj o) := by
  have := C20_load_save_partial (fun _ d => d) (fun _ a => a) true o hs hk hb
  rwa [restrict_id_obj o hn] at this

/-- C20, error branch: a value registered with an unknown method raises. -/
theorem C20_unknown_method_raises (cls : Nat) (n : String) (d : D) (rest : Attrs D) (full : Bool) (f : Path) :
    saveObj full f (.mk cls (.cons n .other false (.data d) rest)) = .error .notImplemented := by
  simp only [saveObj, saveAttrs]
  cases saveAttrs full f rest with
  | error e => simp [saveAttr, skipped]
  | ok q => simp [saveAttr, skipped]

/-- An object with a primitive, a numpy and a pickle! attribute, an object and a list of objects. -/
def inner1 : Obj Nat := .mk 2 (.cons "w" .numpy false (.data 5) (.cons "c" .none false (.data 6) .nil))
def demo : Obj Nat := .mk 1 (.cons "a" .primitive false (.data 1) (.cons "b" .pickle true (.data 2)
  (.cons "o" .mushroom false (.obj inner1) (.cons "l" .mushroom false (.list (.cons (.obj inner1) .nil)) .nil))))

example : demo.Savable ∧ demo.Keys ∧ demo.NoBangMushroom := by
  simp [demo, inner1, Obj.Savable, Attrs.Savable, Val.Savable, Vals.Savable, Obj.Keys, Attrs.Keys, Val.Keys, Vals.Keys,
    Attrs.names, Obj.NoBangMushroom, Attrs.NoBangMushroom, Val.NoBangMushroom, Vals.NoBangMushroom]

/-- Without `full_save` the attribute `b` and the `none` attributes are lost, the others are kept. -/
example : demo.restrict (promised false) (fun _ d => d) (fun _ a => a) =
    let i : Obj Nat := .mk 2 (.cons "w" .numpy false (.data 5) (.cons "c" .none false .none .nil))
    .mk 1 (.cons "a" .primitive false (.data 1) (.cons "b" .pickle true .none
      (.cons "o" .mushroom false (.obj i) (.cons "l" .mushroom false (.list (.cons (.obj i) .nil)) .nil)))) := by
  rfl

/-! ### The replay memory -/

/-- The attributes of `ReplayMemory` that matter here (replay_memory.py L39-48), with data `n` for numbers. -/
def replay (idx full : Val Nat) (dataset : Val Nat) : Attrs Nat :=
  .cons "_max_size" .primitive false (.data 3) (.cons "_idx" .primitive true idx (.cons "_full" .primitive true full
    (.cons "_dataset" .mushroom true dataset .nil)))

/-- replay_memory.py L129-137 and L162-164: `_post_load` resets the memory if `_full` is `None`; class 7 is
`ReplayMemory`, class 8 is `Dataset`; datum 0 is `0` and `False`. -/
def replayPost (cls : Nat) (a : Attrs Nat) : Attrs Nat :=
  if cls = 7 then
    match a with
    | .cons n1 m1 b1 v1 (.cons n2 m2 b2 _ (.cons n3 m3 b3 .none (.cons n4 m4 b4 _ .nil))) =>
      .cons n1 m1 b1 v1 (.cons n2 m2 b2 (.data 0) (.cons n3 m3 b3 (.data 0)
        (.cons n4 m4 b4 (.obj (.mk 8 .nil)) .nil)))
    | a => a
  else a

/-- Finding: the dataset of a replay memory is registered as `mushroom!`. After a full save the loaded memory has the
old write position and flag but no dataset at all, although the documentation promises it; every later `add` or `get`
fails. -/
theorem C20_replay_memory_refuted :
    ∃ z, saveObj true [] (.mk 7 (replay (.data 2) (.data 1) (.obj (.mk 8 (.cons "_data" .numpy false (.data 9) .nil))))) =
        .ok z ∧
      LoadsTo (fun _ d => d) replayPost z (.obj (.mk 7 (replay (.data 2) (.data 1) .none))) ∧
      promised true .mushroom true = true :=
  ⟨_, rfl, ⟨5, fun n hn => by
    obtain ⟨k, rfl⟩ : ∃ k, n = k + 1 := ⟨n - 1, by omega⟩
    rfl⟩, rfl⟩

/-- Without `full_save` the loaded memory is empty and usable. -/
theorem C20_replay_memory_reset :
    ∃ z, saveObj false [] (.mk 7 (replay (.data 2) (.data 1) (.obj (.mk 8 (.cons "_data" .numpy false (.data 9) .nil))))) =
        .ok z ∧
      LoadsTo (fun _ d => d) replayPost z (.obj (.mk 7 (replay (.data 0) (.data 0) (.obj (.mk 8 .nil))))) :=
  ⟨_, rfl, ⟨5, fun n hn => by
    obtain ⟨k, rfl⟩ : ∃ k, n = k + 1 := ⟨n - 1, by omega⟩
    rfl⟩⟩

end Verif.Serialization
