/-
C115: what a loaded object has.
-/
import Verif.Serialization.SpecTable
import Verif.Serialization.Props
import Mathlib.Logic.Basic
import Mathlib.Tactic.ByContra

namespace Verif.Serialization.Table

variable {D : Type}

set_option maxRecDepth 100000

/-- Which of the attributes `l` are neither registered nor restored by `_post_load`. -/
def lost (c : Cls) (l : List Attr) : List Attr :=
  l.filter (fun a => !(c.registered.map (·.1)).contains a && !c.post.contains a)

/-- The classes with lost attributes in `l c`. -/
def losses (l : Cls → List Attr) : List (String × List Attr) :=
  (allClasses.filter (fun c => !(lost c (l c)).isEmpty)).map (fun c => (c.name, lost c (l c)))

/-- C115, the account of all the classes: the attributes that are read by a method and lost by saving and loading are
exactly those of `lossy`. -/
theorem C115_lossy_classes : losses Cls.reads = lossy := by
  decide +kernel

/-- C115, the other attributes set by a constructor and lost. -/
theorem C115_lossy_unread :
    losses (fun c => c.sets.filter (fun a => !c.reads.contains a)) = lossyUnread := by
  decide +kernel

theorem get?_isSome (as : Attrs D) (x : String) : (as.get? x).isSome ↔ x ∈ as.names := by
  match as with
  | .nil => simp [Attrs.get?, Attrs.names]
  | .cons n m b v rest =>
    have := get?_isSome rest x
    by_cases h : n = x
    · simp [Attrs.get?, Attrs.names, h]
    · simp only [Attrs.get?, if_neg h, Attrs.names, List.mem_cons, this]
      constructor
      · exact Or.inr
      · rintro (e | e)
        · exact absurd e.symm h
        · exact e

theorem names_restrict (keep : Meth → Bool → Bool) (codec : Meth → D → D) (post : Nat → Attrs D → Attrs D)
    (as : Attrs D) : (as.restrict keep codec post).names = as.names := by
  match as with
  | .nil => rfl
  | .cons n m b v rest => simp [Attrs.restrict, Attrs.names, names_restrict keep codec post rest]

theorem matches_names (as : Attrs D) (r : List (Attr × Option Meth × Bool)) (h : Matches as.schema r) :
    as.names = r.map (·.1.name) := by
  match as, r with
  | .nil, [] => rfl
  | .nil, _ :: _ => exact h.elim
  | .cons n m b v rest, [] => exact h.elim
  | .cons n m b v rest, (a, om, b') :: r => simp [Attrs.names, matches_names rest r h.2.2.2, h.1]

theorem name_mem (c : Cls) (a : Attr) (l : List Attr) (ha : a ∈ l) (hl : lost c l = []) :
    a.name ∈ restoredNames c := by
  have : ¬ (!(c.registered.map (·.1)).contains a && !c.post.contains a) = true := by
    intro h
    have : a ∈ lost c l := List.mem_filter.2 ⟨ha, h⟩
    rw [hl] at this
    exact absurd this (by simp)
  simp only [Bool.and_eq_true, Bool.not_eq_true', not_and_or, Bool.not_eq_false, List.contains_iff_mem] at this
  unfold restoredNames
  rcases this with h | h
  · obtain ⟨e, he, rfl⟩ := List.mem_map.1 h
    exact List.mem_append_left _ (List.mem_map.2 ⟨e, he, rfl⟩)
  · exact List.mem_append_right _ (List.mem_map.2 ⟨a, h, rfl⟩)

/-- Outside the list nothing is lost. -/
theorem lost_of_not_listed (l : Cls → List Attr) (k : Nat) (c : Cls) (hk : allClasses[k]? = some c)
    (h : ¬ Listed (losses l) c) : lost c (l c) = [] := by
  by_contra hne
  apply h
  have hc : c ∈ allClasses := List.mem_of_getElem? hk
  refine List.mem_map.2 ⟨(c.name, lost c (l c)), List.mem_map.2 ⟨c, List.mem_filter.2 ⟨hc, ?_⟩, rfl⟩, rfl⟩
  simpa using hne

section

variable (need : Cls → List Attr) (P : Cls → Prop) (keep : Meth → Bool → Bool) (codec : Meth → D → D)
  (post : Nat → Attrs D → Attrs D) (hP : ∀ (k : Nat) c, allClasses[k]? = some c → P c → lost c (need c) = [])
  (hn : PostNames post) (hh : PostHas need post)

include hP hn hh

mutual
theorem has_obj (o : Obj D) (h : InstObj P o) : HasObj need (o.restrict keep codec post) := by
  match o with
  | .mk k attrs =>
    obtain ⟨⟨c, hc, hnames, hp⟩, ha⟩ := h
    refine ⟨⟨c, hc, fun a hneed => ?_⟩, hh k _ (has_attrs attrs ha)⟩
    rw [get?_isSome, hn k c _ _ hc, names_restrict, matches_names _ _ hnames]
    exact List.mem_append.1 (name_mem c a (need c) hneed (hP k c hc hp))
theorem has_attrs (as : Attrs D) (h : InstAttrs P as) : HasAttrs need (as.restrict keep codec post) := by
  match as with
  | .nil => trivial
  | .cons n m b v rest =>
    refine ⟨?_, has_attrs rest h.2⟩
    split
    · exact has_val v m h.1
    · trivial
theorem has_val (v : Val D) (m : Meth) (h : InstVal P v) : HasVal need (v.restrict keep codec post m) := by
  match v with
  | .none => trivial
  | .data d => trivial
  | .obj o => exact has_obj o h
  | .list l => exact has_vals l h
theorem has_vals (l : Vals D) (h : InstVals P l) : HasVals need (l.restrict keep codec post) := by
  match l with
  | .nil => trivial
  | .cons v rest => exact ⟨has_val v _ h.1, has_vals rest h.2⟩
end

end

/-- C115 (partial: outside the classes of `lossy`). Any object of the library, in any state, whose values fit their save
methods can be saved, and after loading it, and recursively the objects in it, have every attribute that a method of
their class reads. -/
theorem C115_loaded_partial (codec : Meth → D → D) (post : Nat → Attrs D → Attrs D) (full : Bool) (o : Obj D)
    (hs : o.Savable) (hk : o.Keys) (ho : InstObj (fun c => ¬ Listed lossy c) o)
    (hn : PostNames post) (hh : PostHas Cls.reads post) :
    ∃ z o', saveObj full [] o = .ok z ∧ LoadsTo codec post z (.obj o') ∧ o'.cls = o.cls ∧ HasObj Cls.reads o' := by
  obtain ⟨z, hz, hl⟩ := C20_load_save codec post full o hs hk
  refine ⟨z, _, hz, hl, by cases o; rfl, ?_⟩
  refine has_obj Cls.reads _ _ codec post (fun k c hc hp => lost_of_not_listed _ k c hc ?_) hn hh o ho
  rw [C115_lossy_classes]
  exact hp

/-- C115 (partial: outside the classes of both lists). Then they have every attribute that the constructor assigned. -/
theorem C115_loaded_all_partial (codec : Meth → D → D) (post : Nat → Attrs D → Attrs D) (full : Bool) (o : Obj D)
    (hs : o.Savable) (hk : o.Keys) (ho : InstObj (fun c => ¬ Listed (lossy ++ lossyUnread) c) o)
    (hn : PostNames post) (hh : PostHas Cls.sets post) :
    ∃ z o', saveObj full [] o = .ok z ∧ LoadsTo codec post z (.obj o') ∧ o'.cls = o.cls ∧ HasObj Cls.sets o' := by
  obtain ⟨z, hz, hl⟩ := C20_load_save codec post full o hs hk
  refine ⟨z, _, hz, hl, by cases o; rfl, ?_⟩
  refine has_obj Cls.sets _ _ codec post (fun k c hc hp => ?_) hn hh o ho
  simp only [Listed, List.map_append, List.mem_append, not_or] at hp
  have h1 := lost_of_not_listed Cls.reads k c hc (by rw [C115_lossy_classes]; exact hp.1)
  have h2 := lost_of_not_listed (fun c => c.sets.filter (fun a => !c.reads.contains a)) k c hc
    (by rw [C115_lossy_unread]; exact hp.2)
  simp only [lost, List.filter_eq_nil_iff] at h1 h2 ⊢
  intro a ha
  by_cases hr : a ∈ c.reads
  · exact h1 a hr
  · exact h2 a (List.mem_filter.2 ⟨ha, by simpa using hr⟩)

/-- What the lists say, on the names. -/
theorem lists_names : ∀ c ∈ allClasses, ∀ p ∈ lossy ++ lossyUnread, p.1 = c.name →
    ∀ a ∈ p.2, a.name ∉ restoredNames c := by
  decide +kernel

/-- Finding, for every class of both lists: whatever the state of the object and the kind of save, the loaded object
does not have the attribute, and reading it raises an `AttributeError`. -/
theorem C115_lost_refuted (codec : Meth → D → D) (post : Nat → Attrs D → Attrs D) (full : Bool) (o : Obj D)
    (hs : o.Savable) (hk : o.Keys) (hn : PostNames post) (c : Cls) (ho : InstObj (fun _ => True) o)
    (hc : allClasses[o.cls]? = some c) (a : Attr) (l : List Attr) (hl : (c.name, l) ∈ lossy ++ lossyUnread) (ha : a ∈ l) :
    ∃ z o', saveObj full [] o = .ok z ∧ LoadsTo codec post z (.obj o') ∧ o'.cls = o.cls ∧ o'.get? a.name = none := by
  obtain ⟨z, hz, hl'⟩ := C20_load_save codec post full o hs hk
  refine ⟨z, _, hz, hl', by cases o; rfl, ?_⟩
  have hno := lists_names c (List.mem_of_getElem? hc) _ hl rfl a ha
  obtain ⟨k, attrs⟩ := o
  obtain ⟨⟨c', hc', hnames, -⟩, -⟩ := ho
  have : c' = c := by
    have : some c' = some c := hc'.symm.trans hc
    exact Option.some.inj this
  subst this
  show ((post k _).get? a.name) = none
  rw [← Option.not_isSome_iff_eq_none, get?_isSome, hn k c' _ _ hc', names_restrict, matches_names _ _ hnames]
  intro h
  exact hno (List.mem_append.2 h)

/-- Finding: the step information of a loaded dataset of any backend has no number of environments, no backend and no
device, so that `append`, views, `flatten` and `+` of a loaded dataset, which read them (dataset.py and extra_info.py
L35, L53, L110, L136, L209, L226), raise an `AttributeError`. -/
theorem C115_loaded_dataset_refuted (codec : Meth → D → D) (post : Nat → Attrs D → Attrs D) (full : Bool) (o i : Obj D)
    (hs : o.Savable) (hk : o.Keys) (ho : InstObj (fun _ => True) o) (hd : allClasses[o.cls]? = some dataset)
    (hi : o.get? "_info" = some (.obj i)) (he : allClasses[i.cls]? = some extraInfo)
    (hp : ∀ k c a, allClasses[k]? = some c → c = dataset ∨ c = extraInfo → post k a = a) :
    ∃ z o' i', saveObj full [] o = .ok z ∧ LoadsTo codec post z (.obj o') ∧ o'.get? "_info" = some (.obj i') ∧
      i'.cls = i.cls ∧ i'.get? "_n_envs" = none ∧ i'.get? "_array_backend" = none ∧ i'.get? "_device" = none := by
  obtain ⟨z, hz, hl'⟩ := C20_load_save codec post full o hs hk
  obtain ⟨k, attrs⟩ := o
  obtain ⟨⟨c', hc', hm, -⟩, ha⟩ := ho
  have : c' = dataset := Option.some.inj (hc'.symm.trans hd)
  subst this
  match attrs, hm, ha with
  | .cons n m b v rest, hm, ha =>
    simp only [Attrs.schema, dataset, Matches, Attr.name, Option.some.injEq, reduceCtorEq, false_or] at hm
    obtain ⟨rfl, rfl, rfl, -⟩ := hm
    have hv : v = .obj i := by simpa [Obj.get?, Attrs.get?] using hi
    subst hv
    refine ⟨z, _, i.restrict (restored full) codec post, hz, hl', ?_, by cases i; rfl, ?_⟩
    · show (post k _).get? "_info" = _
      rw [hp k _ _ hd (Or.inl rfl)]
      cases full <;> simp [Attrs.restrict, Attrs.get?, restored, promised, Val.restrict]
    · have hoi : InstObj (fun _ => True) i := ha.1
      have key : ∀ a : Attr, a ∈ [Attr._n_envs, ._device, ._array_backend] →
          (i.restrict (restored full) codec post).get? a.name = none := by
        intro a hmem
        have hno := lists_names extraInfo (List.mem_of_getElem? he) ("ExtraInfo", _)
          (by simp [lossy]) rfl a hmem
        obtain ⟨k', attrs'⟩ := i
        obtain ⟨⟨c'', hc'', hm', -⟩, -⟩ := hoi
        have : c'' = extraInfo := Option.some.inj (hc''.symm.trans he)
        subst this
        show ((post k' _).get? a.name) = none
        rw [hp k' _ _ he (Or.inr rfl), ← Option.not_isSome_iff_eq_none, get?_isSome, names_restrict,
          matches_names _ _ hm']
        intro h
        exact hno (List.mem_append_left _ h)
      exact ⟨key ._n_envs (by simp), key ._array_backend (by simp), key ._device (by simp)⟩

/-! ### The hypotheses are met -/

/-- An instance of class `k` with the given values. -/
def inst (k : Nat) (c : Cls) (f : String → Val Nat) : Obj Nat :=
  .mk k (build (fun n _ _ => f n) (c.registered.map (fun e => (e.1.name, e.2.1.getD .mushroom, e.2.2))))

/-- A `_post_load` that puts the attributes of the table in front. -/
def addNames (a : Attrs Nat) : List String → Attrs Nat
  | [] => a
  | n :: l => .cons n .none false (.data 0) (addNames a l)

def stdPost (k : Nat) (a : Attrs Nat) : Attrs Nat :=
  match allClasses[k]? with
  | some c => addNames a (c.post.map Attr.name)
  | none => a

theorem names_addNames (a : Attrs Nat) (l : List String) (x : String) :
    x ∈ (addNames a l).names ↔ x ∈ a.names ∨ x ∈ l := by
  induction l with
  | nil => simp [addNames]
  | cons n l ih =>
    simp only [addNames, Attrs.names, List.mem_cons, ih]
    constructor
    · rintro (h | h | h)
      exacts [Or.inr (Or.inl h), Or.inl h, Or.inr (Or.inr h)]
    · rintro (h | h | h)
      exacts [Or.inr (Or.inl h), Or.inl h, Or.inr (Or.inr h)]

theorem stdPost_names : PostNames stdPost := by
  intro k c a x hc
  simp only [stdPost, hc]
  exact names_addNames a _ x

theorem stdPost_has (need : Cls → List Attr) : PostHas need stdPost := by
  intro k a h
  unfold stdPost
  cases allClasses[k]? with
  | none => exact h
  | some c =>
    show HasAttrs need (addNames a (c.post.map Attr.name))
    generalize c.post.map Attr.name = l
    induction l with
    | nil => exact h
    | cons n l ih => exact ⟨trivial, ih⟩

theorem schema_build (f : String → Meth → Bool → Val Nat) (l : List (String × Meth × Bool)) :
    (build f l).schema = l := by
  induction l with
  | nil => rfl
  | cons e l ih => simp [build, Attrs.schema, ih]

theorem matches_self (r : List (Attr × Option Meth × Bool)) :
    Matches (r.map (fun e => (e.1.name, e.2.1.getD .mushroom, e.2.2))) r := by
  induction r with
  | nil => trivial
  | cons e r ih =>
    obtain ⟨a, m, b⟩ := e
    refine ⟨rfl, rfl, ?_, ih⟩
    cases m
    · exact Or.inl rfl
    · exact Or.inr rfl

theorem inst_ok (P : Cls → Prop) (k : Nat) (c : Cls) (f : String → Val Nat) (hc : allClasses[k]? = some c) (hp : P c)
    (hf : ∀ n, InstVal P (f n)) : InstObj P (inst k c f) := by
  refine ⟨⟨c, hc, ?_, hp⟩, ?_⟩
  · rw [schema_build]
    exact matches_self _
  · generalize c.registered.map (fun e => (e.1.name, e.2.1.getD .mushroom, e.2.2)) = l
    induction l with
    | nil => trivial
    | cons e l ih => exact ⟨hf _, ih⟩

/-- A learning rate, an SGD optimiser and an Adam optimiser. -/
def exLr : Obj Nat := inst 110 parameter (fun n => if n = "_n_updates" then .none else .data 1)
def exSgd : Obj Nat := inst 108 sGDOptimizer (fun n => if n = "_lr" then .obj exLr else .data 0)
def exAdam : Obj Nat := inst 109 adamOptimizer (fun n => if n = "_lr" then .obj exLr else .data 0)

example : exSgd.Savable ∧ exSgd.Keys ∧ InstObj (fun c => ¬ Listed (lossy ++ lossyUnread) c) exSgd ∧
    exAdam.Savable ∧ exAdam.Keys ∧ InstObj (fun _ => True) exAdam ∧ allClasses[exAdam.cls]? = some adamOptimizer ∧
    (adamOptimizer.name, [Attr._eps]) ∈ lossy ++ lossyUnread := by
  refine ⟨?_, ?_, ?_, ?_, ?_, ?_, rfl, by simp [lossy, adamOptimizer]⟩
  · simp [exSgd, exLr, inst, sGDOptimizer, parameter, build, Attr.name, Obj.Savable, Attrs.Savable, Val.Savable]
  · simp [exSgd, exLr, inst, sGDOptimizer, parameter, build, Attr.name, Obj.Keys, Attrs.Keys, Val.Keys, Attrs.names]
  · refine inst_ok _ _ _ _ rfl (by unfold Listed; decide +kernel) (fun n => ?_)
    split
    · refine inst_ok _ _ _ _ rfl (by unfold Listed; decide +kernel) (fun n => ?_)
      split <;> trivial
    · trivial
  · simp [exAdam, exLr, inst, adamOptimizer, parameter, build, Attr.name, Obj.Savable, Attrs.Savable, Val.Savable]
  · simp [exAdam, exLr, inst, adamOptimizer, parameter, build, Attr.name, Obj.Keys, Attrs.Keys, Val.Keys, Attrs.names]
  · refine inst_ok _ _ _ _ rfl trivial (fun n => ?_)
    split
    · refine inst_ok _ _ _ _ rfl trivial (fun n => ?_)
      split <;> trivial
    · trivial

/-- A dataset. -/
def exInfo : Obj Nat := inst 71 extraInfo (fun _ => .data 3)
def exData : Obj Nat :=
  inst 68 dataset (fun n => if n = "_info" then .obj exInfo else if n = "_theta_list" then .data 1 else .none)

example : exData.Savable ∧ exData.Keys ∧ InstObj (fun _ => True) exData ∧ allClasses[exData.cls]? = some dataset ∧
    exData.get? "_info" = some (.obj exInfo) ∧ allClasses[exInfo.cls]? = some extraInfo := by
  refine ⟨?_, ?_, inst_ok _ _ _ _ rfl trivial (fun n => ?_), rfl, ?_, rfl⟩
  · simp [exData, exInfo, inst, dataset, extraInfo, build, Attr.name, Obj.Savable, Attrs.Savable, Val.Savable]
  · simp [exData, exInfo, inst, dataset, extraInfo, build, Attr.name, Obj.Keys, Attrs.Keys, Val.Keys, Attrs.names]
  · split
    · exact inst_ok _ _ _ _ rfl trivial (fun _ => trivial)
    · split <;> trivial
  · simp [exData, inst, dataset, build, Attr.name, Obj.get?, Attrs.get?]

end Verif.Serialization.Table
