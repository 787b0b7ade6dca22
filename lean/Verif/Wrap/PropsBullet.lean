/-
Properties of the PyBullet environments (C110).
-/
import Verif.Wrap.ModelBullet
import Mathlib.Data.List.Basic
import Mathlib.Data.List.Nodup
import Mathlib.Tactic.NormNum

namespace Verif.Wrap.Bullet

/-! ### Names -/

theorem dict_eq (models : Models) (h : (models.map Prod.fst).Nodup) : dict models = models := by
  have key : ∀ (l acc : Models), ((acc ++ l).map Prod.fst).Nodup → l.foldl putModel acc = acc ++ l := by
    intro l
    induction l with
    | nil => intro acc _; simp
    | cons m l ih =>
      intro acc hn
      have hm : m.1 ∉ acc.map Prod.fst := by
        rw [List.map_append, List.map_cons, List.nodup_append] at hn
        intro hc
        exact hn.2.2 m.1 hc m.1 (by simp) rfl
      rw [List.foldl_cons, putModel, if_neg hm, ih (acc ++ [m]) (by simpa using hn)]
      simp
  simpa [dict] using key models [] (by simpa using h)

theorem fold_map (l : List ((ℕ × ℕ) × Joint)) (p : Joint → Bool) (key : Joint → String) (name : String) (f : String → Option (ℕ × ℕ)) :
    ((l.foldl (fun f j => if p j.2 then f else Function.update f (key j.2) (some j.1)) f) name = f name
      ∧ (∀ j ∈ l, p j.2 = false → key j.2 ≠ name))
    ∨ ∃ j ∈ l, p j.2 = false ∧ key j.2 = name
      ∧ (l.foldl (fun f j => if p j.2 then f else Function.update f (key j.2) (some j.1)) f) name = some j.1 := by
  induction l generalizing f with
  | nil => left; simp
  | cons j l ih =>
    rw [List.foldl_cons]
    rcases ih (if p j.2 then f else Function.update f (key j.2) (some j.1)) with ⟨h1, h2⟩ | ⟨j', h1, h2, h3, h4⟩
    · cases hp : p j.2 with
      | true =>
        left
        rw [hp] at h1
        refine ⟨by simpa [hp] using h1, ?_⟩
        intro j' hj' hpj'
        rcases List.mem_cons.1 hj' with rfl | hj'
        · rw [hp] at hpj'; simp at hpj'
        · exact h2 j' hj' hpj'
      | false =>
        by_cases hk : key j.2 = name
        · right
          refine ⟨j, by simp, hp, hk, ?_⟩
          rw [hp] at h1
          simp only [Bool.false_eq_true, if_false] at h1 ⊢
          rw [h1, ← hk, Function.update_self]
        · left
          refine ⟨?_, ?_⟩
          · rw [hp] at h1
            simp only [Bool.false_eq_true, if_false] at h1 ⊢
            rw [h1, Function.update_of_ne (fun h => hk h.symm)]
          · intro j' hj' hpj'
            rcases List.mem_cons.1 hj' with rfl | hj'
            · exact hk
            · exact h2 j' hj' hpj'
    · right
      exact ⟨j', by simp [h1], h2, h3, h4⟩

theorem mem_allJoints (models : Models) (id : ℕ × ℕ) (j : Joint) :
    (id, j) ∈ allJoints models ↔ ∃ m ∈ dict models, m.2.1 = id.1 ∧ m.2.2[id.2]? = some j := by
  simp only [allJoints, List.mem_flatten, List.mem_map]
  constructor
  · rintro ⟨l, ⟨m, hm, rfl⟩, hl⟩
    obtain ⟨⟨x, i⟩, hx, h⟩ := List.mem_map.1 hl
    rw [List.mem_zipIdx_iff_getElem?] at hx
    simp only [Prod.mk.injEq] at h
    obtain ⟨h1, h2⟩ := h
    subst h1 h2
    exact ⟨m, hm, rfl, hx⟩
  · rintro ⟨m, hm, h1, h2⟩
    refine ⟨_, ⟨m, hm, rfl⟩, List.mem_map.2 ⟨(j, id.2), ?_, ?_⟩⟩
    · rw [List.mem_zipIdx_iff_getElem?]; exact h2
    · rw [h1]

theorem nodup_allJoints (models : Models) (h : ((dict models).map (fun m => m.2.1)).Nodup) : ((allJoints models).map Prod.fst).Nodup := by
  unfold allJoints
  generalize dict models = l at h
  induction l with
  | nil => simp
  | cons m l ih =>
    rw [List.map_cons, List.nodup_cons] at h
    rw [List.map_cons, List.flatten_cons, List.map_append, List.nodup_append]
    refine ⟨?_, ih h.2, ?_⟩
    · rw [List.map_map]
      have : (Prod.fst ∘ fun j : Joint × ℕ => ((m.2.1, j.2), j.1)) = (fun i => (m.2.1, i)) ∘ Prod.snd := rfl
      rw [this, ← List.map_map, List.zipIdx_map_snd]
      apply List.Nodup.map
      · intro a b hab; simpa using hab
      · exact List.nodup_range'
    · intro a ha b hb hab
      subst hab
      obtain ⟨x, hx, rfl⟩ := List.mem_map.1 ha
      obtain ⟨y, hy, rfl⟩ := List.mem_map.1 hx
      obtain ⟨z, hz, hzz⟩ := List.mem_map.1 hb
      obtain ⟨q, hq, hq2⟩ := List.mem_flatten.1 hz
      obtain ⟨m', hm', rfl⟩ := List.mem_map.1 hq
      obtain ⟨w, hw, rfl⟩ := List.mem_map.1 hq2
      apply h.1
      rw [List.mem_map]
      refine ⟨m', hm', ?_⟩
      simpa using congrArg Prod.fst hzz

theorem lookup_of_nodup {α β : Type} [BEq α] [LawfulBEq α] (l : List (α × β)) (h : (l.map Prod.fst).Nodup) (a : α) (b : β) (hm : (a, b) ∈ l) :
    l.lookup a = some b := by
  induction l with
  | nil => simp at hm
  | cons p l ih =>
    rw [List.map_cons, List.nodup_cons] at h
    rcases List.mem_cons.1 hm with rfl | hm
    · simp [List.lookup_cons]
    · have : (a == p.1) = false := by
        rw [beq_eq_false_iff_ne]
        rintro rfl
        exact h.1 (List.mem_map.2 ⟨_, hm, rfl⟩)
      rw [List.lookup_cons, this]
      exact ih h.2 hm

/-- Models that are loaded: different names and different identifiers. -/
structure Loaded (models : Models) : Prop where
  names : (models.map Prod.fst).Nodup
  ids : (models.map (fun m => m.2.1)).Nodup

/-- A joint of a model. -/
def IsJoint (models : Models) (id : ℕ × ℕ) (j : Joint) : Prop := ∃ m ∈ models, m.2.1 = id.1 ∧ m.2.2[id.2]? = some j

/-- C110: a name stands for a movable joint with this name, if there is one, and its data are those of this joint. -/
theorem C110_joint (models : Models) (hl : Loaded models) (name : String) :
    (∀ id, jointMap models name = some id → ∃ j, IsJoint models id j ∧ j.name = name ∧ j.fixed = false ∧ jointInfo models id = some j)
    ∧ (jointMap models name = none ↔ ∀ id j, IsJoint models id j → j.name = name → j.fixed = true) := by
  have hd := dict_eq models hl.names
  have hmem : ∀ id j, (id, j) ∈ allJoints models ↔ IsJoint models id j := by
    intro id j; rw [mem_allJoints, hd]; rfl
  have hnd := nodup_allJoints models (by rw [hd]; exact hl.ids)
  have h := fold_map (allJoints models) Joint.fixed Joint.name name (fun _ => none)
  constructor
  · intro id hid
    rcases h with ⟨h1, _⟩ | ⟨j, h1, h2, h3, h4⟩
    · unfold jointMap at hid
      rw [h1] at hid; simp at hid
    · unfold jointMap at hid
      rw [h4] at hid
      simp only [Option.some.injEq] at hid
      subst hid
      exact ⟨j.2, (hmem _ _).1 h1, h3, h2, lookup_of_nodup _ hnd _ _ h1⟩
  · constructor
    · intro hn id j hj hname
      rcases h with ⟨_, h2⟩ | ⟨j', h1, h2, h3, h4⟩
      · by_contra hf
        exact h2 (id, j) ((hmem _ _).2 hj) (by simpa using hf) hname
      · unfold jointMap at hn
        rw [h4] at hn; simp at hn
    · intro hall
      rcases h with ⟨h1, _⟩ | ⟨j, h1, h2, h3, h4⟩
      · unfold jointMap; exact h1
      · have := hall j.1 j.2 ((hmem _ _).1 h1) h3
        rw [h2] at this; simp at this

/-- Two pendulums, one of them with a fixed base. -/
noncomputable def demo : Models :=
  [("a", 1, [⟨"base", true, 0, 0, 0, 0, "foot"⟩, ⟨"hip", false, -1, 1, 5, 3, "leg"⟩]), ("b", 4, [⟨"arm", false, -2, 2, 6, 4, "hand"⟩])]

theorem demo_loaded : Loaded demo := ⟨by decide, by decide⟩

example : jointMap demo "arm" = some (4, 0) ∧ jointMap demo "base" = none := ⟨rfl, rfl⟩

/-- C110 is false of two models with the same name: the joints of the first cannot be used. -/
theorem C110_names_refuted : ∃ (models : Models) (j : Joint), IsJoint models (1, 0) j ∧ j.fixed = false ∧ jointMap models j.name = none := by
  refine ⟨[("a", 1, [⟨"hip", false, -1, 1, 5, 3, "leg"⟩]), ("a", 2, [⟨"arm", false, -1, 1, 5, 3, "hand"⟩])], ⟨"hip", false, -1, 1, 5, 3, "leg"⟩, ?_, rfl, rfl⟩
  exact ⟨_, List.mem_cons_self, rfl, rfl⟩

/-! ### Observations -/

theorem take_append {α : Type} (obs x : List α) : ∀ (idx : List ℕ) (r : List α), take obs idx = some r → take (obs ++ x) idx = some r := by
  intro idx
  induction idx with
  | nil => intro r h; exact h
  | cons i idx ih =>
    intro r h
    simp only [take, List.mapM_cons] at h ⊢
    cases hi : obs[i]? with
    | none => simp [hi] at h
    | some v =>
      have : (obs ++ x)[i]? = some v := by
        have hlt : i < obs.length := by
          by_contra hc
          rw [List.getElem?_eq_none (by omega)] at hi; simp at hi
        rw [List.getElem?_append_left hlt]; exact hi
      rw [this]
      cases hr : take obs idx with
      | none =>
        rw [take] at hr
        simp [hi, hr] at h
      | some r' =>
        have h1 := ih r' hr
        rw [take] at hr h1
        simp only [hi, hr, Option.bind_eq_bind, Option.bind_some] at h
        simp only [h1, Option.bind_eq_bind, Option.bind_some]
        exact h

theorem take_range {α : Type} (obs x : List α) : take (obs ++ x) (List.range' obs.length x.length) = some x := by
  induction x generalizing obs with
  | nil => simp [take]
  | cons a x ih =>
    have h1 := ih (obs ++ [a])
    simp only [List.length_append, List.length_cons, List.length_nil, List.append_assoc, List.cons_append, List.nil_append, zero_add] at h1
    rw [List.length_cons, List.range'_succ]
    simp only [take, List.mapM_cons] at h1 ⊢
    have : (obs ++ a :: x)[obs.length]? = some a := by simp
    rw [this, h1]
    rfl

theorem lengths (models : Models) (s : Sim) (n : String) (t : Ty) (r : List ℝ) (l : List Lim) (hr : read models s n t = some r)
    (hl : limit models n t = some l) : r.length = l.length := by
  cases t <;> simp only [read, limit, Option.map_eq_some_iff, Option.bind_eq_some_iff, Option.some.injEq] at hr hl
  all_goals first
    | (obtain ⟨m, _, rfl⟩ := hr; subst hl; simp)
    | (obtain ⟨m, _, rfl⟩ := hr; obtain ⟨_, _, _, _, rfl⟩ := hl; simp)

/-- What holds of the indices and an observation during the constructions. -/
structure Inv (models : Models) (s : Sim) (x : Index) (acc : List ℝ) : Prop where
  length : acc.length = x.limits.length
  at_ : ∀ n t idx, x.indices n t = some idx → ∃ r l, read models s n t = some r ∧ limit models n t = some l
    ∧ take acc idx = some r ∧ take x.limits idx = some l

theorem inv_step (models : Models) (s : Sim) (x x' : Index) (acc acc' : List ℝ) (e : String × Ty) (h : Inv models s x acc)
    (hx : addIndex models x e = some x') (hr : (read models s e.1 e.2).map (fun r => acc ++ r) = some acc') : Inv models s x' acc' := by
  simp only [addIndex, Option.map_eq_some_iff] at hx hr
  obtain ⟨l, hl, rfl⟩ := hx
  obtain ⟨r, hr, rfl⟩ := hr
  have hlen := lengths models s _ _ r l hr hl
  refine ⟨by simp [h.length, hlen], ?_⟩
  intro n t idx hidx
  simp only at hidx
  by_cases hc : n = e.1 ∧ t = e.2
  · rw [if_pos hc] at hidx
    simp only [Option.some.injEq, List.length_append, Nat.add_sub_cancel_left] at hidx
    subst hidx
    refine ⟨r, l, by rw [hc.1, hc.2]; exact hr, by rw [hc.1, hc.2]; exact hl, ?_, take_range _ _⟩
    rw [← h.length, ← hlen]
    exact take_range _ _
  · rw [if_neg hc] at hidx
    obtain ⟨r', l', h1, h2, h3, h4⟩ := h.at_ n t idx hidx
    exact ⟨r', l', h1, h2, take_append _ _ _ _ h3, take_append _ _ _ _ h4⟩

theorem inv_fold (models : Models) (s : Sim) : ∀ (spec : List (String × Ty)) (x x' : Index) (acc acc' : List ℝ), Inv models s x acc →
    spec.foldlM (addIndex models) x = some x' →
    spec.foldlM (fun acc e => (read models s e.1 e.2).map (fun x => acc ++ x)) acc = some acc' →
    Inv models s x' acc' ∧ (∀ n t, x.indices n t ≠ none ∨ (n, t) ∈ spec → x'.indices n t ≠ none)
      ∧ (∃ rs, spec.mapM (fun e => read models s e.1 e.2) = some rs ∧ acc' = acc ++ rs.flatten) := by
  intro spec
  induction spec with
  | nil =>
    intro x x' acc acc' h hx hr
    simp only [List.foldlM_nil, Option.pure_def, Option.some.injEq] at hx hr
    subst hx hr
    refine ⟨h, ?_, [], rfl, by simp⟩
    intro n t ht
    simpa using ht
  | cons e spec ih =>
    intro x x' acc acc' h hx hr
    rw [List.foldlM_cons] at hx hr
    simp only [Option.bind_eq_bind, Option.bind_eq_some_iff] at hx hr
    obtain ⟨x1, hx1, hx2⟩ := hx
    obtain ⟨a1, ha1, ha2⟩ := hr
    obtain ⟨h1, h2, rs, h3, h4⟩ := ih x1 x' a1 acc' (inv_step models s x x1 acc a1 e h hx1 ha1) hx2 ha2
    refine ⟨h1, ?_, ?_⟩
    · intro n t ht
      apply h2
      simp only [addIndex, Option.map_eq_some_iff] at hx1
      obtain ⟨l, _, rfl⟩ := hx1
      by_cases hc : n = e.1 ∧ t = e.2
      · left; simp [hc]
      · rcases ht with ht | ht
        · left; simpa [hc] using ht
        · right
          rcases List.mem_cons.1 ht with rfl | ht
          · exact absurd ⟨rfl, rfl⟩ hc
          · exact ht
    · simp only [Option.map_eq_some_iff] at ha1
      obtain ⟨r, hr, rfl⟩ := ha1
      refine ⟨r :: rs, ?_, ?_⟩
      · simp [List.mapM_cons, hr, h3]
      · rw [h4]; simp

theorem inv_start (models : Models) (s : Sim) : Inv models s ⟨[], fun _ _ => none⟩ [] :=
  ⟨rfl, by intro n t idx h; simp at h⟩

/-- C110: an observation consists of the values of the entries of the specification, in this order; there is a limit for each number; and
`get_sim_state` finds the values of an entry in every observation. -/
theorem C110_observation (models : Models) (s : Sim) (spec : List (String × Ty)) (x : Index) (obs : List ℝ)
    (hx : process models spec = some x) (ho : create models s spec = some obs) :
    (∃ rs, spec.mapM (fun e => read models s e.1 e.2) = some rs ∧ obs = rs.flatten) ∧ obs.length = x.limits.length
    ∧ ∀ n t, (n, t) ∈ spec → ∃ r, read models s n t = some r ∧ getSimState x obs n t = some r := by
  obtain ⟨h1, h2, rs, h3, h4⟩ := inv_fold models s spec _ x [] obs (inv_start models s) hx ho
  refine ⟨⟨rs, h3, by simpa using h4⟩, h1.length, ?_⟩
  intro n t hm
  cases hi : x.indices n t with
  | none => exact absurd hi (h2 n t (Or.inr hm))
  | some idx =>
    obtain ⟨r, l, hr, _, ht, _⟩ := h1.at_ n t idx hi
    exact ⟨r, hr, by simp [getSimState, hi, ht]⟩

/-- C110: the limits of an entry for a joint are those of this joint, and those of a contact are zero and one. -/
theorem C110_limits (models : Models) (s : Sim) (hl : Loaded models) (spec : List (String × Ty)) (x : Index) (obs : List ℝ)
    (hx : process models spec = some x) (ho : create models s spec = some obs) (n : String) :
    ((n, Ty.jointPos) ∈ spec → ∃ idx id j, x.indices n .jointPos = some [idx] ∧ IsJoint models id j ∧ j.name = n
      ∧ x.limits[idx]? = some (some j.low, some j.high) ∧ obs[idx]? = some (s.jointPos id))
    ∧ ((n, Ty.jointVel) ∈ spec → ∃ idx id j, x.indices n .jointVel = some [idx] ∧ IsJoint models id j ∧ j.name = n
      ∧ x.limits[idx]? = some (some (-j.maxVel), some j.maxVel) ∧ obs[idx]? = some (s.jointVel id))
    ∧ ((n, Ty.contactFlag) ∈ spec → ∃ idx b, x.indices n .contactFlag = some [idx] ∧ s.contact n = some b
      ∧ x.limits[idx]? = some (some 0, some 1) ∧ obs[idx]? = some (if b then 1 else 0)) := by
  obtain ⟨h1, h2, _⟩ := inv_fold models s spec _ x [] obs (inv_start models s) hx ho
  have hone : ∀ {α : Type} (l : List α) (idx : List ℕ) (a : α), take l idx = some [a] → ∃ i, idx = [i] ∧ l[i]? = some a := by
    intro α l idx a h
    cases idx with
    | nil => simp [take] at h
    | cons i rest =>
      simp only [take, List.mapM_cons, Option.bind_eq_bind, Option.bind_eq_some_iff, Option.pure_def, Option.some.injEq, List.cons.injEq] at h
      obtain ⟨v, hv, rs, hrs, rfl, rfl⟩ := h
      cases rest with
      | nil => exact ⟨i, rfl, hv⟩
      | cons k rest =>
        simp only [List.mapM_cons, Option.bind_eq_bind, Option.bind_eq_some_iff, Option.pure_def, Option.some.injEq] at hrs
        obtain ⟨_, _, _, _, h⟩ := hrs
        simp at h
  refine ⟨?_, ?_, ?_⟩
  · intro hm
    cases hi : x.indices n .jointPos with
    | none => exact absurd hi (h2 n _ (Or.inr hm))
    | some idx =>
      obtain ⟨r, l, hr, hli, ht, htl⟩ := h1.at_ n _ idx hi
      simp only [read, Option.map_eq_some_iff] at hr
      obtain ⟨id, hid, rfl⟩ := hr
      obtain ⟨j, hj1, hj2, _, hj4⟩ := (C110_joint models hl n).1 id hid
      simp only [limit, hid, Option.bind_some, hj4, Option.map_some, Option.some.injEq] at hli
      subst hli
      obtain ⟨i, rfl, hv⟩ := hone _ _ _ ht
      obtain ⟨i', hii, hv'⟩ := hone _ _ _ htl
      simp only [List.cons.injEq, and_true] at hii
      subst hii
      exact ⟨i, id, j, rfl, hj1, hj2, hv', hv⟩
  · intro hm
    cases hi : x.indices n .jointVel with
    | none => exact absurd hi (h2 n _ (Or.inr hm))
    | some idx =>
      obtain ⟨r, l, hr, hli, ht, htl⟩ := h1.at_ n _ idx hi
      simp only [read, Option.map_eq_some_iff] at hr
      obtain ⟨id, hid, rfl⟩ := hr
      obtain ⟨j, hj1, hj2, _, hj4⟩ := (C110_joint models hl n).1 id hid
      simp only [limit, hid, Option.bind_some, hj4, Option.map_some, Option.some.injEq] at hli
      subst hli
      obtain ⟨i, rfl, hv⟩ := hone _ _ _ ht
      obtain ⟨i', hii, hv'⟩ := hone _ _ _ htl
      simp only [List.cons.injEq, and_true] at hii
      subst hii
      exact ⟨i, id, j, rfl, hj1, hj2, hv', hv⟩
  · intro hm
    cases hi : x.indices n .contactFlag with
    | none => exact absurd hi (h2 n _ (Or.inr hm))
    | some idx =>
      obtain ⟨r, l, hr, hli, ht, htl⟩ := h1.at_ n _ idx hi
      simp only [read, Option.map_eq_some_iff] at hr
      obtain ⟨b, hb, rfl⟩ := hr
      simp only [limit, Option.some.injEq] at hli
      subst hli
      obtain ⟨i, rfl, hv⟩ := hone _ _ _ ht
      obtain ⟨i', hii, hv'⟩ := hone _ _ _ htl
      simp only [List.cons.injEq, and_true] at hii
      subst hii
      exact ⟨i, b, rfl, hb, hv', hv⟩

theorem mapM_total {α β : Type} (f : α → Option β) (g : α → β) : ∀ (l : List α), (∀ a ∈ l, f a = some (g a)) → l.mapM f = some (l.map g) := by
  intro l
  induction l with
  | nil => intro _; rfl
  | cons a l ih =>
    intro h
    simp [List.mapM_cons, h a (by simp), ih (fun b hb => h b (by simp [hb]))]

theorem mapM_forall {α β : Type} (f : α → Option β) (P : α → β → Prop) (h : ∀ a b, f a = some b → P a b) : ∀ (l : List α) (r : List β),
    l.mapM f = some r → List.Forall₂ P l r := by
  intro l
  induction l with
  | nil => intro r hr; simp only [List.mapM_nil, Option.pure_def, Option.some.injEq] at hr; subst hr; exact .nil
  | cons a l ih =>
    intro r hr
    simp only [List.mapM_cons, Option.bind_eq_bind, Option.bind_eq_some_iff, Option.pure_def, Option.some.injEq] at hr
    obtain ⟨b, hb, rs, hrs, rfl⟩ := hr
    exact .cons (h a b hb) (ih rs hrs)

/-- C110: `joints.positions` of an observation are the positions of the joints of the specification, in its order; and likewise for velocities. -/
theorem C110_joint_values (models : Models) (s : Sim) (spec : List (String × Ty)) (x : Index) (obs : List ℝ)
    (hx : process models spec = some x) (ho : create models s spec = some obs) :
    (jointValues x spec .jointPos obs = (spec.filter (fun e => decide (e.2 = .jointPos))).mapM (fun e => (jointMap models e.1).map s.jointPos)
      ∧ (jointValues x spec .jointPos obs).isSome)
    ∧ (jointValues x spec .jointVel obs = (spec.filter (fun e => decide (e.2 = .jointVel))).mapM (fun e => (jointMap models e.1).map s.jointVel)
      ∧ (jointValues x spec .jointVel obs).isSome) := by
  obtain ⟨h1, h2, _⟩ := inv_fold models s spec _ x [] obs (inv_start models s) hx ho
  have key : ∀ (t : Ty) (value : ℕ × ℕ → ℝ), (∀ n, read models s n t = (jointMap models n).map (fun j => [value j])) →
      ∀ l : List (String × Ty), (∀ e ∈ l, e ∈ spec ∧ e.2 = t) →
      ∃ idx vals, l.mapM (fun e => (x.indices e.1 t).bind List.head?) = some idx ∧ take obs idx = some vals
        ∧ l.mapM (fun e => (jointMap models e.1).map value) = some vals := by
    intro t value hread l
    induction l with
    | nil => intro _; exact ⟨[], [], rfl, rfl, rfl⟩
    | cons e l ih =>
      intro hl
      obtain ⟨idx, vals, k1, k2, k3⟩ := ih (fun a ha => hl a (by simp [ha]))
      obtain ⟨hm, ht⟩ := hl e (by simp)
      cases hi : x.indices e.1 t with
      | none => exact absurd hi (h2 e.1 t (Or.inr (by rw [← ht]; exact hm)))
      | some ix =>
        obtain ⟨r, _, hr, _, htk, _⟩ := h1.at_ e.1 t ix hi
        rw [hread, Option.map_eq_some_iff] at hr
        obtain ⟨j, hj, rfl⟩ := hr
        cases ix with
        | nil => simp [take] at htk
        | cons i rest =>
          simp only [take, List.mapM_cons, Option.bind_eq_bind, Option.bind_eq_some_iff, Option.pure_def, Option.some.injEq, List.cons.injEq] at htk
          obtain ⟨v, hv, _, _, rfl, _⟩ := htk
          refine ⟨i :: idx, value j :: vals, ?_, ?_, ?_⟩
          · simp [List.mapM_cons, hi, k1]
          · rw [take] at k2
            simp [take, List.mapM_cons, hv, k2]
          · simp [List.mapM_cons, hj, k3]
  constructor
  · obtain ⟨idx, vals, k1, k2, k3⟩ := key .jointPos s.jointPos (fun _ => rfl) (spec.filter (fun e => decide (e.2 = .jointPos)))
      (fun e he => by simpa using he)
    simp [jointValues, jointIndexes, k1, k2, k3]
  · obtain ⟨idx, vals, k1, k2, k3⟩ := key .jointVel s.jointVel (fun _ => rfl) (spec.filter (fun e => decide (e.2 = .jointVel)))
      (fun e he => by simpa using he)
    simp [jointValues, jointIndexes, k1, k2, k3]

/-- A simulator that reports model and joint. -/
noncomputable def demoSim : Sim :=
  ⟨fun m _ => m, fun _ _ => 0, fun _ _ => 0, fun _ _ => 0, fun _ _ => 0, fun _ _ => 0, fun _ _ => 0, fun _ _ => 0, fun j => j.1, fun j => j.2, fun _ => some true⟩

example : ∃ x obs, process demo [("arm", .jointPos), ("a", .bodyPos), ("hip", .jointVel)] = some x
    ∧ create demo demoSim [("arm", .jointPos), ("a", .bodyPos), ("hip", .jointVel)] = some obs := ⟨_, _, rfl, rfl⟩

/-! ### Actions -/

theorem data_of_known (models : Models) (spec : List (String × Mode)) (hk : ∀ e ∈ spec, jointMap models e.1 ≠ none) :
    ∃ f : String → ℕ × ℕ, (∀ e ∈ spec, jointMap models e.1 = some (f e.1)) ∧ actionData models spec = spec.map (fun e => (f e.1, e.2)) := by
  refine ⟨fun n => (jointMap models n).getD (0, 0), ?_, ?_⟩
  · intro e he
    cases h : jointMap models e.1 with
    | none => exact absurd h (hk e he)
    | some j => simp [h]
  · unfold actionData
    induction spec with
    | nil => rfl
    | cons e spec ih =>
      cases h : jointMap models e.1 with
      | none => exact absurd h (hk e (by simp))
      | some j =>
        rw [List.filterMap_cons]
        simp only [h, Option.map_some, List.map_cons, Option.getD_some]
        rw [ih (fun a ha => hk a (by simp [ha]))]

theorem control_fold (models : Models) (action : List ℝ) : ∀ (l : List ((ℕ × ℕ) × Mode)) (k : ℕ) (c : ℕ × ℕ → Option Cmd),
    (l.map Prod.fst).Nodup → (∀ d ∈ l, ∃ j, jointInfo models d.1 = some j) → k + l.length ≤ action.length →
    ∃ c', (l.zipIdx k).foldlM (fun (c : ℕ × ℕ → Option Cmd) (d : ((ℕ × ℕ) × Mode) × ℕ) => (action[d.2]?).bind (fun u => (jointInfo models d.1.1).map (fun i =>
        Function.update c d.1.1 (some (command i u d.1.2))))) c = some c'
      ∧ (∀ id : ℕ × ℕ, id ∉ l.map Prod.fst → c' id = c id)
      ∧ (∀ (i : ℕ) d, l[i]? = some d → ∃ u j, action[k + i]? = some u ∧ jointInfo models d.1 = some j ∧ c' d.1 = some (command j u d.2)) := by
  intro l
  induction l with
  | nil => intro k c _ _ _; exact ⟨c, rfl, fun _ _ => rfl, by simp⟩
  | cons d l ih =>
    intro k c hn hj hlen
    rw [List.map_cons, List.nodup_cons] at hn
    obtain ⟨j, hjd⟩ := hj d (by simp)
    have hk : k < action.length := by simp only [List.length_cons] at hlen; omega
    obtain ⟨c', h1, h2, h3⟩ := ih (k + 1) (Function.update c d.1 (some (command j action[k] d.2))) hn.2 (fun a ha => hj a (by simp [ha]))
      (by simp only [List.length_cons] at hlen; omega)
    refine ⟨c', ?_, ?_, ?_⟩
    · rw [List.zipIdx_cons, List.foldlM_cons]
      simp only [List.getElem?_eq_getElem hk, hjd, Option.bind_some, Option.map_some, Option.bind_eq_bind]
      exact h1
    · intro id hid
      rw [List.map_cons, List.mem_cons, not_or] at hid
      rw [h2 id hid.2, Function.update_of_ne hid.1]
    · intro i e hi
      cases i with
      | zero =>
        simp only [List.getElem?_cons_zero, Option.some.injEq] at hi
        subst hi
        refine ⟨action[k], j, by simp [hk], hjd, ?_⟩
        rw [h2 d.1 hn.1, Function.update_self]
      | succ i =>
        rw [List.getElem?_cons_succ] at hi
        obtain ⟨u, j', hu, hj', hc⟩ := h3 i e hi
        exact ⟨u, j', by rw [← hu]; congr 1; omega, hj', hc⟩

theorem injective_names (models : Models) (hl : Loaded models) (a b : String) (id : ℕ × ℕ) (ha : jointMap models a = some id)
    (hb : jointMap models b = some id) : a = b := by
  obtain ⟨j, _, hj, _, hi⟩ := (C110_joint models hl a).1 id ha
  obtain ⟨j', _, hj', _, hi'⟩ := (C110_joint models hl b).1 id hb
  rw [hi] at hi'
  simp only [Option.some.injEq] at hi'
  rw [← hj, ← hj', hi']

/-- C110, only if all names are those of movable joints (see `C110_unknown_refuted`): the joint of every entry of the actuation specification receives the
component of the action with the same number, in the mode of the entry; all other joints are left alone. The limits of the actions are as many
as entries, and are those of the joints. -/
theorem C110_control_partial (models : Models) (hl : Loaded models) (spec : List (String × Mode)) (hk : ∀ e ∈ spec, jointMap models e.1 ≠ none)
    (hn : (spec.map Prod.fst).Nodup) (action : List ℝ) (ha : action.length = spec.length) (ctrl : ℕ × ℕ → Option Cmd) :
    ∃ c', applyControl models spec action ctrl = some c'
      ∧ (∀ (i : ℕ) name mode, spec[i]? = some (name, mode) → ∃ id j u, IsJoint models id j ∧ j.name = name ∧ action[i]? = some u
        ∧ c' id = some (match mode with
          | .position => .position u j.maxVel j.maxForce
          | .velocity => .velocity u j.maxVel j.maxForce
          | .torque => .torque u))
      ∧ (∀ id, (∀ e ∈ spec, jointMap models e.1 ≠ some id) → c' id = ctrl id)
      ∧ ∃ lims, actionLimits models spec = some lims ∧ lims.length = spec.length
        ∧ ∀ (i : ℕ) name mode, spec[i]? = some (name, mode) → ∃ id j, IsJoint models id j ∧ j.name = name ∧ lims[i]? = some (match mode with
          | .position => (j.low, j.high)
          | .velocity => (-j.maxVel, j.maxVel)
          | .torque => (-j.maxForce, j.maxForce)) := by
  obtain ⟨f, hf, hdata⟩ := data_of_known models spec hk
  have hinfo : ∀ e ∈ spec, ∃ j, IsJoint models (f e.1) j ∧ j.name = e.1 ∧ jointInfo models (f e.1) = some j := by
    intro e he
    obtain ⟨j, h1, h2, _, h4⟩ := (C110_joint models hl e.1).1 _ (hf e he)
    exact ⟨j, h1, h2, h4⟩
  have hnd : ((actionData models spec).map Prod.fst).Nodup := by
    rw [hdata, List.map_map]
    have : (Prod.fst ∘ fun e : String × Mode => (f e.1, e.2)) = f ∘ Prod.fst := rfl
    rw [this, ← List.map_map]
    apply List.Nodup.map_on _ hn
    intro a ha' b hb hab
    obtain ⟨e, he, rfl⟩ := List.mem_map.1 ha'
    obtain ⟨e', he', rfl⟩ := List.mem_map.1 hb
    exact injective_names models hl _ _ (f e.1) (hf e he) (by rw [hab]; exact hf e' he')
  obtain ⟨c', h1, h2, h3⟩ := control_fold models action (actionData models spec) 0 ctrl hnd
    (by
      intro d hd
      rw [hdata] at hd
      obtain ⟨e, he, rfl⟩ := List.mem_map.1 hd
      obtain ⟨j, _, _, h⟩ := hinfo e he
      exact ⟨j, h⟩)
    (by rw [hdata, List.length_map, ha]; omega)
  refine ⟨c', h1, ?_, ?_, ?_⟩
  · intro i name mode hi
    have hm : (name, mode) ∈ spec := List.mem_of_getElem? hi
    obtain ⟨u, j, hu, hj, hc⟩ := h3 i (f name, mode) (by rw [hdata, List.getElem?_map, hi]; rfl)
    obtain ⟨j', hj1, hj2, hj3⟩ := hinfo _ hm
    simp only at hj hc
    rw [hj3] at hj
    simp only [Option.some.injEq] at hj
    subst hj
    refine ⟨f name, j', u, hj1, hj2, by simpa using hu, ?_⟩
    rw [hc]
    cases mode <;> rfl
  · intro id hid
    apply h2
    rw [hdata, List.map_map]
    intro hmem
    obtain ⟨e, he, rfl⟩ := List.mem_map.1 hmem
    exact hid e he (hf e he)
  · have hjoint : ∀ e ∈ spec, jointInfo models (f e.1) = some ((jointInfo models (f e.1)).getD ⟨"", true, 0, 0, 0, 0, ""⟩) := by
      intro e he
      obtain ⟨j, _, _, h⟩ := hinfo e he
      rw [h]; rfl
    let g : (ℕ × ℕ) × Mode → ℝ × ℝ := fun d => match d.2 with
      | .position => (((jointInfo models d.1).getD ⟨"", true, 0, 0, 0, 0, ""⟩).low, ((jointInfo models d.1).getD ⟨"", true, 0, 0, 0, 0, ""⟩).high)
      | .velocity => (-((jointInfo models d.1).getD ⟨"", true, 0, 0, 0, 0, ""⟩).maxVel, ((jointInfo models d.1).getD ⟨"", true, 0, 0, 0, 0, ""⟩).maxVel)
      | .torque => (-((jointInfo models d.1).getD ⟨"", true, 0, 0, 0, 0, ""⟩).maxForce, ((jointInfo models d.1).getD ⟨"", true, 0, 0, 0, 0, ""⟩).maxForce)
    refine ⟨(actionData models spec).map g, ?_, by rw [hdata]; simp, ?_⟩
    · apply mapM_total
      intro d hd
      rw [hdata] at hd
      obtain ⟨e, he, rfl⟩ := List.mem_map.1 hd
      simp only
      rw [hjoint e he]
      simp only [Option.map_some, g]
      rw [hjoint e he]
      cases e.2 <;> rfl
    · intro i name mode hi
      obtain ⟨j, hj1, hj2, hj3⟩ := hinfo _ (List.mem_of_getElem? hi)
      refine ⟨f name, j, hj1, hj2, ?_⟩
      rw [hdata, List.map_map, List.getElem?_map, hi]
      simp only [Option.map_some, Function.comp_apply, g]
      simp only at hj3
      rw [hj3]
      cases mode <;> rfl

example : ∀ e ∈ [("arm", Mode.torque), ("hip", Mode.position)], jointMap demo e.1 ≠ none := by
  intro e he
  simp only [List.mem_cons, List.not_mem_nil, or_false] at he
  rcases he with rfl | rfl
  · rw [show jointMap demo "arm" = some (4, 0) from rfl]; simp
  · rw [show jointMap demo "hip" = some (1, 1) from rfl]; simp

/-- C110 is false of names that are not joints: they are left out without notice, and the joints after them receive the components of others. -/
theorem C110_unknown_refuted : ∃ c', applyControl demo [("hip", .torque), ("typo", .torque), ("arm", .torque)] [1, 2, 3] (fun _ => none) = some c'
    ∧ c' (4, 0) = some (.torque 2) := ⟨_, rfl, rfl⟩

/-! ### Contacts -/

/-- Whether a contact is in the list. -/
def Has (l : ContactList) (k : ℕ × ℕ × ℤ × ℤ) : Prop := ∃ e ∈ l, e.1 = (k.1, k.2.1) ∧ (k.2.2.1, k.2.2.2) ∈ e.2

theorem has_add (l : ContactList) (c k : ℕ × ℕ × ℤ × ℤ) : Has (addContact l c) k ↔ Has l k ∨ k = order c.1 c.2.1 c.2.2.1 c.2.2.2 := by
  simp only [addContact]
  generalize order c.1 c.2.1 c.2.2.1 c.2.2.2 = o
  obtain ⟨a, b, x, y⟩ := o
  obtain ⟨a', b', x', y'⟩ := k
  have key : ∀ l l' : ContactList, addLinks (a, b) (x, y) l = some l' → (Has l' (a', b', x', y') ↔ Has l (a', b', x', y') ∨ (a', b', x', y') = (a, b, x, y)) := by
    intro l
    induction l with
    | nil => intro l' h; simp [addLinks] at h
    | cons e l ih =>
      obtain ⟨ms, ls⟩ := e
      intro l' h
      rw [addLinks] at h
      by_cases hc : ms = (a, b) ∧ (x, y) ∉ ls
      · rw [if_pos hc] at h
        simp only [Option.some.injEq] at h
        subst h
        obtain ⟨rfl, _⟩ := hc
        simp only [Has, List.mem_cons, exists_eq_or_imp, List.mem_append, Prod.mk.injEq, List.not_mem_nil, or_false]
        constructor
        · rintro (⟨⟨rfl, rfl⟩, h | h⟩ | h)
          · exact Or.inl (Or.inl ⟨⟨rfl, rfl⟩, h⟩)
          · exact Or.inr ⟨rfl, rfl, h.1, h.2⟩
          · exact Or.inl (Or.inr h)
        · rintro ((⟨⟨rfl, rfl⟩, h⟩ | h) | ⟨rfl, rfl, rfl, rfl⟩)
          · exact Or.inl ⟨⟨rfl, rfl⟩, Or.inl h⟩
          · exact Or.inr h
          · exact Or.inl ⟨⟨rfl, rfl⟩, Or.inr ⟨rfl, rfl⟩⟩
      · rw [if_neg hc, Option.map_eq_some_iff] at h
        obtain ⟨r, hr, rfl⟩ := h
        have := ih r hr
        simp only [Has, List.mem_cons, exists_eq_or_imp] at this ⊢
        rw [this, or_assoc]
  cases h : addLinks (a, b) (x, y) l with
  | some l' => rw [Option.getD_some]; exact key l l' h
  | none =>
    rw [Option.getD_none]
    simp only [Has, List.mem_append, List.mem_singleton, or_and_right, exists_or, exists_eq_left, Prod.mk.injEq]
    constructor
    · rintro (h | ⟨⟨rfl, rfl⟩, h, h'⟩)
      · exact Or.inl h
      · exact Or.inr ⟨rfl, rfl, h, h'⟩
    · rintro (h | ⟨rfl, rfl, rfl, rfl⟩)
      · exact Or.inl h
      · exact Or.inr ⟨⟨rfl, rfl⟩, rfl, rfl⟩

theorem has_fold (ids : List (ℕ × ℕ × ℤ × ℤ)) (k : ℕ × ℕ × ℤ × ℤ) : ∀ l, Has (ids.foldl addContact l) k ↔
    Has l k ∨ ∃ c ∈ ids, k = order c.1 c.2.1 c.2.2.1 c.2.2.2 := by
  induction ids with
  | nil => intro l; simp
  | cons c ids ih =>
    intro l
    rw [List.foldl_cons, ih, has_add]
    simp only [List.mem_cons, exists_eq_or_imp]
    tauto

theorem computed_spec (list : ContactList) (points : ℕ → ℕ → List (ℤ × ℤ)) (k : ℕ × ℕ × ℤ × ℤ) :
    computed list points k = true ↔ Has list k ∧ (k.2.2.1, k.2.2.2) ∈ points k.1 k.2.1 := by
  obtain ⟨a, b, x, y⟩ := k
  have inner : ∀ (ps : List (ℤ × ℤ)) (e : (ℕ × ℕ) × List (ℤ × ℤ)) (f : ℕ × ℕ × ℤ × ℤ → Bool),
      (ps.foldl (fun f p => if p ∈ e.2 then Function.update f (e.1.1, e.1.2, p.1, p.2) true else f) f) (a, b, x, y) = true ↔
      f (a, b, x, y) = true ∨ (e.1 = (a, b) ∧ (x, y) ∈ e.2 ∧ (x, y) ∈ ps) := by
    intro ps e
    induction ps with
    | nil => intro f; simp
    | cons p ps ih =>
      intro f
      rw [List.foldl_cons, ih]
      by_cases hp : p ∈ e.2
      · rw [if_pos hp]
        by_cases he : (a, b, x, y) = (e.1.1, e.1.2, p.1, p.2)
        · rw [he, Function.update_self]
          simp only [Prod.mk.injEq] at he
          obtain ⟨rfl, rfl, rfl, rfl⟩ := he
          simp [hp]
        · rw [Function.update_of_ne he]
          constructor
          · rintro (h | ⟨h1, h2, h3⟩)
            · exact Or.inl h
            · exact Or.inr ⟨h1, h2, List.mem_cons_of_mem _ h3⟩
          · rintro (h | ⟨h1, h2, h3⟩)
            · exact Or.inl h
            · rcases List.mem_cons.1 h3 with h3 | h3
              · exfalso; apply he; rw [h1, ← h3]
              · exact Or.inr ⟨h1, h2, h3⟩
      · rw [if_neg hp]
        constructor
        · rintro (h | ⟨h1, h2, h3⟩)
          · exact Or.inl h
          · exact Or.inr ⟨h1, h2, List.mem_cons_of_mem _ h3⟩
        · rintro (h | ⟨h1, h2, h3⟩)
          · exact Or.inl h
          · rcases List.mem_cons.1 h3 with h3 | h3
            · rw [h3] at h2; exact absurd h2 hp
            · exact Or.inr ⟨h1, h2, h3⟩
  have outer : ∀ (list : ContactList) (f : ℕ × ℕ × ℤ × ℤ → Bool),
      (list.foldl (fun f c => (points c.1.1 c.1.2).foldl (fun f p => if p ∈ c.2 then Function.update f (c.1.1, c.1.2, p.1, p.2) true else f) f) f)
        (a, b, x, y) = true ↔ f (a, b, x, y) = true ∨ (Has list (a, b, x, y) ∧ (x, y) ∈ points a b) := by
    intro list
    induction list with
    | nil => intro f; simp [Has]
    | cons e list ih =>
      intro f
      rw [List.foldl_cons, ih, inner]
      simp only [Has, List.mem_cons, exists_eq_or_imp]
      constructor
      · rintro ((h | ⟨h1, h2, h3⟩) | ⟨h1, h2⟩)
        · exact Or.inl h
        · rw [h1] at h3; exact Or.inr ⟨Or.inl ⟨h1, h2⟩, h3⟩
        · exact Or.inr ⟨Or.inr h1, h2⟩
      · rintro (h | ⟨⟨h1, h2⟩ | h1, h3⟩)
        · exact Or.inl (Or.inl h)
        · refine Or.inl (Or.inr ⟨h1, h2, ?_⟩)
          rw [h1]; exact h3
        · exact Or.inr ⟨h1, h3⟩
  rw [computed, outer]
  simp

/-- What a simulator reports as contact points of two models, given what touches: the link of the first model first. -/
def reported (touching : List ((ℕ × ℤ) × (ℕ × ℤ))) (a b : ℕ) : List (ℤ × ℤ) :=
  touching.filterMap (fun t => if t.1.1 = a ∧ t.2.1 = b then some (t.1.2, t.2.2)
    else if t.1.1 = b ∧ t.2.1 = a then some (t.2.2, t.1.2) else none)

/-- C110, only for contacts of different models (see `C110_self_contact_refuted`): the flag of a contact in the specification is set exactly if the two
bodies or links touch, whichever of them is named first. -/
theorem C110_contact_partial (models : Models) (contacts : List (String × String)) (touching : List ((ℕ × ℤ) × (ℕ × ℤ)))
    (hids : ∀ c ∈ contacts, contactIds models c ≠ none) (c : String × String) (hc : c ∈ contacts) (p q : ℕ × ℤ)
    (hp : linkIds models c.1 = some p) (hq : linkIds models c.2 = some q) (hne : p.1 ≠ q.1) :
    ∃ b, contactFlag models contacts (reported touching) c = some b ∧ (b = true ↔ (p, q) ∈ touching ∨ (q, p) ∈ touching) := by
  have hci : contactIds models c = some (p.1, q.1, p.2, q.2) := by simp [contactIds, hp, hq]
  have hall : contacts.mapM (contactIds models) = some (contacts.map (fun c => (contactIds models c).getD (0, 0, 0, 0))) := by
    apply mapM_total
    intro a ha
    cases h : contactIds models a with
    | none => exact absurd h (hids a ha)
    | some x => rfl
  refine ⟨_, by rw [contactFlag, hall, Option.bind_some, hci, Option.map_some], ?_⟩
  rw [computed_spec]
  have hhas : Has ((contacts.map (fun c => (contactIds models c).getD (0, 0, 0, 0))).foldl addContact []) (order p.1 q.1 p.2 q.2) := by
    rw [has_fold]
    right
    refine ⟨(p.1, q.1, p.2, q.2), List.mem_map.2 ⟨c, hc, by rw [hci]; rfl⟩, rfl⟩
  simp only [hhas, true_and]
  obtain ⟨m1, l1⟩ := p
  obtain ⟨m2, l2⟩ := q
  simp only at hne ⊢
  have mem : ∀ (m1 m2 : ℕ) (l1 l2 : ℤ), m1 ≠ m2 → ((l1, l2) ∈ reported touching m1 m2 ↔ ((m1, l1), (m2, l2)) ∈ touching ∨ ((m2, l2), (m1, l1)) ∈ touching) := by
    intro m1 m2 l1 l2 hne
    simp only [reported, List.mem_filterMap]
    constructor
    · rintro ⟨⟨⟨a, x⟩, ⟨b, y⟩⟩, ht, h⟩
      simp only at h
      by_cases h1 : a = m1 ∧ b = m2
      · rw [if_pos h1] at h
        simp only [Option.some.injEq, Prod.mk.injEq] at h
        left; rw [← h1.1, ← h1.2, ← h.1, ← h.2]; exact ht
      · rw [if_neg h1] at h
        by_cases h2 : a = m2 ∧ b = m1
        · rw [if_pos h2] at h
          simp only [Option.some.injEq, Prod.mk.injEq] at h
          right; rw [← h2.1, ← h2.2, ← h.1, ← h.2]; exact ht
        · rw [if_neg h2] at h; simp at h
    · rintro (h | h)
      · exact ⟨_, h, by simp⟩
      · exact ⟨_, h, by simp [Ne.symm hne]⟩
  unfold order
  split_ifs with hlt
  · exact mem m1 m2 l1 l2 hne
  · rw [mem m2 m1 l2 l1 (Ne.symm hne)]
    exact or_comm

example : linkIds demo "leg" = some (1, 1) ∧ linkIds demo "b" = some (4, -1) := ⟨rfl, rfl⟩

/-- C110 is false of contacts inside a model: for some order of the names the flag stays zero although the links touch. -/
theorem C110_self_contact_refuted :
    contactFlag demo [("foot", "leg"), ("leg", "foot")] (reported [((1, 0), (1, 1))]) ("foot", "leg") = some false
    ∧ contactFlag demo [("foot", "leg"), ("leg", "foot")] (reported [((1, 0), (1, 1))]) ("leg", "foot") = some true := by
  constructor <;> rfl

/-! ### Steps -/

variable {W Act Obs Out : Type}

/-- The simulator after some intermediate steps, each of which is controlled from the state before it. -/
def trace (e : Env W Act Obs Out) (action : Act) (w : W) : ℕ → W
  | 0 => w
  | n + 1 => e.advance (e.control (e.compute (e.observe (trace e action w n)) action) (trace e action w n))

theorem loop_trace (e : Env W Act Obs Out) (action : Act) : ∀ (n k : ℕ) (w : W),
    e.loop action n (trace e action w k, e.observe (trace e action w k)) = (trace e action w (n + k), e.observe (trace e action w (n + k))) := by
  intro n
  induction n with
  | zero => intro k w; simp [Env.loop]
  | succ n ih =>
    intro k w
    rw [Env.loop]
    have := ih (k + 1) w
    rw [show n + (k + 1) = n + 1 + k by omega] at this
    exact this

/-- Some calls. -/
inductive Call (Act Obs : Type)
  | reset (x : Option Obs)
  | step (a : Act)

/-- The environment after a call. -/
def Env.call (e : Env W Act Obs Out) (s : St W Obs) : Call Act Obs → St W Obs
  | .reset x => (e.reset x).1
  | .step a => (e.step s a).1

/-- C110: after a reset and any calls, a step advances the simulator by the intermediate steps, each controlled from the state before it; it returns the
observation of the state that is reached, whether this is absorbing, and the reward of the state before, the preprocessed action and the state after. -/
theorem C110_step (e : Env W Act Obs Out) (x : Option Obs) (calls : List (Call Act Obs)) (a : Act) :
    let s := calls.foldl e.call (e.reset x).1
    let w := trace e (e.preprocess a) s.world e.nIntermediate
    (e.step s a).1.world = w ∧ (e.step s a).2.1 = e.out (e.observe w) ∧ (e.step s a).2.2.2 = e.absorbing (e.observe w)
      ∧ (e.step s a).2.2.1 = e.reward (e.observe s.world) (e.preprocess a) (e.observe w) (e.absorbing (e.observe w)) := by
  intro s w
  have hloop : ∀ (s : St W Obs) (a : Act), s.state = e.observe s.world →
      e.loop (e.preprocess a) e.nIntermediate (s.world, s.state) = (trace e (e.preprocess a) s.world e.nIntermediate, e.observe (trace e (e.preprocess a) s.world e.nIntermediate)) := by
    intro s a hs
    rw [hs]
    exact loop_trace e (e.preprocess a) e.nIntermediate 0 s.world
  have hinv : ∀ (calls : List (Call Act Obs)) (s : St W Obs), s.state = e.observe s.world →
      (calls.foldl e.call s).state = e.observe (calls.foldl e.call s).world := by
    intro calls
    induction calls with
    | nil => intro s hs; exact hs
    | cons c calls ih =>
      intro s hs
      rw [List.foldl_cons]
      apply ih
      cases c with
      | reset x => rfl
      | step a =>
        simp only [Env.call, Env.step]
        rw [hloop s a hs]
  have hs : s.state = e.observe s.world := hinv calls _ rfl
  have hl := hloop s a hs
  simp only [Env.step, hl]
  refine ⟨rfl, rfl, rfl, ?_⟩
  rw [hs]

/-- C110: every episode begins in the saved state of the simulator as set up for the given state, whatever was done before. -/
theorem C110_reset (e : Env W Act Obs Out) (s : St W Obs) (calls : List (Call Act Obs)) (x : Option Obs) :
    (calls.foldl e.call s |> fun s => e.call s (.reset x)).world = e.setup x e.initial ∧ (e.reset x).2 = e.out (e.observe (e.setup x e.initial)) :=
  ⟨rfl, rfl⟩

example : ∃ e : Env ℕ ℕ ℕ ℕ, (e.step (e.reset none).1 5).2.1 = 10 :=
  ⟨⟨0, fun _ w => w, id, id, id, fun _ a => a, fun a w => w + a, id, fun _ _ _ _ => 0, fun _ => false, 2⟩, rfl⟩

end Verif.Wrap.Bullet
