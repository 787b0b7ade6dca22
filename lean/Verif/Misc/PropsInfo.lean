/-
C100: step informations.
-/
import Verif.Misc.ModelInfo
import Mathlib.Data.List.Induction
import Mathlib.Tactic.Linarith

namespace Verif.Misc

variable {V : Type}

/-! ### Specification -/

/-- The paths that occur in some steps. -/
def paths (steps : List (Step V)) : List Path := steps.flatMap (fun s => s.map Prod.fst)

/-- The values of a path over the steps; `none` where a step does not have it. -/
def history (steps : List (Step V)) (p : Path) : List (Option V) := steps.map (fun s => s.lookup p)

/-- The names of the paths of the steps do not clash. -/
def NoClash (steps : List (Step V)) : Prop := ∀ p ∈ paths steps, ∀ q ∈ paths steps, joinKey p = joinKey q → p = q

/-- The dictionary has, under the name of every path of the steps, its values, and nothing else. -/
def Holds (d : Arrays V) (steps : List (Step V)) : Prop :=
  (∀ p ∈ paths steps, d.lookup (joinKey p) = some (history steps p)) ∧
  ∀ k, k ∈ d.map Prod.fst → ∃ p ∈ paths steps, k = joinKey p

/-! ### Dictionaries -/

theorem lookup_mem {β : Type} (l : List (String × β)) (k : String) :
    l.lookup k ≠ none ↔ k ∈ l.map Prod.fst := by
  induction l with
  | nil => simp
  | cons x l ih =>
    rw [List.lookup_cons, List.map_cons, List.mem_cons]
    by_cases h : k = x.1
    · simp [h]
    · have h2 : (k == x.1) = false := by simpa using h
      rw [h2]
      simp only [h, false_or]
      exact ih

theorem lookup_setKey {β : Type} (l : List (String × β)) (k : String) (v : β) (k' : String) :
    (setKey l k v).lookup k' = if k' = k then some v else l.lookup k' := by
  unfold setKey
  split
  · rename_i h
    induction l with
    | nil => simp at h
    | cons x l ih =>
      obtain ⟨a, b⟩ := x
      by_cases hak : a = k
      · subst hak
        by_cases hk : k' = a
        · subst hk; simp
        · have hk2 : (k' == a) = false := by simpa using hk
          rw [if_neg hk]
          simp only [List.map_cons, if_true, List.lookup_cons, hk2]
          by_cases h2 : a ∈ l.map Prod.fst
          · rw [ih h2, if_neg hk]
          · have : l.map (fun p => if p.1 = a then (a, v) else p) = l := by
              conv_rhs => rw [← List.map_id l]
              apply List.map_congr_left
              intro p hp
              rw [if_neg (fun h => h2 (List.mem_map.2 ⟨p, hp, h⟩))]; rfl
            rw [this]
      · have h2 : k ∈ l.map Prod.fst := by
          rw [List.map_cons, List.mem_cons] at h
          rcases h with h | h
          · exact absurd h.symm hak
          · exact h
        simp only [List.map_cons, if_neg hak, List.lookup_cons]
        rw [ih h2]
        by_cases hk : k' = a
        · subst hk; simp [hak]
        · have hk2 : (k' == a) = false := by simpa using hk
          simp [hk2]
  · rename_i h
    rw [List.lookup_append]
    by_cases hk : k' = k
    · subst hk
      have : l.lookup k' = none := by
        by_contra hc
        exact h ((lookup_mem l k').1 hc)
      simp [this]
    · have hk2 : (k' == k) = false := by simpa using hk
      simp [hk, List.lookup_cons, hk2]

theorem lookup_map_snd {β γ : Type} (l : List (String × β)) (f : String → β → γ) (k : String) :
    (l.map (fun p => (p.1, f p.1 p.2))).lookup k = (l.lookup k).map (f k) := by
  induction l with
  | nil => rfl
  | cons x l ih =>
    rw [List.map_cons, List.lookup_cons, List.lookup_cons]
    by_cases h : k = x.1
    · subst h; simp
    · have h2 : (k == x.1) = false := by simpa using h
      rw [h2]; exact ih

/-! ### The key mapping -/

/-- The mapping has exactly the given paths, under their names. -/
def Maps (m : List (String × Path)) (P : Path → Prop) : Prop :=
  ∀ k p, m.lookup k = some p ↔ P p ∧ k = joinKey p

theorem mem_values (m : List (String × Path)) (P : Path → Prop) (h : Maps m P) (p : Path) (hp : P p) : p ∈ m.map Prod.snd := by
  have := (h (joinKey p) p).2 ⟨hp, rfl⟩
  clear h hp
  induction m with
  | nil => simp at this
  | cons x m ih =>
    rw [List.lookup_cons] at this
    rw [List.map_cons, List.mem_cons]
    by_cases hk : joinKey p = x.1
    · have h2 : (joinKey p == x.1) = true := by simpa using hk
      rw [h2] at this; simp only [Option.some.injEq] at this; exact Or.inl this.symm
    · have h2 : (joinKey p == x.1) = false := by simpa using hk
      rw [h2] at this; exact Or.inr (ih this)

/-- Every entry of the mapping has one of the given paths and its name. -/
def Named (m : List (String × Path)) (P : Path → Prop) : Prop := ∀ kp ∈ m, kp.1 = joinKey kp.2 ∧ P kp.2

theorem setKey_mem {β : Type} (l : List (String × β)) (k : String) (v : β) (x : String × β) (h : x ∈ setKey l k v) :
    x = (k, v) ∨ x ∈ l := by
  unfold setKey at h
  split at h
  · obtain ⟨p, hp, rfl⟩ := List.mem_map.1 h
    split
    · exact Or.inl rfl
    · exact Or.inr hp
  · rcases List.mem_append.1 h with h | h
    · exact Or.inr h
    · simp only [List.mem_singleton] at h; exact Or.inl h

theorem maps_addPath (m : List (String × Path)) (P : Path → Prop) (h : Maps m P) (hn : Named m P) (p : Path)
    (hP : ∀ q, P q → joinKey q = joinKey p → q = p) :
    Maps (addPath m p) (fun q => P q ∨ q = p) ∧ Named (addPath m p) (fun q => P q ∨ q = p) := by
  unfold addPath
  split
  · rename_i hm
    have hp : P p := by
      obtain ⟨kp, hkp, hkp2⟩ := List.mem_map.1 hm
      rw [← hkp2]; exact (hn kp hkp).2
    refine ⟨?_, fun kp hkp => ⟨(hn kp hkp).1, Or.inl (hn kp hkp).2⟩⟩
    intro k q
    rw [h k q]
    constructor
    · rintro ⟨h1, h2⟩; exact ⟨Or.inl h1, h2⟩
    · rintro ⟨h1 | h1, h2⟩
      · exact ⟨h1, h2⟩
      · subst h1; exact ⟨hp, h2⟩
  · constructor
    · intro k q
      rw [lookup_setKey]
      split
      · rename_i hk
        subst hk
        simp only [Option.some.injEq]
        constructor
        · rintro rfl; exact ⟨Or.inr rfl, rfl⟩
        · rintro ⟨h1 | h1, h2⟩
          · exact (hP q h1 h2.symm).symm
          · exact h1.symm
      · rename_i hk
        rw [h k q]
        constructor
        · rintro ⟨h1, h2⟩; exact ⟨Or.inl h1, h2⟩
        · rintro ⟨h1 | h1, h2⟩
          · exact ⟨h1, h2⟩
          · subst h1; exact absurd h2 hk
    · intro kp hkp
      rcases setKey_mem _ _ _ _ hkp with h1 | h1
      · rw [h1]; exact ⟨rfl, Or.inr rfl⟩
      · exact ⟨(hn kp h1).1, Or.inl (hn kp h1).2⟩

theorem maps_congr (m : List (String × Path)) (P Q : Path → Prop) (h : Maps m P) (hPQ : ∀ p, P p ↔ Q p) : Maps m Q := by
  intro k p; rw [h k p, hPQ]

theorem named_congr (m : List (String × Path)) (P Q : Path → Prop) (h : Named m P) (hPQ : ∀ p, P p ↔ Q p) : Named m Q :=
  fun kp hkp => ⟨(h kp hkp).1, (hPQ _).1 (h kp hkp).2⟩

theorem maps_paths (ps : List Path) : ∀ (m : List (String × Path)) (P : Path → Prop) (_ : Maps m P) (_ : Named m P)
    (_ : ∀ p ∈ ps, ∀ q, (P q ∨ q ∈ ps) → joinKey q = joinKey p → q = p),
    Maps (ps.foldl addPath m) (fun q => P q ∨ q ∈ ps) ∧
      Named (ps.foldl addPath m) (fun q => P q ∨ q ∈ ps) := by
  induction ps with
  | nil => intro m P h hn _; exact ⟨maps_congr m _ _ h (by simp), named_congr m _ _ hn (by simp)⟩
  | cons p ps ih =>
    intro m P h hn hP
    obtain ⟨h1, h2⟩ := maps_addPath m P h hn p (fun q hq hk => hP p (by simp) q (Or.inl hq) hk)
    obtain ⟨h3, h4⟩ := ih (addPath m p) (fun q => P q ∨ q = p) h1 h2 (by
      intro p' hp' q hq hk
      refine hP p' (List.mem_cons_of_mem _ hp') q ?_ hk
      rcases hq with (hq | hq) | hq
      · exact Or.inl hq
      · right; rw [hq]; simp
      · right; exact List.mem_cons_of_mem _ hq)
    rw [List.foldl_cons]
    have hiff : ∀ q, ((P q ∨ q = p) ∨ q ∈ ps) ↔ (P q ∨ q ∈ p :: ps) := by
      intro q; rw [List.mem_cons, or_assoc]
    exact ⟨maps_congr _ _ _ h3 hiff, named_congr _ _ _ h4 hiff⟩

theorem updateKeys_eq (m : List (String × Path)) (storage : List (Step V)) :
    updateKeys m storage = (paths storage).foldl addPath m := by
  unfold updateKeys
  induction storage generalizing m with
  | nil => rfl
  | cons s storage ih =>
    have : paths (s :: storage) = s.map Prod.fst ++ paths storage := by simp [paths]
    rw [List.foldl_cons, ih, this, List.foldl_append, List.foldl_map]

/-! ### What the object represents -/

/-- The object holds the arrays of the steps `S`, and the steps `T` are waiting. -/
structure Represents (e : Extra V) (S T : List (Step V)) : Prop where
  storage : e.storage = T
  some_path : S ≠ [] → paths S ≠ []
  maps : Maps e.keyMapping (fun p => p ∈ paths S)
  named : Named e.keyMapping (fun p => p ∈ paths S)
  structured : Holds e.structured S

theorem paths_append (S T : List (Step V)) : paths (S ++ T) = paths S ++ paths T := by simp [paths]

theorem history_append (S T : List (Step V)) (p : Path) : history (S ++ T) p = history S p ++ history T p := by simp [history]

theorem lookup_none_of_not_mem (s : Step V) (p : Path) (h : p ∉ s.map Prod.fst) : s.lookup p = none := by
  rw [List.lookup_eq_none_iff]
  intro x hx
  simp only [bne_iff_ne, ne_eq]
  exact fun h2 => h (List.mem_map.2 ⟨x, hx, h2.symm⟩)

theorem history_none (S : List (Step V)) (p : Path) (h : p ∉ paths S) : history S p = List.replicate S.length none := by
  rw [List.eq_replicate_iff]
  refine ⟨by simp [history], ?_⟩
  intro b hb
  obtain ⟨s, hs, rfl⟩ := List.mem_map.1 hb
  exact lookup_none_of_not_mem s p (fun hp => h (List.mem_flatMap.2 ⟨s, hs, hp⟩))

theorem history_nil (p : Path) : history ([] : List (Step V)) p = [] := rfl

theorem holds_nil (S : List (Step V)) (hp : S ≠ [] → paths S ≠ []) (d : Arrays V) (h : Holds d S) : d = [] ↔ S = [] := by
  constructor
  · intro hd
    by_contra hS
    obtain ⟨p, hp2⟩ := List.exists_mem_of_ne_nil _ (hp hS)
    have := h.1 p hp2
    rw [hd] at this; simp at this
  · intro hS
    by_contra hd
    obtain ⟨x, hx⟩ := List.exists_mem_of_ne_nil _ hd
    obtain ⟨p, hp2, _⟩ := h.2 x.1 (List.mem_map_of_mem hx)
    rw [hS] at hp2; simp [paths] at hp2

theorem holds_length (S : List (Step V)) (d : Arrays V) (h : Holds d S) (hd : d ≠ []) : structuredLength d = S.length := by
  cases d with
  | nil => exact absurd rfl hd
  | cons x d =>
    obtain ⟨p, hp, hk⟩ := h.2 x.1 (by simp)
    have h1 := h.1 p hp
    rw [← hk, List.lookup_cons] at h1
    simp only [beq_self_eq_true, Option.some.injEq] at h1
    show x.2.length = _
    rw [h1]; simp [history]

/-- The values of a column. -/
theorem column_spec (e : Extra V) (S T : List (Step V)) (h : Represents e S T) (p : Path) (c : List (Option V))
    (hclash : NoClash (S ++ T)) (hp : p ∈ paths (S ++ T)) (hc : column e (joinKey p) p = some c) : c = history (S ++ T) p := by
  unfold column at hc
  rw [history_append]
  rcases hs : e.structured with _ | ⟨x, xs⟩
  · rw [hs] at hc
    simp only [Option.some.injEq] at hc
    have hS : S = [] := (holds_nil S h.some_path _ h.structured).1 hs
    rw [hS, history_nil, List.nil_append, ← hc, h.storage]; rfl
  · rw [hs] at hc
    simp only [Option.map_eq_some_iff] at hc
    obtain ⟨old, h1, h2⟩ := hc
    rw [← hs] at h1
    have hk : joinKey p ∈ e.structured.map Prod.fst := (lookup_mem _ _).1 (by rw [h1]; simp)
    obtain ⟨q, hq, hqk⟩ := h.structured.2 _ hk
    have hpq : p = q := hclash p hp q (by rw [paths_append]; exact List.mem_append_left _ hq) hqk
    rw [← hpq] at hq
    have h3 := h.structured.1 p hq
    rw [h1, Option.some.injEq] at h3
    rw [← h2, h3, h.storage]; rfl

theorem columns_spec (e : Extra V) (m : List (String × Path)) (out : Arrays V) (h : columns e m = some out) :
    out.map Prod.fst = m.map Prod.fst ∧ ∀ k p, m.lookup k = some p → ∃ c, column e k p = some c ∧ out.lookup k = some c := by
  induction m generalizing out with
  | nil => simp only [columns, Option.some.injEq] at h; subst h; simp
  | cons kp m ih =>
    rw [columns] at h
    rcases hc : column e kp.1 kp.2 with _ | c
    · simp [hc] at h
    · rcases hr : columns e m with _ | r
      · simp [hc, hr] at h
      · simp only [hc, hr, Option.some.injEq] at h
        subst h
        obtain ⟨h1, h2⟩ := ih r hr
        refine ⟨by simp [h1], ?_⟩
        intro k p hk
        rw [List.lookup_cons] at hk ⊢
        by_cases hkk : k = kp.1
        · subst hkk
          simp only [beq_self_eq_true, Option.some.injEq] at hk ⊢
          exact ⟨c, by rw [← hk]; exact hc, rfl⟩
        · have hb : (k == kp.1) = false := by simpa using hkk
          rw [hb] at hk ⊢
          exact h2 k p hk

/-- Parsing moves the waiting steps to the arrays. -/
theorem parse_represents (e e' : Extra V) (S T : List (Step V)) (h : Represents e S T) (hclash : NoClash (S ++ T))
    (hpath : S ++ T ≠ [] → paths (S ++ T) ≠ []) (he : e.parse = some e') :
    Represents e' (S ++ T) [] ∧ Holds e'.data (S ++ T) := by
  unfold Extra.parse at he
  simp only [Option.map_eq_some_iff] at he
  obtain ⟨out, ho, rfl⟩ := he
  obtain ⟨h1, h2⟩ := columns_spec e _ out ho
  obtain ⟨hm, hn⟩ := maps_paths (paths e.storage) e.keyMapping (fun p => p ∈ paths S) h.maps h.named (by
    intro p hp q hq hk
    rw [h.storage] at hp hq
    refine hclash q ?_ p ?_ hk
    · rw [paths_append]; exact List.mem_append.2 hq
    · rw [paths_append]; exact List.mem_append_right _ hp)
  rw [← updateKeys_eq, h.storage] at hm hn
  rw [h.storage] at h1 h2
  have hm2 : Maps (updateKeys e.keyMapping T) (fun p => p ∈ paths (S ++ T)) := by
    apply maps_congr _ _ _ hm
    intro p; rw [paths_append, List.mem_append]
  have hH : Holds out (S ++ T) := by
    constructor
    · intro p hp
      obtain ⟨c, hc1, hc2⟩ := h2 (joinKey p) p ((hm2 _ _).2 ⟨hp, rfl⟩)
      rw [hc2, column_spec e S T h p c hclash hp hc1]
    · intro k hk
      rw [h1] at hk
      rcases hl : (updateKeys e.keyMapping T).lookup k with _ | p
      · exact absurd hl ((lookup_mem _ _).2 hk)
      · exact ⟨p, (hm2 _ _).1 hl⟩
  refine ⟨⟨rfl, hpath, ?_, ?_, hH⟩, hH⟩
  · simpa only [h.storage] using hm2
  · have hn2 : Named (updateKeys e.keyMapping T) (fun p => p ∈ paths (S ++ T)) := by
      apply named_congr _ _ _ hn
      intro p; rw [paths_append, List.mem_append]
    simpa only [h.storage] using hn2

/-! ### Histories of calls -/

/-- The calls that add to an information. -/
inductive InfoCall (V : Type)
  | append (info : Step V)
  | parse

/-- A call of a method. -/
def Extra.call (e : Extra V) : InfoCall V → Option (Extra V)
  | .append info => some (e.append info)
  | .parse => e.parse

/-- The steps that were appended. -/
def stepsOf (calls : List (InfoCall V)) : List (Step V) :=
  calls.filterMap (fun c => match c with | .append info => some info | .parse => none)

theorem stepsOf_snoc (calls : List (InfoCall V)) (c : InfoCall V) : stepsOf (calls ++ [c]) = stepsOf calls ++ stepsOf [c] := by
  simp [stepsOf, List.filterMap_append]

theorem represents_new : Represents (Extra.new : Extra V) [] [] := by
  refine ⟨rfl, fun h => absurd rfl h, ?_, ?_, ?_, ?_⟩
  · intro k p; simp [Extra.new, paths]
  · intro kp h; simp [Extra.new] at h
  · intro p hp; simp [paths] at hp
  · intro k hk; simp [Extra.new] at hk

theorem noClash_left (S T : List (Step V)) (h : NoClash (S ++ T)) : NoClash S := by
  intro p hp q hq
  exact h p (by rw [paths_append]; exact List.mem_append_left _ hp) q (by rw [paths_append]; exact List.mem_append_left _ hq)

/-- Steps are parsed only when some value was seen. -/
def ParsedWithKeys (calls : List (InfoCall V)) : Prop :=
  ∀ pre, pre ++ [InfoCall.parse] <+: calls → stepsOf pre ≠ [] → paths (stepsOf pre) ≠ []

theorem represents_calls (calls : List (InfoCall V)) : ∀ e, calls.foldlM Extra.call Extra.new = some e →
    NoClash (stepsOf calls) → ParsedWithKeys calls → ∃ S T, Represents e S T ∧ S ++ T = stepsOf calls := by
  induction calls using List.reverseRecOn with
  | nil =>
    intro e h _ _
    simp only [List.foldlM_nil, pure, Option.some.injEq] at h
    subst h
    exact ⟨[], [], represents_new, rfl⟩
  | append_singleton calls c ih =>
    intro e h hclash hkeys
    rw [List.foldlM_append] at h
    rcases hm : calls.foldlM Extra.call Extra.new with _ | m
    · rw [hm] at h; simp at h
    · rw [hm] at h
      simp only [List.foldlM_cons, List.foldlM_nil, Option.bind_eq_bind, Option.bind_some, bind_pure] at h
      rw [stepsOf_snoc] at hclash
      obtain ⟨S, T, hr, hST⟩ := ih m hm (noClash_left _ _ hclash)
        (fun pre hpre => hkeys pre (hpre.trans (List.prefix_append _ _)))
      rw [stepsOf_snoc]
      cases c with
      | append info =>
        simp only [Extra.call, Option.some.injEq] at h
        subst h
        refine ⟨S, T ++ [info], ⟨?_, hr.some_path, hr.maps, hr.named, hr.structured⟩, ?_⟩
        · simp only [Extra.append, hr.storage]
        · rw [← List.append_assoc, hST]; rfl
      | parse =>
        have hk := hkeys calls (List.prefix_refl _)
        have := parse_represents m e S T hr (by rw [hST]; exact noClash_left _ _ hclash) (by rw [hST]; exact hk) h
        refine ⟨S ++ T, [], this.1, ?_⟩
        rw [List.append_nil, hST]; simp [stepsOf]

/-- **C100** (partial). Whatever the order of appending and parsing, if no parsing failed, names do not clash and some value was seen
before the first parsing, then after parsing the dictionary has, under the name of every path that occurred, the array of its values at
all the steps in order, with NaN at the steps that do not have it, and no other entries. -/
theorem C100_parse_partial (calls : List (InfoCall V)) (e : Extra V)
    (hrun : (calls ++ [InfoCall.parse]).foldlM Extra.call Extra.new = some e) (hclash : NoClash (stepsOf calls))
    (hkeys : ParsedWithKeys (calls ++ [InfoCall.parse])) : Holds e.data (stepsOf calls) := by
  rw [List.foldlM_append] at hrun
  rcases hm : calls.foldlM Extra.call Extra.new with _ | m
  · rw [hm] at hrun; simp at hrun
  · rw [hm] at hrun
    simp only [List.foldlM_cons, List.foldlM_nil, Option.bind_eq_bind, Option.bind_some, bind_pure] at hrun
    obtain ⟨S, T, hr, hST⟩ := represents_calls calls m hm hclash (fun pre hpre => hkeys pre (hpre.trans (List.prefix_append _ _)))
    rw [← hST]
    exact (parse_represents m e S T hr (by rw [hST]; exact hclash) (by rw [hST]; exact hkeys calls (List.prefix_refl _)) hrun).2

/-- The step informations of the examples. -/
def demoSteps : List (InfoCall ℕ) :=
  [.append [(["x"], 1), (["r", "goal"], 2)], .parse, .append [(["x"], 3)], .append [(["r", "goal"], 4)]]

example : ∃ e, (demoSteps ++ [InfoCall.parse]).foldlM Extra.call Extra.new = some e ∧
    e.data = [("x", [some 1, some 3, none]), ("r_goal", [some 2, none, some 4])] := by
  exact ⟨_, rfl, by decide⟩

/-- **C100**. Parsing succeeds exactly if nothing was parsed before or every path that waits was parsed before. -/
theorem C100_succeeds (e : Extra V) (S T : List (Step V)) (h : Represents e S T) (hclash : NoClash (S ++ T)) :
    (∃ e', e.parse = some e') ↔ (S = [] ∨ ∀ p ∈ paths T, p ∈ paths S) := by
  obtain ⟨hm, hn⟩ := maps_paths (paths e.storage) e.keyMapping (fun p => p ∈ paths S) h.maps h.named (by
    intro p hp q hq hk
    rw [h.storage] at hp hq
    refine hclash q ?_ p ?_ hk
    · rw [paths_append]; exact List.mem_append.2 hq
    · rw [paths_append]; exact List.mem_append_right _ hp)
  rw [← updateKeys_eq, h.storage] at hm hn
  have hcol : ∀ m : List (String × Path), (∃ out, columns e m = some out) ↔ ∀ kp ∈ m, ∃ c, column e kp.1 kp.2 = some c := by
    intro m
    induction m with
    | nil => simp [columns]
    | cons kp m ih =>
      rw [columns]
      constructor
      · rintro ⟨out, ho⟩
        rcases hc : column e kp.1 kp.2 with _ | c
        · simp [hc] at ho
        · rcases hr : columns e m with _ | r
          · simp [hc, hr] at ho
          · intro x hx
            rcases List.mem_cons.1 hx with hx | hx
            · exact ⟨c, by rw [hx]; exact hc⟩
            · exact ih.1 ⟨r, hr⟩ x hx
      · intro hall
        obtain ⟨c, hc⟩ := hall kp (by simp)
        obtain ⟨r, hr⟩ := ih.2 (fun x hx => hall x (List.mem_cons_of_mem _ hx))
        exact ⟨(kp.1, c) :: r, by simp only [hc, hr]⟩
  have hparse : (∃ e', e.parse = some e') ↔ ∃ out, columns e (updateKeys e.keyMapping T) = some out := by
    unfold Extra.parse
    rw [h.storage]
    simp only [Option.map_eq_some_iff]
    constructor
    · rintro ⟨_, out, ho, _⟩; exact ⟨out, ho⟩
    · rintro ⟨out, ho⟩; exact ⟨_, out, ho, rfl⟩
  rw [hparse, hcol]
  have hnil := holds_nil S h.some_path _ h.structured
  rcases hs : e.structured with _ | ⟨x, xs⟩
  · constructor
    · intro _; exact Or.inl (hnil.1 hs)
    · intro _ kp _
      exact ⟨e.storage.map (fun step => step.lookup kp.2), by simp only [column, hs]⟩
  · have hS : S ≠ [] := fun hc => by rw [hnil.2 hc] at hs; simp at hs
    have hcs : ∀ k p, (∃ c, column e k p = some c) ↔ k ∈ e.structured.map Prod.fst := by
      intro k p
      have : column e k p = (e.structured.lookup k).map (fun old => old ++ e.storage.map (fun step => step.lookup p)) := by
        simp only [column, hs]
      rw [this, ← lookup_mem]
      rcases e.structured.lookup k with _ | o <;> simp
    constructor
    · intro hall
      right
      intro p hp
      have hl := (hm (joinKey p) p).2 ⟨Or.inr hp, rfl⟩
      have hmem : joinKey p ∈ (updateKeys e.keyMapping T).map Prod.fst := (lookup_mem _ _).1 (by rw [hl]; simp)
      obtain ⟨kp, hkp, hkp2⟩ := List.mem_map.1 hmem
      have hin := (hcs kp.1 kp.2).1 (hall kp hkp)
      obtain ⟨q, hq, hqk⟩ := h.structured.2 _ hin
      have : p = q := hclash p (by rw [paths_append]; exact List.mem_append_right _ hp) q
        (by rw [paths_append]; exact List.mem_append_left _ hq) (by rw [← hqk, hkp2])
      rw [this]; exact hq
    · rintro (hc | hall) kp hkp
      · exact absurd hc hS
      · rw [hcs]
        have hmem : kp.1 ∈ (updateKeys e.keyMapping T).map Prod.fst := List.mem_map_of_mem hkp
        rcases hl : (updateKeys e.keyMapping T).lookup kp.1 with _ | p
        · exact absurd hl ((lookup_mem _ _).2 hmem)
        · obtain ⟨hp, hk⟩ := (hm _ _).1 hl
          have hpS : p ∈ paths S := by
            rcases hp with hp | hp
            · exact hp
            · exact hall p hp
          rw [hk]
          apply (lookup_mem _ _).1
          rw [h.structured.1 p hpS]; simp

example : ∃ e : Extra ℕ, Represents e [] [[(["x"], 1)]] := by
  exact ⟨Extra.new.append [(["x"], 1)], ⟨rfl, fun h => absurd rfl h, (represents_new (V := ℕ)).maps,
    (represents_new (V := ℕ)).named, (represents_new (V := ℕ)).structured⟩⟩

/-- **C100**. A value that appears for the first time after a parsing makes the next parsing fail. -/
theorem C100_parse_refuted (v w : V) :
    ([InfoCall.append [(["x"], v)], .parse, .append [(["x"], v), (["y"], w)], .parse].foldlM Extra.call Extra.new : Option (Extra V)) =
      none := rfl

/-- **C100**. Two paths with the same name: only one of the two values is recorded. -/
theorem C100_clash_refuted (v w : V) : ∃ e : Extra V,
    [InfoCall.append [(["a", "b"], v), (["a_b"], w)], .parse].foldlM Extra.call Extra.new = some e ∧ e.data = [("a_b", [some w])] :=
  ⟨_, rfl, rfl⟩

/-- **C100**. Steps without values that are parsed before a value is seen are forgotten: the array starts at a later step. -/
theorem C100_keyless_refuted (v : V) : ∃ e : Extra V,
    [InfoCall.append [], .parse, .append [(["a"], v)], .parse].foldlM Extra.call Extra.new = some e ∧ e.data = [("a", [some v])] ∧
    stepsOf [InfoCall.append [], .parse, .append [(["a"], v)], .parse] = [[], [(["a"], v)]] :=
  ⟨_, rfl, rfl, rfl⟩

/-! ### Copies, views and sums -/

/-- **C100** (partial: before anything was parsed). A copy has the same data and the same steps waiting. -/
theorem C100_copy_partial (e : Extra V) (T : List (Step V)) (h : Represents e [] T) :
    Represents e.copy [] T ∧ e.copy.data = e.data := by
  refine ⟨⟨h.storage, h.some_path, h.maps, h.named, ?_, ?_⟩, rfl⟩
  · intro p hp; simp [paths] at hp
  · intro k hk; simp [Extra.copy] at hk

/-- **C100**. After a parsing, a copy has lost the arrays it would build on: parsing it, or asking it for a view, drops the values of
all the steps before. -/
theorem C100_copy_refuted (v w : V) : ∃ e e' : Extra V,
    [InfoCall.append [(["a"], v)], .parse].foldlM Extra.call Extra.new = some e ∧ e.copy.data = [("a", [some v])] ∧
    [InfoCall.append [(["a"], w)], .parse].foldlM Extra.call e.copy = some e' ∧ e'.data = [("a", [some w])] ∧
    (e.copy.view [0]).map Extra.data = some [("a", [])] :=
  ⟨_, _, rfl, rfl, rfl, rfl, rfl⟩

theorem concatDict_holds (d1 d2 : Arrays V) (S S' : List (Step V)) (h1 : Holds d1 S) (h2 : Holds d2 S')
    (hp1 : S ≠ [] → paths S ≠ []) (hp2 : S' ≠ [] → paths S' ≠ []) (hclash : NoClash (S ++ S')) :
    Holds (concatDict d1 d2) (S ++ S') := by
  unfold concatDict
  split
  · rename_i hd
    rw [List.isEmpty_iff] at hd
    rw [(holds_nil S hp1 d1 h1).1 hd, List.nil_append]; exact h2
  · rename_i hd1
    split
    · rename_i hd
      rw [List.isEmpty_iff] at hd
      rw [(holds_nil S' hp2 d2 h2).1 hd, List.append_nil]; exact h1
    · rename_i hd2
      rw [List.isEmpty_iff] at hd1 hd2
      have hn1 := holds_length S d1 h1 hd1
      have hn2 := holds_length S' d2 h2 hd2
      simp only []
      rw [hn1, hn2]
      have hkeys : ∀ k, k ∈ d1.map Prod.fst ++ (d2.map Prod.fst).filter (fun k => k ∉ d1.map Prod.fst) ↔
          k ∈ d1.map Prod.fst ∨ k ∈ d2.map Prod.fst := by
        intro k
        rw [List.mem_append, List.mem_filter]
        simp only [decide_eq_true_eq]
        by_cases hk : k ∈ d1.map Prod.fst
        · simp [hk]
        · simp only [hk, false_or, not_false_eq_true, and_true]
      have hlook : ∀ (keys : List String) (k : String), k ∈ keys →
          (keys.map (concatKey d1 d2 S.length S'.length)).lookup k = some (concatKey d1 d2 S.length S'.length k).2 := by
        intro keys k hk
        induction keys with
        | nil => simp at hk
        | cons x keys ih =>
          rw [List.map_cons, List.lookup_cons]
          by_cases hx : k = x
          · subst hx
            simp [concatKey]
          · have hb : (k == (concatKey d1 d2 S.length S'.length x).1) = false := by simpa [concatKey] using hx
            rw [hb]
            rcases List.mem_cons.1 hk with h | h
            · exact absurd h hx
            · exact ih h
      have harr : ∀ (d : Arrays V) (R : List (Step V)), Holds d R → (∀ q ∈ paths R, q ∈ paths (S ++ S')) →
          ∀ p ∈ paths (S ++ S'), (d.lookup (joinKey p)).getD (List.replicate R.length none) = history R p := by
        intro d R hR hsub p hp
        by_cases hpR : p ∈ paths R
        · rw [hR.1 p hpR]; rfl
        · have : d.lookup (joinKey p) = none := by
            by_contra hc
            obtain ⟨q, hq, hqk⟩ := hR.2 _ ((lookup_mem _ _).1 hc)
            have := hclash p hp q (hsub q hq) hqk
            exact hpR (this ▸ hq)
          rw [this, history_none R p hpR]; rfl
      constructor
      · intro p hp
        have hmem : joinKey p ∈ d1.map Prod.fst ++ (d2.map Prod.fst).filter (fun k => k ∉ d1.map Prod.fst) := by
          rw [hkeys]
          have hp' := hp
          rw [paths_append, List.mem_append] at hp'
          rcases hp' with hp' | hp'
          · left; exact (lookup_mem _ _).1 (by rw [h1.1 p hp']; simp)
          · right; exact (lookup_mem _ _).1 (by rw [h2.1 p hp']; simp)
        rw [hlook _ _ hmem, history_append]
        simp only [concatKey]
        rw [harr d1 S h1 (fun q hq => by rw [paths_append]; exact List.mem_append_left _ hq) p hp,
          harr d2 S' h2 (fun q hq => by rw [paths_append]; exact List.mem_append_right _ hq) p hp]
      · intro k hk
        rw [List.map_map] at hk
        obtain ⟨k', hk', rfl⟩ := List.mem_map.1 hk
        simp only [Function.comp, concatKey]
        rw [hkeys] at hk'
        rcases hk' with h | h
        · obtain ⟨p, hp, hpk⟩ := h1.2 _ h
          exact ⟨p, by rw [paths_append]; exact List.mem_append_left _ hp, hpk⟩
        · obtain ⟨p, hp, hpk⟩ := h2.2 _ h
          exact ⟨p, by rw [paths_append]; exact List.mem_append_right _ hp, hpk⟩

theorem lookup_foldl_setKey (m : List (String × Path)) : ∀ (m0 : List (String × Path)) (k : String) (p : Path),
    (m.foldl (fun m kp => setKey m kp.1 kp.2) m0).lookup k = some p →
      (m0.lookup k = some p ∨ ∃ kp ∈ m, kp = (k, p)) := by
  induction m with
  | nil => intro m0 k p h; exact Or.inl h
  | cons x m ih =>
    intro m0 k p h
    rw [List.foldl_cons] at h
    rcases ih _ _ _ h with h | ⟨kp, h1, h2⟩
    · rw [lookup_setKey] at h
      split at h
      · rename_i hk
        right
        simp only [Option.some.injEq] at h
        exact ⟨x, by simp, by rw [hk, ← h]⟩
      · exact Or.inl h
    · right; exact ⟨kp, List.mem_cons_of_mem _ h1, h2⟩

theorem lookup_foldl_setKey_mem (m : List (String × Path)) : ∀ (m0 : List (String × Path)) (k : String),
    (k ∈ m.map Prod.fst ∨ m0.lookup k ≠ none) → (m.foldl (fun m kp => setKey m kp.1 kp.2) m0).lookup k ≠ none := by
  induction m with
  | nil =>
    intro m0 k h
    rcases h with h | h
    · simp at h
    · exact h
  | cons x m ih =>
    intro m0 k h
    rw [List.foldl_cons]
    apply ih
    rw [List.map_cons, List.mem_cons] at h
    rcases h with (h | h) | h
    · right; rw [lookup_setKey, if_pos h]; simp
    · exact Or.inl h
    · right
      rw [lookup_setKey]
      split
      · simp
      · exact h

/-- **C100**. The sum of two objects: its arrays are those of the parsed steps of the first followed by those of the second, padded
with NaN where one of them does not have a key, and the steps that wait are those of the first followed by those of the second. -/
theorem C100_add (e f : Extra V) (S T S' T' : List (Step V)) (he : Represents e S T) (hf : Represents f S' T')
    (hclash : NoClash (S ++ S')) :
    Represents (e.add f) (S ++ S') (T ++ T') ∧
    (Holds e.data S → Holds f.data S' → Holds (e.add f).data (S ++ S')) := by
  have hsub : ∀ p, p ∈ paths (S ++ S') ↔ p ∈ paths S ∨ p ∈ paths S' := by
    intro p; rw [paths_append, List.mem_append]
  refine ⟨⟨?_, ?_, ?_, ?_, ?_⟩, ?_⟩
  · simp only [Extra.add, he.storage, hf.storage]
  · intro h
    rw [paths_append]
    intro hc
    rw [List.append_eq_nil_iff] at hc
    by_cases h1 : S = []
    · by_cases h2 : S' = []
      · rw [h1, h2] at h; exact h rfl
      · exact hf.some_path h2 hc.2
    · exact he.some_path h1 hc.1
  · intro k p
    simp only [Extra.add]
    have hone : ∀ q, (f.keyMapping.foldl (fun m kp => setKey m kp.1 kp.2) e.keyMapping).lookup k = some q →
        q ∈ paths (S ++ S') ∧ k = joinKey q := by
      intro q hq
      rcases lookup_foldl_setKey _ _ _ _ hq with h | ⟨kp, h1, h2⟩
      · obtain ⟨h1, h2⟩ := (he.maps k q).1 h
        exact ⟨(hsub q).2 (Or.inl h1), h2⟩
      · have hn := hf.named kp h1
        rw [h2] at hn h1
        simp only at hn
        exact ⟨(hsub q).2 (Or.inr hn.2), hn.1⟩
    constructor
    · exact hone p
    · rintro ⟨h1, h2⟩
      have hne : (f.keyMapping.foldl (fun m kp => setKey m kp.1 kp.2) e.keyMapping).lookup k ≠ none := by
        apply lookup_foldl_setKey_mem
        rcases (hsub p).1 h1 with h | h
        · right; rw [(he.maps k p).2 ⟨h, h2⟩]; simp
        · left
          apply (lookup_mem _ _).1
          rw [(hf.maps k p).2 ⟨h, h2⟩]; simp
      rcases hl : (f.keyMapping.foldl (fun m kp => setKey m kp.1 kp.2) e.keyMapping).lookup k with _ | q
      · exact absurd hl hne
      · obtain ⟨h3, h4⟩ := hone q hl
        have := hclash p h1 q h3 (h2.symm.trans h4)
        rw [this]; exact hl
  · intro kp hkp
    simp only [Extra.add] at hkp
    have : ∀ (m m0 : List (String × Path)), Named m (fun p => p ∈ paths (S ++ S')) → Named m0 (fun p => p ∈ paths (S ++ S')) →
        Named (m.foldl (fun m kp => setKey m kp.1 kp.2) m0) (fun p => p ∈ paths (S ++ S')) := by
      intro m
      induction m with
      | nil => intro m0 _ h; exact h
      | cons x m ih =>
        intro m0 h1 h2
        rw [List.foldl_cons]
        apply ih _ (fun y hy => h1 y (List.mem_cons_of_mem _ hy))
        intro y hy
        rcases setKey_mem _ _ _ _ hy with h | h
        · rw [h]; exact h1 x (by simp)
        · exact h2 y h
    exact this _ _ (fun x hx => ⟨(hf.named x hx).1, (hsub _).2 (Or.inr (hf.named x hx).2)⟩)
      (fun x hx => ⟨(he.named x hx).1, (hsub _).2 (Or.inl (he.named x hx).2)⟩) kp hkp
  · exact concatDict_holds _ _ _ _ he.structured hf.structured he.some_path hf.some_path hclash
  · intro h1 h2
    exact concatDict_holds _ _ _ _ h1 h2 he.some_path hf.some_path hclash

/-- **C100** (partial: no step of the first object waits, or none of the second is parsed). The sum of two objects, once parsed, has the
steps of the first followed by the steps of the second. -/
theorem C100_add_partial (e f g : Extra V) (S T S' T' : List (Step V)) (he : Represents e S T) (hf : Represents f S' T')
    (hclash : NoClash (S ++ T ++ (S' ++ T'))) (hor : T = [] ∨ S' = []) (hg : (e.add f).parse = some g)
    (hpath : S ++ T ++ (S' ++ T') ≠ [] → paths (S ++ T ++ (S' ++ T')) ≠ []) : Holds g.data (S ++ T ++ (S' ++ T')) := by
  have hperm : S ++ T ++ (S' ++ T') = S ++ S' ++ (T ++ T') := by
    rcases hor with h | h <;> simp [h]
  rw [hperm] at hclash hpath ⊢
  exact (parse_represents _ g _ _ (C100_add e f S T S' T' he hf (noClash_left _ _ hclash)).1 hclash hpath hg).2

/-- **C100**. Otherwise the order of the steps is lost: the parsed steps of the second object come before the waiting steps of the
first. -/
theorem C100_add_refuted (u v w : V) : ∃ e f g : Extra V,
    [InfoCall.append [(["a"], u)], .parse, .append [(["a"], v)]].foldlM Extra.call Extra.new = some e ∧
    [InfoCall.append [(["a"], w)], .parse].foldlM Extra.call Extra.new = some f ∧
    (e.add f).parse = some g ∧ g.data = [("a", [some u, some w, some v])] :=
  ⟨_, _, _, rfl, rfl, rfl, rfl⟩

/-- **C100**. A view has, under the name of every path, the values at the chosen steps, in the order of the positions. -/
theorem C100_view (e e' : Extra V) (S T : List (Step V)) (he : Represents e S T) (hclash : NoClash (S ++ T))
    (hpath : S ++ T ≠ [] → paths (S ++ T) ≠ []) (index : List ℕ) (hv : e.view index = some e') (p : Path) (hp : p ∈ paths (S ++ T)) :
    e'.data.lookup (joinKey p) = some (history (index.filterMap (fun i => (S ++ T)[i]?)) p) := by
  unfold Extra.view at hv
  simp only [Option.map_eq_some_iff] at hv
  obtain ⟨m, hm, rfl⟩ := hv
  have h := (parse_represents e m S T he hclash hpath hm).2.1 p hp
  simp only []
  have := lookup_map_snd m.data (fun _ a => index.filterMap (fun i => a[i]?)) (joinKey p)
  rw [this, h]
  simp only [Option.map_some, Option.some.injEq]
  unfold history
  rw [List.map_filterMap]
  apply List.filterMap_congr
  intro i _
  rw [List.getElem?_map]

example : ∃ e e' : Extra ℕ, demoSteps.foldlM Extra.call Extra.new = some e ∧ e.view [2, 0] = some e' ∧
    e'.data = [("x", [none, some 1]), ("r_goal", [some 4, some 2])] := by
  exact ⟨_, _, rfl, rfl, by decide⟩

end Verif.Misc
