/-
Properties of spaces and of the registry of environments (C109).
-/
import Verif.Wrap.ModelSpaces
import Mathlib.Data.List.Basic
import Mathlib.Order.Lattice
import Mathlib.Tactic.NormNum

namespace Verif.Wrap.Space

/-! ### Spaces -/

/-- Arrays of numpy have as many entries as their shape says. -/
def Bound.ok : Bound → Prop
  | .num _ => True
  | .arr s e => e.length = s.prod

/-- C109: a box of two numbers and a shape has arrays of this shape as bounds, all entries of which are these numbers. -/
theorem C109_box_numbers (l h : ℝ) (shape : List ℕ) : ∃ b el eh, mkBox (.num l) (.num h) (some shape) = some b ∧ b.shape = shape
    ∧ b.low = .arr shape el ∧ b.high = .arr shape eh ∧ el.length = shape.prod ∧ eh.length = shape.prod
    ∧ (∀ x ∈ el, x = l) ∧ (∀ x ∈ eh, x = h) :=
  ⟨_, _, _, rfl, rfl, rfl, rfl, by simp, by simp, fun _ hx => List.eq_of_mem_replicate hx, fun _ hx => List.eq_of_mem_replicate hx⟩

/-- C109: bounds of different shapes, or a number with an array, are rejected; and so are numbers without a shape. -/
theorem C109_box_rejects (s s' : List ℕ) (e e' : List ℝ) (x : ℝ) (shape : Option (List ℕ)) :
    (s ≠ s' → mkBox (.arr s e) (.arr s' e') shape = none) ∧ mkBox (.arr s e) (.num x) shape = none ∧
    mkBox (.num x) (.arr s e) shape = none ∧ ∀ y, mkBox (.num x) (.num y) none = none := by
  refine ⟨?_, ?_, ?_, ?_⟩
  · intro h
    cases shape <;> simp [mkBox, Bound.shape, Ne.symm h]
  · cases shape <;> simp [mkBox, Bound.shape]
  · cases shape <;> simp [mkBox, Bound.shape]
  · intro y; rfl

/-- C109, not for arrays given together with another shape (see `C109_shape_refuted`): the shape of a box is that of its bounds, the bounds are the
given ones, and a saved box is loaded as it was. -/
theorem C109_box_partial (low high : Bound) (shape : Option (List ℕ)) (b : Box) (hb : mkBox low high shape = some b)
    (hs : ∀ s, shape = some s → ∀ s', low.shape = some s' → s' = s) :
    b.low.shape = some b.shape ∧ b.high.shape = some b.shape ∧ b.reload = some b
      ∧ (∀ s e, low = .arr s e → b.low = low ∧ b.high = high) := by
  cases shape with
  | none =>
    cases low with
    | num x => simp [mkBox, Bound.shape] at hb
    | arr s e =>
      have hb' : (if high.shape = some s then some (⟨.arr s e, high, s⟩ : Box) else none) = some b := hb
      split_ifs at hb' with h
      simp only [Option.some.injEq] at hb'
      subst hb'
      exact ⟨rfl, h, rfl, fun _ _ _ => ⟨rfl, rfl⟩⟩
  | some sh =>
    cases low with
    | num x =>
      cases high with
      | num y =>
        simp only [mkBox, Option.some.injEq] at hb
        subst hb
        exact ⟨rfl, rfl, rfl, fun _ _ h => by simp at h⟩
      | arr s e => simp [mkBox, Bound.shape] at hb
    | arr s e =>
      have hss := hs sh rfl s rfl
      subst hss
      have hb' : (if high.shape = some s then some (⟨.arr s e, high, s⟩ : Box) else none) = some b := by
        cases high <;> simpa [mkBox, Bound.shape] using hb
      split_ifs at hb' with h
      simp only [Option.some.injEq] at hb'
      subst hb'
      exact ⟨rfl, h, rfl, fun _ _ _ => ⟨rfl, rfl⟩⟩

example : ∃ b, mkBox (.arr [2] [0, 0]) (.arr [2] [1, 2]) none = some b := ⟨_, rfl⟩

/-- C109 is false of arrays with another shape, although the documentation says that the shape must match: the box is made with the shape that is given,
and has another one after it was saved and loaded. -/
theorem C109_shape_refuted : ∃ b b', mkBox (.arr [2] [0, 0]) (.arr [2] [1, 2]) (some [5, 7]) = some b ∧ b.shape = [5, 7]
    ∧ b.reload = some b' ∧ b'.shape = [2] := ⟨_, _, rfl, rfl, rfl, rfl⟩

/-- C109: a discrete space has exactly the values below its number, each once; the size and the shape of an environment list the
observations first. -/
theorem C109_discrete (n k : ℕ) (b : Box) : (∀ v, v ∈ discreteValues n ↔ v < n) ∧ (discreteValues n).Nodup ∧ (discreteValues n).length = n
    ∧ infoSize (.discrete n) (.discrete k) = some [n, k] ∧ infoShape (.discrete n) (.discrete k) = [1, 1]
    ∧ infoSize (.box b) (.discrete k) = none ∧ infoShape (.box b) (.discrete k) = b.shape ++ [1] := by
  refine ⟨fun v => List.mem_range, List.nodup_range, List.length_range, rfl, rfl, rfl, rfl⟩

/-- C109: bounded values are between the bounds, and values between them are left alone. -/
theorem C109_bound (x lo hi : ℝ) (h : lo ≤ hi) : lo ≤ bound x lo hi ∧ bound x lo hi ≤ hi ∧ (lo ≤ x → x ≤ hi → bound x lo hi = x)
    ∧ (x ≤ lo → bound x lo hi = lo) ∧ (hi ≤ x → bound x lo hi = hi) := by
  unfold bound
  refine ⟨le_max_left _ _, max_le h (min_le_right _ _), ?_, ?_, ?_⟩
  · intro h1 h2; rw [min_eq_left h2, max_eq_right h1]
  · intro h1; exact max_eq_left ((min_le_left _ _).trans h1)
  · intro h1; rw [min_eq_right h1, max_eq_right h]

example : (0 : ℝ) ≤ 1 := by norm_num

/-! ### The registry -/

/-- The first of some classes with a name. -/
def firstNamed (name : List Char) (l : List Cls) : Option Cls := l.find? (fun c => decide (c.name = name))

theorem lookup_append_one (r : Registry) (name : List Char) (k : List Char) (c : Cls) :
    (r ++ [(k, c)]).lookup name = (r.lookup name).or (if name = k then some c else none) := by
  induction r with
  | nil =>
    by_cases h : name = k
    · simp [List.lookup_cons, h]
    · have : (name == k) = false := by simpa using h
      simp [List.lookup_cons, this, h]
  | cons p r ih =>
    obtain ⟨a, b⟩ := p
    by_cases h : name = a
    · simp [List.lookup_cons, h]
    · have : (name == a) = false := by simpa using h
      simp only [List.cons_append, List.lookup_cons, this, ih]

theorem lookup_none (r : Registry) (name : List Char) : r.lookup name = none ↔ name ∉ r.map Prod.fst := by
  induction r with
  | nil => simp
  | cons p r ih =>
    obtain ⟨a, b⟩ := p
    by_cases h : name = a
    · simp [List.lookup_cons, h]
    · have : (name == a) = false := by simpa using h
      simp only [List.lookup_cons, this, ih, List.map_cons, List.mem_cons, not_or]
      simp [h]

theorem registered (l : List Cls) (name : List Char) : (l.foldl register []).lookup name = firstNamed name l := by
  have key : ∀ (l : List Cls) (r : Registry), (l.foldl register r).lookup name = (r.lookup name).or (firstNamed name l) := by
    intro l
    induction l with
    | nil => intro r; simp [firstNamed]
    | cons c l ih =>
      intro r
      rw [List.foldl_cons, ih]
      have hstep : (register r c).lookup name = (r.lookup name).or (if name = c.name then some c else none) := by
        unfold register
        split_ifs with h1 h2 h2
        · subst h2
          cases hl : r.lookup c.name with
          | none => exact absurd h1 ((lookup_none r c.name).1 hl)
          | some x => rfl
        · simp
        · rw [lookup_append_one, if_pos h2]
        · rw [lookup_append_one, if_neg h2]
      rw [hstep, Option.or_assoc]
      congr 1
      by_cases h : name = c.name
      · simp [firstNamed, h]
      · have h' : ¬ c.name = name := fun e => h e.symm
        simp [firstNamed, h, h']
  simpa using key l []

/-- Whether the registry lists every registered name once, in the order of the first registrations. -/
theorem C109_list (l : List Cls) : (listRegistered (l.foldl register [])).Nodup
    ∧ (∀ name, name ∈ listRegistered (l.foldl register []) ↔ ∃ c ∈ l, c.name = name) := by
  have key : ∀ (l : List Cls) (r : Registry), (r.map Prod.fst).Nodup → (listRegistered (l.foldl register r)).Nodup
      ∧ (∀ name, name ∈ listRegistered (l.foldl register r) ↔ name ∈ r.map Prod.fst ∨ ∃ c ∈ l, c.name = name) := by
    intro l
    induction l with
    | nil => intro r hr; exact ⟨hr, fun name => by simp [listRegistered]⟩
    | cons c l ih =>
      intro r hr
      rw [List.foldl_cons]
      have h1 : ((register r c).map Prod.fst).Nodup := by
        unfold register
        split_ifs with h
        · exact hr
        · rw [List.map_append, List.map_cons, List.map_nil, List.nodup_append]
          refine ⟨hr, by simp, ?_⟩
          intro a ha b hb
          simp only [List.mem_singleton] at hb
          rintro rfl
          exact h (hb ▸ ha)
      have h2 : ∀ name, name ∈ (register r c).map Prod.fst ↔ name ∈ r.map Prod.fst ∨ c.name = name := by
        intro name
        unfold register
        split_ifs with h
        · constructor
          · exact Or.inl
          · rintro (h' | rfl)
            · exact h'
            · exact h
        · rw [List.map_append, List.mem_append]
          simp [eq_comm]
      refine ⟨(ih _ h1).1, ?_⟩
      intro name
      rw [(ih _ h1).2 name, h2]
      simp only [List.mem_cons, exists_eq_or_imp]
      tauto
  have := key l [] (by simp)
  exact ⟨this.1, fun name => by rw [this.2 name]; simp⟩

/-- Parts put together again. -/
def join (sep : Char) : List (List Char) → List Char
  | [] => []
  | [p] => p
  | p :: rest => p ++ sep :: join sep rest

theorem split_ne (sep : Char) (l : List Char) : split sep l ≠ [] := by
  cases l with
  | nil => simp [split]
  | cons c l =>
    unfold split
    split_ifs
    · simp
    · split <;> simp

theorem split_spec (sep : Char) (l : List Char) : join sep (split sep l) = l ∧ ∀ p ∈ split sep l, sep ∉ p := by
  induction l with
  | nil => simp [split, join]
  | cons c l ih =>
    obtain ⟨p, rest, hp⟩ : ∃ p rest, split sep l = p :: rest := by
      cases h : split sep l with
      | nil => exact absurd h (split_ne sep l)
      | cons p rest => exact ⟨p, rest, rfl⟩
    by_cases hc : c = sep
    · subst hc
      have : split c (c :: l) = [] :: split c l := by rw [split, if_pos rfl]
      rw [this]
      refine ⟨?_, ?_⟩
      · rw [hp] at ih ⊢
        simp only [join, List.nil_append]
        rw [ih.1]
      · intro q hq
        rcases List.mem_cons.1 hq with rfl | hq
        · simp
        · exact ih.2 q hq
    · have : split sep (c :: l) = (c :: p) :: rest := by rw [split, if_neg hc, hp]
      rw [this]
      rw [hp] at ih
      refine ⟨?_, ?_⟩
      · cases rest with
        | nil => simp only [join] at ih ⊢; rw [ih.1]
        | cons q rest => simp only [join] at ih ⊢; rw [List.cons_append, ih.1]
      · intro q hq
        rcases List.mem_cons.1 hq with rfl | hq
        · intro hm
          rcases List.mem_cons.1 hm with h | h
          · exact hc h.symm
          · exact ih.2 p (by simp) h
        · exact ih.2 q (by simp [hq])

/-- C109: after any registrations, `make` uses the class that was registered first under the part of the name before the first point, its generator if it
has one, with the other parts of the name before the other arguments; if there is no such class it fails. -/
theorem C109_make {Arg : Type} (l : List Cls) (head : List Char) (parts : List (List Char)) (args : List Arg)
    (hh : '.' ∉ head) (hp : ∀ p ∈ parts, '.' ∉ p) :
    make (l.foldl register []) (join '.' (head :: parts)) args = (firstNamed head l).map (fun c =>
      if c.generator then .generated c (parts.map Sum.inl ++ args.map Sum.inr)
      else .constructed c (parts.map Sum.inl ++ args.map Sum.inr)) := by
  have hsplit1 : ∀ (p : List Char) (rest : List Char), '.' ∉ p → split '.' (p ++ '.' :: rest) = p :: split '.' rest := by
    intro p rest hp
    induction p with
    | nil => rw [List.nil_append, split, if_pos rfl]
    | cons c p ih =>
      have hc : c ≠ '.' := fun h => hp (by simp [h])
      rw [List.cons_append, split, if_neg hc, ih (fun h => hp (List.mem_cons_of_mem _ h))]
  have hsplit0 : ∀ p : List Char, '.' ∉ p → split '.' p = [p] := by
    intro p hp
    induction p with
    | nil => rfl
    | cons c p ih =>
      have hc : c ≠ '.' := fun h => hp (by simp [h])
      rw [split, if_neg hc, ih (fun h => hp (List.mem_cons_of_mem _ h))]
  have hsplit : ∀ (parts : List (List Char)) (head : List Char), '.' ∉ head → (∀ p ∈ parts, '.' ∉ p) →
      split '.' (join '.' (head :: parts)) = head :: parts := by
    intro parts
    induction parts with
    | nil => intro head hh _; exact hsplit0 head hh
    | cons q parts ih =>
      intro head hh hp
      have : join '.' (head :: q :: parts) = head ++ '.' :: join '.' (q :: parts) := rfl
      rw [this, hsplit1 head _ hh, ih q (hp q (by simp)) (fun p hm => hp p (by simp [hm]))]
  have hparts : (if '.' ∈ join '.' (head :: parts) then split '.' (join '.' (head :: parts)) else [join '.' (head :: parts)]) = head :: parts := by
    split_ifs with h
    · exact hsplit parts head hh hp
    · cases parts with
      | nil => rfl
      | cons q rest =>
        exfalso; apply h
        simp [join]
  simp only [make, hparts, List.headD_cons, List.tail_cons, registered]

/-- Every name has this form. -/
theorem C109_names (name : List Char) : ∃ head parts, join '.' (head :: parts) = name ∧ '.' ∉ head ∧ ∀ p ∈ parts, '.' ∉ p := by
  have := split_spec '.' name
  cases h : split '.' name with
  | nil => exact absurd h (split_ne '.' name)
  | cons p rest =>
    rw [h] at this
    exact ⟨p, rest, this.1, this.2 p (by simp), fun q hq => this.2 q (by simp [hq])⟩

example : (make ([⟨"Gym".toList, false, 0⟩, ⟨"Gym".toList, true, 1⟩].foldl register []) "Gym.Pendulum-v1".toList [(5 : ℕ)])
    = some (.constructed ⟨"Gym".toList, false, 0⟩ [Sum.inl "Pendulum-v1".toList, Sum.inr 5]) := by
  have h := C109_make [⟨"Gym".toList, false, 0⟩, ⟨"Gym".toList, true, 1⟩] "Gym".toList ["Pendulum-v1".toList] [(5 : ℕ)] (by decide) (by decide)
  exact h

end Verif.Wrap.Space
