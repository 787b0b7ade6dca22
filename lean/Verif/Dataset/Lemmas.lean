import Verif.Dataset.Spec
import Mathlib.Tactic.Ring

namespace Verif.Dataset

variable {X A R P : Type}

theorem take_set_succ {α : Type} (l : List α) (i : Nat) (v : α) (h : i < l.length) :
    (l.set i v).take (i + 1) = l.take i ++ [v] := by
  rw [List.take_add_one]
  simp [List.take_set_of_le, h]

theorem holds_append {d : NpDs X A R P} {cap : Nat} {l : List (Row X A R P)} (h : Holds d cap l)
    (r : Row X A R P) (hl : l.length < cap) :
    ∃ d', d.append r = .ok d' ∧ Holds d' cap (l ++ [r]) := by
  obtain ⟨hlen, hroom, h1, h2, h3, h4, h5, h6, h7, h8, ha1, ha2, ha3, ha4, ha5, ha6, ha7, ha8⟩ := h
  have hlt : d.len < d.states.length := by omega
  refine ⟨_, by simp only [NpDs.append, hlt, if_true]; rfl, ?_⟩
  simp only [NpDs.state, NpDs.action, NpDs.reward, NpDs.nextState, NpDs.absorbingF, NpDs.lastF, NpDs.policyState,
    NpDs.policyNextState] at h1 h2 h3 h4 h5 h6 h7 h8
  constructor
  case allocated => simp [*]
  case len => simp [hlen]
  case room => simp; omega
  all_goals
    simp only [NpDs.state, NpDs.action, NpDs.reward, NpDs.nextState, NpDs.absorbingF, NpDs.lastF,
      NpDs.policyState, NpDs.policyNextState]
    rw [take_set_succ _ _ _ (by omega)]
    simp only [h1, h2, h3, h4, h5, h6, h7, h8, List.map_append, List.map_cons, List.map_nil]

theorem append_full {d : NpDs X A R P} {cap : Nat} {l : List (Row X A R P)} (h : Holds d cap l)
    (r : Row X A R P) (hl : l.length = cap) : d.append r = .error .index := by
  have := h.len
  have := h.allocated.1
  have hn : ¬ d.len < d.states.length := by omega
  simp only [NpDs.append, hn, if_false]

theorem holds_clear {g : NpDs X A R P} {cap : Nat} (h : Allocated g cap) : Holds g.clear cap [] := by
  constructor <;> simp_all [NpDs.clear, NpDs.state, NpDs.action, NpDs.reward, NpDs.nextState, NpDs.absorbingF,
    NpDs.lastF, NpDs.policyState, NpDs.policyNextState, Allocated]

theorem getElem?_of_take {α β : Type} {c : List α} {l : List β} {f : β → α} {n i : Nat}
    (h : c.take n = l.map f) (hi : i < n) : c[i]? = (l[i]?).map f := by
  have : (c.take n)[i]? = c[i]? := by simp [hi]
  rw [← this, h, List.getElem?_map]

theorem getItem_lt {d : NpDs X A R P} {cap : Nat} {l : List (Row X A R P)} (h : Holds d cap l) (i : Nat)
    (hi : i < l.length) :
    d.getItem (i : Int) = .ok (l[i].state, l[i].action, l[i].reward, l[i].nextState, l[i].absorbing, l[i].last) := by
  obtain ⟨hlen, hroom, h1, h2, h3, h4, h5, h6, h7, h8, ha1, ha2, ha3, ha4, ha5, ha6, ha7, ha8⟩ := h
  simp only [NpDs.state, NpDs.action, NpDs.reward, NpDs.nextState, NpDs.absorbingF, NpDs.lastF] at h1 h2 h3 h4 h5 h6
  have e1 := getElem?_of_take (i := i) h1 (by omega)
  have e2 := getElem?_of_take (i := i) h2 (by omega)
  have e3 := getElem?_of_take (i := i) h3 (by omega)
  have e4 := getElem?_of_take (i := i) h4 (by omega)
  have e5 := getElem?_of_take (i := i) h5 (by omega)
  have e6 := getElem?_of_take (i := i) h6 (by omega)
  have hx : (i : Int) < (d.len : Int) := by omega
  have hp : pyIdx d.states.length (i : Int) = some i := by
    unfold pyIdx
    rw [if_pos (by omega), if_pos (by omega)]
    simp
  simp only [NpDs.getItem, hx, if_true, NpDs.rawItem, hp, e1, e2, e3, e4, e5, e6, List.getElem?_eq_getElem hi,
    Option.map_some]

theorem getItem_ge {d : NpDs X A R P} {cap : Nat} {l : List (Row X A R P)} (h : Holds d cap l) (i : Int)
    (hi : (l.length : Int) ≤ i) : d.getItem i = .error .index := by
  have := h.len
  have hx : ¬ i < (d.len : Int) := by omega
  simp only [NpDs.getItem, hx, if_false]

theorem Fits.tail {cap : Nat} {l : List (Row X A R P)} {op : Op X A R P} {ops : List (Op X A R P)}
    (h : Fits cap l (op :: ops)) : Fits cap (since l [op]) ops := by
  intro k
  have := h (k + 1)
  cases op <;> simpa [since] using this

theorem exec_fits {cap : Nat} (ops : List (Op X A R P)) :
    ∀ {d : NpDs X A R P} {l : List (Row X A R P)}, Holds d cap l → Fits cap l ops →
      (∀ g, Op.clear g ∈ ops → Allocated g cap) →
      ∃ d', exec d ops = .ok d' ∧ Holds d' cap (since l ops) := by
  induction ops with
  | nil => intro d l h _ _; exact ⟨d, rfl, h⟩
  | cons op ops ih =>
    intro d l h hf hg
    cases op with
    | append r =>
      have h1 := hf 1
      simp only [List.take_succ_cons, List.take_zero, since, List.length_append, List.length_singleton] at h1
      obtain ⟨d', hd, hh⟩ := holds_append h r (by omega)
      obtain ⟨d'', he, hh'⟩ := ih hh hf.tail (fun g hm => hg g (List.mem_cons_of_mem _ hm))
      exact ⟨d'', by simp only [exec, hd, he], hh'⟩
    | clear g =>
      obtain ⟨d'', he, hh'⟩ := ih (holds_clear (hg g List.mem_cons_self)) hf.tail
        (fun g' hm => hg g' (List.mem_cons_of_mem _ hm))
      exact ⟨d'', by simp only [exec, he], hh'⟩

theorem exec_overflow {cap : Nat} (ops : List (Op X A R P)) :
    ∀ {d : NpDs X A R P} {l : List (Row X A R P)}, Holds d cap l → ¬ Fits cap l ops →
      (∀ g, Op.clear g ∈ ops → Allocated g cap) → exec d ops = .error .index := by
  induction ops with
  | nil =>
    intro d l h hf _
    exact absurd (fun k => by simpa [since] using h.room) hf
  | cons op ops ih =>
    intro d l h hf hg
    have hstep : ∀ (h0 : Fits cap (since l [op]) ops), False := by
      intro h0
      apply hf
      intro k
      cases k with
      | zero => simpa [since] using h.room
      | succ k =>
        have := h0 k
        cases op <;> simpa [since] using this
    cases op with
    | append r =>
      by_cases hl : l.length < cap
      · obtain ⟨d', hd, hh⟩ := holds_append h r hl
        have := ih hh (fun h0 => hstep h0) (fun g hm => hg g (List.mem_cons_of_mem _ hm))
        simp only [exec, hd, this]
      · have := append_full h r (by have := h.room; omega)
        simp only [exec, this]
    | clear g =>
      exact ih (holds_clear (hg g List.mem_cons_self)) (fun h0 => hstep h0)
        (fun g' hm => hg g' (List.mem_cons_of_mem _ hm))

/-! Slices. -/

theorem clampIdx_nat (n i : Nat) (h : i ≤ n) : clampIdx n (i : Int) = i := by
  simp only [clampIdx]
  rw [if_neg (by omega)]
  simp only [Int.toNat_natCast]
  omega

theorem pySlice_prefix {α : Type} (l : List α) (i : Nat) (h : i ≤ l.length) :
    pySlice l none (some (i : Int)) = l.take i := by
  simp only [pySlice, clampIdx_nat _ _ h, List.drop_zero]

theorem pySlice_map {α β : Type} (f : α → β) (l : List α) (a b : Option Int) :
    pySlice (l.map f) a b = (pySlice l a b).map f := by
  simp [pySlice, List.map_take, List.map_drop]

/-- On nonnegative bounds, slicing the allocated array or its first `n` rows agree when the bounds are at most `n`. -/
theorem pySlice_take {α : Type} (l : List α) (n a b : Nat) (hn : n ≤ l.length) (ha : a ≤ n) (hb : b ≤ n) :
    pySlice l (some (a : Int)) (some (b : Int)) = pySlice (l.take n) (some (a : Int)) (some (b : Int)) := by
  have : (l.take n).length = n := by simp; omega
  simp only [pySlice, this]
  rw [clampIdx_nat _ a (by omega), clampIdx_nat _ b (by omega), clampIdx_nat _ a ha, clampIdx_nat _ b hb]
  rw [List.take_take, Nat.min_eq_left hb]

/-- With nonnegative bounds, slicing the allocated array and keeping the right number of rows gives the slice of
the first `n` rows. -/
theorem pySlice_nonneg {α : Type} (l : List α) (n : Nat) (hn : n ≤ l.length) (a b : Option Int) (ha : NonNeg a)
    (hb : NonNeg b) :
    (pySlice l a b).take (pySlice (l.take n) a b).length = pySlice (l.take n) a b := by
  have hlen : (l.take n).length = n := by simp; omega
  have hc : ∀ (m : Nat) (i : Int), 0 ≤ i → clampIdx m i = min i.toNat m := by
    intro m i hi
    simp only [clampIdx]; rw [if_neg (by omega)]
  have key : ∀ (x y x' y' : Nat), x' = min x n → y' = min y n → y ≤ l.length → x ≤ l.length →
      ((l.take y).drop x).take (((l.take n).take y').drop x').length = ((l.take n).take y').drop x' := by
    intro x y x' y' hx hy hyl hxl
    apply List.ext_getElem?
    intro i
    simp only [List.getElem?_take, List.getElem?_drop, List.length_drop, List.length_take]
    by_cases hxn : x ≤ n
    · have : x' = x := by omega
      subst this
      by_cases h1 : i < min y' (min n l.length) - x'
      · rw [if_pos h1, if_pos (by omega), if_pos (by omega), if_pos (by omega)]
      · rw [if_neg h1]
        by_cases h2 : x' + i < y'
        · rw [if_pos h2]
          rw [if_neg (by omega)]
        · rw [if_neg h2]
    · have : x' = n := by omega
      subst this
      rw [if_neg (by omega)]
      by_cases h2 : x' + i < y'
      · rw [if_pos h2, if_neg (by omega)]
      · rw [if_neg h2]
  simp only [pySlice, hlen]
  cases a with
  | none =>
    cases b with
    | none => exact key 0 l.length 0 n (by omega) (by omega) (by omega) (by omega)
    | some b =>
      simp only [hc _ b (hb b rfl)]
      exact key 0 (min b.toNat l.length) 0 (min b.toNat n) (by omega) (by omega) (by omega) (by omega)
  | some a =>
    cases b with
    | none =>
      simp only [hc _ a (ha a rfl)]
      exact key (min a.toNat l.length) l.length (min a.toNat n) n (by omega) (by omega) (by omega) (by omega)
    | some b =>
      simp only [hc _ a (ha a rfl), hc _ b (hb b rfl)]
      exact key (min a.toNat l.length) (min b.toNat l.length) (min a.toNat n) (min b.toNat n) (by omega) (by omega)
        (by omega) (by omega)

theorem view_columns {d : NpDs X A R P} {cap : Nat} {l : List (Row X A R P)} (h : Holds d cap l) (a b : Option Int) :
    (d.view a b).len = (pySlice l a b).length ∧ (d.view a b).state = (pySlice l a b).map (·.state) ∧
    (d.view a b).action = (pySlice l a b).map (·.action) ∧ (d.view a b).reward = (pySlice l a b).map (·.reward) ∧
    (d.view a b).nextState = (pySlice l a b).map (·.nextState) ∧
    (d.view a b).absorbingF = (pySlice l a b).map (·.absorbing) ∧
    (d.view a b).lastF = (pySlice l a b).map (·.last) := by
  have hl : (d.view a b).len = (pySlice l a b).length := by
    simp only [NpDs.view, h.state, pySlice_map, List.length_map]
  refine ⟨hl, ?_⟩
  simp only [NpDs.state, NpDs.action, NpDs.reward, NpDs.nextState, NpDs.absorbingF, NpDs.lastF, hl]
  have a1 := h.state; have a2 := h.action; have a3 := h.reward; have a4 := h.nextState
  have a5 := h.absorbing; have a6 := h.last
  simp only [NpDs.view, a1, a2, a3, a4, a5, a6, pySlice_map]
  refine ⟨?_, ?_, ?_, ?_, ?_, ?_⟩ <;> exact List.take_of_length_le (by simp)

theorem view_shows {d : NpDs X A R P} {cap : Nat} {l : List (Row X A R P)} (h : Holds d cap l) (a b : Option Int)
    (ha : NonNeg a) (hb : NonNeg b) : Shows (d.view a b) (pySlice l a b) := by
  obtain ⟨h0, h1, h2, h3, h4, h5, h6⟩ := view_columns h a b
  have hlen := h.len
  have hroom := h.room
  obtain ⟨_, _, _, _, _, _, q7, q8⟩ := h.allocated
  refine ⟨h0, h1, h2, h3, h4, h5, h6, ?_, ?_⟩
  · have := pySlice_nonneg d.policyStates d.len (by omega) a b ha hb
    have e := h.policyState
    simp only [NpDs.policyState] at e ⊢
    rw [h0]
    rw [e, pySlice_map, List.length_map] at this
    exact this
  · have := pySlice_nonneg d.policyNextStates d.len (by omega) a b ha hb
    have e := h.policyNextState
    simp only [NpDs.policyNextState] at e ⊢
    rw [h0]
    rw [e, pySlice_map, List.length_map] at this
    exact this

/-! Episodes. -/

theorem isEpisodes_nil : IsEpisodes ([] : List (Row X A R P)) [] := by
  constructor <;> simp

theorem isEpisodes_exists (l : List (Row X A R P)) : ∃ eps, IsEpisodes l eps := by
  induction l with
  | nil => exact ⟨[], isEpisodes_nil⟩
  | cons r l ih =>
    obtain ⟨eps, h⟩ := ih
    by_cases hr : r.last = true
    · refine ⟨[r] :: eps, ?_, ?_, ?_⟩
      · simp [h.join]
      · intro e he
        rcases List.mem_cons.mp he with rfl | he
        · exact ⟨[], r, rfl, by simp⟩
        · exact h.inner e he
      · intro e he
        cases eps with
        | nil => simp at he
        | cons e' eps =>
          rw [List.dropLast_cons_of_ne_nil (by simp)] at he
          rcases List.mem_cons.mp he with rfl | he
          · exact ⟨[], r, rfl, hr⟩
          · exact h.closed e he
    · have hr' : r.last = false := by simpa using hr
      cases eps with
      | nil =>
        refine ⟨[[r]], ?_, ?_, ?_⟩
        · have := h.join; simp at this; simp [this]
        · intro e he
          simp only [List.mem_singleton] at he
          subst he
          exact ⟨[], r, rfl, by simp⟩
        · simp
      | cons e eps =>
        refine ⟨(r :: e) :: eps, ?_, ?_, ?_⟩
        · have := h.join; simp only [List.flatten_cons] at this ⊢; simp [this]
        · intro e' he
          rcases List.mem_cons.mp he with rfl | he
          · obtain ⟨pre, q, rfl, hp⟩ := h.inner e List.mem_cons_self
            refine ⟨r :: pre, q, rfl, ?_⟩
            intro q' hq'
            rcases List.mem_cons.mp hq' with rfl | hq'
            · exact hr'
            · exact hp q' hq'
          · exact h.inner e' (List.mem_cons_of_mem _ he)
        · intro e' he
          cases eps with
          | nil => simp at he
          | cons e2 eps =>
            rw [List.dropLast_cons_of_ne_nil (by simp)] at he
            rcases List.mem_cons.mp he with rfl | he
            · obtain ⟨pre, q, rfl, hp⟩ := h.closed e (by
                rw [List.dropLast_cons_of_ne_nil (by simp)]; exact List.mem_cons_self)
              exact ⟨r :: pre, q, rfl, hp⟩
            · exact h.closed e' (by
                rw [List.dropLast_cons_of_ne_nil (by simp)]; exact List.mem_cons_of_mem _ he)

/-- Removing the first episode. -/
theorem IsEpisodes.tail {l : List (Row X A R P)} {e : List (Row X A R P)} {eps : List (List (Row X A R P))}
    (h : IsEpisodes l (e :: eps)) : IsEpisodes eps.flatten eps := by
  refine ⟨rfl, fun e' he => h.inner e' (List.mem_cons_of_mem _ he), ?_⟩
  intro e' he
  cases eps with
  | nil => simp at he
  | cons e2 eps =>
    apply h.closed
    rw [List.dropLast_cons_of_ne_nil (by simp)]
    exact List.mem_cons_of_mem _ he

/-- Structure of the first episode: `pre ++ [r]`, closed unless nothing follows. -/
theorem IsEpisodes.head {l : List (Row X A R P)} {e : List (Row X A R P)} {eps : List (List (Row X A R P))}
    (h : IsEpisodes l (e :: eps)) :
    ∃ pre r, e = pre ++ [r] ∧ (∀ q ∈ pre, q.last = false) ∧ (r.last = true ∨ eps = []) := by
  obtain ⟨pre, r, rfl, hp⟩ := h.inner e List.mem_cons_self
  refine ⟨pre, r, rfl, hp, ?_⟩
  cases eps with
  | nil => exact Or.inr rfl
  | cons e2 eps =>
    obtain ⟨pre', r', he, hr⟩ := h.closed (pre ++ [r]) (by
      rw [List.dropLast_cons_of_ne_nil (by simp)]; exact List.mem_cons_self)
    have := List.append_inj' he rfl
    simp only [List.cons.injEq, and_true] at this
    exact Or.inl (this.2 ▸ hr)

theorem IsEpisodes.unique {l : List (Row X A R P)} {eps eps' : List (List (Row X A R P))}
    (h : IsEpisodes l eps) (h' : IsEpisodes l eps') : eps = eps' := by
  induction eps generalizing l eps' with
  | nil =>
    have hl := h.join
    cases eps' with
    | nil => rfl
    | cons e eps' =>
      obtain ⟨pre, r, rfl, _⟩ := h'.inner e List.mem_cons_self
      have := h'.join
      simp only [List.flatten_nil] at hl
      subst hl
      simp at this
  | cons e eps ih =>
    cases eps' with
    | nil =>
      obtain ⟨pre, r, rfl, _⟩ := h.inner e List.mem_cons_self
      have hl := h'.join
      have := h.join
      simp only [List.flatten_nil] at hl
      subst hl
      simp at this
    | cons e' eps' =>
      obtain ⟨pre, r, rfl, hp, hr⟩ := h.head
      obtain ⟨pre', r', rfl, hp', hr'⟩ := h'.head
      have hj := h.join.trans h'.join.symm
      simp only [List.flatten_cons, List.append_assoc, List.singleton_append] at hj
      have key : ∀ (p p' : List (Row X A R P)) (r r' : Row X A R P) (t t' : List (Row X A R P)),
          (∀ q ∈ p, q.last = false) → (∀ q ∈ p', q.last = false) → (r.last = true ∨ t = []) →
          (r'.last = true ∨ t' = []) → p ++ r :: t = p' ++ r' :: t' → p = p' ∧ r = r' ∧ t = t' := by
        intro p
        induction p with
        | nil =>
          intro p' r r' t t' _ hp' hr hr' he
          cases p' with
          | nil => simpa using he
          | cons q p' =>
            simp only [List.nil_append, List.cons_append, List.cons.injEq] at he
            obtain ⟨rfl, he⟩ := he
            rcases hr with hr | hr
            · have := hp' r List.mem_cons_self; simp [hr] at this
            · subst hr; simp at he
        | cons q p ihp =>
          intro p' r r' t t' hp hp' hr hr' he
          cases p' with
          | nil =>
            simp only [List.nil_append, List.cons_append, List.cons.injEq] at he
            obtain ⟨rfl, he⟩ := he
            rcases hr' with hr' | hr'
            · have := hp q List.mem_cons_self; simp [hr'] at this
            · subst hr'; simp at he
          | cons q' p' =>
            simp only [List.cons_append, List.cons.injEq] at he
            obtain ⟨rfl, he⟩ := he
            obtain ⟨rfl, rfl, rfl⟩ := ihp p' r r' t t' (fun x hx => hp x (List.mem_cons_of_mem _ hx))
              (fun x hx => hp' x (List.mem_cons_of_mem _ hx)) hr hr' he
            exact ⟨rfl, rfl, rfl⟩
      have hflat : ∀ {es : List (List (Row X A R P))}, (es = [] → es.flatten = []) := by
        intro es h; simp [h]
      obtain ⟨rfl, rfl, ht⟩ := key pre pre' r r' _ _ hp hp' (hr.imp_right hflat) (hr'.imp_right hflat) hj
      have := ih h.tail (ht ▸ h'.tail)
      rw [this]

/-! compute_J -/

theorem zipIdx_sum [Semiring R] (gamma : R) (e : List (Row X A R P)) (k : Nat) :
    ∀ (r : Row X A R P), ((r :: e).zipIdx k).map (fun p => gamma ^ p.2 * p.1.reward) =
      (gamma ^ k * r.reward) :: (e.zipIdx (k + 1)).map (fun p => gamma ^ p.2 * p.1.reward) := by
  intro r; simp

theorem computeJLoop_block [Semiring R] (gamma : R) (pre : List (Row X A R P)) (r : Row X A R P)
    (rest : List (Row X A R P)) (hp : ∀ q ∈ pre, q.last = false) (hr : r.last = true ∨ rest = []) :
    ∀ (j : R) (t : Nat), computeJLoop gamma (pre ++ [r] ++ rest) j t =
      (j + (((pre ++ [r]).zipIdx t).map (fun p => gamma ^ p.2 * p.1.reward)).sum) :: computeJLoop gamma rest 0 0 := by
  induction pre with
  | nil =>
    intro j t
    have : (r.last || rest.isEmpty) = true := by
      rcases hr with h | h <;> simp [h]
    simp [computeJLoop, this]
  | cons q pre ih =>
    intro j t
    have hq : q.last = false := hp q List.mem_cons_self
    have : (q.last || (pre ++ [r] ++ rest).isEmpty) = false := by simp [hq]
    simp only [List.cons_append, computeJLoop, this, Bool.false_eq_true, if_false]
    rw [ih (fun x hx => hp x (List.mem_cons_of_mem _ hx))]
    simp [add_assoc]

theorem computeJLoop_eps [Semiring R] (gamma : R) (eps : List (List (Row X A R P))) :
    ∀ (l : List (Row X A R P)), IsEpisodes l eps → computeJLoop gamma l 0 0 = eps.map (discountedReturn gamma) := by
  induction eps with
  | nil => intro l h; have := h.join; simp at this; subst this; simp [computeJLoop]
  | cons e eps ih =>
    intro l h
    obtain ⟨pre, r, rfl, hp, hr⟩ := h.head
    rw [← h.join, List.flatten_cons, computeJLoop_block gamma pre r _ hp (hr.imp_right (by rintro rfl; rfl)),
      ih _ h.tail]
    simp [discountedReturn]

/-! episodes_length, init states, number of episodes -/

theorem episodesLength_block (pre : List (Row X A R P)) (r : Row X A R P)
    (rest : List (Row X A R P)) (hp : ∀ q ∈ pre, q.last = false) (hr : r.last = true) :
    ∀ t, episodesLengthLoop ((pre ++ [r] ++ rest).map (·.last)) t =
      (t + (pre.length + 1)) :: episodesLengthLoop (rest.map (·.last)) 0 := by
  induction pre with
  | nil => intro t; simp [episodesLengthLoop, hr]
  | cons q pre ih =>
    intro t
    have hq : q.last = false := hp q List.mem_cons_self
    have := ih (fun x hx => hp x (List.mem_cons_of_mem _ hx)) (t + 1)
    simp only [List.cons_append, List.map_cons, episodesLengthLoop, hq, Bool.false_eq_true, if_false]
    rw [this]
    simp; omega

theorem episodesLength_open (l : List (Row X A R P)) (hp : ∀ q ∈ l, q.last = false) :
    ∀ t, episodesLengthLoop (l.map (·.last)) t = [] := by
  induction l with
  | nil => intro t; rfl
  | cons q l ih =>
    intro t
    have hq : q.last = false := hp q List.mem_cons_self
    simp only [List.map_cons, episodesLengthLoop, hq, Bool.false_eq_true, if_false]
    exact ih (fun x hx => hp x (List.mem_cons_of_mem _ hx)) _

theorem complete_append (pre : List (Row X A R P)) (r : Row X A R P) : Complete (pre ++ [r]) ↔ r.last = true := by
  constructor
  · rintro ⟨p, q, he, hq⟩
    have := List.append_inj' he rfl
    simp only [List.cons.injEq, and_true] at this
    exact this.2 ▸ hq
  · intro h; exact ⟨pre, r, rfl, h⟩

theorem episodesLength_eps (eps : List (List (Row X A R P))) :
    ∀ (l : List (Row X A R P)), IsEpisodes l eps →
      episodesLength l = (eps.filter (fun e => decide (Complete e))).map List.length := by
  induction eps with
  | nil => intro l h; have := h.join; simp at this; subst this; simp [episodesLength, episodesLengthLoop]
  | cons e eps ih =>
    intro l h
    obtain ⟨pre, r, rfl, hp, hr⟩ := h.head
    have ht := ih _ h.tail
    by_cases hrl : r.last = true
    · simp only [episodesLength] at ht ⊢
      rw [← h.join, List.flatten_cons, episodesLength_block pre r _ hp hrl, ht,
        List.filter_cons_of_pos (by simp [complete_append, hrl])]
      simp
    · have he : eps = [] := by tauto
      subst he
      have hrl' : r.last = false := by simpa using hrl
      rw [List.filter_cons_of_neg (by simp [complete_append, hrl])]
      rw [← h.join]
      simp only [episodesLength, List.flatten_cons, List.flatten_nil, List.append_nil, List.filter_nil, List.map_nil]
      apply episodesLength_open
      intro q hq
      rcases List.mem_append.mp hq with hq | hq
      · exact hp q hq
      · simp only [List.mem_singleton] at hq; subst hq; exact hrl'

theorem initStates_block (pre : List (Row X A R P)) (r : Row X A R P) (rest : List (Row X A R P))
    (hp : ∀ q ∈ pre, q.last = false) :
    initStatesLoop (pre ++ [r] ++ rest) false = initStatesLoop rest r.last := by
  induction pre with
  | nil => simp [initStatesLoop]
  | cons q pre ih =>
    have hq : q.last = false := hp q List.mem_cons_self
    simp only [List.cons_append, initStatesLoop, hq, Bool.false_eq_true, if_false]
    exact ih (fun x hx => hp x (List.mem_cons_of_mem _ hx))

theorem initStates_block_true (pre : List (Row X A R P)) (r : Row X A R P) (rest : List (Row X A R P))
    (hp : ∀ q ∈ pre, q.last = false) :
    initStatesLoop (pre ++ [r] ++ rest) true =
      ((pre ++ [r]).head?.map (·.state)).toList ++ initStatesLoop rest r.last := by
  cases pre with
  | nil => simp [initStatesLoop]
  | cons q pre =>
    have hq : q.last = false := hp q List.mem_cons_self
    simp only [List.cons_append, initStatesLoop, hq, if_true, List.head?_cons, Option.map_some,
      Option.toList_some, List.nil_append]
    rw [initStates_block pre r rest (fun x hx => hp x (List.mem_cons_of_mem _ hx))]

theorem initStates_eps (eps : List (List (Row X A R P))) :
    ∀ (l : List (Row X A R P)), IsEpisodes l eps →
      (getInitStates l).map some = eps.map (fun e => e.head?.map (·.state)) := by
  induction eps with
  | nil => intro l h; have := h.join; simp at this; subst this; simp [getInitStates, initStatesLoop]
  | cons e eps ih =>
    intro l h
    obtain ⟨pre, r, rfl, hp, hr⟩ := h.head
    have ht := ih _ h.tail
    simp only [getInitStates] at ht ⊢
    rw [← h.join, List.flatten_cons, initStates_block_true pre r _ hp]
    have hrest : initStatesLoop eps.flatten r.last = initStatesLoop eps.flatten true := by
      rcases hr with hr | hr
      · rw [hr]
      · subst hr; simp [initStatesLoop]
    rw [hrest, List.map_append, ht]
    cases pre <;> simp

/-- Number of `last` flags. -/
theorem count_last_eps (eps : List (List (Row X A R P))) :
    ∀ (l : List (Row X A R P)), IsEpisodes l eps →
      (l.map (·.last)).count true = (eps.filter (fun e => decide (Complete e))).length := by
  induction eps with
  | nil => intro l h; have := h.join; simp at this; subst this; simp
  | cons e eps ih =>
    intro l h
    obtain ⟨pre, r, rfl, hp, hr⟩ := h.head
    have ht := ih _ h.tail
    have hpre : (pre.map (·.last)).count true = 0 := by
      rw [List.count_eq_zero]
      simp only [List.mem_map, not_exists, not_and]
      intro q hq
      simp [hp q hq]
    rw [← h.join, List.flatten_cons]
    simp only [List.map_append, List.count_append, hpre, List.map_cons, List.map_nil, ht]
    by_cases hrl : r.last = true
    · rw [List.filter_cons_of_pos (by simp [complete_append, hrl])]
      simp [hrl]; omega
    · have hrl' : r.last = false := by simpa using hrl
      rw [List.filter_cons_of_neg (by simp [complete_append, hrl])]
      simp [hrl']

/-- All the blocks but the final one are complete. -/
theorem filter_complete {l : List (Row X A R P)} {eps : List (List (Row X A R P))} (h : IsEpisodes l eps) :
    eps.filter (fun e => decide (Complete e)) = eps.dropLast ++ (eps.getLast?.toList.filter (fun e => decide (Complete e))) := by
  rcases List.eq_nil_or_concat eps with rfl | ⟨init, e, rfl⟩
  · simp
  · have hc : ∀ e' ∈ init, Complete e' := by
      intro e' he'
      have := h.closed e' (by simpa using he')
      exact this
    simp only [List.concat_eq_append, List.filter_append, List.dropLast_concat, List.getLast?_concat,
      Option.toList_some]
    congr 1
    rw [List.filter_eq_self]
    intro e' he'
    simpa using hc e' he'

theorem last_flag_eps {l : List (Row X A R P)} {eps : List (List (Row X A R P))} (h : IsEpisodes l eps)
    (init : List (List (Row X A R P))) (e : List (Row X A R P)) (he : eps = init ++ [e]) :
    ∃ pre r, l = pre ++ [r] ∧ (Complete e ↔ r.last = true) := by
  subst he
  obtain ⟨p, r, rfl, _⟩ := h.inner e (by simp)
  refine ⟨init.flatten ++ p, r, ?_, complete_append p r⟩
  rw [← h.join]; simp

theorem nEpisodes_eq {l : List (Row X A R P)} {eps : List (List (Row X A R P))} (h : IsEpisodes l eps) (hl : l ≠ []) :
    nEpisodes (l.map (·.last)) = .ok eps.length := by
  rcases List.eq_nil_or_concat eps with rfl | ⟨init, e, rfl⟩
  · have := h.join; simp at this; exact absurd this hl
  · rw [List.concat_eq_append] at h ⊢
    obtain ⟨pre, r, hlr, hce⟩ := last_flag_eps h init e rfl
    have hcount := count_last_eps _ _ h
    rw [filter_complete h] at hcount
    have hp : pyIdx (l.map (·.last)).length (-1) = some pre.length := by
      subst hlr
      simp only [pyIdx, List.length_map, List.length_append, List.length_singleton]
      rw [if_neg (by omega), if_pos (by omega)]
      congr 1; omega
    have hg : (l.map (·.last))[pre.length]? = some r.last := by
      subst hlr; simp
    simp only [nEpisodes, hp, hg]
    rw [hcount]
    by_cases hr : r.last = true
    · have := hce.mpr hr
      simp [hr, this]
    · have : ¬ Complete e := fun hc => hr (hce.mp hc)
      simp [hr, this]

/-! metrics -/

theorem listMin_spec [LinearOrder R] (l : List R) : ∀ x, IsMinOf (listMin x l) (x :: l) := by
  induction l with
  | nil => intro x; exact ⟨by simp [listMin], by simp [listMin]⟩
  | cons y l ih =>
    intro x
    obtain ⟨h1, h2⟩ := ih (min x y)
    simp only [listMin]
    constructor
    · rcases List.mem_cons.mp h1 with h | h
      · rw [h]; rcases min_choice x y with h' | h' <;> simp [h']
      · simp [h]
    · intro z hz
      have hm := h2 _ List.mem_cons_self
      rcases List.mem_cons.mp hz with rfl | hz
      · exact hm.trans (min_le_left _ _)
      · rcases List.mem_cons.mp hz with rfl | hz
        · exact hm.trans (min_le_right _ _)
        · exact h2 z (List.mem_cons_of_mem _ hz)

theorem listMax_spec [LinearOrder R] (l : List R) : ∀ x, IsMaxOf (listMax x l) (x :: l) := by
  induction l with
  | nil => intro x; exact ⟨by simp [listMax], by simp [listMax]⟩
  | cons y l ih =>
    intro x
    obtain ⟨h1, h2⟩ := ih (max x y)
    simp only [listMax]
    constructor
    · rcases List.mem_cons.mp h1 with h | h
      · rw [h]; rcases max_choice x y with h' | h' <;> simp [h']
      · simp [h]
    · intro z hz
      have hm := h2 _ List.mem_cons_self
      rcases List.mem_cons.mp hz with rfl | hz
      · exact (le_max_left _ _).trans hm
      · rcases List.mem_cons.mp hz with rfl | hz
        · exact (le_max_right _ _).trans hm
        · exact h2 z (List.mem_cons_of_mem _ hz)

theorem metricsCut_open (fl : List Bool) (n : Nat) (h : ∀ i < n, fl.getD i false = false) : metricsCut fl n = 0 := by
  induction n with
  | zero => rfl
  | succ n ih =>
    simp only [metricsCut, h n (by omega), Bool.false_eq_true, if_false]
    split
    · rfl
    · exact ih (fun i hi => h i (by omega))

theorem metricsCut_at (fl : List Bool) (k : Nat) (hk : fl.getD k false = true) :
    ∀ n, k < n → (∀ i, k < i → i < n → fl.getD i false = false) → metricsCut fl n = k + 1 := by
  intro n
  induction n with
  | zero => intro h; omega
  | succ n ih =>
    intro hlt hf
    by_cases hkn : k = n
    · subst hkn; simp only [metricsCut, hk, if_true]
    · simp only [metricsCut, hf n (by omega) (by omega), Bool.false_eq_true, if_false]
      rw [if_neg (by omega)]
      exact ih (by omega) (fun i h1 h2 => hf i h1 (by omega))

theorem getD_map_last (l : List (Row X A R P)) (i : Nat) (h : i < l.length) :
    (l.map (·.last)).getD i false = l[i].last := by
  simp [List.getD, h]

theorem metricsCut_split (u v : List (Row X A R P)) (r : Row X A R P) (hr : r.last = true)
    (hv : ∀ q ∈ v, q.last = false) :
    metricsCut ((u ++ r :: v).map (·.last)) (u ++ r :: v).length = u.length + 1 := by
  refine metricsCut_at _ u.length ?_ _ (by simp) ?_
  · rw [getD_map_last _ _ (by simp)]
    simpa using hr
  · intro i h1 h2
    rw [getD_map_last _ i h2, List.getElem_append_right (by omega), List.getElem_cons, dif_neg (by omega)]
    exact hv _ (List.getElem_mem _)

/-- The cut of `compute_metrics` keeps exactly the complete episodes. -/
theorem metricsCut_eps {l : List (Row X A R P)} {eps : List (List (Row X A R P))} (h : IsEpisodes l eps) :
    metricsCut (l.map (·.last)) l.length ≤ l.length ∧
    l.take (metricsCut (l.map (·.last)) l.length) = (eps.filter (fun e => decide (Complete e))).flatten := by
  have hopen : ∀ l : List (Row X A R P), (∀ q ∈ l, q.last = false) → metricsCut (l.map (·.last)) l.length = 0 := by
    intro l hl
    apply metricsCut_open
    intro i hi
    rw [getD_map_last l i hi]
    exact hl _ (List.getElem_mem _)
  rw [filter_complete h]
  rcases List.eq_nil_or_concat eps with rfl | ⟨init, e, rfl⟩
  · have := h.join; simp at this; subst this; simp [metricsCut]
  · rw [List.concat_eq_append] at h ⊢
    obtain ⟨p, r, rfl, hp⟩ := h.inner e (by simp)
    have hl : l = init.flatten ++ (p ++ [r]) := by rw [← h.join]; simp
    by_cases hr : r.last = true
    · have hl' : l = (init.flatten ++ p) ++ r :: [] := by rw [hl]; simp
      have hcut := metricsCut_split (init.flatten ++ p) [] r hr (by simp)
      rw [← hl'] at hcut
      have hlen : l.length = (init.flatten ++ p).length + 1 := by rw [hl', List.length_append]; rfl
      rw [hcut, ← hlen, List.take_length]
      refine ⟨le_refl _, ?_⟩
      simp [complete_append, hr, hl]
    · have hr' : r.last = false := by simpa using hr
      have hnc : ¬ Complete (p ++ [r]) := by simp [complete_append, hr']
      simp only [List.dropLast_concat, List.getLast?_concat, Option.toList_some, List.filter_cons_of_neg
        (p := fun e => decide (Complete e)) (a := p ++ [r]) (l := []) (by simpa using hnc),
        List.filter_nil, List.append_nil]
      have htail : ∀ q ∈ p ++ [r], q.last = false := by
        intro q hq
        rcases List.mem_append.mp hq with hq | hq
        · exact hp q hq
        · simp only [List.mem_singleton] at hq; subst hq; exact hr'
      rcases List.eq_nil_or_concat init with rfl | ⟨init', e', rfl⟩
      · have : metricsCut (l.map (·.last)) l.length = 0 := by
          apply hopen; rw [hl]; simpa using htail
        rw [this]; simp
      · rw [List.concat_eq_append] at *
        obtain ⟨p', r', rfl, hr1⟩ := h.closed e' (by simp)
        have hl2 : l = (init'.flatten ++ p') ++ r' :: (p ++ [r]) := by rw [hl]; simp
        have hcut := metricsCut_split (init'.flatten ++ p') (p ++ [r]) r' hr1 htail
        rw [← hl2] at hcut
        rw [hcut]
        refine ⟨by rw [hl2]; simp; omega, ?_⟩
        have : (init' ++ [p' ++ [r']]).flatten = (init'.flatten ++ p') ++ [r'] := by simp
        rw [this, hl2, List.take_append, List.take_of_length_le (by omega)]
        simp

theorem isEpisodes_filter {l : List (Row X A R P)} {eps : List (List (Row X A R P))} (h : IsEpisodes l eps) :
    IsEpisodes (eps.filter (fun e => decide (Complete e))).flatten (eps.filter (fun e => decide (Complete e))) := by
  refine ⟨rfl, ?_, ?_⟩
  · intro e he
    exact h.inner e (List.mem_filter.mp he).1
  · intro e he
    have := List.dropLast_subset _ he
    have h2 : Complete e := by simpa using (List.mem_filter.mp this).2
    exact h2

/-! select_first_episodes -/

theorem argwhere_append (u v : List Bool) : argwhere (u ++ v) = argwhere u ++ (argwhere v).map (u.length + ·) := by
  simp only [argwhere, List.length_append, List.range_add, List.filter_append]
  congr 1
  · apply List.filter_congr
    intro i hi
    have : i < u.length := by simpa using hi
    simp [List.getD, List.getElem?_append_left this]
  · rw [List.filter_map]
    congr 1
    apply List.filter_congr
    intro i _
    simp [List.getD, List.getElem?_append_right]

theorem argwhere_length (u : List Bool) : (argwhere u).length = u.count true := by
  induction u with
  | nil => rfl
  | cons b u ih =>
    have : argwhere (b :: u) = argwhere ([b] ++ u) := rfl
    rw [this, argwhere_append, List.length_append, List.length_map, ih, List.count_cons]
    cases b
    · simp [argwhere]
    · simp [argwhere, List.range_succ]; omega

theorem argwhere_at (u v : List Bool) : (argwhere (u ++ true :: v))[u.count true]? = some u.length := by
  rw [argwhere_append, List.getElem?_append_right (by rw [argwhere_length]), argwhere_length, Nat.sub_self,
    List.getElem?_map]
  have : argwhere (true :: v) = argwhere ([true] ++ v) := rfl
  rw [this, argwhere_append]
  rfl

theorem IsEpisodes.take {l : List (Row X A R P)} {eps : List (List (Row X A R P))} (h : IsEpisodes l eps) (k : Nat) :
    IsEpisodes (eps.take k).flatten (eps.take k) := by
  refine ⟨rfl, fun e he => h.inner e (List.mem_of_mem_take he), ?_⟩
  intro e he
  apply h.closed
  rw [List.dropLast_eq_take] at he ⊢
  rw [List.take_take] at he
  rw [List.length_take] at he
  have : min (min k eps.length - 1) k ≤ eps.length - 1 := by omega
  exact (List.take_prefix_take_left this).subset he

theorem complete_of_lt {l : List (Row X A R P)} {eps : List (List (Row X A R P))} (h : IsEpisodes l eps) (k : Nat)
    (hk : k < (eps.filter (fun e => decide (Complete e))).length) :
    ∃ hk' : k < eps.length, Complete eps[k] ∧ ∀ e ∈ eps.take k, Complete e := by
  rw [filter_complete h] at hk
  rcases List.eq_nil_or_concat eps with rfl | ⟨init, e, rfl⟩
  · simp at hk
  · rw [List.concat_eq_append] at *
    have hinit : ∀ e' ∈ init, Complete e' := fun e' he' => h.closed e' (by simpa using he')
    simp only [List.dropLast_concat, List.getLast?_concat, Option.toList_some, List.length_append] at hk
    by_cases he : Complete e
    · have hall : ∀ e' ∈ init ++ [e], Complete e' := by
        intro e' he'
        rcases List.mem_append.mp he' with h' | h'
        · exact hinit e' h'
        · simp only [List.mem_singleton] at h'; exact h' ▸ he
      simp only [he, decide_true, List.filter_cons_of_pos, List.filter_nil, List.length_singleton] at hk
      exact ⟨by simp; omega, hall _ (List.getElem_mem _), fun e' he' => hall e' (List.mem_of_mem_take he')⟩
    · rw [List.filter_cons_of_neg (by simpa using he)] at hk
      simp only [List.filter_nil, List.length_nil, Nat.add_zero] at hk
      refine ⟨by simp; omega, ?_, ?_⟩
      · rw [List.getElem_append_left hk]; exact hinit _ (List.getElem_mem _)
      · intro e' he'
        rw [List.take_append_of_le_length (by omega)] at he'
        exact hinit e' (List.mem_of_mem_take he')

theorem selectFirst_ok {l : List (Row X A R P)} {eps : List (List (Row X A R P))} (h : IsEpisodes l eps) (k : Nat)
    (hk : 1 ≤ k) (hc : k ≤ (eps.filter (fun e => decide (Complete e))).length) :
    selectFirstEpisodes l (k : Int) = .ok (eps.take k).flatten := by
  obtain ⟨k, rfl⟩ : ∃ j, k = j + 1 := ⟨k - 1, by omega⟩
  obtain ⟨hlt, hck, hall⟩ := complete_of_lt h k (by omega)
  obtain ⟨pre, r, he, hr⟩ := hck
  have hinn : ∀ q ∈ pre, q.last = false := by
    obtain ⟨pre', r', he', hp'⟩ := h.inner _ (List.getElem_mem hlt)
    have := List.append_inj' (he.symm.trans he') rfl
    rw [this.1]; exact hp'
  -- l = (first k episodes) ++ pre ++ r :: rest
  have hl : l = ((eps.take k).flatten ++ pre) ++ r :: (eps.drop (k + 1)).flatten := by
    rw [← h.join]
    conv_lhs => rw [← List.take_append_drop k eps, List.drop_eq_getElem_cons hlt, he]
    simp
  have hcount : (((eps.take k).flatten ++ pre).map (·.last)).count true = k := by
    have h1 := count_last_eps _ _ (h.take k)
    have h2 : (eps.take k).filter (fun e => decide (Complete e)) = eps.take k := by
      rw [List.filter_eq_self]; intro e' he'; simpa using hall e' he'
    have hpre : (pre.map (·.last)).count true = 0 := by
      rw [List.count_eq_zero]
      simp only [List.mem_map, not_exists, not_and]
      intro q hq
      simp [hinn q hq]
    rw [h2, List.length_take] at h1
    rw [List.map_append, List.count_append, h1, hpre]
    omega
  have hmap : l.map (·.last) = ((eps.take k).flatten ++ pre).map (·.last) ++ true :: (eps.drop (k + 1)).flatten.map (·.last) := by
    rw [hl]; simp [hr]
  have hat := argwhere_at (((eps.take k).flatten ++ pre).map (·.last)) ((eps.drop (k + 1)).flatten.map (·.last))
  rw [hcount, ← hmap, List.length_map] at hat
  have hlen : k < (argwhere (l.map (·.last))).length := by
    have := List.getElem?_eq_some_iff.mp hat
    exact this.1
  have hidx : pyIdx (argwhere (l.map (·.last))).length (((k + 1 : Nat) : Int) - 1) = some k := by
    unfold pyIdx
    rw [if_pos (by omega), if_pos (by omega)]
    congr 1; omega
  have hle : ((eps.take k).flatten ++ pre).length + 1 ≤ l.length := by
    rw [hl]; simp; omega
  simp only [selectFirstEpisodes]
  rw [if_pos (by omega)]
  simp only [hidx, hat]
  have hcast : ((((eps.take k).flatten ++ pre).length : Nat) : Int) + 1 =
    ((((eps.take k).flatten ++ pre).length + 1 : Nat) : Int) := by omega
  rw [hcast, pySlice_prefix _ _ hle]
  congr 1
  have : eps.take (k + 1) = eps.take k ++ [pre ++ [r]] := by
    rw [List.take_add_one, List.getElem?_eq_getElem hlt, he]; rfl
  rw [this]
  conv_lhs => rw [hl]
  rw [List.take_append, List.take_of_length_le (by omega)]
  simp

theorem selectFirst_few {l : List (Row X A R P)} {eps : List (List (Row X A R P))} (h : IsEpisodes l eps) (k : Nat)
    (hk : 1 ≤ k) (hc : (eps.filter (fun e => decide (Complete e))).length < k) :
    selectFirstEpisodes l (k : Int) = .error .index := by
  have hlen : (argwhere (l.map (·.last))).length < k := by
    rw [argwhere_length, count_last_eps _ _ h]; exact hc
  have : pyIdx (argwhere (l.map (·.last))).length ((k : Int) - 1) = none := by
    unfold pyIdx
    rw [if_pos (by omega), if_neg (by omega)]
  simp only [selectFirstEpisodes]
  rw [if_pos (by omega)]
  simp only [this]

/-! Concatenation. -/

@[simp] theorem setLast_fields (r : Row X A R P) : (setLast r).last = true ∧ (setLast r).state = r.state ∧
    (setLast r).action = r.action ∧ (setLast r).reward = r.reward ∧ (setLast r).nextState = r.nextState ∧
    (setLast r).absorbing = r.absorbing ∧ (setLast r).policyState = r.policyState ∧
    (setLast r).policyNextState = r.policyNextState := by simp [setLast]

theorem holds_add {d e : NpDs X A R P} {c1 c2 : Nat} {l1 l2 : List (Row X A R P)} (h1 : Holds d c1 l1)
    (h2 : Holds e c2 l2) (pre : List (Row X A R P)) (r : Row X A R P) (hl : l1 = pre ++ [r]) :
    ∃ s, d.add e = .ok s ∧ Holds s (l1.length + l2.length) (pre ++ [setLast r] ++ l2) := by
  have hlen := h1.len
  have hlen2 := h2.len
  have hl1 : l1.length = pre.length + 1 := by rw [hl]; simp
  have hidx : pyIdx (d.lastF ++ e.lastF).length ((d.len : Int) - 1) = some pre.length := by
    rw [h1.last, h2.last]
    unfold pyIdx
    simp only [List.length_append, List.length_map]
    rw [if_pos (by omega), if_pos (by omega)]
    congr 1; omega
  have hset : (d.lastF ++ e.lastF).set pre.length true =
      (pre ++ [setLast r] ++ l2).map (·.last) := by
    rw [h1.last, h2.last, hl]
    simp
  refine ⟨_, by simp only [NpDs.add, hidx]; rfl, ?_⟩
  rw [hset]
  have hs : ∀ {α : Type} (l : List α) (n : Nat), l.length = n → l.take n = l := by
    intro α l n h; rw [List.take_of_length_le (by omega)]
  constructor
  case len => simp [hlen, hlen2, hl1]; omega
  case room => simp [hl1]; omega
  case allocated =>
    simp [h1.state, h1.action, h1.reward, h1.nextState, h1.absorbing, h1.policyState, h1.policyNextState,
      h2.state, h2.action, h2.reward, h2.nextState, h2.absorbing, h2.policyState, h2.policyNextState, hl1]
    omega
  all_goals
    simp only [NpDs.state, NpDs.action, NpDs.reward, NpDs.nextState, NpDs.absorbingF, NpDs.lastF,
      NpDs.policyState, NpDs.policyNextState]
    have a1 := h1.state; have a2 := h1.action; have a3 := h1.reward; have a4 := h1.nextState
    have a5 := h1.absorbing; have a6 := h1.last; have a7 := h1.policyState; have a8 := h1.policyNextState
    have b1 := h2.state; have b2 := h2.action; have b3 := h2.reward; have b4 := h2.nextState
    have b5 := h2.absorbing; have b6 := h2.last; have b7 := h2.policyState; have b8 := h2.policyNextState
    simp only [NpDs.state, NpDs.action, NpDs.reward, NpDs.nextState, NpDs.absorbingF, NpDs.lastF,
      NpDs.policyState, NpDs.policyNextState] at a1 a2 a3 a4 a5 a6 a7 a8 b1 b2 b3 b4 b5 b6 b7 b8
    try simp only [a1, a2, a3, a4, a5, a6, a7, a8, b1, b2, b3, b4, b5, b6, b7, b8]
    rw [hs _ _ (by simp [hlen, hlen2, hl1]; try omega)]
    try simp [hl]

/-- Adding a dataset to an empty one: the flag of the final row of the *right* operand is set. -/
theorem holds_add_empty {d e : NpDs X A R P} {c1 c2 : Nat} {l2 : List (Row X A R P)} (h1 : Holds d c1 [])
    (h2 : Holds e c2 l2) (pre : List (Row X A R P)) (r : Row X A R P) (hl : l2 = pre ++ [r]) :
    ∃ s, d.add e = .ok s ∧ s.lastF = (pre ++ [setLast r]).map (·.last) := by
  have hlen := h1.len
  have hlen2 := h2.len
  simp only [List.length_nil] at hlen
  have hl2 : l2.length = pre.length + 1 := by rw [hl]; simp
  have hd : d.lastF = [] := by rw [h1.last]; rfl
  have hidx : pyIdx (d.lastF ++ e.lastF).length ((d.len : Int) - 1) = some pre.length := by
    rw [hd, h2.last, hlen]
    unfold pyIdx
    simp only [List.nil_append, List.length_map, hl2]
    rw [if_neg (by omega), if_pos (by omega)]
    congr 1; omega
  refine ⟨_, by simp only [NpDs.add, hidx]; rfl, ?_⟩
  have h3 := h2.last
  simp only [NpDs.lastF] at *
  rw [hd, h3, hl, hlen, hlen2, hl]
  simp only [List.nil_append, List.map_append, List.map_cons, List.map_nil, List.length_append, List.length_singleton,
    Nat.zero_add]
  rw [List.take_of_length_le (by simp)]
  simp

/-- What a dataset becomes when something is added to its right. -/
theorem closeEnd_append (pre : List (Row X A R P)) (r : Row X A R P) : closeEnd (pre ++ [r]) = pre ++ [setLast r] := by
  simp [closeEnd]

theorem collect_holds (ds : List (NpDs X A R P × Nat × List (Row X A R P))) :
    ∀ {acc : NpDs X A R P} {c : Nat} {l : List (Row X A R P)}, Holds acc c l → l ≠ [] →
      (∀ t ∈ ds, Holds t.1 t.2.1 t.2.2 ∧ t.2.2 ≠ []) →
      ∃ s c', collect (some acc) (ds.map (·.1)) = .ok (some s) ∧
        Holds s c' (joinClosed (l :: ds.map (·.2.2))) := by
  induction ds with
  | nil => intro acc c l h _ _; exact ⟨acc, c, rfl, h⟩
  | cons t ds ih =>
    intro acc c l h hne hall
    obtain ⟨ht, htne⟩ := hall t List.mem_cons_self
    rcases List.eq_nil_or_concat l with rfl | ⟨pre, r, hl⟩
    · exact absurd rfl hne
    · rw [List.concat_eq_append] at hl
      obtain ⟨s, hs, hh⟩ := holds_add h ht pre r hl
      obtain ⟨s', c', hs', hh'⟩ := ih hh (by simp) (fun t' h' => hall t' (List.mem_cons_of_mem _ h'))
      refine ⟨s', c', by simp only [List.map_cons, collect, hs, hs'], ?_⟩
      have : joinClosed (l :: List.map (·.2.2) (t :: ds)) =
          joinClosed ((pre ++ [setLast r] ++ t.2.2) :: List.map (·.2.2) ds) := by
        rw [hl]
        rcases List.eq_nil_or_concat t.2.2 with h0 | ⟨p2, r2, h2⟩
        · exact absurd h0 htne
        · rw [List.concat_eq_append] at h2
          cases ds with
          | nil => simp [joinClosed, closeEnd_append]
          | cons t' ds =>
            have : pre ++ [setLast r] ++ t.2.2 = (pre ++ [setLast r] ++ p2) ++ [r2] := by rw [h2]; simp
            rw [this]
            simp only [List.map_cons, joinClosed, closeEnd_append, h2]
            simp
      rw [this]; exact hh'

theorem joinClosed_flatten : ∀ (ls : List (List (Row X A R P))), (∀ l ∈ ls.dropLast, Complete l) →
    joinClosed ls = ls.flatten
  | [], _ => rfl
  | [l], _ => by simp [joinClosed]
  | l :: l2 :: ls, h => by
    obtain ⟨pre, r, hl, hr⟩ := h l (by simp)
    have hc : closeEnd l = l := by
      rw [hl, closeEnd_append]
      congr 2
      cases r
      simp only [setLast] at hr ⊢
      simp_all
    have := joinClosed_flatten (l2 :: ls) (fun l' h' => h l' (by
      rw [List.dropLast_cons_of_ne_nil (by simp)]; exact List.mem_cons_of_mem _ h'))
    simp only [joinClosed, hc, this, List.flatten_cons]

end Verif.Dataset
