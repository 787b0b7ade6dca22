/-
Properties of the dataset: C07 - C12.
-/
import Verif.Dataset.Lemmas

namespace Verif.Dataset

variable {X A R P : Type}

/-! ### Concrete data used in the examples -/

def r0 : Row Nat Nat Int Nat := ⟨0, 10, 1, 1, false, false, 5, 6⟩
def r1 : Row Nat Nat Int Nat := ⟨1, 11, 2, 2, true, true, 6, 7⟩
def r2 : Row Nat Nat Int Nat := ⟨5, 12, 4, 6, false, false, 8, 9⟩
/-- Three uninitialised rows. -/
def g3 : NpDs Nat Nat Int Nat :=
  ⟨[90, 91, 92], [90, 91, 92], [90, 91, 92], [90, 91, 92], [true, false, true], [true, true, true], [90, 91, 92],
    [90, 91, 92], 0⟩
def okOf {α : Type} : Except Err α → Option α
  | .ok a => some a
  | .error _ => none
def demoDs : Option (NpDs Nat Nat Int Nat) := okOf (exec g3.clear [.append r2, .clear g3, .append r0, .append r1])

/-! ### C07 -/

/-- C07. A dataset with room for `cap` transitions, after any sequence of `append` and `clear` calls that never
exceeds its capacity, shows exactly the transitions appended since the last `clear` (in every column and in its
length). -/
theorem C07_append_clear (cap : Nat) (g : NpDs X A R P) (hg : Allocated g cap) (ops : List (Op X A R P))
    (hops : ∀ g', Op.clear g' ∈ ops → Allocated g' cap) (hfit : Fits cap [] ops) :
    ∃ d, exec g.clear ops = .ok d ∧ Holds d cap (since [] ops) :=
  exec_fits ops (holds_clear hg) hfit hops

/-- C07, construction: a new dataset is empty, whatever the allocated memory contains, and after any sequence of calls that fits it holds the rows since the last `clear`. -/
theorem C07_new (cap : Nat) (gs : List X) (ga : List A) (gr : List R) (gn : List X) (gab gl : List Bool) (gp gpn : List P)
    (hlen : gs.length = cap ∧ ga.length = cap ∧ gr.length = cap ∧ gn.length = cap ∧ gab.length = cap ∧ gl.length = cap ∧ gp.length = cap ∧ gpn.length = cap)
    (ops : List (Op X A R P)) (hops : ∀ g', Op.clear g' ∈ ops → Allocated g' cap) (hfit : Fits cap [] ops) :
    Holds (NpDs.new gs ga gr gn gab gl gp gpn) cap [] ∧
    ∃ d, exec (NpDs.new gs ga gr gn gab gl gp gpn) ops = .ok d ∧ Holds d cap (since [] ops) :=
  ⟨holds_clear (g := NpDs.new gs ga gr gn gab gl gp gpn) hlen, C07_append_clear cap (NpDs.new gs ga gr gn gab gl gp gpn) hlen ops hops hfit⟩

/-- C07, error branch: a sequence that needs more rows than allocated raises `IndexError`. -/
theorem C07_overflow_raises (cap : Nat) (g : NpDs X A R P) (hg : Allocated g cap) (ops : List (Op X A R P))
    (hops : ∀ g', Op.clear g' ∈ ops → Allocated g' cap) (hfit : ¬ Fits cap [] ops) :
    exec g.clear ops = .error .index :=
  exec_overflow ops (holds_clear hg) hfit hops

/-- C07, reading: `dataset[i]` for `0 ≤ i < len` is the tuple stored there; for `i ≥ len` it raises `IndexError`, so
iterating over the dataset stops after `len` transitions. -/
theorem C07_getitem (cap : Nat) (d : NpDs X A R P) (l : List (Row X A R P)) (h : Holds d cap l) :
    (∀ (i : Nat) (hi : i < l.length), d.getItem (i : Int) =
      .ok (l[i].state, l[i].action, l[i].reward, l[i].nextState, l[i].absorbing, l[i].last)) ∧
    ∀ i : Int, (l.length : Int) ≤ i → d.getItem i = .error .index :=
  ⟨fun i hi => getItem_lt h i hi, fun i hi => getItem_ge h i hi⟩

/-- C07, slices: a slice with nonnegative bounds shows the slice of the list of transitions; the six data columns do
so for every slice. -/
theorem C07_slice (cap : Nat) (d : NpDs X A R P) (l : List (Row X A R P)) (h : Holds d cap l) (a b : Option Int) :
    (NonNeg a → NonNeg b → Shows (d.view a b) (pySlice l a b)) ∧
    (d.view a b).state = (pySlice l a b).map (·.state) ∧ (d.view a b).action = (pySlice l a b).map (·.action) ∧
    (d.view a b).reward = (pySlice l a b).map (·.reward) ∧
    (d.view a b).nextState = (pySlice l a b).map (·.nextState) ∧
    (d.view a b).absorbingF = (pySlice l a b).map (·.absorbing) ∧
    (d.view a b).lastF = (pySlice l a b).map (·.last) := by
  obtain ⟨_, h1, h2, h3, h4, h5, h6⟩ := view_columns h a b
  exact ⟨fun ha hb => view_shows h a b ha hb, h1, h2, h3, h4, h5, h6⟩

example := C07_new 3 g3.states g3.actions g3.rewards g3.nextStates g3.absorbing g3.last g3.policyStates g3.policyNextStates (by simp [g3]) [Op.append r0, .append r1]
  (by simp) (by intro k; match k with
    | 0 => decide
    | 1 => decide
    | k + 2 => simp [since])

/-- The hypotheses are met, and the model computes: two rows stored after a clear. -/
example : Fits 3 [] [Op.append r2, .clear g3, .append r0, .append r1] ∧ Allocated g3 3 ∧
    demoDs.map (fun d => (d.len, d.state, d.reward, d.policyState)) = some (2, [0, 1], [1, 2], [5, 6]) := by
  refine ⟨?_, by simp [Allocated, g3], by decide⟩
  intro k
  match k with
  | 0 => decide
  | 1 => decide
  | 2 => decide
  | 3 => decide
  | k + 4 => simp [since]

/-- The sequence overflows a dataset with a single row. -/
example : ¬ Fits 1 [] [Op.append r0, .append r1] := by
  intro h; have := h 2; simp [since] at this

/-- Finding (violation of the list reading for negative indices): `dataset[-1]` is not rejected, and returns an
uninitialised row of the allocated array instead of the last transition. -/
theorem C07_negative_index_refuted :
    ∃ (d : NpDs Nat Nat Int Nat) (l : List (Row Nat Nat Int Nat)), Holds d 3 l ∧ l = [r0, r1] ∧
      d.getItem (-1) = .ok (92, 92, 92, 92, true, true) := by
  obtain ⟨d, hd, hh⟩ := C07_append_clear (X := Nat) (A := Nat) (R := Int) (P := Nat) 3 g3 (by simp [Allocated, g3])
    [.append r0, .append r1] (by simp) (by
      intro k
      match k with
      | 0 => decide
      | 1 => decide
      | k + 2 => simp [since])
  refine ⟨d, _, hh, rfl, ?_⟩
  have : d = ⟨[0, 1, 92], [10, 11, 92], [1, 2, 92], [1, 2, 92], [false, true, true], [false, true, true], [5, 6, 92],
    [6, 7, 92], 2⟩ := by
    have h2 := hd.symm
    simpa [exec, NpDs.append, NpDs.clear, g3, r0, r1] using h2
  subst this
  rfl

/-- Finding: a slice with a negative bound takes the policy states from uninitialised rows. -/
theorem C07_negative_slice_refuted :
    ∃ (d : NpDs Nat Nat Int Nat) (l : List (Row Nat Nat Int Nat)), Holds d 3 l ∧ l = [r0, r1] ∧
      (d.view (some (-1)) none).state = [1] ∧ (d.view (some (-1)) none).policyState = [92] := by
  obtain ⟨d, hd, hh⟩ := C07_append_clear (X := Nat) (A := Nat) (R := Int) (P := Nat) 3 g3 (by simp [Allocated, g3])
    [.append r0, .append r1] (by simp) (by
      intro k
      match k with
      | 0 => decide
      | 1 => decide
      | k + 2 => simp [since])
  refine ⟨d, _, hh, rfl, ?_⟩
  have : d = ⟨[0, 1, 92], [10, 11, 92], [1, 2, 92], [1, 2, 92], [false, true, true], [false, true, true], [5, 6, 92],
    [6, 7, 92], 2⟩ := by
    have h2 := hd.symm
    simpa [exec, NpDs.append, NpDs.clear, g3, r0, r1] using h2
  subst this
  decide

/-! ### Episodes -/

/-- Every dataset divides into episodes in exactly one way. -/
theorem episodes_exist_unique (l : List (Row X A R P)) : ∃! eps, IsEpisodes l eps := by
  obtain ⟨eps, h⟩ := isEpisodes_exists l
  exact ⟨eps, h, fun eps' h' => h'.unique h⟩

theorem demoEpisodes : IsEpisodes [r0, r1, r2] [[r0, r1], [r2]] := by
  refine ⟨rfl, ?_, ?_⟩
  · intro e he
    simp only [List.mem_cons, List.not_mem_nil, or_false] at he
    rcases he with rfl | rfl
    · exact ⟨[r0], r1, rfl, by simp [r0]⟩
    · exact ⟨[], r2, rfl, by simp⟩
  · intro e he
    simp only [List.dropLast_cons_cons, List.dropLast_singleton, List.mem_singleton] at he
    subst he
    exact ⟨[r0], r1, rfl, rfl⟩

/-! ### C08 -/

/-- C08. `compute_J(gamma)` of a nonempty dataset is the list of the discounted returns of its episodes (the trailing
incomplete one included), in order. -/
theorem C08_compute_J [Semiring R] (gamma : R) (l : List (Row X A R P)) (eps : List (List (Row X A R P)))
    (h : IsEpisodes l eps) (hl : l ≠ []) : computeJ gamma l = eps.map (discountedReturn gamma) := by
  have hj := computeJLoop_eps gamma eps l h
  have : (eps.map (discountedReturn gamma)).length ≠ 0 := by
    intro h0
    simp only [List.length_map, List.length_eq_zero_iff] at h0
    subst h0
    exact hl h.join.symm
  simp only [computeJ, hj, this, if_false]

/-- C08, empty dataset: a single zero. -/
theorem C08_compute_J_empty [Semiring R] (gamma : R) : computeJ gamma ([] : List (Row X A R P)) = [0] := rfl

example : computeJ 3 [r0, r1, r2] = [1 + 3 * 2, 4] ∧
    [[r0, r1], [r2]].map (discountedReturn 3) = [1 + 3 * 2, 4] := by decide

/-! ### C09 -/

/-- C09. `episodes_length` lists the lengths of the complete episodes, in order; they are positive and, with the
trailing incomplete block, add up to the length of the dataset. -/
theorem C09_episodes_length (l : List (Row X A R P)) (eps : List (List (Row X A R P))) (h : IsEpisodes l eps) :
    episodesLength l = (eps.filter (fun e => decide (Complete e))).map List.length ∧
    (∀ n ∈ episodesLength l, 0 < n) ∧
    ∃ tail, l = (eps.filter (fun e => decide (Complete e))).flatten ++ tail ∧ (∀ r ∈ tail, r.last = false) ∧
      (episodesLength l).sum + tail.length = l.length := by
  have h1 := episodesLength_eps eps l h
  obtain ⟨hle, htake⟩ := metricsCut_eps h
  refine ⟨h1, ?_, ?_⟩
  · intro n hn
    rw [h1] at hn
    obtain ⟨e, he, rfl⟩ := List.mem_map.mp hn
    obtain ⟨pre, r, rfl, _⟩ := h.inner e (List.mem_filter.mp he).1
    simp
  · rw [filter_complete h] at h1 ⊢
    rcases List.eq_nil_or_concat eps with rfl | ⟨init, e, rfl⟩
    · refine ⟨[], ?_, by simp, ?_⟩
      · have := h.join; simp at this; simp [this]
      · have := h.join; simp at this; rw [h1, this]; simp
    · rw [List.concat_eq_append] at *
      obtain ⟨p, r, rfl, hp⟩ := h.inner e (by simp)
      by_cases hr : r.last = true
      · refine ⟨[], ?_, by simp, ?_⟩
        · rw [← h.join]; simp [complete_append, hr]
        · rw [h1, ← h.join]
          simp [complete_append, hr]
      · have hr' : r.last = false := by simpa using hr
        refine ⟨p ++ [r], ?_, ?_, ?_⟩
        · rw [← h.join]; simp [complete_append, hr']
        · intro q hq
          rcases List.mem_append.mp hq with hq | hq
          · exact hp q hq
          · simp only [List.mem_singleton] at hq; subst hq; exact hr'
        · rw [h1, ← h.join]
          simp [complete_append, hr', List.length_flatten]

example : episodesLength [r0, r1, r2] = [2] := by decide

/-- C09. `n_episodes` of a nonempty dataset is its number of episodes, i.e. the number of complete ones plus one if
the dataset does not end with a `last` step; of an empty one it raises `IndexError`. -/
theorem C09_n_episodes (l : List (Row X A R P)) (eps : List (List (Row X A R P))) (h : IsEpisodes l eps) :
    (l ≠ [] → nEpisodes (l.map (·.last)) = .ok eps.length) ∧
    (∀ pre r, l = pre ++ [r] → eps.length =
      (eps.filter (fun e => decide (Complete e))).length + (if r.last then 0 else 1)) ∧
    nEpisodes [] = .error .index := by
  refine ⟨fun hl => nEpisodes_eq h hl, ?_, rfl⟩
  intro pre r hl
  rw [filter_complete h]
  rcases List.eq_nil_or_concat eps with rfl | ⟨init, e, rfl⟩
  · have := h.join; simp at this; subst this; simp at hl
  · rw [List.concat_eq_append] at *
    obtain ⟨p, q, hlq, hce⟩ := last_flag_eps h init e rfl
    have := List.append_inj' (hl.symm.trans hlq) rfl
    simp only [List.cons.injEq, and_true] at this
    obtain ⟨rfl, rfl⟩ := this
    by_cases hr : r.last = true
    · simp [hr, hce.mpr hr]
    · have : ¬ Complete e := fun hc => hr (hce.mp hc)
      simp [hr, this]

example : nEpisodes ([r0, r1, r2].map (·.last)) = .ok 2 := by rfl

/-- C09. `compute_metrics` reports the minimum, maximum, mean and number of the discounted returns of exactly the
complete episodes; if there is none, zeros. -/
theorem C09_compute_metrics [Field R] [LinearOrder R] (gamma : R) (l : List (Row X A R P))
    (eps : List (List (Row X A R P))) (h : IsEpisodes l eps) :
    ∃ J, J = (eps.filter (fun e => decide (Complete e))).map (discountedReturn gamma) ∧
    (J = [] → computeMetrics gamma l = (0, 0, 0, 0)) ∧
    (J ≠ [] → ∃ mn mx mean, computeMetrics gamma l = (mn, mx, mean, J.length) ∧ IsMinOf mn J ∧ IsMaxOf mx J ∧
      mean = J.sum / (J.length : R)) := by
  obtain ⟨hle, htake⟩ := metricsCut_eps h
  have hf := isEpisodes_filter h
  refine ⟨_, rfl, ?_, ?_⟩
  · intro hJ
    have h0 : eps.filter (fun e => decide (Complete e)) = [] := by simpa only [List.map_eq_nil_iff] using hJ
    rw [h0] at htake
    simp only [computeMetrics, pySlice_prefix _ _ hle, htake, List.flatten_nil, List.length_nil, gt_iff_lt,
      Nat.lt_irrefl, if_false]
  · intro hJ
    have h0 : eps.filter (fun e => decide (Complete e)) ≠ [] := by
      intro h0; rw [h0] at hJ; exact hJ rfl
    have hne : (eps.filter (fun e => decide (Complete e))).flatten ≠ [] := by
      intro hfl
      apply h0
      have := hf.unique (hfl ▸ isEpisodes_nil (X := X) (A := A) (R := R) (P := P))
      exact this
    have hpos : (eps.filter (fun e => decide (Complete e))).flatten.length > 0 := List.length_pos_iff.mpr hne
    have hcj := C08_compute_J gamma _ _ hf hne
    obtain ⟨j, js, hjs⟩ := List.exists_cons_of_ne_nil hJ
    refine ⟨listMin j js, listMax j js, (j :: js).sum / ((j :: js).length : R), ?_, ?_, ?_, ?_⟩
    · simp only [computeMetrics, pySlice_prefix _ _ hle, htake, hpos, if_true, hcj, hjs]
    · rw [hjs]; exact listMin_spec js j
    · rw [hjs]; exact listMax_spec js j
    · rw [hjs]

/-- A concrete case: one complete episode with return `1 + 2 γ`, and a trailing incomplete one. -/
example : (([[r0, r1], [r2]] : List (List (Row Nat Nat Int Nat))).filter (fun e => decide (Complete e))) =
    [[r0, r1]] := by decide

/-- Finding (list back-end): with a numpy boolean as `last` flag, `n_episodes` of a dataset made of one complete
episode is 1 by luck, and of two complete episodes it is again 1. -/
theorem C09_list_n_episodes_refuted :
    listNEpisodes [.np true, .np true] = .ok 1 ∧ nEpisodes ([.np true, .np true].map Flag.truthy) = .ok 2 := by
  exact ⟨rfl, rfl⟩

/-- C09 for the list back-end: with Python booleans it agrees with the array back-end. -/
theorem C09_list_n_episodes_partial (last : List Bool) :
    listNEpisodes (last.map Flag.py) = nEpisodes last := by
  have hcount : (last.map Flag.py).countP (·.isTrue) = last.count true := by
    induction last with
    | nil => rfl
    | cons b bs ih => rw [List.map_cons, List.countP_cons, ih, List.count_cons]; cases b <;> rfl
  simp only [listNEpisodes, nEpisodes, List.length_map, List.getElem?_map, hcount]
  cases hp : pyIdx last.length (-1) with
  | none => rfl
  | some j =>
    cases hl : last[j]? with
    | none => simp [hl]
    | some b => cases b <;> simp [hl, Flag.isTrue]

example : listNEpisodes ([false, true, false].map Flag.py) = .ok 2 := by rfl

/-! ### C10 -/

/-- C10. `select_first_episodes(k)` returns the first `k` episodes when they are complete, raises `IndexError` when
there are fewer than `k` complete ones, and `AssertionError` for `k ≤ 0`. -/
theorem C10_select_first_episodes (l : List (Row X A R P)) (eps : List (List (Row X A R P))) (h : IsEpisodes l eps) :
    (∀ k : Nat, 1 ≤ k → k ≤ (eps.filter (fun e => decide (Complete e))).length →
      selectFirstEpisodes l (k : Int) = .ok (eps.take k).flatten) ∧
    (∀ k : Nat, 1 ≤ k → (eps.filter (fun e => decide (Complete e))).length < k →
      selectFirstEpisodes l (k : Int) = .error .index) ∧
    (∀ k : Int, k ≤ 0 → selectFirstEpisodes l k = .error .assertion) := by
  refine ⟨fun k h1 h2 => selectFirst_ok h k h1 h2, fun k h1 h2 => selectFirst_few h k h1 h2, ?_⟩
  intro k hk
  simp only [selectFirstEpisodes]
  rw [if_neg (by omega)]

example : (okOf (selectFirstEpisodes [r0, r1, r2] 1)) = some [r0, r1] ∧
    okOf (selectFirstEpisodes [r0, r1, r2] 2) = none := by decide

/-- C10. `get_init_states` is the list of the first states of the episodes, the trailing incomplete one included. -/
theorem C10_get_init_states (l : List (Row X A R P)) (eps : List (List (Row X A R P))) (h : IsEpisodes l eps) :
    (getInitStates l).map some = eps.map (fun e => e.head?.map (·.state)) :=
  initStates_eps eps l h

example : getInitStates [r0, r1, r2] = [0, 5] := by decide

/-! ### C11 -/

/-- C11 (partial). If `d1` is not empty, `d1 + d2` shows the transitions of `d1`, the final one marked as the end of
an episode, followed by those of `d2`; its episodes are those of `d1` (closed) followed by those of `d2`.

Missing: the case of an empty `d1`, which the code gets wrong (`C11_empty_left_refuted`). -/
theorem C11_add_partial (d e : NpDs X A R P) (c1 c2 : Nat) (pre l2 : List (Row X A R P)) (r : Row X A R P)
    (h1 : Holds d c1 (pre ++ [r])) (h2 : Holds e c2 l2) (eps2 : List (List (Row X A R P)))
    (he2 : IsEpisodes l2 eps2) :
    ∃ s, d.add e = .ok s ∧ Holds s ((pre ++ [r]).length + l2.length) (pre ++ [setLast r] ++ l2) ∧
      ∃ eps1, IsEpisodes (pre ++ [setLast r]) eps1 ∧ IsEpisodes (pre ++ [setLast r] ++ l2) (eps1 ++ eps2) ∧
        (eps1 ++ eps2).length = eps1.length + eps2.length := by
  obtain ⟨s, hs, hh⟩ := holds_add h1 h2 pre r rfl
  refine ⟨s, hs, hh, ?_⟩
  obtain ⟨eps1, he1⟩ := isEpisodes_exists (pre ++ [setLast r])
  refine ⟨eps1, he1, ?_, by simp⟩
  refine ⟨by simp [he1.join, he2.join], ?_, ?_⟩
  · intro e' he'
    rcases List.mem_append.mp he' with h' | h'
    · exact he1.inner e' h'
    · exact he2.inner e' h'
  · intro e' he'
    have hall : ∀ e' ∈ eps1, Complete e' := by
      rcases List.eq_nil_or_concat eps1 with rfl | ⟨init, ee, rfl⟩
      · simp
      · rw [List.concat_eq_append] at *
        intro e' h'
        rcases List.mem_append.mp h' with h' | h'
        · exact he1.closed e' (by simpa using h')
        · simp only [List.mem_singleton] at h'
          subst h'
          obtain ⟨p, q, hlq, hce⟩ := last_flag_eps he1 init e' rfl
          have := List.append_inj' hlq rfl
          simp only [List.cons.injEq, and_true] at this
          exact hce.mpr (by rw [← this.2]; simp [setLast])
    cases eps2 with
    | nil =>
      simp only [List.append_nil] at he'
      exact hall e' (List.dropLast_subset _ he')
    | cons e2 eps2 =>
      rw [List.dropLast_append_of_ne_nil (by simp)] at he'
      rcases List.mem_append.mp he' with h' | h'
      · exact hall e' h'
      · exact he2.closed e' h'

/-- The number of episodes does not grow by closing the final episode: `closeEnd` only sets a flag. -/
theorem C11_episode_count (pre : List (Row X A R P)) (r : Row X A R P) (eps eps' : List (List (Row X A R P)))
    (h : IsEpisodes (pre ++ [r]) eps) (h' : IsEpisodes (pre ++ [setLast r]) eps') : eps.length = eps'.length := by
  rcases List.eq_nil_or_concat eps with rfl | ⟨init, e, rfl⟩
  · have := h.join; simp at this
  · rw [List.concat_eq_append] at *
    obtain ⟨p, q, rfl, hp⟩ := h.inner e (by simp)
    have hj := h.join
    simp only [List.flatten_append, List.flatten_cons, List.flatten_nil, List.append_nil, ← List.append_assoc] at hj
    have := List.append_inj' hj rfl
    simp only [List.cons.injEq, and_true] at this
    obtain ⟨hpre, rfl⟩ := this
    have h2 : IsEpisodes (pre ++ [setLast q]) (init ++ [p ++ [setLast q]]) := by
      refine ⟨by simp [← hpre], ?_, ?_⟩
      · intro e' he'
        rcases List.mem_append.mp he' with h1 | h1
        · exact h.inner e' (by simp [h1])
        · simp only [List.mem_singleton] at h1
          subst h1
          exact ⟨p, setLast q, rfl, hp⟩
      · intro e' he'
        exact h.closed e' (by simpa using he')
    rw [h2.unique h' |>.symm]
    simp

/-- The hypotheses of C11 are met by datasets reached from fresh ones. -/
example : (do
      let d ← okOf (exec g3.clear [.append r0])
      let e ← okOf (exec g3.clear [.append r2, .append r1])
      let s ← okOf (d.add e)
      pure (s.len, s.state, s.lastF)) = some (3, [0, 5, 1], [true, false, true]) := by decide

/-- Finding: adding to an empty dataset marks the last transition of the right operand, so an incomplete episode
becomes complete. -/
theorem C11_empty_left_refuted :
    ∃ (d e s : NpDs Nat Nat Int Nat), Holds d 3 [] ∧ Shows e [r2] ∧ d.add e = .ok s ∧
      e.lastF = [false] ∧ s.lastF = [true] := by
  refine ⟨g3.clear, ⟨[5], [12], [4], [6], [false], [false], [8], [9], 1⟩,
    ⟨[5], [12], [4], [6], [false], [true], [8], [9], 1⟩, holds_clear (by simp [Allocated, g3]), ?_, rfl, rfl, rfl⟩
  constructor <;> rfl

/-- Finding: two empty datasets cannot be added (`IndexError`). -/
theorem C11_empty_empty_raises (d e : NpDs X A R P) (c1 c2 : Nat) (h1 : Holds d c1 []) (h2 : Holds e c2 []) :
    d.add e = .error .index := by
  have a := h1.last
  have b := h2.last
  have c := h1.len
  simp only [NpDs.add, a, b, c]
  rfl

example : Holds g3.clear 3 [] := holds_clear (by simp [Allocated, g3])

/-- Finding: with the list back-end, `+` always raises. -/
theorem C11_list_add_refuted (d e : List (Row X A R P)) :
    (d = [] → listAdd d e = .error .index) ∧ (d ≠ [] → listAdd d e = .error .type) := by
  constructor
  · rintro rfl; rfl
  · intro h; cases d with
    | nil => exact absurd rfl h
    | cons a d => rfl

example : ([r0] : List (Row Nat Nat Int Nat)) ≠ [] := by decide

/-! ### C12 -/

/-- C12 (exact content). Fed with the nonempty datasets `ls` of successive fits, `CollectDataset` holds all their
transitions in order, where the final transition of every dataset but the last is marked as the end of an episode. -/
theorem C12_collect_content (ds : List (NpDs X A R P × Nat × List (Row X A R P))) (hne : ds ≠ [])
    (h : ∀ t ∈ ds, Holds t.1 t.2.1 t.2.2 ∧ t.2.2 ≠ []) :
    ∃ s c, collect none (ds.map (·.1)) = .ok (some s) ∧ Holds s c (joinClosed (ds.map (·.2.2))) := by
  cases ds with
  | nil => exact absurd rfl hne
  | cons t ds =>
    obtain ⟨ht, h0⟩ := h t List.mem_cons_self
    exact collect_holds ds ht h0 (fun t' h' => h t' (List.mem_cons_of_mem _ h'))

/-- C12 (partial). If every fit but the last happens at the end of an episode (as with `n_episodes_per_fit`), the
collected dataset holds exactly the transitions of the run.

Missing: fit periods counted in steps, for which the claim is false (`C12_refuted`). -/
theorem C12_collect_partial (ds : List (NpDs X A R P × Nat × List (Row X A R P))) (hne : ds ≠ [])
    (h : ∀ t ∈ ds, Holds t.1 t.2.1 t.2.2 ∧ t.2.2 ≠ []) (hc : ∀ t ∈ ds.dropLast, Complete t.2.2) :
    ∃ s c, collect none (ds.map (·.1)) = .ok (some s) ∧ Holds s c (ds.map (·.2.2)).flatten := by
  obtain ⟨s, c, h1, h2⟩ := C12_collect_content ds hne h
  refine ⟨s, c, h1, ?_⟩
  rw [joinClosed_flatten] at h2
  · exact h2
  · intro l hl
    rw [← List.map_dropLast] at hl
    obtain ⟨t, ht, rfl⟩ := List.mem_map.mp hl
    exact hc t ht

/-- Two fits, the first one at the end of an episode. -/
example : ∃ (d e : NpDs Nat Nat Int Nat), Holds d 2 [r0, r1] ∧ Complete [r0, r1] ∧ Holds e 1 [r2] := by
  refine ⟨⟨[0, 1], [10, 11], [1, 2], [1, 2], [false, true], [false, true], [5, 6], [6, 7], 2⟩,
    ⟨[5], [12], [4], [6], [false], [false], [8], [9], 1⟩, ?_, by decide, ?_⟩ <;>
  constructor <;> first | rfl | decide

/-- Finding: with one fit per step and an episode of two steps, the collected dataset reports two episodes and other
returns than the run. -/
theorem C12_refuted :
    ∃ (d e s : NpDs Nat Nat Int Nat) (ls : List (Row Nat Nat Int Nat)), Holds d 1 [r0] ∧ Holds e 1 [r1] ∧
      collect none [d, e] = .ok (some s) ∧ Shows s ls ∧
      nEpisodes s.lastF = .ok 2 ∧ nEpisodes ([r0, r1].map (·.last)) = .ok 1 ∧
      computeJ 1 ls = [1, 2] ∧ computeJ 1 [r0, r1] = [3] := by
  refine ⟨⟨[0], [10], [1], [1], [false], [false], [5], [6], 1⟩, ⟨[1], [11], [2], [2], [true], [true], [6], [7], 1⟩,
    ⟨[0, 1], [10, 11], [1, 2], [1, 2], [false, true], [true, true], [5, 6], [6, 7], 2⟩, [setLast r0, r1],
    ?_, ?_, rfl, ?_, rfl, rfl, by decide, by decide⟩ <;>
  constructor <;> first | rfl | decide

end Verif.Dataset
