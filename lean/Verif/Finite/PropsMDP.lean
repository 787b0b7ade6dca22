/-
Properties C45 and C46: grid worlds and finite MDPs.
-/
import Verif.Finite.Spec
import Mathlib.Algebra.Order.BigOperators.Group.List
import Mathlib.Tactic.Linarith
import Mathlib.Tactic.Ring
import Mathlib.Tactic.NormNum

namespace Verif.Finite

noncomputable section

/-! ### C46 -/

theorem cumsum_take (p : List ℝ) (acc u : ℝ) (hp : ∀ x ∈ p, 0 ≤ x) (hu : acc ≤ u) (hlt : u < acc + p.sum) :
    ∃ i, ((cumsum acc p).takeWhile (fun c => decide (c ≤ u))).length = i ∧ i < p.length ∧
      acc + (p.take i).sum ≤ u ∧ u < acc + (p.take (i + 1)).sum := by
  induction p generalizing acc with
  | nil => simp at hlt; linarith
  | cons x xs ih =>
      rw [cumsum, List.takeWhile_cons]
      by_cases h : acc + x ≤ u
      · rw [if_pos (by simpa using h)]
        obtain ⟨i, h1, h2, h3, h4⟩ := ih (acc + x) (fun y hy => hp y (by simp [hy])) h (by
          rw [List.sum_cons] at hlt; linarith)
        refine ⟨i + 1, by simp [h1], by simp; exact h2, ?_, ?_⟩
        · rw [List.take_succ_cons, List.sum_cons]; linarith
        · rw [List.take_succ_cons, List.sum_cons]; linarith
      · rw [if_neg (by simpa using h)]
        refine ⟨0, rfl, by simp, by simpa using hu, ?_⟩
        simp; linarith

/-- C46. The index drawn with the uniform number `u` is the one whose interval of the cumulative distribution contains `u`:
index `i` is drawn for a set of numbers of length `p[i]`, and never if `p[i]` is zero. -/
theorem C46_choice (p : List ℝ) (u : ℝ) (hp : ∀ x ∈ p, 0 ≤ x) (hs : p.sum = 1) (h0 : 0 ≤ u) (h1 : u < 1) (i : ℕ) :
    choice p u = some i ↔ i < p.length ∧ (p.take i).sum ≤ u ∧ u < (p.take i).sum + p.getD i 0 := by
  have hsum : ∀ i < p.length, (p.take (i + 1)).sum = (p.take i).sum + p.getD i 0 := by
    intro i hi
    rw [List.take_succ_eq_append_getElem hi, List.sum_append]
    simp [List.getD, hi]
  have hmono : ∀ a b, a ≤ b → (p.take a).sum ≤ (p.take b).sum := by
    intro a b hab
    have : p.take b = p.take a ++ (p.drop a).take (b - a) := by
      rw [← List.take_add]; congr 1; omega
    rw [this, List.sum_append]
    have : 0 ≤ ((p.drop a).take (b - a)).sum :=
      List.sum_nonneg (fun x hx => hp x (List.mem_of_mem_drop (List.mem_of_mem_take hx)))
    linarith
  obtain ⟨k, e1, e2, e3, e4⟩ := cumsum_take p 0 u hp h0 (by rw [hs]; linarith)
  rw [choice, if_pos ⟨hs, hp⟩, e1]
  simp only [zero_add] at e3 e4
  constructor
  · intro h
    have hk : k = i := by simpa using h
    subst hk
    exact ⟨e2, e3, by rw [← hsum k e2]; exact e4⟩
  · rintro ⟨g1, g2, g3⟩
    rw [← hsum i g1] at g3
    rcases Nat.lt_trichotomy k i with h | h | h
    · have := hmono (k + 1) i h; linarith
    · rw [h]
    · have := hmono (i + 1) k h; linarith

/-- The tables of a finite MDP: every row is a probability distribution, except in states where all rows are zero. -/
structure TableOk (m : FiniteMDP) : Prop where
  size : ∀ s a, (m.p s a).length = m.nS
  actions : 0 < m.nA
  rows : ∀ s < m.nS, (∀ a < m.nA, (∀ x ∈ m.p s a, 0 ≤ x) ∧ (m.p s a).sum = 1) ∨ (∀ a < m.nA, ∀ x ∈ m.p s a, x = 0)

/-- One step is possible exactly in the states with an outgoing transition, it reaches a state with positive probability and
its flag says whether the next step is possible. -/
theorem C46_step (m : FiniteMDP) (hm : TableOk m) (s a : ℕ) (u : ℝ) (hs : s < m.nS) (ha : a < m.nA) (h0 : 0 ≤ u) (h1 : u < 1) :
    (m.noExit s = true → m.step s a u = none) ∧
    (m.noExit s = false → ∃ s', m.step s a u = some (s', m.r s a s', m.noExit s') ∧ s' < m.nS ∧ 0 < (m.p s a).getD s' 0) := by
  constructor
  · intro h
    have hz : ∀ x ∈ m.p s a, x = 0 := by
      have := of_decide_eq_true h
      exact this a ha
    have : (m.p s a).sum = 0 := List.sum_eq_zero hz
    simp [FiniteMDP.step, choice, this]
  · intro h
    rcases hm.rows s hs with hd | hz
    · obtain ⟨hp, hsum⟩ := hd a ha
      obtain ⟨i, e1, e2, e3, e4⟩ := cumsum_take (m.p s a) 0 u hp h0 (by rw [hsum]; linarith)
      have hc : choice (m.p s a) u = some i := by rw [choice, if_pos ⟨hsum, hp⟩, e1]
      have hi := (C46_choice (m.p s a) u hp hsum h0 h1 i).mp hc
      refine ⟨i, by rw [FiniteMDP.step, hc], by have := hi.1; rwa [hm.size] at this, by linarith [hi.2.1, hi.2.2]⟩
    · exfalso
      have := of_decide_eq_false h
      exact this hz

/-- A run of the environment that stops in absorbing states: the list of transitions, or `none` if a step raises. -/
def FiniteMDP.run (m : FiniteMDP) : ℕ → List (ℕ × ℝ) → Option (List (ℕ × ℕ × ℕ × ℝ × Bool))
  | _, [] => some []
  | s, (a, u) :: rest => match m.step s a u with
    | none => none
    | some (s', r, absorbing) =>
        if absorbing then some [(s, a, s', r, true)]
        else (m.run s' rest).map (fun tr => (s, a, s', r, false) :: tr)

/-- C46. For every sequence of actions a run from a state with an outgoing transition raises no exception. Every transition
has positive probability, its reward is the one of the table, and it is absorbing exactly if the reached state has no
outgoing probability. -/
theorem C46_run (m : FiniteMDP) (hm : TableOk m) (s : ℕ) (hs : s < m.nS) (hexit : m.noExit s = false)
    (inputs : List (ℕ × ℝ)) (hin : ∀ i ∈ inputs, i.1 < m.nA ∧ 0 ≤ i.2 ∧ i.2 < 1) :
    ∃ tr, m.run s inputs = some tr ∧ ∀ t ∈ tr, t.2.2.1 < m.nS ∧ 0 < (m.p t.1 t.2.1).getD t.2.2.1 0 ∧
      t.2.2.2.1 = m.r t.1 t.2.1 t.2.2.1 ∧
      (t.2.2.2.2 = true ↔ ∀ a < m.nA, ∀ x ∈ m.p t.2.2.1 a, x = 0) := by
  induction inputs generalizing s with
  | nil => exact ⟨[], rfl, by simp⟩
  | cons au rest ih =>
      obtain ⟨a, u⟩ := au
      obtain ⟨ha, h0, h1⟩ := hin (a, u) (by simp)
      obtain ⟨s', hst, hs', hpos⟩ := (C46_step m hm s a u hs ha h0 h1).2 hexit
      rw [FiniteMDP.run]
      simp only [hst]
      rcases Bool.eq_false_or_eq_true (m.noExit s') with hb | hb
      · rw [if_pos hb]
        refine ⟨_, rfl, ?_⟩
        intro t ht
        simp only [List.mem_singleton] at ht
        subst ht
        exact ⟨hs', hpos, rfl, by simp only [true_iff]; exact of_decide_eq_true hb⟩
      · rw [if_neg (by simp [hb])]
        obtain ⟨tr, htr, hall⟩ := ih s' hs' hb (fun i hi => hin i (by simp [hi]))
        refine ⟨_, by rw [htr]; rfl, ?_⟩
        intro t ht
        simp only [List.mem_cons] at ht
        rcases ht with rfl | ht
        · refine ⟨hs', hpos, rfl, ?_⟩
          simp only [Bool.false_eq_true, false_iff]
          exact of_decide_eq_false hb
        · exact hall t ht

/-- Two states: the first goes to either with equal probability, the second is absorbing. -/
def exampleMDP : FiniteMDP := ⟨2, 1, fun s _ => if s = 0 then [1 / 2, 1 / 2] else [0, 0], fun _ _ s' => s'⟩

example : TableOk exampleMDP ∧ exampleMDP.noExit 0 = false := by
  refine ⟨⟨fun s a => by simp only [exampleMDP]; split <;> rfl, by decide, ?_⟩, ?_⟩
  · intro s hs
    by_cases h : s = 0
    · left; intro a _; subst h; norm_num [exampleMDP]
    · right; intro a _ x hx; simp only [exampleMDP, if_neg h] at hx; simpa using hx
  · apply decide_eq_false
    intro h
    have := h 0 (by decide) (1 / 2) (by simp [exampleMDP])
    norm_num at this

/-! ### C45 -/

/-- C45. Cells and state indices are in one-to-one correspondence. -/
theorem C45_bijection (height width : ℕ) (hw : 0 < width) :
    (∀ cell : ℕ × ℕ, cell.1 < height → cell.2 < width →
      toInt cell width < height * width ∧ toGrid (toInt cell width) width = cell) ∧
    (∀ state, state < height * width → (toGrid state width).1 < height ∧ (toGrid state width).2 < width ∧
      toInt (toGrid state width) width = state) := by
  constructor
  · rintro ⟨r, c⟩ hr hc
    simp only [toInt, toGrid] at *
    refine ⟨?_, ?_⟩
    · calc r * width + c < r * width + width := by omega
        _ = (r + 1) * width := by ring
        _ ≤ height * width := Nat.mul_le_mul_right _ hr
    · rw [Prod.mk.injEq]
      constructor
      · rw [Nat.add_comm, Nat.add_mul_div_right _ _ hw, Nat.div_eq_of_lt hc]; omega
      · rw [Nat.add_comm, Nat.add_mul_mod_self_right, Nat.mod_eq_of_lt hc]
  · intro s hs
    refine ⟨Nat.div_lt_of_lt_mul (by rwa [Nat.mul_comm] at hs), Nat.mod_lt _ hw, ?_⟩
    simp only [toInt, toGrid]
    rw [Nat.mul_comm]; exact Nat.div_add_mod s width

/-- The cell one row up or down, or one column left or right. -/
def neighbour (cell : ℕ × ℕ) : ℕ → ℤ × ℤ
  | 0 => ((cell.1 : ℤ) - 1, cell.2)
  | 1 => ((cell.1 : ℤ) + 1, cell.2)
  | 2 => (cell.1, (cell.2 : ℤ) - 1)
  | 3 => (cell.1, (cell.2 : ℤ) + 1)
  | _ => (cell.1, cell.2)

/-- A move to the neighbour, or to the cell itself if the neighbour is outside the grid. -/
def IsMove (height width : ℕ) (cell : ℕ × ℕ) (action : ℕ) (cell' : ℕ × ℕ) : Prop :=
  if 0 ≤ (neighbour cell action).1 ∧ (neighbour cell action).1 < height ∧
    0 ≤ (neighbour cell action).2 ∧ (neighbour cell action).2 < width
  then ((cell'.1 : ℤ), (cell'.2 : ℤ)) = neighbour cell action else cell' = cell

theorem gridStep_move (height width : ℕ) (cell : ℕ × ℕ) (action : ℕ) (hr : cell.1 < height) (hc : cell.2 < width) :
    IsMove height width cell action (gridStep height width cell action) ∧
    (gridStep height width cell action).1 < height ∧ (gridStep height width cell action).2 < width := by
  obtain ⟨r, c⟩ := cell
  simp only at hr hc
  unfold IsMove gridStep
  rcases action with _ | _ | _ | _ | n
  · simp only [neighbour, if_true]
    by_cases h : r > 0
    · rw [if_pos h, if_pos (by omega)]; refine ⟨by first | rfl | (apply Prod.ext <;> dsimp only <;> omega), by omega, by omega⟩
    · rw [if_neg h, if_neg (by omega)]; refine ⟨by first | rfl | (apply Prod.ext <;> dsimp only <;> omega), by omega, by omega⟩
  · simp only [neighbour, Nat.zero_add, Nat.one_ne_zero, if_false, if_true]
    by_cases h : r + 1 < height
    · rw [if_pos h, if_pos (by omega)]; refine ⟨by first | rfl | (apply Prod.ext <;> dsimp only <;> omega), by omega, by omega⟩
    · rw [if_neg h, if_neg (by omega)]; refine ⟨by first | rfl | (apply Prod.ext <;> dsimp only <;> omega), by omega, by omega⟩
  · simp only [neighbour, Nat.zero_add, Nat.reduceAdd, show ¬ (2 = 0) by decide, show ¬ (2 = 1) by decide, if_false, if_true]
    by_cases h : c > 0
    · rw [if_pos h, if_pos (by omega)]; refine ⟨by first | rfl | (apply Prod.ext <;> dsimp only <;> omega), by omega, by omega⟩
    · rw [if_neg h, if_neg (by omega)]; refine ⟨by first | rfl | (apply Prod.ext <;> dsimp only <;> omega), by omega, by omega⟩
  · simp only [neighbour, Nat.zero_add, Nat.reduceAdd, show ¬ (3 = 0) by decide, show ¬ (3 = 1) by decide,
      show ¬ (3 = 2) by decide, if_false, if_true]
    by_cases h : c + 1 < width
    · rw [if_pos h, if_pos (by omega)]; refine ⟨by first | rfl | (apply Prod.ext <;> dsimp only <;> omega), by omega, by omega⟩
    · rw [if_neg h, if_neg (by omega)]; refine ⟨by first | rfl | (apply Prod.ext <;> dsimp only <;> omega), by omega, by omega⟩
  · have hn : neighbour (r, c) (n + 1 + 1 + 1 + 1) = ((r : ℤ), (c : ℤ)) := rfl
    have h4 : ∀ k < 4, ¬ (n + 1 + 1 + 1 + 1 = k) := by intro k hk; omega
    simp only [hn, if_neg (h4 0 (by decide)), if_neg (h4 1 (by decide)), if_neg (h4 2 (by decide)), if_neg (h4 3 (by decide))]
    refine ⟨?_, hr, hc⟩
    split <;> trivial

/-- C45. One step of the grid world moves to the neighbour if it is inside the grid and stays otherwise; reward 10 and the
absorbing flag are given exactly if the reached cell is the goal. -/
theorem C45_step (g : Grid) (state action : ℕ) (hw : 0 < g.width) (hs : state < g.height * g.width) :
    IsMove g.height g.width (toGrid state g.width) action (toGrid (g.step state action).1 g.width) ∧
    (g.step state action).1 < g.height * g.width ∧
    (toGrid (g.step state action).1 g.width = g.goal → (g.step state action).2 = (10, true)) ∧
    (toGrid (g.step state action).1 g.width ≠ g.goal → (g.step state action).2 = (0, false)) := by
  obtain ⟨b1, b2⟩ := C45_bijection g.height g.width hw
  obtain ⟨hr, hc, _⟩ := b2 state hs
  obtain ⟨h1, h2, h3⟩ := gridStep_move g.height g.width (toGrid state g.width) action hr hc
  set cell := gridStep g.height g.width (toGrid state g.width) action with hcell
  obtain ⟨hlt, hgrid⟩ := b1 cell h2 h3
  have hst : (g.step state action).1 = toInt cell g.width := by
    simp only [Grid.step, ← hcell]; split <;> rfl
  rw [hst, hgrid]
  refine ⟨h1, hlt, ?_, ?_⟩
  · intro h; simp only [Grid.step, ← hcell, if_pos h]
  · intro h; simp only [Grid.step, ← hcell, if_neg h]

/-- C45. In the variant of van Hasselt the goal cell is left alone: from it every action gives reward 5 and ends the
episode. Every other step moves as in the grid world and gives -12 or 10. -/
theorem C45_step_van_hasselt (g : Grid) (state action : ℕ) (coin : Bool) (hw : 0 < g.width) (hs : state < g.height * g.width) :
    (toGrid state g.width = g.goal → g.stepVH state action coin = (state, 5, true)) ∧
    (toGrid state g.width ≠ g.goal →
      IsMove g.height g.width (toGrid state g.width) action (toGrid (g.stepVH state action coin).1 g.width) ∧
      (g.stepVH state action coin).1 < g.height * g.width ∧
      (g.stepVH state action coin).2 = (if coin then 10 else -12, false)) := by
  obtain ⟨b1, b2⟩ := C45_bijection g.height g.width hw
  obtain ⟨hr, hc, hi⟩ := b2 state hs
  obtain ⟨h1, h2, h3⟩ := gridStep_move g.height g.width (toGrid state g.width) action hr hc
  obtain ⟨hlt, hgrid⟩ := b1 _ h2 h3
  constructor
  · intro h
    simp only [Grid.stepVH, if_pos h]
    rw [hi]
  · intro h
    simp only [Grid.stepVH, if_neg h]
    rw [hgrid]
    exact ⟨h1, hlt, trivial⟩

/-- C45. For every sequence of actions the state is a valid index, if the start is a cell of the grid. -/
theorem C45_state_valid (g : Grid) (hw : 0 < g.width) (hstart : g.start.1 < g.height ∧ g.start.2 < g.width)
    (actions : List ℕ) :
    actions.foldl (fun s a => (g.step s a).1) g.reset < g.height * g.width ∧
    ∀ coins : List Bool, (actions.zip coins).foldl (fun s a => (g.stepVH s a.1 a.2).1) g.reset < g.height * g.width := by
  have h0 : g.reset < g.height * g.width := ((C45_bijection g.height g.width hw).1 g.start hstart.1 hstart.2).1
  constructor
  · have key : ∀ (l : List ℕ) s, s < g.height * g.width → l.foldl (fun s a => (g.step s a).1) s < g.height * g.width := by
      intro l
      induction l with
      | nil => exact fun s h => h
      | cons a l ih => intro s h; exact ih _ (C45_step g s a hw h).2.1
    exact key actions _ h0
  · intro coins
    have key : ∀ (l : List (ℕ × Bool)) s, s < g.height * g.width →
        l.foldl (fun s a => (g.stepVH s a.1 a.2).1) s < g.height * g.width := by
      intro l
      induction l with
      | nil => exact fun s h => h
      | cons a l ih =>
          intro s h
          apply ih
          beta_reduce
          by_cases hg : toGrid s g.width = g.goal
          · rw [(C45_step_van_hasselt g s a.1 a.2 hw h).1 hg]; exact h
          · exact ((C45_step_van_hasselt g s a.1 a.2 hw h).2 hg).2.1
    exact key _ _ h0

/-- C45. The constructor does not check the start: it accepts a start outside the grid, and then the state is not a valid
index. -/
theorem C45_start_refuted : ∃ g : Grid, g.accepted ∧ 0 < g.width ∧ ¬ g.reset < g.height * g.width :=
  ⟨⟨3, 3, (5, 5), (2, 2)⟩, by unfold Grid.accepted; decide, by decide, by decide⟩

example : (⟨3, 4, (0, 0), (2, 3)⟩ : Grid).accepted ∧ 0 < 4 ∧ 7 < 3 * 4 := by unfold Grid.accepted; decide

end

end Verif.Finite
