/-
C47 (generated MDPs are well formed) and C48 (every line of a map file is used).
-/
import Verif.Finite.Lemmas

namespace Verif.Finite

noncomputable section

open Classical in
/-- Assignments to entries of a matrix, all with the value `v` of the entry. -/
theorem foldl_set {L : Type} (step : (ℕ → ℕ → ℕ → ℝ) → L → (ℕ → ℕ → ℕ → ℝ)) (P : L → ℕ → ℕ → ℕ → Prop) (v : ℕ → ℕ → ℕ → ℝ)
    {inst : ∀ l i a j, Decidable (P l i a j)} (h : ∀ r l i a j, step r l i a j = if P l i a j then v i a j else r i a j) (ls : List L) (r : ℕ → ℕ → ℕ → ℝ) (i a j : ℕ) :
    ls.foldl step r i a j = if ∃ l ∈ ls, P l i a j then v i a j else r i a j := by
  induction ls generalizing r with
  | nil => simp
  | cons l ls ih =>
      rw [List.foldl_cons, ih, h]
      by_cases h1 : P l i a j <;> by_cases h2 : ∃ l ∈ ls, P l i a j <;> simp [h1, h2]

/-! ### The chain -/

/-- Rows of the chain: with probability `prob` action 0 goes right and action 1 goes left, otherwise the state stays. -/
theorem C47_chain (n : ℕ) (prob : ℝ) (h0 : 0 ≤ prob) (h1 : prob ≤ 1) (i : ℕ) (hi : i < n) :
    IsDist n (chainRow n prob i 0) ∧ IsDist n (chainRow n prob i 1) ∧
    (i + 1 < n → chainRow n prob i 0 (i + 1) = prob ∧ chainRow n prob i 0 i = 1 - prob) ∧
    (i + 1 = n → chainRow n prob i 0 i = 1) ∧
    (0 < i → chainRow n prob i 1 (i - 1) = prob ∧ chainRow n prob i 1 i = 1 - prob) ∧
    (i = 0 → chainRow n prob i 1 i = 1) := by
  have key1 : IsDist n (setAt (fun _ => 0) [i] 1) := by
    refine ⟨fun k => ?_, fun k hk => ?_, ?_⟩
    · simp only [setAt]; split <;> norm_num
    · simp only [setAt, List.mem_singleton]; rw [if_neg (by omega)]
    · rw [sum_setAt n _ i hi]; simp
  have key2 : ∀ j < n, j ≠ i → IsDist n (setAt (setAt (fun _ => 0) [i] (1 - prob)) [j] prob) := by
    intro j hj hji
    refine ⟨fun k => ?_, fun k hk => ?_, ?_⟩
    · simp only [setAt]; split; · exact h0
      split <;> linarith
    · simp only [setAt, List.mem_singleton]; rw [if_neg (by omega), if_neg (by omega)]
    · rw [sum_setAt n _ j hj, sum_setAt n _ i hi]; simp [setAt, hji]
  refine ⟨?_, ?_, ?_, ?_, ?_, ?_⟩
  · unfold chainRow
    rw [if_neg (by decide), if_pos rfl]
    split
    · exact key1
    · exact key2 (i + 1) (by omega) (by omega)
  · unfold chainRow
    rw [if_pos rfl]
    split
    · exact key1
    · exact key2 (i - 1) (by omega) (by omega)
  · intro h
    unfold chainRow
    rw [if_neg (by decide), if_pos rfl, if_neg (by omega)]
    simp [setAt]
  · intro h
    unfold chainRow
    rw [if_neg (by decide), if_pos rfl, if_pos (by omega)]
    simp [setAt]
  · intro h
    unfold chainRow
    rw [if_pos rfl, if_neg (by omega)]
    constructor
    · simp [setAt]
    · simp only [setAt, List.mem_singleton]
      rw [if_neg (by omega), if_pos trivial]
  · intro h
    unfold chainRow
    rw [if_pos rfl, if_pos h]
    simp [setAt]

open Classical in
/-- Rewards of the chain: exactly the moves into a goal from a neighbour. -/
theorem C47_chain_reward (n : ℕ) (goals : List ℕ) (rew : ℝ) (hg : ∀ g ∈ goals, g < n) (i a j : ℕ) (hi : i < n) :
    chainReward n goals rew i a j =
      if j ∈ goals ∧ (a = 0 ∧ j = i + 1 ∨ a = 1 ∧ i = j + 1) then rew else 0 := by
  rw [chainReward, foldl_set (chainGoal n rew)
    (fun g i a j => (g ≠ n - 1 ∧ i = g + 1 ∧ a = 1 ∧ j = g) ∨ (g ≠ 0 ∧ i = g - 1 ∧ a = 0 ∧ j = g)) (fun _ _ _ => rew) (inst := fun _ _ _ _ => inferInstance)]
  · have e : (∃ l ∈ goals, (l ≠ n - 1 ∧ i = l + 1 ∧ a = 1 ∧ j = l) ∨ (l ≠ 0 ∧ i = l - 1 ∧ a = 0 ∧ j = l)) ↔
        (j ∈ goals ∧ (a = 0 ∧ j = i + 1 ∨ a = 1 ∧ i = j + 1)) := by
      constructor
      · rintro ⟨l, hl, ⟨h1, h2, h3, h4⟩ | ⟨h1, h2, h3, h4⟩⟩
        · subst h4; exact ⟨hl, Or.inr ⟨h3, h2⟩⟩
        · subst h4; exact ⟨hl, Or.inl ⟨h3, by omega⟩⟩
      · rintro ⟨hj, ⟨h1, h2⟩ | ⟨h1, h2⟩⟩
        · exact ⟨j, hj, Or.inr ⟨by omega, by omega, h1, rfl⟩⟩
        · exact ⟨j, hj, Or.inl ⟨by have := hg j hj; omega, h2, h1, rfl⟩⟩
    simp only [e]
  · intro r g i a j
    unfold chainGoal
    by_cases h1 : g ≠ 0 <;> by_cases h2 : g ≠ n - 1 <;> simp only [h1, h2, if_true, if_false, set3, List.mem_singleton, not_true, not_false_iff, ne_eq, false_and, true_and, or_false, false_or] <;>
    first
      | rfl
      | (by_cases h3 : i = g + 1 ∧ a = 1 ∧ j = g <;> by_cases h4 : i = g - 1 ∧ a = 0 ∧ j = g <;> simp [h3, h4])

example : ∀ g ∈ [3], g < 5 := by decide

/-! ### The grid -/

theorem move_eq (a : ℕ) (x : Cell) : move a x = x + dir a := by
  obtain ⟨r, c⟩ := x
  match a with
  | 0 => simp [move, dir, sub_eq_add_neg]
  | 1 => simp [move, dir]
  | 2 => simp [move, dir, sub_eq_add_neg]
  | _ + 3 => simp [move, dir]

theorem move_ne (a : ℕ) (x : Cell) : move a x ≠ x := by
  obtain ⟨r, c⟩ := x
  match a with
  | 0 => simp [move]
  | 1 => simp [move]
  | 2 => simp [move]
  | _ + 3 => simp [move]

theorem numbering_cellsOf (rows : List (List Char)) : Numbering rows (cellsOf rows) :=
  ⟨nodup_cellsOf rows, fun x => by rw [mem_cellsOf]; rfl⟩

theorem checkMap_ok {special : Char} {rows : List (List Char)} (hm : IsMap special rows) :
    checkMap rows (cellsOf rows) = .ok () := by
  unfold checkMap
  rw [if_neg, if_pos]
  · rw [List.all_eq_true]
    intro x hx
    rw [mem_cellsOf] at hx
    obtain ⟨ch, _, h⟩ := hx
    rw [(lookup_iff _ _ _).mpr h]
    rfl
  · rw [not_not]
    rw [List.pairwise_iff_getElem]
    intro i j hi hj _
    exact hm.rectangular _ (List.getElem_mem hi) _ (List.getElem_mem hj)

/-- What the grid world generator must produce for the map `rows`: `n` states, `p`, `r` and `mu`. -/
structure IsGridWorld (rows : List (List Char)) (prob pos neg : ℝ) (cells : List Cell) (n : ℕ) (p r : ℕ → ℕ → ℕ → ℝ) (mu : ℕ → ℝ) : Prop where
  /-- one state for each free cell -/
  states : Numbering rows cells ∧ n = cells.length
  /-- from '.' and 'S' every row is a distribution -/
  dist : ∀ (i a : ℕ) (x : Cell), cells[i]? = some x → (CellAt rows x '.' ∨ CellAt rows x 'S') → IsDist n (p i a)
  /-- a move towards a free cell succeeds with probability `prob` and otherwise the agent stays -/
  free : ∀ (i j a : ℕ) (x : Cell), cells[i]? = some x → (CellAt rows x '.' ∨ CellAt rows x 'S') → cells[j]? = some (move a x) →
    p i a j = prob ∧ p i a i = 1 - prob
  /-- a move against a wall or the border does nothing -/
  blocked : ∀ (i a : ℕ) (x : Cell), cells[i]? = some x → (CellAt rows x '.' ∨ CellAt rows x 'S') → ¬ Free rows (move a x) → p i a i = 1
  /-- goals and holes are terminal -/
  terminal : ∀ (i a k : ℕ) (x : Cell), cells[i]? = some x → (CellAt rows x 'G' ∨ CellAt rows x '*') → p i a k = 0
  /-- moving into a goal gives `pos` -/
  goal : ∀ (i j a : ℕ) (x : Cell), a < 4 → cells[i]? = some x → cells[j]? = some (move a x) → CellAt rows (move a x) 'G' → r i a j = pos
  /-- moving into a hole gives `neg` -/
  hole : ∀ (i j a : ℕ) (x : Cell), a < 4 → cells[i]? = some x → cells[j]? = some (move a x) → CellAt rows (move a x) '*' → r i a j = neg
  /-- everything else gives zero -/
  zero : ∀ (i j a : ℕ) (x y : Cell), cells[i]? = some x → cells[j]? = some y →
    (y ≠ move a x ∨ ¬ (CellAt rows y 'G' ∨ CellAt rows y '*')) → r i a j = 0
  /-- the initial distribution is uniform over the 'S' cells -/
  start_dist : IsDist n mu
  start_zero : ∀ (i : ℕ) (x : Cell), cells[i]? = some x → ¬ CellAt rows x 'S' → mu i = 0
  start_uniform : ∀ (i j : ℕ) (x y : Cell), cells[i]? = some x → cells[j]? = some y → CellAt rows x 'S' → CellAt rows y 'S' →
    mu i = mu j ∧ 0 < mu i

theorem giveReward_apply (g : List (List Char)) (cells : List Cell) (t : Char) (rew : ℝ) (r : ℕ → ℕ → ℕ → ℝ) (i a j : ℕ) :
    open Classical in
    giveReward g cells t rew r i a j =
      if ∃ x ∈ positions g t, a < 4 ∧ cells[i]? = some (x - dir a) ∧ cells[j]? = some x then rew else r i a j := by
  classical
  have inner : ∀ (x : Cell) (r : ℕ → ℕ → ℕ → ℝ) (i a j : ℕ), (List.range 4).foldl (rewardStep cells rew x) r i a j =
      if a < 4 ∧ cells[i]? = some (x - dir a) ∧ cells[j]? = some x then rew else r i a j := by
    intro x r i a j
    rw [foldl_set (rewardStep cells rew x) (fun a' i a j => cells[i]? = some (x - dir a') ∧ a = a' ∧ cells[j]? = some x) (fun _ _ _ => rew)
      (inst := fun _ _ _ _ => inferInstance)]
    · congr 1
      apply propext
      constructor
      · rintro ⟨l, hl, h1, h2, h3⟩
        subst h2
        exact ⟨by simpa using hl, h1, h3⟩
      · rintro ⟨h1, h2, h3⟩
        exact ⟨a, by simpa using h1, h2, rfl, h3⟩
    · intro r a' i a j
      unfold rewardStep
      split
      · simp only [set3, mem_whereEq]
      · rename_i hx
        rw [if_neg]
        rintro ⟨h, _, _⟩
        exact hx (List.mem_of_getElem? h)
  unfold giveReward
  rw [foldl_set _ (fun x i a j => a < 4 ∧ cells[i]? = some (x - dir a) ∧ cells[j]? = some x) (fun _ _ _ => rew)
    (fun r x i a j => inner x r i a j)]

theorem startDist_apply (g : List (List Char)) (cells : List Cell) (k : ℕ) :
    open Classical in
    startDist g cells k = if ∃ x ∈ positions g 'S', cells[k]? = some x then 1 / ((positions g 'S').length : ℝ) else 0 := by
  classical
  have key : ∀ (v : ℝ) (ls : List Cell) (mu : ℕ → ℝ), ls.foldl (fun mu s => setAt mu (whereEq cells s) v) mu k =
      if ∃ x ∈ ls, cells[k]? = some x then v else mu k := by
    intro v ls
    induction ls with
    | nil => intro mu; simp
    | cons x ls ih =>
        intro mu
        rw [List.foldl_cons, ih]
        simp only [setAt, mem_whereEq]
        by_cases h1 : cells[k]? = some x <;> by_cases h2 : ∃ x ∈ ls, cells[k]? = some x <;> simp [h1, h2]
  rw [startDist, key]

/-- The initial distribution sums to one. -/
theorem startDist_isDist {rows : List (List Char)} {cells : List Cell} (hn : Numbering rows cells) (hS : ∃ x, CellAt rows x 'S')
    (n : ℕ) (hle : cells.length ≤ n) : IsDist n (startDist rows cells) := by
  classical
  have hpos : 0 < (positions rows 'S').length := by
    obtain ⟨x, hx⟩ := hS
    exact List.length_pos_of_mem ((mem_positions _ _ _).mpr hx)
  refine ⟨fun k => ?_, fun k hk => ?_, ?_⟩
  · rw [startDist_apply]; split <;> positivity
  · rw [startDist_apply, if_neg]
    rintro ⟨x, _, h⟩
    have := (List.getElem?_eq_some_iff.mp h).1
    omega
  · simp only [startDist_apply]
    rw [← Finset.sum_filter, Finset.sum_const, nsmul_eq_mul]
    have hcard : (Finset.filter (fun k => ∃ x ∈ positions rows 'S', cells[k]? = some x) (Finset.range n)).card =
        (positions rows 'S').length := by
      have hnd : (positions rows 'S').Nodup := nodup_allCells _ _ _
      rw [← List.toFinset_card_of_nodup hnd]
      apply Finset.card_bij (fun k _ => cells.getD k 0)
      · intro k hk
        rw [Finset.mem_filter] at hk
        obtain ⟨_, x, hx, h⟩ := hk
        rw [List.mem_toFinset, List.getD_eq_getElem?_getD, h]
        exact hx
      · intro k hk l hl hkl
        rw [Finset.mem_filter] at hk hl
        obtain ⟨_, x, hx, h⟩ := hk
        obtain ⟨_, y, hy, h'⟩ := hl
        rw [List.getD_eq_getElem?_getD, List.getD_eq_getElem?_getD, h, h'] at hkl
        simp only [Option.getD_some] at hkl
        subst hkl
        obtain ⟨a1, a2⟩ := List.getElem?_eq_some_iff.mp h
        obtain ⟨b1, b2⟩ := List.getElem?_eq_some_iff.mp h'
        exact (List.Nodup.getElem_inj_iff hn.nodup).mp (a2.trans b2.symm)
      · intro x hx
        rw [List.mem_toFinset] at hx
        have hx' := (mem_positions _ _ _).mp hx
        have hc : x ∈ cells := (hn.mem x).mpr ⟨'S', by decide, hx'⟩
        obtain ⟨k, hk, h⟩ := exists_index hc
        refine ⟨k, ?_, ?_⟩
        · rw [Finset.mem_filter, Finset.mem_range]
          exact ⟨by omega, x, hx, h⟩
        · rw [List.getD_eq_getElem?_getD, h]; rfl
    rw [hcard]
    have : ((positions rows 'S').length : ℝ) ≠ 0 := by exact_mod_cast hpos.ne'
    exact mul_one_div_cancel this

theorem isGridWorld_model (rows : List (List Char)) (hS : ∃ x, CellAt rows x 'S') (prob pos neg : ℝ)
    (h0 : 0 ≤ prob) (h1 : prob ≤ 1) (cells : List Cell) (hn : Numbering rows cells) :
    IsGridWorld rows prob pos neg cells cells.length (gridRow rows cells prob) (gridReward rows cells pos neg) (startDist rows cells) := by
  classical
  have hrow : ∀ (i a : ℕ) (x : Cell), cells[i]? = some x → (CellAt rows x '.' ∨ CellAt rows x 'S') →
      gridRow rows cells prob i a = (let js := whereEq cells (move a x)
        if js ≠ [] then setAt (setAt (fun _ => 0) [i] (1 - prob)) js prob else setAt (fun _ => 0) [i] 1) := by
    intro i a x hx hc
    unfold gridRow
    dsimp only
    rw [hx]
    dsimp only
    rw [if_pos (by rw [lookup_iff, lookup_iff]; exact hc), move_eq]
  have hfree : ∀ (i j a : ℕ) (x : Cell), cells[i]? = some x → (CellAt rows x '.' ∨ CellAt rows x 'S') → cells[j]? = some (move a x) →
      gridRow rows cells prob i a = setAt (setAt (fun _ => 0) [i] (1 - prob)) [j] prob ∧ i ≠ j := by
    intro i j a x hx hc hj
    constructor
    · rw [hrow i a x hx hc]
      dsimp only
      rw [whereEq_mem hn.nodup hj, if_pos (by simp)]
    · rintro rfl
      rw [hx] at hj
      exact move_ne a x (Option.some.inj hj).symm
  have hblocked : ∀ (i a : ℕ) (x : Cell), cells[i]? = some x → (CellAt rows x '.' ∨ CellAt rows x 'S') → ¬ Free rows (move a x) →
      gridRow rows cells prob i a = setAt (fun _ => 0) [i] 1 := by
    intro i a x hx hc hf
    rw [hrow i a x hx hc]
    dsimp only
    rw [whereEq_not_mem (by rw [hn.mem]; exact hf), if_neg (by simp)]
  have hr : ∀ i a j, gridReward rows cells pos neg i a j =
      if ∃ y, CellAt rows y '*' ∧ a < 4 ∧ cells[i]? = some (y - dir a) ∧ cells[j]? = some y then neg
      else if ∃ y, CellAt rows y 'G' ∧ a < 4 ∧ cells[i]? = some (y - dir a) ∧ cells[j]? = some y then pos else 0 := by
    intro i a j
    rw [gridReward, giveReward_apply, giveReward_apply]
    simp only [mem_positions]
  refine ⟨⟨hn, rfl⟩, ?_, ?_, ?_, ?_, ?_, ?_, ?_, ?_, ?_, ?_⟩
  · intro i a x hx hc
    have hi : i < cells.length := (List.getElem?_eq_some_iff.mp hx).1
    by_cases hf : Free rows (move a x)
    · obtain ⟨j, hj, hjx⟩ := exists_index ((hn.mem _).mpr hf)
      obtain ⟨e, hne⟩ := hfree i j a x hx hc hjx
      rw [e]
      refine ⟨fun k => ?_, fun k hk => ?_, ?_⟩
      · simp only [setAt]; split; · exact h0
        split <;> linarith
      · simp only [setAt, List.mem_singleton]; rw [if_neg (by omega), if_neg (by omega)]
      · rw [sum_setAt _ _ j hj, sum_setAt _ _ i hi]; simp [setAt, hne.symm]
    · rw [hblocked i a x hx hc hf]
      refine ⟨fun k => ?_, fun k hk => ?_, ?_⟩
      · simp only [setAt]; split <;> norm_num
      · simp only [setAt, List.mem_singleton]; rw [if_neg (by omega)]
      · rw [sum_setAt _ _ i hi]; simp
  · intro i j a x hx hc hj
    obtain ⟨e, hne⟩ := hfree i j a x hx hc hj
    rw [e]
    simp [setAt, hne]
  · intro i a x hx hc hf
    rw [hblocked i a x hx hc hf]
    simp [setAt]
  · intro i a k x hx hc
    unfold gridRow
    dsimp only
    rw [hx]
    dsimp only
    rw [if_neg]
    rw [lookup_iff, lookup_iff]
    rcases hc with hc | hc <;> rintro (h | h) <;> exact absurd (cellAt_unique hc h) (by decide)
  · intro i j a x ha hx hy hG
    rw [hr, if_neg, if_pos]
    · exact ⟨move a x, hG, ha, by rw [hx, move_eq]; simp, hy⟩
    · rintro ⟨y, hy1, _, _, hy2⟩
      rw [hy] at hy2
      rw [← Option.some.inj hy2] at hy1
      exact absurd (cellAt_unique hy1 hG) (by decide)
  · intro i j a x ha hx hy hG
    rw [hr, if_pos]
    exact ⟨move a x, hG, ha, by rw [hx, move_eq]; simp, hy⟩
  · intro i j a x y hx hy hcase
    have hno : ∀ t, t = 'G' ∨ t = '*' → ¬ ∃ z, CellAt rows z t ∧ a < 4 ∧ cells[i]? = some (z - dir a) ∧ cells[j]? = some z := by
      rintro t ht ⟨z, hz1, _, hz2, hz3⟩
      rw [hy] at hz3
      have hz3 := Option.some.inj hz3
      subst hz3
      rw [hx] at hz2
      have hz2 := Option.some.inj hz2
      rcases hcase with hne | hng
      · apply hne
        rw [move_eq, hz2]; simp
      · apply hng
        rcases ht with rfl | rfl
        · exact Or.inl hz1
        · exact Or.inr hz1
    rw [hr, if_neg (hno '*' (Or.inr rfl)), if_neg (hno 'G' (Or.inl rfl))]
  · exact startDist_isDist hn hS _ le_rfl
  · intro i x hx hnS
    rw [startDist_apply, if_neg]
    rintro ⟨y, hy, h⟩
    rw [hx] at h
    rw [← Option.some.inj h, mem_positions] at hy
    exact hnS hy
  · intro i j x y hx hy hxS hyS
    have h : ∀ (i : ℕ) (x : Cell), cells[i]? = some x → CellAt rows x 'S' → startDist rows cells i = 1 / ((positions rows 'S').length : ℝ) := by
      intro i x hx hxS
      rw [startDist_apply, if_pos ⟨x, (mem_positions _ _ _).mpr hxS, hx⟩]
    rw [h i x hx hxS, h j y hy hyS]
    refine ⟨rfl, ?_⟩
    have : 0 < (positions rows 'S').length := List.length_pos_of_mem ((mem_positions _ _ _).mpr hxS)
    positivity

/-- For every rectangular map with a start and a goal, whose lines all end with a newline, the generator of the grid world
succeeds and returns the transition matrix, the rewards and the initial distribution described by `IsGridWorld`. -/
theorem C47_grid (rows : List (List Char)) (hm : IsMap '*' rows) (hS : ∃ x, CellAt rows x 'S') (hG : ∃ x, CellAt rows x 'G')
    (prob pos neg : ℝ) (h0 : 0 ≤ prob) (h1 : prob ≤ 1) :
    ∃ n p r mu cells, generateGrid (textOf rows) prob pos neg = .ok (n, p, r, mu) ∧
      IsGridWorld rows prob pos neg cells n p r mu := by
  refine ⟨_, _, _, _, cellsOf rows, ?_, isGridWorld_model rows hS prob pos neg h0 h1 (cellsOf rows) (numbering_cellsOf rows)⟩
  rw [generateGrid, parse_text '*' (by decide) (by decide) rows hm.markers hS hG]
  dsimp only
  rw [checkMap_ok hm]

example : IsMap '*' ["#####".toList, "#S.*#".toList, "#..G#".toList, "#####".toList] ∧
    (∃ x, CellAt ["#####".toList, "#S.*#".toList, "#..G#".toList, "#####".toList] x 'S') ∧
    (∃ x, CellAt ["#####".toList, "#S.*#".toList, "#..G#".toList, "#####".toList] x 'G') :=
  ⟨⟨by decide, by decide⟩, ⟨_, 1, 1, _, rfl, rfl, rfl⟩, ⟨_, 2, 3, _, rfl, rfl, rfl⟩⟩

end

end Verif.Finite
