/-
C136: episodes in the environments made by the generators.
-/
import Verif.Finite.ModelEpisode
import Verif.Finite.PropsMDP
import Verif.Finite.PropsTaxi
import Mathlib.Algebra.Order.BigOperators.Group.Finset

namespace Verif.Finite

noncomputable section

/-! ### What an episode is -/

/-- `tr` is what happens from `s` with the given actions: every transition starts where the one before ended, and the first absorbing one is the last. -/
def IsTrace : ℕ → List ℕ → List (ℕ × ℕ × ℕ × ℝ × Bool) → Prop
  | _, [], tr => tr = []
  | s, a :: as, tr => ∃ s' r b rest, tr = (s, a, s', r, b) :: rest ∧ (b = true → rest = []) ∧ (b = false → IsTrace s' as rest)

/-- Reset and run: `none` if an exception is raised, otherwise the initial state and the transitions. `u` is the random number of the reset; each input is an action
and the random number of the step. -/
def FEnv.episode (e : FEnv) (u : ℝ) (inputs : List (ℕ × ℝ)) : Option (ℕ × List (ℕ × ℕ × ℕ × ℝ × Bool)) :=
  (e.reset none u 0).bind fun s => (e.mdp.run s inputs).map fun tr => (s, tr)

/-- Actions of the environment and random numbers in [0, 1). -/
def Inputs (nA : ℕ) (u : ℝ) (inputs : List (ℕ × ℝ)) : Prop := 0 ≤ u ∧ u < 1 ∧ ∀ i ∈ inputs, i.1 < nA ∧ 0 ≤ i.2 ∧ i.2 < 1

/-! ### Runs that keep an invariant -/

theorem choice_ok (p : List ℝ) (u : ℝ) (hp : ∀ x ∈ p, 0 ≤ x) (hs : p.sum = 1) (h0 : 0 ≤ u) (h1 : u < 1) :
    ∃ i, choice p u = some i ∧ i < p.length ∧ 0 < p.getD i 0 := by
  obtain ⟨i, e1, -, -, -⟩ := cumsum_take p 0 u hp h0 (by rw [hs]; linarith)
  have hc : choice p u = some i := by rw [choice, if_pos ⟨hs, hp⟩, e1]
  have hi := (C46_choice p u hp hs h0 h1 i).mp hc
  exact ⟨i, hc, hi.1, by linarith [hi.2.1, hi.2.2]⟩

theorem run_inv (m : FiniteMDP) (P : ℕ → Prop) (hP : ∀ s a, P s → a < m.nA → (∀ x ∈ m.p s a, 0 ≤ x) ∧ (m.p s a).sum = 1)
    (hnext : ∀ s a s', P s → a < m.nA → 0 < (m.p s a).getD s' 0 → m.noExit s' = false → P s')
    (s : ℕ) (hs : P s) (inputs : List (ℕ × ℝ)) (hin : ∀ i ∈ inputs, i.1 < m.nA ∧ 0 ≤ i.2 ∧ i.2 < 1) :
    ∃ tr, m.run s inputs = some tr ∧ IsTrace s (inputs.map Prod.fst) tr ∧ ∀ t ∈ tr, P t.1 ∧ t.2.1 < m.nA ∧ 0 < (m.p t.1 t.2.1).getD t.2.2.1 0 ∧
      t.2.2.2.1 = m.r t.1 t.2.1 t.2.2.1 ∧ t.2.2.2.2 = m.noExit t.2.2.1 := by
  induction inputs generalizing s with
  | nil => exact ⟨[], rfl, rfl, by simp⟩
  | cons au rest ih =>
    obtain ⟨a, u⟩ := au
    obtain ⟨ha, h0, h1⟩ := hin (a, u) (by simp)
    obtain ⟨hp, hsum⟩ := hP s a hs ha
    obtain ⟨s', hc, -, hpos⟩ := choice_ok _ u hp hsum h0 h1
    have hst : m.step s a u = some (s', m.r s a s', m.noExit s') := by rw [FiniteMDP.step, hc]
    rw [FiniteMDP.run]
    simp only [hst]
    rcases Bool.eq_false_or_eq_true (m.noExit s') with hb | hb
    · rw [if_pos hb]
      refine ⟨_, rfl, ⟨s', _, true, [], rfl, fun _ => rfl, by simp⟩, ?_⟩
      intro t ht
      rw [List.mem_singleton] at ht
      subst ht
      exact ⟨hs, ha, hpos, rfl, hb.symm⟩
    · rw [if_neg (by simp [hb])]
      obtain ⟨tr, htr, htc, hall⟩ := ih s' (hnext s a s' hs ha hpos hb) (fun i hi => hin i (by simp [hi]))
      refine ⟨_, by rw [htr]; rfl, ⟨s', _, false, tr, rfl, by simp, fun _ => htc⟩, ?_⟩
      intro t ht
      rcases List.mem_cons.mp ht with rfl | ht
      · exact ⟨hs, ha, hpos, rfl, hb.symm⟩
      · exact hall t ht

theorem sum_map_range (n : ℕ) (f : ℕ → ℝ) : ((List.range n).map f).sum = ∑ k ∈ Finset.range n, f k := by
  induction n with
  | zero => simp
  | succ n ih => rw [List.range_succ, List.map_append, List.sum_append, ih, Finset.sum_range_succ]; simp

theorem isDist_row {n : ℕ} {f : ℕ → ℝ} (h : IsDist n f) : (∀ x ∈ (List.range n).map f, 0 ≤ x) ∧ ((List.range n).map f).sum = 1 := by
  refine ⟨?_, by rw [sum_map_range, h.2.2]⟩
  intro x hx
  obtain ⟨k, -, rfl⟩ := List.mem_map.mp hx
  exact h.1 k

theorem getD_row (n : ℕ) (f : ℕ → ℝ) (k : ℕ) (h : 0 < ((List.range n).map f).getD k 0) : k < n ∧ 0 < f k := by
  rw [List.getD_eq_getElem?_getD] at h
  by_cases hk : k < n
  · rw [List.getElem?_map, List.getElem?_range hk] at h
    exact ⟨hk, h⟩
  · rw [List.getElem?_eq_none (by simpa using hk)] at h
    simp at h

/-- A distribution that is spent on some places is zero elsewhere. -/
theorem isDist_zero {n : ℕ} {f : ℕ → ℝ} (h : IsDist n f) (s : Finset ℕ) (hs : 1 ≤ ∑ k ∈ s, f k) (k : ℕ) (hk : k ∉ s) : f k = 0 := by
  by_contra hne
  have hpos : 0 < f k := lt_of_le_of_ne (h.1 k) (Ne.symm hne)
  have hkn : k ∈ Finset.range n := by
    rw [Finset.mem_range]
    by_contra hk'
    exact hne (h.2.1 k (by omega))
  have h1 : ∑ j ∈ insert k s, f j ≤ ∑ j ∈ Finset.range n ∪ s, f j :=
    Finset.sum_le_sum_of_subset_of_nonneg (by
      intro j hj
      rcases Finset.mem_insert.mp hj with rfl | hj
      · exact Finset.mem_union_left _ hkn
      · exact Finset.mem_union_right _ hj) (fun j _ _ => h.1 j)
  have h2 : ∑ j ∈ Finset.range n ∪ s, f j = ∑ j ∈ Finset.range n, f j := by
    symm
    apply Finset.sum_subset Finset.subset_union_left
    intro j _ hj
    apply h.2.1
    simpa using hj
  rw [Finset.sum_insert hk, h2, h.2.2] at h1
  linarith

theorem noExit_of_dist {m : FiniteMDP} {s a : ℕ} (ha : a < m.nA) (h : (m.p s a).sum = 1) : m.noExit s = false := by
  apply decide_eq_false
  intro h'
  rw [List.sum_eq_zero (h' a ha)] at h
  norm_num at h

/-! ### Grid worlds -/

open Classical in
/-- One transition of a grid world, from cell `x` to cell `y`: the agent moves to the neighbour or stays, and stays if the neighbour is a wall or outside of the map.
It is paid for the goals and holes it reaches, which end the episode. An action that always succeeds is always obeyed, one that never succeeds never. -/
structure GridRule (rows : List (List Char)) (prob pos neg : ℝ) (x : Cell) (a : ℕ) (y : Cell) (r : ℝ) (absorbing : Bool) : Prop where
  from_free : CellAt rows x '.' ∨ CellAt rows x 'S'
  to_free : Free rows y
  moves : y = move a x ∨ y = x
  obeyed : prob = 1 → Free rows (move a x) → y = move a x
  ignored : prob = 0 → y = x
  reward : r = if CellAt rows y 'G' then pos else if CellAt rows y '*' then neg else 0
  ends : absorbing = true ↔ CellAt rows y 'G' ∨ CellAt rows y '*'

/-- C136. Episodes of a generated grid world: for every map, the environment is built, a reset puts the agent on a start, and no sequence of actions and random
numbers makes a step raise an exception. The steps follow the rules of the map. -/
theorem C136_grid (rows : List (List Char)) (hm : IsMap '*' rows) (hS : ∃ x, CellAt rows x 'S') (hG : ∃ x, CellAt rows x 'G')
    (prob pos neg : ℝ) (h0 : 0 ≤ prob) (h1 : prob ≤ 1) :
    ∃ env cells, gridEnv (textOf rows) prob pos neg = .ok env ∧ Numbering rows cells ∧ env.mdp.nS = cells.length ∧ env.mdp.nA = 4 ∧
      ∀ u inputs, Inputs 4 u inputs → ∃ s tr, env.episode u inputs = some (s, tr) ∧
        (∃ x, cells[s]? = some x ∧ CellAt rows x 'S') ∧ IsTrace s (inputs.map Prod.fst) tr ∧
        ∀ t ∈ tr, ∃ x y, cells[t.1]? = some x ∧ cells[t.2.2.1]? = some y ∧ GridRule rows prob pos neg x t.2.1 y t.2.2.2.1 t.2.2.2.2 := by
  classical
  obtain ⟨n, p, r, mu, cells, hok, hg⟩ := C47_grid rows hm hS hG prob pos neg h0 h1
  obtain ⟨hnum, hn⟩ := hg.states
  have henv : gridEnv (textOf rows) prob pos neg = .ok ⟨⟨n, 4, fun s a => (List.range n).map (p s a), r⟩, some ((List.range n).map mu)⟩ := by
    rw [gridEnv, hok]
    dsimp only
    rw [newFEnv, if_pos rfl, if_pos]
    intro l hl
    cases hl
    simp
  refine ⟨_, cells, henv, hnum, hn, rfl, ?_⟩
  intro u inputs hin
  obtain ⟨hu0, hu1, hin⟩ := hin
  -- the number of a cell
  have hcell : ∀ k, k < n → ∃ x, cells[k]? = some x ∧ Free rows x := by
    intro k hk
    have hk' : k < cells.length := by omega
    refine ⟨cells[k], List.getElem?_eq_getElem hk', (hnum.mem _).mp (List.getElem_mem hk')⟩
  have hkind : ∀ x, Free rows x → (CellAt rows x '.' ∨ CellAt rows x 'S') ∨ (CellAt rows x 'G' ∨ CellAt rows x '*') := by
    rintro x ⟨ch, hne, hc⟩
    obtain ⟨i, j, row, e1, e2, e3⟩ := hc
    have := hm.markers row (List.mem_of_getElem? e1) ch (List.mem_of_getElem? e2)
    simp only [List.mem_cons, List.not_mem_nil, or_false] at this
    rcases this with rfl | rfl | rfl | rfl | rfl
    · exact absurd rfl hne
    · exact Or.inl (Or.inl ⟨i, j, row, e1, e2, e3⟩)
    · exact Or.inl (Or.inr ⟨i, j, row, e1, e2, e3⟩)
    · exact Or.inr (Or.inl ⟨i, j, row, e1, e2, e3⟩)
    · exact Or.inr (Or.inr ⟨i, j, row, e1, e2, e3⟩)
  -- the reset
  obtain ⟨s, hs, hsn, hspos⟩ := choice_ok _ u (isDist_row hg.start_dist).1 (isDist_row hg.start_dist).2 hu0 hu1
  obtain ⟨hsn, hspos⟩ := getD_row n mu s hspos
  obtain ⟨x0, hx0, hx0f⟩ := hcell s hsn
  have hx0S : CellAt rows x0 'S' := by
    by_contra h
    rw [hg.start_zero s x0 hx0 h] at hspos
    exact lt_irrefl _ hspos
  let m : FiniteMDP := ⟨n, 4, fun s a => (List.range n).map (p s a), r⟩
  let P : ℕ → Prop := fun s => ∃ x, cells[s]? = some x ∧ (CellAt rows x '.' ∨ CellAt rows x 'S')
  have hexit : ∀ (k : ℕ) (y : Cell), cells[k]? = some y → Free rows y → (m.noExit k = true ↔ CellAt rows y 'G' ∨ CellAt rows y '*') := by
    intro k y hk hy
    rcases hkind y hy with h | h
    · have hd := hg.dist k 0 y hk h
      have : m.noExit k = false := noExit_of_dist (a := 0) (show 0 < 4 by decide) (isDist_row hd).2
      rw [this]
      simp only [Bool.false_eq_true, false_iff, not_or]
      rcases h with h | h
      · exact ⟨fun h' => absurd (cellAt_unique h h') (by decide), fun h' => absurd (cellAt_unique h h') (by decide)⟩
      · exact ⟨fun h' => absurd (cellAt_unique h h') (by decide), fun h' => absurd (cellAt_unique h h') (by decide)⟩
    · simp only [h, iff_true]
      apply decide_eq_true
      intro a _ x hx
      obtain ⟨j, -, rfl⟩ := List.mem_map.mp hx
      exact hg.terminal k a j y hk h
  obtain ⟨tr, htr, htc, hall⟩ := run_inv m P
    (fun s a hs _ => by
      obtain ⟨x, hx, hxf⟩ := hs
      exact isDist_row (hg.dist s a x hx hxf))
    (fun s a s' _ _ hpos hne => by
      obtain ⟨hs'n, -⟩ := getD_row n _ s' hpos
      obtain ⟨y, hy, hyf⟩ := hcell s' hs'n
      refine ⟨y, hy, ?_⟩
      rcases hkind y hyf with h | h
      · exact h
      · rw [(hexit s' y hy hyf).mpr h] at hne
        cases hne) s ⟨x0, hx0, Or.inr hx0S⟩ inputs hin
  refine ⟨s, tr, ?_, ⟨x0, hx0, hx0S⟩, htc, ?_⟩
  · simp only [FEnv.episode, FEnv.reset, hs, Option.bind_some]
    rw [show FiniteMDP.run _ s inputs = some tr from htr]
    rfl
  · intro t ht
    obtain ⟨⟨x, hx, hxf⟩, ha, hpos, hr, hb⟩ := hall t ht
    obtain ⟨hs'n, hpos⟩ := getD_row n _ _ hpos
    obtain ⟨y, hy, hyf⟩ := hcell t.2.2.1 hs'n
    refine ⟨x, y, hx, hy, ?_⟩
    have hd := hg.dist t.1 t.2.1 x hx hxf
    -- which cells can be reached
    have hreach : (y = move t.2.1 x ∨ y = x) ∧ (prob = 1 → Free rows (move t.2.1 x) → y = move t.2.1 x) ∧ (prob = 0 → y = x) := by
      by_cases hf : Free rows (move t.2.1 x)
      · obtain ⟨j, hjn, hj⟩ := exists_index ((hnum.mem _).mpr hf)
        obtain ⟨pj, pi⟩ := hg.free t.1 j t.2.1 x hx hxf hj
        have hij : j ≠ t.1 := by
          rintro rfl
          rw [hx] at hj
          exact move_ne _ _ (Option.some.inj hj).symm
        have hor : t.2.2.1 = j ∨ t.2.2.1 = t.1 := by
          by_contra hno
          rw [not_or] at hno
          have := isDist_zero hd {j, t.1} (by rw [Finset.sum_pair hij, pj, pi]; linarith) t.2.2.1 (by simp [hno.1, hno.2])
          rw [this] at hpos
          exact lt_irrefl _ hpos
        refine ⟨?_, ?_, ?_⟩
        · rcases hor with h | h
          · rw [h, hj] at hy; exact Or.inl (Option.some.inj hy).symm
          · rw [h, hx] at hy; exact Or.inr (Option.some.inj hy).symm
        · intro hp _
          rcases hor with h | h
          · rw [h, hj] at hy; exact (Option.some.inj hy).symm
          · rw [h, pi, hp] at hpos; norm_num at hpos
        · intro hp
          rcases hor with h | h
          · rw [h, pj, hp] at hpos; norm_num at hpos
          · rw [h, hx] at hy; exact (Option.some.inj hy).symm
      · have pi := hg.blocked t.1 t.2.1 x hx hxf hf
        have : t.2.2.1 = t.1 := by
          by_contra hno
          have := isDist_zero hd {t.1} (by rw [Finset.sum_singleton, pi]) t.2.2.1 (by simpa using hno)
          rw [this] at hpos
          exact lt_irrefl _ hpos
        rw [this, hx] at hy
        have hyx := (Option.some.inj hy).symm
        exact ⟨Or.inr hyx, fun _ h => absurd h hf, fun _ => hyx⟩
    refine ⟨hxf, hyf, hreach.1, hreach.2.1, hreach.2.2, ?_, ?_⟩
    · rw [hr]
      show r t.1 t.2.1 t.2.2.1 = _
      by_cases hyG : CellAt rows y 'G' ∨ CellAt rows y '*'
      · have hym : y = move t.2.1 x := by
          rcases hreach.1 with h | h
          · exact h
          · exfalso
            rw [h] at hyG
            rcases hyG with hyG | hyG <;> rcases hxf with hxf | hxf <;> exact absurd (cellAt_unique hyG hxf) (by decide)
        subst hym
        by_cases hG' : CellAt rows (move t.2.1 x) 'G'
        · rw [if_pos hG', hg.goal t.1 t.2.2.1 t.2.1 x ha hx hy hG']
        · have hH := hyG.resolve_left hG'
          rw [if_neg hG', if_pos hH, hg.hole t.1 t.2.2.1 t.2.1 x ha hx hy hH]
      · rw [not_or] at hyG
        rw [if_neg hyG.1, if_neg hyG.2]
        exact hg.zero t.1 t.2.2.1 t.2.1 x y hx hy (Or.inr (by rw [not_or]; exact hyG))
    · rw [hb]
      exact hexit _ _ hy hyf

-- The map of `C47_grid`, and a walk to the right.
example : IsMap '*' ["#####".toList, "#S.*#".toList, "#..G#".toList, "#####".toList] ∧ Inputs 4 (1 / 2) [(3, 1 / 2), (1, 0)] :=
  ⟨⟨by decide, by decide⟩, by norm_num, by norm_num, by simp only [List.mem_cons, List.not_mem_nil, or_false]; rintro i (rfl | rfl) <;> norm_num⟩

/-! ### Chains -/

/-- One transition of a chain with `n` states: action 0 goes to the right and action 1 to the left, unless the action fails or the end is reached. Arriving at a goal
is paid, staying there is not, and no transition ends the episode. -/
structure ChainRule (n : ℕ) (goals : List ℕ) (prob rew : ℝ) (s a s' : ℕ) (r : ℝ) (absorbing : Bool) : Prop where
  inside : s < n ∧ s' < n
  moves : s' = s ∨ (a = 0 ∧ s' = s + 1) ∨ (a = 1 ∧ s = s' + 1)
  obeyed : prob = 1 → (a = 0 → s + 1 < n → s' = s + 1) ∧ (a = 1 → s ≠ 0 → s = s' + 1)
  ignored : prob = 0 → s' = s
  reward : r = if s' ∈ goals ∧ s' ≠ s then rew else 0
  endless : absorbing = false

/-- C136. Episodes of a generated chain: every reset without a given state is in the chain, and no sequence of actions and random numbers makes a step raise an
exception or ends the episode. `k` is the number drawn by the reset without a distribution. -/
theorem C136_chain (n : ℕ) (hn : 0 < n) (goals : List ℕ) (hg : ∀ g ∈ goals, g < n) (prob rew : ℝ) (h0 : 0 ≤ prob) (h1 : prob ≤ 1)
    (mu : Option (List ℝ)) (hmu : ∀ l, mu = some l → l.length = n ∧ l.sum = 1 ∧ ∀ x ∈ l, 0 ≤ x) :
    ∃ env, chainEnv n goals prob rew mu = .ok env ∧
      ∀ u k inputs, Inputs 2 u inputs → k < n → ∃ s, env.reset none u k = some s ∧ s < n ∧ (∀ l, mu = some l → 0 < l.getD s 0) ∧ (mu = none → s = k) ∧
        ∃ tr, env.mdp.run s inputs = some tr ∧ IsTrace s (inputs.map Prod.fst) tr ∧ tr.length = inputs.length ∧
          ∀ t ∈ tr, ChainRule n goals prob rew t.1 t.2.1 t.2.2.1 t.2.2.2.1 t.2.2.2.2 := by
  have henv : chainEnv n goals prob rew mu = .ok ⟨⟨n, 2, fun s a => (List.range n).map (chainRow n prob s a), chainReward n goals rew⟩, mu⟩ := by
    rw [chainEnv, if_pos (fun l hl => (hmu l hl).1), newFEnv, if_pos rfl, if_pos (fun l hl => ((hmu l hl).1).symm)]
  refine ⟨_, henv, ?_⟩
  intro u k inputs hin hk
  obtain ⟨hu0, hu1, hin⟩ := hin
  obtain ⟨s, hs, hsn, hsm, hsk⟩ : ∃ s, FEnv.reset ⟨⟨n, 2, fun s a => (List.range n).map (chainRow n prob s a), chainReward n goals rew⟩, mu⟩ none u k = some s ∧
      s < n ∧ (∀ l, mu = some l → 0 < l.getD s 0) ∧ (mu = none → s = k) := by
    cases mu with
    | none => exact ⟨k, by simp [FEnv.reset, hk], hk, by simp, fun _ => rfl⟩
    | some l =>
      obtain ⟨e1, e2, e3⟩ := hmu l rfl
      obtain ⟨i, a1, a2, a3⟩ := choice_ok l u e3 e2 hu0 hu1
      refine ⟨i, a1, by omega, ?_, by simp⟩
      intro l' hl'
      cases hl'
      exact a3
  refine ⟨s, hs, hsn, hsm, hsk, ?_⟩
  let m : FiniteMDP := ⟨n, 2, fun s a => (List.range n).map (chainRow n prob s a), chainReward n goals rew⟩
  have hdist : ∀ s a, s < n → a < 2 → IsDist n (chainRow n prob s a) := by
    intro s a hs ha
    obtain ⟨d0, d1, -⟩ := C47_chain n prob h0 h1 s hs
    have : a = 0 ∨ a = 1 := by omega
    rcases this with rfl | rfl
    · exact d0
    · exact d1
  have hexit : ∀ s, s < n → m.noExit s = false := fun s hs => noExit_of_dist (a := 0) (show 0 < 2 by decide) (isDist_row (hdist s 0 hs (by decide))).2
  obtain ⟨tr, htr, htc, hall⟩ := run_inv m (fun s => s < n) (fun s a hs ha => isDist_row (hdist s a hs ha))
    (fun s a s' _ _ hpos _ => (getD_row n _ s' hpos).1) s hsn inputs hin
  have hrule : ∀ t ∈ tr, ChainRule n goals prob rew t.1 t.2.1 t.2.2.1 t.2.2.2.1 t.2.2.2.2 := by
    intro t ht
    obtain ⟨hs, ha, hpos, hr, hb⟩ := hall t ht
    obtain ⟨hs', hpos⟩ := getD_row n _ _ hpos
    generalize t.1 = i at *
    generalize t.2.1 = a at *
    generalize t.2.2.1 = j at *
    have hd := hdist i a hs ha
    obtain ⟨-, -, c1, c2, c3, c4⟩ := C47_chain n prob h0 h1 i hs
    have ha2 : a = 0 ∨ a = 1 := by
      have : a < 2 := ha
      omega
    have hreach : (j = i ∨ (a = 0 ∧ j = i + 1) ∨ (a = 1 ∧ i = j + 1)) ∧ (prob = 1 → (a = 0 → i + 1 < n → j = i + 1) ∧ (a = 1 → i ≠ 0 → i = j + 1)) ∧
        (prob = 0 → j = i) := by
      -- two places
      have two : ∀ l, l ≠ i → chainRow n prob i a l = prob → chainRow n prob i a i = 1 - prob →
          (j = l ∨ j = i) ∧ (prob = 1 → j = l) ∧ (prob = 0 → j = i) := by
        intro l hl e1 e2
        have hor : j = l ∨ j = i := by
          by_contra hno
          rw [not_or] at hno
          have := isDist_zero hd {l, i} (by rw [Finset.sum_pair hl, e1, e2]; linarith) j (by simp [hno.1, hno.2])
          rw [this] at hpos
          exact lt_irrefl _ hpos
        refine ⟨hor, ?_, ?_⟩
        · intro hp
          rcases hor with h | h
          · exact h
          · rw [h, e2, hp] at hpos; norm_num at hpos
        · intro hp
          rcases hor with h | h
          · rw [h, e1, hp] at hpos; norm_num at hpos
          · exact h
      have one : chainRow n prob i a i = 1 → j = i := by
        intro e
        by_contra hno
        have := isDist_zero hd {i} (by rw [Finset.sum_singleton, e]) j (by simpa using hno)
        rw [this] at hpos
        exact lt_irrefl _ hpos
      rcases ha2 with rfl | rfl
      · by_cases hlast : i + 1 < n
        · obtain ⟨t1, t2, t3⟩ := two (i + 1) (by omega) (c1 hlast).1 (c1 hlast).2
          refine ⟨?_, fun hp => ⟨fun _ _ => t2 hp, by omega⟩, t3⟩
          rcases t1 with h | h
          · exact Or.inr (Or.inl ⟨rfl, h⟩)
          · exact Or.inl h
        · have e := one (c2 (by omega))
          exact ⟨Or.inl e, fun _ => ⟨fun _ h => absurd h hlast, by omega⟩, fun _ => e⟩
      · by_cases hfirst : 0 < i
        · obtain ⟨t1, t2, t3⟩ := two (i - 1) (by omega) (c3 hfirst).1 (c3 hfirst).2
          refine ⟨?_, fun hp => ⟨by omega, fun _ _ => by have := t2 hp; omega⟩, t3⟩
          rcases t1 with h | h
          · exact Or.inr (Or.inr ⟨rfl, by omega⟩)
          · exact Or.inl h
        · have e := one (c4 (by omega))
          exact ⟨Or.inl e, fun _ => ⟨by omega, fun _ h => by omega⟩, fun _ => e⟩
    refine ⟨⟨hs, hs'⟩, hreach.1, hreach.2.1, hreach.2.2, ?_, hb.trans (hexit j hs')⟩
    rw [hr]
    show chainReward n goals rew i a j = _
    classical
    rw [C47_chain_reward n goals rew hg i a j hs]
    have e : (j ∈ goals ∧ (a = 0 ∧ j = i + 1 ∨ a = 1 ∧ i = j + 1)) ↔ (j ∈ goals ∧ j ≠ i) := by
      refine and_congr_right fun _ => ?_
      constructor
      · rintro (⟨_, h⟩ | ⟨_, h⟩) <;> omega
      · intro h
        rcases hreach.1 with h' | h' | h'
        · exact absurd h' h
        · exact Or.inl h'
        · exact Or.inr h'
    by_cases hc : j ∈ goals ∧ j ≠ i
    · rw [if_pos (e.mpr hc), if_pos hc]
    · rw [if_neg (fun h => hc (e.mp h)), if_neg hc]
  have hlen : ∀ (inputs : List ℕ) (s : ℕ) (tr : List (ℕ × ℕ × ℕ × ℝ × Bool)), IsTrace s inputs tr → (∀ t ∈ tr, t.2.2.2.2 = false) → tr.length = inputs.length := by
    intro inputs
    induction inputs with
    | nil => intro s tr h _; rw [show tr = [] from h]; rfl
    | cons a as ih =>
      rintro s tr ⟨s', r, b, rest, rfl, -, h⟩ hb
      have hb0 : b = false := hb _ (List.mem_cons_self)
      rw [List.length_cons, List.length_cons, ih s' rest (h hb0) (fun t ht => hb t (List.mem_cons_of_mem _ ht))]
  refine ⟨tr, htr, htc, ?_, hrule⟩
  rw [hlen _ _ _ htc (fun t ht => (hrule t ht).endless), List.length_map]

example : (∀ g ∈ [2], g < 5) ∧ Inputs 2 0 [(0, 1 / 2)] ∧ ∀ l : List ℝ, none = some l → l.length = 5 ∧ l.sum = 1 ∧ ∀ x ∈ l, 0 ≤ x :=
  ⟨by decide, ⟨by norm_num, by norm_num, by simp only [List.mem_singleton]; rintro i rfl; norm_num⟩, by simp⟩

/-! ### Taxis -/

/-- The taxi can drive on: it is on a road, on a start, or where it has picked up the passenger. -/
def Drives (rows : List (List Char)) (passengers : List Cell) (x : Cell) (v : List ℕ) : Prop :=
  CellAt rows x '.' ∨ CellAt rows x 'S' ∨ ∃ m : ℕ, passengers[m]? = some x ∧ v[m]? = some 1

open Classical in
/-- One transition of a taxi, from cell `x` with the passengers `v` on board to cell `y` with the passengers `w`. The taxi enters the cell ahead or, if the action slips,
one on the side, and stays if it is a wall. Passengers stay on board, and those at the cell are picked up. A goal ends the episode; it is paid
according to the number of passengers if it was ahead. -/
structure TaxiRule (rows : List (List Char)) (passengers : List Cell) (prob : ℝ) (rew : List ℝ) (x : Cell) (v : List ℕ) (a : ℕ) (y : Cell) (w : List ℕ) (r : ℝ)
    (absorbing : Bool) : Prop where
  drives : Drives rows passengers x v
  moves : (y, w) = enter rows passengers x v (move a x) ∨ (y, w) = enter rows passengers x v (slips a x).1 ∨ (y, w) = enter rows passengers x v (slips a x).2
  obeyed : prob = 1 → (y, w) = enter rows passengers x v (move a x)
  on_board : ∀ m : ℕ, v[m]? = some 1 → w[m]? = some 1
  picked_up : ∀ m : ℕ, passengers[m]? = some y → w[m]? = some 1
  reward : r = if CellAt rows y 'G' ∧ y = move a x then rew.getD v.sum 0 else 0
  ends : absorbing = true ↔ CellAt rows y 'G'

theorem enter_drives {rows : List (List Char)} (hm : IsMap 'F' rows) {passengers : List Cell} (hp : ∀ x, x ∈ passengers ↔ CellAt rows x 'F') {x : Cell} {v : List ℕ}
    (hv : v.length = passengers.length) (hx : Drives rows passengers x v) (hF : ∀ m : ℕ, passengers[m]? = some x → v[m]? = some 1) (z : Cell) :
    (Drives rows passengers (enter rows passengers x v z).1 (enter rows passengers x v z).2 ∨ CellAt rows (enter rows passengers x v z).1 'G') ∧
    (∀ m : ℕ, v[m]? = some 1 → (enter rows passengers x v z).2[m]? = some 1) ∧
    (∀ m : ℕ, passengers[m]? = some (enter rows passengers x v z).1 → (enter rows passengers x v z).2[m]? = some 1) := by
  by_cases hz : Free rows z
  · rw [enter, if_pos hz]
    dsimp only
    have hpick : ∀ m : ℕ, passengers[m]? = some z → (pickUp passengers z v)[m]? = some 1 := by
      intro m hmz
      have hlt := (List.getElem?_eq_some_iff.mp hmz).1
      rw [getElem?_pickUp passengers z v hv m, List.getElem?_eq_getElem (by omega : m < v.length)]
      simp [hmz]
    refine ⟨?_, ?_, hpick⟩
    · obtain ⟨ch, hne, i, j, row, e1, e2, e3⟩ := hz
      have := hm.markers row (List.mem_of_getElem? e1) ch (List.mem_of_getElem? e2)
      simp only [List.mem_cons, List.not_mem_nil, or_false] at this
      rcases this with rfl | rfl | rfl | rfl | rfl
      · exact absurd rfl hne
      · exact Or.inl (Or.inl ⟨i, j, row, e1, e2, e3⟩)
      · exact Or.inl (Or.inr (Or.inl ⟨i, j, row, e1, e2, e3⟩))
      · exact Or.inr ⟨i, j, row, e1, e2, e3⟩
      · obtain ⟨k, hk⟩ := List.mem_iff_getElem?.mp ((hp z).mpr ⟨i, j, row, e1, e2, e3⟩)
        exact Or.inl (Or.inr (Or.inr ⟨k, hk, hpick k hk⟩))
    · intro m hm1
      rw [getElem?_pickUp passengers z v hv m, hm1]
      simp
  · rw [enter, if_neg hz]
    exact ⟨Or.inl hx, fun _ h => h, hF⟩

/-- C136. Episodes of a generated taxi problem: for every map with a passenger the environment is built, a reset puts an empty taxi on a start, and no sequence of
actions and random numbers makes a step raise an exception. The steps follow the rules of the taxi. -/
theorem C136_taxi (rows : List (List Char)) (hm : IsMap 'F' rows) (hS : ∃ x, CellAt rows x 'S') (hG : ∃ x, CellAt rows x 'G') (hF : ∃ x, CellAt rows x 'F')
    (prob : ℝ) (rew : List ℝ) (h0 : 0 ≤ prob) (h1 : prob ≤ 1) (hrew : rew.length = (positions rows 'F').length + 1) :
    ∃ env cells passengers loads, taxiEnv (textOf rows) prob rew = .ok env ∧ Numbering rows cells ∧ passengers.Nodup ∧
      (∀ x, x ∈ passengers ↔ CellAt rows x 'F') ∧ Loads passengers.length loads ∧ env.mdp.nS = cells.length * loads.length ∧ env.mdp.nA = 4 ∧
      ∀ u inputs, Inputs 4 u inputs → ∃ s tr, env.episode u inputs = some (s, tr) ∧
        (∃ x v, StateIs cells loads s x v ∧ CellAt rows x 'S' ∧ ∀ b ∈ v, b = 0) ∧ IsTrace s (inputs.map Prod.fst) tr ∧
        ∀ t ∈ tr, ∃ x v y w, StateIs cells loads t.1 x v ∧ StateIs cells loads t.2.2.1 y w ∧
          TaxiRule rows passengers prob rew x v t.2.1 y w t.2.2.2.1 t.2.2.2.2 := by
  classical
  obtain ⟨n, p, r, mu, cells, passengers, loads, hok, hg⟩ := C47_taxi rows hm hS hG hF prob rew h0 h1 hrew
  obtain ⟨hnum, hpn, hpm, hl, hn⟩ := hg.states
  have henv : taxiEnv (textOf rows) prob rew = .ok ⟨⟨n, 4, fun s a => (List.range n).map (p s a), r⟩, some ((List.range n).map mu)⟩ := by
    rw [taxiEnv, hok]
    dsimp only
    rw [newFEnv, if_pos rfl, if_pos]
    intro l hl
    cases hl
    simp
  refine ⟨_, cells, passengers, loads, henv, hnum, hpn, hpm, hl, hn, rfl, ?_⟩
  intro u inputs hin
  obtain ⟨hu0, hu1, hin⟩ := hin
  have hstate : ∀ k, k < n → ∃ x v, StateIs cells loads k x v := by
    intro k hk
    rw [hn] at hk
    have hpos : 0 < cells.length := by
      rcases Nat.eq_zero_or_pos cells.length with h | h
      · rw [h, Nat.zero_mul] at hk; omega
      · exact h
    exact ⟨_, _, List.getElem?_eq_getElem (Nat.mod_lt _ hpos), List.getElem?_eq_getElem (Nat.div_lt_of_lt_mul hk)⟩
  have hvlen : ∀ {k x v}, StateIs cells loads k x v → v.length = passengers.length := fun h => ((hl.mem _).mp (List.mem_of_getElem? h.2)).1
  -- the reset
  obtain ⟨s, hs, -, hspos⟩ := choice_ok _ u (isDist_row hg.start_dist).1 (isDist_row hg.start_dist).2 hu0 hu1
  obtain ⟨hsn, hspos⟩ := getD_row n mu s hspos
  obtain ⟨x0, v0, hs0⟩ := hstate s hsn
  have hx0 : CellAt rows x0 'S' ∧ ∀ b ∈ v0, b = 0 := by
    by_contra h
    rw [hg.start_zero s x0 v0 hs0 h] at hspos
    exact lt_irrefl _ hspos
  let m : FiniteMDP := ⟨n, 4, fun s a => (List.range n).map (p s a), r⟩
  let P : ℕ → Prop := fun s => ∃ x v, StateIs cells loads s x v ∧ Drives rows passengers x v ∧ ∀ m : ℕ, passengers[m]? = some x → v[m]? = some 1
  have hdrivesG : ∀ x v, Drives rows passengers x v → ¬ CellAt rows x 'G' := by
    rintro x v (h | h | ⟨k, hk, -⟩) hG'
    · exact absurd (cellAt_unique h hG') (by decide)
    · exact absurd (cellAt_unique h hG') (by decide)
    · exact absurd (cellAt_unique ((hpm x).mp (List.mem_of_getElem? hk)) hG') (by decide)
  have hexit : ∀ (k : ℕ) (y : Cell) (w : List ℕ), StateIs cells loads k y w → (Drives rows passengers y w ∨ CellAt rows y 'G') →
      (m.noExit k = true ↔ CellAt rows y 'G') := by
    intro k y w hk h
    rcases h with h | h
    · have hd := hg.dist k 0 y w hk h
      have : m.noExit k = false := noExit_of_dist (a := 0) (show 0 < 4 by decide) (isDist_row hd).2
      rw [this]
      simp only [Bool.false_eq_true, false_iff]
      exact hdrivesG y w h
    · simp only [h, iff_true]
      apply decide_eq_true
      intro a _ x hx
      obtain ⟨j, -, rfl⟩ := List.mem_map.mp hx
      exact hg.terminal k a j y w hk h
  -- what can be reached from a state
  have hreach : ∀ s a s' x v, StateIs cells loads s x v → Drives rows passengers x v → 0 < ((List.range n).map (p s a)).getD s' 0 →
      ∃ y w, StateIs cells loads s' y w ∧ ((y, w) = enter rows passengers x v (move a x) ∨ (y, w) = enter rows passengers x v (slips a x).1 ∨
        (y, w) = enter rows passengers x v (slips a x).2) ∧ (prob = 1 → (y, w) = enter rows passengers x v (move a x)) := by
    intro s a s' x v hs hd hpos
    obtain ⟨-, hpos⟩ := getD_row n _ _ hpos
    obtain ⟨j, j', j'', t0, t1, t2, e⟩ := hg.moves s a x v hs hd
    rw [e] at hpos
    by_cases c0 : s' = j
    · subst c0
      exact ⟨_, _, t0, Or.inl rfl, fun _ => rfl⟩
    · rw [if_neg c0] at hpos
      have hp1 : prob ≠ 1 := by
        rintro rfl
        simp at hpos
      by_cases c1 : s' = j'
      · subst c1
        exact ⟨_, _, t1, Or.inr (Or.inl rfl), fun h => absurd h hp1⟩
      · rw [if_neg c1] at hpos
        by_cases c2 : s' = j''
        · subst c2
          exact ⟨_, _, t2, Or.inr (Or.inr rfl), fun h => absurd h hp1⟩
        · rw [if_neg c2] at hpos
          simp at hpos
  have henter : ∀ x v y w a, v.length = passengers.length → Drives rows passengers x v → (∀ m : ℕ, passengers[m]? = some x → v[m]? = some 1) →
      ((y, w) = enter rows passengers x v (move a x) ∨ (y, w) = enter rows passengers x v (slips a x).1 ∨ (y, w) = enter rows passengers x v (slips a x).2) →
      (Drives rows passengers y w ∨ CellAt rows y 'G') ∧ (∀ m : ℕ, v[m]? = some 1 → w[m]? = some 1) ∧
        (∀ m : ℕ, passengers[m]? = some y → w[m]? = some 1) := by
    intro x v y w a hv hd hx h
    have key : ∀ z, (y, w) = enter rows passengers x v z → (Drives rows passengers y w ∨ CellAt rows y 'G') ∧ (∀ m : ℕ, v[m]? = some 1 → w[m]? = some 1) ∧
        (∀ m : ℕ, passengers[m]? = some y → w[m]? = some 1) := by
      intro z hz
      have := enter_drives hm hpm hv hd hx z
      rw [← hz] at this
      exact this
    rcases h with h | h | h
    · exact key _ h
    · exact key _ h
    · exact key _ h
  obtain ⟨tr, htr, htc, hall⟩ := run_inv m P
    (fun s a hs _ => by
      obtain ⟨x, v, hx, hd, -⟩ := hs
      exact isDist_row (hg.dist s a x v hx hd))
    (fun s a s' hs _ hpos hne => by
      obtain ⟨x, v, hx, hd, hF'⟩ := hs
      obtain ⟨y, w, hy, hmv, -⟩ := hreach s a s' x v hx hd hpos
      obtain ⟨e1, -, e3⟩ := henter x v y w a (hvlen hx) hd hF' hmv
      refine ⟨y, w, hy, ?_, e3⟩
      rcases e1 with h | h
      · exact h
      · rw [(hexit s' y w hy (Or.inr h)).mpr h] at hne
        cases hne) s
    ⟨x0, v0, hs0, Or.inr (Or.inl hx0.1), fun k hk => absurd (cellAt_unique ((hpm x0).mp (List.mem_of_getElem? hk)) hx0.1) (by decide)⟩ inputs hin
  refine ⟨s, tr, ?_, ⟨x0, v0, hs0, hx0.1, hx0.2⟩, htc, ?_⟩
  · simp only [FEnv.episode, FEnv.reset, hs, Option.bind_some]
    rw [show FiniteMDP.run _ s inputs = some tr from htr]
    rfl
  · intro t ht
    obtain ⟨⟨x, v, hx, hd, hF'⟩, ha, hpos, hr, hb⟩ := hall t ht
    obtain ⟨y, w, hy, hmv, hob⟩ := hreach _ _ _ x v hx hd hpos
    obtain ⟨e1, e2, e3⟩ := henter x v y w _ (hvlen hx) hd hF' hmv
    refine ⟨x, v, y, w, hx, hy, hd, hmv, hob, e2, e3, ?_, ?_⟩
    · rw [hr]
      show r t.1 t.2.1 t.2.2.1 = _
      by_cases hyG : CellAt rows y 'G' ∧ y = move t.2.1 x
      · rw [if_pos hyG]
        obtain ⟨hyG, hym⟩ := hyG
        have hw : w = v := by
          have key : ∀ z, (y, w) = enter rows passengers x v z → w = v := by
            intro z hz
            unfold enter at hz
            split at hz
            · have h1 : y = z := congrArg Prod.fst hz
              have h2 : w = pickUp passengers z v := congrArg Prod.snd hz
              rw [h2]
              apply pickUp_same _ hpn _ _ (hvlen hx)
              left
              rw [← h1, hpm]
              intro hF2
              exact absurd (cellAt_unique hF2 hyG) (by decide)
            · exact congrArg Prod.snd hz
          rcases hmv with h | h | h
          · exact key _ h
          · exact key _ h
          · exact key _ h
        subst hw
        subst hym
        exact (hg.goal t.1 t.2.2.1 t.2.1 x w ha hx hy hyG).1
      · rw [if_neg hyG]
        apply hg.zero t.1 t.2.2.1 t.2.1 x y v w hx hy
        by_cases c : y = move t.2.1 x
        · exact Or.inr (Or.inr (fun h => hyG ⟨h, c⟩))
        · exact Or.inl c
    · rw [hb]
      exact hexit _ _ _ hy e1

-- A map with one passenger.
example : IsMap 'F' ["S.F".toList, "#.G".toList] ∧ (∃ x, CellAt ["S.F".toList, "#.G".toList] x 'F') ∧
    [(0 : ℝ), 1].length = (positions ["S.F".toList, "#.G".toList] 'F').length + 1 :=
  ⟨⟨by decide, by decide⟩, ⟨_, 0, 2, _, rfl, rfl, rfl⟩, rfl⟩

end

end Verif.Finite
