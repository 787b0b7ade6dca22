/-
C47 for the taxi and C48 (every line of a map file is used).
-/
import Verif.Finite.PropsGen

namespace Verif.Finite

noncomputable section

/-! ### Passenger states -/

theorem mem_passengerStates (k : ℕ) (v : List ℕ) :
    v ∈ passengerStates k ↔ v.length = k ∧ ∀ b ∈ v, b = 0 ∨ b = 1 := by
  induction k generalizing v with
  | zero =>
      rw [passengerStates, List.mem_singleton]
      constructor
      · rintro rfl; simp
      · rintro ⟨h, _⟩; exact List.eq_nil_of_length_eq_zero h
  | succ k ih =>
      rw [passengerStates, List.mem_append, List.mem_map, List.mem_map]
      constructor
      · rintro (⟨w, hw, rfl⟩ | ⟨w, hw, rfl⟩) <;>
        · obtain ⟨h1, h2⟩ := (ih w).mp hw
          refine ⟨by simp [h1], ?_⟩
          intro b hb
          rcases List.mem_cons.mp hb with rfl | hb
          · simp
          · exact h2 b hb
      · rintro ⟨h1, h2⟩
        cases v with
        | nil => simp at h1
        | cons b w =>
            have hw := (ih w).mpr ⟨by simpa using h1, fun c hc => h2 c (by simp [hc])⟩
            rcases h2 b (by simp) with rfl | rfl
            · exact Or.inl ⟨w, hw, rfl⟩
            · exact Or.inr ⟨w, hw, rfl⟩

theorem nodup_passengerStates (k : ℕ) : (passengerStates k).Nodup := by
  induction k with
  | zero => simp [passengerStates]
  | succ k ih =>
      rw [passengerStates, List.nodup_append]
      refine ⟨ih.map (fun a b h => by simpa using h), ih.map (fun a b h => by simpa using h), ?_⟩
      intro x hx y hy hxy
      subst hxy
      rw [List.mem_map] at hx hy
      obtain ⟨_, _, rfl⟩ := hx
      obtain ⟨_, _, h⟩ := hy
      simp at h

theorem length_passengerStates (k : ℕ) : (passengerStates k).length = 2 ^ k := by
  induction k with
  | zero => rfl
  | succ k ih => rw [passengerStates, List.length_append, List.length_map, List.length_map, ih]; ring

theorem loads_passengerStates (k : ℕ) : Loads k (passengerStates k) := ⟨nodup_passengerStates k, mem_passengerStates k⟩

/-! ### Picking up -/

theorem mem_collected (passengers : List Cell) (v : List ℕ) (y : Cell) :
    y ∈ collected passengers v ↔ ∃ m : ℕ, passengers[m]? = some y ∧ v[m]? = some 1 := by
  rw [collected, List.mem_map]
  constructor
  · rintro ⟨⟨p, b⟩, h, rfl⟩
    rw [List.mem_filter] at h
    obtain ⟨h1, h2⟩ := h
    obtain ⟨m, hm⟩ := List.mem_iff_getElem?.mp h1
    rw [List.getElem?_zip_eq_some] at hm
    refine ⟨m, hm.1, ?_⟩
    rw [hm.2]
    simpa using h2
  · rintro ⟨m, h1, h2⟩
    refine ⟨(y, 1), ?_, rfl⟩
    rw [List.mem_filter]
    refine ⟨?_, by simp⟩
    rw [List.mem_iff_getElem?]
    exact ⟨m, by rw [List.getElem?_zip_eq_some]; exact ⟨h1, h2⟩⟩

theorem getElem?_pickUp (passengers : List Cell) (y : Cell) (v : List ℕ) (hv : v.length = passengers.length) (m : ℕ) :
    (pickUp passengers y v)[m]? = (v[m]?).map (fun b => if passengers[m]? = some y then 1 else b) := by
  rw [pickUp, List.getElem?_zipWith]
  by_cases hm : m < v.length
  · rw [List.getElem?_eq_getElem hm, List.getElem?_eq_getElem (by omega : m < passengers.length)]
    simp
  · rw [List.getElem?_eq_none (by omega : v.length ≤ m), List.getElem?_eq_none (by omega : passengers.length ≤ m)]
    simp

theorem length_pickUp (passengers : List Cell) (y : Cell) (v : List ℕ) (hv : v.length = passengers.length) :
    (pickUp passengers y v).length = passengers.length := by simp [pickUp, hv]

theorem bits_pickUp (passengers : List Cell) (y : Cell) (v : List ℕ) (hv : v.length = passengers.length)
    (hb : ∀ b ∈ v, b = 0 ∨ b = 1) : ∀ b ∈ pickUp passengers y v, b = 0 ∨ b = 1 := by
  intro b hbm
  obtain ⟨m, hm⟩ := List.mem_iff_getElem?.mp hbm
  rw [getElem?_pickUp passengers y v hv m, Option.map_eq_some_iff] at hm
  obtain ⟨c, hc, h⟩ := hm
  split at h
  · exact Or.inr h.symm
  · rw [← h]; exact hb c (List.mem_of_getElem? hc)

/-- Nothing happens at a cell without a passenger or with one that was already collected. -/
theorem pickUp_same (passengers : List Cell) (hp : passengers.Nodup) (y : Cell) (v : List ℕ) (hv : v.length = passengers.length)
    (h : y ∉ passengers ∨ y ∈ collected passengers v) : pickUp passengers y v = v := by
  apply List.ext_getElem?
  intro m
  rw [getElem?_pickUp passengers y v hv m]
  cases hvm : v[m]? with
  | none => rfl
  | some b =>
      simp only [Option.map_some]
      congr 1
      split
      · rename_i hm
        rcases h with h | h
        · exact absurd (List.mem_of_getElem? hm) h
        · rw [mem_collected] at h
          obtain ⟨m', h1, h2⟩ := h
          obtain ⟨a1, a2⟩ := List.getElem?_eq_some_iff.mp hm
          obtain ⟨b1, b2⟩ := List.getElem?_eq_some_iff.mp h1
          have : m = m' := (List.Nodup.getElem_inj_iff hp).mp (a2.trans b2.symm)
          subst this
          rw [hvm] at h2
          exact (Option.some.inj h2).symm
      · rfl

/-- The new passenger vector of the code. -/
theorem pickUp_add (passengers : List Cell) (y : Cell) (v : List ℕ) (hv : v.length = passengers.length)
    (hb : ∀ b ∈ v, b = 0 ∨ b = 1) (h : y ∉ collected passengers v) :
    List.zipWith (· + ·) v (passengers.map (fun p => if p = y then 1 else 0)) = pickUp passengers y v := by
  apply List.ext_getElem?
  intro m
  rw [getElem?_pickUp passengers y v hv m, List.getElem?_zipWith, List.getElem?_map]
  by_cases hm : m < v.length
  · have hm' : m < passengers.length := by omega
    rw [List.getElem?_eq_getElem hm, List.getElem?_eq_getElem hm']
    simp only [Option.map_some, Option.some.injEq]
    split
    · rename_i hy
      rcases hb _ (List.getElem_mem hm) with h0 | h1
      · rw [h0]
      · exfalso
        apply h
        rw [mem_collected]
        exact ⟨m, by rw [List.getElem?_eq_getElem hm', hy], by rw [List.getElem?_eq_getElem hm, h1]⟩
    · rfl
  · rw [List.getElem?_eq_none (by omega : v.length ≤ m), List.getElem?_eq_none (by omega : passengers.length ≤ m)]
    rfl

/-! ### Targets -/

/-- State `i` of the taxi is at cell `x` with passengers `v` on board. -/
def StateIs (cells : List Cell) (loads : List (List ℕ)) (i : ℕ) (x : Cell) (v : List ℕ) : Prop :=
  cells[i % cells.length]? = some x ∧ loads[i / cells.length]? = some v

theorem stateIs_index {cells : List Cell} {loads : List (List ℕ)} {j k : ℕ} {x : Cell} {v : List ℕ} (hj : cells[j]? = some x)
    (hk : loads[k]? = some v) : StateIs cells loads (j + cells.length * k) x v ∧ j + cells.length * k < cells.length * loads.length := by
  have h1 := (List.getElem?_eq_some_iff.mp hj).1
  have h2 := (List.getElem?_eq_some_iff.mp hk).1
  refine ⟨⟨?_, ?_⟩, ?_⟩
  · rw [Nat.add_mul_mod_self_left, Nat.mod_eq_of_lt h1]; exact hj
  · rw [Nat.add_mul_div_left _ _ (by omega), Nat.div_eq_of_lt h1, Nat.zero_add]; exact hk
  · calc j + cells.length * k < cells.length + cells.length * k := by omega
      _ = cells.length * (k + 1) := by ring
      _ ≤ cells.length * loads.length := Nat.mul_le_mul_left _ h2

theorem stateIs_unique {cells : List Cell} {loads : List (List ℕ)} (hc : cells.Nodup) (hl : loads.Nodup) {i j : ℕ} {x : Cell}
    {v : List ℕ} (hi : StateIs cells loads i x v) (hj : StateIs cells loads j x v) : i = j := by
  obtain ⟨a1, a2⟩ := hi
  obtain ⟨b1, b2⟩ := hj
  obtain ⟨c1, c2⟩ := List.getElem?_eq_some_iff.mp a1
  obtain ⟨d1, d2⟩ := List.getElem?_eq_some_iff.mp b1
  obtain ⟨e1, e2⟩ := List.getElem?_eq_some_iff.mp a2
  obtain ⟨f1, f2⟩ := List.getElem?_eq_some_iff.mp b2
  have m1 : i % cells.length = j % cells.length := (List.Nodup.getElem_inj_iff hc).mp (c2.trans d2.symm)
  have m2 : i / cells.length = j / cells.length := (List.Nodup.getElem_inj_iff hl).mp (e2.trans f2.symm)
  rw [← Nat.div_add_mod i cells.length, ← Nat.div_add_mod j cells.length, m1, m2]

theorem stateIs_lt {cells : List Cell} {loads : List (List ℕ)} {i : ℕ} {x : Cell} {v : List ℕ} (h : StateIs cells loads i x v) :
    i < cells.length * loads.length := by
  have h1 := (List.getElem?_eq_some_iff.mp h.2).1
  have h2 := (List.getElem?_eq_some_iff.mp h.1).1
  rw [Nat.mul_comm]
  exact (Nat.div_lt_iff_lt_mul (by omega)).mp h1

theorem taxiTarget_spec (rows : List (List Char)) (cells : List Cell) (hn : Numbering rows cells) (i : ℕ) (x y : Cell) (v : List ℕ)
    (hi : StateIs cells (passengerStates (positions rows 'F').length) i x v) :
    ∃ j, taxiTarget rows cells (positions rows 'F') i y = [j] ∧
      StateIs cells (passengerStates (positions rows 'F').length) j (enter rows (positions rows 'F') x v y).1
        (enter rows (positions rows 'F') x v y).2 := by
  have hv := (mem_passengerStates _ _).mp (List.mem_of_getElem? hi.2)
  have hpn : (positions rows 'F').Nodup := nodup_allCells _ _ _
  unfold taxiTarget enter
  dsimp only
  rw [List.getD_eq_getElem?_getD, hi.2, Option.getD_some]
  by_cases hf : Free rows y
  · obtain ⟨j, hj, hjy⟩ := exists_index ((hn.mem _).mpr hf)
    rw [whereEq_mem hn.nodup hjy, if_pos (by simp), if_pos hf]
    split
    · rename_i hF
      rw [pickUp_add _ _ _ hv.1 hv.2 hF.2]
      have hmem : pickUp (positions rows 'F') y v ∈ passengerStates (positions rows 'F').length :=
        (mem_passengerStates _ _).mpr ⟨length_pickUp _ _ _ hv.1, bits_pickUp _ _ _ hv.1 hv.2⟩
      obtain ⟨k, hk, hkv⟩ := exists_index hmem
      rw [whereEq_mem (nodup_passengerStates _) hkv]
      exact ⟨j + cells.length * k, by simp, (stateIs_index hjy hkv).1⟩
    · rename_i hF
      rw [pickUp_same _ hpn _ _ hv.1]
      · exact ⟨j + cells.length * (i / cells.length), by simp, (stateIs_index hjy hi.2).1⟩
      · by_cases hy : y ∈ positions rows 'F'
        · right
          by_contra hc
          exact hF ⟨(lookup_iff _ _ _).mpr ((mem_positions _ _ _).mp hy), hc⟩
        · exact Or.inl hy
  · rw [whereEq_not_mem (by rw [hn.mem]; exact hf), if_neg (by simp), if_neg hf]
    exact ⟨i, rfl, hi⟩

theorem slips_eq (a : ℕ) (x : Cell) :
    slips a x = (x + ((1 - |(dir a).1|, 1 - |(dir a).2|) : Cell), x + -((1 - |(dir a).1|, 1 - |(dir a).2|) : Cell)) := by
  obtain ⟨r, c⟩ := x
  match a with
  | 0 => simp [slips, dir, sub_eq_add_neg]
  | 1 => simp [slips, dir, sub_eq_add_neg]
  | 2 => simp [slips, dir, sub_eq_add_neg]
  | _ + 3 => simp [slips, dir, sub_eq_add_neg]

/-- What the taxi generator must produce for the map `rows`. -/
structure IsTaxi (rows : List (List Char)) (prob : ℝ) (rew : List ℝ) (cells passengers : List Cell) (loads : List (List ℕ)) (n : ℕ)
    (p r : ℕ → ℕ → ℕ → ℝ) (mu : ℕ → ℝ) : Prop where
  /-- one state for each free cell and set of passengers -/
  states : Numbering rows cells ∧ passengers.Nodup ∧ (∀ x, x ∈ passengers ↔ CellAt rows x 'F') ∧ Loads passengers.length loads ∧
    n = cells.length * loads.length
  /-- where the taxi can drive, the rows are distributions -/
  dist : ∀ (i a : ℕ) (x : Cell) (v : List ℕ), StateIs cells loads i x v →
    (CellAt rows x '.' ∨ CellAt rows x 'S' ∨ ∃ m : ℕ, passengers[m]? = some x ∧ v[m]? = some 1) → IsDist n (p i a)
  /-- the transition succeeds with probability `prob` and slips to each side with half of the rest -/
  moves : ∀ (i a : ℕ) (x : Cell) (v : List ℕ), StateIs cells loads i x v →
    (CellAt rows x '.' ∨ CellAt rows x 'S' ∨ ∃ m : ℕ, passengers[m]? = some x ∧ v[m]? = some 1) →
    ∃ j j' j'', StateIs cells loads j (enter rows passengers x v (move a x)).1 (enter rows passengers x v (move a x)).2 ∧
      StateIs cells loads j' (enter rows passengers x v (slips a x).1).1 (enter rows passengers x v (slips a x).1).2 ∧
      StateIs cells loads j'' (enter rows passengers x v (slips a x).2).1 (enter rows passengers x v (slips a x).2).2 ∧
      ∀ k, p i a k = (if k = j then prob else 0) + (if k = j' then (1 - prob) / 2 else 0) + (if k = j'' then (1 - prob) / 2 else 0)
  /-- goals are terminal -/
  terminal : ∀ (i a k : ℕ) (x : Cell) (v : List ℕ), StateIs cells loads i x v → CellAt rows x 'G' → p i a k = 0
  /-- driving into a goal gives the reward of the number of passengers on board -/
  goal : ∀ (i j a : ℕ) (x : Cell) (v : List ℕ), a < 4 → StateIs cells loads i x v → StateIs cells loads j (move a x) v →
    CellAt rows (move a x) 'G' → r i a j = rew.getD v.sum 0 ∧ v.sum < rew.length
  /-- everything else gives zero -/
  zero : ∀ (i j a : ℕ) (x y : Cell) (v w : List ℕ), StateIs cells loads i x v → StateIs cells loads j y w →
    (y ≠ move a x ∨ w ≠ v ∨ ¬ CellAt rows y 'G') → r i a j = 0
  /-- the initial distribution is uniform over the 'S' cells, without passengers -/
  start_dist : IsDist n mu
  start_zero : ∀ (i : ℕ) (x : Cell) (v : List ℕ), StateIs cells loads i x v → ¬ (CellAt rows x 'S' ∧ ∀ b ∈ v, b = 0) → mu i = 0
  start_uniform : ∀ (i j : ℕ) (x y : Cell) (v w : List ℕ), StateIs cells loads i x v → StateIs cells loads j y w →
    CellAt rows x 'S' → CellAt rows y 'S' → (∀ b ∈ v, b = 0) → (∀ b ∈ w, b = 0) → mu i = mu j ∧ 0 < mu i

open Classical in
theorem taxiReward_apply (g : List (List Char)) (cells : List Cell) (k : ℕ) (rew : ℕ → ℝ) (i a j : ℕ) :
    taxiReward g cells k rew i a j =
      if ∃ x, CellAt g x 'G' ∧ a < 4 ∧ ∃ m < 2 ^ k, ∃ i' j', cells[i']? = some (x - dir a) ∧ cells[j']? = some x ∧
        i = i' + cells.length * m ∧ j = j' + cells.length * m
      then rew ((passengerStates k).getD (j / cells.length) []).sum else 0 := by
  classical
  have step : ∀ goal a' (r : ℕ → ℕ → ℕ → ℝ) (m i a j : ℕ), taxiRewardStep cells k rew goal a' r m i a j =
      if ∃ i' j', cells[i']? = some (goal - dir a') ∧ cells[j']? = some goal ∧ i = i' + cells.length * m ∧ j = j' + cells.length * m ∧ a = a'
      then rew ((passengerStates k).getD (j / cells.length) []).sum else r i a j := by
    intro goal a' r m i a j
    unfold taxiRewardStep set3
    simp only [List.mem_map, mem_whereEq]
    by_cases h : ∃ i' j', cells[i']? = some (goal - dir a') ∧ cells[j']? = some goal ∧ i = i' + cells.length * m ∧ j = j' + cells.length * m ∧ a = a'
    · rw [if_pos h]
      obtain ⟨i', j', h1, h2, h3, h4, h5⟩ := h
      rw [if_pos ⟨⟨i', h1, h3.symm⟩, h5, ⟨j', h2, h4.symm⟩⟩]
      have hlt := (List.getElem?_eq_some_iff.mp h2).1
      have : j / cells.length = m := by rw [h4, Nat.add_mul_div_left _ _ (by omega), Nat.div_eq_of_lt hlt, Nat.zero_add]
      rw [this]
    · rw [if_neg h, if_neg]
      rintro ⟨⟨i', h1, h3⟩, h5, ⟨j', h2, h4⟩⟩
      exact h ⟨i', j', h1, h2, h3.symm, h4.symm, h5⟩
  have act : ∀ goal (r : ℕ → ℕ → ℕ → ℝ) (a' i a j : ℕ), taxiRewardAction cells k rew goal r a' i a j =
      if ∃ m < 2 ^ k, ∃ i' j', cells[i']? = some (goal - dir a') ∧ cells[j']? = some goal ∧ i = i' + cells.length * m ∧ j = j' + cells.length * m ∧ a = a'
      then rew ((passengerStates k).getD (j / cells.length) []).sum else r i a j := by
    intro goal r a' i a j
    unfold taxiRewardAction
    split
    · rw [foldl_set _ _ _ (step goal a')]
      simp only [List.mem_range, length_passengerStates]
    · rename_i hx
      rw [if_neg]
      rintro ⟨m, _, i', j', h, _⟩
      exact hx (List.mem_of_getElem? h)
  have inner : ∀ (r : ℕ → ℕ → ℕ → ℝ) goal (i a j : ℕ), (List.range 4).foldl (taxiRewardAction cells k rew goal) r i a j =
      if a < 4 ∧ ∃ m < 2 ^ k, ∃ i' j', cells[i']? = some (goal - dir a) ∧ cells[j']? = some goal ∧ i = i' + cells.length * m ∧ j = j' + cells.length * m
      then rew ((passengerStates k).getD (j / cells.length) []).sum else r i a j := by
    intro r goal i a j
    rw [foldl_set _ _ _ (act goal)]
    congr 1
    apply propext
    constructor
    · rintro ⟨l, hl, m, hm, i', j', h1, h2, h3, h4, h5⟩
      subst h5
      exact ⟨by simpa using hl, m, hm, i', j', h1, h2, h3, h4⟩
    · rintro ⟨h, m, hm, i', j', h1, h2, h3, h4⟩
      exact ⟨a, by simpa using h, m, hm, i', j', h1, h2, h3, h4, rfl⟩
  unfold taxiReward
  rw [foldl_set _ _ _ inner]
  simp only [mem_positions]

theorem zero_index (k : ℕ) : (passengerStates k)[0]? = some (List.replicate k 0) := by
  induction k with
  | zero => rfl
  | succ k ih =>
      rw [passengerStates, List.getElem?_append_left, List.getElem?_map, ih]
      · rfl
      · rw [List.length_map, length_passengerStates]; positivity

theorem sum_le_length (v : List ℕ) (hb : ∀ b ∈ v, b = 0 ∨ b = 1) : v.sum ≤ v.length := by
  induction v with
  | nil => simp
  | cons b v ih =>
      have := ih (fun c hc => hb c (by simp [hc]))
      rcases hb b (by simp) with rfl | rfl <;> simp <;> omega

theorem isTaxi_model (rows : List (List Char)) (hS : ∃ x, CellAt rows x 'S') (prob : ℝ) (rew : List ℝ)
    (h0 : 0 ≤ prob) (h1 : prob ≤ 1) (hrew : rew.length = (positions rows 'F').length + 1) (cells : List Cell) (hn : Numbering rows cells) :
    IsTaxi rows prob rew cells (positions rows 'F') (passengerStates (positions rows 'F').length)
      (cells.length * 2 ^ (positions rows 'F').length) (taxiRow rows cells (positions rows 'F') prob)
      (taxiReward rows cells (positions rows 'F').length (fun k => rew.getD k 0)) (startDist rows cells) := by
  classical
  have hlen := length_passengerStates (positions rows 'F').length
  have hmoves : ∀ (i a : ℕ) (x : Cell) (v : List ℕ), StateIs cells (passengerStates (positions rows 'F').length) i x v →
      (CellAt rows x '.' ∨ CellAt rows x 'S' ∨ ∃ m : ℕ, (positions rows 'F')[m]? = some x ∧ v[m]? = some 1) →
      ∃ j j' j'', StateIs cells (passengerStates (positions rows 'F').length) j (enter rows (positions rows 'F') x v (move a x)).1 (enter rows (positions rows 'F') x v (move a x)).2 ∧
        StateIs cells (passengerStates (positions rows 'F').length) j' (enter rows (positions rows 'F') x v (slips a x).1).1 (enter rows (positions rows 'F') x v (slips a x).1).2 ∧
        StateIs cells (passengerStates (positions rows 'F').length) j'' (enter rows (positions rows 'F') x v (slips a x).2).1 (enter rows (positions rows 'F') x v (slips a x).2).2 ∧
        taxiRow rows cells (positions rows 'F') prob i a =
          addAt (addAt (setAt (fun _ => 0) [j] prob) [j'] ((1 - prob) * (1 / 2))) [j''] ((1 - prob) * (1 / 2)) := by
    intro i a x v hi hc
    obtain ⟨j, hj, hj1⟩ := taxiTarget_spec rows cells hn i x (move a x) v hi
    obtain ⟨j', hj', hj1'⟩ := taxiTarget_spec rows cells hn i x (slips a x).1 v hi
    obtain ⟨j'', hj'', hj1''⟩ := taxiTarget_spec rows cells hn i x (slips a x).2 v hi
    refine ⟨j, j', j'', hj1, hj1', hj1'', ?_⟩
    rw [slips_eq] at hj' hj''
    rw [move_eq] at hj
    dsimp only at hj' hj''
    unfold taxiRow
    dsimp only
    rw [hi.1]
    dsimp only
    rw [List.getD_eq_getElem?_getD, hi.2, Option.getD_some, hj, hj', hj'']
    rw [if_pos, if_neg]
    · rintro ⟨hF, hnc⟩
      rw [lookup_iff] at hF
      rcases hc with hc | hc | hc
      · exact absurd (cellAt_unique hF hc) (by decide)
      · exact absurd (cellAt_unique hF hc) (by decide)
      · exact hnc ((mem_collected _ _ _).mpr hc)
    · rw [lookup_iff, lookup_iff, lookup_iff]
      rcases hc with hc | hc | ⟨m, hc, _⟩
      · exact Or.inl hc
      · exact Or.inr (Or.inl hc)
      · exact Or.inr (Or.inr ((mem_positions _ _ _).mp (List.mem_of_getElem? hc)))
  refine ⟨⟨hn, nodup_allCells _ _ _, fun x => mem_positions _ _ _, loads_passengerStates _, by rw [hlen]⟩, ?_, ?_, ?_, ?_, ?_, ?_, ?_, ?_⟩
  · intro i a x v hi hc
    obtain ⟨j, j', j'', s1, s2, s3, e⟩ := hmoves i a x v hi hc
    have l1 := stateIs_lt s1
    have l2 := stateIs_lt s2
    have l3 := stateIs_lt s3
    rw [hlen] at l1 l2 l3
    rw [e]
    refine ⟨fun k => ?_, fun k hk => ?_, ?_⟩
    · have : 0 ≤ (1 - prob) * (1 / 2) := by linarith
      simp only [addAt, setAt]
      split <;> split <;> split <;> linarith
    · simp only [addAt, setAt, List.mem_singleton]
      rw [if_neg (by omega), if_neg (by omega), if_neg (by omega)]
    · rw [sum_addAt _ _ j'' l3, sum_addAt _ _ j' l2, sum_setAt _ _ j l1]
      simp only [Finset.sum_const_zero]
      ring
  · intro i a x v hi hc
    obtain ⟨j, j', j'', s1, s2, s3, e⟩ := hmoves i a x v hi hc
    refine ⟨j, j', j'', s1, s2, s3, fun k => ?_⟩
    rw [e]
    simp only [addAt, setAt, List.mem_singleton]
    split <;> split <;> split <;> ring
  · intro i a k x v hi hG
    unfold taxiRow
    dsimp only
    rw [hi.1]
    dsimp only
    rw [if_neg]
    rw [lookup_iff, lookup_iff, lookup_iff]
    rintro (h | h | h) <;> exact absurd (cellAt_unique hG h) (by decide)
  · intro i j a x v ha hi hj hG
    have hv := (mem_passengerStates _ _).mp (List.mem_of_getElem? hi.2)
    have hjj := hj.2
    have hii := hi.2
    have hij : i / cells.length = j / cells.length := by
      obtain ⟨e1, e2⟩ := List.getElem?_eq_some_iff.mp hii
      obtain ⟨f1, f2⟩ := List.getElem?_eq_some_iff.mp hjj
      exact (List.Nodup.getElem_inj_iff (nodup_passengerStates _)).mp (e2.trans f2.symm)
    refine ⟨?_, ?_⟩
    · rw [taxiReward_apply, if_pos]
      · rw [List.getD_eq_getElem?_getD (l := passengerStates _), hjj, Option.getD_some]
      · refine ⟨move a x, hG, ha, j / cells.length, ?_, i % cells.length, j % cells.length, ?_, hj.1, ?_, ?_⟩
        · rw [← hlen]; exact (List.getElem?_eq_some_iff.mp hjj).1
        · rw [hi.1, move_eq]; simp
        · rw [← hij, Nat.mod_add_div]
        · rw [Nat.mod_add_div]
    · have := sum_le_length v hv.2
      omega
  · intro i j a x y v w hi hj hcase
    rw [taxiReward_apply, if_neg]
    rintro ⟨z, hz, ha, m, hm, i', j', h1, h2, h3, h4⟩
    have hmm : m < (passengerStates (positions rows 'F').length).length := by rw [hlen]; exact hm
    obtain ⟨si, _⟩ := stateIs_index (loads := passengerStates (positions rows 'F').length) h1 (List.getElem?_eq_getElem hmm)
    obtain ⟨sj, _⟩ := stateIs_index (loads := passengerStates (positions rows 'F').length) h2 (List.getElem?_eq_getElem hmm)
    rw [← h3] at si
    rw [← h4] at sj
    have ey : y = z := by have := hj.1.symm.trans sj.1; exact Option.some.inj this
    have ex : x = z - dir a := by have := hi.1.symm.trans si.1; exact Option.some.inj this
    have ev := Option.some.inj (hi.2.symm.trans si.2)
    have ew := Option.some.inj (hj.2.symm.trans sj.2)
    rcases hcase with h | h | h
    · apply h; rw [move_eq, ex, ey]; simp
    · exact h (ew.trans ev.symm)
    · rw [ey] at h; exact h hz
  · apply startDist_isDist hn hS
    exact Nat.le_mul_of_pos_right _ (by positivity)
  · intro i x v hi hno
    rw [startDist_apply, if_neg]
    rintro ⟨y, hy, h⟩
    have hlt := (List.getElem?_eq_some_iff.mp h).1
    have e1 := hi.1
    have e2 := hi.2
    rw [Nat.mod_eq_of_lt hlt, h] at e1
    rw [Nat.div_eq_of_lt hlt, zero_index] at e2
    apply hno
    rw [← Option.some.inj e1, ← Option.some.inj e2]
    refine ⟨(mem_positions _ _ _).mp hy, ?_⟩
    intro b hb
    exact List.eq_of_mem_replicate hb
  · have key : ∀ (i : ℕ) (x : Cell) (v : List ℕ), StateIs cells (passengerStates (positions rows 'F').length) i x v → CellAt rows x 'S' →
        (∀ b ∈ v, b = 0) → startDist rows cells i = 1 / ((positions rows 'S').length : ℝ) := by
      intro i x v hi hx hz
      rw [startDist_apply, if_pos]
      have hv := (mem_passengerStates _ _).mp (List.mem_of_getElem? hi.2)
      have hrep : v = List.replicate (positions rows 'F').length 0 := by
        rw [List.eq_replicate_iff]; exact ⟨hv.1, hz⟩
      have hd : i / cells.length = 0 := by
        obtain ⟨e1, e2⟩ := List.getElem?_eq_some_iff.mp hi.2
        obtain ⟨f1, f2⟩ := List.getElem?_eq_some_iff.mp (zero_index (positions rows 'F').length)
        rw [hrep] at e2
        exact (List.Nodup.getElem_inj_iff (nodup_passengerStates _)).mp (e2.trans f2.symm)
      have hpos : 0 < cells.length := by
        have := (List.getElem?_eq_some_iff.mp hi.1).1
        omega
      have hlt : i < cells.length := by
        rcases Nat.div_eq_zero_iff.mp hd with h | h
        · omega
        · exact h
      have := hi.1
      rw [Nat.mod_eq_of_lt hlt] at this
      exact ⟨x, (mem_positions _ _ _).mpr hx, this⟩
    intro i j x y v w hi hj hx hy hv hw
    rw [key i x v hi hx hv, key j y w hj hy hw]
    refine ⟨rfl, ?_⟩
    have : 0 < (positions rows 'S').length := List.length_pos_of_mem ((mem_positions _ _ _).mpr hx)
    positivity

/-- For every rectangular map with a start and a goal, whose lines all end with a newline, at least one passenger
and one reward for each number of passengers, the generator of the taxi succeeds and returns the matrices described by `IsTaxi`. -/
theorem C47_taxi (rows : List (List Char)) (hm : IsMap 'F' rows) (hS : ∃ x, CellAt rows x 'S') (hG : ∃ x, CellAt rows x 'G')
    (hF : ∃ x, CellAt rows x 'F') (prob : ℝ) (rew : List ℝ) (h0 : 0 ≤ prob) (h1 : prob ≤ 1) (hrew : rew.length = (positions rows 'F').length + 1) :
    ∃ n p r mu cells passengers loads, generateTaxi (textOf rows) prob rew = .ok (n, p, r, mu) ∧
      IsTaxi rows prob rew cells passengers loads n p r mu := by
  refine ⟨_, _, _, _, cellsOf rows, positions rows 'F', passengerStates (positions rows 'F').length, ?_,
    isTaxi_model rows hS prob rew h0 h1 hrew (cellsOf rows) (numbering_cellsOf rows)⟩
  rw [generateTaxi, parse_text 'F' (by decide) (by decide) rows hm.markers hS hG]
  dsimp only
  have hne : positions rows 'F' ≠ [] := by
    obtain ⟨x, hx⟩ := hF
    exact List.ne_nil_of_mem ((mem_positions _ _ _).mpr hx)
  rw [if_pos hrew, if_neg (fun h => hne h.1), checkMap_ok hm]

example : IsMap 'F' ["S.F".toList, "#.G".toList] ∧ (∃ x, CellAt ["S.F".toList, "#.G".toList] x 'S') ∧
    (∃ x, CellAt ["S.F".toList, "#.G".toList] x 'G') ∧ (∃ x, CellAt ["S.F".toList, "#.G".toList] x 'F') ∧ [(0 : ℝ), 1].length = (positions ["S.F".toList, "#.G".toList] 'F').length + 1 :=
  ⟨⟨by decide, by decide⟩, ⟨_, 0, 0, _, rfl, rfl, rfl⟩, ⟨_, 1, 2, _, rfl, rfl, rfl⟩, ⟨_, 0, 2, _, rfl, rfl, rfl⟩, rfl⟩

/-- Without a passenger the generator raises an exception for every map. -/
theorem C47_taxi_empty_refuted (rows : List (List Char)) (hm : IsMap 'F' rows) (hS : ∃ x, CellAt rows x 'S') (hG : ∃ x, CellAt rows x 'G')
    (hF : ¬ ∃ x, CellAt rows x 'F') (prob : ℝ) (rew : List ℝ) : ∃ e, generateTaxi (textOf rows) prob rew = .error e := by
  have hp : positions rows 'F' = [] := by
    rw [List.eq_nil_iff_forall_not_mem]
    intro x hx
    exact hF ⟨x, (mem_positions _ _ _).mp hx⟩
  rw [generateTaxi, parse_text 'F' (by decide) (by decide) rows hm.markers hS hG]
  dsimp only
  have hr : rows.Pairwise (fun a b => a.length = b.length) := by
    rw [List.pairwise_iff_getElem]
    intro i j hi hj _
    exact hm.rectangular _ (List.getElem_mem hi) _ (List.getElem_mem hj)
  split
  · rw [if_pos ⟨hp, hr⟩]
    exact ⟨_, rfl⟩
  · exact ⟨_, rfl⟩

example : IsMap 'F' ["S.G".toList] ∧ (∃ x, CellAt ["S.G".toList] x 'S') ∧ (∃ x, CellAt ["S.G".toList] x 'G') ∧ ¬ ∃ x, CellAt ["S.G".toList] x 'F' := by
  refine ⟨⟨by decide, by decide⟩, ⟨_, 0, 0, _, rfl, rfl, rfl⟩, ⟨_, 0, 2, _, rfl, rfl, rfl⟩, ?_⟩
  rintro ⟨x, hx⟩
  have h := (mem_positions _ _ _).mpr hx
  rw [show positions ["S.G".toList] 'F' = [] from rfl] at h
  exact List.not_mem_nil h

/-- When the action slips into a goal the transition has positive probability and its reward is zero. -/
theorem slip_reward {rows : List (List Char)} {prob : ℝ} {rew : List ℝ} {cells passengers : List Cell} {loads : List (List ℕ)} {n : ℕ}
    {p r : ℕ → ℕ → ℕ → ℝ} {mu : ℕ → ℝ} (h : IsTaxi rows prob rew cells passengers loads n p r mu) (h0 : 0 ≤ prob) (h1 : prob < 1)
    {i a : ℕ} {x : Cell} {v : List ℕ} (hi : StateIs cells loads i x v) (hx : CellAt rows x '.' ∨ CellAt rows x 'S')
    (hG : CellAt rows (slips a x).1 'G') : ∃ j, StateIs cells loads j (slips a x).1 v ∧ 0 < p i a j ∧ r i a j = 0 := by
  obtain ⟨j, j', j'', t0, t1, t2, e⟩ := h.moves i a x v hi (by rcases hx with h | h; exacts [Or.inl h, Or.inr (Or.inl h)])
  have hfree : Free rows (slips a x).1 := ⟨'G', by decide, hG⟩
  obtain ⟨_, hpn, hpm, hl, _⟩ := h.states
  have hv := (hl.mem v).mp (List.mem_of_getElem? hi.2)
  have hsame : pickUp passengers (slips a x).1 v = v := by
    apply pickUp_same _ hpn _ _ hv.1
    left
    rw [hpm]
    intro hF
    exact absurd (cellAt_unique hF hG) (by decide)
  rw [enter, if_pos hfree, hsame] at t1
  refine ⟨j', t1, ?_, ?_⟩
  · rw [e]
    have : 0 < (1 - prob) / 2 := by linarith
    rw [if_pos rfl]
    split <;> split <;> linarith
  · apply h.zero i j' a x _ v v hi t1
    left
    obtain ⟨r', c'⟩ := x
    match a with
    | 0 => simp [slips, move]
    | 1 => simp [slips, move]
    | 2 => simp [slips, move]
    | _ + 3 => simp [slips, move]

/-- The documented reward "obtained in goal states" is not obtained by every transition into a goal: a generated taxi problem
has a transition with positive probability into a state at the goal, with one passenger on board, whose reward is zero although
the documented one is 3. -/
theorem C47_taxi_slip_refuted :
    ∃ n p r mu cells passengers loads i j a, generateTaxi (textOf ["SG".toList, "F.".toList]) (9 / 10) [1, 3] = .ok (n, p, r, mu) ∧
      IsTaxi ["SG".toList, "F.".toList] (9 / 10) [1, 3] cells passengers loads n p r mu ∧
      StateIs cells loads j (0, 1) [1] ∧ CellAt ["SG".toList, "F.".toList] (0, 1) 'G' ∧ 0 < p i a j ∧ r i a j = 0 := by
  have hm : IsMap 'F' ["SG".toList, "F.".toList] := ⟨by decide, by decide⟩
  have hS : CellAt ["SG".toList, "F.".toList] (0, 0) 'S' := ⟨0, 0, _, rfl, rfl, rfl⟩
  have hG : CellAt ["SG".toList, "F.".toList] (0, 1) 'G' := ⟨0, 1, _, rfl, rfl, rfl⟩
  have hF : CellAt ["SG".toList, "F.".toList] (1, 0) 'F' := ⟨1, 0, _, rfl, rfl, rfl⟩
  obtain ⟨n, p, r, mu, cells, passengers, loads, hok, ht⟩ := C47_taxi _ hm ⟨_, hS⟩ ⟨_, hG⟩ ⟨_, hF⟩ (9 / 10) [1, 3] (by norm_num) (by norm_num) (by rfl)
  obtain ⟨hn, hpn, hpm, hl, _⟩ := ht.states
  have hlen : passengers.length = 1 := by
    have hp : passengers = [(1, 0)] := by
      match hpl : passengers with
      | [] => exact absurd ((hpm (1, 0)).mpr hF) (by simp)
      | x :: xs =>
          have only : ∀ y ∈ x :: xs, y = ((1, 0) : Cell) := by
            intro y hy
            have h1 := (hpm y).mp hy
            have h2 : y ∈ positions ["SG".toList, "F.".toList] 'F' := (mem_positions _ _ _).mpr h1
            have h3 : positions ["SG".toList, "F.".toList] 'F' = [(1, 0)] := by rfl
            rw [h3] at h2
            simpa using h2
          cases xs with
          | nil => rw [only x (by simp)]
          | cons y ys =>
              rw [only x (by simp), only y (by simp)] at hpn
              simp at hpn
    rw [hp]; rfl
  have hload : [1] ∈ loads := (hl.mem [1]).mpr ⟨by rw [hlen]; rfl, by simp⟩
  obtain ⟨k, _, hk⟩ := exists_index hload
  obtain ⟨c, _, hc⟩ := exists_index ((hn.mem (0, 0)).mpr ⟨'S', by decide, hS⟩)
  obtain ⟨hi, _⟩ := stateIs_index hc hk
  obtain ⟨j, hj, hp, hr⟩ := slip_reward ht (by norm_num) (by norm_num) (a := 0) hi (Or.inr hS) (by simpa [slips] using hG)
  exact ⟨n, p, r, mu, cells, passengers, loads, _, j, 0, hok, ht, by simpa [slips] using hj, hG, hp, hr⟩

/-! ### C48 -/

/-- Every row of the map is used when every line ends with a newline: the generator succeeds, and the states are the free cells
of all the rows. -/
theorem C48_newline (rows : List (List Char)) (hm : IsMap '*' rows) (hS : ∃ x, CellAt rows x 'S') (hG : ∃ x, CellAt rows x 'G')
    (prob pos neg : ℝ) :
    ∃ n p r mu cells, generateGrid (textOf rows) prob pos neg = .ok (n, p, r, mu) ∧ Numbering rows cells ∧ n = cells.length := by
  refine ⟨(cellsOf rows).length, gridRow rows (cellsOf rows) prob, gridReward rows (cellsOf rows) pos neg, startDist rows (cellsOf rows),
    cellsOf rows, ?_, numbering_cellsOf rows, rfl⟩
  rw [generateGrid, parse_text '*' (by decide) (by decide) rows hm.markers hS hG]
  dsimp only
  rw [checkMap_ok hm]

theorem allCells_append (keep : Char → Bool) (r : ℤ) (rows : List (List Char)) (last : List Char) :
    allCells keep r (rows ++ [last]) = allCells keep r rows ++ rowCells keep (r + rows.length) 0 last := by
  induction rows generalizing r with
  | nil => simp [allCells]
  | cons row rows ih =>
      have e : r + 1 + (rows.length : ℤ) = r + (rows.length + 1) := by ring
      simp [allCells, ih, e]

theorem mem_text {ch : Char} {rows : List (List Char)} (h : ∃ x, CellAt rows x ch) : ch ∈ textOf rows := by
  obtain ⟨x, i, j, row, h1, h2, _⟩ := h
  rw [textOf, List.mem_flatMap]
  exact ⟨row, List.mem_of_getElem? h1, by simp [List.mem_of_getElem? h2]⟩

theorem cellAt_append {ch : Char} {x : Cell} {rows : List (List Char)} {last : List Char} (h : CellAt (rows ++ [last]) x ch) :
    CellAt rows x ch ∨ ch ∈ last := by
  obtain ⟨i, j, row, h1, h2, h3⟩ := h
  rw [List.getElem?_append] at h1
  split at h1
  · exact Or.inl ⟨i, j, row, h1, h2, h3⟩
  · right
    have hmem := List.mem_of_getElem? h1
    rw [List.mem_singleton] at hmem
    subst hmem
    exact List.mem_of_getElem? h2

theorem parse_last (special : Char) (hsp : special ≠ '#') (hnl : special ≠ '\n') (rows : List (List Char)) (last : List Char)
    (hrows : ∀ row ∈ rows ++ [last], ∀ ch ∈ row, ch ∈ ['#', '.', 'S', 'G', special])
    (hS : ∃ x, CellAt (rows ++ [last]) x 'S') (hG : ∃ x, CellAt (rows ++ [last]) x 'G') :
    parseGrid special (textOf rows ++ last) = .ok (rows, cellsOf (rows ++ [last]), positions (rows ++ [last]) special) := by
  have hmem : ∀ ch, (∃ x, CellAt (rows ++ [last]) x ch) → ch ∈ textOf rows ++ last := by
    rintro ch ⟨x, hx⟩
    rw [List.mem_append]
    rcases cellAt_append hx with h | h
    · exact Or.inl (mem_text ⟨x, h⟩)
    · exact Or.inr h
  rw [parseGrid, if_pos ⟨hmem _ hS, hmem _ hG⟩]
  have h1 := parse_rows special hsp hnl rows last ⟨[], [], [], [], 0, 0⟩ ⟨rfl, rfl⟩ (fun row hr => hrows row (by simp [hr]))
  have h2 := fun st => parse_row special hsp last [] st (hrows last (by simp))
  rw [h1]
  have h2 := h2 ({ rows := [] ++ rows, cells := [] ++ allCells (fun c => decide (c ≠ '#')) 0 rows, specials := [] ++ allCells (fun c => decide (c = special)) 0 rows, row := [], rowIdx := 0 + (rows.length : ℤ), colIdx := 0 } : Parse)
  rw [List.append_nil] at h2
  simp only at h2 ⊢
  rw [h2]
  simp [parseLoop, cellsOf, positions, allCells_append]

/-- Without a newline at the end of the file the last row is not part of the map although its cells are states: for every map
whose last row has a cell that is not a wall the generator raises an index error. -/
theorem C48_no_newline_refuted (rows : List (List Char)) (last : List Char) (hm : IsMap '*' (rows ++ [last]))
    (hS : ∃ x, CellAt (rows ++ [last]) x 'S') (hG : ∃ x, CellAt (rows ++ [last]) x 'G') (hlast : ∃ ch ∈ last, ch ≠ '#')
    (prob pos neg : ℝ) : generateGrid (textOf rows ++ last) prob pos neg = .error .index := by
  rw [generateGrid, parse_last '*' (by decide) (by decide) rows last hm.markers hS hG]
  dsimp only
  have : checkMap rows (cellsOf (rows ++ [last])) = .error .index := by
    unfold checkMap
    rw [if_neg, if_neg]
    · rw [Bool.not_eq_true, List.all_eq_false]
      obtain ⟨ch, hch, hne⟩ := hlast
      obtain ⟨j, hj⟩ := List.mem_iff_getElem?.mp hch
      refine ⟨((rows.length : ℤ), (j : ℤ)), ?_, ?_⟩
      · rw [mem_cellsOf]
        exact ⟨ch, hne, rows.length, j, last, by simp, hj, rfl⟩
      · simp [lookup]
    · rw [not_not, List.pairwise_iff_getElem]
      intro i j hi hj _
      exact hm.rectangular _ (by simp) _ (by simp)
  rw [this]

example : IsMap '*' (["S.".toList] ++ ["G.".toList]) ∧ (∃ x, CellAt (["S.".toList] ++ ["G.".toList]) x 'S') ∧
    (∃ x, CellAt (["S.".toList] ++ ["G.".toList]) x 'G') ∧ ∃ ch ∈ "G.".toList, ch ≠ '#' :=
  ⟨⟨by decide, by decide⟩, ⟨_, 0, 0, _, rfl, rfl, rfl⟩, ⟨_, 1, 0, _, rfl, rfl, rfl⟩, 'G', by decide, by decide⟩

/-- If the last row contains only walls, nothing is lost. -/
theorem C48_no_newline_partial (rows : List (List Char)) (last : List Char) (hm : IsMap '*' (rows ++ [last]))
    (hS : ∃ x, CellAt (rows ++ [last]) x 'S') (hG : ∃ x, CellAt (rows ++ [last]) x 'G') (hlast : ∀ ch ∈ last, ch = '#')
    (prob pos neg : ℝ) :
    ∃ n p r mu cells, generateGrid (textOf rows ++ last) prob pos neg = .ok (n, p, r, mu) ∧ Numbering (rows ++ [last]) cells ∧
      n = cells.length := by
  refine ⟨(cellsOf (rows ++ [last])).length, gridRow rows (cellsOf (rows ++ [last])) prob,
    gridReward rows (cellsOf (rows ++ [last])) pos neg, startDist rows (cellsOf (rows ++ [last])), cellsOf (rows ++ [last]), ?_,
    numbering_cellsOf _, rfl⟩
  rw [generateGrid, parse_last '*' (by decide) (by decide) rows last hm.markers hS hG]
  dsimp only
  have hnone : ∀ (r c : ℤ), rowCells (fun c => decide (c ≠ '#')) r c last = [] := by
    intro r c
    rw [List.eq_nil_iff_forall_not_mem]
    intro x hx
    rw [mem_rowCells] at hx
    obtain ⟨j, ch, h1, h2, _⟩ := hx
    rw [hlast ch (List.mem_of_getElem? h1)] at h2
    simp at h2
  have e : cellsOf (rows ++ [last]) = cellsOf rows := by
    rw [cellsOf, allCells_append, hnone, List.append_nil]; rfl
  rw [e, checkMap_ok (special := '*') ⟨fun row h => hm.markers row (by simp [h]), fun a ha b hb => hm.rectangular a (by simp [ha]) b (by simp [hb])⟩]

example : IsMap '*' (["SG".toList] ++ ["##".toList]) ∧ ∀ ch ∈ "##".toList, ch = '#' := ⟨⟨by decide, by decide⟩, by decide⟩

end

end Verif.Finite
