/-
Lemmas about the generators: parsing, cells and matrices.
-/
import Verif.Finite.Spec
import Mathlib.Data.List.Nodup
import Mathlib.Data.List.Perm.Basic
import Mathlib.Algebra.BigOperators.Fin
import Mathlib.Tactic.Linarith
import Mathlib.Tactic.Ring
import Mathlib.Tactic.NormNum

namespace Verif.Finite

noncomputable section

/-! ### Cells -/

theorem mem_rowCells (keep : Char → Bool) (r c : ℤ) (row : List Char) (x : Cell) :
    x ∈ rowCells keep r c row ↔ ∃ (j : ℕ) (ch : Char), row[j]? = some ch ∧ keep ch = true ∧ x = (r, c + j) := by
  induction row generalizing c with
  | nil => simp [rowCells]
  | cons ch cs ih =>
      have hsplit : (∃ (j : ℕ) (ch' : Char), (ch :: cs)[j]? = some ch' ∧ keep ch' = true ∧ x = (r, c + j)) ↔
          (keep ch = true ∧ x = (r, c)) ∨
            ∃ (j : ℕ) (ch' : Char), cs[j]? = some ch' ∧ keep ch' = true ∧ x = (r, c + 1 + j) := by
        constructor
        · rintro ⟨j, ch', h1, h2, h3⟩
          cases j with
          | zero => left; simp at h1; subst h1; exact ⟨h2, by simpa using h3⟩
          | succ j => right; exact ⟨j, ch', by simpa using h1, h2, by rw [h3]; push_cast; congr 1; ring⟩
        · rintro (⟨h1, h2⟩ | ⟨j, ch', h1, h2, h3⟩)
          · exact ⟨0, ch, by simp, h1, by simpa using h2⟩
          · exact ⟨j + 1, ch', by simpa using h1, h2, by rw [h3]; push_cast; congr 1; ring⟩
      rw [hsplit, ← ih, rowCells]
      by_cases h : keep ch = true
      · rw [if_pos h, List.mem_cons]; simp [h]
      · rw [if_neg h]; simp [h]

theorem nodup_rowCells (keep : Char → Bool) (r c : ℤ) (row : List Char) : (rowCells keep r c row).Nodup := by
  induction row generalizing c with
  | nil => simp [rowCells]
  | cons ch cs ih =>
      rw [rowCells]
      split
      · rw [List.nodup_cons]
        refine ⟨?_, ih _⟩
        rw [mem_rowCells]
        rintro ⟨j, _, _, _, h⟩
        simp only [Prod.mk.injEq, true_and] at h
        omega
      · exact ih _

theorem mem_allCells (keep : Char → Bool) (r : ℤ) (rows : List (List Char)) (x : Cell) :
    x ∈ allCells keep r rows ↔ ∃ (i j : ℕ) (row : List Char) (ch : Char), rows[i]? = some row ∧ row[j]? = some ch ∧
      keep ch = true ∧ x = (r + i, (j : ℤ)) := by
  induction rows generalizing r with
  | nil => simp [allCells]
  | cons row rows ih =>
      rw [allCells, List.mem_append, mem_rowCells, ih]
      constructor
      · rintro (⟨j, ch, h1, h2, h3⟩ | ⟨i, j, row', ch, h1, h2, h3, h4⟩)
        · exact ⟨0, j, row, ch, by simp, h1, h2, by simpa using h3⟩
        · exact ⟨i + 1, j, row', ch, by simpa using h1, h2, h3, by rw [h4]; push_cast; congr 1; ring⟩
      · rintro ⟨i, j, row', ch, h1, h2, h3, h4⟩
        cases i with
        | zero =>
            left
            simp at h1; subst h1
            exact ⟨j, ch, h2, h3, by simpa using h4⟩
        | succ i => right; exact ⟨i, j, row', ch, by simpa using h1, h2, h3, by rw [h4]; push_cast; congr 1; ring⟩

theorem nodup_allCells (keep : Char → Bool) (r : ℤ) (rows : List (List Char)) : (allCells keep r rows).Nodup := by
  induction rows generalizing r with
  | nil => simp [allCells]
  | cons row rows ih =>
      rw [allCells, List.nodup_append]
      refine ⟨nodup_rowCells _ _ _ _, ih _, ?_⟩
      intro x hx y hy hxy
      subst hxy
      rw [mem_rowCells] at hx
      rw [mem_allCells] at hy
      obtain ⟨_, _, _, _, h1⟩ := hx
      obtain ⟨i, _, _, _, _, _, _, h2⟩ := hy
      rw [h1] at h2
      simp only [Prod.mk.injEq] at h2
      omega

theorem mem_positions (g : List (List Char)) (t : Char) (x : Cell) : x ∈ positions g t ↔ CellAt g x t := by
  rw [positions, mem_allCells]
  constructor
  · rintro ⟨i, j, row, ch, h1, h2, h3, h4⟩
    have h3 : ch = t := by simpa using h3
    subst h3
    exact ⟨i, j, row, h1, h2, by simpa using h4⟩
  · rintro ⟨i, j, row, h1, h2, h3⟩
    exact ⟨i, j, row, t, h1, h2, by simp, by simpa using h3⟩

theorem lookup_iff (g : List (List Char)) (x : Cell) (ch : Char) : lookup g x = some ch ↔ CellAt g x ch := by
  unfold lookup
  constructor
  · intro h
    split at h
    · rename_i hx
      rw [Option.bind_eq_some_iff] at h
      obtain ⟨row, h1, h2⟩ := h
      refine ⟨x.1.toNat, x.2.toNat, row, h1, h2, ?_⟩
      apply Prod.ext <;> simp only <;> omega
    · cases h
  · rintro ⟨i, j, row, h1, h2, rfl⟩
    rw [if_pos ⟨by positivity, by positivity⟩]
    simp [h1, h2]

theorem cellAt_unique {g : List (List Char)} {x : Cell} {a b : Char} (ha : CellAt g x a) (hb : CellAt g x b) : a = b := by
  rw [← lookup_iff] at ha hb
  rw [ha] at hb
  exact Option.some.inj hb

/-! ### Parsing -/

/-- What the characters of a row without newline do to the state. -/
theorem parse_row (special : Char) (hsp : special ≠ '#') (row rest : List Char) (st : Parse)
    (hrow : ∀ ch ∈ row, ch ∈ ['#', '.', 'S', 'G', special]) :
    parseLoop special st (row ++ rest) = parseLoop special
      { st with row := st.row ++ row,
                cells := st.cells ++ rowCells (fun c => decide (c ≠ '#')) st.rowIdx st.colIdx row,
                specials := st.specials ++ rowCells (fun c => decide (c = special)) st.rowIdx st.colIdx row,
                colIdx := st.colIdx + row.length } rest := by
  induction row generalizing st with
  | nil => simp [rowCells]
  | cons ch cs ih =>
      have hch := hrow ch (by simp)
      have hcs : ∀ c ∈ cs, c ∈ ['#', '.', 'S', 'G', special] := fun c hc => hrow c (by simp [hc])
      rw [List.cons_append, parseLoop]
      by_cases h1 : ch = '#'
      · subst h1
        have e : parseStep special st '#' = .ok { st with row := st.row ++ ['#'], colIdx := st.colIdx + 1 } := by
          simp [parseStep]
        rw [e]
        simp only
        rw [ih _ hcs]
        simp [rowCells, hsp.symm, add_assoc, add_comm (1 : ℤ) (cs.length : ℤ)]
      · by_cases h2 : ch = special
        · subst h2
          have e : parseStep ch st ch = .ok { st with row := st.row ++ [ch], cells := st.cells ++ [(st.rowIdx, st.colIdx)], specials := st.specials ++ [(st.rowIdx, st.colIdx)], colIdx := st.colIdx + 1 } := by
            simp [parseStep, h1]
          rw [e]
          simp only
          rw [ih _ hcs]
          simp [rowCells, h1, add_assoc, add_comm (1 : ℤ) (cs.length : ℤ)]
        · have h3 : ch = '.' ∨ ch = 'S' ∨ ch = 'G' := by simpa [h1, h2] using hch
          have e : parseStep special st ch = .ok { st with row := st.row ++ [ch], cells := st.cells ++ [(st.rowIdx, st.colIdx)], colIdx := st.colIdx + 1 } := by
            rw [parseStep, if_neg h1, if_neg h2, if_pos h3]
          rw [e]
          simp only
          rw [ih _ hcs]
          simp [rowCells, h1, h2, add_assoc, add_comm (1 : ℤ) (cs.length : ℤ)]

theorem parse_rows (special : Char) (hsp : special ≠ '#') (hnl : special ≠ '\n') (rows : List (List Char)) (rest : List Char)
    (st : Parse) (hst : st.row = [] ∧ st.colIdx = 0)
    (hrows : ∀ row ∈ rows, ∀ ch ∈ row, ch ∈ ['#', '.', 'S', 'G', special]) :
    parseLoop special st (textOf rows ++ rest) = parseLoop special
      { st with rows := st.rows ++ rows, cells := st.cells ++ allCells (fun c => decide (c ≠ '#')) st.rowIdx rows,
                specials := st.specials ++ allCells (fun c => decide (c = special)) st.rowIdx rows,
                rowIdx := st.rowIdx + rows.length } rest := by
  induction rows generalizing st with
  | nil => simp [allCells, textOf]
  | cons row rows ih =>
      obtain ⟨hr, hc⟩ := hst
      have e : textOf (row :: rows) ++ rest = row ++ ('\n' :: (textOf rows ++ rest)) := by simp [textOf]
      rw [e, parse_row special hsp row _ st (hrows row (by simp)), parseLoop]
      have e2 : ∀ s : Parse, parseStep special s '\n' =
          .ok { s with rows := s.rows ++ [s.row], row := [], rowIdx := s.rowIdx + 1, colIdx := 0 } := by
        intro s; rw [parseStep, if_neg (by decide), if_neg hnl.symm, if_neg (by decide), if_pos rfl]
      rw [e2]
      simp only
      rw [ih _ ⟨rfl, rfl⟩ (fun r hr => hrows r (by simp [hr]))]
      simp [allCells, hr, hc, add_assoc, add_comm (1 : ℤ) (rows.length : ℤ)]

/-- The cells of the map that are not walls, in row-major order. -/
def cellsOf (rows : List (List Char)) : List Cell := allCells (fun c => decide (c ≠ '#')) 0 rows

theorem mem_cellsOf (rows : List (List Char)) (x : Cell) : x ∈ cellsOf rows ↔ ∃ ch, ch ≠ '#' ∧ CellAt rows x ch := by
  rw [cellsOf, mem_allCells]
  constructor
  · rintro ⟨i, j, row, ch, h1, h2, h3, h4⟩
    exact ⟨ch, by simpa using h3, i, j, row, h1, h2, by simpa using h4⟩
  · rintro ⟨ch, h0, i, j, row, h1, h2, h3⟩
    exact ⟨i, j, row, ch, h1, h2, by simpa using h0, by simpa using h3⟩

theorem nodup_cellsOf (rows : List (List Char)) : (cellsOf rows).Nodup := nodup_allCells _ _ _

theorem parse_text (special : Char) (hsp : special ≠ '#') (hnl : special ≠ '\n') (rows : List (List Char))
    (hrows : ∀ row ∈ rows, ∀ ch ∈ row, ch ∈ ['#', '.', 'S', 'G', special])
    (hS : ∃ x, CellAt rows x 'S') (hG : ∃ x, CellAt rows x 'G') :
    parseGrid special (textOf rows) = .ok (rows, cellsOf rows, positions rows special) := by
  have hmem : ∀ ch, (∃ x, CellAt rows x ch) → ch ∈ textOf rows := by
    rintro ch ⟨x, i, j, row, h1, h2, _⟩
    rw [textOf, List.mem_flatMap]
    exact ⟨row, List.mem_of_getElem? h1, by simp [List.mem_of_getElem? h2]⟩
  rw [parseGrid, if_pos ⟨hmem _ hS, hmem _ hG⟩]
  have := parse_rows special hsp hnl rows [] ⟨[], [], [], [], 0, 0⟩ ⟨rfl, rfl⟩ hrows
  rw [List.append_nil] at this
  rw [this]
  simp [parseLoop, cellsOf, positions]

/-! ### Index arrays -/

theorem mem_whereEq {X : Type} [DecidableEq X] (c : List X) (x : X) (k : ℕ) : k ∈ whereEq c x ↔ c[k]? = some x := by
  rw [whereEq, List.mem_filter, List.mem_range]
  constructor
  · rintro ⟨_, h⟩; simpa using h
  · intro h
    exact ⟨(List.getElem?_eq_some_iff.mp h).1, by simpa using h⟩

theorem eq_singleton_of_nodup {l : List ℕ} (hl : l.Nodup) (j : ℕ) (h : ∀ k, k ∈ l ↔ k = j) : l = [j] := by
  match l, hl, h with
  | [], _, h => exact absurd ((h j).mpr rfl) (by simp)
  | [a], _, h => rw [(h a).mp (by simp)]
  | a :: b :: l, hl, h =>
      have h1 := (h a).mp (by simp)
      have h2 := (h b).mp (by simp)
      rw [h1, h2] at hl
      simp at hl

theorem whereEq_mem {X : Type} [DecidableEq X] {c : List X} (hc : c.Nodup) {x : X} {j : ℕ} (hj : c[j]? = some x) :
    whereEq c x = [j] := by
  apply eq_singleton_of_nodup (List.Nodup.filter _ List.nodup_range)
  intro k
  change k ∈ whereEq c x ↔ k = j
  rw [mem_whereEq]
  constructor
  · intro hk
    obtain ⟨h1, h2⟩ := List.getElem?_eq_some_iff.mp hk
    obtain ⟨h3, h4⟩ := List.getElem?_eq_some_iff.mp hj
    exact (List.Nodup.getElem_inj_iff hc).mp (h2.trans h4.symm)
  · rintro rfl; exact hj

theorem whereEq_not_mem {X : Type} [DecidableEq X] {c : List X} {x : X} (hx : x ∉ c) : whereEq c x = [] := by
  rw [List.eq_nil_iff_forall_not_mem]
  intro k hk
  rw [mem_whereEq] at hk
  exact hx (List.mem_of_getElem? hk)

theorem exists_index {X : Type} {c : List X} {x : X} (hx : x ∈ c) : ∃ j, j < c.length ∧ c[j]? = some x := by
  obtain ⟨j, hj, h⟩ := List.mem_iff_getElem.mp hx
  exact ⟨j, hj, by rw [List.getElem?_eq_getElem hj, h]⟩

/-! ### Sums of rows -/

theorem sum_setAt (n : ℕ) (f : ℕ → ℝ) (j : ℕ) (hj : j < n) (v : ℝ) :
    ∑ k ∈ Finset.range n, setAt f [j] v k = (∑ k ∈ Finset.range n, f k) - f j + v := by
  have h1 : ∀ k, setAt f [j] v k = f k + (if k = j then v - f j else 0) := by
    intro k
    simp only [setAt, List.mem_singleton]
    split
    · rename_i h; rw [h]; ring
    · ring
  simp only [h1]
  rw [Finset.sum_add_distrib, Finset.sum_ite_eq' (Finset.range n) j, if_pos (Finset.mem_range.mpr hj)]
  ring

theorem sum_addAt (n : ℕ) (f : ℕ → ℝ) (j : ℕ) (hj : j < n) (v : ℝ) :
    ∑ k ∈ Finset.range n, addAt f [j] v k = (∑ k ∈ Finset.range n, f k) + v := by
  have h1 : ∀ k, addAt f [j] v k = f k + (if k = j then v else 0) := by
    intro k
    simp only [addAt, List.mem_singleton]
    split <;> ring
  simp only [h1]
  rw [Finset.sum_add_distrib, Finset.sum_ite_eq' (Finset.range n) j, if_pos (Finset.mem_range.mpr hj)]

end

end Verif.Finite
