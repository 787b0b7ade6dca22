import Verif.Memory.Lemmas
import Mathlib.Tactic.Abel

namespace Verif.Memory

open Verif.Dataset (Row)

variable {X A R P : Type}

/-! ### Sequences -/

theorem lastTrue_some (fl : List Bool) : ∀ k, lastTrue fl = some k →
    k < fl.length ∧ fl.getD k false = true ∧ ∀ t, k < t → fl.getD t false = false := by
  induction fl with
  | nil => intro k h; simp [lastTrue] at h
  | cons b fl ih =>
    intro k h
    simp only [lastTrue] at h
    cases hl : lastTrue fl with
    | some k' =>
      rw [hl] at h
      simp only [Option.some.injEq] at h
      subst h
      obtain ⟨h1, h2, h3⟩ := ih k' hl
      refine ⟨by simp; omega, by simpa [List.getD] using h2, ?_⟩
      intro t ht
      obtain ⟨t, rfl⟩ : ∃ q, t = q + 1 := ⟨t - 1, by omega⟩
      have := h3 t (by omega)
      simpa [List.getD] using this
    | none =>
      rw [hl] at h
      have hall : ∀ t, fl.getD t false = false := by
        clear h ih
        induction fl with
        | nil => intro t; simp [List.getD]
        | cons c fl ih2 =>
          simp only [lastTrue] at hl
          cases hl2 : lastTrue fl with
          | some q => rw [hl2] at hl; simp at hl
          | none =>
            rw [hl2] at hl
            have hc : c = false := by
              cases c
              · rfl
              · simp at hl
            intro t
            cases t with
            | zero => simp [List.getD, hc]
            | succ t => have := ih2 hl2 t; simpa [List.getD] using this
      cases b with
      | false => simp at h
      | true =>
        simp only [if_true, Option.some.injEq] at h
        subst h
        refine ⟨by simp, by simp [List.getD], ?_⟩
        intro t ht
        obtain ⟨t, rfl⟩ : ∃ q, t = q + 1 := ⟨t - 1, by omega⟩
        have := hall t
        simpa [List.getD] using this

theorem lastTrue_none (fl : List Bool) : lastTrue fl = none → ∀ t, fl.getD t false = false := by
  induction fl with
  | nil => intro _ t; simp [List.getD]
  | cons c fl ih2 =>
    intro hl
    simp only [lastTrue] at hl
    cases hl2 : lastTrue fl with
    | some q => rw [hl2] at hl; simp at hl
    | none =>
      rw [hl2] at hl
      have hc : c = false := by
        cases c
        · rfl
        · simp at hl
      intro t
      cases t with
      | zero => simp [List.getD, hc]
      | succ t => have := ih2 hl2 t; simpa [List.getD] using this

theorem getD_slice (l : List Bool) (i b t : Nat) :
    ((l.take i).drop b).getD t false = if b + t < i then l.getD (b + t) false else false := by
  simp only [List.getD, List.getElem?_drop, List.getElem?_take]
  split <;> rfl

/-- Where the sequence begins. -/
theorem beginSeq_spec (last : List Bool) (trunc i : Nat) (ht : 1 ≤ trunc) :
    i + 1 - trunc ≤ (beginSeq last trunc i).1 ∧ (beginSeq last trunc i).1 ≤ i ∧
    (∀ q, (beginSeq last trunc i).1 ≤ q → q < i → last.getD q false = false) ∧
    ((beginSeq last trunc i).2 = true → 1 ≤ (beginSeq last trunc i).1 ∧
      last.getD ((beginSeq last trunc i).1 - 1) false = true) ∧
    ((beginSeq last trunc i).2 = false → (beginSeq last trunc i).1 = i + 1 - trunc) := by
  cases hl : lastTrue ((last.take i).drop (i + 1 - trunc)) with
  | none =>
    have e : beginSeq last trunc i = (i + 1 - trunc, false) := by simp only [beginSeq, hl]
    rw [e]
    refine ⟨le_refl _, by simp only []; omega, ?_, by simp, fun _ => rfl⟩
    intro q h1 h2
    have := lastTrue_none _ hl (q - (i + 1 - trunc))
    rw [getD_slice] at this
    simp only [] at h1
    have e2 : i + 1 - trunc + (q - (i + 1 - trunc)) = q := by omega
    rw [e2, if_pos h2] at this
    exact this
  | some k =>
    have e : beginSeq last trunc i = (i + 1 - trunc + k + 1, true) := by simp only [beginSeq, hl]
    obtain ⟨h1, h2, h3⟩ := lastTrue_some _ k hl
    rw [e]
    have hlt : i + 1 - trunc + k < i := by
      by_contra hc
      rw [getD_slice, if_neg hc] at h2
      exact absurd h2 (by simp)
    rw [getD_slice, if_pos hlt] at h2
    refine ⟨by simp only []; omega, by simp only []; omega, ?_, fun _ => ⟨by simp only []; omega, by simpa using h2⟩, by simp⟩
    intro q hq1 hq2
    simp only [] at hq1
    have := h3 (q - (i + 1 - trunc)) (by omega)
    rw [getD_slice] at this
    have e2 : i + 1 - trunc + (q - (i + 1 - trunc)) = q := by omega
    rw [e2, if_pos hq2] at this
    exact this

theorem seqAt_fst (buf : List (Row X A R P)) (trunc : Nat) (zero : A) (i : Nat) :
    (seqAt buf trunc zero i).1 = (buf.take (i + 1)).drop (beginSeq (buf.map (·.last)) trunc i).1 := rfl

theorem take_succ_drop {α : Type} (l : List α) (b i : Nat) (hb : b ≤ i) (hi : i < l.length) :
    (l.take (i + 1)).drop b = (l.take i).drop b ++ [l[i]] := by
  rw [List.take_add_one, List.getElem?_eq_getElem hi, List.drop_append]
  have : b - (l.take i).length = 0 := by simp; omega
  rw [this]; rfl

theorem seqAt_snd (buf : List (Row X A R P)) (trunc : Nat) (zero : A) (i : Nat) (ht : 1 ≤ trunc) (hi : i < buf.length) :
    ∃ b, (seqAt buf trunc zero i).1 = (buf.take (i + 1)).drop b ∧ b ≤ i ∧
      (seqAt buf trunc zero i).2 =
        (if b = 0 ∨ (buf.map (·.last)).getD (b - 1) false = true then zero
          else (buf.map (·.action)).getD (b - 1) zero) :: ((buf.take i).drop b).map (·.action) := by
  obtain ⟨h1, h2, h3, h4, h5⟩ := beginSeq_spec (buf.map (·.last)) trunc i ht
  refine ⟨_, seqAt_fst buf trunc zero i, h2, ?_⟩
  simp only [seqAt, Nat.add_sub_cancel]
  generalize (beginSeq (buf.map (·.last)) trunc i).1 = b at *
  generalize (beginSeq (buf.map (·.last)) trunc i).2 = more at *
  by_cases hc : b = 0 ∨ (buf.map (·.last)).getD (b - 1) false = true
  · have : (more || b == 0 || (buf.map (·.last)).getD (b - 1) false) = true := by
      rcases hc with hc | hc
      · simp [hc]
      · rw [hc]; simp
    rw [if_pos this, if_pos hc]
    simp [List.map_take, List.map_drop]
  · have hm : more = false := by
      by_contra hm
      have hm' : more = true := by simpa using hm
      exact hc (Or.inr (h4 hm').2)
    have hb : b ≠ 0 := fun h => hc (Or.inl h)
    have hl : (buf.map (·.last)).getD (b - 1) false = false := by
      by_contra hh; exact hc (Or.inr (by simpa using hh))
    have : ¬ (more || b == 0 || (buf.map (·.last)).getD (b - 1) false) = true := by
      rw [hm, hl]; simp [hb]
    rw [if_neg this, if_neg hc]
    obtain ⟨b, rfl⟩ : ∃ c, b = c + 1 := ⟨b - 1, by omega⟩
    simp only [Nat.add_sub_cancel]
    have hlt : b < ((buf.map (·.action)).take i).length := by simp; omega
    rw [List.drop_eq_getElem_cons hlt]
    have : b < buf.length := by omega
    simp [List.map_take, List.map_drop, List.getD, this]

/-! ### Sum tree -/

theorem getD_set [Zero R] (l : List R) (i j : Nat) (v : R) :
    (l.set i v).getD j 0 = if i = j ∧ i < l.length then v else l.getD j 0 := by
  by_cases h : i = j
  · subst h
    by_cases h2 : i < l.length
    · simp [List.getD, h2]
    · simp [List.getD, h2, List.set_eq_of_length_le (Nat.le_of_not_lt h2)]
  · rw [if_neg (fun c => h c.1)]
    exact getD_set_ne _ _ _ _ _ h

/-- The tree is correct except that the parent of `idx` lacks `delta`. -/
def Defect [Semiring R] (tree : List R) (max idx : Nat) (delta : R) : Prop :=
  tree.length = 2 * max - 1 ∧
    ∀ k, k < max - 1 → tree.getD k 0 + (if k = (idx - 1) / 2 then delta else 0) =
      tree.getD (2 * k + 1) 0 + tree.getD (2 * k + 2) 0

theorem propagate_spec [Ring R] (max : Nat) (delta : R) : ∀ (idx : Nat) (tree : List R), 0 < idx → idx < 2 * max - 1 →
    Defect tree max idx delta →
    ∃ tree', propagate delta idx tree = .ok tree' ∧ SumTreeOK tree' max ∧
      ∀ k, max - 1 ≤ k → tree'.getD k 0 = tree.getD k 0 := by
  intro idx
  induction idx using Nat.strongRecOn with
  | _ idx ih =>
    intro tree hpos hlt hd
    obtain ⟨hlen, hd⟩ := hd
    have hpar : (idx - 1) / 2 < idx := by omega
    have hparint : (idx - 1) / 2 < max - 1 := by omega
    have hparlt : (idx - 1) / 2 < tree.length := by omega
    have hget : ∀ k, (tree.set ((idx - 1) / 2) (tree.getD ((idx - 1) / 2) 0 + delta)).getD k 0 =
        tree.getD k 0 + (if k = (idx - 1) / 2 then delta else 0) := by
      intro k
      rw [getD_set]
      by_cases hk : k = (idx - 1) / 2
      · rw [if_pos ⟨hk.symm, hparlt⟩, if_pos hk, hk]
      · rw [if_neg (fun c => hk c.1.symm), if_neg hk, add_zero]
    rw [propagate, dif_neg (by omega)]
    by_cases hp0 : (idx - 1) / 2 = 0
    · simp only [hp0, ne_eq, not_true_eq_false, if_false]
      rw [hp0] at hget
      refine ⟨_, rfl, ⟨by simp [hlen], ?_⟩, ?_⟩
      · intro k hk
        rw [hget, hget, hget]
        have := hd k hk
        rw [hp0] at this
        rw [if_neg (show ¬ 2 * k + 1 = 0 by omega), if_neg (show ¬ 2 * k + 2 = 0 by omega), add_zero, add_zero]
        exact this
      · intro k hk
        rw [hget, if_neg (by omega), add_zero]
    · simp only [ne_eq, hp0, not_false_eq_true, if_true]
      obtain ⟨tree', h1, h2, h3⟩ := ih ((idx - 1) / 2) hpar
        (tree.set ((idx - 1) / 2) (tree.getD ((idx - 1) / 2) 0 + delta)) (by omega) (by omega) (by
          refine ⟨by simp [hlen], ?_⟩
          intro k hk
          rw [hget, hget, hget, hd k hk]
          by_cases hkk : k = ((idx - 1) / 2 - 1) / 2
          · rw [if_pos hkk]
            by_cases hodd : 2 * k + 1 = (idx - 1) / 2
            · rw [if_pos hodd, if_neg (by omega), add_zero]
              abel
            · rw [if_neg hodd, if_pos (by omega), add_zero]
              abel
          · rw [if_neg hkk, if_neg (by omega), if_neg (by omega)]
            simp)
      refine ⟨tree', h1, h2, ?_⟩
      intro k hk
      rw [h3 k hk, hget, if_neg (by omega), add_zero]

theorem update1_spec [Ring R] (max : Nat) (hmax : 2 ≤ max) (tree : List R) (hok : SumTreeOK tree max) (i : Nat) (p : R)
    (h1 : max - 1 ≤ i) (h2 : i < 2 * max - 1) :
    ∃ tree', update1 tree i p = .ok tree' ∧ SumTreeOK tree' max ∧
      ∀ k, max - 1 ≤ k → tree'.getD k 0 = if k = i then p else tree.getD k 0 := by
  obtain ⟨hlen, hsum⟩ := hok
  have hget : ∀ k, (tree.set i p).getD k 0 = if k = i then p else tree.getD k 0 := by
    intro k
    rw [getD_set]
    by_cases hk : k = i
    · rw [if_pos ⟨hk.symm, by omega⟩, if_pos hk]
    · rw [if_neg (fun c => hk c.1.symm), if_neg hk]
  obtain ⟨tree', q1, q2, q3⟩ := propagate_spec max (p - tree.getD i 0) i (tree.set i p) (by omega) h2 (by
    refine ⟨by simp [hlen], ?_⟩
    intro k hk
    rw [hget, hget, hget, if_neg (by omega), hsum k hk]
    by_cases hkk : k = (i - 1) / 2
    · rw [if_pos hkk]
      by_cases hodd : 2 * k + 1 = i
      · rw [if_pos hodd, if_neg (by omega), hodd]
        abel
      · have he : 2 * k + 2 = i := by omega
        rw [if_neg hodd, if_pos he, he]
        abel
    · rw [if_neg hkk, if_neg (by omega), if_neg (by omega), add_zero])
  refine ⟨tree', ?_, q2, ?_⟩
  · simp only [update1]
    rw [if_pos (by omega)]
    exact q1
  · intro k hk
    rw [q3 k hk, hget]

/-- The root is the sum of the leaves, for any function that satisfies the node equations. -/
theorem root_eq_sum {M : Type} [AddCommGroup M] (f : Nat → M) (m : Nat) (hm : 1 ≤ m)
    (hf : ∀ k, k < m - 1 → f k = f (2 * k + 1) + f (2 * k + 2)) :
    f 0 = ∑ s ∈ Finset.range m, f (m - 1 + s) := by
  obtain ⟨q, rfl⟩ : ∃ q, m = q + 1 := ⟨m - 1, by omega⟩
  simp only [Nat.add_sub_cancel] at *
  have h1 : ∀ q : Nat, ∑ k ∈ Finset.range (2 * q + 1), f k =
      f 0 + ∑ k ∈ Finset.range q, (f (2 * k + 1) + f (2 * k + 2)) := by
    intro q
    induction q with
    | zero => simp
    | succ q ih =>
      have : 2 * (q + 1) + 1 = (2 * q + 1) + 1 + 1 := by ring
      rw [this, Finset.sum_range_succ, Finset.sum_range_succ, ih, Finset.sum_range_succ]
      abel
  have h2 : ∑ k ∈ Finset.range (2 * q + 1), f k =
      ∑ k ∈ Finset.range q, f k + ∑ s ∈ Finset.range (q + 1), f (q + s) := by
    have : 2 * q + 1 = q + (q + 1) := by ring
    rw [this, Finset.sum_range_add]
  have h3 : ∑ k ∈ Finset.range q, f k = ∑ k ∈ Finset.range q, (f (2 * k + 1) + f (2 * k + 2)) :=
    Finset.sum_congr rfl (fun k hk => hf k (Finset.mem_range.mp hk))
  have h4 := (h1 q).symm.trans h2
  rw [h3, add_comm] at h4
  exact add_left_cancel h4

theorem leavesBelow_leaf (n k : Nat) (h : n ≤ 2 * k + 1) : leavesBelow n k = [k] := by
  rw [leavesBelow, if_pos h]

theorem leavesBelow_node (n k : Nat) (h : ¬ n ≤ 2 * k + 1) :
    leavesBelow n k = leavesBelow n (2 * k + 1) ++ leavesBelow n (2 * k + 2) := by
  rw [leavesBelow, if_neg h]

/-- Every node is the sum of the leaves below it. -/
theorem node_eq_sum [Ring R] (tree : List R) (max : Nat) (hmax : 1 ≤ max) (hok : SumTreeOK tree max) :
    ∀ (d k : Nat), 2 * max - 1 - k ≤ d → k < 2 * max - 1 →
      tree.getD k 0 = ((leavesBelow (2 * max - 1) k).map (fun j => tree.getD j 0)).sum := by
  intro d
  induction d with
  | zero => intro k h1 h2; omega
  | succ d ih =>
    intro k h1 h2
    by_cases hl : 2 * max - 1 ≤ 2 * k + 1
    · rw [leavesBelow_leaf _ _ hl]; simp
    · rw [leavesBelow_node _ _ hl, List.map_append, List.sum_append, ← ih (2 * k + 1) (by omega) (by omega),
        ← ih (2 * k + 2) (by omega) (by omega)]
      exact hok.2 k (by omega)

/-- The leaves below the root are all the leaves, each once. -/
theorem leaves_perm (max : Nat) (hmax : 1 ≤ max) :
    (leavesBelow (2 * max - 1) 0).Perm (List.range' (max - 1) max) := by
  rw [List.perm_iff_count]
  intro j
  have h := root_eq_sum (fun k => (((leavesBelow (2 * max - 1) k).count j : Nat) : Int)) max hmax (by
    intro k hk
    rw [leavesBelow_node _ k (by omega), List.count_append]
    push_cast
    rfl)
  have hleaf : ∀ s, ((leavesBelow (2 * max - 1) (max - 1 + s)).count j : Int) = if j = max - 1 + s then 1 else 0 := by
    intro s
    rw [leavesBelow_leaf _ _ (by omega), List.count_singleton]
    by_cases hj : j = max - 1 + s
    · simp [hj]
    · have : ¬ max - 1 + s = j := fun c => hj c.symm
      simp [hj, this]
  simp only [hleaf] at h
  have hr : ((List.range' (max - 1) max).count j : Int) = ∑ s ∈ Finset.range max, (if j = max - 1 + s then (1 : Int) else 0) := by
    have gen : ∀ (a m : Nat), ((List.range' a m).count j : Int) = ∑ s ∈ Finset.range m, (if j = a + s then (1 : Int) else 0) := by
      intro a m
      induction m with
      | zero => simp
      | succ m ih =>
        rw [List.range'_concat, List.count_append, Finset.sum_range_succ, ← ih, List.count_singleton]
        push_cast
        congr 1
        simp only [Nat.one_mul]
        by_cases hj : j = a + m
        · simp [hj]
        · have : ¬ a + m = j := fun c => hj c.symm
          simp [hj, this]
    exact gen _ _
  rw [← hr] at h
  exact_mod_cast h

theorem retrieve_mem [Ring R] [LinearOrder R] (tree : List R) (choose : Nat → Bool) :
    ∀ (d k : Nat) (s : R), tree.length - k ≤ d → k < tree.length →
      tree.length % 2 = 1 → retrieve tree choose s k ∈ leavesBelow tree.length k := by
  intro d
  induction d with
  | zero => intro k s h1 h2; omega
  | succ d ih =>
    intro k s h1 h2 hodd
    rw [retrieve]
    by_cases hl : tree.length ≤ 2 * k + 1
    · rw [dif_pos hl, leavesBelow_leaf _ _ hl]; simp
    · rw [dif_neg hl, leavesBelow_node _ _ hl]
      have hL : ∀ s, retrieve tree choose s (2 * k + 1) ∈ leavesBelow tree.length (2 * k + 1) :=
        fun s => ih (2 * k + 1) s (by omega) (by omega) hodd
      have hR : ∀ s, retrieve tree choose s (2 * k + 1 + 1) ∈ leavesBelow tree.length (2 * k + 2) :=
        fun s => ih (2 * k + 2) s (by omega) (by omega) hodd
      simp only [List.mem_append]
      split
      · split
        · exact Or.inl (hL _)
        · exact Or.inr (hR _)
      · split
        · exact Or.inl (hL _)
        · exact Or.inr (hR _)

theorem retrieve_interval [Ring R] [LinearOrder R] [IsStrictOrderedRing R] (tree : List R) (choose : Nat → Bool)
    (max : Nat) (hmax : 1 ≤ max) (hok : SumTreeOK tree max)
    (hties : ∀ k, k < max - 1 → tree.getD (2 * k + 1) 0 = tree.getD (2 * k + 2) 0 → tree.getD k 0 = 0) :
    ∀ (d k : Nat) (s : R), 2 * max - 1 - k ≤ d → k < 2 * max - 1 → 0 < s → s ≤ tree.getD k 0 →
      ∃ pre post, leavesBelow (2 * max - 1) k = pre ++ retrieve tree choose s k :: post ∧
        (pre.map (fun j => tree.getD j 0)).sum < s ∧
        s ≤ (pre.map (fun j => tree.getD j 0)).sum + tree.getD (retrieve tree choose s k) 0 := by
  have hlen := hok.1
  intro d
  induction d with
  | zero => intro k s h1 h2; omega
  | succ d ih =>
    intro k s h1 h2 hs0 hs1
    rw [retrieve]
    by_cases hl : tree.length ≤ 2 * k + 1
    · rw [dif_pos hl, leavesBelow_leaf _ _ (by omega)]
      exact ⟨[], [], rfl, by simpa using hs0, by simpa using hs1⟩
    · rw [dif_neg hl, leavesBelow_node _ _ (by omega)]
      have hk : k < max - 1 := by omega
      have hne : ¬ tree.getD (2 * k + 1) 0 = tree.getD (2 * k + 1 + 1) 0 := by
        intro hc
        have := hties k hk hc
        rw [this] at hs1
        exact absurd hs0 (not_lt.mpr hs1)
      have hnode := hok.2 k hk
      simp only [hne, if_false]
      by_cases hsl : s ≤ tree.getD (2 * k + 1) 0
      · rw [if_pos hsl]
        obtain ⟨pre, post, e1, e2, e3⟩ := ih (2 * k + 1) s (by omega) (by omega) hs0 hsl
        exact ⟨pre, post ++ leavesBelow (2 * max - 1) (2 * k + 2), by rw [e1]; simp, e2, e3⟩
      · rw [if_neg hsl]
        obtain ⟨pre, post, e1, e2, e3⟩ := ih (2 * k + 2) (s - tree.getD (2 * k + 1) 0) (by omega) (by omega)
          (sub_pos.mpr (not_le.mp hsl)) (by rw [hnode] at hs1; exact sub_le_iff_le_add'.mpr hs1)
        refine ⟨leavesBelow (2 * max - 1) (2 * k + 1) ++ pre, post, by rw [e1]; simp, ?_, ?_⟩
        · rw [List.map_append, List.sum_append, ← node_eq_sum tree max hmax hok _ (2 * k + 1) (le_refl _) (by omega)]
          exact lt_sub_iff_add_lt'.mp e2
        · rw [List.map_append, List.sum_append, ← node_eq_sum tree max hmax hok _ (2 * k + 1) (le_refl _) (by omega)]
          rw [add_assoc]
          exact sub_le_iff_le_add'.mp e3

end Verif.Memory
