/-
Properties of the prioritized replay memory in expectation: C158.
-/
import Verif.Memory.SpecPER
import Verif.Memory.PropsPER
import Mathlib.MeasureTheory.Measure.Real
import Mathlib.MeasureTheory.Integral.IntervalIntegral.Basic
import Mathlib.Data.Fintype.Pi
import Mathlib.Tactic.FieldSimp
import Mathlib.Tactic.Ring

namespace Verif.Memory

open Verif.Dataset (Row)
open MeasureTheory

variable {X A P : Type}

/-- Where a list without repetitions splits at one of its elements is determined. -/
theorem split_unique {α : Type} [DecidableEq α] (l : List α) (hn : l.Nodup) (x : α) (pre post pre' post' : List α)
    (h : l = pre ++ x :: post) (h' : l = pre' ++ x :: post') : pre = pre' := by
  subst h
  induction pre generalizing pre' with
  | nil =>
    cases pre' with
    | nil => rfl
    | cons y ys =>
      simp only [List.nil_append, List.cons_append, List.cons.injEq] at h'
      obtain ⟨rfl, h2⟩ := h'
      simp only [List.nil_append, List.nodup_cons] at hn
      exact absurd (h2 ▸ by simp) hn.1
  | cons z zs ih =>
    cases pre' with
    | nil =>
      simp only [List.nil_append, List.cons_append, List.cons.injEq] at h'
      obtain ⟨rfl, h2⟩ := h'
      simp only [List.cons_append, List.nodup_cons] at hn
      exact absurd (by simp) hn.1
    | cons y ys =>
      simp only [List.cons_append, List.cons.injEq] at h'
      obtain ⟨rfl, h2⟩ := h'
      simp only [List.cons_append, List.nodup_cons] at hn
      rw [ih ys hn.2 h2]

/-- Two elements of a list without repetitions: one of them comes first. -/
theorem split_order {α : Type} (l : List α) (x y : α) (hxy : x ≠ y) (pre post pre' post' : List α)
    (h : l = pre ++ x :: post) (h' : l = pre' ++ y :: post') :
    (∃ m, pre' = pre ++ x :: m) ∨ (∃ m, pre = pre' ++ y :: m) := by
  subst h
  rw [List.append_eq_append_iff] at h'
  rcases h' with ⟨m, h1, h2⟩ | ⟨m, h1, h2⟩
  · cases m with
    | nil => simp only [List.nil_append, List.cons.injEq] at h2; exact absurd h2.1 hxy
    | cons z m =>
      simp only [List.cons_append, List.cons.injEq] at h2
      obtain ⟨rfl, h3⟩ := h2
      exact Or.inl ⟨m, h1⟩
  · cases m with
    | nil => simp only [List.nil_append, List.cons.injEq] at h2; exact absurd h2.1.symm hxy
    | cons z m =>
      simp only [List.cons_append, List.cons.injEq] at h2
      obtain ⟨rfl, h3⟩ := h2
      exact Or.inr ⟨m, h1⟩

/-- The values that lead to slot `i` are an interval whose length is the priority of the slot. -/
theorem slot_interval (max : Nat) (hmax : 2 ≤ max) (ops : List (TOp X A ℝ P))
    (hv : AllValid max ⟨0, fun _ => 0⟩ ops) (t : STree X A ℝ P) (ht : execT (STree.new max) ops = .ok t)
    (hties : ∀ k, k < max - 1 → t.tree.getD (2 * k + 1) 0 = t.tree.getD (2 * k + 2) 0 → t.tree.getD k 0 = 0)
    (i : Nat) (hi : i < max) :
    ∃ a, 0 ≤ a ∧ a + (ops.foldl (Abs.step max) (⟨0, fun _ => 0⟩ : Abs ℝ)).prio i ≤ t.totalP ∧
      0 ≤ (ops.foldl (Abs.step max) (⟨0, fun _ => 0⟩ : Abs ℝ)).prio i ∧
      ∀ choose s, 0 < s → s ≤ t.totalP → ((t.getInd choose s).2.2 = i ↔
        a < s ∧ s ≤ a + (ops.foldl (Abs.step max) (⟨0, fun _ => 0⟩ : Abs ℝ)).prio i) := by
  obtain ⟨t', h3, hr⟩ := execT_rep hmax ops (rep_new (X := X) (A := A) (P := P) (R := ℝ) max hmax) hv
  rw [List.nil_append] at hr
  rw [ht] at h3
  obtain rfl : t = t' := by simpa using h3
  have hperm := leaves_perm max (by omega)
  have hnd : (leavesBelow (2 * max - 1) 0).Nodup := hperm.nodup_iff.2 List.nodup_range'
  have hmem : i + max - 1 ∈ leavesBelow (2 * max - 1) 0 := by
    rw [hperm.mem_iff, List.mem_range'_1]; omega
  obtain ⟨pre, post, hsplit⟩ := List.append_of_mem hmem
  have hnn : ∀ j ∈ leavesBelow (2 * max - 1) 0, 0 ≤ t.tree.getD j 0 := by
    intro j hj
    rw [hperm.mem_iff, List.mem_range'_1] at hj
    obtain ⟨k, hk, rfl⟩ : ∃ k, k < max ∧ j = k + max - 1 := ⟨j - (max - 1), by omega, by omega⟩
    rw [hr.leaf k hk]
    by_cases h : k < (historyT ops).length
    · exact (hr.stored k (by omega)).le
    · rw [hr.empty k (by omega) hk]
  have hsum : ∀ l : List Nat, (∀ j ∈ l, j ∈ leavesBelow (2 * max - 1) 0) → 0 ≤ (l.map (fun j => t.tree.getD j 0)).sum := by
    intro l hl
    apply List.sum_nonneg
    intro x hx
    obtain ⟨j, hj, rfl⟩ := List.mem_map.1 hx
    exact hnn j (hl j hj)
  have hpre : ∀ j ∈ pre, j ∈ leavesBelow (2 * max - 1) 0 := fun j hj => by rw [hsplit]; simp [hj]
  have hpost : ∀ j ∈ post, j ∈ leavesBelow (2 * max - 1) 0 := fun j hj => by rw [hsplit]; simp [hj]
  have hleaf := hr.leaf i hi
  have hp0 : 0 ≤ (ops.foldl (Abs.step max) (⟨0, fun _ => 0⟩ : Abs ℝ)).prio i := by rw [← hleaf]; exact hnn _ hmem
  have htot : t.totalP = ((leavesBelow (2 * max - 1) 0).map (fun j => t.tree.getD j 0)).sum :=
    node_eq_sum t.tree max (by omega) hr.sums (2 * max - 1) 0 (by omega) (by omega)
  refine ⟨(pre.map (fun j => t.tree.getD j 0)).sum, hsum pre hpre, ?_, hp0, ?_⟩
  · rw [htot, hsplit, List.map_append, List.sum_append, List.map_cons, List.sum_cons, hleaf]
    have := hsum post hpost
    linarith
  · intro choose s hs0 hs1
    obtain ⟨pre', post', slot, g1, g2, g3, g4, g5, _⟩ := C18_interval_partial max hmax ops hv t ht hties choose s hs0 hs1
    constructor
    · intro h
      obtain rfl : slot = i := by rw [← g2, h]
      obtain rfl : pre = pre' := split_unique _ hnd _ _ _ _ _ hsplit g3
      exact ⟨g4, g5⟩
    · rintro ⟨e1, e2⟩
      rw [g2]
      by_contra hne
      have hslot := hr.leaf slot g1
      rcases split_order _ (i + max - 1) (slot + max - 1) (by omega) _ _ _ _ hsplit g3 with ⟨m, hm⟩ | ⟨m, hm⟩
      · have hm' : ∀ j ∈ m, j ∈ leavesBelow (2 * max - 1) 0 := fun j hj => by rw [g3, hm]; simp [hj]
        have := hsum m hm'
        rw [hm, List.map_append, List.sum_append, List.map_cons, List.sum_cons, hleaf] at g4
        linarith
      · have hm' : ∀ j ∈ m, j ∈ leavesBelow (2 * max - 1) 0 := fun j hj => hpre j (by rw [hm]; simp [hj])
        have := hsum m hm'
        rw [hm, List.map_append, List.sum_append, List.map_cons, List.sum_cons, hslot] at e1
        linarith

/-- Up to the end points, the values in `[a, b)` that lead to a slot are those in an interval. -/
theorem measure_slot (t : STree X A ℝ P) (choose : Nat → Bool) (i : Nat) (lo p a b : ℝ) (ha : 0 ≤ a)
    (hb : b ≤ t.totalP)
    (h : ∀ s, 0 < s → s ≤ t.totalP → ((t.getInd choose s).2.2 = i ↔ lo < s ∧ s ≤ lo + p)) :
    volume {s | s ∈ Set.Ico a b ∧ (t.getInd choose s).2.2 = i} = volume (Set.Ioc a b ∩ Set.Ioc lo (lo + p)) := by
  apply measure_congr
  have hz : volume ({0, a, b} : Set ℝ) = 0 := by
    apply Set.Countable.measure_zero
    exact Set.Finite.countable (by simp)
  filter_upwards [compl_mem_ae_iff.2 hz] with s hs
  simp only [Set.mem_compl_iff, Set.mem_insert_iff, Set.mem_singleton_iff, not_or] at hs
  apply propext
  show (s ∈ Set.Ico a b ∧ (t.getInd choose s).2.2 = i) ↔ s ∈ Set.Ioc a b ∧ s ∈ Set.Ioc lo (lo + p)
  simp only [Set.mem_Ico, Set.mem_Ioc]
  constructor
  · rintro ⟨⟨h1, h2⟩, h3⟩
    have h0 : 0 < s := lt_of_le_of_ne (ha.trans h1) (Ne.symm hs.1)
    exact ⟨⟨lt_of_le_of_ne h1 (Ne.symm hs.2.1), h2.le⟩, (h s h0 (h2.le.trans hb)).1 h3⟩
  · rintro ⟨⟨h1, h2⟩, h3⟩
    exact ⟨⟨h1.le, lt_of_le_of_ne h2 hs.2.2⟩, (h s (lt_of_le_of_lt ha h1) (h2.trans hb)).2 h3⟩

/-- C158 (partial: no two sibling nodes have equal positive sums). One value drawn uniformly from `[0, total_p)` leads
to slot `i` with a probability proportional to its priority. -/
theorem C158_proportional_partial (max : Nat) (hmax : 2 ≤ max) (ops : List (TOp X A ℝ P))
    (hv : AllValid max ⟨0, fun _ => 0⟩ ops) (t : STree X A ℝ P) (ht : execT (STree.new max) ops = .ok t)
    (hties : ∀ k, k < max - 1 → t.tree.getD (2 * k + 1) 0 = t.tree.getD (2 * k + 2) 0 → t.tree.getD k 0 = 0)
    (choose : Nat → Bool) (i : Nat) (hi : i < max) :
    slotProb t choose 0 t.totalP i = (ops.foldl (Abs.step max) (⟨0, fun _ => 0⟩ : Abs ℝ)).prio i / t.totalP := by
  obtain ⟨lo, h1, h2, h3, h4⟩ := slot_interval max hmax ops hv t ht hties i hi
  rw [slotProb, Measure.real, measure_slot t choose i lo _ 0 t.totalP le_rfl le_rfl (h4 choose), Set.inter_eq_self_of_subset_right,
    Real.volume_Ioc, sub_zero, add_sub_cancel_left, ENNReal.toReal_ofReal h3]
  exact Set.Ioc_subset_Ioc h1 h2

/-- The pieces of an interval cut at a monotone sequence of points. -/
theorem sum_pieces (f : Nat → ℝ) (hf : Monotone f) (S : Set ℝ) (hS : MeasurableSet S) : ∀ n : Nat,
    ∑ k ∈ Finset.range n, volume.real (Set.Ioc (f k) (f (k + 1)) ∩ S) = volume.real (Set.Ioc (f 0) (f n) ∩ S) := by
  intro n
  induction n with
  | zero => simp [Measure.real]
  | succ n ih =>
    rw [Finset.sum_range_succ, ih, ← measureReal_union _ (measurableSet_Ioc.inter hS)
      (ne_of_lt (lt_of_le_of_lt (measure_mono Set.inter_subset_left) measure_Ioc_lt_top))
      (ne_of_lt (lt_of_le_of_lt (measure_mono Set.inter_subset_left) measure_Ioc_lt_top)), ← Set.union_inter_distrib_right,
      Set.Ioc_union_Ioc_eq_Ioc (hf (Nat.zero_le n)) (hf (Nat.le_succ n))]
    apply Set.disjoint_left.2
    rintro x ⟨hx, _⟩ ⟨hx', _⟩
    exact absurd hx.2 (not_le.2 hx'.1)

/-- C158 (partial: no two sibling nodes have equal positive sums). In a batch of `n` values, one drawn uniformly from
each of the `n` equal segments, the transition of slot `i` is expected `n * p_i / total_p` times. -/
theorem C158_stratified_partial (max : Nat) (hmax : 2 ≤ max) (ops : List (TOp X A ℝ P))
    (hv : AllValid max ⟨0, fun _ => 0⟩ ops) (t : STree X A ℝ P) (ht : execT (STree.new max) ops = .ok t)
    (hties : ∀ k, k < max - 1 → t.tree.getD (2 * k + 1) 0 = t.tree.getD (2 * k + 2) 0 → t.tree.getD k 0 = 0)
    (htot : 0 < t.totalP) (n : Nat) (hn : 0 < n) (choose : Nat → Nat → Bool) (i : Nat) (hi : i < max) :
    ((segments t.totalP n).mapIdx (fun k sg => slotProb t (choose k) sg.1 sg.2 i)).sum =
      n * ((ops.foldl (Abs.step max) (⟨0, fun _ => 0⟩ : Abs ℝ)).prio i / t.totalP) := by
  obtain ⟨lo, h1, h2, h3, h4⟩ := slot_interval max hmax ops hv t ht hties i hi
  have hn' : (0 : ℝ) < n := by exact_mod_cast hn
  have hseg : 0 < t.totalP / n := div_pos htot hn'
  have hmono : Monotone (fun k : Nat => (k : ℝ) * (t.totalP / n)) := by
    intro a b hab
    exact mul_le_mul_of_nonneg_right (by exact_mod_cast hab) hseg.le
  have hend : (n : ℝ) * (t.totalP / n) = t.totalP := by field_simp
  have hlist : (segments t.totalP n).mapIdx (fun k sg => slotProb t (choose k) sg.1 sg.2 i) =
      (List.range n).map (fun (k : Nat) => volume.real (Set.Ioc ((k : ℝ) * (t.totalP / n)) (((k + 1 : Nat) : ℝ) * (t.totalP / n)) ∩
        Set.Ioc lo (lo + (ops.foldl (Abs.step max) (⟨0, fun _ => 0⟩ : Abs ℝ)).prio i)) / (t.totalP / n)) := by
    apply List.ext_getElem (by simp [segments])
    intro k hk hk'
    have hkn : k < n := by simpa using hk'
    simp only [List.getElem_mapIdx, segments, List.getElem_map, List.getElem_range]
    rw [slotProb, Measure.real, measure_slot t (choose k) i lo _ _ _ (mul_nonneg (Nat.cast_nonneg k) hseg.le) _ (h4 (choose k)),
      ← Measure.real]
    · congr 1
      push_cast
      ring
    · exact (hmono (show k + 1 ≤ n by omega)).trans hend.le
  rw [hlist, ← List.sum_toFinset _ List.nodup_range, List.toFinset_range, ← Finset.sum_div,
    sum_pieces (fun k : Nat => (k : ℝ) * (t.totalP / n)) hmono _ measurableSet_Ioc n]
  rw [hend, Nat.cast_zero, zero_mul, Set.inter_eq_self_of_subset_right (Set.Ioc_subset_Ioc h1 h2), Measure.real,
    Real.volume_Ioc, add_sub_cancel_left, ENNReal.toReal_ofReal h3]
  field_simp

/-- C158 (partial: no ties, and the weights before they are divided by the largest one of the batch). With `beta = 1`
the importance weights undo the prioritization: the expected weighted sum of any quantity over a batch is the one of a
batch drawn uniformly from the stored transitions. -/
theorem C158_weights_partial (max : Nat) (hmax : 2 ≤ max) (ops : List (TOp X A ℝ P))
    (hv : AllValid max ⟨0, fun _ => 0⟩ ops) (t : STree X A ℝ P) (ht : execT (STree.new max) ops = .ok t)
    (hties : ∀ k, k < max - 1 → t.tree.getD (2 * k + 1) 0 = t.tree.getD (2 * k + 2) 0 → t.tree.getD k 0 = 0)
    (htot : 0 < t.totalP) (n : Nat) (hn : 0 < n) (choose : Nat → Nat → Bool) (f : Nat → ℝ) :
    ∑ i ∈ Finset.range max, ((segments t.totalP n).mapIdx (fun k sg => slotProb t (choose k) sg.1 sg.2 i)).sum *
        (((t.mem.size : ℝ) * ((ops.foldl (Abs.step max) (⟨0, fun _ => 0⟩ : Abs ℝ)).prio i / t.totalP)) ^ (-(1 : ℝ)) * f i) =
      n * ((∑ i ∈ Finset.range t.mem.size, f i) / t.mem.size) := by
  obtain ⟨t', h3, hr⟩ := execT_rep hmax ops (rep_new (X := X) (A := A) (P := P) (R := ℝ) max hmax) hv
  rw [List.nil_append] at hr
  rw [ht] at h3
  obtain rfl : t = t' := by simpa using h3
  have hsize := fifo_size hr.fifo
  have hzero : ∀ i, i < max → ¬ i < t.mem.size → (ops.foldl (Abs.step max) (⟨0, fun _ => 0⟩ : Abs ℝ)).prio i = 0 := by
    intro i hi hi'
    exact hr.empty i (by omega) hi
  have hsub : Finset.range t.mem.size ⊆ Finset.range max := by
    apply Finset.range_subset_range.2; omega
  rw [← Finset.sum_subset hsub, Finset.sum_div, Finset.mul_sum]
  · apply Finset.sum_congr rfl
    intro i hi
    have hi' := Finset.mem_range.1 hi
    have hpos := hr.stored i (by omega)
    rw [C158_stratified_partial max hmax ops hv t ht hties htot n hn choose i (by omega), Real.rpow_neg_one]
    have hs : (0 : ℝ) < t.mem.size := by exact_mod_cast (show 0 < t.mem.size by omega)
    field_simp
  · intro i hi hi'
    rw [C158_stratified_partial max hmax ops hv t ht hties htot n hn choose i (Finset.mem_range.1 hi),
      hzero i (Finset.mem_range.1 hi) (by simpa using hi')]
    simp

/-- C158: the weights that `get` returns are these weights times a positive number that depends on the batch. -/
theorem C158_batch_scale (size : Nat) (hsize : 0 < size) (total beta : ℝ) (htot : 0 < total) (ps : List ℝ)
    (hne : ps ≠ []) (hpos : ∀ p ∈ ps, 0 < p) :
    ∃ c, 0 < c ∧ isWeights size total beta ps = some (ps.map (fun p => c * ((size : ℝ) * (p / total)) ^ (-beta))) := by
  have hs : (0 : ℝ) < size := by exact_mod_cast hsize
  have hwne : ps.map (fun p => ((size : ℝ) * (p / total)) ^ (-beta)) ≠ [] := by simpa using hne
  obtain ⟨m, hm, hmem, hmax⟩ := maxOf_spec _ hwne
  obtain ⟨p, hp, hpm⟩ := List.mem_map.1 hmem
  have hm0 : 0 < m := by
    rw [← hpm]; exact Real.rpow_pos_of_pos (mul_pos hs (div_pos (hpos p hp) htot)) _
  refine ⟨1 / m, by positivity, ?_⟩
  simp only [isWeights, hm, List.map_map]
  congr 1
  apply List.map_congr_left
  intro p _
  simp only [Function.comp]
  ring

/-- The whole array of a tree with four leaves. -/
theorem tree4R (tree : List ℝ) (a b c d : ℝ) (h : SumTreeOK tree 4) (h0 : tree.getD 3 0 = a)
    (h1 : tree.getD 4 0 = b) (h2 : tree.getD 5 0 = c) (h3 : tree.getD 6 0 = d) :
    tree = [(a + b) + (c + d), a + b, c + d, a, b, c, d] := by
  obtain ⟨hl, hs⟩ := h
  have e1 := hs 1 (by omega)
  have e2 := hs 2 (by omega)
  have e0 := hs 0 (by omega)
  match tree, hl with
  | [t0, t1, t2, t3, t4, t5, t6], _ =>
    simp [List.getD] at h0 h1 h2 h3 e0 e1 e2
    subst h0 h1 h2 h3 e1 e2 e0
    rfl

/-- The whole array of a tree with two leaves. -/
theorem tree2R (tree : List ℝ) (a b : ℝ) (h : SumTreeOK tree 2) (h0 : tree.getD 1 0 = a) (h1 : tree.getD 2 0 = b) :
    tree = [a + b, a, b] := by
  obtain ⟨hl, hs⟩ := h
  have e0 := hs 0 (by omega)
  match tree, hl with
  | [t0, t1, t2], _ =>
    simp [List.getD] at h0 h1 e0
    subst h0 h1 e0
    rfl

/-- Rows of one episode. -/
def rowR (k : Nat) : Row Nat Nat ℝ Nat := ⟨k, 0, 0, k + 1, false, false, 0, 0⟩

/-- Four transitions with priorities 1, 2, 2, 1. -/
def opsFour : List (TOp Nat Nat ℝ Nat) := [.add [rowR 0, rowR 1, rowR 2, rowR 3] [1, 2, 2, 1] 1 1]

/-- Two transitions with priorities 1 and 3. -/
def opsTwo : List (TOp Nat Nat ℝ Nat) := [.add [rowR 0, rowR 1] [1, 3] 1 1]

theorem opsFour_valid : AllValid (R := ℝ) 4 ⟨0, fun _ => 0⟩ opsFour := by
  refine ⟨⟨by norm_num, by norm_num, ?_⟩, trivial⟩
  intro p hp
  simp only [List.mem_cons, List.not_mem_nil, or_false] at hp
  rcases hp with rfl | rfl | rfl | rfl <;> norm_num

theorem opsTwo_valid : AllValid (R := ℝ) 2 ⟨0, fun _ => 0⟩ opsTwo := by
  refine ⟨⟨by norm_num, by norm_num, ?_⟩, trivial⟩
  intro p hp
  simp only [List.mem_cons, List.not_mem_nil, or_false] at hp
  rcases hp with rfl | rfl <;> norm_num

theorem windowsFour : windows (R := ℝ) 1 1 [rowR 0, rowR 1, rowR 2, rowR 3] =
    [(0, rowR 0), (1, rowR 1), (2, rowR 2), (3, rowR 3)] := by
  simp [windows, usable, nstep, List.range_succ, rowR, Verif.Dataset.discountedReturn]

theorem windowsTwo : windows (R := ℝ) 1 1 [rowR 0, rowR 1] = [(0, rowR 0), (1, rowR 1)] := by
  simp [windows, usable, nstep, List.range_succ, rowR, Verif.Dataset.discountedReturn]

theorem opsFour_prio : (List.range 4).map (opsFour.foldl (Abs.step 4) (⟨0, fun _ => 0⟩ : Abs ℝ)).prio = [1, 2, 2, 1] := by
  simp [opsFour, Abs.step, windowsFour, Abs.put, List.range_succ]

theorem opsTwo_prio : (List.range 2).map (opsTwo.foldl (Abs.step 2) (⟨0, fun _ => 0⟩ : Abs ℝ)).prio = [1, 3] := by
  simp [opsTwo, Abs.step, windowsTwo, Abs.put, List.range_succ]

theorem fourTree : ∃ t, execT (STree.new 4) opsFour = .ok t ∧ t.tree = [6, 3, 3, 1, 2, 2, 1] ∧ t.mem.maxSize = 4 := by
  obtain ⟨t, h1, hr⟩ := execT_rep (max := 4) (by decide) opsFour (rep_new (X := Nat) (A := Nat) (R := ℝ) (P := Nat) 4
    (by decide)) opsFour_valid
  have hp := opsFour_prio
  simp only [List.range_succ, List.range_zero, List.nil_append, List.cons_append, List.map_cons, List.map_nil,
    List.cons.injEq, and_true] at hp
  refine ⟨t, h1, ?_, hr.fifo.maxSize⟩
  rw [tree4R t.tree 1 2 2 1 hr.sums ((hr.leaf 0 (by decide)).trans hp.1) ((hr.leaf 1 (by decide)).trans hp.2.1)
    ((hr.leaf 2 (by decide)).trans hp.2.2.1) ((hr.leaf 3 (by decide)).trans hp.2.2.2)]
  norm_num

theorem twoTree : ∃ t, execT (STree.new 2) opsTwo = .ok t ∧ t.tree = [4, 1, 3] ∧ Fifo t.mem 2 [rowR 0, rowR 1] := by
  obtain ⟨t, h1, hr⟩ := execT_rep (max := 2) (by decide) opsTwo (rep_new (X := Nat) (A := Nat) (R := ℝ) (P := Nat) 2
    (by decide)) opsTwo_valid
  have hp := opsTwo_prio
  simp only [List.range_succ, List.range_zero, List.nil_append, List.cons_append, List.map_cons, List.map_nil,
    List.cons.injEq, and_true] at hp
  have hf := hr.fifo
  rw [List.nil_append, show historyT opsTwo = [rowR 0, rowR 1] from by simp [historyT, opsTwo, windowsTwo]] at hf
  refine ⟨t, h1, ?_, hf⟩
  rw [tree2R t.tree 1 3 hr.sums ((hr.leaf 0 (by decide)).trans hp.1) ((hr.leaf 1 (by decide)).trans hp.2)]
  norm_num

/-- The hypotheses of the partial theorems above are met by the memory with the priorities 1 and 3: with a batch of
two, the second transition is expected 3/2 times. -/
example : ∃ t, execT (STree.new 2) opsTwo = .ok t ∧ ∀ choose : Nat → Nat → Bool,
    ((segments t.totalP 2).mapIdx (fun k sg => slotProb t (choose k) sg.1 sg.2 1)).sum = 3 / 2 := by
  obtain ⟨t, h1, h2, h3⟩ := twoTree
  have htot : t.totalP = 4 := by rw [STree.totalP, h2]; rfl
  refine ⟨t, h1, fun choose => ?_⟩
  have hp := opsTwo_prio
  simp only [List.range_succ, List.range_zero, List.nil_append, List.cons_append, List.map_cons, List.map_nil,
    List.cons.injEq, and_true] at hp
  rw [C158_stratified_partial 2 le_rfl opsTwo opsTwo_valid t h1 _ (by rw [htot]; norm_num) 2 (by norm_num) choose 1
    (by norm_num), htot, hp.2]
  · norm_num
  · intro k hk
    obtain rfl : k = 0 := by omega
    rw [h2]
    norm_num

/-- Two steps from the root of the tree with the priorities 1, 2, 2, 1. -/
theorem four_get (t : STree Nat Nat ℝ Nat) (h2 : t.tree = [6, 3, 3, 1, 2, 2, 1]) (h3 : t.mem.maxSize = 4)
    (choose : Nat → Bool) (s : ℝ) :
    (t.getInd choose s).2.2 = if choose 0 then (if s ≤ 1 then 0 else 1) else (if s ≤ 2 then 2 else 3) := by
  simp only [STree.getInd, h2, h3]
  cases h : choose 0 <;> by_cases h' : s ≤ 1 <;> by_cases h'' : s ≤ 2 <;> simp [retrieve, h, h', h'']

theorem four_prob (t : STree Nat Nat ℝ Nat) (h2 : t.tree = [6, 3, 3, 1, 2, 2, 1]) (h3 : t.mem.maxSize = 4)
    (choose : Nat → Bool) :
    slotProb t choose 0 6 2 = (if choose 0 then 0 else 1 / 3) ∧ slotProb t choose 0 6 3 = (if choose 0 then 0 else 2 / 3) := by
  simp only [slotProb, four_get t h2 h3 choose]
  cases h : choose 0
  · have e1 : {s : ℝ | s ∈ Set.Ico (0 : ℝ) 6 ∧ (if s ≤ 2 then 2 else 3) = 2} = Set.Icc 0 2 := by
      ext s
      simp only [Set.mem_ofPred_eq, Set.mem_Ico, Set.mem_Icc]
      constructor
      · rintro ⟨⟨a, b⟩, c⟩
        by_cases hs : s ≤ 2
        · exact ⟨a, hs⟩
        · rw [if_neg hs] at c; omega
      · rintro ⟨a, b⟩
        exact ⟨⟨a, by linarith⟩, by rw [if_pos b]⟩
    have e2 : {s : ℝ | s ∈ Set.Ico (0 : ℝ) 6 ∧ (if s ≤ 2 then 2 else 3) = 3} = Set.Ioo 2 6 := by
      ext s
      simp only [Set.mem_ofPred_eq, Set.mem_Ico, Set.mem_Ioo]
      constructor
      · rintro ⟨⟨a, b⟩, c⟩
        by_cases hs : s ≤ 2
        · rw [if_pos hs] at c; omega
        · exact ⟨lt_of_not_ge hs, b⟩
      · rintro ⟨a, b⟩
        exact ⟨⟨by linarith, b⟩, by rw [if_neg (not_le.2 a)]⟩
    simp only [Bool.false_eq_true, if_false, e1, e2, Measure.real, Real.volume_Icc, Real.volume_Ioo]
    rw [ENNReal.toReal_ofReal (by norm_num), ENNReal.toReal_ofReal (by norm_num)]
    norm_num
  · have e1 : ∀ j : Nat, 2 ≤ j → {s : ℝ | s ∈ Set.Ico (0 : ℝ) 6 ∧ (if s ≤ 1 then 0 else 1) = j} = ∅ := by
      intro j hj
      ext s
      simp only [Set.mem_ofPred_eq, Set.mem_empty_iff_false, iff_false, not_and]
      intro _
      split <;> omega
    simp only [if_true, e1 2 le_rfl, e1 3 (by norm_num), Measure.real, measure_empty, ENNReal.toReal_zero, zero_div, and_self]

/-- Finding: with equal sums of siblings the child is chosen by a coin and the value `s` is handed on as it is, so
the shares below are wrong. With priorities 1, 2, 2, 1 the last transition is drawn with probability 1/3 and the one
before it, whose priority is twice as large, with probability 1/6 (1/6 and 1/3 would be proportional). -/
theorem C158_proportional_refuted : AllValid (R := ℝ) 4 ⟨0, fun _ => 0⟩ opsFour ∧
    (List.range 4).map (opsFour.foldl (Abs.step 4) (⟨0, fun _ => 0⟩ : Abs ℝ)).prio = [1, 2, 2, 1] ∧
    ∃ t, execT (STree.new 4) opsFour = .ok t ∧ t.totalP = 6 ∧
      slotProbCoins t 3 0 t.totalP 2 = 1 / 6 ∧ slotProbCoins t 3 0 t.totalP 3 = 1 / 3 := by
  obtain ⟨t, h1, h2, h3⟩ := fourTree
  have htot : t.totalP = 6 := by rw [STree.totalP, h2]; rfl
  have hsum : ∀ v : ℝ, ∑ c : Fin 3 → Bool, (if coinsAt c 0 then 0 else v) = 4 * v := by
    intro v
    have hc : ∀ c : Fin 3 → Bool, coinsAt c 0 = c 0 := fun c => by simp [coinsAt]
    simp only [hc]
    rw [Finset.sum_ite, Finset.sum_const_zero, zero_add, Finset.sum_const,
      show (Finset.univ.filter (fun c : Fin 3 → Bool => ¬ c 0 = true)).card = 4 from by decide +kernel]
    simp
  refine ⟨opsFour_valid, opsFour_prio, t, h1, htot, ?_, ?_⟩
  · simp only [slotProbCoins, htot, fun c => (four_prob t h2 h3 c).1, hsum]
    norm_num
  · simp only [slotProbCoins, htot, fun c => (four_prob t h2 h3 c).2, hsum]
    norm_num

/-- Two transitions added with priority 1, as `max_priority` is before the memory is initialized. -/
def opsNew : List (TOp Nat Nat ℝ Nat) := [.add [rowR 0, rowR 1] [1, 1] 1 1]

theorem opsNew_valid (max : Nat) : AllValid (R := ℝ) max ⟨0, fun _ => 0⟩ opsNew := by
  refine ⟨⟨by norm_num, by norm_num, ?_⟩, trivial⟩
  intro p hp
  simp only [List.mem_cons, List.not_mem_nil, or_false] at hp
  rcases hp with rfl | rfl <;> norm_num

/-- Finding: also with equal priorities, in a memory of three slots two of which have been filled, one draw out of four
leads to the empty slot, whose priority is 0, and reading it raises `IndexError`. -/
theorem C158_empty_slot_refuted : AllValid (R := ℝ) 3 ⟨0, fun _ => 0⟩ opsNew ∧
    (List.range 3).map (opsNew.foldl (Abs.step 3) (⟨0, fun _ => 0⟩ : Abs ℝ)).prio = [1, 1, 0] ∧
    ∃ t, execT (STree.new 3) opsNew = .ok t ∧ t.totalP = 2 ∧
      slotProbCoins t 2 0 t.totalP 2 = 1 / 4 ∧ t.mem.get [2] = .error .index := by
  have hprio : (List.range 3).map (opsNew.foldl (Abs.step 3) (⟨0, fun _ => 0⟩ : Abs ℝ)).prio = [1, 1, 0] := by
    simp [opsNew, Abs.step, windowsTwo, Abs.put, List.range_succ]
  obtain ⟨t, h1, hr⟩ := execT_rep (max := 3) (by decide) opsNew (rep_new (X := Nat) (A := Nat) (R := ℝ) (P := Nat) 3
    (by decide)) (opsNew_valid 3)
  have hp := hprio
  simp only [List.range_succ, List.range_zero, List.nil_append, List.cons_append, List.map_cons, List.map_nil,
    List.cons.injEq, and_true] at hp
  have hf := hr.fifo
  rw [List.nil_append, show historyT opsNew = [rowR 0, rowR 1] from by simp [historyT, opsNew, windowsTwo]] at hf
  have h2 : t.tree = [2, 1, 1, 1, 0] := by
    obtain ⟨hl, hs⟩ := hr.sums
    have e1 := hs 1 (by omega)
    have e0 := hs 0 (by omega)
    have l0 := (hr.leaf 0 (by decide)).trans hp.1
    have l1 := (hr.leaf 1 (by decide)).trans hp.2.1
    have l2 := (hr.leaf 2 (by decide)).trans hp.2.2
    match ht : t.tree, hl with
    | [t0, t1, t2, t3, t4], _ =>
      rw [ht] at e1 e0 l0 l1 l2
      simp [List.getD] at e1 e0 l0 l1 l2
      subst l0 l1 l2
      rw [e0, e1]
      norm_num
  have htot : t.totalP = 2 := by rw [STree.totalP, h2]; rfl
  have hget : ∀ choose s, (t.getInd choose s).2.2 = if choose 0 then (if s ≤ 1 then 1 else 2) else 0 := by
    intro choose s
    simp only [STree.getInd, h2, hf.maxSize]
    cases h : choose 0 <;> by_cases h' : s ≤ 1 <;> simp [retrieve, h, h']
  have hprob : ∀ choose, slotProb t choose 0 2 2 = if choose 0 then 1 / 2 else 0 := by
    intro choose
    simp only [slotProb, hget choose]
    cases h : choose 0
    · simp [Measure.real]
    · have e2 : {s : ℝ | s ∈ Set.Ico (0 : ℝ) 2 ∧ (if s ≤ 1 then 1 else 2) = 2} = Set.Ioo 1 2 := by
        ext s
        simp only [Set.mem_ofPred_eq, Set.mem_Ico, Set.mem_Ioo]
        constructor
        · rintro ⟨⟨a, b⟩, c⟩
          by_cases hs : s ≤ 1
          · rw [if_pos hs] at c; omega
          · exact ⟨lt_of_not_ge hs, b⟩
        · rintro ⟨a, b⟩
          exact ⟨⟨by linarith, b⟩, by rw [if_neg (not_le.2 a)]⟩
      simp only [if_true, e2, Measure.real, Real.volume_Ioo]
      rw [ENNReal.toReal_ofReal (by norm_num)]
      norm_num
  have hsum : ∑ c : Fin 2 → Bool, (if coinsAt c 0 then (1 / 2 : ℝ) else 0) = 1 := by
    have hc : ∀ c : Fin 2 → Bool, coinsAt c 0 = c 0 := fun c => by simp [coinsAt]
    simp only [hc]
    rw [Finset.sum_ite, Finset.sum_const_zero, add_zero, Finset.sum_const,
      show (Finset.univ.filter (fun c : Fin 2 → Bool => c 0 = true)).card = 2 from by decide +kernel]
    simp
  refine ⟨opsNew_valid 3, hprio, t, h1, htot, ?_, ?_⟩
  · simp only [slotProbCoins, htot, hprob, hsum]
    norm_num
  · simp only [Mem.get, hf.notFull (by decide)]
    rfl

/-- The weighted sum of `f` over the batch returned by `get`, `f` being given by tree index. -/
noncomputable def weightedSum (f : Nat → ℝ) :
    Except Err (List (Row Nat Nat ℝ Nat) × List Nat × Option (List ℝ)) → ℝ
  | .ok (_, idxs, some w) => ((idxs.zip w).map (fun p => p.2 * f p.1)).sum
  | _ => 0

theorem two_get (t : STree Nat Nat ℝ Nat) (h2 : t.tree = [4, 1, 3]) (h3 : t.mem.maxSize = 2)
    (choose : Nat → Bool) (s : ℝ) : t.getInd choose s = if s ≤ 1 then (1, 1, 0) else (2, 3, 1) := by
  simp only [STree.getInd, h2, h3]
  by_cases h' : s ≤ 1 <;> simp [retrieve, h']

theorem two_weights : isWeights 2 4 1 [1, 3] = some [1, 1 / 3] ∧ isWeights 2 4 1 [3, 3] = some [1, 1] := by
  constructor
  · simp only [isWeights, maxOf, List.map_cons, List.map_nil, List.foldl_cons, List.foldl_nil, Real.rpow_neg_one]
    norm_num
  · simp only [isWeights, maxOf, List.map_cons, List.map_nil, List.foldl_cons, List.foldl_nil, Real.rpow_neg_one]
    norm_num

/-- Finding: the division by the largest weight of the batch brings the bias back. Two stored transitions with
priorities 1 and 3, batches of two, `beta = 1`, and a quantity that is 1 for the first and -1 for the second: its
average over the memory is 0, and so is the expected weighted sum without the division; the expected weighted sum with
the weights that `get` returns is -2/3, whatever value the second draw takes. -/
theorem C158_weights_refuted : ∃ m : PER Nat Nat Nat, AllValid (R := ℝ) 2 ⟨0, fun _ => 0⟩ opsTwo ∧
    execT (STree.new 2) opsTwo = .ok m.tree ∧ segments m.tree.totalP 2 = [(0, 2), (2, 4)] ∧
    ∀ s1, 2 ≤ s1 → s1 < 4 → ∀ choose, (∫ s0 in (0 : ℝ)..2,
      weightedSum (fun idx => if idx = 1 then 1 else -1) (m.get 1 [s0, s1] choose)) / (2 - 0) = -2 / 3 := by
  obtain ⟨t, h1, h2, h3⟩ := twoTree
  have htot : t.totalP = 4 := by rw [STree.totalP, h2]; rfl
  have hb : t.mem.buf = [rowR 0, rowR 1] := by
    have h4 := h3.isFull (by simp)
    have h5 := h3.idx
    simp at h5 h4
    rw [h5] at h4
    simpa using h4.2
  have hsize : t.mem.size = 2 := by rw [fifo_size h3]; rfl
  have hg : t.mem.get [0, 1] = .ok [rowR 0, rowR 1] ∧ t.mem.get [1, 1] = .ok [rowR 1, rowR 1] := by
    simp only [Mem.get, hb]
    exact ⟨rfl, rfl⟩
  refine ⟨⟨0, 2, 1, 1, t⟩, opsTwo_valid, h1, ?_, ?_⟩
  · simp only [htot, segments, List.range_succ, List.range_zero]
    norm_num
  · intro s1 hs1 hs1' choose
    have key : ∀ s0, weightedSum (fun idx => if idx = 1 then 1 else -1) ((⟨0, 2, 1, 1, t⟩ : PER Nat Nat Nat).get 1 [s0, s1] choose) =
        if s0 ≤ 1 then 2 / 3 else -2 := by
      intro s0
      have hn1 : ¬ s1 ≤ 1 := by linarith
      by_cases hs : s0 ≤ 1
      · simp only [PER.get, List.zipIdx_cons, List.zipIdx_nil, List.map_cons, List.map_nil, two_get t h2 h3.maxSize,
          if_pos hs, if_neg hn1, hg.1, hsize, htot, two_weights.1]
        simp [weightedSum]
        norm_num
      · simp only [PER.get, List.zipIdx_cons, List.zipIdx_nil, List.map_cons, List.map_nil, two_get t h2 h3.maxSize,
          if_neg hs, if_neg hn1, hg.2, hsize, htot, two_weights.2]
        simp [weightedSum]
        norm_num
    simp only [key]
    have i1 : Set.EqOn (fun _ => (2 / 3 : ℝ)) (fun s0 : ℝ => if s0 ≤ 1 then (2 / 3 : ℝ) else -2) (Set.uIoc 0 1) := by
      intro s hs
      rw [Set.uIoc_of_le zero_le_one] at hs
      exact (if_pos hs.2).symm
    have i2 : Set.EqOn (fun _ => (-2 : ℝ)) (fun s0 : ℝ => if s0 ≤ 1 then (2 / 3 : ℝ) else -2) (Set.uIoc 1 2) := by
      intro s hs
      rw [Set.uIoc_of_le one_le_two] at hs
      exact (if_neg (not_le.2 hs.1)).symm
    rw [← intervalIntegral.integral_add_adjacent_intervals (b := 1) (intervalIntegrable_const.congr i1)
      (intervalIntegrable_const.congr i2), ← intervalIntegral.integral_congr_ae (.of_forall i1),
      ← intervalIntegral.integral_congr_ae (.of_forall i2)]
    norm_num

end Verif.Memory
