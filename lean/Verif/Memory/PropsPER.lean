/-
Properties of the prioritized replay memory: C19.
-/
import Verif.Memory.ModelPER
import Verif.Memory.Props
import Mathlib.Tactic.NormNum
import Mathlib.Tactic.Linarith
import Mathlib.Tactic.Positivity

namespace Verif.Memory

open Verif.Dataset (Row)

variable {X A P : Type}

theorem foldl_max_ge {R : Type} [LinearOrder R] (l : List R) : ∀ x, x ≤ l.foldl max x ∧ (∀ y ∈ l, y ≤ l.foldl max x) ∧
    (l.foldl max x = x ∨ l.foldl max x ∈ l) := by
  induction l with
  | nil => intro x; simp
  | cons a l ih =>
    intro x
    obtain ⟨h1, h2, h3⟩ := ih (max x a)
    simp only [List.foldl_cons]
    refine ⟨le_trans (le_max_left _ _) h1, ?_, ?_⟩
    · intro y hy
      rcases List.mem_cons.1 hy with rfl | hy
      · exact le_trans (le_max_right _ _) h1
      · exact h2 y hy
    · rcases h3 with h3 | h3
      · rcases max_choice x a with hx | hx
        · left; rw [h3, hx]
        · right; rw [h3, hx]; exact List.mem_cons_self
      · right; exact List.mem_cons_of_mem _ h3

/-- `maxOf` is the maximum. -/
theorem maxOf_spec {R : Type} [LinearOrder R] (l : List R) (hne : l ≠ []) :
    ∃ m, maxOf l = some m ∧ m ∈ l ∧ ∀ x ∈ l, x ≤ m := by
  match l, hne with
  | x :: l, _ =>
    obtain ⟨h1, h2, h3⟩ := foldl_max_ge l x
    refine ⟨_, rfl, ?_, ?_⟩
    · rcases h3 with h3 | h3
      · rw [h3]; exact List.mem_cons_self
      · exact List.mem_cons_of_mem _ h3
    · intro y hy
      rcases List.mem_cons.1 hy with rfl | hy
      · exact h1
      · exact h2 y hy

/-- C19. For any nonempty batch of positive priorities and `beta >= 0`, the weights are: one per sample, positive, at
most 1, one of them is exactly 1, samples with a smaller priority do not get a smaller weight; each weight is
`(p_min / p) ^ beta` with `p_min` the smallest sampled priority. -/
theorem C19_weights (size : Nat) (hsize : 0 < size) (total beta : ℝ) (htot : 0 < total) (hb : 0 ≤ beta)
    (ps : List ℝ) (hne : ps ≠ []) (hpos : ∀ p ∈ ps, 0 < p) :
    ∃ w, isWeights size total beta ps = some w ∧ w.length = ps.length ∧ (∀ x ∈ w, 0 < x ∧ x ≤ 1) ∧ 1 ∈ w ∧
      (∀ (i j : Nat) (hi : i < ps.length) (hj : j < ps.length) (hi' : i < w.length) (hj' : j < w.length),
        ps[i] ≤ ps[j] → w[j] ≤ w[i]) ∧
      ∃ pmin ∈ ps, (∀ p ∈ ps, pmin ≤ p) ∧ w = ps.map (fun p => (pmin / p) ^ beta) := by
  have hs : (0 : ℝ) < size := by exact_mod_cast hsize
  have hbase : ∀ p ∈ ps, 0 < (size : ℝ) * (p / total) := fun p hp => mul_pos hs (div_pos (hpos p hp) htot)
  have hant : ∀ p ∈ ps, ∀ p' ∈ ps, p ≤ p' →
      ((size : ℝ) * (p' / total)) ^ (-beta) ≤ ((size : ℝ) * (p / total)) ^ (-beta) := by
    intro p hp p' hp' hle
    apply Real.rpow_le_rpow_of_nonpos (hbase p hp) _ (by linarith)
    exact mul_le_mul_of_nonneg_left (div_le_div_of_nonneg_right hle htot.le) hs.le
  have hwne : ps.map (fun p => ((size : ℝ) * (p / total)) ^ (-beta)) ≠ [] := by simpa using hne
  obtain ⟨m, hm, hmem, hmax⟩ := maxOf_spec _ hwne
  rw [List.mem_map] at hmem
  obtain ⟨p0, hp0, rfl⟩ := hmem
  -- the smallest priority
  obtain ⟨pm, hpm, hpmin⟩ : ∃ pm ∈ ps, ∀ p ∈ ps, pm ≤ p := by
    have h2 : ps.map (fun p => -p) ≠ [] := by simpa using hne
    obtain ⟨mm, _, hh1, hh2⟩ := maxOf_spec (ps.map (fun p => -p)) h2
    rw [List.mem_map] at hh1
    obtain ⟨pm, hpm, rfl⟩ := hh1
    refine ⟨pm, hpm, fun p hp => ?_⟩
    have := hh2 (-p) (List.mem_map.2 ⟨p, hp, rfl⟩)
    linarith
  have heq : ((size : ℝ) * (p0 / total)) ^ (-beta) = ((size : ℝ) * (pm / total)) ^ (-beta) := by
    apply le_antisymm
    · exact hant pm hpm p0 hp0 (hpmin p0 hp0)
    · exact hmax _ (List.mem_map.2 ⟨pm, hpm, rfl⟩)
  have hclosed : ∀ p ∈ ps, ((size : ℝ) * (p / total)) ^ (-beta) / ((size : ℝ) * (p0 / total)) ^ (-beta) =
      (pm / p) ^ beta := by
    intro p hp
    have h1 := hpos p hp
    have h2 := hpos pm hpm
    rw [heq, ← Real.div_rpow (hbase p hp).le (hbase pm hpm).le, Real.rpow_neg (by
      exact (div_pos (hbase p hp) (hbase pm hpm)).le), ← Real.inv_rpow (div_pos (hbase p hp) (hbase pm hpm)).le]
    congr 1
    field_simp
  have hw : (ps.map (fun p => ((size : ℝ) * (p / total)) ^ (-beta))).map
      (fun x => x / ((size : ℝ) * (p0 / total)) ^ (-beta)) = ps.map (fun p => (pm / p) ^ beta) := by
    rw [List.map_map]
    apply List.map_congr_left
    intro p hp
    exact hclosed p hp
  refine ⟨ps.map (fun p => (pm / p) ^ beta), ?_, by simp, ?_, ?_, ?_, pm, hpm, hpmin, rfl⟩
  · simp only [isWeights, hm, hw]
  · intro x hx
    rw [List.mem_map] at hx
    obtain ⟨p, hp, rfl⟩ := hx
    have h1 := hpos p hp
    have h2 := hpos pm hpm
    refine ⟨Real.rpow_pos_of_pos (div_pos h2 h1) _, ?_⟩
    apply Real.rpow_le_one (div_pos h2 h1).le _ hb
    rw [div_le_one h1]
    exact hpmin p hp
  · rw [List.mem_map]
    refine ⟨pm, hpm, ?_⟩
    rw [div_self (hpos pm hpm).ne', Real.one_rpow]
  · intro i j hi hj hi' hj' hle
    simp only [List.getElem_map]
    have h1 := hpos _ (List.getElem_mem hi)
    have h2 := hpos _ (List.getElem_mem hj)
    have h3 := hpos pm hpm
    apply Real.rpow_le_rpow (div_pos h3 h2).le _ hb
    exact div_le_div_of_nonneg_left h3.le h1 hle

/-- C19: the priorities written by `update` are positive, and grow with the absolute error (`alpha >= 0`). -/
theorem C19_update_priorities (epsilon alpha : ℝ) (he : 0 < epsilon) (ha : 0 ≤ alpha) :
    (∀ err, 0 < priorityOf epsilon alpha err) ∧
    (∀ e1 e2, |e1| ≤ |e2| → priorityOf epsilon alpha e1 ≤ priorityOf epsilon alpha e2) := by
  constructor
  · intro err
    exact Real.rpow_pos_of_pos (by positivity) _
  · intro e1 e2 h
    apply Real.rpow_le_rpow (by positivity) (by linarith) ha

/-- C19: after `update(error, idx)` on leaves of stored transitions, every one of these leaves has the priority
`(|error| + epsilon) ^ alpha` of its last entry in the call, and the other ones keep theirs (stated with the abstract
state of C17). -/
theorem C19_update (m : PER X A P) (max : Nat) (hmax : 2 ≤ max) (ops : List (TOp X A ℝ P))
    (hv : AllValid max ⟨0, fun _ => 0⟩ ops) (ht : execT (STree.new max) ops = .ok m.tree) (he : 0 < m.epsilon)
    (ups : List (Nat × ℝ)) (hups : ∀ u ∈ ups, max - 1 ≤ u.1 ∧ u.1 < max - 1 + min (historyT ops).length max) :
    ∃ m' : PER X A P, m.update ups = .ok m' ∧
      AllValid max ⟨0, fun _ => 0⟩ (ops ++ [.update (ups.map (fun u => (u.1, priorityOf m.epsilon m.alpha u.2)))]) ∧
      execT (STree.new max) (ops ++ [.update (ups.map (fun u => (u.1, priorityOf m.epsilon m.alpha u.2)))]) =
        .ok m'.tree ∧ m'.alpha = m.alpha ∧ m'.epsilon = m.epsilon := by
  have hcount := (C17_priorities_positive max hmax ops hv).1
  have hval : AllValid max ⟨0, fun _ => 0⟩
      (ops ++ [.update (ups.map (fun u => (u.1, priorityOf m.epsilon m.alpha u.2)))]) := by
    have key : ∀ (ops : List (TOp X A ℝ P)) (a : Abs ℝ) (op : TOp X A ℝ P), AllValid max a ops →
        op.Valid max (ops.foldl (Abs.step max) a).count → AllValid max a (ops ++ [op]) := by
      intro ops
      induction ops with
      | nil => intro a op _ h; exact ⟨h, trivial⟩
      | cons o ops ih => intro a op h1 h2; exact ⟨h1.1, ih _ _ h1.2 h2⟩
    apply key ops _ _ hv
    intro u hu
    rw [List.mem_map] at hu
    obtain ⟨u', hu', rfl⟩ := hu
    obtain ⟨a, b⟩ := hups u' hu'
    rw [hcount]
    exact ⟨a, b, Real.rpow_pos_of_pos (by positivity) _⟩
  obtain ⟨t', h1, _⟩ := C17_sum_tree max hmax _ hval
  have key2 : ∀ (ops : List (TOp X A ℝ P)) (t : STree X A ℝ P) (ups : List (Nat × ℝ)),
      execT t (ops ++ [.update ups]) = match execT t ops with
        | .error e => .error e
        | .ok t => t.update ups := by
    intro ops
    induction ops with
    | nil => intro t ups; simp only [List.nil_append, execT]; split <;> simp_all
    | cons o ops ih =>
      intro t ups
      cases o with
      | add rows pr n g =>
        simp only [List.cons_append, execT]
        cases t.add rows pr n g with
        | error e => rfl
        | ok q => exact ih q.1 ups
      | update us =>
        simp only [List.cons_append, execT]
        cases t.update us with
        | error e => rfl
        | ok q => exact ih q ups
  have h2 := h1
  rw [key2, ht] at h2
  simp only [] at h2
  exact ⟨{ m with tree := t' }, by simp only [PER.update, h2], hval, h1, rfl, rfl⟩

/-- C19, sampling from a full memory: `get` succeeds for every batch of drawn values and every random choice, and
returns one stored transition, leaf index and weight per sample; the weights are normalised. -/
theorem C19_get_full (m : PER X A P) (max : Nat) (hmax : 2 ≤ max) (ops : List (TOp X A ℝ P))
    (hv : AllValid max ⟨0, fun _ => 0⟩ ops) (ht : execT (STree.new max) ops = .ok m.tree)
    (hfull : max ≤ (historyT ops).length) (beta : ℝ) (hb : 0 ≤ beta) (samples : List ℝ) (hne : samples ≠ [])
    (choose : Nat → Nat → Bool) :
    ∃ rows idxs w, m.get beta samples choose = .ok (rows, idxs, some w) ∧ rows.length = samples.length ∧
      idxs.length = samples.length ∧ w.length = samples.length ∧
      (∀ r ∈ rows, r ∈ (historyT ops).drop ((historyT ops).length - max)) ∧
      (∀ i ∈ idxs, max - 1 ≤ i ∧ i < 2 * max - 1) ∧
      (∀ x ∈ w, 0 < x ∧ x ≤ 1) ∧ 1 ∈ w := by
  obtain ⟨t, h1, hr⟩ := execT_rep hmax ops (rep_new (X := X) (A := A) (P := P) (R := ℝ) max hmax) hv
  rw [List.nil_append] at hr
  rw [ht] at h1
  obtain rfl : m.tree = t := by simpa using h1
  have hslot := fun s c => C18_valid_slot max hmax ops hv m.tree ht c s
  have hbl := (hr.fifo.isFull hfull).1
  have hget : ∀ idxs : List Nat, (∀ i ∈ idxs, i < m.tree.mem.buf.length) →
      ∃ out, m.tree.mem.get idxs = .ok out ∧ out.length = idxs.length ∧ ∀ r ∈ out, r ∈ m.tree.mem.buf := by
    intro idxs
    induction idxs with
    | nil => intro _; exact ⟨[], rfl, rfl, by simp⟩
    | cons i idxs ih =>
      intro hi
      have hlt := hi i List.mem_cons_self
      obtain ⟨out, e1, e2, e3⟩ := ih (fun j hj => hi j (List.mem_cons_of_mem _ hj))
      refine ⟨m.tree.mem.buf[i] :: out, ?_, by simp [e2], ?_⟩
      · simp only [Mem.get, List.mapM_cons, List.getElem?_eq_getElem hlt] at e1 ⊢
        simp only [bind, Except.bind, pure, Except.pure, e1]
      · intro r hr'
        rcases List.mem_cons.1 hr' with rfl | hr'
        · exact List.getElem_mem hlt
        · exact e3 r hr'
  obtain ⟨rows, e1, e2, e3⟩ := hget ((samples.zipIdx.map (fun p => m.tree.getInd (choose p.2) p.1)).map
      (fun f => f.2.2)) (by
    intro i hi
    simp only [List.mem_map] at hi
    obtain ⟨f, ⟨p, _, rfl⟩, rfl⟩ := hi
    obtain ⟨slot, a1, a2, _⟩ := hslot p.1 (choose p.2)
    rw [a2]; simp only []; omega)
  have hsz : m.tree.mem.size = max := by rw [fifo_size hr.fifo]; omega
  have htot : 0 < m.tree.totalP := by
    have := root_eq_sum (fun k => m.tree.tree.getD k 0) max (by omega) (fun k hk => hr.sums.2 k hk)
    rw [STree.totalP, this]
    apply Finset.sum_pos
    · intro k hk
      have hk' : k < max := by simpa using hk
      have := hr.leaf k hk'
      have hp := hr.stored k (by omega)
      rw [show max - 1 + k = k + max - 1 by omega, this]
      exact hp
    · exact ⟨0, by simp; omega⟩
  obtain ⟨w, w1, w2, w3, w4, _⟩ := C19_weights m.tree.mem.size (by omega) m.tree.totalP beta htot hb
    ((samples.zipIdx.map (fun p => m.tree.getInd (choose p.2) p.1)).map (fun f => f.2.1))
    (by simpa using hne) (by
      intro p hp
      simp only [List.mem_map] at hp
      obtain ⟨f, ⟨pq, _, rfl⟩, rfl⟩ := hp
      obtain ⟨slot, a1, a2, _⟩ := hslot pq.1 (choose pq.2)
      rw [a2]
      exact hr.stored slot (by omega))
  refine ⟨rows, (samples.zipIdx.map (fun p => m.tree.getInd (choose p.2) p.1)).map (·.1), w, ?_, ?_, ?_, ?_, ?_, ?_, w3, w4⟩
  · simp only [PER.get, e1, w1]
  · simpa using e2
  · simp
  · simpa using w2
  · intro r hr'
    exact ((fifo_perm hr.fifo).mem_iff).1 (e3 r hr')
  · intro i hi
    simp only [List.mem_map] at hi
    obtain ⟨f, ⟨p, _, rfl⟩, rfl⟩ := hi
    obtain ⟨slot, a1, a2, _⟩ := hslot p.1 (choose p.2)
    rw [a2]
    simp only []
    omega

/-- C19: the values from which the samples are drawn split `[0, total_p]` into `n` consecutive segments of equal
length. -/
theorem C19_segments (total : ℝ) (htot : 0 < total) (n : Nat) (hn : 0 < n) :
    (segments total n).length = n ∧ ((segments total n).head?.map (·.1) = some 0) ∧
    ((segments total n).getLast?.map (·.2) = some total) ∧
    (∀ k (h : k + 1 < (segments total n).length), (segments total n)[k].2 = (segments total n)[k + 1].1) ∧
    (∀ s ∈ segments total n, s.1 < s.2 ∧ s.2 - s.1 = total / n ∧ 0 ≤ s.1 ∧ s.2 ≤ total) := by
  have hn' : (0 : ℝ) < n := by exact_mod_cast hn
  obtain ⟨q, rfl⟩ : ∃ q, n = q + 1 := ⟨n - 1, by omega⟩
  refine ⟨by simp [segments], ?_, ?_, ?_, ?_⟩
  · simp [segments, List.range_succ_eq_map]
  · simp only [segments, List.range_succ, List.map_append, List.map_cons, List.map_nil, List.getLast?_append,
      List.getLast?_singleton, Option.some_or, Option.map_some, Option.some.injEq]
    field_simp
  · intro k h
    simp [segments]
  · intro s hs
    simp only [segments, List.mem_map, List.mem_range] at hs
    obtain ⟨k, hk, rfl⟩ := hs
    have hseg : 0 < total / ((q + 1 : Nat) : ℝ) := div_pos htot hn'
    have hk' : ((k + 1 : Nat) : ℝ) ≤ ((q + 1 : Nat) : ℝ) := by exact_mod_cast hk
    have hk0 : (0 : ℝ) ≤ k := Nat.cast_nonneg k
    refine ⟨?_, ?_, ?_, ?_⟩
    · exact mul_lt_mul_of_pos_right (by push_cast; linarith) hseg
    · push_cast; ring
    · exact mul_nonneg hk0 hseg.le
    · calc ((k + 1 : Nat) : ℝ) * (total / ((q + 1 : Nat) : ℝ)) ≤ ((q + 1 : Nat) : ℝ) * (total / ((q + 1 : Nat) : ℝ)) :=
            mul_le_mul_of_nonneg_right hk' hseg.le
        _ = total := by field_simp

/-- C19: `max_priority` is the largest priority in the tree when the memory is initialized, and 1 before: it is
always positive, so it can be given to `add`. -/
theorem C19_max_priority (m : PER X A P) (max : Nat) (hmax : 2 ≤ max) (ops : List (TOp X A ℝ P))
    (hv : AllValid max ⟨0, fun _ => 0⟩ ops) (ht : execT (STree.new max) ops = .ok m.tree) :
    ∃ p, m.maxPriority = some p ∧ 0 < p ∧
      (m.initialSize < min (historyT ops).length max →
        (∀ k, k < max → (ops.foldl (Abs.step max) (⟨0, fun _ => 0⟩ : Abs ℝ)).prio k ≤ p) ∧
        ∃ k, k < max ∧ p = (ops.foldl (Abs.step max) (⟨0, fun _ => 0⟩ : Abs ℝ)).prio k) ∧
      (¬ m.initialSize < min (historyT ops).length max → p = 1) := by
  obtain ⟨t, h1, hr⟩ := execT_rep hmax ops (rep_new (X := X) (A := A) (P := P) (R := ℝ) max hmax) hv
  rw [List.nil_append] at hr
  rw [ht] at h1
  obtain rfl : m.tree = t := by simpa using h1
  have hlen := hr.sums.1
  have hms := hr.fifo.maxSize
  simp only [PER.maxPriority, PER.initialized, fifo_size hr.fifo, decide_eq_true_eq, hms, hlen]
  by_cases hi : m.initialSize < min (historyT ops).length max
  · rw [if_pos hi]
    have hdl : (m.tree.tree.drop (2 * max - 1 - max)).length = max := by simp [hlen]; omega
    have hne : m.tree.tree.drop (2 * max - 1 - max) ≠ [] := by
      intro h; rw [h] at hdl; simp at hdl; omega
    obtain ⟨p, e1, e2, e3⟩ := maxOf_spec _ hne
    have hleaf : ∀ k, k < max → ∃ h : k < (m.tree.tree.drop (2 * max - 1 - max)).length,
        (m.tree.tree.drop (2 * max - 1 - max))[k] = (ops.foldl (Abs.step max) (⟨0, fun _ => 0⟩ : Abs ℝ)).prio k := by
      intro k hk
      refine ⟨by omega, ?_⟩
      rw [← hr.leaf k hk, List.getElem_drop]
      have h2 : k + max - 1 < m.tree.tree.length := by omega
      simp only [List.getD, List.getElem?_eq_getElem h2, Option.getD_some]
      congr 1; omega
    have hle : ∀ k, k < max → (ops.foldl (Abs.step max) (⟨0, fun _ => 0⟩ : Abs ℝ)).prio k ≤ p := by
      intro k hk
      obtain ⟨a, b⟩ := hleaf k hk
      rw [← b]
      exact e3 _ (List.getElem_mem a)
    refine ⟨p, e1, ?_, fun _ => ⟨hle, ?_⟩, fun h => absurd hi h⟩
    · exact lt_of_lt_of_le (hr.stored 0 (by omega)) (hle 0 (by omega))
    · obtain ⟨k, hk, rfl⟩ := List.getElem_of_mem e2
      obtain ⟨_, b⟩ := hleaf k (by omega)
      exact ⟨k, by omega, b⟩
  · rw [if_neg hi]
    exact ⟨1, rfl, one_pos, fun h => absurd h hi, fun _ => rfl⟩

/-- A full tree with two leaves, whose hypotheses are met. -/
example : ∃ (ops : List (TOp Nat Nat ℝ Nat)), AllValid 2 ⟨0, fun _ => 0⟩ ops ∧ 2 ≤ (historyT ops).length := by
  refine ⟨[.add [⟨0, 0, 1, 1, false, false, 0, 0⟩, ⟨1, 0, 1, 2, true, true, 0, 0⟩] [2, 3] 1 1], ⟨⟨?_, ?_, ?_⟩, trivial⟩, ?_⟩
  · norm_num
  · norm_num
  · intro p hp
    simp only [List.mem_cons, List.not_mem_nil, or_false] at hp
    rcases hp with rfl | rfl <;> norm_num
  · have : windows (R := ℝ) 1 1 [(⟨0, 0, 1, 1, false, false, 0, 0⟩ : Row Nat Nat ℝ Nat), ⟨1, 0, 1, 2, true, true, 0, 0⟩] ≠ [] ∧
        (windows (R := ℝ) 1 1 [(⟨0, 0, 1, 1, false, false, 0, 0⟩ : Row Nat Nat ℝ Nat), ⟨1, 0, 1, 2, true, true, 0, 0⟩]).length = 2 := by
      simp [windows, usable, nstep, List.range_succ]
    simp [historyT, this.2]

/-- Priorities 1, 2, 4 with `beta = 1`: weights 1, 1/2, 1/4. -/
example : isWeights 3 7 1 [1, 2, 4] = some [1, 1 / 2, 1 / 4] := by
  obtain ⟨w, h1, _, _, _, _, pm, hm1, hm2, h2⟩ := C19_weights 3 (by norm_num) 7 1 (by norm_num) (by norm_num) [1, 2, 4]
    (by simp) (by intro p hp; simp at hp; rcases hp with rfl | rfl | rfl <;> norm_num)
  have : pm = 1 := by
    have h3 := hm2 1 (by simp)
    simp at hm1
    rcases hm1 with rfl | rfl | rfl
    · rfl
    · norm_num at h3
    · norm_num at h3
  subst this
  rw [h1, h2]
  simp

end Verif.Memory
