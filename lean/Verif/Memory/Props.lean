/-
Properties of the replay memories: C13 - C18 (C19 is in PropsPER.lean).
-/
import Verif.Memory.Lemmas3
import Mathlib.Algebra.BigOperators.Fin

namespace Verif.Memory

open Verif.Dataset (Row)

variable {X A R P : Type}

/-! ### Concrete data used in the examples -/

def q (k : Nat) (r : Int) (l : Bool) : Row Nat Nat Int Nat := ⟨k, 10 + k, r, k + 1, l, l, 20 + k, 21 + k⟩
def okOf {α : Type} : Except Err α → Option α
  | .ok a => some a
  | .error _ => none
/-- Two episodes: `q0 q1 q2` and `q3 q4`. -/
def rows5 : List (Row Nat Nat Int Nat) := [q 0 1 false, q 1 2 false, q 2 4 true, q 3 8 false, q 4 16 true]

/-! ### C13 -/

/-- C13. Whatever `add` calls (with `n_steps_return >= 1`) are made on a new memory of capacity `max`, none raises, and
with `h` the list of all the transitions they had to store, oldest first:
* `size` is `min |h| max` and the dataset has that many rows;
* the rows of the dataset are a rearrangement of the last `size` elements of `h`;
* slot `t mod max` holds the `t`-th stored transition, for each of the last `max` ones;
* while the capacity has not been reached the rows are in order of arrival;
* `initialized` is `size > initial_size`. -/
theorem C13_fifo [Semiring R] (init max : Nat) (hmax : 0 < max) (cs : List (AddCall X A R P))
    (hcs : ∀ c ∈ cs, 0 < c.n) :
    ∃ m, addAll (Mem.new init max) cs = .ok m ∧
      m.size = min (history cs).length max ∧ m.buf.length = m.size ∧
      m.buf.Perm ((history cs).drop ((history cs).length - max)) ∧
      (∀ t, (history cs).length ≤ t + max → t < (history cs).length → m.buf[t % max]? = (history cs)[t]?) ∧
      ((history cs).length ≤ max → m.buf = history cs) ∧
      (m.initialized = true ↔ init < min (history cs).length max) := by
  obtain ⟨m, h1, hf, hi⟩ := addAll_fifo hmax cs hcs (fifo_new (X := X) (A := A) (R := R) (P := P) init max hmax)
  rw [List.nil_append] at hf
  refine ⟨m, h1, fifo_size hf, by rw [fifo_buf_length hf, fifo_size hf], fifo_perm hf,
    fun t a b => fifo_slot hmax hf t a b, ?_, ?_⟩
  · intro hle
    rcases Nat.lt_or_ge (history cs).length max with hl | hl
    · exact hf.notFull hl
    · obtain ⟨_, e⟩ := hf.isFull hl
      have h0 : m.idx = 0 := by rw [hf.idx, show (history cs).length = max by omega, Nat.mod_self]
      have h00 : (history cs).length - max = 0 := by omega
      rw [h0, h00] at e
      simpa using e
  · simp only [Mem.initialized, decide_eq_true_eq, fifo_size hf, hi, Mem.new]

/-- C13, sampling: `get` returns one stored transition per drawn index (indices are drawn below `len(dataset)`), each
of them among the last `max` ones that had to be stored. -/
theorem C13_get [Semiring R] (init max : Nat) (hmax : 0 < max) (cs : List (AddCall X A R P))
    (hcs : ∀ c ∈ cs, 0 < c.n) (m : Mem X A R P) (hm : addAll (Mem.new init max) cs = .ok m) (idxs : List Nat)
    (hidx : ∀ i ∈ idxs, i < m.size) :
    ∃ out, m.get idxs = .ok out ∧ out.length = idxs.length ∧ (∀ k (h : k < idxs.length), out[k]? = m.buf[idxs[k]]?) ∧
      ∀ r ∈ out, r ∈ (history cs).drop ((history cs).length - max) := by
  obtain ⟨m', h1, h2, h3, h4, _, _, _⟩ := C13_fifo init max hmax cs hcs
  rw [hm] at h1
  obtain rfl : m = m' := by simpa using h1
  have key : ∀ idxs : List Nat, (∀ i ∈ idxs, i < m.buf.length) →
      m.get idxs = .ok (idxs.filterMap (fun i => m.buf[i]?)) ∧
      idxs.map (fun i => m.buf[i]?) = (idxs.filterMap (fun i => m.buf[i]?)).map some := by
    intro idxs
    induction idxs with
    | nil => intro _; exact ⟨rfl, rfl⟩
    | cons i idxs ih =>
      intro hi
      have hlt := hi i List.mem_cons_self
      obtain ⟨e1, e2⟩ := ih (fun j hj => hi j (List.mem_cons_of_mem _ hj))
      simp only [Mem.get, List.mapM_cons, List.getElem?_eq_getElem hlt] at e1 ⊢
      simp only [bind, Except.bind, pure, Except.pure, e1]
      constructor
      · simp [List.filterMap_cons, List.getElem?_eq_getElem hlt]
      · simp [List.filterMap_cons, List.getElem?_eq_getElem hlt, e2]
  obtain ⟨e1, e2⟩ := key idxs (fun i hi => by rw [h3]; exact hidx i hi)
  have hl : (idxs.filterMap (fun i => m.buf[i]?)).length = idxs.length := by
    have := congrArg List.length e2
    simpa using this.symm
  refine ⟨_, e1, hl, ?_, ?_⟩
  · intro k hk
    have := congrArg (fun l => l[k]?) e2
    simp only [List.getElem?_map, List.getElem?_eq_getElem hk, Option.map_some] at this
    have hk' : k < (idxs.filterMap (fun i => m.buf[i]?)).length := by omega
    rw [List.getElem?_eq_getElem hk'] at this ⊢
    simpa using this.symm
  · intro r hr
    rw [List.mem_filterMap] at hr
    obtain ⟨i, _, hi⟩ := hr
    exact (h4.mem_iff).1 (List.mem_of_getElem? hi)

/-- C13, error branch: `n_steps_return` must be positive. -/
theorem C13_zero_steps_raises [Semiring R] (m : Mem X A R P) (rows : List (Row X A R P)) (gamma : R) :
    m.add rows 0 gamma = .error .assertion := rfl

/-- A memory of capacity 3 after one call with five rows: the first two have been overwritten. -/
example : (okOf (addAll (Mem.new 2 3) [⟨rows5, 1, 1⟩])).map
    (fun m => (m.buf.map (·.state), m.size, m.idx, m.initialized)) = some ([3, 4, 2], 3, 2, true) := by decide

/-- ... and the drawn indices `[2, 0]` give the transitions 2 and 3. -/
example : ((okOf (addAll (Mem.new 2 3) [⟨rows5, 1, 1⟩])).bind (fun m => okOf (m.get [2, 0]))).map
    (fun l => l.map (·.state)) = some [2, 3] := by decide

/-! ### C14 -/

/-- C14. On a memory that has received `h` so far, `add(dataset, n, gamma)` stores exactly the n-step transitions of
the usable windows of the dataset, in order. -/
theorem C14_nstep [Semiring R] (max : Nat) (hmax : 0 < max) (m : Mem X A R P) (h : List (Row X A R P))
    (hf : Fifo m max h) (rows : List (Row X A R P)) (n : Nat) (hn : 0 < n) (gamma : R) :
    ∃ m' rw, m.add rows n gamma = .ok (m', rw) ∧ Fifo m' max (h ++ (windows gamma n rows).map (·.2)) := by
  obtain ⟨m', rw', h1, h2, _⟩ := add_fifo hmax hf rows n hn gamma
  exact ⟨m', rw', h1, h2⟩

/-- C14, what `windows` is: the transition starting at step `i` is stored iff the `n` steps from `i` exist and none of
them but the n-th ends an episode; it has the state, action and policy state of the first step, the discounted sum of
the `n` rewards, and the successor data of the n-th step. At most one transition is stored per start. -/
theorem C14_windows [Semiring R] (gamma : R) (n : Nat) (hn : 0 < n) (rows : List (Row X A R P)) :
    (∀ i r, (i, r) ∈ windows gamma n rows ↔ ∃ (h : i + n ≤ rows.length),
      (∀ j (hj : j + 1 < n), (rows[i + j]'(by omega)).last = false) ∧
      r = { state := (rows[i]'(by omega)).state, action := (rows[i]'(by omega)).action,
            reward := ∑ j : Fin n, gamma ^ (j : Nat) * (rows[i + j]'(by have := j.isLt; omega)).reward,
            nextState := (rows[i + (n - 1)]'(by omega)).nextState,
            absorbing := (rows[i + (n - 1)]'(by omega)).absorbing, last := (rows[i + (n - 1)]'(by omega)).last,
            policyState := (rows[i]'(by omega)).policyState,
            policyNextState := (rows[i + (n - 1)]'(by omega)).policyNextState }) ∧
    ((windows gamma n rows).map (·.1)).Pairwise (· < ·) := by
  constructor
  · intro i r
    have hstep : ∀ i, i + n ≤ rows.length → ∀ r, nstep gamma ((rows.drop i).take n) = some r ↔ ∃ (h : i + n ≤ rows.length),
        r = { state := (rows[i]'(by omega)).state, action := (rows[i]'(by omega)).action,
              reward := ∑ j : Fin n, gamma ^ (j : Nat) * (rows[i + j]'(by have := j.isLt; omega)).reward,
              nextState := (rows[i + (n - 1)]'(by omega)).nextState,
              absorbing := (rows[i + (n - 1)]'(by omega)).absorbing, last := (rows[i + (n - 1)]'(by omega)).last,
              policyState := (rows[i]'(by omega)).policyState,
              policyNextState := (rows[i + (n - 1)]'(by omega)).policyNextState } := by
      intro i hi r
      have hwl : ((rows.drop i).take n).length = n := by simp; omega
      have hh : ((rows.drop i).take n).head? = some (rows[i]'(by omega)) := by
        rw [List.head?_eq_getElem?, List.getElem?_take, if_pos hn, List.getElem?_drop, Nat.add_zero,
          List.getElem?_eq_getElem (by omega)]
      have hl : ((rows.drop i).take n).getLast? = some (rows[i + (n - 1)]'(by omega)) := by
        rw [List.getLast?_eq_getElem?, hwl, List.getElem?_take, if_pos (by omega), List.getElem?_drop,
          List.getElem?_eq_getElem (by omega)]
      have hd : Verif.Dataset.discountedReturn gamma ((rows.drop i).take n) =
          ∑ j : Fin n, gamma ^ (j : Nat) * (rows[i + j]'(by have := j.isLt; omega)).reward := by
        rw [discountedReturn_eq, hwl, Finset.sum_range]
        apply Finset.sum_congr rfl
        intro j _
        have hj := j.isLt
        congr 1
        have : i + j < rows.length := by omega
        simp [List.getD, List.getElem?_take, hj, List.getElem?_drop, this]
      simp only [nstep, hh, hl, hd, Option.some.injEq]
      constructor
      · intro e; exact ⟨hi, e.symm⟩
      · rintro ⟨_, e⟩; exact e.symm
    simp only [windows, List.mem_filterMap, List.mem_filter, List.mem_range, Option.map_eq_some_iff, Prod.mk.injEq]
    constructor
    · rintro ⟨i', ⟨hi', hu⟩, r', hr', rfl, rfl⟩
      have hle : i' + n ≤ rows.length := by omega
      obtain ⟨_, e⟩ := (hstep i' hle r').1 hr'
      refine ⟨hle, ?_, e⟩
      intro j hj
      have := (usable_iff n rows i' hle).1 hu j (by omega)
      have hlt : i' + j < rows.length := by omega
      simpa [List.getD, hlt] using this
    · rintro ⟨hle, hu, e⟩
      refine ⟨i, ⟨by omega, (usable_iff n rows i hle).2 ?_⟩, r, (hstep i hle r).2 ⟨hle, e⟩, rfl, rfl⟩
      intro t ht
      have hlt : i + t < rows.length := by omega
      have := hu t (by omega)
      simpa [List.getD, hlt] using this
  · have hsub : ((windows gamma n rows).map (·.1)).Sublist (List.range (rows.length + 1 - n)) := by
      refine List.Sublist.trans ?_ (List.filter_sublist (p := usable n rows))
      unfold windows
      generalize (List.range (rows.length + 1 - n)).filter (usable n rows) = l
      induction l with
      | nil => simp
      | cons i l ih =>
        cases hx : nstep gamma ((rows.drop i).take n) with
        | none => simp only [List.filterMap_cons, hx, Option.map_none]; exact ih.trans (List.sublist_cons_self _ _)
        | some r => simp only [List.filterMap_cons, hx, Option.map_some, List.map_cons]; exact ih.cons_cons _
    exact List.Pairwise.sublist hsub List.pairwise_lt_range

/-- Two-step transitions of two episodes: windows 0-1, 1-2 and 3-4, not 2-3. -/
example : (windows (R := Int) 3 2 rows5).map (fun w => (w.1, w.2.state, w.2.reward, w.2.nextState, w.2.last)) =
    [(0, 0, 7, 2, false), (1, 1, 14, 3, true), (3, 3, 56, 5, true)] := by decide

/-! ### C15 -/

/-- C15 (partial: only `n_steps_return = 1`). The dataset of the caller keeps its rewards. -/
theorem C15_caller_dataset_partial [Semiring R] (m m' : Mem X A R P) (rows : List (Row X A R P)) (gamma : R)
    (rw' : List R) (h : m.add rows 1 gamma = .ok (m', rw')) : rw' = rows.map (·.reward) := by
  have key : ∀ (fuel i : Nat) (reward : List R) (m m' : Mem X A R P) (rw' : List R),
      nstepLoop gamma 1 rows (fun (m : Mem X A R P) _ r => m.store r) fuel i reward m = .ok (m', rw') → rw' = reward := by
    intro fuel
    induction fuel with
    | zero => intro i reward m m' rw' h; simp only [nstepLoop, Except.ok.injEq, Prod.mk.injEq] at h; exact h.2.symm
    | succ fuel ih =>
      intro i reward m m' rw' h
      simp only [nstepLoop] at h
      split at h
      · simp only [Nat.sub_self, inner] at h
        split at h
        · cases h
        · split at h
          · cases h
          · exact ih _ _ _ _ _ h
      · simp only [Except.ok.injEq, Prod.mk.injEq] at h; exact h.2.symm
  simp only [Mem.add, Nat.lt_one_iff, if_true, Nat.zero_lt_one] at h
  exact key _ _ _ _ _ _ h

example : (okOf ((Mem.new 0 3 : Mem Nat Nat Int Nat).add rows5 1 3)).map (·.2) = some [1, 2, 4, 8, 16] := by decide

/-- Finding: with `n_steps_return = 2` the rewards stored in the caller's own dataset are overwritten with two-step
returns. -/
theorem C15_caller_dataset_refuted :
    ∃ (m' : Mem Nat Nat Int Nat) (rw' : List Int), (Mem.new 0 3 : Mem Nat Nat Int Nat).add rows5 2 1 = .ok (m', rw') ∧
      rows5.map (·.reward) = [1, 2, 4, 8, 16] ∧ rw' = [3, 6, 4, 24, 16] :=
  ⟨_, _, rfl, rfl, rfl⟩

/-! ### C16 -/

/-- C16, the part that always holds. The sequence returned for a sampled slot `i` is a nonempty contiguous piece of
the storage that ends with the transition in slot `i`, has at most `truncation_length` elements, and contains no end
of episode before its last element; it cannot be extended to the left: either it has the full length, or it starts at
slot 0, or the transition in the slot before it ends an episode. The previous-action sequence has the same length and
is the sequence of actions shifted by one, starting with the action of the slot before the sequence, or with zeros if
the sequence starts an episode or slot 0. -/
theorem C16_sequence (buf : List (Row X A R P)) (trunc : Nat) (ht : 1 ≤ trunc) (zero : A) (i : Nat)
    (hi : i < buf.length) :
    ∃ front, (seqAt buf trunc zero i).1 = front ++ [buf[i]] ∧ front.length + 1 ≤ trunc ∧
      (∀ r ∈ front, r.last = false) ∧
      ∃ b, b + front.length = i ∧ front = (buf.take i).drop b ∧
        (front.length + 1 = trunc ∨ b = 0 ∨ ∃ r, buf[b - 1]? = some r ∧ r.last = true) ∧
        (seqAt buf trunc zero i).2 =
          (match b with
           | 0 => zero
           | b' + 1 => match buf[b']? with
             | some r => if r.last then zero else r.action
             | none => zero) :: front.map (·.action) := by
  obtain ⟨h1, h2, h3, h4, h5⟩ := beginSeq_spec (buf.map (·.last)) trunc i ht
  obtain ⟨hb0, hb1, hb2⟩ : ∃ b, b = (beginSeq (buf.map (·.last)) trunc i).1 ∧ True := ⟨_, rfl, trivial⟩
  have hfl : ((buf.take i).drop hb0).length = i - hb0 := by simp; omega
  refine ⟨(buf.take i).drop hb0, ?_, ?_, ?_, hb0, ?_, rfl, ?_, ?_⟩
  · rw [seqAt_fst, ← hb1]; exact take_succ_drop buf hb0 i (by omega) hi
  · rw [hfl]; omega
  · intro r hr
    obtain ⟨k, hk, rfl⟩ := List.getElem_of_mem hr
    have hk' : hb0 + k < i := by omega
    have := h3 (hb0 + k) (by omega) hk'
    have hlt : hb0 + k < buf.length := by omega
    simpa [List.getD, hlt] using this
  · omega
  · cases hm : (beginSeq (buf.map (·.last)) trunc i).2 with
    | true =>
      right; right
      obtain ⟨a1, a2⟩ := h4 hm
      have hlt : hb0 - 1 < buf.length := by omega
      refine ⟨buf[hb0 - 1], List.getElem?_eq_getElem hlt, ?_⟩
      rw [← hb1] at a2
      simpa [List.getD, hlt] using a2
    | false =>
      have := h5 hm
      by_cases hz : hb0 = 0
      · right; left; exact hz
      · left; omega
  · obtain ⟨b, e1, e2, e3⟩ := seqAt_snd buf trunc zero i ht hi
    have hbb : b = hb0 := by
      have l1 := congrArg List.length e1
      rw [seqAt_fst, ← hb1] at l1
      simp at l1
      omega
    subst hbb
    rw [e3]
    congr 1
    cases b with
    | zero => simp
    | succ b' =>
      have hlt : b' < buf.length := by omega
      simp [List.getD, hlt]

/-- C16 (partial: the sequence must not reach back over the write position of a memory that has wrapped around). The
returned transitions are consecutive in the history of stored transitions. -/
theorem C16_consecutive_partial (max : Nat) (m : Mem X A R P) (h : List (Row X A R P)) (hf : Fifo m max h)
    (trunc : Nat) (ht : 1 ≤ trunc) (zero : A) (i : Nat) (hi : i < m.buf.length)
    (hs : h.length < max ∨ i < m.idx ∨ m.idx + (seqAt m.buf trunc zero i).1.length ≤ i + 1) :
    (seqAt m.buf trunc zero i).1 <:+: h := by
  obtain ⟨front, e1, _, _, b, hb, hfr, _, _⟩ := C16_sequence m.buf trunc ht zero i hi
  have hseq : (seqAt m.buf trunc zero i).1 = (m.buf.take (i + 1)).drop b := by
    rw [e1, hfr, take_succ_drop m.buf b i (by omega) hi]
  have hlen : (seqAt m.buf trunc zero i).1.length = i + 1 - b := by
    rw [e1, List.length_append, List.length_singleton]; omega
  rcases Nat.lt_or_ge h.length max with hl | hl
  · rw [hseq, hf.notFull hl]
    exact (List.drop_suffix _ _).isInfix.trans (List.take_prefix _ _).isInfix
  · obtain ⟨_, e2⟩ := hf.isFull hl
    have hrec : h.drop (h.length - max) <:+: h := (List.drop_suffix _ _).isInfix
    refine List.IsInfix.trans ?_ hrec
    rw [← e2, hseq]
    by_cases hlt : i < m.idx
    · have : m.buf.take (i + 1) = (m.buf.take m.idx).take (i + 1) := by
        rw [List.take_take]; congr 1; omega
      rw [this]
      exact ((List.drop_suffix _ _).isInfix.trans (List.take_prefix _ _).isInfix).trans
        (List.suffix_append _ _).isInfix
    · have hb' : m.idx ≤ b := by
        rcases hs with hs | hs | hs
        · omega
        · omega
        · omega
      have : (m.buf.take (i + 1)).drop b = ((m.buf.drop m.idx).take (i + 1 - m.idx)).drop (b - m.idx) := by
        rw [← List.drop_take, List.drop_drop]
        congr 1; omega
      rw [this]
      exact ((List.drop_suffix _ _).isInfix.trans (List.take_prefix _ _).isInfix).trans
        (List.prefix_append _ _).isInfix

/-- A long episode of four rows in a memory of three. -/
def longEp : List (Row Nat Nat Int Nat) := [q 0 1 false, q 1 2 false, q 2 4 false, q 3 8 false]

/-- The hypotheses are met in a wrapped memory (slot 2, two transitions, written at slots 1 and 2). -/
example : (okOf (addAll (Mem.new 0 3) [⟨longEp, 1, 1⟩])).map (fun m => (m.idx, m.buf.map (·.state),
    (seqAt m.buf 2 0 2).1.map (·.state), (seqAt m.buf 2 0 2).2)) = some (1, [3, 1, 2], [1, 2], [13, 11]) := by decide

/-- Finding: when the sampled slot is the oldest one of a full memory, the returned "sequence" is the newest
transition followed by the oldest one: they were not collected consecutively (and no episode ended). -/
theorem C16_consecutive_refuted :
    ∃ m : Mem Nat Nat Int Nat, addAll (Mem.new 0 3) [⟨longEp, 1, 1⟩] = .ok m ∧
      (seqAt m.buf 2 0 1).1.map (·.state) = [3, 1] ∧ ¬ (seqAt m.buf 2 0 1).1.map (·.state) <:+: longEp.map (·.state) := by
  refine ⟨_, rfl, by decide, ?_⟩
  decide

/-! ### C17 -/

/-- C17. Whatever valid sequence of `add` and `update` calls is made on a new sum tree with `max >= 2` leaves, none
raises; the leaf of each slot holds the priority given last to the transition in it (0 if the slot has never been
written), and every node of the tree is the exact sum of the leaves below it; in particular the total priority is
the sum of the priorities of the slots. -/
theorem C17_sum_tree [Ring R] [LinearOrder R] (max : Nat) (hmax : 2 ≤ max) (ops : List (TOp X A R P))
    (hv : AllValid max ⟨0, fun _ => 0⟩ ops) :
    ∃ t, execT (STree.new max : STree X A R P) ops = .ok t ∧ Fifo t.mem max (historyT ops) ∧
      (∀ k, k < max → t.tree.getD (k + max - 1) 0 = (ops.foldl (Abs.step max) ⟨0, fun _ => 0⟩).prio k) ∧
      t.totalP = ∑ k ∈ Finset.range max, (ops.foldl (Abs.step max) (⟨0, fun _ => 0⟩ : Abs R)).prio k ∧
      (∀ k, k < 2 * max - 1 → t.tree.getD k 0 =
        ((leavesBelow (2 * max - 1) k).map (fun j => t.tree.getD j 0)).sum) ∧
      (leavesBelow (2 * max - 1) 0).Perm (List.range' (max - 1) max) := by
  obtain ⟨t, h1, hr⟩ := execT_rep hmax ops (rep_new (X := X) (A := A) (P := P) max hmax) hv
  rw [List.nil_append] at hr
  refine ⟨t, h1, hr.fifo, hr.leaf, ?_, ?_, leaves_perm max (by omega)⟩
  · have := root_eq_sum (fun k => t.tree.getD k 0) max (by omega) (fun k hk => hr.sums.2 k hk)
    rw [STree.totalP, this]
    apply Finset.sum_congr rfl
    intro k hk
    rw [← hr.leaf k (by simpa using hk)]
    congr 1; omega
  · intro k hk
    exact node_eq_sum t.tree max (by omega) hr.sums (2 * max - 1 - k) k (le_refl _) hk

/-- C17, the meaning of the abstract state: `count` is the number of transitions stored, slots that have received a
transition have a positive priority, the others priority 0. -/
theorem C17_priorities_positive [Ring R] [LinearOrder R] (max : Nat) (hmax : 2 ≤ max) (ops : List (TOp X A R P))
    (hv : AllValid max ⟨0, fun _ => 0⟩ ops) :
    (ops.foldl (Abs.step max) (⟨0, fun _ => 0⟩ : Abs R)).count = (historyT ops).length ∧
    (∀ k, k < min (historyT ops).length max → 0 < (ops.foldl (Abs.step max) (⟨0, fun _ => 0⟩ : Abs R)).prio k) ∧
    ∀ k, (historyT ops).length ≤ k → k < max → (ops.foldl (Abs.step max) (⟨0, fun _ => 0⟩ : Abs R)).prio k = 0 := by
  obtain ⟨t, h1, hr⟩ := execT_rep hmax ops (rep_new (X := X) (A := A) (P := P) max hmax) hv
  rw [List.nil_append] at hr
  exact ⟨hr.count, hr.stored, hr.empty⟩

/-- C17, error branch: a nonpositive priority is rejected by `add`. -/
theorem C17_bad_priority_raises [Ring R] [LinearOrder R] (t : STree X A R P) (rows : List (Row X A R P))
    (pr : List R) (n : Nat) (gamma : R) (h : ∃ p ∈ pr, p ≤ 0) : t.add rows pr n gamma = .error .assertion := by
  have : pr.all (fun p => decide (0 < p)) = false := by
    rw [List.all_eq_false]
    obtain ⟨p, h1, h2⟩ := h
    exact ⟨p, h1, by simpa using h2⟩
  simp only [STree.add, this]
  split <;> rfl

/-- Calls: five rows in a tree with three leaves (not a power of two), then an update of two leaves. -/
def ops5 : List (TOp Nat Nat Int Nat) := [.add rows5 [1, 2, 3, 4, 5] 1 1, .update [(2, 7), (4, 9)]]

example : AllValid (R := Int) 3 ⟨0, fun _ => 0⟩ ops5 := by
  refine ⟨?_, ?_, trivial⟩
  · refine ⟨by decide, by decide, by decide⟩
  · intro u hu
    simp only [List.mem_cons, List.not_mem_nil, or_false] at hu
    have hc : (Abs.step (R := Int) (X := Nat) (A := Nat) (P := Nat) 3 ⟨0, fun _ => 0⟩
        (.add rows5 [1, 2, 3, 4, 5] 1 1)).count = 5 := by decide
    rw [hc]
    rcases hu with rfl | rfl <;> decide

/-- The slots hold transitions 3, 4, 2, so the priorities after the update are 7, 5, 9. -/
example : (List.range 3).map (ops5.foldl (Abs.step 3) (⟨0, fun _ => 0⟩ : Abs Int)).prio = [7, 5, 9] ∧
    (historyT ops5).map (·.state) = [0, 1, 2, 3, 4] := by
  constructor <;> decide

/-- C17, error branches of `update`: an index beyond the tree raises, and so does index 0 (the root), for which the sums are propagated to
"parent" -1 for ever. -/
theorem C17_bad_index_raises [Ring R] [LinearOrder R] (max : Nat) (hmax : 2 ≤ max) (ops : List (TOp X A R P))
    (hv : AllValid max ⟨0, fun _ => 0⟩ ops) (t : STree X A R P) (ht : execT (STree.new max) ops = .ok t) (p : R) (rest : List (Nat × R)) :
    (∀ i, 2 * max - 1 ≤ i → t.update ((i, p) :: rest) = .error .index) ∧ t.update ((0, p) :: rest) = .error .recursion := by
  obtain ⟨t', h1, hr⟩ := execT_rep hmax ops (rep_new (X := X) (A := A) (P := P) max hmax) hv
  rw [ht] at h1
  obtain rfl : t = t' := by simpa using h1
  have hl : t.tree.length = 2 * max - 1 := hr.sums.1
  constructor
  · intro i hi
    have hlt : ¬ i < t.tree.length := by omega
    simp only [STree.update, Verif.Memory.update, update1, if_neg hlt]
  · have hlt : 0 < t.tree.length := by omega
    rw [STree.update, Verif.Memory.update, update1, if_pos hlt, propagate]
    rfl

/-- Finding: `update` is documented to take "indexes of the transitions in the dataset" but needs indexes of the tree: given the index 1 of
the second of three stored transitions, it changes no priority of a transition, and the total is not their sum any more. -/
theorem C17_dataset_index_refuted :
    (okOf (execT (STree.new 3 : STree Nat Nat Int Nat) [.add rows5 [1, 2, 3, 4, 5] 1 1])).map (fun t => (t.totalP, t.tree.drop 2))
      = some (4 + 5 + 3, [4, 5, 3]) ∧
    (okOf (execT (STree.new 3 : STree Nat Nat Int Nat) [.add rows5 [1, 2, 3, 4, 5] 1 1, .update [(1, 20)]])).map
      (fun t => (t.totalP, t.tree.drop 2)) = some (24, [4, 5, 3]) := by
  constructor <;> decide +kernel

/-- Finding: a tree with a single leaf cannot store anything: the first `add` recurses for ever. -/
theorem C17_single_leaf_refuted :
    (STree.new 1 : STree Nat Nat Int Nat).add [q 0 1 false] [1] 1 1 = .error .recursion := by
  simp [STree.add, nstepLoop, inner, sampleAt, q, STree.store, Mem.store, STree.new, Mem.new, Verif.Memory.update,
    update1, propagate]

/-! ### C18 -/

/-- C18, the part that always holds: whatever the random choices and `s`, the slot returned by `get` is one of the
`max` slots, the returned priority is the one of that slot, and if the memory is full the slot holds a transition. -/
theorem C18_valid_slot [Ring R] [LinearOrder R] (max : Nat) (hmax : 2 ≤ max) (ops : List (TOp X A R P))
    (hv : AllValid max ⟨0, fun _ => 0⟩ ops) (t : STree X A R P) (ht : execT (STree.new max) ops = .ok t)
    (choose : Nat → Bool) (s : R) :
    ∃ slot, slot < max ∧
      t.getInd choose s = (slot + max - 1, (ops.foldl (Abs.step max) (⟨0, fun _ => 0⟩ : Abs R)).prio slot, slot) ∧
      (max ≤ (historyT ops).length → ∃ r, t.mem.buf[slot]? = some r) := by
  obtain ⟨t', h1, hr⟩ := execT_rep hmax ops (rep_new (X := X) (A := A) (P := P) max hmax) hv
  rw [List.nil_append] at hr
  rw [ht] at h1
  obtain rfl : t = t' := by simpa using h1
  have hlen : t.tree.length = 2 * max - 1 := hr.sums.1
  have hmem := retrieve_mem t.tree choose t.tree.length 0 s (by omega) (by omega) (by omega)
  rw [hlen] at hmem
  have hmem2 := ((leaves_perm max (by omega)).mem_iff).1 hmem
  rw [List.mem_range'_1] at hmem2
  have hms := hr.fifo.maxSize
  refine ⟨retrieve t.tree choose s 0 + 1 - max, by omega, ?_, ?_⟩
  · have e : retrieve t.tree choose s 0 + 1 - max + max - 1 = retrieve t.tree choose s 0 := by omega
    have hl := hr.leaf (retrieve t.tree choose s 0 + 1 - max) (by omega)
    rw [e] at hl
    simp only [STree.getInd, hms, e, hl]
  · intro hfull
    have hb := (hr.fifo.isFull hfull).1
    exact ⟨_, List.getElem?_eq_getElem (by omega)⟩

/-- C18 (partial: no two sibling nodes have equal positive sums, and `s > 0`). For `0 < s <= total_p`, `get(s)` returns
the slot in whose cumulative-priority interval `s` falls (the leaves taken from left to right), and this slot holds a
stored transition. -/
theorem C18_interval_partial [Ring R] [LinearOrder R] [IsStrictOrderedRing R] (max : Nat) (hmax : 2 ≤ max)
    (ops : List (TOp X A R P)) (hv : AllValid max ⟨0, fun _ => 0⟩ ops) (t : STree X A R P)
    (ht : execT (STree.new max) ops = .ok t)
    (hties : ∀ k, k < max - 1 → t.tree.getD (2 * k + 1) 0 = t.tree.getD (2 * k + 2) 0 → t.tree.getD k 0 = 0)
    (choose : Nat → Bool) (s : R) (hs0 : 0 < s) (hs1 : s ≤ t.totalP) :
    ∃ pre post slot, slot < max ∧ (t.getInd choose s).2.2 = slot ∧
      leavesBelow (2 * max - 1) 0 = pre ++ (slot + max - 1) :: post ∧
      (pre.map (fun j => t.tree.getD j 0)).sum < s ∧
      s ≤ (pre.map (fun j => t.tree.getD j 0)).sum + (ops.foldl (Abs.step max) (⟨0, fun _ => 0⟩ : Abs R)).prio slot ∧
      ∃ r, t.mem.buf[slot]? = some r := by
  obtain ⟨slot, h1, h2, _⟩ := C18_valid_slot max hmax ops hv t ht choose s
  obtain ⟨t', h3, hr⟩ := execT_rep hmax ops (rep_new (X := X) (A := A) (P := P) max hmax) hv
  rw [List.nil_append] at hr
  rw [ht] at h3
  obtain rfl : t = t' := by simpa using h3
  obtain ⟨pre, post, e1, e2, e3⟩ := retrieve_interval t.tree choose max (by omega) hr.sums hties (2 * max - 1) 0 s
    (by omega) (by omega) hs0 hs1
  have hret : retrieve t.tree choose s 0 = slot + max - 1 := congrArg Prod.fst h2
  rw [hret] at e1 e3
  rw [hr.leaf slot h1] at e3
  refine ⟨pre, post, slot, h1, by rw [h2], e1, e2, e3, ?_⟩
  have hpos : 0 < (ops.foldl (Abs.step max) (⟨0, fun _ => 0⟩ : Abs R)).prio slot := by
    by_contra hn
    have : s ≤ (pre.map (fun j => t.tree.getD j 0)).sum := by
      calc s ≤ _ := e3
        _ ≤ (pre.map (fun j => t.tree.getD j 0)).sum + 0 := by
          exact add_le_add (le_refl _) (not_lt.1 hn)
        _ = _ := add_zero _
    exact absurd e2 (not_lt.2 this)
  have hlt : slot < (historyT ops).length := by
    by_contra hge
    rw [hr.empty slot (by omega) h1] at hpos
    exact lt_irrefl _ hpos
  have : slot < t.mem.buf.length := by rw [fifo_buf_length hr.fifo]; omega
  exact ⟨_, List.getElem?_eq_getElem this⟩

/-- Three transitions with priorities 1, 2, 4 in a tree with four leaves: no ties. -/
def opsNoTies : List (TOp Nat Nat Int Nat) := [.add (rows5.take 3) [1, 2, 4] 1 1]

/-- The whole array of a tree with four leaves, from the leaves. -/
theorem tree4 (tree : List Int) (a b c d : Int) (h : SumTreeOK tree 4) (h0 : tree.getD 3 0 = a)
    (h1 : tree.getD 4 0 = b) (h2 : tree.getD 5 0 = c) (h3 : tree.getD 6 0 = d) :
    tree = [(a + b) + (c + d), a + b, c + d, a, b, c, d] := by
  obtain ⟨hl, hs⟩ := h
  have e1 := hs 1 (by omega)
  have e2 := hs 2 (by omega)
  have e0 := hs 0 (by omega)
  match tree, hl with
  | [t0, t1, t2, t3, t4, t5, t6], _ =>
    simp [List.getD] at h0 h1 h2 h3 e0 e1 e2
    subst h0 h1 h2 h3 e1 e2 e0
    rfl

theorem opsNoTies_tree : ∃ t, execT (STree.new 4) opsNoTies = .ok t ∧ t.tree = [7, 3, 4, 1, 2, 4, 0] := by
  obtain ⟨t, h1, hr⟩ := execT_rep (max := 4) (by decide) opsNoTies (rep_new (X := Nat) (A := Nat) (R := Int) (P := Nat) 4
    (by decide)) ⟨⟨by decide, by decide, by decide⟩, trivial⟩
  exact ⟨t, h1, tree4 t.tree 1 2 4 0 hr.sums (hr.leaf 0 (by decide)) (hr.leaf 1 (by decide)) (hr.leaf 2 (by decide))
    (hr.leaf 3 (by decide))⟩

/-- The hypotheses of `C18_interval_partial` are met (with `s = 5`, which falls into the interval (3, 7] of slot 2). -/
example : AllValid (R := Int) 4 ⟨0, fun _ => 0⟩ opsNoTies ∧
    (∀ k, k < 4 - 1 → ([7, 3, 4, 1, 2, 4, 0] : List Int).getD (2 * k + 1) 0 =
      ([7, 3, 4, 1, 2, 4, 0] : List Int).getD (2 * k + 2) 0 → ([7, 3, 4, 1, 2, 4, 0] : List Int).getD k 0 = 0) ∧
    ∀ choose, retrieve ([7, 3, 4, 1, 2, 4, 0] : List Int) choose 5 0 = 5 := by
  refine ⟨⟨⟨by decide, by decide, by decide⟩, trivial⟩, by decide, ?_⟩
  intro choose
  simp [retrieve]

/-- Three transitions with priorities 1, 1, 2 in a tree with four leaves. -/
def opsTie : List (TOp Nat Nat Int Nat) := [.add (rows5.take 3) [1, 1, 2] 1 1]

/-- Finding: when two sibling nodes have the same sum, `get` picks one of them at random without looking at `s`. With
`s` equal to the total (and also with `s = 3`), and the second child taken, the slot that is returned has priority 0
and has never been written; reading this transition raises `IndexError`. -/
theorem C18_unwritten_slot_refuted :
    AllValid (R := Int) 4 ⟨0, fun _ => 0⟩ opsTie ∧ ∃ t, execT (STree.new 4) opsTie = .ok t ∧ t.totalP = 4 ∧
      t.getInd (fun _ => false) 3 = (6, 0, 3) ∧ t.mem.get [3] = .error .index := by
  refine ⟨⟨⟨by decide, by decide, by decide⟩, trivial⟩, ?_⟩
  obtain ⟨t, h1, hr⟩ := execT_rep (max := 4) (by decide) opsTie (rep_new (X := Nat) (A := Nat) (R := Int) (P := Nat) 4
    (by decide)) ⟨⟨by decide, by decide, by decide⟩, trivial⟩
  have ht := tree4 t.tree 1 1 2 0 hr.sums (hr.leaf 0 (by decide)) (hr.leaf 1 (by decide)) (hr.leaf 2 (by decide))
    (hr.leaf 3 (by decide))
  have hb := hr.fifo.notFull (by decide)
  have hm := hr.fifo.maxSize
  refine ⟨t, h1, by rw [STree.totalP, ht]; rfl, ?_, ?_⟩
  · simp [STree.getInd, ht, hm, retrieve]
  · simp only [Mem.get, hb]; rfl

/-- Four transitions with priorities 1, 2, 2, 1 in a full tree. -/
def opsTieFull : List (TOp Nat Nat Int Nat) := [.add (rows5.take 4) [1, 2, 2, 1] 1 1]

/-- Finding: also on a full memory the slot is not the one in whose interval `s` falls: `s = 2` is in the interval
(1, 3] of slot 1, and slot 2 is returned. -/
theorem C18_interval_refuted :
    AllValid (R := Int) 4 ⟨0, fun _ => 0⟩ opsTieFull ∧ ∃ t, execT (STree.new 4) opsTieFull = .ok t ∧
      t.tree.drop 3 = [1, 2, 2, 1] ∧ leavesBelow 7 0 = [3, 4, 5, 6] ∧
      t.getInd (fun k => k != 0) 2 = (5, 2, 2) := by
  refine ⟨⟨⟨by decide, by decide, by decide⟩, trivial⟩, ?_⟩
  obtain ⟨t, h1, hr⟩ := execT_rep (max := 4) (by decide) opsTieFull (rep_new (X := Nat) (A := Nat) (R := Int)
    (P := Nat) 4 (by decide)) ⟨⟨by decide, by decide, by decide⟩, trivial⟩
  have ht := tree4 t.tree 1 2 2 1 hr.sums (hr.leaf 0 (by decide)) (hr.leaf 1 (by decide)) (hr.leaf 2 (by decide))
    (hr.leaf 3 (by decide))
  have hm := hr.fifo.maxSize
  refine ⟨t, h1, by rw [ht]; rfl, by simp [leavesBelow], ?_⟩
  simp [STree.getInd, ht, hm, retrieve]

end Verif.Memory
