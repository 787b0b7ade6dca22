/-
C116: replay memories after a load.
-/
import Verif.Memory.ModelLoad
import Verif.Memory.Props
import Verif.Memory.PropsPER

namespace Verif.Memory

open Verif.Dataset (Row)

variable {X A R P : Type}

/-- C116 for `ReplayMemory` (partial: not after a full save): whatever has been stored, the loaded memory is as new, and
works as a new one. -/
theorem C116_replay_partial (m : Mem X A R P) :
    ∃ m' : Mem X A R P, m' = Mem.new m.initialSize m.maxSize ∧
      m.load false = ⟨m'.initialSize, m'.maxSize, m'.idx, m'.full, some m'.buf⟩ ∧
      ∀ idxs, (m.load false).get idxs = some (m'.get idxs) :=
  ⟨_, rfl, rfl, fun _ => rfl⟩

/-- Finding: after a full save of a memory that is ready for sampling, the loaded one still says that it is, and every
`get` fails because it has no dataset. -/
theorem C116_replay_refuted (m : Mem X A R P) (idxs : List Nat) :
    (m.load true).idx = m.idx ∧ (m.load true).full = m.full ∧ (m.load true).get idxs = none :=
  ⟨rfl, rfl, rfl⟩

/-- C116 for `PrioritizedReplayMemory` (partial: nothing has been stored yet): the loaded memory is as new. -/
theorem C116_prioritized_partial [Ring R] (max : Nat) :
    (STree.new max : STree X A R P).load = STree.new max := rfl

theorem get_nil (m : Mem X A R P) (hb : m.buf = []) (i : Nat) (idxs : List Nat) :
    m.get (i :: idxs) = .error .index := by
  simp only [Mem.get, hb, List.mapM_cons]
  rfl

/-- Finding: after any history, saving and loading a prioritized memory keeps its size and all the priorities, so that it
is `initialized` if it was, but none of the transitions: every `get` of at least one sample raises `IndexError`. -/
theorem C116_prioritized_refuted (m : PER X A P) (beta : ℝ) (x : ℝ) (samples : List ℝ) (choose : Nat → Nat → Bool) :
    m.load.initialized = m.initialized ∧ m.load.tree.totalP = m.tree.totalP ∧ m.load.maxPriority = m.maxPriority ∧
      m.load.get beta (x :: samples) choose = .error .index := by
  refine ⟨rfl, rfl, rfl, ?_⟩
  simp only [PER.get, List.zipIdx_cons, List.map_cons]
  rw [get_nil _ rfl]

/-- Finding: if the memory was full, adding to the loaded one raises `IndexError` too, so that it can never be used. -/
theorem C116_prioritized_add_refuted [Ring R] [LinearOrder R] (max : Nat) (hmax : 2 ≤ max) (ops : List (TOp X A R P))
    (hv : AllValid max ⟨0, fun _ => 0⟩ ops) (t : STree X A R P) (ht : execT (STree.new max) ops = .ok t)
    (hfull : max ≤ (historyT ops).length) (r : Row X A R P) (rows : List (Row X A R P)) (p : R) (pr : List R) (gamma : R)
    (hp : ∀ q ∈ p :: pr, 0 < q) :
    t.load.add (r :: rows) (p :: pr) 1 gamma = .error .index := by
  obtain ⟨t', h1, hr⟩ := execT_rep hmax ops (rep_new (X := X) (A := A) (P := P) max hmax) hv
  rw [List.nil_append] at hr
  rw [ht] at h1
  obtain rfl : t = t' := by simpa using h1
  have hf : t.mem.full = true := by rw [hr.fifo.full]; simpa using hfull
  have hall : (p :: pr).all (fun p => decide (0 < p)) = true := by
    rw [List.all_eq_true]
    intro q hq
    simpa using hp q hq
  simp only [STree.add, Nat.zero_lt_one, if_true, hall, List.length_cons, nstepLoop]
  simp [inner, sampleAt, STree.store, Mem.store, STree.load, hf]

/-- A memory with four slots and three transitions, and a full one. -/
example : AllValid (R := Int) 4 ⟨0, fun _ => 0⟩ opsTie ∧ 0 < (historyT opsTie).length ∧ (historyT opsTie).length < 4 ∧
    AllValid (R := Int) 4 ⟨0, fun _ => 0⟩ opsTieFull ∧ 4 ≤ (historyT opsTieFull).length := by
  refine ⟨⟨⟨by decide, by decide, by decide⟩, trivial⟩, by decide, by decide,
    ⟨⟨by decide, by decide, by decide⟩, trivial⟩, by decide⟩

/-- Finding: if it was not full, the new transitions go to the wrong slots: the first one is written in row 0 while its
priority is that of slot `idx`. -/
theorem C116_prioritized_misplaced_refuted [Ring R] [LinearOrder R] (max : Nat) (hmax : 2 ≤ max)
    (ops : List (TOp X A R P)) (hv : AllValid max ⟨0, fun _ => 0⟩ ops) (t : STree X A R P)
    (ht : execT (STree.new max) ops = .ok t) (h0 : 0 < (historyT ops).length) (hnf : (historyT ops).length < max)
    (r : Row X A R P) (p : R) :
    ∃ t', t.load.store r p = .ok t' ∧ t'.mem.buf = [r] ∧ t'.tree.getD (t.mem.idx + max - 1) 0 = p ∧ 0 < t.mem.idx := by
  obtain ⟨u, h1, hr⟩ := execT_rep hmax ops (rep_new (X := X) (A := A) (P := P) max hmax) hv
  rw [List.nil_append] at hr
  rw [ht] at h1
  obtain rfl : t = u := by simpa using h1
  have hf : t.mem.full = false := by rw [hr.fifo.full]; simpa using hnf
  have hi : t.mem.idx = (historyT ops).length := by rw [hr.fifo.idx, Nat.mod_eq_of_lt hnf]
  have hm := hr.fifo.maxSize
  obtain ⟨tree', h2, -, h3⟩ := update1_spec max hmax t.tree hr.sums (t.mem.idx + max - 1) p (by omega) (by omega)
  have h4 := h3 (t.mem.idx + max - 1) (by omega)
  rw [if_pos rfl] at h4
  simp only [STree.store, STree.load, Mem.store, hf, hm, Verif.Memory.update, h2]
  rw [if_neg (by simp), if_pos (by simp; omega)]
  refine ⟨_, rfl, ?_, h4, by omega⟩
  show (if _ then _ else _ : Mem X A R P).buf = [r]
  split <;> rfl

end Verif.Memory
