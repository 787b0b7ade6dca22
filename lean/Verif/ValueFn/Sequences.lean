/-
Model and property C76: the training sequences of recurrent PPO.
-/
import Verif.Dataset.Model
import Mathlib.Data.List.Basic

namespace Verif.ValueFn

open Verif.Dataset (pySlice clampIdx)

/-- `torch.where(mask)[0][-1]`, or `none` if no entry of the mask is set.
algorithms/actor_critic/deep_actor_critic/ppo_bptt.py L115-118. -/
def lastTrue (mask : List Bool) : Option ℕ := ((List.range mask.length).filter (fun j => mask.getD j false)).getLast?

/-- First index of the sequence of step `i`. The slice `[begin_seq - 1 : i]` has Python's meaning, so that a start of -1 is
the final element. ppo_bptt.py L110-118. -/
def seqBegin (last absorbing : List Bool) (L i : ℕ) : ℕ :=
  let b := i + 1 - L
  let ends := List.zipWith (· || ·) (pySlice last (some ((b : Int) - 1)) (some (i : Int)))
    (pySlice absorbing (some ((b : Int) - 1)) (some (i : Int)))
  match lastTrue ends with
  | some j => b + j
  | none => b

/-- The padded sequence of step `i`, its true length and the index of the policy state it starts from.
ppo_bptt.py L121-148; one array stands for states, actions and next states, which are all cut in the same way. -/
def sequenceOf {X : Type} (zero : X) (states : List X) (last absorbing : List Bool) (L i : ℕ) : List X × ℕ × ℕ :=
  let b := seqBegin last absorbing L i
  let seq := pySlice states (some (b : Int)) (some ((i : Int) + 1))
  (seq ++ List.replicate (L - seq.length) zero, seq.length, b)

/-! ### Specification -/

/-- The trajectory of step `i` starts with step `s`. -/
structure StartsAt (last : List Bool) (s i : ℕ) : Prop where
  le : s ≤ i
  inside : i < last.length
  isStart : s = 0 ∨ last.getD (s - 1) false = true
  first : ∀ j, s ≤ j → j < i → last.getD j false = false

/-- The steps `s, ..., i`. -/
def stepsFrom {X : Type} (states : List X) (s i : ℕ) : List X := (states.drop s).take (i + 1 - s)

/-! ### Proofs -/

theorem lastTrue_none {mask : List Bool} (h : ∀ j, j < mask.length → mask.getD j false = false) :
    lastTrue mask = none := by
  unfold lastTrue
  rw [List.filter_eq_nil_iff.mpr]
  · rfl
  · intro j hj
    rw [h j (List.mem_range.mp hj)]; simp

theorem lastTrue_some {mask : List Bool} {k : ℕ} (hk : k < mask.length) (ht : mask.getD k false = true)
    (h : ∀ j, k < j → j < mask.length → mask.getD j false = false) : lastTrue mask = some k := by
  unfold lastTrue
  obtain ⟨m, hm⟩ : ∃ m, mask.length = k + 1 + m := ⟨mask.length - (k + 1), by omega⟩
  rw [hm, List.range_add, List.filter_append, List.range_succ, List.filter_append]
  have : List.filter (fun j => mask.getD j false) (List.map (fun x => k + 1 + x) (List.range m)) = [] := by
    rw [List.filter_eq_nil_iff]
    intro j hj
    obtain ⟨x, hx, rfl⟩ := List.mem_map.mp hj
    have := List.mem_range.mp hx
    rw [h (k + 1 + x) (by omega) (by omega)]; simp
  rw [this, List.append_nil]
  rw [List.filter_cons, if_pos ht]
  simp

theorem pySlice_nat {X : Type} (l : List X) (b i : ℕ) (hi : i ≤ l.length) (hb : b ≤ l.length) :
    pySlice l (some (b : Int)) (some (i : Int)) = (l.take i).drop b := by
  have h1 : clampIdx l.length (b : Int) = b := by
    unfold clampIdx; rw [if_neg (by omega)]; simp [hb]
  have h2 : clampIdx l.length (i : Int) = i := by
    unfold clampIdx; rw [if_neg (by omega)]; simp [hi]
  simp only [pySlice, h1, h2]

/-- The slice that starts at -1 and ends before the end of the list is empty. -/
theorem pySlice_neg {X : Type} (l : List X) (i : ℕ) (hi : i < l.length) :
    pySlice l (some (((0 : ℕ) : Int) - 1)) (some (i : Int)) = [] := by
  have h1 : clampIdx l.length (((0 : ℕ) : Int) - 1) = l.length - 1 := by
    unfold clampIdx; rw [if_pos (by omega)]; omega
  have h2 : clampIdx l.length (i : Int) = i := by
    unfold clampIdx; rw [if_neg (by omega)]; simp; omega
  simp only [pySlice, h1, h2]
  rw [List.drop_eq_nil_of_le]
  rw [List.length_take]; omega

theorem getD_slice (l : List Bool) (b i j : ℕ) (hj : b + j < i) (hi : i ≤ l.length) :
    ((l.take i).drop b).getD j false = l.getD (b + j) false := by
  simp only [List.getD_eq_getElem?_getD, List.getElem?_drop, List.getElem?_take]
  rw [if_pos hj]

theorem getD_zip (l l' : List Bool) (j : ℕ) (h : l.length = l'.length) :
    (List.zipWith (· || ·) l l').getD j false = (l.getD j false || l'.getD j false) := by
  simp only [List.getD_eq_getElem?_getD, List.getElem?_zipWith]
  rcases Nat.lt_or_ge j l.length with hj | hj
  · rw [List.getElem?_eq_getElem hj, List.getElem?_eq_getElem (h ▸ hj)]; rfl
  · rw [List.getElem?_eq_none hj, List.getElem?_eq_none (h ▸ hj)]; rfl

theorem seqBegin_spec (last absorbing : List Bool) (L i s : ℕ) (hlen : absorbing.length = last.length)
    (habs : ∀ j, absorbing.getD j false = true → last.getD j false = true) (hs : StartsAt last s i)
    (hL : L ≤ i ∨ s = 0) (hL0 : 0 < L) : seqBegin last absorbing L i = max s (i + 1 - L) := by
  obtain ⟨hle, hin, hstart, hfirst⟩ := hs
  unfold seqBegin
  simp only
  by_cases hb : i + 1 - L = 0
  · have hs0 : s = 0 := by omega
    rw [hb, pySlice_neg _ _ hin, hs0]
    simp [lastTrue]
  · obtain ⟨c, hc⟩ : ∃ c, i + 1 - L = c + 1 := ⟨i + 1 - L - 1, by omega⟩
    rw [hc]
    have hcast : (((c + 1 : ℕ) : Int)) - 1 = ((c : ℕ) : Int) := by omega
    rw [hcast, pySlice_nat _ _ _ (by omega) (by omega), pySlice_nat _ _ _ (by omega) (by omega)]
    set ends := List.zipWith (· || ·) ((last.take i).drop c) ((absorbing.take i).drop c) with hends
    have hl : ends.length = i - c := by
      rw [hends]; simp; omega
    have hget : ∀ j, j < i - c → ends.getD j false = last.getD (c + j) false := by
      intro j hj
      rw [hends, getD_zip _ _ _ (by simp; omega), getD_slice _ _ _ _ (by omega) (by omega),
        getD_slice _ _ _ _ (by omega) (by omega)]
      rcases Bool.eq_false_or_eq_true (absorbing.getD (c + j) false) with h | h
      · rw [habs _ h]; rfl
      · rw [h, Bool.or_false]
    clear_value ends
    by_cases hsc : s ≤ c
    · have hnone : lastTrue ends = none := lastTrue_none (fun j hj => by
        rw [hget j (by omega)]; exact hfirst _ (by omega) (by omega))
      simp only [hnone]
      omega
    · have hsome : lastTrue ends = some (s - 1 - c) := by
        apply lastTrue_some (by omega)
        · rw [hget _ (by omega), show c + (s - 1 - c) = s - 1 by omega]
          rcases hstart with h | h
          · omega
          · exact h
        · intro j hj hj'
          rw [hget j (by omega)]; exact hfirst _ (by omega) (by omega)
      simp only [hsome]
      omega

/-- C76 (partial). The sequence on which recurrent PPO trains for step `i` consists of the last at most `L` steps of the
trajectory of step `i` up to step `i`, padded with zeros to length `L`, and it starts from the policy state of its first
step. This holds for every step with index at least `L` and for the steps of the first trajectory of the dataset. Missing:
the first `L` steps of a dataset that contain more than one trajectory. -/
theorem C76_sequences_partial {X : Type} (zero : X) (states : List X) (last absorbing : List Bool) (L i s : ℕ)
    (hst : states.length = last.length) (hlen : absorbing.length = last.length)
    (habs : ∀ j, absorbing.getD j false = true → last.getD j false = true) (hs : StartsAt last s i)
    (hL0 : 0 < L) (hL : L ≤ i ∨ s = 0) :
    let b := max s (i + 1 - L)
    (sequenceOf zero states last absorbing L i).1 =
        stepsFrom states b i ++ List.replicate (L - (stepsFrom states b i).length) zero ∧
      (sequenceOf zero states last absorbing L i).1.length = L ∧
      (sequenceOf zero states last absorbing L i).2 = (i + 1 - b, b) := by
  intro b
  have hin := hs.inside
  have hle := hs.le
  have hbi : b ≤ i := by omega
  have hseq : pySlice states (some (b : Int)) (some ((i : Int) + 1)) = stepsFrom states b i := by
    rw [show (i : Int) + 1 = ((i + 1 : ℕ) : Int) by omega, pySlice_nat _ _ _ (by omega) (by omega)]
    rw [stepsFrom, List.drop_take]
  have hl : (stepsFrom states b i).length = i + 1 - b := by
    simp [stepsFrom]; omega
  have hb := seqBegin_spec last absorbing L i s hlen habs hs hL hL0
  simp only [sequenceOf, hb]
  change (pySlice states (some (b : Int)) _ ++ _ = _) ∧ (pySlice states (some (b : Int)) _ ++ _).length = L ∧
    ((pySlice states (some (b : Int)) _).length, b) = _
  rw [hseq]
  refine ⟨rfl, ?_, ?_⟩
  · rw [List.length_append, List.length_replicate, hl]; omega
  · rw [hl]

/-- C76 is violated for the first steps of a dataset: with truncation length 3, the sequence of step 1, which is the first
step of the second trajectory, contains step 0 of the first trajectory. -/
theorem C76_sequences_refuted : ∃ (states : List ℕ) (last absorbing : List Bool) (L i s : ℕ),
    states.length = last.length ∧ absorbing.length = last.length ∧
    (∀ j, absorbing.getD j false = true → last.getD j false = true) ∧ 0 < L ∧ StartsAt last s i ∧
    (sequenceOf 0 states last absorbing L i).2 ≠ (i + 1 - max s (i + 1 - L), max s (i + 1 - L)) := by
  refine ⟨[10, 20, 30], [true, false, false], [false, false, false], 3, 1, 1, rfl, rfl, ?_, by omega,
    ⟨by omega, by simp, Or.inr rfl, fun j _ _ => by omega⟩, by decide⟩
  intro j hj
  rcases j with _ | _ | _ | j <;> simp at hj

/-- Below the truncation length the sequence always starts with the first step of the dataset. -/
theorem C76_first_steps (last absorbing : List Bool) (L i : ℕ) (hlen : absorbing.length = last.length)
    (hi : i < last.length) (hL : i < L) : seqBegin last absorbing L i = 0 := by
  unfold seqBegin
  simp only
  rw [show i + 1 - L = 0 by omega, pySlice_neg _ _ hi, pySlice_neg _ _ (by omega)]
  simp [lastTrue]

example : StartsAt [false, true, false, false, true] 2 3 ∧ 2 ≤ 3 :=
  ⟨⟨by omega, by simp, Or.inr rfl, fun j h h' => by obtain rfl : j = 2 := by omega
                                                    rfl⟩, by omega⟩

end Verif.ValueFn
