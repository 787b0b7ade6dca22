/-
C16 for the arrays returned by `SequenceReplayMemory.get`.
-/
import Verif.Memory.ModelSeq
import Verif.Memory.Props

namespace Verif.Memory

open Verif.Dataset (Row)

variable {X A R P : Type}

/-- An array of `trunc` entries that starts with `l` and is `zero` after it. -/
def PaddedWith {α : Type} (trunc : Nat) (zero : α) (l arr : List α) : Prop :=
  arr.length = trunc ∧ arr.take l.length = l ∧ ∀ k, l.length ≤ k → k < trunc → arr[k]? = some zero

theorem padTo_padded {α : Type} (trunc : Nat) (zero : α) (l : List α) (h : l.length ≤ trunc) :
    PaddedWith trunc zero l (padTo trunc zero l) := by
  refine ⟨by simp [padTo]; omega, by simp [padTo], ?_⟩
  intro k h1 h2
  rw [padTo, List.getElem?_append_right h1, List.getElem?_replicate]
  simp; omega

/-- C16, batches. For a stateful agent and sampled slots that hold transitions, `get` returns one entry per sampled slot,
in order. Entry `k` has the reward and the flags of the sampled transition; its states, actions, next states and policy
states are those of one piece `rows` of the storage that ends with the sampled transition, is not longer than
`truncation_length` and contains no end of episode before its last element, followed by zeros up to
`truncation_length`; the previous actions are padded likewise and continue with the actions of `rows` but the last; and
`lengths` has the length of `rows`. -/
theorem C16_batch (m : Mem X A R P) (trunc : Nat) (ht : 1 ≤ trunc) (zx : X) (za : A) (zp : P) (idxs : List Nat)
    (hi : ∀ i ∈ idxs, i < m.buf.length) :
    ∃ items : List (SeqItem X A R P), seqGet true m trunc zx za zp idxs = some (.ok items) ∧ items.length = idxs.length ∧
      ∀ k i : Nat, idxs[k]? = some i → ∃ (it : SeqItem X A R P) (row : Row X A R P), items[k]? = some it ∧ m.buf[i]? = some row ∧
        it.r = row.reward ∧ it.ab = row.absorbing ∧ it.last = row.last ∧
        ∃ front prev, (front ++ [row]) <:+: m.buf ∧ front.length + 1 ≤ trunc ∧ (∀ r ∈ front, r.last = false) ∧
          it.length = front.length + 1 ∧
          PaddedWith trunc zx ((front ++ [row]).map (·.state)) it.s ∧
          PaddedWith trunc za ((front ++ [row]).map (·.action)) it.a ∧
          PaddedWith trunc zx ((front ++ [row]).map (·.nextState)) it.ss ∧
          PaddedWith trunc zp ((front ++ [row]).map (·.policyState)) it.ps ∧
          PaddedWith trunc zp ((front ++ [row]).map (·.policyNextState)) it.nps ∧
          PaddedWith trunc za (prev :: front.map (·.action)) it.pa := by
  have one : ∀ i, i < m.buf.length → ∃ (it : SeqItem X A R P) (row : Row X A R P), seqItem m.buf trunc zx za zp i = .ok it ∧ m.buf[i]? = some row ∧
      it.r = row.reward ∧ it.ab = row.absorbing ∧ it.last = row.last ∧
        ∃ front prev, (front ++ [row]) <:+: m.buf ∧ front.length + 1 ≤ trunc ∧ (∀ r ∈ front, r.last = false) ∧
          it.length = front.length + 1 ∧
          PaddedWith trunc zx ((front ++ [row]).map (·.state)) it.s ∧
          PaddedWith trunc za ((front ++ [row]).map (·.action)) it.a ∧
          PaddedWith trunc zx ((front ++ [row]).map (·.nextState)) it.ss ∧
          PaddedWith trunc zp ((front ++ [row]).map (·.policyState)) it.ps ∧
          PaddedWith trunc zp ((front ++ [row]).map (·.policyNextState)) it.nps ∧
          PaddedWith trunc za (prev :: front.map (·.action)) it.pa := by
    intro i hlt
    obtain ⟨front, h1, h2, h3, b, h4, h5, _, h6⟩ := C16_sequence m.buf trunc ht za i hlt
    obtain ⟨prev, h6⟩ : ∃ prev, (seqAt m.buf trunc za i).2 = prev :: front.map (·.action) := ⟨_, h6⟩
    have hpiece : (front ++ [m.buf[i]]) <:+: m.buf := by
      rw [h5, ← take_succ_drop m.buf b i (by omega) hlt]
      exact (List.drop_suffix _ _).isInfix.trans (List.take_prefix _ _).isInfix
    have hrow : m.buf[i]? = some m.buf[i] := List.getElem?_eq_getElem hlt
    have hlen : ∀ {β : Type} (f : Row X A R P → β), ((front ++ [m.buf[i]]).map f).length ≤ trunc := by
      intro β f; simp; omega
    refine ⟨_, m.buf[i], by simp only [seqItem, hrow]; rfl, hrow, rfl, rfl, rfl, front, prev, hpiece, h2, h3,
      by simp [h1], ?_, ?_, ?_, ?_, ?_, ?_⟩
    · rw [h1]; exact padTo_padded _ _ _ (hlen _)
    · rw [h1]; exact padTo_padded _ _ _ (hlen _)
    · rw [h1]; exact padTo_padded _ _ _ (hlen _)
    · rw [h1]; exact padTo_padded _ _ _ (hlen _)
    · rw [h1]; exact padTo_padded _ _ _ (hlen _)
    · rw [h6]; exact padTo_padded _ _ _ (by simp; omega)
  have all : ∃ items, idxs.mapM (seqItem m.buf trunc zx za zp) = .ok items ∧ items.length = idxs.length ∧
      ∀ k i : Nat, idxs[k]? = some i → ∃ it, items[k]? = some it ∧ seqItem m.buf trunc zx za zp i = .ok it := by
    clear ht
    induction idxs with
    | nil => exact ⟨[], rfl, rfl, by simp⟩
    | cons i idxs ih =>
      obtain ⟨items, h1, h2, h3⟩ := ih (fun j hj => hi j (by simp [hj]))
      obtain ⟨it, row, h4, _⟩ := one i (hi i (by simp))
      refine ⟨it :: items, ?_, by simp [h2], ?_⟩
      · rw [List.mapM_cons, h4, h1]; rfl
      · intro k j hk
        cases k with
        | zero =>
          simp only [List.getElem?_cons_zero, Option.some.injEq] at hk
          subst hk
          exact ⟨it, rfl, h4⟩
        | succ k => exact h3 k j hk
  obtain ⟨items, h1, h2, h3⟩ := all
  refine ⟨items, by simp [seqGet, h1], h2, ?_⟩
  intro k i hk
  obtain ⟨it, h4, h5⟩ := h3 k i hk
  obtain ⟨it', row, h6, h7⟩ := one i (hi i (List.mem_of_getElem? hk))
  rw [h5, Except.ok.injEq] at h6
  subst h6
  exact ⟨it, row, h4, h7⟩

/-- The wrapped memory of three of the other examples: slot 2 is sampled, with sequences of at most three. -/
example : (okOf (addAll (Mem.new 0 3) [⟨longEp, 1, 1⟩])).bind (fun m =>
      (seqGet true m 3 0 0 0 [0, 2]).bind (fun r => match r with
        | .ok items => some (items.map (fun it => (it.s, it.pa, it.length)))
        | .error _ => none)) =
    some [([3, 0, 0], [0, 0, 0], 1), ([3, 1, 2], [0, 13, 11], 3)] := by decide

/-- C16 fails for agents without internal state: `get` always raises, although it has a branch for them (L260-261). -/
theorem C16_stateless_refuted (m : Mem X A R P) (trunc : Nat) (zx : X) (za : A) (zp : P) (idxs : List Nat) :
    seqGet false m trunc zx za zp idxs = none := rfl

end Verif.Memory
