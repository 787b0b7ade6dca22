import Verif.Vector.Spec

namespace Verif.Vector

open Verif.Dataset (Row setLast closeEnd)

variable {W X A R P T : Type}

/-! ### Counting -/

theorem cnt_congr {f g : Nat → Bool} : ∀ {n : Nat}, (∀ i < n, f i = g i) → cnt f n = cnt g n
  | 0, _ => rfl
  | n + 1, h => by
    simp only [cnt]
    rw [cnt_congr (n := n) (fun i hi => h i (by omega)), h n (by omega)]

theorem cnt_le (f : Nat → Bool) : ∀ n, cnt f n ≤ n
  | 0 => Nat.le_refl _
  | n + 1 => by have := cnt_le f n; simp only [cnt]; split <;> omega

theorem cnt_false (n : Nat) : cnt (fun _ => false) n = 0 := by
  induction n with
  | zero => rfl
  | succ n ih => simp [cnt, ih]

theorem cnt_true (n : Nat) : cnt (fun _ => true) n = n := by
  induction n with
  | zero => rfl
  | succ n ih => simp [cnt, ih]

theorem cnt_eq_zero {f : Nat → Bool} : ∀ {n : Nat}, cnt f n = 0 → ∀ i < n, f i = false
  | 0, _, i, hi => by omega
  | n + 1, h, i, hi => by
    simp only [cnt] at h
    by_cases hn : i = n
    · subst hn
      cases hf : f i
      · rfl
      · simp [hf] at h
    · exact cnt_eq_zero (n := n) (by omega) i (by omega)

theorem cnt_pos {f : Nat → Bool} {n i : Nat} (hi : i < n) (h : f i = true) : 0 < cnt f n := by
  rcases Nat.eq_zero_or_pos (cnt f n) with h0 | h0
  · have := cnt_eq_zero h0 i hi; simp_all
  · exact h0

theorem cnt_split (f g : Nat → Bool) : ∀ n, cnt f n = cnt (fun i => g i && f i) n + cnt (fun i => !g i && f i) n
  | 0 => rfl
  | n + 1 => by
    have := cnt_split f g n
    simp only [cnt]
    rcases Bool.eq_false_or_eq_true (g n) with hg | hg <;> rcases Bool.eq_false_or_eq_true (f n) with hf | hf <;>
      simp [hf, hg] <;> omega

theorem cnt_mono {f g : Nat → Bool} : ∀ {n : Nat}, (∀ i < n, f i = true → g i = true) → cnt f n ≤ cnt g n
  | 0, _ => Nat.le_refl _
  | n + 1, h => by
    have := cnt_mono (n := n) (fun i hi => h i (by omega))
    have hn := h n (by omega)
    simp only [cnt]
    cases hf : f n <;> cases hg : g n <;> simp_all <;> omega

theorem cnt_lt_of (f : Nat → Bool) {i n : Nat} (hi : i < n) (h : f i = true) : cnt f i < cnt f n := by
  induction n with
  | zero => omega
  | succ n ih =>
    simp only [cnt]
    by_cases hn : i = n
    · subst hn; simp [h]
    · have := ih (by omega); omega

/-- The number of environments in `decide (i < r)`. -/
theorem cnt_lt (r : Nat) : ∀ n, cnt (fun i => decide (i < r)) n = min r n
  | 0 => by simp [cnt]
  | n + 1 => by
    have := cnt_lt r n
    simp only [cnt, this, decide_eq_true_eq]
    split <;> omega

/-- The number of environments that are active after restarting the first `r` of the terminated ones. -/
theorem cnt_assign (last running : Nat → Bool) (r : Nat) : ∀ n,
    cnt (fun i => if last i then decide (cnt last i < r) else running i) n
      = cnt (fun i => !last i && running i) n + min r (cnt last n)
  | 0 => by simp [cnt]
  | n + 1 => by
    have := cnt_assign last running r n
    simp only [cnt, this]
    rcases Bool.eq_false_or_eq_true (last n) with hl | hl <;> simp only [hl, decide_eq_true_eq, Bool.not_true,
      Bool.not_false, Bool.false_and, Bool.true_and, if_true, if_false, Bool.false_eq_true] <;> split <;> omega

/-! ### get_mask -/

/-- The environments that run at the next iteration. -/
structure Masked (c : Cfg) (running last : Nat → Bool) (totE curE : Nat) (m : Nat → Bool) : Prop where
  keep : ∀ i < c.n, last i = false → running i = true → m i = true
  off : ∀ i < c.n, last i = false → running i = false → m i = false
  total : ∀ ne, c.nEpisodes = some ne → totE + cnt (fun i => !last i && running i) c.n ≤ ne → totE + cnt m c.n ≤ ne
  fit : ∀ k, c.perFitEps = some k → curE + cnt (fun i => !last i && running i) c.n ≤ k → curE + cnt m c.n ≤ k
  pos : 0 < c.n → (∀ ne, c.nEpisodes = some ne → totE < ne) → (∀ k, c.perFitEps = some k → curE < k) → 0 < cnt m c.n
  all : c.nEpisodes = none → c.perFitEps = none → (∀ i < c.n, last i = false → running i = true) →
    ∀ i < c.n, m i = true

theorem getMask_fresh (c : Cfg) (running last : Nat → Bool) (totE curE : Nat)
    (hr : ∀ i < c.n, running i = false) (hl : ∀ i < c.n, last i = true) :
    ∃ m, getMask c running last totE curE = .ok m ∧ Masked c running last totE curE m := by
  have h1 : cnt (fun i => last i && running i) c.n = 0 := by
    rw [cnt_congr (g := fun _ => false) (fun i hi => by simp [hr i hi]), cnt_false]
  have h2 : cnt (fun i => !last i && running i) c.n = 0 := by
    rw [cnt_congr (g := fun _ => false) (fun i hi => by simp [hr i hi]), cnt_false]
  unfold getMask
  simp only [h1, h2, and_self, decide_true, if_true]
  refine ⟨_, rfl, ?_⟩
  constructor
  · intro i hi h; simp [hl i hi] at h
  · intro i hi h; simp [hl i hi] at h
  · intro ne hne hle
    simp only [hne]
    cases c.perFitEps <;> simp only [cnt_lt] <;> omega
  · intro k hk hle
    simp only [hk]
    cases c.nEpisodes <;> simp only [cnt_lt] <;> omega
  · intro hn h3 h4
    rw [cnt_lt]
    cases hne : c.nEpisodes <;> cases hk : c.perFitEps <;> simp only [] <;>
      first
        | (have := h3 _ hne; have := h4 _ hk; omega)
        | (have := h3 _ hne; omega)
        | (have := h4 _ hk; omega)
        | omega
  · intro h3 h4 _ i hi
    simp [h3, h4, hi]

theorem getMask_regular (c : Cfg) (running last : Nat → Bool) (totE curE : Nat)
    (hl : ∀ i < c.n, last i = true → running i = true) (hany : 0 < cnt last c.n) :
    ∃ m, getMask c running last totE curE = .ok m ∧ Masked c running last totE curE m := by
  have h1 : cnt (fun i => last i && running i) c.n = cnt last c.n :=
    cnt_congr (fun i hi => by
      rcases Bool.eq_false_or_eq_true (last i) with h | h
      · simp [h, hl i hi h]
      · simp [h])
  unfold getMask
  simp only [h1]
  have hne : ¬ (cnt (fun i => !last i && running i) c.n = 0 ∧ cnt last c.n = 0) := by omega
  simp only [hne, decide_false, Bool.false_eq_true, if_false, if_true]
  refine ⟨_, rfl, ?_⟩
  constructor
  · intro i hi h h'; simp [h, h']
  · intro i hi h h'; simp [h, h']
  · intro ne hne hle
    simp only [hne]
    cases c.perFitEps <;> simp only [cnt_assign] <;> omega
  · intro k hk hle
    simp only [hk]
    cases c.nEpisodes <;> simp only [cnt_assign] <;> omega
  · intro hn h3 h4
    rw [cnt_assign]
    cases hne : c.nEpisodes <;> cases hk : c.perFitEps <;> simp only [] <;>
      first
        | (have := h3 _ hne; have := h4 _ hk; omega)
        | (have := h3 _ hne; omega)
        | (have := h4 _ hk; omega)
        | omega
  · intro h3 h4 h5 i hi
    cases hli : last i
    · simp [h5 i hi hli]
    · simp [h3, h4, cnt_lt_of last hi hli]

/-! ### reset_all and step_all -/

theorem resetAll_keep (sys : Sys W X A R P T) (mask : Nat → Bool) : ∀ (n : Nat) (w : W) (xs : Nat → X) (i : Nat),
    mask i = false → (resetAll sys mask n w xs).2 i = xs i
  | 0, _, _, _, _ => rfl
  | n + 1, w, xs, i, h => by
    have ih := resetAll_keep sys mask n w xs i h
    simp only [resetAll]
    split
    · rename_i hm
      have : i ≠ n := by rintro rfl; simp [h] at hm
      simp [this, ih]
    · exact ih

theorem stepAll_keep (sys : Sys W X A R P T) (mask : Nat → Bool) (act : Nat → A) :
    ∀ (n : Nat) (w : W) (xs : Nat → X) (i : Nat), mask i = false →
      (stepAll sys mask act n w xs).2.1 i = xs i ∧ (stepAll sys mask act n w xs).2.2.2 i = false
  | 0, _, _, _, _ => ⟨rfl, rfl⟩
  | n + 1, w, xs, i, h => by
    have ih := stepAll_keep sys mask act n w xs i h
    simp only [stepAll]
    split
    · rename_i hm
      have : i ≠ n := by rintro rfl; simp [h] at hm
      simp [this, ih.1, ih.2]
    · exact ih

end Verif.Vector
