import Verif.Memory.Spec
import Mathlib.Algebra.BigOperators.Intervals
import Mathlib.Tactic.Ring

namespace Verif.Memory

open Verif.Dataset (Row discountedReturn)

variable {X A R P : Type}

theorem getD_set_ne {α : Type} (l : List α) (i j : Nat) (v d : α) (h : i ≠ j) : (l.set i v).getD j d = l.getD j d := by
  simp [List.getD, List.getElem?_set_ne h]

theorem getD_set_eq {α : Type} (l : List α) (i : Nat) (v d : α) (h : i < l.length) : (l.set i v).getD i d = v := by
  simp [List.getD, h]

/-- The inner loop. -/
theorem inner_spec [Semiring R] (gamma : R) (last : List Bool) (i : Nat) (k : Nat) :
    ∀ (j : Nat) (reward : List R), i + j + k < reward.length →
      (inner gamma last i k j reward).2.length = reward.length ∧
      (∀ m, m ≠ i → (inner gamma last i k j reward).2.getD m 0 = reward.getD m 0) ∧
      ((∀ t, j ≤ t → t < j + k → last.getD (i + t) false = false) →
        (inner gamma last i k j reward).1 = none ∧
        (inner gamma last i k j reward).2.getD i 0 =
          reward.getD i 0 + ∑ t ∈ Finset.range k, gamma ^ (j + 1 + t) * reward.getD (i + (j + 1 + t)) 0) ∧
      ((∃ t, j ≤ t ∧ t < j + k ∧ last.getD (i + t) false = true) →
        ∃ t, j ≤ t ∧ t < j + k ∧ last.getD (i + t) false = true ∧ (inner gamma last i k j reward).1 = some (i + t + 1)) := by
  induction k with
  | zero =>
    intro j reward h
    refine ⟨rfl, fun m _ => rfl, fun _ => ⟨rfl, by simp [inner]⟩, ?_⟩
    rintro ⟨t, h1, h2, _⟩
    omega
  | succ k ih =>
    intro j reward h
    by_cases hl : last.getD (i + j) false = true
    · have e : inner gamma last i (k + 1) j reward = (some (i + (j + 1)), reward) := by
        simp only [inner, hl, if_true]
      rw [e]
      refine ⟨rfl, fun m _ => rfl, ?_, ?_⟩
      · intro hf
        have := hf j (le_refl _) (by omega)
        rw [hl] at this
        exact absurd this (by simp)
      · intro _
        exact ⟨j, le_refl _, by omega, hl, by simp [Nat.add_assoc]⟩
    · have hl' : last.getD (i + j) false = false := by simpa using hl
      have e : inner gamma last i (k + 1) j reward =
          inner gamma last i k (j + 1) (reward.set i (reward.getD i 0 + gamma ^ (j + 1) * reward.getD (i + (j + 1)) 0)) := by
        simp only [inner, hl', Bool.false_eq_true, if_false]
      rw [e]
      obtain ⟨h1, h2, h3, h4⟩ := ih (j + 1)
        (reward.set i (reward.getD i 0 + gamma ^ (j + 1) * reward.getD (i + (j + 1)) 0)) (by simp; omega)
      refine ⟨by rw [h1]; simp, ?_, ?_, ?_⟩
      · intro m hm
        rw [h2 m hm, getD_set_ne _ _ _ _ _ (Ne.symm hm)]
      · intro hf
        obtain ⟨h5, h6⟩ := h3 (fun t ht1 ht2 => hf t (by omega) (by omega))
        refine ⟨h5, ?_⟩
        rw [h6, getD_set_eq _ _ _ _ (by omega), Finset.sum_range_succ']
        have : ∀ t, (reward.set i (reward.getD i 0 + gamma ^ (j + 1) * reward.getD (i + (j + 1)) 0)).getD
            (i + (j + 1 + 1 + t)) 0 = reward.getD (i + (j + 1 + 1 + t)) 0 := by
          intro t; exact getD_set_ne _ _ _ _ _ (by omega)
        simp only [this, Nat.add_zero]
        rw [add_assoc, add_comm (gamma ^ (j + 1) * _)]
        congr 2
        apply Finset.sum_congr rfl
        intro t _
        have : j + 1 + 1 + t = j + 1 + (t + 1) := by omega
        rw [this]
      · rintro ⟨t, ht1, ht2, ht3⟩
        have htj : t ≠ j := by
          rintro rfl; rw [hl'] at ht3; exact absurd ht3 (by simp)
        obtain ⟨t', q1, q2, q3, q4⟩ := h4 ⟨t, by omega, by omega, ht3⟩
        exact ⟨t', by omega, by omega, q3, q4⟩

theorem discountedReturn_eq [Semiring R] (gamma : R) (w : List (Row X A R P)) :
    discountedReturn gamma w = ∑ t ∈ Finset.range w.length, gamma ^ t * (w.map (·.reward)).getD t 0 := by
  unfold discountedReturn
  have key : ∀ (w : List (Row X A R P)) (k : Nat), ((w.zipIdx k).map (fun p => gamma ^ p.2 * p.1.reward)).sum =
      ∑ t ∈ Finset.range w.length, gamma ^ (k + t) * (w.map (·.reward)).getD t 0 := by
    intro w
    induction w with
    | nil => intro k; simp
    | cons r w ih =>
      intro k
      simp only [List.zipIdx_cons, List.map_cons, List.sum_cons, ih, List.length_cons, Finset.sum_range_succ']
      rw [add_comm]
      congr 1
      · apply Finset.sum_congr rfl
        intro t _
        have : k + 1 + t = k + (t + 1) := by omega
        rw [this]
        simp
  have := key w 0
  simpa using this

/-- Value of the window starting at `i`. -/
theorem window_sample [Semiring R] (gamma : R) (rows : List (Row X A R P)) (n i : Nat) (hn : 0 < n)
    (hi : i + n ≤ rows.length) (reward : List R) (hlen : reward.length = rows.length)
    (hr : reward.getD i 0 = (rows.map (·.reward)).getD i 0 +
      ∑ t ∈ Finset.range (n - 1), gamma ^ (0 + 1 + t) * (rows.map (·.reward)).getD (i + (0 + 1 + t)) 0) :
    ∃ r, sampleAt rows reward i (n - 1) = .ok r ∧ nstep gamma ((rows.drop i).take n) = some r := by
  have h1 : i < rows.length := by omega
  have h2 : i + (n - 1) < rows.length := by omega
  have h3 : i < reward.length := by omega
  have hwl : ((rows.drop i).take n).length = n := by simp; omega
  have hhead : ((rows.drop i).take n).head? = some rows[i] := by
    rw [List.head?_take, if_neg (by omega), List.head?_drop, List.getElem?_eq_getElem h1]
  have hlast : ((rows.drop i).take n).getLast? = some rows[i + (n - 1)] := by
    rw [List.getLast?_eq_getElem?, hwl, List.getElem?_take, if_pos (by omega), List.getElem?_drop,
      List.getElem?_eq_getElem h2]
  have hw : discountedReturn gamma ((rows.drop i).take n) = reward[i] := by
    rw [discountedReturn_eq, hwl]
    have e : reward[i] = reward.getD i 0 := by simp [List.getD, h3]
    rw [e, hr]
    obtain ⟨m, rfl⟩ : ∃ m, n = m + 1 := ⟨n - 1, by omega⟩
    rw [Finset.sum_range_succ', add_comm]
    have hget : ∀ t, t < m + 1 → (((rows.drop i).take (m + 1)).map (·.reward)).getD t 0 =
        (rows.map (·.reward)).getD (i + t) 0 := by
      intro t ht
      simp only [List.getD, List.getElem?_map, List.getElem?_take, if_pos ht, List.getElem?_drop]
    congr 1
    · rw [hget 0 (by omega)]; simp
    · apply Finset.sum_congr rfl
      intro t ht
      rw [hget (t + 1) (by have := Finset.mem_range.mp ht; omega)]
      have : 0 + 1 + t = t + 1 := by omega
      rw [this]
  have hs : sampleAt rows reward i (n - 1) = .ok ⟨rows[i].state, rows[i].action, reward[i],
      rows[i + (n - 1)].nextState, rows[i + (n - 1)].absorbing, rows[i + (n - 1)].last, rows[i].policyState,
      rows[i + (n - 1)].policyNextState⟩ := by
    simp only [sampleAt, List.getElem?_eq_getElem h1, List.getElem?_eq_getElem h2, List.getElem?_eq_getElem h3]
  refine ⟨_, hs, ?_⟩
  simp only [nstep, hhead, hlast, hw]

/-- Windows from step `i` on. -/
def windowsFrom [Semiring R] (gamma : R) (n : Nat) (l : List (Row X A R P)) (i : Nat) : List (Nat × Row X A R P) :=
  ((List.range' i (l.length + 1 - n - i)).filter (usable n l)).filterMap
    (fun i => (nstep gamma ((l.drop i).take n)).map (fun r => (i, r)))

theorem windowsFrom_zero [Semiring R] (gamma : R) (n : Nat) (l : List (Row X A R P)) :
    windowsFrom gamma n l 0 = windows gamma n l := by
  simp [windowsFrom, windows, List.range_eq_range']

theorem usable_iff (n : Nat) (l : List (Row X A R P)) (i : Nat) (hi : i + n ≤ l.length) :
    usable n l i = true ↔ ∀ t, t < n - 1 → (l.map (·.last)).getD (i + t) false = false := by
  have hwl : ((l.drop i).take n).length = n := by simp; omega
  simp only [usable, List.all_eq_true, Bool.not_eq_true']
  have hmem : ((l.drop i).take n).dropLast = (l.drop i).take (n - 1) := by
    rw [List.dropLast_eq_take, hwl, List.take_take]
    congr 1; omega
  rw [hmem]
  constructor
  · intro h t ht
    have hlt : i + t < l.length := by omega
    have := h l[i + t] (by
      rw [List.mem_iff_getElem?]
      refine ⟨t, ?_⟩
      rw [List.getElem?_take, if_pos ht, List.getElem?_drop, List.getElem?_eq_getElem hlt])
    simp [List.getD, hlt, this]
  · intro h r hr
    obtain ⟨t, ht⟩ := List.mem_iff_getElem?.mp hr
    rw [List.getElem?_take] at ht
    by_cases h1 : t < n - 1
    · rw [if_pos h1, List.getElem?_drop] at ht
      have := h t h1
      simp only [List.getD, List.getElem?_map, ht, Option.map_some, Option.getD_some] at this
      exact this
    · rw [if_neg h1] at ht; exact absurd ht (by simp)

theorem windowsFrom_done [Semiring R] (gamma : R) (n : Nat) (l : List (Row X A R P)) (i : Nat)
    (hi : ¬ i + n < l.length + 1) : windowsFrom gamma n l i = [] := by
  have : l.length + 1 - n - i = 0 := by omega
  simp [windowsFrom, this]

theorem windowsFrom_take [Semiring R] (gamma : R) (n : Nat) (l : List (Row X A R P)) (i : Nat)
    (hi : i + n < l.length + 1) (hu : usable n l i = true) (r : Row X A R P)
    (hr : nstep gamma ((l.drop i).take n) = some r) :
    windowsFrom gamma n l i = (i, r) :: windowsFrom gamma n l (i + 1) := by
  obtain ⟨m, hm⟩ : ∃ m, l.length + 1 - n - i = m + 1 := ⟨l.length + 1 - n - i - 1, by omega⟩
  have hm' : l.length + 1 - n - (i + 1) = m := by omega
  simp only [windowsFrom, hm, hm', List.range'_succ, List.filter_cons, hu, if_true]
  simp [hr]

theorem windowsFrom_skip [Semiring R] (gamma : R) (n : Nat) (l : List (Row X A R P)) (i k : Nat)
    (hu : ∀ q, i ≤ q → q < i + k → q + n < l.length + 1 → usable n l q = false) :
    windowsFrom gamma n l i = windowsFrom gamma n l (i + k) := by
  induction k generalizing i with
  | zero => rfl
  | succ k ih =>
    by_cases hi : i + n < l.length + 1
    · have h1 : windowsFrom gamma n l i = windowsFrom gamma n l (i + 1) := by
        obtain ⟨m, hm⟩ : ∃ m, l.length + 1 - n - i = m + 1 := ⟨l.length + 1 - n - i - 1, by omega⟩
        have hm' : l.length + 1 - n - (i + 1) = m := by omega
        simp only [windowsFrom, hm, hm', List.range'_succ, List.filter_cons, hu i (le_refl _) (by omega) hi]
        simp
      rw [h1, ih (i + 1) (fun q a b c => hu q (by omega) (by omega) c)]
      congr 1; omega
    · rw [windowsFrom_done gamma n l i hi, windowsFrom_done gamma n l (i + (k + 1)) (by omega)]

/-- Left fold that stops at the first error. -/
def foldE {σ α : Type} (f : σ → α → Except Err σ) : σ → List α → Except Err σ
  | s, [] => .ok s
  | s, a :: as => match f s a with
    | .error e => .error e
    | .ok s' => foldE f s' as

/-- What the loop does with the state: it stores exactly the windows, in order. -/
def stateOf {σ β : Type} : Except Err (σ × β) → Except Err σ
  | .error e => .error e
  | .ok (s, _) => .ok s

theorem nstepLoop_spec {σ : Type} [Semiring R] (gamma : R) (n : Nat) (hn : 0 < n) (rows : List (Row X A R P))
    (emit : σ → Nat → Row X A R P → Except Err σ) (fuel : Nat) :
    ∀ (i : Nat) (reward : List R) (s : σ), rows.length < i + fuel → reward.length = rows.length →
      (∀ m, i ≤ m → reward.getD m 0 = (rows.map (·.reward)).getD m 0) →
      stateOf (nstepLoop gamma n rows emit fuel i reward s) =
        foldE (fun s w => emit s w.1 w.2) s (windowsFrom gamma n rows i) := by
  induction fuel with
  | zero =>
    intro i reward s hf _ _
    rw [windowsFrom_done gamma n rows i (by omega)]
    rfl
  | succ fuel ih =>
    intro i reward s hf hlen hrw
    by_cases hi : i + n < rows.length + 1
    · obtain ⟨q1, q2, q3, q4⟩ := inner_spec gamma (rows.map (·.last)) i (n - 1) 0 reward (by omega)
      have hu := usable_iff n rows i (by omega)
      by_cases hus : usable n rows i = true
      · obtain ⟨h5, h6⟩ := q3 (fun t _ ht => hu.mp hus t (by omega))
        have hpair : inner gamma (rows.map (·.last)) i (n - 1) 0 reward =
            (none, (inner gamma (rows.map (·.last)) i (n - 1) 0 reward).2) := Prod.ext h5 rfl
        rw [hrw i (le_refl _)] at h6
        have hsum : ∀ t, reward.getD (i + (0 + 1 + t)) 0 = (rows.map (·.reward)).getD (i + (0 + 1 + t)) 0 :=
          fun t => hrw _ (by omega)
        simp only [hsum] at h6
        obtain ⟨r, hr1, hr2⟩ := window_sample gamma rows n i hn (by omega) _ (q1.trans hlen) h6
        rw [windowsFrom_take gamma n rows i hi hus r hr2]
        simp only [nstepLoop, hi, if_true]
        rw [hpair]
        simp only [hr1, foldE]
        cases he : emit s i r with
        | error e => rfl
        | ok s' =>
          simp only []
          apply ih (i + 1) _ s' (by omega) (q1.trans hlen)
          intro m hm
          rw [q2 m (by omega)]
          exact hrw m (by omega)
      · have hex : ∃ t, 0 ≤ t ∧ t < 0 + (n - 1) ∧ (rows.map (·.last)).getD (i + t) false = true := by
          by_contra hno
          apply hus
          rw [hu]
          intro t ht
          by_contra hh
          exact hno ⟨t, by omega, by omega, by simpa using hh⟩
        obtain ⟨t, _, ht2, ht3, ht4⟩ := q4 hex
        have hpair : inner gamma (rows.map (·.last)) i (n - 1) 0 reward =
            (some (i + t + 1), (inner gamma (rows.map (·.last)) i (n - 1) 0 reward).2) := Prod.ext ht4 rfl
        have hskip : windowsFrom gamma n rows i = windowsFrom gamma n rows (i + (t + 1)) := by
          apply windowsFrom_skip
          intro q h1 h2 h3
          by_contra hh
          have hh' : usable n rows q = true := by simpa using hh
          have := (usable_iff n rows q (by omega)).mp hh' (i + t - q) (by omega)
          have e : q + (i + t - q) = i + t := by omega
          rw [e, ht3] at this
          exact absurd this (by simp)
        rw [hskip]
        simp only [nstepLoop, hi, if_true]
        rw [hpair]
        simp only []
        apply ih (i + t + 1) _ s (by omega) (q1.trans hlen)
        intro m hm
        rw [q2 m (by omega)]
        exact hrw m (by omega)
    · rw [windowsFrom_done gamma n rows i hi]
      simp only [nstepLoop, hi, if_false]
      rfl

theorem add_eq_fold [Semiring R] (m : Mem X A R P) (rows : List (Row X A R P)) (n : Nat) (hn : 0 < n) (gamma : R) :
    stateOf (m.add rows n gamma) = foldE (fun m r => m.store r) m ((windows gamma n rows).map (·.2)) := by
  simp only [Mem.add, hn, if_true]
  rw [nstepLoop_spec gamma n hn rows _ _ 0 _ m (by omega) (by simp) (fun _ _ => rfl), windowsFrom_zero]
  have : ∀ (l : List (Nat × Row X A R P)) (m : Mem X A R P),
      foldE (fun m (w : Nat × Row X A R P) => m.store w.2) m l = foldE (fun m r => m.store r) m (l.map (·.2)) := by
    intro l
    induction l with
    | nil => intro m; rfl
    | cons a l ih =>
      intro m
      simp only [foldE, List.map_cons]
      cases m.store a.2 with
      | error e => rfl
      | ok m' => exact ih m'
  exact this _ _

/-! ### FIFO -/

theorem fifo_new (init max : Nat) (hmax : 0 < max) : Fifo (Mem.new init max : Mem X A R P) max [] := by
  constructor
  · rfl
  · simp [Mem.new]
  · simp [Mem.new]; omega
  · intro _; rfl
  · intro h; simp at h; omega

theorem fifo_store {m : Mem X A R P} {max : Nat} {h : List (Row X A R P)} (hmax : 0 < max) (hf : Fifo m max h)
    (r : Row X A R P) : ∃ m', m.store r = .ok m' ∧ Fifo m' max (h ++ [r]) ∧ m'.initialSize = m.initialSize := by
  obtain ⟨h1, h2, h3, h4, h5⟩ := hf
  have hmod : h.length % max < max := Nat.mod_lt _ hmax
  have hmod' : (h ++ [r]).length % max = if h.length % max + 1 = max then 0 else h.length % max + 1 := by
    simp only [List.length_append, List.length_singleton]
    rw [Nat.add_mod]
    by_cases h1' : max = 1
    · subst h1'; simp [Nat.mod_one]
    · have : 1 % max = 1 := Nat.mod_eq_of_lt (by omega)
      rw [this]
      split
      · next e => rw [e, Nat.mod_self]
      · exact Nat.mod_eq_of_lt (by omega)
  by_cases hfull : max ≤ h.length
  · obtain ⟨h6, h7⟩ := h5 hfull
    have hmf : m.full = true := by rw [h3]; simpa using hfull
    have hset : ∀ idx', (idx' = if h.length % max + 1 = max then 0 else h.length % max + 1) →
        (m.buf.set m.idx r).drop idx' ++ (m.buf.set m.idx r).take idx' =
          (h ++ [r]).drop ((h ++ [r]).length - max) := by
      intro idx' hidx'
      have hdrop : (h ++ [r]).drop ((h ++ [r]).length - max) = (h.drop (h.length - max)).drop 1 ++ [r] := by
        rw [List.drop_drop]
        have : (h ++ [r]).length - max = h.length - max + 1 := by simp; omega
        rw [this, List.drop_append_of_le_length (by omega)]
      rw [hdrop, ← h7, h2]
      have hlt : h.length % max < m.buf.length := by omega
      have hd1 : (m.buf.drop (h.length % max) ++ m.buf.take (h.length % max)).drop 1 =
          m.buf.drop (h.length % max + 1) ++ m.buf.take (h.length % max) := by
        rw [List.drop_append_of_le_length (by simp; omega), List.drop_drop]
      rw [hd1]
      have hs : m.buf.set (h.length % max) r =
          m.buf.take (h.length % max) ++ r :: m.buf.drop (h.length % max + 1) := by
        rw [List.set_eq_take_append_cons_drop, if_pos hlt]
      split at hidx'
      · next e =>
        subst hidx'
        have : m.buf.drop (h.length % max + 1) = [] := by
          rw [List.drop_eq_nil_iff]; omega
        rw [hs, this]
        simp
      · next e =>
        subst hidx'
        rw [hs]
        have hl : (m.buf.take (h.length % max)).length = h.length % max := by simp; omega
        rw [List.drop_append, List.take_append, hl]
        rw [List.drop_eq_nil_of_le (by omega), List.take_of_length_le (by omega)]
        simp
    have hlt : m.idx < m.buf.length := by omega
    refine ⟨_, by simp only [Mem.store, hmf, if_true, hlt]; rfl, ?_, ?_⟩
    · by_cases he : m.idx + 1 = m.maxSize
      · rw [if_pos he]
        have he2 : h.length % max + 1 = max := by omega
        refine ⟨h1, by rw [hmod', if_pos he2], ?_, ?_, ?_⟩
        · simp; omega
        · intro hlt; simp at hlt; omega
        · intro _
          exact ⟨by simp [h6], hset 0 (by rw [if_pos he2])⟩
      · rw [if_neg he]
        have he2 : ¬ h.length % max + 1 = max := by omega
        refine ⟨h1, by rw [hmod', if_neg he2, ← h2], ?_, ?_, ?_⟩
        · simp [hmf]; omega
        · intro hlt; simp at hlt; omega
        · intro _
          refine ⟨by simp [h6], ?_⟩
          simp only []
          exact hset _ (by rw [if_neg he2, h2])
    · split <;> rfl
  · have hlt : h.length < max := by omega
    have hb := h4 hlt
    have hmf : m.full = false := by rw [h3]; simpa using hlt
    have hmm : h.length % max = h.length := Nat.mod_eq_of_lt hlt
    rw [hmm] at h2 hmod'
    have hroom : m.buf.length < m.maxSize := by rw [hb, h1]; exact hlt
    refine ⟨_, by simp only [Mem.store, hmf, Bool.false_eq_true, if_false, hroom, if_true]; rfl, ?_, ?_⟩
    · by_cases he : m.idx + 1 = m.maxSize
      · rw [if_pos he]
        have he2 : h.length + 1 = max := by omega
        refine ⟨h1, by rw [hmod', if_pos he2], ?_, ?_, ?_⟩
        · simp; omega
        · intro hlt; simp at hlt; omega
        · intro _
          simp only []
          refine ⟨by simp [hb, he2], ?_⟩
          rw [hb]
          have : (h ++ [r]).length - max = 0 := by simp; omega
          rw [this]; simp
      · rw [if_neg he]
        have he2 : ¬ h.length + 1 = max := by omega
        refine ⟨h1, by rw [hmod', if_neg he2, ← h2], ?_, ?_, ?_⟩
        · simp [hmf]; omega
        · intro _; simp [hb]
        · intro hle; simp at hle; omega
    · split <;> rfl

theorem fifo_foldE {max : Nat} (hmax : 0 < max) (rs : List (Row X A R P)) :
    ∀ {m : Mem X A R P} {h : List (Row X A R P)}, Fifo m max h →
      ∃ m', foldE (fun m r => m.store r) m rs = .ok m' ∧ Fifo m' max (h ++ rs) ∧ m'.initialSize = m.initialSize := by
  induction rs with
  | nil => intro m h hf; exact ⟨m, rfl, by simpa using hf, rfl⟩
  | cons r rs ih =>
    intro m h hf
    obtain ⟨m1, h1, hf1, hi1⟩ := fifo_store hmax hf r
    obtain ⟨m2, h2, hf2, hi2⟩ := ih hf1
    refine ⟨m2, by simp only [foldE, h1, h2], by simpa using hf2, hi2.trans hi1⟩

theorem add_fifo [Semiring R] {max : Nat} (hmax : 0 < max) {m : Mem X A R P} {h : List (Row X A R P)}
    (hf : Fifo m max h) (rows : List (Row X A R P)) (n : Nat) (hn : 0 < n) (gamma : R) :
    ∃ m' rw, m.add rows n gamma = .ok (m', rw) ∧ Fifo m' max (h ++ (windows gamma n rows).map (·.2)) ∧
      m'.initialSize = m.initialSize := by
  obtain ⟨m', h1, h2, h3⟩ := fifo_foldE hmax ((windows gamma n rows).map (·.2)) hf
  rw [← add_eq_fold m rows n hn gamma] at h1
  cases ha : m.add rows n gamma with
  | error e => rw [ha] at h1; simp [stateOf] at h1
  | ok p =>
    obtain ⟨m'', rw'⟩ := p
    rw [ha] at h1
    simp only [stateOf, Except.ok.injEq] at h1
    subst h1
    exact ⟨m'', rw', rfl, h2, h3⟩

theorem addAll_fifo [Semiring R] {max : Nat} (hmax : 0 < max) (cs : List (AddCall X A R P)) (hcs : ∀ c ∈ cs, 0 < c.n) :
    ∀ {m : Mem X A R P} {h : List (Row X A R P)}, Fifo m max h →
      ∃ m', addAll m cs = .ok m' ∧ Fifo m' max (h ++ history cs) ∧ m'.initialSize = m.initialSize := by
  induction cs with
  | nil => intro m h hf; exact ⟨m, rfl, by simpa [history] using hf, rfl⟩
  | cons c cs ih =>
    intro m h hf
    obtain ⟨m1, rw', h1, hf1, hi1⟩ := add_fifo hmax hf c.rows c.n (hcs c List.mem_cons_self) c.gamma
    obtain ⟨m2, h2, hf2, hi2⟩ := ih (fun c' h' => hcs c' (List.mem_cons_of_mem _ h')) hf1
    refine ⟨m2, by simp only [addAll, h1, h2], ?_, hi2.trans hi1⟩
    simpa [history] using hf2

theorem fifo_buf_length {m : Mem X A R P} {max : Nat} {h : List (Row X A R P)} (hf : Fifo m max h) :
    m.buf.length = min h.length max := by
  by_cases hl : h.length < max
  · rw [hf.notFull hl]; omega
  · rw [(hf.isFull (by omega)).1]; omega

theorem fifo_size {m : Mem X A R P} {max : Nat} {h : List (Row X A R P)} (hf : Fifo m max h) :
    m.size = min h.length max := by
  simp only [Mem.size, hf.full, hf.idx, hf.maxSize]
  by_cases hl : h.length < max
  · have : ¬ max ≤ h.length := by omega
    simp only [this, decide_false, Bool.not_false, if_true]
    rw [Nat.mod_eq_of_lt hl]; omega
  · have : max ≤ h.length := by omega
    simp only [this, decide_true, Bool.not_true, Bool.false_eq_true, if_false]
    omega

theorem fifo_perm {m : Mem X A R P} {max : Nat} {h : List (Row X A R P)} (hf : Fifo m max h) :
    m.buf.Perm (h.drop (h.length - max)) := by
  by_cases hl : h.length < max
  · rw [hf.notFull hl]
    have : h.length - max = 0 := by omega
    rw [this]; simp
  · rw [← (hf.isFull (by omega)).2]
    have := (List.perm_append_comm (l₁ := m.buf.take m.idx) (l₂ := m.buf.drop m.idx))
    rw [List.take_append_drop] at this
    exact this

/-- Slot `t mod max` holds the `t`-th stored transition, for the most recent ones. -/
theorem fifo_slot {m : Mem X A R P} {max : Nat} {h : List (Row X A R P)} (hmax : 0 < max) (hf : Fifo m max h) (t : Nat)
    (h1 : h.length ≤ t + max) (h2 : t < h.length) : m.buf[t % max]? = h[t]? := by
  by_cases hl : h.length < max
  · rw [hf.notFull hl, Nat.mod_eq_of_lt (by omega)]
  · obtain ⟨hb, hr⟩ := hf.isFull (by omega)
    have hidx := hf.idx
    have hi : m.idx < max := by rw [hidx]; exact Nat.mod_lt _ hmax
    -- position of t in the recent list
    have e1 : h[t]? = (h.drop (h.length - max))[t - (h.length - max)]? := by
      rw [List.getElem?_drop]; congr 1; omega
    rw [e1, ← hr]
    have hmodt : t % max = (m.idx + (t - (h.length - max))) % max := by
      rw [hidx, Nat.mod_add_mod]
      have : h.length + (t - (h.length - max)) = t + max := by omega
      rw [this, Nat.add_mod_right]
    rw [hmodt]
    by_cases hc : m.idx + (t - (h.length - max)) < max
    · rw [Nat.mod_eq_of_lt hc, List.getElem?_append_left (by simp; omega), List.getElem?_drop]
    · have e2 : (m.idx + (t - (h.length - max))) % max = m.idx + (t - (h.length - max)) - max := by
        rw [Nat.mod_eq_sub_mod (by omega), Nat.mod_eq_of_lt (by omega)]
      rw [e2, List.getElem?_append_right (by simp; omega), List.getElem?_take, List.length_drop, hb]
      rw [if_pos (by omega)]
      congr 1; omega

end Verif.Memory
