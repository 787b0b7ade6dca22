/-
Properties of the training loop of torch approximators (C111).
-/
import Verif.Approx.ModelFit
import Verif.Utils.Props
import Mathlib.Algebra.Order.Floor.Semiring
import Mathlib.Algebra.Order.Archimedean.Basic
import Mathlib.Data.Real.Archimedean
import Mathlib.Logic.Function.Iterate
import Mathlib.Tactic.Linarith
import Mathlib.Tactic.FieldSimp
import Mathlib.Tactic.NormNum
import Mathlib.Tactic.Ring

namespace Verif.Approx.Fit

noncomputable section

variable {W X : Type}

/-! ### The split -/

/-- C111: with a split between zero and one the first samples, rounded up, are for training and the rest for validation; with one all are for training.
Other splits are rejected. -/
theorem C111_split (n : ℕ) (split : ℝ) :
    (0 < split ∧ split ≤ 1 → ∃ len, trainLen n split = some len ∧ len ≤ n ∧ (n : ℝ) * split ≤ len ∧ (len : ℝ) < n * split + 1
      ∧ (0 < n → 0 < len)) ∧ trainLen n 1 = some n ∧ (¬ (0 < split ∧ split ≤ 1) → trainLen n split = none) := by
  refine ⟨?_, ?_, ?_⟩
  · intro h
    have hn : (0 : ℝ) ≤ n := Nat.cast_nonneg n
    refine ⟨_, if_pos h, ?_, Nat.le_ceil _, Nat.ceil_lt_add_one (mul_nonneg hn h.1.le), ?_⟩
    · rw [Nat.ceil_le]; nlinarith [h.2]
    · intro h0
      rw [Nat.ceil_pos]
      exact mul_pos (by exact_mod_cast h0) h.1
  · simp [trainLen]
  · intro h; exact if_neg h

/-! ### Epochs -/

theorem select_all {Y : Type} (l : List Y) : (List.range l.length).filterMap (fun j => l[j]?) = l := by
  have : ∀ k, k ≤ l.length → (List.range k).filterMap (fun j => l[j]?) = l.take k := by
    intro k
    induction k with
    | zero => intro _; simp
    | succ k ih =>
      intro hk
      rw [List.range_succ, List.filterMap_append, ih (by omega), List.take_add_one]
      cases h : l[k]? <;> simp [h]
  rw [this l.length le_rfl, List.take_length]

/-- C111: in an epoch every training sample is used in exactly one batch, no batch has more samples than the batch size, and without a batch size there is one
batch. -/
theorem C111_epoch (batchSize : ℕ) (train : List (X × ℝ)) (shuffle : List ℕ) (hp : shuffle.Perm (List.range train.length)) :
    (batches batchSize train shuffle).flatten.Perm train ∧ (batchSize = 0 → batches batchSize train shuffle = [train])
      ∧ (0 < batchSize → ∀ b ∈ batches batchSize train shuffle, b.length ≤ batchSize) := by
  refine ⟨?_, ?_, ?_⟩
  · unfold batches
    split_ifs with h
    · have hf := (Utils.C39_partition train.length batchSize h shuffle hp).1
      have : ∀ ll : List (List ℕ), (ll.map (fun idx => idx.filterMap (fun j => train[j]?))).flatten = ll.flatten.filterMap (fun j => train[j]?) := by
        intro ll
        induction ll with
        | nil => rfl
        | cons a ll ih => rw [List.map_cons, List.flatten_cons, List.flatten_cons, List.filterMap_append, ih]
      rw [this, hf]
      exact (hp.filterMap _).trans (by rw [select_all])
    · simp
  · intro h; subst h; exact if_neg (by omega)
  · intro h b hb
    rw [batches, if_pos h, List.mem_map] at hb
    obtain ⟨idx, hidx, rfl⟩ := hb
    refine (List.length_filterMap_le _ _).trans ?_
    rw [Utils.batchIndexes, List.mem_map] at hidx
    obtain ⟨i, _, rfl⟩ := hidx
    rw [List.length_drop, List.length_take]
    have : (i + 1) * batchSize = i * batchSize + batchSize := by ring
    omega

example (a b c : X) : (batches 2 [(a, 1), (b, 2), (c, 3)] [2, 0, 1]).flatten.Perm [(a, 1), (b, 2), (c, 3)] := (C111_epoch 2 [(a, 1), (b, 2), (c, 3)] [2, 0, 1] (by decide : [2, 0, 1].Perm (List.range 3))).1

/-- The weights after some batches, each a step of the optimiser. -/
def after (net : Net W X) (w : W) : List (List (X × ℝ)) → W
  | [] => w
  | b :: rest => after net (net.update w b) rest

theorem fitBatches_spec (net : Net W X) (u : Bool) : ∀ (bs : List (List (X × ℝ))) (w : W) (l : List ℝ),
    bs.foldl (fun s b => (net.update s.1 b, s.2 ++ [batchLoss net u s.1 b])) (w, l) =
      (after net w bs, l ++ (List.range bs.length).map (fun i => batchLoss net u (after net w (bs.take i)) (bs.getD i []))) := by
  intro bs
  induction bs with
  | nil => intro w l; simp [after]
  | cons b bs ih =>
    intro w l
    rw [List.foldl_cons, ih]
    simp only [after, List.length_cons, List.range_succ_eq_map, List.map_cons, List.map_map, Prod.mk.injEq, true_and, List.append_assoc]
    congr 1

/-- C111: an epoch makes one step of the optimiser for every batch in turn, and its loss is the mean of the losses of the batches, each before its
step. -/
theorem C111_losses (net : Net W X) (c : Cfg) (train : List (X × ℝ)) (shuffle : List ℕ) (w : W) :
    let bs := batches c.batchSize train shuffle
    (fitEpoch net c train shuffle w).1 = after net w bs ∧
    (fitEpoch net c train shuffle w).2 =
      ((List.range bs.length).map (fun i => batchLoss net c.useWeights (after net w (bs.take i)) (bs.getD i []))).sum / bs.length := by
  intro bs
  simp only [fitEpoch, fitBatches]
  rw [fitBatches_spec]
  refine ⟨rfl, ?_⟩
  simp only [List.nil_append, List.length_map, List.length_range]
  rfl

/-- C111: with equal weights the weighted loss is the unweighted one; in general every sample counts in proportion to its weight. -/
theorem C111_weights (net : Net W X) (w : W) (batch : List (X × ℝ)) (v : ℝ) (hv : v ≠ 0) :
    ((∀ x ∈ batch, x.2 = v) → batchLoss net true w batch = batchLoss net false w batch) ∧
    (∀ a : ℝ, a ≠ 0 → batchLoss net true w (batch.map (fun x => (x.1, a * x.2))) = batchLoss net true w batch) ∧
    (∀ l : ℝ, (∀ x ∈ batch, net.loss w x.1 = l) → (batch.map Prod.snd).sum ≠ 0 → batchLoss net true w batch = l) := by
  have sum_mul : ∀ (b : List (X × ℝ)) (f : X → ℝ) (a : ℝ), (b.map (fun x => f x.1 * (a * x.2))).sum = a * (b.map (fun x => f x.1 * x.2)).sum := by
    intro b f a
    induction b with
    | nil => simp
    | cons x b ih => simp only [List.map_cons, List.sum_cons, ih]; ring
  have sum_mul2 : ∀ (b : List (X × ℝ)) (a : ℝ), (b.map (fun x => a * x.2)).sum = a * (b.map Prod.snd).sum := by
    intro b a
    induction b with
    | nil => simp
    | cons x b ih => simp only [List.map_cons, List.sum_cons, ih]; ring
  refine ⟨?_, ?_, ?_⟩
  · intro h
    have h1 : ∀ b : List (X × ℝ), (∀ x ∈ b, x.2 = v) → (b.map (fun x => net.loss w x.1 * x.2)).sum = v * (b.map (fun x => net.loss w x.1)).sum
        ∧ (b.map Prod.snd).sum = v * b.length := by
      intro b
      induction b with
      | nil => intro _; simp
      | cons x b ih =>
        intro hb
        obtain ⟨i1, i2⟩ := ih (fun y hy => hb y (by simp [hy]))
        have hx := hb x (by simp)
        simp only [List.map_cons, List.sum_cons, i1, i2, hx, List.length_cons]
        push_cast
        constructor <;> ring
    obtain ⟨h2, h3⟩ := h1 batch h
    simp only [batchLoss, if_true, Bool.false_eq_true, if_false, h2, h3]
    rw [mul_div_mul_left _ _ hv]
  · intro a ha
    simp only [batchLoss, if_true, List.map_map]
    have e1 : batch.map ((fun x : X × ℝ => net.loss w x.1 * x.2) ∘ fun x => (x.1, a * x.2)) = batch.map (fun x => net.loss w x.1 * (a * x.2)) := rfl
    have e2 : batch.map (Prod.snd ∘ fun x : X × ℝ => (x.1, a * x.2)) = batch.map (fun x => a * x.2) := rfl
    rw [e1, e2, sum_mul batch (net.loss w) a, sum_mul2, mul_div_mul_left _ _ ha]
  · intro l hl hs
    have : batch.map (fun x => net.loss w x.1 * x.2) = batch.map (fun x => l * x.2) := by
      apply List.map_congr_left
      intro x hx; rw [hl x hx]
    simp only [batchLoss, if_true, this, sum_mul2]
    field_simp

/-! ### Early stopping -/

/-- The weights and the loss of the epochs from some weights: weights before epoch `k`. -/
def weightsAt (net : Net W X) (c : Cfg) (train : List (X × ℝ)) (shuffle : ℕ → List ℕ) (w : W) : ℕ → W
  | 0 => w
  | k + 1 => (fitEpoch net c train (shuffle k) (weightsAt net c train shuffle w k)).1

/-- The loss of epoch `k` on the training samples. -/
def trainLoss (net : Net W X) (c : Cfg) (train : List (X × ℝ)) (shuffle : ℕ → List ℕ) (w : W) (k : ℕ) : ℝ :=
  (fitEpoch net c train (shuffle k) (weightsAt net c train shuffle w k)).2

/-- The loss that early stopping looks at after epoch `k`: that of the validation samples if there are any. -/
def watched (net : Net W X) (c : Cfg) (train val : List (X × ℝ)) (shuffle : ℕ → List ℕ) (w : W) (k : ℕ) : ℝ :=
  if val = [] then trainLoss net c train shuffle w k else batchLoss net c.useWeights (weightsAt net c train shuffle w (k + 1)) val

/-- The last epoch among the first `k` whose loss is smaller by more than `ε` than that of the last such epoch before it; the first epoch is one. -/
def lastBetter (l : ℕ → ℝ) (ε : ℝ) : ℕ → Option ℕ
  | 0 => none
  | k + 1 => match lastBetter l ε k with
    | none => some k
    | some i => if l k < l i - ε then some k else some i

theorem lastBetter_lt (l : ℕ → ℝ) (ε : ℝ) : ∀ k i, lastBetter l ε k = some i → i < k := by
  intro k
  induction k with
  | zero => intro i h; simp [lastBetter] at h
  | succ k ih =>
    intro i h
    rw [lastBetter] at h
    cases hk : lastBetter l ε k with
    | none => rw [hk] at h; simp only [Option.some.injEq] at h; omega
    | some j =>
      rw [hk] at h
      simp only at h
      split_ifs at h
      · simp only [Option.some.injEq] at h; omega
      · simp only [Option.some.injEq] at h
        have := ih j hk
        omega

theorem lastBetter_none (l : ℕ → ℝ) (ε : ℝ) (k : ℕ) : lastBetter l ε k = none ↔ k = 0 := by
  cases k with
  | zero => simp [lastBetter]
  | succ k =>
    rw [lastBetter]
    cases lastBetter l ε k with
    | none => simp
    | some i => simp only; split_ifs <;> simp

/-- The epochs since then. -/
def since (l : ℕ → ℝ) (ε : ℝ) (k : ℕ) : ℕ := match lastBetter l ε k with
  | none => 0
  | some i => k - (i + 1)

theorem iterate_stop (net : Net W X) (c : Cfg) (ε : ℝ) (train val : List (X × ℝ)) (shuffle : ℕ → List ℕ) (s : St W) (hc : s.count = 0)
    (hb : s.best = none) (he : s.epochs = 0) (k : ℕ) :
    let l := watched net c train val shuffle s.w
    let s' := (stopEpoch net c ε train val shuffle)^[k] s
    s'.w = weightsAt net c train shuffle s.w k ∧ s'.training = s.training ∧ s'.epochs = k ∧ s'.count = since l ε k
      ∧ s'.best = (lastBetter l ε k).map l ∧ s'.last = if k = 0 then s.last else some (trainLoss net c train shuffle s.w (k - 1)) := by
  intro l s'
  induction k with
  | zero => simp [s', weightsAt, since, lastBetter, hc, hb, he]
  | succ k ih =>
    simp only [s', Function.iterate_succ_apply']
    obtain ⟨h1, h2, h3, h4, h5, h6⟩ := ih
    generalize (stopEpoch net c ε train val shuffle)^[k] s = t at h1 h2 h3 h4 h5 h6 ⊢
    have hloss : (if val.length ≠ 0 then batchLoss net c.useWeights (fitEpoch net c train (shuffle t.epochs) t.w).1 val
        else (fitEpoch net c train (shuffle t.epochs) t.w).2) = l k := by
      simp only [l, watched, h1, h3, trainLoss, weightsAt]
      by_cases hv : val = []
      · simp [hv]
      · rw [if_neg hv, if_pos (fun h => hv (List.eq_nil_of_length_eq_zero h))]
    have hlt := lastBetter_lt l ε k
    simp only [stopEpoch, hloss, h5]
    refine ⟨by rw [h1, h3]; rfl, h2, by rw [h3], ?_, ?_, by rw [h1, h3]; simp [trainLoss]⟩
    · cases hlb : lastBetter l ε k with
      | none => simp [since, lastBetter, hlb]
      | some i =>
        have hi := hlt i hlb
        by_cases hbet : l k < l i - ε
        · have : l i - l k > ε := by linarith
          simp [since, lastBetter, hlb, hbet, this]
        · have : ¬ (l i - l k > ε) := by intro h; apply hbet; linarith
          have e1 : since l ε (k + 1) = k + 1 - (i + 1) := by simp only [since, lastBetter, hlb, hbet, if_false]
          have e2 : since l ε k = k - (i + 1) := by simp only [since, hlb]
          rw [e1]
          simp only [Option.map_some, decide_eq_true_eq, this, if_false, h4, e2]
          have : k - (i + 1) + 1 = k + 1 - (i + 1) := by omega
          exact this
    · cases hlb : lastBetter l ε k with
      | none => simp [lastBetter, hlb]
      | some i =>
        by_cases hbet : l k < l i - ε
        · have : l i - l k > ε := by linarith
          simp [lastBetter, hlb, hbet, this]
        · have : ¬ (l i - l k > ε) := by intro h; apply hbet; linarith
          simp [lastBetter, hlb, hbet, this]

/-- When early stopping stops: the epochs that did not improve have used up the patience, or there are no more epochs. -/
def Stop (c : Cfg) (l : ℕ → ℝ) (ε : ℝ) (k : ℕ) : Prop := c.patience ≤ since l ε k ∨ ∃ n, c.epochs = some n ∧ n ≤ k

/-- C111: with early stopping `fit` makes as many epochs as it takes until no epoch in a row of `patience` ones improved the loss by more than `epsilon`, or
until `n_epochs`, and not one more; the weights are those after these epochs, and `loss_fit` is the training loss of the last one. -/
theorem C111_early_stopping (net : Net W X) (c : Cfg) (data : List (X × ℝ)) (shuffle : ℕ → List ℕ) (w : W) (last : Option ℝ) (ε : ℝ)
    (he : c.epsilon = some ε) (len : ℕ) (hl : trainLen data.length c.split = some len) (s : St W) :
    let w0 := if c.reinitialize then net.init w else w
    let l := watched net c (data.take len) (data.drop len) shuffle w0
    Returns net c data shuffle w last s ↔
      ∃ k, Stop c l ε k ∧ (∀ j < k, ¬ Stop c l ε j) ∧ s.w = weightsAt net c (data.take len) shuffle w0 k ∧ s.training = false ∧ s.epochs = k
        ∧ s.count = since l ε k ∧ s.best = (lastBetter l ε k).map l
        ∧ s.last = if k = 0 then last else some (trainLoss net c (data.take len) shuffle w0 (k - 1)) := by
  intro w0 l
  have hit := iterate_stop net c ε (data.take len) (data.drop len) shuffle (start net c w last) rfl rfl rfl
  have hcond : ∀ k, goesOn c ((stopEpoch net c ε (data.take len) (data.drop len) shuffle)^[k] (start net c w last)) = false ↔ Stop c l ε k := by
    intro k
    obtain ⟨_, _, h3, h4, _, _⟩ := hit k
    unfold goesOn Stop
    rw [h3, h4]
    have : (start net c w last).w = w0 := rfl
    rw [this, Bool.and_eq_false_iff, decide_eq_false_iff_not, not_lt]
    cases hce : c.epochs with
    | none => simp [l]
    | some n => simp [l]
  have hends : ∀ k, Ends (goesOn c) (stopEpoch net c ε (data.take len) (data.drop len) shuffle) (start net c w last) k ↔
      Stop c l ε k ∧ ∀ j < k, ¬ Stop c l ε j := by
    intro k
    unfold Ends
    rw [hcond]
    constructor
    · rintro ⟨h1, h2⟩
      exact ⟨h1, fun j hj hs => by rw [← hcond j, h2 j hj] at hs; simp at hs⟩
    · rintro ⟨h1, h2⟩
      refine ⟨h1, fun j hj => ?_⟩
      have := h2 j hj
      rw [← hcond j, Bool.not_eq_false] at this
      exact this
  constructor
  · rintro (⟨len', hl', he'⟩ | ⟨len', ε', k, hl', he', hk⟩)
    · rw [he] at he'; simp at he'
    · rw [he] at he'
      rw [hl] at hl'
      simp only [Option.some.injEq] at he' hl'
      subst he' hl'
      obtain ⟨h1, h2⟩ := (hends k).1 hk
      obtain ⟨i1, _, i3, i4, i5, i6⟩ := hit k
      exact ⟨k, h1, h2, i1, rfl, i3, i4, i5, i6⟩
  · rintro ⟨k, h1, h2, e1, e2, e3, e4, e5, e6⟩
    have := Returns.stopping (net := net) (c := c) (data := data) (shuffle := shuffle) (w := w) (last := last) len ε k hl he ((hends k).2 ⟨h1, h2⟩)
    obtain ⟨i1, _, i3, i4, i5, i6⟩ := hit k
    have hs : s = (let t := (stopEpoch net c ε (data.take len) (data.drop len) shuffle)^[k] (start net c w last); { t with training := false }) := by
      obtain ⟨a1, a2, a3, a4, a5, a6⟩ := s
      simp only at e1 e2 e3 e4 e5 e6
      simp only [St.mk.injEq]
      refine ⟨e1.trans i1.symm, e2, e4.trans i4.symm, e5.trans i5.symm, e3.trans i3.symm, e6.trans i6.symm⟩
    rw [hs]
    exact this

/-- The number of epochs that improved. -/
def improvements (l : ℕ → ℝ) (ε : ℝ) : ℕ → ℕ
  | 0 => 0
  | k + 1 => improvements l ε k + if lastBetter l ε (k + 1) = some k then 1 else 0

theorem best_bound (l : ℕ → ℝ) (ε : ℝ) (k : ℕ) : ∀ i, lastBetter l ε k = some i →
    l i + ε * (improvements l ε k - 1) ≤ l 0 ∧ 1 ≤ improvements l ε k := by
  induction k with
  | zero => intro i h; simp [lastBetter] at h
  | succ k ih =>
    intro i h
    have hdef : lastBetter l ε (k + 1) = match lastBetter l ε k with
      | none => some k
      | some i => if l k < l i - ε then some k else some i := rfl
    cases hk : lastBetter l ε k with
    | none =>
      have hk0 := (lastBetter_none l ε k).1 hk
      subst hk0
      rw [hdef, hk] at h
      simp only [Option.some.injEq] at h
      subst h
      simp [improvements, hdef, hk]
    | some j =>
      obtain ⟨h1, h2⟩ := ih j hk
      have hj := lastBetter_lt l ε k j hk
      rw [hk] at hdef
      simp only at hdef
      by_cases hb : l k < l j - ε
      · rw [if_pos hb] at hdef
        rw [hdef] at h
        simp only [Option.some.injEq] at h
        subst h
        have : improvements l ε (k + 1) = improvements l ε k + 1 := by simp [improvements, hdef]
        refine ⟨?_, by rw [this]; omega⟩
        rw [this]
        push_cast
        linarith
      · rw [if_neg hb] at hdef
        rw [hdef] at h
        simp only [Option.some.injEq] at h
        subst h
        have hne : ¬ (some j = some k) := by rw [Option.some.injEq]; omega
        simp only [improvements, hdef, if_neg hne, add_zero]
        exact ⟨h1, h2⟩

theorem epochs_bound (l : ℕ → ℝ) (ε : ℝ) (p : ℕ) : ∀ k, (∀ j < k, since l ε j < p) → 0 < k →
    k ≤ (improvements l ε k - 1) * p + 1 + since l ε k ∧ 1 ≤ improvements l ε k := by
  intro k
  induction k with
  | zero => intro _ h; omega
  | succ k ih =>
    intro hj _
    have hdef : lastBetter l ε (k + 1) = match lastBetter l ε k with
      | none => some k
      | some i => if l k < l i - ε then some k else some i := rfl
    cases hk : lastBetter l ε k with
    | none =>
      have hk0 := (lastBetter_none l ε k).1 hk
      subst hk0
      rw [hk] at hdef
      simp [improvements, hdef, since]
    | some i =>
      have hi := lastBetter_lt l ε k i hk
      obtain ⟨h1, h2⟩ := ih (fun j h => hj j (by omega)) (by omega)
      have hs := hj k (by omega)
      rw [hk] at hdef
      simp only at hdef
      by_cases hb : l k < l i - ε
      · rw [if_pos hb] at hdef
        have : improvements l ε (k + 1) = improvements l ε k + 1 := by simp [improvements, hdef]
        rw [this]
        refine ⟨?_, by omega⟩
        obtain ⟨m, hm⟩ : ∃ m, improvements l ε k = m + 1 := ⟨improvements l ε k - 1, by omega⟩
        rw [hm] at h1 ⊢
        simp only [Nat.add_sub_cancel] at h1 ⊢
        have : (m + 1) * p = m * p + p := by ring
        rw [this]
        omega
      · rw [if_neg hb] at hdef
        have hne : ¬ (some i = some k) := by simp only [Option.some.injEq]; omega
        have : improvements l ε (k + 1) = improvements l ε k := by simp [improvements, hdef, hne]
        rw [this]
        have hsince : since l ε (k + 1) = since l ε k + 1 := by
          simp only [since, hdef, hk]; omega
        rw [hsince]
        exact ⟨by omega, h2⟩

/-- C111: if the losses are never negative and `epsilon` is positive, early stopping stops, even without a number of epochs; and the first loss bounds the
number of epochs. -/
theorem C111_terminates (net : Net W X) (c : Cfg) (data : List (X × ℝ)) (shuffle : ℕ → List ℕ) (w : W) (last : Option ℝ) (ε : ℝ) (hε : 0 < ε)
    (he : c.epsilon = some ε) (len : ℕ) (hl : trainLen data.length c.split = some len) :
    let w0 := if c.reinitialize then net.init w else w
    let l := watched net c (data.take len) (data.drop len) shuffle w0
    (∀ k, 0 ≤ l k) → ∃ s, Returns net c data shuffle w last s ∧ s.epochs ≤ (⌊l 0 / ε⌋₊ + 1) * c.patience + 1 := by
  intro w0 l hpos
  have hbound : ∃ k, k ≤ (⌊l 0 / ε⌋₊ + 1) * c.patience + 1 ∧ Stop c l ε k := by
    by_contra hc
    push Not at hc
    have hno : ∀ j ≤ (⌊l 0 / ε⌋₊ + 1) * c.patience + 1, since l ε j < c.patience := by
      intro j hj
      by_contra h
      exact hc j hj (Or.inl (by omega))
    set K := (⌊l 0 / ε⌋₊ + 1) * c.patience + 1 with hK
    obtain ⟨h1, h2⟩ := epochs_bound l ε c.patience K (fun j hj => hno j (by omega)) (by omega)
    have h3 := hno K le_rfl
    obtain ⟨i, hi⟩ : ∃ i, lastBetter l ε K = some i := by
      cases h : lastBetter l ε K with
      | none => have := (lastBetter_none l ε K).1 h; omega
      | some i => exact ⟨i, rfl⟩
    obtain ⟨h4, _⟩ := best_bound l ε K i hi
    have h5 : ((improvements l ε K : ℝ) - 1) ≤ l 0 / ε := by
      rw [le_div_iff₀ hε]
      have := hpos i
      linarith [mul_comm ε ((improvements l ε K : ℝ) - 1)]
    have h6 : improvements l ε K - 1 ≤ ⌊l 0 / ε⌋₊ := by
      apply Nat.le_floor
      rw [Nat.cast_sub h2]
      simpa using h5
    have h7 : (improvements l ε K - 1) * c.patience ≤ ⌊l 0 / ε⌋₊ * c.patience := Nat.mul_le_mul_right _ h6
    have h8 : (⌊l 0 / ε⌋₊ + 1) * c.patience = ⌊l 0 / ε⌋₊ * c.patience + c.patience := by ring
    omega
  classical
  have hex : ∃ k, Stop c l ε k := ⟨hbound.choose, hbound.choose_spec.2⟩
  let k := Nat.find hex
  have hk1 : Stop c l ε k := Nat.find_spec hex
  have hk2 : ∀ j < k, ¬ Stop c l ε j := fun j hj => Nat.find_min hex hj
  have hk3 : k ≤ hbound.choose := Nat.find_min' hex hbound.choose_spec.2
  refine ⟨⟨weightsAt net c (data.take len) shuffle w0 k, false, since l ε k, (lastBetter l ε k).map l, k,
    if k = 0 then last else some (trainLoss net c (data.take len) shuffle w0 (k - 1))⟩, ?_, ?_⟩
  · exact (C111_early_stopping net c data shuffle w last ε he len hl _).2 ⟨k, hk1, hk2, rfl, rfl, rfl, rfl, rfl, rfl⟩
  · exact hk3.trans hbound.choose_spec.1

/-- C111: without `epsilon` there are exactly `n_epochs` epochs, or one; the weights are those after them, and `loss_fit` is the training loss of
the last one. -/
theorem C111_plain (net : Net W X) (c : Cfg) (data : List (X × ℝ)) (shuffle : ℕ → List ℕ) (w : W) (last : Option ℝ) (he : c.epsilon = none) (len : ℕ)
    (hl : trainLen data.length c.split = some len) :
    let w0 := if c.reinitialize then net.init w else w
    let n := c.epochs.getD 1
    ∃ s, (∀ t, Returns net c data shuffle w last t ↔ t = s) ∧ s.w = weightsAt net c (data.take len) shuffle w0 n ∧ s.training = false ∧ s.epochs = n
      ∧ s.last = if n = 0 then last else some (trainLoss net c (data.take len) shuffle w0 (n - 1)) := by
  intro w0 n
  have hit : ∀ (k : ℕ) (s : St W), s.epochs = 0 → let s' := (plainEpoch net c (data.take len) shuffle)^[k] s
      s'.w = weightsAt net c (data.take len) shuffle s.w k ∧ s'.epochs = k
      ∧ s'.last = if k = 0 then s.last else some (trainLoss net c (data.take len) shuffle s.w (k - 1)) := by
    intro k s hs
    induction k with
    | zero => simp [weightsAt, hs]
    | succ k ih =>
      simp only [Function.iterate_succ_apply'] at ih ⊢
      obtain ⟨h1, h2, h3⟩ := ih
      refine ⟨?_, ?_, ?_⟩
      · simp only [plainEpoch, h1, h2]; rfl
      · simp only [plainEpoch, h2]
      · simp only [plainEpoch, h1, h2]
        simp [trainLoss]
  obtain ⟨h1, h2, h3⟩ := hit n (start net c w last) rfl
  refine ⟨let s := (plainEpoch net c (data.take len) shuffle)^[n] (start net c w last); { s with training := false }, ?_, h1, rfl, h2, h3⟩
  intro t
  constructor
  · rintro (⟨len', hl', he'⟩ | ⟨len', ε', k, hl', he', hk⟩)
    · rw [hl] at hl'
      simp only [Option.some.injEq] at hl'
      subst hl'
      rfl
    · rw [he] at he'; simp at he'
  · rintro rfl
    exact Returns.plain len hl he

/-- C111: with `reinitialize` and an initialisation that does not look at the old weights, the result does not depend on them. -/
theorem C111_reinitialize (net : Net W X) (c : Cfg) (hr : c.reinitialize = true) (hi : ∀ w w', net.init w = net.init w') (data : List (X × ℝ))
    (shuffle : ℕ → List ℕ) (w w' : W) (last : Option ℝ) (s : St W) :
    Returns net c data shuffle w last s ↔ Returns net c data shuffle w' last s := by
  have hstart : start net c w last = start net c w' last := by simp [start, hr, hi w w']
  have key : ∀ w w' : W, start net c w last = start net c w' last → Returns net c data shuffle w last s → Returns net c data shuffle w' last s := by
    intro w w' hs h
    rcases h with ⟨len, hl, he⟩ | ⟨len, ε, k, hl, he, hk⟩
    · rw [hs]; exact Returns.plain len hl he
    · rw [hs] at hk ⊢; exact Returns.stopping len ε k hl he hk
  exact ⟨key w w' hstart, key w' w hstart.symm⟩

/-- A network with one weight that is halved by every step; its loss is the weight. -/
def halving : Net ℝ Unit := ⟨fun _ => 1, fun w _ => w, fun w _ => w / 2⟩

/-- Settings with early stopping and a quarter for validation. -/
def demo : Cfg := ⟨false, true, 2, none, some (1 / 10), 2, 3 / 4, false⟩

theorem halving_loss (w : ℝ) (b : List (Unit × ℝ)) (hw : 0 ≤ w) : 0 ≤ batchLoss halving false w b := by
  simp only [batchLoss, halving, Bool.false_eq_true, if_false]
  apply div_nonneg _ (Nat.cast_nonneg _)
  apply List.sum_nonneg
  intro x hx
  obtain ⟨_, _, rfl⟩ := List.mem_map.1 hx
  exact hw

theorem halving_weights (bs : List (List (Unit × ℝ))) : ∀ w : ℝ, 0 ≤ w → 0 ≤ after halving w bs := by
  induction bs with
  | nil => intro w hw; exact hw
  | cons b bs ih => intro w hw; exact ih _ (by simp only [halving]; linarith)

example (shuffle : ℕ → List ℕ) : ∃ s, Returns halving demo [((), 1), ((), 1), ((), 1), ((), 1)] shuffle 1 none s := by
  obtain ⟨len, h, _⟩ := (C111_split 4 (3 / 4)).1 (by norm_num)
  have hw : ∀ k, 0 ≤ weightsAt halving demo (List.take len [((), (1 : ℝ)), ((), 1), ((), 1), ((), 1)]) shuffle 1 k := by
    intro k
    induction k with
    | zero => simp [weightsAt]
    | succ k ih =>
      rw [weightsAt, (C111_losses _ _ _ _ _).1]
      exact halving_weights _ _ ih
  obtain ⟨s, hs, _⟩ := C111_terminates halving demo [((), 1), ((), 1), ((), 1), ((), 1)] shuffle 1 none (1 / 10) (by norm_num) rfl len h (by
    intro k
    simp only [watched, demo, Bool.false_eq_true, if_false]
    split_ifs
    · have := (C111_losses halving demo (List.take len [((), (1 : ℝ)), ((), 1), ((), 1), ((), 1)]) (shuffle k) (weightsAt halving demo
        (List.take len [((), (1 : ℝ)), ((), 1), ((), 1), ((), 1)]) shuffle 1 k)).2
      simp only [trainLoss]
      refine le_of_le_of_eq ?_ this.symm
      apply div_nonneg _ (Nat.cast_nonneg _)
      apply List.sum_nonneg
      intro x hx
      obtain ⟨i, _, rfl⟩ := List.mem_map.1 hx
      exact halving_loss _ _ (halving_weights _ _ (hw k))
    · exact halving_loss _ _ (hw (k + 1)))
  exact ⟨s, hs⟩

/-- C111 refuted: a call that is rejected for its `validation_split` has already thrown away the weights, and leaves dropout active. -/
theorem C111_rejected_refuted : ∃ (net : Net ℝ Unit) (c : Cfg) (data : List (Unit × ℝ)) (w : ℝ) (s : St ℝ),
    raises net c data w none = some s ∧ s.w ≠ w ∧ s.training = true := by
  refine ⟨halving, ⟨true, true, 0, none, none, 1, 2, false⟩, [], 5, ⟨1, true, 0, none, 0, none⟩, ?_, by norm_num, rfl⟩
  have : trainLen ([] : List (Unit × ℝ)).length 2 = none := (C111_split 0 2).2.2 (by norm_num)
  simp only [raises, this, if_true, start, halving]

/-- C111 (part): a call either returns or is rejected, and without `reinitialize` a rejected one leaves the weights. -/
theorem C111_rejected_partial (net : Net W X) (c : Cfg) (data : List (X × ℝ)) (shuffle : ℕ → List ℕ) (w : W) (last : Option ℝ) :
    ((∃ s, raises net c data w last = some s) ↔ ¬ (0 < c.split ∧ c.split ≤ 1)) ∧
    (∀ s t, raises net c data w last = some s → ¬ Returns net c data shuffle w last t) ∧
    (c.reinitialize = false → ∀ s, raises net c data w last = some s → s.w = w ∧ s.last = last) := by
  refine ⟨?_, ?_, ?_⟩
  · unfold raises trainLen
    by_cases h : 0 < c.split ∧ c.split ≤ 1 <;> simp [h]
  · intro s t hs ht
    unfold raises at hs
    split_ifs at hs with h
    rcases ht with ⟨len, hl, _⟩ | ⟨len, ε, k, hl, _, _⟩ <;> rw [h] at hl <;> simp at hl
  · intro hr s hs
    unfold raises at hs
    split_ifs at hs with h
    simp only [Option.some.injEq] at hs
    subst hs
    simp [start, hr]

end

end Verif.Approx.Fit
