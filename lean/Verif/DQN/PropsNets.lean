/-
C124: the networks, losses and targets of the distributional agents.
-/
import Verif.DQN.ModelNets
import Verif.DQN.PropsProjection
import Verif.Memory.Props

namespace Verif.DQN.Nets

open Verif.TD (Trans)
open Verif.Backend (Tensor)

noncomputable section

variable {S F : Type}

/-! ### Specifications -/

/-- The first `k` numbers are the probabilities of a distribution with full support. -/
def IsDistribution (k : ℕ) (p : ℕ → ℝ) : Prop := (∀ j < k, 0 < p j ∧ p j ≤ 1) ∧ ∑ j ∈ Finset.range k, p j = 1

/-- The tensor is a vector with the entries `f`; it is a matrix with the entries `f`. -/
def Vector (t : Tensor ℝ) (b : ℕ) (f : ℕ → ℝ) : Prop := t.shape = [b] ∧ ∀ i < b, t.entry [i] = f i
def Matrix (t : Tensor ℝ) (b k : ℕ) (f : ℕ → ℕ → ℝ) : Prop := t.shape = [b, k] ∧ ∀ i < b, ∀ j < k, t.entry [i, j] = f i j

/-! ### Distributions -/

theorem softmax_dist (k : ℕ) (hk : 0 < k) (x : ℕ → ℝ) : IsDistribution k (softmax k x) := by
  have hpos : 0 < ∑ l ∈ Finset.range k, Real.exp (x l) := Finset.sum_pos (fun _ _ => Real.exp_pos _) ⟨0, Finset.mem_range.2 hk⟩
  refine ⟨fun j hj => ⟨div_pos (Real.exp_pos _) hpos, ?_⟩, ?_⟩
  · rw [softmax, div_le_one hpos]
    exact Finset.single_le_sum (f := fun l => Real.exp (x l)) (fun _ _ => (Real.exp_pos _).le) (Finset.mem_range.2 hj)
  · simp only [softmax]
    simp only [div_eq_mul_inv]
    rw [← Finset.sum_mul, mul_inv_cancel₀ hpos.ne']

/-- For every state and action the networks of the categorical agent and of Rainbow give a probability distribution over the atoms. -/
theorem C124_distribution (phi : S → F) (n k : ℕ) (hk : 0 < k) (heads adv : ℕ → F → ℕ → ℝ) (value : F → ℕ → ℝ) (s : S) (a : ℕ) :
    IsDistribution k (catProb phi k heads s a) ∧ IsDistribution k (rainbowProb phi n k value adv s a) :=
  ⟨softmax_dist k hk _, softmax_dist k hk _⟩

/-- An action that scores an atom higher than another one gives it the higher probability. -/
theorem C124_distribution_order (phi : S → F) (k : ℕ) (hk : 0 < k) (heads : ℕ → F → ℕ → ℝ) (s : S) (a i j : ℕ) :
    catProb phi k heads s a i ≤ catProb phi k heads s a j ↔ heads a (phi s) i ≤ heads a (phi s) j := by
  have hpos : 0 < ∑ l ∈ Finset.range k, Real.exp (heads a (phi s) l) :=
    Finset.sum_pos (fun _ _ => Real.exp_pos _) ⟨0, Finset.mem_range.2 hk⟩
  simp only [catProb, softmax]
  rw [div_le_div_iff_of_pos_right hpos, Real.exp_le_exp]

/-- Rainbow: adding the same numbers to the advantages of all actions changes nothing, and without differences between the actions the distribution is that
of the value alone. -/
theorem C124_dueling (phi : S → F) (n k : ℕ) (hn : 0 < n) (value : F → ℕ → ℝ) (adv : ℕ → F → ℕ → ℝ) (c : F → ℕ → ℝ) (s : S) (a j : ℕ) :
    rainbowProb phi n k value (fun i f l => adv i f l + c f l) s a j = rainbowProb phi n k value adv s a j ∧
    rainbowProb phi n k value (fun _ f l => c f l) s a j = softmax k (value (phi s)) j := by
  have hn' : (n : ℝ) ≠ 0 := by exact_mod_cast hn.ne'
  constructor
  · simp only [rainbowProb]
    congr 1
    funext l
    rw [Finset.sum_add_distrib, Finset.sum_const, Finset.card_range, nsmul_eq_mul]
    field_simp
    ring
  · simp only [rainbowProb]
    congr 1
    funext l
    rw [Finset.sum_const, Finset.card_range, nsmul_eq_mul]
    field_simp
    ring

/-! ### Action values -/

/-- The action value of a distribution over the atoms lies between the smallest and the largest atom, and is the expectation of the atoms. -/
theorem C124_range (k : ℕ) (z p : ℕ → ℝ) (hp : IsDistribution k p) (lo hi : ℝ) (hz : ∀ j < k, lo ≤ z j ∧ z j ≤ hi) :
    lo ≤ expectation k z p ∧ expectation k z p ≤ hi := by
  obtain ⟨h1, h2⟩ := hp
  have e : ∀ c : ℝ, c = ∑ j ∈ Finset.range k, p j * c := by intro c; rw [← Finset.sum_mul, h2, one_mul]
  constructor
  · rw [e lo]
    exact Finset.sum_le_sum fun j hj => mul_le_mul_of_nonneg_left (hz j (Finset.mem_range.1 hj)).1 (h1 j (Finset.mem_range.1 hj)).1.le
  · rw [e hi]
    exact Finset.sum_le_sum fun j hj => mul_le_mul_of_nonneg_left (hz j (Finset.mem_range.1 hj)).2 (h1 j (Finset.mem_range.1 hj)).1.le

example : IsDistribution 2 (softmax 2 fun _ => 0) := softmax_dist 2 (by norm_num) _

/-- The values of all actions, and the numbers behind them, for every state of the batch. -/
theorem C124_forward (b n k : ℕ) (reduce : (ℕ → ℝ) → ℝ) (values : S → ℕ → ℕ → ℝ) (states : ℕ → S) :
    ∃ q d, forward b n k reduce values states none false = some q ∧ forward b n k reduce values states none true = some d ∧
      q.shape = [b, n] ∧ d.shape = [b, n, k] ∧
      ∀ i a, q.entry [i, a] = reduce (fun j => d.entry [i, a, j]) ∧ ∀ j, d.entry [i, a, j] = values (states i) a j :=
  ⟨_, _, rfl, rfl, rfl, rfl, fun _ _ => ⟨rfl, fun _ => rfl⟩⟩

/-- The values of `CategoricalNetwork` and `Rainbow` are the expectations of the atoms, those of `QuantileNetwork` the means of the quantiles. -/
theorem C124_values (b n k : ℕ) (z : ℕ → ℝ) (phi : S → F) (heads adv : ℕ → F → ℕ → ℝ) (value : F → ℕ → ℝ) (states : ℕ → S) :
    ∃ qc qr qq, forward b n k (expectation k z) (catProb phi k heads) states none false = some qc ∧
      forward b n k (expectation k z) (rainbowProb phi n k value adv) states none false = some qr ∧
      forward b n k (average k) (quantile phi heads) states none false = some qq ∧
      ∀ i a, qc.entry [i, a] = (∑ j ∈ Finset.range k, Real.exp (heads a (phi (states i)) j) * z j) /
          (∑ j ∈ Finset.range k, Real.exp (heads a (phi (states i)) j)) ∧
        qr.entry [i, a] = ∑ j ∈ Finset.range k, rainbowProb phi n k value adv (states i) a j * z j ∧
        qq.entry [i, a] = (∑ j ∈ Finset.range k, heads a (phi (states i)) j) / k := by
  refine ⟨_, _, _, rfl, rfl, rfl, fun i a => ⟨?_, rfl, rfl⟩⟩
  simp only [expectation, catProb, softmax, List.getD_cons_zero, List.getD_cons_succ]
  rw [div_eq_mul_inv, Finset.sum_mul]
  exact Finset.sum_congr rfl fun j _ => by ring

/-- Two quantiles: the value is their mean. -/
example : ∃ q, forward 1 1 2 (average 2) (quantile (fun x : ℝ => x) (fun _ f j => f + j)) (fun _ => 3) none false = some q ∧ q.entry [0, 0] = 7 / 2 :=
  ⟨_, rfl, by norm_num [average, quantile, Finset.sum_range_succ]⟩

/-- With actions, a batch of at least two states gives the value of the action of every state, the same as the entry of the values of all actions; and the
numbers behind it, if there are at least two of them. An action that does not exist is refused. -/
theorem C124_action (b n k : ℕ) (hb : b ≠ 1) (hk : k ≠ 1) (reduce : (ℕ → ℝ) → ℝ) (values : S → ℕ → ℕ → ℝ) (states : ℕ → S) (act : ℕ → ℕ) :
    ((∀ i < b, act i < n) → ∃ q d, forward b n k reduce values states (some act) false = some q ∧
      forward b n k reduce values states (some act) true = some d ∧ Vector q b (fun i => reduce (values (states i) (act i))) ∧
      Matrix d b k fun i j => values (states i) (act i) j) ∧
    (∀ i < b, n ≤ act i → ∀ full, forward b n k reduce values states (some act) full = none) := by
  constructor
  · intro h
    refine ⟨_, _, by simp only [forward, if_pos h]; rfl, by simp only [forward, if_pos h]; rfl, ⟨?_, ?_⟩, ⟨?_, ?_⟩⟩
    · simp [squeeze, hb]
    · intro i _; simp [squeeze, squeezeIdx, hb]
    · simp [squeeze, hb, hk]
    · intro i _ j _; simp [squeeze, squeezeIdx, hb, hk]
  · intro i hi h full
    have : ¬ ∀ i < b, act i < n := fun hh => absurd (hh i hi) (by omega)
    simp only [forward, if_neg this]

/-- A batch of one state loses its axis. -/
theorem C124_action_one (n k : ℕ) (hk : k ≠ 1) (reduce : (ℕ → ℝ) → ℝ) (values : S → ℕ → ℕ → ℝ) (states : ℕ → S) (act : ℕ → ℕ) (h : act 0 < n) :
    ∃ q d, forward 1 n k reduce values states (some act) false = some q ∧ forward 1 n k reduce values states (some act) true = some d ∧
      q.shape = [] ∧ q.entry [] = reduce (values (states 0) (act 0)) ∧ Vector d k fun j => values (states 0) (act 0) j := by
  have h' : ∀ i < 1, act i < n := by intro i hi; rwa [Nat.lt_one_iff.1 hi]
  refine ⟨_, _, by simp only [forward, if_pos h']; rfl, by simp only [forward, if_pos h']; rfl, ?_, ?_, ?_, ?_⟩
  · simp [squeeze]
  · simp [squeeze, squeezeIdx]
  · simp [squeeze, hk]
  · intro j _; simp [squeeze, squeezeIdx, hk]

/-! ### The categorical loss -/

/-- The cross-entropy between a target distribution and the predicted one, whose probabilities are raised to at least 1e-5. -/
def rowLoss (k : ℕ) (target pred : ℕ → ℝ) : ℝ := -∑ j ∈ Finset.range k, target j * Real.log (max (1 / 10 ^ 5) (pred j))

theorem bshape_same (b k : ℕ) : bshape [b, k] [b, k] = some [b, k] := by
  simp [bshape, padShape]

theorem bidx_two (b k i j : ℕ) (hi : i < b) (hj : j < k) : bidx [b, k] [i, j] = [i, j] := by
  simp only [bidx, List.length_cons, List.length_nil, Nat.sub_self, List.drop_zero, List.zipWith_cons_cons, List.zipWith_nil_right]
  congr 1
  · split <;> omega
  · congr 1; split <;> omega

/-- The loss of a batch: with `reduction='none'` the cross-entropy of every row; by default the mean of them. The axis lost by a batch of one makes no
difference. -/
theorem C124_categorical_loss (b k : ℕ) (pred target : ℕ → ℕ → ℝ) (input tgt : Tensor ℝ) (ht : Matrix tgt b k target)
    (hi : Matrix input b k pred ∨ b = 1 ∧ Vector input k (pred 0)) :
    ∃ rows m, categoricalLoss input tgt "none" = some rows ∧ categoricalLoss input tgt "sum" = some m ∧
      Vector rows b (fun i => rowLoss k (target i) (pred i)) ∧ m.shape = [] ∧ m.entry [] = (∑ i ∈ Finset.range b, rowLoss k (target i) (pred i)) / b := by
  have key : ∃ rows, categoricalRows input tgt = some rows ∧ Vector rows b fun i => rowLoss k (target i) (pred i) := by
    obtain ⟨ts, te⟩ := tgt
    obtain ⟨hts, hte⟩ := ht
    dsimp at hts hte
    subst hts
    obtain ⟨is, ie⟩ := input
    rcases hi with ⟨his, hie⟩ | ⟨rfl, his, hie⟩ <;> dsimp at his hie <;> subst his
    · refine ⟨_, by simp only [categoricalRows, op2, op1, bshape_same, Option.map_some, Option.bind_some, sumRows]; rfl, rfl, ?_⟩
      intro i hi
      simp only [rowLoss]
      congr 1
      refine Finset.sum_congr rfl fun j hj => ?_
      have hj := Finset.mem_range.1 hj
      rw [bidx_two b k i j hi hj, hte i hi j hj, hie i hi j hj]
    · have hs : bshape [1, k] [k] = some [1, k] := by simp [bshape, padShape]
      refine ⟨_, by simp only [categoricalRows, op2, op1, hs, Option.map_some, Option.bind_some, sumRows]; rfl, rfl, ?_⟩
      intro i hi
      obtain rfl : i = 0 := by omega
      simp only [rowLoss]
      congr 1
      refine Finset.sum_congr rfl fun j hj => ?_
      have hj := Finset.mem_range.1 hj
      have e : bidx [k] [0, j] = [j] := by
        simp only [bidx, List.length_cons, List.length_nil]
        simp
        omega
      rw [bidx_two 1 k 0 j hi hj, e, hte 0 hi j hj, hie j hj]
  obtain ⟨rows, hr, hv⟩ := key
  refine ⟨rows, ⟨[], fun _ => mean rows⟩, by simp [categoricalLoss, hr], by simp [categoricalLoss, hr], hv, rfl, ?_⟩
  obtain ⟨h1, h2⟩ := hv
  simp only [mean, h1, total, List.prod_cons, List.prod_nil, mul_one]
  congr 1
  exact Finset.sum_congr rfl fun i hi => h2 i (Finset.mem_range.1 hi)

/-- With weights the loss is the weighted mean of the cross-entropies. -/
theorem C124_weighted (b k : ℕ) (pred target : ℕ → ℕ → ℝ) (input tgt : Tensor ℝ) (ht : Matrix tgt b k target)
    (hi : Matrix input b k pred ∨ b = 1 ∧ Vector input k (pred 0)) (w : ℕ → ℝ) :
    (categoricalLoss input tgt "none").bind (fun l => weightedLoss l b w) =
      some ((∑ i ∈ Finset.range b, rowLoss k (target i) (pred i) * w i) / ∑ i ∈ Finset.range b, w i) := by
  obtain ⟨rows, _, h1, _, h2, _⟩ := C124_categorical_loss b k pred target input tgt ht hi
  obtain ⟨h3, h4⟩ := h2
  simp only [h1, Option.bind_some, weightedLoss, h3, if_true]
  congr 2
  exact Finset.sum_congr rfl fun i hi => by rw [h4 i (Finset.mem_range.1 hi)]

example : Matrix ⟨[2, 3], fun _ => 1⟩ 2 3 (fun _ _ => 1) ∧ Vector ⟨[3], fun _ => 1⟩ 3 (fun _ => 1) := ⟨⟨rfl, fun _ _ _ _ => rfl⟩, ⟨rfl, fun _ _ => rfl⟩⟩

/-- Any other reduction is refused. -/
theorem C124_reduction (input tgt : Tensor ℝ) (r : String) (h1 : r ≠ "sum") (h2 : r ≠ "none") : categoricalLoss input tgt r = none := by
  cases h : categoricalRows input tgt <;> simp [categoricalLoss, h, h1, h2]

/-- The reduction 'sum' is the sum divided by the size of the batch. -/
theorem C124_sum_refuted (b k : ℕ) (hb : 2 ≤ b) (pred target : ℕ → ℕ → ℝ) (input tgt : Tensor ℝ) (ht : Matrix tgt b k target) (hi : Matrix input b k pred)
    (h : ∑ i ∈ Finset.range b, rowLoss k (target i) (pred i) ≠ 0) :
    ∃ m, categoricalLoss input tgt "sum" = some m ∧ m.entry [] ≠ ∑ i ∈ Finset.range b, rowLoss k (target i) (pred i) := by
  obtain ⟨_, m, _, h2, _, _, h3⟩ := C124_categorical_loss b k pred target input tgt ht (Or.inl hi)
  refine ⟨m, h2, ?_⟩
  rw [h3]
  intro e
  have hb' : (2 : ℝ) ≤ b := by exact_mod_cast hb
  rw [div_eq_iff (by linarith)] at e
  have : (∑ i ∈ Finset.range b, rowLoss k (target i) (pred i)) * ((b : ℝ) - 1) = 0 := by linarith
  rcases mul_eq_zero.1 this with h' | h'
  · exact h h'
  · linarith

example : ∑ i ∈ Finset.range 2, rowLoss 2 (fun _ => 1 / 2) ((fun _ _ => 1 / 2) i) ≠ 0 := by
  have h : Real.log (max (1 / 10 ^ 5) (1 / 2)) < 0 := Real.log_neg (by positivity) (by rw [max_lt_iff]; norm_num)
  simp only [rowLoss, Finset.sum_range_succ, Finset.sum_range_zero]
  linarith

/-! ### The quantile loss -/

/-- The tensor has three axes and the entries `f`. -/
def Cube {α : Type} (t : Tensor α) (a b c : ℕ) (f : ℕ → ℕ → ℕ → α) : Prop :=
  t.shape = [a, b, c] ∧ ∀ i < a, ∀ j < b, ∀ l < c, t.entry [i, j, l] = f i j l

theorem pick (s i : ℕ) (h : i < s) : (if s = 1 then 0 else i) = i := by split <;> omega

theorem op2_cube {α β γ : Type} (F : α → β → γ) (x : Tensor α) (y : Tensor β) (s t t' u : ℕ) (f : ℕ → ℕ → ℕ → α) (g : ℕ → ℕ → ℕ → β)
    (hx : Cube x s t u f) (hy : Cube y s t' u g) (h : t' = t ∨ t' = 1) :
    ∃ z, op2 F x y = some z ∧ Cube z s t u fun i j l => F (f i j l) (g i (if t' = 1 then 0 else j) l) := by
  obtain ⟨xs, xe⟩ := x
  obtain ⟨ys, ye⟩ := y
  obtain ⟨hx1, hx2⟩ := hx
  obtain ⟨hy1, hy2⟩ := hy
  dsimp at hx1 hx2 hy1 hy2
  subst hx1 hy1
  have hs : bshape [s, t, u] [s, t', u] = some [s, t, u] := by
    rcases h with rfl | rfl
    · simp [bshape, padShape]
    · by_cases h1 : t = 1
      · subst h1; simp [bshape, padShape]
      · simp [bshape, padShape, h1]
  refine ⟨_, by simp only [op2, hs, Option.map_some]; rfl, rfl, ?_⟩
  intro i hi j hj l hl
  have e1 : bidx [s, t, u] [i, j, l] = [i, j, l] := by simp [bidx, pick s i hi, pick t j hj, pick u l hl]
  have e2 : bidx [s, t', u] [i, j, l] = [i, if t' = 1 then 0 else j, l] := by simp [bidx, pick s i hi, pick u l hl]
  dsimp only
  rw [e1, e2, hx2 i hi j hj l hl, hy2 i hi _ _ l hl]
  split
  · omega
  · rcases h with rfl | rfl
    · exact hj
    · omega

theorem op2_levels {β γ : Type} (F : ℝ → β → γ) (x : Tensor ℝ) (y : Tensor β) (s t t' u : ℕ) (f : ℕ → ℕ → ℝ) (g : ℕ → ℕ → ℕ → β)
    (hx : Matrix x t u f) (hy : Cube y s t' u g) (h : t' = t ∨ t' = 1) :
    ∃ z, op2 F x y = some z ∧ Cube z s t u fun i j l => F (f j l) (g i (if t' = 1 then 0 else j) l) := by
  obtain ⟨xs, xe⟩ := x
  obtain ⟨ys, ye⟩ := y
  obtain ⟨hx1, hx2⟩ := hx
  obtain ⟨hy1, hy2⟩ := hy
  dsimp at hx1 hx2 hy1 hy2
  subst hx1 hy1
  have hs : bshape [t, u] [s, t', u] = some [s, t, u] := by
    have h0 : (if 1 = s then some 1 else some s) = some s := by split <;> simp_all
    rcases h with rfl | rfl
    · simp [bshape, padShape, h0]
    · by_cases h1 : t = 1
      · subst h1; simp [bshape, padShape, h0]
      · simp [bshape, padShape, h1, h0]
  refine ⟨_, by simp only [op2, hs, Option.map_some]; rfl, rfl, ?_⟩
  intro i hi j hj l hl
  have e1 : bidx [t, u] [i, j, l] = [j, l] := by simp [bidx, pick t j hj, pick u l hl]
  have e2 : bidx [s, t', u] [i, j, l] = [i, if t' = 1 then 0 else j, l] := by simp [bidx, pick s i hi, pick u l hl]
  dsimp only
  rw [e1, e2, hx2 j hj l hl, hy2 i hi _ _ l hl]
  split
  · omega
  · rcases h with rfl | rfl
    · exact hj
    · omega

theorem mean_cube (x : Tensor ℝ) (s t u : ℕ) (f : ℕ → ℕ → ℕ → ℝ) (h : Cube x s t u f) :
    mean x = (∑ i ∈ Finset.range s, ∑ j ∈ Finset.range t, ∑ l ∈ Finset.range u, f i j l) / (s * t * u) := by
  obtain ⟨h1, h2⟩ := h
  simp only [mean, h1, total, List.prod_cons, List.prod_nil, mul_one, Nat.cast_mul, ← mul_assoc]
  congr 1
  exact Finset.sum_congr rfl fun i hi => Finset.sum_congr rfl fun j hj => Finset.sum_congr rfl fun l hl =>
    h2 i (Finset.mem_range.1 hi) j (Finset.mem_range.1 hj) l (Finset.mem_range.1 hl)

/-- The loss for an input with a number `r` of rows that is repeated along a second axis of the target of size `t'`. -/
theorem quantile_general (tau : List ℝ) (b m r t' n : ℕ) (htau : tau.length = n) (target : ℕ → ℕ → ℝ) (pred : ℕ → ℕ → ℝ) (input tgt : Tensor ℝ)
    (ht : Matrix tgt b m target) (hr : input.shape.head? = some r) (hi : Cube (repeated [n, 1, 1] input) n t' n fun _ i k => pred i k)
    (hm : n = m) (hb : t' = b) (h : t' = r ∨ t' = 1) :
    quantileLoss tau input tgt = some ((∑ j ∈ Finset.range n, ∑ i ∈ Finset.range r, ∑ k ∈ Finset.range n,
      quantileHuber (tau.getD k 0) (pred (if t' = 1 then 0 else i) k) (target (if t' = 1 then 0 else i) j)) / (n * r * n)) := by
  subst hm
  subst hb
  have hT : ∃ T, transposedColumn tgt = some T ∧ Cube (repeated [1, 1, n] T) n t' n fun j i _ => target i j := by
    obtain ⟨ts, te⟩ := tgt
    obtain ⟨h1, h2⟩ := ht
    dsimp at h1 h2
    subst h1
    refine ⟨_, rfl, by simp [repeated, padShape], ?_⟩
    intro j hj i hi l _
    simp [repeated, padShape, Nat.mod_eq_of_lt hj, Nat.mod_eq_of_lt hi, h2 i hi j hj]
  obtain ⟨T, hT1, hT2⟩ := hT
  obtain ⟨ind, e1, c1⟩ := op2_cube (fun t i => if t - i < 0 then (1 : ℝ) else 0) _ _ n t' t' n _ _ hT2 hi (Or.inl rfl)
  obtain ⟨hub, e2, c2⟩ := op2_cube (fun i t => smoothL1 (i - t)) _ _ n t' t' n _ _ hi hT2 (Or.inl rfl)
  obtain ⟨wei, e3, c3⟩ := op2_levels (fun t i => |t - i|) (⟨[r, n], fun is => tau.getD (is.getD 1 0) 0⟩ : Tensor ℝ) ind n r t' n
    (fun _ k => tau.getD k 0) _ ⟨rfl, fun _ _ _ _ => rfl⟩ c1 h
  obtain ⟨los, e4, c4⟩ := op2_cube (fun a b : ℝ => a * b) _ _ n r t' n _ _ c3 c2 h
  simp only [quantileLoss, hr, htau, hT1, e1, e2, e3, e4, bind, Option.bind, pure]
  rw [mean_cube los n r n _ c4]
  congr 2
  refine Finset.sum_congr rfl fun j _ => Finset.sum_congr rfl fun i _ => Finset.sum_congr rfl fun k _ => ?_
  have e : ∀ x : ℕ, (if t' = 1 then 0 else if t' = 1 then 0 else x) = if t' = 1 then 0 else x := by intro x; split <;> rfl
  simp only [quantileHuber, e]

/-- With at least two quantiles, the loss of a batch is the mean over the target quantiles, the samples and the predicted quantiles of the quantile Huber
loss of the level of the predicted quantile. The axis lost by a batch of one makes no difference. -/
theorem C124_quantile_loss (b n : ℕ) (hn : 2 ≤ n) (tau : List ℝ) (htau : tau.length = n) (pred target : ℕ → ℕ → ℝ) (input tgt : Tensor ℝ)
    (ht : Matrix tgt b n target) (hi : Matrix input b n pred ∨ b = 1 ∧ Vector input n (pred 0)) :
    quantileLoss tau input tgt = some ((∑ j ∈ Finset.range n, ∑ i ∈ Finset.range b, ∑ k ∈ Finset.range n,
      quantileHuber (tau.getD k 0) (pred i k) (target i j)) / (n * b * n)) := by
  rcases hi with ⟨h1, h2⟩ | ⟨rfl, h1, h2⟩
  · have hc : Cube (repeated [n, 1, 1] input) n b n fun _ i k => pred i k := by
      obtain ⟨is, ie⟩ := input
      dsimp at h1 h2
      subst h1
      refine ⟨by simp [repeated, padShape], ?_⟩
      intro j _ i hi k hk
      simp [repeated, padShape, Nat.mod_eq_of_lt hi, Nat.mod_eq_of_lt hk, h2 i hi k hk]
    rw [quantile_general tau b n b b n htau target pred input tgt ht (by rw [h1]; rfl) hc rfl rfl (Or.inl rfl)]
    congr 2
    refine Finset.sum_congr rfl fun j _ => Finset.sum_congr rfl fun i hi => Finset.sum_congr rfl fun k _ => ?_
    rw [pick b i (Finset.mem_range.1 hi)]
  · have hc : Cube (repeated [n, 1, 1] input) n 1 n fun _ i k => pred i k := by
      obtain ⟨is, ie⟩ := input
      dsimp at h1 h2
      subst h1
      refine ⟨by simp [repeated, padShape], ?_⟩
      intro j _ i hi k hk
      obtain rfl : i = 0 := by omega
      simp [repeated, padShape, Nat.mod_eq_of_lt hk, h2 k hk]
    rw [quantile_general tau 1 n n 1 n htau target pred input tgt ht (by rw [h1]; rfl) hc rfl rfl (Or.inr rfl)]
    have hn' : (n : ℝ) ≠ 0 := by exact_mod_cast (by omega : n ≠ 0)
    simp only [if_true, Finset.sum_const, Finset.card_range, nsmul_eq_mul, Finset.range_one, Finset.sum_singleton, Nat.cast_one]
    rw [← Finset.mul_sum]
    congr 1
    field_simp

theorem op2_outer {α β γ : Type} (F : α → β → γ) (x : Tensor α) (y : Tensor β) (b : ℕ) (hb : b ≠ 1) (f : ℕ → α) (g : ℕ → β)
    (hx : Cube x 1 b 1 fun _ i _ => f i) (hy : Cube y 1 1 b fun _ _ k => g k) :
    (∃ z, op2 F x y = some z ∧ Cube z 1 b b fun _ i k => F (f i) (g k)) ∧ ∀ G : β → α → γ, ∃ z, op2 G y x = some z ∧ Cube z 1 b b fun _ i k => G (g k) (f i) := by
  obtain ⟨xs, xe⟩ := x
  obtain ⟨ys, ye⟩ := y
  obtain ⟨hx1, hx2⟩ := hx
  obtain ⟨hy1, hy2⟩ := hy
  dsimp at hx1 hx2 hy1 hy2
  subst hx1 hy1
  have hs : bshape [1, b, 1] [1, 1, b] = some [1, b, b] := by simp [bshape, padShape, hb, hb.symm]
  have hs' : bshape [1, 1, b] [1, b, 1] = some [1, b, b] := by simp [bshape, padShape, hb, hb.symm]
  have e1 : ∀ i k, bidx [1, b, 1] [0, i, k] = [0, i, 0] := by intro i k; simp [bidx, hb]
  have e2 : ∀ i k, bidx [1, 1, b] [0, i, k] = [0, 0, k] := by intro i k; simp [bidx, hb]
  constructor
  · refine ⟨_, by simp only [op2, hs, Option.map_some]; rfl, rfl, ?_⟩
    intro z hz i hi k hk
    obtain rfl : z = 0 := by omega
    dsimp only
    rw [e1, e2, hx2 0 (by omega) i hi 0 (by omega), hy2 0 (by omega) 0 (by omega) k hk]
  · intro G
    refine ⟨_, by simp only [op2, hs', Option.map_some]; rfl, rfl, ?_⟩
    intro z hz i hi k hk
    obtain rfl : z = 0 := by omega
    dsimp only
    rw [e1, e2, hx2 0 (by omega) i hi 0 (by omega), hy2 0 (by omega) 0 (by omega) k hk]

/-- With a single quantile the axis of the quantiles is lost, and every prediction of the batch is compared with every target of the batch. -/
theorem quantile_one (b : ℕ) (hb : 2 ≤ b) (pred x : ℕ → ℝ) (tau : ℝ) (input tgt : Tensor ℝ) (ht : Matrix tgt b 1 fun i _ => x i) (hi : Vector input b pred) :
    quantileLoss [tau] input tgt = some ((∑ i ∈ Finset.range b, ∑ k ∈ Finset.range b, quantileHuber tau (pred k) (x i)) / (b * b)) := by
  have hb1 : b ≠ 1 := by omega
  have hT : ∃ T, transposedColumn tgt = some T ∧ Cube (repeated [1, 1, 1] T) 1 b 1 fun _ i _ => x i := by
    obtain ⟨ts, te⟩ := tgt
    obtain ⟨h1, h2⟩ := ht
    dsimp at h1 h2
    subst h1
    refine ⟨_, rfl, by simp [repeated, padShape], ?_⟩
    intro j hj i hi l _
    simp [repeated, padShape, Nat.mod_one, Nat.mod_eq_of_lt hi, h2 i hi 0 (by omega)]
  have hI : Cube (repeated [1, 1, 1] input) 1 1 b fun _ _ k => pred k := by
    obtain ⟨is, ie⟩ := input
    obtain ⟨h1, h2⟩ := hi
    dsimp at h1 h2
    subst h1
    refine ⟨by simp [repeated, padShape], ?_⟩
    intro j _ i _ k hk
    simp [repeated, padShape, Nat.mod_eq_of_lt hk, h2 k hk]
  obtain ⟨T, hT1, hT2⟩ := hT
  obtain ⟨ind, e1, c1⟩ := (op2_outer (fun t i => if t - i < 0 then (1 : ℝ) else 0) _ _ b hb1 _ _ hT2 hI).1
  obtain ⟨hub, e2, c2⟩ := (op2_outer (fun _ _ => (0 : ℝ)) _ _ b hb1 _ _ hT2 hI).2 (fun i t => smoothL1 (i - t))
  have h3 : ∃ z, op2 (fun t i => |t - i|) (⟨[b, 1], fun is => [tau].getD (is.getD 1 0) 0⟩ : Tensor ℝ) ind = some z ∧
      Cube z 1 b b fun _ i k => |tau - if x i - pred k < 0 then 1 else 0| := by
    obtain ⟨is, ie⟩ := ind
    obtain ⟨h1, h2⟩ := c1
    dsimp at h1 h2
    subst h1
    have hs : bshape [b, 1] [1, b, b] = some [1, b, b] := by simp [bshape, padShape, hb1.symm]
    refine ⟨_, by simp only [op2, hs, Option.map_some]; rfl, rfl, ?_⟩
    intro z hz i hi k hk
    have e1 : bidx [b, 1] [z, i, k] = [i, 0] := by simp [bidx, pick b i hi]
    have e2 : bidx [1, b, b] [z, i, k] = [z, i, k] := by simp [bidx, pick 1 z hz, pick b i hi, pick b k hk]; omega
    dsimp only
    rw [e1, e2, h2 z hz i hi k hk]
    simp
  obtain ⟨wei, e3, c3⟩ := h3
  obtain ⟨los, e4, c4⟩ := op2_cube (fun a b : ℝ => a * b) _ _ 1 b b b _ _ c3 c2 (Or.inl rfl)
  have hr : input.shape.head? = some b := by rw [hi.1]; rfl
  simp only [quantileLoss, hr, List.length_cons, List.length_nil, Nat.zero_add, hT1, e1, e2, e3, e4, bind, Option.bind, pure]
  rw [mean_cube los 1 b b _ c4]
  simp only [Finset.range_one, Finset.sum_singleton, Nat.cast_one, one_mul, quantileHuber, if_neg hb1]

theorem quantileHuber_pos (tau a c : ℝ) (h0 : 0 < tau) (h1 : tau < 1) : 0 ≤ quantileHuber tau a c ∧ (a ≠ c → 0 < quantileHuber tau a c) := by
  have h2 : 0 < |tau - (if c - a < 0 then (1 : ℝ) else 0)| := by
    rw [abs_pos]; split <;> intro h <;> linarith
  have h3 : 0 ≤ smoothL1 (a - c) ∧ (a ≠ c → 0 < smoothL1 (a - c)) := by
    unfold smoothL1
    split
    · exact ⟨by positivity, fun h => by have := sub_ne_zero.2 h; positivity⟩
    · next h => have := not_lt.1 h; exact ⟨by linarith, fun _ => by linarith⟩
  exact ⟨mul_nonneg h2.le h3.1, fun h => mul_pos h2 (h3.2 h)⟩

/-- With a single quantile, the loss of predictions equal to their targets is not zero if the targets differ: every prediction of the batch is compared with
every target of the batch. With a batch of one, too, the loss raises. -/
theorem C124_quantile_one_refuted (b : ℕ) (hb : 2 ≤ b) (x : ℕ → ℝ) (i0 j0 : ℕ) (hi0 : i0 < b) (hj0 : j0 < b) (hx : x i0 ≠ x j0) (tau : ℝ)
    (h0 : 0 < tau) (h1 : tau < 1) (input tgt : Tensor ℝ) (ht : Matrix tgt b 1 fun i _ => x i) (hi : Vector input b x) (one : Tensor ℝ)
    (ho : one.shape = []) :
    (∃ l, quantileLoss [tau] input tgt = some l ∧ 0 < l) ∧ quantileLoss [tau] one tgt = none := by
  refine ⟨⟨_, quantile_one b hb x x tau input tgt ht hi, ?_⟩, by simp [quantileLoss, ho]⟩
  have hb' : (0 : ℝ) < b := by exact_mod_cast (by omega : 0 < b)
  refine div_pos ?_ (by positivity)
  have nn : ∀ i k, 0 ≤ quantileHuber tau (x k) (x i) := fun i k => (quantileHuber_pos tau _ _ h0 h1).1
  refine Finset.sum_pos' (fun i _ => Finset.sum_nonneg fun k _ => nn i k) ⟨i0, Finset.mem_range.2 hi0, ?_⟩
  exact Finset.sum_pos' (fun k _ => nn i0 k) ⟨j0, Finset.mem_range.2 hj0, (quantileHuber_pos tau _ _ h0 h1).2 hx.symm⟩

example : Matrix ⟨[2, 1], fun is => (is.getD 0 0 : ℕ)⟩ 2 1 (fun i _ => (i : ℝ)) ∧ Vector ⟨[2], fun is => (is.getD 0 0 : ℕ)⟩ 2 (fun i => (i : ℝ)) ∧
    ((0 : ℕ) : ℝ) ≠ ((1 : ℕ) : ℝ) := ⟨⟨rfl, fun _ _ _ _ => rfl⟩, ⟨rfl, fun _ _ => rfl⟩, by norm_num⟩

/-! ### Targets -/

/-- The target of the categorical agent is a distribution over the atoms, and if no atom is clipped, its expectation is the target of Q-learning for the
target network: the reward plus the discounted largest value of the next state. -/
theorem C124_categorical_target {A : Type} (n : ℕ) (hn : 2 ≤ n) (vMin vMax γ : ℝ) (hv : vMin < vMax) (clip : Bool) (argmax : (A → ℝ) → A)
    (ha : Greedy argmax) (z : List ℝ) (prob : S → A → List ℝ) (hp : ∀ s a, (prob s a).length = z.length ∧ (prob s a).sum = 1 ∧ ∀ x ∈ prob s a, 0 ≤ x)
    (t : Trans S A) :
    ∃ m, categoricalTarget n vMin vMax γ clip argmax z prob t = some m ∧ m.length = n ∧ m.sum = 1 ∧ (∀ x ∈ m, 0 ≤ x) ∧
      ((∀ a ∈ z, vMin ≤ clipReward clip t.reward + γ * alive t.absorbing * a ∧ clipReward clip t.reward + γ * alive t.absorbing * a ≤ vMax) →
        ∃ v, Verif.TD.IsMax (fun a => DQN.mean z (prob t.next a)) v ∧ IsTarget γ clip t v (DQN.mean (support n vMin vMax) m)) := by
  obtain ⟨m, h1, h2, h3, h4, -⟩ := C53_projection n hn vMin vMax hv (clipReward clip t.reward) (γ * alive t.absorbing) z
    (prob t.next (argmax fun a => (List.zipWith (· * ·) (prob t.next a) z).sum)) (hp _ _).1.symm
  refine ⟨m, h1, h2, by rw [h3]; exact (hp _ _).2.1, h4 (hp _ _).2.2, fun hc => ?_⟩
  obtain ⟨m', h5, h6⟩ := C53_unclipped n hn vMin vMax hv (clipReward clip t.reward) (γ * alive t.absorbing) z
    (prob t.next (argmax fun a => (List.zipWith (· * ·) (prob t.next a) z).sum)) (hp _ _).1.symm (hp _ _).2.1 hc
  obtain rfl : m = m' := Option.some.inj (h1.symm.trans h5)
  refine ⟨_, ⟨fun a => ha (fun a => (List.zipWith (· * ·) (prob t.next a) z).sum) a, _, rfl⟩, ?_⟩
  rw [h6, IsTarget]
  cases t.absorbing <;> simp [alive, clipReward, DQN.mean]

/-- The same for Rainbow, with the discounted sum of `steps` rewards and the discount of as many steps: the value is that of the target network for the
action preferred by the online network. -/
theorem C124_rainbow_target {A : Type} (n : ℕ) (hn : 2 ≤ n) (vMin vMax γ : ℝ) (steps : ℕ) (hv : vMin < vMax) (clip : Bool) (argmax : (A → ℝ) → A)
    (ha : Greedy argmax) (z : List ℝ) (online prob : S → A → List ℝ)
    (hp : ∀ s a, (prob s a).length = z.length ∧ (prob s a).sum = 1 ∧ ∀ x ∈ prob s a, 0 ≤ x) (t : Trans S A) :
    ∃ m a, rainbowTarget n vMin vMax γ steps clip argmax z online prob t = some m ∧ m.length = n ∧ m.sum = 1 ∧ (∀ x ∈ m, 0 ≤ x) ∧
      (∀ b, DQN.mean z (online t.next b) ≤ DQN.mean z (online t.next a)) ∧
      ((∀ c ∈ z, vMin ≤ clipReward clip t.reward + γ ^ steps * alive t.absorbing * c ∧ clipReward clip t.reward + γ ^ steps * alive t.absorbing * c ≤ vMax) →
        IsTarget (γ ^ steps) clip t (DQN.mean z (prob t.next a)) (DQN.mean (support n vMin vMax) m)) := by
  obtain ⟨m, h1, h2, h3, h4, -⟩ := C53_projection n hn vMin vMax hv (clipReward clip t.reward) (γ ^ steps * alive t.absorbing) z
    (prob t.next (argmax fun a => (List.zipWith (· * ·) (online t.next a) z).sum)) (hp _ _).1.symm
  refine ⟨m, _, h1, h2, by rw [h3]; exact (hp _ _).2.1, h4 (hp _ _).2.2,
    fun b => ha (fun a => (List.zipWith (· * ·) (online t.next a) z).sum) b, fun hc => ?_⟩
  obtain ⟨m', h5, h6⟩ := C53_unclipped n hn vMin vMax hv (clipReward clip t.reward) (γ ^ steps * alive t.absorbing) z
    (prob t.next (argmax fun a => (List.zipWith (· * ·) (online t.next a) z).sum)) (hp _ _).1.symm (hp _ _).2.1 hc
  obtain rfl : m = m' := Option.some.inj (h1.symm.trans h5)
  rw [h6, IsTarget]
  cases t.absorbing <;> simp [alive, clipReward]

/-- Nothing is clipped: atoms -10, 0, 10, reward 1 and discount 1/2. -/
example : (∀ a ∈ [(-10 : ℝ), 0, 10], -10 ≤ clipReward false 1 + 1 / 2 * alive false * a ∧ clipReward false 1 + 1 / 2 * alive false * a ≤ 10) ∧
    ([(1 : ℝ) / 4, 1 / 4, 1 / 2]).sum = 1 := by
  constructor
  · simp only [List.mem_cons, List.not_mem_nil, or_false, clipReward, alive]
    rintro a (rfl | rfl | rfl) <;> norm_num
  · norm_num

/-- Clipping the rewards of Rainbow clips their sum: any rewards whose discounted sum is at least one have the target of a single reward of one, also if
each of them is in the range. -/
theorem C124_clip_return_refuted {A : Type} (n : ℕ) (vMin vMax γ : ℝ) (steps : ℕ) (argmax : (A → ℝ) → A) (z : List ℝ) (online prob : S → A → List ℝ)
    (t : Trans S A) (rewards : List ℝ) (hr : ∀ r ∈ rewards, -1 ≤ r ∧ r ≤ 1)
    (hs : 1 ≤ (List.zipWith (fun (k : ℕ) r => γ ^ k * r) (List.range rewards.length) rewards).sum) :
    rainbowTarget n vMin vMax γ steps true argmax z online prob
      { t with reward := (List.zipWith (fun (k : ℕ) r => γ ^ k * r) (List.range rewards.length) (rewards.map (clipReward true))).sum } =
    rainbowTarget n vMin vMax γ steps true argmax z online prob { t with reward := 1 } := by
  have e : rewards.map (clipReward true) = rewards := by
    conv_rhs => rw [← List.map_id rewards]
    refine List.map_congr_left fun r h => ?_
    simp only [clipReward, if_true, id]
    rw [min_eq_left (hr r h).2, max_eq_right (hr r h).1]
  rw [e]
  have h1 : clipReward true (List.zipWith (fun (k : ℕ) r => γ ^ k * r) (List.range rewards.length) rewards).sum = clipReward true 1 := by
    simp only [clipReward, if_true]
    rw [min_eq_right hs, min_self]
  simp only [rainbowTarget, h1]

example : 1 ≤ (List.zipWith (fun (k : ℕ) r => (9 / 10 : ℝ) ^ k * r) (List.range 3) [1, 1, 1]).sum ∧
    (List.zipWith (fun (k : ℕ) r => (9 / 10 : ℝ) ^ k * r) (List.range 3) [1, 1, 1]).sum ≠ 1 := by
  simp only [show List.range 3 = [0, 1, 2] from rfl, List.zipWith_cons_cons, List.zipWith_nil_right, List.sum_cons, List.sum_nil]
  norm_num

/-- Rainbow: if every dataset has fewer steps than the return, as with one step per fit and a return over several steps, nothing is ever stored, however many
datasets come, and the agent never learns; the same steps in one dataset are stored. -/
theorem C124_short_datasets_refuted {X A R P : Type} [Ring R] [LinearOrder R] (max n : ℕ) (hn : 0 < n) (gamma : R)
    (datasets : List (List (Verif.Dataset.Row X A R P) × List R)) (hd : ∀ d ∈ datasets, d.1.length < n ∧ ∀ p ∈ d.2, 0 < p) :
    Verif.Memory.execT (Verif.Memory.STree.new max) (datasets.map fun d => .add d.1 d.2 n gamma) =
      .ok (Verif.Memory.STree.new max : Verif.Memory.STree X A R P) := by
  induction datasets with
  | nil => rfl
  | cons d ds ih =>
    have h1 := hd d (by simp)
    have hall : d.2.all (fun p => decide (0 < p)) = true := by
      rw [List.all_eq_true]; intro p hp; exact decide_eq_true (h1.2 p hp)
    have hlt : ¬ 0 + n < d.1.length + 1 := by omega
    have hadd : (Verif.Memory.STree.new max : Verif.Memory.STree X A R P).add d.1 d.2 n gamma =
        .ok (Verif.Memory.STree.new max, d.1.map (·.reward)) := by
      simp only [Verif.Memory.STree.add, if_pos hn, hall, if_true, Verif.Memory.nstepLoop, if_neg hlt]
    simp only [List.map_cons, Verif.Memory.execT, hadd]
    exact ih fun x hx => hd x (by simp [hx])

/-- The same three steps: nothing is stored if they come one by one, a transition is stored if they come together. -/
example : (Verif.Memory.okOf (Verif.Memory.execT (Verif.Memory.STree.new 5) (Verif.Memory.longEp.map fun r => .add [r] [1] 3 1))).map (fun t => t.mem.size) = some 0 ∧
    (Verif.Memory.okOf (Verif.Memory.execT (Verif.Memory.STree.new 5) [.add Verif.Memory.longEp [1, 1, 1, 1] 3 1])).map (fun t => t.mem.size) = some 2 := by
  decide +kernel

end

end Verif.DQN.Nets
