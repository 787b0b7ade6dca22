/-
Model of the networks and losses of the distributional agents: mushroom_rl/algorithms/value/dqn/{categorical_dqn,quantile_dqn,rainbow}.py, and of the
targets of CategoricalDQN and Rainbow. A tensor is its shape and its entries by index. The features of a state are an arbitrary function of the state; the
linear layers on top of them are arbitrary functions of the features. The noise of the layers of Rainbow is that of one call. Numbers are real numbers.
-/
import Verif.DQN.Model
import Verif.Backend.Model
import Mathlib.Analysis.SpecialFunctions.Log.Basic

namespace Verif.DQN.Nets

open Verif.TD (Trans)
open Verif.Backend (Tensor)

noncomputable section

/-! ### Tensors -/

/-- `torch.squeeze`: the axes of size one are removed; an index of the result is completed with zeros. -/
def squeezeIdx : List ℕ → List ℕ → List ℕ
  | [], _ => []
  | s :: sh, is =>
    if s = 1 then 0 :: squeezeIdx sh is
    else match is with
      | i :: is => i :: squeezeIdx sh is
      | [] => []
def squeeze {α : Type} (t : Tensor α) : Tensor α := ⟨t.shape.filter (· ≠ 1), fun is => t.entry (squeezeIdx t.shape is)⟩

/-- Broadcasting: the shapes are aligned at their ends and an axis of size one is repeated. -/
def padShape (n : ℕ) (sh : List ℕ) : List ℕ := List.replicate (n - sh.length) 1 ++ sh
def bshape (a b : List ℕ) : Option (List ℕ) :=
  let n := max a.length b.length
  (List.zip (padShape n a) (padShape n b)).mapM fun (p : ℕ × ℕ) =>
    if p.1 = p.2 then some p.1 else if p.1 = 1 then some p.2 else if p.2 = 1 then some p.1 else none
def bidx (sh is : List ℕ) : List ℕ := List.zipWith (fun s i => if s = 1 then 0 else i) sh (is.drop (is.length - sh.length))

/-- A function of two tensors, entry by entry. -/
def op2 {α β γ : Type} (f : α → β → γ) (a : Tensor α) (b : Tensor β) : Option (Tensor γ) :=
  (bshape a.shape b.shape).map fun sh => ⟨sh, fun is => f (a.entry (bidx a.shape is)) (b.entry (bidx b.shape is))⟩

/-- A function of one tensor, entry by entry. -/
def op1 {α β : Type} (f : α → β) (a : Tensor α) : Tensor β := ⟨a.shape, fun is => f (a.entry is)⟩

/-- The sum over all the entries of a tensor, and their mean. -/
def total : List ℕ → (List ℕ → ℝ) → ℝ
  | [], f => f []
  | s :: sh, f => ∑ i ∈ Finset.range s, total sh fun is => f (i :: is)
def mean (t : Tensor ℝ) : ℝ := total t.shape t.entry / (t.shape.prod : ℕ)

/-- `torch.sum(t, 1)`: an error for less than two axes; here for a matrix. -/
def sumRows (t : Tensor ℝ) : Option (Tensor ℝ) :=
  match t.shape with
  | [s, k] => some ⟨[s], fun is => match is with
    | [i] => ∑ j ∈ Finset.range k, t.entry [i, j]
    | _ => 0⟩
  | _ => none

/-- `t.repeat(…)`: the shape is completed at the front with axes of size one, and every axis is repeated. -/
def repeated {α : Type} (reps : List ℕ) (t : Tensor α) : Tensor α :=
  let sh := padShape reps.length t.shape
  ⟨List.zipWith (· * ·) reps sh, fun is => t.entry ((List.zipWith (fun s i => i % s) sh is).drop (reps.length - t.shape.length))⟩

/-- `t.t().unsqueeze(-1)` for a matrix. -/
def transposedColumn {α : Type} (t : Tensor α) : Option (Tensor α) :=
  match t.shape with
  | [s, k] => some ⟨[k, s, 1], fun is => match is with
    | j :: i :: _ => t.entry [i, j]
    | _ => t.entry []⟩
  | _ => none

/-! ### Networks -/

variable {S F : Type}

/-- `F.softmax(x, -1)` of `k` entries. -/
def softmax (k : ℕ) (x : ℕ → ℝ) (j : ℕ) : ℝ := Real.exp (x j) / ∑ l ∈ Finset.range k, Real.exp (x l)

/-- `CategoricalNetwork.forward`: the probabilities of the atoms. categorical_dqn.py L52-55. -/
def catProb (phi : S → F) (k : ℕ) (heads : ℕ → F → ℕ → ℝ) (s : S) (a j : ℕ) : ℝ := softmax k (heads a (phi s)) j

/-- `RainbowNetwork.forward`: the probabilities of the atoms. rainbow.py L39-46. -/
def rainbowProb (phi : S → F) (n k : ℕ) (value : F → ℕ → ℝ) (adv : ℕ → F → ℕ → ℝ) (s : S) (a j : ℕ) : ℝ :=
  softmax k (fun l => value (phi s) l + adv a (phi s) l - (∑ c ∈ Finset.range n, adv c (phi s) l) / n) j

/-- `QuantileNetwork.forward`: the quantiles. quantile_dqn.py L45-48. -/
def quantile (phi : S → F) (heads : ℕ → F → ℕ → ℝ) (s : S) (a j : ℕ) : ℝ := heads a (phi s) j

/-- What is made of the `k` numbers of an action: their expectation of the atoms, or their mean. categorical_dqn.py L58-60, rainbow.py L49-51,
quantile_dqn.py L51. -/
def expectation (k : ℕ) (z : ℕ → ℝ) (p : ℕ → ℝ) : ℝ := ∑ j ∈ Finset.range k, p j * z j
def average (k : ℕ) (x : ℕ → ℝ) : ℝ := (∑ j ∈ Finset.range k, x j) / k

/-- The rest of the three `forward` methods, for a batch of `b` states, `n` actions and `k` numbers per action; `action` has one column. Without `full`
(`get_distribution`, `get_quantiles`) the action values are returned. An action that does not exist raises. categorical_dqn.py L57-73, rainbow.py L48-64,
quantile_dqn.py L50-64. -/
def forward (b n k : ℕ) (reduce : (ℕ → ℝ) → ℝ) (values : S → ℕ → ℕ → ℝ) (states : ℕ → S) (action : Option (ℕ → ℕ)) (full : Bool) : Option (Tensor ℝ) :=
  match action with
  | none =>
    if full then some ⟨[b, n, k], fun is => values (states (is.getD 0 0)) (is.getD 1 0) (is.getD 2 0)⟩
    else some ⟨[b, n], fun is => reduce (values (states (is.getD 0 0)) (is.getD 1 0))⟩
  | some act =>
    if ∀ i < b, act i < n then
      if full then some (squeeze ⟨[b, 1, k], fun is => values (states (is.getD 0 0)) (act (is.getD 0 0)) (is.getD 2 0)⟩)
      else some (squeeze ⟨[b, 1], fun is => reduce (values (states (is.getD 0 0)) (act (is.getD 0 0)))⟩)
    else none

/-! ### Losses -/

/-- `categorical_loss`: the loss of every row. categorical_dqn.py L17-19. -/
def categoricalRows (input target : Tensor ℝ) : Option (Tensor ℝ) :=
  ((op2 (· * ·) target (op1 Real.log (op1 (max (1 / 10 ^ 5)) input))).bind sumRows).map (op1 fun x => -x)

/-- `categorical_loss`. categorical_dqn.py L16-26. -/
def categoricalLoss (input target : Tensor ℝ) (reduction : String) : Option (Tensor ℝ) :=
  (categoricalRows input target).bind fun loss =>
    if reduction = "sum" then some ⟨[], fun _ => mean loss⟩
    else if reduction = "none" then some loss
    else none

/-- The weighted loss of a fit with weights: `loss @ weights / weights.sum()`, for a vector of losses. torch_approximator.py L230-233. -/
def weightedLoss (loss : Tensor ℝ) (b : ℕ) (w : ℕ → ℝ) : Option ℝ :=
  match loss.shape with
  | [s] => if s = b then some ((∑ i ∈ Finset.range b, loss.entry [i] * w i) / ∑ i ∈ Finset.range b, w i) else none
  | _ => none

/-- `quantile_huber_loss`, with the levels `tau`. quantile_dqn.py L13-24. -/
def quantileLoss (tau : List ℝ) (input target : Tensor ℝ) : Option ℝ := do
  let rows ← input.shape.head?
  let n := tau.length
  let levels : Tensor ℝ := ⟨[rows, n], fun is => tau.getD (is.getD 1 0) 0⟩
  let target := repeated [1, 1, n] (← transposedColumn target)
  let input := repeated [n, 1, 1] input
  let indicator ← op2 (fun t i => if t - i < 0 then (1 : ℝ) else 0) target input
  let huber ← op2 (fun i t => smoothL1 (i - t)) input target
  let weight ← op2 (fun t i => |t - i|) levels indicator
  let loss ← op2 (· * ·) weight huber
  return mean loss

/-! ### Agents -/

/-- `CategoricalDQN.fit`: the target distribution of one transition, with the target network's probabilities `prob` and the atoms `z`.
categorical_dqn.py L124-148. -/
def categoricalTarget {A : Type} (n : ℕ) (vMin vMax γ : ℝ) (clip : Bool) (argmax : (A → ℝ) → A) (z : List ℝ) (prob : S → A → List ℝ) (t : Trans S A) :
    Option (List ℝ) :=
  let q : A → ℝ := fun a => (List.zipWith (· * ·) (prob t.next a) z).sum
  project n vMin vMax (clipReward clip t.reward) (γ * alive t.absorbing) z (prob t.next (argmax q))

/-- `Rainbow.fit`: the target distribution of one stored transition, whose reward is the discounted sum of `steps` rewards; the action is that of the
online network's probabilities `online`. rainbow.py L129-153. -/
def rainbowTarget {A : Type} (n : ℕ) (vMin vMax γ : ℝ) (steps : ℕ) (clip : Bool) (argmax : (A → ℝ) → A) (z : List ℝ) (online prob : S → A → List ℝ)
    (t : Trans S A) : Option (List ℝ) :=
  let q : A → ℝ := fun a => (List.zipWith (· * ·) (online t.next a) z).sum
  project n vMin vMax (clipReward clip t.reward) (γ ^ steps * alive t.absorbing) z (prob t.next (argmax q))

end

end Verif.DQN.Nets
