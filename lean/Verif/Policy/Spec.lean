/-
Specification vocabulary for parameters and policies.
-/
import Verif.Policy.Model

namespace Verif.Policy

noncomputable section

/-- What can be done with a parameter. -/
inductive Op where
  | get (idx : Index)
  | update (idx : Index)
  | call (idx : Index)

def Param.exec (p : Param) : Op → Param
  | .get _ => p
  | .update idx => p.update idx
  | .call idx => (p.call idx).1

def Param.run (p : Param) (ops : List Op) : Param := ops.foldl Param.exec p

/-- Number of updates of the cell of `idx`: all the updates and calls with this index, or with any index if there is
only one cell. Reading does not count. -/
def visits (single : Bool) (idx : Index) : List Op → Nat
  | [] => 0
  | .get _ :: ops => visits single idx ops
  | .update j :: ops => (if single = true ∨ j = idx then 1 else 0) + visits single idx ops
  | .call j :: ops => (if single = true ∨ j = idx then 1 else 0) + visits single idx ops

/-- The values reachable with optional bounds. -/
def InRange (lo hi : Option ℝ) (x : ℝ) : Prop := (∀ l, lo = some l → l ≤ x) ∧ (∀ h, hi = some h → x ≤ h)

/-- `p` is a probability distribution over `n` actions. -/
structure IsProb (n : Nat) (p : List ℝ) : Prop where
  len : p.length = n
  nonneg : ∀ x ∈ p, 0 ≤ x
  sum : p.sum = 1

/-- Action `a` maximises the action values. -/
def Greedy (q : List ℝ) (a : Nat) : Prop := ∃ x, q[a]? = some x ∧ ∀ y ∈ q, y ≤ x

open Classical in
/-- Number of maximising actions. -/
def nGreedy (q : List ℝ) : Nat := ((List.range q.length).filter (fun a => Greedy q a)).length

end

end Verif.Policy
