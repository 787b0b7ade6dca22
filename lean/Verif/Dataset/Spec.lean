/-
Specification vocabulary for the dataset properties. Nothing here refers to how the arrays are laid out.
-/
import Verif.Dataset.Model

namespace Verif.Dataset

variable {X A R P : Type}

/-- What a user can observe of a dataset: its length and its columns are those of the list of rows `l`; `cap` rows
are allocated. -/
structure Holds (d : NpDs X A R P) (cap : Nat) (l : List (Row X A R P)) : Prop where
  len : d.len = l.length
  room : l.length ≤ cap
  state : d.state = l.map (·.state)
  action : d.action = l.map (·.action)
  reward : d.reward = l.map (·.reward)
  nextState : d.nextState = l.map (·.nextState)
  absorbing : d.absorbingF = l.map (·.absorbing)
  last : d.lastF = l.map (·.last)
  policyState : d.policyState = l.map (·.policyState)
  policyNextState : d.policyNextState = l.map (·.policyNextState)
  allocated : d.states.length = cap ∧ d.actions.length = cap ∧ d.rewards.length = cap ∧ d.nextStates.length = cap ∧
    d.absorbing.length = cap ∧ d.last.length = cap ∧ d.policyStates.length = cap ∧ d.policyNextStates.length = cap

/-- The observable part alone. -/
structure Shows (d : NpDs X A R P) (l : List (Row X A R P)) : Prop where
  len : d.len = l.length
  state : d.state = l.map (·.state)
  action : d.action = l.map (·.action)
  reward : d.reward = l.map (·.reward)
  nextState : d.nextState = l.map (·.nextState)
  absorbing : d.absorbingF = l.map (·.absorbing)
  last : d.lastF = l.map (·.last)
  policyState : d.policyState = l.map (·.policyState)
  policyNextState : d.policyNextState = l.map (·.policyNextState)

/-- The bounds of a slice contain no negative number. -/
def NonNeg (b : Option Int) : Prop := ∀ i, b = some i → 0 ≤ i

/-- The arrays `g` have room for `cap` rows. -/
def Allocated (g : NpDs X A R P) (cap : Nat) : Prop :=
  g.states.length = cap ∧ g.actions.length = cap ∧ g.rewards.length = cap ∧ g.nextStates.length = cap ∧
    g.absorbing.length = cap ∧ g.last.length = cap ∧ g.policyStates.length = cap ∧ g.policyNextStates.length = cap

/-- A call made by the user (or the core) on a dataset. `clear` carries the contents of the newly allocated memory. -/
inductive Op (X A R P : Type) where
  | append (r : Row X A R P)
  | clear (garbage : NpDs X A R P)

/-- Executing a sequence of calls on the model. -/
def exec : NpDs X A R P → List (Op X A R P) → Except Err (NpDs X A R P)
  | d, [] => .ok d
  | d, .append r :: ops => match d.append r with
    | .error e => .error e
    | .ok d' => exec d' ops
  | _, .clear g :: ops => exec g.clear ops

/-- The rows appended since the last `clear`. -/
def since : List (Row X A R P) → List (Op X A R P) → List (Row X A R P)
  | l, [] => l
  | l, .append r :: ops => since (l ++ [r]) ops
  | _, .clear _ :: ops => since [] ops

/-- Number of rows is at most `cap` all the way. -/
def Fits (cap : Nat) (l : List (Row X A R P)) (ops : List (Op X A R P)) : Prop :=
  ∀ k, (since l (ops.take k)).length ≤ cap

/-- `eps` is the division of `l` into episodes: consecutive nonempty blocks; no row but the final one of a block has
the `last` flag; and all blocks, except perhaps the final one, end with the flag. -/
structure IsEpisodes (l : List (Row X A R P)) (eps : List (List (Row X A R P))) : Prop where
  join : eps.flatten = l
  inner : ∀ e ∈ eps, ∃ pre r, e = pre ++ [r] ∧ ∀ q ∈ pre, q.last = false
  closed : ∀ e ∈ eps.dropLast, ∃ pre r, e = pre ++ [r] ∧ r.last = true

/-- A block ends with the `last` flag. -/
def Complete (e : List (Row X A R P)) : Prop := ∃ pre r, e = pre ++ [r] ∧ r.last = true

instance (e : List (Row X A R P)) : Decidable (Complete e) :=
  decidable_of_iff ((e.getLast?.map (·.last)) = some true) (by
    constructor
    · intro h
      rcases hl : e.getLast? with _ | r
      · simp [hl] at h
      · simp only [hl, Option.map_some, Option.some.injEq] at h
        obtain ⟨pre, hp⟩ := List.getLast?_eq_some_iff.mp hl
        exact ⟨pre, r, hp, h⟩
    · rintro ⟨pre, r, rfl, h⟩
      simp [h])

/-- The same transition, marked as the end of an episode. -/
def setLast (r : Row X A R P) : Row X A R P := { r with last := true }

/-- A list of transitions whose final one is marked as the end of an episode. -/
def closeEnd (l : List (Row X A R P)) : List (Row X A R P) :=
  l.dropLast ++ (l.getLast?.map setLast).toList

/-- Concatenation in which every list but the final one is closed. -/
def joinClosed : List (List (Row X A R P)) → List (Row X A R P)
  | [] => []
  | [l] => l
  | l :: l2 :: ls => closeEnd l ++ joinClosed (l2 :: ls)

/-- `sum_t gamma^t r_t`. -/
def discountedReturn [Semiring R] (gamma : R) (e : List (Row X A R P)) : R :=
  (e.zipIdx.map (fun p => gamma ^ p.2 * p.1.reward)).sum

/-- `m` is the least element of `l`. -/
def IsMinOf [LE R] (m : R) (l : List R) : Prop := m ∈ l ∧ ∀ x ∈ l, m ≤ x
def IsMaxOf [LE R] (m : R) (l : List R) : Prop := m ∈ l ∧ ∀ x ∈ l, x ≤ m

end Verif.Dataset
