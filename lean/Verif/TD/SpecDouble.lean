/-
Vocabulary for Double Q-learning in random problems: the two coin-chosen tables, the random choice among the best actions, and the
learning rates of the two tables.
-/
import Verif.TD.SpecStoch
import Verif.TD.PropsStochMaxmin

namespace Verif.TD

open Filter Topology MeasureTheory

noncomputable section

variable {S A : Type} [DecidableEq S] [DecidableEq A] [Fintype S] [Fintype A] [Nonempty A]
variable {Ω : Type} [mΩ : MeasurableSpace Ω]

/-- The table that a coin chooses: table 0 for heads, table 1 for tails. -/
def tableOf (first : Bool) : ℕ := if first then 0 else 1

open Classical in
/-- The actions with the largest value. -/
def best (q : A → ℝ) : Finset A := Finset.univ.filter (Maximises q)

/-- The probability of each action in a uniform choice from a set. -/
def uniform (M : Finset A) (a : A) : ℝ := if a ∈ M then 1 / (M.card : ℝ) else 0

/-- Given the past, the coin is fair, it is independent of the next state, and the action `pick n` is drawn uniformly from the best
actions of the chosen table in the next state. `Q n ω` are the tables before the `n`-th transition. -/
structure DoubleDraws (μ : Measure Ω) (ℱ : Filtration ℕ mΩ) (m : RandomMDP S A) (t : ℕ → Ω → Trans S A) (Q : ℕ → Ω → Tables S A)
    (first : ℕ → Ω → Bool) (pick : ℕ → Ω → A) : Prop where
  known : ∀ n c s' a', MeasurableSet[ℱ (n + 1)] {ω | first n ω = c ∧ (t n ω).next = s' ∧ pick n ω = a'}
  law : ∀ n c s' a', μ[Set.indicator {ω | first n ω = c ∧ (t n ω).next = s' ∧ pick n ω = a'} (fun _ => (1 : ℝ)) | ℱ n] =ᵐ[μ]
    fun ω => 1 / 2 * m.prob (t n ω).state (t n ω).action s' * uniform (best (Q n ω (tableOf c) s')) a'

/-- The draws in the order in which a program makes them. `𝒢 n` is what is known after the `n`-th transition and its coin: given the past the
coin is fair and independent of the next state, and then `pick n` is drawn uniformly from the set `asked n` that the program gives to
the random generator. -/
structure GeneratorDraws (μ : Measure Ω) (ℱ : Filtration ℕ mΩ) (𝒢 : ℕ → MeasurableSpace Ω) (m : RandomMDP S A) (t : ℕ → Ω → Trans S A)
    (first : ℕ → Ω → Bool) (asked : ℕ → Ω → Finset A) (pick : ℕ → Ω → A) : Prop where
  before : ∀ n, ℱ n ≤ 𝒢 n
  after : ∀ n, 𝒢 n ≤ ℱ (n + 1)
  coinKnown : ∀ n c s', MeasurableSet[𝒢 n] {ω | first n ω = c ∧ (t n ω).next = s'}
  coinLaw : ∀ n c s', μ[Set.indicator {ω | first n ω = c ∧ (t n ω).next = s'} (fun _ => (1 : ℝ)) | ℱ n] =ᵐ[μ]
    fun ω => 1 / 2 * m.prob (t n ω).state (t n ω).action s'
  pickKnown : ∀ n a', MeasurableSet[ℱ (n + 1)] {ω | pick n ω = a'}
  pickLaw : ∀ n a', μ[Set.indicator {ω | pick n ω = a'} (fun _ => (1 : ℝ)) | 𝒢 n] =ᵐ[μ] fun ω => uniform (asked n ω) a'

/-- The rates that table `tableOf c` really used for a pair: 0 at the transitions that do not update the pair in that table. -/
def usedRates (c : Bool) (s : S) (a : A) (t : ℕ → Trans S A) (first : ℕ → Bool) (α : ℕ → ℝ) (n : ℕ) : ℝ :=
  if first n = c ∧ (t n).state = s ∧ (t n).action = a then α n else 0

/-- The learning rates of the two tables: `α c n` is what table `tableOf c` uses if it is chosen at the `n`-th transition. For either table
the conditions of Robbins and Monro hold, and in the long run the two tables have the same rates. -/
structure DoubleRates (μ : Measure Ω) (ℱ : Filtration ℕ mΩ) (L : S → Prop) (t : ℕ → Ω → Trans S A) (first : ℕ → Ω → Bool)
    (α : Bool → ℕ → Ω → ℝ) : Prop where
  known : ∀ c n, Measurable[ℱ n] (α c n)
  range : ∀ c n ω, 0 < α c n ω ∧ α c n ω ≤ 1
  squares : ∃ C, ∀ c s a ω N, ∑ k ∈ Finset.range N, usedRates c s a (t · ω) (first · ω) (α c · ω) k ^ 2 ≤ C
  diverge : ∀ᵐ ω ∂μ, ∀ c s, L s → ∀ a,
    Tendsto (fun n => ∑ k ∈ Finset.range n, usedRates c s a (t · ω) (first · ω) (α c · ω) k) atTop atTop
  balanced : ∀ᵐ ω ∂μ, Tendsto (fun n => α false n ω / α true n ω) atTop (𝓝 1)

/-- The tables of a Double Q-learning agent before the `n`-th transition. -/
def doubleTables (γ : ℝ) (t : ℕ → Trans S A) (first : ℕ → Bool) (pick : ℕ → A) (α : Bool → ℕ → ℝ) (Q0 : Tables S A) (n : ℕ) : Tables S A :=
  ensembles (fun k Q => doubleQ γ (α (first k) k) Q (t k) (first k) (pick k)) Q0 n

/-- The coins are fair given the past. -/
structure FairCoins (μ : Measure Ω) (ℱ : Filtration ℕ mΩ) (first : ℕ → Ω → Bool) : Prop where
  known : ∀ n c, MeasurableSet[ℱ (n + 1)] {ω | first n ω = c}
  law : ∀ n c, μ[Set.indicator {ω | first n ω = c} (fun _ => (1 : ℝ)) | ℱ n] =ᵐ[μ] fun _ => 1 / 2

/-- `self._alpha_double[i](state, action)` at the `n`-th transition, for either table: double_q_learning.py L20, L42. A table's parameter is
called only when the table is updated. -/
def doubleRate (p : Policy.Param) (key : S → A → Policy.Index) (t : ℕ → Trans S A) (first : ℕ → Bool) (c : Bool) (n : ℕ) : ℝ :=
  ((tableParam p key t (fun k => tableOf (first k)) (tableOf c) n).call (key (t n).state (t n).action)).2

end

end Verif.TD
