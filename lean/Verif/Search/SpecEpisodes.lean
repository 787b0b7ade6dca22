/-
Specification for C94: the distribution of the episodes of a finite decision process.
-/
import Verif.Search.SpecPG
import Mathlib.MeasureTheory.Measure.Dirac
import Mathlib.MeasureTheory.Measure.Map
import Mathlib.Probability.Independence.Basic

namespace Verif.Search

open MeasureTheory

variable {S A : Type}

/-- Every set of episodes is measurable. -/
instance : MeasurableSpace (List (Step S A)) := ⊤

/-- The distribution of the episodes of at most `h` steps that start in `s`, with actions drawn with the probabilities `pol`. -/
noncomputable def lawFrom [Fintype S] [Fintype A] (P : Process S A) (pol : S → A → ℝ) : ℕ → S → Measure (List (Step S A))
  | 0, _ => Measure.dirac []
  | h + 1, s => ∑ a, ENNReal.ofReal (pol s a) • ∑ s', ENNReal.ofReal (P.trans s a s') •
      if P.absorbing s a s' then Measure.dirac [P.sample h s a s']
      else (lawFrom P pol h s').map (fun e => P.sample h s a s' :: e)

/-- The distribution of the episodes when the first state is drawn too. -/
noncomputable def law [Fintype S] [Fintype A] (P : Process S A) (pol : S → A → ℝ) (h : ℕ) : Measure (List (Step S A)) :=
  ∑ s, ENNReal.ofReal (P.start s) • lawFrom P pol h s

/-- The sequence `X` consists of episodes of the process that are drawn independently with the same policy. -/
structure Episodes [Fintype S] [Fintype A] {Ω : Type} [MeasurableSpace Ω] (μ : Measure Ω) (P : Process S A) (pol : S → A → ℝ)
    (h : ℕ) (X : ℕ → Ω → List (Step S A)) : Prop where
  measurable : ∀ i, Measurable (X i)
  law_eq : ∀ i, μ.map (X i) = law P pol h
  indep : Pairwise fun i j => ProbabilityTheory.IndepFun (X i) (X j) μ

/-- The dataset with the first `n` episodes. -/
def firstN {Ω : Type} (X : ℕ → Ω → List (Step S A)) (n : ℕ) (ω : Ω) : List (Step S A) :=
  ((List.range n).map (fun i => X i ω)).flatten

end Verif.Search
