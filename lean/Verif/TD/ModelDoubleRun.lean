/-
`DoubleQLearning` as an agent inside `Core`: its tables, its two learning rate parameters and its use of the random generator.
-/
import Verif.TD.SpecDouble

namespace Verif.TD

noncomputable section

variable {S A : Type} [DecidableEq S] [DecidableEq A] [Fintype S] [Fintype A] [Nonempty A]

/-- `DoubleQLearning`: double_q_learning.py L8-45. `alpha c` is the copy of the learning rate that belongs to table `tableOf c` (L19).
`log` is a ghost: in each update, the outcome of L29, the set of actions that L37 chooses from, and the action chosen. -/
structure DoubleAgent (S A : Type) where
  Qs : Tables S A
  alpha : Bool → Policy.Param
  log : List (Bool × Option (Finset A × A))

/-- `DoubleQLearning._update`: double_q_learning.py L28-45. `toss` is `np.random.uniform() < .5` (L29) and `choose` is `np.random.choice`
among the best actions of the next state (L34-37), which is not asked in an absorbing transition (L33). -/
def doubleRule {E : Type} (γ : ℝ) (key : S → A → Policy.Index) (toss : E → E × Bool) (choose : E → Finset A → E × A) :
    Rule E S A (DoubleAgent S A) :=
  { start := id
    update := fun e g next t =>
      let c := toss e
      let p := if t.absorbing then (c.1, none) else
        let M := best (g.Qs (tableOf c.2) t.next)
        let x := choose c.1 M
        (x.1, some (M, x.2))
      let α := (g.alpha c.2).call (key t.state t.action)
      (p.1,
        { Qs := doubleQ γ α.2 g.Qs t c.2 ((p.2.map Prod.snd).getD (Classical.arbitrary A))
          alpha := fun i => if i = c.2 then α.1 else g.alpha i
          log := g.log ++ [(c.2, p.2)] }, next) }

end

end Verif.TD
