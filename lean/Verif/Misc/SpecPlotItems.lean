/-
What the plots should show.
-/
import Verif.Misc.ModelPlotItems

namespace Verif.Misc.PlotItems

open Verif.Misc.Callbacks

noncomputable section

/-- `picks` are `n` different positions in a list of `size` entries, as `random.sample` chooses them. -/
def Sample (picks : List ℕ) (n size : ℕ) : Prop := picks.length = n ∧ picks.Nodup ∧ ∀ k ∈ picks, k < size

/-- What can be seen of a curve or line: lines have a height, the pen of a curve, and are dashed or not. -/
inductive Look
  | curve (j : ℕ)
  | line (y : EReal) (pen : ℕ) (dashed : Bool)
  deriving DecidableEq

def look : Thing → Look
  | .curve j => .curve j
  | .line _ y j d => .line y j d

/-- A finite number among the limits. -/
def finiteAt (l : Option (List Limit)) (j : ℕ) : Option EReal :=
  match l with
  | none => none
  | some l => match l.getD j none with
    | none => none
    | some y => if y = ⊤ ∨ y = ⊥ then none else some y

/-- The limits of curve `j`: at the given heights, and at 1 and -1 if they are dotted. -/
def limitAt (given : Option (List Limit)) (dotted : Option (List Bool)) (v : EReal) (j : ℕ) : Option EReal :=
  if (dotted.getD []).getD j false then some v else finiteAt given j

/-- What a plot should show of the curve `j`: the curve, and its limits with its pen. -/
def wanted (maxs mins : Option (List Limit)) (dotted : Option (List Bool)) (j : ℕ) : List Look :=
  .curve j :: ((limitAt maxs dotted 1 j).toList.map (fun y => .line y j ((dotted.getD []).getD j false)) ++
    (limitAt mins dotted (-1) j).toList.map (fun y => .line y j ((dotted.getD []).getD j false)))

/-- A click on something that there is. -/
def Valid (w : Win) : Click → Prop
  | .all => True
  | .item (.plot i) => i < w.n
  | .item (.curve i j) => i < w.n ∧ j < (w.bufs i).length

end

end Verif.Misc.PlotItems
