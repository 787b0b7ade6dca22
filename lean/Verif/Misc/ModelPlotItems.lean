/-
Model of /repo/mushroom_rl/utils/plots/plot_item_buffer.py, and of the window of window.py together with what its plots show.

Qt and pyqtgraph are not modelled: a plot is the list of the curves and lines that were added to it and not removed. Floats are reals.
-/
import Verif.Misc.ModelCallbacks
import Mathlib.Analysis.SpecialFunctions.Pow.Real

namespace Verif.Misc.PlotItems

open Verif.Misc.Callbacks

noncomputable section

/-- The errors. -/
inductive Err
  | zeroDivision | value | type | index
  deriving DecidableEq, Repr

/-! ### PlotItemBuffer -/

/-- `int(area_per_color ** (1 / 3))`. plot_item_buffer.py L167-169. -/
def side (lo hi : ℤ) (n : ℕ) : ℕ := ⌊(((hi : ℝ) - lo) ^ 3 / n) ^ (1 / 3 : ℝ)⌋₊

/-- `np.arange(lo, hi, step)`. plot_item_buffer.py L170. -/
def arange (lo hi : ℤ) (step : ℕ) : List ℤ := (List.range ⌈((hi : ℝ) - lo) / step⌉₊).map (fun k : ℕ => lo + k * step)

/-- `list(product(points, repeat=3))`. plot_item_buffer.py L172. -/
def grid (points : List ℤ) : List (List ℤ) := points.flatMap (fun r => points.flatMap (fun g => points.map (fun b => [r, g, b])))

/-- `get_n_colors`: `picks` are the positions that `random.sample` chooses. plot_item_buffer.py L151-175. -/
def getColors (lo hi : ℤ) (n : ℕ) (picks : List ℕ) : Except Err (List (List ℤ)) :=
  if n = 0 then .error .zeroDivision
  else if side lo hi n = 0 then .error .zeroDivision
  else if (grid (arange lo hi (side lo hi n))).length < n then .error .value
  else .ok (picks.map (fun k => (grid (arange lo hi (side lo hi n))).getD k []))

/-- An entry of `plot_item_data_params`: the buffer with its name, and `pen` and `name` if they are given. Pens are colours. -/
structure Curve where
  buffer : ℕ
  bufName : String
  pen : Option (List ℤ)
  name : Option String

/-- The loop over the parameters of several curves, from position `i` of `n`. The entry has no pen where its position is looked up, those before
have one, so that `index` gives the position. plot_item_buffer.py L41-49. -/
def styles (picks : ℕ → List ℕ) (n : ℕ) : ℕ → List Curve → Except Err (List Curve)
  | _, [] => .ok []
  | i, c :: cs => do
    let colors ← getColors 50 256 n (picks i)
    let c := match c.pen with
      | none => { c with pen := some (colors.getD i [] ++ [255]) }
      | some _ => c
    let c := match c.name with
      | none => { c with name := some c.bufName }
      | some _ => c
    let cs ← styles picks n (i + 1) cs
    return c :: cs

/-- `PlotItemBuffer(name, plot_item_data_params)`: the curves. `picks i` is what `random.sample` chooses in the `i`-th turn of the loop.
plot_item_buffer.py L15-79. -/
def newCurves (picks : ℕ → List ℕ) : List Curve → Except Err (List Curve)
  | [] => .ok []
  | [c] => .ok [match c.pen with
      | none => { c with pen := some [255, 0, 0, 255] }
      | some _ => c]
  | cs => styles picks cs.length 0 cs

/-! ### PlotItemBufferLimited -/

/-- What a plot contains: its curves and horizontal lines. Lines are new objects, told apart by numbers. -/
inductive Thing
  | curve (j : ℕ)
  | line (id : ℕ) (y : EReal) (pen : ℕ) (dashed : Bool)
  deriving DecidableEq

/-- A limit in `maxs` or `mins`: a number or `None`. -/
abbrev Limit := Option EReal

/-- A plot with limits. `maxLines` and `minLines` are lists with one entry per curve. plot_item_buffer.py L220-252. -/
structure Limited where
  n : ℕ
  maxs : Option (List Limit)
  mins : Option (List Limit)
  hasMax : Bool
  hasMin : Bool
  dotted : Option (List Bool)
  maxLines : ℕ → Option ℕ
  minLines : ℕ → Option ℕ
  things : List Thing
  fresh : ℕ

/-- The assignments to one of the lists in the loop over `dotted_limits`. plot_item_buffer.py L233-236. -/
def dot (v : EReal) : List Bool → List Limit → Except Err (List Limit)
  | [], l => .ok l
  | false :: ds, [] => dot v ds []
  | true :: _, [] => .error .index
  | d :: ds, x :: l => do
    let l ← dot v ds l
    return (if d then some v else x) :: l

/-- The same with a list that may be `None`. plot_item_buffer.py L233-236. -/
def dotLimits (v : EReal) (ds : List Bool) : Option (List Limit) → Except Err (Option (List Limit))
  | none => if true ∈ ds then .error .type else .ok none
  | some l => do
    let l ← dot v ds l
    return some l

/-- Infinite limits are replaced by `None`. plot_item_buffer.py L243-244, L248-249. -/
def noInf (l : Limit) : Limit := if l = some ⊤ ∨ l = some ⊥ then none else l

/-- `PlotItemBufferLimited(title, plot_buffers, maxs, mins, dotted_limits)` for `n` buffers and for lists; the two loops over
`dotted_limits` are one in the code, with the same effect. The lists of the caller are the ones that are kept. plot_item_buffer.py L183-252. -/
def Limited.new (n : ℕ) (maxs mins : Option (List Limit)) (dotted : Option (List Bool)) : Except Err Limited := do
  if (∃ l ∈ maxs, l.length ≠ n) ∨ (∃ l ∈ mins, l.length ≠ n) then .error .type
  else
    let ds := dotted.getD []
    let hi ← dotLimits 1 ds maxs
    let lo ← dotLimits (-1) ds mins
    let some' (l : Option (List Limit)) : Bool := match l with
      | none => false
      | some l => !l.isEmpty || !ds.isEmpty
    return { n := n, maxs := hi.map (·.map noInf), mins := lo.map (·.map noInf), hasMax := some' maxs, hasMin := some' mins, dotted := dotted,
             maxLines := fun _ => none, minLines := fun _ => none, things := [], fresh := 0 }

/-- The limits and dotted flags that `PlotDataset` gives to the plot of the observations; `box` are the limits `high` and `low`, of the same length, of
a `Box` observation space. plot_dataset.py L63-82. -/
def datasetLimits (box : Option (List EReal × List EReal)) (normalized : Bool) : Option (List Limit) × Option (List Limit) × Option (List Bool) :=
  match box with
  | none => (none, none, none)
  | some (high, low) =>
    if normalized then (some (high.map (fun _ => some 1)), some (low.map (fun _ => some (-1))), some (high.map (fun h => decide (h = ⊤ ∨ h = ⊥))))
    else (some (high.map some), some (low.map some), none)

/-- `PlotItemBuffer.draw`. plot_item_buffer.py L91-101. -/
def drawCurve (things : List Thing) (j : ℕ) : List Thing := if .curve j ∈ things then things else things ++ [.curve j]

/-- `PlotItemBufferLimited.draw`. plot_item_buffer.py L254-275. -/
def Limited.draw (p : Limited) (j : ℕ) : Except Err Limited := do
  let p := { p with things := drawCurve p.things j }
  let dashed ← match p.dotted with
    | none => .ok false
    | some ds => match ds[j]? with
      | none => .error .index
      | some d => .ok d
  let p ← if p.hasMax then
      match (p.maxs.getD [])[j]? with
      | none => .error .index
      | some none => .ok p
      | some (some y) => .ok { p with things := p.things ++ [.line p.fresh y j dashed], maxLines := Function.update p.maxLines j (some p.fresh), fresh := p.fresh + 1 }
    else .ok p
  if p.hasMin then
    match (p.mins.getD [])[j]? with
    | none => .error .index
    | some none => .ok p
    | some (some y) => .ok { p with things := p.things ++ [.line p.fresh y j dashed], minLines := Function.update p.minLines j (some p.fresh), fresh := p.fresh + 1 }
  else .ok p

/-- `removeItem` for a line, which may be `None`. -/
def removeLine (things : List Thing) : Option ℕ → List Thing
  | none => things
  | some id => things.filter (fun x => match x with
    | .line k _ _ _ => k != id
    | _ => true)

/-- `PlotItemBufferLimited.erase`. plot_item_buffer.py L103-120, L277-285. -/
def Limited.erase (p : Limited) (j : ℕ) : Limited :=
  let things := p.things.filter (fun x => x != .curve j)
  let things := if p.hasMax then removeLine things (p.maxLines j) else things
  { p with things := if p.hasMin then removeLine things (p.minLines j) else things }

/-! ### The window with its plots -/

/-- The window, its plots, and the plots in its layout. window.py L38-88. -/
structure Screen where
  win : Win
  plots : ℕ → Limited
  layout : List ℕ

/-- `activate`. window.py L124-138, L90-99. -/
def Screen.activate (s : Screen) (it : Item) : Except Err Screen :=
  if s.win.on it then .ok s
  else match it with
    | .plot i => .ok { s with win := s.win.activate it, layout := s.layout ++ [i] }
    | .curve i j => do
      let p ← (s.plots i).draw j
      return { s with win := s.win.activate it, plots := Function.update s.plots i p }

/-- `deactivate` for the item of a curve. window.py L140-157. -/
def Screen.deactivateCurve (s : Screen) (i j : ℕ) : Screen :=
  if s.win.on (.curve i j) then
    { s with win := s.win.deactivateCurve i j, plots := Function.update s.plots i ((s.plots i).erase j) }
  else s

/-- `deactivate`. window.py L140-157, L101-109. -/
def Screen.deactivate (s : Screen) : Item → Screen
  | .curve i j => s.deactivateCurve i j
  | .plot i =>
    if s.win.on (.plot i) then
      let s := { s with win := { s.win with on := Function.update s.win.on (.plot i) false } }
      let s := (List.range (s.win.bufs i).length).foldl (fun s j => s.deactivateCurve i j) s
      { s with win := s.win.deactivateBuffers i, layout := s.layout.erase i }
    else s

/-- `clicked`. window.py L159-188. -/
def Screen.clicked (s : Screen) : Click → Except Err Screen
  | .all =>
    if s.win.all then .ok (s.win.items.foldl Screen.deactivate { s with win := { s.win with all := false } })
    else s.win.items.foldlM Screen.activate { s with win := { s.win with all := true } }
  | .item it => if s.win.on it then .ok (s.deactivate it) else s.activate it

end

end Verif.Misc.PlotItems
