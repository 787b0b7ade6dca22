/-
Model of mushroom_rl/utils/callbacks/{callback, collect_q, collect_max_q, collect_parameters, collect_dataset, plot_dataset}.py, of
mushroom_rl/utils/plots/window.py and of what the table regressors (approximators/{table, ensemble_table}.py) hand out.

Arrays and lists are objects with an address, since the question is which of them are shared. Drawing is not modelled: of the window
only the state of the items of its tree and the tracking flags of the data buffers are kept.
-/
import Verif.Misc.ModelLog
import Verif.TD.Model
import Verif.Approx.Model
import Verif.Policy.Model
import Mathlib.Data.Real.Basic

namespace Verif.Misc.Callbacks

noncomputable section

open Verif.Approx (Prediction combinePredictions)

variable {S A : Type}

/-! ### Objects -/

/-- The arrays and the Python lists that were created, by address. A list holds the addresses of its entries. -/
structure Mem (S A : Type) where
  arrays : List (S → A → ℝ)
  lists : List (List ℕ)

/-- The contents of an array. -/
def Mem.arr (m : Mem S A) (i : ℕ) : S → A → ℝ := m.arrays.getD i (fun _ _ => 0)

/-- What someone holding the list at address `l` reads from it. -/
def Mem.read (m : Mem S A) (l : ℕ) : List (S → A → ℝ) := (m.lists.getD l []).map m.arr

/-- `np.mean(qs, 0)`. collect_q.py L32. -/
def meanTable (qs : List (S → A → ℝ)) : S → A → ℝ := fun s a => (qs.map (fun q => q s a)).sum / qs.length

/-! ### collect_q.py, callback.py -/

/-- `CollectQ`: the tables of the approximator (a single one for a `Table`), whether it is an `EnsembleTable`, and the address of
`_data_list`. collect_q.py L14-24, callback.py L38-39. -/
structure CollectQ where
  tables : List ℕ
  ensemble : Bool
  dataList : ℕ

/-- `CollectQ(approximator)` makes an empty list. collect_q.py L14-24, callback.py L38-39. -/
def CollectQ.new (m : Mem S A) (tables : List ℕ) (ensemble : Bool) : Mem S A × CollectQ :=
  ({ m with lists := m.lists ++ [[]] }, ⟨tables, ensemble, m.lists.length⟩)

/-- `CollectQ.__call__`: a new array is made and appended to the list. collect_q.py L26-34. -/
def CollectQ.call (c : CollectQ) (m : Mem S A) : Mem S A :=
  let q := if c.ensemble then meanTable (c.tables.map m.arr) else m.arr (c.tables.headD 0)
  { arrays := m.arrays ++ [q], lists := m.lists.modify c.dataList (fun l => l ++ [m.arrays.length]) }

/-- `CallbackList.clean`: the list is replaced by a new one. callback.py L49-54. -/
def CollectQ.clean (c : CollectQ) (m : Mem S A) : Mem S A × CollectQ :=
  ({ m with lists := m.lists ++ [[]] }, { c with dataList := m.lists.length })

/-- `CallbackList.get`: the list itself. callback.py L41-47. -/
def CollectQ.get (c : CollectQ) : ℕ := c.dataList

/-- What happens during learning: the learner writes into its `i`-th table in place (table.py L32-38), the callback is called or
cleaned. -/
inductive Ev (S A : Type)
  | write (i : ℕ) (f : (S → A → ℝ) → S → A → ℝ)
  | call
  | clean

/-- One event. -/
def event (p : Mem S A × CollectQ) : Ev S A → Mem S A × CollectQ
  | .write i f =>
    match p.2.tables[i]? with
    | none => p
    | some addr => ({ p.1 with arrays := p.1.arrays.modify addr f }, p.2)
  | .call => (p.2.call p.1, p.2)
  | .clean => p.2.clean p.1

/-! ### table.py, ensemble.py: what `predict` hands out -/

/-- What `Table.predict(state)` and `EnsembleTable.predict(state)` return for one state: `self.table[s, :]` is a view of the table
(table.py L28-30, L68-76), the predictions of an ensemble are combined in a new array (ensemble.py L87-106). -/
inductive Row (A : Type)
  | view (addr : ℕ)
  | fresh (q : A → ℝ)

/-- `EnsembleTable.predict(state)` for a non empty ensemble. ensemble.py L77-106. -/
def ensembleRow (p : Prediction) (q : S → A → ℝ) (qs : List (S → A → ℝ)) (s : S) : A → ℝ :=
  fun a => combinePredictions p (q s a) (qs.map (fun q => q s a))

/-- What is read from such a row later. -/
def Row.read (r : Row A) (m : Mem S A) (s : S) : A → ℝ :=
  match r with
  | .view addr => m.arr addr s
  | .fresh q => q

/-- `Table.predict(state)`. table.py L51-79. -/
def tablePredict (addr : ℕ) : Row A := .view addr

/-! ### collect_max_q.py -/

/-- `CollectMaxQ.__call__` for a `Table`: the entry appended. collect_max_q.py L25-29. -/
def maxQTable [Fintype A] [Nonempty A] (m : Mem S A) (addr : ℕ) (s : S) : ℝ := TD.rowMax ((tablePredict addr : Row A).read m s)

/-- `CollectMaxQ.__call__` for an `EnsembleTable`. collect_max_q.py L25-29. -/
def maxQEnsemble [Fintype A] [Nonempty A] (p : Prediction) (q : S → A → ℝ) (qs : List (S → A → ℝ)) (s : S) : ℝ :=
  TD.rowMax (ensembleRow p q qs s)

/-! ### collect_parameters.py -/

/-- What happens to a parameter and to its collector: the agent uses the parameter (`parameter(*idx)`), or the callback is called. -/
inductive ParEv
  | use (idx : Policy.Index)
  | call

/-- `CollectParameters.__call__` next to the uses of the parameter. collect_parameters.py L27-31; parameters.py L45-61. -/
def parEvent (at_ : Policy.Index) (p : Policy.Param × List ℝ) : ParEv → Policy.Param × List ℝ
  | .use idx => ((p.1.call idx).1, p.2)
  | .call => (p.1, p.2 ++ [p.1.getValue at_])

/-! ### collect_dataset.py -/

/-- `CollectDataset`, its dataset as a list of rows; `None` before the first call. collect_dataset.py L11-15. -/
abbrev CollectDs (ρ : Type) := Option (List ρ)

/-- `CollectDataset.__call__`: rows are appended. collect_dataset.py L17-24. Which rows and flags these are is C12. -/
def CollectDs.call {ρ : Type} (c : CollectDs ρ) (rows : List ρ) : CollectDs ρ :=
  match c with
  | none => some rows
  | some l => some (l ++ rows)

/-- `CollectDataset.clean`: `self._dataset.clear()`; `none` outside stands for the AttributeError of `None.clear()`.
collect_dataset.py L26-27. -/
def CollectDs.clean {ρ : Type} (c : CollectDs ρ) : Option (CollectDs ρ) :=
  match c with
  | none => none
  | some _ => some (some [])

/-! ### plots/window.py -/

/-- The items of the tree of a window: a plot, or the `j`-th curve of a plot. The names of plots and buffers are taken to be
distinct, as those of `PlotDataset` are. window.py L61-76. -/
inductive Item
  | plot (i : ℕ)
  | curve (i j : ℕ)
  deriving DecidableEq

/-- The state of a `Window` with `n` plots. window.py L38-56. -/
structure Win where
  n : ℕ
  track : ℕ → Bool
  bufs : ℕ → List (Buffer ℝ)
  on : Item → Bool
  all : Bool

/-- `enable_tracking` of all the buffers of a plot. window.py L193-194, L196-199. -/
def Win.setTracking (w : Win) (i : ℕ) (b : Bool) : Win :=
  { w with bufs := Function.update w.bufs i ((w.bufs i).map (fun x => x.call (.enable b))) }

/-- `_deactivate_buffer_plots`. window.py L190-194. -/
def Win.deactivateBuffers (w : Win) (i : ℕ) : Win := if !w.track i then w.setTracking i false else w

/-- `Window(plot_list, track_if_deactivated)`. window.py L18-88. -/
def Win.new (n : ℕ) (track : ℕ → Bool) (bufs : ℕ → List (Buffer ℝ)) : Win :=
  (List.range n).foldl Win.deactivateBuffers ⟨n, track, bufs, fun _ => false, false⟩

/-- `activate`. window.py L124-138. -/
def Win.activate (w : Win) (it : Item) : Win :=
  if w.on it then w
  else
    let w := { w with on := Function.update w.on it true }
    match it with
    | .plot i => w.setTracking i true
    | .curve _ _ => w

/-- `deactivate` for the item of a curve. window.py L149-157. -/
def Win.deactivateCurve (w : Win) (i j : ℕ) : Win :=
  if w.on (.curve i j) then { w with on := Function.update w.on (.curve i j) false } else w

/-- `deactivate`. window.py L140-157. -/
def Win.deactivate (w : Win) (it : Item) : Win :=
  match it with
  | .curve i j => w.deactivateCurve i j
  | .plot i =>
    if w.on (.plot i) then
      let w := { w with on := Function.update w.on (.plot i) false }
      let w := (List.range (w.bufs i).length).foldl (fun w j => w.deactivateCurve i j) w
      w.deactivateBuffers i
    else w

/-- The items in the order of `_activation_items`. window.py L61-76. -/
def Win.items (w : Win) : List Item :=
  (List.range w.n).flatMap (fun i => .plot i :: (List.range (w.bufs i).length).map (.curve i))

/-- A click on the entry `ALL` or on an item. -/
inductive Click
  | all
  | item (it : Item)

/-- `clicked`. window.py L159-188. -/
def Win.clicked (w : Win) : Click → Win
  | .all =>
    if w.all then w.items.foldl Win.deactivate { w with all := false }
    else w.items.foldl Win.activate { w with all := true }
  | .item it => if w.on it then w.deactivate it else w.activate it

/-! ### plot_dataset.py -/

/-- What `PlotDataset` reads from a sample. plot_dataset.py L104-107. -/
structure PSample where
  obs : List ℝ
  action : List ℝ
  reward : ℝ
  last : Bool

/-- `PlotDataset`: the window (plots 0 to 4: episode reward, episode length, step reward, actions, observations) and the two
accumulators. plot_dataset.py L38-101. -/
structure Plots where
  win : Win
  episodeReward : ℝ
  episodeLength : ℕ

/-- The constructor, for the numbers of action and observation components. plot_dataset.py L16-101. -/
def Plots.new (nA nO window : ℕ) : Plots :=
  let bufs : ℕ → List (Buffer ℝ) := fun k =>
    match k with
    | 0 => [Buffer.new none]
    | 1 => [Buffer.new none]
    | 2 => [Buffer.new (some window)]
    | 3 => (List.range nA).map (fun _ => Buffer.new (some window))
    | 4 => (List.range nO).map (fun _ => Buffer.new (some window))
    | _ => []
  ⟨Win.new 5 (fun k => k < 2) bufs, 0, 0⟩

/-- `for i in range(len(v)): buffers[i].update([v[i]])`; `none` for the IndexError. plot_dataset.py L109-113. -/
def updateEach : List (Buffer ℝ) → List ℝ → Option (List (Buffer ℝ))
  | bs, [] => some bs
  | [], _ :: _ => none
  | b :: bs, v :: vs => (updateEach bs vs).map (fun bs => b.call (.update [v]) :: bs)

/-- The update of one plot with as many values as it has curves. -/
def Win.feed (w : Win) (k : ℕ) (vs : List ℝ) : Option Win :=
  (updateEach (w.bufs k) vs).map (fun bs => { w with bufs := Function.update w.bufs k bs })

/-- `PlotDataset.__call__` without the refresh of the window. plot_dataset.py L103-126. -/
def Plots.call (p : Plots) (s : PSample) : Option Plots := do
  let w ← p.win.feed 3 s.action
  let w ← w.feed 4 s.obs
  let w ← w.feed 2 [s.reward]
  let r := p.episodeReward + s.reward
  let l := p.episodeLength + 1
  if s.last then
    let w ← w.feed 0 [r]
    let w ← w.feed 1 [(l : ℝ)]
    return ⟨w, 0, 0⟩
  else
    return ⟨w, r, l⟩

/-- What happens to the plots: a step of the agent, or a click of the user, handled by `processEvents` when the window is refreshed
(window.py L111-122). -/
inductive PlotEv
  | step (s : PSample)
  | click (c : Click)

/-- One event. -/
def Plots.event (p : Plots) : PlotEv → Option Plots
  | .step s => p.call s
  | .click c => some { p with win := p.win.clicked c }

/-- A history of events. -/
def Plots.run (p : Plots) : List PlotEv → Option Plots
  | [] => some p
  | e :: es => (p.event e).bind (fun p => p.run es)

end

end Verif.Misc.Callbacks
