/-
Model of the finite environments: /repo/mushroom_rl/environments/finite_mdp.py, grid_world.py and the generators
simple_chain.py, grid_world.py and taxi.py. Floating point numbers are real numbers.
-/
import Mathlib.Data.Real.Basic
import Mathlib.Algebra.BigOperators.Group.Finset.Basic
import Mathlib.Algebra.Order.Field.Basic

namespace Verif.Finite

noncomputable section

/-! ### finite_mdp.py -/

/-- The cumulative sums of `p`, starting after `acc`. -/
def cumsum (acc : ℝ) : List ℝ → List ℝ
  | [] => []
  | x :: xs => (acc + x) :: cumsum (acc + x) xs

/-- `np.random.choice(p.size, p=p)`: `u` is the uniform number in [0, 1). It raises (`none`) unless the entries are
probabilities that sum to one; otherwise it returns the number of cumulative sums that are at most `u`. The test of the sum
is exact here and up to a tolerance in NumPy. -/
def choice (p : List ℝ) (u : ℝ) : Option ℕ :=
  open Classical in
  if p.sum = 1 ∧ ∀ x ∈ p, 0 ≤ x then some ((cumsum 0 p).takeWhile (fun c => decide (c ≤ u))).length else none

/-- A finite MDP: `p s a` is the row of the transition matrix. finite_mdp.py L25-38. -/
structure FiniteMDP where
  nS : ℕ
  nA : ℕ
  p : ℕ → ℕ → List ℝ
  r : ℕ → ℕ → ℕ → ℝ

/-- `not np.any(self.p[s])`. finite_mdp.py L57. -/
def FiniteMDP.noExit (m : FiniteMDP) (s : ℕ) : Bool :=
  open Classical in decide (∀ a < m.nA, ∀ x ∈ m.p s a, x = 0)

/-- `FiniteMDP.step`: next state, reward and absorbing flag. finite_mdp.py L54-62. -/
def FiniteMDP.step (m : FiniteMDP) (s a : ℕ) (u : ℝ) : Option (ℕ × ℝ × Bool) :=
  match choice (m.p s a) u with
  | none => none
  | some s' => some (s', m.r s a s', m.noExit s')

/-! ### grid_world.py -/

/-- `convert_to_grid`. grid_world.py L99-101. -/
def toGrid (state width : ℕ) : ℕ × ℕ := (state / width, state % width)

/-- `convert_to_int`. grid_world.py L103-105. -/
def toInt (cell : ℕ × ℕ) (width : ℕ) : ℕ := cell.1 * width + cell.2

/-- `_grid_step`. grid_world.py L84-97. -/
def gridStep (height width : ℕ) (cell : ℕ × ℕ) (action : ℕ) : ℕ × ℕ :=
  if action = 0 then (if cell.1 > 0 then (cell.1 - 1, cell.2) else cell)
  else if action = 1 then (if cell.1 + 1 < height then (cell.1 + 1, cell.2) else cell)
  else if action = 2 then (if cell.2 > 0 then (cell.1, cell.2 - 1) else cell)
  else if action = 3 then (if cell.2 + 1 < width then (cell.1, cell.2 + 1) else cell)
  else cell

/-- A grid world: size, start and goal. The coordinates are natural numbers here. grid_world.py L24-37. -/
structure Grid where
  height : ℕ
  width : ℕ
  start : ℕ × ℕ
  goal : ℕ × ℕ

/-- The assertions of the constructor. grid_world.py L24-26. -/
def Grid.accepted (g : Grid) : Prop := g.start ≠ g.goal ∧ g.goal.1 < g.height ∧ g.goal.2 < g.width

/-- `reset()`. grid_world.py L39-45. -/
def Grid.reset (g : Grid) : ℕ := toInt g.start g.width

/-- `GridWorld.step`. grid_world.py L47-53, L134-144. -/
def Grid.step (g : Grid) (state action : ℕ) : ℕ × ℤ × Bool :=
  let cell := gridStep g.height g.width (toGrid state g.width) action
  if cell = g.goal then (toInt cell g.width, 10, true) else (toInt cell g.width, 0, false)

/-- `GridWorldVanHasselt.step`; `coin` is the random choice between -12 and 10. grid_world.py L47-53, L174-184. -/
def Grid.stepVH (g : Grid) (state action : ℕ) (coin : Bool) : ℕ × ℤ × Bool :=
  let cell := toGrid state g.width
  if cell = g.goal then (toInt cell g.width, 5, true)
  else (toInt (gridStep g.height g.width cell action) g.width, if coin then 10 else -12, false)

/-! ### Matrices as functions -/

/-- `row[js] = v`. -/
def setAt (row : ℕ → ℝ) (js : List ℕ) (v : ℝ) : ℕ → ℝ := fun k => if k ∈ js then v else row k

/-- `row[js] += v`. -/
def addAt (row : ℕ → ℝ) (js : List ℕ) (v : ℝ) : ℕ → ℝ := fun k => if k ∈ js then row k + v else row k

/-- `r[is, a, js] = v` for index arrays of size one. -/
def set3 (r : ℕ → ℕ → ℕ → ℝ) (is : List ℕ) (a : ℕ) (js : List ℕ) (v : ℝ) : ℕ → ℕ → ℕ → ℝ :=
  fun i' a' j' => if i' ∈ is ∧ a' = a ∧ j' ∈ js then v else r i' a' j'

/-- `np.where((c == x).all(axis=1))[0]`. -/
def whereEq {X : Type} [DecidableEq X] (c : List X) (x : X) : List ℕ :=
  (List.range c.length).filter (fun i => decide (c[i]? = some x))

/-! ### generators/simple_chain.py -/

/-- Row of state `i` and action `a` (1 is left, 0 is right). simple_chain.py L44-57. -/
def chainRow (n : ℕ) (prob : ℝ) (i a : ℕ) : ℕ → ℝ :=
  let zero : ℕ → ℝ := fun _ => 0
  if a = 1 then
    if i = 0 then setAt zero [i] 1 else setAt (setAt zero [i] (1 - prob)) [i - 1] prob
  else if a = 0 then
    if i = n - 1 then setAt zero [i] 1 else setAt (setAt zero [i] (1 - prob)) [i + 1] prob
  else zero

/-- One goal in `compute_reward`. simple_chain.py L77-82. -/
def chainGoal (n : ℕ) (rew : ℝ) (r : ℕ → ℕ → ℕ → ℝ) (g : ℕ) : ℕ → ℕ → ℕ → ℝ :=
  let r := if g ≠ 0 then set3 r [g - 1] 0 [g] rew else r
  if g ≠ n - 1 then set3 r [g + 1] 1 [g] rew else r

/-- `compute_reward`; goals below `n`. simple_chain.py L62-84. -/
def chainReward (n : ℕ) (goals : List ℕ) (rew : ℝ) : ℕ → ℕ → ℕ → ℝ :=
  goals.foldl (chainGoal n rew) (fun _ _ _ => 0)

/-! ### generators/grid_world.py and taxi.py -/

/-- Exceptions of the generators. -/
inductive Err
  | assertion
  | unknownMarker
  | ragged
  | index
  | noPassengers
  deriving DecidableEq

abbrev Cell := ℤ × ℤ

/-- State of the loop of `parse_grid`. `specials` is `passenger_list` of the taxi; the grid world does not keep it. -/
structure Parse where
  rows : List (List Char)
  cells : List Cell
  specials : List Cell
  row : List Char
  rowIdx : ℤ
  colIdx : ℤ

/-- One character. `special` is `*` for the grid world and `F` for the taxi. generators/grid_world.py L60-72, taxi.py L70-84. -/
def parseStep (special : Char) (st : Parse) (c : Char) : Except Err Parse :=
  if c = '#' then .ok { st with row := st.row ++ [c], colIdx := st.colIdx + 1 }
  else if c = special then
    .ok { st with row := st.row ++ [c], cells := st.cells ++ [(st.rowIdx, st.colIdx)],
                  specials := st.specials ++ [(st.rowIdx, st.colIdx)], colIdx := st.colIdx + 1 }
  else if c = '.' ∨ c = 'S' ∨ c = 'G' then
    .ok { st with row := st.row ++ [c], cells := st.cells ++ [(st.rowIdx, st.colIdx)], colIdx := st.colIdx + 1 }
  else if c = '\n' then
    .ok { st with rows := st.rows ++ [st.row], row := [], rowIdx := st.rowIdx + 1, colIdx := 0 }
  else .error .unknownMarker

/-- The loop over the characters. -/
def parseLoop (special : Char) : Parse → List Char → Except Err Parse
  | st, [] => .ok st
  | st, c :: cs => match parseStep special st c with
    | .error e => .error e
    | .ok st' => parseLoop special st' cs

/-- `parse_grid`: map, cells and special cells. generators/grid_world.py L39-74, taxi.py L48-86. -/
def parseGrid (special : Char) (m : List Char) : Except Err (List (List Char) × List Cell × List Cell) :=
  if 'S' ∈ m ∧ 'G' ∈ m then
    match parseLoop special ⟨[], [], [], [], 0, 0⟩ m with
    | .error e => .error e
    | .ok st => .ok (st.rows, st.cells, st.specials)
  else .error .assertion

/-- `g[tuple(x)]` for non-negative coordinates. -/
def lookup (g : List (List Char)) (x : Cell) : Option Char :=
  if 0 ≤ x.1 ∧ 0 ≤ x.2 then (g[x.1.toNat]?).bind (fun row => row[x.2.toNat]?) else none

/-- `np.array(grid_map)` accepts only rows of the same length, and every cell is looked up in the map. -/
def checkMap (g : List (List Char)) (cells : List Cell) : Except Err Unit :=
  if ¬ g.Pairwise (fun a b => a.length = b.length) then .error .ragged
  else if cells.all (fun x => (lookup g x).isSome) then .ok () else .error .index

/-- `directions`. generators/grid_world.py L94, taxi.py L107. -/
def dir : ℕ → Cell
  | 0 => (-1, 0)
  | 1 => (1, 0)
  | 2 => (0, -1)
  | _ => (0, 1)

/-- Row of state `i` and action `a`. generators/grid_world.py L96-109. -/
def gridRow (g : List (List Char)) (cells : List Cell) (prob : ℝ) (i a : ℕ) : ℕ → ℝ :=
  let zero : ℕ → ℝ := fun _ => 0
  match cells[i]? with
  | none => zero
  | some state =>
      if lookup g state = some '.' ∨ lookup g state = some 'S' then
        let js := whereEq cells (state + dir a)
        if js ≠ [] then setAt (setAt zero [i] (1 - prob)) js prob else setAt zero [i] 1
      else zero

/-- The columns, from `c`, of the characters in a row that satisfy `keep`. -/
def rowCells (keep : Char → Bool) (r : ℤ) : ℤ → List Char → List Cell
  | _, [] => []
  | c, ch :: cs => if keep ch then (r, c) :: rowCells keep r (c + 1) cs else rowCells keep r (c + 1) cs

/-- The positions, in row-major order from row `r`, of the characters that satisfy `keep`. -/
def allCells (keep : Char → Bool) : ℤ → List (List Char) → List Cell
  | _, [] => []
  | r, row :: rows => rowCells keep r 0 row ++ allCells keep (r + 1) rows

/-- `np.argwhere(g == t)`. -/
def positions (g : List (List Char)) (t : Char) : List Cell := allCells (fun c => decide (c = t)) 0 g

/-- The body of the loop over the actions in `give_reward`. generators/grid_world.py L138-142. -/
def rewardStep (cells : List Cell) (rew : ℝ) (x : Cell) (r : ℕ → ℕ → ℕ → ℝ) (a : ℕ) : ℕ → ℕ → ℕ → ℝ :=
  if x - dir a ∈ cells then set3 r (whereEq cells (x - dir a)) a (whereEq cells x) rew else r

/-- `give_reward`. generators/grid_world.py L134-142. -/
def giveReward (g : List (List Char)) (cells : List Cell) (t : Char) (rew : ℝ) (r : ℕ → ℕ → ℕ → ℝ) : ℕ → ℕ → ℕ → ℝ :=
  (positions g t).foldl (fun r x => (List.range 4).foldl (rewardStep cells rew x) r) r

/-- `compute_reward`. generators/grid_world.py L114-147. -/
def gridReward (g : List (List Char)) (cells : List Cell) (pos neg : ℝ) : ℕ → ℕ → ℕ → ℝ :=
  giveReward g cells '*' neg (giveReward g cells 'G' pos (fun _ _ _ => 0))

/-- `compute_mu`. generators/grid_world.py L150-172, taxi.py L214-237. -/
def startDist (g : List (List Char)) (cells : List Cell) : ℕ → ℝ :=
  (positions g 'S').foldl (fun mu s => setAt mu (whereEq cells s) (1 / (positions g 'S').length)) (fun _ => 0)

/-- `generate_grid_world`: number of states, transition matrix, reward matrix and initial distribution.
generators/grid_world.py L31-36. -/
def generateGrid (text : List Char) (prob pos neg : ℝ) :
    Except Err (ℕ × (ℕ → ℕ → ℕ → ℝ) × (ℕ → ℕ → ℕ → ℝ) × (ℕ → ℝ)) :=
  match parseGrid '*' text with
  | .error e => .error e
  | .ok (g, cells, _) =>
      match checkMap g cells with
      | .error e => .error e
      | .ok () => .ok (cells.length, gridRow g cells prob, gridReward g cells pos neg, startDist g cells)

/-- `cartesian([[0, 1]] * k)`: all vectors of zeros and ones, in lexicographic order, for at least one passenger.
taxi.py L108. -/
def passengerStates : ℕ → List (List ℕ)
  | 0 => [[]]
  | k + 1 => (passengerStates k).map (fun v => 0 :: v) ++ (passengerStates k).map (fun v => 1 :: v)

/-- `collected_passengers`. taxi.py L112-113. -/
def collected (passengers : List Cell) (bits : List ℕ) : List Cell :=
  ((passengers.zip bits).filter (fun pb => pb.2 = 1)).map Prod.fst

/-- The index array of the state reached by moving to cell `x`; `i` is the present state. taxi.py L123-143, L150-171. -/
def taxiTarget (g : List (List Char)) (cells passengers : List Cell) (i : ℕ) (x : Cell) : List ℕ :=
  let idx := i / cells.length
  let bits := (passengerStates passengers.length).getD idx []
  let js := whereEq cells x
  if js ≠ [] then
    if lookup g x = some 'F' ∧ x ∉ collected passengers bits then
      let current := passengers.map (fun p => if p = x then 1 else 0)
      let newBits := List.zipWith (· + ·) bits current
      js.flatMap (fun j => (whereEq (passengerStates passengers.length) newBits).map (fun k => j + cells.length * k))
    else js.map (fun j => j + cells.length * idx)
  else [i]

/-- Row of state `i` and action `a`. taxi.py L110-173. -/
def taxiRow (g : List (List Char)) (cells passengers : List Cell) (prob : ℝ) (i a : ℕ) : ℕ → ℝ :=
  let zero : ℕ → ℝ := fun _ => 0
  match cells[i % cells.length]? with
  | none => zero
  | some state =>
      let bits := (passengerStates passengers.length).getD (i / cells.length) []
      if lookup g state = some '.' ∨ lookup g state = some 'S' ∨ lookup g state = some 'F' then
        if lookup g state = some 'F' ∧ state ∉ collected passengers bits then zero else
        let row := setAt zero (taxiTarget g cells passengers i (state + dir a)) prob
        let d : Cell := (1 - |(dir a).1|, 1 - |(dir a).2|)
        let row := addAt row (taxiTarget g cells passengers i (state + d)) ((1 - prob) * (1 / 2))
        addAt row (taxiTarget g cells passengers i (state + -d)) ((1 - prob) * (1 / 2))
      else zero

/-- The loop over the passenger states in `compute_reward`. taxi.py L203-209. -/
def taxiRewardStep (cells : List Cell) (k : ℕ) (rew : ℕ → ℝ) (goal : Cell) (a : ℕ) (r : ℕ → ℕ → ℕ → ℝ) (i : ℕ) :
    ℕ → ℕ → ℕ → ℝ :=
  set3 r ((whereEq cells (goal - dir a)).map (fun x => x + cells.length * i)) a
    ((whereEq cells goal).map (fun x => x + cells.length * i)) (rew ((passengerStates k).getD i []).sum)

/-- The loop over the actions. taxi.py L200-209. -/
def taxiRewardAction (cells : List Cell) (k : ℕ) (rew : ℕ → ℝ) (goal : Cell) (r : ℕ → ℕ → ℕ → ℝ) (a : ℕ) : ℕ → ℕ → ℕ → ℝ :=
  if goal - dir a ∈ cells then (List.range (passengerStates k).length).foldl (taxiRewardStep cells k rew goal a) r else r

/-- `compute_reward`. taxi.py L178-211. -/
def taxiReward (g : List (List Char)) (cells : List Cell) (k : ℕ) (rew : ℕ → ℝ) : ℕ → ℕ → ℕ → ℝ :=
  (positions g 'G').foldl (fun r goal => (List.range 4).foldl (taxiRewardAction cells k rew goal) r) (fun _ _ _ => 0)

/-- `generate_taxi`; `rew` is the tuple. Without passengers `cartesian` of scikit-learn gets an empty list and raises. taxi.py L37-45, L108. -/
def generateTaxi (text : List Char) (prob : ℝ) (rew : List ℝ) :
    Except Err (ℕ × (ℕ → ℕ → ℕ → ℝ) × (ℕ → ℕ → ℕ → ℝ) × (ℕ → ℝ)) :=
  match parseGrid 'F' text with
  | .error e => .error e
  | .ok (g, cells, passengers) =>
      if rew.length = (positions g 'F').length + 1 then
        if passengers = [] ∧ g.Pairwise (fun a b => a.length = b.length) then .error .noPassengers else
        match checkMap g cells with
        | .error e => .error e
        | .ok () => .ok (cells.length * 2 ^ passengers.length, taxiRow g cells passengers prob,
            taxiReward g cells passengers.length (fun k => rew.getD k 0), startDist g cells)
      else .error .assertion

end

end Verif.Finite
