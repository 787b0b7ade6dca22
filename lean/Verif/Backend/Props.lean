/-
The array backends are interchangeable, where they are.
-/
import Verif.Backend.Spec
import Verif.Dataset.Props
import Mathlib.Tactic.Linarith
import Mathlib.Tactic.Ring
import Mathlib.Tactic.NormNum
import Mathlib.Tactic.IntervalCases

namespace Verif.Backend

open Verif.Approx.Reg (Arr stack)
open Verif.Dataset (Row)

/-! ### Conversions -/

/-- The backends are found by their names, and by nothing else. -/
theorem C123_names (s : String) :
    (∀ b : Backend, getArrayBackend b.name = .ok b) ∧ ((∀ b : Backend, s ≠ b.name) → getArrayBackend s = .error .value) := by
  constructor
  · intro b; cases b <;> simp [getArrayBackend, Backend.name]
  · intro h
    have h1 := h .numpy
    have h2 := h .torch
    have h3 := h .list
    simp only [Backend.name] at h1 h2 h3
    simp [getArrayBackend, h1, h2, h3]

theorem toTorch_np (as : List (Arr ℝ)) : arraysToTorch .numpy (as.map .np) = .ok (as.map .tensor) := by
  induction as with
  | nil => rfl
  | cons a as ih =>
    simp only [arraysToTorch] at ih
    simp [arraysToTorch, toTorch, bind, Except.bind, ih, pure, Except.pure]

theorem toNumpy_tensor (as : List (Arr ℝ)) : arraysToNumpy .torch (as.map .tensor) = .ok (as.map .np) := by
  induction as with
  | nil => rfl
  | cons a as ih =>
    simp only [arraysToNumpy] at ih
    simp [arraysToNumpy, toNumpy, bind, Except.bind, ih, pure, Except.pure]

/-- Any number of arrays of numpy becomes tensors with the same shapes and entries in the same order, and back; one array gives an array, several give a
tuple. -/
theorem C123_convert (cls : Backend) (a : Arr ℝ) (as : List (Arr ℝ)) :
    (convert cls ((a :: as).map .np) (some "torch") none = .ok (if as = [] then .one (.tensor a) else .tuple ((a :: as).map .tensor))) ∧
    (convert cls ((a :: as).map .tensor) (some "numpy") none = .ok (if as = [] then .one (.np a) else .tuple ((a :: as).map .np))) := by
  constructor
  · have h := toTorch_np (a :: as)
    rw [List.map_cons] at h ⊢
    simp only [convert, Option.getD_some, sourceOf, backendOf, bind, Except.bind, h]
    cases as <;> simp [pack]
  · have h := toNumpy_tensor (a :: as)
    rw [List.map_cons] at h ⊢
    simp only [convert, Option.getD_some, sourceOf, backendOf, bind, Except.bind, h]
    cases as <;> simp [pack]

example : convert .numpy [.np ⟨[2], [1, 2]⟩] (some "torch") none = .ok (.one (.tensor ⟨[2], [1, 2]⟩)) := by
  have := (C123_convert .numpy ⟨[2], [1, 2]⟩ []).1
  simpa using this

/-- What an agent sends to the environment has the kind of the environment and the same shape and entries, and comes back unchanged. -/
theorem C123_agent (agent env : Backend) (he : env = .numpy ∨ env = .torch) (v : Val) (hv : Native agent v) :
    ∃ w, toEnv agent env v = .ok w ∧ Native env w ∧ content w = content v ∧ toAgent agent env w = .ok v := by
  rcases he with rfl | rfl <;> cases agent <;> cases v <;> simp only [Native] at hv <;>
    exact ⟨_, rfl, trivial, rfl, rfl⟩

example : Native .torch (.tensor ⟨[2], [1, 2]⟩) := trivial

/-- Asked for a list, `convert` and `parse` return the class of an exception instead of raising it; the list backend asks for a list by itself. -/
theorem C123_convert_list_refuted (arrays : List Val) (b : Backend) :
    convert .list arrays none (some b) = .ok (.one .errorClass) ∧ parse .list arrays none = .ok (.one .errorClass) := by
  constructor
  · simp [convert, Backend.name, sourceOf, bind, Except.bind, pure, Except.pure]
  · simp [parse, Backend.name]

/-- The arrays of a list dataset can be parsed to numpy. -/
theorem C123_parse_list (xs : List (List (Arr ℝ))) (sh : List ℕ) (h : ∀ l ∈ xs, ∀ a ∈ l, a.shape = sh) (h0 : ∀ l ∈ xs, l ≠ []) :
    parse .list (xs.map .items) (some "numpy") = .ok (.tuple (xs.map fun l => .np (stack sh (l.map (·.data))))) := by
  have key : arraysToNumpy .list (xs.map .items) = .ok (xs.map fun l => .np (stack sh (l.map (·.data)))) := by
    induction xs with
    | nil => rfl
    | cons l ls ih =>
      have := ih (fun l hl => h l (by simp [hl])) (fun l hl => h0 l (by simp [hl]))
      simp only [arraysToNumpy] at this
      have hl : npArray l = .ok (stack sh (l.map (·.data))) := by
        cases l with
        | nil => exact absurd rfl (h0 [] (by simp))
        | cons a as =>
          have ha : a.shape = sh := h (a :: as) (by simp) a (by simp)
          have has : ∀ y ∈ as, y.shape = a.shape := fun y hy => by rw [ha]; exact h (a :: as) (by simp) y (by simp [hy])
          simp only [npArray]
          rw [if_pos has, ha]
      simp [arraysToNumpy, toNumpy, hl, Except.map, bind, Except.bind, this, pure, Except.pure]
  simp [parse, key, Except.map]

example : ∀ l ∈ [[(⟨[], [1]⟩ : Arr ℝ), ⟨[], [2]⟩]], ∀ a ∈ l, a.shape = [] := by simp

/-- A device can be named for tensors only. -/
theorem C123_device (b : Backend) (d : String) : checkDevice b none = .ok () ∧ (checkDevice b (some d) = .ok () ↔ b = .torch) := by
  cases b <;> simp [checkDevice]

/-! ### Selections -/

/-- `where` with a condition gives the positions at which it holds, in order, for arrays and tensors. -/
theorem C123_where (b : Backend) (hb : b ≠ .list) (cond : List Bool) :
    ∃ idx, whereSel b cond none none = .ok (some (.inr idx)) ∧ idx.Pairwise (· < ·) ∧ ∀ i, i ∈ idx ↔ cond[i]? = some true := by
  refine ⟨(List.range cond.length).filter fun i => cond.getD i false, ?_, ?_, ?_⟩
  · cases b <;> first | exact absurd rfl hb | rfl
  · exact List.Pairwise.filter _ List.pairwise_lt_range
  · intro i
    rw [List.mem_filter, List.mem_range]
    constructor
    · rintro ⟨h, h2⟩
      rw [List.getD_eq_getElem?_getD, List.getElem?_eq_getElem h] at h2
      rw [List.getElem?_eq_getElem h]; simpa using h2
    · intro h
      obtain ⟨hi, he⟩ := List.getElem?_eq_some_iff.1 h
      exact ⟨hi, by simp [List.getD_eq_getElem?_getD, h]⟩

/-- With two arrays to choose from, `where` returns nothing at all. -/
theorem C123_where_refuted (b : Backend) (hb : b ≠ .list) (cond : List Bool) (x y : List ℝ) : whereSel b cond (some x) (some y) = .ok none := by
  cases b <;> first | exact absurd rfl hb | simp [whereSel]

/-- An axis of size one is removed by both backends; without an axis, all of them are. -/
theorem C123_squeeze (a : Arr ℝ) (dim : ℕ) (h : a.shape[dim]? = some 1) :
    squeezeDim .numpy a dim = .ok ⟨a.shape.eraseIdx dim, a.data⟩ ∧ squeezeDim .torch a dim = .ok ⟨a.shape.eraseIdx dim, a.data⟩ ∧
    squeezeAll .numpy a = squeezeAll .torch a ∧ (squeezeAll .numpy a).data = a.data ∧ 1 ∉ (squeezeAll .numpy a).shape := by
  obtain ⟨hl, he⟩ := List.getElem?_eq_some_iff.1 h
  have h1 : ¬ a.shape.length ≤ dim := by omega
  have h2 : a.shape.getD dim 0 = 1 := by simp [List.getD_eq_getElem?_getD, h]
  refine ⟨?_, ?_, rfl, rfl, ?_⟩
  · simp only [squeezeDim, if_neg h1, if_pos h2]
  · simp only [squeezeDim, if_neg h1, if_pos h2]
  · simp [squeezeAll, Arr.squeeze]

example : (⟨[3, 1], [1, 2, 3]⟩ : Arr ℝ).shape[1]? = some 1 := rfl

/-- Another axis is left as it is by torch and raises an error with numpy. -/
theorem C123_squeeze_refuted (a : Arr ℝ) (dim n : ℕ) (h : a.shape[dim]? = some n) (hn : n ≠ 1) :
    squeezeDim .torch a dim = .ok a ∧ squeezeDim .numpy a dim = .error .value := by
  obtain ⟨hl, he⟩ := List.getElem?_eq_some_iff.1 h
  have h1 : ¬ a.shape.length ≤ dim := by omega
  have h2 : ¬ a.shape.getD dim 0 = 1 := by simp [List.getD_eq_getElem?_getD, h, hn]
  simp only [squeezeDim, if_neg h1, if_neg h2, and_self]

/-- Clipping gives the nearest point of the interval. -/
theorem C123_clip (b : Backend) (lo hi x : ℝ) (h : lo ≤ hi) :
    lo ≤ clip b lo hi x ∧ clip b lo hi x ≤ hi ∧ (lo ≤ x → x ≤ hi → clip b lo hi x = x) ∧ ∀ y, lo ≤ y → y ≤ hi → |x - clip b lo hi x| ≤ |x - y| := by
  unfold clip
  refine ⟨le_min (le_max_right _ _) h, min_le_right _ _, fun a c => by rw [max_eq_left a, min_eq_left c], fun y hy1 hy2 => ?_⟩
  rcases le_total lo x with a | a
  · rw [max_eq_left a]
    rcases le_total x hi with c | c
    · rw [min_eq_left c]; simp
    · rw [min_eq_right c, abs_of_nonneg (by linarith), abs_of_nonneg (by linarith)]; linarith
  · rw [max_eq_right a, min_eq_left h, abs_of_nonpos (by linarith), abs_of_nonpos (by linarith)]; linarith

example (b : Backend) : clip b (-1) 1 (1 / 2) = 1 / 2 := (C123_clip b (-1) 1 (1 / 2) (by norm_num)).2.2.1 (by norm_num) (by norm_num)

/-! ### The median -/

theorem sorted_perm (xs : List ℝ) : (sorted xs).Perm xs := List.perm_insertionSort _ _

theorem sorted_mono (xs : List ℝ) {i j : ℕ} (hij : i ≤ j) (hj : j < xs.length) : (sorted xs).getD i 0 ≤ (sorted xs).getD j 0 := by
  have hl : (sorted xs).length = xs.length := (sorted_perm xs).length_eq
  have hs : (sorted xs).Pairwise (· ≤ ·) := List.pairwise_insertionSort _ _
  rcases Nat.lt_or_ge i j with h | h
  · have := List.pairwise_iff_getElem.1 hs i j (by omega) (by omega) h
    simpa [List.getD_eq_getElem?_getD, List.getElem?_eq_getElem (show i < (sorted xs).length by omega), List.getElem?_eq_getElem (show j < (sorted xs).length by omega)] using this
  · have : i = j := by omega
    rw [this]

theorem count_below (xs : List ℝ) (m : ℝ) (k : ℕ) (hk : ∀ j, k ≤ j → j < xs.length → m ≤ (sorted xs).getD j 0) :
    xs.countP (fun x => decide (x < m)) ≤ k := by
  have hl : (sorted xs).length = xs.length := (sorted_perm xs).length_eq
  rw [← (sorted_perm xs).countP_eq]
  conv_lhs => rw [← List.take_append_drop k (sorted xs)]
  rw [List.countP_append]
  have h2 : (List.drop k (sorted xs)).countP (fun x => decide (x < m)) = 0 := by
    rw [List.countP_eq_zero]
    intro x hx
    obtain ⟨j, hj, rfl⟩ := List.mem_iff_getElem.1 hx
    have hj' : k + j < (sorted xs).length := by rw [List.length_drop] at hj; omega
    have := hk (k + j) (by omega) (by omega)
    rw [List.getD_eq_getElem?_getD, List.getElem?_eq_getElem hj', Option.getD_some] at this
    rw [List.getElem_drop]
    simpa using this
  have h1 := List.countP_le_length (p := fun x => decide (x < m)) (l := List.take k (sorted xs))
  rw [List.length_take] at h1
  omega

theorem count_above (xs : List ℝ) (m : ℝ) (k : ℕ) (hk : ∀ j, j < k → j < xs.length → (sorted xs).getD j 0 ≤ m) :
    xs.countP (fun x => decide (m < x)) ≤ xs.length - k := by
  have hl : (sorted xs).length = xs.length := (sorted_perm xs).length_eq
  rw [← (sorted_perm xs).countP_eq]
  conv_lhs => rw [← List.take_append_drop k (sorted xs)]
  rw [List.countP_append]
  have h2 : (List.take k (sorted xs)).countP (fun x => decide (m < x)) = 0 := by
    rw [List.countP_eq_zero]
    intro x hx
    obtain ⟨j, hj, rfl⟩ := List.mem_iff_getElem.1 hx
    have hj' : j < k ∧ j < (sorted xs).length := by rw [List.length_take] at hj; omega
    have := hk j hj'.1 (by omega)
    rw [List.getD_eq_getElem?_getD, List.getElem?_eq_getElem hj'.2, Option.getD_some] at this
    rw [List.getElem_take]
    simpa using this
  have h1 := List.countP_le_length (p := fun x => decide (m < x)) (l := List.drop k (sorted xs))
  rw [List.length_drop] at h1
  omega

/-- Both backends give a median: at most half of the entries are smaller and at most half are larger. That of torch is one of the entries and is not above
that of numpy; for an odd number of entries they are equal. -/
theorem C123_median (xs : List ℝ) (h : xs ≠ []) :
    ∃ a t, median .numpy xs = some a ∧ median .list xs = some a ∧ median .torch xs = some t ∧ IsMedian a xs ∧ IsMedian t xs ∧ t ∈ xs ∧ t ≤ a ∧
      (xs.length % 2 = 1 → t = a) := by
  have hl : (sorted xs).length = xs.length := (sorted_perm xs).length_eq
  have hn : 0 < xs.length := List.length_pos_iff.2 h
  have hmem : (sorted xs).getD ((xs.length - 1) / 2) 0 ∈ xs := by
    have hlt : (xs.length - 1) / 2 < (sorted xs).length := by omega
    rw [List.getD_eq_getElem?_getD, List.getElem?_eq_getElem hlt, Option.getD_some]
    exact (sorted_perm xs).mem_iff.1 (List.getElem_mem _)
  have ht : IsMedian ((sorted xs).getD ((xs.length - 1) / 2) 0) xs := by
    constructor
    · have := count_below xs ((sorted xs).getD ((xs.length - 1) / 2) 0) ((xs.length - 1) / 2) (fun j h1 h2 => sorted_mono xs h1 h2)
      omega
    · have := count_above xs ((sorted xs).getD ((xs.length - 1) / 2) 0) ((xs.length - 1) / 2 + 1) (fun j h1 h2 => sorted_mono xs (by omega) (by omega))
      omega
  have htm : median .torch xs = some ((sorted xs).getD ((xs.length - 1) / 2) 0) := by
    simp [median, hl, h]
  by_cases ho : xs.length % 2 = 1
  · have e : xs.length / 2 = (xs.length - 1) / 2 := by omega
    refine ⟨(sorted xs).getD ((xs.length - 1) / 2) 0, _, ?_, ?_, htm, ht, ht, hmem, le_rfl, fun _ => rfl⟩
    · simp [median, hl, h, ho, e]
    · simp [median, hl, h, ho, e]
  · have e : (xs.length - 1) / 2 = xs.length / 2 - 1 := by omega
    have hm := sorted_mono xs (i := xs.length / 2 - 1) (j := xs.length / 2) (by omega) (by omega)
    refine ⟨((sorted xs).getD (xs.length / 2 - 1) 0 + (sorted xs).getD (xs.length / 2) 0) / 2, _, ?_, ?_, htm, ?_, ht, hmem, ?_, fun h => absurd h ho⟩
    · simp [median, hl, h, ho]
    · simp [median, hl, h, ho]
    · constructor
      · have := count_below xs (((sorted xs).getD (xs.length / 2 - 1) 0 + (sorted xs).getD (xs.length / 2) 0) / 2) (xs.length / 2)
          (fun j h1 h2 => le_trans (by linarith) (sorted_mono xs h1 h2))
        omega
      · have := count_above xs (((sorted xs).getD (xs.length / 2 - 1) 0 + (sorted xs).getD (xs.length / 2) 0) / 2) (xs.length / 2)
          (fun j h1 h2 => le_trans (sorted_mono xs (i := j) (j := xs.length / 2 - 1) (by omega) (by omega)) (by linarith))
        omega
    · rw [e]; linarith

/-- For two different numbers the backends disagree: numpy takes the mean, torch the smaller one. -/
theorem C123_median_refuted (x y : ℝ) (h : x < y) : median .numpy [x, y] = some ((x + y) / 2) ∧ median .torch [x, y] = some x ∧ x ≠ (x + y) / 2 := by
  have hs : sorted [x, y] = [x, y] := by simp [sorted, List.insertionSort, List.orderedInsert, h.le]
  refine ⟨?_, ?_, by intro e; linarith⟩
  · simp [median, hs]
  · simp [median, hs]

/-! ### Lists -/

/-- Numbers, any number of them, and any other number of arrays than one, become the same array or tensor. -/
theorem C123_from_list_partial (xs : List (Arr ℝ)) (sh : List ℕ) (h : ∀ a ∈ xs, a.shape = sh ∧ a.data.length = sh.prod) (hx : xs.length ≠ 1 ∨ sh = []) :
    ∃ a, fromList .numpy xs = .ok (.np a) ∧ fromList .torch xs = .ok (.tensor a) ∧ a.data = (xs.map (·.data)).flatten ∧
      (xs ≠ [] → a.shape = xs.length :: sh) := by
  cases xs with
  | nil => exact ⟨⟨[0], []⟩, rfl, rfl, rfl, fun h => absurd rfl h⟩
  | cons x rest =>
    have hall : ∀ y ∈ rest, y.shape = x.shape := fun y hy => by rw [(h y (by simp [hy])).1, (h x (by simp)).1]
    have hnp : npArray (x :: rest) = .ok (stack x.shape ((x :: rest).map (·.data))) := by simp only [npArray, if_pos hall]
    refine ⟨stack x.shape ((x :: rest).map (·.data)), by simp [fromList, hnp, Except.map], ?_, rfl, fun _ => ?_⟩
    · cases rest with
      | nil =>
        have hsh : sh = [] := by
          rcases hx with hx | hx
          · exact absurd rfl hx
          · exact hx
        obtain ⟨h1, h2⟩ := h x (by simp)
        subst hsh
        have h2' : x.data.length = 1 := by simpa using h2
        simp [fromList, torchTensor, h2', Except.map, stack, h1]
      | cons y rest =>
        have : (x :: y :: rest).length > 1 := by simp
        simp only [fromList, if_pos this, hnp, Except.map]
    · rw [(h x (by simp)).1.symm]; simp [stack]

example : ∀ a ∈ [(⟨[2], [1, 2]⟩ : Arr ℝ), ⟨[2], [3, 4]⟩], a.shape = [2] ∧ a.data.length = ([2] : List ℕ).prod := by simp

/-- A single array with several entries raises an error with torch, and one with a single entry loses an axis. -/
theorem C123_from_list_refuted (a : Arr ℝ) (h : a.data.length = a.shape.prod) :
    fromList .numpy [a] = .ok (.np ⟨1 :: a.shape, a.data⟩) ∧ (a.shape.prod ≠ 1 → fromList .torch [a] = .error .value) ∧
    (a.shape.prod = 1 → fromList .torch [a] = .ok (.tensor ⟨[1], a.data⟩)) := by
  refine ⟨by simp [fromList, npArray, stack, Except.map], fun h1 => ?_, fun h1 => ?_⟩
  · simp [fromList, torchTensor, h, h1, Except.map]
  · simp [fromList, torchTensor, h, h1, Except.map]

/-- The initial states of a dataset with a single episode cannot be asked for with torch, if a state has several entries; with numpy they can. -/
theorem C123_init_states_refuted {A R P : Type} (row : Row (Arr ℝ) A R P) (rows : List (Row (Arr ℝ) A R P))
    (h : ∀ r ∈ (row :: rows).dropLast, r.last = false) (hs : row.state.data.length = row.state.shape.prod) (h1 : row.state.shape.prod ≠ 1) :
    initStates .torch (row :: rows) = .error .value ∧ initStates .numpy (row :: rows) = .ok (.np ⟨1 :: row.state.shape, row.state.data⟩) := by
  have key : ∀ (rows : List (Row (Arr ℝ) A R P)) (row : Row (Arr ℝ) A R P), (∀ r ∈ (row :: rows).dropLast, r.last = false) →
      Verif.Dataset.initStatesLoop rows row.last = [] := by
    intro rows
    induction rows with
    | nil => intro row _; rfl
    | cons r rs ih =>
      intro row h
      have h0 : row.last = false := h row (by simp)
      rw [h0]
      simp only [Verif.Dataset.initStatesLoop, Bool.false_eq_true, if_false]
      exact ih r fun x hx => h x (by rw [List.dropLast_cons_cons]; exact List.mem_cons_of_mem _ hx)
  have hg : Verif.Dataset.getInitStates (row :: rows) = [row.state] := by
    simp only [Verif.Dataset.getInitStates, Verif.Dataset.initStatesLoop, if_true, key rows row h]
  obtain ⟨e1, e2, -⟩ := C123_from_list_refuted row.state hs
  exact ⟨by rw [initStates, hg]; exact e2 h1, by rw [initStates, hg]; exact e1⟩

example : (⟨[2], [1, 2]⟩ : Arr ℝ).data.length = ([2] : List ℕ).prod ∧ ([2] : List ℕ).prod ≠ 1 := by simp

/-- A dataset has the same minimum, maximum, mean and number of episodes with numpy and with torch, and the same median for an odd number of episodes. -/
theorem C123_metrics_partial {X A P : Type} (gamma : ℝ) (rows : List (Row X A ℝ P)) :
    ∃ lo hi mean m m' n, metrics .numpy gamma rows = .ok (lo, hi, mean, m, n) ∧ metrics .torch gamma rows = .ok (lo, hi, mean, m', n) ∧
      (n % 2 = 1 → m = m') := by
  by_cases hd : (Verif.Dataset.pySlice rows none (some (Verif.Dataset.metricsCut (rows.map (·.last)) rows.length))).length > 0
  · refine ⟨_, _, _, _, _, _, by simp only [metrics, if_pos hd]; rfl, by simp only [metrics, if_pos hd]; rfl, fun ho => ?_⟩
    have hj : (Verif.Dataset.computeMetrics gamma rows).2.2.2 =
        (Verif.Dataset.computeJ gamma (Verif.Dataset.pySlice rows none (some (Verif.Dataset.metricsCut (rows.map (·.last)) rows.length)))).length := by
      simp only [Verif.Dataset.computeMetrics, if_pos hd]
      split
      · next e => simp [e]
      · next e => simp [e]
    rw [hj] at ho
    obtain ⟨a, t, h1, -, h2, -, -, -, -, he⟩ := C123_median (Verif.Dataset.computeJ gamma (Verif.Dataset.pySlice rows none (some (Verif.Dataset.metricsCut (rows.map (·.last)) rows.length))))
      (by intro e; rw [e] at ho; simp at ho)
    rw [h1, h2, he ho]
  · exact ⟨0, 0, 0, some 0, some 0, 0, by simp only [metrics, if_neg hd], by simp only [metrics, if_neg hd], fun _ => rfl⟩

/-- The metrics of a list dataset with a complete episode cannot be computed. -/
theorem C123_metrics_refuted {X A P : Type} (gamma : ℝ) (rows : List (Row X A ℝ P)) (row : Row X A ℝ P) (h : row.last = true) :
    metrics .list gamma (rows ++ [row]) = .error .attribute := by
  have hc : Verif.Dataset.metricsCut ((rows ++ [row]).map (·.last)) (rows ++ [row]).length = rows.length + 1 := by
    rw [List.length_append, List.length_singleton, Verif.Dataset.metricsCut]
    simp [List.getD_eq_getElem?_getD, h]
  have hp : (Verif.Dataset.pySlice (rows ++ [row]) none (some ((rows.length + 1 : ℕ) : ℤ))).length > 0 := by
    have hl : (rows ++ [row]).length = rows.length + 1 := by simp
    have hc : Verif.Dataset.clampIdx (rows ++ [row]).length ((rows.length + 1 : ℕ) : ℤ) = rows.length + 1 := by
      rw [Verif.Dataset.clampIdx, hl, if_neg (by omega)]
      simp
    simp only [Verif.Dataset.pySlice]
    rw [hc, List.drop_zero, List.length_take, hl]
    omega
  have hp2 := hp
  rw [← hc] at hp2
  simp only [metrics, if_pos hp2]

/-- The mean of a window of numbers can be computed with both backends. -/
theorem C123_window_partial (b : Backend) (hb : b ≠ .list) (buffer : List (Arr ℝ)) (h0 : buffer ≠ []) (h : ∀ x ∈ buffer, x.shape = [] ∧ x.data.length = 1) :
    ∃ v, windowArray b buffer = .ok (.one v) ∧ content v = some ⟨[buffer.length], (buffer.map (·.data)).flatten⟩ := by
  cases buffer with
  | nil => exact absurd rfl h0
  | cons x xs =>
    have hall : ∀ y ∈ xs, y.shape = x.shape := fun y hy => by rw [(h y (by simp [hy])).1, (h x (by simp)).1]
    have hnp : npArray (x :: xs) = .ok (stack x.shape ((x :: xs).map (·.data))) := by simp only [npArray, if_pos hall]
    have htt : torchTensor (x :: xs) = .ok ⟨[(x :: xs).length], ((x :: xs).map (·.data)).flatten⟩ := by
      simp only [torchTensor, if_pos (fun y hy => (h y hy).2)]
    cases b with
    | numpy =>
      refine ⟨.np (stack x.shape ((x :: xs).map (·.data))), ?_, ?_⟩
      · simp [windowArray, convert, Backend.name, sourceOf, backendOf, arraysToNumpy, toNumpy, hnp, Except.map, bind, Except.bind, pure, Except.pure, pack]
      · simp [content, stack, (h x (by simp)).1]
    | torch =>
      refine ⟨.tensor ⟨[(x :: xs).length], ((x :: xs).map (·.data)).flatten⟩, ?_, rfl⟩
      simp [windowArray, convert, Backend.name, sourceOf, backendOf, arraysToTorch, toTorch, htt, Except.map, bind, Except.bind, pure, Except.pure, pack]
    | list => exact absurd rfl hb

/-- A window over arrays with several entries has no mean with torch: the list of tensors cannot be converted. -/
theorem C123_window_refuted (buffer : List (Arr ℝ)) (x : Arr ℝ) (hx : x ∈ buffer) (h : x.data.length ≠ 1) :
    windowArray .torch buffer = .error .value := by
  have htt : torchTensor buffer = .error .value := by
    simp only [torchTensor]
    rw [if_neg]
    exact fun hh => h (hh x hx)
  simp [windowArray, convert, Backend.name, sourceOf, backendOf, arraysToTorch, toTorch, htt, Except.map, bind, Except.bind]

/-! ### Flattening -/

theorem flatF_cons (s : ℕ) (sh : List ℕ) (i : ℕ) (is : List ℕ) : flatF (s :: sh) (i :: is) = i + s * flatF sh is := rfl
theorem flatC_cons (s : ℕ) (sh : List ℕ) (i : ℕ) (is : List ℕ) : flatC (s :: sh) (i :: is) = i * sh.prod + flatC sh is := rfl

theorem unflatF_flatF : ∀ (sh is : List ℕ), Valid sh is → unflatF sh (flatF sh is) = is
  | [], [], _ => rfl
  | s :: sh, i :: is, ⟨h1, h2⟩ => by
    have hs : 0 < s := by omega
    rw [flatF_cons, unflatF, Nat.add_mul_mod_self_left, Nat.mod_eq_of_lt h1, Nat.add_mul_div_left _ _ hs, Nat.div_eq_of_lt h1, Nat.zero_add,
      unflatF_flatF sh is h2]
  | [], _ :: _, h => by simp [Valid] at h
  | _ :: _, [], h => by simp [Valid] at h

theorem flatC_lt : ∀ (sh is : List ℕ), Valid sh is → flatC sh is < sh.prod
  | [], [], _ => by simp [flatC]
  | s :: sh, i :: is, ⟨h1, h2⟩ => by
    have := flatC_lt sh is h2
    rw [flatC_cons, List.prod_cons]
    calc i * sh.prod + flatC sh is < i * sh.prod + sh.prod := by omega
      _ = (i + 1) * sh.prod := by ring
      _ ≤ s * sh.prod := Nat.mul_le_mul_right _ h1
  | [], _ :: _, h => by simp [Valid] at h
  | _ :: _, [], h => by simp [Valid] at h

theorem unflatC_flatC : ∀ (sh is : List ℕ), Valid sh is → unflatC sh (flatC sh is) = is
  | [], [], _ => rfl
  | s :: sh, i :: is, ⟨h1, h2⟩ => by
    have hlt := flatC_lt sh is h2
    have hp : 0 < sh.prod := by omega
    rw [flatC_cons, unflatC, Nat.add_comm, Nat.add_mul_div_right _ _ hp, Nat.div_eq_of_lt hlt, Nat.zero_add, Nat.add_mul_mod_self_right,
      Nat.mod_eq_of_lt hlt, unflatC_flatC sh is h2]
  | [], _ :: _, h => by simp [Valid] at h
  | _ :: _, [], h => by simp [Valid] at h

/-- Flattening an array of steps × environments × anything: row `k` is step `k % steps` of environment `k / steps`, with both backends and any number of
further axes. -/
theorem C123_flatten {α : Type} (b : Backend) (steps envs : ℕ) (sh : List ℕ) (entry : List ℕ → α) (k : ℕ) (is : List ℕ) (hk : k < steps * envs)
    (hv : Valid sh is) :
    (flatten b ⟨steps :: envs :: sh, entry⟩).shape = (steps * envs) :: sh ∧
    (flatten b ⟨steps :: envs :: sh, entry⟩).entry (k :: is) = entry ((k % steps) :: (k / steps) :: is) := by
  have hs : 0 < steps := by rcases Nat.eq_zero_or_pos steps with h | h; · simp [h] at hk
                            · exact h
  have hke : k / steps < envs := by rw [Nat.div_lt_iff_lt_mul hs, Nat.mul_comm]; exact hk
  have henv : 0 < envs := Nat.lt_of_le_of_lt (Nat.zero_le _) hke
  have hF : reshapeF (⟨steps :: envs :: sh, entry⟩ : Tensor α) (newShape (steps :: envs :: sh)) = reshapeF ⟨steps :: envs :: sh, entry⟩ ((steps * envs) :: sh) := rfl
  have keyF : (reshapeF (⟨steps :: envs :: sh, entry⟩ : Tensor α) ((steps * envs) :: sh)).entry (k :: is) = entry ((k % steps) :: (k / steps) :: is) := by
    simp only [reshapeF, flatF_cons, unflatF]
    have e1 : (k + steps * envs * flatF sh is) % steps = k % steps := by rw [Nat.mul_assoc, Nat.add_mul_mod_self_left]
    have e2 : (k + steps * envs * flatF sh is) / steps = k / steps + envs * flatF sh is := by rw [Nat.mul_assoc, Nat.add_mul_div_left _ _ hs]
    rw [e1, e2, Nat.add_mul_mod_self_left, Nat.mod_eq_of_lt hke, Nat.add_mul_div_left _ _ henv, Nat.div_eq_of_lt hke, Nat.zero_add, unflatF_flatF sh is hv]
  have keyC : (reshapeC (transpose01 (⟨steps :: envs :: sh, entry⟩ : Tensor α)) ((steps * envs) :: sh)).entry (k :: is) =
      entry ((k % steps) :: (k / steps) :: is) := by
    have hlt := flatC_lt sh is hv
    have hp : 0 < sh.prod := by omega
    simp only [reshapeC, transpose01, flatC_cons, unflatC, List.prod_cons]
    have hd : k * sh.prod + flatC sh is = (k % steps * sh.prod + flatC sh is) + (steps * sh.prod) * (k / steps) := by
      conv_lhs => rw [← Nat.mod_add_div k steps]
      ring
    have hb : k % steps * sh.prod + flatC sh is < steps * sh.prod := by
      have := Nat.mod_lt k hs
      calc k % steps * sh.prod + flatC sh is < k % steps * sh.prod + sh.prod := by omega
        _ = (k % steps + 1) * sh.prod := by ring
        _ ≤ steps * sh.prod := Nat.mul_le_mul_right _ this
    have e1 : (k * sh.prod + flatC sh is) / (steps * sh.prod) = k / steps := by
      rw [hd, Nat.add_mul_div_left _ _ (by positivity), Nat.div_eq_of_lt hb, Nat.zero_add]
    have e2 : (k * sh.prod + flatC sh is) % (steps * sh.prod) = k % steps * sh.prod + flatC sh is := by
      rw [hd, Nat.add_mul_mod_self_left, Nat.mod_eq_of_lt hb]
    rw [e1, e2, Nat.add_comm (k % steps * sh.prod), Nat.add_mul_div_right _ _ hp, Nat.div_eq_of_lt hlt, Nat.zero_add, Nat.add_mul_mod_self_right,
      Nat.mod_eq_of_lt hlt, unflatC_flatC sh is hv]
  cases b with
  | numpy => exact ⟨rfl, keyF⟩
  | torch => exact ⟨rfl, keyC⟩
  | list => exact ⟨rfl, keyF⟩

example : Valid [2, 3] [1, 2] := by simp [Valid]

/-- Packing keeps exactly the rows of the mask, environment by environment and step by step, with every backend. -/
theorem C123_pack {α : Type} (b : Backend) (steps envs : ℕ) (sh : List ℕ) (entry : List ℕ → α) (mask : List ℕ → Bool) :
    ∃ ks : List ℕ, ks.Pairwise (· < ·) ∧ (∀ k, k ∈ ks ↔ k < steps * envs ∧ mask [k % steps, k / steps] = true) ∧
      (packPadded b ⟨steps :: envs :: sh, entry⟩ ⟨[steps, envs], mask⟩).length = ks.length ∧
      ∀ (j : ℕ) (k : ℕ) (is : List ℕ), ks[j]? = some k → Valid sh is →
        ((packPadded b ⟨steps :: envs :: sh, entry⟩ ⟨[steps, envs], mask⟩)[j]?).map (· is) = some (entry ((k % steps) :: (k / steps) :: is)) := by
  have hshape : (flatten b (⟨steps :: envs :: sh, entry⟩ : Tensor α)).shape.getD 0 0 = steps * envs := by
    cases b <;> rfl
  refine ⟨(List.range (steps * envs)).filter (flatMask b ⟨[steps, envs], mask⟩), List.Pairwise.filter _ List.pairwise_lt_range, ?_, ?_, ?_⟩
  · intro k
    rw [List.mem_filter, List.mem_range]
    refine and_congr_right fun hk => ?_
    have := (C123_flatten b steps envs [] mask k [] hk trivial).2
    rw [flatMask, this]
  · rw [packPadded, hshape, List.length_map]
  · intro j k is hj hv
    rw [packPadded, hshape, List.getElem?_map, hj]
    have hk : k < steps * envs := by
      have := List.mem_of_getElem? hj
      rw [List.mem_filter, List.mem_range] at this
      exact this.1
    simp only [Option.map_some]
    rw [(C123_flatten b steps envs sh entry k is hk hv).2]

end Verif.Backend
