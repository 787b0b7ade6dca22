/-
C121: regressors and tables.
-/
import Verif.Approx.SpecRegressor
import Verif.Approx.Props
import Mathlib.Tactic.Linarith
import Mathlib.Tactic.NormNum
import Mathlib.Tactic.Ring
import Mathlib.Tactic.FieldSimp

namespace Verif.Approx.Reg

noncomputable section

/-! ### Arrays -/

theorem row_flatten {α : Type} (k : ℕ) (rows : List (List α)) (h : ∀ r ∈ rows, r.length = k) (i : ℕ) (hi : i < rows.length) :
    (rows.flatten.drop (i * k)).take k = rows.getD i [] := by
  have := slices_flatten k rows h
  have h2 := congrArg (fun l => l.getD i []) this
  rw [← h2]
  simp [List.getD_eq_getElem?_getD, hi]

theorem item_stack {α : Type} (sh : List ℕ) (rows : List (List α)) (h : ∀ r ∈ rows, r.length = sh.prod) (i : ℕ) (hi : i < rows.length) :
    (stack sh rows).item i = .ok ⟨sh, rows.getD i []⟩ := by
  show (if i < rows.length then _ else _) = _
  rw [if_pos hi]
  show Except.ok (⟨sh, (rows.flatten.drop (i * sh.prod)).take sh.prod⟩ : Arr α) = _
  rw [row_flatten _ _ h i hi]

theorem mapM_ok {β γ : Type} (f : β → Except Err γ) (g : β → γ) (l : List β) (h : ∀ x ∈ l, f x = .ok (g x)) : l.mapM f = .ok (l.map g) := by
  induction l with
  | nil => rfl
  | cons a l ih =>
      rw [List.mapM_cons, h a (by simp), ih fun x hx => h x (by simp [hx])]
      rfl

theorem stack_expand {α : Type} (sh : List ℕ) (x : List α) : (⟨sh, x⟩ : Arr α).expand = stack sh [x] := by
  simp [Arr.expand, stack]

theorem flatten_single {α : Type} (l : List α) : (l.map fun v => [v]).flatten = l := by
  induction l with
  | nil => rfl
  | cons a l ih => simp [ih]

/-! ### Which implementation -/

theorem select_none (nActions : Option ℕ) (out : Option (List ℕ)) (k : Kind) :
    select nActions out none = .ok k ↔
      ((nActions = none ∧ out ≠ none ∧ k = .generic) ∨
       (∃ n, nActions = some n ∧ 2 ≤ n ∧ ((out = some [n] ∧ k = .q) ∨ (out = none ∧ k = .action) ∨ (∃ o, o ≠ n ∧ out = some [o] ∧ k = .action)))) := by
  have key : ∀ (n : ℕ) (o : List ℕ), (o.length = 1 ∧ n ≥ 2) ↔ (∃ x, o = [x]) ∧ 2 ≤ n := by
    intro n o
    rw [List.length_eq_one_iff]
  rcases nActions with _ | n <;> rcases out with _ | o
  · simp [select]
  · constructor
    · intro h; cases h; simp
    · rintro (⟨_, _, rfl⟩ | ⟨n, h, _⟩)
      · rfl
      · simp at h
  · by_cases h2 : n ≥ 2
    · have h1 : n ≠ 1 := by omega
      have : select (some n) none none = .ok .action := by simp [select, h2, h1, bind, Except.bind, pure, Except.pure]
      rw [this]
      simp [h2, eq_comm]
    · have : select (some n) none none = .error .assertion := by simp [select, h2]; rfl
      rw [this]
      simp [h2]
  · by_cases h2 : o.length = 1 ∧ n ≥ 2
    · obtain ⟨x, rfl⟩ := ((key n o).1 h2).1
      have h3 := h2.2
      by_cases hx : n = x
      · subst hx
        have : select (some n) (some [n]) none = .ok .q := by simp [select, h3, bind, Except.bind, pure, Except.pure]
        rw [this]
        simp [h3, eq_comm]
      · have hx' : ¬ x = n := fun h => hx h.symm
        have : select (some n) (some [x]) none = .ok .action := by simp [select, h3, hx, bind, Except.bind, pure, Except.pure]
        rw [this]
        simp [h3, hx', eq_comm]
    · have : select (some n) (some o) none = .error .assertion := by
        simp only [select]
        show (if o.length = 1 ∧ n ≥ 2 then _ else _) = _
        rw [if_neg h2]; rfl
      rw [this]
      simp only [reduceCtorEq, false_iff]
      rintro (⟨h, _⟩ | ⟨n', h, hn, h'⟩)
      · simp at h
      · cases h
        apply h2
        rw [key]
        refine ⟨?_, hn⟩
        rcases h' with ⟨h, _⟩ | ⟨h, _⟩ | ⟨x, _, h, _⟩
        · cases h; exact ⟨_, rfl⟩
        · simp at h
        · cases h; exact ⟨_, rfl⟩

/-- **C121.** The documented choice: without `n_actions` a generic regressor; with it, one output per action if the output has that many entries, and one model per
action otherwise; everything else is refused. -/
theorem C121_select (nActions : Option ℕ) (out : Option (List ℕ)) (nModels : Option ℕ) (k : Kind) :
    select nActions out nModels = .ok k ↔
      (∀ m, nModels = some m → 1 ≤ m) ∧
      ((nActions = none ∧ out ≠ none ∧ k = .generic) ∨
       (∃ n, nActions = some n ∧ 2 ≤ n ∧ ((out = some [n] ∧ k = .q) ∨ (out = none ∧ k = .action) ∨ (∃ o, o ≠ n ∧ out = some [o] ∧ k = .action)))) := by
  rw [← select_none]
  rcases nModels with _ | m
  · simp
  · by_cases hm : m ≥ 1
    · have e : select nActions out (some m) = select nActions out none := by
        rcases nActions with _ | n <;> rcases out with _ | o <;> simp [select, hm]
      rw [e]
      simp; omega
    · have e : ∀ k, select nActions out (some m) ≠ .ok k := by
        intro k
        rcases nActions with _ | n <;> rcases out with _ | o <;> simp [select, hm] <;> intro h <;> cases h
      constructor
      · intro h; exact absurd h (e k)
      · rintro ⟨h, _⟩
        exact absurd (h m rfl) hm

example : select (some 3) (some [3]) (some 5) = .ok .q ∧ select (some 3) none none = .ok .action ∧ select none (some [2, 4]) none = .ok .generic := by
  simp [C121_select]

/-! ### Generic regressors -/

theorem predict_single {Z : Type} (inSh outSh : List ℕ) (impl : Arr ℝ → Z → Except Err Val) (expand : Z → Z) (x y : List ℝ) (rest : Z)
    (hy : y.length = outSh.prod) (h : impl (stack inSh [x]) (expand rest) = .ok (.arr (stack outSh [y]))) :
    predict inSh.length impl expand ⟨inSh, x⟩ rest = .ok (.arr ⟨outSh, y⟩) := by
  unfold predict
  rw [if_pos (show (⟨inSh, x⟩ : Arr ℝ).ndim = inSh.length from rfl), stack_expand, h]
  have := item_stack outSh [y] (by simpa using hy) 0 (by simp)
  show (do let a ← (stack outSh [y]).item 0; pure (Val.arr a)) = _
  rw [this]
  rfl

theorem predict_batch {Z : Type} (inSh : List ℕ) (impl : Arr ℝ → Z → Except Err Val) (expand : Z → Z) (xs : List (List ℝ)) (rest : Z) :
    predict inSh.length impl expand (stack inSh xs) rest = impl (stack inSh xs) rest := by
  unfold predict
  rw [if_neg]
  show ¬ (xs.length :: inSh).length = inSh.length
  simp

/-- **C121.** A regressor gives for a single input what its approximator computes for it, without batch axis, and for a batch the same for every row, in order. -/
theorem C121_generic {inSh outSh : List ℕ} {m : Predictor} {f : List ℝ → List ℝ} (h : Rowwise inSh outSh m f) :
    (∀ x, Fits inSh x → predict inSh.length (genericPredict m) id ⟨inSh, x⟩ () = .ok (.arr ⟨outSh, f x⟩)) ∧
    (∀ xs, xs ≠ [] → (∀ x ∈ xs, Fits inSh x) →
      predict inSh.length (genericPredict m) id (stack inSh xs) () = .ok (.arr (stack outSh (xs.map f)))) := by
  refine ⟨fun x hx => ?_, fun xs hne hxs => ?_⟩
  · apply predict_single _ _ _ _ _ _ _ (h.1 x hx)
    exact h.2 [x] (by simp) (by simpa using hx)
  · rw [predict_batch]
    exact h.2 xs hne hxs

/-! ### One output per action -/

theorem length_row {n : ℕ} {f : List ℝ → List ℝ} {inSh : List ℕ} (h : ∀ x, Fits inSh x → Fits [n] (f x)) {x : List ℝ} (hx : Fits inSh x) : (f x).length = n := by
  have := h x hx
  simpa [Fits] using this

theorem item_vec (n : ℕ) (v : List ℝ) (hv : v.length = n) (a : ℕ) (ha : a < n) : (⟨[n], v⟩ : Arr ℝ).item a = .ok ⟨[], [v.getD a 0]⟩ := by
  show (if a < n then _ else _) = _
  rw [if_pos ha]
  congr 2
  show (v.drop (a * 1)).take 1 = _
  rw [mul_one]
  have hlt : a < v.length := by omega
  rw [List.drop_eq_getElem_cons hlt, List.take_succ_cons, List.take_zero]
  simp [List.getD_eq_getElem?_getD, hlt]

theorem zip_range_map {β γ : Type} (xs : List β) (as : List ℕ) (hl : as.length = xs.length) (d : β) (g : β → ℕ → γ) :
    ((List.range xs.length).zip as).map (fun p => g (xs.getD p.1 d) p.2) = List.zipWith g xs as := by
  apply List.ext_getElem
  · simp [hl]
  · intro i h1 h2
    have hx : i < xs.length := by simp [hl] at h1; exact h1
    have ha : i < as.length := by omega
    simp [List.getD_eq_getElem?_getD, hx]

/-- **C121.** With one output per action, `predict(state, action)` is for every row the entry of its action in `predict(state)`, for batches and for single inputs. -/
theorem C121_q {inSh : List ℕ} {n : ℕ} {m : Predictor} {f : List ℝ → List ℝ} (h : Rowwise inSh [n] m f) :
    (∀ x, Fits inSh x → predict inSh.length (qPredict m) (Option.map Arr.expand) ⟨inSh, x⟩ none = .ok (.arr ⟨[n], f x⟩)) ∧
    (∀ x a, Fits inSh x → a < n →
      predict inSh.length (qPredict m) (Option.map Arr.expand) ⟨inSh, x⟩ (some ⟨[1], [a]⟩) = .ok (.arr ⟨[], [(f x).getD a 0]⟩)) ∧
    (∀ xs, xs ≠ [] → (∀ x ∈ xs, Fits inSh x) →
      predict inSh.length (qPredict m) (Option.map Arr.expand) (stack inSh xs) none = .ok (.arr (stack [n] (xs.map f)))) ∧
    (∀ xs as, xs ≠ [] → (∀ x ∈ xs, Fits inSh x) → as.length = xs.length → (∀ a ∈ as, a < n) →
      predict inSh.length (qPredict m) (Option.map Arr.expand) (stack inSh xs) (some ⟨[xs.length, 1], as⟩) =
        .ok (.arr ⟨[xs.length], List.zipWith (fun x a => (f x).getD a 0) xs as⟩)) := by
  have hb : ∀ xs as (sh : List ℕ), xs ≠ [] → (∀ x ∈ xs, Fits inSh x) → as.length = xs.length → (∀ a ∈ as, a < n) →
      qPredict m (stack inSh xs) (some ⟨sh, as⟩) = .ok (.arr ⟨[xs.length], List.zipWith (fun x a => (f x).getD a 0) xs as⟩) := by
    intro xs as sh hne hxs hl has
    unfold qPredict
    rw [h.2 xs hne hxs]
    have hnd : ¬ (stack [n] (xs.map f)).ndim = 1 := by simp [Arr.ndim, stack]
    simp only [bind, Except.bind]
    rw [if_neg hnd]
    show (do
      let pairs ← indexPairs (xs.map f).length as
      let picked ← pairs.mapM fun (p : ℕ × ℕ) => (do
        let row ← (stack [n] (xs.map f)).item p.1
        row.item p.2 : Except Err (Arr ℝ))
      pure (Val.arr (stack [] (picked.map Arr.data)))) = _
    have e1 : indexPairs (xs.map f).length as = .ok ((List.range xs.length).zip as) := by
      unfold indexPairs
      rw [if_pos (by simp [hl])]
      simp
    rw [e1]
    have e2 : ((List.range xs.length).zip as).mapM (fun (p : ℕ × ℕ) => (do
        let row ← (stack [n] (xs.map f)).item p.1
        row.item p.2 : Except Err (Arr ℝ))) = .ok (((List.range xs.length).zip as).map fun p => ⟨[], [((f (xs.getD p.1 [])).getD p.2 0)]⟩) := by
      apply mapM_ok
      rintro ⟨i, a⟩ hp
      have hi : i < xs.length := by simpa using (List.of_mem_zip hp).1
      have ha : a < n := has a (List.of_mem_zip hp).2
      have hr : ∀ r ∈ xs.map f, r.length = [n].prod := by
        intro r hr
        obtain ⟨x, hx, rfl⟩ := List.mem_map.1 hr
        exact h.1 x (hxs x hx)
      show (do
        let row ← (stack [n] (xs.map f)).item i
        row.item a : Except Err (Arr ℝ)) = _
      rw [item_stack [n] _ hr i (by simpa using hi)]
      have e : (xs.map f).getD i [] = f (xs.getD i []) := by simp [List.getD_eq_getElem?_getD, hi]
      have hx : xs.getD i [] ∈ xs := by simp [List.getD_eq_getElem?_getD, hi]
      show (⟨[n], (xs.map f).getD i []⟩ : Arr ℝ).item a = _
      rw [e]
      exact item_vec n _ (length_row h.1 (hxs _ hx)) a ha
    show (do
      let picked ← ((List.range xs.length).zip as).mapM (fun (p : ℕ × ℕ) => (do
        let row ← (stack [n] (xs.map f)).item p.1
        row.item p.2 : Except Err (Arr ℝ)))
      pure (Val.arr (stack [] (picked.map Arr.data)))) = _
    rw [e2]
    show Except.ok (Val.arr (stack [] _)) = _
    rw [List.map_map]
    have e3 : (((List.range xs.length).zip as).map (Arr.data ∘ fun p => (⟨[], [((f (xs.getD p.1 [])).getD p.2 0)]⟩ : Arr ℝ))) =
        (List.zipWith (fun x a => (f x).getD a 0) xs as).map fun v => [v] := by
      rw [← zip_range_map xs as hl [] (fun x a => (f x).getD a 0), List.map_map]
      rfl
    rw [e3]
    simp only [stack, flatten_single, List.length_map, List.length_zipWith, hl, min_self]
  refine ⟨fun x hx => ?_, fun x a hx ha => ?_, fun xs hne hxs => ?_, fun xs as hne hxs hl has => ?_⟩
  · apply predict_single _ _ _ _ _ _ _ (h.1 x hx)
    show qPredict m (stack inSh [x]) none = _
    unfold qPredict
    rw [h.2 [x] (by simp) (by simpa using hx)]
    rfl
  · apply predict_single _ _ _ _ _ _ _ (by simp)
    show qPredict m (stack inSh [x]) (some ⟨[1, 1], [a]⟩) = _
    rw [hb [x] [a] [1, 1] (by simp) (by simpa using hx) rfl (by simpa using ha)]
    rfl
  · rw [predict_batch]
    unfold qPredict
    rw [h.2 xs hne hxs]
    rfl
  · rw [predict_batch]
    exact hb xs as _ hne hxs hl has

/-! ### One model per action -/

theorem set_map (N : ℕ) (Q : ℕ → ℝ) (j : ℕ) (v : ℝ) :
    ((List.range N).map Q).set j v = (List.range N).map fun i => if i = j then v else Q i := by
  apply List.ext_getElem
  · simp
  · intro i h1 h2
    simp only [List.getElem_set, List.getElem_map, List.getElem_range]
    by_cases h : j = i
    · simp [h]
    · have : ¬ i = j := fun e => h e.symm
      simp [h, this]

theorem foldl_zip_set (N : ℕ) (v : ℕ → ℝ) (idxs : List ℕ) (Q : ℕ → ℝ) :
    (idxs.zip (idxs.map v)).foldl (fun q p => q.set p.1 p.2) ((List.range N).map Q) = (List.range N).map fun j => if j ∈ idxs then v j else Q j := by
  induction idxs generalizing Q with
  | nil => simp
  | cons a l ih =>
      rw [List.map_cons, List.zip_cons_cons, List.foldl_cons, set_map, ih]
      apply List.map_congr_left
      intro j _
      by_cases h1 : j = a
      · subst h1; by_cases h2 : j ∈ l <;> simp [h2]
      · by_cases h2 : j ∈ l <;> simp [h1, h2]

/-- The rows assigned by one model. -/
theorem assign_rows (N : ℕ) (Q : ℕ → ℝ) (idxs : List ℕ) (hne : idxs ≠ []) (v : ℕ → ℝ) (rows : List (List ℝ)) (hr : rows = idxs.map fun j => [v j]) :
    assign ((List.range N).map Q) idxs (stack [1] rows).squeeze = .ok ((List.range N).map fun j => if j ∈ idxs then v j else Q j) := by
  subst hr
  have hd : ((stack [1] (idxs.map fun j => [v j])).squeeze).data = idxs.map v := by
    show (idxs.map fun j => [v j]).flatten = _
    clear hne
    induction idxs with
    | nil => rfl
    | cons a l ih => simp [ih]
  have hs : ((stack [1] (idxs.map fun j => [v j])).squeeze).shape = if idxs.length = 1 then [] else [idxs.length] := by
    show (List.filter (fun n => decide (n ≠ 1)) [(idxs.map fun j => [v j]).length, 1]) = _
    by_cases h : idxs.length = 1 <;> simp [List.filter, h]
  unfold assign
  rw [hs, hd]
  by_cases h : idxs.length = 1
  · rw [if_pos h, if_pos rfl]
    obtain ⟨a, rfl⟩ := List.length_eq_one_iff.1 h
    simp only [List.foldl_cons, List.foldl_nil, set_map]
    congr 1
    apply List.map_congr_left
    intro j _
    by_cases hj : j = a <;> simp [hj]
  · rw [if_neg h, if_neg (by simp), if_pos rfl, foldl_zip_set]

theorem mem_rowsOf (col : List ℕ) (i j : ℕ) : j ∈ rowsOf col i ↔ j < col.length ∧ col.getD j 0 = i := by
  simp [rowsOf]

theorem actionBody_eq {inSh : List ℕ} (hin : inSh ≠ []) {m : Predictor} {f : List ℝ → List ℝ} (h : Rowwise inSh [1] m f) (xs : List (List ℝ))
    (hxs : ∀ x ∈ xs, Fits inSh x) (col : List ℕ) (hl : col.length = xs.length) (Q : ℕ → ℝ) (i : ℕ) :
    actionBody (stack inSh xs) col ((List.range xs.length).map Q) i m =
      .ok ((List.range xs.length).map fun j => if col.getD j 0 = i then (f (xs.getD j [])).getD 0 0 else Q j) := by
  unfold actionBody
  by_cases he : (rowsOf col i).length ≠ 0
  · have hne : rowsOf col i ≠ [] := fun e => he (by rw [e]; rfl)
    simp only
    rw [if_pos he]
    have hsel : selectRows (stack inSh xs) (rowsOf col i) = .ok (stack inSh ((rowsOf col i).map fun j => xs.getD j [])) := by
      obtain ⟨d, sh, rfl⟩ := List.exists_cons_of_ne_nil hin
      show (do
        let rows ← (rowsOf col i).mapM (stack (d :: sh) xs).item
        pure (stack (d :: sh) (rows.map Arr.data)) : Except Err (Arr ℝ)) = _
      rw [mapM_ok _ (fun j => ⟨d :: sh, xs.getD j []⟩) _ (fun j hj => item_stack (d :: sh) xs hxs j (by rw [← hl]; exact ((mem_rowsOf _ _ _).1 hj).1))]
      show Except.ok _ = _
      rw [List.map_map]
      rfl
    have hfit : ∀ x ∈ (rowsOf col i).map (fun j => xs.getD j []), Fits inSh x := by
      intro x hx
      obtain ⟨j, hj, rfl⟩ := List.mem_map.1 hx
      have hj' : j < xs.length := by rw [← hl]; exact ((mem_rowsOf _ _ _).1 hj).1
      exact hxs _ (by simp [List.getD_eq_getElem?_getD, hj'])
    have hm := h.2 ((rowsOf col i).map fun j => xs.getD j []) (by simpa using hne) hfit
    have hrows : (((rowsOf col i).map fun j => xs.getD j []).map f) = (rowsOf col i).map fun j => [(f (xs.getD j [])).getD 0 0] := by
      rw [List.map_map]
      apply List.map_congr_left
      intro j hj
      have hx : Fits inSh (xs.getD j []) := hfit _ (List.mem_map.2 ⟨j, hj, rfl⟩)
      have h1 : (f (xs.getD j [])).length = 1 := by have := h.1 _ hx; simpa [Fits] using this
      obtain ⟨y, hy⟩ := List.length_eq_one_iff.1 h1
      show f (xs.getD j []) = _
      rw [hy]; rfl
    rw [hsel]
    show (do
      let v ← m (stack inSh ((rowsOf col i).map fun j => xs.getD j []))
      let v ← squeezed v
      assign ((List.range xs.length).map Q) (rowsOf col i) v) = _
    rw [hm]
    show assign ((List.range xs.length).map Q) (rowsOf col i) (stack [1] _).squeeze = _
    rw [assign_rows _ _ _ hne _ _ hrows]
    congr 1
    apply List.map_congr_left
    intro j hj
    have hj' : j < col.length := by rw [hl]; exact List.mem_range.1 hj
    by_cases hc : col.getD j 0 = i
    · rw [if_pos ((mem_rowsOf _ _ _).2 ⟨hj', hc⟩), if_pos hc]
    · rw [if_neg (fun hm => hc ((mem_rowsOf _ _ _).1 hm).2), if_neg hc]
  · simp only
    rw [if_neg he]
    have hnil : rowsOf col i = [] := by
      rw [not_not] at he
      exact List.length_eq_zero_iff.1 he
    show Except.ok _ = _
    congr 1
    apply List.map_congr_left
    intro j hj
    have hj' : j < col.length := by rw [hl]; exact List.mem_range.1 hj
    rw [if_neg]
    intro hc
    have := (mem_rowsOf col i j).2 ⟨hj', hc⟩
    rw [hnil] at this
    simp at this

theorem actionLoop_eq {inSh : List ℕ} (hin : inSh ≠ []) {ms : List Predictor} {fs : List (List ℝ → List ℝ)}
    (h : List.Forall₂ (Rowwise inSh [1]) ms fs) (xs : List (List ℝ)) (hxs : ∀ x ∈ xs, Fits inSh x) (col : List ℕ) (hl : col.length = xs.length)
    (Q : ℕ → ℝ) (i : ℕ) :
    actionLoop (stack inSh xs) col i ((List.range xs.length).map Q) ms =
      .ok ((List.range xs.length).map fun j =>
        if i ≤ col.getD j 0 ∧ col.getD j 0 < i + fs.length then ((fs.getD (col.getD j 0 - i) fun _ => []) (xs.getD j [])).getD 0 0 else Q j) := by
  induction h generalizing Q i with
  | nil =>
      show Except.ok _ = _
      congr 1
      apply List.map_congr_left
      intro j _
      rw [if_neg]
      simp
  | @cons m f ms fs hmf _ ih =>
      show (do
        let q ← actionBody (stack inSh xs) col ((List.range xs.length).map Q) i m
        actionLoop (stack inSh xs) col (i + 1) q ms) = _
      rw [actionBody_eq hin hmf xs hxs col hl Q i]
      show actionLoop (stack inSh xs) col (i + 1) _ ms = _
      rw [ih]
      congr 1
      apply List.map_congr_left
      intro j _
      generalize col.getD j 0 = c
      rcases Nat.lt_trichotomy c i with hc | hc | hc
      · rw [if_neg (by omega), if_neg (by omega), if_neg (by omega)]
      · subst hc
        rw [if_neg (by omega), if_pos rfl, if_pos ⟨le_refl _, by simp⟩]
        simp
      · by_cases h2 : c < i + 1 + fs.length
        · rw [if_pos ⟨hc, h2⟩, if_pos ⟨by omega, by simp; omega⟩]
          obtain ⟨k, rfl⟩ : ∃ k, c = i + 1 + k := ⟨c - (i + 1), by omega⟩
          have e1 : i + 1 + k - (i + 1) = k := by omega
          have e2 : i + 1 + k - i = k + 1 := by omega
          rw [e1, e2, List.getD_cons_succ]
        · rw [if_neg (fun h => h2 h.2), if_neg (by omega), if_neg (by simp; omega)]

/-- The value predicted for an action: that of the model of the action. -/
def ofAction (fs : List (List ℝ → List ℝ)) (x : List ℝ) (a : ℕ) : ℝ := ((fs.getD a fun _ => []) x).getD 0 0

theorem replicate_eq (n : ℕ) : List.replicate n (0 : ℝ) = (List.range n).map fun _ => 0 := by
  simp

/-- **C121.** With one model per action, `predict(state)` lists the predictions of the models and `predict(state, action)` is for every row the prediction of the
model of its action, for batches and for single inputs. -/
theorem C121_action {inSh : List ℕ} (hin : inSh ≠ []) {ms : List Predictor} {fs : List (List ℝ → List ℝ)}
    (h : List.Forall₂ (Rowwise inSh [1]) ms fs) :
    (∀ x, Fits inSh x → predict inSh.length (actionPredict ms) (Option.map Arr.expand) ⟨inSh, x⟩ none =
      .ok (.arr ⟨[fs.length], (List.range fs.length).map (ofAction fs x)⟩)) ∧
    (∀ x a, Fits inSh x → a < fs.length →
      predict inSh.length (actionPredict ms) (Option.map Arr.expand) ⟨inSh, x⟩ (some ⟨[1], [a]⟩) = .ok (.arr ⟨[], [ofAction fs x a]⟩)) ∧
    (∀ xs, xs ≠ [] → (∀ x ∈ xs, Fits inSh x) →
      predict inSh.length (actionPredict ms) (Option.map Arr.expand) (stack inSh xs) none =
        .ok (.arr (stack [fs.length] (xs.map fun x => (List.range fs.length).map (ofAction fs x))))) ∧
    (∀ xs as, xs ≠ [] → (∀ x ∈ xs, Fits inSh x) → as.length = xs.length → (∀ a ∈ as, a < fs.length) →
      predict inSh.length (actionPredict ms) (Option.map Arr.expand) (stack inSh xs) (some ⟨[xs.length, 1], as⟩) =
        .ok (.arr ⟨[xs.length], List.zipWith (ofAction fs) xs as⟩)) := by
  have hb : ∀ xs as, (∀ x ∈ xs, Fits inSh x) → as.length = xs.length → (∀ a ∈ as, a < fs.length) →
      actionPredict ms (stack inSh xs) (some ⟨[xs.length, 1], as⟩) = .ok (.arr ⟨[xs.length], List.zipWith (ofAction fs) xs as⟩) := by
    intro xs as hxs hl has
    have hcol : ((List.range xs.length).map fun j => as.getD (j * 1) 0) = as := by
      apply List.ext_getElem
      · simp [hl]
      · intro i h1 h2
        simp [List.getD_eq_getElem?_getD, h2]
    show (do
      let q ← actionLoop (stack inSh xs) ((List.range xs.length).map fun j => as.getD (j * 1) 0) 0 (List.replicate xs.length 0) ms
      pure (Val.arr ⟨[xs.length], q⟩)) = _
    rw [hcol, replicate_eq, actionLoop_eq hin h xs hxs as hl]
    show Except.ok (Val.arr ⟨_, _⟩) = _
    congr 3
    apply List.ext_getElem
    · simp [hl]
    · intro i h1 h2
      have hx : i < xs.length := by simpa using h1
      have ha : i < as.length := by omega
      have := has as[i] (List.getElem_mem ha)
      simp [List.getD_eq_getElem?_getD, hx, ha, this, ofAction]
  have hall : ∀ xs, xs ≠ [] → (∀ x ∈ xs, Fits inSh x) → actionPredict ms (stack inSh xs) none =
      .ok (.arr (stack [fs.length] (xs.map fun x => (List.range fs.length).map (ofAction fs x)))) := by
    intro xs hne hxs
    have hcols : ms.mapM (fun m => (do
        let v ← m (stack inSh xs)
        let v ← squeezed v
        assign (List.replicate xs.length 0) (List.range xs.length) v : Except Err (List ℝ))) =
        .ok (fs.map fun f => (List.range xs.length).map fun j => (f (xs.getD j [])).getD 0 0) := by
      clear hb
      induction h with
      | nil => rfl
      | @cons m f ms fs hmf _ ih =>
          rw [List.mapM_cons, ih]
          have e : (do
              let v ← m (stack inSh xs)
              let v ← squeezed v
              assign (List.replicate xs.length 0) (List.range xs.length) v : Except Err (List ℝ)) =
              .ok ((List.range xs.length).map fun j => (f (xs.getD j [])).getD 0 0) := by
            rw [hmf.2 xs hne hxs]
            show assign _ _ (stack [1] (xs.map f)).squeeze = _
            have hrows : xs.map f = (List.range xs.length).map fun j => [(f (xs.getD j [])).getD 0 0] := by
              apply List.ext_getElem
              · simp
              · intro i h1 h2
                have hx : i < xs.length := by simpa using h1
                have hfit := hmf.1 xs[i] (hxs _ (List.getElem_mem hx))
                obtain ⟨y, hy⟩ := List.length_eq_one_iff.1 (show (f xs[i]).length = 1 by simpa [Fits] using hfit)
                simp [List.getD_eq_getElem?_getD, hx, hy]
            rw [replicate_eq, assign_rows _ _ _ (by simpa using hne) _ _ hrows]
            congr 1
            apply List.map_congr_left
            intro j hj
            rw [if_pos hj]
          rw [e]
          rfl
    have hlen : ms.length = fs.length := h.length_eq
    show (do
      let cols ← ms.mapM (fun (m : Predictor) => (do
        let v ← m (stack inSh xs)
        let v ← squeezed v
        assign (List.replicate xs.length 0) (List.range xs.length) v : Except Err (List ℝ)))
      pure (Val.arr ⟨[xs.length, ms.length], ((List.range xs.length).map fun j => cols.map fun (c : List ℝ) => c.getD j 0).flatten⟩)) = _
    rw [hcols]
    show Except.ok (Val.arr ⟨_, _⟩) = Except.ok (Val.arr ⟨_, _⟩)
    rw [hlen, List.length_map]
    congr 4
    apply List.ext_getElem
    · simp
    · intro i h1 h2
      have hx : i < xs.length := by simpa using h1
      simp only [List.getElem_map, List.getElem_range, List.map_map]
      apply List.ext_getElem
      · simp
      · intro k h3 h4
        have hk : k < fs.length := by simpa using h3
        simp [List.getD_eq_getElem?_getD, hx, hk, ofAction]
  refine ⟨fun x hx => ?_, fun x a hx ha => ?_, fun xs hne hxs => ?_, fun xs as hne hxs hl has => ?_⟩
  · apply predict_single _ _ _ _ _ _ _ (by simp)
    exact hall [x] (by simp) (by simpa using hx)
  · apply predict_single _ _ _ _ _ _ _ (by simp)
    show actionPredict ms (stack inSh [x]) (some ⟨[1, 1], [a]⟩) = _
    rw [show ([1, 1] : List ℕ) = [[x].length, 1] from rfl, hb [x] [a] (by simpa using hx) rfl (by simpa using ha)]
    rfl
  · rw [predict_batch]
    exact hall xs hne hxs
  · rw [predict_batch]
    exact hb xs as hxs hl has

/-- The action regressor does not notice an action that does not exist: its prediction is zero, where a regressor with one output per action raises. -/
theorem C121_unknown_action_refuted {inSh : List ℕ} (hin : inSh ≠ []) {ms : List Predictor} {fs : List (List ℝ → List ℝ)}
    (h : List.Forall₂ (Rowwise inSh [1]) ms fs) (x : List ℝ) (hx : Fits inSh x) (a : ℕ) (ha : fs.length ≤ a) :
    predict inSh.length (actionPredict ms) (Option.map Arr.expand) ⟨inSh, x⟩ (some ⟨[1], [a]⟩) = .ok (.arr ⟨[], [0]⟩) ∧
    (∀ m f, Rowwise inSh [fs.length] m f →
      predict inSh.length (qPredict m) (Option.map Arr.expand) ⟨inSh, x⟩ (some ⟨[1], [a]⟩) = .error .index) := by
  constructor
  · apply predict_single _ _ _ _ _ _ _ (by simp)
    show (do
      let q ← actionLoop (stack inSh [x]) [a] 0 [0] ms
      pure (Val.arr ⟨[1], q⟩)) = _
    rw [show ([0] : List ℝ) = (List.range [x].length).map (fun _ => 0) from rfl,
      actionLoop_eq hin h [x] (by simpa using hx) [a] rfl]
    have : ¬ (0 ≤ a ∧ a < 0 + fs.length) := by omega
    show Except.ok (Val.arr ⟨[1], [if 0 ≤ a ∧ a < 0 + fs.length then _ else 0]⟩) = _
    rw [if_neg this]
    rfl
  · intro m f hm
    unfold predict
    rw [if_pos (show (⟨inSh, x⟩ : Arr ℝ).ndim = inSh.length from rfl), stack_expand]
    have : qPredict m (stack inSh [x]) (some ⟨[1, 1], [a]⟩) = .error .index := by
      unfold qPredict
      rw [hm.2 [x] (by simp) (by simpa using hx)]
      have hnd : ¬ (stack [fs.length] ([x].map f)).ndim = 1 := by simp [Arr.ndim, stack]
      simp only [bind, Except.bind]
      rw [if_neg hnd]
      have e : (⟨[fs.length], f x⟩ : Arr ℝ).item a = .error .index := by
        show (if a < fs.length then _ else _) = _
        rw [if_neg (by omega)]
      have e0 : (stack [fs.length] [f x]).item 0 = .ok ⟨[fs.length], f x⟩ :=
        item_stack [fs.length] [f x] (by have := hm.1 x hx; simpa [Fits] using this) 0 (by simp)
      show (do
        let picked ← [((0 : ℕ), a)].mapM fun (p : ℕ × ℕ) => (do
          let row ← (stack [fs.length] [f x]).item p.1
          row.item p.2 : Except Err (Arr ℝ))
        pure (Val.arr (stack [] (picked.map Arr.data)))) = _
      rw [List.mapM_cons, e0]
      show (do
        let picked ← (do
          let r ← (⟨[fs.length], f x⟩ : Arr ℝ).item a
          let rs ← _
          pure (r :: rs))
        pure (Val.arr (stack [] (picked.map Arr.data)))) = _
      rw [e]
      rfl
    show (do
      let v ← qPredict m (stack inSh [x]) (some ⟨[1, 1], [a]⟩)
      let a ← v.first
      pure (Val.arr a)) = _
    rw [this]
    rfl

/-! ### Ensembles -/

theorem mapM_range_get {β γ : Type} (ms : List β) (g : β → Except Err γ) (f : ℕ → Except Err γ) (h : ∀ i (hi : i < ms.length), f i = g ms[i]) :
    (List.range ms.length).mapM f = ms.mapM g := by
  induction ms generalizing f with
  | nil => rfl
  | cons m ms ih =>
      rw [List.length_cons, List.range_succ_eq_map, List.mapM_cons, List.mapM_cons, List.mapM_map,
        ih (f ∘ Nat.succ) (fun i hi => h (i + 1) (by simpa using hi)), h 0 (by simp)]
      rfl

theorem mapM_forall {inSh outSh : List ℕ} {ms : List Predictor} {fs : List (List ℝ → List ℝ)} (h : List.Forall₂ (Rowwise inSh outSh) ms fs)
    (xs : List (List ℝ)) (hne : xs ≠ []) (hxs : ∀ x ∈ xs, Fits inSh x) :
    ms.mapM (fun m => (do let v ← m (stack inSh xs); asArr v : Except Err (Arr ℝ))) = .ok (fs.map fun f => stack outSh (xs.map f)) := by
  induction h with
  | nil => rfl
  | @cons m f ms fs hmf _ ih =>
      rw [List.mapM_cons, ih, hmf.2 xs hne hxs]
      rfl

/-- The entry `j` of row `i` of stacked rows. -/
theorem getD_flatten {k : ℕ} (rows : List (List ℝ)) (h : ∀ r ∈ rows, r.length = k) (i j : ℕ) (hi : i < rows.length) (hj : j < k) :
    rows.flatten.getD (i * k + j) 0 = (rows.getD i []).getD j 0 := by
  rw [← row_flatten k rows h i hi]
  simp [List.getD_eq_getElem?_getD, List.getElem?_take, List.getElem?_drop, hj]

theorem range_mul_map {β : Type} (n k : ℕ) (g : ℕ → β) :
    (List.range (n * k)).map g = ((List.range n).map fun i => (List.range k).map fun j => g (i * k + j)).flatten := by
  induction n with
  | zero => simp
  | succ n ih =>
      rw [Nat.succ_mul, List.range_add, List.map_append, ih, List.range_succ, List.map_append, List.flatten_append]
      simp [List.map_map, Function.comp_def]

/-- Operations along the axis of the models act on every row by itself. -/
theorem along_rows (c : List ℝ → ℝ) (outSh : List ℕ) (fs : List (List ℝ → List ℝ)) (xs : List (List ℝ))
    (hf : ∀ f ∈ fs, ∀ x ∈ xs, Fits outSh (f x)) :
    alongFirst c (xs.length :: outSh) (fs.map fun f => (xs.map f).flatten) =
      stack outSh (xs.map fun x => pointwise c outSh.prod (fs.map fun f => f x)) := by
  unfold alongFirst stack
  congr 1
  · simp
  · rw [List.prod_cons, range_mul_map]
    congr 1
    apply List.ext_getElem
    · simp
    · intro i h1 h2
      have hi : i < xs.length := by simpa using h1
      simp only [List.getElem_map, List.getElem_range, pointwise]
      apply List.map_congr_left
      intro j hj
      rw [List.mem_range] at hj
      congr 1
      rw [List.map_map, List.map_map]
      apply List.map_congr_left
      intro f hfm
      show (xs.map f).flatten.getD (i * outSh.prod + j) 0 = (f xs[i]).getD j 0
      rw [getD_flatten (xs.map f) _ i j (by simpa using hi) hj]
      · simp [List.getD_eq_getElem?_getD, hi]
      · intro r hr
        obtain ⟨x, hx, rfl⟩ := List.mem_map.1 hr
        exact hf f hfm x hx

theorem ensPredict_all {inSh outSh : List ℕ} {ms : List Predictor} {fs : List (List ℝ → List ℝ)} (hms : fs ≠ [])
    (h : List.Forall₂ (Rowwise inSh outSh) ms fs) (torch variance : Bool) (prediction : String) (c : Prediction) (hc : parse prediction = .ok c)
    (xs : List (List ℝ)) (hne : xs ≠ []) (hxs : ∀ x ∈ xs, Fits inSh x) :
    ensPredict torch prediction variance .all ms (stack inSh xs) =
      (if variance then
        if torch = true ∧ (prediction = "min" ∨ prediction = "max") then .error .attribute
        else .ok (.pair (stack outSh (xs.map fun x => pointwise (combine c) outSh.prod (fs.map fun f => f x)))
          (stack outSh (xs.map fun x => pointwise (if torch then torchVar else npVar) outSh.prod (fs.map fun f => f x))))
      else .ok (.arr (stack outSh (xs.map fun x => pointwise (combine c) outSh.prod (fs.map fun f => f x))))) := by
  have hfit : ∀ f ∈ fs, ∀ x ∈ xs, Fits outSh (f x) := by
    intro f hf x hx
    obtain ⟨i, hi, rfl⟩ := List.getElem_of_mem hf
    have := (List.forall₂_iff_get.1 h).2 i (by rw [h.length_eq]; exact hi) hi
    exact this.1 x (hxs x hx)
  have hmap := mapM_forall h xs hne hxs
  obtain ⟨f0, fs', rfl⟩ := List.exists_cons_of_ne_nil hms
  have hrows : ((stack outSh (xs.map f0)) :: fs'.map fun f => stack outSh (xs.map f)).map Arr.data = (f0 :: fs').map fun f => (xs.map f).flatten := by
    simp [stack, Function.comp_def]
  have hsh : ∀ p' ∈ fs'.map (fun f => stack outSh (xs.map f)), p'.shape = (stack outSh (xs.map f0)).shape := by
    intro p' hp
    obtain ⟨f, _, rfl⟩ := List.mem_map.1 hp
    simp [stack]
  have hs0 : (stack outSh (xs.map f0)).shape = xs.length :: outSh := by simp [stack]
  unfold ensPredict
  simp only
  rw [mapM_range_get ms (fun m => (do let v ← m (stack inSh xs); asArr v : Except Err (Arr ℝ))) _ (fun i hi => by simp [memberPredict, hi]), hmap]
  simp only [bind, Except.bind, List.map_cons]
  rw [if_neg (not_not.2 hsh), hc]
  have e1 : ∀ d, alongFirst d (stack outSh (xs.map f0)).shape ((stack outSh (xs.map f0)).data :: (fs'.map fun f => stack outSh (xs.map f)).map Arr.data) =
      stack outSh (xs.map fun x => pointwise d outSh.prod ((f0 :: fs').map fun f => f x)) := by
    intro d
    rw [← along_rows d outSh (f0 :: fs') xs hfit, ← hrows, hs0]
    rfl
  simp only [e1]
  cases variance
  · rfl
  · simp only [if_true]
    by_cases ht : torch = true ∧ (prediction = "min" ∨ prediction = "max")
    · rw [if_pos ht, if_pos ht]; rfl
    · rw [if_neg ht, if_neg ht]; rfl

/-- **C121.** An ensemble computes, row by row and entry by entry, the mean, sum, minimum or maximum of what its models compute; so it is an approximator like its
models, and the theorems above hold for regressors made of ensembles. -/
theorem C121_ensemble {inSh outSh : List ℕ} {ms : List Predictor} {fs : List (List ℝ → List ℝ)} (hms : fs ≠ [])
    (h : List.Forall₂ (Rowwise inSh outSh) ms fs) (torch : Bool) (prediction : String) (c : Prediction) (hc : parse prediction = .ok c) :
    Rowwise inSh outSh (ensPredict torch prediction false .all ms) (fun x => pointwise (combine c) outSh.prod (fs.map fun f => f x)) := by
  refine ⟨fun x _ => by simp [Fits, pointwise], fun xs hne hxs => ?_⟩
  rw [ensPredict_all hms h torch false prediction c hc xs hne hxs]
  rfl

/-- The chosen model of an ensemble is used as it is; an index that does not exist raises. -/
theorem C121_ensemble_one {inSh outSh : List ℕ} {ms : List Predictor} {fs : List (List ℝ → List ℝ)}
    (h : List.Forall₂ (Rowwise inSh outSh) ms fs) (torch variance : Bool) (prediction : String) (i : ℕ) :
    (∀ hi : i < fs.length, Rowwise inSh outSh (ensPredict torch prediction variance (.one i) ms) fs[i]) ∧
    (fs.length ≤ i → ∀ z, ensPredict torch prediction variance (.one i) ms z = .error .index) := by
  constructor
  · intro hi
    have hi' : i < ms.length := by rw [h.length_eq]; exact hi
    have := (List.forall₂_iff_get.1 h).2 i hi' hi
    have e : ensPredict torch prediction variance (.one i) ms = ms[i] := by
      funext z
      simp [ensPredict, hi']
    rw [e]
    exact this
  · intro hi z
    have hi' : ms.length ≤ i := by rw [h.length_eq]; exact hi
    simp [ensPredict, hi']

/-- **C121 (partial).** For a batch, `compute_variance` adds the variance of the predictions of every row. -/
theorem C121_variance_partial {inSh outSh : List ℕ} {ms : List Predictor} {fs : List (List ℝ → List ℝ)} (hms : fs ≠ [])
    (h : List.Forall₂ (Rowwise inSh outSh) ms fs) (prediction : String) (c : Prediction) (hc : parse prediction = .ok c)
    (xs : List (List ℝ)) (hne : xs ≠ []) (hxs : ∀ x ∈ xs, Fits inSh x) :
    predict inSh.length (genericPredict (ensPredict false prediction true .all ms)) id (stack inSh xs) () =
      .ok (.pair (stack outSh (xs.map fun x => pointwise (combine c) outSh.prod (fs.map fun f => f x)))
        (stack outSh (xs.map fun x => pointwise npVar outSh.prod (fs.map fun f => f x)))) := by
  rw [predict_batch]
  unfold genericPredict
  rw [ensPredict_all hms h false true prediction c hc xs hne hxs]
  simp

/-- For a single input the variance is lost, and the prediction keeps a batch axis: the first of the two arrays is taken for the first row. -/
theorem C121_variance_refuted {inSh outSh : List ℕ} {ms : List Predictor} {fs : List (List ℝ → List ℝ)} (hms : fs ≠ [])
    (h : List.Forall₂ (Rowwise inSh outSh) ms fs) (prediction : String) (c : Prediction) (hc : parse prediction = .ok c) (x : List ℝ) (hx : Fits inSh x) :
    predict inSh.length (genericPredict (ensPredict false prediction true .all ms)) id ⟨inSh, x⟩ () =
      .ok (.arr ⟨1 :: outSh, pointwise (combine c) outSh.prod (fs.map fun f => f x)⟩) := by
  unfold predict
  rw [if_pos (show (⟨inSh, x⟩ : Arr ℝ).ndim = inSh.length from rfl), stack_expand]
  unfold genericPredict
  rw [ensPredict_all hms h false true prediction c hc [x] (by simp) (by simpa using hx)]
  simp [stack, bind, Except.bind, Val.first, pure, Except.pure]

/-- With torch models the variance of `min` and `max` predictions always raises. -/
theorem C121_variance_torch_refuted {inSh outSh : List ℕ} {ms : List Predictor} {fs : List (List ℝ → List ℝ)} (hms : fs ≠ [])
    (h : List.Forall₂ (Rowwise inSh outSh) ms fs) (prediction : String) (hp : prediction = "min" ∨ prediction = "max")
    (xs : List (List ℝ)) (hne : xs ≠ []) (hxs : ∀ x ∈ xs, Fits inSh x) :
    ensPredict true prediction true .all ms (stack inSh xs) = .error .attribute := by
  have hc : ∃ c, parse prediction = .ok c := by
    rcases hp with rfl | rfl
    · exact ⟨.min, by simp [parse]⟩
    · exact ⟨.max, by simp [parse]⟩
  obtain ⟨c, hc⟩ := hc
  rw [ensPredict_all hms h true true prediction c hc xs hne hxs]
  simp [hp]

/-- The variance depends on the library: for the same `n` predictions torch gives `n / (n - 1)` times the variance of numpy. -/
theorem C121_variance_library_refuted (xs : List ℝ) (h : 2 ≤ xs.length) : torchVar xs = npVar xs * (xs.length / (xs.length - 1)) ∧
    (npVar xs ≠ 0 → torchVar xs ≠ npVar xs) := by
  have h2 : (2 : ℝ) ≤ xs.length := by exact_mod_cast h
  have h0 : (xs.length : ℝ) ≠ 0 := by linarith
  have h1 : (xs.length : ℝ) - 1 ≠ 0 := by linarith
  have e : torchVar xs = npVar xs * (xs.length / (xs.length - 1)) := by
    unfold torchVar npVar
    generalize (xs.map fun x => (x - xs.sum / xs.length) ^ 2).sum = S
    field_simp
  refine ⟨e, fun hv he => ?_⟩
  rw [e] at he
  have h3 : ((xs.length : ℝ) / (xs.length - 1)) = 1 := by
    have := mul_left_cancel₀ hv (he.trans (mul_one _).symm)
    exact this
  rw [div_eq_one_iff_eq h1] at h3
  linarith

/-! ### Members -/

/-- **C121 (partial).** A generic regressor or one with one output per action, made of `n` models, has length `n`, its items are the models in order, iterating
over it yields exactly these, and the losses of all of them are logged. -/
theorem C121_members_partial (k : Kind) (hk : k ≠ .action) (nActions n : ℕ) :
    len (some n) = n ∧ (∀ i < n, item k nActions (some n) i = .ok (.model 0 i)) ∧ Iterates k nActions (some n) n ∧
    logged k nActions (some n) = .ok ((List.range n).map (Member.model 0)) := by
  have h1 : ∀ i < n, item k nActions (some n) i = .ok (.model 0 i) := by
    intro i hi
    simp [item, hk, hi]
  refine ⟨rfl, h1, ⟨fun i hi => ⟨_, h1 i hi⟩, by simp [item, hk]⟩, ?_⟩
  unfold logged
  rw [show len (some n) = n from rfl, mapM_ok _ (Member.model 0) _ (fun i hi => h1 i (List.mem_range.1 hi))]
  show Except.ok _ = _
  congr 1
  rw [List.filter_eq_self]
  intro m hm
  obtain ⟨i, _, rfl⟩ := List.mem_map.1 hm
  rfl

/-- With one model per action, the items are the ensembles of the actions, whatever the length says: with more models than actions an item below the
length raises, and so does the logging of the losses; otherwise no loss is logged at all. -/
theorem C121_members_refuted (nActions n : ℕ) :
    len (some n) = n ∧ Iterates .action nActions (some n) nActions ∧ (nActions < n → item .action nActions (some n) nActions = .error .index ∧ logged .action nActions (some n) = .error .index) ∧
    (n ≤ nActions → logged .action nActions (some n) = .ok []) := by
  have h1 : ∀ i < nActions, item .action nActions (some n) i = .ok (.ensemble i) := by
    intro i hi
    simp [item, hi]
  have h2 : ∀ i, nActions ≤ i → item .action nActions (some n) i = .error .index := by
    intro i hi
    simp [item, hi]
  refine ⟨rfl, ⟨fun i hi => ⟨_, h1 i hi⟩, h2 _ (le_refl _)⟩, fun hn => ⟨h2 _ (le_refl _), ?_⟩, fun hn => ?_⟩
  · unfold logged
    have key : ∀ l : List ℕ, nActions ∈ l → l.mapM (item .action nActions (some n)) = .error .index := by
      intro l
      induction l with
      | nil => simp
      | cons a l ih =>
          intro hm
          rw [List.mapM_cons]
          by_cases ha : nActions ≤ a
          · rw [h2 a ha]; rfl
          · rw [h1 a (by omega)]
            rcases List.mem_cons.1 hm with e | hm
            · omega
            · rw [ih hm]; rfl
    rw [show len (some n) = n from rfl, key _ (List.mem_range.2 hn)]
    rfl
  · unfold logged
    rw [show len (some n) = n from rfl, mapM_ok _ Member.ensemble _ (fun i hi => h1 i (by have := List.mem_range.1 hi; omega))]
    show Except.ok _ = _
    congr 1
    rw [List.filter_eq_nil_iff]
    intro m hm
    obtain ⟨i, _, rfl⟩ := List.mem_map.1 hm
    simp

/-- A regressor made without `n_models` has length one, but iterating over it never ends. -/
theorem C121_iteration_refuted (k : Kind) (nActions n : ℕ) : len none = 1 ∧ ¬ Iterates k nActions none n := by
  refine ⟨rfl, fun h => ?_⟩
  have := h.2
  unfold item at this
  by_cases hk : k = .action <;> simp [hk] at this

/-! ### Examples of regressors -/

/-- A linear approximator with identity features and output `[x₀ + x₁, x₀]`, as it acts on a batch of two entries. -/
def twoOutputs : Predictor := fun z => match z.shape with
  | [n, 2] => .ok (.arr ⟨[n, 2], ((List.range n).map fun i => [z.data.getD (i * 2) 0 + z.data.getD (i * 2 + 1) 0, z.data.getD (i * 2) 0]).flatten⟩)
  | _ => .error .value

theorem twoOutputs_rowwise : Rowwise [2] [2] twoOutputs (fun x => [x.getD 0 0 + x.getD 1 0, x.getD 0 0]) := by
  refine ⟨fun x _ => by simp [Fits], fun xs _ hxs => ?_⟩
  have hr : ∀ r ∈ xs, r.length = 2 := fun r hr => by simpa [Fits] using hxs r hr
  show Except.ok (Val.arr ⟨_, _⟩) = Except.ok (Val.arr ⟨_, _⟩)
  congr 3
  · simp
  · congr 1
    apply List.ext_getElem
    · simp
    · intro i h1 h2
      have hi : i < xs.length := by simpa using h1
      have e0 := getD_flatten (k := 2) xs hr i 0 hi (by norm_num)
      have e1 := getD_flatten (k := 2) xs hr i 1 hi (by norm_num)
      rw [add_zero] at e0
      simp only [List.getElem_map, List.getElem_range]
      show [xs.flatten.getD (i * 2) 0 + xs.flatten.getD (i * 2 + 1) 0, xs.flatten.getD (i * 2) 0] = _
      rw [e0, e1]
      simp [List.getD_eq_getElem?_getD, hi]

example : predict 1 (qPredict twoOutputs) (Option.map Arr.expand) ⟨[2], [3, 4]⟩ (some ⟨[1], [0]⟩) = .ok (.arr ⟨[], [7]⟩) := by
  have := (C121_q twoOutputs_rowwise).2.1 [3, 4] 0 (by simp [Fits]) (by norm_num)
  norm_num at this
  exact this

/-- An approximator with one output, the sum of two entries times `c`. -/
def oneOutput (c : ℝ) : Predictor := fun z => match z.shape with
  | [n, 2] => .ok (.arr ⟨[n, 1], ((List.range n).map fun i => [c * (z.data.getD (i * 2) 0 + z.data.getD (i * 2 + 1) 0)]).flatten⟩)
  | _ => .error .value

theorem oneOutput_rowwise (c : ℝ) : Rowwise [2] [1] (oneOutput c) (fun x => [c * (x.getD 0 0 + x.getD 1 0)]) := by
  refine ⟨fun x _ => by simp [Fits], fun xs _ hxs => ?_⟩
  have hr : ∀ r ∈ xs, r.length = 2 := fun r hr => by simpa [Fits] using hxs r hr
  show Except.ok (Val.arr ⟨_, _⟩) = Except.ok (Val.arr ⟨_, _⟩)
  congr 3
  · simp
  · congr 1
    apply List.ext_getElem
    · simp
    · intro i h1 h2
      have hi : i < xs.length := by simpa using h1
      have e0 := getD_flatten (k := 2) xs hr i 0 hi (by norm_num)
      have e1 := getD_flatten (k := 2) xs hr i 1 hi (by norm_num)
      rw [add_zero] at e0
      simp only [List.getElem_map, List.getElem_range]
      show [c * (xs.flatten.getD (i * 2) 0 + xs.flatten.getD (i * 2 + 1) 0)] = _
      rw [e0, e1]
      simp [List.getD_eq_getElem?_getD, hi]

example : predict 1 (actionPredict [oneOutput 1, oneOutput 10]) (Option.map Arr.expand) (stack [2] [[1, 2], [3, 4]]) (some ⟨[2, 1], [1, 0]⟩) = .ok (.arr ⟨[2], [30, 7]⟩) := by
  have := (C121_action (inSh := [2]) (by simp) (.cons (oneOutput_rowwise 1) (.cons (oneOutput_rowwise 10) .nil))).2.2.2 [[1, 2], [3, 4]] [1, 0] (by simp)
    (by simp [Fits]) rfl (by simp)
  norm_num [ofAction] at this
  exact this

example : Rowwise [2] [1] (ensPredict false "mean" false .all [oneOutput 1, oneOutput 10]) (fun x => pointwise (combine .mean) 1 [[1 * (x.getD 0 0 + x.getD 1 0)], [10 * (x.getD 0 0 + x.getD 1 0)]]) :=
  C121_ensemble (by simp) (.cons (oneOutput_rowwise 1) (.cons (oneOutput_rowwise 10) .nil)) false "mean" .mean (by simp [parse])

/-! ### Tables -/

theorem holds_stack {t : Arr ℝ} {n k : ℕ} {q : ℕ → ℕ → ℝ} (h : Holds t n k q) : t = stack [k] ((List.range n).map fun s => (List.range k).map (q s)) := by
  cases t
  obtain ⟨h1, h2⟩ := h
  simp only at h1 h2
  subst h1; subst h2
  simp [stack]

theorem holds_item {t : Arr ℝ} {n k : ℕ} {q : ℕ → ℕ → ℝ} (h : Holds t n k q) (s : ℕ) (hs : s < n) :
    t.item s = .ok ⟨[k], (List.range k).map (q s)⟩ := by
  rw [holds_stack h, item_stack [k] _ (by simp) s (by simpa using hs)]
  simp [List.getD_eq_getElem?_getD, hs]

theorem rowAt_eq {t : Arr ℝ} {n k : ℕ} {q : ℕ → ℕ → ℝ} (h : Holds t n k q) (s : ℕ) (hs : s < n) (r : List ℕ) :
    rowAt t (s :: r) = .ok ⟨[k], (List.range k).map (q s)⟩ := by
  unfold rowAt
  by_cases h1 : t.shape.prod = 1
  · rw [if_pos h1]
    have hn : n = 1 := by
      rw [h.1] at h1
      simp at h1
      exact h1.1
    have h0 : s = 0 := by omega
    subst h0
    exact holds_item h 0 hs
  · rw [if_neg h1]
    show (if t.ndim ≥ 2 then t.item s else throw .index) = _
    rw [if_pos (by simp [Arr.ndim, h.1])]
    exact holds_item h s hs

theorem valueAt_eq {t : Arr ℝ} {n k : ℕ} {q : ℕ → ℕ → ℝ} (h : Holds t n k q) (h1 : n * k ≠ 1) (s a : ℕ) (hs : s < n) (ha : a < k) :
    valueAt t [s] [a] = .ok ⟨[], [q s a]⟩ := by
  unfold valueAt
  rw [if_neg (by rw [h.1]; simpa using h1)]
  show (do
    let row ← t.item s
    row.item a) = _
  rw [holds_item h s hs]
  show (⟨[k], (List.range k).map (q s)⟩ : Arr ℝ).item a = _
  rw [item_vec k _ (by simp) a ha]
  simp [List.getD_eq_getElem?_getD, ha]

theorem collect_many (sh : List ℕ) (rows : List (List ℝ)) (h : 2 ≤ rows.length) : collect (rows.map fun r => ⟨sh, r⟩) = stack sh rows := by
  match rows, h with
  | a :: b :: l, _ => simp [collect, Function.comp_def]

/-- **C121.** A table with states given by one number predicts for a state the row of its values, for a state and an action the value, and for a batch of two or
more the same for every row. -/
theorem C121_table {t : Arr ℝ} {n k : ℕ} {q : ℕ → ℕ → ℝ} (h : Holds t n k q) :
    (∀ s, s < n → tablePredict t (.single [s]) = .ok ⟨[k], (List.range k).map (q s)⟩) ∧
    (∀ ss : List ℕ, 2 ≤ ss.length → (∀ s ∈ ss, s < n) →
      tablePredict t (.batch (ss.map fun s => [s])) = .ok (stack [k] (ss.map fun s => (List.range k).map (q s)))) ∧
    (n * k ≠ 1 → ∀ s a, s < n → a < k → tablePredictAction t (.single [s]) (.single [a]) = .ok ⟨[], [q s a]⟩) ∧
    (n * k ≠ 1 → ∀ sa : List (ℕ × ℕ), 2 ≤ sa.length → (∀ p ∈ sa, p.1 < n ∧ p.2 < k) →
      tablePredictAction t (.batch (sa.map fun p => [p.1])) (.batch (sa.map fun p => [p.2])) = .ok ⟨[sa.length], sa.map fun p => q p.1 p.2⟩) := by
  refine ⟨fun s hs => ?_, fun ss hl hss => ?_, fun h1 s a hs ha => ?_, fun h1 sa hl hsa => ?_⟩
  · show (do let values ← [[s]].mapM (rowAt t); pure (collect values)) = _
    rw [mapM_ok (rowAt t) (fun _ => ⟨[k], (List.range k).map (q s)⟩) [[s]] (by simpa using rowAt_eq h s hs [])]
    rfl
  · show (do let values ← (ss.map fun s => [s]).mapM (rowAt t); pure (collect values)) = _
    rw [List.mapM_map, mapM_ok (rowAt t ∘ fun s => [s]) (fun s => ⟨[k], (List.range k).map (q s)⟩) ss (fun s hs => rowAt_eq h s (hss s hs) [])]
    show Except.ok (collect _) = _
    rw [← collect_many [k] _ (by simpa using hl), List.map_map]
    rfl
  · unfold tablePredictAction
    show (do let values ← [0].mapM (pairAt t [[s]] [[a]]); pure (collect values)) = _
    rw [mapM_ok _ (fun _ => ⟨[], [q s a]⟩) [0] (by simpa [pairAt] using valueAt_eq h h1 s a hs ha)]
    rfl
  · unfold tablePredictAction
    show (do
      let values ← (List.range (sa.map fun (p : ℕ × ℕ) => [p.1]).length).mapM (pairAt t (sa.map fun (p : ℕ × ℕ) => [p.1]) (sa.map fun (p : ℕ × ℕ) => [p.2]))
      pure (collect values)) = _
    rw [mapM_ok _ (fun i => (⟨[], [q (sa.getD i (0, 0)).1 (sa.getD i (0, 0)).2]⟩ : Arr ℝ)) _ ?_]
    · show Except.ok (collect _) = _
      have e : (List.range (sa.map fun p => [p.1]).length).map (fun i => (⟨[], [q (sa.getD i (0, 0)).1 (sa.getD i (0, 0)).2]⟩ : Arr ℝ)) =
          (sa.map fun p => [q p.1 p.2]).map fun r => ⟨[], r⟩ := by
        apply List.ext_getElem
        · simp
        · intro i h1 h2
          have hi : i < sa.length := by simpa using h1
          simp [List.getD_eq_getElem?_getD, hi]
      rw [e, collect_many [] _ (by simpa using hl)]
      have : (sa.map fun p => [q p.1 p.2]) = (sa.map fun p => q p.1 p.2).map fun v => [v] := by simp [Function.comp_def]
      rw [this, stack, flatten_single]
      simp
    · intro i hi
      have hi : i < sa.length := by simpa using hi
      have hp := hsa sa[i] (List.getElem_mem hi)
      unfold pairAt
      simp only [List.getElem?_map, List.getD_eq_getElem?_getD, List.getElem?_eq_getElem hi, Option.map_some, Option.getD_some]
      exact valueAt_eq h h1 _ _ hp.1 hp.2

theorem holds_div {n k : ℕ} (hk : 0 < k) (q : ℕ → ℕ → ℝ) :
    ((List.range n).map fun s => (List.range k).map fun a => q s a).flatten = (List.range (n * k)).map fun i => q (i / k) (i % k) := by
  rw [range_mul_map]
  congr 1
  apply List.map_congr_left
  intro s _
  apply List.map_congr_left
  intro a ha
  rw [List.mem_range] at ha
  rw [Nat.mul_comm, Nat.mul_add_div hk, Nat.div_eq_of_lt ha, Nat.mul_add_mod, Nat.mod_eq_of_lt ha, Nat.add_zero]

/-- **C121.** Writing the value of a state and an action changes this value and no other. -/
theorem C121_table_set {t : Arr ℝ} {n k : ℕ} {q : ℕ → ℕ → ℝ} (h : Holds t n k q) (s a : ℕ) (hs : s < n) (ha : a < k) (v : ℝ) :
    ∃ t', tableSet t [s] [a] v = .ok t' ∧ Holds t' n k (fun s' a' => if s' = s ∧ a' = a then v else q s' a') := by
  unfold tableSet
  by_cases h1 : t.shape.prod = 1
  · rw [if_pos h1]
    refine ⟨_, rfl, h.1, ?_⟩
    have h1' := h1
    rw [h.1] at h1'
    simp at h1'
    obtain ⟨rfl, rfl⟩ := h1'
    have : s = 0 := by omega
    have : a = 0 := by omega
    subst_vars
    simp
  · rw [if_neg h1]
    obtain ⟨sh, data⟩ := t
    obtain ⟨hsh, hdata⟩ := h
    simp only at hsh hdata
    subst hsh
    show ∃ t', (if s < n ∧ a < k then (pure { shape := [n, k], data := data.set (s * k + a) v } : Except Err (Arr ℝ)) else throw Err.index) = .ok t' ∧ _
    rw [if_pos ⟨hs, ha⟩]
    refine ⟨_, rfl, rfl, ?_⟩
    have hk : 0 < k := by omega
    show data.set (s * k + a) v = _
    rw [hdata, holds_div hk, holds_div hk, set_map]
    apply List.map_congr_left
    intro i _
    have : i = s * k + a ↔ (i / k = s ∧ i % k = a) := by
      constructor
      · rintro rfl
        rw [Nat.mul_comm, Nat.mul_add_div hk, Nat.div_eq_of_lt ha, Nat.mul_add_mod, Nat.mod_eq_of_lt ha]
        simp
      · rintro ⟨rfl, rfl⟩
        rw [Nat.mul_comm]
        exact (Nat.div_add_mod i k).symm
    simp only [this]

/-- `n_actions` is the number of actions of the table. -/
theorem C121_table_actions {t : Arr ℝ} {n k : ℕ} {q : ℕ → ℕ → ℝ} (h : Holds t n k q) : tableActions t = .ok k := by
  unfold tableActions
  rw [h.1]
  rfl

/-- A batch of one state is answered like a single state, without batch axis. -/
theorem C121_table_batch_refuted (t : Arr ℝ) (s : List ℕ) :
    tablePredict t (.batch [s]) = tablePredict t (.single s) ∧
    (∀ n k q s', Holds t n k q → s' < n → tablePredict t (.batch [[s']]) ≠ .ok (stack [k] [(List.range k).map (q s')])) := by
  refine ⟨rfl, fun n k q s' h hs => ?_⟩
  rw [show tablePredict t (.batch [[s']]) = tablePredict t (.single [s']) from rfl, (C121_table h).1 s' hs]
  simp [stack]

/-- States that agree in their first entry are the same state for a table, whatever its shape: their values cannot be told apart, and writing one writes the other. -/
theorem C121_table_entries_refuted (t : Arr ℝ) (s : ℕ) (r r' : List ℕ) (a : List ℕ) (v : ℝ) :
    tablePredict t (.single (s :: r)) = tablePredict t (.single (s :: r')) ∧
    tablePredictAction t (.single (s :: r)) (.single a) = tablePredictAction t (.single (s :: r')) (.single a) ∧
    tableSet t (s :: r) a v = tableSet t (s :: r') a v := ⟨rfl, rfl, rfl⟩

/-- A table with one axis, as used for state values, cannot predict. -/
theorem C121_table_vector_refuted (n : ℕ) (hn : n ≠ 1) (data : List ℝ) (s : List ℕ) : tablePredict ⟨[n], data⟩ (.single s) = .error .index := by
  have : rowAt ⟨[n], data⟩ s = .error .index := by
    unfold rowAt
    rw [if_neg (by simpa using hn)]
    cases s
    · rfl
    · rfl
  show (do let values ← [s].mapM (rowAt ⟨[n], data⟩); pure (collect values)) = _
  rw [List.mapM_cons, this]
  rfl

/-- The value of the only action in the only state is an array and not a number. -/
theorem C121_table_one_refuted (v : ℝ) (s a : List ℕ) : tablePredictAction ⟨[1, 1], [v]⟩ (.single s) (.single a) = .ok ⟨[1], [v]⟩ := rfl

/-- `fit` with a number as index, as documented, always raises unless the table has one entry. -/
theorem C121_table_fit_refuted (t : Arr ℝ) (h : t.shape.prod ≠ 1) (x : ℕ) (v : ℝ) : tableFitInt t x v = .error .type := by
  unfold tableFitInt
  rw [if_neg h]

example : Holds ⟨[2, 2], [1, 2, 3, 4]⟩ 2 2 (fun s a => 2 * s + a + 1) := by
  refine ⟨rfl, ?_⟩
  norm_num [List.range_succ]

end

end Verif.Approx.Reg
