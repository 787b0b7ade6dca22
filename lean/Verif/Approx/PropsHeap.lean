/-
Properties of the storage of weights (C137).
-/
import Verif.Approx.ModelHeap
import Mathlib.Data.List.Basic
import Mathlib.Tactic.NormNum

namespace Verif.Approx.Heap

/-! ### Specification: every object has its own contents -/

/-- A vector cut into pieces. -/
def pieces : List ℕ → List ℝ → List (List ℝ)
  | [], _ => []
  | c :: cs, x => x.take c :: pieces cs (x.drop c)

/-- What each operation does if weights are copied. -/
def copied (vals : ℕ → List (List ℝ)) : Op → Option (ℕ → List (List ℝ))
  | .assign k f =>
    let lens := (vals k).map List.length
    if lens.sum ≤ (f vals).length then some (Function.update vals k (pieces lens (f vals))) else none
  | .update k f => if (f vals).map List.length = (vals k).map List.length then some (Function.update vals k (f vals)) else none
  | .share j k => match vals k with
    | [x] =>
      let lens := (vals j).map List.length
      if lens.sum ≤ x.length then some (Function.update vals j (pieces lens x)) else none
    | _ => none

def copiedRun (vals : ℕ → List (List ℝ)) : List Op → Option (ℕ → List (List ℝ))
  | [] => some vals
  | o :: os => (copied vals o).bind (fun v => copiedRun v os)

/-- No array of the user is given to a network. -/
def Op.Own : Op → Prop
  | .share _ _ => False
  | _ => True

/-! ### Lemmas -/

def Apart (u v : View) : Prop := u.store ≠ v.store ∨ u.off + u.len ≤ v.off ∨ v.off + v.len ≤ u.off

theorem Apart.symm {u v : View} (h : Apart u v) : Apart v u := by
  rcases h with h | h | h
  · exact Or.inl (Ne.symm h)
  · exact Or.inr (Or.inr h)
  · exact Or.inr (Or.inl h)

def Fits (h : Heap) (v : View) : Prop := v.store < h.next ∧ v.off + v.len ≤ (h.arrays v.store).length

structure Separate (w : World) : Prop where
  fits : ∀ k, ∀ v ∈ w.objs k, Fits w.heap v
  inside : ∀ k, (w.objs k).Pairwise Apart
  between : ∀ i j, i ≠ j → ∀ u ∈ w.objs i, ∀ v ∈ w.objs j, Apart u v

theorem read_length {h : Heap} {v : View} (hv : Fits h v) : (h.read v).length = v.len := by
  have := hv.2
  simp only [Heap.read, List.length_take, List.length_drop]
  omega

theorem write_fits {h : Heap} {v : View} {x : List ℝ} (hv : Fits h v) (hx : x.length = v.len) {u : View} (hu : Fits h u) :
    Fits (h.write v x) u := by
  refine ⟨hu.1, ?_⟩
  have h1 := hv.2
  have h2 := hu.2
  simp only [Heap.write]
  split_ifs with hs
  · rw [hs] at h2 ⊢
    simp only [List.length_append, List.length_take, List.length_drop]
    omega
  · exact h2

theorem read_write_same {h : Heap} {v : View} {x : List ℝ} (hv : Fits h v) (hx : x.length = v.len) : (h.write v x).read v = x := by
  have h1 := hv.2
  have ht : ((h.arrays v.store).take v.off).length = v.off := by simp only [List.length_take]; omega
  simp only [Heap.read, Heap.write, if_true]
  rw [List.append_assoc, List.drop_append_of_le_length (by omega), List.drop_eq_nil_of_le (by omega), List.nil_append,
    List.take_append_of_le_length (by omega), List.take_of_length_le (by omega)]

theorem read_write_apart {h : Heap} {u v : View} {x : List ℝ} (hv : Fits h v) (hx : x.length = v.len) (ha : Apart u v) :
    (h.write v x).read u = h.read u := by
  have h1 := hv.2
  by_cases hs : u.store = v.store
  · simp only [Heap.read, Heap.write, if_pos hs]
    rw [hs]
    apply List.ext_getElem?
    intro i
    simp only [List.getElem?_take, List.getElem?_drop]
    split_ifs with hi
    · have hlt : ((h.arrays v.store).take v.off).length = v.off := by simp only [List.length_take]; omega
      rcases ha with ha | ha | ha
      · exact absurd hs ha
      · rw [List.append_assoc, List.getElem?_append_left (by omega), List.getElem?_take_of_lt (by omega)]
      · rw [List.getElem?_append_right (by simp only [List.length_append, hlt]; omega), List.getElem?_drop]
        congr 1
        simp only [List.length_append, hlt]
        omega
    · rfl
  · simp only [Heap.read, Heap.write, if_neg hs]

/-- The writes of an optimiser. -/
def writes (h : Heap) (ps : List (View × List ℝ)) : Heap := ps.foldl (fun h p => h.write p.1 p.2) h

theorem writes_spec (vs : List View) : ∀ (h : Heap) (xs : List (List ℝ)), xs.map List.length = vs.map View.len → (∀ v ∈ vs, Fits h v) →
    vs.Pairwise Apart →
    vs.map (writes h (vs.zip xs)).read = xs
    ∧ (∀ u, (∀ v ∈ vs, Apart u v) → (writes h (vs.zip xs)).read u = h.read u)
    ∧ ∀ u, Fits h u → Fits (writes h (vs.zip xs)) u := by
  induction vs with
  | nil =>
    intro h xs hl _ _
    cases xs with
    | nil => exact ⟨rfl, fun _ _ => rfl, fun _ hu => hu⟩
    | cons x xs => simp at hl
  | cons v vs ih =>
    intro h xs hl hf hp
    cases xs with
    | nil => simp at hl
    | cons x xs =>
      simp only [List.map_cons, List.cons.injEq] at hl
      have hv := hf v List.mem_cons_self
      obtain ⟨i1, i2, i3⟩ := ih (h.write v x) xs hl.2 (fun u hu => write_fits hv hl.1 (hf u (List.mem_cons_of_mem _ hu)))
        (List.pairwise_cons.mp hp).2
      have hw : writes h ((v :: vs).zip (x :: xs)) = writes (h.write v x) (vs.zip xs) := rfl
      rw [hw]
      refine ⟨?_, ?_, ?_⟩
      · rw [List.map_cons, i1, i2 v (List.pairwise_cons.mp hp).1, read_write_same hv hl.1]
      · intro u hu
        rw [i2 u (fun y hy => hu y (List.mem_cons_of_mem _ hy)), read_write_apart hv hl.1 (hu v List.mem_cons_self)]
      · intro u hu
        exact i3 u (write_fits hv hl.1 hu)

theorem views_spec (s : ℕ) (lens : List ℕ) : ∀ off, (∀ v ∈ views s off lens, v.store = s ∧ off ≤ v.off ∧ v.off + v.len ≤ off + lens.sum)
    ∧ (views s off lens).Pairwise Apart ∧ (views s off lens).map View.len = lens
    ∧ ∀ h : Heap, (views s off lens).map h.read = pieces lens ((h.arrays s).drop off) := by
  induction lens with
  | nil => intro off; simp [views, pieces]
  | cons c cs ih =>
    intro off
    obtain ⟨i1, i2, i3, i4⟩ := ih (off + c)
    refine ⟨?_, ?_, ?_, ?_⟩
    · intro v hv
      simp only [views, List.mem_cons] at hv
      rcases hv with rfl | hv
      · refine ⟨rfl, le_refl _, ?_⟩
        simp only [List.sum_cons]
        omega
      · obtain ⟨a, b, c'⟩ := i1 v hv
        simp only [List.sum_cons]
        exact ⟨a, by omega, by omega⟩
    · rw [views, List.pairwise_cons]
      exact ⟨fun v hv => Or.inr (Or.inl (i1 v hv).2.1), i2⟩
    · rw [views, List.map_cons, i3]
    · intro h
      rw [views, List.map_cons, i4 h, pieces, List.drop_drop]
      rfl

theorem map_lengths {w : World} (hw : Separate w) (k : ℕ) : (w.values k).map List.length = (w.objs k).map View.len := by
  simp only [World.values, List.map_map]
  apply List.map_congr_left
  intro v hv
  exact read_length (hw.fits k v hv)

theorem alloc_read {h : Heap} {v : View} (hv : Fits h v) (x : List ℝ) : (h.alloc x).read v = h.read v := by
  have := hv.1
  simp only [Heap.read, Heap.alloc, if_neg (by omega : ¬ v.store = h.next)]

theorem alloc_fits {h : Heap} {v : View} (hv : Fits h v) (x : List ℝ) : Fits (h.alloc x) v := by
  have := hv.1
  refine ⟨by simp only [Heap.alloc]; omega, ?_⟩
  simp only [Heap.alloc, if_neg (by omega : ¬ v.store = h.next)]
  exact hv.2

/-- Object `k` now lies in a new block. -/
theorem replace_separate {w : World} (hw : Separate w) (x : List ℝ) (k : ℕ) (vs : List View) (h1 : ∀ v ∈ vs, v.store = w.heap.next ∧ v.off + v.len ≤ x.length)
    (h2 : vs.Pairwise Apart) : Separate ⟨w.heap.alloc x, Function.update w.objs k vs⟩ := by
  have hnew : ∀ v ∈ vs, Fits (w.heap.alloc x) v := by
    intro v hv
    obtain ⟨a, b⟩ := h1 v hv
    refine ⟨by simp only [Heap.alloc]; omega, ?_⟩
    simp only [Heap.alloc, if_pos a]
    exact b
  have hap : ∀ j, ∀ u ∈ w.objs j, ∀ v ∈ vs, Apart u v := by
    intro j u hu v hv
    left
    have := (hw.fits j u hu).1
    rw [(h1 v hv).1]
    omega
  refine ⟨?_, ?_, ?_⟩
  · intro j v hv
    by_cases hj : j = k
    · subst hj
      simp only [Function.update_self] at hv
      exact hnew v hv
    · simp only [Function.update_of_ne hj] at hv
      exact alloc_fits (hw.fits j v hv) x
  · intro j
    by_cases hj : j = k
    · subst hj
      simpa only [Function.update_self] using h2
    · simpa only [Function.update_of_ne hj] using hw.inside j
  · intro i j hij u hu v hv
    by_cases hi : i = k
    · subst hi
      simp only [Function.update_self] at hu
      simp only [Function.update_of_ne (Ne.symm hij)] at hv
      exact (hap j v hv u hu).symm
    · simp only [Function.update_of_ne hi] at hu
      by_cases hj : j = k
      · subst hj
        simp only [Function.update_self] at hv
        exact hap i u hu v hv
      · simp only [Function.update_of_ne hj] at hv
        exact hw.between i j hij u hu v hv

theorem step_copied {w : World} (hw : Separate w) (o : Op) (ho : o.Own) :
    (w.step o).map World.values = copied w.values o ∧ ∀ w', w.step o = some w' → Separate w' := by
  cases o with
  | share j k => exact absurd ho (by simp [Op.Own])
  | assign k f =>
    have hl := map_lengths hw k
    obtain ⟨v1, v2, v3, v4⟩ := views_spec w.heap.next ((w.objs k).map View.len) 0
    simp only [World.step, World.bind, copied]
    have harr : (w.heap.alloc (f w.values)).arrays w.heap.next = f w.values := by simp [Heap.alloc]
    simp only [harr, Nat.zero_add, hl]
    split_ifs with hlen
    · have hsep : Separate ⟨w.heap.alloc (f w.values), Function.update w.objs k (views w.heap.next 0 ((w.objs k).map View.len))⟩ := by
        apply replace_separate hw
        · intro v hv
          obtain ⟨a, b, c⟩ := v1 v hv
          exact ⟨a, by omega⟩
        · exact v2
      refine ⟨?_, ?_⟩
      · simp only [Option.map_some, Option.some.injEq]
        funext j
        by_cases hj : j = k
        · subst hj
          simp only [World.values, Function.update_self]
          rw [v4, harr, List.drop_zero]
        · simp only [World.values, Function.update_of_ne hj]
          apply List.map_congr_left
          intro v hv
          exact alloc_read (hw.fits j v hv) _
      · intro w' h
        simp only [Option.some.injEq] at h
        rw [← h]
        exact hsep
    · exact ⟨rfl, fun w' h => by simp at h⟩
  | update k f =>
    have hl := map_lengths hw k
    simp only [World.step, copied, hl]
    split_ifs with hlen
    · obtain ⟨s1, s2, s3⟩ := writes_spec (w.objs k) w.heap (f w.values) hlen (hw.fits k) (hw.inside k)
      refine ⟨?_, ?_⟩
      · simp only [Option.map_some, Option.some.injEq]
        funext j
        by_cases hj : j = k
        · subst hj
          simp only [Function.update_self]
          exact s1
        · simp only [Function.update_of_ne hj]
          simp only [World.values]
          apply List.map_congr_left
          intro v hv
          exact s2 v (fun u hu => hw.between j k hj v hv u hu)
      · intro w' h
        simp only [Option.some.injEq] at h
        rw [← h]
        exact ⟨fun j v hv => s3 v (hw.fits j v hv), hw.inside, hw.between⟩
    · exact ⟨rfl, fun w' h => by simp at h⟩

theorem run_copied (ops : List Op) : ∀ {w : World}, Separate w → (∀ o ∈ ops, o.Own) →
    (w.run ops).map World.values = copiedRun w.values ops ∧ ∀ w', w.run ops = some w' → Separate w' := by
  induction ops with
  | nil =>
    intro w hw _
    exact ⟨rfl, fun w' h => by simp only [World.run, Option.some.injEq] at h; rw [← h]; exact hw⟩
  | cons o os ih =>
    intro w hw ho
    obtain ⟨h1, h2⟩ := step_copied hw o (ho o List.mem_cons_self)
    simp only [World.run, copiedRun]
    rw [← h1]
    cases hs : w.step o with
    | none => exact ⟨rfl, fun w' h => by simp at h⟩
    | some w1 =>
      have := ih (h2 w1 hs) (fun o' h' => ho o' (List.mem_cons_of_mem _ h'))
      simpa using this

theorem build_spec (k : ℕ) (xs : List (List ℝ)) : ∀ {w : World}, Separate w →
    Separate (w.build k xs) ∧ (w.build k xs).values = Function.update w.values k xs := by
  induction xs with
  | nil =>
    intro w hw
    have hs : ∀ j, ∀ v ∈ (Function.update w.objs k []) j, v ∈ w.objs j ∧ j ≠ k := by
      intro j v hv
      by_cases hj : j = k
      · subst hj; simp at hv
      · simp only [Function.update_of_ne hj] at hv; exact ⟨hv, hj⟩
    refine ⟨⟨fun j v hv => hw.fits j v (hs j v hv).1, ?_, fun i j hij u hu v hv => hw.between i j hij u (hs i u hu).1 v (hs j v hv).1⟩, ?_⟩
    · intro j
      by_cases hj : j = k
      · subst hj; simp [World.build]
      · simpa only [World.build, Function.update_of_ne hj] using hw.inside j
    · funext j
      by_cases hj : j = k
      · subst hj; simp [World.build, World.values]
      · simp only [World.build, World.values, Function.update_of_ne hj]
  | cons x xs ih =>
    intro w hw
    obtain ⟨hs, hv⟩ := ih hw
    obtain ⟨w1, hw1⟩ : ∃ w1, w.build k xs = w1 := ⟨_, rfl⟩
    rw [hw1] at hs hv
    have hb : w.build k (x :: xs) = ⟨w1.heap.alloc x, Function.update w1.objs k (⟨w1.heap.next, 0, x.length⟩ :: w1.objs k)⟩ := by
      simp only [World.build, hw1]
    rw [hb]
    have hnew : Fits (w1.heap.alloc x) ⟨w1.heap.next, 0, x.length⟩ := by
      refine ⟨by simp [Heap.alloc], ?_⟩
      simp [Heap.alloc]
    have hap : ∀ j, ∀ u ∈ w1.objs j, Apart ⟨w1.heap.next, 0, x.length⟩ u := by
      intro j u hu
      left
      have := (hs.fits j u hu).1
      show w1.heap.next ≠ u.store
      omega
    refine ⟨⟨?_, ?_, ?_⟩, ?_⟩
    · intro j v hv
      by_cases hj : j = k
      · subst hj
        simp only [Function.update_self, List.mem_cons] at hv
        rcases hv with rfl | hv
        · exact hnew
        · exact alloc_fits (hs.fits j v hv) x
      · simp only [Function.update_of_ne hj] at hv
        exact alloc_fits (hs.fits j v hv) x
    · intro j
      by_cases hj : j = k
      · subst hj
        simp only [Function.update_self, List.pairwise_cons]
        exact ⟨hap j, hs.inside j⟩
      · simpa only [Function.update_of_ne hj] using hs.inside j
    · intro i j hij u hu v hv
      by_cases hi : i = k
      · subst hi
        simp only [Function.update_self, List.mem_cons] at hu
        simp only [Function.update_of_ne (Ne.symm hij)] at hv
        rcases hu with rfl | hu
        · exact hap j v hv
        · exact hs.between i j hij u hu v hv
      · simp only [Function.update_of_ne hi] at hu
        by_cases hj : j = k
        · subst hj
          simp only [Function.update_self, List.mem_cons] at hv
          rcases hv with rfl | hv
          · exact (hap i u hu).symm
          · exact hs.between i j hij u hu v hv
        · simp only [Function.update_of_ne hj] at hv
          exact hs.between i j hij u hu v hv
    · funext j
      by_cases hj : j = k
      · subst hj
        simp only [World.values, Function.update_self, List.map_cons]
        congr 1
        · simp [Heap.read, Heap.alloc]
        · have h1 : (w1.objs j).map (w1.heap.alloc x).read = (w1.objs j).map w1.heap.read :=
            List.map_congr_left (fun v hv => alloc_read (hs.fits j v hv) x)
          rw [h1]
          have h2 := congrFun hv j
          simp only [World.values, Function.update_self] at h2
          exact h2
      · simp only [World.values, Function.update_of_ne hj]
        have h1 : (w1.objs j).map (w1.heap.alloc x).read = (w1.objs j).map w1.heap.read :=
          List.map_congr_left (fun v hv => alloc_read (hs.fits j v hv) x)
        rw [h1]
        have h2 := congrFun hv j
        simp only [World.values, Function.update_of_ne hj] at h2
        exact h2

/-- The contents the objects are constructed with; the last one of the list is number zero. -/
def initial (os : List (List (List ℝ))) (k : ℕ) : List (List ℝ) := os.reverse.getD k []

theorem new_spec (os : List (List (List ℝ))) : Separate (World.new os) ∧ (World.new os).values = initial os := by
  induction os with
  | nil =>
    refine ⟨⟨?_, ?_, ?_⟩, ?_⟩
    · intro k v hv; simp [World.new] at hv
    · intro k; simp [World.new]
    · intro i j _ u hu; simp [World.new] at hu
    · funext k; simp [World.new, World.values, initial]
  | cons o os ih =>
    obtain ⟨h1, h2⟩ := build_spec os.length o ih.1
    refine ⟨h1, ?_⟩
    rw [World.new, h2, ih.2]
    funext k
    simp only [initial, List.reverse_cons]
    by_cases hk : k = os.length
    · subst hk
      simp [List.getD]
    · rw [Function.update_of_ne hk]
      show os.reverse.getD k [] = (os.reverse ++ [o]).getD k []
      simp only [List.getD]
      rcases Nat.lt_or_ge k os.length with h | h
      · rw [List.getElem?_append_left (by rw [List.length_reverse]; exact h)]
      · have h3 : os.length < k := by omega
        rw [List.getElem?_eq_none (by rw [List.length_reverse]; omega),
          List.getElem?_eq_none (by rw [List.length_append, List.length_reverse, List.length_singleton]; omega)]

/-! ### C137 -/

/-- C137. Networks and arrays of weights that are constructed, read, copied (`target.set_weights(online.get_weights())`, soft updates) and trained
in any order behave as if each had its own copy of its weights: whatever is done to one does not change the others. -/
theorem C137_independent (os : List (List (List ℝ))) (ops : List Op) (h : ∀ o ∈ ops, o.Own) :
    ((World.new os).run ops).map World.values = copiedRun (initial os) ops := by
  rw [← (new_spec os).2]
  exact (run_copied ops (new_spec os).1 h).1

/-- C137. In particular: a target network keeps the weights it was given by the last synchronisation, however the online network is trained. -/
theorem C137_target (os : List (List (List ℝ))) (before : List Op) (hb : ∀ o ∈ before, o.Own) (online target : ℕ) (hne : online ≠ target)
    (train : List ((ℕ → List (List ℝ)) → List (List ℝ))) (w w' : World) (hw : (World.new os).run before = some w)
    (harch : (w.values online).map List.length = (w.values target).map List.length)
    (hw' : w.run (.assign target (fun vals => (vals online).flatten) :: train.map (Op.update online)) = some w') :
    w'.values target = w.values online := by
  have hsep := (run_copied before (new_spec os).1 hb).2 w hw
  have hrun := (run_copied (.assign target (fun vals => (vals online).flatten) :: train.map (Op.update online)) hsep (by
    intro o ho
    simp only [List.mem_cons, List.mem_map] at ho
    rcases ho with rfl | ⟨f, _, rfl⟩ <;> trivial)).1
  rw [hw'] at hrun
  have hpieces : ∀ l : List (List ℝ), pieces (l.map List.length) l.flatten = l := by
    intro l
    induction l with
    | nil => rfl
    | cons a l ih => simp [pieces, ih]
  have hfirst : copied w.values (.assign target (fun vals => (vals online).flatten))
      = some (Function.update w.values target (w.values online)) := by
    simp only [copied, ← harch]
    rw [hpieces, if_pos (by rw [List.length_flatten])]
  have hkeep : ∀ (l : List ((ℕ → List (List ℝ)) → List (List ℝ))) (v v' : ℕ → List (List ℝ)),
      copiedRun v (l.map (Op.update online)) = some v' → v' target = v target := by
    intro l
    induction l with
    | nil => intro v v' h; simp only [List.map_nil, copiedRun, Option.some.injEq] at h; rw [h]
    | cons f l ih =>
      intro v v' h
      simp only [List.map_cons, copiedRun, copied] at h
      split_ifs at h with hc
      · simp only [Option.bind_some] at h
        rw [ih _ _ h, Function.update_of_ne (Ne.symm hne)]
      · simp at h
  simp only [copiedRun, hfirst, Option.bind_some, Option.map_some] at hrun
  rw [hkeep train _ _ hrun.symm, Function.update_self]

/-- A network with two parameters, another one, and an array of the user. -/
noncomputable def three : List (List (List ℝ)) := [[[9, 9, 9]], [[1], [2, 3]], [[4], [5, 6]]]

example : initial three 0 = [[4], [5, 6]] ∧ initial three 1 = [[1], [2, 3]] ∧ initial three 2 = [[9, 9, 9]] := ⟨rfl, rfl, rfl⟩

example : copiedRun (initial three) [.assign 1 (fun v => (v 0).flatten), .update 0 (fun _ => [[7], [7, 7]])]
    = some (Function.update (Function.update (initial three) 1 [[4], [5, 6]]) 0 [[7], [7, 7]]) := by
  simp [copiedRun, copied, initial, three, pieces, Function.update]

/-- C137 is false of `set_weights` with an array of the user: the networks that were given the same array train each other, and the array
changes too. -/
theorem C137_shared_refuted : ∃ w, (World.new three).run [.share 0 2, .share 1 2, .update 0 (fun _ => [[7], [8, 8]])] = some w
    ∧ w.values 1 = [[7], [8, 8]] ∧ w.values 2 = [[7, 8, 8]]
    ∧ copiedRun (initial three) [.share 0 2, .share 1 2, .update 0 (fun _ => [[7], [8, 8]])]
      = some (Function.update (Function.update (Function.update (initial three) 0 [[9], [9, 9]]) 1 [[9], [9, 9]]) 0 [[7], [8, 8]]) := by
  refine ⟨_, rfl, ?_, ?_, ?_⟩
  · simp [World.values, World.new, World.build, three, views, Heap.read, Heap.write, Heap.alloc, Function.update]
  · simp [World.values, World.new, World.build, three, views, Heap.read, Heap.write, Heap.alloc, Function.update]
  · simp [copiedRun, copied, initial, three, pieces, Function.update]

/-- C137. `get_gradient` has one entry per weight, in the order of `get_weights`: the piece of a parameter is its gradient, or zeros if it has none.
After `zero_grad` all of them are zero, and no parameter has got or lost a gradient. -/
theorem C137_gradient (ps : List (ℕ × Option (List ℝ))) (hs : ∀ p ∈ ps, ∀ g, p.2 = some g → g.length = p.1) :
    (getGradient ps).length = (ps.map Prod.fst).sum
    ∧ pieces (ps.map Prod.fst) (getGradient ps) = ps.map (fun p => p.2.getD (List.replicate p.1 0))
    ∧ getGradient (zeroGrad ps) = List.replicate (ps.map Prod.fst).sum 0
    ∧ (zeroGrad ps).map (fun p => (p.1, p.2.isSome)) = ps.map (fun p => (p.1, p.2.isSome)) := by
  induction ps with
  | nil => simp [getGradient, zeroGrad, pieces]
  | cons p ps ih =>
    obtain ⟨i1, i2, i3, i4⟩ := ih (fun q hq => hs q (List.mem_cons_of_mem _ hq))
    obtain ⟨n, g⟩ := p
    have hhead : ∃ x : List ℝ, x.length = n ∧ g.getD (List.replicate n 0) = x ∧ getGradient ((n, g) :: ps) = x ++ getGradient ps := by
      cases g with
      | none => exact ⟨List.replicate n 0, by simp, rfl, rfl⟩
      | some g => exact ⟨g, hs (n, some g) List.mem_cons_self g rfl, rfl, rfl⟩
    obtain ⟨x, hx, hd, hg⟩ := hhead
    refine ⟨?_, ?_, ?_, ?_⟩
    · rw [hg, List.length_append, hx, i1, List.map_cons, List.sum_cons]
    · rw [hg, List.map_cons, pieces, List.take_left' hx, List.drop_left' hx, i2, List.map_cons, hd]
    · have : getGradient (zeroGrad ((n, g) :: ps)) = List.replicate n 0 ++ getGradient (zeroGrad ps) := by
        cases g with
        | none => rfl
        | some g =>
          have := hs (n, some g) List.mem_cons_self g rfl
          simp only at this
          simp [getGradient, zeroGrad, this]
      rw [this, i3, List.map_cons, List.sum_cons, List.replicate_append_replicate]
    · rw [List.map_cons, ← i4]
      simp [zeroGrad]

example : getGradient [(2, some [1, 2]), (1, none), (1, some [3])] = [1, 2, 0, 3] := rfl

end Verif.Approx.Heap
