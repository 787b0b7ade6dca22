import Verif.Policy.Spec
import Mathlib.Algebra.Order.BigOperators.Group.List
import Mathlib.Tactic.Ring
import Mathlib.Tactic.Linarith
import Mathlib.Tactic.FieldSimp
import Mathlib.Tactic.NormNum

namespace Verif.Policy

noncomputable section

/-! ### Parameters -/

theorem exec_attrs (p : Param) (o : Op) : (p.exec o).kind = p.kind ∧ (p.exec o).initial = p.initial ∧
    (p.exec o).minV = p.minV ∧ (p.exec o).maxV = p.maxV ∧ (p.exec o).single = p.single := by
  cases o <;> simp [Param.exec, Param.update, Param.call]

theorem run_attrs (ops : List Op) : ∀ (p : Param), (p.run ops).kind = p.kind ∧ (p.run ops).initial = p.initial ∧
    (p.run ops).minV = p.minV ∧ (p.run ops).maxV = p.maxV ∧ (p.run ops).single = p.single := by
  induction ops with
  | nil => intro p; simp [Param.run]
  | cons o ops ih =>
    intro p
    have h1 := exec_attrs p o
    have h2 := ih (p.exec o)
    simp only [Param.run, List.foldl_cons] at h2 ⊢
    refine ⟨h2.1.trans h1.1, h2.2.1.trans h1.2.1, h2.2.2.1.trans h1.2.2.1, h2.2.2.2.1.trans h1.2.2.2.1,
      h2.2.2.2.2.trans h1.2.2.2.2⟩

theorem update_counts (p : Param) (j idx : Index) :
    (p.update j).counts (p.cell idx) = p.counts (p.cell idx) + (if p.single = true ∨ j = idx then 1 else 0) := by
  simp only [Param.update, Param.cell]
  rcases Bool.eq_false_or_eq_true p.single with h | h
  · simp [h]
  · simp only [h, Bool.false_eq_true, if_false, false_or]
    by_cases hj : idx = j
    · simp [hj]
    · have : ¬ j = idx := fun e => hj e.symm
      simp [hj, this]

theorem run_counts (ops : List Op) : ∀ (p : Param) (idx : Index),
    (p.run ops).counts (p.cell idx) = p.counts (p.cell idx) + visits p.single idx ops := by
  induction ops with
  | nil => intro p idx; simp [Param.run, visits]
  | cons o ops ih =>
    intro p idx
    have h1 := exec_attrs p o
    have hc : (p.exec o).cell idx = p.cell idx := by simp only [Param.cell, h1.2.2.2.2]
    have h2 := ih (p.exec o) idx
    simp only [Param.run, List.foldl_cons] at h2 ⊢
    rw [hc, h1.2.2.2.2] at h2
    rw [h2]
    cases o with
    | get j => simp [Param.exec, visits]
    | update j => simp only [Param.exec, visits, update_counts]; omega
    | call j => simp only [Param.exec, visits, Param.call, update_counts]; omega

theorem run_append (p : Param) (l l' : List Op) : p.run (l ++ l') = (p.run l).run l' := by
  simp [Param.run]

theorem visits_append (single : Bool) (idx : Index) : ∀ l l' : List Op,
    visits single idx (l ++ l') = visits single idx l + visits single idx l'
  | [], l' => by simp [visits]
  | o :: l, l' => by
    have := visits_append single idx l l'
    cases o <;> simp only [List.cons_append, visits, this] <;> omega

theorem clip_inRange (x : ℝ) (lo hi : Option ℝ) (h : ∀ l u, lo = some l → hi = some u → l ≤ u) :
    InRange lo hi (clip x lo hi) := by
  unfold clip InRange
  cases lo with
  | none =>
    cases hi with
    | none => simp
    | some u => simp
  | some l =>
    cases hi with
    | none => simp
    | some u => have := h l u rfl rfl; simp [this]

/-! ### Lists -/

theorem le_maxOf : ∀ (l : List ℝ), ∀ x ∈ l, x ≤ maxOf l
  | [], x, h => by simp at h
  | [y], x, h => by simp at h; simp [maxOf, h]
  | y :: z :: l, x, h => by
    simp only [maxOf]
    rcases List.mem_cons.mp h with rfl | h
    · exact le_max_left _ _
    · exact le_trans (le_maxOf (z :: l) x h) (le_max_right _ _)

theorem maxOf_mem : ∀ (l : List ℝ), l ≠ [] → maxOf l ∈ l
  | [], h => absurd rfl h
  | [y], _ => by simp [maxOf]
  | y :: z :: l, _ => by
    have := maxOf_mem (z :: l) (by simp)
    simp only [maxOf]
    rcases max_cases y (maxOf (z :: l)) with ⟨h, _⟩ | ⟨h, _⟩
    · rw [h]; simp
    · rw [h]; exact List.mem_cons_of_mem _ this

open Classical in
theorem mem_argmaxes (q : List ℝ) (a : Nat) : a ∈ argmaxes q ↔ Greedy q a := by
  simp only [argmaxes, List.mem_filter, List.mem_range, decide_eq_true_eq, Greedy]
  constructor
  · rintro ⟨h1, h2⟩
    refine ⟨q[a], by simp [h1], ?_⟩
    intro y hy
    have := le_maxOf q y hy
    simp only [List.getD_eq_getElem?_getD, List.getElem?_eq_getElem h1, Option.getD_some] at h2
    rw [h2]; exact this
  · rintro ⟨x, h1, h2⟩
    have h3 := (List.getElem?_eq_some_iff.mp h1)
    obtain ⟨h4, h5⟩ := h3
    refine ⟨h4, ?_⟩
    simp only [List.getD_eq_getElem?_getD, h1, Option.getD_some]
    apply le_antisymm
    · exact le_maxOf q x (List.mem_iff_getElem?.mpr ⟨a, h1⟩)
    · exact h2 _ (maxOf_mem q (by rintro rfl; simp at h4))

open Classical in
theorem argmaxes_length (q : List ℝ) : (argmaxes q).length = nGreedy q := by
  unfold nGreedy
  have : (List.range q.length).filter (fun a => decide (Greedy q a)) = argmaxes q := by
    rw [argmaxes]
    apply List.filter_congr
    intro a ha
    have h1 := mem_argmaxes q a
    simp only [argmaxes, List.mem_filter, ha, true_and, decide_eq_true_eq] at h1
    simp only [← h1]
  rw [this]

theorem nGreedy_pos (q : List ℝ) (h : q ≠ []) : 0 < nGreedy q := by
  rw [← argmaxes_length]
  obtain ⟨a, ha⟩ := List.mem_iff_getElem?.mp (maxOf_mem q h)
  have : a ∈ argmaxes q := (mem_argmaxes q a).mpr ⟨_, ha, fun y hy => le_maxOf q y hy⟩
  exact List.length_pos_of_mem this

theorem argmaxes_nodup (q : List ℝ) : (argmaxes q).Nodup := List.Nodup.filter _ List.nodup_range

theorem argmaxes_lt (q : List ℝ) (a : Nat) (h : a ∈ argmaxes q) : a < q.length := by
  simp only [argmaxes, List.mem_filter, List.mem_range] at h
  exact h.1

theorem sum_ite_count (l : List Nat) (P : Nat → Prop) [DecidablePred P] (x y : ℝ) :
    (l.map (fun a => if P a then x + y else x)).sum = l.length * x + (l.filter (fun a => P a)).length * y := by
  induction l with
  | nil => simp
  | cons a l ih =>
    by_cases h : P a
    · simp [h, ih]; ring
    · simp [h, ih]; ring

theorem sum_div (l : List ℝ) (c : ℝ) : (l.map (fun x => x / c)).sum = l.sum / c := by
  induction l with
  | nil => simp
  | cons a l ih => simp [ih, add_div]

theorem sum_map_mul (l : List ℝ) (c : ℝ) : (l.map (fun x => c * x)).sum = c * l.sum := by
  induction l with
  | nil => simp
  | cons a l ih => simp [ih, mul_add]

/-! ### Distributions -/

theorem mass_append {α : Type} [DecidableEq α] (d d' : Dist α) (x : α) :
    Dist.mass (d ++ d') x = Dist.mass d x + Dist.mass d' x := by
  simp [Dist.mass]

theorem mass_cons {α : Type} [DecidableEq α] (p : α × ℝ) (d : Dist α) (x : α) :
    Dist.mass (p :: d) x = (if p.1 = x then p.2 else 0) + Dist.mass d x := by
  unfold Dist.mass
  by_cases h : p.1 = x <;> simp [h]

theorem mass_scale {α : Type} [DecidableEq α] (d : Dist α) (c : ℝ) (x : α) :
    Dist.mass (d.map (fun r => (r.1, c * r.2))) x = c * Dist.mass d x := by
  induction d with
  | nil => simp [Dist.mass]
  | cons p d ih =>
    rw [List.map_cons, mass_cons, mass_cons, ih]
    by_cases h : p.1 = x <;> simp [h] <;> ring

theorem mass_bind_less {α : Type} [DecidableEq α] (eps : ℝ) (f : Bool → Dist α) (x : α) :
    Dist.mass ((Dist.less eps).bind f) x = eps * Dist.mass (f true) x + (1 - eps) * Dist.mass (f false) x := by
  simp only [Dist.bind, Dist.less, List.map_cons, List.map_nil, List.flatten_cons, List.flatten_nil, List.append_nil]
  rw [mass_append, mass_scale, mass_scale]

theorem mass_map_const {α : Type} [DecidableEq α] (l : List α) (c : ℝ) (x : α) (h : l.Nodup) :
    Dist.mass (l.map (fun y => (y, c))) x = if x ∈ l then c else 0 := by
  induction l with
  | nil => simp [Dist.mass]
  | cons a l ih =>
    rw [List.nodup_cons] at h
    rw [List.map_cons, mass_cons, ih h.2]
    by_cases hx : a = x
    · subst hx; simp [h.1]
    · have : ¬ x = a := fun e => hx e.symm
      simp [hx, this]

theorem mass_choice {α : Type} [DecidableEq α] (l : List α) (x : α) (h : l.Nodup) :
    Dist.mass (Dist.choice l) x = if x ∈ l then 1 / (l.length : ℝ) else 0 := mass_map_const l _ x h

theorem mass_weighted_aux (p : List ℝ) (x : Nat) : ∀ (l : List Nat), l.Nodup →
    Dist.mass (l.map (fun i => (i, p.getD i 0))) x = if x ∈ l then p.getD x 0 else 0
  | [], _ => by simp [Dist.mass]
  | a :: l, h => by
    rw [List.nodup_cons] at h
    rw [List.map_cons, mass_cons, mass_weighted_aux p x l h.2]
    by_cases hx : a = x
    · subst hx; simp [h.1]
    · have : ¬ x = a := fun e => hx e.symm
      simp [hx, this]

theorem mass_weighted (p : List ℝ) (x : Nat) : Dist.mass (Dist.weighted p) x = p.getD x 0 := by
  unfold Dist.weighted
  rw [mass_weighted_aux p x _ List.nodup_range]
  split
  · rfl
  · rename_i h
    simp only [List.mem_range, not_lt] at h
    simp [List.getD_eq_getElem?_getD, h]

/-! ### Softmax -/

theorem expSum_pos (l : List ℝ) (f : ℝ → ℝ) (h : l ≠ []) : 0 < (l.map (fun x => Real.exp (f x))).sum := by
  cases l with
  | nil => exact absurd rfl h
  | cons a l =>
    have : 0 ≤ (l.map (fun x => Real.exp (f x))).sum := by
      apply List.sum_nonneg
      intro x hx
      obtain ⟨y, _, rfl⟩ := List.mem_map.mp hx
      exact (Real.exp_pos _).le
    simp only [List.map_cons, List.sum_cons]
    have := Real.exp_pos (f a)
    linarith

/-- Subtracting the maximum does not change the probabilities. -/
theorem boltzmann_eq (q : List ℝ) (beta : ℝ) :
    boltzmannProbs q beta =
      q.map (fun x => Real.exp (x * beta) / (q.map (fun y => Real.exp (y * beta))).sum) := by
  unfold boltzmannProbs
  simp only [List.map_map]
  set m := maxOf (q.map (fun x => x * beta)) with hm
  have hs : (q.map ((fun x => Real.exp (x - m)) ∘ fun x => x * beta)).sum =
      Real.exp (-m) * (q.map (fun y => Real.exp (y * beta))).sum := by
    rw [← sum_map_mul, List.map_map]
    congr 1
    apply List.map_congr_left
    intro x _
    simp only [Function.comp]
    rw [← Real.exp_add]
    congr 1
    ring
  rw [hs]
  apply List.map_congr_left
  intro x _
  simp only [Function.comp]
  have h1 : Real.exp (x * beta - m) = Real.exp (-m) * Real.exp (x * beta) := by
    rw [← Real.exp_add]; congr 1; ring
  rw [h1]
  exact mul_div_mul_left _ _ (Real.exp_pos _).ne'

end

end Verif.Policy
