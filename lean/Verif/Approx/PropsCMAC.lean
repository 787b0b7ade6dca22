/-
Properties of the approximators, continued: C83 (derivatives), C84 (tile-coding approximator), C85 (ensembles).
-/
import Verif.Approx.Props
import Mathlib.Data.List.Nodup
import Mathlib.Algebra.BigOperators.Group.List.Lemmas
import Mathlib.Algebra.BigOperators.Intervals

namespace Verif.Approx

open Verif.Features

noncomputable section

/-! ### C83 -/

theorem dot_comm (a b : List ℝ) : dot a b = dot b a := by
  unfold dot
  rw [List.zipWith_comm]
  simp [mul_comm]

theorem dot_plus (a b c : List ℝ) (h : a.length = b.length) : dot (plus a b) c = dot a c + dot b c := by
  unfold dot plus
  induction a generalizing b c with
  | nil =>
      have : b = [] := List.eq_nil_of_length_eq_zero (by simpa using h.symm)
      simp [this]
  | cons x a ih =>
      cases b with
      | nil => simp at h
      | cons y b =>
          cases c with
          | nil => simp
          | cons z c =>
              simp only [List.zipWith_cons_cons, List.sum_cons]
              rw [ih b c (by simpa using h)]; ring

theorem dot_block (w phi : List ℝ) (start rest : ℕ) (h : w.length = start + phi.length + rest) :
    dot w (List.replicate start 0 ++ phi ++ List.replicate rest 0) = dot ((w.drop start).take phi.length) phi := by
  have hw2 : w = w.take start ++ ((w.drop start).take phi.length ++ w.drop (start + phi.length)) := by
    rw [← List.drop_drop, List.take_append_drop, List.take_append_drop]
  conv_lhs => rw [hw2]
  rw [List.append_assoc, dot_append _ _ _ _ (by rw [List.length_take, List.length_replicate]; omega),
    dot_append _ _ _ _ (by rw [List.length_take, List.length_drop]; omega), dot_zero, dot_zero]
  ring

theorem plus_slice (a b : List ℝ) (i c : ℕ) :
    ((plus a b).drop i).take c = plus ((a.drop i).take c) ((b.drop i).take c) := by
  simp [plus, List.drop_zipWith, List.take_zipWith]

theorem row_eq (l : Linear) (h : l.Shaped) (i : ℕ) (hi : i < l.rows) :
    l.w.getD i [] = (l.getWeights.drop (i * l.cols)).take l.cols := by
  have := congrArg (fun w => w.getD i []) (slices_flatten l.cols l.w h.2)
  beta_reduce at this
  rw [List.getD_eq_getElem _ _ (by simpa [h.1] using hi)] at this
  rw [← this]; simp [Linear.getWeights]

theorem predict_getD (l : Linear) (h : l.Shaped) (phi : List ℝ) (i : ℕ) (hi : i < l.rows) :
    (l.predict phi).getD i 0 = dot phi ((l.getWeights.drop (i * l.cols)).take l.cols) := by
  rw [← row_eq l h i hi, Linear.predict, List.getD_eq_getElem _ _ (by simpa [h.1] using hi),
    List.getD_eq_getElem _ _ (by simpa [h.1] using hi), List.getElem_map]

/-- C83. Linear approximator: `diff` is the derivative of the outputs with respect to the weights. Adding `δ` to the weights
changes output `i` by exactly the product of `δ` and column `i`. With an action the derivative is the column of the action. -/
theorem C83_linear (l : Linear) (h : l.Shaped) (phi δ : List ℝ) (hphi : phi.length = l.cols) (hδ : δ.length = l.size) :
    ∃ l', l.setWeights (plus l.getWeights δ) = some l' ∧ (l.diff phi).length = l.rows ∧
      (∀ i, i < l.rows → (l'.predict phi).getD i 0 = (l.predict phi).getD i 0 + dot δ ((l.diff phi).getD i [])) ∧
      (∀ i, 1 < l.rows → i < l.rows → l.diffAction phi i = (l.diff phi).getD i []) := by
  have hg := get_length h
  rw [size_shaped h] at hδ
  have hpl : (plus l.getWeights δ).length = l.rows * l.cols := by simp [plus, hg, hδ]
  obtain ⟨l', h1, h2, h3, h4, h5⟩ := (C40_linear l h (plus l.getWeights δ)).2.1 (by rw [size_shaped h]; exact hpl)
  refine ⟨l', h1, ?_, ?_, ?_⟩
  · unfold Linear.diff; split
    · rename_i h1; simp [h1]
    · simp
  · intro i hi
    have hcol : (l.diff phi).getD i [] =
        List.replicate (i * l.cols) 0 ++ phi ++ List.replicate ((l.rows - i - 1) * l.cols) 0 := by
      unfold Linear.diff
      split
      · rename_i hr
        have : i = 0 := by omega
        subst this; simp [hr]
      · simp [List.getD_eq_getElem?_getD, hi]
    have hlen : δ.length = i * l.cols + phi.length + (l.rows - i - 1) * l.cols := by
      rw [hδ, hphi, ← Nat.succ_mul, ← Nat.add_mul]; congr 1; omega
    rw [predict_getD l' h2 phi i (by omega), predict_getD l h phi i hi, h3, h5, plus_slice, dot_comm phi, dot_comm phi,
      dot_plus _ _ _ (by simp [hg, hδ]), hcol, dot_block δ phi _ _ hlen, hphi]
  · intro i hr hi
    unfold Linear.diff Linear.diffAction
    rw [if_neg (by omega)]
    simp [List.getD_eq_getElem?_getD, hi]

/-- C83. Regressor with one linear model for each action: `diff` for an action is the derivative of the value of that action
with respect to all the weights. -/
theorem C83_action (cols : ℕ) (ms : List Linear) (h : Alike 1 cols ms) (hne : ms ≠ []) (phi δ : List ℝ)
    (hphi : phi.length = cols) (hδ : δ.length = actionSize ms) (a : ℕ) (ha : a < ms.length) :
    ∃ ms', actionSet ms (plus (actionGet ms) δ) = some ms' ∧
      (((ms'.getD a ⟨0, 0, []⟩).predict phi).getD 0 0 = ((ms.getD a ⟨0, 0, []⟩).predict phi).getD 0 0 +
        dot δ (actionDiff (ms.map Linear.size) (ms.map (fun m => (m.diff phi).getD 0 [])) a)) := by
  have hsz := alike_size 1 cols ms h hne
  have hS : actionSize ms = ms.length * (1 * cols) := by unfold actionSize; rw [hsz, Nat.mul_comm]
  obtain ⟨hgl, hgk⟩ := actionGet_eq 1 cols ms h
  have hpl : (plus (actionGet ms) δ).length = ms.length * (1 * cols) := by simp only [plus, List.length_zipWith]; omega
  obtain ⟨ms', h1, h2, h3, h4⟩ := actionSetLoop_spec 1 cols ms h (plus (actionGet ms) δ) 0 (by
    rw [Nat.zero_add, hpl])
  refine ⟨ms', by unfold actionSet; rw [hsz]; exact h1, ?_⟩
  have hma : ms.getD a ⟨0, 0, []⟩ ∈ ms := by rw [List.getD_eq_getElem _ _ ha]; exact List.getElem_mem _
  have hma' : ms'.getD a ⟨0, 0, []⟩ ∈ ms' := by
    rw [List.getD_eq_getElem _ _ (by omega)]; exact List.getElem_mem _
  obtain ⟨s1, r1, c1⟩ := h _ hma
  obtain ⟨s2, r2, c2⟩ := h3 _ hma'
  have hw' := h4 a ha
  rw [Nat.zero_add] at hw'
  rw [predict_getD _ s2 phi 0 (by omega), predict_getD _ s1 phi 0 (by omega), c1, c2, Nat.zero_mul, List.drop_zero,
    List.drop_zero, hw', plus_slice, hgk a ha]
  have hlg : (ms.getD a ⟨0, 0, []⟩).getWeights.length = cols := by rw [get_length s1, r1, c1, Nat.one_mul]
  have hle : (a + 1) * (1 * cols) ≤ ms.length * (1 * cols) := Nat.mul_le_mul_right _ ha
  rw [Nat.succ_mul] at hle
  have hlδ : ((δ.drop (a * (1 * cols))).take (1 * cols)).length = cols := by
    rw [List.length_take, List.length_drop]; omega
  have e1 : ∀ u : List ℝ, u.length = cols → u.take cols = u := fun u hu => List.take_of_length_le (by omega)
  rw [e1 _ (by simp only [plus, List.length_zipWith, hlg, hlδ, Nat.min_self]), e1 _ hlg, dot_comm phi, dot_comm phi,
    dot_plus _ _ _ (by rw [hlg, hlδ])]
  congr 1
  have hdiff : (ms.map (fun m => (m.diff phi).getD 0 [])).getD a [] = phi := by
    rw [List.getD_eq_getElem _ _ (by simpa using ha), List.getElem_map]
    rw [List.getD_eq_getElem _ _ ha] at r1
    simp [Linear.diff, r1]
  have hsize : (ms.map Linear.size).getD a 0 = cols := by
    rw [List.getD_eq_getElem _ _ (by simpa using ha), List.getElem_map]
    rw [List.getD_eq_getElem _ _ ha] at s1 r1 c1
    rw [size_shaped s1, r1, c1, Nat.one_mul]
  unfold actionDiff
  simp only
  rw [hdiff, hsize, dot_block δ phi _ _ ?_, hphi, Nat.one_mul, Nat.mul_comm cols a]
  rw [hδ, hS, hphi, List.length_map, Nat.one_mul, Nat.mul_comm cols a, Nat.mul_comm cols (_ - _ - _), ← Nat.succ_mul,
    ← Nat.add_mul]
  congr 1; omega

example : Alike 1 2 [⟨1, 2, [[1, 2]]⟩, ⟨1, 2, [[3, 4]]⟩] ∧ ([5, 6] : List ℝ).length = 2 := by
  refine ⟨?_, rfl⟩
  intro m hm; simp at hm; rcases hm with rfl | rfl <;> simp [Linear.Shaped]

/-! ### C84 -/

/-- The tilings give indexes in their range. -/
def InRange {X : Type} (ts : List (Tiling X)) : Prop := ∀ x, ∀ t ∈ ts, ∀ j, t.index x = some j → j < t.size

theorem mem_indexes_lt {X : Type} (ts : List (Tiling X)) (h : InRange ts) (x : X) (p : ℕ) (hp : p ∈ computeIndexes ts x) :
    p < featuresSize ts := by
  rw [C49_indexes] at hp
  obtain ⟨t, ht, j, h1, rfl⟩ := hp
  have hj := h x _ (List.getElem_mem ht) j h1
  rw [featuresSize_eq]
  have h2 : offset ts (t + 1) = offset ts t + (ts[t]).size := by
    unfold offset
    rw [List.take_add_one, List.getElem?_eq_getElem ht, List.map_append, List.sum_append]
    simp only [Option.toList_some, List.map_cons, List.map_nil, List.sum_cons, List.sum_nil, Nat.add_zero]
  have h3 : offset ts (t + 1) ≤ (ts.map Tiling.size).sum := by
    unfold offset
    obtain ⟨r, hr⟩ := (List.take_prefix (t + 1) ts).map Tiling.size
    rw [← hr, List.sum_append]; omega
  omega

theorem nodup_indexes {X : Type} (ts : List (Tiling X)) (h : InRange ts) (x : X) : (computeIndexes ts x).Nodup := by
  have key : ∀ (ts : List (Tiling X)) (off : ℕ), (∀ t ∈ ts, ∀ j, t.index x = some j → j < t.size) →
      (ts.foldl (indexStep x) ([], off)).1.Nodup ∧ ∀ p ∈ (ts.foldl (indexStep x) ([], off)).1, off ≤ p := by
    intro ts
    induction ts with
    | nil => intro off _; simp
    | cons t ts ih =>
        intro off hr
        obtain ⟨h1, h2⟩ := ih (off + t.size) (fun t' h' => hr t' (by simp [h']))
        rw [List.foldl_cons]
        cases hx : t.index x with
        | none =>
            rw [indexStep_none hx]
            exact ⟨h1, fun p hp => by have := h2 p hp; omega⟩
        | some j =>
            have hj := hr t (by simp) j hx
            rw [indexStep_some hx, computeIndexes_go]
            constructor
            · rw [List.nil_append, List.singleton_append, List.nodup_cons]
              refine ⟨fun hm => ?_, h1⟩
              have := h2 _ hm; omega
            · intro p hp
              simp only [List.nil_append, List.singleton_append, List.mem_cons] at hp
              rcases hp with rfl | hp
              · omega
              · have := h2 p hp; omega
  exact (key ts 0 (h x)).1

theorem feature_getD {X : Type} (ts : List (Tiling X)) (h : InRange ts) (x : X) (p : ℕ) :
    (tilesFeatures ts x).getD p 0 = if p ∈ computeIndexes ts x then 1 else 0 := by
  by_cases hp : p < featuresSize ts
  · unfold tilesFeatures computeIndexes
    rw [tilesFeatures_go x ts _ 0 p (by simpa using hp)]
    congr 1
    simp [List.getD_eq_getElem?_getD, List.getElem?_replicate, hp]
  · rw [List.getD_eq_default _ _ (by rw [tilesFeatures_length]; omega), if_neg]
    intro hm
    exact hp (mem_indexes_lt ts h x p hm)

theorem sum_getD (l : List ℝ) : l.sum = ∑ p ∈ Finset.range l.length, l.getD p 0 := by
  induction l with
  | nil => simp
  | cons a l ih =>
      rw [List.sum_cons, List.length_cons, Finset.sum_range_succ', ih]
      simp [add_comm]

theorem sum_indexes {X : Type} (ts : List (Tiling X)) (h : InRange ts) (x : X) (f : ℕ → ℝ) :
    ((computeIndexes ts x).map f).sum =
      ∑ p ∈ Finset.range (featuresSize ts), f p * (tilesFeatures ts x).getD p 0 := by
  have h1 : ((computeIndexes ts x).map f).sum = ∑ p ∈ (computeIndexes ts x).toFinset, f p :=
    (List.sum_toFinset f (nodup_indexes ts h x)).symm
  rw [h1]
  have h2 : (computeIndexes ts x).toFinset = (Finset.range (featuresSize ts)).filter (fun p => p ∈ computeIndexes ts x) := by
    ext p
    simp only [List.mem_toFinset, Finset.mem_filter, Finset.mem_range]
    exact ⟨fun hp => ⟨mem_indexes_lt ts h x p hp, hp⟩, fun hp => hp.2⟩
  rw [h2, Finset.sum_filter]
  apply Finset.sum_congr rfl
  intro p _
  rw [feature_getD ts h]
  split <;> simp

theorem active_eq {X : Type} (ts : List (Tiling X)) (h : InRange ts) (x : X) :
    active ts x = (computeIndexes ts x).length := by
  have := sum_indexes ts h x (fun _ => 1)
  simp only [List.map_const', List.sum_replicate, one_mul] at this
  rw [active, sum_getD, tilesFeatures_length, ← this]; simp

/-- C84. The prediction of the tile-coding approximator is the product of the weights with the features. -/
theorem C84_predict {X : Type} (ts : List (Tiling X)) (h : InRange ts) (w : List ℝ) (hw : w.length = featuresSize ts)
    (x : X) : cmacPredict ts w x = dot w (tilesFeatures ts x) := by
  unfold cmacPredict
  rw [sum_indexes ts h x (fun j => w.getD j 0)]
  have : ∀ (a b : List ℝ), a.length = b.length → dot a b = ∑ p ∈ Finset.range a.length, a.getD p 0 * b.getD p 0 := by
    intro a
    induction a with
    | nil => intro b _; simp [dot]
    | cons x a ih =>
        intro b hb
        cases b with
        | nil => simp at hb
        | cons y b =>
            rw [List.length_cons, Finset.sum_range_succ']
            have := ih b (by simpa using hb)
            simp only [dot, List.zipWith_cons_cons, List.sum_cons, List.getD_cons_succ, List.getD_cons_zero] at this ⊢
            rw [this]; ring
  rw [this w _ (by rw [tilesFeatures_length, hw]), hw]

theorem cmacFit_predict {X : Type} (ts : List (Tiling X)) (h : InRange ts) (w w' : List ℝ)
    (hw : w.length = featuresSize ts) (data : List (X × ℝ)) (alpha : ℝ) (hf : cmacFit ts w data alpha = some w') (x : X) :
    w'.length = w.length ∧ cmacPredict ts w' x = cmacPredict ts w x + alpha * ((computeIndexes ts x).map (fun j =>
      (data.map (fun d => (d.2 - cmacPredict ts w d.1) * ((tilesFeatures ts d.1).getD j 0 / active ts d.1))).sum /
        (if (data.map (fun d => (tilesFeatures ts d.1).getD j 0)).sum = 0 then 1
          else (data.map (fun d => (tilesFeatures ts d.1).getD j 0)).sum))).sum := by
  unfold cmacFit at hf
  split at hf
  · cases hf
  · simp only [Option.some.injEq] at hf
    subst hf
    refine ⟨by simp, ?_⟩
    conv_lhs => rw [cmacPredict]
    conv_rhs => rw [cmacPredict, ← List.sum_map_mul_left, ← List.sum_map_add]
    congr 1
    apply List.map_congr_left
    intro j hj
    have hjs := mem_indexes_lt ts h x j hj
    rw [List.getD_eq_getElem _ _ (by rw [List.length_mapIdx]; omega), List.getElem_mapIdx,
      List.getD_eq_getElem _ _ (by omega)]

/-- C84. If all the residuals of a batch are `δ` and all its inputs are covered by the same number of tilings, one call of
`fit` moves the prediction of every input of the batch by exactly `alpha * δ`. In particular, fitting a single sample with
`alpha = 1` makes the prediction equal to the target. -/
theorem C84_fit {X : Type} (ts : List (Tiling X)) (h : InRange ts) (w w' : List ℝ) (hw : w.length = featuresSize ts)
    (data : List (X × ℝ)) (alpha δ : ℝ) (n : ℕ) (hδ : ∀ d ∈ data, d.2 - cmacPredict ts w d.1 = δ)
    (hn : ∀ d ∈ data, (computeIndexes ts d.1).length = n) (hf : cmacFit ts w data alpha = some w') (d : X × ℝ) (hd : d ∈ data) :
    cmacPredict ts w' d.1 = cmacPredict ts w d.1 + alpha * δ := by
  rw [(cmacFit_predict ts h w w' hw data alpha hf d.1).2]
  have hn0 : (n : ℝ) ≠ 0 := by
    intro h0
    unfold cmacFit at hf
    rw [if_pos ⟨d, hd, by rw [active_eq ts h, hn d hd, h0]⟩] at hf
    cases hf
  congr 2
  have hterm : ∀ j ∈ computeIndexes ts d.1,
      (data.map (fun d => (d.2 - cmacPredict ts w d.1) * ((tilesFeatures ts d.1).getD j 0 / active ts d.1))).sum /
        (if (data.map (fun d => (tilesFeatures ts d.1).getD j 0)).sum = 0 then 1
          else (data.map (fun d => (tilesFeatures ts d.1).getD j 0)).sum) = δ / n := by
    intro j hj
    have hnum : data.map (fun d => (d.2 - cmacPredict ts w d.1) * ((tilesFeatures ts d.1).getD j 0 / active ts d.1)) =
        data.map (fun d => δ / n * (tilesFeatures ts d.1).getD j 0) := by
      apply List.map_congr_left
      intro d' hd'
      rw [hδ d' hd', active_eq ts h, hn d' hd']; ring
    have hpos : 0 < (data.map (fun d => (tilesFeatures ts d.1).getD j 0)).sum := by
      have hone : (1 : ℝ) ∈ data.map (fun d => (tilesFeatures ts d.1).getD j 0) := by
        rw [List.mem_map]
        exact ⟨d, hd, by rw [feature_getD ts h, if_pos hj]⟩
      have hnn : ∀ v ∈ data.map (fun d => (tilesFeatures ts d.1).getD j 0), 0 ≤ v := by
        intro v hv
        rw [List.mem_map] at hv
        obtain ⟨d', _, rfl⟩ := hv
        rw [feature_getD ts h]; split <;> norm_num
      have := List.single_le_sum hnn 1 hone
      linarith
    rw [hnum, if_neg hpos.ne', List.sum_map_mul_left, mul_div_assoc, div_self hpos.ne', mul_one]
  rw [List.map_congr_left hterm, List.map_const', List.sum_replicate, hn d hd, nsmul_eq_mul]
  field_simp

/-- C84. The prediction of an input that shares no tile with the data does not change. -/
theorem C84_local {X : Type} (ts : List (Tiling X)) (h : InRange ts) (w w' : List ℝ) (hw : w.length = featuresSize ts)
    (data : List (X × ℝ)) (alpha : ℝ) (hf : cmacFit ts w data alpha = some w') (x : X)
    (hx : ∀ d ∈ data, ∀ j ∈ computeIndexes ts x, j ∉ computeIndexes ts d.1) :
    cmacPredict ts w' x = cmacPredict ts w x := by
  rw [(cmacFit_predict ts h w w' hw data alpha hf x).2]
  have hterm : ∀ j ∈ computeIndexes ts x,
      (data.map (fun d => (d.2 - cmacPredict ts w d.1) * ((tilesFeatures ts d.1).getD j 0 / active ts d.1))).sum /
        (if (data.map (fun d => (tilesFeatures ts d.1).getD j 0)).sum = 0 then 1
          else (data.map (fun d => (tilesFeatures ts d.1).getD j 0)).sum) = 0 := by
    intro j hj
    have : data.map (fun d => (d.2 - cmacPredict ts w d.1) * ((tilesFeatures ts d.1).getD j 0 / active ts d.1)) =
        data.map (fun _ => 0) := by
      apply List.map_congr_left
      intro d hd
      rw [feature_getD ts h, if_neg (hx d hd j hj)]; simp
    rw [this]; simp
  rw [List.map_congr_left hterm]; simp

/-- C84. The call succeeds exactly if every input of the batch is covered by some tiling. -/
theorem C84_covered {X : Type} (ts : List (Tiling X)) (h : InRange ts) (w : List ℝ) (data : List (X × ℝ)) (alpha : ℝ) :
    (∃ w', cmacFit ts w data alpha = some w') ↔ ∀ d ∈ data, computeIndexes ts d.1 ≠ [] := by
  have hiff : (∃ d ∈ data, active ts d.1 = 0) ↔ ∃ d ∈ data, computeIndexes ts d.1 = [] := by
    constructor <;> rintro ⟨d, hd, h0⟩ <;> refine ⟨d, hd, ?_⟩
    · rw [active_eq ts h] at h0
      exact List.eq_nil_of_length_eq_zero (by exact_mod_cast h0)
    · rw [active_eq ts h, h0]; simp
  unfold cmacFit
  constructor
  · rintro ⟨w', hw'⟩ d hd h0
    rw [if_pos (hiff.mpr ⟨d, hd, h0⟩)] at hw'
    cases hw'
  · intro hall
    rw [if_neg]
    · exact ⟨_, rfl⟩
    · intro hex
      obtain ⟨d, hd, h0⟩ := hiff.mp hex
      exact hall d hd h0

/-- A tiling of the interval from 0 to 4 with four tiles. -/
def fourTiles : Tiling (List ℝ) := ⟨4, tileIndex [⟨0, 4, 4⟩]⟩

theorem fourTiles_inRange : InRange [fourTiles] := by
  intro x t ht j hj
  simp only [List.mem_singleton] at ht
  subst ht
  simp only [fourTiles, tileIndex] at hj ⊢
  cases x with
  | nil => simp [tileLoop] at hj
  | cons v xs =>
      rw [tileLoop] at hj
      split at hj
      · rename_i hv
        simp only [tileLoop, Option.some.injEq] at hj
        have := inTile_range ⟨0, 4, 4⟩ (by norm_num) v hv
        simp only at this
        simp only [Nat.zero_add, Nat.mul_one] at hj
        omega
      · cases hj

theorem floor_example : ⌊(5 / 2 : ℝ)⌋₊ = 2 := by
  rw [Nat.floor_eq_iff (by norm_num)]; norm_num

theorem fourTiles_index : fourTiles.index [2.5] = some 2 := by
  simp only [fourTiles, tileIndex, tileLoop]
  norm_num [floor_example]

theorem fourTiles_example : computeIndexes [fourTiles] [2.5] = [2] := by
  have h1 := fourTiles_index
  simp [computeIndexes, indexStep, h1]

/-- C83. `diff` of the tile-coding approximator is not the derivative of the prediction: the input 2.5 lies in tile number 2,
so the prediction is weight number 2, but `diff` says that it is weight number 0. -/
theorem C83_cmac_refuted : ¬ ∀ (ts : List (Tiling (List ℝ))) (w δ : List ℝ) (x : List ℝ), InRange ts →
    w.length = featuresSize ts → δ.length = w.length →
    cmacPredict ts (plus w δ) x = cmacPredict ts w x + dot δ (cmacDiff ts x) := by
  intro h
  have := h [fourTiles] [0, 0, 0, 0] [0, 0, 1, 0] [2.5] fourTiles_inRange (by simp [featuresSize, fourTiles]) rfl
  have hphi : tilesFeatures [fourTiles] [2.5] = [0, 0, 1, 0] := by
    have h1 := fourTiles_index
    have hs : featuresSize [fourTiles] = 4 := by simp [featuresSize, fourTiles]
    simp [tilesFeatures, featStep, h1, hs, List.replicate_succ]
  have hphi2 : tilesFeatures [fourTiles] [0, 0, 1, 0] = [1, 0, 0, 0] := by
    have h1 : fourTiles.index [0, 0, 1, 0] = some 0 := by
      simp only [fourTiles, tileIndex, tileLoop]
      norm_num
    have hs : featuresSize [fourTiles] = 4 := by simp [featuresSize, fourTiles]
    simp [tilesFeatures, featStep, h1, hs, List.replicate_succ]
  simp only [cmacDiff, hphi, hphi2, cmacPredict, fourTiles_example, plus, dot] at this
  norm_num at this

/-- C83. The features are the derivative of the prediction of the tile-coding approximator. -/
theorem C83_cmac_partial {X : Type} (ts : List (Tiling X)) (h : InRange ts) (w δ : List ℝ) (hw : w.length = featuresSize ts)
    (hδ : δ.length = w.length) (x : X) :
    cmacPredict ts (plus w δ) x = cmacPredict ts w x + dot δ (tilesFeatures ts x) := by
  rw [C84_predict ts h _ (by simp [plus, hw, hδ]), C84_predict ts h w hw, dot_plus _ _ _ hδ.symm]

example : InRange [fourTiles] ∧ computeIndexes [fourTiles] [2.5] ≠ [] := ⟨fourTiles_inRange, by rw [fourTiles_example]; simp⟩

/-! ### C85 -/

/-- C85. The combined prediction of an ensemble: the sum is the number of models times the mean, the minimum and the maximum
are attained and bound every model, and the mean lies between them. -/
theorem C85_predict (v : ℝ) (vs : List ℝ) :
    combinePredictions .sum v vs = (v :: vs).length * combinePredictions .mean v vs ∧
    combinePredictions .min v vs ∈ v :: vs ∧ combinePredictions .max v vs ∈ v :: vs ∧
    (∀ u ∈ v :: vs, combinePredictions .min v vs ≤ u ∧ u ≤ combinePredictions .max v vs) ∧
    combinePredictions .min v vs ≤ combinePredictions .mean v vs ∧
    combinePredictions .mean v vs ≤ combinePredictions .max v vs := by
  have hmin : ∀ (vs : List ℝ) (v : ℝ), vs.foldl min v ∈ v :: vs ∧ ∀ u ∈ v :: vs, vs.foldl min v ≤ u := by
    intro vs
    induction vs with
    | nil => intro v; simp
    | cons a vs ih =>
        intro v
        obtain ⟨h1, h2⟩ := ih (min v a)
        rw [List.foldl_cons]
        constructor
        · simp only [List.mem_cons] at h1 ⊢
          rcases h1 with h1 | h1
          · rcases min_choice v a with hc | hc <;> rw [hc] at h1 <;> rw [hc] <;> simp [h1]
          · exact .inr (.inr h1)
        · intro u hu
          simp only [List.mem_cons] at hu
          have h0 := h2 (min v a) (by simp)
          rcases hu with rfl | rfl | hu
          · exact h0.trans (min_le_left _ _)
          · exact h0.trans (min_le_right _ _)
          · exact h2 u (by simp [hu])
  have hmax : ∀ (vs : List ℝ) (v : ℝ), vs.foldl max v ∈ v :: vs ∧ ∀ u ∈ v :: vs, u ≤ vs.foldl max v := by
    intro vs
    induction vs with
    | nil => intro v; simp
    | cons a vs ih =>
        intro v
        obtain ⟨h1, h2⟩ := ih (max v a)
        rw [List.foldl_cons]
        constructor
        · simp only [List.mem_cons] at h1 ⊢
          rcases h1 with h1 | h1
          · rcases max_choice v a with hc | hc <;> rw [hc] at h1 <;> rw [hc] <;> simp [h1]
          · exact .inr (.inr h1)
        · intro u hu
          simp only [List.mem_cons] at hu
          have h0 := h2 (max v a) (by simp)
          rcases hu with rfl | rfl | hu
          · exact (le_max_left _ _).trans h0
          · exact (le_max_right _ _).trans h0
          · exact h2 u (by simp [hu])
  have hlen : (0 : ℝ) < (v :: vs).length := by simp; positivity
  obtain ⟨a1, a2⟩ := hmin vs v
  obtain ⟨b1, b2⟩ := hmax vs v
  refine ⟨?_, a1, b1, fun u hu => ⟨a2 u hu, b2 u hu⟩, ?_, ?_⟩
  · simp only [combinePredictions]; rw [mul_div_cancel₀ _ hlen.ne']
  · simp only [combinePredictions]
    rw [le_div_iff₀ hlen]
    have := List.card_nsmul_le_sum (v :: vs) (vs.foldl min v) a2
    rw [nsmul_eq_mul] at this; linarith
  · simp only [combinePredictions]
    rw [div_le_iff₀ hlen]
    have := List.sum_le_card_nsmul (v :: vs) (vs.foldl max v) b2
    rw [nsmul_eq_mul] at this; linarith

/-- C85. Fitting one model of an ensemble leaves the others as they were; without an index every model is fitted. -/
theorem C85_fit {M : Type} (fit : M → M) (models : List M) (i j : ℕ) (hj : j < models.length) :
    (ensembleFit fit models none)[j]? = some (fit (models[j])) ∧
    (ensembleFit fit models (some i))[j]? = some (if j = i then fit (models[j]) else models[j]) := by
  simp [ensembleFit, hj]

example : (ensembleFit (· + 1) [10, 20, 30] (some 1))[1]? = some 21 ∧ (ensembleFit (· + 1) [10, 20, 30] (some 1))[2]? = some 30 :=
  ⟨(C85_fit (· + 1) [10, 20, 30] 1 1 (by decide)).2, (C85_fit (· + 1) [10, 20, 30] 1 2 (by decide)).2⟩

end

end Verif.Approx
