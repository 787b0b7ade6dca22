/-
Lemmas for C135: operations on vectors, columns and matrices.
-/
import Verif.ActorCritic.ModelShapes
import Mathlib.Tactic.FieldSimp
import Mathlib.Tactic.Ring
import Mathlib.Data.List.GetD

namespace Verif.ActorCritic.Shapes

open Verif.Backend (Tensor)
open Verif.DQN.Nets (squeeze squeezeIdx op1 op2 total mean bshape padShape bidx)

noncomputable section

/-- The tensor is a number; a vector; a column; a matrix with the given entries. -/
def IsNum (t : Tensor ℝ) (x : ℝ) : Prop := t.shape = [] ∧ t.entry [] = x
def IsVec (t : Tensor ℝ) (b : ℕ) (f : ℕ → ℝ) : Prop := t.shape = [b] ∧ ∀ i < b, t.entry [i] = f i
def IsCol (t : Tensor ℝ) (b : ℕ) (f : ℕ → ℝ) : Prop := t.shape = [b, 1] ∧ ∀ i < b, t.entry [i, 0] = f i
def IsMat (t : Tensor ℝ) (b k : ℕ) (f : ℕ → ℕ → ℝ) : Prop := t.shape = [b, k] ∧ ∀ i < b, ∀ j < k, t.entry [i, j] = f i j

theorem IsCol.mat {t : Tensor ℝ} {b : ℕ} {f : ℕ → ℝ} (h : IsCol t b f) : IsMat t b 1 fun i _ => f i :=
  ⟨h.1, fun i hi j hj => by
    have : j = 0 := by omega
    subst this; exact h.2 i hi⟩

theorem IsMat.col {t : Tensor ℝ} {b : ℕ} {f : ℕ → ℕ → ℝ} (h : IsMat t b 1 f) : IsCol t b fun i => f i 0 :=
  ⟨h.1, fun i hi => h.2 i hi 0 one_pos⟩

theorem vec_is (b : ℕ) (f : ℕ → ℝ) : IsVec (vec b f) b f := ⟨rfl, fun _ _ => rfl⟩
theorem col_is (b : ℕ) (f : ℕ → ℝ) : IsCol (col b f) b f := ⟨rfl, fun _ _ => rfl⟩

theorem op1_vec {t : Tensor ℝ} {b : ℕ} {f : ℕ → ℝ} (F : ℝ → ℝ) (h : IsVec t b f) : IsVec (op1 F t) b fun i => F (f i) :=
  ⟨h.1, fun i hi => congrArg F (h.2 i hi)⟩
theorem op1_num {t : Tensor ℝ} {x : ℝ} (F : ℝ → ℝ) (h : IsNum t x) : IsNum (op1 F t) (F x) := ⟨h.1, congrArg F h.2⟩
theorem op1_mat {t : Tensor ℝ} {b k : ℕ} {f : ℕ → ℕ → ℝ} (F : ℝ → ℝ) (h : IsMat t b k f) : IsMat (op1 F t) b k fun i j => F (f i j) :=
  ⟨h.1, fun i hi j hj => congrArg F (h.2 i hi j hj)⟩
theorem op1_col {t : Tensor ℝ} {b : ℕ} {f : ℕ → ℝ} (F : ℝ → ℝ) (h : IsCol t b f) : IsCol (op1 F t) b fun i => F (f i) :=
  ⟨h.1, fun i hi => congrArg F (h.2 i hi)⟩

theorem one_idx {b i : ℕ} (h : i < b) : (if b = 1 then 0 else i) = i := by
  split <;> omega

theorem op2_vec {x y : Tensor ℝ} {b : ℕ} {f g : ℕ → ℝ} (F : ℝ → ℝ → ℝ) (hx : IsVec x b f) (hy : IsVec y b g) :
    ∃ z, op2 F x y = some z ∧ IsVec z b fun i => F (f i) (g i) := by
  obtain ⟨sx, ex⟩ := x
  obtain ⟨sy, ey⟩ := y
  obtain ⟨rfl, hx⟩ := hx
  obtain ⟨rfl, hy⟩ := hy
  have hs : bshape [b] [b] = some [b] := by simp [bshape, padShape]
  refine ⟨_, by simp only [op2, hs, Option.map_some]; rfl, rfl, fun i hi => ?_⟩
  simp only [bidx, List.length_cons, List.length_nil, Nat.sub_self, List.drop_zero, List.zipWith_cons_cons, List.zipWith_nil_left, one_idx hi]
  exact congrArg₂ F (hx i hi) (hy i hi)

theorem op2_mat {x y : Tensor ℝ} {b k : ℕ} {f g : ℕ → ℕ → ℝ} (F : ℝ → ℝ → ℝ) (hx : IsMat x b k f) (hy : IsMat y b k g) :
    ∃ z, op2 F x y = some z ∧ IsMat z b k fun i j => F (f i j) (g i j) := by
  obtain ⟨sx, ex⟩ := x
  obtain ⟨sy, ey⟩ := y
  obtain ⟨rfl, hx⟩ := hx
  obtain ⟨rfl, hy⟩ := hy
  have hs : bshape [b, k] [b, k] = some [b, k] := by simp [bshape, padShape]
  refine ⟨_, by simp only [op2, hs, Option.map_some]; rfl, rfl, fun i hi j hj => ?_⟩
  simp only [bidx, List.length_cons, List.length_nil, Nat.sub_self, List.drop_zero, List.zipWith_cons_cons, List.zipWith_nil_left, one_idx hi, one_idx hj]
  exact congrArg₂ F (hx i hi j hj) (hy i hi j hj)

theorem op2_col {x y : Tensor ℝ} {b : ℕ} {f g : ℕ → ℝ} (F : ℝ → ℝ → ℝ) (hx : IsCol x b f) (hy : IsCol y b g) :
    ∃ z, op2 F x y = some z ∧ IsCol z b fun i => F (f i) (g i) := by
  obtain ⟨z, h, hz⟩ := op2_mat F hx.mat hy.mat
  exact ⟨z, h, hz.col⟩

/-- A column and a vector give all the pairs. -/
theorem op2_col_vec {x y : Tensor ℝ} {b k : ℕ} {f g : ℕ → ℝ} (F : ℝ → ℝ → ℝ) (hx : IsCol x b f) (hy : IsVec y k g) :
    ∃ z, op2 F x y = some z ∧ IsMat z b k fun i j => F (f i) (g j) := by
  obtain ⟨sx, ex⟩ := x
  obtain ⟨sy, ey⟩ := y
  obtain ⟨rfl, hx⟩ := hx
  obtain ⟨rfl, hy⟩ := hy
  have hs : bshape [b, 1] [k] = some [b, k] := by
    by_cases h1 : b = 1
    · subst h1; by_cases h2 : k = 1
      · subst h2; simp [bshape, padShape]
      · simp [bshape, padShape, h2, Ne.symm h2]
    · by_cases h2 : k = 1
      · subst h2; simp [bshape, padShape, h1]
      · simp [bshape, padShape, h1, h2, Ne.symm h2]
  refine ⟨_, by simp only [op2, hs, Option.map_some]; rfl, rfl, fun i hi j hj => ?_⟩
  simp only [bidx, List.length_cons, List.length_nil, Nat.sub_self, List.drop_zero, List.zipWith_cons_cons, List.zipWith_nil_left, one_idx hi, if_true,
    Nat.add_sub_cancel_left, zero_add, Nat.reduceAdd, Nat.reduceSub, List.drop_succ_cons, one_idx hj]
  exact congrArg₂ F (hx i hi) (hy j hj)

theorem op2_vec_col {x y : Tensor ℝ} {b k : ℕ} {f g : ℕ → ℝ} (F : ℝ → ℝ → ℝ) (hx : IsVec x k g) (hy : IsCol y b f) :
    ∃ z, op2 F x y = some z ∧ IsMat z b k fun i j => F (g j) (f i) := by
  obtain ⟨sx, ex⟩ := x
  obtain ⟨sy, ey⟩ := y
  obtain ⟨rfl, hx⟩ := hx
  obtain ⟨rfl, hy⟩ := hy
  have hs : bshape [k] [b, 1] = some [b, k] := by
    by_cases h1 : b = 1
    · subst h1; by_cases h2 : k = 1
      · subst h2; simp [bshape, padShape]
      · simp [bshape, padShape, h2]
    · by_cases h2 : k = 1
      · subst h2; simp [bshape, padShape, Ne.symm h1]
      · simp [bshape, padShape, Ne.symm h1, h2]
  refine ⟨_, by simp only [op2, hs, Option.map_some]; rfl, rfl, fun i hi j hj => ?_⟩
  simp only [bidx, List.length_cons, List.length_nil, Nat.sub_self, List.drop_zero, List.zipWith_cons_cons, List.zipWith_nil_left, one_idx hi, if_true,
    Nat.add_sub_cancel_left, zero_add, Nat.reduceAdd, Nat.reduceSub, List.drop_succ_cons, one_idx hj]
  exact congrArg₂ F (hx j hj) (hy i hi)

theorem op2_mat_vec {x y : Tensor ℝ} {b k : ℕ} {f : ℕ → ℕ → ℝ} {g : ℕ → ℝ} (F : ℝ → ℝ → ℝ) (hx : IsMat x b k f) (hy : IsVec y k g) (hb : 0 < b) :
    ∃ z, op2 F x y = some z ∧ IsMat z b k fun i j => F (f i j) (g j) := by
  obtain ⟨sx, ex⟩ := x
  obtain ⟨sy, ey⟩ := y
  obtain ⟨rfl, hx⟩ := hx
  obtain ⟨rfl, hy⟩ := hy
  have hs : bshape [b, k] [k] = some [b, k] := by
    by_cases h1 : b = 1
    · subst h1; simp [bshape, padShape]
    · simp [bshape, padShape, h1]
  refine ⟨_, by simp only [op2, hs, Option.map_some]; rfl, rfl, fun i hi j hj => ?_⟩
  simp only [bidx, List.length_cons, List.length_nil, Nat.sub_self, List.drop_zero, List.zipWith_cons_cons, List.zipWith_nil_left, one_idx hi,
    Nat.add_sub_cancel_left, zero_add, Nat.reduceAdd, Nat.reduceSub, List.drop_succ_cons, one_idx hj]
  exact congrArg₂ F (hx i hi j hj) (hy j hj)

theorem op2_vec_mat {x y : Tensor ℝ} {b k : ℕ} {f : ℕ → ℕ → ℝ} {g : ℕ → ℝ} (F : ℝ → ℝ → ℝ) (hx : IsVec x k g) (hy : IsMat y b k f) (hb : 0 < b) :
    ∃ z, op2 F x y = some z ∧ IsMat z b k fun i j => F (g j) (f i j) := by
  obtain ⟨sx, ex⟩ := x
  obtain ⟨sy, ey⟩ := y
  obtain ⟨rfl, hx⟩ := hx
  obtain ⟨rfl, hy⟩ := hy
  have hs : bshape [k] [b, k] = some [b, k] := by
    by_cases h1 : b = 1
    · subst h1; simp [bshape, padShape]
    · simp [bshape, padShape, Ne.symm h1]
  refine ⟨_, by simp only [op2, hs, Option.map_some]; rfl, rfl, fun i hi j hj => ?_⟩
  simp only [bidx, List.length_cons, List.length_nil, Nat.sub_self, List.drop_zero, List.zipWith_cons_cons, List.zipWith_nil_left, one_idx hi,
    Nat.add_sub_cancel_left, zero_add, Nat.reduceAdd, Nat.reduceSub, List.drop_succ_cons, one_idx hj]
  exact congrArg₂ F (hx j hj) (hy i hi j hj)

theorem op2_col_mat {x y : Tensor ℝ} {b k : ℕ} {f : ℕ → ℕ → ℝ} {g : ℕ → ℝ} (F : ℝ → ℝ → ℝ) (hx : IsCol x b g) (hy : IsMat y b k f) :
    ∃ z, op2 F x y = some z ∧ IsMat z b k fun i j => F (g i) (f i j) := by
  obtain ⟨sx, ex⟩ := x
  obtain ⟨sy, ey⟩ := y
  obtain ⟨rfl, hx⟩ := hx
  obtain ⟨rfl, hy⟩ := hy
  have hs : bshape [b, 1] [b, k] = some [b, k] := by
    by_cases h1 : k = 1
    · subst h1; simp [bshape, padShape]
    · simp [bshape, padShape, Ne.symm h1]
  refine ⟨_, by simp only [op2, hs, Option.map_some]; rfl, rfl, fun i hi j hj => ?_⟩
  simp only [bidx, List.length_cons, List.length_nil, Nat.sub_self, List.drop_zero, List.zipWith_cons_cons, List.zipWith_nil_left, one_idx hi, one_idx hj,
    if_true]
  exact congrArg₂ F (hx i hi) (hy i hi j hj)

theorem op2_num_vec {x y : Tensor ℝ} {b : ℕ} {a : ℝ} {g : ℕ → ℝ} (F : ℝ → ℝ → ℝ) (hx : IsNum x a) (hy : IsVec y b g) :
    ∃ z, op2 F x y = some z ∧ IsVec z b fun i => F a (g i) := by
  obtain ⟨sx, ex⟩ := x
  obtain ⟨sy, ey⟩ := y
  obtain ⟨rfl, hx⟩ := hx
  obtain ⟨rfl, hy⟩ := hy
  have hs : bshape [] [b] = some [b] := by
    by_cases h : b = 1
    · subst h; simp [bshape, padShape]
    · simp [bshape, padShape, Ne.symm h]
  refine ⟨_, by simp only [op2, hs, Option.map_some]; rfl, rfl, fun i hi => ?_⟩
  simp only [bidx, List.length_cons, List.length_nil, Nat.sub_self, List.drop_zero, List.zipWith_cons_cons, List.zipWith_nil_left, one_idx hi]
  exact congrArg₂ F hx (hy i hi)

theorem op2_vec_num {x y : Tensor ℝ} {b : ℕ} {a : ℝ} {g : ℕ → ℝ} (F : ℝ → ℝ → ℝ) (hx : IsVec x b g) (hy : IsNum y a) :
    ∃ z, op2 F x y = some z ∧ IsVec z b fun i => F (g i) a := by
  obtain ⟨sx, ex⟩ := x
  obtain ⟨sy, ey⟩ := y
  obtain ⟨rfl, hx⟩ := hx
  obtain ⟨rfl, hy⟩ := hy
  have hs : bshape [b] [] = some [b] := by
    by_cases h : b = 1
    · subst h; simp [bshape, padShape]
    · simp [bshape, padShape, h]
  refine ⟨_, by simp only [op2, hs, Option.map_some]; rfl, rfl, fun i hi => ?_⟩
  simp only [bidx, List.length_cons, List.length_nil, Nat.sub_self, List.drop_zero, List.zipWith_cons_cons, List.zipWith_nil_left, one_idx hi]
  exact congrArg₂ F (hx i hi) hy

theorem op2_num {x y : Tensor ℝ} {a c : ℝ} (F : ℝ → ℝ → ℝ) (hx : IsNum x a) (hy : IsNum y c) :
    ∃ z, op2 F x y = some z ∧ IsNum z (F a c) := by
  obtain ⟨sx, ex⟩ := x
  obtain ⟨sy, ey⟩ := y
  obtain ⟨rfl, hx⟩ := hx
  obtain ⟨rfl, hy⟩ := hy
  have hs : bshape [] [] = some [] := by simp [bshape, padShape]
  refine ⟨_, by simp only [op2, hs, Option.map_some]; rfl, rfl, ?_⟩
  exact congrArg₂ F hx hy

/-- What a critic that does not return a column gives: a vector, or a number for one state. -/
def IsFlat (t : Tensor ℝ) (b : ℕ) (f : ℕ → ℝ) : Prop := IsVec t b f ∨ (b = 1 ∧ IsNum t (f 0))

theorem squeeze_col_flat (b : ℕ) (f : ℕ → ℝ) : IsFlat (squeeze (col b f)) b f := by
  by_cases h : b = 1
  · subst h; exact Or.inr ⟨rfl, by simp [squeeze, col], by simp [squeeze, col, squeezeIdx]⟩
  · exact Or.inl ⟨by simp [squeeze, col, h], fun i _ => by simp [squeeze, col, squeezeIdx, h]⟩

theorem squeeze_vec_flat (b : ℕ) (f : ℕ → ℝ) : IsFlat (squeeze (vec b f)) b f := by
  by_cases h : b = 1
  · subst h; exact Or.inr ⟨rfl, by simp [squeeze, vec], by simp [squeeze, vec, squeezeIdx]⟩
  · exact Or.inl ⟨by simp [squeeze, vec, h], fun i _ => by simp [squeeze, vec, squeezeIdx, h]⟩

theorem squeeze_squeeze_flat (b : ℕ) (f : ℕ → ℝ) : IsFlat (squeeze (squeeze (col b f))) b f := by
  by_cases h : b = 1
  · subst h; exact Or.inr ⟨rfl, by simp [squeeze, col], by simp [squeeze, col, squeezeIdx]⟩
  · exact Or.inl ⟨by simp [squeeze, col, h], fun i _ => by simp [squeeze, col, squeezeIdx, h]⟩

theorem out_flat {form : Form} (hf : form ≠ .column) (b : ℕ) (f : ℕ → ℝ) : IsFlat (form.out b f) b f := by
  cases form with
  | column => exact absurd rfl hf
  | vector => exact Or.inl (vec_is b f)
  | squeezed => exact squeeze_col_flat b f

theorem squeeze_out_flat (form : Form) (b : ℕ) (f : ℕ → ℝ) : IsFlat (squeeze (form.out b f)) b f := by
  cases form with
  | column => exact squeeze_col_flat b f
  | vector => exact squeeze_vec_flat b f
  | squeezed => exact squeeze_squeeze_flat b f

theorem IsFlat.vec_of {t : Tensor ℝ} {b : ℕ} {f : ℕ → ℝ} (h : IsFlat t b f) (hb : b ≠ 1) : IsVec t b f := h.resolve_right fun h => hb h.1

theorem op2_flat {x y : Tensor ℝ} {b : ℕ} {f g : ℕ → ℝ} (F : ℝ → ℝ → ℝ) (hx : IsFlat x b f) (hy : IsFlat y b g) :
    ∃ z, op2 F x y = some z ∧ IsFlat z b fun i => F (f i) (g i) := by
  rcases hx with hx | ⟨hb, hx⟩ <;> rcases hy with hy | ⟨hb', hy⟩
  · obtain ⟨z, h, hz⟩ := op2_vec F hx hy; exact ⟨z, h, Or.inl hz⟩
  · subst hb'
    obtain ⟨z, h, hz⟩ := op2_vec_num F hx hy
    exact ⟨z, h, Or.inl ⟨hz.1, fun i hi => by rw [hz.2 i hi, show i = 0 by omega]⟩⟩
  · subst hb
    obtain ⟨z, h, hz⟩ := op2_num_vec F hx hy
    exact ⟨z, h, Or.inl ⟨hz.1, fun i hi => by rw [hz.2 i hi, show i = 0 by omega]⟩⟩
  · obtain ⟨z, h, hz⟩ := op2_num F hx hy; exact ⟨z, h, Or.inr ⟨hb, hz⟩⟩

theorem op2_flat_vec {x y : Tensor ℝ} {b : ℕ} {f g : ℕ → ℝ} (F : ℝ → ℝ → ℝ) (hx : IsFlat x b f) (hy : IsVec y b g) :
    ∃ z, op2 F x y = some z ∧ IsVec z b fun i => F (f i) (g i) := by
  rcases hx with hx | ⟨hb, hx⟩
  · exact op2_vec F hx hy
  · subst hb
    obtain ⟨z, h, hz⟩ := op2_num_vec F hx hy
    exact ⟨z, h, hz.1, fun i hi => by rw [hz.2 i hi, show i = 0 by omega]⟩

theorem op2_vec_flat {x y : Tensor ℝ} {b : ℕ} {f g : ℕ → ℝ} (F : ℝ → ℝ → ℝ) (hx : IsVec x b f) (hy : IsFlat y b g) :
    ∃ z, op2 F x y = some z ∧ IsVec z b fun i => F (f i) (g i) := by
  rcases hy with hy | ⟨hb, hy⟩
  · exact op2_vec F hx hy
  · subst hb
    obtain ⟨z, h, hz⟩ := op2_vec_num F hx hy
    exact ⟨z, h, hz.1, fun i hi => by rw [hz.2 i hi, show i = 0 by omega]⟩

theorem op1_flat {t : Tensor ℝ} {b : ℕ} {f : ℕ → ℝ} (F : ℝ → ℝ) (h : IsFlat t b f) : IsFlat (op1 F t) b fun i => F (f i) := by
  rcases h with h | ⟨hb, h⟩
  · exact Or.inl (op1_vec F h)
  · exact Or.inr ⟨hb, op1_num F h⟩

/-! ### Means -/

theorem mean_vec {t : Tensor ℝ} {b : ℕ} {f : ℕ → ℝ} (h : IsVec t b f) : mean t = (∑ i ∈ Finset.range b, f i) / b := by
  obtain ⟨s, e⟩ := t
  obtain ⟨rfl, h⟩ := h
  simp only [mean, total, List.prod_cons, List.prod_nil, mul_one]
  rw [Finset.sum_congr rfl fun i hi => h i (Finset.mem_range.1 hi)]

theorem mean_mat {t : Tensor ℝ} {b k : ℕ} {f : ℕ → ℕ → ℝ} (h : IsMat t b k f) :
    mean t = (∑ i ∈ Finset.range b, ∑ j ∈ Finset.range k, f i j) / (b * k) := by
  obtain ⟨s, e⟩ := t
  obtain ⟨rfl, h⟩ := h
  simp only [mean, total, List.prod_cons, List.prod_nil, mul_one, Nat.cast_mul]
  rw [Finset.sum_congr rfl fun i hi => Finset.sum_congr rfl fun j hj => h i (Finset.mem_range.1 hi) j (Finset.mem_range.1 hj)]

theorem mean_col {t : Tensor ℝ} {b : ℕ} {f : ℕ → ℝ} (h : IsCol t b f) : mean t = (∑ i ∈ Finset.range b, f i) / b := by
  rw [mean_mat h.mat]; simp

theorem mean_flat {t : Tensor ℝ} {b : ℕ} {f : ℕ → ℝ} (h : IsFlat t b f) : mean t = (∑ i ∈ Finset.range b, f i) / b := by
  rcases h with h | ⟨hb, h⟩
  · exact mean_vec h
  · subst hb
    obtain ⟨s, e⟩ := t
    obtain ⟨rfl, h⟩ := h
    simpa [mean, total] using h

theorem newaxis_vec {t : Tensor ℝ} {b : ℕ} {f : ℕ → ℝ} (h : IsVec t b f) : ∃ z, newaxis t = some z ∧ IsCol z b f := by
  obtain ⟨s, e⟩ := t
  obtain ⟨rfl, h⟩ := h
  exact ⟨_, rfl, rfl, fun i hi => h i hi⟩

theorem rows_col {t : Tensor ℝ} {n : ℕ} {f : ℕ → ℝ} (h : IsCol t n f) (idx : List ℕ) (hi : ∀ i ∈ idx, i < n) :
    IsCol (rows idx t) idx.length fun i => f (idx.getD i 0) := by
  obtain ⟨s, e⟩ := t
  obtain ⟨rfl, h⟩ := h
  refine ⟨rfl, fun i hl => ?_⟩
  have hm : idx.getD i 0 ∈ idx := by
    rw [List.getD_eq_getElem _ _ hl]; exact List.getElem_mem hl
  exact h _ (hi _ hm)

theorem rows_vec {t : Tensor ℝ} {n : ℕ} {f : ℕ → ℝ} (h : IsVec t n f) (idx : List ℕ) (hi : ∀ i ∈ idx, i < n) :
    IsVec (rows idx t) idx.length fun i => f (idx.getD i 0) := by
  obtain ⟨s, e⟩ := t
  obtain ⟨rfl, h⟩ := h
  refine ⟨rfl, fun i hl => ?_⟩
  have hm : idx.getD i 0 ∈ idx := by
    rw [List.getD_eq_getElem _ _ hl]; exact List.getElem_mem hl
  exact h _ (hi _ hm)

theorem sum_getD (F : ℕ → ℝ) (idx : List ℕ) : ∑ i ∈ Finset.range idx.length, F (idx.getD i 0) = (idx.map F).sum := by
  induction idx with
  | nil => simp
  | cons a t ih =>
    rw [List.length_cons, Finset.sum_range_succ', List.map_cons, List.sum_cons, ← ih, add_comm]
    simp

end

end Verif.ActorCritic.Shapes
