/-
Properties of the feature implementations and of torch features (C113).
-/
import Verif.Features.ModelTensor
import Mathlib.Analysis.Real.Pi.Bounds
import Mathlib.Data.List.GetD
import Mathlib.Tactic

namespace Verif.Features.Tensor

open Verif.Features

noncomputable section

/-! ### Specification -/

/-- What users expect for the feature vectors of the samples: the vector for one sample, a matrix for several. -/
def expected : List (List ℝ) → Arr
  | [row] => .flat row
  | l => .rows l

/-- The feature returns one vector of its size for each of the samples, computed from this sample only. -/
def Computes (p : Feature) (f : List ℝ → List ℝ) (x : List (List ℝ)) : Prop :=
  p.forward x = some (.rows (x.map f)) ∧ ∀ r ∈ x, (f r).length = p.size

/-! ### Lemmas -/

theorem mapM_map {α β : Type} (l : List α) (f : α → β) (g : α → Option β) (h : ∀ a ∈ l, g a = some (f a)) : l.mapM g = some (l.map f) := by
  induction l with
  | nil => rfl
  | cons a l ih =>
    rw [List.mapM_cons, h a (by simp), ih (fun b hb => h b (by simp [hb]))]
    rfl

theorem mapM_some {α β : Type} (l : List α) (g : α → Option β) (r : List β) (h : l.mapM g = some r) :
    List.Forall₂ (fun a b => g a = some b) l r := by
  induction l generalizing r with
  | nil => simp at h; subst h; exact .nil
  | cons a l ih =>
    rw [List.mapM_cons] at h
    simp only [Option.bind_eq_bind, Option.bind_eq_some_iff, Option.pure_def, Option.some.injEq] at h
    obtain ⟨b, hb, bs, hbs, rfl⟩ := h
    exact .cons hb (ih bs hbs)

theorem mapM_none {α β : Type} (l : List α) (h : l ≠ []) : l.mapM (fun _ => (none : Option β)) = none := by
  cases l with
  | nil => exact absurd rfl h
  | cons a l => rw [List.mapM_cons]; rfl

theorem mapM_mapFun {α β γ : Type} (l : List α) (f : α → β) (g : β → Option γ) : (l.map f).mapM g = l.mapM (fun a => g (f a)) := by
  induction l with
  | nil => rfl
  | cons a l ih => rw [List.map_cons, List.mapM_cons, List.mapM_cons, ih]

theorem zipWith_map_append (x : List (List ℝ)) (f g : List ℝ → List ℝ) :
    List.zipWith (· ++ ·) (x.map f) (x.map g) = x.map (fun r => f r ++ g r) := by
  induction x with
  | nil => rfl
  | cons a x ih => simp [ih]

theorem cat_map {A : Type} (phi : List A) (h : phi ≠ []) (g : A → List ℝ → List ℝ) (x : List (List ℝ)) :
    cat (phi.map (fun p => x.map (g p))) = some (x.map (fun r => phi.flatMap (fun p => g p r))) := by
  induction phi with
  | nil => exact absurd rfl h
  | cons p phi ih =>
    cases phi with
    | nil => simp [cat]
    | cons q phi =>
      have := ih (by simp)
      simp only [List.map_cons] at this ⊢
      rw [cat, this]
      simp [zipWith_map_append]

theorem finish_squeeze (y : List (List ℝ)) (n : ℕ) (hn : 2 ≤ n) (hy : y ≠ []) (h : ∀ r ∈ y, r.length = n) : finish (squeezeAll y) = some (expected y) := by
  match y, hy with
  | [r], _ =>
    have := h r (by simp)
    simp only [squeezeAll, expected]
    rw [if_neg (by omega)]
    simp only [finish]
    rw [if_neg (by omega)]
  | a :: b :: l, _ =>
    have := h a (by simp)
    have hne : ¬ ((a :: b :: l).headD []).length = 1 := by rw [List.headD_cons]; omega
    simp only [squeezeAll, expected]
    rw [if_neg hne]
    simp [finish]

/-! ### Shapes and sizes -/

/-- C113 (part): features of at least two entries in total return, for every sample, the features of this sample one after the other: a vector of `size`
entries for one sample, a matrix with one row for each of several. In particular a sample has the same features alone and in a batch. -/
theorem C113_shapes_partial (phi : List Feature) (f : Feature → List ℝ → List ℝ) (x : List (List ℝ)) (hx : x ≠ []) (hp : phi ≠ [])
    (h : ∀ p ∈ phi, Computes p (f p) x) (hs : 2 ≤ torchSize phi) :
    torchFeatures phi x = some (expected (x.map (fun r => phi.flatMap (fun p => f p r)))) ∧
    ∀ r ∈ x, (phi.flatMap (fun p => f p r)).length = torchSize phi := by
  have hlen : ∀ r ∈ x, (phi.flatMap (fun p => f p r)).length = torchSize phi := by
    intro r hr
    rw [List.length_flatMap, torchSize]
    congr 1
    exact List.map_congr_left (fun p hpm => (h p hpm).2 r hr)
  refine ⟨?_, hlen⟩
  unfold torchFeatures
  rw [mapM_map phi (fun p => x.map (f p)) _ (fun p hpm => by rw [(h p hpm).1]; rfl), Option.bind_some, cat_map phi hp, Option.bind_some]
  refine finish_squeeze _ (torchSize phi) hs (by simpa using hx) ?_
  intro r hr
  obtain ⟨a, ha, rfl⟩ := List.mem_map.1 hr
  exact hlen a ha

/-- C113 refuted: a single feature raises an exception for one sample, and returns no column for several. -/
theorem C113_shapes_refuted : (∀ r, torchFeatures [constantTensor] [r] = none) ∧
    (∀ r s, torchFeatures [constantTensor] [r, s] = some (.flat [1, 1])) ∧ torchSize [constantTensor] = 1 ∧ ∀ x, Computes constantTensor (fun _ => [1]) x :=
  ⟨fun _ => rfl, fun _ _ => rfl, rfl, fun _ => ⟨rfl, fun _ _ => rfl⟩⟩

/-- C113: basis functions return a vector with the value of every function for one sample, a matrix for several, whatever their number. -/
theorem C113_basis (basis : List (List ℝ → Option ℝ)) (f : (List ℝ → Option ℝ) → List ℝ → ℝ) (x : List (List ℝ))
    (h : ∀ b ∈ basis, ∀ r ∈ x, b r = some (f b r)) :
    basisFeatures basis x = some (expected (x.map (fun r => basis.map (fun b => f b r)))) := by
  unfold basisFeatures
  rw [mapM_map x (fun r => basis.map (fun b => f b r)) _ (fun r hr => mapM_map basis _ _ (fun b hb => h b hb r hr))]
  match x with
  | [] => rfl
  | [a] => rfl
  | a :: b :: l => rfl

/-- C113: which features compute one vector for each sample: constants, random Fourier features and basis tensors with at least two centres. -/
theorem C113_computes (x : List (List ℝ)) :
    Computes constantTensor (fun _ => [1]) x ∧
    (∀ P phi nu, P.length = phi.length → (∀ r ∈ x, ∀ p ∈ P, r.length = p.length) → Computes (fourierTensor P phi nu) (fourierRow P phi nu) x) ∧
    (∀ basis mu scale dims normalized, 2 ≤ mu.length → (∀ r ∈ x, ∃ v, basisRow basis mu scale dims r = some v) →
      ∃ f, Computes (basisTensor basis mu scale dims normalized) f x) := by
  refine ⟨⟨rfl, fun _ _ => rfl⟩, ?_, ?_⟩
  · intro P phi nu hl hd
    refine ⟨?_, fun r _ => by simp [fourierRow, fourierTensor, hl]⟩
    simp only [fourierTensor]
    rw [if_pos]
    simpa using hd
  · intro basis mu scale dims normalized hm hv
    choose! g hg using hv
    have hgl : ∀ r ∈ x, (g r).length = mu.length := by
      intro r hr
      have := hg r hr
      simp only [basisRow, Option.bind_eq_some_iff] at this
      obtain ⟨y, _, hy⟩ := this
      exact (mapM_some _ _ _ hy).length_eq.symm
    refine ⟨fun r => if normalized then (g r).map (fun v => v / (g r).sum) else g r, ?_, ?_⟩
    · simp only [basisTensor]
      rw [mapM_map x g _ hg, Option.map_some, squeezeLast, if_neg (by omega)]
      cases normalized <;> simp [normalize]
    · intro r hr
      cases normalized <;> simp [basisTensor, hgl r hr]

/-! ### Gaussian radial basis functions -/

theorem row_eq (mu : List (List ℝ)) (hm : mu ≠ []) (scale : List ℝ) (dims : Option (List ℕ)) (r : List ℝ) :
    (mu.map (rbf dims scale)).mapM (fun (bf : List ℝ → Option ℝ) => bf r) = basisRow gaussian mu scale dims r := by
  rw [mapM_mapFun]
  unfold basisRow rbf
  cases select dims r with
  | none => simpa using mapM_none mu hm
  | some y => rfl

/-- C113 (part): for at least two centres, the torch features agree with the basis functions, for every input, and are defined for the same inputs. -/
theorem C113_agree_partial (mu : List (List ℝ)) (hm : 2 ≤ mu.length) (scale : List ℝ) (dims : Option (List ℕ)) (x : List (List ℝ)) (hx : x ≠ []) :
    torchFeatures [basisTensor gaussian mu scale dims false] x = basisFeatures (mu.map (rbf dims scale)) x := by
  have hne : mu ≠ [] := by rintro rfl; simp at hm
  unfold basisFeatures
  rw [funext (row_eq mu hne scale dims)]
  cases hr : x.mapM (basisRow gaussian mu scale dims) with
  | none =>
    unfold torchFeatures
    simp [basisTensor, hr, List.mapM_cons]
  | some y =>
    have hf := mapM_some _ _ _ hr
    have hyl : ∀ r ∈ y, r.length = mu.length := by
      intro r hrm
      obtain ⟨i, hi, rfl⟩ := List.mem_iff_getElem.1 hrm
      have := hf.get (i := i) (by rw [hf.length_eq]; exact hi) hi
      simp only [basisRow, Option.bind_eq_some_iff, List.get_eq_getElem] at this
      obtain ⟨_, _, hy⟩ := this
      exact (mapM_some _ _ _ hy).length_eq.symm
    have hyn : y ≠ [] := by
      rintro rfl
      exact hx (List.length_eq_zero_iff.1 hf.length_eq)
    unfold torchFeatures
    simp only [List.mapM_cons, List.mapM_nil, basisTensor, hr, Option.map_some, squeezeLast]
    rw [if_neg (by omega)]
    simp only [Option.bind_some, asRows, Option.bind_eq_bind, Option.pure_def, cat, Bool.false_eq_true, if_false]
    rw [finish_squeeze y _ hm hyn hyl]
    match y with
    | [] => rfl
    | [a] => rfl
    | a :: b :: l => rfl

/-- C113 refuted: with one centre the torch features cannot be computed at all; the basis function can. -/
theorem C113_agree_refuted : (∀ basis m scale dims normalized x, x ≠ [] → torchFeatures [basisTensor basis [m] scale dims normalized] x = none) ∧
    ∃ m scale x, basisFeatures ([m].map (rbf none scale)) x ≠ none ∧ x ≠ [] := by
  constructor
  · intro basis m scale dims normalized x _
    unfold torchFeatures
    simp only [List.mapM_cons, basisTensor]
    cases x.mapM (basisRow basis [m] scale dims) with
    | none => rfl
    | some y => simp [squeezeLast, asRows]
  · refine ⟨[0], [1], [[0]], ?_, by simp⟩
    simp [basisFeatures, rbf, select, List.mapM_cons]

theorem length_centers (cyclic : Bool) (n : ℕ) (a b : ℝ) : (centers cyclic n a b).length = n := by
  unfold centers
  split_ifs with h <;> simp [linspace, h]

theorem length_uniformGrid (cs : List (List ℝ)) : (uniformGrid cs).length = (cs.map List.length).prod := by
  unfold uniformGrid
  have : ∀ rows : List (List ℝ), (cs.foldl (fun rows values => values.flatMap (fun v => rows.map (fun r => r ++ [v]))) rows).length
      = rows.length * (cs.map List.length).prod := by
    induction cs with
    | nil => simp
    | cons c cs ih =>
      intro rows
      rw [List.foldl_cons, ih, List.map_cons, List.prod_cons]
      have : (c.flatMap (fun v => rows.map (fun r => r ++ [v]))).length = c.length * rows.length := by
        rw [List.length_flatMap]; simp
      rw [this]; ring
  rw [this]; simp

/-- C113: the generated features have one centre for each point of the grid. -/
theorem C113_size (eta : ℝ) (dims : Option (List ℕ)) (normalized : Bool) (box : List (ℕ × ℝ × ℝ)) :
    torchSize (gaussianGenerate eta dims normalized box) = (box.map Prod.fst).prod ∧
    torchSize (vonMisesGenerate eta dims normalized box) = (box.map Prod.fst).prod ∧
    (rbfGenerate eta dims box).length = (box.map Prod.fst).prod := by
  have h : ∀ c, (grid c box).length = (box.map Prod.fst).prod := by
    intro c
    rw [grid, length_uniformGrid, List.map_map]
    congr 1
    exact List.map_congr_left (fun b _ => length_centers c b.1 _ _)
  simp [torchSize, gaussianGenerate, vonMisesGenerate, rbfGenerate, basisTensor, h]

/-- C113 (part): the generated torch features and the generated basis functions agree, if there are at least two centres. -/
theorem C113_generate_partial (eta : ℝ) (dims : Option (List ℕ)) (box : List (ℕ × ℝ × ℝ)) (h : 2 ≤ (box.map Prod.fst).prod) (x : List (List ℝ)) (hx : x ≠ []) :
    torchFeatures (gaussianGenerate eta dims false box) x = basisFeatures (rbfGenerate eta dims box) x := by
  have hl : (rbfGenerate eta dims box).length = _ := (C113_size eta dims false box).2.2
  exact C113_agree_partial _ (by rw [← hl] at h; simpa [rbfGenerate] using h) _ _ _ hx

theorem scaled_nonneg : ∀ delta scale : List ℝ, (∀ s ∈ scale, 0 < s) → 0 ≤ scaled delta scale
  | [], _, _ => by simp [scaled]
  | _ :: _, [], _ => by simp [scaled]
  | d :: ds, s :: ss, h => by
    have h1 := scaled_nonneg ds ss (fun t ht => h t (by simp [ht]))
    have h2 : 0 ≤ d ^ 2 / s := div_nonneg (sq_nonneg d) (h s (by simp)).le
    simp only [scaled, List.zipWith_cons_cons, List.sum_cons] at h1 ⊢
    linarith

theorem scaled_zero : ∀ x m scale : List ℝ, x.length = m.length → x.length = scale.length → (∀ s ∈ scale, 0 < s) →
    (scaled (List.zipWith (· - ·) x m) scale = 0 ↔ x = m)
  | [], [], _, _, _, _ => by simp [scaled]
  | a :: x, b :: m, s :: ss, h1, h2, h => by
    have ih := scaled_zero x m ss (by simpa using h1) (by simpa using h2) (fun t ht => h t (by simp [ht]))
    have hs := h s (by simp)
    have hn := scaled_nonneg (List.zipWith (· - ·) x m) ss (fun t ht => h t (by simp [ht]))
    have h0 : 0 ≤ (a - b) ^ 2 / s := div_nonneg (sq_nonneg _) hs.le
    simp only [scaled, List.zipWith_cons_cons, List.sum_cons, List.cons.injEq] at ih hn ⊢
    rw [← ih]
    constructor
    · intro he
      have e1 : (a - b) ^ 2 / s = 0 := by linarith
      have e2 : (a - b) ^ 2 = 0 := by
        rcases div_eq_zero_iff.1 e1 with h | h
        · exact h
        · exact absurd h hs.ne'
      exact ⟨by have := pow_eq_zero_iff (two_ne_zero) |>.1 e2; linarith, by linarith⟩
    · rintro ⟨rfl, e⟩
      rw [e]; simp

theorem scaled_mono : ∀ d e scale : List ℝ, List.Forall₂ (fun a b => |a| ≤ |b|) d e → (∀ s ∈ scale, 0 < s) → scaled d scale ≤ scaled e scale
  | _, _, [], .nil, _ => le_refl _
  | _, _, _ :: _, .nil, _ => le_refl _
  | _, _, [], .cons _ _, _ => by simp [scaled]
  | a :: d, b :: e, s :: ss, .cons hab hde, h => by
    have ih := scaled_mono d e ss hde (fun t ht => h t (by simp [ht]))
    have hs := h s (by simp)
    have : a ^ 2 / s ≤ b ^ 2 / s := div_le_div_of_nonneg_right (sq_le_sq.2 hab) hs.le
    simp only [scaled, List.zipWith_cons_cons, List.sum_cons] at ih ⊢
    linarith

/-- C113: with positive scales, a Gaussian radial basis function has values between zero and one, one only at its centre, and is not larger further away. -/
theorem C113_gaussian (scale mean : List ℝ) (hs : ∀ s ∈ scale, 0 < s) :
    (∀ x v, rbf none scale mean x = some v → 0 < v ∧ v ≤ 1 ∧ (v = 1 ↔ x = mean)) ∧
    (∀ x y v w, rbf none scale mean x = some v → rbf none scale mean y = some w →
      List.Forall₂ (fun a b => |a| ≤ |b|) (List.zipWith (· - ·) x mean) (List.zipWith (· - ·) y mean) → w ≤ v) ∧
    (mean.length = scale.length → ∀ x, (∃ v, rbf none scale mean x = some v) ↔ x.length = mean.length) := by
  refine ⟨?_, ?_, ?_⟩
  · intro x v h
    simp only [rbf, select, Option.bind_some] at h
    split_ifs at h with hl
    obtain rfl := Option.some.inj h
    have h1 := scaled_nonneg (List.zipWith (· - ·) x mean) scale hs
    refine ⟨Real.exp_pos _, Real.exp_le_one_iff.2 (by linarith), ?_⟩
    rw [Real.exp_eq_one_iff, neg_eq_zero]
    exact scaled_zero x mean scale hl.1 hl.2 hs
  · intro x y v w h1 h2 hd
    simp only [rbf, select, Option.bind_some] at h1 h2
    split_ifs at h1 h2
    obtain rfl := Option.some.inj h1
    obtain rfl := Option.some.inj h2
    exact Real.exp_le_exp.2 (neg_le_neg (scaled_mono _ _ _ hd hs))
  · intro hl x
    simp only [rbf, select, Option.bind_some]
    constructor
    · rintro ⟨v, h⟩
      split_ifs at h with hc
      exact hc.1
    · intro h
      exact ⟨_, if_pos ⟨h, by omega⟩⟩

/-! ### Normalised features -/

/-- C113: normalised features are positive, sum to one, and are in the same proportions as the features that are not. -/
theorem C113_normalized (basis : List ℝ → List ℝ → ℝ) (hb : ∀ d s, 0 < basis d s) (mu : List (List ℝ)) (hm : 2 ≤ mu.length) (scale : List ℝ)
    (dims : Option (List ℕ)) (x r raw : List (List ℝ)) (h1 : (basisTensor basis mu scale dims true).forward x = some (.rows r))
    (h0 : (basisTensor basis mu scale dims false).forward x = some (.rows raw)) :
    (∀ row ∈ r, (∀ v ∈ row, 0 < v) ∧ row.sum = 1) ∧ List.Forall₂ (fun row q => ∃ c > 0, row = q.map (fun v => c * v)) r raw := by
  simp only [basisTensor, Option.map_eq_some_iff, squeezeLast] at h0 h1
  obtain ⟨y, hy, e0⟩ := h0
  obtain ⟨z, hz, e1⟩ := h1
  rw [hy] at hz
  obtain rfl := Option.some.inj hz
  rw [if_neg (by omega)] at e0 e1
  simp only [Bool.false_eq_true, if_false, if_true, Arr.rows.injEq] at e0 e1
  subst e0 e1
  have hf := mapM_some _ _ _ hy
  have hpos : ∀ row ∈ y, (∀ v ∈ row, 0 < v) ∧ 0 < row.sum := by
    intro row hrow
    obtain ⟨i, hi, rfl⟩ := List.mem_iff_getElem.1 hrow
    have := hf.get (i := i) (by rw [hf.length_eq]; exact hi) hi
    simp only [basisRow, Option.bind_eq_some_iff, List.get_eq_getElem] at this
    obtain ⟨s, _, hs⟩ := this
    have hg := mapM_some _ _ _ hs
    have hv : ∀ v ∈ y[i], 0 < v := by
      intro v hv
      obtain ⟨j, hj, rfl⟩ := List.mem_iff_getElem.1 hv
      have := hg.get (i := j) (by rw [hg.length_eq]; exact hj) hj
      simp only [List.get_eq_getElem] at this
      split_ifs at this
      rw [← Option.some.inj this]
      exact hb _ _
    refine ⟨hv, List.sum_pos _ hv ?_⟩
    intro he
    have := hg.length_eq
    rw [he] at this
    simp at this
    subst this
    simp at hm
  constructor
  · intro row hrow
    obtain ⟨q, hq, rfl⟩ := List.mem_map.1 hrow
    obtain ⟨g1, g2⟩ := hpos q hq
    refine ⟨?_, ?_⟩
    · intro v hv
      obtain ⟨w, hw, rfl⟩ := List.mem_map.1 hv
      exact div_pos (g1 w hw) g2
    · have : (q.map (fun v => v / q.sum)).sum = q.sum / q.sum := by
        simp only [div_eq_mul_inv]
        rw [List.sum_map_mul_right]; simp
      rw [this, div_self g2.ne']
  · unfold normalize
    rw [List.forall₂_map_left_iff]
    apply List.forall₂_same.2
    intro q hq
    refine ⟨(q.sum)⁻¹, inv_pos.2 (hpos q hq).2, ?_⟩
    exact List.map_congr_left (fun v _ => by rw [div_eq_mul_inv, mul_comm])

/-- The two kinds of basis tensors are positive. -/
theorem basis_pos (d s : List ℝ) : 0 < gaussian d s ∧ 0 < vonMises d s := ⟨Real.exp_pos _, Real.exp_pos _⟩

/-! ### Von Mises features -/

theorem cos_sum_le : ∀ delta scale : List ℝ, (∀ s ∈ scale, 0 < s) →
    (List.zipWith (fun d s => Real.cos (2 * Real.pi * d) / s) delta scale).sum ≤ (scale.map (fun s => 1 / s)).sum
  | [], scale, h => by
    simp only [List.zipWith_nil_left, List.sum_nil]
    apply List.sum_nonneg
    intro v hv
    obtain ⟨s, hs, rfl⟩ := List.mem_map.1 hv
    exact (one_div_pos.2 (h s hs)).le
  | _ :: _, [], _ => by simp
  | d :: ds, s :: ss, h => by
    have ih := cos_sum_le ds ss (fun t ht => h t (by simp [ht]))
    have : Real.cos (2 * Real.pi * d) / s ≤ 1 / s := div_le_div_of_nonneg_right (Real.cos_le_one _) (h s (by simp)).le
    simp only [List.zipWith_cons_cons, List.sum_cons, List.map_cons]
    linarith

theorem vonMises_period (d e scale : List ℝ) (h : List.Forall₂ (fun a b : ℝ => ∃ k : ℤ, a - b = (k : ℝ)) d e) : vonMises d scale = vonMises e scale := by
  unfold vonMises
  congr 3
  induction h generalizing scale with
  | nil => rfl
  | cons hab _ ih =>
    cases scale with
    | nil => simp
    | cons s ss =>
      obtain ⟨k, hk⟩ := hab
      rename_i a b _ _ _
      have : Real.cos (2 * Real.pi * a) = Real.cos (2 * Real.pi * b) := by
        have : 2 * Real.pi * a = 2 * Real.pi * b + k * (2 * Real.pi) := by rw [← hk]; ring
        rw [this, Real.cos_add_int_mul_two_pi]
      simp only [List.zipWith_cons_cons, this, ih]

/-- C113 (part): von Mises features have values between zero and one, and are periodic with period one in every dimension. -/
theorem C113_von_mises_partial (mu : List (List ℝ)) (scale : List ℝ) :
    (∀ delta, (∀ s ∈ scale, 0 < s) → 0 < vonMises delta scale ∧ vonMises delta scale ≤ 1) ∧
    (∀ x y, List.Forall₂ (fun a b : ℝ => ∃ k : ℤ, a - b = (k : ℝ)) x y → basisRow vonMises mu scale none x = basisRow vonMises mu scale none y) := by
  constructor
  · intro delta hs
    refine ⟨Real.exp_pos _, Real.exp_le_one_iff.2 ?_⟩
    have := cos_sum_le delta scale hs
    linarith
  · intro x y h
    unfold basisRow select
    simp only [Option.bind_some, h.length_eq]
    congr 1
    funext m
    split_ifs with hc
    · congr 1
      apply vonMises_period
      clear hc
      induction h generalizing m with
      | nil => simp
      | cons hab _ ih =>
        cases m with
        | nil => simp
        | cons c m =>
          obtain ⟨k, hk⟩ := hab
          refine .cons ⟨k, ?_⟩ (ih m)
          rw [← hk]; ring
    · rfl

/-- C113 (part): on a cyclic space of length one the features of its two ends are the same. -/
theorem C113_cyclic_partial (eta : ℝ) (box : List (ℕ × ℝ × ℝ)) (h : ∀ b ∈ box, b.2.2 - b.2.1 = 1) (normalized : Bool) :
    ∀ p ∈ vonMisesGenerate eta none normalized box, p.forward [box.map (fun b => b.2.2)] = p.forward [box.map (fun b => b.2.1)] := by
  intro p hp
  simp only [vonMisesGenerate, List.mem_singleton] at hp
  subst hp
  simp only [basisTensor, List.mapM_cons, List.mapM_nil]
  rw [(C113_von_mises_partial (grid true box) (widths eta true box)).2 (box.map (fun b => b.2.2)) (box.map (fun b => b.2.1)) ?_]
  rw [List.forall₂_map_left_iff, List.forall₂_map_right_iff]
  exact List.forall₂_same.2 (fun b hb => ⟨1, by simpa using h b hb⟩)

/-- C113 refuted: on the circle of angles from -pi to pi, the features of the two ends, which are the same angle, differ. -/
theorem C113_cyclic_refuted (eta : ℝ) (he : 0 < eta) :
    ∃ p ∈ vonMisesGenerate eta none false [(2, -Real.pi, Real.pi)], p.forward [[Real.pi]] ≠ p.forward [[-Real.pi]] := by
  have hpi := Real.pi_pos
  refine ⟨_, by simp [vonMisesGenerate]; rfl, ?_⟩
  have hc : centers true 2 (-Real.pi) Real.pi = [-Real.pi, 0] := by
    have h1 : |Real.pi - -Real.pi| = 2 * Real.pi := by
      rw [abs_of_pos (by linarith)]; ring
    simp only [centers, linspace, h1]
    norm_num [List.range_succ]
  have hg : grid true [(2, -Real.pi, Real.pi)] = [[-Real.pi], [0]] := by
    simp [grid, uniformGrid, hc]
  have hw : ∃ w, 0 < w ∧ widths eta true [(2, -Real.pi, Real.pi)] = [w] := by
    refine ⟨_, ?_, rfl⟩
    have h1 : |Real.pi - -Real.pi| = 2 * Real.pi := by
      rw [abs_of_pos (by linarith)]; ring
    simp only [width, h1]
    norm_num
    have : |Real.pi| = Real.pi := abs_of_pos hpi
    positivity
  obtain ⟨w, hw0, hw⟩ := hw
  intro h
  simp [basisTensor, hg, hw, basisRow, select, squeezeLast, List.mapM_cons, vonMises] at h
  have h3 : Real.cos (2 * Real.pi * (Real.pi + Real.pi)) = 1 := by
    rw [show 2 * Real.pi * (Real.pi + Real.pi) = 2 * Real.pi ^ 2 * (1 + 1) by ring]
    field_simp at h
    linarith
  rw [Real.cos_eq_one_iff] at h3
  obtain ⟨n, hn⟩ := h3
  have hn2 : (n : ℝ) = 2 * Real.pi := by
    have : (n : ℝ) * (2 * Real.pi) = (2 * Real.pi) * (2 * Real.pi) := by rw [hn]; ring
    exact mul_right_cancel₀ (by positivity) this
  have g1 := Real.pi_gt_d2
  have g2 := Real.pi_lt_d2
  have l1 : (6 : ℝ) < n := by rw [hn2]; linarith
  have l2 : (n : ℝ) < 7 := by rw [hn2]; linarith
  have l1' : (6 : ℤ) < n := by exact_mod_cast l1
  have l2' : n < (7 : ℤ) := by exact_mod_cast l2
  omega

/-! ### Random Fourier features -/

theorem sum_zip_mul (x p : List ℝ) (d : ℕ) (hx : x.length = d) (hp : p.length = d) :
    (List.zipWith (· * ·) x p).sum = ∑ k ∈ Finset.range d, x.getD k 0 * p.getD k 0 := by
  induction d generalizing x p with
  | zero => simp [List.length_eq_zero_iff.1 hx]
  | succ d ih =>
    obtain ⟨a, x, rfl⟩ := List.exists_cons_of_length_eq_add_one hx
    obtain ⟨b, p, rfl⟩ := List.exists_cons_of_length_eq_add_one hp
    rw [Finset.sum_range_succ', List.zipWith_cons_cons, List.sum_cons, ih x p (by simpa using hx) (by simpa using hp)]
    simp [add_comm]

theorem fourierRow_get (P : List (List ℝ)) (phi : List ℝ) (nu : ℝ) (x : List ℝ) (n d j : ℕ) (hP : P.length = n) (hphi : phi.length = n)
    (hd : ∀ p ∈ P, p.length = d) (hx : x.length = d) (hj : j < n) :
    (fourierRow P phi nu x).getD j 0 = Real.sin ((∑ k ∈ Finset.range d, x.getD k 0 * (P.getD j []).getD k 0) / nu + phi.getD j 0) := by
  have h1 : j < P.length := by omega
  have h2 : j < phi.length := by omega
  have h3 : j < (fourierRow P phi nu x).length := by simp [fourierRow]; omega
  rw [List.getD_eq_getElem _ _ h3, List.getD_eq_getElem _ _ h2, List.getD_eq_getElem _ _ h1, ← sum_zip_mul x P[j] d hx (hd _ (List.getElem_mem h1))]
  simp [fourierRow]

/-- C113: `generate` gives as many random Fourier features as asked for, with values between minus one and one; with a bias the last one is constant.
The others are the sines of the documented formula. -/
theorem C113_fourier (nu : ℝ) (nOutput d : ℕ) (useBias : Bool) (draw : ℕ → List (List ℝ) × List ℝ)
    (hd : ∀ n, (draw n).1.length = n ∧ (draw n).2.length = n ∧ ∀ p ∈ (draw n).1, p.length = d) (phi : List Feature)
    (h : fourierGenerate nu nOutput useBias draw = some phi) (hn : 2 ≤ nOutput) (x : List (List ℝ)) (hx : x ≠ []) (hxd : ∀ r ∈ x, r.length = d) :
    torchSize phi = nOutput ∧ ∃ f : List ℝ → List ℝ, torchFeatures phi x = some (expected (x.map f)) ∧
      ∀ r ∈ x, (f r).length = nOutput ∧ (∀ v ∈ f r, -1 ≤ v ∧ v ≤ 1) ∧ (useBias = true → (f r).getLast? = some 1) ∧
        ∀ n, n + (if useBias then 1 else 0) = nOutput → ∀ j < n, (f r).getD j 0 =
          Real.sin ((∑ k ∈ Finset.range d, r.getD k 0 * ((draw n).1.getD j []).getD k 0) / nu + (draw n).2.getD j 0) := by
  have hrange : ∀ P b r, ∀ v ∈ fourierRow P b nu r, -1 ≤ v ∧ v ≤ 1 := by
    intro P b r v hv
    unfold fourierRow at hv
    obtain ⟨i, hi, rfl⟩ := List.mem_iff_getElem.1 hv
    rw [List.getElem_zipWith]
    exact ⟨Real.neg_one_le_sin _, Real.sin_le_one _⟩
  have hcomp := fun n => (C113_computes x).2.1 (draw n).1 (draw n).2 nu (by rw [(hd n).1, (hd n).2.1]) (fun r hr p hp => by rw [hxd r hr, (hd n).2.2 p hp])
  unfold fourierGenerate at h
  cases useBias with
  | false =>
    simp only [Bool.false_eq_true, if_false, Option.some.injEq] at h
    subst h
    have hs : torchSize [fourierTensor (draw nOutput).1 (draw nOutput).2 nu] = nOutput := by simp [torchSize, fourierTensor, (hd nOutput).2.1]
    have hsh := C113_shapes_partial [fourierTensor (draw nOutput).1 (draw nOutput).2 nu] (fun _ => fourierRow (draw nOutput).1 (draw nOutput).2 nu) x hx (by simp)
      (by intro p hp; simp only [List.mem_singleton] at hp; subst hp; exact hcomp nOutput) (by rw [hs]; exact hn)
    refine ⟨hs, _, hsh.1, fun r hr => ⟨by rw [hsh.2 r hr, hs], ?_, by simp, ?_⟩⟩
    · intro v hv
      simp only [List.flatMap_cons, List.flatMap_nil, List.append_nil] at hv
      exact hrange _ _ _ v hv
    · intro n hno j hj
      simp only [Bool.false_eq_true, if_false, Nat.add_zero] at hno
      subst hno
      simp only [List.flatMap_cons, List.flatMap_nil, List.append_nil]
      exact fourierRow_get _ _ _ _ n d j (hd n).1 (hd n).2.1 (hd n).2.2 (hxd r hr) hj
  | true =>
    simp only [if_true] at h
    rw [if_neg (by omega), Option.some.injEq] at h
    subst h
    obtain ⟨m, rfl⟩ : ∃ m, nOutput = m + 1 := ⟨nOutput - 1, by omega⟩
    simp only [Nat.add_sub_cancel]
    have hs : torchSize [fourierTensor (draw m).1 (draw m).2 nu, constantTensor] = m + 1 := by
      simp [torchSize, fourierTensor, (hd m).2.1, constantTensor]
    have hc := hcomp m
    have hk := (C113_computes x).1
    have hm : [fourierTensor (draw m).1 (draw m).2 nu, constantTensor].mapM (fun (p : Feature) => (p.forward x).bind asRows)
        = some [x.map (fourierRow (draw m).1 (draw m).2 nu), x.map (fun _ => [1])] := by
      rw [List.mapM_cons, List.mapM_cons, hc.1, hk.1]; rfl
    refine ⟨hs, fun r => fourierRow (draw m).1 (draw m).2 nu r ++ [1], ?_, ?_⟩
    · unfold torchFeatures
      rw [hm, Option.bind_some]
      simp only [cat, Option.bind_some, List.length_map, if_true, zipWith_map_append]
      refine finish_squeeze _ (m + 1) hn (by simpa using hx) ?_
      intro r hr
      obtain ⟨a, ha, rfl⟩ := List.mem_map.1 hr
      rw [List.length_append, hc.2 a ha]; simp [fourierTensor, (hd m).2.1]
    · intro r hr
      refine ⟨by rw [List.length_append, hc.2 r hr]; simp [fourierTensor, (hd m).2.1], ?_, by simp, ?_⟩
      · intro v hv
        rcases List.mem_append.1 hv with hv | hv
        · exact hrange _ _ _ v hv
        · simp at hv; subst hv; norm_num
      · intro n hno j hj
        obtain rfl : n = m := by simpa using hno
        rw [← fourierRow_get _ _ _ _ n d j (hd n).1 (hd n).2.1 (hd n).2.2 (hxd r hr) hj, List.getD_append]
        rw [hc.2 r hr]; simpa [fourierTensor, (hd n).2.1] using hj

/-! ### Arguments and factory -/

/-- C113: several arguments are concatenated sample by sample. -/
theorem C113_concatenate (args : List (List (List ℝ))) (n : ℕ) (hne : args ≠ []) (h : ∀ a ∈ args, a.length = n) :
    ∃ z, concatenate args = some z ∧ z.length = n ∧ ∀ i < n, z.getD i [] = args.flatMap (fun a => a.getD i []) := by
  induction args with
  | nil => exact absurd rfl hne
  | cons a args ih =>
    cases args with
    | nil => exact ⟨a, rfl, h a (by simp), by simp⟩
    | cons b args =>
      obtain ⟨z, h1, h2, h3⟩ := ih (by simp) (fun c hc => h c (by simp at hc ⊢; tauto))
      have ha := h a (by simp)
      refine ⟨List.zipWith (· ++ ·) a z, ?_, by simp [ha, h2], ?_⟩
      · rw [concatenate, h1, Option.bind_some, if_pos (by omega)]
      · intro i hi
        have := h3 i hi
        rw [List.flatMap_cons, ← this]
        simp [List.getD_eq_getElem?_getD, List.getElem?_zipWith, List.getElem?_eq_getElem (show i < a.length by omega),
          List.getElem?_eq_getElem (show i < z.length by omega)]

/-- C113: features are built if exactly one kind is asked for, and are of this kind. -/
theorem C113_factory {B T P F : Type} (basis : Option B) (tilings : Option T) (tensors : Option P) (nOutputs : Option ℕ) (function : Option F) :
    ((features basis tilings tensors nOutputs function).isSome ↔ [basis.isSome, tilings.isSome, tensors.isSome, nOutputs.isSome].count true = 1) ∧
    ∀ k, features basis tilings tensors nOutputs function = some k →
      (∀ b, k = .basis b ↔ basis = some b) ∧ (∀ t, k = .tiles t ↔ tilings = some t) ∧ (∀ p, k = .torch p ↔ tensors = some p)
        ∧ ∀ n f, k = .functional n f ↔ nOutputs = some n ∧ function = f := by
  rcases basis with _ | b <;> rcases tilings with _ | t <;> rcases tensors with _ | p <;> rcases nOutputs with _ | n <;>
    simp [features] <;> intro k hk <;> subst hk <;> simp [eq_comm]

/-- C113: functional features apply the function, or nothing. -/
theorem C113_functional {X : Type} (f : X → X) (x : X) : functionalCall (some f) x = f x ∧ functionalCall none x = x := ⟨rfl, rfl⟩

example : ∃ x v, basisRow gaussian [[0], [1]] [2] none x = some v := ⟨[3], _, by simp [basisRow, select, List.mapM_cons]; rfl⟩

end

end Verif.Features.Tensor
