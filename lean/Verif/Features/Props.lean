/-
Properties C49 and C50: tilings and state-action features.
-/
import Verif.Features.Spec
import Mathlib.Data.List.Forall2
import Mathlib.Tactic.Ring
import Mathlib.Tactic.Linarith
import Mathlib.Tactic.FieldSimp
import Mathlib.Tactic.NormNum
import Mathlib.Tactic.Positivity

namespace Verif.Features

noncomputable section

/-! ### C49 -/

theorem inTile_floor (d : Dim) (hn : 0 < d.n) (hw : d.lo < d.hi) (v : ℝ) (hv : d.lo ≤ v) (k : ℕ) :
    InTile d v k ↔ ⌊(d.n : ℝ) * (v - d.lo) / (d.hi - d.lo)⌋₊ = k := by
  have hw' : 0 < d.hi - d.lo := by linarith
  have hn' : (0 : ℝ) < d.n := by exact_mod_cast hn
  have hq : 0 ≤ (d.n : ℝ) * (v - d.lo) / (d.hi - d.lo) := by
    apply div_nonneg _ hw'.le
    apply mul_nonneg hn'.le; linarith
  rw [Nat.floor_eq_iff hq, InTile, le_div_iff₀ hw', div_lt_iff₀ hw']
  have e1 : ∀ c : ℝ, d.lo + c * ((d.hi - d.lo) / d.n) ≤ v ↔ c * (d.hi - d.lo) ≤ d.n * (v - d.lo) := by
    intro c
    rw [← mul_div_assoc, ← le_sub_iff_add_le', div_le_iff₀ hn', mul_comm (v - d.lo)]
  have e2 : ∀ c : ℝ, v < d.lo + c * ((d.hi - d.lo) / d.n) ↔ d.n * (v - d.lo) < c * (d.hi - d.lo) := by
    intro c
    rw [← mul_div_assoc, ← sub_lt_iff_lt_add', lt_div_iff₀ hn', mul_comm (v - d.lo)]
  rw [e1, e2]

theorem inTile_range (d : Dim) (hn : 0 < d.n) (v : ℝ) (hv : d.lo ≤ v ∧ v < d.hi) :
    ⌊(d.n : ℝ) * (v - d.lo) / (d.hi - d.lo)⌋₊ < d.n := by
  have hw' : 0 < d.hi - d.lo := by linarith [hv.1, hv.2]
  have hn' : (0 : ℝ) < d.n := by exact_mod_cast hn
  rw [Nat.floor_lt' (by omega), div_lt_iff₀ hw']
  nlinarith [hv.2]

/-- The value of the loop in terms of the coordinates. -/
def combine : List Dim → List ℕ → ℕ
  | d :: ds, k :: ks => k + d.n * combine ds ks
  | _, _ => 0

theorem tileLoop_eq (ds : List Dim) (hn : ∀ d ∈ ds, 0 < d.n) (x : List ℝ) (hx : Covers ds x) (m idx : ℕ) :
    ∃ ks, Coordinates ds x ks ∧ tileLoop ds x m idx = some (idx + m * combine ds ks) := by
  induction hx generalizing m idx with
  | nil => exact ⟨[], .nil, by simp [tileLoop, combine]⟩
  | @cons d v ds xs hd hxs ih =>
      obtain ⟨ks, h1, h2⟩ := ih (fun d' h => hn d' (by simp [h])) (m * d.n)
        (idx + ⌊(d.n : ℝ) * (v - d.lo) / (d.hi - d.lo)⌋₊ * m)
      have hd0 := hn d (by simp)
      refine ⟨⌊(d.n : ℝ) * (v - d.lo) / (d.hi - d.lo)⌋₊ :: ks,
        .cons (inTile_range d hd0 v hd) ((inTile_floor d hd0 (by linarith [hd.1, hd.2]) v hd.1 _).mpr rfl) h1, ?_⟩
      rw [tileLoop, if_pos hd]
      simp only
      rw [h2]
      simp only [combine]
      congr 1; ring

theorem coordinates_unique {ds : List Dim} {x : List ℝ} {ks ks' : List ℕ} (h : Coordinates ds x ks)
    (h' : Coordinates ds x ks') : ks = ks' := by
  induction h generalizing ks' with
  | nil => cases h'; rfl
  | @cons d v k ds xs ks hk ht hs ih =>
      cases h' with
      | @cons _ _ k' _ _ ks' hk' ht' hs' =>
          have hn : 0 < d.n := by omega
          have hn' : (0 : ℝ) < d.n := by exact_mod_cast hn
          have hlo : d.lo < d.hi := by
            obtain ⟨a, b⟩ := ht
            by_contra hle
            have : (d.hi - d.lo) / d.n ≤ 0 := div_nonpos_of_nonpos_of_nonneg (by linarith) hn'.le
            nlinarith
          have hv : d.lo ≤ v := by
            have : 0 ≤ (k : ℝ) * ((d.hi - d.lo) / d.n) := by
              apply mul_nonneg (by positivity); apply div_nonneg (by linarith) hn'.le
            linarith [ht.1]
          rw [inTile_floor d hn hlo v hv] at ht ht'
          rw [ih hs', ← ht, ← ht']

theorem combine_lt {ds : List Dim} {x : List ℝ} {ks : List ℕ} (h : Coordinates ds x ks) :
    combine ds ks < tileCount ds := by
  induction h with
  | nil => simp [combine, tileCount]
  | @cons d v k ds xs ks hk ht hs ih =>
      simp only [combine, tileCount, List.map_cons, List.prod_cons] at *
      have : d.n * (combine ds ks + 1) ≤ d.n * (List.map Dim.n ds).prod := Nat.mul_le_mul_left _ ih
      rw [Nat.mul_add] at this
      omega

theorem combine_inj {ds : List Dim} {x y : List ℝ} {ks js : List ℕ} (h : Coordinates ds x ks) (h' : Coordinates ds y js)
    (he : combine ds ks = combine ds js) : ks = js := by
  induction h generalizing y js with
  | nil => cases h'; rfl
  | @cons d v k ds xs ks hk ht hs ih =>
      cases h' with
      | @cons _ v' k' _ ys js hk' ht' hs' =>
          simp only [combine] at he
          have hmod : k = k' := by
            have := congrArg (· % d.n) he
            simpa [Nat.add_mul_mod_self_left, Nat.mod_eq_of_lt hk, Nat.mod_eq_of_lt hk'] using this
          subst hmod
          have : combine ds ks = combine ds js := by
            have : d.n * combine ds ks = d.n * combine ds js := by omega
            exact Nat.eq_of_mul_eq_mul_left (by omega) this
          rw [ih hs' this]

theorem tilesSize_eq (ds : List Dim) : tilesSize ds = tileCount ds := by
  have : ∀ (ds : List Dim) (c : ℕ), ds.foldl (fun s d => s * d.n) c = c * (ds.map Dim.n).prod := by
    intro ds
    induction ds with
    | nil => intro c; simp
    | cons d ds ih => intro c; rw [List.foldl_cons, ih]; simp [mul_assoc]
  rw [tilesSize, this, tileCount, one_mul]

/-- C49. A point covered by a tiling has exactly one tile. The tiling gives it an index in its range, and two covered points
get the same index exactly if they lie in the same tile. -/
theorem C49_index (ds : List Dim) (hn : ∀ d ∈ ds, 0 < d.n) (x : List ℝ) (hx : Covers ds x) :
    (∃ ks, Coordinates ds x ks ∧ ∀ ks', Coordinates ds x ks' → ks' = ks) ∧
    ∃ j, tileIndex ds x = some j ∧ j < tileCount ds ∧
      ∀ y, Covers ds y → (tileIndex ds y = some j ↔ ∃ ks, Coordinates ds x ks ∧ Coordinates ds y ks) := by
  obtain ⟨ks, h1, h2⟩ := tileLoop_eq ds hn x hx 1 0
  refine ⟨⟨ks, h1, fun ks' h => coordinates_unique h h1⟩, combine ds ks, by simpa [tileIndex] using h2, combine_lt h1, ?_⟩
  intro y hy
  obtain ⟨js, h3, h4⟩ := tileLoop_eq ds hn y hy 1 0
  have h4' : tileIndex ds y = some (combine ds js) := by simpa [tileIndex] using h4
  rw [h4', Option.some_inj]
  constructor
  · intro he
    exact ⟨ks, h1, (combine_inj h1 h3 he.symm) ▸ h3⟩
  · rintro ⟨ks', h5, h6⟩
    rw [← coordinates_unique h1 h5] at h6
    rw [coordinates_unique h3 h6]

/-- C49. A point with the right number of components that is not covered has no tile. -/
theorem C49_outside (ds : List Dim) (x : List ℝ) (hx : ¬ Covers ds x) (hlen : ds.length = x.length) :
    tileIndex ds x = none := by
  have : ∀ (ds : List Dim) (x : List ℝ) (m idx : ℕ), ds.length = x.length → ¬ Covers ds x →
      tileLoop ds x m idx = none := by
    intro ds
    induction ds with
    | nil => intro x m idx hl hc; cases x with
      | nil => exact absurd .nil hc
      | cons _ _ => simp at hl
    | cons d ds ih =>
        intro x m idx hl hc
        cases x with
        | nil => simp at hl
        | cons v xs =>
            rw [tileLoop]
            split
            · rename_i hd
              exact ih xs _ _ (by simpa using hl) (fun h => hc (.cons hd h))
            · rfl
  exact this ds x 1 0 hlen hx

/-- With `state_components` the index is that of the listed components, in the order in which they are listed. -/
theorem C49_components (ds : List Dim) (components : List ℕ) (x : List ℝ) (h : ∀ c ∈ components, c < x.length) :
    tileIndexSel ds components x = tileIndex ds (components.map fun c => x.getD c 0) := by
  have : components.mapM (fun c => x[c]?) = some (components.map fun c => x.getD c 0) := by
    induction components with
    | nil => rfl
    | cons c cs ih =>
      have h1 : x[c]? = some (x.getD c 0) := by
        have := h c (by simp)
        simp [List.getD, this]
      rw [List.mapM_cons, h1, ih (fun d hd => h d (by simp [hd]))]
      rfl
  rw [tileIndexSel, this]
  rfl

/-- The components that are not listed play no role. -/
theorem C49_components_only (ds : List Dim) (components : List ℕ) (x y : List ℝ) (h : ∀ c ∈ components, x[c]? = y[c]?) :
    tileIndexSel ds components x = tileIndexSel ds components y := by
  have : components.mapM (fun c => x[c]?) = components.mapM (fun c => y[c]?) := by
    induction components with
    | nil => rfl
    | cons c cs ih => simp only [List.mapM_cons, h c (by simp), ih (fun d hd => h d (by simp [hd]))]
  rw [tileIndexSel, tileIndexSel, this]

/-- A tiling of the third and the first component. -/
example : ∀ c ∈ [2, 0], c < ([0.5, 7, 1.5] : List ℝ).length := by decide

/-- C49. The size reported by a tiling is its number of tiles. -/
theorem C49_size (ds : List Dim) : tilesSize ds = tileCount ds := tilesSize_eq ds

theorem genDim_covers (T : ℕ) (hT : 0 < T) (uniform : Bool) (i k n : ℕ) (hn : 0 < n) (low high v : ℝ) (h1 : low ≤ v)
    (h2 : v < high) : (genDim T uniform i k n low high).lo ≤ v ∧ v < (genDim T uniform i k n low high).hi := by
  have hT' : (0 : ℝ) < T := by exact_mod_cast hT
  have hn' : (1 : ℝ) ≤ n := by exact_mod_cast hn
  simp only [genDim]
  set s := (i * if uniform = true then 1 else 2 * k + 1) % T with hs
  have hsT : s < T := Nat.mod_lt _ hT
  have hsT' : (s : ℝ) + 1 ≤ T := by exact_mod_cast hsT
  have hs0 : (0 : ℝ) ≤ s := by positivity
  have hbe : ((T : ℝ) - 1) / T < 1 := by rw [div_lt_one hT']; linarith
  have hden : 0 < (n : ℝ) - ((T : ℝ) - 1) / T := by linarith
  set l := (high - low) / ((n : ℝ) - ((T : ℝ) - 1) / T) with hl
  have hl0 : 0 < l := div_pos (by linarith) hden
  have hlL : l * ((n : ℝ) - ((T : ℝ) - 1) / T) = high - low := by rw [hl, div_mul_cancel₀ _ hden.ne']
  constructor
  · have : (-(T : ℝ) + 1 + s) / T * l ≤ 0 := by
      apply mul_nonpos_of_nonpos_of_nonneg _ hl0.le
      apply div_nonpos_of_nonpos_of_nonneg _ hT'.le
      linarith
    linarith
  · have : (-(T : ℝ) + 1 + s) / T * l + l * n = (high - low) + s / T * l := by
      rw [← hlL]; field_simp; ring
    have h3 : 0 ≤ (s : ℝ) / T * l := by positivity
    linarith

/-- C49. Every tiling made by `Tiles.generate` covers every point of the half-open box between `low` and `high`, and has the
requested number of tiles in each dimension. -/
theorem C49_generate (T : ℕ) (uniform : Bool) (box : List (ℕ × ℝ × ℝ)) (hbox : ∀ b ∈ box, 0 < b.1) (x : List ℝ)
    (hx : List.Forall₂ (fun (b : ℕ × ℝ × ℝ) v => b.2.1 ≤ v ∧ v < b.2.2) box x) :
    (generate T uniform box).length = T ∧
    ∀ ds ∈ generate T uniform box, Covers ds x ∧ ds.map Dim.n = box.map (fun b => b.1) := by
  refine ⟨by simp [generate], ?_⟩
  intro ds hds
  simp only [generate, List.mem_map, List.mem_range] at hds
  obtain ⟨i, hi, rfl⟩ := hds
  have hT : 0 < T := by omega
  have key : ∀ (box : List (ℕ × ℝ × ℝ)) (x : List ℝ) (c : ℕ), (∀ b ∈ box, 0 < b.1) →
      List.Forall₂ (fun (b : ℕ × ℝ × ℝ) v => b.2.1 ≤ v ∧ v < b.2.2) box x →
      Covers (box.mapIdx (fun k b => genDim T uniform i (k + c) b.1 b.2.1 b.2.2)) x ∧
      (box.mapIdx (fun k b => genDim T uniform i (k + c) b.1 b.2.1 b.2.2)).map Dim.n = box.map (fun b => b.1) := by
    intro box x c hbox hx
    induction hx generalizing c with
    | nil => exact ⟨.nil, rfl⟩
    | @cons b v box xs hb hxs ih =>
        obtain ⟨h1, h2⟩ := ih (c + 1) (fun b' h => hbox b' (by simp [h]))
        rw [List.mapIdx_cons]
        have hsh : (fun (k : ℕ) (b : ℕ × ℝ × ℝ) => genDim T uniform i (k + 1 + c) b.1 b.2.1 b.2.2) =
            fun k b => genDim T uniform i (k + (c + 1)) b.1 b.2.1 b.2.2 := by
          funext k b; rw [show k + 1 + c = k + (c + 1) by omega]
        rw [hsh]
        refine ⟨.cons ?_ h1, ?_⟩
        · exact genDim_covers T hT uniform i _ b.1 (hbox b (by simp)) b.2.1 b.2.2 v hb.1 hb.2
        · rw [List.map_cons, List.map_cons, h2]; rfl
  exact key box x 0 hbox hx

/-- C49. The upper bound itself is not covered by the first generated tiling: a state clipped to its upper bound loses at
least one feature. -/
theorem C49_upper_bound (T : ℕ) (hT : 0 < T) (uniform : Bool) (n : ℕ) (hn : 0 < n) (low high : ℝ) :
    ∃ ds ∈ generate T uniform [(n, low, high)], tileIndex ds [high] = none := by
  have hT' : (0 : ℝ) < T := by exact_mod_cast hT
  have hn' : (1 : ℝ) ≤ n := by exact_mod_cast hn
  refine ⟨[genDim T uniform 0 0 n low high], ?_, ?_⟩
  · simp only [generate, List.mem_map, List.mem_range]
    exact ⟨0, hT, by simp⟩
  · have hbe : ((T : ℝ) - 1) / T < 1 := by rw [div_lt_one hT']; linarith
    have hden : 0 < (n : ℝ) - ((T : ℝ) - 1) / T := by linarith
    have hhi : (genDim T uniform 0 0 n low high).hi = high := by
      simp only [genDim, zero_mul, Nat.zero_mod, Nat.cast_zero, add_zero]
      have : (high - low) / ((n : ℝ) - ((T : ℝ) - 1) / T) * ((n : ℝ) - ((T : ℝ) - 1) / T) = high - low :=
        div_mul_cancel₀ _ hden.ne'
      have e : (-(T : ℝ) + 1) / T = -(((T : ℝ) - 1) / T) := by ring
      rw [e]
      linarith
    simp [tileIndex, tileLoop, hhi]

example : Covers [⟨0, 4, 4⟩, ⟨-1, 1, 2⟩] [2.5, 0] := by
  refine .cons ⟨?_, ?_⟩ (.cons ⟨?_, ?_⟩ .nil) <;> norm_num
example : List.Forall₂ (fun (b : ℕ × ℝ × ℝ) v => b.2.1 ≤ v ∧ v < b.2.2) [(10, 0, 1), (5, -1, 1)] [0, 0.5] := by
  refine .cons ⟨?_, ?_⟩ (.cons ⟨?_, ?_⟩ .nil) <;> norm_num

/-! Feature vectors of several tilings. -/

/-- Position at which the features of tiling number `t` start. -/
def offset {X : Type} (ts : List (Tiling X)) (t : ℕ) : ℕ := ((ts.take t).map Tiling.size).sum

theorem featuresSize_eq {X : Type} (ts : List (Tiling X)) : featuresSize ts = (ts.map Tiling.size).sum := by
  have : ∀ (ts : List (Tiling X)) (c : ℕ), ts.foldl (fun s t => s + t.size) c = c + (ts.map Tiling.size).sum := by
    intro ts
    induction ts with
    | nil => intro c; simp
    | cons t ts ih => intro c; rw [List.foldl_cons, ih]; simp [add_assoc]
  rw [featuresSize, this, zero_add]

theorem indexStep_none {X : Type} {x : X} {t : Tiling X} (h : t.index x = none) (acc : List ℕ) (off : ℕ) :
    indexStep x (acc, off) t = (acc, off + t.size) := by simp [indexStep, h]

theorem indexStep_some {X : Type} {x : X} {t : Tiling X} {j : ℕ} (h : t.index x = some j) (acc : List ℕ) (off : ℕ) :
    indexStep x (acc, off) t = (acc ++ [j + off], off + t.size) := by simp [indexStep, h]

theorem featStep_none {X : Type} {x : X} {t : Tiling X} (h : t.index x = none) (out : List ℝ) (off : ℕ) :
    featStep x (out, off) t = (out, off + t.size) := by simp [featStep, h]

theorem featStep_some {X : Type} {x : X} {t : Tiling X} {j : ℕ} (h : t.index x = some j) (out : List ℝ) (off : ℕ) :
    featStep x (out, off) t = (out.set (j + off) 1, off + t.size) := by simp [featStep, h]

theorem computeIndexes_go {X : Type} (x : X) (ts : List (Tiling X)) (acc : List ℕ) (off : ℕ) :
    (ts.foldl (indexStep x) (acc, off)).1 = acc ++ (ts.foldl (indexStep x) ([], off)).1 := by
  induction ts generalizing acc off with
  | nil => simp
  | cons t ts ih =>
      rw [List.foldl_cons, List.foldl_cons]
      cases hx : t.index x with
      | none => rw [indexStep_none hx, indexStep_none hx, ih]
      | some j => rw [indexStep_some hx, indexStep_some hx, ih, ih ([] ++ _)]; simp

/-- C49. The list returned by `compute_indexes` contains, for every tiling with a tile for the point, exactly the index of
that tile shifted by the total size of the tilings before it. -/
theorem C49_indexes {X : Type} (ts : List (Tiling X)) (x : X) (p : ℕ) :
    p ∈ computeIndexes ts x ↔ ∃ t, ∃ h : t < ts.length, ∃ j, (ts[t]).index x = some j ∧ p = offset ts t + j := by
  have key : ∀ (ts : List (Tiling X)) (off : ℕ), p ∈ (ts.foldl (indexStep x) ([], off)).1 ↔
      ∃ t, ∃ h : t < ts.length, ∃ j, (ts[t]).index x = some j ∧ p = off + offset ts t + j := by
    intro ts
    induction ts with
    | nil => intro off; simp
    | cons t ts ih =>
        intro off
        have hoff : ∀ t', offset (t :: ts) (t' + 1) = t.size + offset ts t' := by intro t'; simp [offset]
        have hoff0 : offset (t :: ts) 0 = 0 := by simp [offset]
        rw [List.foldl_cons]
        cases hx : t.index x with
        | none =>
            rw [indexStep_none hx, ih]
            constructor
            · rintro ⟨t', h, j, h1, h2⟩
              exact ⟨t' + 1, by simpa using h, j, by simpa using h1, by rw [hoff]; omega⟩
            · rintro ⟨t', h, j, h1, h2⟩
              cases t' with
              | zero => simp [hx] at h1
              | succ t' => exact ⟨t', by simpa using h, j, by simpa using h1, by rw [hoff] at h2; omega⟩
        | some j0 =>
            rw [indexStep_some hx, computeIndexes_go, List.mem_append, ih]
            constructor
            · rintro (h | ⟨t', h, j, h1, h2⟩)
              · exact ⟨0, by simp, j0, by simpa using hx, by rw [hoff0]; simp at h; omega⟩
              · exact ⟨t' + 1, by simpa using h, j, by simpa using h1, by rw [hoff]; omega⟩
            · rintro ⟨t', h, j, h1, h2⟩
              cases t' with
              | zero =>
                  left
                  simp [hx] at h1
                  rw [hoff0] at h2
                  simp; omega
              | succ t' =>
                  exact .inr ⟨t', by simpa using h, j, by simpa using h1, by rw [hoff] at h2; omega⟩
  have := key ts 0
  simp only [zero_add] at this
  exact this

theorem tilesFeatures_go {X : Type} (x : X) (ts : List (Tiling X)) (out : List ℝ) (off : ℕ) (p : ℕ) (hp : p < out.length) :
    (ts.foldl (featStep x) (out, off)).1.getD p 0 =
      if p ∈ (ts.foldl (indexStep x) ([], off)).1 then 1 else out.getD p 0 := by
  induction ts generalizing out off with
  | nil => simp
  | cons t ts ih =>
      rw [List.foldl_cons, List.foldl_cons]
      cases hx : t.index x with
      | none => rw [indexStep_none hx, featStep_none hx, ih _ _ hp]
      | some j =>
          rw [indexStep_some hx, featStep_some hx, ih _ _ (by simpa using hp), computeIndexes_go _ _ ([] ++ _)]
          by_cases h1 : p ∈ (ts.foldl (indexStep x) ([], off + t.size)).1
          · simp [h1]
          · simp only [List.nil_append, List.mem_append, List.mem_singleton, h1, if_false, or_false]
            by_cases h2 : p = j + off
            · simp only [h2, if_true]
              rw [h2] at hp
              simp [List.getD_eq_getElem?_getD, List.getElem?_set, hp]
            · simp only [h2, if_false]
              rw [List.getD_eq_getElem?_getD, List.getElem?_set_ne (Ne.symm h2), ← List.getD_eq_getElem?_getD]

theorem tilesFeatures_length {X : Type} (ts : List (Tiling X)) (x : X) :
    (tilesFeatures ts x).length = featuresSize ts := by
  have : ∀ (ts : List (Tiling X)) (out : List ℝ) (off : ℕ), (ts.foldl (featStep x) (out, off)).1.length = out.length := by
    intro ts
    induction ts with
    | nil => intro out off; rfl
    | cons t ts ih =>
        intro out off; rw [List.foldl_cons]
        cases hx : t.index x with
        | none => rw [featStep_none hx, ih]
        | some j => rw [featStep_some hx, ih]; simp
  rw [tilesFeatures, this, List.length_replicate]

theorem offset_split {X : Type} (ts : List (Tiling X)) (t t' j j' : ℕ) (h : t < ts.length) (h' : t' < ts.length)
    (hj : j < (ts[t]).size) (hj' : j' < (ts[t']).size) (he : offset ts t + j = offset ts t' + j') : t = t' ∧ j = j' := by
  have hmono : ∀ a b : ℕ, (ha : a < ts.length) → a < b → offset ts a + (ts[a]).size ≤ offset ts b := by
    intro a b ha hab
    have : offset ts (a + 1) ≤ offset ts b := by
      unfold offset
      have hp : (ts.take (a + 1)).map Tiling.size <+: (ts.take b).map Tiling.size :=
        (List.take_prefix_take_left (by omega)).map _
      obtain ⟨r, hr⟩ := hp
      rw [← hr, List.sum_append]; omega
    have h2 : offset ts (a + 1) = offset ts a + (ts[a]).size := by
      unfold offset
      rw [List.take_add_one, List.getElem?_eq_getElem ha, List.map_append, List.sum_append]; simp only [Option.toList_some, List.map_cons, List.map_nil, List.sum_cons, List.sum_nil, Nat.add_zero]
    omega
  rcases Nat.lt_trichotomy t t' with hlt | heq | hgt
  · have := hmono t t' h hlt; omega
  · subst heq; exact ⟨rfl, by omega⟩
  · have := hmono t' t h' hgt; omega

/-- C49. In the feature vector of a point, the entry of tile `j` of tiling `t` is 1 if `j` is the tile of the point in that
tiling and 0 otherwise. So each tiling contributes exactly one feature equal to 1 if it has a tile for the point and none
otherwise. -/
theorem C49_features {X : Type} (ts : List (Tiling X)) (x : X) (hr : ∀ t ∈ ts, ∀ j, t.index x = some j → j < t.size)
    (t j : ℕ) (h : t < ts.length) (hj : j < (ts[t]).size) :
    (tilesFeatures ts x).length = (ts.map Tiling.size).sum ∧
    (tilesFeatures ts x).getD (offset ts t + j) 0 = if (ts[t]).index x = some j then 1 else 0 := by
  refine ⟨by rw [tilesFeatures_length, featuresSize_eq], ?_⟩
  have hp : offset ts t + j < featuresSize ts := by
    rw [featuresSize_eq]
    have h2 : offset ts (t + 1) = offset ts t + (ts[t]).size := by
      unfold offset
      rw [List.take_add_one, List.getElem?_eq_getElem h, List.map_append, List.sum_append]; simp only [Option.toList_some, List.map_cons, List.map_nil, List.sum_cons, List.sum_nil, Nat.add_zero]
    have h3 : offset ts (t + 1) ≤ (ts.map Tiling.size).sum := by
      unfold offset
      obtain ⟨r, hr⟩ := (List.take_prefix (t + 1) ts).map Tiling.size
      rw [← hr, List.sum_append]; omega
    omega
  unfold tilesFeatures
  rw [tilesFeatures_go x ts _ 0 _ (by simpa using hp)]
  have hmem := C49_indexes ts x (offset ts t + j)
  unfold computeIndexes at hmem
  have hzero : (List.replicate (featuresSize ts) (0 : ℝ)).getD (offset ts t + j) 0 = 0 := by
    simp [List.getD_eq_getElem?_getD, List.getElem?_replicate, hp]
  rw [hzero]
  congr 1
  rw [eq_iff_iff, hmem]
  constructor
  · rintro ⟨t', h', j', h1, h2⟩
    obtain ⟨rfl, rfl⟩ := offset_split ts t t' j j' h h' hj (hr _ (List.getElem_mem h') j' h1) h2
    exact h1
  · intro h1
    exact ⟨t, h, j, h1, rfl⟩

/-- C49. A Voronoi tiling assigns a point to a nearest prototype, the first one if several are equally near. -/
theorem C49_voronoi {X : Type} (dist : X → X → ℝ) (ps : List X) (hne : ps ≠ []) (x : X) :
    ∃ h : voronoi dist ps x < ps.length,
      (∀ (i : ℕ) (hi : i < ps.length), dist (ps[voronoi dist ps x]) x ≤ dist (ps[i]) x) ∧
      ∀ (i : ℕ) (hi : i < ps.length), i < voronoi dist ps x → dist (ps[voronoi dist ps x]) x < dist (ps[i]) x := by
  have key : ∀ l : List ℝ, l ≠ [] → argmin l < l.length ∧
      (∀ i, i < l.length → l.getD (argmin l) 0 ≤ l.getD i 0) ∧
      (∀ i, i < argmin l → l.getD (argmin l) 0 < l.getD i 0) := by
    intro l
    induction l with
    | nil => intro h; exact absurd rfl h
    | cons a l ih =>
        intro _
        cases l with
        | nil =>
            simp only [argmin]
            refine ⟨by simp, fun i hi => ?_, fun i hi => by omega⟩
            obtain rfl : i = 0 := by simpa using hi
            simp
        | cons b l =>
            obtain ⟨h1, h2, h3⟩ := ih (by simp)
            rw [argmin]
            split
            · rename_i hle
              refine ⟨by simp, fun i hi => ?_, fun i hi => by omega⟩
              cases i with
              | zero => simp
              | succ i =>
                  have := h2 i (by simpa using hi)
                  simp only [List.getD_cons_zero, List.getD_cons_succ]
                  exact le_trans hle this
            · rename_i hgt
              rw [not_le] at hgt
              refine ⟨by simp at h1 ⊢; omega, fun i hi => ?_, fun i hi => ?_⟩
              · cases i with
                | zero => simp only [List.getD_cons_zero, List.getD_cons_succ]; exact hgt.le
                | succ i => simp only [List.getD_cons_succ]; exact h2 i (by simpa using hi)
              · cases i with
                | zero => simp only [List.getD_cons_zero, List.getD_cons_succ]; exact hgt
                | succ i => simp only [List.getD_cons_succ]; exact h3 i (by omega)
  obtain ⟨h1, h2, h3⟩ := key (ps.map (fun p => dist p x)) (by simpa using hne)
  have hget : ∀ i, (hi : i < ps.length) → (ps.map (fun p => dist p x)).getD i 0 = dist (ps[i]) x := by
    intro i hi
    simp [List.getD_eq_getElem?_getD, hi]
  have hv : voronoi dist ps x < ps.length := by simpa [voronoi] using h1
  refine ⟨hv, fun i hi => ?_, fun i hi hlt => ?_⟩
  · have := h2 i (by simpa using hi)
    rw [hget i hi] at this
    have e := hget (voronoi dist ps x) hv
    rw [← e]; exact this
  · have := h3 i hlt
    rw [hget i hi] at this
    have e := hget (voronoi dist ps x) hv
    rw [← e]; exact this

/-! ### C50 -/

/-- C50. The state-action features have one block for every action: the block of the given action holds the state features,
all the others are zero. It is an error if the action is not smaller than the number of actions and there are features. -/
theorem C50_blocks (phi : List ℝ) (a n : ℕ) (ha : a < n) :
    ∃ f, actionFeatures phi a n = some f ∧ f.length = n * phi.length ∧
      ∀ b k, b < n → k < phi.length → f.getD (b * phi.length + k) 0 = if b = a then phi.getD k 0 else 0 := by
  have hle : phi.length * a + phi.length ≤ n * phi.length := by
    rw [mul_comm, ← Nat.succ_mul]; exact Nat.mul_le_mul_right _ ha
  refine ⟨(List.replicate (n * phi.length) (0 : ℝ)).take (phi.length * a) ++ phi ++
    (List.replicate (n * phi.length) (0 : ℝ)).drop (phi.length * a + phi.length), ?_, ?_, ?_⟩
  · unfold actionFeatures setSlice
    rw [if_pos (by simpa using hle)]
  · simp only [List.length_append, List.length_take, List.length_drop, List.length_replicate]; omega
  · intro b k hb hk
    rw [List.take_replicate, List.drop_replicate, Nat.min_eq_left (by omega)]
    have hL : (List.replicate (phi.length * a) (0 : ℝ)).length = phi.length * a := by simp
    simp only [List.getD_eq_getElem?_getD]
    have hcomm : phi.length * a = a * phi.length := Nat.mul_comm _ _
    rcases Nat.lt_trichotomy b a with hlt | heq | hgt
    · have : (b + 1) * phi.length ≤ a * phi.length := Nat.mul_le_mul_right _ hlt
      rw [Nat.succ_mul] at this
      rw [List.append_assoc, List.getElem?_append_left (by rw [hL]; omega), List.getElem?_replicate,
        if_pos (by omega), if_neg (by omega)]
      rfl
    · subst heq
      rw [List.append_assoc, List.getElem?_append_right (by rw [hL]; omega), hL,
        List.getElem?_append_left (by omega), if_pos rfl]
      congr 2; omega
    · have : (a + 1) * phi.length ≤ b * phi.length := Nat.mul_le_mul_right _ hgt
      rw [Nat.succ_mul] at this
      have hb' : (b + 1) * phi.length ≤ n * phi.length := Nat.mul_le_mul_right _ hb
      rw [Nat.succ_mul] at hb'
      rw [List.getElem?_append_right (by rw [List.length_append, hL]; omega), List.getElem?_replicate,
        if_pos (by rw [List.length_append, hL]; omega), if_neg (by omega)]
      rfl

theorem dot_append (a b c d : List ℝ) (h : a.length = c.length) : dot (a ++ b) (c ++ d) = dot a c + dot b d := by
  simp [dot, List.zipWith_append h, List.sum_append]

theorem dot_zero (w : List ℝ) (n : ℕ) : dot w (List.replicate n 0) = 0 := by
  unfold dot
  induction w generalizing n with
  | nil => simp
  | cons x w ih =>
      cases n with
      | zero => simp
      | succ n => simp [List.replicate_succ, ih]

/-- C50. A linear function of the state-action features is the linear function of the state features that uses the block of
weights of the action. -/
theorem C50_linear (w phi : List ℝ) (a n : ℕ) (ha : a < n) (hw : w.length = n * phi.length) :
    ∃ f, actionFeatures phi a n = some f ∧
      dot w f = dot ((w.drop (a * phi.length)).take phi.length) phi := by
  have hle : phi.length * a + phi.length ≤ n * phi.length := by
    rw [mul_comm, ← Nat.succ_mul]; exact Nat.mul_le_mul_right _ ha
  refine ⟨_, by unfold actionFeatures setSlice; rw [if_pos (by simpa using hle)], ?_⟩
  rw [List.take_replicate, List.drop_replicate, Nat.min_eq_left (by omega)]
  have hw2 : w = w.take (phi.length * a) ++ ((w.drop (a * phi.length)).take phi.length ++
      w.drop (a * phi.length + phi.length)) := by
    rw [← List.drop_drop, List.take_append_drop, mul_comm, List.take_append_drop]
  conv_lhs => rw [hw2]
  rw [List.append_assoc, dot_append _ _ _ _ (by rw [List.length_take, List.length_replicate]; omega),
    dot_append _ _ _ _ (by rw [List.length_take, List.length_drop, mul_comm a]; omega), dot_zero, dot_zero]
  ring

/-- C50. For a batch, every row holds the features of its own state and action. -/
theorem C50_batch (phis : List (List ℝ)) (actions : List ℕ) (n : ℕ) (fs : List (List ℝ))
    (h : actionFeaturesBatch phis actions n = some fs) :
    fs.length = phis.length ∧ phis.length = actions.length ∧
    ∀ (i : ℕ) (h1 : i < phis.length) (h2 : i < actions.length) (h3 : i < fs.length),
      actionFeatures (phis[i]) (actions[i]) n = some (fs[i]) := by
  unfold actionFeaturesBatch at h
  split at h
  · rename_i hlen
    have key : ∀ (l : List (List ℝ × ℕ)) (fs : List (List ℝ)),
        l.mapM (fun pa => actionFeatures pa.1 pa.2 n) = some fs →
        List.Forall₂ (fun pa f => actionFeatures pa.1 pa.2 n = some f) l fs := by
      intro l
      induction l with
      | nil => intro fs h; simp at h; subst h; exact .nil
      | cons pa l ih =>
          intro fs h
          rw [List.mapM_cons] at h
          cases hp : actionFeatures pa.1 pa.2 n with
          | none => simp [hp] at h
          | some f =>
              cases hq : l.mapM (fun pa => actionFeatures pa.1 pa.2 n) with
              | none => simp [hp, hq] at h
              | some r =>
                  simp [hp, hq] at h
                  subst h
                  exact .cons hp (ih r hq)
    have hF := key _ _ h
    have hl := hF.length_eq
    rw [List.length_zip] at hl
    refine ⟨by omega, hlen, ?_⟩
    intro i h1 h2 h3
    have := List.forall₂_iff_get.mp hF
    have := this.2 i (by rw [List.length_zip]; omega) h3
    simpa using this
  · cases h

example : actionFeatures [1, 2] 1 3 = some [0, 0, 1, 2, 0, (0 : ℕ)] := by decide
example : (1 : ℕ) < 3 ∧ ([1, 2, 3, 4, 5, 6] : List ℝ).length = 3 * ([7, 8] : List ℝ).length := by simp

end

end Verif.Features
