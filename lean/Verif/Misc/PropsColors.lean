/-
Property C164: the colours and names of the curves.
-/
import Verif.Misc.SpecPlotItems
import Mathlib.Tactic.Linarith
import Mathlib.Data.List.GetD
import Mathlib.Tactic.NormNum
import Mathlib.Tactic.Positivity
import Mathlib.Tactic.Ring
import Mathlib.Tactic.FieldSimp

namespace Verif.Misc.PlotItems

open Verif.Misc.Callbacks

noncomputable section

theorem side_pos {lo hi : ℤ} {n : ℕ} (h : lo < hi) (hn : 0 < n) (hle : (n : ℤ) ≤ (hi - lo) ^ 3) : 1 ≤ side lo hi n := by
  have hD : (0 : ℝ) < (hi : ℝ) - lo := by exact_mod_cast sub_pos.2 h
  have hn' : (0 : ℝ) < n := by exact_mod_cast hn
  have hle' : (n : ℝ) ≤ ((hi : ℝ) - lo) ^ 3 := by exact_mod_cast hle
  unfold side
  rw [Nat.one_le_floor_iff]
  exact Real.one_le_rpow ((one_le_div hn').2 hle') (by norm_num)

theorem side_cube {lo hi : ℤ} {n : ℕ} (h : lo < hi) (hn : 0 < n) : (n : ℝ) * (side lo hi n : ℝ) ^ 3 ≤ ((hi : ℝ) - lo) ^ 3 := by
  have hD : (0 : ℝ) < (hi : ℝ) - lo := by exact_mod_cast sub_pos.2 h
  have hn' : (0 : ℝ) < n := by exact_mod_cast hn
  have hx : 0 ≤ ((hi : ℝ) - lo) ^ 3 / n := by positivity
  have h1 : (side lo hi n : ℝ) ≤ (((hi : ℝ) - lo) ^ 3 / n) ^ (1 / 3 : ℝ) := Nat.floor_le (by positivity)
  have h2 : (side lo hi n : ℝ) ^ 3 ≤ ((((hi : ℝ) - lo) ^ 3 / n) ^ (1 / 3 : ℝ)) ^ 3 := pow_le_pow_left₀ (by positivity) h1 3
  have h3 : ((((hi : ℝ) - lo) ^ 3 / n) ^ (1 / 3 : ℝ)) ^ 3 = ((hi : ℝ) - lo) ^ 3 / n := by
    rw [← Real.rpow_natCast, ← Real.rpow_mul hx]
    norm_num
  rw [h3, le_div_iff₀ hn'] at h2
  linarith

theorem grid_length (l : List ℤ) : (grid l).length = l.length ^ 3 := by
  simp [grid, List.length_flatMap, pow_succ, mul_assoc]

theorem arange_length (lo hi : ℤ) (k : ℕ) : (arange lo hi k).length = ⌈((hi : ℝ) - lo) / k⌉₊ := by simp [arange]

theorem grid_mem {l : List ℤ} {c : List ℤ} (h : c ∈ grid l) : ∃ r ∈ l, ∃ g ∈ l, ∃ b ∈ l, c = [r, g, b] := by
  simp only [grid, List.mem_flatMap, List.mem_map] at h
  obtain ⟨r, hr, g, hg, b, hb, rfl⟩ := h
  exact ⟨r, hr, g, hg, b, hb, rfl⟩

theorem grid_nodup {l : List ℤ} (h : l.Nodup) : (grid l).Nodup := by
  unfold grid
  refine List.nodup_flatMap.2 ⟨fun r _ => List.nodup_flatMap.2 ⟨fun g _ => h.map (fun b b' e => by simpa using e), ?_⟩, ?_⟩
  · refine h.imp fun {g g'} hne => ?_
    intro c hc hc'
    simp only [List.mem_map] at hc hc'
    obtain ⟨b, -, rfl⟩ := hc
    obtain ⟨b', -, e⟩ := hc'
    simp only [List.cons.injEq, true_and] at e
    exact hne e.1.symm
  · refine h.imp fun {r r'} hne => ?_
    intro c hc hc'
    simp only [List.mem_flatMap, List.mem_map] at hc hc'
    obtain ⟨g, -, b, -, rfl⟩ := hc
    obtain ⟨g', -, b', -, e⟩ := hc'
    simp only [List.cons.injEq] at e
    exact hne e.1.symm

theorem arange_mem {lo hi : ℤ} {k : ℕ} (hk : 0 < k) {v : ℤ} (h : v ∈ arange lo hi k) : lo ≤ v ∧ v < hi ∧ ∃ q : ℕ, v = lo + q * k := by
  simp only [arange, List.mem_map, List.mem_range] at h
  obtain ⟨q, hq, rfl⟩ := h
  have hk' : (0 : ℝ) < k := by exact_mod_cast hk
  rw [Nat.lt_ceil, lt_div_iff₀ hk'] at hq
  refine ⟨by nlinarith [Int.natCast_nonneg (q * k)], ?_, q, rfl⟩
  have : (q : ℤ) * k < hi - lo := by exact_mod_cast hq
  linarith

theorem arange_nodup (lo hi : ℤ) {k : ℕ} (hk : 0 < k) : (arange lo hi k).Nodup := by
  refine (List.nodup_range).map fun a b e => ?_
  have : (a : ℤ) * k = b * k := by linarith
  exact_mod_cast mul_right_cancel₀ (by exact_mod_cast hk.ne') this

/-- C164. There are enough colours to choose from: the grid of the components has at least `n` points. -/
theorem C164_enough (lo hi : ℤ) (n : ℕ) (h : lo < hi) (hn : 0 < n) (hle : (n : ℤ) ≤ (hi - lo) ^ 3) :
    n ≤ (grid (arange lo hi (side lo hi n))).length := by
  have hs := side_pos h hn hle
  have hs' : (0 : ℝ) < side lo hi n := by exact_mod_cast hs
  have hD : (0 : ℝ) < (hi : ℝ) - lo := by exact_mod_cast sub_pos.2 h
  have h1 := side_cube (n := n) h hn
  have h2 : ((hi : ℝ) - lo) / side lo hi n ≤ ⌈((hi : ℝ) - lo) / side lo hi n⌉₊ := Nat.le_ceil _
  have h3 : (((hi : ℝ) - lo) / side lo hi n) ^ 3 ≤ (⌈((hi : ℝ) - lo) / side lo hi n⌉₊ : ℝ) ^ 3 := pow_le_pow_left₀ (by positivity) h2 3
  rw [div_pow] at h3
  have h4 : (n : ℝ) ≤ ((hi : ℝ) - lo) ^ 3 / (side lo hi n : ℝ) ^ 3 := (le_div_iff₀ (by positivity)).2 h1
  rw [grid_length, arange_length]
  exact_mod_cast h4.trans h3

example : 7 ≤ (grid (arange 50 256 (side 50 256 7))).length := C164_enough 50 256 7 (by norm_num) (by norm_num) (by norm_num)

/-- C164. `get_n_colors` gives `n` colours with components in the range; any two differ in a component by at least the side of the part of the colour
space that belongs to one colour, rounded down. -/
theorem C164_colors (lo hi : ℤ) (n : ℕ) (h : lo < hi) (hn : 0 < n) (hle : (n : ℤ) ≤ (hi - lo) ^ 3) (picks : List ℕ)
    (hp : Sample picks n (grid (arange lo hi (side lo hi n))).length) :
    ∃ cs, getColors lo hi n picks = .ok cs ∧ cs.length = n ∧ (∀ c ∈ cs, c.length = 3 ∧ ∀ v ∈ c, lo ≤ v ∧ v < hi) ∧
      cs.Pairwise (fun c d => ∃ k, (⌊(((hi : ℝ) - lo) ^ 3 / n) ^ (1 / 3 : ℝ)⌋₊ : ℤ) ≤ |c.getD k 0 - d.getD k 0| ∧ c.getD k 0 ≠ d.getD k 0) := by
  have hs := side_pos h hn hle
  have hen := C164_enough lo hi n h hn hle
  obtain ⟨p1, p2, p3⟩ := hp
  have hmem : ∀ k ∈ picks, (grid (arange lo hi (side lo hi n))).getD k [] ∈ grid (arange lo hi (side lo hi n)) := fun k hk => by
    rw [List.getD_eq_getElem _ _ (p3 k hk)]; exact List.getElem_mem _
  refine ⟨picks.map (fun k => (grid (arange lo hi (side lo hi n))).getD k []), ?_, by simpa using p1, ?_, ?_⟩
  · unfold getColors
    rw [if_neg hn.ne', if_neg (by omega), if_neg (by omega)]
  · intro c hc
    obtain ⟨k, hk, rfl⟩ := List.mem_map.1 hc
    obtain ⟨r, hr, g, hg, b, hb, e⟩ := grid_mem (hmem k hk)
    rw [e]
    refine ⟨rfl, ?_⟩
    simp only [List.mem_cons, List.not_mem_nil, or_false]
    rintro v (rfl | rfl | rfl)
    · exact ⟨(arange_mem hs hr).1, (arange_mem hs hr).2.1⟩
    · exact ⟨(arange_mem hs hg).1, (arange_mem hs hg).2.1⟩
    · exact ⟨(arange_mem hs hb).1, (arange_mem hs hb).2.1⟩
  · have far : ∀ v ∈ arange lo hi (side lo hi n), ∀ w ∈ arange lo hi (side lo hi n), v ≠ w → (side lo hi n : ℤ) ≤ |v - w| := by
      intro v hv w hw hne
      obtain ⟨-, -, a, rfl⟩ := arange_mem hs hv
      obtain ⟨-, -, b, rfl⟩ := arange_mem hs hw
      have hab : (a : ℤ) - b ≠ 0 := fun e => hne (by rw [sub_eq_zero.1 e])
      have : lo + (a : ℤ) * (side lo hi n) - (lo + b * side lo hi n) = ((a : ℤ) - b) * side lo hi n := by ring
      rw [this, abs_mul, Nat.abs_cast]
      nlinarith [Int.one_le_abs hab, Int.natCast_nonneg (side lo hi n)]
    rw [List.pairwise_map]
    refine p2.imp_of_mem fun {j k} hj hk hne => ?_
    have hne' : (grid (arange lo hi (side lo hi n))).getD j [] ≠ (grid (arange lo hi (side lo hi n))).getD k [] := by
      rw [List.getD_eq_getElem _ _ (p3 j hj), List.getD_eq_getElem _ _ (p3 k hk)]
      exact fun e => hne ((grid_nodup (arange_nodup lo hi hs)).getElem_inj_iff.1 e)
    obtain ⟨r, hr, g, hg, b, hb, e⟩ := grid_mem (hmem j hj)
    obtain ⟨r', hr', g', hg', b', hb', e'⟩ := grid_mem (hmem k hk)
    rw [e, e'] at hne' ⊢
    by_cases h1 : r = r'
    · by_cases h2 : g = g'
      · have h3 : b ≠ b' := fun h3 => hne' (by rw [h1, h2, h3])
        exact ⟨2, far b hb b' hb' h3, h3⟩
      · exact ⟨1, far g hg g' hg' h2, h2⟩
    · exact ⟨0, far r hr r' hr' h1, h1⟩

/-- More colours than there are: no colours at all. -/
theorem C164_colors_limit (lo hi : ℤ) (n : ℕ) (h : lo ≤ hi) (hn : (hi - lo) ^ 3 < n) (picks : List ℕ) :
    getColors lo hi n picks = .error .zeroDivision := by
  have hD : (0 : ℝ) ≤ (hi : ℝ) - lo := by exact_mod_cast sub_nonneg.2 h
  have hn' : ((hi : ℝ) - lo) ^ 3 < n := by exact_mod_cast hn
  have hn0 : (0 : ℝ) < n := lt_of_le_of_lt (by positivity) hn'
  have hs : side lo hi n = 0 := by
    unfold side
    rw [Nat.floor_eq_zero]
    exact Real.rpow_lt_one (by positivity) ((div_lt_one hn0).2 hn') (by norm_num)
  unfold getColors
  rw [hs]
  simp

example : getColors 50 60 1001 [] = .error .zeroDivision := C164_colors_limit 50 60 1001 (by norm_num) (by norm_num) []

/-- The positions 0 to `n - 1`. -/
theorem sample_range (n : ℕ) (hn : 0 < n) (hle : n ≤ 206 ^ 3) : Sample (List.range n) n (grid (arange 50 256 (side 50 256 n))).length := by
  have := C164_enough 50 256 n (by norm_num) hn (by norm_num; exact_mod_cast hle)
  exact ⟨by simp, List.nodup_range, fun k hk => lt_of_lt_of_le (List.mem_range.1 hk) this⟩

example : ∃ cs, getColors 50 256 7 (List.range 7) = .ok cs ∧ cs.length = 7 := by
  obtain ⟨cs, h1, h2, -⟩ := C164_colors 50 256 7 (by norm_num) (by norm_num) (by norm_num) _ (sample_range 7 (by norm_num) (by norm_num))
  exact ⟨cs, h1, h2⟩

/-! ### The curves of a plot -/

/-- What the curve `d` of a plot with several curves has from the entry `c` and the colour. -/
def Styled (c d : Curve) (color : List ℤ) : Prop :=
  d.buffer = c.buffer ∧ d.bufName = c.bufName ∧ d.pen = some (c.pen.getD (color ++ [255])) ∧ d.name = some (c.name.getD c.bufName)

theorem styles_spec (picks : ℕ → List ℕ) (n : ℕ) (hn : 0 < n) (hle : n ≤ 206 ^ 3) : ∀ (cs : List Curve) (i : ℕ),
    (∀ k, i ≤ k → k < i + cs.length → Sample (picks k) n (grid (arange 50 256 (side 50 256 n))).length) →
    ∃ ds, styles picks n i cs = .ok ds ∧ ds.length = cs.length ∧
      ∀ k c d, cs[k]? = some c → ds[k]? = some d → ∃ colors, getColors 50 256 n (picks (i + k)) = .ok colors ∧ Styled c d (colors.getD (i + k) []) := by
  intro cs
  induction cs with
  | nil => intro i _; exact ⟨[], rfl, rfl, by simp⟩
  | cons c cs ih =>
    intro i hp
    obtain ⟨colors, h1, -⟩ := C164_colors 50 256 n (by norm_num) hn (by norm_num; exact_mod_cast hle) (picks i) (hp i le_rfl (by simp))
    obtain ⟨ds, h2, h3, h4⟩ := ih (i + 1) (fun k a b => hp k (by omega) (by simp; omega))
    refine ⟨_, by simp only [styles, h1, h2]; rfl, by simp [h3], ?_⟩
    intro k c' d hc hd
    cases k with
    | zero =>
      simp only [List.getElem?_cons_zero, Option.some.injEq] at hc hd
      subst hc hd
      refine ⟨colors, by simpa using h1, ?_⟩
      cases hpen : c.pen <;> cases hname : c.name <;> simp [Styled, hpen, hname]
    | succ k =>
      simp only [List.getElem?_cons_succ] at hc hd
      obtain ⟨colors', g1, g2⟩ := h4 k c' d hc hd
      exact ⟨colors', by rwa [show i + (k + 1) = i + 1 + k by omega], by rwa [show i + (k + 1) = i + 1 + k by omega]⟩

/-- C164. The curves of a plot are those of the buffers, in the same order. A given pen or name is kept; otherwise the pen has a colour with components from
50 to 255, red if there is only one curve, and the name for the legend of several curves is that of the buffer. -/
theorem C164_curves (picks : ℕ → List ℕ) (cs : List Curve) (hle : cs.length ≤ 206 ^ 3)
    (hp : ∀ k < cs.length, Sample (picks k) cs.length (grid (arange 50 256 (side 50 256 cs.length))).length) :
    ∃ ds, newCurves picks cs = .ok ds ∧ ds.map (·.buffer) = cs.map (·.buffer) ∧
      ∀ (k : ℕ) (c d : Curve), cs[k]? = some c → ds[k]? = some d →
        (∀ p, c.pen = some p → d.pen = some p) ∧ (c.pen = none → ∃ r g b, d.pen = some [r, g, b, 255]) ∧
        (c.pen = none → cs.length = 1 → d.pen = some [255, 0, 0, 255]) ∧
        (c.pen = none → 1 < cs.length → ∃ p, d.pen = some p ∧ ∀ v ∈ p, 50 ≤ v ∧ v ≤ 255) ∧
        (∀ s, c.name = some s → d.name = some s) ∧ (c.name = none → 1 < cs.length → d.name = some c.bufName) := by
  match cs, hle, hp with
  | [], _, _ => exact ⟨[], rfl, rfl, by simp⟩
  | [c], _, _ =>
    refine ⟨_, rfl, by cases h : c.pen <;> simp, ?_⟩
    intro k c' d hc hd
    cases k with
    | zero =>
      simp only [List.getElem?_cons_zero, Option.some.injEq] at hc hd
      subst hc hd
      cases h : c.pen <;> simp [h]
    | succ k => simp at hc
  | c1 :: c2 :: cs, hle, hp =>
    have hn : 0 < (c1 :: c2 :: cs).length := by simp
    obtain ⟨ds, h1, h2, h3⟩ := styles_spec picks _ hn hle (c1 :: c2 :: cs) 0 (fun k _ hk => hp k (by omega))
    refine ⟨ds, h1, ?_, ?_⟩
    · apply List.ext_getElem (by simp [h2])
      intro k a b
      simp only [List.length_map] at a b
      obtain ⟨-, -, g, -⟩ := h3 k _ _ (List.getElem?_eq_getElem b) (List.getElem?_eq_getElem a)
      rw [List.getElem_map, List.getElem_map, g]
    · intro k c d hc hd
      obtain ⟨colors, g1, -, -, g2, g3⟩ := h3 k c d hc hd
      simp only [Nat.zero_add] at g1 g2
      have hk : k < (c1 :: c2 :: cs).length := (List.getElem?_eq_some_iff.1 hc).1
      obtain ⟨colors', e1, e2, e3, -⟩ := C164_colors 50 256 _ (by norm_num) hn (by norm_num at hle ⊢; exact_mod_cast hle) (picks k) (hp k hk)
      rw [e1] at g1
      cases g1
      have hmem : colors.getD k [] ∈ colors := by
        rw [List.getD_eq_getElem _ _ (by omega)]; exact List.getElem_mem _
      obtain ⟨f1, f2⟩ := e3 _ hmem
      obtain ⟨r, g, b, hrgb⟩ := List.length_eq_three.1 f1
      rw [hrgb] at g2 f2
      refine ⟨fun p hpen => by rw [g2, hpen]; rfl, fun hpen => ⟨r, g, b, by rw [g2, hpen]; rfl⟩, fun _ h => by simp at h, fun hpen _ => ?_,
        fun s hs => by rw [g3, hs]; rfl, fun hs _ => by rw [g3, hs]; rfl⟩
      refine ⟨[r, g, b, 255], by rw [g2, hpen]; rfl, ?_⟩
      simp only [List.mem_cons, List.not_mem_nil, or_false] at f2 ⊢
      rintro v (rfl | rfl | rfl | rfl)
      · have := f2 v (by simp); omega
      · have := f2 v (by simp); omega
      · have := f2 v (by simp); omega
      · norm_num

/-- Two curves: one with a pen, one without. -/
example : ∃ ds : List Curve, newCurves (fun _ => List.range 2) [⟨0, "a", some [1, 2, 3], none⟩, ⟨1, "b", none, none⟩] = .ok ds ∧ ds.map (·.buffer) = [0, 1] := by
  obtain ⟨ds, h1, h2, -⟩ := C164_curves (fun _ => List.range 2) [⟨0, "a", some [1, 2, 3], none⟩, ⟨1, "b", none, none⟩] (by norm_num)
    (fun k _ => sample_range 2 (by norm_num) (by norm_num))
  exact ⟨ds, h1, h2⟩

/-- C164. If the random choices are the same in each turn of the loop, curves without a given pen have different colours. -/
theorem C164_distinct_partial (picks : List ℕ) (cs : List Curve) (hle : cs.length ≤ 206 ^ 3)
    (hp : Sample picks cs.length (grid (arange 50 256 (side 50 256 cs.length))).length) (hpen : ∀ c ∈ cs, c.pen = none) :
    ∃ ds, newCurves (fun _ => picks) cs = .ok ds ∧ (ds.map (·.pen)).Nodup := by
  match cs, hle, hp, hpen with
  | [], _, _, _ => exact ⟨[], rfl, by simp⟩
  | [c], _, _, _ => exact ⟨_, rfl, by simp⟩
  | c1 :: c2 :: cs, hle, hp, hpen =>
    have hn : 0 < (c1 :: c2 :: cs).length := by simp
    obtain ⟨ds, h1, h2, h3⟩ := styles_spec (fun _ => picks) _ hn hle (c1 :: c2 :: cs) 0 (fun k _ hk => hp)
    obtain ⟨colors, e1, e2, -, e4⟩ := C164_colors 50 256 _ (by norm_num) hn (by norm_num at hle ⊢; exact_mod_cast hle) picks hp
    refine ⟨ds, h1, ?_⟩
    have : ds.map (·.pen) = colors.map (fun x => some (x ++ [255])) := by
      apply List.ext_getElem (by simp [h2, e2])
      intro k a b
      simp only [List.length_map] at a b
      have hk : k < (c1 :: c2 :: cs).length := by omega
      obtain ⟨colors', g1, -, -, g2, -⟩ := h3 k _ _ (List.getElem?_eq_getElem hk) (List.getElem?_eq_getElem a)
      rw [e1] at g1
      cases g1
      rw [hpen _ (List.getElem_mem _)] at g2
      simp [g2, b]
    rw [this]
    refine List.Nodup.map (fun x y h => by simpa using h) (e4.imp fun {c d} h => ?_)
    obtain ⟨k, -, h⟩ := h
    exact fun e => h (by rw [e])

example : ∃ ds, newCurves (fun _ => List.range 3) [⟨0, "a", none, none⟩, ⟨1, "b", none, none⟩, ⟨2, "c", none, some "speed"⟩] = .ok ds ∧
    (ds.map (·.pen)).Nodup :=
  C164_distinct_partial _ _ (by norm_num) (sample_range 3 (by norm_num) (by norm_num)) (by simp)

/-- C164, refuted: the colours are chosen anew for each curve, so that two curves of a plot can have the same colour. -/
theorem C164_distinct_refuted : ∃ (picks : ℕ → List ℕ) (c d : Curve) (ds : List Curve),
    (∀ k, Sample (picks k) 2 (grid (arange 50 256 (side 50 256 2))).length) ∧ c.pen = none ∧ d.pen = none ∧ c.buffer ≠ d.buffer ∧
    newCurves picks [c, d] = .ok ds ∧ ¬ (ds.map (·.pen)).Nodup := by
  have hs := sample_range 2 (by norm_num) (by norm_num)
  have h01 : 0 < (grid (arange 50 256 (side 50 256 2))).length ∧ 1 < (grid (arange 50 256 (side 50 256 2))).length :=
    ⟨hs.2.2 0 (by simp), hs.2.2 1 (by simp)⟩
  have hp : ∀ k : ℕ, Sample (if k = 0 then [0, 1] else [1, 0]) 2 (grid (arange 50 256 (side 50 256 2))).length := by
    intro k
    split
    · exact ⟨rfl, by simp, by simp [h01.1, h01.2]⟩
    · exact ⟨rfl, by simp, by simp [h01.1, h01.2]⟩
  obtain ⟨ds, h1, h2, h3⟩ := styles_spec (fun k => if k = 0 then [0, 1] else [1, 0]) 2 (by norm_num) (by norm_num)
    [⟨0, "a", none, none⟩, ⟨1, "b", none, none⟩] 0 (fun k _ _ => hp k)
  refine ⟨fun k => if k = 0 then [0, 1] else [1, 0], ⟨0, "a", none, none⟩, ⟨1, "b", none, none⟩, ds, hp, rfl, rfl, by simp, h1, ?_⟩
  obtain ⟨x, y, rfl⟩ := List.length_eq_two.1 h2
  obtain ⟨colors, g1, -, -, g2, -⟩ := h3 0 _ x rfl rfl
  obtain ⟨colors', g1', -, -, g2', -⟩ := h3 1 _ y rfl rfl
  have hside := side_pos (lo := 50) (hi := 256) (n := 2) (by norm_num) (by norm_num) (by norm_num)
  unfold getColors at g1 g1'
  rw [if_neg (by norm_num), if_neg (by omega), if_neg (by omega)] at g1 g1'
  simp only [Except.ok.injEq] at g1 g1'
  subst g1 g1'
  simp at g2 g2'
  simp [g2, g2']

end

end Verif.Misc.PlotItems
