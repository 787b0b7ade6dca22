/-
Properties C25-C27, C71, C72: scheduled parameters, epsilon-greedy, Boltzmann and Mellowmax policies.
-/
import Verif.Policy.Lemmas

namespace Verif.Policy

noncomputable section

/-! ### C25 -/

theorem linear_clip (v th : ℝ) (n k : Nat) (hn : 0 < n) :
    (0 ≤ (th - v) / n → min ((th - v) / n * (k : ℝ) + v) th = v + (th - v) * (min k n : Nat) / n) ∧
    (¬ 0 ≤ (th - v) / n → max ((th - v) / n * (k : ℝ) + v) th = v + (th - v) * (min k n : Nat) / n) := by
  have hn' : (0 : ℝ) < n := by exact_mod_cast hn
  have hth : th = v + (th - v) * (n : ℝ) / n := by field_simp; ring
  have hk : (th - v) / n * (k : ℝ) + v = v + (th - v) * (k : ℝ) / n := by ring
  constructor
  · intro h
    rw [hk]
    rcases Nat.le_total k n with hkn | hkn
    · rw [Nat.min_eq_left hkn]
      apply min_eq_left
      have h1 : (k : ℝ) ≤ n := by exact_mod_cast hkn
      have h2 : (th - v) / n * (k : ℝ) ≤ (th - v) / n * (n : ℝ) := mul_le_mul_of_nonneg_left h1 h
      have h3 : (th - v) / n * (n : ℝ) = th - v := by field_simp
      have h4 : (th - v) * (k : ℝ) / n = (th - v) / n * (k : ℝ) := by ring
      rw [h4]; linarith
    · rw [Nat.min_eq_right hkn, ← hth]
      apply min_eq_right
      have h1 : (n : ℝ) ≤ k := by exact_mod_cast hkn
      have h2 : (th - v) / n * (n : ℝ) ≤ (th - v) / n * (k : ℝ) := mul_le_mul_of_nonneg_left h1 h
      have h3 : (th - v) / n * (n : ℝ) = th - v := by field_simp
      have h4 : (th - v) * (k : ℝ) / n = (th - v) / n * (k : ℝ) := by ring
      rw [h4]; linarith
  · intro h
    have h : (th - v) / n ≤ 0 := (not_le.mp h).le
    rw [hk]
    rcases Nat.le_total k n with hkn | hkn
    · rw [Nat.min_eq_left hkn]
      apply max_eq_left
      have h1 : (k : ℝ) ≤ n := by exact_mod_cast hkn
      have h2 : (th - v) / n * (n : ℝ) ≤ (th - v) / n * (k : ℝ) := mul_le_mul_of_nonpos_left h1 h
      have h3 : (th - v) / n * (n : ℝ) = th - v := by field_simp
      have h4 : (th - v) * (k : ℝ) / n = (th - v) / n * (k : ℝ) := by ring
      rw [h4]; linarith
    · rw [Nat.min_eq_right hkn, ← hth]
      apply max_eq_right
      have h1 : (n : ℝ) ≤ k := by exact_mod_cast hkn
      have h2 : (th - v) / n * (k : ℝ) ≤ (th - v) / n * (n : ℝ) := mul_le_mul_of_nonpos_left h1 h
      have h3 : (th - v) / n * (n : ℝ) = th - v := by field_simp
      have h4 : (th - v) * (k : ℝ) / n = (th - v) / n * (k : ℝ) := by ring
      rw [h4]; linarith

theorem call_value (p : Param) (ops : List Op) (idx : Index) :
    ((p.run ops).call idx).2 = (p.run (ops ++ [.call idx])).getValue idx := by
  simp [Param.run, Param.exec, Param.call]

theorem visits_call (single : Bool) (ops : List Op) (idx : Index) :
    visits single idx (ops ++ [.call idx]) = visits single idx ops + 1 := by
  rw [visits_append]; simp [visits]

/-- C25, linear schedule. After any sequence of reads, updates and calls, the value in a cell depends only on the number
`k` of updates and calls of this cell: it moves linearly from the initial value to the threshold, which it reaches after
`n` of them, and stays there. -/
theorem C25_linear (value threshold : ℝ) (n : Nat) (single : Bool) (p : Param)
    (hp : linearParam value threshold n single = some p) (ops : List Op) (idx : Index) :
    (p.run ops).getValue idx = value + (threshold - value) * (min (visits single idx ops) n : Nat) / n := by
  have hn : 0 < n := by
    rcases Nat.eq_zero_or_pos n with h | h
    · simp [linearParam, h] at hp
    · exact h
  simp only [linearParam, Nat.pos_iff_ne_zero.mp hn, if_false, Option.some.injEq] at hp
  obtain ⟨h1, h2, h3, h4, h5⟩ := run_attrs ops p
  have hc := run_counts ops p idx
  have hcell : (p.run ops).cell idx = p.cell idx := by simp only [Param.cell, h5]
  have hs : p.single = single := by rw [← hp]
  have hz : p.counts (p.cell idx) = 0 := by rw [← hp]
  rw [hz, hs, Nat.zero_add] at hc
  have hcl := linear_clip value threshold n (visits single idx ops) hn
  unfold Param.getValue Param.compute
  rw [h1, h2, h3, h4, hcell, hc]
  by_cases h : 0 ≤ (threshold - value) / n
  · rw [← hp]
    simp only [h, if_true, clip]
    exact hcl.1 h
  · rw [← hp]
    simp only [h, if_false, clip]
    exact hcl.2 h

/-- The value returned by the call itself counts that call. -/
theorem C25_linear_call (value threshold : ℝ) (n : Nat) (single : Bool) (p : Param)
    (hp : linearParam value threshold n single = some p) (ops : List Op) (idx : Index) :
    ((p.run ops).call idx).2 = value + (threshold - value) * (min (visits single idx ops + 1) n : Nat) / n := by
  rw [call_value, C25_linear value threshold n single p hp, visits_call]

/-- From the `n`-th update on the value is exactly the threshold. -/
theorem C25_linear_end (value threshold : ℝ) (n : Nat) (single : Bool) (p : Param)
    (hp : linearParam value threshold n single = some p) (ops : List Op) (idx : Index)
    (hk : n ≤ visits single idx ops) : (p.run ops).getValue idx = threshold := by
  have hn : n ≠ 0 := by rintro rfl; simp [linearParam] at hp
  have hn' : (n : ℝ) ≠ 0 := by exact_mod_cast hn
  rw [C25_linear value threshold n single p hp, Nat.min_eq_right hk]
  field_simp
  ring

example : ∃ p, linearParam 1 0 4 true = some p ∧ (p.run [.update [], .get [], .update []]).getValue [] = 1 / 2 := by
  refine ⟨_, rfl, ?_⟩
  rw [C25_linear 1 0 4 true _ rfl]
  norm_num [visits]

/-- C25, decay. The value after `k` updates and calls of the cell is `value / k ^ exp` (the initial value before the
first one), clipped to the bounds if there are any. -/
theorem C25_decay (value exp : ℝ) (minV maxV : Option ℝ) (single : Bool) (ops : List Op) (idx : Index) :
    ((decayParam value exp minV maxV single).run ops).getValue idx =
      clip (value / (max (visits single idx ops : ℝ) 1) ^ exp) minV maxV := by
  set p := decayParam value exp minV maxV single
  obtain ⟨h1, h2, h3, h4, h5⟩ := run_attrs ops p
  have hc := run_counts ops p idx
  have hcell : (p.run ops).cell idx = p.cell idx := by simp only [Param.cell, h5]
  have hz : p.counts (p.cell idx) = 0 := rfl
  have hs : p.single = single := rfl
  rw [hz, hs, Nat.zero_add] at hc
  unfold Param.getValue Param.compute
  rw [h1, h2, h3, h4, hcell, hc]
  rfl

/-- The `k`-th call of a cell returns `value / k ^ exp`. -/
theorem C25_decay_call (value exp : ℝ) (single : Bool) (ops : List Op) (idx : Index) :
    (((decayParam value exp none none single).run ops).call idx).2 =
      value / ((visits single idx ops + 1 : Nat) : ℝ) ^ exp := by
  rw [call_value, C25_decay, visits_call]
  have : max (((visits single idx ops + 1 : Nat) : ℝ)) 1 = ((visits single idx ops + 1 : Nat) : ℝ) := by
    apply max_eq_left
    exact_mod_cast Nat.succ_le_succ (Nat.zero_le _)
  rw [this]
  simp [clip]

example : (((decayParam 3 1 none none false).run [.call [0], .call [1], .get [0]]).call [0]).2 = 3 / 2 := by
  rw [C25_decay_call]; norm_num [visits]

/-- A constant parameter always has its (clipped) value. -/
theorem C25_constant (value : ℝ) (minV maxV : Option ℝ) (single : Bool) (ops : List Op) (idx : Index) :
    ((constantParam value minV maxV single).run ops).getValue idx = clip value minV maxV := by
  set p := constantParam value minV maxV single
  obtain ⟨h1, h2, h3, h4, h5⟩ := run_attrs ops p
  unfold Param.getValue Param.compute
  rw [h1, h2, h3, h4]
  rfl

/-- Whatever has been done with a parameter, its value is within its bounds. -/
theorem C25_in_range (p : Param) (h : ∀ l u, p.minV = some l → p.maxV = some u → l ≤ u) (ops : List Op) (idx : Index) :
    InRange p.minV p.maxV ((p.run ops).getValue idx) := by
  obtain ⟨_, _, h3, h4, _⟩ := run_attrs ops p
  unfold Param.getValue
  rw [h3, h4]
  exact clip_inRange _ _ _ h

/-- Operations on other cells, and reads, never change the value of a cell. -/
theorem C25_cells_independent (p : Param) (hs : p.single = false) (ops : List Op) (idx : Index)
    (h : ∀ o ∈ ops, match o with
      | .get _ => True
      | .update j => j ≠ idx
      | .call j => j ≠ idx) : (p.run ops).getValue idx = p.getValue idx := by
  have hv : visits p.single idx ops = 0 := by
    rw [hs]
    induction ops with
    | nil => rfl
    | cons o ops ih =>
      have h1 := h o (by simp)
      have h2 := ih (fun o ho => h o (by simp [ho]))
      cases o with
      | get j => simpa [visits] using h2
      | update j => simp only [] at h1; simp [visits, h1, h2]
      | call j => simp only [] at h1; simp [visits, h1, h2]
  obtain ⟨h1, h2, h3, h4, h5⟩ := run_attrs ops p
  have hc := run_counts ops p idx
  have hcell : (p.run ops).cell idx = p.cell idx := by simp only [Param.cell, h5]
  unfold Param.getValue Param.compute
  rw [h1, h2, h3, h4, hcell, hc, hv, Nat.add_zero]

example : ∀ o ∈ [Op.get [0], Op.update [1], Op.call [2]], match o with
    | .get _ => True
    | .update j => j ≠ [0]
    | .call j => j ≠ [0] := by simp

/-! ### C26 -/

/-- C26. The probabilities of epsilon-greedy: `eps / n` for every action, plus an equal share of `1 - eps` for the
maximising actions. -/
theorem C26_mass (q : List ℝ) (eps : ℝ) (a : Nat) (ha : a < q.length) :
    (Greedy q a → (epsGreedyProbs q eps)[a]? = some (eps / q.length + (1 - eps) / nGreedy q)) ∧
    (¬ Greedy q a → (epsGreedyProbs q eps)[a]? = some (eps / q.length)) := by
  simp only [epsGreedyProbs, List.getElem?_map, List.getElem?_range ha, Option.map_some, Option.some.injEq,
    epsGreedyProb, argmaxes_length]
  constructor
  · intro h
    rw [if_pos ((mem_argmaxes q a).mpr h)]
  · intro h
    rw [if_neg (fun h' => h ((mem_argmaxes q a).mp h'))]

/-- They form a probability distribution. -/
theorem C26_distribution (q : List ℝ) (eps : ℝ) (hq : q ≠ []) (h0 : 0 ≤ eps) (h1 : eps ≤ 1) :
    IsProb q.length (epsGreedyProbs q eps) := by
  have hn : (0 : ℝ) < q.length := by exact_mod_cast List.length_pos_iff.mpr hq
  have hm : (0 : ℝ) < nGreedy q := by exact_mod_cast nGreedy_pos q hq
  constructor
  · simp [epsGreedyProbs]
  · intro x hx
    obtain ⟨a, _, rfl⟩ := List.mem_map.mp hx
    have h2 : 0 ≤ eps / q.length := div_nonneg h0 hn.le
    have h3 : 0 ≤ (1 - eps) / (argmaxes q).length := by
      rw [argmaxes_length]; exact div_nonneg (by linarith) hm.le
    simp only [epsGreedyProb]
    split
    · exact add_nonneg h2 h3
    · exact h2
  · classical
    unfold epsGreedyProbs epsGreedyProb
    have := sum_ite_count (List.range q.length) (fun a => a ∈ argmaxes q) (eps / q.length)
      ((1 - eps) / (argmaxes q).length)
    simp only [] at this ⊢
    have hf : (List.range q.length).filter (fun a => decide (a ∈ argmaxes q)) = argmaxes q := by
      rw [argmaxes]
      apply List.filter_congr
      intro a ha
      simp [List.mem_filter, List.mem_range.mp ha]
    rw [hf, List.length_range, argmaxes_length] at this
    rw [argmaxes_length]
    rw [show (List.range q.length).map (fun a => if a ∈ argmaxes q then eps / ↑q.length + (1 - eps) / ↑(nGreedy q)
      else eps / ↑q.length) = (List.range q.length).map (fun a => if a ∈ argmaxes q then
      eps / ↑q.length + (1 - eps) / ↑(nGreedy q) else eps / ↑q.length) from rfl]
    rw [this]
    field_simp
    ring

/-- Drawing an action returns every action with exactly the probability reported for the value of epsilon that the draw
uses, which is the value after its update. -/
theorem C26_draw (q : List ℝ) (epsilon : Param) (state : Index) (a : Nat) (ha : a < q.length) :
    Dist.mass (epsGreedyDraw q epsilon state).2 a =
      epsGreedyProb q ((epsGreedyDraw q epsilon state).1.getValue state) a ∧
    (epsGreedyDraw q epsilon state).1 = epsilon.update state := by
  refine ⟨?_, rfl⟩
  have hq : q ≠ [] := by rintro rfl; simp at ha
  simp only [epsGreedyDraw, Param.call]
  set eps := (epsilon.update state).getValue state with he
  rw [mass_bind_less]
  simp only [if_true, Bool.false_eq_true, if_false]
  rw [mass_choice _ _ List.nodup_range]
  simp only [List.mem_range, ha, if_true, List.length_range, epsGreedyProb]
  have hpos := nGreedy_pos q hq
  have hlen := argmaxes_length q
  by_cases h1 : 1 < (argmaxes q).length
  · simp only [h1, if_true]
    rw [mass_choice _ _ (argmaxes_nodup q)]
    split
    · ring
    · ring
  · simp only [h1, if_false]
    have h2 : (argmaxes q).length = 1 := by omega
    obtain ⟨b, hb⟩ := List.length_eq_one_iff.mp h2
    rw [hb]
    simp only [headD, List.headD_cons, Dist.pure, mass_cons, List.mem_singleton, List.length_cons, List.length_nil]
    by_cases hab : b = a
    · subst hab; simp [Dist.mass]; ring
    · have : ¬ a = b := fun e => hab e.symm
      simp [hab, this, Dist.mass]; ring

example : Greedy [1, 3, 3] 1 ∧ ¬ Greedy [1, 3, 3] 0 := by
  constructor
  · exact ⟨3, rfl, by intro y hy; simp at hy; rcases hy with rfl | rfl <;> norm_num⟩
  · rintro ⟨x, hx, h⟩
    simp at hx
    subst hx
    have := h 3 (by simp)
    norm_num at this

/-! ### C27 -/

/-- C27. For every inverse temperature the Boltzmann probabilities are positive and sum to one. -/
theorem C27_distribution (q : List ℝ) (beta : ℝ) (hq : q ≠ []) :
    IsProb q.length (boltzmannProbs q beta) ∧ ∀ x ∈ boltzmannProbs q beta, 0 < x := by
  have hs := expSum_pos q (fun x => x * beta) hq
  have hpos : ∀ x ∈ boltzmannProbs q beta, 0 < x := by
    intro x hx
    rw [boltzmann_eq] at hx
    obtain ⟨y, _, rfl⟩ := List.mem_map.mp hx
    exact div_pos (Real.exp_pos _) hs
  refine ⟨⟨?_, fun x hx => (hpos x hx).le, ?_⟩, hpos⟩
  · simp [boltzmann_eq]
  · rw [boltzmann_eq]
    have := sum_div (q.map (fun x => Real.exp (x * beta))) ((q.map (fun y => Real.exp (y * beta))).sum)
    rw [List.map_map] at this
    exact this.trans (div_self hs.ne')

/-- Adding a constant to all the action values does not change the probabilities. -/
theorem C27_shift (q : List ℝ) (beta c : ℝ) : boltzmannProbs (q.map (fun x => x + c)) beta = boltzmannProbs q beta := by
  rw [boltzmann_eq, boltzmann_eq, List.map_map, List.map_map]
  have hs : (q.map ((fun y => Real.exp (y * beta)) ∘ fun x => x + c)).sum =
      Real.exp (c * beta) * (q.map (fun y => Real.exp (y * beta))).sum := by
    rw [← sum_map_mul, List.map_map]
    congr 1
    apply List.map_congr_left
    intro x _
    simp only [Function.comp]
    rw [← Real.exp_add]; congr 1; ring
  rw [hs]
  apply List.map_congr_left
  intro x _
  simp only [Function.comp]
  have : Real.exp ((x + c) * beta) = Real.exp (c * beta) * Real.exp (x * beta) := by
    rw [← Real.exp_add]; congr 1; ring
  rw [this]
  exact mul_div_mul_left _ _ (Real.exp_pos _).ne'

/-- With a nonnegative inverse temperature a better action never has a smaller probability; with a positive one it has a
larger probability. With inverse temperature zero all the probabilities are equal. -/
theorem C27_monotone (q : List ℝ) (beta : ℝ) (a b : Nat) (x y pa pb : ℝ) (ha : q[a]? = some x) (hb : q[b]? = some y)
    (hpa : (boltzmannProbs q beta)[a]? = some pa) (hpb : (boltzmannProbs q beta)[b]? = some pb) :
    (0 ≤ beta → x ≤ y → pa ≤ pb) ∧ (0 < beta → x < y → pa < pb) ∧ (beta = 0 → pa = 1 / q.length) := by
  have hq : q ≠ [] := by rintro rfl; simp at ha
  have hs := expSum_pos q (fun x => x * beta) hq
  rw [boltzmann_eq] at hpa hpb
  simp only [List.getElem?_map, ha, hb, Option.map_some, Option.some.injEq] at hpa hpb
  subst hpa; subst hpb
  refine ⟨?_, ?_, ?_⟩
  · intro h0 hxy
    exact div_le_div_of_nonneg_right (Real.exp_le_exp.mpr (mul_le_mul_of_nonneg_right hxy h0)) hs.le
  · intro h0 hxy
    exact div_lt_div_of_pos_right (Real.exp_lt_exp.mpr (mul_lt_mul_of_pos_right hxy h0)) hs
  · rintro rfl
    simp

/-- The action is drawn with these probabilities, for the updated value of beta. -/
theorem C27_draw (q : List ℝ) (beta : Param) (state : Index) (a : Nat) :
    Dist.mass (boltzmannDraw q beta state).2 a =
      (boltzmannProbs q ((boltzmannDraw q beta state).1.getValue state)).getD a 0 := by
  simp only [boltzmannDraw, boltzmannCall, Param.call]
  exact mass_weighted _ a

example : ([1, 2] : List ℝ)[0]? = some 1 ∧ ([1, 2] : List ℝ)[1]? = some 2 := by simp

theorem mellowF_eq (q : List ℝ) (mm beta : ℝ) :
    ∃ c, 0 < c ∧ mellowF q mm beta = c * (q.map (fun x => Real.exp (x * beta) * (x - mm))).sum := by
  unfold mellowF
  set m := maxOf ((q.map (fun x => x - mm)).map (fun x => beta * x)) with hm
  refine ⟨Real.exp (-m - beta * mm), Real.exp_pos _, ?_⟩
  have : (((q.map (fun x => x - mm)).map (fun x => beta * x)).zip (q.map (fun x => x - mm))).map
      (fun p => Real.exp (p.1 - m) * p.2) = q.map (fun x => Real.exp (beta * (x - mm) - m) * (x - mm)) := by
    clear_value m
    clear hm
    induction q with
    | nil => rfl
    | cons a q ih => simp only [List.map_cons, List.zip_cons_cons]; rw [ih]
  simp only []
  rw [← hm, this]
  have h2 := sum_map_mul (q.map (fun x => Real.exp (x * beta) * (x - mm))) (Real.exp (-m - beta * mm))
  rw [← h2, List.map_map]
  congr 1
  apply List.map_congr_left
  intro x _
  simp only [Function.comp]
  rw [← mul_assoc, ← Real.exp_add]
  congr 2
  ring

/-- Expected action value under the Boltzmann policy. -/
def expectedValue (q : List ℝ) (beta : ℝ) : ℝ := (((boltzmannProbs q beta).zip q).map (fun p => p.1 * p.2)).sum

theorem expectedValue_eq (q : List ℝ) (beta : ℝ) : expectedValue q beta =
    (q.map (fun x => Real.exp (x * beta) * x)).sum / (q.map (fun x => Real.exp (x * beta))).sum := by
  unfold expectedValue
  rw [boltzmann_eq, ← sum_div, List.map_map]
  congr 1
  set S := (q.map (fun y => Real.exp (y * beta))).sum with hS
  clear_value S
  clear hS
  induction q with
  | nil => rfl
  | cons a q ih =>
    simp only [List.map_cons, List.zip_cons_cons, Function.comp]
    rw [ih]
    congr 1
    ring

theorem sum_exp_sub (q : List ℝ) (mm beta : ℝ) : (q.map (fun x => Real.exp (x * beta) * (x - mm))).sum =
    (q.map (fun x => Real.exp (x * beta) * x)).sum - mm * (q.map (fun x => Real.exp (x * beta))).sum := by
  induction q with
  | nil => simp
  | cons a q ih => simp only [List.map_cons, List.sum_cons, ih]; ring

/-- C27, Mellowmax: if the root finder returns a root, the Boltzmann policy with the chosen inverse temperature has the
mellowmax of the action values as its expected action value. -/
theorem C27_mellowmax (brentq : (ℝ → ℝ) → ℝ → ℝ → Option ℝ) (q : List ℝ) (omega betaMin betaMax b : ℝ) (hq : q ≠ [])
    (hroot : brentq (mellowF q (mellowmax q omega)) betaMin betaMax = some b)
    (hspec : mellowF q (mellowmax q omega) b = 0) :
    expectedValue q (mellowBeta brentq q omega betaMin betaMax) = mellowmax q omega := by
  have hb : mellowBeta brentq q omega betaMin betaMax = b := by simp [mellowBeta, hroot]
  rw [hb]
  obtain ⟨c, hc, hf⟩ := mellowF_eq q (mellowmax q omega) b
  rw [hf] at hspec
  have h0 : (q.map (fun x => Real.exp (x * b) * (x - mellowmax q omega))).sum = 0 := by
    rcases mul_eq_zero.mp hspec with h | h
    · exact absurd h hc.ne'
    · exact h
  rw [sum_exp_sub] at h0
  have hs := expSum_pos q (fun x => x * b) hq
  rw [expectedValue_eq, div_eq_iff hs.ne']
  linarith

/-- The mellowmax lies between the smallest and the largest action value. -/
theorem C27_mellowmax_bounds (q : List ℝ) (omega lo hi : ℝ) (hq : q ≠ []) (ho : 0 < omega)
    (hlo : ∀ x ∈ q, lo ≤ x) (hhi : ∀ x ∈ q, x ≤ hi) : lo ≤ mellowmax q omega ∧ mellowmax q omega ≤ hi := by
  have hs := expSum_pos q (fun x => x * omega) hq
  have hn : (0 : ℝ) < q.length := by exact_mod_cast List.length_pos_iff.mpr hq
  have hsum : ∀ (l : List ℝ), (∀ x ∈ l, lo ≤ x) → (∀ x ∈ l, x ≤ hi) →
      l.length * Real.exp (lo * omega) ≤ (l.map (fun x => Real.exp (x * omega))).sum ∧
      (l.map (fun x => Real.exp (x * omega))).sum ≤ l.length * Real.exp (hi * omega) := by
    intro l
    induction l with
    | nil => intro _ _; simp
    | cons a l ih =>
      intro h1 h2
      obtain ⟨h3, h4⟩ := ih (fun x hx => h1 x (by simp [hx])) (fun x hx => h2 x (by simp [hx]))
      have h5 : Real.exp (lo * omega) ≤ Real.exp (a * omega) :=
        Real.exp_le_exp.mpr (mul_le_mul_of_nonneg_right (h1 a (by simp)) ho.le)
      have h6 : Real.exp (a * omega) ≤ Real.exp (hi * omega) :=
        Real.exp_le_exp.mpr (mul_le_mul_of_nonneg_right (h2 a (by simp)) ho.le)
      simp only [List.map_cons, List.sum_cons, List.length_cons]
      push_cast
      constructor <;> linarith
  obtain ⟨h1, h2⟩ := hsum q hlo hhi
  unfold mellowmax
  rw [le_div_iff₀ ho, div_le_iff₀ ho]
  constructor
  · rw [le_sub_iff_add_le, ← Real.log_exp (lo * omega), ← Real.log_mul (Real.exp_pos _).ne' hn.ne']
    apply Real.log_le_log (mul_pos (Real.exp_pos _) hn)
    linarith
  · rw [sub_le_iff_le_add, ← Real.log_exp (hi * omega), ← Real.log_mul (Real.exp_pos _).ne' hn.ne']
    apply Real.log_le_log hs
    linarith

/-- The root exists and is found whenever the function has different signs at the ends; the witness: values 0 and 1. -/
example : ∃ b, mellowF [0, 1] (1 / 2) b = 0 := by
  refine ⟨0, ?_⟩
  norm_num [mellowF, maxOf]

/-! ### C71: asking for probabilities -/

/-- Epsilon-greedy: asking for the probabilities does not change the policy. -/
theorem C71_epsGreedy_read_only_partial (q : List ℝ) (epsilon : Param) (state : Index) :
    (epsGreedyCall q epsilon state).1 = epsilon := rfl

/-- Boltzmann: asking for the probabilities updates the inverse temperature, so that asking twice in the same situation
gives two different answers. Witness: values 0 and 1 and an inverse temperature that grows linearly from 0 to 2. -/
theorem C71_boltzmann_refuted : ∃ beta : Param, linearParam 0 2 2 true = some beta ∧
    (boltzmannCall [0, 1] beta []).2 ≠ (boltzmannCall [0, 1] (boltzmannCall [0, 1] beta []).1 []).2 := by
  refine ⟨_, rfl, ?_⟩
  have h1 := C25_linear_call 0 2 2 true _ rfl [] []
  have h2 := C25_linear_call 0 2 2 true _ rfl [.call []] []
  simp only [Param.run, List.foldl_nil, List.foldl_cons, Param.exec] at h1 h2
  simp only [boltzmannCall]
  rw [h1, h2]
  norm_num [visits]
  rw [boltzmann_eq, boltzmann_eq]
  intro h
  simp only [List.map_cons, List.map_nil, List.sum_cons, List.sum_nil, List.cons.injEq, zero_mul, one_mul, mul_one,
    Real.exp_zero, add_zero, and_true] at h
  have h3 := h.1
  have e1 := Real.exp_pos 1
  have e2 := Real.exp_pos 2
  have e3 : Real.exp 1 < Real.exp 2 := Real.exp_lt_exp.mpr (by norm_num)
  rw [div_eq_div_iff (by linarith) (by linarith)] at h3
  linarith

/-! ### C72: variance-dependent parameters -/

/-- Sequence of updates: index, target, factor. -/
def VarParam.run (p : VarParam) (l : List (Index × ℝ × ℝ)) : VarParam :=
  l.foldl (fun p u => p.update u.1 u.2.1 u.2.2) p

theorem var_step (a b x x2 : ℝ) (h : x ^ 2 ≤ x2) (hb : 0 ≤ b) (hb1 : b ≤ 1) :
    (x + (a - x) * b) ^ 2 ≤ x2 + (a ^ 2 - x2) * b := by
  have h1 : 0 ≤ (x2 - x ^ 2) * (1 - b) := mul_nonneg (by linarith) (by linarith)
  have h2 : 0 ≤ b * (1 - b) * (a - x) ^ 2 := mul_nonneg (mul_nonneg hb (by linarith)) (sq_nonneg _)
  nlinarith [h1, h2]

structure VarOK (p : VarParam) : Prop where
  var : ∀ i, p.x i ^ 2 ≤ p.x2 i
  weights : ∀ i, 0 ≤ p.weightsVar i

theorem update_ok (p : VarParam) (h : VarOK p) (idx : Index) (target factor : ℝ) :
    VarOK (p.update idx target factor) := by
  have hb : (0 : ℝ) ≤ 1 / ((p.count + 1 : Nat) : ℝ) := by positivity
  have hb1 : 1 / ((p.count + 1 : Nat) : ℝ) ≤ 1 := by
    rw [div_le_one (by positivity)]
    exact_mod_cast Nat.succ_le_succ (Nat.zero_le _)
  constructor
  · intro i
    simp only [VarParam.update, set]
    split
    · have := var_step target (1 / ((p.count + 1 : Nat) : ℝ)) (p.x idx) (p.x2 idx) (h.var idx) hb hb1
      have e1 : ∀ y : ℝ, y * (1 / ((p.count + 1 : Nat) : ℝ)) = y / ((p.count + 1 : Nat) : ℝ) := by intro y; ring
      rw [e1, e1] at this
      exact this
    · exact h.var i
  · intro i
    simp only [VarParam.update, set]
    split
    · exact add_nonneg (mul_nonneg (sq_nonneg _) (h.weights idx)) (sq_nonneg _)
    · exact h.weights i

/-- The value of the increasing variance parameter (linear or exponential form) is in [0, 1] in every cell that has been
updated, whatever the targets. -/
theorem C72_increasing_in_unit_interval_partial (exponential : Bool) (initial tol : ℝ) (h0 : 0 ≤ initial)
    (h1 : initial ≤ 1) (ht : 0 < tol) (l : List (Index × ℝ × ℝ)) (idx : Index) (target factor : ℝ) :
    let p := ((varParam true exponential initial tol).run l).update idx target factor
    0 ≤ p.value idx ∧ p.value idx ≤ 1 := by
  have hinv : ∀ (l : List (Index × ℝ × ℝ)) (p : VarParam), VarOK p → p.increasing = true → p.exponential = exponential →
      p.initial = initial → p.tol = tol →
      VarOK (p.run l) ∧ (p.run l).increasing = true ∧ (p.run l).exponential = exponential ∧
        (p.run l).initial = initial ∧ (p.run l).tol = tol := by
    intro l
    induction l with
    | nil => intro p a b c d e; exact ⟨a, b, c, d, e⟩
    | cons u l ih =>
      intro p a b c d e
      exact ih (p.update u.1 u.2.1 u.2.2) (update_ok p a _ _ _) b c d e
  obtain ⟨a, b, c, d, e⟩ := hinv l (varParam true exponential initial tol)
    ⟨fun i => by simp [varParam], fun i => by simp [varParam]⟩ rfl rfl rfl rfl
  set p := (varParam true exponential initial tol).run l with hp
  simp only [VarParam.update, set, if_true]
  split
  · rw [d]; exact ⟨h0, h1⟩
  · rename_i hn
    have hn : (2 : ℝ) ≤ p.count := not_lt.mp hn
    have hs : 0 ≤ (p.count : ℝ) * (p.x2 idx - p.x idx ^ 2) / ((p.count : ℝ) - 1) * p.weightsVar idx := by
      apply mul_nonneg _ (a.weights idx)
      apply div_nonneg _ (by linarith)
      exact mul_nonneg (by linarith) (by have := a.var idx; linarith)
    set s := (p.count : ℝ) * (p.x2 idx - p.x idx ^ 2) / ((p.count : ℝ) - 1) * p.weightsVar idx
    simp only [VarParam.computeParameter, b, c, e, if_true]
    split
    · have hl : Real.log (1 / 2) < 0 := Real.log_neg (by norm_num) (by norm_num)
      have he : s * Real.log (1 / 2) / tol ≤ 0 :=
        div_nonpos_of_nonpos_of_nonneg (mul_nonpos_of_nonneg_of_nonpos hs hl.le) ht.le
      have h3 := Real.exp_le_one_iff.mpr he
      have h4 := Real.exp_pos (s * Real.log (1 / 2) / tol)
      constructor <;> linarith
    · constructor
      · exact div_nonneg hs (by linarith)
      · rw [div_le_one (by linarith)]; linarith

/-- The cells of a variance parameter are not independent: the counter of updates is shared by all of them (the size is
passed to the constructor of the base class in the place of the maximum value). The first value of a new cell should be
the initial value, here 1/2; after two updates of another cell it is 0. -/
theorem C72_cells_refuted :
    let p := varParam true false (1 / 2) 1
    (p.update [0] 7 1).value [0] = 1 / 2 ∧ ((p.run [([1], 3, 1), ([1], 4, 1)]).update [0] 7 1).value [0] = 0 := by
  constructor
  · norm_num [varParam, VarParam.update, set]
  · norm_num [varParam, VarParam.update, VarParam.run, set, VarParam.computeParameter]

end

end Verif.Policy
