/-
C72 and C27: variance-dependent parameters that are called, and Mellowmax with a parameter omega.
-/
import Verif.Policy.ModelVariance
import Verif.Policy.Props

namespace Verif.Policy

noncomputable section

/-! ### C72 -/

/-- Several calls: index, target, factor. The results, in order. -/
def SizedVar.runCalls (p : SizedVar) : List (Index × ℝ × ℝ) → SizedVar × List (Except VErr Arr)
  | [] => (p, [])
  | u :: l =>
    let r := p.call u.1 u.2.1 u.2.2
    let rest := r.1.runCalls l
    (rest.1, r.2 :: rest.2)

theorem call_fields (p : SizedVar) (idx : Index) (t f : ℝ) : (p.call idx t f).1.counter = p.counter ∧ (p.call idx t f).1.size = p.size ∧
    (p.call idx t f).1.minV = p.minV ∧ (p.call idx t f).1.maxV = p.maxV := ⟨rfl, rfl, rfl, rfl⟩

theorem call_one (p : SizedVar) (h : p.counter.prod = 1) (idx : Index) (t f : ℝ) :
    p.call idx t f = ({ p with par := p.par.updateWhole t f }, { p with par := p.par.updateWhole t f : SizedVar }.getWhole) := by
  simp [SizedVar.call, h]

/-- C72, refuted: "the value for a state-action pair depends only on the targets seen for that pair". A variance parameter with one cell for each pair, which is
called, ignores the pairs: two lists of calls with the same targets and factors and any indices give the same results. -/
theorem C72_index_ignored_refuted (increasing exponential : Bool) (initial tol : ℝ) (minV : Option ℝ) (size : List ℕ) (l l' : List (Index × ℝ × ℝ))
    (h : l.map (·.2) = l'.map (·.2)) :
    (sizedVar increasing exponential initial tol minV size).runCalls l = (sizedVar increasing exponential initial tol minV size).runCalls l' := by
  have key : ∀ (l l' : List (Index × ℝ × ℝ)) (p : SizedVar), p.counter.prod = 1 → l.map (·.2) = l'.map (·.2) → p.runCalls l = p.runCalls l' := by
    intro l
    induction l with
    | nil => intro l' p _ h; cases l' with
      | nil => rfl
      | cons => simp at h
    | cons u l ih =>
      intro l' p hp h
      cases l' with
      | nil => simp at h
      | cons u' l' =>
        simp only [List.map_cons, List.cons.injEq] at h
        obtain ⟨h1, h2⟩ := h
        have hrest := ih l' { p with par := p.par.updateWhole u'.2.1 u'.2.2 } hp h2
        simp only [SizedVar.runCalls, call_one p hp, h1, hrest]
  exact key l l' _ rfl h

/-- C72, refuted: with one cell for each pair of a state and one of at least three actions, every call raises an exception. -/
theorem C72_call_raises_refuted (increasing exponential : Bool) (initial tol : ℝ) (minV : Option ℝ) (s a : ℕ) (hs : 1 ≤ s) (ha : 3 ≤ a)
    (l : List (Index × ℝ × ℝ)) : ∀ r ∈ ((sizedVar increasing exponential initial tol minV [s, a]).runCalls l).2, r = .error .value := by
  have key : ∀ (l : List (Index × ℝ × ℝ)) (p : SizedVar), p.counter.prod = 1 → p.size = [s, a] → p.maxV = some [s, a] →
      ∀ r ∈ (p.runCalls l).2, r = .error .value := by
    intro l
    induction l with
    | nil => intro p _ _ _ r hr; simp [SizedVar.runCalls] at hr
    | cons u l ih =>
      intro p hp hsz hm r hr
      simp only [SizedVar.runCalls, call_one p hp, List.mem_cons] at hr
      rcases hr with rfl | hr
      · have h1 : s * a ≠ 1 := by
          intro h
          have := Nat.eq_one_of_mul_eq_one_left h
          omega
        have e : clipShape [s, a] 2 = none := by
          have a1 : ¬ a = 2 := by omega
          have a2 : ¬ a = 1 := by omega
          simp [clipShape, a1, a2]
        simp [SizedVar.getWhole, hsz, hm, h1, e]
      · exact ih { p with par := p.par.updateWhole u.2.1 u.2.2 } hp hsz hm r hr
  exact key l _ rfl rfl rfl

/-- `Σ (t - mean)² / (n - 1)`. -/
def sampleVar (l : List ℝ) : ℝ := (l.map fun t => (t - l.sum / l.length) ^ 2).sum / ((l.length : ℝ) - 1)

theorem sampleVar_eq (l : List ℝ) (h : l ≠ []) :
    (l.map fun t => (t - l.sum / l.length) ^ 2).sum = l.length * ((l.map (· ^ 2)).sum / l.length - (l.sum / l.length) ^ 2) := by
  have hn : (l.length : ℝ) ≠ 0 := by exact_mod_cast (List.length_pos_iff.2 h).ne'
  have key : ∀ (m : ℝ) (k : List ℝ), (k.map fun t => (t - m) ^ 2).sum = (k.map (· ^ 2)).sum - 2 * m * k.sum + k.length * m ^ 2 := by
    intro m k
    induction k with
    | nil => simp
    | cons a k ih => simp only [List.map_cons, List.sum_cons, List.length_cons, ih]; push_cast; ring
  rw [key]
  field_simp
  ring

/-- The function of the variance in the classes. -/
def response (increasing exponential : Bool) (tol sigma : ℝ) : ℝ :=
  match increasing, exponential with
  | true, true => 1 - Real.exp (sigma * Real.log (1 / 2) / tol)
  | true, false => sigma / (sigma + tol)
  | false, true => Real.exp (sigma * Real.log (1 / 2) / tol)
  | false, false => 1 / (sigma + tol)

theorem snoc_calls (p : SizedVar) (l : List (Index × ℝ × ℝ)) (u : Index × ℝ × ℝ) :
    p.runCalls (l ++ [u]) = (((p.runCalls l).1.call u.1 u.2.1 u.2.2).1, (p.runCalls l).2 ++ [((p.runCalls l).1.call u.1 u.2.1 u.2.2).2]) := by
  induction l generalizing p with
  | nil => rfl
  | cons v l ih => simp only [List.cons_append, SizedVar.runCalls, ih]

/-- C72, for a single cell: the `k`-th call returns an array with one value, clipped to at most 1. The first two values are the initial one; after that it is the
response to the sample variance of the targets of the calls before times the sum of the squared weights of the targets in the average that the
values define. -/
theorem C72_single_partial (increasing exponential : Bool) (initial tol : ℝ) (minV : Option ℝ) (l : List (Index × ℝ × ℝ)) :
    ∃ V W : ℕ → ℝ, W 0 = 0 ∧ (∀ k (h : k < l.length), W (k + 1) = (1 - l[k].2.2 * V k) ^ 2 * W k + (l[k].2.2 * V k) ^ 2) ∧
      (∀ k < l.length, V k = if k < 2 then initial else response increasing exponential tol (sampleVar ((l.take k).map (·.2.1)) * W k)) ∧
      ∃ rs, ((sizedVar increasing exponential initial tol minV [1]).runCalls l).2 = rs ∧ rs.length = l.length ∧
        ∀ k < l.length, ∃ out : Arr, rs[k]? = some (.ok out) ∧ out.shape = [1] ∧ ∀ i, out.cell i = clip (V k) minV (some 1) := by
  have key : ∀ l : List (Index × ℝ × ℝ), ∃ V W : ℕ → ℝ, W 0 = 0 ∧ (∀ k (h : k < l.length), W (k + 1) = (1 - l[k].2.2 * V k) ^ 2 * W k + (l[k].2.2 * V k) ^ 2) ∧
      (∀ k < l.length, V k = if k < 2 then initial else response increasing exponential tol (sampleVar ((l.take k).map (·.2.1)) * W k)) ∧
      ∃ p rs, (sizedVar increasing exponential initial tol minV [1]).runCalls l = (p, rs) ∧ rs.length = l.length ∧
        (∀ k < l.length, ∃ out : Arr, rs[k]? = some (.ok out) ∧ out.shape = [1] ∧ ∀ i, out.cell i = clip (V k) minV (some 1)) ∧
        p.counter = [1] ∧ p.size = [1] ∧ p.maxV = some [1] ∧ p.minV = minV ∧
        p.par.increasing = increasing ∧ p.par.exponential = exponential ∧ p.par.initial = initial ∧ p.par.tol = tol ∧ p.par.count = l.length ∧
        (∀ i, p.par.weightsVar i = W l.length) ∧ (∀ i, p.par.x i * l.length = (l.map (·.2.1)).sum) ∧
        (∀ i, p.par.x2 i * l.length = (l.map (·.2.1 ^ 2)).sum) := by
    intro l
    induction l using List.reverseRecOn with
    | nil => exact ⟨fun _ => 0, fun _ => 0, rfl, by simp, by simp, _, _, rfl, rfl, by simp, rfl, rfl, rfl, rfl, rfl, rfl, rfl, rfl, rfl, fun _ => rfl,
        by simp, by simp⟩
    | append_singleton l u ih =>
      obtain ⟨V, W, w0, w1, v1, p, rs, hr, hlen, hout, hc, hsz, hmx, hmn, q1, q2, q3, q4, q5, q6, q7, q8⟩ := ih
      set n := l.length with hn
      let v : ℝ := if n < 2 then initial else response increasing exponential tol (sampleVar (l.map (·.2.1)) * W n)
      have hv : ∀ i, (p.par.updateWhole u.2.1 u.2.2).value i = v := by
        intro i
        simp only [VarParam.updateWhole, VarParam.update, set, if_true, q5]
        by_cases h2 : n < 2
        · have : (n : ℝ) < 2 := by exact_mod_cast h2
          rw [if_pos this, q3]; simp only [v]; rw [if_pos h2]
        · have h2' : ¬ (n : ℝ) < 2 := by exact_mod_cast h2
          rw [if_neg h2']; simp only [v]; rw [if_neg h2]
          have hn0 : (n : ℝ) ≠ 0 := by
            have : 0 < n := by omega
            exact_mod_cast this.ne'
          have hx : p.par.x i = (l.map (·.2.1)).sum / n := by rw [eq_div_iff hn0, q7]
          have hx2 : p.par.x2 i = (l.map (·.2.1 ^ 2)).sum / n := by rw [eq_div_iff hn0, q8]
          have hne : l.map (fun u : Index × ℝ × ℝ => u.2.1) ≠ [] := by
            intro h; rw [List.map_eq_nil_iff] at h; simp [hn, h] at h2
          have hsv : (n : ℝ) * (p.par.x2 i - p.par.x i ^ 2) / ((n : ℝ) - 1) = sampleVar (l.map (·.2.1)) := by
            unfold sampleVar
            rw [sampleVar_eq _ hne, List.length_map, ← hn, hx, hx2, List.map_map]
            rfl
          rw [hsv, q6]
          simp only [VarParam.computeParameter, q1, q2, q4, response]
          cases increasing <;> cases exponential <;> simp
      have hcall := call_one p (by rw [hc]; rfl) u.1 u.2.1 u.2.2
      have hrun := snoc_calls (sizedVar increasing exponential initial tol minV [1]) l u
      rw [hr] at hrun
      simp only at hrun
      rw [hcall] at hrun
      have hlt : ∀ k, k < n → k ≠ n := fun k h => by omega
      refine ⟨Function.update V n v, Function.update W (n + 1) ((1 - u.2.2 * v) ^ 2 * W n + (u.2.2 * v) ^ 2), ?_, ?_, ?_, _, _, hrun, ?_, ?_, hc, hsz, hmx, hmn,
        q1, q2, q3, q4, ?_, ?_, ?_, ?_⟩
      · rw [Function.update_of_ne (by omega), w0]
      · intro k hk
        rw [List.length_append, List.length_singleton] at hk
        by_cases hkn : k = n
        · subst hkn
          rw [Function.update_self, Function.update_self, Function.update_of_ne (by omega), List.getElem_append_right (le_refl _)]
          simp
        · have hk' : k < n := by omega
          rw [Function.update_of_ne (by omega), Function.update_of_ne hkn, Function.update_of_ne (by omega), List.getElem_append_left hk']
          exact w1 k hk'
      · intro k hk
        rw [List.length_append, List.length_singleton] at hk
        by_cases hkn : k = n
        · subst hkn
          rw [Function.update_self, Function.update_of_ne (by omega), List.take_left' rfl]
        · have hk' : k < n := by omega
          rw [Function.update_of_ne hkn, Function.update_of_ne (by omega), List.take_append_of_le_length (by omega)]
          exact v1 k hk'
      · simp [hlen, hn]
      · intro k hk
        rw [List.length_append, List.length_singleton] at hk
        by_cases hkn : k = n
        · subst hkn
          rw [Function.update_self]
          refine ⟨⟨[1], fun _ => clip v minV (some 1)⟩, ?_, rfl, fun _ => rfl⟩
          rw [List.getElem?_append_right (by omega), hlen]
          simp [SizedVar.getWhole, hsz, hmx, hmn, clipShape, hv]
        · have hk' : k < n := by omega
          obtain ⟨out, o1, o2, o3⟩ := hout k hk'
          refine ⟨out, ?_, o2, ?_⟩
          · rw [List.getElem?_append_left (by omega), o1]
          · rw [Function.update_of_ne hkn]; exact o3
      · simp [VarParam.updateWhole, q5, hn]
      · intro i
        have hvi := hv i
        simp only [VarParam.updateWhole, VarParam.update, set, if_true] at hvi ⊢
        rw [hvi, q6, List.length_append, List.length_singleton, Function.update_self]
      · intro i
        simp only [VarParam.updateWhole, VarParam.update, set, if_true, q5, List.length_append, List.length_singleton, List.map_append, List.sum_append,
          List.map_cons, List.map_nil, List.sum_cons, List.sum_nil]
        rw [← q7 i]
        have : ((l.length + 1 : ℕ) : ℝ) ≠ 0 := by positivity
        field_simp
        push_cast
        ring
      · intro i
        simp only [VarParam.updateWhole, VarParam.update, set, if_true, q5, List.length_append, List.length_singleton, List.map_append, List.sum_append,
          List.map_cons, List.map_nil, List.sum_cons, List.sum_nil]
        rw [← q8 i]
        have : ((l.length + 1 : ℕ) : ℝ) ≠ 0 := by positivity
        field_simp
        push_cast
        ring
  obtain ⟨V, W, w0, w1, v1, p, rs, hr, hlen, hout, -⟩ := key l
  exact ⟨V, W, w0, w1, v1, rs, by rw [hr], hlen, hout⟩

-- Three calls with the targets 1, 3 and 5: the sample variance of the first two is 2, their weights add up to 1/2, so the value is 1 / (1 + 1).
example : sampleVar [1, 3] = 2 ∧ response true false 1 (2 * (1 / 2)) = 1 / 2 := by
  constructor
  · norm_num [sampleVar]
  · norm_num [response]

/-- C72, refuted: a `WindowedVarianceIncreasingParameter` that is called. With several cells the first call raises an exception; with one cell and a window of at
least two samples the second one does. What is left is a window of one sample, whose variance is 0: after the first two calls,
whose value is the initial one, the value is 0, whatever the targets are. -/
theorem C72_window_refuted (exponential : Bool) (initial tol : ℝ) (size : List ℕ) (hsz : ∀ k ∈ size, 1 ≤ k) (hne : size ≠ []) (window : ℕ) (hw : 1 ≤ window) :
    (1 < size.prod → ∀ u l, (winNew exponential initial tol size window).run (u :: l) = .error .value) ∧
    (size.prod = 1 → 2 ≤ window → ∀ u u' l, (∃ p, (winNew exponential initial tol size window).run [u] = .ok p ∧ p.value = initial) ∧
      (winNew exponential initial tol size window).run (u :: u' :: l) = .error .index) ∧
    (size.prod = 1 → window = 1 → ∀ l, ∃ p, (winNew exponential initial tol size window).run l = .ok p ∧ (l ≠ [] → p.value = if l.length ≤ 2 then initial else 0)) := by
  obtain ⟨k, rest, rfl⟩ := List.exists_cons_of_ne_nil hne
  have hk : 1 ≤ k := hsz k (by simp)
  refine ⟨?_, ?_, ?_⟩
  · intro h u l
    have : ¬ (k ≤ 0) := by omega
    have h' : (k :: rest).prod ≠ 1 := by omega
    have e : (winNew exponential initial tol (k :: rest) window).update u.1 u.2 = .error .value := by
      unfold Win.update
      rw [if_neg (by simp only [winNew, List.headD_cons]; tauto), if_pos (show (winNew exponential initial tol (k :: rest) window).size.prod ≠ 1 from h')]
    rw [Win.run, e]
  · intro h h2 u u' l
    have hk0 : ¬ (k ≤ 0) := by omega
    have hk1 : k = 1 := by rw [List.prod_cons] at h; exact Nat.eq_one_of_mul_eq_one_right h
    have hw1 : ¬ window ≤ 0 + 1 := by omega
    have hw' : ¬ ((k :: rest).prod * window = 1) := by rw [h]; omega
    obtain ⟨p, e1, e2, e3, e4, e5⟩ : ∃ p, (winNew exponential initial tol (k :: rest) window).update u.1 u.2 = .ok p ∧ p.size = k :: rest ∧ p.window = window ∧
        p.index = 1 ∧ p.value = initial := by
      have e0 : ¬ ((winNew exponential initial tol (k :: rest) window).size.prod * (winNew exponential initial tol (k :: rest) window).window ≠ 1 ∧
          (winNew exponential initial tol (k :: rest) window).size.headD 0 ≤ (winNew exponential initial tol (k :: rest) window).index) := by
        simp only [winNew, List.headD_cons]; tauto
      have e1 : ¬ ((winNew exponential initial tol (k :: rest) window).size.prod ≠ 1) := by simp only [winNew]; tauto
      unfold Win.update
      rw [if_neg e0, if_neg e1]
      exact ⟨_, rfl, rfl, rfl, if_neg hw1, rfl⟩
    refine ⟨⟨p, by rw [Win.run, e1]; rfl, e5⟩, ?_⟩
    · have e : p.update u'.1 u'.2 = .error .index := by
        unfold Win.update
        rw [if_pos ⟨by rw [e2, e3]; exact hw', by rw [e2, e4, List.headD_cons, hk1]⟩]
      rw [Win.run, e1]
      simp only [Win.run, e]
  · intro h h1 l
    subst h1
    have hk1 : k = 1 := by rw [List.prod_cons] at h; exact Nat.eq_one_of_mul_eq_one_right h
    have key : ∀ (l : List (ℝ × ℝ)) (p : Win), p.size = k :: rest → p.window = 1 → p.initial = initial →
        ∃ p', p.run l = .ok p' ∧ (l ≠ [] → p'.value = if p.n + l.length ≤ 2 then initial else 0) := by
      intro l
      induction l with
      | nil => intro p _ _ _; exact ⟨p, rfl, by simp⟩
      | cons u l ih =>
        intro p hs hw hi
        obtain ⟨p1, e1, e2, e3, e4, e5, e6⟩ : ∃ p1, p.update u.1 u.2 = .ok p1 ∧ p1.size = k :: rest ∧ p1.window = 1 ∧ p1.n = p.n + 1 ∧
            p1.initial = initial ∧ (p1.value = if p.n + 1 ≤ 2 then initial else 0) := by
          simp only [Win.update, hs, hw, h]
          refine ⟨_, rfl, by simp, by simp, rfl, hi, ?_⟩
          by_cases h2 : p.n < 2
          · have a3 : p.n + 1 ≤ 2 := by omega
            rw [if_pos a3]
            simp [h2, hi]
          · have a2 : ¬ p.n < 1 := by omega
            have a3 : ¬ p.n + 1 ≤ 2 := by omega
            rw [if_neg a3]
            simp [h2, a2, hk1, npVar, Win.computeParameter]
        obtain ⟨p2, f1, f2⟩ := ih p1 e2 e3 e5
        refine ⟨p2, by simp only [Win.run, e1, f1], ?_⟩
        intro _
        rw [List.length_cons]
        by_cases hl : l = []
        · subst hl
          simp only [Win.run, Except.ok.injEq] at f1
          subst f1
          simpa using e6
        · rw [f2 hl, e4, Nat.add_assoc, Nat.add_comm 1]
    obtain ⟨p, h1, h2⟩ := key l (winNew exponential initial tol (k :: rest) 1) rfl rfl rfl
    refine ⟨p, h1, fun h3 => by rw [h2 h3]; simp [winNew]⟩

example : (∀ k ∈ [5, 4], 1 ≤ k) ∧ 1 < [5, 4].prod ∧ [1].prod = 1 := by decide

/-! ### C27: the parameter omega -/

/-- C27, Mellowmax with a constant parameter omega: the mellowmax is computed with its value, and if the root finder returns a root then the expected action
value of the policy is the mellowmax of the values. -/
theorem C27_mellowmax_constant (brentq : (ℝ → ℝ) → ℝ → ℝ → Option ℝ) (q : List ℝ) (w betaMin betaMax b : ℝ) (single : Bool) (state : Index) (hq : q ≠ [])
    (hroot : brentq (mellowF q (mellowmax q w)) betaMin betaMax = some b) (hspec : mellowF q (mellowmax q w) b = 0) :
    expectedValue q (mellowParam brentq q (constantParam w none none single) betaMin betaMax state).2 = mellowmax q w ∧
    (mellowParam brentq q (constantParam w none none single) betaMin betaMax state).2 = mellowBeta brentq q w betaMin betaMax := by
  have h : (mellowCall q (constantParam w none none single) state).2 = mellowmax q w := rfl
  have h2 : (mellowParam brentq q (constantParam w none none single) betaMin betaMax state).2 = mellowBeta brentq q w betaMin betaMax := by
    simp only [mellowParam, h, mellowBeta]
    cases brentq (mellowF q (mellowmax q w)) betaMin betaMax <;> rfl
  exact ⟨by rw [h2]; exact C27_mellowmax brentq q w betaMin betaMax b hq hroot hspec, h2⟩

/-- C27, refuted for a parameter omega that changes: it is called twice, and the two values are used together. For equal action values 1 the "mellowmax" is the
quotient of the two values of omega; with a `LinearParameter` from 1 to 4 in 3 steps it is 2/3 at the first call, less than all action values, and the
parameter has been updated twice. -/
theorem C27_mellowmax_omega_refuted : ∃ omega : Param, linearParam 1 4 3 true = some omega ∧ (mellowCall [1, 1] omega []).2 = 2 / 3 ∧
    (∀ x ∈ ([1, 1] : List ℝ), (mellowCall [1, 1] omega []).2 < x) ∧ (mellowCall [1, 1] omega []).1.counts [] = 2 := by
  have h : (linearParam 1 4 3 true) = some ⟨.linear 1, 1, none, some 4, true, fun _ => 0⟩ := by
    unfold linearParam; norm_num
  have hval : (mellowCall [1, 1] ⟨.linear 1, 1, none, some 4, true, fun _ => 0⟩ []).2 = 2 / 3 := by
    have e : Real.log (Real.exp 2 + Real.exp 2) = 2 + Real.log 2 := by
      rw [← two_mul, Real.log_mul (by norm_num) (Real.exp_pos 2).ne', Real.log_exp]; ring
    norm_num [mellowCall, Param.call, Param.update, Param.getValue, Param.compute, Param.cell, clip, e]
  refine ⟨_, h, hval, ?_, ?_⟩
  · intro x hx
    simp only [List.mem_cons, List.not_mem_nil, or_false, or_self] at hx
    rw [hval, hx]; norm_num
  · simp [mellowCall, Param.call, Param.update, Param.cell]

end

end Verif.Policy
