/-
Property C157: advantages and value targets are unbiased with an exact critic, and inherit at most the discounted error of an inexact one.
-/
import Verif.ValueFn.SpecExact
import Verif.ValueFn.Props
import Mathlib.Tactic.Linarith
import Mathlib.Tactic.Ring
import Mathlib.Tactic.NormNum

namespace Verif.ValueFn

open Finset

noncomputable section

variable {S A : Type} [Fintype S] [Fintype A]

/-! ### Expectations -/

/-- The expectation over what follows a transition. -/
def Chain.after (C : Chain S A) (cut : Bool) (m : ℕ) (s : S) (a : A) (s' : S) (G : List (Seen S) → ℝ) : ℝ :=
  if C.absorbing s a s' then G [] else ∑ a', C.pol s' a' * C.expect cut m s' a' G

theorem Chain.expect_succ (C : Chain S A) (cut : Bool) (m : ℕ) (s : S) (a : A) (F : List (Seen S) → ℝ) :
    C.expect cut (m + 1) s a F = ∑ s', C.trans s a s' * C.after cut m s a s' (fun l => F (C.seen cut (m + 1) s a s' :: l)) := rfl

theorem Chain.expect_affine (C : Chain S A) (cut : Bool) (m : ℕ) (s : S) (a : A) (x c : ℝ) (F : List (Seen S) → ℝ) :
    C.expect cut m s a (fun l => x + c * F l) = x + c * C.expect cut m s a F := by
  induction m generalizing s a F with
  | zero =>
    simp only [Chain.expect, mul_add, sum_add_distrib, ← sum_mul, C.trans_sum, one_mul, mul_sum]
    congr 1
    exact sum_congr rfl (fun s' _ => by ring)
  | succ m ih =>
    have : ∀ s' (G : List (Seen S) → ℝ), C.after cut m s a s' (fun l => x + c * G l) = x + c * C.after cut m s a s' G := by
      intro s' G
      unfold Chain.after
      split
      · rfl
      · simp only [ih, mul_add, sum_add_distrib, ← sum_mul, C.pol_sum, one_mul, mul_sum]
        congr 1
        exact sum_congr rfl (fun s' _ => by ring)
    simp only [Chain.expect_succ, this, mul_add, sum_add_distrib, ← sum_mul, C.trans_sum, one_mul, mul_sum]
    congr 1
    exact sum_congr rfl (fun s' _ => by ring)

theorem Chain.expect_congr (C : Chain S A) (cut : Bool) (m : ℕ) (s : S) (a : A) (F G : List (Seen S) → ℝ) (Q : List (Seen S) → Prop)
    (hFG : ∀ l, Q l → F l = G l) (h1 : ∀ s a s' m, (m = 0 ∨ C.absorbing s a s' = true) → Q [C.seen cut m s a s'])
    (h2 : ∀ s a s' m l, C.absorbing s a s' = false → Q l → Q (C.seen cut (m + 1) s a s' :: l)) :
    C.expect cut m s a F = C.expect cut m s a G := by
  induction m generalizing s a F G Q with
  | zero =>
    simp only [Chain.expect]
    exact sum_congr rfl (fun s' _ => by rw [hFG _ (h1 s a s' 0 (Or.inl rfl))])
  | succ m ih =>
    simp only [Chain.expect]
    refine sum_congr rfl (fun s' _ => ?_)
    congr 1
    split
    next hb => exact hFG _ (h1 s a s' _ (Or.inr hb))
    next hb =>
      refine sum_congr rfl (fun a' _ => ?_)
      congr 1
      exact ih s' a' _ _ Q (fun l hl => hFG _ (h2 s a s' m l (by simpa using hb) hl)) h1 h2

/-! ### The advantage of the first step of a list of steps -/

/-- The generalised advantage of the first step of a trajectory. -/
def gaeOf (γ lam : ℝ) (V : S → ℝ) : List (Seen S) → ℝ
  | [] => 0
  | o :: l => (o.reward + γ * (if o.absorbing then 0 else V o.next) - V o.state) + γ * lam * gaeOf γ lam V l

/-- The steps of a trajectory: only the final one may be flagged as the last one or be absorbing, and absorbing steps are flagged. -/
def IsTrajectory : List (Seen S) → Prop
  | [] => False
  | [o] => o.absorbing = true → o.last = true
  | o :: p :: l => o.last = false ∧ o.absorbing = false ∧ IsTrajectory (p :: l)

theorem Chain.seen_trajectory (C : Chain S A) (cut : Bool) :
    (∀ s a s' m, (m = 0 ∨ C.absorbing s a s' = true) → IsTrajectory [C.seen cut m s a s']) ∧
    ∀ s a s' m l, C.absorbing s a s' = false → IsTrajectory l → IsTrajectory (C.seen cut (m + 1) s a s' :: l) := by
  constructor
  · intro s a s' m _ hb
    simp only [Chain.seen] at hb ⊢
    simp [hb]
  · intro s a s' m l hb hl
    cases l with
    | nil => exact hl.elim
    | cons p l => exact ⟨by simp [Chain.seen, hb], by simp [Chain.seen, hb], hl⟩

omit [Fintype S] in
theorem getLast_of_end {l : List (Seen S)} (hl : l ≠ []) : l.getLast? = some (l.getLast hl) := List.getLast?_eq_getLast_of_ne_nil hl

omit [Fintype S] in
/-- What the arrays say about a trajectory in the dataset. -/
theorem dataset_facts (V : S → ℝ) (pre l post : List (Seen S)) (hl : IsTrajectory l)
    (hpre : ∀ o ∈ pre, o.absorbing = true → o.last = true) (hpost : ∀ o ∈ post, o.absorbing = true → o.last = true)
    (hcut : (∃ o, l.getLast? = some o ∧ o.last = true) ∨ post = []) :
    AbsorbingIsLast (dataOf V (pre ++ l ++ post)) ∧
    EndsAt (dataOf V (pre ++ l ++ post)) (pre ++ l ++ post).length pre.length (pre.length + (l.length - 1)) ∧
    ∀ i (hi : i < l.length), (pre ++ l ++ post)[pre.length + i]? = some l[i] := by
  -- what the steps of a trajectory satisfy
  have step : ∀ l : List (Seen S), IsTrajectory l → ∀ i (hi : i < l.length),
      (i + 1 < l.length → l[i].last = false ∧ l[i].absorbing = false) ∧ (l[i].absorbing = true → l[i].last = true) := by
    intro l
    induction l with
    | nil => exact fun h => h.elim
    | cons o l ih =>
      intro h i hi
      cases l with
      | nil =>
        have : i = 0 := by simpa using hi
        subst this
        exact ⟨by simp, h⟩
      | cons p l =>
        cases i with
        | zero => exact ⟨fun _ => ⟨h.1, h.2.1⟩, fun hb => by simp only [List.getElem_cons_zero] at hb; rw [h.2.1] at hb; cases hb⟩
        | succ i =>
          have := ih h.2.2 i (by simpa using hi)
          simpa using this
  have hne : l ≠ [] := by rintro rfl; exact hl
  have hpos : 0 < l.length := List.length_pos_of_ne_nil hne
  set D := pre ++ l ++ post with hD
  set d := dataOf V D with hd
  have hDlen : D.length = pre.length + l.length + post.length := by simp [hD, add_assoc]
  have get : ∀ i (hi : i < l.length), D[pre.length + i]? = some l[i] := by
    intro i hi
    rw [hD, List.append_assoc, List.getElem?_append_right (by omega), List.getElem?_append_left (by omega)]
    simp [List.getElem?_eq_getElem hi]
  have habs : AbsorbingIsLast d := by
    intro i hi
    simp only [hd, dataOf] at hi ⊢
    cases hg : D[i]? with
    | none => rw [hg] at hi; simp at hi
    | some o =>
      rw [hg] at hi
      simp only [Option.map_some, Option.getD_some] at hi ⊢
      have hm := List.mem_of_getElem? hg
      rw [hD, List.mem_append, List.mem_append] at hm
      rcases hm with (hm | hm) | hm
      · exact hpre o hm hi
      · obtain ⟨j, hj, rfl⟩ := List.getElem_of_mem hm
        exact (step l hl j hj).2 hi
      · exact hpost o hm hi
  have hend : EndsAt d D.length pre.length (pre.length + (l.length - 1)) := by
    refine ⟨by omega, by omega, ?_, ?_⟩
    · rcases hcut with ⟨o, ho, hlast⟩ | hp
      · left
        have hg := get (l.length - 1) (by omega)
        have : l.getLast? = l[l.length - 1]? := List.getLast?_eq_getElem?
        rw [this, List.getElem?_eq_getElem (by omega)] at ho
        simp only [hd, dataOf, hg, Option.map_some, Option.getD_some]
        rw [Option.some.inj ho]
        exact hlast
      · right
        rw [hDlen, hp, List.length_nil]
        omega
    · intro i h1 h2
      obtain ⟨j, rfl⟩ := Nat.exists_eq_add_of_le h1
      have hg := get j (by omega)
      simp only [hd, dataOf, hg, Option.map_some, Option.getD_some]
      exact ((step l hl j (by omega)).1 (by omega)).1
  exact ⟨habs, hend, get⟩

omit [Fintype S] in
theorem gae_dataset (γ lam : ℝ) (V : S → ℝ) (pre l post : List (Seen S)) (g0 : ℕ → ℝ) (hl : IsTrajectory l)
    (hpre : ∀ o ∈ pre, o.absorbing = true → o.last = true) (hpost : ∀ o ∈ post, o.absorbing = true → o.last = true)
    (hcut : (∃ o, l.getLast? = some o ∧ o.last = true) ∨ post = []) :
    (computeGae (dataOf V (pre ++ l ++ post)) γ lam (pre ++ l ++ post).length g0).2 pre.length = gaeOf γ lam V l := by
  obtain ⟨habs, hend, get⟩ := dataset_facts V pre l post hl hpre hpost hcut
  have hne : l ≠ [] := by rintro rfl; exact hl
  have hpos : 0 < l.length := List.length_pos_of_ne_nil hne
  set D := pre ++ l ++ post with hD
  set d := dataOf V D with hd
  rw [(C33_gae d γ lam D.length g0 habs _ _ hend).1]
  -- the generalised advantage along the trajectory
  have td : ∀ i (hi : i < l.length), tdError d γ (pre.length + i) =
      l[i].reward + γ * (if l[i].absorbing then 0 else V l[i].next) - V l[i].state := by
    intro i hi
    have hg := get i hi
    simp [tdError, future, hd, dataOf, hg]
  have key : ∀ m i, i + m + 1 = l.length →
      generalizedAdvantage d γ lam (pre.length + i) (pre.length + (l.length - 1)) = gaeOf γ lam V (l.drop i) := by
    intro m
    induction m with
    | zero =>
      intro i hi
      have : pre.length + (l.length - 1) = pre.length + i := by omega
      rw [this, generalizedAdvantage_end, td i (by omega), List.drop_eq_getElem_cons (show i < l.length by omega),
        List.drop_eq_nil_of_le (by omega)]
      simp [gaeOf]
    | succ m ih =>
      intro i hi
      rw [generalizedAdvantage_step d γ lam (by omega), td i (by omega), List.drop_eq_getElem_cons (show i < l.length by omega), gaeOf]
      have := ih (i + 1) (by omega)
      rw [show pre.length + i + 1 = pre.length + (i + 1) by omega, this]
  have := key (l.length - 1) 0 (by omega)
  simpa using this

/-! ### An exact critic -/

theorem gaeOf_seen (C : Chain S A) (cut : Bool) (γ lam : ℝ) (V : S → ℝ) (m : ℕ) (s : S) (a : A) (s' : S) (l : List (Seen S)) :
    gaeOf γ lam V (C.seen cut m s a s' :: l) =
      ((C.reward s a s' + γ * if C.absorbing s a s' then 0 else V s') - V s) + γ * lam * gaeOf γ lam V l := rfl

/-- The expectation of the advantage in one step, and then of the others. -/
theorem expect_gae_succ (C : Chain S A) (cut : Bool) (γ lam : ℝ) (V : S → ℝ) (m : ℕ) (s : S) (a : A) :
    C.expect cut (m + 1) s a (gaeOf γ lam V) = ∑ s', C.trans s a s' * (((C.reward s a s' + γ * if C.absorbing s a s' then 0 else V s') - V s) +
      γ * lam * if C.absorbing s a s' then 0 else ∑ a', C.pol s' a' * C.expect cut m s' a' (gaeOf γ lam V)) := by
  rw [Chain.expect_succ]
  refine sum_congr rfl (fun s' _ => ?_)
  congr 1
  simp only [gaeOf_seen]
  unfold Chain.after
  split
  next hb => simp [gaeOf]
  next hb =>
    simp only [Chain.expect_affine, mul_add, sum_add_distrib, ← sum_mul, C.pol_sum, one_mul]
    congr 1
    rw [mul_sum]
    exact sum_congr rfl (fun a' _ => by ring)

theorem expect_gae_zero (C : Chain S A) (cut : Bool) (γ lam : ℝ) (V : S → ℝ) (s : S) (a : A) :
    C.expect cut 0 s a (gaeOf γ lam V) = C.actionValue γ V s a - V s := by
  simp only [Chain.expect, gaeOf_seen]
  simp only [gaeOf, mul_zero, add_zero, mul_sub, sum_sub_distrib, ← sum_mul, C.trans_sum, one_mul, Chain.actionValue]

theorem expect_gae (C : Chain S A) (cut : Bool) (γ lam : ℝ) (V : S → ℝ) (hV : C.IsValue γ V) (m : ℕ) (s : S) (a : A) :
    C.expect cut m s a (gaeOf γ lam V) = C.actionValue γ V s a - V s := by
  induction m generalizing s a with
  | zero => exact expect_gae_zero C cut γ lam V s a
  | succ m ih =>
    have h0 : ∀ s', ∑ a', C.pol s' a' * (C.actionValue γ V s' a' - V s') = 0 := by
      intro s'
      simp only [mul_sub, sum_sub_distrib, ← sum_mul, C.pol_sum, one_mul]
      rw [← hV s', sub_self]
    simp only [expect_gae_succ, ih, h0, ite_self, mul_zero, add_zero]
    simp only [mul_sub, sum_sub_distrib, ← sum_mul, C.trans_sum, one_mul, Chain.actionValue]

/-- C157. Let the critic predict the values of the policy. Then, for every `lam`, the advantage that `compute_gae` returns for a step
is in expectation the advantage of its action: the value of the action minus the value of the state. This holds wherever the step is
in the dataset, for any limit on the steps that follow, and if they end with an absorbing state, by the horizon or with the dataset. -/
theorem C157_unbiased (C : Chain S A) (cut : Bool) (γ lam : ℝ) (V : S → ℝ) (hV : C.IsValue γ V) (pre : List (Seen S))
    (post : List (Seen S) → List (Seen S)) (hpp : Around pre post) (g0 : ℕ → ℝ) (m : ℕ) (s : S) (a : A) :
    C.expect cut m s a (fun l => (computeGae (dataOf V (pre ++ l ++ post l)) γ lam (pre ++ l ++ post l).length g0).2 pre.length) =
      C.actionValue γ V s a - V s := by
  rw [← expect_gae C cut γ lam V hV m s a]
  exact C.expect_congr cut m s a _ _ IsTrajectory
    (fun l hl => gae_dataset γ lam V pre l (post l) g0 hl hpp.pre_ok (hpp.post_ok l) (hpp.cut_ok l))
    (C.seen_trajectory cut).1 (C.seen_trajectory cut).2

theorem target_dataset (C : Chain S A) (cut : Bool) (γ lam : ℝ) (V : S → ℝ) (pre : List (Seen S))
    (post : List (Seen S) → List (Seen S)) (hpp : Around pre post) (g0 : ℕ → ℝ) (m : ℕ) (s : S) (a : A) :
    C.expect cut m s a (fun l => (computeGae (dataOf V (pre ++ l ++ post l)) γ lam (pre ++ l ++ post l).length g0).1 pre.length) =
      C.expect cut m s a (gaeOf γ lam V) + V s := by
  have h1 : C.expect cut m s a (gaeOf γ lam V) + V s = C.expect cut m s a (fun l => V s + 1 * gaeOf γ lam V l) := by
    rw [Chain.expect_affine]
    ring
  rw [h1]
  have key : ∀ l, IsTrajectory l → (computeGae (dataOf V (pre ++ l ++ post l)) γ lam (pre ++ l ++ post l).length g0).1 pre.length =
      gaeOf γ lam V l + (l.head?.map (fun o => V o.state)).getD 0 := by
    intro l hl
    rw [← gae_dataset γ lam V pre l (post l) g0 hl hpp.pre_ok (hpp.post_ok l) (hpp.cut_ok l)]
    have hne : l ≠ [] := by rintro rfl; exact hl
    obtain ⟨o, l', rfl⟩ := List.exists_cons_of_ne_nil hne
    simp [computeGae, dataOf]
  have h2 := C.expect_congr cut m s a
    (fun l => (computeGae (dataOf V (pre ++ l ++ post l)) γ lam (pre ++ l ++ post l).length g0).1 pre.length)
    (fun l => gaeOf γ lam V l + (l.head?.map (fun o => V o.state)).getD 0) IsTrajectory key
    (C.seen_trajectory cut).1 (C.seen_trajectory cut).2
  rw [h2]
  cases m with
  | zero =>
    simp only [Chain.expect]
    refine sum_congr rfl (fun s' _ => ?_)
    simp only [List.head?_cons, Option.map_some, Option.getD_some]
    congr 1
    show gaeOf γ lam V [C.seen cut 0 s a s'] + V s = _
    ring
  | succ m =>
    simp only [Chain.expect_succ]
    refine sum_congr rfl (fun s' _ => ?_)
    congr 2
    funext l
    show gaeOf γ lam V (C.seen cut (m + 1) s a s' :: l) + V s = _
    ring

/-- A weighted average of numbers that are close to others is close to their weighted average. -/
theorem weighted_close {ι : Type} [Fintype ι] (p f g : ι → ℝ) (hp : ∀ i, 0 ≤ p i) (h1 : ∑ i, p i = 1) (ε : ℝ)
    (hfg : ∀ i, |f i - g i| ≤ ε) : |(∑ i, p i * f i) - ∑ i, p i * g i| ≤ ε := by
  rw [← sum_sub_distrib]
  refine (abs_sum_le_sum_abs _ _).trans ?_
  calc ∑ i, |p i * f i - p i * g i| ≤ ∑ i, p i * ε := by
        refine sum_le_sum (fun i _ => ?_)
        rw [← mul_sub, abs_mul, abs_of_nonneg (hp i)]
        exact mul_le_mul_of_nonneg_left (hfg i) (hp i)
    _ = ε := by rw [← sum_mul, h1, one_mul]

/-- The bound on the error of the targets after `m + 1` steps. -/
def targetError (γ lam ε : ℝ) : ℕ → ℝ
  | 0 => γ * ε
  | m + 1 => γ * ((1 - lam) * ε + lam * targetError γ lam ε m)

theorem expect_target (C : Chain S A) (cut : Bool) (γ lam ε : ℝ) (hγ : 0 ≤ γ) (hl0 : 0 ≤ lam) (hl1 : lam ≤ 1) (V V' : S → ℝ)
    (hV : C.IsValue γ V) (hε : ∀ s, |V' s - V s| ≤ ε) (m : ℕ) (s : S) (a : A) :
    |C.expect cut m s a (gaeOf γ lam V') + V' s - C.actionValue γ V s a| ≤ targetError γ lam ε m := by
  have hε0 : 0 ≤ ε := (abs_nonneg _).trans (hε s)
  have step : ∀ (f : S → ℝ) (E : ℝ), 0 ≤ E → (∀ s', |f s' - V s'| ≤ E) →
      |(∑ s', C.trans s a s' * (C.reward s a s' + γ * if C.absorbing s a s' then 0 else f s')) - C.actionValue γ V s a| ≤ γ * E := by
    intro f E hE hf
    refine weighted_close _ _ _ (C.trans_nonneg s a) (C.trans_sum s a) _ (fun s' => ?_)
    split
    · simpa using mul_nonneg hγ hE
    · have : C.reward s a s' + γ * f s' - (C.reward s a s' + γ * V s') = γ * (f s' - V s') := by ring
      rw [this, abs_mul, abs_of_nonneg hγ]
      exact mul_le_mul_of_nonneg_left (hf s') hγ
  induction m generalizing s a with
  | zero =>
    have := step V' ε hε0 hε
    rw [expect_gae_zero, sub_add_cancel, targetError]
    exact this
  | succ m ih =>
    have ih' : ∀ s' a', |C.expect cut m s' a' (gaeOf γ lam V') + V' s' - C.actionValue γ V s' a'| ≤ targetError γ lam ε m := by
      intro s' a'
      refine ih s' a' ?_
      intro f E hE hf
      refine weighted_close _ _ _ (C.trans_nonneg s' a') (C.trans_sum s' a') _ (fun s'' => ?_)
      split
      · simpa using mul_nonneg hγ hE
      · have : C.reward s' a' s'' + γ * f s'' - (C.reward s' a' s'' + γ * V s'') = γ * (f s'' - V s'') := by ring
        rw [this, abs_mul, abs_of_nonneg hγ]
        exact mul_le_mul_of_nonneg_left (hf s'') hγ
    set f : S → ℝ := fun s' => (1 - lam) * V' s' + lam * ∑ a', C.pol s' a' * (C.expect cut m s' a' (gaeOf γ lam V') + V' s') with hf
    have hfV : ∀ s', |f s' - V s'| ≤ (1 - lam) * ε + lam * targetError γ lam ε m := by
      intro s'
      have h1 := weighted_close (C.pol s') _ _ (C.pol_nonneg s') (C.pol_sum s') _ (ih' s')
      rw [← hV s'] at h1
      have : f s' - V s' = (1 - lam) * (V' s' - V s') +
          lam * ((∑ a', C.pol s' a' * (C.expect cut m s' a' (gaeOf γ lam V') + V' s')) - V s') := by
        rw [hf]
        ring
      rw [this]
      refine (abs_add_le _ _).trans (add_le_add ?_ ?_)
      · rw [abs_mul, abs_of_nonneg (by linarith : (0 : ℝ) ≤ 1 - lam)]
        exact mul_le_mul_of_nonneg_left (hε s') (by linarith)
      · rw [abs_mul, abs_of_nonneg hl0]
        exact mul_le_mul_of_nonneg_left h1 hl0
    have hE : 0 ≤ (1 - lam) * ε + lam * targetError γ lam ε m := (abs_nonneg _).trans (hfV s)
    have hmain := step f _ hE hfV
    have heq : C.expect cut (m + 1) s a (gaeOf γ lam V') + V' s =
        ∑ s', C.trans s a s' * (C.reward s a s' + γ * if C.absorbing s a s' then 0 else f s') := by
      rw [expect_gae_succ]
      have : V' s = ∑ s', C.trans s a s' * V' s := by rw [← sum_mul, C.trans_sum, one_mul]
      rw [this, ← sum_add_distrib]
      refine sum_congr rfl (fun s' _ => ?_)
      rw [← sum_mul, C.trans_sum, one_mul]
      split
      · ring
      · simp only [hf, mul_add, sum_add_distrib, ← sum_mul, C.pol_sum, one_mul]
        ring
    rw [heq]
    exact hmain

/-- C157. Let the predictions of the critic be within `ε` of the values of the policy. Then, for every `lam`, the value target that
`compute_gae` returns for a step is in expectation within `γ ε` of the value of its action. -/
theorem C157_error (C : Chain S A) (cut : Bool) (γ lam ε : ℝ) (hγ : 0 ≤ γ) (hγ1 : γ ≤ 1) (hl0 : 0 ≤ lam) (hl1 : lam ≤ 1) (V V' : S → ℝ)
    (hV : C.IsValue γ V) (hε : ∀ s, |V' s - V s| ≤ ε) (pre : List (Seen S)) (post : List (Seen S) → List (Seen S))
    (hpp : Around pre post) (g0 : ℕ → ℝ) (m : ℕ) (s : S) (a : A) :
    |C.expect cut m s a (fun l => (computeGae (dataOf V' (pre ++ l ++ post l)) γ lam (pre ++ l ++ post l).length g0).1 pre.length) -
      C.actionValue γ V s a| ≤ γ * ε := by
  have hε0 : 0 ≤ ε := (abs_nonneg _).trans (hε s)
  have hb : ∀ m, targetError γ lam ε m ≤ γ * ε := by
    intro m
    induction m with
    | zero => exact le_refl _
    | succ m ih =>
      refine mul_le_mul_of_nonneg_left ?_ hγ
      have h1 : lam * targetError γ lam ε m ≤ lam * (γ * ε) := mul_le_mul_of_nonneg_left ih hl0
      have h2 : lam * (γ * ε) ≤ lam * ε := mul_le_mul_of_nonneg_left (by nlinarith) hl0
      linarith
  rw [target_dataset C cut γ lam V' pre post hpp g0 m s a]
  exact (expect_target C cut γ lam ε hγ hl0 hl1 V V' hV hε m s a).trans (hb m)

/-- C157. With `lam` equal to one the error of the critic only enters after the last step that is observed, so that it is discounted
once for each of them. -/
theorem C157_error_monte_carlo (C : Chain S A) (cut : Bool) (γ ε : ℝ) (hγ : 0 ≤ γ) (V V' : S → ℝ)
    (hV : C.IsValue γ V) (hε : ∀ s, |V' s - V s| ≤ ε) (pre : List (Seen S)) (post : List (Seen S) → List (Seen S))
    (hpp : Around pre post) (g0 : ℕ → ℝ) (m : ℕ) (s : S) (a : A) :
    |C.expect cut m s a (fun l => (computeGae (dataOf V' (pre ++ l ++ post l)) γ 1 (pre ++ l ++ post l).length g0).1 pre.length) -
      C.actionValue γ V s a| ≤ γ ^ (m + 1) * ε := by
  have hb : ∀ m, targetError γ 1 ε m = γ ^ (m + 1) * ε := by
    intro m
    induction m with
    | zero => simp [targetError]
    | succ m ih => rw [targetError, ih]; ring
  rw [target_dataset C cut γ 1 V' pre post hpp g0 m s a, ← hb m]
  exact expect_target C cut γ 1 ε hγ zero_le_one le_rfl V V' hV hε m s a

/-- C157. With an exact critic the value targets are unbiased too: in expectation over the action and what follows, the target of a
state is its value. -/
theorem C157_target (C : Chain S A) (cut : Bool) (γ lam : ℝ) (V : S → ℝ) (hV : C.IsValue γ V) (pre : List (Seen S))
    (post : List (Seen S) → List (Seen S)) (hpp : Around pre post) (g0 : ℕ → ℝ) (m : ℕ) (s : S) :
    ∑ a, C.pol s a * C.expect cut m s a (fun l =>
      (computeGae (dataOf V (pre ++ l ++ post l)) γ lam (pre ++ l ++ post l).length g0).1 pre.length) = V s := by
  have : ∀ a, C.expect cut m s a (fun l => (computeGae (dataOf V (pre ++ l ++ post l)) γ lam (pre ++ l ++ post l).length g0).1 pre.length) =
      C.actionValue γ V s a := by
    intro a
    rw [target_dataset C cut γ lam V pre post hpp g0 m s a, expect_gae C cut γ lam V hV, sub_add_cancel]
  simp only [this]
  exact (hV s).symm

/-! ### Monte-Carlo targets -/

/-- The discounted return of a trajectory, completed with the predicted value of what follows. -/
def mcOf (γ : ℝ) (V : S → ℝ) : List (Seen S) → ℝ
  | [] => 0
  | [o] => o.reward + γ * (if o.absorbing then 0 else V o.next)
  | o :: p :: l => o.reward + γ * mcOf γ V (p :: l)

omit [Fintype S] in
theorem mc_dataset (γ : ℝ) (V : S → ℝ) (pre l post : List (Seen S)) (hl : IsTrajectory l)
    (hpre : ∀ o ∈ pre, o.absorbing = true → o.last = true) (hpost : ∀ o ∈ post, o.absorbing = true → o.last = true)
    (hcut : (∃ o, l.getLast? = some o ∧ o.absorbing = true ∧ o.last = true) ∨ post = []) :
    (computeAdvantageMontecarlo (dataOf V (pre ++ l ++ post)) γ (pre ++ l ++ post).length).1 pre.length = mcOf γ V l := by
  obtain ⟨habs, hend, get⟩ := dataset_facts V pre l post hl hpre hpost (hcut.imp (fun ⟨o, h1, h2⟩ => ⟨o, h1, h2.2⟩) id)
  have hne : l ≠ [] := by rintro rfl; exact hl
  have hpos : 0 < l.length := List.length_pos_of_ne_nil hne
  set D := pre ++ l ++ post with hD
  set d := dataOf V D with hd
  have hDlen : D.length = pre.length + l.length + post.length := by simp [hD, add_assoc]
  have ha : pre.length + (l.length - 1) + 1 < D.length → d.absorbing (pre.length + (l.length - 1)) = true := by
    intro hlt
    rcases hcut with ⟨o, ho, h2⟩ | hp
    · have hg := get (l.length - 1) (by omega)
      have : l.getLast? = l[l.length - 1]? := List.getLast?_eq_getElem?
      rw [this, List.getElem?_eq_getElem (by omega)] at ho
      simp only [hd, dataOf, hg, Option.map_some, Option.getD_some]
      rw [Option.some.inj ho]
      exact h2.1
    · rw [hDlen, hp, List.length_nil] at hlt
      omega
  rw [(C34_montecarlo_partial d γ D.length habs _ _ hend ha).1]
  have key : ∀ m i, i + m + 1 = l.length →
      bootstrappedReturn d γ (pre.length + i) (pre.length + (l.length - 1)) = mcOf γ V (l.drop i) := by
    intro m
    induction m with
    | zero =>
      intro i hi
      have : pre.length + (l.length - 1) = pre.length + i := by omega
      have hg := get i (by omega)
      rw [this, List.drop_eq_getElem_cons (show i < l.length by omega), List.drop_eq_nil_of_le (by omega)]
      simp [mcOf, bootstrappedReturn, future, hd, dataOf, hg]
    | succ m ih =>
      intro i hi
      have hg := get i (by omega)
      rw [bootstrappedReturn_step d γ (by omega), List.drop_eq_getElem_cons (show i < l.length by omega),
        List.drop_eq_getElem_cons (show i + 1 < l.length by omega), mcOf]
      have := ih (i + 1) (by omega)
      rw [show pre.length + i + 1 = pre.length + (i + 1) by omega, this, ← List.drop_eq_getElem_cons (show i + 1 < l.length by omega)]
      simp [hd, dataOf, hg]
  have := key (l.length - 1) 0 (by omega)
  simpa using this

theorem expect_mc (C : Chain S A) (cut : Bool) (γ : ℝ) (V : S → ℝ) (hV : C.IsValue γ V) (m : ℕ) (s : S) (a : A) :
    C.expect cut m s a (mcOf γ V) = C.actionValue γ V s a := by
  induction m generalizing s a with
  | zero => rfl
  | succ m ih =>
    rw [Chain.expect, Chain.actionValue]
    refine sum_congr rfl (fun s' _ => ?_)
    congr 1
    split
    next hb =>
      show C.reward s a s' + γ * (if C.absorbing s a s' then 0 else V s') = _
      rw [if_pos hb]
    next hb =>
      have h1 : ∀ a', C.expect cut m s' a' (fun l => mcOf γ V (C.seen cut (m + 1) s a s' :: l)) =
          C.reward s a s' + γ * C.actionValue γ V s' a' := by
        intro a'
        rw [← ih s' a', ← Chain.expect_affine]
        refine C.expect_congr cut m s' a' _ _ IsTrajectory (fun l hl => ?_) (C.seen_trajectory cut).1 (C.seen_trajectory cut).2
        cases l with
        | nil => exact hl.elim
        | cons p l => rfl
      simp only [h1, mul_add, sum_add_distrib, ← sum_mul, C.pol_sum, one_mul]
      congr 1
      rw [hV s', mul_sum]
      exact sum_congr rfl (fun a' _ => by ring)

/-- C157 (Monte-Carlo, partial). With an exact critic the advantage that `compute_advantage_montecarlo` returns for a step is in
expectation the advantage of its action, if the trajectory of the step ends in an absorbing state or with the dataset. Missing:
trajectories that are ended by the horizon inside the dataset, see `C157_montecarlo_refuted`. -/
theorem C157_montecarlo_partial (C : Chain S A) (cut : Bool) (γ : ℝ) (V : S → ℝ) (hV : C.IsValue γ V) (pre : List (Seen S))
    (post : List (Seen S) → List (Seen S)) (hpre : ∀ o ∈ pre, o.absorbing = true → o.last = true)
    (hpost : ∀ l, ∀ o ∈ post l, o.absorbing = true → o.last = true)
    (hcut : ∀ l, (∃ o, l.getLast? = some o ∧ o.absorbing = true ∧ o.last = true) ∨ post l = []) (m : ℕ) (s : S) (a : A) :
    C.expect cut m s a (fun l =>
      (computeAdvantageMontecarlo (dataOf V (pre ++ l ++ post l)) γ (pre ++ l ++ post l).length).2 pre.length) =
      C.actionValue γ V s a - V s := by
  have key : ∀ l, IsTrajectory l →
      (computeAdvantageMontecarlo (dataOf V (pre ++ l ++ post l)) γ (pre ++ l ++ post l).length).2 pre.length =
      mcOf γ V l - (l.head?.map (fun o => V o.state)).getD 0 := by
    intro l hl
    rw [← mc_dataset γ V pre l (post l) hl hpre (hpost l) (hcut l)]
    have hne : l ≠ [] := by rintro rfl; exact hl
    obtain ⟨o, l', rfl⟩ := List.exists_cons_of_ne_nil hne
    simp [computeAdvantageMontecarlo, dataOf]
  rw [C.expect_congr cut m s a _ _ IsTrajectory key (C.seen_trajectory cut).1 (C.seen_trajectory cut).2,
    ← expect_mc C cut γ V hV m s a]
  have h1 : C.expect cut m s a (mcOf γ V) - V s = C.expect cut m s a (fun l => -V s + 1 * mcOf γ V l) := by
    rw [Chain.expect_affine]
    ring
  rw [h1]
  cases m with
  | zero =>
    simp only [Chain.expect]
    refine sum_congr rfl (fun s' _ => ?_)
    simp only [List.head?_cons, Option.map_some, Option.getD_some]
    congr 1
    show mcOf γ V [C.seen cut 0 s a s'] - V s = _
    ring
  | succ m =>
    simp only [Chain.expect_succ]
    refine sum_congr rfl (fun s' _ => ?_)
    congr 2
    funext l
    show mcOf γ V (C.seen cut (m + 1) s a s' :: l) - V s = _
    ring

/-- Non-trivial instance: two states, the first of which is left with the probability one half by the first action, to the second,
in which the episode ends. Each step costs one. -/
def leaving : Chain Bool Bool :=
  { trans := fun s a s' => if s then (if s' then 1 else 0) else if a then 1 / 2 else if s' then 0 else 1
    pol := fun _ _ => 1 / 2
    reward := fun _ _ _ => -1
    absorbing := fun s _ _ => s
    trans_nonneg := by
      intro s a s'
      cases s <;> cases a <;> cases s' <;> norm_num
    trans_sum := by
      intro s a
      cases s <;> cases a <;> norm_num
    pol_nonneg := by norm_num
    pol_sum := by norm_num }

/-- The values of the states of `leaving`, without discount. -/
def leavingValue (s : Bool) : ℝ := if s then -1 else -5

/-- What follows a trajectory that is flagged as ended: one more step, from the second state. -/
def oneMore (l : List (Seen Bool)) : List (Seen Bool) := if l.getLast?.any (·.last) then [⟨true, -1, true, true, true⟩] else []

theorem leaving_value : leaving.IsValue 1 leavingValue := by
  intro s
  cases s <;> norm_num [leaving, Chain.actionValue, leavingValue]

theorem oneMore_around : Around [⟨true, -1, true, true, true⟩] oneMore := by
  refine ⟨by simp, ?_, ?_⟩
  · intro l o ho
    unfold oneMore at ho
    split at ho
    · rw [List.mem_singleton.1 ho]
      simp
    · simp at ho
  · intro l
    unfold oneMore
    cases hl : l.getLast? with
    | none => simp
    | some o => cases ho : o.last <;> simp [ho]

example : leaving.IsValue 1 leavingValue ∧ Around [⟨true, -1, true, true, true⟩] oneMore ∧
    ∀ s, |(leavingValue s + 1) - leavingValue s| ≤ 1 := ⟨leaving_value, oneMore_around, by simp⟩

/-- For the theorem on Monte-Carlo targets: a trajectory that ends in an absorbing state is followed by one more step. -/
example : ∀ l : List (Seen Bool), (∃ o, l.getLast? = some o ∧ o.absorbing = true ∧ o.last = true) ∨
    (if l.getLast?.any (fun o => o.absorbing && o.last) then [⟨true, -1, true, true, true⟩] else [] : List (Seen Bool)) = [] := by
  intro l
  cases hl : l.getLast? with
  | none => simp
  | some o => cases h1 : o.absorbing <;> cases h2 : o.last <;> simp [h1, h2]

/-- C157 fails for `compute_advantage_montecarlo` when a trajectory is ended by the horizon and another one follows: the return of the
other one is added to it. In the process `leaving` the critic predicts the exact values, and still the expected advantage of the
first action in the first state, for a step that is ended by the horizon and followed by one more step, is three instead of one. -/
theorem C157_montecarlo_refuted : leaving.IsValue 1 leavingValue ∧ Around [⟨true, -1, true, true, true⟩] oneMore ∧
    leaving.actionValue 1 leavingValue false true - leavingValue false = 1 ∧
    leaving.expect true 0 false true (fun l => (computeAdvantageMontecarlo
      (dataOf leavingValue ([⟨true, -1, true, true, true⟩] ++ l ++ oneMore l)) 1
      ([(⟨true, -1, true, true, true⟩ : Seen Bool)] ++ l ++ oneMore l).length).2 1) = 3 := by
  refine ⟨leaving_value, oneMore_around, by norm_num [leaving, Chain.actionValue, leavingValue], ?_⟩
  norm_num [Chain.expect, leaving, Chain.seen, oneMore, computeAdvantageMontecarlo, mcStep, dataOf, put, notInt, leavingValue,
    List.range_succ]

end

end Verif.ValueFn
