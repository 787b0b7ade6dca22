/- Helper lemmas: consequences of the invariants for the public entry points. -/
import Verif.Core.Lemmas2

namespace Verif.Core

variable {W X A R P T : Type}

theorem shortestDue_steps {k : Nat} (hk : 1 ≤ k) {b : List (Sample X A R P)} (h : ShortestDue (.steps k) b) :
    b.length = k := by
  obtain ⟨hne, hd, hp⟩ := h
  simp only [Due] at hd hp
  by_cases hlt : k < b.length
  · exfalso
    refine hp (b.take k) (List.take_prefix k b) ?_ ?_ ?_
    · intro h; have := congrArg List.length h; simp only [List.length_take, List.length_nil] at this; omega
    · intro h; have := congrArg List.length h; simp only [List.length_take] at this; omega
    · simp only [List.length_take]; omega
  · omega

theorem shortestDue_episodes {k : Nat} (hk : 1 ≤ k) {b : List (Sample X A R P)} (h : ShortestDue (.episodes k) b) :
    endings b = k ∧ ∃ init s, b = init ++ [s] ∧ s.last = true := by
  obtain ⟨hne, hd, hp⟩ := h
  simp only [Due] at hd hp
  have hb := List.dropLast_concat_getLast hne
  have h1 : endings b.dropLast < k := by
    by_cases he : b.dropLast = []
    · rw [he]; simp; omega
    · have := hp b.dropLast (List.dropLast_prefix b) he (by
        intro h; have := congrArg List.length h; simp at this
        have : 0 < b.length := List.length_pos_iff.2 hne
        omega)
      omega
  have h2 : endings b = endings b.dropLast + (if (b.getLast hne).last then 1 else 0) := by
    conv => lhs; rw [← hb]
    rw [endings_append, endings_single]
  cases hl : (b.getLast hne).last
  · simp [hl] at h2; omega
  · simp [hl] at h2
    exact ⟨by omega, _, _, hb.symm, hl⟩

/-- Cutting a list made of blocks of equal length gives the blocks back. -/
theorem blocks_of_flatten {α} {k : Nat} : ∀ (bs : List (List α)) (r : List α), (∀ b ∈ bs, b.length = k) →
    bs = (List.range bs.length).map (fun j => ((bs.flatten ++ r).drop (j * k)).take k)
  | [], r, _ => by simp
  | b :: bs, r, h => by
    have hb : b.length = k := h b (by simp)
    have ih := blocks_of_flatten bs r (fun b hb => h b (by simp [hb]))
    rw [List.length_cons, List.range_succ_eq_map, List.map_cons]
    congr 1
    · simp [← hb]
    · conv => lhs; rw [ih]
      rw [List.map_map]
      apply List.map_congr_left
      intro j _
      simp only [Function.comp, List.flatten_cons, List.append_assoc]
      congr 1
      have : (j.succ) * k = b.length + j * k := by rw [hb, Nat.succ_mul]; omega
      rw [this, ← List.drop_drop, List.drop_left]

theorem length_flatten_eq {α} {k : Nat} : ∀ (bs : List (List α)), (∀ b ∈ bs, b.length = k) →
    bs.flatten.length = bs.length * k
  | [], _ => by simp
  | b :: bs, h => by
    have hb : b.length = k := h b (by simp)
    have ih := length_flatten_eq bs (fun b hb => h b (by simp [hb]))
    simp only [List.flatten_cons, List.length_append, List.length_cons, ih, hb, Nat.add_mul]; omega

theorem endings_flatten_eq {k : Nat} : ∀ (bs : List (List (Sample X A R P))), (∀ b ∈ bs, endings b = k) →
    endings bs.flatten = bs.length * k
  | [], _ => by simp
  | b :: bs, h => by
    have hb : endings b = k := h b (by simp)
    have ih := endings_flatten_eq bs (fun b hb => h b (by simp [hb]))
    simp only [List.flatten_cons, endings_append, List.length_cons, ih, hb, Nat.add_mul]; omega

theorem endings_le_length (l : List (Sample X A R P)) : endings l ≤ l.length := List.countP_le_length

theorem budgetMet_of_inv {c : Cfg X} {s : St W X A R P T} (hI : Inv c s) (hm : moveRequired c.budget s = false) :
    BudgetMet c.budget (steps s.trace) := by
  have hb := hI.budget
  cases hbb : c.budget with
  | steps n =>
    simp only [hbb, moveRequired, decide_eq_false_iff_not, BudgetMet] at hm hb ⊢
    rw [← hI.tot]; omega
  | episodes n =>
    simp only [hbb, moveRequired, decide_eq_false_iff_not, BudgetMet] at hm hb ⊢
    have he : s.totalEpisodes = n := by omega
    refine ⟨by rw [← hI.totE]; exact he, ?_⟩
    have hl := hb.2 he
    rcases hI.hlast with ⟨h, _⟩ | ⟨init, x, h, hx⟩
    · left; exact h
    · right; exact ⟨init, x, h, by rw [← hx]; exact hl⟩

/-- The dataset has room, for every configuration that `learn`/`evaluate` can produce. -/
theorem room {sys : Sys W X A R P T} {c : Cfg X} {prev s : St W X A R P T} (hr : Reach sys c prev s)
    (hm : moveRequired c.budget s = true)
    (hcap : match c.fitMode, c.budget with
      | .steps k, _ => c.capacity = some k ∧ 1 ≤ k
      | .episodes k, _ => ∃ H, sys.horizon = some H ∧ 1 ≤ H ∧ 1 ≤ k ∧ c.capacity = some (H * k)
      | .never, .steps n => c.capacity = some n
      | .never, .episodes n => ∃ H, sys.horizon = some H ∧ 1 ≤ H ∧ c.capacity = some (H * n)) :
    ∀ cap, c.capacity = some cap → s.rows.length < cap := by
  have hI := inv_reach hr
  intro cap hc
  -- bound by the number of endings in the rows
  have key : ∀ H n, sys.horizon = some H → 1 ≤ H → endings s.rows < n → s.rows.length < H * n := by
    intro H n hH h1 he
    obtain ⟨ha, hb⟩ := horizon_reach hH h1 hr
    have : H * (endings s.rows + 1) ≤ H * n := Nat.mul_le_mul_left H he
    rw [Nat.mul_add] at this
    cases hl : s.last
    · have := ha hl; simp [hl] at hb; omega
    · simp [hl] at hb; omega
  have hnd : s.rows ≠ [] → ¬ Due c.fitMode s.rows := fun h => hI.hrows _ (List.prefix_refl _) h
  have hall : c.fitMode = .never → s.rows = steps s.trace := by
    intro hf
    obtain ⟨bs, hb1, hb2⟩ := hI.hwork
    have : bs = [] := by
      cases bs with
      | nil => rfl
      | cons b bs => have := (hb2 b (by simp)).2.1; rw [hf] at this; exact absurd this (by simp [Due])
    rw [steps_eq_didsOf, hb1, this, didsOf_workOf]; simp
  cases hf : c.fitMode with
  | steps k =>
    rw [hf] at hcap hnd
    simp only at hcap
    obtain ⟨h1, h2⟩ := hcap
    rw [h1] at hc
    have : k = cap := Option.some.inj hc
    subst this
    by_cases hn : s.rows = []
    · rw [hn]; simp; omega
    · have := hnd hn; simp only [Due] at this; omega
  | episodes k =>
    rw [hf] at hcap hnd
    simp only at hcap
    obtain ⟨H, hH, h1H, hk, hcp⟩ := hcap
    rw [hcp] at hc
    have : H * k = cap := Option.some.inj hc
    subst this
    apply key H k hH h1H
    by_cases hn : s.rows = []
    · rw [hn]; simp; omega
    · have := hnd hn; simp only [Due] at this; omega
  | never =>
    have hrows := hall hf
    cases hb : c.budget with
    | steps n =>
      simp only [hf, hb] at hcap
      rw [hcap] at hc
      have : n = cap := Option.some.inj hc
      subst this
      simp only [hb, moveRequired, decide_eq_true_eq] at hm
      rw [hrows, ← hI.tot]; exact hm
    | episodes n =>
      simp only [hf, hb] at hcap
      obtain ⟨H, hH, h1H, hcp⟩ := hcap
      rw [hcp] at hc
      have : H * n = cap := Option.some.inj hc
      subst this
      simp only [hb, moveRequired, decide_eq_true_eq] at hm
      apply key H n hH h1H
      rw [hrows, ← hI.totE]; exact hm

/-- Combination: the loop cannot end with an exception. -/
theorem loop_no_error {sys : Sys W X A R P T} {c : Cfg X} {prev : St W X A R P T}
    (hc : ∀ xs, c.initialStates = some xs → c.budget = .episodes xs.length)
    (hcap : match c.fitMode, c.budget with
      | .steps k, _ => c.capacity = some k ∧ 1 ≤ k
      | .episodes k, _ => ∃ H, sys.horizon = some H ∧ 1 ≤ H ∧ 1 ≤ k ∧ c.capacity = some (H * k)
      | .never, .steps n => c.capacity = some n
      | .never, .episodes n => ∃ H, sys.horizon = some H ∧ 1 ≤ H ∧ c.capacity = some (H * n))
    (fuel : Nat) (e : Err) : loop sys c fuel (start prev) ≠ some (.error e) := by
  intro h
  obtain ⟨s', hr, hm, he⟩ := loop_error Reach.start h
  obtain ⟨s'', hs''⟩ := iter_ok hr hc hm (room hr hm hcap)
  rw [hs''] at he
  cases he

/-- Number of parameters collected by an episodic agent when fits happen at episode ends. -/
theorem thetas_count_reach {sys : Sys W X A R P T} {c : Cfg X} {prev s : St W X A R P T} {k : Nat}
    (hep : sys.isEpisodic = true) (hf : c.fitMode = .episodes k) (hk : 1 ≤ k) (h : Reach sys c prev s) :
    s.thetas.length = endings s.rows + (if s.last then 0 else 1) ∧
    ∀ b ths next, .fit b ths next ∈ s.trace → ths.length = k := by
  induction h with
  | start => simp [start]
  | @iter s s' hr hm hi ih =>
    have hI := inv_reach hr
    have hI' := inv_iter hI hm hi
    obtain ⟨s1, x, s2, h1, hx, h2, rfl⟩ := iter_cases hi
    obtain ⟨asked, act, obs, rew, abs, w, smp, -, -, -, -, -, -, -, -, -, r2, -, -, -, ce2, l2, -, -, -, th2, -, tr2⟩ :=
      step_fields h2
    have hs1 : s1.thetas.length = endings s1.rows + 1 ∧ s1.rows = s.rows ∧ s1.currentEpisodes = s.currentEpisodes ∧
        (∀ b ths next, .fit b ths next ∈ s1.trace → ths.length = k) := by
      split at h1
      · rename_i hl
        obtain ⟨hrw, -, -, -, hce, -, -, -, _, _, _, _, th, -, -, -, ht, hth⟩ := reset_fields h1
        simp only [hl, if_true] at ih
        refine ⟨by rw [hth, hep, hrw]; simp; omega, hrw, hce, ?_⟩
        intro b ths next hmem
        rw [ht] at hmem
        simp at hmem
        exact ih.2 _ _ _ hmem
      · rename_i hl
        cases h1
        simp only [hl] at ih
        exact ⟨ih.1, rfl, rfl, ih.2⟩
    have hs2 : s2.thetas.length = endings s2.rows + (if s2.last then 0 else 1) := by
      rw [th2, hs1.1, r2, endings_append, endings_single, l2]
      cases smp.last <;> simp
    have hm2 : ∀ b ths next, .fit b ths next ∈ s2.trace → ths.length = k := by
      intro b ths next hmem
      rw [tr2] at hmem
      simp at hmem
      exact hs1.2.2.2 _ _ _ hmem
    have hcur : s2.currentEpisodes = endings s2.rows := by
      rw [ce2, hs1.2.2.1, hI.curE, r2, hs1.2.1, endings_append, endings_single]
    unfold fitPhase
    split
    · rename_i hfr
      rw [hf] at hfr
      simp only [fitRequired, decide_eq_true_eq] at hfr
      have hnot : endings s.rows < k := by
        by_cases hn : s.rows = []
        · rw [hn]; simp; omega
        · have := hI.hrows s.rows (List.prefix_refl _) hn; rw [hf] at this; simp only [Due] at this; omega
      have hcount : endings s2.rows = endings s.rows + (if smp.last then 1 else 0) := by
        rw [r2, hs1.2.1, endings_append, endings_single]
      have hl : smp.last = true := by
        cases hl : smp.last
        · simp [hl] at hcount; omega
        · rfl
      refine ⟨?_, ?_⟩
      · simp [l2, hl]
      · intro b ths next hmem
        simp only [List.mem_append, List.mem_singleton, Event.fit.injEq] at hmem
        rcases hmem with hmem | ⟨_, h, _⟩
        · exact hm2 _ _ _ hmem
        · rw [h, hs2, l2, hl]; simp [hl] at hcount ⊢; omega
    · exact ⟨hs2, hm2⟩

end Verif.Core
