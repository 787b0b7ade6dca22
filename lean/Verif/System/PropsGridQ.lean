/-
Property C140: learning in a grid world with Q-learning, from `learn` to `evaluate`.
-/
import Verif.System.SpecGridQ
import Verif.TD.PropsLive
import Verif.Finite.PropsMDP

namespace Verif.System

open Verif.TD Verif.Finite

noncomputable section

variable {E : Type}

theorem apart_eq_zero {a b : ℕ × ℕ} : apart a b = 0 ↔ a = b := by
  obtain ⟨a1, a2⟩ := a
  obtain ⟨b1, b2⟩ := b
  simp only [apart, Prod.mk.injEq]
  omega

theorem grid_width {g : Grid} (h : Proper g) : 0 < g.width := by
  have := h.2.2; omega

/-- A move changes the distance by one at most, and the flags tell whether the goal was reached. -/
theorem step_apart {g : Grid} (hg : Proper g) {s : ℕ} (hs : Live g s) (a : Fin 4) :
    toGoal g s ≤ toGoal g (g.step s a).1 + 1 ∧ (g.step s a).1 < g.height * g.width ∧
    (toGoal g (g.step s a).1 = 0 → (g.step s a).2 = (10, true)) ∧
    (toGoal g (g.step s a).1 ≠ 0 → (g.step s a).2 = (0, false)) := by
  obtain ⟨h1, h2, h3, h4⟩ := C45_step g s a (grid_width hg) hs.1
  refine ⟨?_, h2, fun h => h3 (apart_eq_zero.mp h), fun h => h4 (fun h' => h (apart_eq_zero.mpr h'))⟩
  unfold toGoal
  set c := toGrid s g.width
  set c' := toGrid (g.step s a).1 g.width
  unfold IsMove at h1
  split at h1
  · fin_cases a <;> simp only [neighbour, Prod.mk.injEq] at h1 <;> unfold apart <;> omega
  · rw [h1]; omega

/-- From every cell other than the goal some move leads closer. -/
theorem exists_closer {g : Grid} (hg : Proper g) {s : ℕ} (hs : Live g s) :
    ∃ a : Fin 4, toGoal g (g.step s a).1 + 1 = toGoal g s := by
  obtain ⟨b1, b2⟩ := C45_bijection g.height g.width (grid_width hg)
  obtain ⟨hr, hc, -⟩ := b2 s hs.1
  have hne := hs.2
  have hgoal := hg.1.2
  have key : ∀ a : Fin 4, IsMove g.height g.width (toGrid s g.width) a (toGrid (g.step s a).1 g.width) :=
    fun a => (C45_step g s a (grid_width hg) hs.1).1
  have hcases : g.goal.1 < (toGrid s g.width).1 ∨ (toGrid s g.width).1 < g.goal.1 ∨
      g.goal.2 < (toGrid s g.width).2 ∨ (toGrid s g.width).2 < g.goal.2 := by
    by_contra hcon
    apply hne
    apply Prod.ext <;> omega
  unfold toGoal
  set c := toGrid s g.width
  rcases hcases with h | h | h | h
  · refine ⟨0, ?_⟩
    have hm := key 0
    generalize toGrid (g.step s ((0 : Fin 4) : ℕ)).1 g.width = c' at hm ⊢
    unfold IsMove at hm
    simp only [Fin.val_zero, neighbour] at hm
    rw [if_pos (by omega)] at hm
    simp only [Prod.mk.injEq] at hm
    unfold apart
    omega
  · refine ⟨1, ?_⟩
    have hm := key 1
    generalize toGrid (g.step s ((1 : Fin 4) : ℕ)).1 g.width = c' at hm ⊢
    unfold IsMove at hm
    simp only [Fin.val_one, neighbour] at hm
    rw [if_pos (by omega)] at hm
    simp only [Prod.mk.injEq] at hm
    unfold apart
    omega
  · refine ⟨2, ?_⟩
    have hm := key 2
    generalize toGrid (g.step s ((2 : Fin 4) : ℕ)).1 g.width = c' at hm ⊢
    unfold IsMove at hm
    simp only [Fin.val_two, neighbour] at hm
    rw [if_pos (by omega)] at hm
    simp only [Prod.mk.injEq] at hm
    unfold apart
    omega
  · refine ⟨3, ?_⟩
    have hm := key 3
    generalize toGrid (g.step s ((3 : Fin 4) : ℕ)).1 g.width = c' at hm ⊢
    unfold IsMove at hm
    simp only [show ((3 : Fin 4) : ℕ) = 3 from rfl, neighbour] at hm
    rw [if_pos (by omega)] at hm
    simp only [Prod.mk.injEq] at hm
    unfold apart
    omega

theorem toGoal_pos {g : Grid} {s : ℕ} (hs : Live g s) : 1 ≤ toGoal g s :=
  Nat.one_le_iff_ne_zero.mpr (fun h => hs.2 (apart_eq_zero.mp h))

theorem toGoal_le {g : Grid} (hg : Proper g) {s : ℕ} (hs : Live g s) : toGoal g s ≤ g.height + g.width := by
  obtain ⟨b1, b2⟩ := C45_bijection g.height g.width (grid_width hg)
  obtain ⟨hr, hc, -⟩ := b2 s hs.1
  have hgoal := hg.1.2
  unfold toGoal apart
  omega

theorem grid_stays {g : Grid} (hg : Proper g) : Stays (gridMDP g) (Live g) := by
  intro s a hs ha
  obtain ⟨-, h2, h3, -⟩ := step_apart hg hs a
  refine ⟨h2, fun h => ?_⟩
  have := h3 (apart_eq_zero.mpr h)
  simp only [gridMDP] at ha
  rw [this] at ha
  cases ha

/-- C140. The optimal values of a grid world are the discounted returns of the shortest paths. -/
theorem C140_grid_optimal (g : Grid) (hg : Proper g) (γ : ℝ) (hγ0 : 0 ≤ γ) (hγ1 : γ ≤ 1) :
    OptimalOn (Live g) (gridMDP g) γ (shortestReturn g γ) := by
  refine ⟨fun s => 10 * γ ^ (toGoal g s - 1), fun s hs => ⟨⟨fun a => ?_, ?_⟩, fun a => ?_⟩⟩
  · have := (step_apart hg hs a).1
    exact mul_le_mul_of_nonneg_left (pow_le_pow_of_le_one hγ0 hγ1 (by omega)) (by norm_num)
  · obtain ⟨a, ha⟩ := exists_closer hg hs
    exact ⟨a, by simp only [shortestReturn]; rw [← ha, Nat.add_sub_cancel]⟩
  · obtain ⟨-, h2, h3, h4⟩ := step_apart hg hs a
    by_cases hz : toGoal g (g.step s a).1 = 0
    · simp only [shortestReturn, gridMDP, hz, h3 hz]; norm_num
    · simp only [shortestReturn, gridMDP, h4 hz]
      obtain ⟨n, hn⟩ := Nat.exists_eq_succ_of_ne_zero hz
      rw [hn]
      simp only [Nat.succ_eq_add_one, Nat.add_sub_cancel, Bool.false_eq_true, if_false, pow_succ]
      push_cast
      ring

theorem grid_simulates {g : Grid} (hg : Proper g) (r : Rest E) (rate : E → ℕ → Fin 4 → E × ℝ) :
    Simulates (gridUser g r) (gridRate rate) (gridMDP g) (Live g) Prod.fst where
  noPre := rfl
  reset := fun e => by
    refine ⟨rfl, ?_⟩
    obtain ⟨h1, h2⟩ := (C45_bijection g.height g.width (grid_width hg)).1 g.start hg.2.1 hg.2.2
    exact ⟨h1, by show toGrid (toInt g.start g.width) g.width ≠ _; rw [h2]; exact hg.1.1⟩
  step := fun e a => ⟨rfl, rfl⟩
  draw := fun e g s => rfl
  rate := fun e s a => rfl
  callbackStep := fun e g t => rfl
  callbacksFit := fun f hf e g b => by
    obtain ⟨f', -, rfl⟩ := List.mem_map.mp hf
    rfl

/-- If the values are close to the optimal ones, the greedy actions lead closer to the goal. -/
theorem greedy_closer {g : Grid} (hg : Proper g) {γ ε : ℝ} (hγ0 : 0 < γ) (hγ1 : γ < 1) {Q : Table ℕ (Fin 4)}
    (hQ : CloseOn (Live g) ε Q (shortestReturn g γ)) (hε : ε < 5 * γ ^ (g.height + g.width) * (1 - γ))
    {s : ℕ} (hs : Live g s) {a : Fin 4} (ha : Greedy Q s a) : toGoal g (g.step s a).1 + 1 = toGoal g s := by
  obtain ⟨b, hb⟩ := exists_closer hg hs
  have h1 := abs_le.mp (hQ s hs a)
  have h2 := abs_le.mp (hQ s hs b)
  have h3 := ha b
  have h4 := (step_apart hg hs a).1
  by_contra hcon
  have h5 : toGoal g s ≤ toGoal g (g.step s a).1 := by omega
  have h6 : shortestReturn g γ s a ≤ 10 * γ ^ toGoal g s :=
    mul_le_mul_of_nonneg_left (pow_le_pow_of_le_one hγ0.le hγ1.le h5) (by norm_num)
  have h7 : shortestReturn g γ s b * γ = 10 * γ ^ toGoal g s := by
    simp only [shortestReturn]; rw [← hb, pow_succ]; ring
  have h8 : 10 * γ ^ (g.height + g.width) ≤ shortestReturn g γ s b := by
    have := toGoal_le hg hs
    exact mul_le_mul_of_nonneg_left (pow_le_pow_of_le_one hγ0.le hγ1.le (by omega)) (by norm_num)
  have h9 : 10 * γ ^ (g.height + g.width) * (1 - γ) ≤ shortestReturn g γ s b * (1 - γ) :=
    mul_le_mul_of_nonneg_right h8 (by linarith)
  nlinarith

/-- C140. A whole call of `learn`, with an explicit number of pieces: if every action was taken in every cell in each of
`K` consecutive pieces of the run, and `10 (γ + (1 - α)(1 - γ))^K` is less than half the smallest difference between a
shortest path and a detour, every greedy action leads closer to the goal. -/
theorem C140_grid_bound (g : Grid) (hg : Proper g) (γ α : ℝ) (hγ0 : 0 < γ) (hγ1 : γ < 1) (hα0 : 0 ≤ α) (hα1 : α ≤ 1) (K : ℕ)
    (hK : (γ + (1 - α) * (1 - γ)) ^ K * 10 < 5 * γ ^ (g.height + g.width) * (1 - γ))
    (r : Rest E) (rate : E → ℕ → Fin 4 → E × ℝ) (hrate : ∀ e s a, α ≤ (rate e s a).2 ∧ (rate e s a).2 ≤ 1)
    (fuel : ℕ) (nSteps nEpisodes : Option ℕ) (prev s : Core.St ((ℕ × E) × Table ℕ (Fin 4)) ℕ (Fin 4) ℝ Unit Unit)
    (h : Core.learn (gridCore g r γ rate) fuel prev nSteps nEpisodes (some 1) none = some (.ok s))
    (h0 : ∀ x a, 0 ≤ prev.world.2 x a ∧ prev.world.2 x a ≤ 10) (hcov : Covers (Live g) 1 K (Core.steps s.trace)) :
    Shortest g s.world.2 := by
  have hinit : CloseOn (Live g) 10 prev.world.2 (shortestReturn g γ) := by
    intro x hx a
    have h1 : 0 ≤ shortestReturn g γ x a := mul_nonneg (by norm_num) (pow_nonneg hγ0.le _)
    have h2 : shortestReturn g γ x a ≤ 10 := by
      have := mul_le_mul_of_nonneg_left (pow_le_one₀ (n := toGoal g (g.step x a).1) hγ0.le hγ1.le) (by norm_num : (0 : ℝ) ≤ 10)
      simpa [shortestReturn] using this
    have h3 := h0 x a
    rw [abs_le]
    constructor <;> linarith
  have hc := C140_learn (gridUser g r) (gridRate rate) (gridMDP g) (Live g) Prod.fst (grid_simulates hg r rate) (grid_stays hg)
    γ α 10 hγ0.le hγ1.le hα0 hα1 (by norm_num) (fun e s a => hrate _ _ _) _ (C140_grid_optimal g hg γ hγ0.le hγ1.le) fuel
    nSteps nEpisodes prev s h hinit 1 K hcov
  rw [pow_one] at hc
  exact fun x hx a ha => greedy_closer hg hγ0 hγ1 hc (by linarith) hx ha

/-- C140. Q-learning finds the shortest paths: for every grid, discount in (0, 1) and least learning rate `α > 0` there is
a number `K` such that, whatever the policy, the callbacks, the schedule of the learning rate in [α, 1], the horizon and the
initial values in [0, 10], after a call of `learn` in which every action was taken in every cell in each of `K` consecutive
pieces of the run, every greedy action of every cell is the first move of a shortest path to the goal. -/
theorem C140_grid (g : Grid) (hg : Proper g) (γ α : ℝ) (hγ0 : 0 < γ) (hγ1 : γ < 1) (hα0 : 0 < α) (hα1 : α ≤ 1) :
    ∃ K : ℕ, ∀ (E : Type) (r : Rest E) (rate : E → ℕ → Fin 4 → E × ℝ),
      (∀ e s a, α ≤ (rate e s a).2 ∧ (rate e s a).2 ≤ 1) →
      ∀ (fuel : ℕ) (nSteps nEpisodes : Option ℕ) (prev s : Core.St ((ℕ × E) × Table ℕ (Fin 4)) ℕ (Fin 4) ℝ Unit Unit),
        Core.learn (gridCore g r γ rate) fuel prev nSteps nEpisodes (some 1) none = some (.ok s) →
        (∀ x a, 0 ≤ prev.world.2 x a ∧ prev.world.2 x a ≤ 10) →
        Covers (Live g) 1 K (Core.steps s.trace) → Shortest g s.world.2 := by
  have hd1 : γ + (1 - α) * (1 - γ) < 1 := by nlinarith
  have hpos : 0 < 5 * γ ^ (g.height + g.width) * (1 - γ) / 10 :=
    div_pos (mul_pos (mul_pos (by norm_num) (pow_pos hγ0 _)) (by linarith)) (by norm_num)
  obtain ⟨K, hK⟩ := exists_pow_lt_of_lt_one hpos hd1
  exact ⟨K, fun E r rate hrate fuel nSteps nEpisodes prev s h h0 hcov =>
    C140_grid_bound g hg γ α hγ0 hγ1 hα0.le hα1 K (by linarith) r rate hrate fuel nSteps nEpisodes prev s h h0 hcov⟩

/-! ### Evaluation -/

section Evaluate

variable {g : Grid} {r : Rest E} {γ : ℝ} {rate : E → ℕ → Fin 4 → E × ℝ} {c : Core.Cfg ℕ}

theorem grid_reset {s s' : Core.St ((ℕ × E) × Table ℕ (Fin 4)) ℕ (Fin 4) ℝ Unit Unit} (hini : c.initialStates = none)
    (h : Core.reset (gridCore g r γ rate) c s = .ok s') :
    s'.world = ((g.reset, s.world.1.2), s.world.2) ∧ s'.state = some g.reset ∧ s'.nextAction = none ∧ s'.episodeSteps = 0 ∧
      s'.rows = s.rows ∧ s'.totalEpisodes = s.totalEpisodes := by
  unfold Core.reset at h
  simp only [Core.getInitialState, hini, gridCore, tdSys, gridUser, qLearningRule, List.map_nil, Core.preprocess,
    Except.ok.injEq] at h
  subst h
  exact ⟨rfl, rfl, rfl, rfl, rfl, rfl⟩

theorem grid_step {s s' : Core.St ((ℕ × E) × Table ℕ (Fin 4)) ℕ (Fin 4) ℝ Unit Unit} {x : ℕ} (hx : s.world.1.1 = x)
    (hn : s.nextAction = none) (h : Core.step (gridCore g r γ rate) c s x = .ok s') :
    ∃ a t last, a = (r.draw s.world.1.2 s.world.2 x).2 ∧ s'.world.1.1 = (g.step x a).1 ∧ s'.world.2 = s.world.2 ∧
      s'.state = some (g.step x a).1 ∧ s'.nextAction = none ∧ s'.episodeSteps = s.episodeSteps + 1 ∧
      last = Core.isLast r.horizon (s.episodeSteps + 1) (g.step x a).2.2 ∧ s'.last = last ∧
      s'.totalEpisodes = (if last then s.totalEpisodes + 1 else s.totalEpisodes) ∧ s'.rows = s.rows ++ [t] ∧
      t.reward = ((g.step x a).2.1 : ℝ) ∧ t.last = last ∧ t.absorbing = (g.step x a).2.2 := by
  unfold Core.step at h
  simp only [Core.drawAction, hn, gridCore, tdSys, gridUser, List.map_nil, Core.preprocess, Core.agentPreprocess, hx] at h
  split at h
  · cases h
  · simp only [Except.ok.injEq] at h
    subst h
    exact ⟨_, _, _, rfl, rfl, rfl, rfl, rfl, rfl, rfl, rfl, rfl, rfl, rfl, rfl, rfl⟩

/-- What is looked at: reward, absorbing flag and last flag. -/
def seen (t : Core.Sample ℕ (Fin 4) ℝ Unit) : ℝ × Bool × Bool := (t.reward, t.absorbing, t.last)

theorem evaluate_reach_grid (hg : Proper g) {Q : Table ℕ (Fin 4)} (hQ : Shortest g Q) (hdraw : ∀ e Q x, Greedy Q x (r.draw e Q x).2)
    (hH : ∀ H, r.horizon = some H → toGoal g g.reset ≤ H) (hf : c.fitMode = .never) (hini : c.initialStates = none)
    {M : ℕ} (hb : c.budget = .episodes M) {prev s : Core.St ((ℕ × E) × Table ℕ (Fin 4)) ℕ (Fin 4) ℝ Unit Unit}
    (hp : prev.world.2 = Q) (h : Core.Reach (gridCore g r γ rate) c prev s) :
    s.world.2 = Q ∧ s.totalEpisodes ≤ M ∧
    (s.last = true → s.rows.map seen = (List.replicate s.totalEpisodes (shortestEpisode g)).flatten) ∧
    (s.last = false → s.totalEpisodes < M ∧ ∃ x, s.state = some x ∧ s.world.1.1 = x ∧ Live g x ∧ s.nextAction = none ∧
      toGoal g x + s.episodeSteps = toGoal g g.reset ∧
      s.rows.map seen = (List.replicate s.totalEpisodes (shortestEpisode g)).flatten ++
        List.replicate s.episodeSteps (0, false, false)) := by
  induction h with
  | start => exact ⟨hp, Nat.zero_le _, fun _ => rfl, fun h => by simp [Core.start] at h⟩
  | @iter s s' hr hm hi ih =>
    obtain ⟨i1, i2, i3, i4⟩ := ih
    have hlt : s.totalEpisodes < M := by
      rw [hb] at hm
      simpa [Core.moveRequired] using hm
    obtain ⟨s1, x, s2, h1, hx, h2, rfl⟩ := Core.iter_cases hi
    have hnofit : Core.fitPhase (gridCore g r γ rate) c s2 = s2 := by
      unfold Core.fitPhase
      rw [hf]
      simp [Core.fitRequired]
    rw [hnofit]
    have h0 : s1.world.2 = Q ∧ s1.world.1.1 = x ∧ Live g x ∧ s1.nextAction = none ∧ s1.totalEpisodes = s.totalEpisodes ∧
        toGoal g x + s1.episodeSteps = toGoal g g.reset ∧
        s1.rows.map seen = (List.replicate s1.totalEpisodes (shortestEpisode g)).flatten ++
          List.replicate s1.episodeSteps (0, false, false) := by
      rcases Bool.eq_false_or_eq_true s.last with hl | hl
      · rw [hl, if_pos rfl] at h1
        obtain ⟨r1, r2, r3, r4, r5, r6⟩ := grid_reset hini h1
        rw [r2] at hx
        cases hx
        refine ⟨by rw [r1]; exact i1, by rw [r1], ?_, r3, r6, by rw [r4]; rfl, by rw [r5, r6, r4, i3 hl]; simp⟩
        exact (grid_simulates hg r rate).reset (0, s.world.1.2) |>.2
      · simp only [hl, Bool.false_eq_true, if_false, Except.ok.injEq] at h1
        subst h1
        obtain ⟨-, y, j1, j2, j3, j4, j5, j6⟩ := i4 hl
        rw [hx] at j1
        cases j1
        exact ⟨i1, j2, j3, j4, rfl, j5, j6⟩
    obtain ⟨k1, k2, k3, k4, k5, k6, k7⟩ := h0
    obtain ⟨a, t, last, ha, m1, m2, m3, m4, m5, hlast, m6, m7, m8, m9, m10, m11⟩ := grid_step k2 k4 h2
    have hgr : Greedy Q x a := by rw [ha, k1]; exact hdraw _ _ _
    have hcl := hQ x k3 a hgr
    obtain ⟨-, n1, n2, n3⟩ := step_apart hg k3 a
    refine ⟨by rw [m2, k1], ?_, ?_, ?_⟩
    · rw [m7]; split <;> omega
    · intro hl
      rw [m6] at hl
      rw [hl] at m7 m10
      rw [if_pos rfl] at m7
      by_cases hz : toGoal g (g.step x a).1 = 0
      · have hst := n2 hz
        have hsteps : s1.episodeSteps = toGoal g g.reset - 1 := by omega
        rw [m8, List.map_append, k7, m7, List.replicate_succ', List.flatten_append, List.append_assoc]
        congr 1
        rw [hsteps]
        simp only [shortestEpisode, List.flatten_cons, List.flatten_nil, List.append_nil, List.map_cons, List.map_nil, seen,
          m9, m10, m11, hst, Int.cast_ofNat]
      · exfalso
        rw [n3 hz] at hlast
        rw [hl] at hlast
        simp only [Core.isLast, Bool.or_false] at hlast
        split at hlast
        · cases hlast
        · rename_i H hHe
          have := hH H hHe
          have hle : H ≤ s1.episodeSteps + 1 := by simpa using hlast.symm
          omega
    · intro hl
      rw [m6] at hl
      rw [hl] at m7 m10
      simp only [Bool.false_eq_true, if_false] at m7
      have hz : toGoal g (g.step x a).1 ≠ 0 := by
        intro hz
        rw [n2 hz] at hlast
        rw [hl] at hlast
        simp [Core.isLast] at hlast
      refine ⟨by omega, _, m3, m1, ⟨n1, fun h => hz (apart_eq_zero.mpr h)⟩, m4, by omega, ?_⟩
      rw [m8, List.map_append, k7, m7, m5, List.append_assoc, List.replicate_succ']
      simp only [List.map_cons, List.map_nil, seen, m9, m10, m11, n3 hz, Int.cast_zero]

end Evaluate

/-- C140. Evaluation of an agent whose values single out shortest paths, with a policy that always takes a greedy action:
`evaluate(n_episodes=M)` returns exactly `M` episodes, each of them a shortest path from the start to the goal, and leaves the
table as it is. -/
theorem C140_evaluate (g : Grid) (hg : Proper g) (r : Rest E) (γ : ℝ) (rate : E → ℕ → Fin 4 → E × ℝ)
    (hdraw : ∀ e Q x, Greedy Q x (r.draw e Q x).2) (H : ℕ) (hH : r.horizon = some H) (hD : toGoal g g.reset ≤ H)
    (M : ℕ) (prev : Core.St ((ℕ × E) × Table ℕ (Fin 4)) ℕ (Fin 4) ℝ Unit Unit) (hQ : Shortest g prev.world.2) :
    ∃ s, (∀ fuel, M * H ≤ fuel → Core.evaluate (gridCore g r γ rate) fuel prev none none (some M) = some (.ok s)) ∧
      s.world.2 = prev.world.2 ∧
      s.rows.map (fun t => (t.reward, t.absorbing, t.last)) = (List.replicate M (shortestEpisode g)).flatten := by
  have hlive : Live g g.reset := (grid_simulates hg (⟨none, fun _ _ _ => ((), 0), fun e _ _ => e, []⟩ : Rest Unit)
    (fun e _ _ => (e, 0))).reset (0, ()) |>.2
  obtain ⟨s, hs, -⟩ := Core.C04_evaluate_episodes (gridCore g r γ rate) prev M H hH ((toGoal_pos hlive).trans hD)
  refine ⟨s, hs, ?_⟩
  have h := hs (M * H) (Nat.le_refl _)
  unfold Core.evaluate at h
  split at h
  · cases h
  · rename_i c hc
    obtain ⟨hr, hm⟩ := Core.loop_reach Core.Reach.start h
    have hcfg : c.fitMode = .never ∧ c.initialStates = none ∧ c.budget = .episodes M := by
      unfold Core.evaluateCfg at hc
      simp only [Core.initializeRun] at hc
      split at hc
      · cases hc
      · simp only [Except.ok.injEq] at hc
        subst hc
        exact ⟨rfl, rfl, rfl⟩
    obtain ⟨i1, i2, i3, i4⟩ := evaluate_reach_grid hg hQ hdraw (fun H' h' => by rw [hH] at h'; cases h'; exact hD) hcfg.1
      hcfg.2.1 hcfg.2.2 rfl hr
    rw [hcfg.2.2] at hm
    have hM : s.totalEpisodes = M := by
      simp only [Core.moveRequired, decide_eq_false_iff_not] at hm
      omega
    refine ⟨i1, ?_⟩
    rcases Bool.eq_false_or_eq_true s.last with hl | hl
    · have := i3 hl
      rw [hM] at this
      exact this
    · have := (i4 hl).1
      omega

/-- Bellman's equation has one solution in the live states, which are finitely many. -/
theorem optimal_unique {g : Grid} (hg : Proper g) {γ : ℝ} (hγ0 : 0 ≤ γ) (hγ1 : γ < 1) {Q Q' : Table ℕ (Fin 4)}
    (h : OptimalOn (Live g) (gridMDP g) γ Q) (h' : OptimalOn (Live g) (gridMDP g) γ Q') : ∀ s, Live g s → ∀ a, Q s a = Q' s a := by
  obtain ⟨V, hV⟩ := h
  obtain ⟨V', hV'⟩ := h'
  have hbound : ∃ B, 0 ≤ B ∧ CloseOn (Live g) B Q Q' := by
    refine ⟨∑ s ∈ Finset.range (g.height * g.width), ∑ a, |Q s a - Q' s a|,
      Finset.sum_nonneg (fun _ _ => Finset.sum_nonneg (fun _ _ => abs_nonneg _)), fun s hs a => ?_⟩
    have h1 : |Q s a - Q' s a| ≤ ∑ a, |Q s a - Q' s a| :=
      Finset.single_le_sum (f := fun a => |Q s a - Q' s a|) (fun _ _ => abs_nonneg _) (Finset.mem_univ a)
    have h2 : ∑ a, |Q s a - Q' s a| ≤ ∑ s ∈ Finset.range (g.height * g.width), ∑ a, |Q s a - Q' s a| :=
      Finset.single_le_sum (f := fun s => ∑ a, |Q s a - Q' s a|) (fun _ _ => Finset.sum_nonneg (fun _ _ => abs_nonneg _))
        (Finset.mem_range.mpr hs.1)
    exact h1.trans h2
  obtain ⟨B, hB0, hB⟩ := hbound
  have hall : ∀ n : ℕ, CloseOn (Live g) (γ ^ n * B) Q Q' := by
    intro n
    induction n with
    | zero => simpa using hB
    | succ n ih =>
      intro s hs a
      rw [(hV s hs).2 a, (hV' s hs).2 a]
      rcases Bool.eq_false_or_eq_true ((gridMDP g).absorbing s a) with hm | hm
      · rw [hm]
        simp only [if_true, sub_self, abs_zero]
        exact mul_nonneg (pow_nonneg hγ0 _) hB0
      · have hl := grid_stays hg s a hs hm
        have := isMax_close (ih _ hl) (hV _ hl).1 (hV' _ hl).1
        rw [hm]
        simp only [Bool.false_eq_true, if_false]
        rw [show ∀ r x y : ℝ, r + γ * x - (r + γ * y) = γ * (x - y) by intros; ring, abs_mul, abs_of_nonneg hγ0, pow_succ]
        have := mul_le_mul_of_nonneg_left this hγ0
        linarith
  intro s hs a
  by_contra hne
  have hpos : 0 < |Q s a - Q' s a| := abs_pos.mpr (sub_ne_zero.mpr hne)
  have hB1 : 0 < B := lt_of_lt_of_le hpos (hB s hs a)
  obtain ⟨n, hn⟩ := exists_pow_lt_of_lt_one (div_pos hpos hB1) hγ1
  have := hall n s hs a
  rw [lt_div_iff₀ hB1] at hn
  linarith

/-- C140. The discounted return of each of these episodes is the optimal value of the start, which is `10 γ^(D - 1)` where `D`
is the distance of the start from the goal. -/
theorem C140_return (g : Grid) (hg : Proper g) (γ : ℝ) (hγ0 : 0 ≤ γ) (hγ1 : γ ≤ 1) :
    ((shortestEpisode g).mapIdx (fun i t => γ ^ i * t.1)).sum = 10 * γ ^ (toGoal g g.reset - 1) ∧
    ∀ Q, OptimalOn (Live g) (gridMDP g) γ Q → γ < 1 → IsMax (Q g.reset) (10 * γ ^ (toGoal g g.reset - 1)) := by
  have key : ∀ (n : ℕ) (k : ℕ), ((List.replicate n ((0 : ℝ), false, false) ++ [(10, true, true)]).mapIdx
      (fun (i : ℕ) (t : ℝ × Bool × Bool) => γ ^ (i + k) * t.1)).sum = 10 * γ ^ (n + k) := by
    intro n
    induction n with
    | zero => intro k; simp [mul_comm]
    | succ n ih =>
      intro k
      rw [List.replicate_succ, List.cons_append, List.mapIdx_cons, List.sum_cons]
      have := ih (k + 1)
      simp only [mul_zero, zero_add]
      rw [show (fun (i : ℕ) (t : ℝ × Bool × Bool) => γ ^ (i + 1 + k) * t.1) = fun i t => γ ^ (i + (k + 1)) * t.1 from by
        funext i t; rw [show i + 1 + k = i + (k + 1) by omega]]
      rw [this, show n + (k + 1) = n + 1 + k by omega]
  have := key (toGoal g g.reset - 1) 0
  refine ⟨by simpa [shortestEpisode] using this, fun Q hQ hlt => ?_⟩
  have hlive : Live g g.reset := (grid_simulates hg (⟨none, fun _ _ _ => ((), 0), fun e _ _ => e, []⟩ : Rest Unit)
    (fun e _ _ => (e, 0))).reset (0, ()) |>.2
  have heq := optimal_unique hg hγ0 hlt hQ (C140_grid_optimal g hg γ hγ0 hγ1)
  have e : Q g.reset = shortestReturn g γ g.reset := funext (heq _ hlive)
  rw [e]
  obtain ⟨V, hV⟩ := C140_grid_optimal g hg γ hγ0 hγ1
  constructor
  · intro a
    have := (step_apart hg hlive a).1
    exact mul_le_mul_of_nonneg_left (pow_le_pow_of_le_one hγ0 hγ1 (by omega)) (by norm_num)
  · obtain ⟨a, ha⟩ := exists_closer hg hlive
    exact ⟨a, by simp only [shortestReturn]; rw [← ha, Nat.add_sub_cancel]⟩

/-! ### A run -/

/-- A square of four cells; the start and the goal are opposite corners. -/
def demoGrid : Grid := ⟨2, 2, (0, 0), (1, 1)⟩

/-- A policy that repeats a list of actions, which takes it through all the cells in two episodes. -/
def demoRest : Rest ℕ :=
  { horizon := some 100
    draw := fun e _ _ => (e + 1, ([0, 2, 3, 0, 3, 2, 3, 1, 1, 1, 2, 0, 1, 3] : List (Fin 4)).getD (e % 14) 0)
    callbackStep := fun e _ _ => e
    callbacksFit := [] }

def demoCore : Core.Sys ((ℕ × ℕ) × Table ℕ (Fin 4)) ℕ (Fin 4) ℝ Unit Unit := gridCore demoGrid demoRest (1 / 2) (fun e _ _ => (e, 1))

def demoBegin : Core.St ((ℕ × ℕ) × Table ℕ (Fin 4)) ℕ (Fin 4) ℝ Unit Unit :=
  { world := ((0, 0), fun _ _ => 0), state := none, policyState := none, theta := none, episodeSteps := 0, nextAction := none,
    totalEpisodes := 0, totalSteps := 0, currentEpisodes := 0, currentSteps := 0, last := true, rows := [], thetas := [],
    trace := [] }

/-- The run after 98 steps. -/
def demoEnd : Core.St ((ℕ × ℕ) × Table ℕ (Fin 4)) ℕ (Fin 4) ℝ Unit Unit :=
  match Core.learn demoCore 98 demoBegin (some 98) none (some 1) none with
  | some (.ok s) => s
  | _ => demoBegin

theorem chunks {α : Type} (n : ℕ) (l : List α) (K : ℕ) :
    l = ((List.range K).map (fun i => (l.drop (n * i)).take n)).flatten ++ l.drop (n * K) := by
  induction K with
  | zero => simp
  | succ K ih =>
    rw [List.range_succ, List.map_append, List.flatten_append, List.append_assoc]
    simp only [List.map_cons, List.map_nil, List.flatten_cons, List.flatten_nil, List.append_nil]
    rw [Nat.mul_succ, ← List.drop_drop, List.take_append_drop]
    exact ih

/-- Whether the call returned. -/
def returned {α : Type} : Option (Except Core.Err α) → Bool
  | some (.ok _) => true
  | _ => false

theorem demo_returns : Core.learn demoCore 98 demoBegin (some 98) none (some 1) none = some (.ok demoEnd) := by
  have h : returned (Core.learn demoCore 98 demoBegin (some 98) none (some 1) none) = true := by decide +kernel
  unfold demoEnd
  revert h
  rcases Core.learn demoCore 98 demoBegin (some 98) none (some 1) none with _ | ⟨e | s⟩
  · intro h; cases h
  · intro h; cases h
  · intro _; rfl

/-- The run meets the hypotheses of `C140_grid_bound`. -/
theorem demo_covers : Proper demoGrid ∧ (1 / 2 + (1 - 1) * (1 - 1 / 2 : ℝ)) ^ 7 * 10 < 5 * (1 / 2) ^ (2 + 2) * (1 - 1 / 2) ∧
    Core.learn demoCore 98 demoBegin (some 98) none (some 1) none = some (.ok demoEnd) ∧
    Covers (Live demoGrid) 1 7 (Core.steps demoEnd.trace) := by
  refine ⟨by unfold Proper Grid.accepted; decide, by norm_num, demo_returns, ?_⟩
  refine ⟨(List.range 7).map (fun i => ((Core.steps demoEnd.trace).drop (14 * i)).take 14),
    (Core.steps demoEnd.trace).drop (14 * 7), by simp, chunks 14 _ 7, ?_⟩
  · intro p hp s hs a
    have hs4 : s < 4 := hs.1
    have hs3 : s ≠ 3 := fun h => hs.2 (by subst h; rfl)
    have key : ∀ i < 7, ∀ s < 3, ∀ a : Fin 4,
        1 ≤ (((Core.steps demoEnd.trace).drop (14 * i)).take 14).countP (fun t => decide (Visits s a t)) := by decide +kernel
    obtain ⟨i, hi, rfl⟩ := List.mem_map.mp hp
    exact key i (List.mem_range.mp hi) s (by omega) a

/-- A policy that takes greedy actions. -/
def demoGreedy : Rest ℕ :=
  { demoRest with draw := fun e Q x => (e, Classical.choose (Finite.exists_max (Q x))) }

/-- The agent of the demo is evaluated after it has learned. -/
example : Shortest demoGrid demoEnd.world.2 ∧ (∀ e Q x, Greedy Q x (demoGreedy.draw e Q x).2) ∧
    toGoal demoGrid demoGrid.reset = 2 ∧ 2 ≤ 100 := by
  refine ⟨?_, fun e Q x b => Classical.choose_spec (Finite.exists_max (Q x)) b, by decide, by decide⟩
  exact C140_grid_bound demoGrid demo_covers.1 (1 / 2) 1 (by norm_num) (by norm_num) (by norm_num) le_rfl 7 demo_covers.2.1
    demoRest _ (fun _ _ _ => ⟨le_rfl, le_rfl⟩) 98 _ _ demoBegin demoEnd demo_covers.2.2.1
    (fun _ _ => ⟨le_rfl, by show (0 : ℝ) ≤ 10; norm_num⟩) demo_covers.2.2.2

end

end Verif.System
