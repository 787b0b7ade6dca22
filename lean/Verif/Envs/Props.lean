/-
C65: environment dynamics respect their declared bounds. C87: the gate of ShipSteering.
-/
import Verif.Envs.Spec
import Verif.Utils.Props

namespace Verif.Envs

noncomputable section

open Real Verif.Utils

theorem bound_mem {x lo hi : ℝ} (h : lo ≤ hi) : lo ≤ bound x lo hi ∧ bound x lo hi ≤ hi :=
  ⟨le_max_left _ _, max_le h (min_le_right _ _)⟩

theorem bound_id {x lo hi : ℝ} (h1 : lo ≤ x) (h2 : x ≤ hi) : bound x lo hi = x := by
  rw [bound, min_eq_left h2, max_eq_right h1]

/-- An invariant of every step holds in every visited state. -/
theorem visited_inv {S I : Type} {next : S → I → S} {P : S → Prop} (h : ∀ s i, P s → P (next s i)) :
    ∀ (is : List I) (s : S), P s → ∀ t ∈ visited next s is, P t := by
  intro is
  induction is with
  | nil => intro s _ t ht; simp [visited] at ht
  | cons i is ih =>
      intro s hs t ht
      rw [visited, List.mem_cons] at ht
      rcases ht with rfl | ht
      · exact h s i hs
      · exact ih _ (h s i hs) t ht

/-! ### PuddleWorld -/

/-- One step of PuddleWorld: actions outside -5..4 raise; otherwise the next state is in the unit square whatever the noise
and the present state; the episode ends exactly when the 1-norm distance from the goal is below the threshold, and then the
reward is `reward_goal`; otherwise, without reward noise, the reward is at most -1 if the puddles have positive width. -/
theorem C65_puddle (w : Puddle) (s : ℝ × ℝ) (idx : ℤ) (noise : ℝ × ℝ) (z : ℝ) :
    (w.step s idx noise z = none ↔ idx < -5 ∨ 4 < idx) ∧
    ∀ s' r a, w.step s idx noise z = some (s', r, a) →
      UnitSquare s' ∧ (a = true ↔ |s'.1 - w.goal.1| + |s'.2 - w.goal.2| < w.threshold) ∧
      (a = true → r = w.rewardGoal) ∧
      (a = false → (∀ p ∈ w.puddles, 0 < p.2.1 ∧ 0 < p.2.2) → r - z * w.noiseReward ≤ -1) := by
  have hpick : w.pick idx = none ↔ idx < -5 ∨ 4 < idx := by
    unfold Puddle.pick
    split
    · simp; omega
    · split <;> simp <;> omega
  have hrew : ∀ (s : ℝ × ℝ), (∀ p ∈ w.puddles, 0 < p.2.1 ∧ 0 < p.2.2) → w.reward s ≤ -1 := by
    intro s hp
    have hpdf : ∀ x loc scale, 0 < scale → 0 ≤ pdf x loc scale := by
      intro x loc scale h
      unfold pdf
      positivity
    have key : ∀ (ps : List ((ℝ × ℝ) × (ℝ × ℝ))) (r : ℝ), (∀ p ∈ ps, 0 < p.2.1 ∧ 0 < p.2.2) →
        ps.foldl (fun r p => r - 2 * pdf s.1 p.1.1 p.2.1 * pdf s.2 p.1.2 p.2.2) r ≤ r := by
      intro ps
      induction ps with
      | nil => intro r _; simp
      | cons p ps ih =>
          intro r h
          rw [List.foldl_cons]
          refine (ih _ (fun q hq => h q (by simp [hq]))).trans ?_
          obtain ⟨h1, h2⟩ := h p (by simp)
          have := mul_nonneg (mul_nonneg (by norm_num : (0 : ℝ) ≤ 2) (hpdf s.1 p.1.1 p.2.1 h1)) (hpdf s.2 p.1.2 p.2.2 h2)
          linarith
    exact key _ _ hp
  constructor
  · rw [← hpick]
    unfold Puddle.step
    cases w.pick idx <;> simp
  · intro s' r a h
    unfold Puddle.step at h
    cases hp : w.pick idx with
    | none => rw [hp] at h; simp at h
    | some v =>
        rw [hp] at h
        dsimp only at h
        cases h
        refine ⟨?_, ?_, ?_, ?_⟩
        · exact ⟨le_max_left _ _, max_le (by norm_num) (min_le_right _ _), le_max_left _ _, max_le (by norm_num) (min_le_right _ _)⟩
        · rw [decide_eq_true_iff]
        · intro ha
          rw [if_pos ha]
        · intro ha hpos
          rw [if_neg (by rw [ha]; decide)]
          have := hrew (max 0 (min (s.1 + v.1 + noise.1) 1), max 0 (min (s.2 + v.2 + noise.2) 1)) hpos
          linarith

/-- How far one step can move: the commanded displacement plus the noise, in each coordinate; and an undisturbed step that
stays inside the square is exactly the displacement of its action (left, right, down, up, stay). -/
theorem C65_puddle_motion (w : Puddle) (s : ℝ × ℝ) (hs : UnitSquare s) (idx : ℤ) (h0 : 0 ≤ idx) (h5 : idx < 5) (noise : ℝ × ℝ)
    (z : ℝ) (c : ℝ) (hc1 : |noise.1| ≤ c) (hc2 : |noise.2| ≤ c) :
    ∃ d s' r a, w.step s idx noise z = some (s', r, a) ∧
      (idx = 0 → d = (-w.thrust, 0)) ∧ (idx = 1 → d = (w.thrust, 0)) ∧ (idx = 2 → d = (0, -w.thrust)) ∧
      (idx = 3 → d = (0, w.thrust)) ∧ (idx = 4 → d = (0, 0)) ∧
      |s'.1 - s.1| ≤ |d.1| + c ∧ |s'.2 - s.2| ≤ |d.2| + c ∧
      (noise = (0, 0) → UnitSquare (s + d) → s' = s + d) := by
  have hclip : ∀ x d e : ℝ, 0 ≤ x → x ≤ 1 → |e| ≤ c → |max 0 (min (x + d + e) 1) - x| ≤ |d| + c := by
    intro x d e hx0 hx1 he
    have h1 : |d + e| ≤ |d| + c := (abs_add_le d e).trans (by linarith)
    refine le_trans ?_ h1
    rw [abs_le, ] 
    rcases le_total (x + d + e) 1 with h | h
    · rw [min_eq_left h]
      rcases le_total 0 (x + d + e) with h' | h'
      · rw [max_eq_right h']
        constructor
        · linarith [neg_abs_le (d + e)]
        · linarith [le_abs_self (d + e)]
      · rw [max_eq_left h']
        constructor
        · linarith [neg_abs_le (d + e)]
        · linarith [abs_nonneg (d + e)]
    · rw [min_eq_right h, max_eq_right (by norm_num)]
      constructor
      · linarith [abs_nonneg (d + e)]
      · linarith [le_abs_self (d + e)]
  have hpick : w.pick idx = some (w.action idx.toNat) := by unfold Puddle.pick; rw [if_pos ⟨h0, h5⟩]
  refine ⟨w.action idx.toNat, _, _, _, by unfold Puddle.step; rw [hpick], ?_, ?_, ?_, ?_, ?_, ?_, ?_, ?_⟩
  · rintro rfl; simp [Puddle.action]
  · rintro rfl; simp [Puddle.action]; norm_num
  · rintro rfl; simp [Puddle.action]
  · rintro rfl; simp [Puddle.action]; norm_num
  · rintro rfl; simp [Puddle.action]
  · exact hclip _ _ _ hs.1 hs.2.1 hc1
  · exact hclip _ _ _ hs.2.2.1 hs.2.2.2 hc2
  · intro hn hsq
    obtain ⟨q1, q2, q3, q4⟩ := hsq
    rw [hn]
    apply Prod.ext
    · simp only [add_zero]
      change max 0 (min (s + w.action idx.toNat).1 1) = _
      rw [min_eq_left q2, max_eq_right q1]
    · simp only [add_zero]
      change max 0 (min (s + w.action idx.toNat).2 1) = _
      rw [min_eq_left q4, max_eq_right q3]

example : UnitSquare (0.2, 0.4) ∧ UnitSquare ((0.2, 0.4) + (0.05, 0)) := by
  refine ⟨⟨?_, ?_, ?_, ?_⟩, ⟨?_, ?_, ?_, ?_⟩⟩ <;> norm_num

/-! ### ShipSteering -/

theorem shipAdvance_sails (r : ℝ) (s : Ship) : Sails r s (shipAdvance r s) := by
  obtain ⟨⟨k, hk⟩, h1, h2⟩ := C38_normalize (s.heading + s.rate * 0.2)
  refine ⟨?_, ?_, ?_, h1, h2, ?_⟩
  · simp only [shipAdvance]; ring
  · simp only [shipAdvance]; ring
  · refine ⟨k, ?_⟩
    simp only [shipAdvance]
    rw [hk]; ring
  · simp only [shipAdvance]; ring

theorem sails_unique {r : ℝ} {s a b : Ship} (ha : Sails r s a) (hb : Sails r s b) : a = b := by
  obtain ⟨a1, a2, ⟨k, a3⟩, a4, a5, a6⟩ := ha
  obtain ⟨b1, b2, ⟨l, b3⟩, b4, b5, b6⟩ := hb
  have e1 := C38_unique (s.heading + 0.2 * s.rate) a.heading ⟨k, a3⟩ a4 a5
  have e2 := C38_unique (s.heading + 0.2 * s.rate) b.heading ⟨l, b3⟩ b4 b5
  cases a; cases b
  simp only [Ship.mk.injEq]
  dsimp only at a1 a2 a6 b1 b2 b6 e1 e2
  exact ⟨a1.trans b1.symm, a2.trans b2.symm, e1.symm.trans e2, a6.trans b6.symm⟩

theorem rate_within {r : ℝ} {s s' : Ship} (h : Sails r s s') (hr : -(π / 12) ≤ r ∧ r ≤ π / 12)
    (hs : -(π / 12) ≤ s.rate ∧ s.rate ≤ π / 12) : -(π / 12) ≤ s'.rate ∧ s'.rate ≤ π / 12 := by
  obtain ⟨_, _, _, _, _, h6⟩ := h
  rw [h6]
  constructor <;> linarith [hr.1, hr.2, hs.1, hs.2]

theorem shipLoop_space (f : Field) (hf : 0 ≤ f.size) (r : ℝ) (hr : -(π / 12) ≤ r ∧ r ≤ π / 12) :
    ∀ (k : ℕ) (s : Ship), -(π / 12) ≤ s.rate ∧ s.rate ≤ π / 12 → ShipSpace f.size (shipLoop f r k s).1 := by
  intro k
  induction k with
  | zero =>
      intro s hs
      have hsail := shipAdvance_sails r s
      obtain ⟨r1, r2⟩ := rate_within hsail hr hs
      obtain ⟨_, _, _, q1, q2, _⟩ := hsail
      rw [shipLoop]
      split
      · exact ⟨(bound_mem hf).1, (bound_mem hf).2, (bound_mem hf).1, (bound_mem hf).2, q1.le, q2, r1, r2⟩
      · rename_i hin
        simp only [not_or, not_lt] at hin
        split <;> exact ⟨hin.2.2.1, hin.1, hin.2.2.2, hin.2.1, q1.le, q2, r1, r2⟩
  | succ k ih =>
      intro s hs
      have hsail := shipAdvance_sails r s
      obtain ⟨r1, r2⟩ := rate_within hsail hr hs
      obtain ⟨_, _, _, q1, q2, _⟩ := hsail
      rw [shipLoop]
      split
      · exact ⟨(bound_mem hf).1, (bound_mem hf).2, (bound_mem hf).1, (bound_mem hf).2, q1.le, q2, r1, r2⟩
      · rename_i hin
        simp only [not_or, not_lt] at hin
        split
        · exact ⟨hin.2.2.1, hin.1, hin.2.2.2, hin.2.1, q1.le, q2, r1, r2⟩
        · exact ih _ ⟨r1, r2⟩

/-- Every state visited by ShipSteering, for every number of integration intervals and every sequence of actions (also out of
range), lies in the declared observation space, if the first state does. -/
theorem C65_ship (f : Field) (hf : 0 ≤ f.size) (k : ℕ) (s : Ship) (hs : ShipSpace f.size s) (actions : List ℝ) :
    ∀ t ∈ visited (fun s a => (shipStep f k s a).1) s actions, ShipSpace f.size t := by
  apply visited_inv (P := ShipSpace f.size) _ actions s hs
  intro s a hs
  have hpi : -(π / 12) ≤ π / 12 := by have := pi_pos; linarith
  exact shipLoop_space f hf _ (bound_mem hpi) k s ⟨hs.2.2.2.2.2.2.1, hs.2.2.2.2.2.2.2⟩

theorem C65_ship_reset : ShipSpace smallField.size shipReset := by
  have := pi_pos
  refine ⟨?_, ?_, ?_, ?_, ?_, ?_, ?_, ?_⟩ <;> simp only [shipReset, smallField] <;> linarith

/-- What one step returns. `path` is the free motion under the bounded action. If nothing happens during the `k + 1` intervals
the reward is -1. The first interval in which the ship leaves the field ends the episode with reward -100 and the ship is put
on the border; the first one in which it passes the gate inside the field ends it with reward 0. -/
theorem C65_ship_outcome (f : Field) (k : ℕ) (a : ℝ) (path : ℕ → Ship)
    (hpath : ∀ i, Sails (max (-(π / 12)) (min a (π / 12))) (path i) (path (i + 1))) :
    ((∀ i ≤ k, ¬ Outside f (path (i + 1)) ∧ throughGate f ((path i).x, (path i).y) ((path (i + 1)).x, (path (i + 1)).y) = false) →
      shipStep f k (path 0) a = (path (k + 1), -1, false)) ∧
    (∀ i ≤ k, (∀ j < i, ¬ Outside f (path (j + 1)) ∧
        throughGate f ((path j).x, (path j).y) ((path (j + 1)).x, (path (j + 1)).y) = false) →
      (Outside f (path (i + 1)) → shipStep f k (path 0) a = ({ path (i + 1) with
          x := max 0 (min (path (i + 1)).x f.size), y := max 0 (min (path (i + 1)).y f.size) }, -100, true)) ∧
      (¬ Outside f (path (i + 1)) → throughGate f ((path i).x, (path i).y) ((path (i + 1)).x, (path (i + 1)).y) = true →
        shipStep f k (path 0) a = (path (i + 1), 0, true))) := by
  have hadv : ∀ i, shipAdvance (bound a (-(π / 12)) (π / 12)) (path i) = path (i + 1) :=
    fun i => sails_unique (shipAdvance_sails _ _) (hpath i)
  have hskip : ∀ (k i : ℕ), ¬ Outside f (path (i + 1)) →
      throughGate f ((path i).x, (path i).y) ((path (i + 1)).x, (path (i + 1)).y) = false →
      shipLoop f (bound a (-(π / 12)) (π / 12)) (k + 1) (path i) = shipLoop f (bound a (-(π / 12)) (π / 12)) k (path (i + 1)) := by
    intro k i h1 h2
    conv_lhs => rw [shipLoop]
    rw [hadv, if_neg (show ¬ (_ ∨ _ ∨ _ ∨ _) from h1), if_neg (by simp [h2])]
  have hskips : ∀ (n k i : ℕ), (∀ j < n, ¬ Outside f (path (i + j + 1)) ∧
      throughGate f ((path (i + j)).x, (path (i + j)).y) ((path (i + j + 1)).x, (path (i + j + 1)).y) = false) →
      shipLoop f (bound a (-(π / 12)) (π / 12)) (k + n) (path i) = shipLoop f (bound a (-(π / 12)) (π / 12)) k (path (i + n)) := by
    intro n
    induction n with
    | zero => intro k i _; rfl
    | succ n ih =>
        intro k i h
        have h0 := h 0 (by omega)
        rw [show k + (n + 1) = (k + n) + 1 from by omega, hskip _ _ h0.1 h0.2, ih k (i + 1)]
        · rw [show i + 1 + n = i + (n + 1) from by omega]
        · intro j hj
          have := h (j + 1) (by omega)
          rw [show i + 1 + j = i + (j + 1) from by omega]
          exact this
  constructor
  · intro h
    unfold shipStep
    have := hskips k 0 0 (fun j hj => by have := h j (by omega); simpa using this)
    simp only [Nat.zero_add] at this
    rw [this, shipLoop]
    obtain ⟨h1, h2⟩ := h k le_rfl
    rw [hadv, if_neg (show ¬ (_ ∨ _ ∨ _ ∨ _) from h1), if_neg (by simp [h2])]
  · intro i hi h
    have := hskips i (k - i) 0 (fun j hj => by have := h j (by omega); simpa using this)
    rw [Nat.zero_add, Nat.sub_add_cancel hi] at this
    constructor
    · intro hout
      unfold shipStep
      rw [this, shipLoop.eq_def]
      dsimp only
      rw [hadv, if_pos (show (_ ∨ _ ∨ _ ∨ _) from hout)]
      rfl
    · intro hin hg
      unfold shipStep
      rw [this, shipLoop.eq_def]
      dsimp only
      rw [hadv, if_neg (show ¬ (_ ∨ _ ∨ _ ∨ _) from hin), if_pos hg]

example : ∃ path : ℕ → Ship, path 0 = shipReset ∧ ∀ i, Sails (max (-(π / 12)) (min 1 (π / 12))) (path i) (path (i + 1)) :=
  ⟨fun i => (shipAdvance (max (-(π / 12)) (min 1 (π / 12))))^[i] shipReset, rfl, fun i => by
    beta_reduce; rw [Function.iterate_succ_apply']; exact shipAdvance_sails _ _⟩

/-- The gate is detected exactly when the segment travelled meets the gate, unless they are parallel. -/
theorem C87_gate_partial (f : Field) (start stop : ℝ × ℝ) (hp : ¬ Parallel f.gateS f.gateE start stop) :
    throughGate f start stop = true ↔ Meet f.gateS f.gateE start stop := by
  have hden : cross (f.gateE - f.gateS) (stop - start) ≠ 0 := by
    intro h
    apply hp
    simp only [cross, Prod.fst_sub, Prod.snd_sub] at h
    unfold Parallel
    linarith
  unfold throughGate
  dsimp only
  rw [if_neg hden, decide_eq_true_iff]
  have hd : (f.gateE.1 - f.gateS.1) * (stop.2 - start.2) - (f.gateE.2 - f.gateS.2) * (stop.1 - start.1) ≠ 0 := by
    simpa [cross] using hden
  simp only [cross, Prod.fst_sub, Prod.snd_sub]
  constructor
  · rintro ⟨h1, h2, h3, h4⟩
    refine ⟨_, _, h4, h3, h2, h1, ?_, ?_⟩
    · have ht := div_mul_cancel₀ ((start.1 - f.gateS.1) * (stop.2 - start.2) - (start.2 - f.gateS.2) * (stop.1 - start.1)) hd
      have hu := div_mul_cancel₀ ((start.1 - f.gateS.1) * (f.gateE.2 - f.gateS.2) - (start.2 - f.gateS.2) * (f.gateE.1 - f.gateS.1)) hd
      apply mul_right_cancel₀ hd
      linear_combination (f.gateE.1 - f.gateS.1) * ht - (stop.1 - start.1) * hu
    · have ht := div_mul_cancel₀ ((start.1 - f.gateS.1) * (stop.2 - start.2) - (start.2 - f.gateS.2) * (stop.1 - start.1)) hd
      have hu := div_mul_cancel₀ ((start.1 - f.gateS.1) * (f.gateE.2 - f.gateS.2) - (start.2 - f.gateS.2) * (f.gateE.1 - f.gateS.1)) hd
      apply mul_right_cancel₀ hd
      linear_combination (f.gateE.2 - f.gateS.2) * ht - (stop.2 - start.2) * hu
  · rintro ⟨t, u, t0, t1, u0, u1, e1, e2⟩
    have ht : ((start.1 - f.gateS.1) * (stop.2 - start.2) - (start.2 - f.gateS.2) * (stop.1 - start.1)) /
        ((f.gateE.1 - f.gateS.1) * (stop.2 - start.2) - (f.gateE.2 - f.gateS.2) * (stop.1 - start.1)) = t := by
      rw [div_eq_iff hd]
      linear_combination (-(stop.2 - start.2)) * e1 + (stop.1 - start.1) * e2
    have hu : ((start.1 - f.gateS.1) * (f.gateE.2 - f.gateS.2) - (start.2 - f.gateS.2) * (f.gateE.1 - f.gateS.1)) /
        ((f.gateE.1 - f.gateS.1) * (stop.2 - start.2) - (f.gateE.2 - f.gateS.2) * (stop.1 - start.1)) = u := by
      rw [div_eq_iff hd]
      linear_combination (-(f.gateE.2 - f.gateS.2)) * e1 + (f.gateE.1 - f.gateS.1) * e2
    rw [ht, hu]
    exact ⟨u1, u0, t1, t0⟩

example : ¬ Parallel smallField.gateS smallField.gateE (105, 105) (112, 112) := by
  unfold Parallel smallField; norm_num

/-- A ship that travels along the gate is on the gate but is not detected. -/
theorem C87_parallel_refuted :
    Meet smallField.gateS smallField.gateE (105, 115) (106, 114) ∧ throughGate smallField (105, 115) (106, 114) = false := by
  constructor
  · exact ⟨1 / 4, 0, by norm_num, by norm_num, by norm_num, by norm_num, by norm_num [smallField], by norm_num [smallField]⟩
  · unfold throughGate
    dsimp only
    rw [if_pos]
    norm_num [cross, smallField]

/-! ### LQR -/

/-- LQR with bounds: the reward of a step that is not absorbing is the documented one, for the bounded action; a step is
absorbing exactly if the problem is episodic and the free motion leaves the bounds, with reward `-10 max_pos²`; without
`episodic`, or as long as the flag is false, the next state is within the bounds; and it is the free motion if that is. -/
theorem C65_lqr {n m : ℕ} (e : LQR n m) (hpos : ∀ c, e.maxPos = some c → 0 ≤ c) (x : Fin n → ℝ) (action : Fin m → ℝ) :
    let u := boundVec e.maxAction action
    let free := e.A.mulVec x + e.B.mulVec u
    ((e.step x action).2.2 = true ↔ e.episodic = true ∧ ¬ WithinBox e.maxPos free) ∧
    ((e.step x action).2.2 = false → WithinBox e.maxPos (e.step x action).1 ∧
      (e.step x action).2.1 = -(x ⬝ᵥ (e.Q.mulVec x) + u ⬝ᵥ (e.R.mulVec u))) ∧
    (WithinBox e.maxPos free → (e.step x action).1 = free) ∧
    ((e.step x action).2.2 = true → ∀ c, e.maxPos = some c → (e.step x action).2.1 = -10 * c ^ 2) ∧
    (∀ c, e.maxAction = some c → 0 ≤ c → ∀ i, |u i| ≤ c ∧ (|action i| ≤ c → u i = action i)) := by
  intro u free
  have hex : exceeds e.maxPos free ↔ ¬ WithinBox e.maxPos free := by
    unfold exceeds WithinBox
    cases hm : e.maxPos with
    | none => simp
    | some c =>
        simp only [Option.some.injEq, forall_eq', not_forall]
        constructor
        · rintro ⟨i, hi⟩
          refine ⟨i, fun h => ?_⟩
          exact absurd (abs_le.mpr h) (not_le.mpr hi)
        · rintro ⟨i, hi⟩
          refine ⟨i, ?_⟩
          rw [gt_iff_lt, ← not_le]
          exact fun h => hi (abs_le.mp h)
  have hbv : WithinBox e.maxPos (boundVec e.maxPos free) := by
    intro c hc i
    simp only [boundVec, hc]
    exact bound_mem (by have := hpos c hc; linarith)
  have hrew : -((Matrix.vecMul x e.Q) ⬝ᵥ x + (Matrix.vecMul u e.R) ⬝ᵥ u) = -(x ⬝ᵥ (e.Q.mulVec x) + u ⬝ᵥ (e.R.mulVec u)) := by
    rw [Matrix.dotProduct_mulVec, Matrix.dotProduct_mulVec]
  have hstep : e.step x action = open Classical in
      if exceeds e.maxPos free then
        if e.episodic then (free, -(e.maxPos.getD 0) ^ 2 * 10, true)
        else (boundVec e.maxPos free, -((Matrix.vecMul x e.Q) ⬝ᵥ x + (Matrix.vecMul u e.R) ⬝ᵥ u), false)
      else (free, -((Matrix.vecMul x e.Q) ⬝ᵥ x + (Matrix.vecMul u e.R) ⬝ᵥ u), false) := rfl
  rw [hstep]
  refine ⟨?_, ?_, ?_, ?_, ?_⟩
  · by_cases h1 : exceeds e.maxPos free <;> by_cases h2 : e.episodic = true <;> simp [h1, h2, ← hex]
  · by_cases h1 : exceeds e.maxPos free <;> by_cases h2 : e.episodic = true <;> simp only [h1, h2, if_true, if_false] <;> intro h
    · simp at h
    · exact ⟨hbv, hrew⟩
    · exact ⟨by rw [hex, not_not] at h1; exact h1, hrew⟩
    · exact ⟨by rw [hex, not_not] at h1; exact h1, hrew⟩
  · intro h
    rw [if_neg (by rw [hex]; exact not_not.mpr h)]
  · by_cases h1 : exceeds e.maxPos free <;> by_cases h2 : e.episodic = true <;> simp only [h1, h2, if_true, if_false] <;> intro h c hc
    · rw [hc]; simp; ring
    · simp at h
    · simp at h
    · simp at h
  · intro c hc h0 i
    have hu : u i = bound (action i) (-c) c := by simp only [u, boundVec, hc]
    rw [hu]
    refine ⟨abs_le.mpr (bound_mem (by linarith)), fun h => ?_⟩
    obtain ⟨a, b⟩ := abs_le.mp h
    exact bound_id a b

/-- Without `episodic` all the visited states are within the bounds, for every sequence of actions. -/
theorem C65_lqr_run {n m : ℕ} (e : LQR n m) (hpos : ∀ c, e.maxPos = some c → 0 ≤ c) (hep : e.episodic = false)
    (x : Fin n → ℝ) (actions : List (Fin m → ℝ)) (hx : WithinBox e.maxPos x) :
    ∀ y ∈ visited (fun s a => (e.step s a).1) x actions, WithinBox e.maxPos y := by
  apply visited_inv (P := fun y => WithinBox e.maxPos y) _ actions x hx
  intro s a _
  obtain ⟨h1, h2, _⟩ := C65_lqr e hpos s a
  apply (h2 _).1
  rw [Bool.eq_false_iff]
  intro h
  have := (h1.mp h).1
  rw [hep] at this
  cases this

/-- The initial state is within the bounds, unless the user gave one. -/
theorem C65_lqr_reset {n m : ℕ} (e : LQR n m) (hpos : ∀ c, e.maxPos = some c → 0 ≤ c) (rand : Option (Fin n → ℝ)) :
    WithinBox e.maxPos (e.reset rand none) := by
  intro c hc i
  have h0 := hpos c hc
  unfold LQR.reset
  cases rand with
  | none => rw [hc]; dsimp only; constructor <;> linarith
  | some x => dsimp only; simp only [boundVec, hc]; exact bound_mem (by linarith)

/-- An episodic LQR returns states outside of its observation space. -/
theorem C65_lqr_refuted : ∃ (e : LQR 1 1) (x action : Fin 1 → ℝ), WithinBox e.maxPos x ∧ ¬ WithinBox e.maxPos (e.step x action).1 := by
  refine ⟨⟨1, 1, 1, 1, some 1, none, true⟩, fun _ => 1, fun _ => 1, ?_, ?_⟩
  · intro c hc i
    simp only [Option.some.injEq] at hc
    subst hc
    constructor <;> norm_num
  · have hfree : ((1 : Matrix (Fin 1) (Fin 1) ℝ).mulVec (fun _ => (1 : ℝ)) + (1 : Matrix (Fin 1) (Fin 1) ℝ).mulVec (fun _ => (1 : ℝ))) = fun _ => 2 := by
      ext i
      rw [Matrix.one_mulVec]
      norm_num
    intro h
    have h1 : exceeds (some 1) (fun _ : Fin 1 => (2 : ℝ)) := ⟨0, by norm_num⟩
    have hs : ((⟨1, 1, 1, 1, some 1, none, true⟩ : LQR 1 1).step (fun _ => 1) (fun _ => 1)).1 = fun _ => 2 := by
      unfold LQR.step
      dsimp only [boundVec]
      rw [hfree, if_pos h1]
      simp
    rw [hs] at h
    have := (h 1 rfl 0).2
    norm_num at this

example : ∃ e : LQR 1 1, (∀ c, e.maxPos = some c → 0 ≤ c) ∧ e.episodic = false ∧ WithinBox e.maxPos (fun _ : Fin 1 => 1) :=
  ⟨⟨1, 1, 1, 1, some 2, none, false⟩, by simp, rfl, by intro c hc i; simp at hc; subst hc; constructor <;> norm_num⟩

/-! ### CarOnHill -/

/-- The episode ends exactly when the car leaves the observation space; it is a success exactly if it leaves on the right with
an admissible velocity. -/
theorem C65_car (p v : ℝ) :
    ((carOutcome p v).2 = true ↔ ¬ (|p| ≤ 1 ∧ |v| ≤ 3)) ∧
    ((carOutcome p v).1 = 1 ↔ 1 < p ∧ |v| ≤ 3) ∧
    ((carOutcome p v).1 = -1 ↔ p < -1 ∨ 3 < |v|) ∧
    ((carOutcome p v).2 = false ↔ (carOutcome p v).1 = 0) := by
  unfold carOutcome
  by_cases h1 : p < -1 ∨ |v| > 3
  · rw [if_pos h1]
    refine ⟨?_, ?_, ?_, by norm_num⟩
    · simp only [true_iff, abs_le]
      rintro ⟨⟨a, _⟩, b⟩
      rcases h1 with h | h
      · linarith
      · rw [← abs_le] at b; linarith
    · constructor
      · intro h; norm_num at h
      · rintro ⟨a, b⟩; rcases h1 with h | h <;> linarith
    · exact ⟨fun _ => h1, fun _ => rfl⟩
  · rw [if_neg h1]
    simp only [not_or, not_lt] at h1
    by_cases h2 : p > 1 ∧ |v| ≤ 3
    · rw [if_pos h2]
      refine ⟨?_, ⟨fun _ => h2, fun _ => rfl⟩, ?_, by norm_num⟩
      · simp only [true_iff]
        rintro ⟨a, _⟩
        have := (abs_le.mp a).2
        linarith [h2.1]
      · constructor
        · intro h; norm_num at h
        · rintro (h | h) <;> linarith [h1.1, h1.2]
    · rw [if_neg h2]
      have hp : p ≤ 1 := by by_contra h; exact h2 ⟨not_le.mp h, h1.2⟩
      refine ⟨?_, ?_, ?_, by simp⟩
      · simp only [Bool.false_eq_true, false_iff, not_not]
        exact ⟨abs_le.mpr ⟨h1.1, hp⟩, h1.2⟩
      · constructor
        · intro h; norm_num at h
        · rintro ⟨a, _⟩; linarith
      · constructor
        · intro h; norm_num at h
        · rintro (h | h) <;> linarith [h1.1, h1.2]

/-! ### InvertedPendulum, CartPole and Segway -/

/-- InvertedPendulum: whatever the integrator returns, the state is in the observation space, the reward is the cosine of the
angle and so in [-1, 1], and the episode does not end. -/
theorem C65_pendulum (odeint : ℝ → ℝ × ℝ → ℝ × ℝ) (maxU : ℝ) (s : ℝ × ℝ) (action : ℝ) (hu : 0 ≤ maxU) :
    let out := pendulumStep odeint maxU s action
    |out.1.1| ≤ π ∧ |out.1.2| ≤ 5 / 2 * π ∧ out.2.1 = Real.cos out.1.1 ∧ |out.2.1| ≤ 1 ∧ out.2.2 = false ∧
    ∃ u, |u| ≤ maxU ∧ (|action| ≤ maxU → u = action) ∧ Real.cos out.1.1 = Real.cos (odeint u s).1 := by
  intro out
  have hpi := pi_pos
  obtain ⟨⟨k, hk⟩, h1, h2⟩ := C38_normalize (odeint (bound action (-maxU) maxU) s).1
  refine ⟨abs_le.mpr ⟨h1.le, h2⟩, abs_le.mpr (bound_mem (by linarith)), rfl, Real.abs_cos_le_one _, rfl, bound action (-maxU) maxU,
    abs_le.mpr (bound_mem (by linarith)), fun h => bound_id (abs_le.mp h).1 (abs_le.mp h).2, ?_⟩
  simp only [out, pendulumStep]
  rw [hk, Real.cos_add_int_mul_two_pi]

/-- CartPole: whatever the integrator returns, the episode ends with reward -1 exactly if the angle is beyond the horizontal. -/
theorem C65_cart (odeint : ℝ → ℝ × ℝ → ℝ × ℝ) (maxU : ℝ) (s : ℝ × ℝ) (action : ℤ) (noise : ℝ) :
    let out := cartStep odeint maxU s action noise
    |out.1.1| ≤ π ∧ (out.2.2 = true ↔ π / 2 < |out.1.1|) ∧ (out.2.1 = -1 ↔ out.2.2 = true) ∧ (out.2.1 = 0 ↔ out.2.2 = false) := by
  intro out
  have hout : out = cartStep odeint maxU s action noise := rfl
  unfold cartStep at hout
  dsimp only at hout
  obtain ⟨_, h1, h2⟩ := C38_normalize (odeint ((if action = 0 then -maxU else if action = 1 then 0 else maxU) + noise) s).1
  by_cases h : |normalizeAngle (odeint ((if action = 0 then -maxU else if action = 1 then 0 else maxU) + noise) s).1| > π * 0.5
  · simp only [hout, if_pos h]
    refine ⟨abs_le.mpr ⟨h1.le, h2⟩, ?_, by norm_num, by norm_num⟩
    constructor
    · intro _; linarith
    · intro _; trivial
  · simp only [hout, if_neg h]
    refine ⟨abs_le.mpr ⟨h1.le, h2⟩, ?_, by norm_num, by norm_num⟩
    constructor
    · intro h'; cases h'
    · intro h'; exfalso; apply h; linarith

/-- Segway: the episode ends with reward -10000 exactly if the angle is beyond the horizontal; otherwise the reward is the
negated quadratic cost, which is at most zero. -/
theorem C65_segway (odeint : ℝ → ℝ × ℝ × ℝ → ℝ × ℝ × ℝ) (s : ℝ × ℝ × ℝ) (action : ℝ) :
    let out := segStep odeint s action
    |out.1.1| ≤ π ∧ (out.2.2 = true ↔ π / 2 < |out.1.1|) ∧ (out.2.2 = true → out.2.1 = -10000) ∧
    (out.2.2 = false → out.2.1 = -(3 * out.1.1 ^ 2 + 0.1 * out.1.2.1 ^ 2 + 0.1 * out.1.2.2 ^ 2) ∧ out.2.1 ≤ 0) := by
  intro out
  have hout : out = segStep odeint s action := rfl
  unfold segStep at hout
  dsimp only at hout
  obtain ⟨_, h1, h2⟩ := C38_normalize (odeint (bound action (-5) 5) s).1
  by_cases h : |normalizeAngle (odeint (bound action (-5) 5) s).1| > π / 2
  · simp only [hout, if_pos h]
    exact ⟨abs_le.mpr ⟨h1.le, h2⟩, ⟨fun _ => h, fun _ => trivial⟩, fun _ => trivial, fun h => by cases h⟩
  · simp only [hout, if_neg h]
    refine ⟨abs_le.mpr ⟨h1.le, h2⟩, ⟨fun h' => (by cases h'), fun h' => absurd h' h⟩, fun h => (by cases h), fun _ => ⟨trivial, ?_⟩⟩
    have a1 := sq_nonneg (normalizeAngle (odeint (bound action (-5) 5) s).1)
    have a2 := sq_nonneg (odeint (bound action (-5) 5) s).2.1
    have a3 := sq_nonneg (odeint (bound action (-5) 5) s).2.2
    linarith

/-- The declared observation space of the Segway is empty: its lower bound on the angle is above its upper bound, so that no
state of the environment, not even the initial one, is in it. -/
theorem C65_segway_refuted (s : ℝ × ℝ × ℝ) : ¬ (-segHigh.1 ≤ s.1 ∧ s.1 ≤ segHigh.1) := by
  have := pi_pos
  rintro ⟨a, b⟩
  simp only [segHigh] at a b
  linarith

end

end Verif.Envs
