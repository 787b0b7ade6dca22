/-
Lemmas for C153: the runs of the modelled `VectorCore` are those of the process of LemmasVector.lean.
-/
import Verif.Eval.LemmasVectorMean

namespace Verif.Eval

open Verif.Vector (cnt anyOf getMask Masked midway freshLogic cnt_split cnt_congr cnt_false cnt_pos cnt_eq_zero getMask_fresh getMask_regular trajectory)
open Verif.Dataset (Row)

noncomputable section

variable {S X A P T U : Type} {m : Sim S X A P T U} {γ : ℝ} {episodic : Bool} {noReward : ℝ} {garbage : ℕ → ℕ → ℕ → Bool × P × P}

theorem grant_congr {n H N : ℕ} {run last run' last' : ℕ → Bool} (tot : ℕ) (hr : ∀ i < n, run i = run' i) (hl : ∀ i < n, last i = last' i) (i : ℕ) (hin : i < n) :
    grant n H N run last tot i = grant n H N run' last' tot i := by
  have c1 : cnt (fun i => last i && run i) n = cnt (fun i => last' i && run' i) n := cnt_congr fun i h => by rw [hr i h, hl i h]
  have c2 : cnt (fun i => !last i && run i) n = cnt (fun i => !last' i && run' i) n := cnt_congr fun i h => by rw [hr i h, hl i h]
  have c3 : cnt last n = cnt last' n := cnt_congr hl
  have c4 : cnt last i = cnt last' i := cnt_congr fun j hj => hl j (by omega)
  unfold grant
  have ha : anyOf last n = anyOf last' n := by simp only [anyOf, c3]
  rw [ha]
  by_cases h0 : anyOf last' n = true
  · rw [if_pos h0, if_pos h0]
    simp only [decide_eq_true_eq, getMask, Vector.Logic.evaluateCfg, Vector.Logic.initializeEvaluate, freshLogic, c1, c2, c3]
    by_cases h1 : cnt (fun i => !last' i && run' i) n = 0 ∧ cnt (fun i => last' i && run' i) n = 0
    · simp only [if_pos h1]
    · simp only [if_neg h1]
      by_cases h2 : cnt last' n = cnt (fun i => last' i && run' i) n
      · simp only [if_pos h2, hl i hin, hr i hin, c4]
      · simp only [if_neg h2]
        by_cases h3 : cnt (fun i => last' i && run' i) n = 1
        · simp only [if_pos h3, hl i hin, hr i hin]
        · simp only [if_neg h3, hr i hin]
  · rw [if_neg h0, if_neg h0, hr i hin]

/-- `reset_all` of the selected environments. -/
theorem resetAll_sim (mask : ℕ → Bool) (hid : ℕ → S) (v : Draws U) (ω : ℕ → Draws U) (xs : ℕ → X) : ∀ n,
    Vector.resetAll (vecSys m episodic noReward garbage : Vector.Sys _ X A ℝ P T) mask n (hid, v, ω) xs =
      ((fun i => if i < n ∧ mask i = true then m.start (ω 0 i).1 else hid i, v, ω), fun i => if i < n ∧ mask i = true then m.see (m.start (ω 0 i).1) else xs i)
  | 0 => by simp [Vector.resetAll]
  | n + 1 => by
    rw [Vector.resetAll, resetAll_sim mask hid v ω xs n]
    by_cases hn : mask n = true
    · simp only [hn, if_true, vecSys]
      refine Prod.ext (Prod.ext (funext fun i => ?_) rfl) (funext fun i => ?_) <;>
      · by_cases hi : i = n
        · subst hi; simp [hn]
        · have : i < n + 1 ↔ i < n := by omega
          simp [hi, this]
    · simp only [hn, if_false, Bool.false_eq_true]
      refine Prod.ext (Prod.ext (funext fun i => ?_) rfl) (funext fun i => ?_) <;>
      · by_cases hi : i = n
        · subst hi; simp [hn]
        · have : i < n + 1 ↔ i < n := by omega
          simp [this]

/-- `step_all` of the selected environments. -/
theorem stepAll_sim (mask : ℕ → Bool) (act : ℕ → A) (hid : ℕ → S) (v : Draws U) (ω : ℕ → Draws U) (xs : ℕ → X) : ∀ n,
    Vector.stepAll (vecSys m episodic noReward garbage : Vector.Sys _ X A ℝ P T) mask act n (hid, v, ω) xs =
      ((fun i => if i < n ∧ mask i = true then m.next (hid i) (act i) (v i).2.2.2 else hid i, v, ω),
       fun i => if i < n ∧ mask i = true then m.see (m.next (hid i) (act i) (v i).2.2.2) else xs i,
       fun i => if i < n ∧ mask i = true then m.reward (hid i) (act i) (m.next (hid i) (act i) (v i).2.2.2) else noReward,
       fun i => if i < n ∧ mask i = true then m.absorbing (hid i) (act i) (m.next (hid i) (act i) (v i).2.2.2) else false)
  | 0 => by simp [Vector.stepAll]; rfl
  | n + 1 => by
    rw [Vector.stepAll, stepAll_sim mask act hid v ω xs n]
    by_cases hn : mask n = true
    · simp only [hn, if_true, vecSys]
      refine Prod.ext (Prod.ext (funext fun i => ?_) rfl) (Prod.ext (funext fun i => ?_) (Prod.ext (funext fun i => ?_) (funext fun i => ?_))) <;>
      · by_cases hi : i = n
        · subst hi; simp [hn]
        · have : i < n + 1 ↔ i < n := by omega
          simp [hi, this]
    · simp only [hn, if_false, Bool.false_eq_true]
      refine Prod.ext (Prod.ext (funext fun i => ?_) rfl) (Prod.ext (funext fun i => ?_) (Prod.ext (funext fun i => ?_) (funext fun i => ?_))) <;>
      · by_cases hi : i = n
        · subst hi; simp [hn]
        · have : i < n + 1 ↔ i < n := by omega
          simp [this]

/-! ### Sums of returns -/

/-- Sum of the discounted rewards of a list of rows, where the discount starts again after each row that ends an episode; and the number of rows since then. -/
def walk {P' : Type} (γ : ℝ) (x : ℝ × ℕ) (l : List (Row X A ℝ P')) : ℝ × ℕ :=
  l.foldl (fun x r => (x.1 + γ ^ x.2 * r.reward, if r.last then 0 else x.2 + 1)) x

theorem walk_add {P' : Type} (γ : ℝ) (l : List (Row X A ℝ P')) : ∀ (a b : ℝ) (k : ℕ), walk γ (a + b, k) l = (a + (walk γ (b, k) l).1, (walk γ (b, k) l).2) := by
  induction l with
  | nil => intro a b k; rfl
  | cons r l ih =>
    intro a b k
    simp only [walk, List.foldl_cons] at ih ⊢
    rw [show a + b + γ ^ k * r.reward = a + (b + γ ^ k * r.reward) by ring, ih]

theorem walk_concat {P' : Type} (γ : ℝ) (x : ℝ × ℕ) (l l' : List (Row X A ℝ P')) : walk γ x (l ++ l') = walk γ (walk γ x l) l' := by
  simp [walk]

theorem computeJLoop_sum {P' : Type} (γ : ℝ) (l : List (Row X A ℝ P')) : ∀ (j : ℝ) (k : ℕ), l ≠ [] ∨ j = 0 → (Dataset.computeJLoop γ l j k).sum = (walk γ (j, k) l).1 := by
  induction l with
  | nil => intro j k h; simpa [Dataset.computeJLoop, walk] using h.elim (fun h => absurd rfl h) Eq.symm
  | cons r l ih =>
    intro j k _
    simp only [Dataset.computeJLoop]
    by_cases hr : r.last = true
    · rw [if_pos (by simp [hr]), List.sum_cons, ih 0 0 (Or.inr rfl)]
      simp only [walk, List.foldl_cons, hr, if_true]
      have := walk_add γ l (j + γ ^ k * r.reward) 0 0
      rw [add_zero] at this
      exact (congrArg Prod.fst this).symm
    · rcases l with _ | ⟨r', l⟩
      · simp [walk, Dataset.computeJLoop]
      · rw [if_neg (by simp [hr]), ih _ _ (Or.inl (by simp))]
        simp [walk, hr]

theorem walk_closed {P' : Type} (γ : ℝ) (l : List (Row X A ℝ P')) (h : (walk γ (0, 0) l).2 = 0) : Dataset.closeEnd l = l := by
  rcases List.eq_nil_or_concat l with rfl | ⟨l, r, rfl⟩
  · rfl
  · rw [List.concat_eq_append, walk_concat] at h
    simp only [walk, List.foldl_cons, List.foldl_nil] at h
    have hr : r.last = true := by
      by_contra hr
      simp [hr] at h
    simp only [List.concat_eq_append, Dataset.closeEnd, List.dropLast_concat, List.getLast?_concat, Option.map_some, Option.toList_some]
    congr 2
    cases r
    simp only at hr
    simp [Dataset.setLast, hr]

theorem computeJLoop_length {P' : Type} (γ : ℝ) (l : List (Row X A ℝ P')) : ∀ (j : ℝ) (k : ℕ), (walk γ (j, k) l).2 = 0 →
    (Dataset.computeJLoop γ l j k).length = (l.filter (·.last)).length := by
  induction l with
  | nil => intro j k _; rfl
  | cons r l ih =>
    intro j k h
    simp only [Dataset.computeJLoop]
    simp only [walk, List.foldl_cons] at h
    by_cases hr : r.last = true
    · simp only [hr, if_true] at h
      rw [if_pos (by simp [hr]), List.length_cons, List.filter_cons_of_pos hr, List.length_cons, ih 0 0]
      have := walk_add γ l (j + γ ^ k * r.reward) 0 0
      rw [add_zero] at this
      exact (congrArg Prod.snd this).symm.trans h
    · rcases l with _ | ⟨r', l⟩
      · simp [hr] at h
      · rw [if_neg (by simp [hr]), List.filter_cons_of_neg hr]
        refine ih _ _ ?_
        simpa [walk, hr] using h

/-! ### One iteration -/

abbrev VSt (S X A P T U : Type) := Vector.St ((ℕ → S) × Draws U × (ℕ → Draws U)) X A ℝ P T

theorem iter_parts {n H N cap : ℕ} {s s' : VSt S X A P T U} (h : Vector.iter (vecSys m episodic noReward garbage) (cfg n H N) cap s = .ok s') :
    ∃ s1, Vector.resetPart (vecSys m episodic noReward garbage) (cfg n H N) s = .ok s1 ∧
      Vector.stepPart (vecSys m episodic noReward garbage) (cfg n H N) cap s1 = .ok s' := by
  unfold Vector.iter at h
  split at h
  · cases h
  · rename_i s1 h1
    refine ⟨s1, h1, ?_⟩
    split at h
    · cases h
    · rename_i s2 h2
      rw [h2]
      rw [Vector.fitPart_cur _ _ _ _ rfl] at h
      exact h

/-- The state after the first part of an iteration. -/
structure Started (m : Sim S X A P T U) (n H N : ℕ) (s s1 : VSt S X A P T U) : Prop where
  mask : ∀ i < n, s1.mask i = grant n H N s.running s.last s.totE i
  running : s1.running = s1.mask
  draws : s1.w.2 = s.w.2
  fresh : ∀ i < n, s.last i = true → s1.mask i = true → s1.w.1 i = m.start (s.w.2.2 0 i).1 ∧ s1.state i = m.see (m.start (s.w.2.2 0 i).1) ∧
    s1.policyState i = (m.begins (m.see (m.start (s.w.2.2 0 i).1)) (s.w.2.2 0 i).2.1).1
  old : ∀ i < n, s.last i = false → s1.w.1 i = s.w.1 i ∧ s1.state i = s.state i ∧ s1.policyState i = s.policyState i
  steps : ∀ i < n, s1.episodeSteps i = stepsOf (s.last i) (s.episodeSteps i)
  log : s1.log = s.log
  totE : s1.totE = s.totE
  env : s1.envState = s1.state

theorem resetPart_sim {n H N : ℕ} {s s1 : VSt S X A P T U} (hn : 1 < n) (hi : Vector.Inv (cfg n H N) s) (henv : s.state = s.envState)
    (h : Vector.resetPart (vecSys m episodic noReward garbage) (cfg n H N) s = .ok s1) : Started m n H N s s1 := by
  have hcur : s.curE = s.totE := hi.same rfl
  unfold Vector.resetPart at h
  by_cases hany : anyOf s.last n = true
  · rw [if_pos (show anyOf s.last (cfg n H N).n = true from hany)] at h
    split at h
    · cases h
    · rename_i mk hmk
      obtain ⟨hid, v, ω, hw⟩ : ∃ hid v ω, s.w = (hid, v, ω) := ⟨_, _, _, rfl⟩
      simp only [hw] at h
      rw [show (cfg n H N).n = n from rfl, resetAll_sim] at h
      simp only [vecSys, Except.ok.injEq] at h
      subst h
      have hg : grant n H N s.running s.last s.totE = mk := by
        unfold grant
        rw [if_pos hany]
        rw [hcur] at hmk
        rw [hmk]
      constructor
      · intro i _; rw [hg]
      · rfl
      · rw [hw]
      · intro i hin hl hm
        have hm : mk i = true := hm
        simp [hw, hin, hl, hm]
      · intro i hin hl
        simp [hw, hl, henv]
      · intro i _; rfl
      · rfl
      · rfl
      · rfl
  · rw [if_neg (show ¬ anyOf s.last (cfg n H N).n = true from hany)] at h
    cases h
    have h0 := cnt_eq_zero (f := s.last) (n := n) (by simpa [anyOf] using hany)
    have hrun : s.running = s.mask := by
      rcases hi.shape with ⟨_, h2⟩ | ⟨h1, _⟩
      · have := h2 0 (by show 0 < n; omega)
        rw [h0 0 (by omega)] at this
        cases this
      · exact h1
    constructor
    · intro i _
      unfold grant
      rw [if_neg hany, hrun]
    · exact hrun
    · rfl
    · intro i hin hl; rw [h0 i hin] at hl; cases hl
    · intro i _ _; exact ⟨rfl, rfl, rfl⟩
    · intro i hin; rw [h0 i hin]; rfl
    · rfl
    · rfl
    · exact henv.symm

/-- The second part of an iteration for environment `i`: action, new hidden state. -/
def moveOf (m : Sim S X A P T U) (s1 : VSt S X A P T U) (i : ℕ) : A × P := m.act (s1.state i) (s1.policyState i) (s1.w.2.2 0 i).2.2.1

def nextOf (m : Sim S X A P T U) (s1 : VSt S X A P T U) (i : ℕ) : S := m.next (s1.w.1 i) (moveOf m s1 i).1 (s1.w.2.2 0 i).2.2.2

structure Moved (m : Sim S X A P T U) (n H : ℕ) (s1 s' : VSt S X A P T U) (row : ℕ → Row X A ℝ P) : Prop where
  log : s'.log = s1.log ++ [(s1.mask, row, s1.fits.length)]
  running : s'.running = s1.running
  last : ∀ i < n, s'.last i = ((s1.mask i && m.absorbing (s1.w.1 i) (moveOf m s1 i).1 (nextOf m s1 i)) || decide (H ≤ s'.episodeSteps i))
  steps : ∀ i, s'.episodeSteps i = if s1.mask i then s1.episodeSteps i + 1 else s1.episodeSteps i
  totE : s'.totE = s1.totE + cnt (fun i => s'.last i && s1.mask i) n
  hid : ∀ i < n, s1.mask i = true → s'.w.1 i = nextOf m s1 i
  tape : s'.w.2.2 = shift s1.w.2.2
  ps : ∀ i, s'.policyState i = (moveOf m s1 i).2
  state : ∀ i < n, s1.mask i = true → s'.state i = m.see (nextOf m s1 i)
  reward : ∀ i < n, s1.mask i = true → (row i).reward = m.reward (s1.w.1 i) (moveOf m s1 i).1 (nextOf m s1 i)
  rowLast : ∀ i, (row i).last = s'.last i

theorem stepPart_fields {W : Type} (sys : Vector.Sys W X A ℝ P T) {n H N cap : ℕ} (hn1 : ¬ (cfg n H N).n = 1) {s1 s' : Vector.St W X A ℝ P T}
    (h : Vector.stepPart sys (cfg n H N) cap s1 = .ok s') (d : W × (ℕ → A) × (ℕ → P)) (hd : sys.draw s1.w s1.state s1.policyState = d)
    (e : W × (ℕ → X) × (ℕ → ℝ) × (ℕ → Bool)) (he : Vector.stepAll sys s1.mask d.2.1 n d.1 s1.envState = e) :
    ∃ row : ℕ → Row X A ℝ P, s'.log = s1.log ++ [(s1.mask, row, s1.fits.length)] ∧ s'.running = s1.running ∧
      (∀ i, s'.last i = (e.2.2.2 i || decide (H ≤ s'.episodeSteps i))) ∧
      (∀ i, s'.episodeSteps i = if s1.mask i then s1.episodeSteps i + 1 else s1.episodeSteps i) ∧
      s'.totE = s1.totE + cnt (fun i => s'.last i && s1.mask i) n ∧ s'.w = e.1 ∧ s'.policyState = d.2.2 ∧ s'.state = e.2.1 ∧
      (∀ i, (row i).reward = e.2.2.1 i) ∧ (∀ i, (row i).last = s'.last i) := by
  have hlen : s1.data.length < cap := by
    by_contra hl
    rw [Vector.stepPart_full _ _ _ _ (by omega)] at h
    cases h
  subst hd he
  unfold Vector.stepPart at h
  simp only [Vector.afterStep, hlen, if_true, hn1, if_false] at h
  simp only [Except.ok.injEq] at h
  subst h
  exact ⟨_, rfl, rfl, fun _ => rfl, fun _ => rfl, rfl, rfl, rfl, rfl, fun _ => rfl, fun _ => rfl⟩

theorem stepPart_sim {n H N cap : ℕ} (hn : 1 < n) {s1 s' : VSt S X A P T U}
    (h : Vector.stepPart (vecSys m episodic noReward garbage) (cfg n H N) cap s1 = .ok s') : ∃ row, Moved m n H s1 s' row := by
  have hsys := stepAll_sim (m := m) (episodic := episodic) (noReward := noReward) (garbage := garbage) (T := T) s1.mask
    (fun i => (moveOf m s1 i).1) s1.w.1 (s1.w.2.2 0) (shift s1.w.2.2) s1.envState n
  obtain ⟨row, h1, h2, h3, h4, h5, h6, h7, h8, h9, h10⟩ := stepPart_fields _ (by show ¬ n = 1; omega) h
    ((s1.w.1, s1.w.2.2 0, shift s1.w.2.2), (fun i => (moveOf m s1 i).1, fun i => (moveOf m s1 i).2)) rfl _ hsys
  refine ⟨row, ⟨h1, h2, ?_, h4, h5, ?_, by rw [h6], fun i => by rw [h7], ?_, ?_, h10⟩⟩
  · intro i hin
    rw [h3]
    cases hm : s1.mask i <;> simp [hm, hin, nextOf]
  · intro i hin hm
    rw [h6]
    simp [hm, hin, nextOf]
  · intro i hin hm
    rw [h8]
    simp [hm, hin, nextOf]
  · intro i hin hm
    rw [h9]
    simp [hm, hin, nextOf]

/-- The state of the process stands for the state of the run. -/
structure Rel (m : Sim S X A P T U) (γ : ℝ) (n : ℕ) (s : VSt S X A P T U) (c : Cs S P) : Prop where
  run : ∀ i < n, s.running i = c.run i
  last : ∀ i < n, s.last i = c.last i
  totE : s.totE = c.totE
  steps : ∀ i < n, s.episodeSteps i = c.steps i
  live : ∀ i < n, c.run i = true → c.last i = false → s.w.1 i = c.hid i ∧ s.policyState i = c.ps i ∧ s.state i = m.see (c.hid i)
  acc : ∑ i ∈ Finset.range n, (walk γ (0, 0) (trajectory s.log i)).1 = c.acc
  pos : ∀ i < n, (walk γ (0, 0) (trajectory s.log i)).2 = if c.run i && !c.last i then c.steps i else 0

theorem iter_sim {n H N cap : ℕ} (hn : 1 < n) {s s' : VSt S X A P T U} {c : Cs S P} (hi : Vector.Inv (cfg n H N) s) (hc : CInv n H N c) (henv : s.state = s.envState)
    (hr : Rel m γ n s c) (h : Vector.iter (vecSys m episodic noReward garbage) (cfg n H N) cap s = .ok s') :
    Rel m γ n s' (step m γ n H N c (s.w.2.2 0)) ∧ s'.w.2.2 = shift s.w.2.2 ∧
      ∃ row : ℕ → Row X A ℝ P, ∀ i < n, trajectory s'.log i = trajectory s.log i ++ (if grant n H N c.run c.last c.totE i then [row i] else []) ∧
        (grant n H N c.run c.last c.totE i = true →
          (row i).reward = (one m (c.last i) (c.hid i) (c.ps i) (s.w.2.2 0 i)).2.2.1 ∧ (row i).last = (step m γ n H N c (s.w.2.2 0)).last i) := by
  obtain ⟨s1, h1, h2⟩ := iter_parts h
  have hs := resetPart_sim hn hi henv h1
  have hg : ∀ i < n, s1.mask i = grant n H N c.run c.last c.totE i := fun i hin => by
    rw [hs.mask i hin, hr.totE]
    exact grant_congr c.totE hr.run hr.last i hin
  obtain ⟨row, hv⟩ := stepPart_sim hn h2
  have hω : s1.w.2.2 = s.w.2.2 := by rw [hs.draws]
  -- what the active environments do
  have hone : ∀ i < n, s1.mask i = true → (nextOf m s1 i, (moveOf m s1 i).2, m.reward (s1.w.1 i) (moveOf m s1 i).1 (nextOf m s1 i),
      m.absorbing (s1.w.1 i) (moveOf m s1 i).1 (nextOf m s1 i)) = one m (c.last i) (c.hid i) (c.ps i) (s.w.2.2 0 i) := by
    intro i hin hm
    unfold one nextOf moveOf
    cases hl : c.last i
    · have hl' : s.last i = false := (hr.last i hin).trans hl
      have hrun : c.run i = true := by
        rw [hg i hin, (grant_spec hc).1 i hin hl] at hm
        exact hm
      obtain ⟨o1, o2, o3⟩ := hs.old i hin hl'
      obtain ⟨l1, l2, l3⟩ := hr.live i hin hrun hl
      simp only [o1, o2, o3, l1, l2, l3, hω, Bool.false_eq_true, if_false]
    · have hl' : s.last i = true := (hr.last i hin).trans hl
      obtain ⟨o1, o2, o3⟩ := hs.fresh i hin hl' hm
      simp only [o1, o2, o3, hω, if_true]
  have hsteps1 : ∀ i < n, s1.episodeSteps i = stepsOf (c.last i) (c.steps i) := fun i hin => by rw [hs.steps i hin, hr.last i hin, hr.steps i hin]
  have hsteps : ∀ i < n, s'.episodeSteps i = (step m γ n H N c (s.w.2.2 0)).steps i := fun i hin => by
    rw [hv.steps, hg i hin, hsteps1 i hin]; rfl
  have hlast : ∀ i < n, s'.last i = (step m γ n H N c (s.w.2.2 0)).last i := by
    intro i hin
    rw [hv.last i hin, hsteps i hin]
    show _ = ((grant n H N c.run c.last c.totE i && (one m (c.last i) (c.hid i) (c.ps i) (s.w.2.2 0 i)).2.2.2) || _)
    rw [← hg i hin]
    cases hm : s1.mask i
    · simp [hg i hin ▸ hm, step]
    · rw [← hone i hin hm]
      simp [step, ← hg i hin, hm]
  have htraj : ∀ i, trajectory s'.log i = trajectory s.log i ++ if s1.mask i then [row i] else [] := by
    intro i
    rw [hv.log, hs.log, Vector.trajectory_append]
    congr 1
    simp only [trajectory, List.filterMap_cons, List.filterMap_nil]
    cases s1.mask i <;> simp
  have hpos1 : ∀ i < n, s1.mask i = true → (walk γ (0, 0) (trajectory s.log i)).2 = stepsOf (c.last i) (c.steps i) := by
    intro i hin hm
    rw [hr.pos i hin]
    unfold stepsOf
    cases hl : c.last i
    · rw [hg i hin, (grant_spec hc).1 i hin hl] at hm
      simp [hm]
    · simp
  have hrunv : ∀ i < n, (step m γ n H N c (s.w.2.2 0)).run i = s1.mask i := fun i hin => (hg i hin).symm
  refine ⟨⟨?_, hlast, ?_, hsteps, ?_, ?_, ?_⟩, ?_, row, fun i hin => ⟨by rw [htraj, hg i hin], fun hgi => ?_⟩⟩
  · intro i hin
    rw [hv.running, hs.running, hrunv i hin]
  · rw [hv.totE, hs.totE, hr.totE]
    show _ = c.totE + cnt _ n
    congr 1
    exact cnt_congr fun i hin => by rw [hlast i hin, hg i hin]; rfl
  · intro i hin hrun _
    rw [hrunv i hin] at hrun
    have ho := hone i hin hrun
    have hgi := hrun
    rw [hg i hin] at hgi
    refine ⟨?_, ?_, ?_⟩
    · rw [hv.hid i hin hrun]
      simp only [step, hgi, if_true, ← ho]
    · rw [hv.ps]
      simp only [step, hgi, if_true, ← ho]
    · rw [hv.state i hin hrun]
      simp only [step, hgi, if_true, ← ho]
  · show _ = c.acc + _
    rw [← hr.acc, ← Finset.sum_add_distrib]
    refine Finset.sum_congr rfl fun i hin => ?_
    have hin := Finset.mem_range.1 hin
    rw [htraj, walk_concat, ← hg i hin]
    cases hm : s1.mask i
    · simp [walk]
    · have ho := hone i hin hm
      simp only [if_true, walk, List.foldl_cons, List.foldl_nil] at *
      rw [hpos1 i hin hm, hv.reward i hin hm, ← ho]
  · intro i hin
    rw [htraj, walk_concat, hrunv i hin]
    cases hm : s1.mask i
    · simp only [Bool.false_and, Bool.false_eq_true, if_false]
      show (walk γ (0, 0) (trajectory s.log i)).2 = 0
      rw [hr.pos i hin]
      have : (c.run i && !c.last i) = false := by
        cases hl : c.last i
        · rw [hg i hin, (grant_spec hc).1 i hin hl] at hm
          simp [hm]
        · simp
      simp [this]
    · have hgi := hm
      rw [hg i hin] at hgi
      have h3 : (step m γ n H N c (s.w.2.2 0)).steps i = stepsOf (c.last i) (c.steps i) + 1 := by simp only [step, hgi, if_true]
      simp only [if_true, Bool.true_and, h3]
      show (if (row i).last then 0 else (walk γ (0, 0) (trajectory s.log i)).2 + 1) = _
      rw [hpos1 i hin hm, hv.rowLast, hlast i hin]
      cases (step m γ n H N c (s.w.2.2 0)).last i <;> simp
  · rw [hv.tape, hω]
  · rw [← hg i hin] at hgi
    rw [hv.reward i hin hgi, hv.rowLast, hlast i hin, ← hone i hin hgi]
    exact ⟨rfl, rfl⟩

theorem moveRequired_eq {W : Type} (n H N : ℕ) (s : Vector.St W X A ℝ P T) : Vector.moveRequired (cfg n H N) s = decide (s.totE < N) := rfl

theorem loop_sim {n H N cap : ℕ} (hn : 1 < n) (hH : 1 ≤ H) (hcap : Vector.capacity (some H) none (some N) = some cap) :
    ∀ (fuel : ℕ) (s s' : VSt S X A P T U) (b : Bool) (c : Cs S P), Vector.All (cfg n H N) s → (s.curS = s.totS ∧ s.fits = []) → CInv n H N c → Rel m γ n s c →
      Vector.loop (vecSys m episodic noReward garbage) (cfg n H N) cap fuel s = .ok (b, s') → Rel m γ n s' (proc m γ n H N c fuel s.w.2.2)
  | 0, s, s', b, c, _, _, _, hr, h => by
    simp only [Vector.loop, Except.ok.injEq, Prod.mk.injEq] at h
    rw [← h.2]
    exact hr
  | fuel + 1, s, s', b, c, ha, hf, hc, hr, h => by
    have hg := Vector.good_evaluate freshLogic n (some H) none (some N) hn (by intro H' h; cases h; omega) rfl (Or.inl ⟨rfl, N, rfl⟩)
    have hroom := Vector.room_evaluate freshLogic n cap _ _ _ hcap
    simp only [Vector.loop] at h
    by_cases hmove : Vector.moveRequired (cfg n H N) s = true
    · obtain ⟨s1, h1, h2, h3, -, -⟩ := Vector.iter_all (vecSys m episodic noReward garbage) (cfg n H N) cap s hg (Or.inl rfl) hroom ha (fun _ => hf) hmove
      rw [if_pos hmove, h1] at h
      obtain ⟨hr1, hw, -⟩ := iter_sim hn ha.inv hc ha.traj.env hr h1
      have hlt : c.totE < N := by
        rw [← hr.totE]
        simpa [moveRequired_eq] using hmove
      rw [proc_front m γ n H N c hlt, ← hw]
      exact loop_sim hn hH hcap fuel s1 s' b _ h2 (h3 rfl) (step_inv m γ hH hc _) hr1 h
    · rw [if_neg hmove] at h
      simp only [Except.ok.injEq, Prod.mk.injEq] at h
      have hlt : ¬ c.totE < N := by
        rw [← hr.totE]
        simpa [moveRequired_eq] using hmove
      rw [proc_done m γ n H N c hlt, ← h.2]
      exact hr

/-- The process before the first iteration. -/
def initial (hid : ℕ → S) (p0 : ℕ → P) : Cs S P := { run := fun _ => false, last := fun _ => true, totE := 0, steps := fun _ => 0, hid := hid, ps := p0, acc := 0 }

theorem initial_inv (n H N : ℕ) (hid : ℕ → S) (p0 : ℕ → P) : CInv n H N (initial hid p0) where
  shape := Or.inl ⟨fun _ _ => rfl, fun _ _ => rfl⟩
  idle := fun _ _ _ h => by cases h
  lens := fun _ _ h => by cases h
  total := by
    show 0 + midway n (fun _ => false) (fun _ => true) ≤ N
    unfold midway
    rw [cnt_congr (g := fun _ => false) (fun i _ => by simp), cnt_false]
    omega

theorem initial_rel (n : ℕ) (w : (ℕ → S) × Draws U × (ℕ → Draws U)) (x0 : ℕ → X) (p0 : ℕ → P) :
    Rel m γ n (Vector.start w x0 p0 : VSt S X A P T U) (initial w.1 p0) where
  run := fun _ _ => rfl
  last := fun _ _ => rfl
  totE := rfl
  steps := fun _ _ => rfl
  live := fun _ _ h => by cases h
  acc := by simp [Vector.start, trajectory, walk, initial]
  pos := fun i _ => by simp [Vector.start, trajectory, walk, initial]

/-! The dataset that the run leaves. -/

theorem walk_map (l : List (Row X A ℝ P)) : ∀ x, walk γ x (Vector.noPolicyStates l) = walk γ x l := by
  induction l with
  | nil => intro x; rfl
  | cons r l ih =>
    intro x
    simp only [Vector.noPolicyStates, List.map_cons, walk, List.foldl_cons] at ih ⊢
    exact ih _

theorem walk_blocks (log : Vector.History X A ℝ P) : ∀ n, (∀ i < n, (walk γ (0, 0) (trajectory log i)).2 = 0) →
    walk γ (0, 0) (Vector.blocks n log) = (∑ i ∈ Finset.range n, (walk γ (0, 0) (trajectory log i)).1, 0)
  | 0, _ => by simp [Vector.blocks, walk]
  | n + 1, h => by
    have ih := walk_blocks log n fun i hi => h i (by omega)
    unfold Vector.blocks at ih ⊢
    rw [List.range_succ, List.map_append, List.flatten_append, walk_concat, ih, Finset.sum_range_succ]
    simp only [List.map_cons, List.map_nil, List.flatten_cons, List.flatten_nil, List.append_nil, walk_closed γ _ (h n (by omega))]
    have := walk_add γ (trajectory log n) (∑ i ∈ Finset.range n, (walk γ (0, 0) (trajectory log i)).1) 0 0
    rw [add_zero] at this
    rw [this, h n (by omega)]

theorem cnt_filter (log : Vector.History X A ℝ P) : ∀ n, (∀ i < n, (walk γ (0, 0) (trajectory log i)).2 = 0) →
    ((Vector.blocks n log).filter (·.last)).length = Vector.episodes n log
  | 0, _ => by
    simp only [Vector.blocks, List.range_zero, List.map_nil, List.flatten_nil, List.filter_nil, List.length_nil, Vector.episodes, cnt]
    rw [List.map_const', List.sum_replicate]
    simp
  | n + 1, h => by
    have ih := cnt_filter log n fun i hi => h i (by omega)
    have hn := walk_closed γ _ (h n (by omega))
    unfold Vector.blocks at ih ⊢
    rw [List.range_succ, List.map_append, List.flatten_append, List.filter_append, List.length_append, ih]
    simp only [List.map_cons, List.map_nil, List.flatten_cons, List.flatten_nil, List.append_nil, hn]
    unfold Vector.episodes
    clear ih h hn
    induction log with
    | nil => rfl
    | cons e log ih =>
      simp only [List.map_cons, List.sum_cons, trajectory, List.filterMap_cons] at ih ⊢
      have hc : cnt (fun i => e.1 i && (e.2.1 i).last) (n + 1) = cnt (fun i => e.1 i && (e.2.1 i).last) n + if e.1 n && (e.2.1 n).last then 1 else 0 := by
        simp only [cnt]
      rw [hc, ← ih]
      cases h1 : e.1 n
      · simp; omega
      · cases h2 : (e.2.1 n).last
        · simp [h2]; omega
        · simp [h2]; omega

/-- What a finished evaluation leaves: `N` returns whose sum is the accumulator of the process. -/
theorem evaluate_sim {n H N cap : ℕ} (hn : 1 < n) (hH : 1 ≤ H) (hN : 1 ≤ N) (hcap : Vector.capacity (some H) none (some N) = some cap)
    (w : (ℕ → S) × Draws U × (ℕ → Draws U)) (x0 : ℕ → X) (p0 : ℕ → P) (fuel : ℕ) {s : VSt S X A P T U} {ds : Option (List (Row X A ℝ Unit))}
    (h : Vector.evaluate (vecSys m episodic noReward garbage) freshLogic n (some H) none (some N) cap w x0 p0 fuel = .ok (some (s, ds))) :
    ∃ rows, ds = some rows ∧ (Dataset.computeJ γ rows).length = N ∧ (Dataset.computeJ γ rows).sum = (proc m γ n H N (initial w.1 p0) fuel w.2.2).acc ∧
      (proc m γ n H N (initial w.1 p0) fuel w.2.2).totE = N ∧
      ∀ i < n, ((proc m γ n H N (initial w.1 p0) fuel w.2.2).run i && !(proc m γ n H N (initial w.1 p0) fuel w.2.2).last i) = false := by
  have hH' : ∀ H', some H = some H' → 0 < H' := by intro H' h; cases h; omega
  have hg := Vector.good_evaluate freshLogic n (some H) none (some N) hn hH' rfl (Or.inl ⟨rfl, N, rfl⟩)
  have hroom := Vector.room_evaluate freshLogic n cap _ _ _ hcap
  have hall : Vector.All (cfg n H N) (Vector.start w x0 p0 : VSt S X A P T U) := ⟨Vector.start_inv _ hg w x0 p0, Vector.start_del _ w x0 p0, Vector.start_traj _ w x0 p0⟩
  obtain ⟨hstop, hds⟩ := Vector.C21_runs _ freshLogic n cap (some H) none (some N) w x0 p0 fuel hn hH' rfl (Or.inl ⟨rfl, N, rfl⟩) hcap h
  obtain ⟨b, s', h1, h2, h3, h4, h5, _⟩ := Vector.loop_all (vecSys m episodic noReward garbage) (cfg n H N) cap hg (Or.inl rfl) hroom fuel (Vector.start w x0 p0) hall (fun _ => ⟨rfl, rfl⟩)
  have hr := loop_sim (γ := γ) hn hH hcap fuel (Vector.start w x0 p0) s' b (initial w.1 p0) hall ⟨rfl, rfl⟩ (initial_inv n H N w.1 p0) (initial_rel n w x0 p0) h1
  simp only [Vector.evaluate] at h
  rw [h1] at h
  cases b with
  | false => simp at h
  | true =>
    simp only [Except.ok.injEq, Option.some.injEq, Prod.mk.injEq] at h
    obtain ⟨rfl, -⟩ := h
    have hge : N ≤ s'.totE := by simpa [moveRequired_eq] using h4 rfl
    have hle := h2.inv.total N rfl
    have htot : s'.totE = N := by omega
    have hmid : midway n s'.running s'.last = 0 := by
      have : midway (cfg n H N).n s'.running s'.last = midway n s'.running s'.last := rfl
      omega
    have hidle : ∀ i < n, ((proc m γ n H N (initial w.1 p0) fuel w.2.2).run i && !(proc m γ n H N (initial w.1 p0) fuel w.2.2).last i) = false := by
      intro i hin
      have := cnt_eq_zero hmid i hin
      rw [hr.run i hin, hr.last i hin] at this
      rw [Bool.and_comm]
      exact this
    have hpos : ∀ i < n, (walk γ (0, 0) (trajectory s'.log i)).2 = 0 := fun i hin => by
      rw [hr.pos i hin]
      exact if_neg (by rw [show (Vector.start w x0 p0 : VSt S X A P T U).w = w from rfl, hidle i hin]; simp)
    have hE : Vector.episodes n s'.log = N := by
      have : Vector.episodes n s'.log = s'.totE := h2.inv.logE
      omega
    have hlog : s'.log ≠ [] := by
      intro h0
      rw [h0] at hE
      simp [Vector.episodes] at hE
      omega
    rw [if_neg hlog] at hds
    have hlen : (Dataset.computeJLoop γ (Vector.noPolicyStates (Vector.blocks n s'.log)) 0 0).length = N := by
      rw [computeJLoop_length γ _ 0 0 (by rw [walk_map, walk_blocks _ _ hpos]), ← hE, ← cnt_filter _ n hpos]
      simp [Vector.noPolicyStates, List.filter_map, Function.comp_def]
    have hJ : Dataset.computeJ γ (Vector.noPolicyStates (Vector.blocks n s'.log)) = Dataset.computeJLoop γ (Vector.noPolicyStates (Vector.blocks n s'.log)) 0 0 := by
      unfold Dataset.computeJ
      simp only [hlen]
      rw [if_neg (by omega)]
    refine ⟨_, hds, by rw [hJ, hlen], ?_, ?_, hidle⟩
    · rw [hJ, computeJLoop_sum γ _ 0 0 (Or.inr rfl), walk_map, walk_blocks _ _ hpos]
      exact hr.acc
    · exact hr.totE.symm.trans htot

end

end Verif.Eval
