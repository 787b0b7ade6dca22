/-
Lemmas for C153: the returns in the dataset of the modelled `VectorCore` are those of the numbered episodes of LemmasVectorLaw.lean.
-/
import Verif.Eval.LemmasVectorLaw

namespace Verif.Eval

open MeasureTheory ProbabilityTheory
open Verif.Vector (cnt anyOf getMask Masked midway freshLogic cnt_split cnt_congr cnt_false cnt_pos cnt_eq_zero getMask_fresh getMask_regular trajectory)
open Verif.Dataset (Row)

noncomputable section

variable {S X A P T U : Type} {m : Sim S X A P T U} {γ : ℝ} {n H N : ℕ} {episodic : Bool} {noReward : ℝ} {garbage : ℕ → ℕ → ℕ → Bool × P × P}

/-- The returns of the episodes that end in a list of rows, and return and length of the last one if it has not ended. -/
def split {P' : Type} (γ : ℝ) (x : Multiset ℝ × ℝ × ℕ) (l : List (Row X A ℝ P')) : Multiset ℝ × ℝ × ℕ :=
  l.foldl (fun x r => if r.last then (x.1 + {x.2.1 + γ ^ x.2.2 * r.reward}, 0, 0) else (x.1, x.2.1 + γ ^ x.2.2 * r.reward, x.2.2 + 1)) x

theorem split_concat {P' : Type} (γ : ℝ) (x : Multiset ℝ × ℝ × ℕ) (l l' : List (Row X A ℝ P')) : split γ x (l ++ l') = split γ (split γ x l) l' := by simp [split]

theorem split_add {P' : Type} (γ : ℝ) (l : List (Row X A ℝ P')) : ∀ (M M' : Multiset ℝ) (y : ℝ × ℕ), split γ (M + M', y) l = (M + (split γ (M', y) l).1, (split γ (M', y) l).2) := by
  induction l with
  | nil => intro M M' y; rfl
  | cons r l ih =>
    intro M M' y
    simp only [split, List.foldl_cons] at ih ⊢
    cases r.last
    · simp only [Bool.false_eq_true, if_false]
      exact ih M M' _
    · simp only [if_true, add_assoc]
      exact ih M _ _

/-- `compute_J` collects the returns. -/
theorem computeJLoop_split {P' : Type} (γ : ℝ) (l : List (Row X A ℝ P')) : ∀ (j : ℝ) (k : ℕ), (split γ (0, j, k) l).2.2 = 0 →
    (Dataset.computeJLoop γ l j k : Multiset ℝ) = (split γ (0, j, k) l).1 := by
  induction l with
  | nil => intro j k _; rfl
  | cons r l ih =>
    intro j k h
    simp only [Dataset.computeJLoop]
    by_cases hr : r.last = true
    · rw [if_pos (by simp [hr])]
      have h1 : split γ (0, j, k) (r :: l) = ({j + γ ^ k * r.reward} + (split γ (0, 0, 0) l).1, (split γ (0, 0, 0) l).2) := by
        have := split_add γ l {j + γ ^ k * r.reward} 0 (0, 0)
        rw [add_zero] at this
        rw [← this]
        simp [split, hr]
      rw [h1] at h ⊢
      rw [← Multiset.cons_coe, ih 0 0 h, Multiset.singleton_add]
    · have h1 : split γ (0, j, k) (r :: l) = split γ (0, j + γ ^ k * r.reward, k + 1) l := by simp [split, hr]
      rcases l with _ | ⟨r', l⟩
      · rw [h1] at h
        simp [split] at h
      · rw [if_neg (by simp [hr])]
        rw [h1] at h ⊢
        exact ih _ _ h

theorem split_map (l : List (Row X A ℝ P)) : ∀ x, split γ x (Vector.noPolicyStates l) = split γ x l := by
  induction l with
  | nil => intro x; rfl
  | cons r l ih =>
    intro x
    simp only [Vector.noPolicyStates, List.map_cons, split, List.foldl_cons] at ih ⊢
    exact ih _

theorem split_blocks (log : Vector.History X A ℝ P) : ∀ n, (∀ i < n, (split γ (0, 0, 0) (trajectory log i)).2 = (0, 0)) → (∀ i < n, Dataset.closeEnd (trajectory log i) = trajectory log i) →
    split γ (0, 0, 0) (Vector.blocks n log) = (∑ i ∈ Finset.range n, (split γ (0, 0, 0) (trajectory log i)).1, 0, 0)
  | 0, _, _ => by simp [Vector.blocks, split]
  | n + 1, h, hc => by
    have ih := split_blocks log n (fun i hi => h i (by omega)) fun i hi => hc i (by omega)
    unfold Vector.blocks at ih ⊢
    rw [List.range_succ, List.map_append, List.flatten_append, split_concat, ih, Finset.sum_range_succ]
    simp only [List.map_cons, List.map_nil, List.flatten_cons, List.flatten_nil, List.append_nil, hc n (by omega)]
    have := split_add γ (trajectory log n) (∑ i ∈ Finset.range n, (split γ (0, 0, 0) (trajectory log i)).1) 0 (0, 0)
    rw [add_zero] at this
    rw [this, h n (by omega)]

/-- The numbered episodes are those of the run. -/
structure RelE (γ : ℝ) (n : ℕ) (s : VSt S X A P T U) (e : Es S P) : Prop where
  done : ∑ i ∈ Finset.range n, (split γ (0, 0, 0) (trajectory s.log i)).1 = e.done.map Prod.snd
  cur : ∀ i < n, (split γ (0, 0, 0) (trajectory s.log i)).2 = if liveOf e i then (e.cur i, e.base.steps i) else (0, 0)

theorem map_sum_snd (s : Finset ℕ) (f : ℕ → Multiset (ℕ × ℝ)) : (∑ i ∈ s, f i).map Prod.snd = ∑ i ∈ s, (f i).map Prod.snd :=
  map_sum (Multiset.mapAddMonoidHom Prod.snd) f s

theorem iter_simE {cap : ℕ} (hn : 1 < n) {s s' : VSt S X A P T U} {e : Es S P} (hi : Vector.Inv (cfg n H N) s) (hc : CInv n H N e.base) (henv : s.state = s.envState)
    (hr : Rel m γ n s e.base) (hre : RelE γ n s e) (h : Vector.iter (vecSys m episodic noReward garbage) (cfg n H N) cap s = .ok s') :
    RelE γ n s' (stepE m γ n H N e (s.w.2.2 0)) := by
  obtain ⟨-, -, row, hrow⟩ := iter_sim hn hi hc henv hr h
  have hcur : ∀ i < n, grantOf n H N e i = true → (split γ (0, 0, 0) (trajectory s.log i)).2 = (cur0 e i, kOf e i) := by
    intro i hin hg
    rw [hre.cur i hin, ← live_grant hc i hin, hg, cur0, kOf, stepsOf]
    cases e.base.last i <;> simp
  have hlive : ∀ i, liveOf (stepE m γ n H N e (s.w.2.2 0)) i = (grantOf n H N e i && !(step m γ n H N e.base (s.w.2.2 0)).last i) := fun _ => rfl
  have hgr : ∀ i, grant n H N e.base.run e.base.last e.base.totE i = grantOf n H N e i := fun _ => rfl
  have hsplit : ∀ i < n, split γ (0, 0, 0) (trajectory s'.log i) =
      if grantOf n H N e i then
        (if (step m γ n H N e.base (s.w.2.2 0)).last i then ((split γ (0, 0, 0) (trajectory s.log i)).1 + {curOf m γ e (s.w.2.2 0) i}, 0, 0)
          else ((split γ (0, 0, 0) (trajectory s.log i)).1, curOf m γ e (s.w.2.2 0) i, kOf e i + 1))
      else split γ (0, 0, 0) (trajectory s.log i) := by
    intro i hin
    obtain ⟨h1, h2⟩ := hrow i hin
    rw [h1, split_concat, hgr]
    cases hg : grantOf n H N e i
    · simp [split]
    · obtain ⟨h3, h4⟩ := h2 hg
      have hp := hcur i hin hg
      have hp1 := congrArg Prod.fst hp
      have hp2 := congrArg Prod.snd hp
      simp only at hp1 hp2
      simp only [if_true]
      conv_lhs => rw [split, List.foldl_cons, List.foldl_nil]
      rw [h4, h3, hp1, hp2]
      rfl
  constructor
  · rw [show (stepE m γ n H N e (s.w.2.2 0)).done = e.done + ∑ i ∈ Finset.range n,
      if grantOf n H N e i && (step m γ n H N e.base (s.w.2.2 0)).last i then {(idxOf n H N e i, curOf m γ e (s.w.2.2 0) i)} else 0 from rfl,
      Multiset.map_add, map_sum_snd, ← hre.done, ← Finset.sum_add_distrib]
    refine Finset.sum_congr rfl fun i hin => ?_
    have hin := Finset.mem_range.1 hin
    rw [hsplit i hin]
    cases grantOf n H N e i <;> cases (step m γ n H N e.base (s.w.2.2 0)).last i <;> simp
  · intro i hin
    rw [hsplit i hin, hlive]
    cases hg : grantOf n H N e i
    · have hl : liveOf e i = false := by rw [← live_grant hc i hin, hg]; rfl
      simp [hre.cur i hin, hl]
    · have hgr' : grant n H N e.base.run e.base.last e.base.totE i = true := hg
      have hsteps : (stepE m γ n H N e (s.w.2.2 0)).base.steps i = kOf e i + 1 := by simp only [stepE, step, hgr', if_true, kOf]
      rw [hsteps]
      cases (step m γ n H N e.base (s.w.2.2 0)).last i <;> simp [stepE]

theorem loop_simE {cap : ℕ} (hn : 1 < n) (hH : 1 ≤ H) (hcap : Vector.capacity (some H) none (some N) = some cap) :
    ∀ (fuel : ℕ) (s s' : VSt S X A P T U) (b : Bool) (e : Es S P), Vector.All (cfg n H N) s → (s.curS = s.totS ∧ s.fits = []) → EInv n H N e → Rel m γ n s e.base → RelE γ n s e →
      Vector.loop (vecSys m episodic noReward garbage) (cfg n H N) cap fuel s = .ok (b, s') → RelE γ n s' (procE m γ n H N e fuel s.w.2.2)
  | 0, s, s', b, e, _, _, _, _, hr, h => by
    simp only [Vector.loop, Except.ok.injEq, Prod.mk.injEq] at h
    rw [← h.2]
    exact hr
  | fuel + 1, s, s', b, e, ha, hf, hc, hr, hre, h => by
    have hg := Vector.good_evaluate freshLogic n (some H) none (some N) hn (by intro H' h; cases h; omega) rfl (Or.inl ⟨rfl, N, rfl⟩)
    have hroom := Vector.room_evaluate freshLogic n cap _ _ _ hcap
    simp only [Vector.loop] at h
    by_cases hmove : Vector.moveRequired (cfg n H N) s = true
    · obtain ⟨s1, h1, h2, h3, -, -⟩ := Vector.iter_all (vecSys m episodic noReward garbage) (cfg n H N) cap s hg (Or.inl rfl) hroom ha (fun _ => hf) hmove
      rw [if_pos hmove, h1] at h
      obtain ⟨hr1, hw, -⟩ := iter_sim hn ha.inv hc.base ha.traj.env hr h1
      have hre1 := iter_simE hn ha.inv hc.base ha.traj.env hr hre h1
      have hlt : e.base.totE < N := by
        rw [← hr.totE]
        simpa [moveRequired_eq] using hmove
      rw [procE_front e hlt, ← hw]
      exact loop_simE hn hH hcap fuel s1 s' b _ h2 (h3 rfl) (stepE_inv hH hc _) hr1 hre1 h
    · rw [if_neg hmove] at h
      simp only [Except.ok.injEq, Prod.mk.injEq] at h
      have hlt : ¬ e.base.totE < N := by
        rw [← hr.totE]
        simpa [moveRequired_eq] using hmove
      rw [procE_done e hlt, ← h.2]
      exact hre

def initialE (hid : ℕ → S) (p0 : ℕ → P) : Es S P := { base := initial hid p0, begun := 0, idx := fun _ => 0, cur := fun _ => 0, done := 0 }

theorem initialE_inv (n H N : ℕ) (hid : ℕ → S) (p0 : ℕ → P) : EInv n H N (initialE hid p0) where
  base := initial_inv n H N hid p0
  begun := by
    show 0 = 0 + midway n (fun _ => false) (fun _ => true)
    unfold midway
    rw [cnt_congr (g := fun _ => false) (fun i _ => by simp), cnt_false]
  nums := by simp [initialE, liveOf, initial]

theorem initialE_rel (n : ℕ) (w : (ℕ → S) × Draws U × (ℕ → Draws U)) (x0 : ℕ → X) (p0 : ℕ → P) :
    RelE γ n (Vector.start w x0 p0 : VSt S X A P T U) (initialE w.1 p0) where
  done := by simp [Vector.start, trajectory, split, initialE]
  cur := fun i _ => by simp [Vector.start, trajectory, split, initialE, liveOf, initial]

/-- What a finished evaluation leaves: the returns of the numbered episodes, in some order. -/
theorem evaluate_simE {cap : ℕ} (hn : 1 < n) (hH : 1 ≤ H) (hN : 1 ≤ N) (hcap : Vector.capacity (some H) none (some N) = some cap)
    (w : (ℕ → S) × Draws U × (ℕ → Draws U)) (x0 : ℕ → X) (p0 : ℕ → P) (fuel : ℕ) {s : VSt S X A P T U} {ds : Option (List (Row X A ℝ Unit))}
    (h : Vector.evaluate (vecSys m episodic noReward garbage) freshLogic n (some H) none (some N) cap w x0 p0 fuel = .ok (some (s, ds))) :
    ∃ rows, ds = some rows ∧ (Dataset.computeJ γ rows : Multiset ℝ) = (procE m γ n H N (initialE w.1 p0) fuel w.2.2).done.map Prod.snd ∧
      (procE m γ n H N (initialE w.1 p0) fuel w.2.2).done.map Prod.fst = Multiset.range N ∧ ¬ (procE m γ n H N (initialE w.1 p0) fuel w.2.2).base.totE < N := by
  have hH' : ∀ H', some H = some H' → 0 < H' := by intro H' h; cases h; omega
  have hg := Vector.good_evaluate freshLogic n (some H) none (some N) hn hH' rfl (Or.inl ⟨rfl, N, rfl⟩)
  have hroom := Vector.room_evaluate freshLogic n cap _ _ _ hcap
  have hall : Vector.All (cfg n H N) (Vector.start w x0 p0 : VSt S X A P T U) := ⟨Vector.start_inv _ hg w x0 p0, Vector.start_del _ w x0 p0, Vector.start_traj _ w x0 p0⟩
  obtain ⟨hstop, hds⟩ := Vector.C21_runs _ freshLogic n cap (some H) none (some N) w x0 p0 fuel hn hH' rfl (Or.inl ⟨rfl, N, rfl⟩) hcap h
  obtain ⟨rows, hrows, hlen, -, htot, hidle⟩ := evaluate_sim (γ := γ) hn hH hN hcap w x0 p0 fuel h
  obtain ⟨b, s', h1, h2, h3, h4, h5, _⟩ := Vector.loop_all (vecSys m episodic noReward garbage) (cfg n H N) cap hg (Or.inl rfl) hroom fuel (Vector.start w x0 p0) hall (fun _ => ⟨rfl, rfl⟩)
  have hr := loop_sim (γ := γ) hn hH hcap fuel (Vector.start w x0 p0) s' b (initial w.1 p0) hall ⟨rfl, rfl⟩ (initial_inv n H N w.1 p0) (initial_rel n w x0 p0) h1
  have hre := loop_simE (γ := γ) hn hH hcap fuel (Vector.start w x0 p0) s' b (initialE w.1 p0) hall ⟨rfl, rfl⟩ (initialE_inv n H N w.1 p0) (initial_rel n w x0 p0) (initialE_rel n w x0 p0) h1
  have hinv := procE_inv (m := m) (γ := γ) hH (initialE_inv n H N w.1 p0) w.2.2 fuel
  rw [show (Vector.start w x0 p0 : VSt S X A P T U).w = w from rfl] at hr hre
  have hbase : (procE m γ n H N (initialE w.1 p0) fuel w.2.2).base = proc m γ n H N (initial w.1 p0) fuel w.2.2 := procE_base _ _ _
  have hlive : ∀ i < n, liveOf (procE m γ n H N (initialE w.1 p0) fuel w.2.2) i = false := fun i hin => by
    unfold liveOf
    rw [hbase]
    exact hidle i hin
  have hmid : midway n (procE m γ n H N (initialE w.1 p0) fuel w.2.2).base.run (procE m γ n H N (initialE w.1 p0) fuel w.2.2).base.last = 0 := by
    unfold midway
    rw [cnt_congr (g := fun _ => false) (fun i hin => by rw [Bool.and_comm]; exact hlive i hin), cnt_false]
  have hnums : (procE m γ n H N (initialE w.1 p0) fuel w.2.2).done.map Prod.fst = Multiset.range N := by
    have h6 := hinv.nums
    rw [Finset.sum_eq_zero (fun i hin => by rw [hlive i (Finset.mem_range.1 hin)]; rfl), add_zero, hinv.begun, hmid, hbase, htot] at h6
    exact h6
  refine ⟨rows, hrows, ?_, ?_, by rw [hbase, htot]; exact lt_irrefl N⟩
  · simp only [Vector.evaluate] at h
    rw [h1] at h
    cases b with
    | false => simp at h
    | true =>
      simp only [Except.ok.injEq, Option.some.injEq, Prod.mk.injEq] at h
      obtain ⟨rfl, -⟩ := h
      rw [hrows] at hds
      have hlog : s'.log ≠ [] := by
        intro h0
        rw [if_pos h0] at hds
        cases hds
      rw [if_neg hlog, Option.some.injEq] at hds
      have hpos : ∀ i < n, (walk γ (0, 0) (trajectory s'.log i)).2 = 0 := fun i hin => by
        rw [hr.pos i hin]
        exact if_neg (by rw [hidle i hin]; simp)
      have hend : ∀ i < n, (split γ (0, 0, 0) (trajectory s'.log i)).2 = (0, 0) := fun i hin => by
        rw [hre.cur i hin, hlive i hin]
        rfl
      have hsp := split_blocks (γ := γ) s'.log n hend fun i hin => walk_closed γ _ (hpos i hin)
      have hJ : (Dataset.computeJLoop γ rows 0 0 : Multiset ℝ) = (procE m γ n H N (initialE w.1 p0) fuel w.2.2).done.map Prod.snd := by
        rw [hds, computeJLoop_split γ _ 0 0 (by rw [split_map, hsp]), split_map, hsp]
        exact hre.done
      have hcard : (Dataset.computeJLoop γ rows 0 0).length = N := by
        have h7 := congrArg Multiset.card hJ
        have h8 := congrArg Multiset.card hnums
        simp only [Multiset.coe_card, Multiset.card_map, Multiset.card_range] at h7 h8
        omega
      unfold Dataset.computeJ
      simp only
      rw [if_neg (by omega), hJ]
  · exact hnums

end

end Verif.Eval
