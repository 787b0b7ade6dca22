/-
C117: what the plots of `PlotDataset` hold.
-/
import Verif.Misc.ModelCallbacks
import Verif.Misc.SpecCallbacks
import Verif.Misc.PropsLog
import Mathlib.Tactic.NormNum

namespace Verif.Misc.Callbacks

/-! ### The window -/

/-- The buffers of every plot hold the deques `D` and track if the plot is shown or always tracked. -/
def Tracks (w : Win) (D : ℕ → List (Deque ℝ)) : Prop :=
  ∀ k, w.bufs k = (D k).map (fun d => ⟨d, w.track k || w.on (.plot k)⟩)

/-- The window has not changed but for the items and the flags of the buffers. -/
structure Same (w w' : Win) : Prop where
  n : w'.n = w.n
  track : w'.track = w.track
  all : w'.all = w.all

theorem Same.trans {w w' w'' : Win} (h : Same w w') (h' : Same w' w'') : Same w w'' :=
  ⟨h'.n.trans h.n, h'.track.trans h.track, h'.all.trans h.all⟩

theorem activate_spec (w : Win) (D) (h : Tracks w D) (it : Item) :
    Same w (w.activate it) ∧ Tracks (w.activate it) D ∧ ∀ k, (w.activate it).on (.plot k) = (w.on (.plot k) || decide (it = .plot k)) := by
  unfold Win.activate
  by_cases ho : w.on it = true
  · rw [if_pos ho]
    refine ⟨⟨rfl, rfl, rfl⟩, h, fun k => ?_⟩
    by_cases e : it = .plot k
    · subst e; simp [ho]
    · simp [e]
  · rw [if_neg ho]
    cases it with
    | curve i j =>
      refine ⟨⟨rfl, rfl, rfl⟩, ?_, fun k => by simp [Function.update]⟩
      intro k
      simp [h k, Function.update]
    | plot i =>
      refine ⟨⟨rfl, rfl, rfl⟩, ?_, ?_⟩
      · intro k
        by_cases e : k = i
        · subst e
          simp [Win.setTracking, h k, Buffer.call]
        · have e' : ¬ Item.plot k = .plot i := by simpa using e
          simp [Win.setTracking, Function.update, e, h k]
      · intro k
        by_cases e : k = i
        · subst e; simp [Win.setTracking]
        · have e' : ¬ i = k := fun h => e h.symm
          simp [Win.setTracking, Function.update, e, e']

theorem deactivateCurve_spec (w : Win) (i j : ℕ) :
    Same w (w.deactivateCurve i j) ∧ (w.deactivateCurve i j).bufs = w.bufs ∧
      ∀ k, (w.deactivateCurve i j).on (.plot k) = w.on (.plot k) := by
  unfold Win.deactivateCurve
  split
  · exact ⟨⟨rfl, rfl, rfl⟩, rfl, fun k => by simp [Function.update]⟩
  · exact ⟨⟨rfl, rfl, rfl⟩, rfl, fun k => rfl⟩

theorem deactivateCurves_spec (i : ℕ) (l : List ℕ) : ∀ w : Win,
    Same w (l.foldl (fun w j => w.deactivateCurve i j) w) ∧ (l.foldl (fun w j => w.deactivateCurve i j) w).bufs = w.bufs ∧
      ∀ k, (l.foldl (fun w j => w.deactivateCurve i j) w).on (.plot k) = w.on (.plot k) := by
  induction l with
  | nil => intro w; exact ⟨⟨rfl, rfl, rfl⟩, rfl, fun k => rfl⟩
  | cons j l ih =>
    intro w
    obtain ⟨h1, h2, h3⟩ := deactivateCurve_spec w i j
    obtain ⟨g1, g2, g3⟩ := ih (w.deactivateCurve i j)
    rw [List.foldl_cons]
    exact ⟨h1.trans g1, g2.trans h2, fun k => (g3 k).trans (h3 k)⟩

theorem deactivate_spec (w : Win) (D) (h : Tracks w D) (it : Item) :
    Same w (w.deactivate it) ∧ Tracks (w.deactivate it) D ∧
      ∀ k, (w.deactivate it).on (.plot k) = (w.on (.plot k) && !decide (it = .plot k)) := by
  cases it with
  | curve i j =>
    simp only [Win.deactivate]
    obtain ⟨h1, h2, h3⟩ := deactivateCurve_spec w i j
    refine ⟨h1, ?_, fun k => by rw [h3]; simp⟩
    intro k
    rw [h2, h k, h1.track, h3]
  | plot i =>
    simp only [Win.deactivate]
    by_cases ho : w.on (.plot i) = true
    · rw [if_pos ho]
      set w1 : Win := { w with on := Function.update w.on (.plot i) false } with hw1
      obtain ⟨h1, h2, h3⟩ := deactivateCurves_spec i (List.range (w1.bufs i).length) w1
      set w2 := (List.range (w1.bufs i).length).foldl (fun w j => w.deactivateCurve i j) w1 with hw2
      have hon : ∀ k, w2.on (.plot k) = (w.on (.plot k) && !decide (Item.plot i = .plot k)) := by
        intro k
        rw [h3]
        by_cases e : i = k
        · subst e; simp [hw1]
        · have e' : ¬ k = i := fun h => e h.symm
          simp [hw1, Function.update, e, e']
      have hb : w2.bufs = w.bufs := h2
      have ht : w2.track = w.track := h1.track
      unfold Win.deactivateBuffers
      cases hti : w.track i with
      | true =>
        rw [ht, hti]
        simp only [Bool.not_true, Bool.false_eq_true, if_false]
        refine ⟨⟨h1.n, h1.track, h1.all⟩, ?_, hon⟩
        intro k
        rw [hb, h k, ht, hon]
        by_cases e : i = k
        · subst e; simp [hti]
        · simp [e]
      | false =>
        rw [ht, hti]
        simp only [Bool.not_false, if_true]
        refine ⟨⟨h1.n, h1.track, h1.all⟩, ?_, hon⟩
        intro k
        have hon' : (w2.setTracking i false).on = w2.on := rfl
        have htr' : (w2.setTracking i false).track = w2.track := rfl
        rw [hon', htr', hon, ht]
        by_cases e : k = i
        · subst e
          simp [Win.setTracking, hb, h k, Buffer.call, hti]
        · have e' : ¬ i = k := fun h => e h.symm
          simp [Win.setTracking, Function.update, e, e', hb, h k]
    · rw [if_neg ho]
      refine ⟨⟨rfl, rfl, rfl⟩, h, fun k => ?_⟩
      by_cases e : i = k
      · subst e; simp [ho]
      · simp [e]

theorem activates_spec (l : List Item) (D) : ∀ w : Win, Tracks w D →
    Same w (l.foldl Win.activate w) ∧ Tracks (l.foldl Win.activate w) D ∧
      ∀ k, (l.foldl Win.activate w).on (.plot k) = (w.on (.plot k) || decide (Item.plot k ∈ l)) := by
  induction l with
  | nil => intro w h; exact ⟨⟨rfl, rfl, rfl⟩, h, fun k => by simp⟩
  | cons it l ih =>
    intro w h
    obtain ⟨h1, h2, h3⟩ := activate_spec w D h it
    obtain ⟨g1, g2, g3⟩ := ih _ h2
    rw [List.foldl_cons]
    refine ⟨h1.trans g1, g2, fun k => ?_⟩
    rw [g3, h3]
    by_cases e : it = .plot k
    · simp [e]
    · have e' : ¬ Item.plot k = it := fun h => e h.symm
      simp [e, e']

theorem deactivates_spec (l : List Item) (D) : ∀ w : Win, Tracks w D →
    Same w (l.foldl Win.deactivate w) ∧ Tracks (l.foldl Win.deactivate w) D ∧
      ∀ k, (l.foldl Win.deactivate w).on (.plot k) = (w.on (.plot k) && !decide (Item.plot k ∈ l)) := by
  induction l with
  | nil => intro w h; exact ⟨⟨rfl, rfl, rfl⟩, h, fun k => by simp⟩
  | cons it l ih =>
    intro w h
    obtain ⟨h1, h2, h3⟩ := deactivate_spec w D h it
    obtain ⟨g1, g2, g3⟩ := ih _ h2
    rw [List.foldl_cons]
    refine ⟨h1.trans g1, g2, fun k => ?_⟩
    rw [g3, h3]
    by_cases e : it = .plot k
    · simp [e]
    · have e' : ¬ Item.plot k = it := fun h => e h.symm
      simp [e, e']

theorem mem_items (w : Win) (k : ℕ) (hk : k < w.n) : Item.plot k ∈ w.items := by
  simp only [Win.items, List.mem_flatMap, List.mem_range]
  exact ⟨k, hk, by simp⟩

/-- What the user did, as far as the plots are concerned. -/
def seenClick : Click → Seen PSample
  | .all => .clickAll
  | .item (.plot k) => .clickPlot k
  | .item (.curve _ _) => .clickOther

/-- The marks of `ALL` and of plot `k` after a click. -/
def afterClick (k : ℕ) (all shown : Bool) : Click → Bool × Bool
  | .all => (!all, !all)
  | .item (.plot i) => (all, if i = k then !shown else shown)
  | .item (.curve _ _) => (all, shown)

theorem clicked_spec (w : Win) (D) (h : Tracks w D) (c : Click) :
    (w.clicked c).n = w.n ∧ (w.clicked c).track = w.track ∧ Tracks (w.clicked c) D ∧
      ∀ k, k < w.n → ((w.clicked c).all, (w.clicked c).on (.plot k)) = afterClick k w.all (w.on (.plot k)) c := by
  cases c with
  | all =>
    simp only [Win.clicked]
    cases ha : w.all with
    | true =>
      simp only [if_true]
      obtain ⟨h1, h2, h3⟩ := deactivates_spec w.items D { w with all := false } h
      refine ⟨h1.n, h1.track, h2, fun k hk => ?_⟩
      rw [h1.all, h3]
      simp [afterClick, mem_items w k hk]
    | false =>
      simp only [Bool.false_eq_true, if_false]
      obtain ⟨h1, h2, h3⟩ := activates_spec w.items D { w with all := true } h
      refine ⟨h1.n, h1.track, h2, fun k hk => ?_⟩
      rw [h1.all, h3]
      simp [afterClick, mem_items w k hk]
  | item it =>
    simp only [Win.clicked]
    by_cases ho : w.on it = true
    · rw [if_pos ho]
      obtain ⟨h1, h2, h3⟩ := deactivate_spec w D h it
      refine ⟨h1.n, h1.track, h2, fun k hk => ?_⟩
      rw [h1.all, h3]
      cases it with
      | curve i j => simp [afterClick]
      | plot i =>
        by_cases e : i = k
        · subst e; simp [afterClick, ho]
        · simp [afterClick, e]
    · rw [if_neg ho]
      obtain ⟨h1, h2, h3⟩ := activate_spec w D h it
      refine ⟨h1.n, h1.track, h2, fun k hk => ?_⟩
      rw [h1.all, h3]
      cases it with
      | curve i j => simp [afterClick]
      | plot i =>
        by_cases e : i = k
        · subst e; simp [afterClick, ho]
        · simp [afterClick, e]

/-! ### The plots -/

/-- What happened, for the specification. -/
def seen : PlotEv → Seen PSample
  | .step s => .step s
  | .click c => seenClick c

theorem updateEach_map {ι : Type} (D : ι → Deque ℝ) (on : Bool) (val : ι → ℝ) : ∀ l : List ι,
    updateEach (l.map (fun j => (⟨D j, on⟩ : Buffer ℝ))) (l.map val) =
      some (l.map (fun j => (⟨if on then (D j).append (val j) else D j, on⟩ : Buffer ℝ))) := by
  intro l
  induction l with
  | nil => rfl
  | cons i l ih =>
    simp only [List.map_cons, updateEach, ih, Option.map_some, Buffer.call, Deque.extend, List.foldl_cons, List.foldl_nil]
    cases on <;> rfl

/-- The deques after a history: whole returns and lengths for plots 0 and 1, the last `n` values of the steps `V k` for the others. -/
def deques (nA nO n : ℕ) (returns : List ℝ) (lens : List ℝ) (V : ℕ → List PSample) : ℕ → List (Deque ℝ)
  | 0 => [⟨none, returns⟩]
  | 1 => [⟨none, lens⟩]
  | 2 => [⟨some n, lastItems (some n) ((V 2).map (·.reward))⟩]
  | 3 => (List.range nA).map (fun j => ⟨some n, lastItems (some n) ((V 3).map (fun s => s.action.getD j 0))⟩)
  | 4 => (List.range nO).map (fun j => ⟨some n, lastItems (some n) ((V 4).map (fun s => s.obs.getD j 0))⟩)
  | _ => []

theorem feed_spec (w : Win) (D : ℕ → List (Deque ℝ)) (h : Tracks w D) (k : ℕ) {ι : Type} (l : List ι) (d : ι → Deque ℝ) (val : ι → ℝ)
    (hD : D k = l.map d) :
    ∃ w', w.feed k (l.map val) = some w' ∧ w'.n = w.n ∧ w'.track = w.track ∧ w'.all = w.all ∧ w'.on = w.on ∧
      Tracks w' (Function.update D k
        (l.map (fun j => if (w.track k || w.on (.plot k)) then (d j).append (val j) else d j))) := by
  have hb : w.bufs k = l.map (fun j => ⟨d j, w.track k || w.on (.plot k)⟩) := by
    rw [h k, hD, List.map_map]; rfl
  refine ⟨{ w with bufs := Function.update w.bufs k (l.map (fun j =>
      ⟨if (w.track k || w.on (.plot k)) then (d j).append (val j) else d j, w.track k || w.on (.plot k)⟩)) },
    by simp only [Win.feed]; rw [hb, updateEach_map, Option.map_some], rfl, rfl, rfl, rfl, ?_⟩
  intro i
  by_cases e : i = k
  · subst e
    simp [Function.comp_def]
  · simp [Function.update, e, h i]

theorem range_getD (l : List ℝ) : (List.range l.length).map (fun j => l.getD j 0) = l := by
  apply List.ext_getElem
  · simp
  · intro i h1 h2
    simp [List.getD_eq_getElem?_getD, List.getElem?_eq_getElem h2]

theorem lastItems_none (l : List ℝ) : lastItems none l = l := rfl

/-- The invariant: the window, the accumulators. -/
structure Holds (p : Plots) (nA nO n : ℕ) (returns lens : List ℝ) (V : ℕ → List PSample) (r : ℝ) (l : ℕ) : Prop where
  five : p.win.n = 5
  track : p.win.track = fun k => decide (k < 2)
  tracks : Tracks p.win (deques nA nO n returns lens V)
  rew : p.episodeReward = r
  len : p.episodeLength = l

theorem call_spec (p : Plots) (nA nO n : ℕ) (returns lens : List ℝ) (V : ℕ → List PSample) (r : ℝ) (l : ℕ)
    (h : Holds p nA nO n returns lens V r l) (s : PSample) (hA : s.action.length = nA) (hO : s.obs.length = nO) :
    ∃ p', p.call s = some p' ∧ p'.win.all = p.win.all ∧ p'.win.on = p.win.on ∧
      Holds p' nA nO n (if s.last then returns ++ [r + s.reward] else returns) (if s.last then lens ++ [((l + 1 : ℕ) : ℝ)] else lens)
        (fun k => if p.win.on (.plot k) then V k ++ [s] else V k) (if s.last then 0 else r + s.reward) (if s.last then 0 else l + 1) := by
  obtain ⟨hn, ht, hT, hr, hl⟩ := h
  have app : ∀ (m : Option ℕ) (vs : List ℝ) (x : ℝ), (Deque.mk m (lastItems m vs)).append x = ⟨m, lastItems m (vs ++ [x])⟩ :=
    fun m vs x => append_last m vs x
  obtain ⟨w1, a1, a2, a3, a4, a5, a6⟩ := feed_spec p.win _ hT 3 (List.range nA)
    (fun j => ⟨some n, lastItems (some n) ((V 3).map (fun s => s.action.getD j 0))⟩) (fun j => s.action.getD j 0) rfl
  rw [← hA, range_getD] at a1
  obtain ⟨w2, b1, b2, b3, b4, b5, b6⟩ := feed_spec w1 _ a6 4 (List.range nO)
    (fun j => ⟨some n, lastItems (some n) ((V 4).map (fun s => s.obs.getD j 0))⟩) (fun j => s.obs.getD j 0) rfl
  rw [← hO, range_getD] at b1
  obtain ⟨w3, c1, c2, c3, c4, c5, c6⟩ := feed_spec w2 _ b6 2 [()]
    (fun _ => ⟨some n, lastItems (some n) ((V 2).map (·.reward))⟩) (fun _ => s.reward) rfl
  rw [List.map_singleton] at c1
  simp only [b3, b5, a3, a5, ht] at b6 c6
  simp only [ht] at a6
  cases hlast : s.last with
  | false =>
    refine ⟨⟨w3, p.episodeReward + s.reward, p.episodeLength + 1⟩, ?_, by simp [c4, b4, a4], by simp [c5, b5, a5], ?_⟩
    · simp [Plots.call, a1, b1, c1, hlast]
    · refine ⟨by simp only; rw [c2, b2, a2, hn], by simp only; rw [c3, b3, a3, ht], ?_, by simp [hr], by simp [hl]⟩
      intro k
      simp only
      rw [c6 k]
      congr 1
      match k with
      | 0 => simp [Function.update, deques]
      | 1 => simp [Function.update, deques]
      | 2 => cases ho : p.win.on (.plot 2) <;> simp [Function.update, deques, ho, app]
      | 3 => cases ho : p.win.on (.plot 3) <;> simp [Function.update, deques, ho, app]
      | 4 => cases ho : p.win.on (.plot 4) <;> simp [Function.update, deques, ho, app]
      | k + 5 => simp [Function.update, deques]
  | true =>
    obtain ⟨w4, d1, d2, d3, d4, d5, d6⟩ := feed_spec w3 _ c6 0 [()] (fun _ => ⟨none, returns⟩) (fun _ => r + s.reward) rfl
    obtain ⟨w5, e1, e2, e3, e4, e5, e6⟩ := feed_spec w4 _ d6 1 [()] (fun _ => ⟨none, lens⟩) (fun _ => ((l + 1 : ℕ) : ℝ)) rfl
    rw [List.map_singleton] at d1 e1
    simp only [d3, d5, c3, c5, b3, b5, a3, a5, ht] at d6 e6
    refine ⟨⟨w5, 0, 0⟩, ?_, by simp [e4, d4, c4, b4, a4], by simp [e5, d5, c5, b5, a5], ?_⟩
    · rw [Nat.cast_add, Nat.cast_one] at e1
      simp [Plots.call, a1, b1, c1, hlast, hr, hl, d1, e1]
    · refine ⟨by simp only; rw [e2, d2, c2, b2, a2, hn], by simp only; rw [e3, d3, c3, b3, a3, ht], ?_, by simp, by simp⟩
      intro k
      simp only
      rw [e6 k]
      congr 1
      match k with
      | 0 => simp [Function.update, deques, Deque.append]
      | 1 => simp [Function.update, deques, Deque.append]
      | 2 => cases ho : p.win.on (.plot 2) <;> simp [Function.update, deques, ho, app]
      | 3 => cases ho : p.win.on (.plot 3) <;> simp [Function.update, deques, ho, app]
      | 4 => cases ho : p.win.on (.plot 4) <;> simp [Function.update, deques, ho, app]
      | k + 5 => simp [Function.update, deques]

/-- The returns and lengths of the episodes that end, with the accumulators at first. -/
def ended : ℝ → ℕ → List PSample → List (ℝ × ℕ)
  | _, _, [] => []
  | r, l, s :: ss => if s.last then (r + s.reward, l + 1) :: ended 0 0 ss else ended (r + s.reward) (l + 1) ss

theorem ended_append (init : List PSample) (hi : ∀ y ∈ init, y.last = false) : ∀ (r : ℝ) (l : ℕ) (ss : List PSample),
    ended r l (init ++ ss) = ended (r + (init.map (·.reward)).sum) (l + init.length) ss := by
  induction init with
  | nil => intro r l ss; simp
  | cons y init ih =>
    intro r l ss
    have hy := hi y (by simp)
    rw [List.cons_append, ended, hy]
    simp only [Bool.false_eq_true, if_false]
    rw [ih (fun z hz => hi z (by simp [hz]))]
    simp only [List.map_cons, List.sum_cons, List.length_cons]
    congr 1
    · ring
    · omega

theorem ended_whole (rest : List PSample) (hr : ∀ y ∈ rest, y.last = false) : ∀ eps : List (List PSample), Whole (·.last) eps →
    ended 0 0 (eps.flatten ++ rest) = eps.map (fun e => ((e.map (·.reward)).sum, e.length)) := by
  intro eps
  induction eps with
  | nil =>
    intro _
    have := ended_append rest hr 0 0 []
    rw [List.append_nil] at this
    simp [this, ended]
  | cons e eps ih =>
    intro h
    obtain ⟨init, x, rfl, hx, hi⟩ := h e (by simp)
    simp only at hx hi
    rw [List.flatten_cons, List.append_assoc, List.append_assoc, ended_append init hi, List.singleton_append, ended, hx]
    simp only [if_true]
    rw [ih (fun e he => h e (by simp [he]))]
    simp

theorem run_spec (nA nO n : ℕ) (evs : List PlotEv)
    (hsh : ∀ s, PlotEv.step s ∈ evs → s.action.length = nA ∧ s.obs.length = nO) :
    ∀ (p : Plots) (returns lens : List ℝ) (V : ℕ → List PSample) (r : ℝ) (l : ℕ), Holds p nA nO n returns lens V r l →
      ∃ p' r' l' V', p.run evs = some p' ∧
        Holds p' nA nO n (returns ++ (ended r l (stepsOf (evs.map seen))).map (·.1))
          (lens ++ (ended r l (stepsOf (evs.map seen))).map (fun q => (q.2 : ℝ))) V' r' l' ∧
        ∀ k, k < 5 → V' k = V k ++ whileShown k p.win.all (p.win.on (.plot k)) (evs.map seen) := by
  induction evs with
  | nil =>
    intro p returns lens V r l h
    exact ⟨p, r, l, V, rfl, by simpa [stepsOf, ended] using h, fun k _ => by simp [whileShown]⟩
  | cons e evs ih =>
    intro p returns lens V r l h
    have ih := ih (fun s hs => hsh s (by simp [hs]))
    cases e with
    | step s =>
      obtain ⟨hA, hO⟩ := hsh s (by simp)
      obtain ⟨p1, h1, h2, h3, h4⟩ := call_spec p nA nO n returns lens V r l h s hA hO
      obtain ⟨p', r', l', V', g1, g2, g3⟩ := ih p1 _ _ _ _ _ h4
      refine ⟨p', r', l', V', by simp [Plots.run, Plots.event, h1, g1], ?_, ?_⟩
      · simp only [List.map_cons, seen, stepsOf, ended]
        cases hl : s.last with
        | false => simpa [hl] using g2
        | true => simpa [hl] using g2
      · intro k hk
        rw [g3 k hk, h2, h3]
        simp only [List.map_cons, seen, whileShown]
        cases p.win.on (.plot k) <;> simp
    | click c =>
      obtain ⟨hn, ht, hT, hr, hl⟩ := h
      obtain ⟨h1, h2, h3, h4⟩ := clicked_spec p.win _ hT c
      obtain ⟨p', r', l', V', g1, g2, g3⟩ := ih { p with win := p.win.clicked c } returns lens V r l
        ⟨h1.trans hn, h2.trans ht, h3, hr, hl⟩
      refine ⟨p', r', l', V', by simp [Plots.run, Plots.event, g1], ?_, ?_⟩
      · have : stepsOf ((PlotEv.click c :: evs).map seen) = stepsOf (evs.map seen) := by
          cases c with
          | all => rfl
          | item it => cases it <;> rfl
        rw [this]
        exact g2
      · intro k hk
        rw [g3 k hk]
        have h5 := h4 k (by rw [hn]; exact hk)
        cases c with
        | all =>
          simp only [afterClick, Prod.mk.injEq] at h5
          simp only [List.map_cons, seen, seenClick, whileShown, h5.1, h5.2]
        | item it =>
          cases it with
          | plot i =>
            simp only [afterClick, Prod.mk.injEq] at h5
            simp only [List.map_cons, seen, seenClick, whileShown, h5.1, h5.2]
          | curve i j =>
            simp only [afterClick, Prod.mk.injEq] at h5
            simp only [List.map_cons, seen, seenClick, whileShown, h5.1, h5.2]

theorem deactivateBuffers_fold (l : List ℕ) : ∀ (w : Win) (D : ℕ → List (Deque ℝ)) (done : ℕ → Bool),
    (∀ k, w.bufs k = (D k).map (fun d => ⟨d, w.track k || !done k⟩)) →
    let w' := l.foldl Win.deactivateBuffers w
    w'.n = w.n ∧ w'.track = w.track ∧ w'.all = w.all ∧ w'.on = w.on ∧
      ∀ k, w'.bufs k = (D k).map (fun d => ⟨d, w.track k || !(done k || decide (k ∈ l))⟩) := by
  induction l with
  | nil => intro w D done h; exact ⟨rfl, rfl, rfl, rfl, fun k => by simpa using h k⟩
  | cons i l ih =>
    intro w D done h
    have h1 : ∀ k, (w.deactivateBuffers i).bufs k =
        (D k).map (fun d => ⟨d, (w.deactivateBuffers i).track k || !(done k || decide (k = i))⟩) := by
      intro k
      unfold Win.deactivateBuffers
      cases ht : w.track i with
      | true =>
        simp only [Bool.not_true, Bool.false_eq_true, if_false]
        rw [h k]
        by_cases e : k = i
        · subst e; simp [ht]
        · simp [e]
      | false =>
        simp only [Bool.not_false, if_true]
        by_cases e : k = i
        · subst e; simp [Win.setTracking, h k, Buffer.call, ht]
        · simp [Win.setTracking, Function.update, e, h k]
    obtain ⟨g1, g2, g3, g4, g5⟩ := ih (w.deactivateBuffers i) D (fun k => done k || decide (k = i)) h1
    have hd : ∀ w : Win, (w.deactivateBuffers i).n = w.n ∧ (w.deactivateBuffers i).track = w.track ∧
        (w.deactivateBuffers i).all = w.all ∧ (w.deactivateBuffers i).on = w.on := by
      intro w
      unfold Win.deactivateBuffers
      split <;> exact ⟨rfl, rfl, rfl, rfl⟩
    obtain ⟨d1, d2, d3, d4⟩ := hd w
    refine ⟨g1.trans d1, g2.trans d2, g3.trans d3, g4.trans d4, fun k => ?_⟩
    rw [List.foldl_cons, g5 k, d2]
    simp [Bool.or_assoc]

theorem new_holds (nA nO n : ℕ) :
    Holds (Plots.new nA nO n) nA nO n [] [] (fun _ => []) 0 0 ∧ (Plots.new nA nO n).win.all = false ∧
      ∀ k, (Plots.new nA nO n).win.on (.plot k) = false := by
  have h := deactivateBuffers_fold (List.range 5) ⟨5, fun k => decide (k < 2), fun k =>
    match k with
    | 0 => [Buffer.new none]
    | 1 => [Buffer.new none]
    | 2 => [Buffer.new (some n)]
    | 3 => (List.range nA).map (fun _ => Buffer.new (some n))
    | 4 => (List.range nO).map (fun _ => Buffer.new (some n))
    | _ => [], fun _ => false, false⟩ (deques nA nO n [] [] (fun _ => [])) (fun _ => false) (by
      intro k
      match k with
      | 0 => simp [deques, Buffer.new]
      | 1 => simp [deques, Buffer.new]
      | 2 => simp [deques, Buffer.new, lastItems]
      | 3 => simp [deques, Buffer.new, lastItems]
      | 4 => simp [deques, Buffer.new, lastItems]
      | k + 5 => simp [deques])
  obtain ⟨h1, h2, h3, h4, h5⟩ := h
  refine ⟨⟨h1, h2, ?_, rfl, rfl⟩, h3, fun k => congrFun h4 _⟩
  intro k
  refine (h5 k).trans ?_
  have e1 : (Plots.new nA nO n).win.track k = decide (k < 2) := congrFun h2 k
  have e2 : (Plots.new nA nO n).win.on (.plot k) = false := congrFun h4 _
  rw [e1, e2]
  by_cases hk : k < 5
  · simp [hk]
  · match k with
    | k + 5 => simp [deques]

/-- **C117** (the plots of the training). Over every history of steps and clicks of the user in the window, as long as the samples
have the announced sizes: the plots of the episodes hold the undiscounted return and the length of every episode that has ended,
whatever was clicked, and the plots of the step rewards, of the actions and of the observations hold the last `n` values of the steps
that were taken while the plot was shown. -/
theorem C117_plots (nA nO n : ℕ) (evs : List PlotEv)
    (hsh : ∀ s, PlotEv.step s ∈ evs → s.action.length = nA ∧ s.obs.length = nO)
    (eps : List (List PSample)) (rest : List PSample) (hsteps : stepsOf (evs.map seen) = eps.flatten ++ rest)
    (hw : Whole (·.last) eps) (hr : ∀ y ∈ rest, y.last = false) :
    ∃ p, (Plots.new nA nO n).run evs = some p ∧
      (p.win.bufs 0).map (·.deque.items) = [eps.map (fun e => (e.map (·.reward)).sum)] ∧
      (p.win.bufs 1).map (·.deque.items) = [eps.map (fun e => (e.length : ℝ))] ∧
      (p.win.bufs 2).map (·.deque.items) =
        [lastItems (some n) ((whileShown 2 false false (evs.map seen)).map (·.reward))] ∧
      (p.win.bufs 3).map (·.deque.items) =
        (List.range nA).map (fun j => lastItems (some n) ((whileShown 3 false false (evs.map seen)).map (fun s => s.action.getD j 0))) ∧
      (p.win.bufs 4).map (·.deque.items) =
        (List.range nO).map (fun j => lastItems (some n) ((whileShown 4 false false (evs.map seen)).map (fun s => s.obs.getD j 0))) := by
  obtain ⟨h0, ha, ho⟩ := new_holds nA nO n
  obtain ⟨p, r', l', V', h1, h2, h3⟩ := run_spec nA nO n evs hsh _ _ _ _ _ _ h0
  rw [hsteps, ended_whole rest hr eps hw] at h2
  have h3' : ∀ k, k < 5 → V' k = whileShown k false false (evs.map seen) := by
    intro k hk
    rw [h3 k hk, ha, ho]; simp
  refine ⟨p, h1, ?_, ?_, ?_, ?_, ?_⟩
  · rw [h2.tracks 0]; simp [deques, Function.comp_def]
  · rw [h2.tracks 1]; simp [deques, Function.comp_def]
  · rw [h2.tracks 2]; simp [deques, h3' 2 (by omega)]
  · rw [h2.tracks 3]; simp [deques, h3' 3 (by omega), Function.comp_def]
  · rw [h2.tracks 4]; simp [deques, h3' 4 (by omega), Function.comp_def]

/-- Three steps, the second of which ends an episode; the plot of the rewards is shown from the second step on. -/
example :
    let s : ℝ → Bool → PSample := fun r l => ⟨[], [r], r, l⟩
    let evs := [.step (s 1 false), .click (.item (.plot 2)), .step (s 2 true), .click (.item (.curve 2 0)), .step (s 4 false)]
    ∃ p, (Plots.new 1 0 1).run evs = some p ∧ (p.win.bufs 0).map (·.deque.items) = [[3]] ∧
      (p.win.bufs 1).map (·.deque.items) = [[2]] ∧ (p.win.bufs 2).map (·.deque.items) = [[4]] ∧
      (p.win.bufs 3).map (·.deque.items) = [[]] := by
  intro s evs
  obtain ⟨p, h1, h2, h3, h4, h5, -⟩ := C117_plots 1 0 1 evs (by simp [evs, s]) [[s 1 false, s 2 true]] [s 4 false] rfl
    (by intro e he
        simp only [List.mem_singleton] at he
        exact ⟨[s 1 false], s 2 true, he, rfl, by simp [s]⟩) (by simp [s])
  refine ⟨p, h1, ?_, ?_, ?_, ?_⟩
  · rw [h2]; norm_num [s]
  · rw [h3]; norm_num [s]
  · rw [h4]; simp [evs, s, seen, seenClick, whileShown, lastItems]
  · rw [h5]; simp [evs, s, seen, seenClick, whileShown, lastItems]

/-! ### Curves -/

theorem setTracking_on (w : Win) (i : ℕ) (b : Bool) : (w.setTracking i b).on = w.on := rfl

theorem deactivateBuffers_on (w : Win) (i : ℕ) : (w.deactivateBuffers i).on = w.on := by
  unfold Win.deactivateBuffers
  split <;> rfl

theorem activate_on (w : Win) (it x : Item) : (w.activate it).on x = (w.on x || decide (x = it)) := by
  unfold Win.activate
  by_cases h : w.on it = true
  · rw [if_pos h]
    by_cases e : x = it
    · subst e; simp [h]
    · simp [e]
  · rw [if_neg h]
    have : (match it with
      | .plot i => ({ w with on := Function.update w.on it true } : Win).setTracking i true
      | .curve _ _ => { w with on := Function.update w.on it true }).on = Function.update w.on it true := by
      cases it <;> rfl
    refine (congrFun this x).trans ?_
    by_cases e : x = it
    · subst e; simp
    · simp [e]

theorem activates_on (l : List Item) (x : Item) : ∀ w : Win, (l.foldl Win.activate w).on x = (w.on x || decide (x ∈ l)) := by
  induction l with
  | nil => intro w; simp
  | cons it l ih =>
    intro w
    rw [List.foldl_cons, ih, activate_on, Bool.or_assoc]
    congr 1
    by_cases e : x = it <;> simp [e]

theorem deactivateCurve_on (w : Win) (i j : ℕ) (x : Item) : (w.deactivateCurve i j).on x = (w.on x && !decide (x = .curve i j)) := by
  unfold Win.deactivateCurve
  by_cases h : w.on (.curve i j) = true
  · rw [if_pos h]
    by_cases e : x = .curve i j
    · subst e; simp
    · simp [e]
  · rw [if_neg h]
    by_cases e : x = .curve i j
    · subst e; simpa using h
    · simp [e]

theorem deactivateCurves_on (i : ℕ) (x : Item) (l : List ℕ) : ∀ w : Win,
    (l.foldl (fun w j => w.deactivateCurve i j) w).on x = (w.on x && !decide (x ∈ l.map (Item.curve i))) := by
  induction l with
  | nil => intro w; simp
  | cons j l ih =>
    intro w
    rw [List.foldl_cons, ih, deactivateCurve_on, Bool.and_assoc]
    congr 1
    by_cases e : x = .curve i j <;> simp [e]

/-- The curves of a plot. -/
def curvesOf (w : Win) : Item → List Item
  | .plot i => (List.range (w.bufs i).length).map (Item.curve i)
  | .curve _ _ => []

/-- A plot that is hidden hides its curves; nothing else changes. -/
theorem deactivate_on (w : Win) (it x : Item) : (w.deactivate it).on x =
    (w.on x && !decide (x = it) && !(w.on it && decide (x ∈ curvesOf w it))) := by
  cases it with
  | curve i j => simp [Win.deactivate, deactivateCurve_on, curvesOf]
  | plot i =>
    simp only [Win.deactivate]
    by_cases h : w.on (.plot i) = true
    · rw [if_pos h, deactivateBuffers_on, deactivateCurves_on]
      simp only [h, Bool.true_and]
      congr 1
      · by_cases e : x = .plot i
        · subst e; simp
        · simp [e]
    · rw [if_neg h]
      have h' : w.on (.plot i) = false := by simpa using h
      by_cases e : x = .plot i
      · subst e; simp [h']
      · simp [e, h']

theorem deactivates_off (x : Item) (l : List Item) : ∀ w : Win, w.on x = false → (l.foldl Win.deactivate w).on x = false := by
  induction l with
  | nil => intro w h; exact h
  | cons it l ih =>
    intro w h
    exact ih _ (by rw [deactivate_on, h]; simp)

theorem deactivates_mem (x : Item) (l : List Item) : ∀ w : Win, x ∈ l → (l.foldl Win.deactivate w).on x = false := by
  induction l with
  | nil => intro w h; simp at h
  | cons it l ih =>
    intro w h
    rcases List.mem_cons.1 h with e | e
    · subst e
      exact deactivates_off _ _ (w.deactivate x) (by rw [deactivate_on]; simp)
    · exact ih _ e

/-- **C117** (the curves in the window). In whatever state the window is: a click on `ALL` marks every curve, or none if `ALL` was marked; a
click on a curve changes the mark of this curve; a click on a marked plot removes the marks of its curves; no other click changes the
mark of a curve. -/
theorem C117_curves (w : Win) (i j : ℕ) (hi : i < w.n) (hj : j < (w.bufs i).length) :
    (w.clicked .all).on (.curve i j) = !w.all ∧ (w.clicked (.item (.curve i j))).on (.curve i j) = !w.on (.curve i j) ∧
    (w.clicked (.item (.plot i))).on (.curve i j) = (w.on (.curve i j) && !w.on (.plot i)) ∧
    (∀ k, k ≠ i → (w.clicked (.item (.plot k))).on (.curve i j) = w.on (.curve i j)) ∧
    ∀ k l, (k, l) ≠ (i, j) → (w.clicked (.item (.curve k l))).on (.curve i j) = w.on (.curve i j) := by
  have hm : Item.curve i j ∈ w.items := by
    simp only [Win.items, List.mem_flatMap, List.mem_range]
    exact ⟨i, hi, by simpa using hj⟩
  refine ⟨?_, ?_, ?_, fun k hk => ?_, fun k l hkl => ?_⟩
  · simp only [Win.clicked]
    cases ha : w.all with
    | true => simpa using deactivates_mem _ _ _ hm
    | false =>
      simp only [Bool.false_eq_true, if_false, Bool.not_false]
      rw [activates_on]
      simp [hm]
  · simp only [Win.clicked]
    by_cases h : w.on (.curve i j) = true
    · rw [if_pos h, deactivate_on]; simp [curvesOf, h]
    · rw [if_neg h, activate_on]; simp at h; simp [h]
  · simp only [Win.clicked]
    by_cases h : w.on (.plot i) = true
    · rw [if_pos h, deactivate_on]; simp [curvesOf, h, hj]
    · rw [if_neg h, activate_on]; simp at h; simp [h]
  · simp only [Win.clicked]
    by_cases h : w.on (.plot k) = true
    · rw [if_pos h, deactivate_on]; simp [curvesOf, hk]
    · rw [if_neg h, activate_on]; simp
  · have hne : Item.curve i j ≠ Item.curve k l := fun e => hkl (by cases e; rfl)
    simp only [Win.clicked]
    by_cases h : w.on (.curve k l) = true
    · rw [if_pos h, deactivate_on]; simp [curvesOf, hne]
    · rw [if_neg h, activate_on]; simp [hne]

/-- The window of a task with two action components. -/
example : 3 < (Plots.new 2 1 5).win.n ∧ 1 < ((Plots.new 2 1 5).win.bufs 3).length := by
  obtain ⟨h, -, -⟩ := new_holds 2 1 5
  have h1 := congrArg List.length (h.tracks 3)
  refine ⟨by rw [h.five]; omega, ?_⟩
  rw [h1]
  simp [deques]

end Verif.Misc.Callbacks
