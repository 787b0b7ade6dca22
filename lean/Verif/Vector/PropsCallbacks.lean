/-
C175: callbacks with parallel environments.
-/
import Verif.Vector.LemmasCallbacks
import Verif.Vector.Props

namespace Verif.Vector.Callbacks

open Verif.Dataset (Row closeEnd)

variable {W O X A R P T : Type}

/-- C175, observers. Callbacks that only use their own memory do not change anything in a run: for all environments,
agents and policies, all parameters and any number of iterations, the run with them is the run without callbacks, with
the same transitions, fits and errors. -/
theorem C175_observers (sys : Sys W X A R P T) (cb : Callbacks (W × O) X A R P T) (ho : Observers cb) (c : Cfg)
    (cap fuel : Nat) (w : W) (o : O) (x0 : Nat → X) (p0 : Nat → P) :
    (loop (beside O sys) cb c cap fuel (start (w, o) x0 p0)).map (fun r => (r.1, St.base r.2)) =
      Vector.loop sys c cap fuel (start w x0 p0) := by
  have key : ∀ (fuel : Nat) (s : St (W × O) X A R P T),
      (loop (beside O sys) cb c cap fuel s).map (fun r => (r.1, St.base r.2)) =
        Vector.loop sys c cap fuel (St.base s) := by
    intro fuel
    induction fuel with
    | zero => intro s; rfl
    | succ fuel ih =>
      intro s
      simp only [loop, Vector.loop, moveRequired_base]
      by_cases hm : moveRequired c s = true
      · simp only [hm, if_true]
        rw [← iter_beside sys cb ho]
        rcases iter (beside O sys) cb c cap s with e | t
        · rfl
        · exact ih t
      · simp only [hm]
        rfl
  exact key fuel _

example : Observers (journal : Callbacks (List Nat × List (Call Nat Unit Nat Unit Nat)) Nat Unit Nat Unit Nat) ∧
    (loop (beside _ (demo true)) journal learnEp 6 12 (start ([0, 0], []) (fun _ => 0) (fun _ => ()))).toOption.map
      (fun r => (r.1, r.2.fits.length, r.2.w.2.length)) = some (true, 2, 6) :=
  ⟨journal_observers, by decide +kernel⟩

/-- C175, calls. For all environments, agents and policies, all parameters and any number of iterations: the step
callback is called once per step of the environments, with the samples of all of them, in order; the fit callbacks are
called once per fit, with a dataset from which `flatten(n_steps_per_fit)` gives what the fit has received; and each step
call comes after the calls of exactly the fits that came before its step. -/
theorem C175_calls (sys : Sys W X A R P T) (c : Cfg) (cap fuel : Nat) (w : W) (x0 : Nat → X) (p0 : Nat → P)
    (b : Bool) (s : St (W × List (Call X A R P T)) X A R P T)
    (h : loop (beside _ sys) journal c cap fuel (start (w, []) x0 p0) = .ok (b, s)) :
    stepCalls 0 s.w.2 = s.log.map (fun e => (e.2.1, e.2.2)) ∧
    fitCalls c.n c.perFitSteps s.w.2 = s.fits.map some := by
  have key := loop_inv (beside _ sys) journal c cap
    (fun s => stepCalls 0 s.w.2 = s.log.map (fun e => (e.2.1, e.2.2)) ∧
      fitCalls c.n c.perFitSteps s.w.2 = s.fits.map some) ?_ fuel (start (w, []) x0 p0) ⟨rfl, rfl⟩ b s h
  · exact key
  intro s t ⟨h1, h2⟩ _ hi
  obtain ⟨s1, s2, row, w', hr, hsp, hst, hmem, rfl⟩ := iter_cases sys journal journal_observers c cap s t hi
  obtain ⟨hl, hf⟩ := reset_same sys c _ _ hr
  have hlog : s2.log = s.log ++ [(s1.mask, row, s.fits.length)] := by
    have := hst.log
    rw [hl, hf] at this
    exact this
  have hfits : s2.fits = s.fits := by
    have := hst.fits
    rw [hf] at this
    exact this
  have hmem' : s2.w.2 = s.w.2 ++ [.step row] := hmem
  have hcount : fitCount s.w.2 = s.fits.length := by
    rw [← fitCalls_length c.n c.perFitSteps, h2, List.length_map]
  have g1 : stepCalls 0 s2.w.2 = s2.log.map (fun e => (e.2.1, e.2.2)) := by
    rw [hmem', stepCalls_append, h1, hlog, hcount]
    simp [stepCalls]
  have g2 : fitCalls c.n c.perFitSteps s2.w.2 = s2.fits.map some := by
    rw [hmem', fitCalls_append, h2, hfits]
    simp [fitCalls]
  rcases hreq : fitRequired c s2 with _ | _
  · rw [fitPart_idle _ _ _ _ _ hreq]
    exact ⟨g1, g2⟩
  · obtain ⟨w2, hm2⟩ := fitPart_mem sys journal c cap s2 hreq
    have hm3 : (fitPart (beside _ sys) journal c cap s2).w.2 = s2.w.2 ++
        [.fit (flatten c.n c.perFitSteps s2.data s2.masks s2.thetas).2 s2.masks s2.thetas] := hm2
    have hb := fitPart_beside sys journal journal_observers c cap s2
    have hfl := fitPart_fits sys c cap (St.base s2) hreq
    rw [← hb] at hfl
    have e1 : (fitPart (beside _ sys) journal c cap s2).fits = s2.fits ++
        [(flatten c.n c.perFitSteps s2.data s2.masks s2.thetas).1.getD ([], [])] := hfl.1
    have e2 : (fitPart (beside _ sys) journal c cap s2).log = s2.log := hfl.2
    rw [hm3, e1, e2, stepCalls_append, fitCalls_append, g1, g2]
    constructor
    · simp [stepCalls]
    · have hd : s2.data = s1.data ++ [row] := hst.data
      have hlen : s2.data.length ≠ 0 := by rw [hd]; simp
      have hsome : ∃ x, (flatten c.n c.perFitSteps s2.data s2.masks s2.thetas).1 = some x := by
        simp only [flatten, hlen, if_false]
        exact ⟨_, rfl⟩
      obtain ⟨x, hx⟩ := hsome
      simp only [fitCalls, flatten_again, hx, List.map_append, List.map_cons, List.map_nil, Option.getD_some]

/-- The rows and fits that the callbacks see in the first example of `C24_exactly_once_partial`. -/
example : (loop (beside _ (demo true)) journal learnEp 6 12 (start ([0, 0], []) (fun _ => 0) (fun _ => ()))).toOption.map
      (fun r => ((stepCalls 0 r.2.w.2).map (fun p => ((p.1 0).state, (p.1 1).state, p.2)),
        (fitCalls 2 none r.2.w.2).map (fun f => f.map (fun x => brief x.1)))) =
    some ([(0, 10, 0), (1, 11, 0), (0, 10, 1), (1, 11, 1)],
      [some [(0, true), (10, false), (11, true)], some [(0, true), (10, false), (11, true)]]) := by decide +kernel

/-- C175, the part of the claim about `CollectDataset` that holds. In `learn` with `n_episodes_per_fit`, and in
`learn(n_steps, n_steps_per_fit=k)` with `k` a multiple of the number of environments, after any number of iterations it
holds exactly what the fits have received, one after the other, and so every transition collected before the last fit
exactly once, environment by environment within a fit; before the first fit it holds nothing. Missing: the other numbers
of steps per fit, for which the claim is false (`C175_collect_refuted`). -/
theorem C175_collect_partial (sys : Sys W X A R P T) (c : Cfg) (cap : Nat) (w : W) (x0 : Nat → X) (p0 : Nat → P)
    (fuel : Nat) (hlearn : c.learning = true) (hn : 1 < c.n) (hH : ∀ H, c.horizon = some H → 0 < H)
    (hone : (c.nSteps = none ∧ ∃ ne, c.nEpisodes = some ne) ∨ (c.nEpisodes = none ∧ ∃ ns, c.nSteps = some ns))
    (hmode : (∃ k, c.perFitEps = some k ∧ 0 < k ∧ c.perFitSteps = none) ∨
      (∃ k, c.perFitSteps = some k ∧ 0 < k ∧ c.n ∣ k ∧ c.nEpisodes = none ∧ c.perFitEps = none))
    (hcap : capacity c.horizon c.perFitSteps c.perFitEps = some cap) :
    ∃ b s, loop (beside _ sys) (collector c.n) c cap fuel (start (w, none) x0 p0) = .ok (b, s) ∧
      s.w.2 = (if s.fits = [] then none else some ((s.fits.map (·.1)).flatten, (s.fits.map (·.2)).flatten)) ∧
      s.fits.map (·.1) = (List.range s.fits.length).map (fun f => noPolicyStates (blocks c.n (between s.log f))) := by
  have hg : Good c := by
    refine { pos := hn, horizon := hH, oneFit := ?_, fitPos := ?_, oneMove := hone, noStale := Or.inl hlearn }
    · rcases hmode with ⟨k, h1, h2, h3⟩ | ⟨k, h1, h2, h3, h4, h5⟩
      · exact Or.inl h3
      · exact Or.inr h5
    · intro k hk
      rcases hmode with ⟨k', h1, h2, h3⟩ | ⟨k', h1, h2, h3, h4, h5⟩
      · rw [h1, Option.some.injEq] at hk; omega
      · simp [h5] at hk
  have hc : Clean c := by
    rcases hmode with ⟨k, h1, h2, h3⟩ | ⟨k, h1, h2, h3, h4, h5⟩
    · exact Or.inr (Or.inl h3)
    · exact Or.inr (Or.inr ⟨k, h1, h2, h3, h4⟩)
  have hr : Room c cap := by
    rcases hmode with ⟨k, h1, h2, h3⟩ | ⟨k, h1, h2, h3, h4, h5⟩
    · rw [h1, h3] at hcap
      rcases hh : c.horizon with _ | H
      · simp [capacity, hh] at hcap
      · simp only [capacity, hh, Option.map_some, Option.some.injEq] at hcap
        exact Or.inr (Or.inr (Or.inl ⟨H, k, hlearn, hh, h1, by omega⟩))
    · rw [h1, h5] at hcap
      simp only [capacity, Option.some.injEq] at hcap
      exact Or.inr (Or.inr (Or.inr ⟨k, hlearn, h1, h2, by omega⟩))
  have hnl : c.learning = false → False := fun h => by simp [h] at hlearn
  obtain ⟨b, s', h1, h2, _⟩ := loop_all sys c cap hg hc hr fuel
    (start w x0 p0) ⟨start_inv _ hg w x0 p0, start_del _ w x0 p0, start_traj _ w x0 p0⟩ (fun h => (hnl h).elim)
  have hobs := C175_observers sys (collector c.n) (collector_observers c.n) c cap fuel w none x0 p0
  rw [h1] at hobs
  rcases hloop : loop (beside _ sys) (collector c.n) c cap fuel (start (w, none) x0 p0) with e | ⟨b', s⟩
  · rw [hloop] at hobs; cases hobs
  rw [hloop] at hobs
  simp only [Except.map, Except.ok.injEq, Prod.mk.injEq] at hobs
  obtain ⟨rfl, rfl⟩ := hobs
  refine ⟨b', s, rfl, ?_, ?_⟩
  · have key := loop_inv (beside _ sys) (collector c.n) c cap
      (fun s => All c (St.base s) ∧ closeEnd (s.fits.map (·.1)).flatten = (s.fits.map (·.1)).flatten ∧
        s.w.2 = (if s.fits = [] then none else some ((s.fits.map (·.1)).flatten, (s.fits.map (·.2)).flatten)))
      ?_ fuel (start (w, none) x0 p0)
      ⟨⟨start_inv _ hg w x0 p0, start_del _ w x0 p0, start_traj _ w x0 p0⟩, rfl, rfl⟩ b' s hloop
    · exact key.2.2
    intro s t ⟨ha, hcl, hm⟩ hmove hi
    have hall : All c (St.base t) := by
      obtain ⟨t', ht', hat, _⟩ := iter_all sys c cap (St.base s) hg hc hr ha (fun h => (hnl h).elim) hmove
      rw [← iter_beside sys (collector c.n) (collector_observers c.n), hi] at ht'
      simp only [Except.map, Except.ok.injEq] at ht'
      rw [ht']; exact hat
    refine ⟨hall, ?_⟩
    obtain ⟨s1, s2, row, w', hr1, hsp, hst, hmem, rfl⟩ :=
      iter_cases sys (collector c.n) (collector_observers c.n) c cap s t hi
    obtain ⟨s1', hr1', hmid, hbeg⟩ := resetPart_inv sys c (St.base s) hg ha.inv hmove
    rw [hr1] at hr1'
    simp only [Except.ok.injEq] at hr1'
    subst hr1'
    obtain ⟨hl, hf⟩ := reset_same sys c _ _ hr1
    have hfits : s2.fits = s.fits := by
      have := hst.fits
      rw [hf] at this
      exact this
    have hmem' : s2.w.2 = s.w.2 := hmem
    rcases hreq : fitRequired c s2 with _ | _
    · rw [fitPart_idle _ _ _ _ _ hreq, hmem', hfits]
      exact ⟨hcl, hm⟩
    · have hd2 := step_del ha.del hmid hbeg hst
      obtain ⟨th, hx, hy⟩ := flatten_whole c (St.base s2) hg hc hd2 (by rw [hst.data]; simp)
        (by
          intro k hlr hk h0
          have := ha.inv.roomS hlr k hk
          have hcle := cnt_le (St.base s1).mask c.n
          rw [hst.curS, hbeg.curS, hmid.run]
          omega) hreq
      obtain ⟨w2, hm2⟩ := fitPart_mem sys (collector c.n) c cap s2 hreq
      have hm3 : (fitPart (beside _ sys) (collector c.n) c cap s2).w.2 = collect c.n s2.w.2
          (flatten c.n c.perFitSteps s2.data s2.masks s2.thetas).2 s2.masks s2.thetas := hm2
      have hfl := fitPart_fits sys c cap (St.base s2) hreq
      rw [← fitPart_beside sys (collector c.n) (collector_observers c.n)] at hfl
      generalize hB : noPolicyStates (blocks c.n (between (St.base s2).log (St.base s2).fits.length)) = B at hx hy
      have hBc : closeEnd B = B := by rw [← hB, closeEnd_noPolicyStates, blocks_closed]
      have e1 : (fitPart (beside _ sys) (collector c.n) c cap s2).fits = s.fits ++ [(B, th)] := by
        have := hfl.1
        rw [hx] at this
        rw [← hfits]
        exact this
      have hy' : (flatten c.n none s2.data s2.masks s2.thetas).1 = some (B, th) := hy
      rw [hm3, e1, hmem', hm]
      constructor
      · simp only [List.map_append, List.map_cons, List.map_nil, List.flatten_append, List.flatten_cons,
          List.flatten_nil, List.append_nil]
        exact closeEnd_closed_append hcl hBc
      · simp only [collect, flatten_again, hy']
        by_cases hnil : s.fits = []
        · simp [hnil]
        · simp only [hnil, if_false, joinRows_closed hcl hBc]
          simp
  · apply List.ext_getElem?
    intro f
    simp only [List.getElem?_map]
    by_cases hlt : f < s.fits.length
    · obtain ⟨batch, hb1, hb2⟩ := h2.del.done f hlt
      have hb1' : s.fits[f]? = some batch := hb1
      have hb2' : batch.1 = noPolicyStates (blocks c.n (between s.log f)) := hb2
      rw [hb1', List.getElem?_range hlt]
      simp [hb2']
    · rw [List.getElem?_eq_none (by omega), List.getElem?_eq_none (by simp; omega)]
      rfl

def collected {W : Type} (r : Except Err (Bool × St (W × Option (List (Row Nat Unit Nat Unit) × List Nat))
    Nat Unit Nat Unit Nat)) : Option (Option (List (Nat × Bool))) :=
  r.toOption.map (fun r => r.2.w.2.map (fun x => brief x.1))

example : collected (loop (beside _ (demo true)) (collector 2) learnEp 6 12
      (start ([0, 0], none) (fun _ => 0) (fun _ => ()))) =
    some (some [(0, true), (10, false), (11, true), (0, true), (10, false), (11, true)]) := by decide +kernel

/-- The claim about `CollectDataset` fails with two environments and `n_steps_per_fit=3`: in eight steps that all
differ it collects ten transitions, those from states 1 and 11 twice, while the two fits have received three each (see
`C24_duplicate_refuted`). -/
theorem C175_collect_refuted :
    collected (loop (beside _ (counter true)) (collector 2) (learnSteps 3) 3 4
        (start ([0, 0], none) (fun _ => 0) (fun _ => ()))) =
      some (some [(0, false), (1, true), (10, false), (11, true),
        (1, true), (2, false), (3, true), (11, true), (12, false), (13, true)]) ∧
    (loop (beside _ (counter true)) (collector 2) (learnSteps 3) 3 4
        (start ([0, 0], none) (fun _ => 0) (fun _ => ()))).toOption.map
          (fun r => (r.2.totS, r.2.fits.map (fun f => f.1.length))) = some (8, [3, 3]) := by decide +kernel

/-- A step callback cannot tell the transitions from the samples of the environments that are not being stepped: it is
not handed the mask. Here the second step leaves the first environment idle, and the callback receives a sample of it
with the reward 7 found in uninitialised memory, although every reward of every environment is 1 and the fits only
receive such rewards. -/
theorem C175_step_refuted :
    (loop (beside _ { demo true with noReward := 7 }) journal learnEp 6 12
        (start ([0, 0], []) (fun _ => 0) (fun _ => ()))).toOption.map
      (fun r => ((stepCalls 0 r.2.w.2).map (fun p => [(p.1 0).reward, (p.1 1).reward]),
        r.2.fits.map (fun f => f.1.map (·.reward)))) =
    some ([[1, 1], [7, 1], [1, 1], [7, 1]], [[1, 1, 1], [1, 1, 1]]) := by decide +kernel

end Verif.Vector.Callbacks
