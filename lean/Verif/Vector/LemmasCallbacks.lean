/-
Lemmas about the vectorized loop with callbacks: it follows the loop without callbacks.
-/
import Verif.Vector.SpecCallbacks
import Verif.Vector.Lemmas4

namespace Verif.Vector.Callbacks

open Verif.Dataset (Row closeEnd setLast)

variable {W O X A R P T : Type}

theorem resetAll_beside (sys : Sys W X A R P T) (m : Nat → Bool) : ∀ (n : Nat) (v : W × O) (xs : Nat → X),
    resetAll (beside O sys) m n v xs = (((resetAll sys m n v.1 xs).1, v.2), (resetAll sys m n v.1 xs).2)
  | 0, v, xs => rfl
  | n + 1, v, xs => by
    simp only [resetAll, resetAll_beside sys m n v xs]
    split <;> rfl

theorem stepAll_beside (sys : Sys W X A R P T) (m : Nat → Bool) (act : Nat → A) :
    ∀ (n : Nat) (v : W × O) (xs : Nat → X),
    stepAll (beside O sys) m act n v xs = (((stepAll sys m act n v.1 xs).1, v.2), (stepAll sys m act n v.1 xs).2)
  | 0, v, xs => rfl
  | n + 1, v, xs => by
    simp only [stepAll, stepAll_beside sys m act n v xs]
    split <;> rfl

theorem resetPart_beside (sys : Sys W X A R P T) (c : Cfg) (s : St (W × O) X A R P T) :
    (resetPart (beside O sys) c s).map St.base = resetPart sys c (St.base s) ∧
    ∀ t, resetPart (beside O sys) c s = .ok t → t.w.2 = s.w.2 := by
  unfold resetPart
  have e : anyOf (St.base s).last c.n = anyOf s.last c.n := rfl
  rw [e]
  split
  · have e2 : getMask c (St.base s).running (St.base s).last (St.base s).totE (St.base s).curE =
        getMask c s.running s.last s.totE s.curE := rfl
    rw [e2]
    rcases getMask c s.running s.last s.totE s.curE with e | mask
    · exact ⟨rfl, fun t h => by cases h⟩
    · simp only [resetAll_beside]
      refine ⟨rfl, fun t h => ?_⟩
      cases h
      rfl
  · refine ⟨rfl, fun t h => ?_⟩
    cases h
    rfl

theorem stepPart_beside (sys : Sys W X A R P T) (cb : Callbacks (W × O) X A R P T) (ho : Observers cb) (c : Cfg)
    (cap : Nat) (s : St (W × O) X A R P T) :
    (stepPart (beside O sys) cb c cap s).map St.base = Vector.stepPart sys c cap (St.base s) ∧
    ∀ t, stepPart (beside O sys) cb c cap s = .ok t → ∃ row w, Stepped c (St.base s) (St.base t) row ∧
      t.w.2 = (cb.step (w, s.w.2) row).2 := by
  unfold stepPart Vector.stepPart
  simp only [stepAll_beside, afterStep]
  have e : (St.base s).data = s.data := rfl
  rw [e]
  by_cases h1 : s.data.length < cap
  · by_cases h2 : c.n = 1
    · simp only [h1, h2, if_true]
      exact ⟨rfl, fun t h => by cases h⟩
    · simp only [h1, h2, if_true, if_false]
      constructor
      · simp only [Except.map, St.base, ho.step]
        rfl
      · intro t h
        cases h
        refine ⟨_, _, ?_, rfl⟩
        exact {
          data := rfl, masks := rfl, log := rfl, fits := rfl, running := rfl, mask := rfl, thetas := rfl, last := rfl
          state := rfl, envState := rfl, rowState := fun _ => rfl, rowLast := fun _ => rfl
          idle := fun i hi => stepAll_keep sys s.mask _ c.n _ s.envState i hi
          episodeSteps := rfl, totS := rfl, curS := rfl, totE := rfl, curE := rfl }
  · simp only [h1, if_false]
    exact ⟨rfl, fun t h => by cases h⟩

theorem callFits_fst (fs : List (W × O → List (Nat → Row X A R P) → List (Nat → Bool) → (Nat → List T) → W × O))
    (h : ∀ f ∈ fs, ∀ v data masks thetas, (f v data masks thetas).1 = v.1) (v : W × O)
    (data : List (Nat → Row X A R P)) (masks : List (Nat → Bool)) (thetas : Nat → List T) :
    (callFits fs v data masks thetas).1 = v.1 := by
  induction fs generalizing v with
  | nil => rfl
  | cons f fs ih =>
    have := ih (fun g hg => h g (List.mem_cons_of_mem _ hg)) (f v data masks thetas)
    simp only [callFits, List.foldl_cons] at this ⊢
    rw [this]
    exact h f List.mem_cons_self v data masks thetas

theorem fitRequired_base (c : Cfg) (s : St (W × O) X A R P T) : fitRequired c (St.base s) = fitRequired c s := rfl

theorem moveRequired_base (c : Cfg) (s : St (W × O) X A R P T) : moveRequired c (St.base s) = moveRequired c s := rfl

theorem fitPart_beside (sys : Sys W X A R P T) (cb : Callbacks (W × O) X A R P T) (ho : Observers cb) (c : Cfg)
    (cap : Nat) (s : St (W × O) X A R P T) :
    St.base (fitPart (beside O sys) cb c cap s) = Vector.fitPart sys c cap (St.base s) := by
  unfold fitPart Vector.fitPart
  rw [fitRequired_base]
  split
  · simp only [afterFit]
    split <;> simp only [St.base, callFits_fst _ ho.fit] <;> rfl
  · rfl

theorem fitPart_mem (sys : Sys W X A R P T) (cb : Callbacks (W × O) X A R P T) (c : Cfg) (cap : Nat)
    (s : St (W × O) X A R P T) (h : fitRequired c s = true) : ∃ w, (fitPart (beside O sys) cb c cap s).w.2 =
      (callFits cb.fit (w, s.w.2) (flatten c.n c.perFitSteps s.data s.masks s.thetas).2 s.masks s.thetas).2 := by
  unfold fitPart
  simp only [h, if_true, afterFit]
  split <;> exact ⟨_, rfl⟩

theorem fitPart_fits (sys : Sys W X A R P T) (c : Cfg) (cap : Nat)
    (s : St W X A R P T) (h : fitRequired c s = true) : (Vector.fitPart sys c cap s).fits =
      s.fits ++ [(flatten c.n c.perFitSteps s.data s.masks s.thetas).1.getD ([], [])] ∧
      (Vector.fitPart sys c cap s).log = s.log := by
  unfold Vector.fitPart
  simp only [h, if_true, afterFit]
  split <;> exact ⟨rfl, rfl⟩

theorem fitPart_idle (sys : Sys W X A R P T) (cb : Callbacks W X A R P T) (c : Cfg) (cap : Nat)
    (s : St W X A R P T) (h : fitRequired c s = false) : fitPart sys cb c cap s = s := by
  simp [fitPart, h]

theorem iter_beside (sys : Sys W X A R P T) (cb : Callbacks (W × O) X A R P T) (ho : Observers cb) (c : Cfg)
    (cap : Nat) (s : St (W × O) X A R P T) :
    (iter (beside O sys) cb c cap s).map St.base = Vector.iter sys c cap (St.base s) := by
  unfold iter Vector.iter
  rw [← (resetPart_beside sys c s).1]
  rcases resetPart (beside O sys) c s with e | t
  · rfl
  · simp only [Except.map]
    rw [← (stepPart_beside sys cb ho c cap t).1]
    rcases stepPart (beside O sys) cb c cap t with e | u
    · rfl
    · simp only [Except.map, fitPart_beside sys cb ho]

/-- What an iteration does: a reset, a step and possibly a fit, and what the memory of the callbacks becomes. -/
theorem iter_cases (sys : Sys W X A R P T) (cb : Callbacks (W × O) X A R P T) (ho : Observers cb) (c : Cfg)
    (cap : Nat) (s t : St (W × O) X A R P T) (h : iter (beside O sys) cb c cap s = .ok t) :
    ∃ (s1 s2 : St (W × O) X A R P T) (row : Nat → Row X A R P) (w : W), resetPart sys c (St.base s) = .ok (St.base s1) ∧
      Vector.stepPart sys c cap (St.base s1) = .ok (St.base s2) ∧ Stepped c (St.base s1) (St.base s2) row ∧
      s2.w.2 = (cb.step (w, s.w.2) row).2 ∧ t = fitPart (beside O sys) cb c cap s2 := by
  unfold iter at h
  have hr := resetPart_beside sys c s
  rcases hrp : resetPart (beside O sys) c s with e | s1
  · rw [hrp] at h; cases h
  · rw [hrp] at h
    have hs := stepPart_beside sys cb ho c cap s1
    rcases hsp : stepPart (beside O sys) cb c cap s1 with e | s2
    · simp only [hsp] at h; cases h
    · simp only [hsp, Except.ok.injEq] at h
      obtain ⟨row, w, h1, h2⟩ := hs.2 s2 hsp
      refine ⟨s1, s2, row, w, ?_, ?_, h1, ?_, h.symm⟩
      · rw [← hr.1, hrp]; rfl
      · rw [← hs.1, hsp]; rfl
      · rw [h2, hr.2 s1 hrp]

theorem reset_same (sys : Sys W X A R P T) (c : Cfg) (s s1 : St W X A R P T) (h : resetPart sys c s = .ok s1) :
    s1.log = s.log ∧ s1.fits = s.fits := by
  unfold resetPart at h
  split at h
  · rcases hm : getMask c s.running s.last s.totE s.curE with e | m
    · rw [hm] at h; cases h
    · rw [hm] at h
      cases h
      exact ⟨rfl, rfl⟩
  · cases h
    exact ⟨rfl, rfl⟩

/-- An invariant of an iteration is an invariant of the loop. -/
theorem loop_inv {V : Type} (sys : Sys V X A R P T) (cb : Callbacks V X A R P T) (c : Cfg) (cap : Nat)
    (I : St V X A R P T → Prop)
    (hstep : ∀ s t, I s → moveRequired c s = true → iter sys cb c cap s = .ok t → I t) :
    ∀ (fuel : Nat) (s : St V X A R P T), I s → ∀ b t, loop sys cb c cap fuel s = .ok (b, t) → I t
  | 0, s, hs, b, t, h => by
    simp only [loop, Except.ok.injEq, Prod.mk.injEq] at h
    rw [← h.2]; exact hs
  | fuel + 1, s, hs, b, t, h => by
    simp only [loop] at h
    split at h
    · rename_i hm
      rcases hi : iter sys cb c cap s with e | u
      · rw [hi] at h; cases h
      · rw [hi] at h
        exact loop_inv sys cb c cap I hstep fuel u (hstep s u hs hm hi) b t h
    · simp only [Except.ok.injEq, Prod.mk.injEq] at h
      rw [← h.2]; exact hs

theorem closeLast_closeLast (d : List (Nat → Row X A R P)) : closeLast (closeLast d) = closeLast d := by
  rcases h : d.getLast? with _ | r
  · simp [closeLast, h]
  · simp [closeLast, h]

/-- Flattening does not change what a later `flatten` gives. -/
theorem flatten_again (n : Nat) (k k' : Option Nat) (d : List (Nat → Row X A R P)) (m : List (Nat → Bool))
    (th : Nat → List T) : (flatten n k' (flatten n k d m th).2 m th).1 = (flatten n k' d m th).1 := by
  by_cases h : d.length = 0
  · simp [flatten, h]
  · simp only [flatten, h, if_false, closeLast_length, closeLast_closeLast]

/-! ### the journal -/

def fitCount : List (Call X A R P T) → Nat
  | [] => 0
  | .step _ :: l => fitCount l
  | .fit _ _ _ :: l => fitCount l + 1

theorem fitCalls_append (n : Nat) (p : Option Nat) (l l' : List (Call X A R P T)) :
    fitCalls n p (l ++ l') = fitCalls n p l ++ fitCalls n p l' := by
  induction l with
  | nil => rfl
  | cons a l ih => cases a <;> simp [fitCalls, ih]

theorem stepCalls_append (k : Nat) (l l' : List (Call X A R P T)) :
    stepCalls k (l ++ l') = stepCalls k l ++ stepCalls (k + fitCount l) l' := by
  induction l generalizing k with
  | nil => rfl
  | cons a l ih =>
    cases a with
    | step r => simp [stepCalls, ih, fitCount]
    | fit d m t =>
      simp only [List.cons_append, stepCalls, ih, fitCount]
      rw [show k + 1 + fitCount l = k + (fitCount l + 1) by omega]

theorem fitCalls_length (n : Nat) (p : Option Nat) (l : List (Call X A R P T)) :
    (fitCalls n p l).length = fitCount l := by
  induction l with
  | nil => rfl
  | cons a l ih => cases a <;> simp [fitCalls, fitCount, ih]

theorem journal_observers : Observers (journal : Callbacks (W × List (Call X A R P T)) X A R P T) where
  step := fun _ _ => rfl
  fit := by
    intro f hf v d m t
    simp only [journal, List.mem_singleton] at hf
    subst hf
    rfl

theorem collector_observers (n : Nat) :
    Observers (collector n : Callbacks (W × Option (List (Row X A R Unit) × List T)) X A R P T) where
  step := fun _ _ => rfl
  fit := by
    intro f hf v d m t
    simp only [collector, List.mem_singleton] at hf
    subst hf
    rfl

/-! ### collecting -/

theorem closeEnd_closed_append {a b : List (Row X A R P)} (ha : closeEnd a = a) (hb : closeEnd b = b) :
    closeEnd (a ++ b) = a ++ b := by
  rcases List.eq_nil_or_concat b with rfl | ⟨l, r, rfl⟩
  · simpa using ha
  · simp only [closeEnd, List.concat_eq_append, ← List.append_assoc, List.dropLast_concat, List.getLast?_concat,
      Option.map_some, Option.toList_some] at hb ⊢
    rw [List.append_assoc, hb, List.append_assoc]

theorem closeEnd_idem (a : List (Row X A R P)) : closeEnd (closeEnd a) = closeEnd a := by
  rcases List.eq_nil_or_concat a with rfl | ⟨l, r, rfl⟩
  · rfl
  · simp [closeEnd, setLast]

theorem closeEnd_flatten (ls : List (List (Row X A R P))) (h : ∀ l ∈ ls, closeEnd l = l) :
    closeEnd ls.flatten = ls.flatten := by
  induction ls with
  | nil => rfl
  | cons a ls ih =>
    simp only [List.flatten_cons]
    exact closeEnd_closed_append (h a List.mem_cons_self) (ih (fun l hl => h l (List.mem_cons_of_mem _ hl)))

theorem closeEnd_noPolicyStates (l : List (Row X A R P)) :
    closeEnd (noPolicyStates l) = noPolicyStates (closeEnd l) := by
  rcases List.eq_nil_or_concat l with rfl | ⟨l, r, rfl⟩
  · rfl
  · simp [closeEnd, noPolicyStates, setLast]

theorem blocks_closed (n : Nat) (h : History X A R P) : closeEnd (blocks n h) = blocks n h := by
  apply closeEnd_flatten
  intro l hl
  obtain ⟨i, _, rfl⟩ := List.mem_map.mp hl
  exact closeEnd_idem _

theorem joinRows_closed {a b : List (Row X A R Unit)} (ha : closeEnd a = a) (hb : closeEnd b = b) :
    joinRows a b = a ++ b := by
  unfold joinRows
  split
  · simpa using hb
  · rw [ha]

/-- At a fit of a run in which no fit leaves transitions behind, the whole dataset is what the fit receives. -/
theorem flatten_whole (c : Cfg) (s : St W X A R P T) (hg : Good c) (hc : Clean c) (hd : Del c s) (hne : s.data ≠ [])
    (hprev : ∀ k, c.learning = true → c.perFitSteps = some k → 0 < k → s.curS < k + c.n)
    (hfit : fitRequired c s = true) :
    ∃ th, (flatten c.n c.perFitSteps s.data s.masks s.thetas).1 =
        some (noPolicyStates (blocks c.n (between s.log s.fits.length)), th) ∧
      (flatten c.n none s.data s.masks s.thetas).1 =
        some (noPolicyStates (blocks c.n (between s.log s.fits.length)), th) := by
  have hlearn : c.learning = true := by
    rcases Bool.eq_false_or_eq_true c.learning with h | h
    · exact h
    · simp [fitRequired, h] at hfit
  have hlen : s.data.length ≠ 0 := by simpa using hne
  have hpack : pack (closeLast s.data) s.masks c.n = blocks c.n (between s.log s.fits.length) := by
    rw [hd.data, hd.masks]
    exact pack_close c.n _ (hd.stops _)
  refine ⟨((List.range c.n).map s.thetas).flatten, ?_, ?_⟩
  · rcases hk : c.perFitSteps with _ | k
    · simp only [flatten, hlen, if_false, hpack]
      rfl
    · have hclean : 0 < k ∧ c.n ∣ k ∧ c.nEpisodes = none := by
        rcases hc with h | h | ⟨k', h1, h2, h3, h4⟩
        · simp [h] at hlearn
        · simp [h] at hk
        · rw [hk, Option.some.injEq] at h1
          subst h1
          exact ⟨h2, h3, h4⟩
      obtain ⟨h0, hdvd, hnE⟩ := hclean
      have hpf : c.perFitEps = none := by
        rcases hg.oneFit with h | h
        · simp [hk] at h
        · exact h
      have hmult := hd.mult hnE hpf
      have hlt := hprev k hlearn hk h0
      have hle : s.curS ≤ k := by
        obtain ⟨a, ha⟩ := hdvd
        have hpos : 0 < c.n := by have := hg.pos; omega
        rw [hmult, ha] at hlt ⊢
        have h2 : s.data.length < a + 1 := by
          have : c.n * s.data.length < c.n * (a + 1) := by rw [Nat.mul_add]; omega
          exact Nat.lt_of_mul_lt_mul_left this
        exact Nat.mul_le_mul_left _ (by omega)
      have htake : (pack (closeLast s.data) s.masks c.n).take k = pack (closeLast s.data) s.masks c.n := by
        apply List.take_of_length_le
        have := pack_length_le (closeLast s.data) s.masks c.n
        rw [closeLast_length, ← hmult] at this
        omega
      rw [hpack] at htake
      simp only [flatten, hlen, if_false, hpack, htake]
      rfl
  · simp only [flatten, hlen, if_false, hpack]
    rfl

end Verif.Vector.Callbacks
