import Verif.Vector.Lemmas
import Mathlib.Data.List.Induction

namespace Verif.Vector

open Verif.Dataset (Row setLast closeEnd)

variable {W X A R P T : Type}

/-! ### Effect of the parts of an iteration -/

/-- `last` as computed from the absorbing flag, the horizon and the length of the episode. -/
def lastRule (horizon : Option Nat) (absorbing : Bool) (steps : Nat) : Bool :=
  absorbing || (match horizon with
    | some h => decide (h ≤ steps)
    | none => false)

structure Stepped (c : Cfg) (s s' : St W X A R P T) (row : Nat → Row X A R P) : Prop where
  data : s'.data = s.data ++ [row]
  masks : s'.masks = s.masks ++ [s.mask]
  log : s'.log = s.log ++ [(s.mask, row, s.fits.length)]
  fits : s'.fits = s.fits
  running : s'.running = s.running
  mask : s'.mask = s.mask
  thetas : s'.thetas = s.thetas
  last : s'.last = fun i => (row i).last
  state : s'.state = fun i => (row i).nextState
  envState : s'.envState = s'.state
  rowState : ∀ i, (row i).state = s.state i
  rowLast : ∀ i, (row i).last = lastRule c.horizon (row i).absorbing (s'.episodeSteps i)
  idle : ∀ i, s.mask i = false → (row i).nextState = s.envState i ∧ (row i).absorbing = false
  episodeSteps : s'.episodeSteps = fun i => if s.mask i then s.episodeSteps i + 1 else s.episodeSteps i
  totS : s'.totS = s.totS + cnt s.running c.n
  curS : s'.curS = s.curS + cnt s.running c.n
  totE : s'.totE = s.totE + cnt (fun i => (row i).last && s.mask i) c.n
  curE : s'.curE = s.curE + cnt (fun i => (row i).last && s.mask i) c.n

theorem stepPart_ok (sys : Sys W X A R P T) (c : Cfg) (cap : Nat) (s : St W X A R P T) (h : s.data.length < cap)
    (hn : c.n ≠ 1) :
    ∃ s', stepPart sys c cap s = .ok s' ∧ ∃ row, Stepped c s s' row := by
  unfold stepPart
  simp only [afterStep, h, if_true, hn, if_false]
  exact ⟨_, rfl, _, {
    data := rfl, masks := rfl, log := rfl, fits := rfl, running := rfl, mask := rfl, thetas := rfl, last := rfl
    state := rfl, envState := rfl, rowState := fun _ => rfl, rowLast := fun _ => rfl
    idle := fun i hi => stepAll_keep sys s.mask _ c.n _ s.envState i hi
    episodeSteps := rfl, totS := rfl, curS := rfl, totE := rfl, curE := rfl }⟩

theorem stepPart_one (sys : Sys W X A R P T) (c : Cfg) (cap : Nat) (s : St W X A R P T) (h : s.data.length < cap)
    (hn : c.n = 1) : stepPart sys c cap s = .error .type := by
  unfold stepPart
  simp only [afterStep, h, if_true, hn]

theorem stepPart_full (sys : Sys W X A R P T) (c : Cfg) (cap : Nat) (s : St W X A R P T) (h : cap ≤ s.data.length) :
    stepPart sys c cap s = .error .index := by
  unfold stepPart
  have : ¬ s.data.length < cap := by omega
  simp only [afterStep, this, if_false]

structure Reset (c : Cfg) (s s' : St W X A R P T) (m : Nat → Bool) : Prop where
  data : s'.data = s.data
  masks : s'.masks = s.masks
  log : s'.log = s.log
  fits : s'.fits = s.fits
  running : s'.running = m
  mask : s'.mask = m
  last : s'.last = s.last
  totS : s'.totS = s.totS
  curS : s'.curS = s.curS
  totE : s'.totE = s.totE
  curE : s'.curE = s.curE
  episodeSteps : s'.episodeSteps = fun i => if s.last i then 0 else s.episodeSteps i
  state : s'.envState = s'.state
  keep : ∀ i, s.last i = false → s'.state i = s.envState i

theorem resetPart_ok (sys : Sys W X A R P T) (c : Cfg) (s : St W X A R P T) (m : Nat → Bool)
    (hany : anyOf s.last c.n = true) (h : getMask c s.running s.last s.totE s.curE = .ok m) :
    ∃ s', resetPart sys c s = .ok s' ∧ Reset c s s' m := by
  unfold resetPart
  simp only [hany, if_true, h]
  refine ⟨_, rfl, ?_⟩
  constructor
  case keep =>
    intro i hi
    exact resetAll_keep sys _ c.n _ _ i (by simp [hi])
  all_goals rfl

/-! ### flatten -/

theorem packEnv_history (h : History X A R P) (i : Nat) : packEnv (rowsOf h) (masksOf h) i = trajectory h i := by
  induction h with
  | nil => rfl
  | cons e h ih =>
    simp only [packEnv, rowsOf, masksOf, List.map_cons, List.zip_cons_cons, List.filterMap_cons, trajectory] at ih ⊢
    split <;> simp_all

theorem packEnv_append (d d' : List (Nat → Row X A R P)) (m m' : List (Nat → Bool)) (i : Nat)
    (h : d.length = m.length) : packEnv (d ++ d') (m ++ m') i = packEnv d m i ++ packEnv d' m' i := by
  simp [packEnv, List.zip_append h]

theorem trajectory_append (h h' : History X A R P) (i : Nat) :
    trajectory (h ++ h') i = trajectory h i ++ trajectory h' i := by
  simp [trajectory]

/-- An environment that is inactive at the end has finished its last episode. -/
theorem stopped (n : Nat) (i : Nat) (hi : i < n) (h : History X A R P) :
    ∀ e, StopsAtEnd n (h ++ [e]) → e.1 i = false → closeEnd (trajectory h i) = trajectory h i := by
  induction h using List.reverseRecOn with
  | nil => intro e _ _; simp [trajectory, closeEnd]
  | append_singleton h e0 ih =>
    intro e hs he
    rw [trajectory_append]
    have hs' : StopsAtEnd n (h ++ [e0]) := by
      intro t a b ha hb
      refine hs t a b ?_ ?_
      · rw [List.getElem?_append_left (by rw [List.getElem?_eq_some_iff] at ha; exact ha.1)]; exact ha
      · rw [List.getElem?_append_left (by rw [List.getElem?_eq_some_iff] at hb; exact hb.1)]; exact hb
    cases h0 : e0.1 i
    · have := ih e0 hs' h0
      simp only [trajectory, List.filterMap_cons, h0, List.filterMap_nil] at this ⊢
      simpa using this
    · have hl : (e0.2.1 i).last = true := by
        refine hs h.length e0 e ?_ ?_ i hi h0 he
        · simp
        · simp
      simp only [trajectory, List.filterMap_cons, h0, List.filterMap_nil, if_true]
      simp only [closeEnd, List.dropLast_concat, List.getLast?_concat, Option.map_some, Option.toList_some]
      congr 1
      simp only [setLast, List.cons.injEq, and_true]
      rw [← hl]

theorem packEnv_close (n : Nat) (h : History X A R P) (hs : StopsAtEnd n h) (i : Nat) (hi : i < n) :
    packEnv (closeLast (rowsOf h)) (masksOf h) i = closeEnd (trajectory h i) := by
  rcases List.eq_nil_or_concat h with rfl | ⟨pre, e, rfl⟩
  · rfl
  · simp only [List.concat_eq_append] at hs ⊢
    have h1 : closeLast (rowsOf (pre ++ [e])) = rowsOf pre ++ [fun i => { e.2.1 i with last := true }] := by
      simp [closeLast, rowsOf]
    have h2 : masksOf (pre ++ [e]) = masksOf pre ++ [e.1] := by simp [masksOf]
    rw [h1, h2, packEnv_append _ _ _ _ _ (by simp [rowsOf, masksOf]), packEnv_history, trajectory_append]
    cases h0 : e.1 i
    · have := stopped n i hi pre e hs h0
      simp only [packEnv, trajectory, List.zip_cons_cons, List.zip_nil_right, List.filterMap_cons, h0,
        List.filterMap_nil, List.append_nil, Bool.false_eq_true, if_false] at this ⊢
      exact this.symm
    · simp [packEnv, trajectory, h0, closeEnd, setLast]

theorem pack_close (n : Nat) (h : History X A R P) (hs : StopsAtEnd n h) :
    pack (closeLast (rowsOf h)) (masksOf h) n = blocks n h := by
  unfold pack blocks
  congr 1
  apply List.map_congr_left
  intro i hi
  exact packEnv_close n h hs i (List.mem_range.mp hi)

end Verif.Vector
