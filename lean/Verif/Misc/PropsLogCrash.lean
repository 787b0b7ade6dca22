/-
Programs that are killed while they log, and saving that raises (C183).
-/
import Verif.Misc.ModelLogCrash
import Verif.Serialization.Model

namespace Verif.Misc.Crash

variable {V A D C : Type}

/-! ### Specification -/

/-- No file of the directory is broken. -/
def Sound (d : Disk C) : Prop := ∀ p, d p ≠ some .torn

/-- The file can be read back and has this content. -/
def Holds (d : Disk C) (p : Name) (c : C) : Prop := d p = some (.whole c)

/-! ### Lemmas -/

theorem foldl_put_other (ws : List (Name × Content C)) (d : Disk C) (p : Name) (h : ∀ w ∈ ws, w.1 ≠ p) : ws.foldl Disk.put d p = d p := by
  induction ws generalizing d with
  | nil => rfl
  | cons w ws ih =>
    rw [List.foldl_cons, ih _ fun x hx => h x (List.mem_cons_of_mem _ hx)]
    unfold Disk.put
    rw [if_neg (Ne.symm (h w List.mem_cons_self))]

theorem sound_foldl (ws : List (Name × Content C)) (d : Disk C) (hd : Sound d) (h : ∀ w ∈ ws, w.2 ≠ .torn) : Sound (ws.foldl Disk.put d) := by
  induction ws generalizing d with
  | nil => exact hd
  | cons w ws ih =>
    rw [List.foldl_cons]
    refine ih _ ?_ fun x hx => h x (List.mem_cons_of_mem _ hx)
    intro p
    unfold Disk.put
    split
    · intro e; injection e with e; exact h w List.mem_cons_self e
    · exact hd p

theorem saved_ne (savable : A → Prop) (a : A) : (saved savable a : Content (Data V A D)) ≠ .torn := by
  unfold saved
  split <;> simp

theorem numpyWrites_ne (items : List (Name × V)) : ∀ (l : Log V), ∀ w ∈ (numpyWrites (A := A) (D := D) l items).2, w.2 ≠ .torn := by
  induction items with
  | nil => intro l w hw; simp [numpyWrites] at hw
  | cons p rest ih =>
    intro l w hw
    simp only [numpyWrites, List.mem_cons] at hw
    rcases hw with rfl | hw
    · simp
    · exact ih _ w hw

theorem writes_ne (savable : A → Prop) (l : Log V) (c : Call V A D) : ∀ w ∈ (writes savable l c).2, w.2 ≠ .torn := by
  cases c with
  | numpy items => exact numpyWrites_ne items l
  | array items =>
    intro w hw
    simp only [writes, List.mem_map] at hw
    obtain ⟨_, _, rfl⟩ := hw
    simp
  | agent a epoch => intro w hw; simp only [writes, List.mem_singleton] at hw; subst hw; exact saved_ne savable a
  | best a J =>
    intro w hw
    cases J with
    | none => simp [writes] at hw
    | some J =>
      simp only [writes] at hw
      split at hw
      · simp only [List.mem_singleton] at hw; subst hw; exact saved_ne savable a
      · simp at hw
  | dataset d => intro w hw; simp only [writes, List.mem_singleton] at hw; subst hw; simp

theorem sound_play (savable : A → Prop) (cs : List (Call V A D)) : ∀ (l : Log V) (d : Disk (Data V A D)), Sound d → Sound (play savable l d cs).2 := by
  induction cs with
  | nil => intro l d h; exact h
  | cons c cs ih => intro l d h; exact ih _ _ (sound_foldl _ _ h (writes_ne savable l c))

theorem foldl_put_mem (ws : List (Name × Content C)) (d : Disk C) (hn : (ws.map Prod.fst).Nodup) (w : Name × Content C) (h : w ∈ ws) :
    ws.foldl Disk.put d w.1 = some w.2 := by
  induction ws generalizing d with
  | nil => simp at h
  | cons x ws ih =>
    rw [List.map_cons, List.nodup_cons] at hn
    rw [List.foldl_cons]
    rcases List.mem_cons.1 h with rfl | h
    · rw [foldl_put_other ws _ w.1 fun y hy e => hn.1 (e ▸ List.mem_map_of_mem hy)]
      simp [Disk.put]
    · exact ih _ hn.2 h

/-! ### Theorems -/

/-- **C183** (partial, see the refutations): the files that the killed call had already closed have their new contents. (The names of the values in one call are
different keywords, so that their files are different.) -/
theorem C183_closed_partial (savable : A → Prop) (l : Log V) (d : Disk (Data V A D)) (done : List (Call V A D)) (c : Call V A D) (k : ℕ) (tear : Bool)
    (hn : ((writes savable (play savable l d done).1 c).2.map Prod.fst).Nodup) (j : ℕ) (hj : j < k) (w : Name × Content (Data V A D))
    (hw : (writes savable (play savable l d done).1 c).2[j]? = some w) : killed savable l d done c k tear w.1 = some w.2 := by
  unfold killed
  generalize play savable l d done = s at hn hw ⊢
  generalize (writes savable s.1 c).2 = ws at hn hw ⊢
  have hm : w ∈ ws.take k := List.mem_of_getElem? (i := j) (by rw [List.getElem?_take_of_lt hj, hw])
  have hc := foldl_put_mem (ws.take k) s.2 (hn.sublist ((List.take_sublist k ws).map _)) w hm
  cases tear with
  | false => exact hc
  | true =>
    cases hk : ws[k]? with
    | none => exact hc
    | some v =>
      show Disk.put _ _ w.1 = _
      unfold Disk.put
      have hne : w.1 ≠ v.1 := by
        intro e
        have h1 : (ws.map Prod.fst)[j]? = some w.1 := by rw [List.getElem?_map, hw]; rfl
        have h2 : (ws.map Prod.fst)[k]? = some v.1 := by rw [List.getElem?_map, hk]; rfl
        have hl : j < (ws.map Prod.fst).length := (List.getElem?_eq_some_iff.1 h1).1
        have := (List.getElem?_inj hl hn).1 (h1.trans (e ▸ h2.symm))
        omega
      rw [if_neg hne]
      exact hc

/-- **C183** (partial: the file that is being written is lost, see the refutations). However many calls were made, and wherever in the next one the
program is killed: the files that this call does not write are as the completed calls left them, and at most one file, which the call was writing, is broken. -/
theorem C183_killed_partial (savable : A → Prop) (l : Log V) (d : Disk (Data V A D)) (hd : Sound d) (done : List (Call V A D)) (c : Call V A D) (k : ℕ)
    (tear : Bool) :
    (∀ p, (∀ w ∈ (writes savable (play savable l d done).1 c).2, w.1 ≠ p) → killed savable l d done c k tear p = (play savable l d done).2 p) ∧
    (∀ p, killed savable l d done c k tear p = some .torn → tear = true ∧ ∃ w, (writes savable (play savable l d done).1 c).2[k]? = some w ∧ w.1 = p) := by
  have hs := sound_play savable done l d hd
  have key := writes_ne savable (play savable l d done).1 c
  unfold killed
  generalize play savable l d done = s at hs key ⊢
  generalize (writes savable s.1 c).2 = ws at key ⊢
  have other : ∀ p, (∀ w ∈ ws, w.1 ≠ p) → (ws.take k).foldl Disk.put s.2 p = s.2 p := fun p hp =>
    foldl_put_other _ _ p fun w hw => hp w (List.mem_of_mem_take hw)
  have sound := sound_foldl (ws.take k) s.2 hs fun w hw => key w (List.mem_of_mem_take hw)
  cases tear with
  | false => exact ⟨fun p hp => other p hp, fun p h => absurd h (sound p)⟩
  | true =>
    cases hw : ws[k]? with
    | none => exact ⟨fun p hp => other p hp, fun p h => absurd h (sound p)⟩
    | some w =>
      refine ⟨fun p hp => ?_, fun p h => ⟨rfl, w, rfl, ?_⟩⟩
      · show Disk.put _ _ p = _
        unfold Disk.put
        rw [if_neg (Ne.symm (hp w (List.mem_of_getElem? hw)))]
        exact other p hp
      · change Disk.put _ _ p = _ at h
        unfold Disk.put at h
        by_cases e : p = w.1
        · exact e.symm
        · rw [if_neg e] at h
          exact absurd h (sound p)

/-- **C183** (partial): a program that is killed between two files of a call, or between two calls, leaves only complete files. -/
theorem C183_between_partial (savable : A → Prop) (l : Log V) (d : Disk (Data V A D)) (hd : Sound d) (done : List (Call V A D)) (c : Call V A D) (k : ℕ) :
    Sound (killed savable l d done c k false) := by
  intro p h
  exact absurd (C183_killed_partial savable l d hd done c k false |>.2 p h).1 (by simp)

/-- **C183**: the best agent is not always on disk. Whatever has been logged, if the program is killed while a better agent is saved, the file of the
best agent is broken, and no agent can be loaded from it. -/
theorem C183_best_refuted (savable : A → Prop) (l : Log V) (d : Disk (Data V A D)) (done : List (Call V A D)) (a : A) (J : EReal)
    (hJ : (play savable l d done).1.best ≤ J) :
    killed savable l d done (.best a (some J)) 0 true (bestFile (play savable l d done).1.suffix) = some .torn := by
  unfold killed
  simp only [writes, if_pos hJ, List.take_zero, List.foldl_nil, List.getElem?_cons_zero, if_true]
  simp [Disk.put]

/-- **C183**: a logger that was killed while it wrote its values cannot be continued: with `append=True` the constructor raises, for all values and all other files. -/
theorem C183_append_refuted (suffix name : Name) (before after : List (Name × Content (List V))) (h : suffix <:+ name) :
    reload suffix (before ++ (name, .torn) :: after) = none := by
  have hs : suffix.isSuffixOf name = true := List.isSuffixOf_iff_suffix.2 h
  unfold reload
  rw [List.foldlM_append]
  cases hb : List.foldlM (m := Option) _ [] before with
  | none => rfl
  | some x => simp [h]

/-- **C183**: an exception while the best agent is saved. The first agent `a` was saved; saving the better agent `b` raises; then the agent `c`, better than `a` and
worse than `b`, is logged, and the call returns. The file of the best agent has neither `a` nor `c` but what was written of `b`: the performance of `b` had been stored although `b` was not. -/
theorem C183_raised_refuted (savable : A → Prop) (l : Log V) (d : Disk (Data V A D)) (a b c : A) (hb : ¬ savable b) (Ja Jb Jc : EReal) (h0 : l.best ≤ Ja) (h1 : Ja < Jc) (h2 : Jc < Jb) :
    (play savable l d [.best a (some Ja), .best b (some Jb), .best c (some Jc)]).2 (bestFile l.suffix) = some .cut := by
  have e1 : Ja ≤ Jb := (h1.trans h2).le
  have e2 : ¬ Jb ≤ Jc := not_le.2 h2
  simp only [play, writes, if_pos h0, if_pos e1, if_neg e2, List.foldl_cons, List.foldl_nil]
  simp [Disk.put, saved, hb]

/-- **C183**: loading such a file does not raise: `load` returns `None`. The configuration of the object (`config`), which is written last, is missing in the archive. -/
theorem C183_loaded_refuted {E : Type} (codec : Serialization.Meth → E → E) (post : Nat → Serialization.Attrs E → Serialization.Attrs E) (z : Serialization.Zip E)
    (fuel : ℕ) (h : ∀ e ∈ z, e.1 ≠ [Serialization.Comp.config]) : Serialization.loadZip codec post z fuel [] = .none := by
  have hl : Serialization.lookup z [Serialization.Comp.config] = none := by
    induction z with
    | nil => rfl
    | cons e z ih =>
      obtain ⟨k, x⟩ := e
      unfold Serialization.lookup
      rw [ih fun y hy => h y (List.mem_cons_of_mem _ hy)]
      simp only
      rw [if_neg (h (k, x) List.mem_cons_self)]
  cases fuel with
  | zero => rfl
  | succ n =>
    unfold Serialization.loadZip
    rw [List.nil_append, hl]

-- Two agents are logged and the program is killed in the second call: the first one is lost.
example : let l : Log ℕ := ⟨[], fun _ => [], ⊥⟩
    let d : Disk (Data ℕ ℕ ℕ) := fun _ => none
    (play (fun _ => True) l d [.best 7 (some 1)]).2 (bestFile []) = some (.whole (.agent 7)) ∧
    killed (fun _ => True) l d [.best 7 (some 1)] (.best 8 (some 2)) 0 true (bestFile []) = some .torn := by
  have h : (⊥ : EReal) ≤ 1 := bot_le
  have h2 : (1 : EReal) ≤ 2 := by exact_mod_cast (by norm_num : (1 : ℕ) ≤ 2)
  constructor
  · simp [play, writes, h, Disk.put, saved, bestFile]
  · have := C183_best_refuted (fun _ => True) (⟨[], fun _ => [], ⊥⟩ : Log ℕ) (fun _ => none : Disk (Data ℕ ℕ ℕ)) [.best 7 (some 1)] 8 2
      (by simp only [play, writes, if_pos h]; exact h2)
    simpa [play, writes, h] using this

-- Killed in the second of three files: the first is complete, the second broken, the third as it was.
example : let l : Log ℕ := ⟨[], fun _ => [], ⊥⟩
    let d : Disk (Data ℕ ℕ ℕ) := fun _ => none
    let r := killed (fun _ => True) l d [.numpy [(['J'], 1)]] (.numpy [(['J'], 2), (['R'], 3), (['E'], 4)]) 1 true
    r (npyFile [] ['J']) = some (.whole (.rows [1, 2])) ∧ r (npyFile [] ['R']) = some .torn ∧ r (npyFile [] ['E']) = none := by
  refine ⟨?_, ?_, ?_⟩ <;> simp [killed, play, writes, numpyWrites, npyFile, Disk.put]

end Verif.Misc.Crash
