/-
C62: recorded windows, logged arrays and the best agent.
-/
import Verif.Misc.ModelLog
import Verif.Misc.SpecLog
import Mathlib.Tactic.Linarith

namespace Verif.Misc

variable {α A V : Type}

/-! ### Data buffers -/

/-- What the calls of the methods mean; `set` has no meaning here. -/
def eventOf : BufferCall α → Option (Event α)
  | .update data => some (.offer data)
  | .set _ => none
  | .reset => some .clear
  | .enable s => some (.switch s)

theorem lastItems_length_le (n : ℕ) (l : List α) : (lastItems (some n) l).length ≤ n := by
  simp only [lastItems, List.length_drop]; omega

theorem append_last (m : Option ℕ) (l : List α) (x : α) :
    (Deque.append ⟨m, lastItems m l⟩ x) = ⟨m, lastItems m (l ++ [x])⟩ := by
  cases m with
  | none => rfl
  | some n =>
    cases n with
    | zero => simp [Deque.append, lastItems]
    | succ n =>
      simp only [Deque.append, lastItems, List.length_drop, List.length_append, List.length_singleton]
      congr 1
      split
      · rename_i h
        have h1 : l.length - (n + 1) = 0 := by omega
        have h2 : l.length + 1 - (n + 1) = 0 := by omega
        rw [h1, h2]; simp
      · rename_i h
        have h1 : l.length + 1 - (n + 1) = (l.length - (n + 1)) + 1 := by omega
        rw [h1, List.drop_drop, List.drop_append_of_le_length (by omega)]

theorem extend_last (m : Option ℕ) (l data : List α) :
    (Deque.extend ⟨m, lastItems m l⟩ data) = ⟨m, lastItems m (l ++ data)⟩ := by
  induction data generalizing l with
  | nil => simp [Deque.extend]
  | cons x data ih =>
    have h := ih (l ++ [x])
    rw [Deque.extend] at h
    rw [Deque.extend, List.foldl_cons, append_last, h, List.append_assoc]; rfl

theorem calls_last (m : Option ℕ) (calls : List (BufferCall α)) :
    ∀ (on : Bool) (acc : List α) (events : List (Event α)), calls.map eventOf = events.map some →
      (calls.foldl Buffer.call ⟨⟨m, lastItems m acc⟩, on⟩).deque = ⟨m, lastItems m (tracked on acc events)⟩ := by
  induction calls with
  | nil =>
    intro on acc events h
    cases events with
    | nil => rfl
    | cons e es => simp at h
  | cons c calls ih =>
    intro on acc events h
    cases events with
    | nil => simp at h
    | cons e es =>
      simp only [List.map_cons, List.cons.injEq] at h
      obtain ⟨h1, h2⟩ := h
      rw [List.foldl_cons]
      cases c with
      | set b => simp [eventOf] at h1
      | update data =>
        simp only [eventOf, Option.some.injEq] at h1
        subst h1
        cases on with
        | true =>
          simp only [Buffer.call, if_true, extend_last, tracked]
          exact ih true _ es h2
        | false =>
          simp only [Buffer.call, tracked]
          exact ih false _ es h2
      | reset =>
        simp only [eventOf, Option.some.injEq] at h1
        subst h1
        have h3 : ([] : List α) = lastItems m [] := by cases m <;> simp [lastItems]
        simp only [Buffer.call, tracked]
        rw [h3]
        have := ih on [] es h2
        rw [← h3] at this ⊢
        exact this
      | enable s =>
        simp only [eventOf, Option.some.injEq] at h1
        subst h1
        simp only [Buffer.call, tracked]
        exact ih s acc es h2

/-- **C62** (partial: as long as `set` is not called). Whatever calls are made, the buffer holds the last `length` of the values
that were offered while tracking was enabled since the last reset, and all of them if no length was given. -/
theorem C62_window_partial (length : Option ℕ) (calls : List (BufferCall α)) (events : List (Event α))
    (h : calls.map eventOf = events.map some) :
    (calls.foldl Buffer.call (Buffer.new length)).deque.items = lastItems length (tracked true [] events) := by
  have h3 : ([] : List α) = lastItems length [] := by cases length <;> simp [lastItems]
  have := calls_last length calls true [] events h
  rw [← h3] at this
  rw [Buffer.new, this]

example : ([BufferCall.update [1, 2], .enable false, .update [3], .enable true, .update [4, 5]] : List (BufferCall ℕ)).map eventOf =
      ([Event.offer [1, 2], .switch false, .offer [3], .switch true, .offer [4, 5]]).map some ∧
    lastItems (some 3) (tracked true [] [Event.offer [1, 2], .switch false, .offer [3], .switch true, .offer [4, 5]]) = [2, 4, 5] := by
  constructor
  · rfl
  · decide

/-- The number of values a deque holds never exceeds its bound. -/
theorem deque_bound (d : Deque α) (n : ℕ) (hm : d.maxlen = some n) (h : d.items.length ≤ n) (l : List α) :
    (d.extend l).maxlen = some n ∧ (d.extend l).items.length ≤ n := by
  induction l generalizing d with
  | nil => exact ⟨hm, h⟩
  | cons x l ih =>
    rw [Deque.extend, List.foldl_cons]
    apply ih
    · cases n with
      | zero => simp [Deque.append, hm]
      | succ n => simp [Deque.append, hm]
    · cases n with
      | zero => simp only [Deque.append, hm]; exact h
      | succ n =>
        simp only [Deque.append, hm]
        split <;> simp <;> omega

/-- **C62**. `set` installs the given queue, and from then on its own bound is the bound of the buffer: for every length there are
calls after which a buffer holds more values than its length, all recorded before and after. -/
theorem C62_window_refuted : ∀ n : ℕ, ∃ calls : List (BufferCall ℕ),
    n < (calls.foldl Buffer.call (Buffer.new (some n))).deque.items.length := by
  intro n
  refine ⟨[.set ⟨none, []⟩, .update (List.range (n + 1))], ?_⟩
  have h := extend_last none [] (List.range (n + 1))
  simp only [lastItems, List.nil_append] at h
  simp only [List.foldl_cons, List.foldl_nil, Buffer.call, Buffer.new, if_true, h, List.length_range]
  omega

/-! ### The best agent -/

theorem log_best (l : List (A × Option EReal)) :
    ∀ b : Best A,
      (∀ p ∈ l, ∀ J, p.2 = some J → J < b.best) ∧ l.foldl (fun b p => b.log p.1 p.2) b = b ∨
      ∃ pre a J post, l = pre ++ (a, some J) :: post ∧ b.best ≤ J ∧
        (∀ p ∈ pre, ∀ J', p.2 = some J' → J' ≤ J) ∧ (∀ p ∈ post, ∀ J', p.2 = some J' → J' < J) ∧
        l.foldl (fun b p => b.log p.1 p.2) b = ⟨J, some a⟩ := by
  induction l with
  | nil => intro b; left; simp
  | cons x l ih =>
    intro b
    obtain ⟨a, J⟩ := x
    rw [List.foldl_cons]
    cases J with
    | none =>
      have hb : b.log a none = b := rfl
      rw [hb]
      rcases ih b with ⟨h1, h2⟩ | ⟨pre, a', J', post, h1, h2, h3, h4, h5⟩
      · left
        refine ⟨?_, h2⟩
        intro p hp J' hJ
        rcases List.mem_cons.1 hp with h | h
        · subst h; simp at hJ
        · exact h1 p h J' hJ
      · right
        refine ⟨(a, none) :: pre, a', J', post, by rw [h1]; rfl, h2, ?_, h4, h5⟩
        intro p hp J'' hJ
        rcases List.mem_cons.1 hp with h | h
        · subst h; simp at hJ
        · exact h3 p h J'' hJ
    | some J =>
      by_cases hJ : b.best ≤ J
      · have hb : b.log a (some J) = ⟨J, some a⟩ := by
          show (if b.best ≤ J then (⟨J, some a⟩ : Best A) else b) = _
          rw [if_pos hJ]
        rw [hb]
        right
        rcases ih ⟨J, some a⟩ with ⟨h1, h2⟩ | ⟨pre, a', J', post, h1, h2, h3, h4, h5⟩
        · exact ⟨[], a, J, l, rfl, hJ, by simp, h1, h2⟩
        · refine ⟨(a, some J) :: pre, a', J', post, by rw [h1]; rfl, hJ.trans h2, ?_, h4, h5⟩
          intro p hp J'' hJ''
          rcases List.mem_cons.1 hp with h | h
          · subst h
            simp only [Option.some.injEq] at hJ''
            rw [← hJ'']; exact h2
          · exact h3 p h J'' hJ''
      · have hb : b.log a (some J) = b := by
          show (if b.best ≤ J then (⟨J, some a⟩ : Best A) else b) = _
          rw [if_neg hJ]
        rw [hb]
        rcases ih b with ⟨h1, h2⟩ | ⟨pre, a', J', post, h1, h2, h3, h4, h5⟩
        · left
          refine ⟨?_, h2⟩
          intro p hp J' hJ'
          rcases List.mem_cons.1 hp with h | h
          · subst h
            simp only [Option.some.injEq] at hJ'
            rw [← hJ']; exact not_le.1 hJ
          · exact h1 p h J' hJ'
        · right
          refine ⟨(a, some J) :: pre, a', J', post, by rw [h1]; rfl, h2, ?_, h4, h5⟩
          intro p hp J'' hJ''
          rcases List.mem_cons.1 hp with h | h
          · subst h
            simp only [Option.some.injEq] at hJ''
            rw [← hJ'']; exact (not_le.1 hJ).le.trans h2
          · exact h3 p h J'' hJ''

/-- **C62** (partial: for the evaluations one logger has seen). After any sequence of calls of `log_best_agent` on a new logger the
file holds an agent exactly if some performance was a number, and then it is the last of the agents with the highest performance;
otherwise the file is as it was found. -/
theorem C62_best_partial (l : List (A × Option EReal)) (file : Option A) :
    ((∃ p ∈ l, p.2 ≠ none) ∧ ∃ a, (l.foldl (fun b p => b.log p.1 p.2) (Best.new file)).file = some a ∧ LastBest l a) ∨
    ((∀ p ∈ l, p.2 = none) ∧ (l.foldl (fun b p => b.log p.1 p.2) (Best.new file)).file = file) := by
  rcases log_best l (Best.new file) with ⟨h1, h2⟩ | ⟨pre, a, J, post, h1, _, h3, h4, h5⟩
  · right
    refine ⟨?_, by rw [h2]; rfl⟩
    intro p hp
    rcases hJ : p.2 with _ | J
    · rfl
    · exact absurd (h1 p hp J hJ) (by simp [Best.new])
  · left
    refine ⟨⟨(a, some J), by rw [h1]; simp, by simp⟩, a, by rw [h5], ?_⟩
    exact ⟨pre, post, J, h1, h3, h4⟩

example : LastBest [(0, some (1 : EReal)), (1, some 3), (2, none), (3, some 3), (4, some 2)] 3 := by
  refine ⟨[(0, some 1), (1, some 3), (2, none)], [(4, some 2)], 3, rfl, ?_, ?_⟩
  · intro p hp J hJ
    simp only [List.mem_cons, List.not_mem_nil, or_false] at hp
    rcases hp with rfl | rfl | rfl
    · simp only [Option.some.injEq] at hJ; rw [← hJ]; exact_mod_cast (by norm_num : (1 : ℕ) ≤ 3)
    · simp only [Option.some.injEq] at hJ; rw [← hJ]
    · simp at hJ
  · intro p hp J hJ
    simp only [List.mem_cons, List.not_mem_nil, or_false] at hp
    subst hp
    simp only [Option.some.injEq] at hJ; rw [← hJ]; exact_mod_cast (by norm_num : (2 : ℕ) < 3)

/-- **C62**. A logger that continues a previous one (`append=True`) does not know its best performance: the first agent it logs
replaces the best one, however much worse it is, and the file no longer has the best agent of the two runs. -/
theorem C62_best_refuted (a b : A) (hab : a ≠ b) (J J' : EReal) (h : J' < J) (file : Option A) :
    ((Best.new (([(a, some J)]).foldl (fun b p => b.log p.1 p.2) (Best.new file)).file).log b (some J')).file = some b ∧
    ¬ LastBest ([(a, some J)] ++ [(b, some J')]) b := by
  constructor
  · have h1 : ∀ x : Best A, x.best = ⊥ → x.log b (some J') = ⟨J', some b⟩ := by
      intro x hx
      show (if x.best ≤ J' then (⟨J', some b⟩ : Best A) else x) = _
      rw [if_pos (by rw [hx]; exact bot_le)]
    rw [h1 _ rfl]
  · rintro ⟨pre, post, K, h1, h2, h3⟩
    match pre, h1 with
    | [], h1 =>
      simp only [List.cons_append, List.nil_append, List.cons.injEq, Prod.mk.injEq] at h1
      exact hab h1.1.1
    | [p], h1 =>
      simp only [List.cons_append, List.nil_append, List.cons.injEq, Prod.mk.injEq, Option.some.injEq] at h1
      have := h2 p (by simp) J (by rw [← h1.1])
      rw [← h1.2.1.2] at this
      exact absurd this (not_le.2 h)
    | _ :: _ :: _, h1 => simp at h1

/-! ### Logged values -/

/-- `-` followed by digits: the suffix of a logger with a seed. -/
def IsSeed (suffix : Name) : Prop := ∃ d : Name, d ≠ [] ∧ (∀ c ∈ d, c.isDigit = true) ∧ suffix = '-' :: d

theorem stripSeed_seed (name suffix : Name) (h : IsSeed suffix) : stripSeed (name ++ suffix) = name := by
  obtain ⟨d, hd, hdig, rfl⟩ := h
  have hr : (name ++ '-' :: d).reverse = d.reverse ++ '-' :: name.reverse := by simp
  have ht : (d.reverse ++ '-' :: name.reverse).takeWhile Char.isDigit = d.reverse := by
    rw [List.takeWhile_append_of_pos (by intro c hc; exact hdig c (List.mem_reverse.1 hc))]
    simp [List.takeWhile_cons, show Char.isDigit '-' = false from by decide]
  simp only [stripSeed, hr, ht]
  rw [List.drop_left]
  have : d.reverse ≠ [] := by simpa using hd
  simp [this]

theorem lookup_put {β : Type} (l : List (Name × β)) (k : Name) (v : β) (k' : Name) :
    (put l k v).lookup k' = if k' = k then some v else l.lookup k' := by
  unfold put
  split
  · rename_i h
    simp only [List.contains_iff_mem, List.mem_map] at h
    clear * - h
    induction l with
    | nil => simp at h
    | cons x l ih =>
      obtain ⟨a, b⟩ := x
      by_cases hak : a = k
      · subst hak
        by_cases hk : k' = a
        · subst hk; simp
        · have hk2 : (k' == a) = false := by simpa using hk
          rw [if_neg hk]
          simp only [List.map_cons, if_true, List.lookup_cons, hk2]
          by_cases h2 : ∃ p ∈ l, p.1 = a
          · rw [ih h2, if_neg hk]
          · have : l.map (fun p => if p.1 = a then (a, v) else p) = l := by
              conv_rhs => rw [← List.map_id l]
              apply List.map_congr_left
              intro p hp
              rw [if_neg (fun h => h2 ⟨p, hp, h⟩)]; rfl
            rw [this]
      · have h2 : ∃ p ∈ l, p.1 = k := by
          obtain ⟨p, hp, hpk⟩ := h
          rcases List.mem_cons.1 hp with h | h
          · subst h; exact absurd hpk hak
          · exact ⟨p, h, hpk⟩
        simp only [List.map_cons, if_neg hak, List.lookup_cons]
        rw [ih h2]
        by_cases hk : k' = a
        · subst hk; simp [hak]
        · have hk2 : (k' == a) = false := by simpa using hk
          simp [hk2]
  · rename_i h
    simp only [List.contains_iff_mem, List.mem_map] at h
    rw [List.lookup_append]
    by_cases hk : k' = k
    · subst hk
      have : l.lookup k' = none := by
        rw [List.lookup_eq_none_iff]
        intro p hp
        simp only [bne_iff_ne, ne_eq, beq_eq_false_iff_ne]
        exact fun h2 => h ⟨p, hp, h2.symm⟩
      simp [this]
    · have hk2 : (k' == k) = false := by simpa using hk
      simp [hk, List.lookup_cons, hk2]

theorem loadNumpy_lookup (suffix : Name) (dir : Dir V)
    (hs : ∀ f ∈ dir, suffix.isSuffixOf f.1 = true → stripSeed f.1 ++ suffix = f.1)
    (hseed : ∀ name, name ++ suffix ∈ dir.map Prod.fst → stripSeed (name ++ suffix) = name)
    (hn : (dir.map Prod.fst).Nodup) (name : Name) :
    (loadNumpy suffix dir).lookup name = dir.lookup (name ++ suffix) := by
  unfold loadNumpy
  have key : ∀ (dir : Dir V) (acc : List (Name × List V)),
      (∀ f ∈ dir, suffix.isSuffixOf f.1 = true → stripSeed f.1 ++ suffix = f.1) →
      (∀ name, name ++ suffix ∈ dir.map Prod.fst → stripSeed (name ++ suffix) = name) →
      (dir.map Prod.fst).Nodup →
      (dir.foldl (fun d f => if suffix.isSuffixOf f.1 then put d (stripSeed f.1) f.2 else d) acc).lookup name =
        (dir.lookup (name ++ suffix)).or (acc.lookup name) := by
    clear hs hseed hn dir
    intro dir
    induction dir with
    | nil => intro acc _ _ _; simp
    | cons f dir ih =>
      intro acc hs hseed hn
      simp only [List.map_cons, List.nodup_cons] at hn
      rw [List.foldl_cons, ih _ (fun g hg => hs g (List.mem_cons_of_mem _ hg))
        (fun n hnm => hseed n (by rw [List.map_cons]; exact List.mem_cons_of_mem _ hnm)) hn.2]
      obtain ⟨fn, fv⟩ := f
      rw [List.lookup_cons]
      by_cases hf : name ++ suffix = fn
      · subst hf
        have hlook : dir.lookup (name ++ suffix) = none := by
          rw [List.lookup_eq_none_iff]
          intro p hp
          rw [bne_iff_ne]
          exact fun h => hn.1 (List.mem_map.2 ⟨p, hp, h.symm⟩)
        rw [hlook]
        have h1 : suffix.isSuffixOf (name ++ suffix) = true := by
          rw [List.isSuffixOf_iff_suffix]; exact List.suffix_append _ _
        rw [if_pos h1, lookup_put, hseed name (by simp)]
        simp [show (name ++ suffix == name ++ suffix) = true from by simp]
      · have hf2 : (name ++ suffix == fn) = false := by simpa using hf
        rw [hf2]
        congr 1
        split
        · rename_i h1
          rw [lookup_put, if_neg]
          intro h2
          apply hf
          rw [h2]
          exact hs (fn, fv) (by simp) h1
        · rfl
  rw [key dir [] hs hseed hn]
  simp

/-- The values that were logged under a name, in order. -/
def valuesOf (calls : List (Name × V)) (name : Name) : List V := (calls.filter (fun c => c.1 = name)).map Prod.snd

/-- Calls of `log_numpy`. -/
def logAll (st : Logger V × Dir V) (calls : List (Name × V)) : Logger V × Dir V :=
  calls.foldl (fun st c => st.1.logNumpy st.2 c.1 c.2) st

theorem logAll_spec (calls : List (Name × V)) : ∀ (st : Logger V × Dir V) (file : Name),
    (logAll st calls).2.lookup file =
      match calls.filter (fun c => c.1 ++ st.1.suffix = file) with
      | [] => st.2.lookup file
      | c :: _ => some (((st.1.data.lookup c.1).getD []) ++ valuesOf calls c.1) := by
  induction calls with
  | nil => intro st file; rfl
  | cons c calls ih =>
    intro st file
    have hstep : logAll st (c :: calls) = logAll (st.1.logNumpy st.2 c.1 c.2) calls := rfl
    have hsuf : (st.1.logNumpy st.2 c.1 c.2).1.suffix = st.1.suffix := rfl
    rw [hstep, ih, hsuf]
    have hdata : ∀ n, (st.1.logNumpy st.2 c.1 c.2).1.data.lookup n =
        if n = c.1 then some (((st.1.data.lookup c.1).getD []) ++ [c.2]) else st.1.data.lookup n := by
      intro n; exact lookup_put _ _ _ _
    have hdir : (st.1.logNumpy st.2 c.1 c.2).2.lookup file =
        if file = c.1 ++ st.1.suffix then some (((st.1.data.lookup c.1).getD []) ++ [c.2]) else st.2.lookup file :=
      lookup_put _ _ _ _
    by_cases hc : c.1 ++ st.1.suffix = file
    · rw [List.filter_cons_of_pos (by simpa using hc)]
      have hsame : ∀ d ∈ calls.filter (fun c => c.1 ++ st.1.suffix = file), d.1 = c.1 := by
        intro d hd
        have h1 := (List.mem_filter.1 hd).2
        simp only [decide_eq_true_eq] at h1
        exact List.append_cancel_right (h1.trans hc.symm)
      have hv : valuesOf (c :: calls) c.1 = c.2 :: valuesOf calls c.1 := by
        simp [valuesOf]
      rcases hfil : calls.filter (fun c => c.1 ++ st.1.suffix = file) with _ | ⟨d, ds⟩
      · simp only [hfil]
        rw [hdir, if_pos hc.symm, hv]
        have : valuesOf calls c.1 = [] := by
          simp only [valuesOf, List.map_eq_nil_iff, List.filter_eq_nil_iff, decide_eq_true_eq]
          intro d hd h1
          rw [List.filter_eq_nil_iff] at hfil
          exact hfil d hd (by simpa [h1] using hc)
        rw [this]
      · simp only [hfil]
        have hd : d.1 = c.1 := hsame d (by rw [hfil]; simp)
        rw [hdata, if_pos hd, hd, hv]
        simp
    · rw [List.filter_cons_of_neg (by simpa using hc)]
      rcases hfil : calls.filter (fun c => c.1 ++ st.1.suffix = file) with _ | ⟨d, ds⟩
      · simp only [hfil]
        rw [hdir, if_neg (fun h => hc h.symm)]
      · simp only [hfil]
        have hd1 : d ∈ calls.filter (fun c => c.1 ++ st.1.suffix = file) := by rw [hfil]; simp
        have hd2 := (List.mem_filter.1 hd1).2
        simp only [decide_eq_true_eq] at hd2
        have hne : d.1 ≠ c.1 := by
          intro h; exact hc (h ▸ hd2)
        rw [hdata, if_neg hne]
        have : valuesOf (c :: calls) d.1 = valuesOf calls d.1 := by
          unfold valuesOf
          rw [List.filter_cons_of_neg (by simpa using fun h : c.1 = d.1 => hne h.symm)]
        rw [this]

/-- **C62**. A logger with a seed that continues the files of a directory: after any calls of `log_numpy`, the file of every logged
name holds what it held before, followed by all the values logged under that name, in order; every other file is as it was. -/
theorem C62_logged_partial (suffix : Name) (hs : IsSeed suffix) (dir : Dir V) (hn : (dir.map Prod.fst).Nodup)
    (calls : List (Name × V)) :
    let dir' := (logAll (Logger.new suffix true dir, dir) calls).2
    (∀ name ∈ calls.map Prod.fst, dir'.lookup (name ++ suffix) =
      some (((dir.lookup (name ++ suffix)).getD []) ++ valuesOf calls name)) ∧
    (∀ file, (∀ name ∈ calls.map Prod.fst, file ≠ name ++ suffix) → dir'.lookup file = dir.lookup file) := by
  have hload : ∀ name, (Logger.new suffix true dir).data.lookup name = dir.lookup (name ++ suffix) := by
    intro name
    apply loadNumpy_lookup suffix dir _ _ hn
    · intro f _ h
      rw [List.isSuffixOf_iff_suffix] at h
      obtain ⟨t, ht⟩ := h
      rw [← ht, stripSeed_seed _ _ hs]
    · intro n _; exact stripSeed_seed _ _ hs
  refine ⟨?_, ?_⟩
  · intro name hname
    rw [logAll_spec]
    rcases hfil : calls.filter (fun c => c.1 ++ (Logger.new suffix true dir, dir).1.suffix = name ++ suffix) with _ | ⟨d, ds⟩
    · exfalso
      clear * - hfil hname
      rw [List.filter_eq_nil_iff] at hfil
      obtain ⟨c, hc, hcn⟩ := List.mem_map.1 hname
      exact hfil c hc (by simp [hcn, Logger.new])
    · have hd1 : d ∈ calls.filter (fun c => c.1 ++ (Logger.new suffix true dir, dir).1.suffix = name ++ suffix) := by
        rw [hfil]; simp
      have hd2 := (List.mem_filter.1 hd1).2
      simp only [decide_eq_true_eq] at hd2
      have hd3 : d.1 = name := List.append_cancel_right hd2
      simp only [hfil, hload, hd3]
  · intro file hfile
    rw [logAll_spec]
    have hfil : calls.filter (fun c => c.1 ++ (Logger.new suffix true dir, dir).1.suffix = file) = [] := by
      rw [List.filter_eq_nil_iff]
      intro c hc
      simp only [decide_eq_true_eq]
      exact fun h => hfile c.1 (List.mem_map.2 ⟨c, hc, rfl⟩) h.symm
    rw [hfil]

example : IsSeed "-42".toList ∧ (([("J-42".toList, [1, 2]), ("J-7".toList, [5])] : Dir ℕ).map Prod.fst).Nodup := by
  refine ⟨⟨"42".toList, by decide, by decide, rfl⟩, by decide⟩

theorem stripSeed_plain (name : Name) (h : ∀ n s, IsSeed s → name ≠ n ++ s) : stripSeed name = name := by
  simp only [stripSeed]
  split
  · rename_i rest hrest
    split_ifs with hd
    · rfl
    · exfalso
      have h1 : name.reverse = name.reverse.takeWhile Char.isDigit ++ '-' :: rest := by
        rw [← hrest]
        exact (List.prefix_iff_eq_append.1 (List.takeWhile_prefix Char.isDigit (l := name.reverse))).symm
      refine h rest.reverse ('-' :: (name.reverse.takeWhile Char.isDigit).reverse) ⟨_, by simpa using hd, ?_, rfl⟩ ?_
      · intro c hc
        exact List.all_eq_true.1 (List.all_takeWhile (p := Char.isDigit) (l := name.reverse)) c (List.mem_reverse.1 hc)
      · have := congrArg List.reverse h1
        rw [List.reverse_reverse] at this
        rw [List.reverse_append, List.reverse_cons, List.append_assoc, List.singleton_append] at this
        exact this
  · rfl

/-- **C62**. The same for a logger without a seed, as long as no file of the directory is that of a run with a seed (see
`C62_logged_refuted`). -/
theorem C62_logged_unseeded_partial (dir : Dir V) (hn : (dir.map Prod.fst).Nodup)
    (hplain : ∀ f ∈ dir.map Prod.fst, ∀ n s, IsSeed s → f ≠ n ++ s) (calls : List (Name × V)) :
    let dir' := (logAll (Logger.new [] true dir, dir) calls).2
    (∀ name ∈ calls.map Prod.fst, dir'.lookup name = some (((dir.lookup name).getD []) ++ valuesOf calls name)) ∧
    (∀ file ∉ calls.map Prod.fst, dir'.lookup file = dir.lookup file) := by
  have hload : ∀ name, (Logger.new [] true dir).data.lookup name = dir.lookup name := by
    intro name
    have := loadNumpy_lookup [] dir (fun f hf _ => by
        rw [stripSeed_plain _ (hplain f.1 (List.mem_map.2 ⟨f, hf, rfl⟩)), List.append_nil])
      (fun n hn => by
        rw [List.append_nil] at hn ⊢
        exact stripSeed_plain _ (hplain n hn)) hn name
    rw [List.append_nil] at this
    exact this
  refine ⟨?_, ?_⟩
  · intro name hname
    rw [logAll_spec]
    rcases hfil : calls.filter (fun c => c.1 ++ (Logger.new [] true dir, dir).1.suffix = name) with _ | ⟨d, ds⟩
    · exfalso
      clear * - hfil hname
      rw [List.filter_eq_nil_iff] at hfil
      obtain ⟨c, hc, hcn⟩ := List.mem_map.1 hname
      exact hfil c hc (by simp [hcn, Logger.new])
    · have hd1 : d ∈ calls.filter (fun c => c.1 ++ (Logger.new [] true dir, dir).1.suffix = name) := by
        rw [hfil]; simp
      have hd2 := (List.mem_filter.1 hd1).2
      simp only [decide_eq_true_eq] at hd2
      have hd3 : d.1 = name := by rw [← hd2]; simp [Logger.new]
      simp only [hfil, hload, hd3]
  · intro file hfile
    rw [logAll_spec]
    have hfil : calls.filter (fun c => c.1 ++ (Logger.new [] true dir, dir).1.suffix = file) = [] := by
      rw [List.filter_eq_nil_iff]
      intro c hc
      simp only [decide_eq_true_eq]
      intro h
      exact hfile (List.mem_map.2 ⟨c, hc, by rw [← h]; simp [Logger.new]⟩)
    rw [hfil]

example : ∀ f ∈ ([("J-".toList, [1, 2]), ("R".toList, [5])] : Dir ℕ).map Prod.fst, ∀ n s, IsSeed s → f ≠ n ++ s := by
  rintro f hf n s ⟨d, hd, hdig, rfl⟩ rfl
  have hlast : (n ++ '-' :: d).getLast? = d.getLast? := by
    cases d with
    | nil => exact absurd rfl hd
    | cons a d =>
      rw [List.getLast?_append, List.getLast?_cons_cons]
      cases h : (a :: d).getLast? with
      | none => simp at h
      | some c => rfl
  obtain ⟨c, hc⟩ : ∃ c, d.getLast? = some c := by
    cases h : d.getLast? with
    | none => exact absurd (List.getLast?_eq_none_iff.1 h) hd
    | some c => exact ⟨c, rfl⟩
  have hdigit := hdig c (List.mem_of_getLast? hc)
  rw [hc] at hlast
  simp only [List.map_cons, List.map_nil, List.mem_cons, List.not_mem_nil, or_false] at hf
  rcases hf with hf | hf
  · rw [hf] at hlast
    have : c = '-' := by simpa using hlast.symm
    rw [this] at hdigit; exact absurd hdigit (by decide)
  · rw [hf] at hlast
    have : c = 'R' := by simpa using hlast.symm
    rw [this] at hdigit; exact absurd hdigit (by decide)

/-- **C62**. A new logger that does not continue starts the files it writes anew, whatever its suffix. -/
theorem C62_logged_fresh (suffix : Name) (dir : Dir V) (calls : List (Name × V)) (name : Name)
    (hname : name ∈ calls.map Prod.fst) :
    (logAll (Logger.new suffix false dir, dir) calls).2.lookup (name ++ suffix) = some (valuesOf calls name) := by
  rw [logAll_spec]
  rcases hfil : calls.filter (fun c => c.1 ++ (Logger.new suffix false dir, dir).1.suffix = name ++ suffix) with _ | ⟨d, ds⟩
  · exfalso
    rw [List.filter_eq_nil_iff] at hfil
    obtain ⟨c, hc, hcn⟩ := List.mem_map.1 hname
    exact hfil c hc (by simp [hcn, Logger.new])
  · have hd1 : d ∈ calls.filter (fun c => c.1 ++ (Logger.new suffix false dir, dir).1.suffix = name ++ suffix) := by
      rw [hfil]; simp
    have hd2 := (List.mem_filter.1 hd1).2
    simp only [decide_eq_true_eq] at hd2
    have hd3 : d.1 = name := List.append_cancel_right hd2
    simp only [hfil, hd3]; simp [Logger.new]

example : "J".toList ∈ ([("J".toList, 1), ("R".toList, 2)] : List (Name × ℕ)).map Prod.fst := by decide

/-- **C62**. Without a seed a continuing logger takes the files of other runs for its own: the file of the run with seed 3 is loaded
under the plain name, and the values of that run appear in the file of this one. -/
theorem C62_logged_refuted (old v : V) :
    (logAll (Logger.new [] true [("J".toList, []), ("J-3".toList, [old])],
      [("J".toList, []), ("J-3".toList, [old])]) [("J".toList, v)]).2.lookup "J".toList = some [old, v] := by
  have h1 : stripSeed "J".toList = "J".toList := by decide
  have h2 : stripSeed "J-3".toList = "J".toList := by decide
  have h3 : loadNumpy [] [("J".toList, []), ("J-3".toList, [old])] = [("J".toList, [old])] := by
    simp only [loadNumpy, List.foldl_cons, List.foldl_nil, List.isSuffixOf_iff_suffix, List.nil_suffix, if_true, h1, h2]
    simp [put]
  have h4 : (Logger.new [] true [("J".toList, []), ("J-3".toList, [old])]) = ⟨[], [("J".toList, [old])]⟩ := by
    rw [Logger.new, if_pos rfl, h3]
  rw [h4]
  simp [logAll, Logger.logNumpy, put]

end Verif.Misc
