/-
C103: the Atari environments.
-/
import Verif.Wrap.ModelAtari
import Verif.Wrap.SpecAtari
import Mathlib.Tactic.Ring
import Mathlib.Tactic.NormNum
import Mathlib.Algebra.BigOperators.Group.List.Basic

namespace Verif.Wrap

variable {G F P : Type}

/-! ### Skipped frames -/

/-- The outputs of the game for an action that is repeated. -/
def played (e : Game G F) (action n : ℕ) (g : G) : List (Out G F) :=
  repeated (fun g => e.step g action) Out.game Out.over n g

theorem skipLoop_eq (e : Game G F) (action skip : ℕ) : ∀ (n i : ℕ) (g : G) (b : F × F) (total : ℝ), i + n = skip →
    ∀ r, skipLoop e action skip n i g b total = some r →
      (played e action n g).getLast? = some r.1
      ∧ r.2.2 = total + ((played e action n g).map Out.reward).sum
      ∧ (2 ≤ n → (played e action n g).length = n →
          ((played e action n g)[n - 2]?).map Out.frame = some r.2.1.1 ∧ ((played e action n g)[n - 1]?).map Out.frame = some r.2.1.2)
      ∧ (n = 1 → r.2.1 = (b.1, r.1.frame))
      ∧ ((played e action n g).length < n → 2 ≤ n → (played e action n g).length + 1 < n → r.2.1 = b) := by
  intro n
  induction n with
  | zero => intro i g b total _ r h; exact absurd h (by simp [skipLoop])
  | succ n ih =>
    intro i g b total hi r h
    simp only [skipLoop] at h
    have hp : played e action (n + 1) g = e.step g action ::
        (if (e.step g action).over then [] else played e action n (e.step g action).game) := rfl
    set o := e.step g action with ho
    by_cases hover : o.over = true
    · rw [hover] at h hp
      simp only [Bool.true_or, if_true, Option.some.injEq] at h hp
      rw [hp]
      subst h
      refine ⟨rfl, by simp, ?_, ?_, ?_⟩
      · intro h2 hl; simp at hl; omega
      · intro hn
        have h1 : ¬ i + 2 = skip := by omega
        have h2 : i + 1 = skip := by omega
        simp [h1, h2]
      · intro _ h2 hl
        simp at hl
        have h1 : ¬ i + 2 = skip := by omega
        have h2 : ¬ i + 1 = skip := by omega
        simp [h1, h2]
    · rw [Bool.not_eq_true] at hover
      rw [hover] at h hp
      simp only [Bool.false_or, decide_eq_true_eq, Bool.false_eq_true, if_false] at h hp
      by_cases hn : n = 0
      · subst hn
        simp only [if_true, Option.some.injEq] at h
        rw [hp]
        subst h
        refine ⟨rfl, by simp [played, repeated], ?_, ?_, ?_⟩
        · intro h2; omega
        · intro _
          have h1 : ¬ i + 2 = skip := by omega
          have h2 : i + 1 = skip := by omega
          simp [h1, h2]
        · intro h2; simp at h2
      · rw [if_neg hn] at h
        obtain ⟨i1, i2, i3, i4, i5⟩ := ih (i + 1) o.game _ _ (by omega) r h
        rw [hp]
        refine ⟨?_, ?_, ?_, ?_, ?_⟩
        · rw [List.getLast?_cons, i1]; rfl
        · rw [i2]; simp only [List.map_cons, List.sum_cons]; ring
        · intro h2 hl
          have hl' : (played e action n o.game).length = n := by simpa using hl
          by_cases h3 : 2 ≤ n
          · obtain ⟨j1, j2⟩ := i3 h3 hl'
            constructor
            · rw [← j1]
              have : n + 1 - 2 = (n - 2) + 1 := by omega
              rw [this, List.getElem?_cons_succ]
            · rw [← j2]
              have : n + 1 - 1 = (n - 1) + 1 := by omega
              rw [this, List.getElem?_cons_succ]
          · have hn1 : n = 1 := by omega
            subst hn1
            have h5 : i + 2 = skip := by omega
            have h6 : ¬ i + 1 = skip := by omega
            have h7 : r.2.1 = (o.frame, r.1.frame) := by
              rw [i4 rfl]; simp [h5, h6]
            constructor
            · simp [h7]
            · simp only [Nat.add_sub_cancel, List.getElem?_cons_succ, h7]
              have h9 : (played e action 1 o.game).getLast? = (played e action 1 o.game)[0]? := by
                simp [played, repeated]
              rw [← h9, i1]; rfl
        · intro h2; omega
        · intro h1 h2 h3
          simp only [List.length_cons] at h1 h3
          have h5 : ¬ i + 2 = skip := by
            intro h5
            have : n = 1 := by omega
            subst this
            omega
          have h6 : ¬ i + 1 = skip := by omega
          rw [i5 (by omega) (by omega) (by omega)]
          simp [h5, h6]

theorem skipLoop_some (e : Game G F) (action skip : ℕ) : ∀ (n i : ℕ) (g : G) (b : F × F) (total : ℝ), 0 < n →
    ∃ r, skipLoop e action skip n i g b total = some r := by
  intro n
  induction n with
  | zero => intro i g b total h; omega
  | succ n ih =>
    intro i g b total _
    simp only [skipLoop]
    by_cases h : ((e.step g action).over || decide (n = 0)) = true
    · rw [if_pos h]; exact ⟨_, rfl⟩
    · rw [if_neg h]
      apply ih
      simp at h
      omega

/-- C103, not for games that end before the last frame (see `C103_skip_refuted`): with `MaxAndSkip` an action is repeated until the number
of frames is reached or the game is over. The reward is the sum of the rewards of these frames, the flags are those of the last one, and
the frame is the pooling of the last two frames. -/
theorem C103_skip_partial (c : Config F P) (e : Game G F) (b : F × F) (g : G) (action k : ℕ) (hk : c.skip = some k) (hk0 : 0 < k) :
    ∃ o b' last, envStep c e b g action = some (o, b')
      ∧ (played e action k g).getLast? = some last
      ∧ o.game = last.game ∧ o.over = last.over ∧ o.lives = last.lives
      ∧ o.reward = ((played e action k g).map Out.reward).sum
      ∧ (2 ≤ k → (played e action k g).length = k →
          ∃ x y, (played e action k g)[k - 2]? = some x ∧ (played e action k g)[k - 1]? = some y ∧ o.frame = c.pool x.frame y.frame) := by
  obtain ⟨r, hr⟩ := skipLoop_some e action k k 0 g b 0 hk0
  obtain ⟨h1, h2, h3, _, _⟩ := skipLoop_eq e action k k 0 g b 0 (by omega) r hr
  refine ⟨{ r.1 with frame := c.pool r.2.1.1 r.2.1.2, reward := r.2.2 }, r.2.1, r.1, ?_, h1, rfl, rfl, rfl, ?_, ?_⟩
  · simp only [envStep, hk, hr, Option.map_some]
  · simp only [h2, zero_add]
  · intro hk2 hl
    obtain ⟨h4, h5⟩ := h3 hk2 hl
    rw [Option.map_eq_some_iff] at h4 h5
    obtain ⟨x, hx, hx'⟩ := h4
    obtain ⟨y, hy, hy'⟩ := h5
    exact ⟨x, y, hx, hy, by simp only [hx', hy']⟩

/-- A game that counts its frames, gives a reward of one for each, and is over at the given frame. -/
def counter (limit : ℕ) (fire : Bool) : Game ℕ ℕ where
  reset _ := (0, 0)
  step g _ := ⟨g + 1, g + 1, 1, limit ≤ g + 1, 3⟩
  fire := fire

/-- The usual settings. -/
def settings (skip : Option ℕ) : Config ℕ ℕ := ⟨skip, max, id, 4, 3⟩

example : ∃ o b, envStep (settings (some 4)) (counter 100 true) (0, 0) 7 0 = some (o, b) ∧ o.frame = 11 ∧ o.reward = 4 := by
  refine ⟨⟨11, 11, 4, false, 3⟩, (10, 11), ?_, rfl, rfl⟩
  simp [envStep, settings, skipLoop, counter]
  norm_num

/-- C103 is false of the frames with `MaxAndSkip`: if the game ends more than one frame before the last, the frame is made of those that an earlier
call has left in the buffer. -/
theorem C103_skip_refuted (c : Config F P) (e : Game G F) (b : F × F) (g : G) (action k : ℕ) (hk : c.skip = some k)
    (hk0 : 0 < k) (hearly : (played e action k g).length + 1 < k) :
    ∃ o b', envStep c e b g action = some (o, b') ∧ o.frame = c.pool b.1 b.2 := by
  obtain ⟨r, hr⟩ := skipLoop_some e action k k 0 g b 0 hk0
  obtain ⟨h1, _, _, _, h5⟩ := skipLoop_eq e action k k 0 g b 0 (by omega) r hr
  have hpos : 0 < (played e action k g).length := by
    cases hl : played e action k g with
    | nil => rw [hl] at h1; simp at h1
    | cons a l => simp
  refine ⟨{ r.1 with frame := c.pool r.2.1.1 r.2.1.2, reward := r.2.2 }, r.2.1, ?_, ?_⟩
  · simp only [envStep, hk, hr, Option.map_some]
  · rw [h5 (by omega) (by omega) hearly]

example : (played (counter 100 true) 0 4 99).length + 1 < 4 := by
  simp [played, repeated, counter]

/-! ### Calls -/

/-- What a call asks of the game, apart from the actions before the first action of an episode. -/
inductive Ask (G F : Type)
  | restart (first : F)
  | out (o : Out G F)
  | stopped

/-- What a call asks of the game. -/
def Atari.ask (c : Config F P) (e : Game G F) (s : Atari G F P) : Call → List (Ask G F)
  | .reset _ => if s.realReset then [.restart (e.reset s.game).2] else []
  | .step action =>
    match envStep c e s.buffer (prelude e s.forceFire s.noOp s.game) action with
    | none => []
    | some r => [.out r.1]
  | .stop => [.stopped]
  | .setEpisodeEnd _ => []

/-- What a sequence of calls asks of the game. -/
def Atari.asks (c : Config F P) (e : Game G F) : Atari G F P → List Call → List (Ask G F)
  | _, [] => []
  | s, a :: rest =>
    match s.call c e a with
    | none => s.ask c e a
    | some (s', _) => s.ask c e a ++ Atari.asks c e s' rest

/-- The frames of the current game, where the first one counts `h` times. -/
def framesOf (h : ℕ) (prep : F → P) : List P → List (Ask G F) → List P
  | acc, [] => acc
  | _, .restart f :: rest => framesOf h prep (List.replicate h (prep f)) rest
  | acc, .out o :: rest => framesOf h prep (acc ++ [prep o.frame]) rest
  | acc, .stopped :: rest => framesOf h prep acc rest

/-- The lives that the game has last reported, those of a new game after a restart. -/
def livesOf (max : ℕ) : ℕ → List (Ask G F) → ℕ
  | l, [] => l
  | _, .restart _ :: rest => livesOf max max rest
  | _, .out o :: rest => livesOf max o.lives rest
  | l, .stopped :: rest => livesOf max l rest

/-- Whether the last action ended the game, or none was executed since the construction or since `stop`. -/
def ended : Bool → List (Ask G F) → Bool
  | b, [] => b
  | b, .restart _ :: rest => ended b rest
  | _, .out o :: rest => ended o.over rest
  | _, .stopped :: rest => ended true rest

theorem push_lastN (h : ℕ) (l acc : List P) (x : P) (hl : l = lastN h acc) : push h l x = lastN h (acc ++ [x]) := by
  subst hl
  simp only [push, lastN, List.length_drop, List.length_append, List.length_cons, List.length_nil]
  rcases Nat.eq_zero_or_pos h with h0 | h0
  · subst h0
    simp
  · rcases le_total acc.length h with hle | hle
    · have h1 : acc.length - h = 0 := by omega
      simp only [h1, List.drop_zero, Nat.sub_zero, zero_add]
    · have h1 : acc.length - (acc.length - h) + 1 - h = 1 := by omega
      have h2 : acc.length + (0 + 1) - h = (acc.length - h) + 1 := by omega
      rw [h1, h2, ← List.drop_drop, List.drop_append_of_le_length (l₁ := acc) (by omega)]

theorem lastN_length (h : ℕ) (l : List P) (hl : h ≤ l.length) : (lastN h l).length = h := by
  simp only [lastN, List.length_drop]; omega

/-- The frames of a return value. -/
def Ret.shown : Ret P → Option (List P)
  | .frames l => some l
  | .transition l _ _ => some l
  | .nothing => none

/-- The value that `set_episode_end` was last called with. -/
def lastEnd : Bool → List Call → Bool
  | b, [] => b
  | _, .setEpisodeEnd b :: rest => lastEnd b rest
  | b, _ :: rest => lastEnd b rest

theorem call_end (c : Config F P) (e : Game G F) (s s' : Atari G F P) (a : Call) (r : Ret P) (h : s.call c e a = some (s', r)) :
    s'.endsAtLife = lastEnd s.endsAtLife [a] := by
  cases a with
  | reset n =>
    simp only [Atari.call, Atari.reset, Option.map_eq_some_iff, Prod.mk.injEq] at h
    obtain ⟨q, ⟨l, _, hq⟩, h1, _⟩ := h
    subst hq h1
    cases hr : s.realReset <;> simp [Atari.restart, lastEnd, hr]
  | step a =>
    simp only [Atari.call, Atari.step, Option.map_eq_some_iff, Prod.mk.injEq] at h
    obtain ⟨q, hq, h1, _⟩ := h
    split at hq
    · simp at hq
    · simp only [Option.map_eq_some_iff] at hq
      obtain ⟨l, _, hq⟩ := hq
      subst hq h1
      rfl
  | stop => simp only [Atari.call, Option.some.injEq, Prod.mk.injEq] at h; rw [← h.1]; rfl
  | setEpisodeEnd b => simp only [Atari.call, Option.some.injEq, Prod.mk.injEq] at h; rw [← h.1]; rfl

theorem calls_end (c : Config F P) (e : Game G F) : ∀ (l : List Call) (s s' : Atari G F P) (r : List (Ret P)),
    s.calls c e l = some (s', r) → s'.endsAtLife = lastEnd s.endsAtLife l := by
  intro l
  induction l with
  | nil => intro s s' r h; simp only [Atari.calls, Option.some.injEq, Prod.mk.injEq] at h; rw [← h.1]; rfl
  | cons a l ih =>
    intro s s' r h
    simp only [Atari.calls] at h
    cases hc : s.call c e a with
    | none => rw [hc] at h; simp at h
    | some q =>
      rw [hc] at h
      simp only [Option.map_eq_some_iff, Prod.mk.injEq] at h
      obtain ⟨p, hp, h1, _⟩ := h
      rw [← h1, ih q.1 p.1 p.2 hp, call_end c e s q.1 a q.2 hc]
      cases a <;> rfl

theorem prelude_eq (e : Game G F) (fire : Bool) (noOp : ℕ) (g : G) :
    prelude e fire noOp g = after (fun g a => (e.step g a).game) g ((if fire then [1] else []) ++ List.replicate noOp 0) := by
  have h : ∀ (n : ℕ) (g : G), (fun g => (e.step g 0).game)^[n] g = (List.replicate n 0).foldl (fun g a => (e.step g a).game) g := by
    intro n
    induction n with
    | zero => intro g; rfl
    | succ n ih => intro g; rw [Function.iterate_succ_apply, ih, List.replicate_succ, List.foldl_cons]
  cases fire <;> simp [prelude, after, h]

theorem call_spec (c : Config F P) (e : Game G F) (hskip : ∀ k, c.skip = some k → 0 < k) (s : Atari G F P) (acc : List P) (l0 : ℕ) (b0 : Bool)
    (hs : s.state = lastN c.history acc) (hl : s.lives = l0) (hb : s.realReset = b0)
    (hacc : c.history ≤ acc.length ∨ (b0 = true)) (a : Call) (ha : c.history ≤ acc.length ∨ ∃ n, a = .reset n) :
    ∃ s' r, s.call c e a = some (s', r)
      ∧ s'.state = lastN c.history (framesOf c.history c.prep acc (s.ask c e a))
      ∧ s'.lives = livesOf c.maxLives l0 (s.ask c e a)
      ∧ s'.realReset = ended b0 (s.ask c e a)
      ∧ c.history ≤ (framesOf c.history c.prep acc (s.ask c e a)).length
      ∧ (∀ l, r.shown = some l → l = lastN c.history (framesOf c.history c.prep acc (s.ask c e a))) := by
  cases a with
  | reset noOp =>
    have hst : (s.restart c e noOp).state = lastN c.history (framesOf c.history c.prep acc (s.ask c e (.reset noOp))) := by
      cases hr : s.realReset with
      | true => simp [Atari.restart, Atari.ask, hr, framesOf, lastN]
      | false => simp [Atari.restart, Atari.ask, hr, framesOf, hs]
    have hlen : c.history ≤ (framesOf c.history c.prep acc (s.ask c e (.reset noOp))).length := by
      cases hr : s.realReset with
      | true => simp [Atari.ask, hr, framesOf]
      | false =>
        simp only [Atari.ask, hr, framesOf, Bool.false_eq_true, if_false]
        rcases hacc with h | h
        · exact h
        · rw [← hb, hr] at h; exact absurd h (by simp)
    refine ⟨s.restart c e noOp, .frames (s.restart c e noOp).state, ?_, hst, ?_, ?_, hlen, ?_⟩
    · have : (s.restart c e noOp).state.length = c.history := by rw [hst]; exact lastN_length _ _ hlen
      simp [Atari.call, Atari.reset, lazyFrames, this]
    · cases hr : s.realReset with
      | true => simp [Atari.restart, Atari.ask, hr, livesOf]
      | false => simp [Atari.restart, Atari.ask, hr, livesOf, hl]
    · cases hr : s.realReset with
      | true => simp [Atari.restart, Atari.ask, hr, ended, ← hb]
      | false => simp [Atari.restart, Atari.ask, hr, ended, ← hb]
    · intro l h
      simp only [Ret.shown, Option.some.injEq] at h
      rw [← h, hst]
  | step action =>
    have hacc' : c.history ≤ acc.length := by
      rcases ha with h | ⟨n, h⟩
      · exact h
      · cases h
    obtain ⟨o, b, ho⟩ : ∃ o b, envStep c e s.buffer (prelude e s.forceFire s.noOp s.game) action = some (o, b) := by
      cases hk : c.skip with
      | none => exact ⟨e.step (prelude e s.forceFire s.noOp s.game) action, s.buffer, by simp only [envStep, hk]⟩
      | some k =>
        obtain ⟨o, b, _, h, _⟩ := C103_skip_partial c e s.buffer (prelude e s.forceFire s.noOp s.game) action k hk (hskip k hk)
        exact ⟨o, b, h⟩
    have hask : s.ask c e (.step action) = [.out o] := by simp only [Atari.ask, ho]
    have hst : (s.finish c e o b).1.state = lastN c.history (acc ++ [c.prep o.frame]) := push_lastN _ _ _ _ hs
    have hlen : (s.finish c e o b).1.state.length = c.history := by
      rw [hst]; apply lastN_length; simp only [List.length_append]; omega
    refine ⟨(s.finish c e o b).1, .transition (s.finish c e o b).1.state o.reward (s.finish c e o b).2, ?_, ?_, ?_, ?_, ?_, ?_⟩
    · simp [Atari.call, Atari.step, ho, lazyFrames, hlen]
    · rw [hask]; exact hst
    · rw [hask]
      simp only [Atari.finish, livesOf]
      by_cases h : o.lives = s.lives
      · simp [h]
      · simp [h]
    · rw [hask]; rfl
    · rw [hask]; simp only [framesOf, List.length_append]; omega
    · intro l h
      simp only [Ret.shown, Option.some.injEq] at h
      rw [← h, hask]; exact hst
  | stop =>
    have hacc' : c.history ≤ acc.length := by
      rcases ha with h | ⟨n, h⟩
      · exact h
      · cases h
    refine ⟨s.stop, .nothing, rfl, hs, hl, rfl, hacc', ?_⟩
    intro l h; simp [Ret.shown] at h
  | setEpisodeEnd b =>
    have hacc' : c.history ≤ acc.length := by
      rcases ha with h | ⟨n, h⟩
      · exact h
      · cases h
    refine ⟨s.setEpisodeEnd b, .nothing, rfl, hs, hl, hb, hacc', ?_⟩
    intro l h; simp [Ret.shown] at h

theorem calls_spec (c : Config F P) (e : Game G F) (hskip : ∀ k, c.skip = some k → 0 < k) (calls : List Call) :
    ∀ (s : Atari G F P) (acc : List P) (l0 : ℕ) (b0 : Bool), s.state = lastN c.history acc → s.lives = l0 → s.realReset = b0 →
    c.history ≤ acc.length →
    ∃ s' rets, s.calls c e calls = some (s', rets)
      ∧ s'.state = lastN c.history (framesOf c.history c.prep acc (s.asks c e calls))
      ∧ s'.lives = livesOf c.maxLives l0 (s.asks c e calls)
      ∧ s'.realReset = ended b0 (s.asks c e calls)
      ∧ c.history ≤ (framesOf c.history c.prep acc (s.asks c e calls)).length := by
  induction calls with
  | nil => intro s acc l0 b0 h1 h2 h3 h4; exact ⟨s, [], rfl, h1, h2, h3, h4⟩
  | cons a rest ih =>
    intro s acc l0 b0 h1 h2 h3 h4
    obtain ⟨s', r, hc, k1, k2, k3, k4, _⟩ := call_spec c e hskip s acc l0 b0 h1 h2 h3 (Or.inl h4) a (Or.inl h4)
    obtain ⟨s'', rets, hcs, j1, j2, j3, j4⟩ := ih s' _ _ _ k1 k2 k3 k4
    have hask : s.asks c e (a :: rest) = s.ask c e a ++ s'.asks c e rest := by simp only [Atari.asks, hc]
    have f1 : ∀ (x y : List (Ask G F)) (acc : List P), framesOf c.history c.prep acc (x ++ y)
        = framesOf c.history c.prep (framesOf c.history c.prep acc x) y := by
      intro x
      induction x with
      | nil => intro y acc; rfl
      | cons a x ih => intro y acc; cases a <;> exact ih _ _
    have f2 : ∀ (x y : List (Ask G F)) (l : ℕ), livesOf c.maxLives l (x ++ y) = livesOf c.maxLives (livesOf c.maxLives l x) y := by
      intro x
      induction x with
      | nil => intro y acc; rfl
      | cons a x ih => intro y acc; cases a <;> exact ih _ _
    have f3 : ∀ (x y : List (Ask G F)) (b : Bool), ended b (x ++ y) = ended (ended b x) y := by
      intro x
      induction x with
      | nil => intro y acc; rfl
      | cons a x ih => intro y acc; cases a <;> exact ih _ _
    refine ⟨s'', r :: rets, ?_, ?_, ?_, ?_, ?_⟩
    · simp only [Atari.calls, hc, hcs, Option.map_some]
    · rw [hask, f1]; exact j1
    · rw [hask, f2]; exact j2
    · rw [hask, f3]; exact j3
    · rw [hask, f1]; exact j4

/-- C103: no call of an environment that was reset once fails. After any calls the state is made of the last `history_length` frames of the
current game, the lives are those that the game has last reported, and the game may be restarted exactly if it has ended. -/
theorem C103_calls (c : Config F P) (e : Game G F) (hskip : ∀ k, c.skip = some k → 0 < k) (g : G) (zero : F) (b : Bool) (noOp : ℕ)
    (calls : List Call) :
    let s := Atari.new c g zero b
    let asks := s.asks c e (.reset noOp :: calls)
    ∃ s' rets, s.calls c e (.reset noOp :: calls) = some (s', rets)
      ∧ s'.state = lastN c.history (framesOf c.history c.prep [] asks) ∧ s'.state.length = c.history
      ∧ s'.lives = livesOf c.maxLives c.maxLives asks
      ∧ s'.realReset = ended true asks ∧ s'.endsAtLife = lastEnd b calls := by
  intro s asks
  obtain ⟨s1, r, hc, k1, k2, k3, k4, _⟩ := call_spec c e hskip s [] c.maxLives true (by simp [s, Atari.new, lastN]) rfl rfl (Or.inr rfl)
    (.reset noOp) (Or.inr ⟨_, rfl⟩)
  obtain ⟨s2, rets, hcs, j1, j2, j3, j4⟩ := calls_spec c e hskip calls s1 _ _ _ k1 k2 k3 k4
  have hask : s.ask c e (.reset noOp) = [.restart (e.reset g).2] := rfl
  have hasks : asks = .restart (e.reset g).2 :: s1.asks c e calls := by simp only [asks, Atari.asks, hc, hask, List.cons_append, List.nil_append]
  have hall : s.calls c e (.reset noOp :: calls) = some (s2, r :: rets) := by simp only [Atari.calls, hc, hcs, Option.map_some]
  refine ⟨s2, r :: rets, hall, ?_, ?_, ?_, ?_, calls_end c e _ _ _ _ hall⟩
  · rw [hasks, j1, hask]; rfl
  · rw [j1]; exact lastN_length _ _ j4
  · rw [hasks, j2, hask]; rfl
  · rw [hasks, j3, hask]; rfl

example : ∃ s rets, (Atari.new (settings (some 4)) 0 0 true).calls (settings (some 4)) (counter 100 true) [.reset 2, .step 5, .step 7, .stop, .reset 0]
    = some (s, rets) ∧ s.state = [0, 0, 0, 0] := by
  obtain ⟨s, rets, h, h1, _⟩ := C103_calls (settings (some 4)) (counter 100 true) (by simp [settings]) 0 0 true 2 [.step 5, .step 7, .stop, .reset 0]
  refine ⟨s, rets, h, ?_⟩
  rw [h1]
  simp [Atari.asks, Atari.ask, Atari.new, Atari.call, Atari.reset, Atari.restart, Atari.stop, framesOf, settings, lazyFrames, counter, lastN,
    Atari.step, envStep, prelude, skipLoop, Atari.finish, push]

/-- C103: a reset starts a new game exactly if the last one has ended, and otherwise goes on with the game as it is. The frames
that are returned are those of the state. -/
theorem C103_reset (c : Config F P) (e : Game G F) (s s' : Atari G F P) (noOp : ℕ) (l : List P) (h : s.reset c e noOp = some (s', l)) :
    s'.forceFire = e.fire ∧ s'.noOp = noOp ∧
    (s.realReset = true → s'.game = (e.reset s.game).1 ∧ l = List.replicate c.history (c.prep (e.reset s.game).2))
    ∧ (s.realReset = false → s'.game = s.game ∧ l = s.state) := by
  simp only [Atari.reset, Option.map_eq_some_iff, lazyFrames, Option.ite_none_right_eq_some, Option.some.injEq, Prod.mk.injEq] at h
  obtain ⟨l', ⟨_, h1⟩, h2, h3⟩ := h
  subst h2 h3 h1
  refine ⟨rfl, rfl, ?_, ?_⟩
  · intro hr; simp [Atari.restart, hr]
  · intro hr; simp [Atari.restart, hr]

example : ∃ s' l, (Atari.new (settings none) 5 0 true).reset (settings none) (counter 100 true) 3 = some (s', l) ∧ s'.game = 0 :=
  ⟨_, _, rfl, rfl⟩

/-- C103: the first step of an episode and the first after a lost life are preceded by 'FIRE' (if the game has it), the former also by the no-op
actions. A step is absorbing exactly if the game is over or if, for environments that end with a life, the number of lives is not the
one reported before; it returns the reward of the game; and a game that asks for it is restarted with 'FIRE' after a life is lost. -/
theorem C103_step (c : Config F P) (e : Game G F) (s s' : Atari G F P) (action : ℕ) (l : List P) (reward : ℝ) (absorbing : Bool)
    (h : s.step c e action = some (s', l, reward, absorbing)) :
    ∃ o b, envStep c e s.buffer (after (fun g a => (e.step g a).game) s.game
        ((if s.forceFire then [1] else []) ++ List.replicate s.noOp 0)) action = some (o, b)
      ∧ reward = o.reward ∧ (absorbing = true ↔ o.over = true ∨ s.endsAtLife = true ∧ o.lives ≠ s.lives)
      ∧ s'.game = o.game ∧ l = s'.state ∧ s'.noOp = 0 ∧ s'.endsAtLife = s.endsAtLife
      ∧ (s'.forceFire = true ↔ e.fire = true ∧ o.lives ≠ s.lives) := by
  unfold Atari.step at h
  split at h
  · exact absurd h (by simp)
  · rename_i o b ho
    simp only [Option.map_eq_some_iff, lazyFrames, Option.ite_none_right_eq_some, Option.some.injEq, Prod.mk.injEq] at h
    obtain ⟨l', ⟨_, h0⟩, h1, h2, h3, h4⟩ := h
    subst h1 h2 h3 h4 h0
    refine ⟨o, b, by rw [← prelude_eq]; exact ho, rfl, ?_, rfl, rfl, rfl, rfl, ?_⟩
    · simp only [Atari.finish]
      by_cases hl : o.lives = s.lives
      · simp [hl]
      · cases he : s.endsAtLife <;> simp [hl]
    · simp only [Atari.finish]
      by_cases hl : o.lives = s.lives
      · simp [hl]
      · simp [hl]

example : ∃ s' l, ((Atari.new (settings none) 5 0 true).restart (settings none) (counter 100 true) 3).step (settings none) (counter 100 true) 2
    = some (s', l, 1, false) ∧ s'.game = 5 := by
  refine ⟨⟨5, (0, 0), [0, 0, 0, 5], 3, false, false, 0, true⟩, [0, 0, 0, 5], ?_, rfl⟩
  simp [Atari.step, Atari.restart, Atari.new, settings, counter, envStep, prelude, Atari.finish, push, lazyFrames]

/-- C103 is false of the rewards: those of the actions before the first action of an episode are not reported. -/
theorem C103_reward_refuted : ∃ (c : Config ℕ ℕ) (e : Game ℕ ℕ) (s : Atari ℕ ℕ ℕ), ∃ s' l,
    ((s.restart c e 2).step c e 3) = some (s', l, 1, false) ∧ (∀ g a, (e.step g a).reward = 1) ∧ (s.restart c e 2).game = 0 ∧ s'.game = 4 := by
  refine ⟨settings none, counter 100 true, Atari.new (settings none) 5 0 true, ⟨4, (0, 0), [0, 0, 0, 4], 3, false, false, 0, true⟩,
    [0, 0, 0, 4], ?_, fun _ _ => rfl, rfl, rfl⟩
  simp [Atari.step, Atari.restart, Atari.new, settings, counter, envStep, prelude, Atari.finish, push, lazyFrames]

/-- C103, not for games without frame skipping of their own and not for episodes that end before the game (see `C103_gymnasium_skip_refuted`
and `C103_gymnasium_reset_refuted`): the Gymnasium version does the same as the other one. -/
theorem C103_gymnasium_partial (c : Config F P) (e : Game G F) (s : Atari G F P) :
    (∀ noOp, s.realReset = true → s.resetGymnasium c e noOp = s.reset c e noOp)
    ∧ (∀ action, c.skip = none → s.stepGymnasium c e action = s.step c e action) := by
  constructor
  · intro n h; simp only [Atari.resetGymnasium, h, if_true]
  · intro a h; simp only [Atari.stepGymnasium, h]

example : ((Atari.new (settings none) 5 0 true).resetGymnasium (settings none) (counter 100 true) 3).isSome = true := rfl

/-- C103 is false of `GymnasiumAtari` with 'NoFrameskip' games: no step ever succeeds. -/
theorem C103_gymnasium_skip_refuted (c : Config F P) (e : Game G F) (s : Atari G F P) (k : ℕ) (hk : c.skip = some k) (action : ℕ) :
    s.stepGymnasium c e action = none := by
  simp only [Atari.stepGymnasium, hk]

/-- A game in which a life is lost and that does not end. -/
def losing : Game ℕ ℕ := ⟨fun _ => (0, 0), fun g _ => ⟨g + 1, g + 1, 1, false, 2⟩, false⟩

/-- C103 is false of `GymnasiumAtari.reset`: after any step that does not end the game (the end of an episode by a lost life or by the horizon)
it raises. -/
theorem C103_gymnasium_reset_refuted (c : Config F P) (e : Game G F) (s s' : Atari G F P) (action : ℕ) (l : List P) (reward : ℝ)
    (absorbing : Bool) (hstep : s.stepGymnasium c e action = some (s', l, reward, absorbing))
    (hover : ∀ g, (e.step g action).over = false) (noOp : ℕ) : s'.resetGymnasium c e noOp = none := by
  unfold Atari.stepGymnasium at hstep
  split at hstep
  · exact absurd hstep (by simp)
  · rename_i hk
    simp only [Atari.step, envStep, hk, Option.map_eq_some_iff, Prod.mk.injEq] at hstep
    obtain ⟨l', _, h1, _⟩ := hstep
    subst h1
    simp [Atari.resetGymnasium, Atari.finish, hover]

example : ∃ r, ((Atari.new (settings none) 0 0 true).restart (settings none) losing 3).stepGymnasium (settings none) losing 2 = some r
    ∧ r.2.2.2 = true ∧ ∀ g, (losing.step g 2).over = false := by
  refine ⟨(⟨4, (0, 0), [0, 0, 0, 4], 2, false, false, 0, true⟩, [0, 0, 0, 4], 1, true), ?_, rfl, fun _ => rfl⟩
  simp [Atari.stepGymnasium, Atari.step, Atari.restart, Atari.new, settings, losing, envStep, prelude, Atari.finish, push, lazyFrames]

end Verif.Wrap
