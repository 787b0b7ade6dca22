/-
Property C130: console logging and the files of loggers.
-/
import Verif.Misc.ModelConsole
import Verif.Record.Props
import Mathlib.Tactic

namespace Verif.Misc.Console

/-! ### Specification -/

/-- What the user expects of one message: one line on the console if its level is high enough for it, and one line in the log file, if there is one, if its
level is high enough for that. -/
def wanted {Msg : Type} (c : Conf) (level : ℕ) (msg : Msg) : List (Sink × Msg) :=
  (if c.consoleLevel ≤ level then [(Sink.console, msg)] else []) ++
  match c.dir with
  | none => []
  | some d =>
    let file := match c.fileName with
      | none => c.name ++ c.suffix
      | some f => f
    if c.fileLevel ≤ level then [(Sink.file (d ++ "/".toList ++ file ++ ".log".toList), msg)] else []

/-- The lines that a program should write, given the loggers that exist. -/
def expected {Msg : Type} (live : ℕ → Option Conf) : List (Op Msg) → List (Sink × Msg)
  | [] => []
  | .new o c :: ops => expected (Function.update live o (some c)) ops
  | .del o :: ops => expected (Function.update live o none) ops
  | .igibson _ :: ops => expected live ops
  | .log o level msg :: ops =>
    (match live o with
      | none => []
      | some c => wanted c level msg) ++ expected live ops

/-- A program whose loggers have different ids as long as they exist, with positive levels, and whose iGibson environments are verbose. -/
def Separate {Msg : Type} (live : ℕ → Option Conf) : List (Op Msg) → Prop
  | [] => True
  | .new o c :: ops => live o = none ∧ (∀ o' c', live o' = some c' → c'.id ≠ c.id) ∧ 0 < c.consoleLevel ∧ 0 < c.fileLevel ∧
      Separate (Function.update live o (some c)) ops
  | .del o :: ops => live o ≠ none ∧ Separate (Function.update live o none) ops
  | .log o level _ :: ops => live o ≠ none ∧ 0 < level ∧ Separate live ops
  | .igibson verbose :: ops => verbose = true ∧ Separate live ops

/-! ### Proofs -/

/-- The registry fits the loggers that exist. -/
structure Fits (reg : Registry) (live : ℕ → Option Conf) : Prop where
  own : ∀ o c, live o = some c → 0 < c.consoleLevel ∧ 0 < c.fileLevel ∧ reg c.id = ⟨min c.consoleLevel c.fileLevel, [⟨.console, c.consoleLevel⟩] ++
    match c.path with
    | none => []
    | some p => [⟨.file p, c.fileLevel⟩]⟩
  free : ∀ id, (∀ o c, live o = some c → c.id ≠ id) → (reg id).handlers = []
  inj : ∀ o o' c c', live o = some c → live o' = some c' → c.id = c'.id → o = o'

theorem wanted_path {Msg : Type} (c : Conf) (level : ℕ) (msg : Msg) :
    wanted c level msg = (if c.consoleLevel ≤ level then [(Sink.console, msg)] else []) ++
      match c.path with
      | none => []
      | some p => if c.fileLevel ≤ level then [(Sink.file p, msg)] else [] := by
  unfold wanted Conf.path Conf.id
  cases c.dir <;> cases c.fileName <;> rfl

theorem emit_wanted {Msg : Type} (reg : Registry) (live : ℕ → Option Conf) (h : Fits reg live) (o level : ℕ) (c : Conf) (hc : live o = some c) (msg : Msg) :
    (emit reg c level).map (fun s => (s, msg)) = wanted c level msg := by
  obtain ⟨h1, h2, h3⟩ := h.own o c hc
  have h4 : min c.consoleLevel c.fileLevel ≠ 0 := by omega
  rw [wanted_path]
  simp only [emit, h3, if_neg h4]
  cases hp : c.path with
  | none =>
    by_cases hl : c.consoleLevel ≤ level
    · rw [if_neg (by omega), if_neg (by simp)]
      simp [hl]
    · split_ifs <;> simp_all
  | some p =>
    by_cases hl : c.consoleLevel ≤ level <;> by_cases hf : c.fileLevel ≤ level
    · rw [if_neg (by omega), if_neg (by simp)]; simp [hl, hf]
    · rw [if_neg (by omega), if_neg (by simp)]; simp [hl, hf]
    · rw [if_neg (by omega), if_neg (by simp)]; simp [hl, hf]
    · rw [if_pos (by omega)]; simp [hl, hf]

theorem fits_new (reg : Registry) (live : ℕ → Option Conf) (h : Fits reg live) (o : ℕ) (c : Conf)
    (hn : ∀ o' c', live o' = some c' → c'.id ≠ c.id) (h1 : 0 < c.consoleLevel) (h2 : 0 < c.fileLevel) (ho : live o = none) :
    Fits (construct reg c) (Function.update live o (some c)) := by
  have hfree : (reg c.id).handlers = [] := h.free c.id hn
  refine ⟨?_, ?_, ?_⟩
  · intro o' c' hc'
    by_cases hoo : o' = o
    · subst hoo
      rw [Function.update_self, Option.some.injEq] at hc'
      subst hc'
      refine ⟨h1, h2, ?_⟩
      rw [construct, Function.update_self, hfree]
      rfl
    · rw [Function.update_of_ne hoo] at hc'
      rw [construct, Function.update_of_ne (hn o' c' hc')]
      exact h.own o' c' hc'
  · intro id hid
    have hne : id ≠ c.id := fun he => hid o c (Function.update_self ..) he.symm
    rw [construct, Function.update_of_ne hne]
    refine h.free id fun o' c' hc' => ?_
    refine hid o' c' ?_
    rw [Function.update_of_ne]
    · exact hc'
    · rintro rfl; rw [ho] at hc'; cases hc'
  · intro a b ca cb ha hb hab
    by_cases h3 : a = o <;> by_cases h4 : b = o
    · rw [h3, h4]
    · subst h3
      rw [Function.update_self, Option.some.injEq] at ha
      rw [Function.update_of_ne h4] at hb
      subst ha
      exact absurd hab.symm (hn b cb hb)
    · subst h4
      rw [Function.update_self, Option.some.injEq] at hb
      rw [Function.update_of_ne h3] at ha
      subst hb
      exact absurd hab (hn a ca ha)
    · rw [Function.update_of_ne h3] at ha
      rw [Function.update_of_ne h4] at hb
      exact h.inj a b ca cb ha hb hab

theorem fits_del (reg : Registry) (live : ℕ → Option Conf) (h : Fits reg live) (o : ℕ) (c : Conf) (hc : live o = some c) :
    Fits (delete reg c) (Function.update live o none) := by
  have hback : ∀ o' c', Function.update live o none o' = some c' → o' ≠ o ∧ live o' = some c' := by
    intro o' c' h'
    by_cases hoo : o' = o
    · subst hoo; rw [Function.update_self] at h'; cases h'
    · rw [Function.update_of_ne hoo] at h'; exact ⟨hoo, h'⟩
  refine ⟨?_, ?_, ?_⟩
  · intro o' c' hc'
    obtain ⟨hne, hl⟩ := hback o' c' hc'
    rw [delete, Function.update_of_ne (fun he => hne (h.inj _ _ _ _ hl hc he))]
    exact h.own o' c' hl
  · intro id hid
    by_cases he : id = c.id
    · subst he; rw [delete, Function.update_self]
    · rw [delete, Function.update_of_ne he]
      refine h.free id fun o' c' hc' => ?_
      by_cases hoo : o' = o
      · subst hoo
        rw [hc, Option.some.injEq] at hc'
        subst hc'
        exact fun h => he h.symm
      · exact hid o' c' (by rw [Function.update_of_ne hoo]; exact hc')
  · intro a b ca cb ha hb hab
    exact h.inj a b ca cb (hback a ca ha).2 (hback b cb hb).2 hab

theorem run_expected {Msg : Type} (ops : List (Op Msg)) : ∀ w : World Msg, w.disabled = 0 → Fits w.reg w.objs → Separate w.objs ops →
    (ops.foldl World.step w).out = w.out ++ expected w.objs ops := by
  induction ops with
  | nil => intro w _ _ _; simp [expected]
  | cons op ops ih =>
    intro w hz hw hs
    rw [List.foldl_cons]
    cases op with
    | igibson verbose =>
      obtain ⟨h1, h2⟩ := hs
      subst h1
      rw [World.step, if_neg (by simp), ih w hz hw h2]
      rfl
    | new o c =>
      obtain ⟨h1, h2, h3, h4, h5⟩ := hs
      rw [ih]
      · rfl
      · exact hz
      · exact fits_new w.reg w.objs hw o c h2 h3 h4 h1
      · exact h5
    | del o =>
      obtain ⟨h1, h2⟩ := hs
      obtain ⟨c, hc⟩ := Option.ne_none_iff_exists'.1 h1
      have hstep : w.step (.del o) = { w with reg := delete w.reg c, objs := Function.update w.objs o none } := by simp only [World.step, hc]
      rw [hstep, ih]
      · rfl
      · exact hz
      · exact fits_del w.reg w.objs hw o c hc
      · exact h2
    | log o level msg =>
      obtain ⟨h1, h3, h2⟩ := hs
      obtain ⟨c, hc⟩ := Option.ne_none_iff_exists'.1 h1
      have hstep : w.step (.log o level msg) = { w with out := w.out ++ (emit w.reg c level).map fun s => (s, msg) } := by
        simp only [World.step, hc, if_neg (show ¬ level ≤ w.disabled by omega)]
      rw [hstep, ih]
      · simp only [expected, hc, emit_wanted w.reg w.objs hw o level c hc msg, List.append_assoc]
      · exact hz
      · exact hw
      · exact h2

/-! ### The property -/

/-- C130. As long as the loggers that exist at the same time have different ids, every message is written once to the console and once to the log file of its
logger, if its level is high enough for them, in the order of the calls, and nothing else is written. This holds for every sequence of constructions,
deletions and messages. Missing: loggers with the same id, a level of zero and quiet iGibson environments, see the refutations. -/
theorem C130_console_partial {Msg : Type} (ops : List (Op Msg)) (h : Separate (fun _ => none) ops) : (run ops).out = expected (fun _ => none) ops := by
  rw [run, run_expected ops _ rfl ?_ h]
  · rfl
  · exact ⟨by simp, fun _ _ => rfl, by simp⟩

/-- Arguments of a logger with a log file. -/
def sample (name : String) (c f : ℕ) : Conf := ⟨name.toList, [], some "logs".toList, none, c, f⟩

/-- Two loggers, one replaced by another of the same name, with messages in between. -/
example : Separate (Msg := String) (fun _ => none)
    [.new 0 (sample "a" 10 20), .new 1 (sample "b" 30 10), .log 0 10 "x", .del 0, .new 2 (sample "a" 20 20), .log 2 40 "y", .log 1 20 "z"] := by
  simp [Separate, sample, Conf.id, Function.update_apply]
  grind

/-- C130, refuted for loggers with the same id: two of them write every message of either twice to the console. -/
theorem C130_twice_refuted {Msg : Type} [DecidableEq Msg] (c : Conf) (level : ℕ) (msg : Msg) (h1 : 0 < c.consoleLevel) (h2 : 0 < c.fileLevel)
    (hl : c.consoleLevel ≤ level) : (run [.new 0 c, .new 1 c, .log 0 level msg]).out.count (Sink.console, msg) = 2 ∧ (wanted c level msg).count (Sink.console, msg) = 1 := by
  rw [wanted_path]
  have h4 : min c.consoleLevel c.fileLevel ≠ 0 := by omega
  have h5 : ¬ level < min c.consoleLevel c.fileLevel := by omega
  cases hp : c.path with
  | none =>
    simp [run, World.step, Registry.empty, construct, emit, hp, Function.update_apply, h1.ne', h2.ne', hl, show level ≠ 0 by omega]
    rw [if_neg (by omega)]
    simp
  | some p =>
    by_cases hf : c.fileLevel ≤ level <;>
    · simp [run, World.step, Registry.empty, construct, emit, hp, Function.update_apply, h1.ne', h2.ne', hl, hf, show level ≠ 0 by omega]
      rw [if_neg (by omega)]
      simp [List.count_cons]

/-- The default levels meet the hypotheses. -/
example : 0 < (sample "a" 10 10).consoleLevel ∧ 0 < (sample "a" 10 10).fileLevel ∧ (sample "a" 10 10).consoleLevel ≤ 20 := by simp [sample]

/-- C130, refuted for loggers with the same id: replacing a logger by another one with the same name silences the new one, on the console and in its log
file, because the old one is deleted after the construction of the new one. `INFO` is 20. -/
theorem C130_replace_refuted {Msg : Type} (c : Conf) (msg : Msg) (h : c.consoleLevel ≤ 20) :
    (run [.new 0 c, .new 1 c, .del 0, .log 1 20 msg]).out = [] ∧ wanted c 20 msg ≠ [] := by
  constructor
  · simp [run, World.step, Registry.empty, construct, delete, emit, Function.update_apply]
  · simp [wanted, h]

/-- C130, refuted for loggers with the same id: the levels of the newer one hold for both. -/
theorem C130_level_refuted {Msg : Type} (c d : Conf) (level : ℕ) (msg : Msg) (hid : c.id = d.id) (hc : c.consoleLevel ≤ level)
    (hd : level < d.consoleLevel) (hd' : level < d.fileLevel) :
    (run [.new 0 c, .new 1 d, .log 0 level msg]).out = [] ∧ wanted c level msg ≠ [] := by
  constructor
  · simp [run, World.step, construct, emit, Function.update_apply, hid, show d.consoleLevel ≠ 0 by omega, show d.fileLevel ≠ 0 by omega, hd, hd']
  · simp [wanted, hc]

example : (sample "a" 10 10).id = (sample "a" 40 40).id ∧ (sample "a" 10 10).consoleLevel ≤ 20 ∧ 20 < (sample "a" 40 40).consoleLevel := by
  simp [sample, Conf.id]

/-- C130, refuted for the level zero, `logging.NOTSET`: messages below `WARNING` are not written. -/
theorem C130_notset_refuted {Msg : Type} (c : Conf) (level : ℕ) (msg : Msg) (hc : c.consoleLevel = 0) (hl : level < 30) :
    (run [.new 0 c, .log 0 level msg]).out = [] ∧ wanted c level msg ≠ [] := by
  constructor
  · simp [run, World.step, construct, emit, Function.update_apply, hc, hl]
  · simp [wanted, hc]

example : (sample "a" 0 10).consoleLevel = 0 ∧ 20 < 30 := by simp [sample]

/-- C130, refuted: the construction of an iGibson environment with default arguments silences all loggers of the process, for all levels of `logging`. -/
theorem C130_igibson_refuted {Msg : Type} (c : Conf) (level : ℕ) (msg : Msg) (hc : c.consoleLevel ≤ level) (hl : level ≤ 50) :
    (run [.new 0 c, .igibson false, .log 0 level msg]).out = [] ∧ wanted c level msg ≠ [] := by
  constructor
  · simp [run, World.step, Function.update_apply]
    omega
  · simp [wanted, hc]

example : (sample "a" 10 10).consoleLevel ≤ 50 := by simp [sample]

/-! ### Names -/

theorem decimal_digits (k : ℕ) : ∀ x ∈ Record.decimal k, x.isDigit = true := by
  intro x hx
  exact Nat.isDigit_of_mem_toDigits (b := 10) (by norm_num) (by norm_num) hx

theorem decimal_no_minus (k : ℕ) : '-' ∉ Record.decimal k := fun h => by
  have := decimal_digits k _ h
  simp [Char.isDigit] at this

theorem split_last {a b x y : List Char} (hx : '-' ∉ x) (hy : '-' ∉ y) (h : a ++ '-' :: x = b ++ '-' :: y) : a = b ∧ x = y := by
  rcases List.append_eq_append_iff.1 h with ⟨c, h1, h2⟩ | ⟨c, h1, h2⟩
  · cases c with
    | nil => simp at h1 h2; exact ⟨h1.symm, h2⟩
    | cons e c =>
      exfalso
      simp only [List.cons_append, List.cons.injEq] at h2
      exact hx (h2.2 ▸ by simp)
  · cases c with
    | nil => simp at h1 h2; exact ⟨h1, h2.symm⟩
    | cons e c =>
      exfalso
      simp only [List.cons_append, List.cons.injEq] at h2
      exact hy (h2.2 ▸ by simp)

/-- C130. Two named loggers without time stamps, both with a seed or both without one, have the same id only if they have the same name and the same seed. -/
theorem C130_ids_partial (name name' : Name) (dir dir' : Option Name) (lc lc' : Bool) (stamp stamp' : Name) (seed seed' : Option ℕ) (l1 l2 l1' l2' : ℕ)
    (c c' : Conf) (hc : loggerConf name dir lc false stamp seed l1 l2 = some c) (hc' : loggerConf name' dir' lc' false stamp' seed' l1' l2' = some c')
    (hn : name ≠ []) (hn' : name' ≠ []) (hseed : seed = none ↔ seed' = none) (hid : c.id = c'.id) : name = name' ∧ seed = seed' := by
  have e : ∀ (name : Name) dir lc stamp seed l1 l2 c, name ≠ [] → loggerConf name dir lc false stamp seed l1 l2 = some c → c.id = name ++ seedSuffix seed := by
    intro name dir lc stamp seed l1 l2 c hn h
    unfold loggerConf at h
    split at h
    · cases h
    · simp only [logName, if_neg hn, Bool.false_eq_true, if_false, Option.some.injEq] at h
      subst h; rfl
  rw [e _ _ _ _ _ _ _ _ hn hc, e _ _ _ _ _ _ _ _ hn' hc'] at hid
  cases seed with
  | none =>
    rw [hseed.1 rfl] at hid ⊢
    exact ⟨by simpa [seedSuffix] using hid, rfl⟩
  | some s =>
    cases seed' with
    | none => exact absurd (hseed.2 rfl) (by simp)
    | some s' =>
      obtain ⟨h1, h2⟩ := split_last (decimal_no_minus s) (decimal_no_minus s') hid
      exact ⟨h1, by rw [Record.decimal_inj h2]⟩

example : (loggerConf "a-1".toList none false false [] (some 2) 10 10).isSome := by decide

/-- C130. Two loggers without a name, both with a seed or both without one, have the same id only if they were made at the same time and have the same seed;
with time stamps this holds for all loggers with the same name. -/
theorem C130_stamps (name : Name) (dir dir' : Option Name) (lc lc' ts : Bool) (stamp stamp' : Name) (seed seed' : Option ℕ) (l1 l2 l1' l2' : ℕ)
    (c c' : Conf) (hc : loggerConf name dir lc ts stamp seed l1 l2 = some c) (hc' : loggerConf name dir' lc' ts stamp' seed' l1' l2' = some c')
    (hn : name = [] ∨ ts = true) (hseed : seed = none ↔ seed' = none) (hid : c.id = c'.id) : stamp = stamp' ∧ seed = seed' := by
  have e : ∀ dir lc stamp seed l1 l2 c, loggerConf name dir lc ts stamp seed l1 l2 = some c →
      c.id = (if name = [] then [] else name ++ "_".toList) ++ (stamp ++ seedSuffix seed) := by
    intro dir lc stamp seed l1 l2 c h
    unfold loggerConf at h
    split at h
    · cases h
    · simp only [logName, Option.some.injEq] at h
      subst h
      rcases hn with rfl | rfl
      · rfl
      · by_cases h0 : name = [] <;> simp [h0, Conf.id]
  rw [e _ _ _ _ _ _ _ hc, e _ _ _ _ _ _ _ hc'] at hid
  have hid := List.append_cancel_left hid
  cases seed with
  | none =>
    rw [hseed.1 rfl] at hid ⊢
    exact ⟨by simpa [seedSuffix] using hid, rfl⟩
  | some s =>
    cases seed' with
    | none => exact absurd (hseed.2 rfl) (by simp)
    | some s' =>
      obtain ⟨h1, h2⟩ := split_last (decimal_no_minus s) (decimal_no_minus s') hid
      exact ⟨h1, by rw [Record.decimal_inj h2]⟩

example : (loggerConf [] none false true "2024-01-01-00-00-00".toList (some 2) 10 10).isSome := by decide

/-- C130, refuted: loggers with different names, seeds and directories may have the same id: the experiment `a-1` without a seed and the experiment `a`
with the seed one; and all loggers without a name made during the same second. -/
theorem C130_ids_refuted (stamp : Name) (dir dir' : Name) (h : stamp ≠ []) :
    (∃ c c', loggerConf "a-1".toList (some dir) true false stamp none 10 10 = some c ∧ loggerConf "a".toList (some dir') true false stamp (some 1) 10 10 = some c' ∧
      c.id = c'.id) ∧
    ∃ c c', loggerConf [] (some dir) true false stamp none 10 10 = some c ∧ loggerConf [] (some dir') true false stamp none 10 10 = some c' ∧ c.id = c'.id := by
  refine ⟨⟨_, _, rfl, rfl, by simp [Conf.id, logName, seedSuffix, Record.decimal, Nat.toDigits, Nat.toDigitsCore, Nat.digitChar]⟩, ⟨_, _, rfl, rfl, rfl⟩⟩

example : "2024-01-01-00-00-00".toList ≠ [] := by decide

/-- Names of python arguments have no minus sign. -/
def Plain : Artifact → Prop
  | .value name => '-' ∉ name
  | _ => True

theorem seed_split {a b : Name} (s s' : ℕ) (h : a ++ seedSuffix (some s) = b ++ seedSuffix (some s')) : a = b ∧ s = s' := by
  obtain ⟨h1, h2⟩ := split_last (decimal_no_minus s) (decimal_no_minus s') h
  exact ⟨h1, Record.decimal_inj h2⟩

theorem best_split {a b : Name} (s : ℕ) : a ++ seedSuffix (some s) ≠ b ++ "-best".toList := by
  intro h
  have h1 := (split_last (decimal_no_minus s) (by decide) (show a ++ '-' :: Record.decimal s = b ++ '-' :: "best".toList from h)).2
  have h2 := decimal_digits s 'b' (by rw [h1]; decide)
  simp [Char.isDigit] at h2

theorem plain_split {a b : Name} (s : ℕ) (h : '-' ∉ b) : a ++ seedSuffix (some s) ≠ b := by
  rintro rfl
  simp [seedSuffix] at h

/-- The last character of a file name. -/
def lastChar : Artifact → Char
  | .value _ => 'y'
  | .agent _ => 'h'
  | .best => 'h'
  | .dataset => 'l'

theorem last_file (seed : Option ℕ) (a : Artifact) : (fileOf seed a).getLast? = some (lastChar a) := by
  cases a <;> simp only [fileOf, Artifact.stem, Artifact.ending, lastChar, List.getLast?_append] <;> rfl

/-- C130. Loggers of the same directory, both with a seed or both without one, write different data to different files: values under different names, agents
of different epochs, best agents and datasets, and the data of different seeds. Names of values are those of python arguments. -/
theorem C130_files_partial (seed seed' : Option ℕ) (a b : Artifact) (hseed : seed = none ↔ seed' = none) (ha : Plain a) (hb : Plain b)
    (h : fileOf seed a = fileOf seed' b) : seed = seed' ∧ a = b := by
  have ag : '-' ∉ "agent".toList := by decide
  have key : ∀ x y : Name, '-' ∉ x → '-' ∉ y → x ++ seedSuffix seed = y ++ seedSuffix seed' → seed = seed' ∧ x = y := by
    intro x y hx hy hxy
    cases seed with
    | none =>
      rw [hseed.1 rfl] at hxy ⊢
      exact ⟨rfl, by simpa [seedSuffix] using hxy⟩
    | some s =>
      cases seed' with
      | none => exact absurd (hseed.2 rfl) (by simp)
      | some s' =>
        obtain ⟨h1, h2⟩ := seed_split s s' hxy
        exact ⟨by rw [h2], h1⟩
  -- an agent of an epoch against an agent without epoch, for equal kinds of seeds
  have mixed : ∀ (e : ℕ) (sa sb : Option ℕ), (sa = none ↔ sb = none) →
      "agent".toList ++ seedSuffix sa ++ seedSuffix (some e) ≠ "agent".toList ++ seedSuffix sb := by
    intro e sa sb hs he
    cases sb with
    | none => exact plain_split (a := "agent".toList ++ seedSuffix sa) e ag (by rw [he]; simp [seedSuffix])
    | some s' =>
      cases sa with
      | none => exact absurd (hs.1 rfl) (by simp)
      | some s =>
        exact plain_split s ag (seed_split e s' he).1
  have bestAgent : ∀ (e : Option ℕ) (sa sb : Option ℕ), (sa = none ↔ sb = none) →
      "agent".toList ++ seedSuffix sa ++ seedSuffix e ≠ "agent".toList ++ seedSuffix sb ++ "-best".toList := by
    intro e sa sb hs he
    cases e with
    | some e => exact best_split e he
    | none =>
      rw [show seedSuffix none = [] from rfl, List.append_nil] at he
      cases sa with
      | some s => exact best_split s he
      | none =>
        rw [show seedSuffix none = [] from rfl, List.append_nil] at he
        exact ag (he ▸ by simp)
  have hlast : lastChar a = lastChar b := by
    have := congrArg List.getLast? h
    rwa [last_file, last_file, Option.some.injEq] at this
  cases a with
  | value x =>
    cases b with
    | value z =>
      simp only [fileOf, Artifact.stem, Artifact.ending, ← List.append_assoc, List.append_left_inj] at h
      obtain ⟨h1, h2⟩ := key x z ha hb h
      exact ⟨h1, by rw [h2]⟩
    | _ => simp [lastChar] at hlast
  | agent e =>
    cases b with
    | agent e' =>
      simp only [fileOf, Artifact.stem, Artifact.ending, ← List.append_assoc, List.append_left_inj] at h
      cases e with
      | none =>
        cases e' with
        | none =>
          rw [show seedSuffix none = [] from rfl, List.append_nil, List.append_nil] at h
          exact ⟨(key _ _ ag ag h).1, rfl⟩
        | some e' =>
          rw [show seedSuffix none = [] from rfl, List.append_nil] at h
          exact absurd h.symm (mixed e' seed' seed hseed.symm)
      | some e =>
        cases e' with
        | none =>
          rw [show seedSuffix none = [] from rfl, List.append_nil] at h
          exact absurd h (mixed e seed seed' hseed)
        | some e' =>
          obtain ⟨h1, h2⟩ := seed_split e e' h
          exact ⟨(key _ _ ag ag h1).1, by rw [h2]⟩
    | best =>
      simp only [fileOf, Artifact.stem, Artifact.ending, ← List.append_assoc, List.append_left_inj] at h
      exact absurd h (bestAgent e seed seed' hseed)
    | _ => simp [lastChar] at hlast
  | best =>
    cases b with
    | agent e =>
      simp only [fileOf, Artifact.stem, Artifact.ending, ← List.append_assoc, List.append_left_inj] at h
      exact absurd h.symm (bestAgent e seed' seed hseed.symm)
    | best =>
      simp only [fileOf, Artifact.stem, Artifact.ending, ← List.append_assoc, List.append_left_inj] at h
      exact ⟨(key _ _ ag ag h).1, rfl⟩
    | _ => simp [lastChar] at hlast
  | dataset =>
    cases b with
    | dataset =>
      simp only [fileOf, Artifact.stem, Artifact.ending, ← List.append_assoc, List.append_left_inj] at h
      exact ⟨(key _ _ (by decide) (by decide) h).1, rfl⟩
    | _ => simp [lastChar] at hlast

example : Plain (.value "J".toList) ∧ Plain (.agent (some 3)) := by simp [Plain]

/-- C130, refuted: without a seed, the agent of the epoch three is saved over the agent of the run with the seed three. -/
theorem C130_files_refuted (n : ℕ) : fileOf none (.agent (some n)) = fileOf (some n) (.agent none) := by
  simp only [fileOf, Artifact.stem, Artifact.ending, seedSuffix, List.append_assoc, List.nil_append]

end Verif.Misc.Console
