/-
C143: the environments of a MultiprocessEnvironment: isolation, reproducibility, copies.
-/
import Verif.Vector.ModelSeed
import Verif.Vector.PropsPipes

namespace Verif.Vector.Pipes

variable {E Dat Ans : Type}

/-! ### Specification -/

/-- The commands that the calls send to worker `i`. -/
def sentTo (i : Nat) (cs : List ((Nat → Bool) × (Nat → Cmd Dat))) : List (Cmd Dat) := cs.filterMap fun c => if c.1 i then some (c.2 i) else none

/-- What an environment that runs alone answers to a list of commands. -/
def answersOf (wk : Worker E Dat Ans) : E → List (Cmd Dat) → List Ans
  | _, [] => []
  | e, c :: cs => (wk e c).2 :: answersOf wk (wk e c).1 cs

/-- The state in which it ends. -/
def finalOf (wk : Worker E Dat Ans) : E → List (Cmd Dat) → E
  | e, [] => e
  | e, c :: cs => finalOf wk (wk e c).1 cs

/-- The answers that the parent has received from worker `i`. -/
def gotFrom (i : Nat) (got : List (Nat × Ans)) : List Ans := got.filterMap fun p => if p.1 = i then some p.2 else none

/-- The seed determines what an environment does from the next reset on. -/
def SeedDecides (wk : Worker E Dat Ans) (d : Dat) : Prop := ∀ e e' : E, wk (wk e (.seed d)).1 (.reset none) = wk (wk e' (.seed d)).1 (.reset none)

/-! ### Lemmas -/

theorem gotFrom_append (i : Nat) (l l' : List (Nat × Ans)) : gotFrom i (l ++ l') = gotFrom i l ++ gotFrom i l' := by simp [gotFrom]

theorem gotFrom_one (i : Nat) (l : List Nat) (hl : l.Nodup) (f : Nat → Ans) : gotFrom i (l.map fun j => (j, f j)) = if i ∈ l then [f i] else [] := by
  induction l with
  | nil => rfl
  | cons j l ih =>
    obtain ⟨h1, h2⟩ := List.nodup_cons.1 hl
    have e : gotFrom i ((j :: l).map fun j => (j, f j)) = (if j = i then [f j] else []) ++ gotFrom i (l.map fun j => (j, f j)) := by
      by_cases h : j = i <;> simp [gotFrom, h]
    rw [e, ih h2]
    by_cases h : j = i
    · subst h; simp [h1]
    · have : i ≠ j := fun hc => h hc.symm
      simp [h, this]

theorem answersOf_append (wk : Worker E Dat Ans) (e : E) (a b : List (Cmd Dat)) :
    answersOf wk e (a ++ b) = answersOf wk e a ++ answersOf wk (finalOf wk e a) b := by
  induction a generalizing e with
  | nil => rfl
  | cons c a ih => simp [answersOf, finalOf, ih]

theorem answersOf_length (wk : Worker E Dat Ans) (e : E) (a : List (Cmd Dat)) : (answersOf wk e a).length = a.length := by
  induction a generalizing e with
  | nil => rfl
  | cons c a ih => simp [answersOf, ih]

/-! ### Theorems -/

/-- C143. Whatever the schedule of the processes and whatever is sent to the other workers, the parent receives from every worker exactly what its environment
would answer, alone, to the commands sent to it, in this order. -/
theorem C143_isolation (wk : Worker E Dat Ans) (n : Nat) (s s' : Sys E Dat Ans) (hidle : Idle s) (cs : List ((Nat → Bool) × (Nat → Cmd Dat)))
    (h : Calls wk n s cs s') (i : Nat) (hi : i < n) :
    gotFrom i s'.got = gotFrom i s.got ++ answersOf wk (s.env i) (sentTo i cs) ∧ s'.env i = finalOf wk (s.env i) (sentTo i cs) ∧ Idle s' := by
  induction h with
  | nil s => exact ⟨by simp [sentTo, answersOf], rfl, hidle⟩
  | @cons s s1 s' mask cmd cs h hend _ ih =>
    obtain ⟨h1, h2, h3⟩ := C64_call wk n mask cmd s s1 hidle h hend
    obtain ⟨i1, i2, i3⟩ := ih h3
    have hg := gotFrom_one i ((List.range n).filter mask) (filter_range_nodup n mask) fun j => (wk (s.env j) (cmd j)).2
    have hm : i ∈ (List.range n).filter mask ↔ mask i = true := by simp [hi]
    rw [i1, i2, h1, gotFrom_append, hg]
    cases hk : mask i with
    | true =>
      have he : s1.env i = (wk (s.env i) (cmd i)).1 := by rw [h2 i, if_pos ⟨hi, hk⟩]
      have hs : sentTo i ((mask, cmd) :: cs) = cmd i :: sentTo i cs := by simp [sentTo, hk]
      rw [if_pos (hm.2 hk), hs, he]
      exact ⟨by simp [answersOf], rfl, i3⟩
    | false =>
      have he : s1.env i = s.env i := by rw [h2 i, if_neg (by simp [hk])]
      have hs : sentTo i ((mask, cmd) :: cs) = sentTo i cs := by simp [sentTo, hk]
      rw [if_neg (by simp [hm, hk]), hs, he]
      exact ⟨by simp, rfl, i3⟩

/-- C143. `seed` reaches every environment. -/
theorem C143_seed (wk : Worker E Dat Ans) (n : Nat) (d : Dat) (s s' : Sys E Dat Ans) (hidle : Idle s) (h : Steps wk { s with prog := seedAll n d } s')
    (hend : s'.prog = []) : (∀ i < n, s'.env i = (wk (s.env i) (.seed d)).1) ∧ Idle s' := by
  obtain ⟨-, h2, h3⟩ := C64_call wk n (fun _ => true) (fun _ => .seed d) s s' hidle h hend
  exact ⟨fun i hi => by rw [h2 i, if_pos ⟨hi, rfl⟩], h3⟩

/-- The calls `seed(d)` and `reset_all`. -/
def seedReset (d : Dat) : List ((Nat → Bool) × (Nat → Cmd Dat)) := [(fun _ => true, fun _ => .seed d), (fun _ => true, fun _ => .reset none)]

/-- C143. If the seed decides what an environment does, two experiments with the same seed and the same calls receive the same answers, whatever happened
before and however the processes are scheduled. -/
theorem C143_reproducible (wk : Worker E Dat Ans) (n : Nat) (d : Dat) (hd : SeedDecides wk d) (s s' t t' : Sys E Dat Ans) (hs : Idle s) (ht : Idle t)
    (cs : List ((Nat → Bool) × (Nat → Cmd Dat))) (h : Calls wk n s (seedReset d ++ cs) s') (h' : Calls wk n t (seedReset d ++ cs) t') (i : Nat) (hi : i < n) :
    (gotFrom i s'.got).drop ((gotFrom i s.got).length + 1) = (gotFrom i t'.got).drop ((gotFrom i t.got).length + 1) := by
  have e : sentTo i (seedReset d ++ cs) = .seed d :: .reset none :: sentTo i cs := by simp [sentTo, seedReset]
  rw [(C143_isolation wk n s s' hs _ h i hi).1, (C143_isolation wk n t t' ht _ h' i hi).1, e]
  simp only [answersOf]
  rw [hd (s.env i) (t.env i), List.drop_append, List.drop_append, List.drop_eq_nil_of_le (Nat.le_succ _), List.drop_eq_nil_of_le (Nat.le_succ _)]
  simp

/-- C143. The environments are copies, not independent samples: two workers that start as equal processes, as `fork` makes them, give the same answers for ever if
they get the same commands. In particular the first `reset_all` returns the same initial state for all of them, however random it is. -/
theorem C143_copies_refuted {G : Type} (wk : Worker (Proc G E) Dat Ans) (build : G → Proc G E) (rng : G) (n : Nat) (s' : Sys (Proc G E) Dat Ans)
    (cs : List ((Nat → Bool) × (Nat → Cmd Dat))) (h : Calls wk n (start build rng) cs s') (i j : Nat) (hi : i < n) (hj : j < n)
    (hc : sentTo i cs = sentTo j cs) : gotFrom i s'.got = gotFrom j s'.got := by
  have hidle : Idle (start build rng : Sys (Proc G E) Dat Ans) := ⟨fun _ => rfl, fun _ => rfl, rfl⟩
  rw [(C143_isolation wk n _ s' hidle cs h i hi).1, (C143_isolation wk n _ s' hidle cs h j hj).1, hc]
  rfl

/-- C143. Seeding does not make them different, since all of them get the same seed. -/
theorem C143_seed_copies_refuted (wk : Worker E Dat Ans) (n : Nat) (d : Dat) (hd : SeedDecides wk d) (s s' : Sys E Dat Ans) (hs : Idle s) (hg : s.got = [])
    (cs : List ((Nat → Bool) × (Nat → Cmd Dat))) (h : Calls wk n s (seedReset d ++ cs) s') (i j : Nat) (hi : i < n) (hj : j < n)
    (hc : sentTo i cs = sentTo j cs) : (gotFrom i s'.got).drop 1 = (gotFrom j s'.got).drop 1 := by
  have e : ∀ i, sentTo i (seedReset d ++ cs) = .seed d :: .reset none :: sentTo i cs := by intro i; simp [sentTo, seedReset]
  rw [(C143_isolation wk n s s' hs _ h i hi).1, (C143_isolation wk n s s' hs _ h j hj).1, e, e, hc, hg]
  simp only [answersOf]
  rw [hd (s.env i) (s.env j)]
  rfl

/-! ### Two classes of environments -/

/-- An environment whose resets draw a number from the generator of its process; the generator is a stream, its position counts the draws. A step returns the
state it started from plus the action. `seed` is a parameter. -/
def drawWorker (stream : Nat → Nat → Nat) (seed : Proc (Nat × Nat) Nat → Nat → Proc (Nat × Nat) Nat) : Worker (Proc (Nat × Nat) Nat) Nat Nat := fun p c =>
  match c with
  | .step a => ({ p with env := p.env + a }, p.env + a)
  | .reset _ => (⟨(p.rng.1, p.rng.2 + 1), stream p.rng.1 p.rng.2⟩, stream p.rng.1 p.rng.2)
  | .seed d => (seed p d, 0)
  | _ => (p, 0)

/-- C143. With the `seed` of the simulators the seed decides. -/
theorem C143_simulators (stream : Nat → Nat → Nat) (d : Nat) : SeedDecides (drawWorker stream (seedGenerator fun d => (d, 0))) d := fun _ _ => rfl

/-- C143. With the `seed` of the base class, which all the environments written in Python inherit, seeding has no effect: the answers after it are those of the
experiment without it, and so they depend on the generator with which the processes started. -/
theorem C143_seed_nothing_refuted (stream : Nat → Nat → Nat) (d : Nat) (p : Proc (Nat × Nat) Nat) (cs : List (Cmd Nat)) :
    answersOf (drawWorker stream seedNothing) p (.seed d :: cs) = 0 :: answersOf (drawWorker stream seedNothing) p cs ∧
    (stream 1 0 ≠ stream 2 0 → ¬ SeedDecides (drawWorker stream seedNothing) d) := by
  refine ⟨rfl, fun hne hd => ?_⟩
  have := congrArg Prod.snd (hd ⟨(1, 0), 0⟩ ⟨(2, 0), 0⟩)
  exact hne this

/-! ### Satisfiable hypotheses -/

/-- Two workers, one `reset_all`, the second worker first. -/
example (stream : Nat → Nat → Nat) : ∃ s', Calls (drawWorker stream seedNothing) 2 (start (fun g => ⟨g, 0⟩) (5, 0)) [(fun _ => true, fun _ => .reset none)] s' ∧
    s'.got = [(0, stream 5 0), (1, stream 5 0)] := by
  refine ⟨_, .cons (.tail (.tail (.tail (.tail (.tail (.tail (.refl _) (.send _ 0 (.reset none) _ rfl)) (.send _ 1 (.reset none) _ rfl))
    (.work _ 1 (.reset none) [] rfl)) (.work _ 0 (.reset none) [] rfl)) (.recv _ 0 (stream 5 0) [] _ rfl rfl)) (.recv _ 1 (stream 5 0) [] _ rfl rfl)) rfl (.nil _), rfl⟩

end Verif.Vector.Pipes
