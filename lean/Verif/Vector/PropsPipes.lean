/-
Property C64 about `MultiprocessEnvironment`.
-/
import Verif.Vector.Pipes

namespace Verif.Vector.Pipes

variable {E Dat Ans : Type}

/-! ### Every schedule gives the same result -/

/-- Environment and answers of a worker after a list of commands. -/
def work (wk : Worker E Dat Ans) : E → List (Cmd Dat) → E × List Ans
  | e, [] => (e, [])
  | e, c :: cs => ((work wk (wk e c).1 cs).1, (wk e c).2 :: (work wk (wk e c).1 cs).2)

theorem work_snoc (wk : Worker E Dat Ans) : ∀ (cs : List (Cmd Dat)) (e : E) (c : Cmd Dat),
    work wk e (cs ++ [c]) = ((wk (work wk e cs).1 c).1, (work wk e cs).2 ++ [(wk (work wk e cs).1 c).2])
  | [], e, c => rfl
  | c' :: cs, e, c => by
    have := work_snoc wk cs (wk e c').1 c
    simp [work, this]

/-- The system after all the commands in transit have been executed. -/
def settle (wk : Worker E Dat Ans) (s : Sys E Dat Ans) : (Nat → E) × (Nat → List Ans) :=
  (fun i => (work wk (s.env i) (s.cmds i)).1, fun i => s.anss i ++ (work wk (s.env i) (s.cmds i)).2)

/-- The same actions of the parent with workers that answer at once; `none` if a receive has no answer. -/
def seq (wk : Worker E Dat Ans) : List (Act Dat) → (Nat → E) × (Nat → List Ans) → List (Nat × Ans) →
    Option (((Nat → E) × (Nat → List Ans)) × List (Nat × Ans))
  | [], v, got => some (v, got)
  | .send i c :: rest, (env, anss), got =>
    seq wk rest (upd env i (wk (env i) c).1, upd anss i (anss i ++ [(wk (env i) c).2])) got
  | .recv i :: rest, (env, anss), got =>
    match anss i with
    | [] => none
    | a :: as => seq wk rest (env, upd anss i as) (got ++ [(i, a)])

theorem upd_same {α : Type} (f : Nat → α) (i : Nat) (x : α) : upd f i x i = x := by simp [upd]
theorem upd_other {α : Type} (f : Nat → α) {i j : Nat} (x : α) (h : j ≠ i) : upd f i x j = f j := by simp [upd, h]

theorem step_seq (wk : Worker E Dat Ans) {s s' : Sys E Dat Ans} (h : Step wk s s')
    (r : ((Nat → E) × (Nat → List Ans)) × List (Nat × Ans)) (hr : seq wk s.prog (settle wk s) s.got = some r) :
    seq wk s'.prog (settle wk s') s'.got = some r := by
  cases h with
  | send i c rest h =>
    rw [h] at hr
    simp only [seq, settle] at hr
    rw [← hr]
    simp only [settle]
    congr 1
    apply Prod.ext
    · funext j
      by_cases hj : j = i
      · subst hj; simp [upd_same, work_snoc]
      · simp [upd_other _ _ hj]
    · funext j
      by_cases hj : j = i
      · subst hj; simp [upd_same, work_snoc]
      · simp [upd_other _ _ hj]
  | recv i a as rest h ha =>
    rw [h] at hr
    simp only [seq, settle, ha, List.cons_append] at hr
    rw [← hr]
    simp only [settle]
    congr 1
    apply Prod.ext
    · rfl
    · funext j
      by_cases hj : j = i
      · subst hj; simp [upd_same]
      · simp [upd_other _ _ hj]
  | work i c cs h =>
    rw [← hr]
    simp only [settle]
    congr 1
    apply Prod.ext
    · funext j
      by_cases hj : j = i
      · subst hj; simp [upd_same, h, work]
      · simp [upd_other _ _ hj]
    · funext j
      by_cases hj : j = i
      · subst hj; simp [upd_same, h, work]
      · simp [upd_other _ _ hj]

theorem steps_seq (wk : Worker E Dat Ans) {s s' : Sys E Dat Ans} (h : Steps wk s s')
    (r : ((Nat → E) × (Nat → List Ans)) × List (Nat × Ans)) (hr : seq wk s.prog (settle wk s) s.got = some r) :
    seq wk s'.prog (settle wk s') s'.got = some r := by
  induction h with
  | refl => exact hr
  | tail _ h' ih => exact step_seq wk h' r ih

theorem seq_append (wk : Worker E Dat Ans) : ∀ (p q : List (Act Dat)) (v : (Nat → E) × (Nat → List Ans))
    (got : List (Nat × Ans)), seq wk (p ++ q) v got = (seq wk p v got).bind (fun r => seq wk q r.1 r.2)
  | [], _, _, _ => rfl
  | .send i c :: p, q, (env, anss), got => by simp only [List.cons_append, seq]; exact seq_append wk p q _ _
  | .recv i :: p, q, (env, anss), got => by
    simp only [List.cons_append, seq]
    cases anss i with
    | nil => rfl
    | cons a as => exact seq_append wk p q _ _

theorem seq_sends (wk : Worker E Dat Ans) (cmd : Nat → Cmd Dat) : ∀ (l : List Nat) (env : Nat → E)
    (anss : Nat → List Ans) (got : List (Nat × Ans)), l.Nodup →
    seq wk (l.map (fun i => .send i (cmd i))) (env, anss) got =
      some ((fun i => if i ∈ l then (wk (env i) (cmd i)).1 else env i,
             fun i => if i ∈ l then anss i ++ [(wk (env i) (cmd i)).2] else anss i), got)
  | [], env, anss, got, _ => by simp [seq]
  | j :: l, env, anss, got, h => by
    rw [List.nodup_cons] at h
    simp only [List.map_cons, seq]
    rw [seq_sends wk cmd l _ _ _ h.2]
    congr 2
    apply Prod.ext
    · funext i
      by_cases hi : i = j
      · subst hi; simp [upd_same, h.1]
      · simp [upd_other _ _ hi, hi]
    · funext i
      by_cases hi : i = j
      · subst hi; simp [upd_same, h.1]
      · simp [upd_other _ _ hi, hi]

theorem seq_recvs (wk : Worker E Dat Ans) (x : Nat → Ans) : ∀ (l : List Nat) (env : Nat → E)
    (anss : Nat → List Ans) (got : List (Nat × Ans)), l.Nodup → (∀ i ∈ l, anss i = [x i]) →
    seq wk (l.map .recv) (env, anss) got =
      some ((env, fun i => if i ∈ l then [] else anss i), got ++ l.map (fun i => (i, x i)))
  | [], env, anss, got, _, _ => by simp [seq]
  | j :: l, env, anss, got, h, hx => by
    rw [List.nodup_cons] at h
    simp only [List.map_cons, seq, hx j (by simp)]
    rw [seq_recvs wk x l _ _ _ h.2]
    · congr 1
      apply Prod.ext
      · apply Prod.ext
        · rfl
        · funext i
          by_cases hi : i = j
          · subst hi; simp [upd_same]
          · simp [upd_other _ _ hi, hi]
      · simp
    · intro i hi
      have : i ≠ j := by rintro rfl; exact h.1 hi
      rw [upd_other _ _ this]
      exact hx i (by simp [hi])

theorem filter_range_nodup (n : Nat) (mask : Nat → Bool) : ((List.range n).filter mask).Nodup :=
  List.Pairwise.filter _ List.nodup_range

/-- Result of a call with workers that answer at once. -/
theorem seq_call (wk : Worker E Dat Ans) (n : Nat) (mask : Nat → Bool) (cmd : Nat → Cmd Dat) (env : Nat → E)
    (got : List (Nat × Ans)) :
    seq wk (callAll n mask cmd) (env, fun _ => []) got =
      some ((fun i => if i < n ∧ mask i = true then (wk (env i) (cmd i)).1 else env i, fun _ => []),
        got ++ ((List.range n).filter mask).map (fun i => (i, (wk (env i) (cmd i)).2))) := by
  rw [callAll, seq_append, seq_sends wk cmd _ _ _ _ (filter_range_nodup n mask)]
  simp only [Option.bind_some]
  rw [seq_recvs wk (fun i => (wk (env i) (cmd i)).2) _ _ _ _ (filter_range_nodup n mask)]
  · congr 2
    apply Prod.ext
    · funext i
      simp [List.mem_filter]
    · funext i
      simp only []
      split <;> rfl
  · intro i hi
    simp [hi]

/-! ### C64 -/

/-- C64. A call of `step_all`, `reset_all` or `render_all` made when nothing is in transit, executed under any schedule
of the workers up to its last action: the parent has received exactly one answer from every selected worker, in order,
and it is the answer of that worker to the command of this call; the selected environments have executed exactly that
command, the others have not changed; and nothing is left in transit, so that the next call starts in the same
situation. -/
theorem C64_call (wk : Worker E Dat Ans) (n : Nat) (mask : Nat → Bool) (cmd : Nat → Cmd Dat) (s s' : Sys E Dat Ans)
    (hidle : Idle s) (h : Steps wk { s with prog := callAll n mask cmd } s') (hend : s'.prog = []) :
    s'.got = s.got ++ ((List.range n).filter mask).map (fun i => (i, (wk (s.env i) (cmd i)).2)) ∧
    (∀ i, s'.env i = if i < n ∧ mask i = true then (wk (s.env i) (cmd i)).1 else s.env i) ∧ Idle s' := by
  obtain ⟨h1, h2, _⟩ := hidle
  have hsettle : settle wk { s with prog := callAll n mask cmd } = (s.env, fun _ => []) := by
    simp [settle, h1, h2, work]
  have hfin := steps_seq wk h _ (by simp only [hsettle]; exact seq_call wk n mask cmd s.env s.got)
  rw [hend] at hfin
  simp only [seq, settle, Option.some.injEq, Prod.mk.injEq] at hfin
  obtain ⟨⟨h3, h4⟩, h5⟩ := hfin
  have hempty : ∀ i, s'.anss i = [] ∧ s'.cmds i = [] := by
    intro i
    have := congrFun h4 i
    simp only [List.append_eq_nil_iff] at this
    refine ⟨this.1, ?_⟩
    cases hc : s'.cmds i with
    | nil => rfl
    | cons c cs => simp [hc, work] at this
  refine ⟨h5, ?_, fun i => (hempty i).2, fun i => (hempty i).1, hend⟩
  intro i
  have := congrFun h3 i
  simp only [(hempty i).2, work] at this
  exact this

/-- Work that remains: an action of the parent counts twice, a command in transit once. -/
def measure (n : Nat) (s : Sys E Dat Ans) : Nat :=
  2 * s.prog.length + ((List.range n).map (fun i => (s.cmds i).length)).sum

theorem sum_upd (f : Nat → List (Cmd Dat)) (i : Nat) (x : List (Cmd Dat)) : ∀ n,
    ((List.range n).map (fun j => (upd f i x j).length)).sum + (if i < n then (f i).length else 0) =
      ((List.range n).map (fun j => (f j).length)).sum + (if i < n then x.length else 0)
  | 0 => by simp
  | n + 1 => by
    have ih := sum_upd f i x n
    simp only [List.range_succ, List.map_append, List.map_cons, List.map_nil, List.sum_append, List.sum_cons,
      List.sum_nil, Nat.add_zero]
    by_cases h : i = n
    · subst h
      simp only [Nat.lt_irrefl, if_false, Nat.add_zero] at ih
      simp only [Nat.lt_succ_self, if_true, upd_same]
      omega
    · rw [upd_other _ _ (Ne.symm h)]
      by_cases hn : i < n
      · have : i < n + 1 := by omega
        simp only [hn, this, if_true] at ih ⊢
        omega
      · have : ¬ i < n + 1 := by omega
        simp only [hn, this, if_false] at ih ⊢
        omega

/-- Commands are in transit only to existing workers, and the parent only addresses existing workers. -/
def Bounded (n : Nat) (s : Sys E Dat Ans) : Prop :=
  (∀ i, s.cmds i ≠ [] → i < n) ∧ ∀ a ∈ s.prog, match a with
    | .send i _ => i < n
    | .recv i => i < n

theorem step_bounded (wk : Worker E Dat Ans) (n : Nat) {s s' : Sys E Dat Ans} (hb : Bounded n s) (h : Step wk s s') :
    Bounded n s' ∧ measure n s' < measure n s := by
  cases h with
  | send i c rest h =>
    have hi : i < n := hb.2 (.send i c) (by simp [h])
    refine ⟨⟨?_, ?_⟩, ?_⟩
    · intro j hj
      by_cases hji : j = i
      · omega
      · simp only [upd_other _ _ hji] at hj
        exact hb.1 j hj
    · intro a ha
      exact hb.2 a (by rw [h]; exact List.mem_cons_of_mem _ ha)
    · have := sum_upd s.cmds i (s.cmds i ++ [c]) n
      simp only [hi, if_true, List.length_append, List.length_cons, List.length_nil] at this
      simp only [measure, h, List.length_cons]
      omega
  | recv i a as rest h ha =>
    refine ⟨⟨hb.1, fun a ha => hb.2 a (by rw [h]; exact List.mem_cons_of_mem _ ha)⟩, ?_⟩
    simp only [measure, h, List.length_cons]
    omega
  | work i c cs h =>
    have hi : i < n := hb.1 i (by simp [h])
    refine ⟨⟨?_, hb.2⟩, ?_⟩
    · intro j hj
      by_cases hji : j = i
      · omega
      · simp only [upd_other _ _ hji] at hj
        exact hb.1 j hj
    · have := sum_upd s.cmds i cs n
      simp only [hi, if_true, h, List.length_cons] at this
      simp only [measure]
      omega

/-- A call never blocks: in every state reached under any schedule either the call is over or some process can go on. -/
theorem C64_no_deadlock (wk : Worker E Dat Ans) (n : Nat) (mask : Nat → Bool) (cmd : Nat → Cmd Dat)
    (s s' : Sys E Dat Ans) (hidle : Idle s) (h : Steps wk { s with prog := callAll n mask cmd } s') :
    s'.prog = [] ∨ ∃ s'', Step wk s' s'' := by
  obtain ⟨h1, h2, _⟩ := hidle
  have hsettle : settle wk { s with prog := callAll n mask cmd } = (s.env, fun _ => []) := by
    simp [settle, h1, h2, work]
  have hfin := steps_seq wk h _ (by simp only [hsettle]; exact seq_call wk n mask cmd s.env s.got)
  rcases hp : s'.prog with _ | ⟨a, rest⟩
  · exact Or.inl rfl
  · right
    cases a with
    | send i c => exact ⟨_, .send s' i c rest hp⟩
    | recv i =>
      rw [hp] at hfin
      rcases ha : s'.anss i with _ | ⟨x, as⟩
      · rcases hc : s'.cmds i with _ | ⟨c, cs⟩
        · simp [seq, settle, ha, hc, work] at hfin
        · exact ⟨_, .work s' i c cs hc⟩
      · exact ⟨_, .recv s' i x as rest hp ha⟩

/-- A call terminates: no schedule has more than `4 * n` steps. -/
theorem C64_terminates (wk : Worker E Dat Ans) (n : Nat) (mask : Nat → Bool) (cmd : Nat → Cmd Dat)
    (s : Sys E Dat Ans) (hidle : Idle s) (chain : Nat → Sys E Dat Ans)
    (h0 : chain 0 = { s with prog := callAll n mask cmd }) (k : Nat) (hk : ∀ j < k, Step wk (chain j) (chain (j + 1))) :
    k ≤ 4 * n := by
  have hlen : (callAll n mask cmd).length ≤ 2 * n := by
    have := List.length_filter_le mask (List.range n)
    simp only [List.length_range] at this
    simp only [callAll, List.length_append, List.length_map]
    omega
  have hm0 : measure n (chain 0) ≤ 4 * n := by
    rw [h0]
    have : ((List.range n).map (fun i => (s.cmds i).length)).sum = 0 := by
      simp only [hidle.1, List.length_nil]
      induction List.range n with
      | nil => rfl
      | cons a l ih => simp [ih]
    simp only [measure, this]
    omega
  have hb0 : Bounded n (chain 0) := by
    rw [h0]
    refine ⟨fun i hi => by simp [hidle.1] at hi, ?_⟩
    intro a ha
    simp only [callAll, List.mem_append, List.mem_map, List.mem_filter, List.mem_range] at ha
    rcases ha with ⟨i, ⟨h, _⟩, rfl⟩ | ⟨i, ⟨h, _⟩, rfl⟩ <;> exact h
  have key : ∀ j, j ≤ k → Bounded n (chain j) ∧ measure n (chain j) + j ≤ measure n (chain 0) := by
    intro j
    induction j with
    | zero => intro _; exact ⟨hb0, by omega⟩
    | succ j ih =>
      intro hj
      obtain ⟨hb, hm⟩ := ih (by omega)
      obtain ⟨hb', hm'⟩ := step_bounded wk n hb (hk j (by omega))
      exact ⟨hb', by omega⟩
  have := (key k (Nat.le_refl _)).2
  omega

/-- The array of observations after a call: the answers of the selected environments at their own positions, all the
other entries as before. -/
theorem place_spec {α : Type} (x : Nat → α) : ∀ (l : List Nat) (states : Nat → α), l.Nodup → ∀ i,
    place states (l.map (fun i => (i, x i))) i = if i ∈ l then x i else states i
  | [], states, _, i => by simp [place]
  | j :: l, states, h, i => by
    rw [List.nodup_cons] at h
    simp only [List.map_cons, place]
    rw [place_spec x l _ h.2 i]
    by_cases hi : i = j
    · subst hi; simp [h.1, upd_same]
    · simp [hi, upd_other _ _ hi]

/-- C64, observations: after `step_all` or `reset_all` under any schedule, the stored observation of a selected
environment is the one in its own answer to this call, and the observations of the other environments are unchanged. -/
theorem C64_observations {α : Type} (obs : Ans → α) (wk : Worker E Dat Ans) (n : Nat) (mask : Nat → Bool)
    (cmd : Nat → Cmd Dat) (s s' : Sys E Dat Ans) (states : Nat → α)
    (hidle : Idle s) (h : Steps wk { s with prog := callAll n mask cmd } s') (hend : s'.prog = []) (i : Nat) :
    place states ((s'.got.drop s.got.length).map (fun p => (p.1, obs p.2))) i =
      if i < n ∧ mask i = true then obs (wk (s.env i) (cmd i)).2 else states i := by
  obtain ⟨h1, _, _⟩ := C64_call wk n mask cmd s s' hidle h hend
  rw [h1, List.drop_left, List.map_map]
  have := place_spec (fun i => obs (wk (s.env i) (cmd i)).2) _ states (filter_range_nodup n mask) i
  simp only [List.mem_filter, List.mem_range] at this
  exact this

/-- Two counters as environments; both are stepped, the second worker answers first. -/
def twoWorkers : Worker Nat Nat Nat := fun e c =>
  match c with
  | .step d => (e + d, e + d)
  | _ => (0, 0)

example :
    let s : Sys Nat Nat Nat := { cmds := fun _ => [], anss := fun _ => [], env := fun i => 10 * i, prog := [], got := [] }
    Idle s ∧ ∃ s', Steps twoWorkers { s with prog := callAll 2 (fun _ => true) (fun i => .step (i + 1)) } s' ∧
      s'.prog = [] ∧ s'.got = [(0, 1), (1, 12)] := by
  refine ⟨⟨fun _ => rfl, fun _ => rfl, rfl⟩, ?_⟩
  refine ⟨_, .tail (.tail (.tail (.tail (.tail (.tail (.refl _) (.send _ 0 (.step 1) _ rfl)) (.send _ 1 (.step 2) _ rfl))
    (.work _ 1 (.step 2) [] rfl)) (.work _ 0 (.step 1) [] rfl)) (.recv _ 0 1 [] _ rfl rfl)) (.recv _ 1 12 [] _ rfl rfl),
    rfl, rfl⟩

/-- `stop` also leaves nothing in transit. -/
theorem C64_stop (wk : Worker E Dat Ans) (n : Nat) (s s' : Sys E Dat Ans) (hidle : Idle s)
    (h : Steps wk { s with prog := stopAll n } s') (hend : s'.prog = []) :
    Idle s' ∧ ∀ i, s'.env i = if i < n then (wk (s.env i) .stop).1 else s.env i := by
  obtain ⟨h1, h2, _⟩ := hidle
  have hsettle : settle wk { s with prog := stopAll n } = (s.env, fun _ => []) := by
    simp [settle, h1, h2, work]
  have hseq : ∀ (n : Nat) (env : Nat → E) (got : List (Nat × Ans)), ∃ got',
      seq wk (stopAll n) (env, fun _ => []) got =
        some ((fun i => if i < n then (wk (env i) .stop).1 else env i, fun _ => []), got') := by
    intro n env got
    induction n with
    | zero => exact ⟨got, by simp [stopAll, seq]⟩
    | succ n ih =>
      obtain ⟨got', ih⟩ := ih
      have hs : (stopAll (n + 1) : List (Act Dat)) = stopAll n ++ [.send n .stop, .recv n] := by
        simp [stopAll, List.range_succ]
      refine ⟨got' ++ [(n, (wk (env n) .stop).2)], ?_⟩
      rw [hs, seq_append, ih]
      simp only [Option.bind_some, seq, Nat.lt_irrefl, if_false, List.nil_append, upd_same]
      congr 2
      apply Prod.ext
      · funext i
        by_cases hi : i = n
        · subst hi; simp [upd_same]
        · simp only [upd_other _ _ hi]
          have : i < n + 1 ↔ i < n := by omega
          simp [this]
      · funext i
        by_cases hi : i = n
        · subst hi; simp [upd_same]
        · simp [upd_other _ _ hi]
  obtain ⟨got', hq⟩ := hseq n s.env s.got
  have hfin := steps_seq wk h _ (by simp only [hsettle]; exact hq)
  rw [hend] at hfin
  simp only [seq, settle, Option.some.injEq, Prod.mk.injEq] at hfin
  obtain ⟨⟨h3, h4⟩, h5⟩ := hfin
  have hempty : ∀ i, s'.anss i = [] ∧ s'.cmds i = [] := by
    intro i
    have := congrFun h4 i
    simp only [List.append_eq_nil_iff] at this
    refine ⟨this.1, ?_⟩
    cases hc : s'.cmds i with
    | nil => rfl
    | cons c cs => simp [hc, work] at this
  refine ⟨⟨fun i => (hempty i).2, fun i => (hempty i).1, hend⟩, ?_⟩
  intro i
  have := congrFun h3 i
  simp only [(hempty i).2, work] at this
  exact this

end Verif.Vector.Pipes
