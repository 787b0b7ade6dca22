import Verif.Memory.Lemmas2

namespace Verif.Memory

open Verif.Dataset (Row)

variable {X A R P : Type}

/-- The concrete tree represents the abstract priorities. -/
structure Rep [Semiring R] [LT R] (t : STree X A R P) (max : Nat) (h : List (Row X A R P)) (a : Abs R) : Prop where
  fifo : Fifo t.mem max h
  count : a.count = h.length
  sums : SumTreeOK t.tree max
  leaf : ∀ k, k < max → t.tree.getD (k + max - 1) 0 = a.prio k
  stored : ∀ k, k < min h.length max → 0 < a.prio k
  empty : ∀ k, h.length ≤ k → k < max → a.prio k = 0

theorem rep_new [Ring R] [LT R] (max : Nat) (hmax : 2 ≤ max) :
    Rep (STree.new max : STree X A R P) max [] ⟨0, fun _ => 0⟩ := by
  have hz : ∀ k, (List.replicate (2 * max - 1) (0 : R)).getD k 0 = 0 := by
    intro k
    simp only [List.getD, List.getElem?_replicate]
    split <;> rfl
  refine ⟨fifo_new 0 max (by omega), rfl, ⟨by simp [STree.new], ?_⟩, ?_, ?_, ?_⟩
  · intro k _
    simp only [STree.new, hz, add_zero]
  · intro k _; exact hz _
  · intro k hk; simp at hk
  · intro k _ _; rfl

theorem rep_store [Ring R] [LT R] {t : STree X A R P} {max : Nat} {h : List (Row X A R P)} {a : Abs R} (hmax : 2 ≤ max)
    (hr : Rep t max h a) (r : Row X A R P) (p : R) (hp : 0 < p) :
    ∃ t', t.store r p = .ok t' ∧ Rep t' max (h ++ [r]) (a.put max p) := by
  obtain ⟨m', h1, h2, _⟩ := fifo_store (by omega) hr.fifo r
  have hidx := hr.fifo.idx
  have hms := hr.fifo.maxSize
  have hmod : h.length % max < max := Nat.mod_lt _ (by omega)
  obtain ⟨tree', u1, u2, u3⟩ := update1_spec max hmax t.tree hr.sums (t.mem.idx + t.mem.maxSize - 1) p (by omega) (by omega)
  refine ⟨⟨m', tree'⟩, ?_, h2, ?_, u2, ?_, ?_, ?_⟩
  · simp only [STree.store, h1, update, u1]
  · simp [Abs.put, hr.count]
  · intro k hk
    have := u3 (k + max - 1) (by omega)
    simp only [Abs.put, hr.count]
    rw [this]
    by_cases hkk : k = h.length % max
    · rw [if_pos (by omega), if_pos hkk]
    · rw [if_neg (by omega), if_neg hkk]
      exact hr.leaf k hk
  · intro k hk
    simp only [Abs.put, hr.count]
    by_cases hkk : k = h.length % max
    · rw [if_pos hkk]; exact hp
    · rw [if_neg hkk]
      apply hr.stored
      simp only [List.length_append, List.length_singleton] at hk
      by_cases hl : h.length < max
      · rw [Nat.mod_eq_of_lt hl] at hkk; omega
      · omega
  · intro k hk1 hk2
    simp only [List.length_append, List.length_singleton] at hk1
    simp only [Abs.put, hr.count]
    have hl : h.length < max := by omega
    rw [Nat.mod_eq_of_lt hl, if_neg (by omega)]
    exact hr.empty k (by omega) hk2

theorem windows_lt [Semiring R] (gamma : R) (n : Nat) (hn : 0 < n) (l : List (Row X A R P)) :
    ∀ w ∈ windows gamma n l, w.1 < l.length := by
  intro w hw
  simp only [windows, List.mem_filterMap, List.mem_filter, List.mem_range, Option.map_eq_some_iff] at hw
  obtain ⟨i, ⟨hi, _⟩, r, _, rfl⟩ := hw
  simp only []
  omega

theorem rep_fold [Ring R] [LT R] {max : Nat} (hmax : 2 ≤ max) (pr : List R) (hpr : ∀ p ∈ pr, 0 < p)
    (ws : List (Nat × Row X A R P)) (hws : ∀ w ∈ ws, w.1 < pr.length) :
    ∀ {t : STree X A R P} {h : List (Row X A R P)} {a : Abs R}, Rep t max h a →
      ∃ t', foldE (fun (t : STree X A R P) (w : Nat × Row X A R P) => match pr[w.1]? with
          | some p => t.store w.2 p
          | none => .error .index) t ws = .ok t' ∧
        Rep t' max (h ++ ws.map (·.2)) ((ws.map (fun w => pr.getD w.1 0)).foldl (Abs.put max) a) := by
  induction ws with
  | nil => intro t h a hr; exact ⟨t, rfl, by simpa using hr⟩
  | cons w ws ih =>
    intro t h a hr
    have hlt := hws w List.mem_cons_self
    have hg : pr[w.1]? = some pr[w.1] := List.getElem?_eq_getElem hlt
    have hd : pr.getD w.1 0 = pr[w.1] := by simp [List.getD, hlt]
    obtain ⟨t1, h1, hr1⟩ := rep_store hmax hr w.2 pr[w.1] (hpr _ (List.getElem_mem hlt))
    obtain ⟨t2, h2, hr2⟩ := ih (fun w' h' => hws w' (List.mem_cons_of_mem _ h')) hr1
    refine ⟨t2, by simp only [foldE, hg, h1, h2], ?_⟩
    simp only [List.map_cons, List.foldl_cons, hd]
    simpa using hr2

theorem rep_add [Ring R] [LinearOrder R] {max : Nat} (hmax : 2 ≤ max) {t : STree X A R P} {h : List (Row X A R P)}
    {a : Abs R} (hr : Rep t max h a) (rows : List (Row X A R P)) (pr : List R) (n : Nat) (gamma : R) (hn : 0 < n)
    (hlen : rows.length ≤ pr.length) (hpr : ∀ p ∈ pr, 0 < p) :
    ∃ t' rw, t.add rows pr n gamma = .ok (t', rw) ∧ Rep t' max (h ++ (windows gamma n rows).map (·.2))
      (((windows gamma n rows).map (fun w => pr.getD w.1 0)).foldl (Abs.put max) a) := by
  obtain ⟨t', h1, h2⟩ := rep_fold hmax pr hpr (windows gamma n rows)
    (fun w hw => lt_of_lt_of_le (windows_lt gamma n hn rows w hw) hlen) hr
  have hall : pr.all (fun p => decide (0 < p)) = true := by
    simp only [List.all_eq_true, decide_eq_true_eq]; exact hpr
  have e : stateOf (t.add rows pr n gamma) = .ok t' := by
    simp only [STree.add, hn, if_true, hall]
    rw [nstepLoop_spec gamma n hn rows _ _ 0 _ t (by omega) (by simp) (fun _ _ => rfl), windowsFrom_zero]
    exact h1
  cases ha : t.add rows pr n gamma with
  | error e' => rw [ha] at e; simp [stateOf] at e
  | ok q =>
    obtain ⟨t'', rw'⟩ := q
    rw [ha] at e
    simp only [stateOf, Except.ok.injEq] at e
    subst e
    exact ⟨t'', rw', rfl, h2⟩

theorem rep_update [Ring R] [LT R] {max : Nat} (hmax : 2 ≤ max) (ups : List (Nat × R)) :
    ∀ {t : STree X A R P} {h : List (Row X A R P)} {a : Abs R}, Rep t max h a →
      (∀ u ∈ ups, max - 1 ≤ u.1 ∧ u.1 < max - 1 + min h.length max ∧ 0 < u.2) →
      ∃ t', t.update ups = .ok t' ∧ Rep t' max h (ups.foldl (Abs.change max) a) ∧ t'.mem = t.mem := by
  induction ups with
  | nil => intro t h a hr _; exact ⟨t, rfl, hr, rfl⟩
  | cons u ups ih =>
    intro t h a hr hv
    obtain ⟨v1, v2, v3⟩ := hv u List.mem_cons_self
    obtain ⟨tree', u1, u2, u3⟩ := update1_spec max hmax t.tree hr.sums u.1 u.2 v1 (by omega)
    have hr1 : Rep { t with tree := tree' } max h (a.change max u) := by
      refine ⟨hr.fifo, hr.count, u2, ?_, ?_, ?_⟩
      · intro k hk
        simp only [Abs.change]
        rw [u3 (k + max - 1) (by omega)]
        split
        · rfl
        · exact hr.leaf k hk
      · intro k hk
        simp only [Abs.change]
        split
        · exact v3
        · exact hr.stored k hk
      · intro k hk1 hk2
        simp only [Abs.change]
        rw [if_neg (by omega)]
        exact hr.empty k hk1 hk2
    obtain ⟨t2, h2, hr2, hm⟩ := ih hr1 (fun u' h' => hv u' (List.mem_cons_of_mem _ h'))
    refine ⟨t2, ?_, hr2, hm⟩
    simp only [STree.update, update, u1] at h2 ⊢
    exact h2

theorem execT_rep [Ring R] [LinearOrder R] {max : Nat} (hmax : 2 ≤ max) (ops : List (TOp X A R P)) :
    ∀ {t : STree X A R P} {h : List (Row X A R P)} {a : Abs R}, Rep t max h a → AllValid max a ops →
      ∃ t', execT t ops = .ok t' ∧ Rep t' max (h ++ historyT ops) (ops.foldl (Abs.step max) a) := by
  induction ops with
  | nil => intro t h a hr _; exact ⟨t, rfl, by simpa [historyT] using hr⟩
  | cons op ops ih =>
    intro t h a hr hv
    obtain ⟨hv1, hv2⟩ := hv
    cases op with
    | add rows pr n g =>
      obtain ⟨t1, rw', h1, hr1⟩ := rep_add hmax hr rows pr n g hv1.1 hv1.2.1 hv1.2.2
      obtain ⟨t2, h2, hr2⟩ := ih hr1 hv2
      exact ⟨t2, by simp only [execT, h1, h2], by simpa [historyT, Abs.step] using hr2⟩
    | update ups =>
      obtain ⟨t1, h1, hr1, _⟩ := rep_update hmax ups hr (by
        intro u hu
        have := hv1 u hu
        rw [hr.count] at this
        exact this)
      obtain ⟨t2, h2, hr2⟩ := ih hr1 hv2
      exact ⟨t2, by simp only [execT, h1, h2], by simpa [historyT, Abs.step] using hr2⟩

end Verif.Memory
