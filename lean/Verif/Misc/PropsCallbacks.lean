/-
C117: what callbacks and plots have collected.
-/
import Verif.Misc.ModelCallbacks
import Verif.Misc.SpecCallbacks
import Verif.Misc.PropsLog
import Verif.TD.Spec
import Verif.Policy.Props
import Mathlib.Tactic.FinCases
import Mathlib.Tactic.NormNum

namespace Verif.Misc.Callbacks

open Verif.Approx (Prediction combinePredictions)

variable {S A : Type}

/-! ### CollectQ -/

/-- What an event means for the values of the tables and the collection. -/
def histOf : Ev S A → Hist (List (S → A → ℝ))
  | .write i f => .change (fun v => v.modify i f)
  | .call => .collect
  | .clean => .drop

/-- What is collected: the mean of the tables of an ensemble, or the table. -/
noncomputable def summary (ensemble : Bool) (v : List (S → A → ℝ)) : S → A → ℝ :=
  if ensemble then fun s a => (v.map (fun q => q s a)).sum / v.length else v.headD (fun _ _ => 0)

/-- The collector agrees with the values `v` of the tables and the collected values `out`; lists from `base` on hold arrays of their
own. -/
structure Agrees (base : ℕ) (p : Mem S A × CollectQ) (v out : List (S → A → ℝ)) : Prop where
  nodup : p.2.tables.Nodup
  ne : p.2.tables ≠ []
  lt : ∀ t ∈ p.2.tables, t < p.1.arrays.length
  vals : p.2.tables.map p.1.arr = v
  hbase : base ≤ p.2.dataList
  cur : p.2.dataList < p.1.lists.length
  out : p.1.read p.2.dataList = out
  own : ∀ l, base ≤ l → ∀ x ∈ p.1.lists.getD l [], x ∉ p.2.tables ∧ x < p.1.arrays.length

theorem arr_append (arrays : List (S → A → ℝ)) (ls ls' : List (List ℕ)) (q : S → A → ℝ) (i : ℕ) (h : i < arrays.length) :
    (Mem.mk (arrays ++ [q]) ls).arr i = (Mem.mk arrays ls').arr i := by
  simp [Mem.arr, List.getD_eq_getElem?_getD, List.getElem?_append_left h]

theorem arr_modify (arrays : List (S → A → ℝ)) (ls : List (List ℕ)) (addr : ℕ) (f) (i : ℕ) (h : i < arrays.length) :
    (Mem.mk (arrays.modify addr f) ls).arr i = if addr = i then f ((Mem.mk arrays ls).arr i) else (Mem.mk arrays ls).arr i := by
  simp only [Mem.arr, List.getD_eq_getElem?_getD, List.getElem?_modify, List.getElem?_eq_getElem h]
  split <;> simp

theorem getD_modify (ls : List (List ℕ)) (d l : ℕ) (g : List ℕ → List ℕ) (h : d < ls.length) :
    (ls.modify d g).getD l [] = if d = l then g (ls.getD l []) else ls.getD l [] := by
  simp only [List.getD_eq_getElem?_getD, List.getElem?_modify]
  split
  · rename_i e; subst e
    simp [List.getElem?_eq_getElem h]
  · cases ls[l]? <;> simp

theorem getD_append_nil (ls : List (List ℕ)) (l : ℕ) : (ls ++ [[]]).getD l [] = ls.getD l [] := by
  simp only [List.getD_eq_getElem?_getD]
  by_cases h : l < ls.length
  · rw [List.getElem?_append_left h]
  · rw [List.getElem?_append_right (by omega), List.getElem?_eq_none (l := ls) (by omega)]
    cases l - ls.length <;> simp

theorem agrees_event (base : ℕ) (p : Mem S A × CollectQ) (v out : List (S → A → ℝ)) (h : Agrees base p v out) (e : Ev S A) :
    match histOf e with
    | .change f => Agrees base (event p e) (f v) out
    | .collect => Agrees base (event p e) v (out ++ [summary p.2.ensemble v])
    | .drop => Agrees base (event p e) v [] := by
  obtain ⟨⟨arrays, lists⟩, ⟨tables, ens, d⟩⟩ := p
  obtain ⟨h1, h2, h3, h4, h5, h6, h7, h8⟩ := h
  simp only at h1 h2 h3 h4 h5 h6 h7 h8
  cases e with
  | write i f =>
    simp only [histOf, event]
    cases hi : tables[i]? with
    | none =>
      have : v.modify i f = v := by
        apply List.ext_getElem?
        intro k
        rw [List.getElem?_modify]
        split
        · rename_i e; subst e
          rw [← h4, List.getElem?_map, hi]; rfl
        · simp
      simp only [this]
      exact ⟨h1, h2, h3, h4, h5, h6, h7, h8⟩
    | some addr =>
      refine ⟨h1, h2, by simpa using h3, ?_, h5, h6, ?_, by simpa using h8⟩
      · rw [← h4]
        apply List.ext_getElem?
        intro k
        rw [List.getElem?_modify]
        simp only [List.getElem?_map]
        cases hk : tables[k]? with
        | none => split <;> simp
        | some t =>
          have ht : t < arrays.length := h3 t (List.mem_of_getElem? hk)
          simp only [Option.map_some, Option.some.injEq]
          rw [arr_modify _ _ _ _ _ ht]
          by_cases e : i = k
          · subst e
            rw [hi] at hk
            simp only [Option.some.injEq] at hk
            subst hk
            simp
          · have hne : addr ≠ t := by
              rintro rfl
              have hki : k < tables.length := (List.getElem?_eq_some_iff.1 hk).1
              have hii : i < tables.length := (List.getElem?_eq_some_iff.1 hi).1
              have e1 := (List.getElem?_eq_some_iff.1 hk).2
              have e2 := (List.getElem?_eq_some_iff.1 hi).2
              exact e ((List.Nodup.getElem_inj_iff h1).1 (e2.trans e1.symm))
            simp [e, hne]
      · rw [← h7]
        simp only [Mem.read]
        apply List.map_congr_left
        intro x hx
        obtain ⟨g1, g2⟩ := h8 d h5 x hx
        have hne : addr ≠ x := by rintro rfl; exact g1 (List.mem_of_getElem? hi)
        rw [arr_modify _ _ _ _ _ g2, if_neg hne]
  | call =>
    simp only [histOf, event, CollectQ.call]
    have hq : (if ens = true then meanTable (tables.map (Mem.mk arrays lists).arr) else (Mem.mk arrays lists).arr (tables.headD 0)) =
        summary ens v := by
      rw [← h4]
      simp only [summary, meanTable]
      cases tables with
      | nil => exact absurd rfl h2
      | cons t ts => rfl
    rw [hq]
    refine ⟨h1, h2, ?_, ?_, h5, by simpa using h6, ?_, ?_⟩
    · intro t ht
      have := h3 t ht
      simp only [List.length_append, List.length_singleton]; omega
    · rw [← h4]
      apply List.map_congr_left
      intro t ht
      exact arr_append _ _ _ _ _ (h3 t ht)
    · simp only [Mem.read]
      rw [getD_modify _ _ _ _ h6, if_pos rfl, List.map_append, ← h7]
      congr 1
      · simp only [Mem.read]
        apply List.map_congr_left
        intro x hx
        exact arr_append _ _ _ _ _ (h8 d h5 x hx).2
      · simp [Mem.arr, List.getD_eq_getElem?_getD]
    · intro l hl x hx
      simp only at hx
      rw [getD_modify _ _ _ _ h6] at hx
      have old : ∀ x ∈ lists.getD l [], x ∉ tables ∧ x < (arrays ++ [summary ens v]).length := by
        intro x hx
        refine ⟨(h8 l hl x hx).1, ?_⟩
        have := (h8 l hl x hx).2
        simp only [List.length_append, List.length_singleton]; omega
      by_cases e : d = l
      · rw [if_pos e, List.mem_append] at hx
        rcases hx with hx | hx
        · exact old x hx
        · simp only [List.mem_singleton] at hx
          subst hx
          refine ⟨fun hm => ?_, by simp⟩
          have := h3 _ hm
          omega
      · rw [if_neg e] at hx
        exact old x hx
  | clean =>
    simp only [histOf, event, CollectQ.clean]
    refine ⟨h1, h2, h3, h4, by simp only; omega, by simp, ?_, ?_⟩
    · simp [Mem.read, List.getD_eq_getElem?_getD]
    · intro l hl x hx
      simp only at hx
      rw [getD_append_nil] at hx
      exact h8 l hl x hx

theorem event_ensemble (p : Mem S A × CollectQ) (e : Ev S A) :
    (event p e).2.ensemble = p.2.ensemble ∧ (event p e).2.tables = p.2.tables := by
  cases e with
  | write i f => simp only [event]; split <;> exact ⟨rfl, rfl⟩
  | call => exact ⟨rfl, rfl⟩
  | clean => exact ⟨rfl, rfl⟩

theorem agrees_run (base : ℕ) (evs : List (Ev S A)) : ∀ (p : Mem S A × CollectQ) (v out : List (S → A → ℝ)),
    Agrees base p v out → Agrees base (evs.foldl event p) (finally_ v (evs.map histOf))
      (collected (summary p.2.ensemble) v out (evs.map histOf)) := by
  induction evs with
  | nil => intro p v out h; exact h
  | cons e evs ih =>
    intro p v out h
    have h1 := agrees_event base p v out h e
    have h2 := (event_ensemble p e).1
    rw [List.foldl_cons, List.map_cons]
    cases e with
    | write i f => rw [← h2]; exact ih _ _ _ h1
    | call => rw [← h2]; simp only [histOf, finally_, collected] at h1 ⊢; rw [← h2] at h1; exact ih _ _ _ h1
    | clean => rw [← h2]; exact ih _ _ _ h1

theorem run_tables (evs : List (Ev S A)) (p : Mem S A × CollectQ) : (evs.foldl event p).2.tables = p.2.tables := by
  induction evs generalizing p with
  | nil => rfl
  | cons e evs ih => rw [List.foldl_cons, ih, (event_ensemble p e).2]

theorem new_agrees (m : Mem S A) (tables : List ℕ) (ens : Bool) (hne : tables ≠ []) (hnd : tables.Nodup)
    (hlt : ∀ t ∈ tables, t < m.arrays.length) :
    Agrees m.lists.length (CollectQ.new m tables ens) (tables.map m.arr) [] := by
  refine ⟨hnd, hne, hlt, rfl, le_refl _, by simp [CollectQ.new], by simp [CollectQ.new, Mem.read, List.getD_eq_getElem?_getD], ?_⟩
  intro l hl x hx
  simp only [CollectQ.new] at hx
  rw [getD_append_nil, List.getD_eq_getElem?_getD, List.getElem?_eq_none hl] at hx
  simp at hx

/-- **C117** (collected action values). Whatever the learner writes into its tables and whenever the callback is called and cleaned,
`get()` gives the tables (for an ensemble, their means) as they were at the calls since the last `clean()`, and the tables of the
learner are what they would be without the callback. -/
theorem C117_collected_values (m : Mem S A) (tables : List ℕ) (ens : Bool) (hne : tables ≠ []) (hnd : tables.Nodup)
    (hlt : ∀ t ∈ tables, t < m.arrays.length) (evs : List (Ev S A)) (p : Mem S A × CollectQ)
    (hp : p = evs.foldl event (CollectQ.new m tables ens)) :
    p.1.read p.2.get = collected (summary ens) (tables.map m.arr) [] (evs.map histOf) ∧
      tables.map p.1.arr = finally_ (tables.map m.arr) (evs.map histOf) := by
  subst hp
  have h := agrees_run m.lists.length evs _ _ _ (new_agrees m tables ens hne hnd hlt)
  refine ⟨h.out, ?_⟩
  rw [← h.vals, run_tables]
  rfl

theorem other_list (base : ℕ) (e : Ev S A) (p : Mem S A × CollectQ) (v out) (h : Agrees base p v out) (l : ℕ) (hb : base ≤ l)
    (hl : l < p.1.lists.length) (hd : l ≠ p.2.dataList) :
    (event p e).1.read l = p.1.read l ∧ l < (event p e).1.lists.length ∧ l ≠ (event p e).2.dataList := by
  obtain ⟨⟨arrays, lists⟩, ⟨tables, ens, d⟩⟩ := p
  obtain ⟨h1, h2, h3, h4, h5, h6, h7, h8⟩ := h
  simp only at h1 h2 h3 h4 h5 h6 h7 h8 hl hd
  cases e with
  | write i f =>
    simp only [event]
    cases hi : tables[i]? with
    | none => exact ⟨rfl, hl, hd⟩
    | some addr =>
      refine ⟨?_, hl, hd⟩
      simp only [Mem.read]
      apply List.map_congr_left
      intro x hx
      obtain ⟨g1, g2⟩ := h8 l hb x hx
      have hne : addr ≠ x := by rintro rfl; exact g1 (List.mem_of_getElem? hi)
      rw [arr_modify _ _ _ _ _ g2, if_neg hne]
  | call =>
    simp only [event, CollectQ.call]
    refine ⟨?_, by simpa using hl, hd⟩
    simp only [Mem.read]
    rw [getD_modify _ _ _ _ h6, if_neg (Ne.symm hd)]
    apply List.map_congr_left
    intro x hx
    exact arr_append _ _ _ _ _ (h8 l hb x hx).2
  | clean =>
    simp only [event, CollectQ.clean]
    refine ⟨?_, by simp only [List.length_append, List.length_singleton]; omega, by omega⟩
    simp only [Mem.read]
    rw [getD_append_nil]
    rfl

theorem other_list_run (base : ℕ) (evs : List (Ev S A)) : ∀ (p : Mem S A × CollectQ) (v out), Agrees base p v out →
    ∀ l, base ≤ l → l < p.1.lists.length → l ≠ p.2.dataList → (evs.foldl event p).1.read l = p.1.read l := by
  induction evs with
  | nil => intros; rfl
  | cons e evs ih =>
    intro p v out h l hb hl hd
    obtain ⟨g1, g2, g3⟩ := other_list base e p v out h l hb hl hd
    have h1 := agrees_run base [e] p v out h
    rw [List.foldl_cons, List.foldl_nil] at h1
    rw [List.foldl_cons, ih _ _ _ h1 l hb g2 g3, g1]

/-- **C117** (a list handed out). A list obtained from `get()` before a `clean()` keeps what it held at that `clean()`, whatever
happens afterwards. -/
theorem C117_list_kept (m : Mem S A) (tables : List ℕ) (ens : Bool) (hne : tables ≠ []) (hnd : tables.Nodup)
    (hlt : ∀ t ∈ tables, t < m.arrays.length) (before after : List (Ev S A)) (p q : Mem S A × CollectQ)
    (hp : p = before.foldl event (CollectQ.new m tables ens)) (hq : q = (Ev.clean :: after).foldl event p) :
    q.1.read p.2.get = p.1.read p.2.get := by
  subst hq
  have h := agrees_run m.lists.length before _ _ _ (new_agrees m tables ens hne hnd hlt)
  rw [← hp] at h
  have h1 := agrees_run m.lists.length [Ev.clean] p _ _ h
  rw [List.foldl_cons, List.foldl_nil] at h1
  rw [List.foldl_cons]
  have hcur := h.cur
  have hb := h.hbase
  rw [other_list_run _ after _ _ _ h1 p.2.get hb
    (by simp only [event, CollectQ.clean, CollectQ.get, List.length_append, List.length_singleton]; omega)
    (by simp only [event, CollectQ.clean, CollectQ.get]; omega)]
  simp only [event, CollectQ.clean, Mem.read]
  rw [getD_append_nil]
  rfl

/-- A table with two entries: it is written, collected, written and collected; the collection has two different tables, and after a
`clean` the list handed out before still has both while `get()` has the third. -/
example :
    let m : Mem Unit Bool := ⟨[fun _ _ => 0], []⟩
    let w : ℝ → Ev Unit Bool := fun x => .write 0 (fun q => Function.update q () (Function.update (q ()) true x))
    let before := [w 1, .call, w 2, .call]
    let after := [w 3, .call]
    let p := before.foldl event (CollectQ.new m [0] false)
    let q := (Ev.clean :: after).foldl event p
    p.1.read p.2.get = [fun _ b => if b then 1 else 0, fun _ b => if b then 2 else 0] ∧
    q.1.read q.2.get = [fun _ b => if b then 3 else 0] ∧
    q.1.read p.2.get = [fun _ b => if b then 1 else 0, fun _ b => if b then 2 else 0] := by
  intro m w before after p q
  have key : p.1.read p.2.get = [fun _ b => if b then 1 else 0, fun _ b => if b then 2 else 0] := by
    rw [(C117_collected_values m [0] false (by simp) (by simp) (by simp [m]) before p rfl).1]
    simp only [before, w, List.map_cons, List.map_nil, histOf, collected, summary, m, Mem.arr]
    simp only [List.nil_append, List.cons_append, List.cons.injEq, and_true]
    constructor <;> (funext s b; cases b <;> simp [Function.update])
  refine ⟨key, ?_, ?_⟩
  · have := (C117_collected_values m [0] false (by simp) (by simp) (by simp [m]) (before ++ Ev.clean :: after) q
      (by simp only [q, p, List.foldl_append])).1
    rw [this]
    simp only [before, after, w, List.cons_append, List.nil_append, List.map_cons, List.map_nil, histOf, collected, summary, m, Mem.arr]
    simp only [List.cons.injEq, and_true]
    funext s b; cases b <;> simp [Function.update]
  · rw [C117_list_kept m [0] false (by simp) (by simp) (by simp [m]) before after p q rfl rfl, key]

/-! ### Predictions and CollectMaxQ -/

/-- **C117** (refuted: a prediction is a value). What `Table.predict(state)` returned is a view of the table: after the learner has
written into the table, the array that was returned before has changed. -/
theorem C117_prediction_refuted :
    ∃ (m : Mem Unit Bool) (c : CollectQ) (e : Ev Unit Bool),
      (tablePredict 0 : Row Bool).read (event (m, c) e).1 () ≠ (tablePredict 0 : Row Bool).read m () := by
  refine ⟨⟨[fun _ _ => 0], []⟩, ⟨[0], false, 0⟩, .write 0 (fun _ _ _ => 1), ?_⟩
  intro h
  have := congrFun h true
  simp [event, tablePredict, Row.read, Mem.arr] at this

theorem rowMax_isMax [Fintype A] [Nonempty A] (q : A → ℝ) : TD.IsMax q (TD.rowMax q) := by
  refine ⟨fun a => Finset.le_sup' q (Finset.mem_univ a), ?_⟩
  obtain ⟨a, -, ha⟩ := Finset.exists_mem_eq_sup' Finset.univ_nonempty q
  exact ⟨a, ha.symm⟩

/-- **C117** (maximal action values, for tables and mean ensembles only). What `CollectMaxQ` appends for a state is the maximum over
the actions of what `CollectQ` appends in the same call. Missing: ensembles with another kind of prediction, for which this is false
(`C117_max_refuted`). -/
theorem C117_max_partial [Fintype A] [Nonempty A] (s : S) :
    (∀ (m : Mem S A) (addr : ℕ), TD.IsMax (summary false [m.arr addr] s) (maxQTable m addr s)) ∧
    (∀ (q : S → A → ℝ) (qs : List (S → A → ℝ)), TD.IsMax (summary true (q :: qs) s) (maxQEnsemble .mean q qs s)) := by
  constructor
  · intro m addr
    exact rowMax_isMax _
  · intro q qs
    have : summary true (q :: qs) s = ensembleRow .mean q qs s := by
      funext a
      simp [summary, ensembleRow, combinePredictions, Function.comp_def]
    rw [this]
    exact rowMax_isMax _

/-- **C117** (refuted for the other predictions). With `prediction='max'`, as well as with `'min'` and `'sum'`, what `CollectMaxQ`
appends is not the maximum of what `CollectQ` appends: one follows the prediction of the ensemble, the other takes the mean. -/
theorem C117_max_refuted (p : Prediction) (hp : p ≠ .mean) :
    ∃ (q : Unit → Unit → ℝ) (qs : List (Unit → Unit → ℝ)), ¬ TD.IsMax (summary true (q :: qs) ()) (maxQEnsemble p q qs ()) := by
  refine ⟨fun _ _ => 1, [fun _ _ => 3], ?_⟩
  rintro ⟨-, a, ha⟩
  cases p with
  | mean => exact hp rfl
  | sum => simp [summary, maxQEnsemble, TD.rowMax, ensembleRow, combinePredictions] at ha; norm_num at ha
  | min => simp [summary, maxQEnsemble, TD.rowMax, ensembleRow, combinePredictions] at ha; norm_num at ha
  | max => simp [summary, maxQEnsemble, TD.rowMax, ensembleRow, combinePredictions] at ha; norm_num at ha

/-! ### CollectParameters -/

/-- For every call of the callback, the number of uses of the cell before it, starting from `k`. -/
def usesBefore (single : Bool) (at_ : Policy.Index) : ℕ → List ParEv → List ℕ
  | _, [] => []
  | k, .use j :: es => usesBefore single at_ ((if single = true ∨ j = at_ then 1 else 0) + k) es
  | k, .call :: es => k :: usesBefore single at_ k es

/-- The uses of the parameter, without the callback. -/
def usesOnly : List ParEv → List Policy.Op
  | [] => []
  | .use j :: es => .call j :: usesOnly es
  | .call :: es => usesOnly es

theorem parEvents (at_ : Policy.Index) (f : ℕ → ℝ) (p : Policy.Param)
    (hf : ∀ ops, (p.run ops).getValue at_ = f (Policy.visits p.single at_ ops)) (evs : List ParEv) :
    ∀ (ops : List Policy.Op) (out : List ℝ),
      evs.foldl (parEvent at_) (p.run ops, out) =
        (p.run (ops ++ usesOnly evs), out ++ (usesBefore p.single at_ (Policy.visits p.single at_ ops) evs).map f) := by
  induction evs with
  | nil => intro ops out; simp [usesOnly, usesBefore]
  | cons e evs ih =>
    intro ops out
    rw [List.foldl_cons]
    cases e with
    | use j =>
      have h1 : (parEvent at_ (p.run ops, out) (.use j)) = (p.run (ops ++ [.call j]), out) := by
        simp [parEvent, Policy.Param.run, Policy.Param.exec]
      have h2 : Policy.visits p.single at_ (ops ++ [.call j]) =
          (if p.single = true ∨ j = at_ then 1 else 0) + Policy.visits p.single at_ ops := by
        rw [Policy.visits_append]; simp [Policy.visits]; omega
      rw [h1, ih, h2]
      simp [usesOnly, usesBefore]
    | call =>
      simp only [parEvent, hf]
      rw [ih]
      simp [usesOnly, usesBefore]

/-- **C117** (collected parameters). However the uses of a linearly scheduled parameter and the calls of `CollectParameters` alternate,
every collected value is the value scheduled for the number of uses of the watched cell so far, and collecting does not move the
schedule: the parameter is as it would be after the uses alone. -/
theorem C117_collected_parameters (value threshold : ℝ) (n : ℕ) (single : Bool) (p : Policy.Param)
    (hp : Policy.linearParam value threshold n single = some p) (at_ : Policy.Index) (evs : List ParEv) :
    evs.foldl (parEvent at_) (p, []) =
      (p.run (usesOnly evs),
        (usesBefore single at_ 0 evs).map (fun k => value + (threshold - value) * (min k n : ℕ) / n)) := by
  have hs : p.single = single := by
    simp only [Policy.linearParam] at hp
    split at hp
    · simp at hp
    · simp only [Option.some.injEq] at hp; rw [← hp]
  have := parEvents at_ (fun k => value + (threshold - value) * (min k n : ℕ) / n) p
    (fun ops => by rw [hs]; exact Policy.C25_linear value threshold n single p hp ops at_) evs [] []
  simpa [Policy.Param.run, Policy.visits, hs] using this

example : ∃ p, Policy.linearParam 1 0 4 true = some p ∧
    ([.call, .use [], .call, .call, .use []].foldl (parEvent []) (p, [])).2 = [1, 3 / 4, 3 / 4] := by
  refine ⟨_, rfl, ?_⟩
  rw [C117_collected_parameters 1 0 4 true _ rfl]
  norm_num [usesBefore]

/-! ### CollectDataset -/

/-- **C117** (partial: `clean()` of a dataset collector that has been called). `clean()` empties it and later calls are collected from
there. Missing: `clean()` before the first call, which raises an exception (`C117_clean_refuted`) while it is harmless for the
other callbacks. -/
theorem C117_clean_partial {ρ : Type} (rows : List ρ) (before after : List (List ρ)) :
    (CollectDs.clean ((rows :: before).foldl CollectDs.call none)).map (fun c => after.foldl CollectDs.call c) = some (some after.flatten) := by
  have h : ∀ (ls : List (List ρ)) (acc : List ρ), ls.foldl CollectDs.call (some acc) = some (acc ++ ls.flatten) := by
    intro ls
    induction ls with
    | nil => intro acc; simp
    | cons l ls ih => intro acc; rw [List.foldl_cons]; simp only [CollectDs.call]; rw [ih]; simp
  rw [List.foldl_cons]
  simp only [CollectDs.call]
  rw [h]
  simp only [CollectDs.clean, Option.map_some]
  rw [h]
  simp

/-- **C117** (refuted: `clean()` can be called at any time). -/
theorem C117_clean_refuted {ρ : Type} : CollectDs.clean (none : CollectDs ρ) = none := rfl

end Verif.Misc.Callbacks
