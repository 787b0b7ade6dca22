/-
Lemmas about whole experiments.
-/
import Verif.System.Model
import Verif.Core.Props
import Verif.DQN.PropsTarget
import Verif.Memory.Props
import Verif.ValueFn.Props
import Verif.Dataset.Props

namespace Verif.System

noncomputable section

open Verif.Core (Sample Event Cfg St Reach steps fits endings)
open Verif.Dataset (Row)

variable {E G X A R P T : Type}

/-! ### The agent has seen exactly the batches of the run -/

theorem preprocess_agent (ps : List (Core.Preproc E X)) (w : E × G) (s : X) :
    (Core.preprocess (ps.map fun p => { update := fun (w : E × G) s => (p.update w.1 s, w.2), apply := fun w s => p.apply w.1 s }) w s).1.2 = w.2 := by
  induction ps generalizing w s with
  | nil => rfl
  | cons p ps ih =>
    simp only [List.map_cons, Core.preprocess]
    exact ih _ _

theorem reset_agent {x : Experiment E G X A R P T} {c : Cfg X} {s s' : St (E × G) X A R P T} (h : Core.reset x.sys c s = .ok s') :
    s'.world.2 = s.world.2 := by
  unfold Core.reset at h
  split at h
  · cases h
  · simp only [Except.ok.injEq] at h
    subst h
    simp only [Experiment.sys, preprocess_agent]

theorem step_agent {x : Experiment E G X A R P T} {c : Cfg X} {s s' : St (E × G) X A R P T} {o : X} (h : Core.step x.sys c s o = .ok s') :
    s'.world.2 = s.world.2 := by
  unfold Core.step at h
  simp only at h
  split at h
  · cases h
  · simp only [Except.ok.injEq] at h
    subst h
    simp only [Experiment.sys, preprocess_agent, Core.drawAction]
    cases s.nextAction <;> rfl

theorem callbacks_agent (cs : List (E → G → List (Sample X A R P) → E)) (rows : List (Sample X A R P)) (w : E × G) :
    ((cs.map fun f => fun (w : E × G) b => (f w.1 w.2 b, w.2)).foldl (fun w cb => cb w rows) w).2 = w.2 := by
  induction cs generalizing w with
  | nil => rfl
  | cons f cs ih => simp only [List.map_cons, List.foldl_cons]; exact ih _

/-- The datasets and the parameters of all the calls of `fit` of a run. -/
def calls : List (Event X A R P T) → List (List (Sample X A R P) × List T)
  | [] => []
  | .fit b ths _ :: es => (b, ths) :: calls es
  | _ :: es => calls es

theorem calls_append (a b : List (Event X A R P T)) : calls (a ++ b) = calls a ++ calls b := by
  induction a with
  | nil => rfl
  | cons e a ih => cases e <;> simp [calls, ih]

theorem calls_fits (l : List (Event X A R P T)) : (calls l).map (·.1) = fits l := by
  induction l with
  | nil => rfl
  | cons e l ih => cases e <;> simp [calls, fits, ih]

/-- The agent of a reachable state is the initial one after the calls of `fit`, in order; nothing else changes it. -/
theorem agent_reach {x : Experiment E G X A R P T} {c : Cfg X} {prev s : St (E × G) X A R P T} (h : Reach x.sys c prev s) :
    s.world.2 = (calls s.trace).foldl (fun g b => x.fit g b.1 b.2) prev.world.2 := by
  induction h with
  | start => rfl
  | @iter s s' hr hm hi ih =>
    obtain ⟨s1, o, s2, h1, hx, h2, rfl⟩ := Core.iter_cases hi
    obtain ⟨asked, act, obs, rew, abs, w, smp, -, -, -, -, -, -, -, -, -, -, -, -, -, -, -, -, -, -, th2, -, tr2⟩ := Core.step_fields h2
    have hw1 : s1.world.2 = s.world.2 ∧ calls s1.trace = calls s.trace := by
      split at h1
      · refine ⟨reset_agent h1, ?_⟩
        obtain ⟨-, -, -, -, -, -, -, -, req, obs, x', w', th, -, -, -, ht, -⟩ := Core.reset_fields h1
        rw [ht, calls_append]; simp [calls]
      · cases h1; exact ⟨rfl, rfl⟩
    have hw2 : s2.world.2 = s.world.2 := (step_agent h2).trans hw1.1
    have hc2 : calls s2.trace = calls s.trace := by rw [tr2, calls_append, hw1.2]; simp [calls]
    unfold Core.fitPhase
    split
    · simp only [calls_append, hc2, List.foldl_append, calls, List.foldl_cons, List.foldl_nil]
      rw [← ih, ← hw2]
      exact callbacks_agent x.callbacksFit s2.rows (s2.world.1, x.fit s2.world.2 s2.rows s2.thetas)
    · rw [hw2, ih, hc2]

/-- The transitions of a run are those of the calls of `fit`, in order, followed by those still in the dataset. -/
theorem steps_fits {sys : Core.Sys E X A R P T} {c : Cfg X} {prev s : St E X A R P T} (h : Reach sys c prev s) :
    steps s.trace = (fits s.trace).flatten ++ s.rows ∧ ∀ b ∈ fits s.trace, Core.ShortestDue c.fitMode b := by
  obtain ⟨bs, h1, h2⟩ := (Core.inv_reach h).hwork
  rw [Core.steps_eq_didsOf, Core.fits_eq_fittedOf, h1, Core.didsOf_workOf, Core.fittedOf_workOf]
  exact ⟨rfl, h2⟩

/-! ### DQN -/

section dqn

variable {Rng W : Type}

/-- The agent after some calls of `fit`; `none` is an exception. -/
abbrev Learner (Rng X A P W : Type) := Option (DQN.Agent (Store Rng (Memory.Mem X A ℝ (Option P))) W W)

/-- The experiment runs a DQN agent. -/
def RunsDQN (x : Experiment E (Learner Rng X A P W) X A ℝ P T) (p : Parts Rng X A W) : Prop :=
  ∀ g rows ths, x.fit g rows ths = g.bind fun g => DQN.fit (dqn p) g rows

theorem fold_runFits {D M W T' : Type} (step : DQN.Agent M W T' → D → Option (DQN.Agent M W T')) (l : List D) (g : DQN.Agent M W T') :
    l.foldl (fun (g : Option (DQN.Agent M W T')) b => g.bind fun g => step g b) (some g) = DQN.runFits step g l := by
  induction l using List.reverseRecOn with
  | nil => rfl
  | append_singleton l b ih => rw [List.foldl_append, List.foldl_cons, List.foldl_nil, ih, DQN.runFits_snoc]

theorem learner_reach {x : Experiment E (Learner Rng X A P W) X A ℝ P T} {p : Parts Rng X A W} (hx : RunsDQN x p) {c : Cfg X}
    {prev s : St (E × Learner Rng X A P W) X A ℝ P T} (h : Reach x.sys c prev s) {g : DQN.Agent _ W W} (hg : prev.world.2 = some g) :
    s.world.2 = DQN.runFits (DQN.fit (dqn p)) g (fits s.trace) := by
  rw [agent_reach h, hg, ← calls_fits, ← fold_runFits, List.foldl_map]
  congr 1
  funext g b
  exact hx g b.1 b.2

theorem windows_one (rows : List (Row X A ℝ P)) : (Memory.windows 1 1 rows).map (·.2) = rows := by
  apply List.ext_getElem?
  intro i
  unfold Memory.windows
  have hu : (List.range (rows.length + 1 - 1)).filter (Memory.usable 1 rows) = List.range rows.length := by
    rw [Nat.add_sub_cancel, List.filter_eq_self.2]
    intro k hk
    have hk := List.mem_range.1 hk
    simp only [Memory.usable, List.all_eq_true]
    intro r hr
    rw [List.take_one] at hr
    cases h : (rows.drop k).head? <;> simp [h] at hr
  have hf : ∀ k ∈ List.range rows.length, (Memory.nstep 1 ((rows.drop k).take 1)).map (fun r => (k, r)) = (rows[k]?).map fun r => (k, r) := by
    intro k hk
    have hk := List.mem_range.1 hk
    have : (rows.drop k).take 1 = [rows[k]] := by
      rw [List.take_one, List.head?_drop, List.getElem?_eq_getElem hk]; rfl
    rw [this, List.getElem?_eq_getElem hk]
    simp [Memory.nstep, Dataset.discountedReturn]
  rw [hu, List.filterMap_congr hf, List.map_filterMap]
  have : List.filterMap (fun k => Option.map (fun (q : ℕ × Row X A ℝ P) => q.2) (Option.map (fun r => (k, r)) rows[k]?)) (List.range rows.length) = rows := by
    clear hu hf
    induction rows using List.reverseRecOn with
    | nil => rfl
    | append_singleton l r ih =>
      rw [List.length_append, List.length_singleton, List.range_succ, List.filterMap_append]
      have h1 : List.filterMap (fun k => Option.map (fun (q : ℕ × Row X A ℝ P) => q.2) (Option.map (fun r => (k, r)) (l ++ [r])[k]?)) (List.range l.length) =
          List.filterMap (fun k => Option.map (fun (q : ℕ × Row X A ℝ P) => q.2) (Option.map (fun r => (k, r)) l[k]?)) (List.range l.length) := by
        apply List.filterMap_congr
        intro k hk
        rw [List.getElem?_append_left (List.mem_range.1 hk)]
      rw [h1, ih]
      simp
  rw [this]

/-- The memory of the agent, which has not failed, has received the rows `h` and begins to be used above `init` rows. -/
def Holds (s : Store Rng (Memory.Mem X A ℝ (Option P))) (init max : ℕ) (h : List (Row X A ℝ (Option P))) : Prop :=
  ∃ m, s.mem = .ok m ∧ Memory.Fifo m max h ∧ m.initialSize = init

theorem holds_add {p : Parts Rng X A W} {s : Store Rng (Memory.Mem X A ℝ (Option P))} {init max : ℕ} {h : List (Row X A ℝ (Option P))} (hmax : 0 < max)
    (hs : Holds s init max h) (d : List (Sample X A ℝ P)) : Holds ((dqn p).add s d) init max (h ++ d.map toRow) := by
  obtain ⟨m, h1, h2, h3⟩ := hs
  obtain ⟨m', rw', h4, h5, h6⟩ := Memory.add_fifo hmax h2 (d.map toRow) 1 Nat.one_pos 1
  refine ⟨m', ?_, by rwa [windows_one] at h5, h6.trans h3⟩
  simp only [dqn, h1, Except.bind, h4, Except.map]

theorem fifo_size {m : Memory.Mem X A ℝ P} {max : ℕ} {h : List (Row X A ℝ P)} (hf : Memory.Fifo m max h) :
    m.size = min h.length max ∧ m.buf.length = min h.length max := by
  obtain ⟨h1, h2, h3, h4, h5⟩ := hf
  by_cases hl : max ≤ h.length
  · have := h5 hl
    simp [Memory.Mem.size, h3, hl, h1, this.1]
  · have hlt : h.length < max := by omega
    have := h4 hlt
    rw [this]
    simp [Memory.Mem.size, h3, hl, h2, Nat.mod_eq_of_lt hlt]
    omega

theorem fifo_mem {m : Memory.Mem X A ℝ P} {max : ℕ} {h : List (Row X A ℝ P)} (hf : Memory.Fifo m max h) (r : Row X A ℝ P) :
    r ∈ m.buf ↔ r ∈ h.drop (h.length - max) := by
  obtain ⟨h1, h2, h3, h4, h5⟩ := hf
  by_cases hl : max ≤ h.length
  · rw [← (h5 hl).2, List.mem_append]
    conv_lhs => rw [← List.take_append_drop m.idx m.buf]
    rw [List.mem_append, or_comm]
  · have hlt : h.length < max := by omega
    rw [h4 hlt, Nat.sub_eq_zero_of_le hlt.le, List.drop_zero]

theorem mem_get {m : Memory.Mem X A ℝ P} {idxs : List ℕ} (h : ∀ i ∈ idxs, i < m.buf.length) :
    ∃ rows, m.get idxs = .ok rows ∧ rows.length = idxs.length ∧ ∀ r ∈ rows, r ∈ m.buf := by
  unfold Memory.Mem.get
  induction idxs with
  | nil => exact ⟨[], rfl, rfl, by simp⟩
  | cons i is ih =>
    obtain ⟨rows, h1, h2, h3⟩ := ih fun j hj => h j (by simp [hj])
    have hi := h i (by simp)
    refine ⟨m.buf[i] :: rows, ?_, by simp [h2], ?_⟩
    · rw [List.mapM_cons, List.getElem?_eq_getElem hi, h1]
      rfl
    · intro r hr
      rcases List.mem_cons.1 hr with rfl | hr
      · exact List.getElem_mem hi
      · exact h3 r hr

/-- The draws are indices of the memory. -/
def Parts.Fair (p : Parts Rng X A W) (batch : ℕ) : Prop := ∀ r n, 0 < n → (p.draw r n).2.length = batch ∧ ∀ i ∈ (p.draw r n).2, i < n

theorem holds_get {p : Parts Rng X A W} {batch : ℕ} (hp : p.Fair batch) {s : Store Rng (Memory.Mem X A ℝ (Option P))} {init max : ℕ} {h : List (Row X A ℝ (Option P))}
    (hmax : 0 < max) (hne : h ≠ []) (hs : Holds s init max h) :
    Holds ((dqn p).get s).1 init max h ∧ ((dqn (P := P) p).get s).2.length = batch ∧
    ∀ t ∈ ((dqn p).get s).2, ∃ r ∈ h.drop (h.length - max), t = trans r := by
  obtain ⟨m, h1, h2, h3⟩ := hs
  have hpos : 0 < m.buf.length := by
    rw [(fifo_size h2).2]
    have := List.length_pos_of_ne_nil hne
    omega
  obtain ⟨rows, g1, g2, g3⟩ := mem_get (hp s.rng m.buf.length hpos).2
  have hget : (dqn p).get s = ({ s with rng := (p.draw s.rng m.buf.length).1 }, rows.map trans) := by
    simp only [dqn, h1, g1]
  rw [hget]
  refine ⟨⟨m, h1, h2, h3⟩, by simp [g2, (hp s.rng m.buf.length hpos).1], ?_⟩
  intro t ht
  obtain ⟨r, hr, rfl⟩ := List.mem_map.1 ht
  exact ⟨r, (fifo_mem h2 r).1 (g3 r hr), rfl⟩

theorem holds_initialized {p : Parts Rng X A W} {s : Store Rng (Memory.Mem X A ℝ (Option P))} {init max : ℕ} {h : List (Row X A ℝ (Option P))}
    (hs : Holds s init max h) : (dqn p).initialized s = true ↔ init < min h.length max := by
  obtain ⟨m, h1, h2, h3⟩ := hs
  simp only [dqn, h1, Memory.Mem.initialized, decide_eq_true_eq, (fifo_size h2).1, h3]

theorem holds_fit {p : Parts Rng X A W} {batch : ℕ} (hp : p.Fair batch) (hfreq : 0 < p.freq) {g : DQN.Agent (Store Rng (Memory.Mem X A ℝ (Option P))) W W}
    {init max : ℕ} {h : List (Row X A ℝ (Option P))} (hmax : 0 < max) (hs : Holds g.memory init max h) (d : List (Sample X A ℝ P)) :
    ∃ g', DQN.fit (dqn p) g d = some g' ∧ Holds g'.memory init max (h ++ d.map toRow) ∧ g'.nUpdates = g.nUpdates + 1 ∧
      (min (h.length + d.length) max ≤ init → g'.online = g.online) ∧
      (init < min (h.length + d.length) max → ∃ ts, ts.length = batch ∧
        (∀ t ∈ ts, ∃ r ∈ (h ++ d.map toRow).drop ((h ++ d.map toRow).length - max), t = trans r) ∧
        g'.online = p.fitNet g.online ts (p.targets g.online g.target ts)) := by
  have ha := holds_add (p := p) hmax hs d
  have hi := holds_initialized (p := p) ha
  rw [List.length_append, List.length_map] at hi
  obtain ⟨g', h1, h2, -⟩ := DQN.fit_some (dqn p) hfreq g d
  have hin : g'.memory = (DQN.innerFit (dqn p) g d).memory ∧ g'.online = (DQN.innerFit (dqn p) g d).online := by
    unfold DQN.fit DQN.countUpdate at h1
    simp only at h1
    split at h1
    · cases h1
    · split at h1 <;> · simp only [Option.some.injEq] at h1; subst h1; exact ⟨rfl, rfl⟩
  refine ⟨g', h1, ?_, h2, ?_, ?_⟩
  · rw [hin.1]
    unfold DQN.innerFit
    simp only
    split
    · rename_i hini
      have hne : h ++ d.map toRow ≠ [] := by
        intro h0
        have h1 := congrArg List.length h0
        simp only [List.length_append, List.length_map, List.length_nil] at h1
        have := hi.1 hini
        omega
      exact (holds_get hp hmax hne ha).1
    · exact ha
  · intro hle
    rw [hin.2]
    unfold DQN.innerFit
    simp only
    rw [if_neg (by rw [hi]; omega)]
  · intro hlt
    have hini := hi.2 hlt
    have hne : h ++ d.map toRow ≠ [] := by
      intro h0
      have h1 := congrArg List.length h0
      simp only [List.length_append, List.length_map, List.length_nil] at h1
      omega
    obtain ⟨-, q2, q3⟩ := holds_get hp hmax hne ha
    refine ⟨_, q2, q3, ?_⟩
    rw [hin.2]
    unfold DQN.innerFit
    simp only
    rw [if_pos hini]
    rfl

theorem holds_run {p : Parts Rng X A W} {batch : ℕ} (hp : p.Fair batch) (hfreq : 0 < p.freq) {init max : ℕ} (hmax : 0 < max)
    (ds : List (List (Sample X A ℝ P))) (g : DQN.Agent (Store Rng (Memory.Mem X A ℝ (Option P))) W W) (h : List (Row X A ℝ (Option P))) (hs : Holds g.memory init max h) :
    ∃ g', DQN.runFits (DQN.fit (dqn p)) g ds = some g' ∧ Holds g'.memory init max (h ++ ds.flatten.map toRow) ∧
      g'.nUpdates = g.nUpdates + ds.length ∧ (min (h.length + ds.flatten.length) max ≤ init → g'.online = g.online) := by
  induction ds using List.reverseRecOn with
  | nil => exact ⟨g, rfl, by simpa using hs, rfl, fun _ => rfl⟩
  | append_singleton ds d ih =>
    obtain ⟨g1, h1, h2, h3, h4⟩ := ih
    obtain ⟨g2, k1, k2, k3, k4, -⟩ := holds_fit hp hfreq hmax h2 d
    refine ⟨g2, by rw [DQN.runFits_snoc, h1]; exact k1, by simpa using k2, by rw [k3, h3]; simp; omega, ?_⟩
    intro hle
    simp only [List.flatten_append, List.flatten_cons, List.flatten_nil, List.append_nil, List.length_append, List.length_map] at hle k4
    rw [k4 (by omega), h4 (by omega)]

end dqn

end

end Verif.System
