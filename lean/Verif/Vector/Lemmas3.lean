import Verif.Vector.Lemmas2
import Mathlib.Tactic.Linarith

namespace Verif.Vector

open Verif.Dataset (Row setLast closeEnd)

variable {W X A R P T : Type}

/-- Sum of `g` over the environments with `f`. -/
def wsum (f : Nat → Bool) (g : Nat → Nat) : Nat → Nat
  | 0 => 0
  | n + 1 => wsum f g n + (if f n then g n else 0)

theorem wsum_congr {f f' : Nat → Bool} {g g' : Nat → Nat} : ∀ {n : Nat}, (∀ i < n, f i = f' i) →
    (∀ i < n, f i = true → g i = g' i) → wsum f g n = wsum f' g' n
  | 0, _, _ => rfl
  | n + 1, h, h' => by
    simp only [wsum]
    rw [wsum_congr (n := n) (fun i hi => h i (by omega)) (fun i hi => h' i (by omega)), ← h n (by omega)]
    rcases Bool.eq_false_or_eq_true (f n) with hf | hf
    · simp [hf, h' n (by omega) hf]
    · simp [hf]

theorem wsum_split (f g : Nat → Bool) (x : Nat → Nat) : ∀ n,
    wsum f x n = wsum (fun i => g i && f i) x n + wsum (fun i => !g i && f i) x n
  | 0 => rfl
  | n + 1 => by
    have := wsum_split f g x n
    simp only [wsum]
    rcases Bool.eq_false_or_eq_true (g n) with hg | hg <;> rcases Bool.eq_false_or_eq_true (f n) with hf | hf <;>
      simp [hf, hg] <;> omega

theorem wsum_le (f : Nat → Bool) (x : Nat → Nat) (H : Nat) : ∀ n, (∀ i < n, f i = true → x i ≤ H) →
    wsum f x n ≤ cnt f n * H
  | 0, _ => by simp [wsum]
  | n + 1, h => by
    have := wsum_le f x H n (fun i hi => h i (by omega))
    have hn := h n (by omega)
    simp only [wsum, cnt]
    rcases Bool.eq_false_or_eq_true (f n) with hf | hf <;> simp only [hf, if_true, if_false, Bool.false_eq_true]
    · have := hn hf; rw [Nat.add_mul]; omega
    · omega

theorem wsum_succ (f : Nat → Bool) (x : Nat → Nat) : ∀ n,
    wsum f (fun i => if f i then x i + 1 else x i) n = wsum f x n + cnt f n
  | 0 => rfl
  | n + 1 => by
    have := wsum_succ f x n
    simp only [wsum, cnt, this]
    rcases Bool.eq_false_or_eq_true (f n) with hf | hf <;> simp [hf] <;> omega

theorem wsum_lt (f : Nat → Bool) (x : Nat → Nat) (H n : Nat) (h : ∀ i < n, f i = true → x i < H)
    (hp : 0 < cnt f n) : wsum f x n < cnt f n * H := by
  have h1 := wsum_le f (fun i => if f i then x i + 1 else x i) H n
    (fun i hi hf => by simp only [hf, if_true]; exact h i hi hf)
  rw [wsum_succ] at h1
  omega

theorem wsum_none {f : Nat → Bool} {n : Nat} (x : Nat → Nat) (h : cnt f n = 0) : wsum f x n = 0 := by
  have := wsum_le f (fun _ => 0) 0 n (fun _ _ _ => Nat.le_refl _)
  have h0 := cnt_eq_zero h
  rw [wsum_congr (f' := fun _ => false) (g' := fun _ => 0) h0 (fun i hi hf => by simp [h0 i hi] at hf)]
  have := wsum_le (fun _ => false) (fun _ => 0) 0 n (fun _ _ _ => Nat.le_refl _)
  omega

/-- Number of environments in the middle of an episode. -/
def midway (n : Nat) (running last : Nat → Bool) : Nat := cnt (fun i => !last i && running i) n

/-- The settings of a run. -/
structure Good (c : Cfg) : Prop where
  pos : 1 < c.n
  horizon : ∀ H, c.horizon = some H → 0 < H
  oneFit : c.perFitSteps = none ∨ c.perFitEps = none
  fitPos : ∀ k, c.perFitEps = some k → 0 < k
  oneMove : (c.nSteps = none ∧ ∃ ne, c.nEpisodes = some ne) ∨ (c.nEpisodes = none ∧ ∃ ns, c.nSteps = some ns)
  noStale : c.learning = true ∨ c.perFitEps = none ∨
    ∃ ne k, c.nEpisodes = some ne ∧ c.perFitEps = some k ∧ ne ≤ k

/-- Every environment makes its first step, or all the flags describe the previous step. -/
structure Inv (c : Cfg) (s : St W X A R P T) : Prop where
  shape : ((∀ i < c.n, s.running i = false) ∧ (∀ i < c.n, s.last i = true)) ∨
    (s.running = s.mask ∧ (∀ i < c.n, s.last i = true → s.mask i = true) ∧ 0 < cnt s.mask c.n ∧
      (c.nEpisodes = none → c.perFitEps = none → ∀ i < c.n, s.mask i = true) ∧
      (∀ i < c.n, s.mask i = false → s.episodeSteps i = 0))
  total : ∀ ne, c.nEpisodes = some ne → s.totE + midway c.n s.running s.last ≤ ne
  fit : ∀ k, c.perFitEps = some k → s.curE + midway c.n s.running s.last ≤ k
  room : c.learning = true → ∀ k, c.perFitEps = some k → s.curE < k
  same : c.learning = false → s.curE = s.totE
  roomS : c.learning = true → ∀ k, c.perFitSteps = some k → s.curS < k ∨ k = 0
  lens : ∀ H, c.horizon = some H → ∀ i < c.n, s.running i = true → s.last i = false → s.episodeSteps i < H
  hor : ∀ H, c.horizon = some H →
    s.totS ≤ s.totE * H + wsum (fun i => !s.last i && s.running i) s.episodeSteps c.n
  horCur : ∀ H, c.horizon = some H →
    s.curS ≤ s.curE * H + wsum (fun i => !s.last i && s.running i) s.episodeSteps c.n
  logS : steps c.n s.log = s.totS
  logE : episodes c.n s.log = s.totE
  logLen : s.log.length ≤ s.totS

/-- The state between the reset and the step of an iteration. -/
structure Mid (c : Cfg) (s : St W X A R P T) : Prop where
  run : s.running = s.mask
  pos : 0 < cnt s.mask c.n
  all : c.nEpisodes = none → c.perFitEps = none → ∀ i < c.n, s.mask i = true
  total : ∀ ne, c.nEpisodes = some ne → s.totE + cnt s.mask c.n ≤ ne
  fit : ∀ k, c.perFitEps = some k → s.curE + cnt s.mask c.n ≤ k
  idle : ∀ i < c.n, s.mask i = false → s.episodeSteps i = 0
  same : c.learning = false → s.curE = s.totE
  lens : ∀ H, c.horizon = some H → ∀ i < c.n, s.mask i = true → s.episodeSteps i < H
  hor : ∀ H, c.horizon = some H → s.totS ≤ s.totE * H + wsum s.mask s.episodeSteps c.n
  horCur : ∀ H, c.horizon = some H → s.curS ≤ s.curE * H + wsum s.mask s.episodeSteps c.n
  logS : steps c.n s.log = s.totS
  logE : episodes c.n s.log = s.totE
  logLen : s.log.length ≤ s.totS

theorem roomOf {c : Cfg} {s : St W X A R P T} (hg : Good c) (hi : Inv c s) (hm : moveRequired c s = true) :
    (∀ ne, c.nEpisodes = some ne → s.totE < ne) ∧ (∀ k, c.perFitEps = some k → s.curE < k) := by
  have h1 : ∀ ne, c.nEpisodes = some ne → s.totE < ne := by
    intro ne hne
    rcases hg.oneMove with ⟨h, _⟩ | ⟨h, _⟩
    · simpa [moveRequired, h, hne] using hm
    · simp [h] at hne
  refine ⟨h1, ?_⟩
  intro k hk
  rcases Bool.eq_false_or_eq_true c.learning with hl | hl
  · exact hi.room hl k hk
  · rcases hg.noStale with h | h | ⟨ne, k', h, h', h''⟩
    · simp [hl] at h
    · simp [hk] at h
    · have := h1 ne h
      have := hi.same hl
      simp only [hk, Option.some.injEq] at h'
      omega

/-- Relation between the states before and after the first part of an iteration. -/
structure Begun (c : Cfg) (s s1 : St W X A R P T) : Prop where
  data : s1.data = s.data
  masks : s1.masks = s.masks
  log : s1.log = s.log
  fits : s1.fits = s.fits
  totS : s1.totS = s.totS
  curS : s1.curS = s.curS
  totE : s1.totE = s.totE
  curE : s1.curE = s.curE
  keep : ∀ i < c.n, s.running i = true → s.last i = false → s1.mask i = true
  stay : ∀ i < c.n, s.last i = false → s.state i = s.envState i → s1.state i = s.state i
  env : (s.state = s.envState) → s1.envState = s1.state

theorem resetPart_inv (sys : Sys W X A R P T) (c : Cfg) (s : St W X A R P T) (hg : Good c) (hi : Inv c s)
    (hm : moveRequired c s = true) : ∃ s1, resetPart sys c s = .ok s1 ∧ Mid c s1 ∧ Begun c s s1 := by
  obtain ⟨hT, hF⟩ := roomOf hg hi hm
  by_cases hany : anyOf s.last c.n = true
  · have hcnt : 0 < cnt s.last c.n := by simpa [anyOf] using hany
    have hmask : ∃ m, getMask c s.running s.last s.totE s.curE = .ok m ∧ Masked c s.running s.last s.totE s.curE m := by
      rcases hi.shape with ⟨h1, h2⟩ | ⟨h1, h2, _⟩
      · exact getMask_fresh c _ _ _ _ h1 h2
      · exact getMask_regular c _ _ _ _ (by rw [h1]; exact h2) hcnt
    obtain ⟨m, hm1, hm2⟩ := hmask
    obtain ⟨s1, hs1, hr⟩ := resetPart_ok sys c s m hany hm1
    have hidle : ∀ i < c.n, m i = false → s1.episodeSteps i = 0 := by
      intro i hin hmi
      rw [hr.episodeSteps]
      simp only
      split
      · rfl
      · rename_i hl
        have hl : s.last i = false := by simpa using hl
        rcases hi.shape with ⟨_, h2⟩ | ⟨h1, _, _, _, h5⟩
        · simp [h2 i hin] at hl
        · apply h5 i hin
          rcases Bool.eq_false_or_eq_true (s.mask i) with hmi' | hmi'
          · have := hm2.keep i hin hl (by rw [h1]; exact hmi')
            simp [this] at hmi
          · exact hmi'
    have hwsum : wsum (fun i => !s.last i && s.running i) s.episodeSteps c.n = wsum m s1.episodeSteps c.n := by
      rw [wsum_split m s.last]
      have h0 : wsum (fun i => s.last i && m i) s1.episodeSteps c.n = 0 := by
        have := wsum_le (fun i => s.last i && m i) s1.episodeSteps 0 c.n (by
          intro i _ h
          simp only [Bool.and_eq_true] at h
          rw [hr.episodeSteps]
          simp [h.1])
        omega
      rw [h0, Nat.zero_add]
      apply wsum_congr
      · intro i hin
        rcases Bool.eq_false_or_eq_true (s.last i) with hl | hl
        · simp [hl]
        · rcases Bool.eq_false_or_eq_true (s.running i) with hr' | hr'
          · simp [hl, hr', hm2.keep i hin hl hr']
          · simp [hl, hr', hm2.off i hin hl hr']
      · intro i _ h
        simp only [Bool.and_eq_true, Bool.not_eq_true'] at h
        rw [hr.episodeSteps]
        simp [h.1]
    refine ⟨s1, hs1, ?_, ?_⟩
    · constructor
      · rw [hr.running, hr.mask]
      · rw [hr.mask]; exact hm2.pos (by have := hg.pos; omega) hT hF
      · intro h1 h2
        rw [hr.mask]
        apply hm2.all h1 h2
        intro i hin hl
        rcases hi.shape with ⟨_, h4⟩ | ⟨h3, _, _, h4, _⟩
        · simp [h4 i hin] at hl
        · rw [h3]; exact h4 h1 h2 i hin
      · intro ne hne; rw [hr.mask, hr.totE]; exact hm2.total ne hne (hi.total ne hne)
      · intro k hk; rw [hr.mask, hr.curE]; exact hm2.fit k hk (hi.fit k hk)
      · rw [hr.mask]; exact hidle
      · rw [hr.curE, hr.totE]; exact hi.same
      · intro H hH i hin hmi
        rw [hr.episodeSteps]
        simp only
        split
        · exact hg.horizon H hH
        · rename_i hl
          have hl : s.last i = false := by simpa using hl
          refine hi.lens H hH i hin ?_ hl
          rcases Bool.eq_false_or_eq_true (s.running i) with hr' | hr'
          · exact hr'
          · have := hm2.off i hin hl hr'
            rw [hr.mask] at hmi
            simp [this] at hmi
      · intro H hH; rw [hr.mask, hr.totS, hr.totE, ← hwsum]; exact hi.hor H hH
      · intro H hH; rw [hr.mask, hr.curS, hr.curE, ← hwsum]; exact hi.horCur H hH
      · rw [hr.log, hr.totS]; exact hi.logS
      · rw [hr.log, hr.totE]; exact hi.logE
      · rw [hr.log, hr.totS]; exact hi.logLen
    · constructor
      · exact hr.data
      · exact hr.masks
      · exact hr.log
      · exact hr.fits
      · exact hr.totS
      · exact hr.curS
      · exact hr.totE
      · exact hr.curE
      · intro i hin h1 h2; rw [hr.mask]; exact hm2.keep i hin h2 h1
      · intro i hin h1 h2; rw [hr.keep i h1, h2]
      · intro _; exact hr.state
  · have hcnt : cnt s.last c.n = 0 := by
      simp only [anyOf, decide_eq_true_eq] at hany; omega
    have hl := cnt_eq_zero hcnt
    have h0 : 0 < c.n := by have := hg.pos; omega
    obtain ⟨h1, h2, h3, h4, h5⟩ : s.running = s.mask ∧ (∀ i < c.n, s.last i = true → s.mask i = true) ∧
        0 < cnt s.mask c.n ∧ (c.nEpisodes = none → c.perFitEps = none → ∀ i < c.n, s.mask i = true) ∧
        (∀ i < c.n, s.mask i = false → s.episodeSteps i = 0) := by
      rcases hi.shape with ⟨_, h2⟩ | h
      · have := h2 0 h0
        simp [hl 0 h0] at this
      · exact h
    have hmid : midway c.n s.running s.last = cnt s.mask c.n := by
      unfold midway
      exact cnt_congr (fun i hin => by simp [hl i hin, h1])
    have hw : wsum (fun i => !s.last i && s.running i) s.episodeSteps c.n = wsum s.mask s.episodeSteps c.n :=
      wsum_congr (fun i hin => by simp [hl i hin, h1]) (fun _ _ _ => rfl)
    refine ⟨s, by simp [resetPart, hany], ?_, ?_⟩
    · constructor
      · exact h1
      · exact h3
      · exact h4
      · intro ne hne; have := hi.total ne hne; rw [hmid] at this; exact this
      · intro k hk; have := hi.fit k hk; rw [hmid] at this; exact this
      · exact h5
      · exact hi.same
      · intro H hH i hin hmi; exact hi.lens H hH i hin (by rw [h1]; exact hmi) (hl i hin)
      · intro H hH; have := hi.hor H hH; rw [hw] at this; exact this
      · intro H hH; have := hi.horCur H hH; rw [hw] at this; exact this
      · exact hi.logS
      · exact hi.logE
      · exact hi.logLen
    · exact { data := rfl, masks := rfl, log := rfl, fits := rfl, totS := rfl, curS := rfl, totE := rfl, curE := rfl
              keep := fun i hin h _ => by rw [← h1]; exact h
              stay := fun _ _ _ _ => rfl
              env := fun h => h.symm }

/-- The state after the step, before the fit. -/
structure Post (c : Cfg) (s : St W X A R P T) : Prop where
  run : s.running = s.mask
  sub : ∀ i < c.n, s.last i = true → s.mask i = true
  pos : 0 < cnt s.mask c.n
  all : c.nEpisodes = none → c.perFitEps = none → ∀ i < c.n, s.mask i = true
  idle : ∀ i < c.n, s.mask i = false → s.episodeSteps i = 0
  total : ∀ ne, c.nEpisodes = some ne → s.totE + midway c.n s.mask s.last ≤ ne
  fit : ∀ k, c.perFitEps = some k → s.curE + midway c.n s.mask s.last ≤ k
  same : c.learning = false → s.curE = s.totE
  lens : ∀ H, c.horizon = some H → ∀ i < c.n, s.mask i = true → s.last i = false → s.episodeSteps i < H
  hor : ∀ H, c.horizon = some H → s.totS ≤ s.totE * H + wsum (fun i => !s.last i && s.mask i) s.episodeSteps c.n
  horCur : ∀ H, c.horizon = some H → s.curS ≤ s.curE * H + wsum (fun i => !s.last i && s.mask i) s.episodeSteps c.n
  logS : steps c.n s.log = s.totS
  logE : episodes c.n s.log = s.totE
  logLen : s.log.length ≤ s.totS

theorem post_of_stepped {c : Cfg} {s s' : St W X A R P T} {row : Nat → Row X A R P} (hg : Good c) (hm : Mid c s)
    (hs : Stepped c s s' row) : Post c s' := by
  have hsteps : ∀ i, s'.episodeSteps i = if s.mask i then s.episodeSteps i + 1 else s.episodeSteps i :=
    fun i => by rw [hs.episodeSteps]
  have hlast : ∀ i, s'.last i = (row i).last := fun i => by rw [hs.last]
  have hsub : ∀ i < c.n, s'.last i = true → s'.mask i = true := by
    intro i hin hl
    rw [hs.mask]
    rcases Bool.eq_false_or_eq_true (s.mask i) with h | h
    · exact h
    · rw [hlast, hs.rowLast, lastRule.eq_def, (hs.idle i h).2, hsteps, hm.idle i hin h] at hl
      rcases hH : c.horizon with _ | H
      · simp [hH] at hl
      · have := hg.horizon H hH
        simp [hH, h] at hl
        omega
  have hcnt : cnt s.mask c.n = cnt (fun i => (row i).last && s.mask i) c.n + midway c.n s'.mask s'.last := by
    rw [cnt_split s.mask (fun i => (row i).last)]
    unfold midway
    rw [hs.mask, hs.last]
  have hlens : ∀ H, c.horizon = some H → ∀ i < c.n, s'.mask i = true → s'.episodeSteps i ≤ H := by
    intro H hH i hin h
    rw [hs.mask] at h
    have := hm.lens H hH i hin h
    rw [hsteps, h]
    simp only [if_true]
    omega
  have hw : ∀ H, c.horizon = some H → wsum s.mask s.episodeSteps c.n + cnt s.mask c.n ≤
      cnt (fun i => (row i).last && s.mask i) c.n * H
        + wsum (fun i => !s'.last i && s'.mask i) s'.episodeSteps c.n := by
    intro H hH
    have h1 := wsum_succ s.mask s.episodeSteps c.n
    rw [← hs.episodeSteps, wsum_split s.mask s'.last] at h1
    have h2 := wsum_le (fun i => s'.last i && s.mask i) s'.episodeSteps H c.n (by
      intro i hin h
      simp only [Bool.and_eq_true] at h
      exact hlens H hH i hin (by rw [hs.mask]; exact h.2))
    rw [hs.mask]
    have h3 : cnt (fun i => s'.last i && s.mask i) c.n = cnt (fun i => (row i).last && s.mask i) c.n := by
      rw [hs.last]
    rw [h3] at h2
    omega
  constructor
  · rw [hs.running, hs.mask]; exact hm.run
  · exact hsub
  · rw [hs.mask]; exact hm.pos
  · rw [hs.mask]; exact hm.all
  · intro i hin h
    rw [hs.mask] at h
    rw [hsteps, h]
    simp [hm.idle i hin h]
  · intro ne hne
    have := hm.total ne hne
    rw [hs.totE]; omega
  · intro k hk
    have := hm.fit k hk
    rw [hs.curE]; omega
  · intro h; rw [hs.curE, hs.totE, hm.same h]
  · intro H hH i hin h1 h2
    rw [hlast, hs.rowLast, lastRule.eq_def, hH] at h2
    simp at h2
    exact h2.2
  · intro H hH
    have := hm.hor H hH
    have := hw H hH
    rw [hs.totS, hs.totE, hm.run, Nat.add_mul]
    omega
  · intro H hH
    have := hm.horCur H hH
    have := hw H hH
    rw [hs.curS, hs.curE, hm.run, Nat.add_mul]
    omega
  · rw [hs.log, hs.totS, ← hm.logS, hm.run]
    simp [steps]
  · rw [hs.log, hs.totE, ← hm.logE]
    simp only [episodes, List.map_append, List.map_cons, List.map_nil, List.sum_append, List.sum_cons, List.sum_nil,
      Nat.add_zero]
    congr 1
    exact cnt_congr (fun i _ => by rw [Bool.and_comm])
  · have := hm.logLen
    have := hm.pos
    rw [hs.log, hs.totS, hm.run]
    simp only [List.length_append, List.length_cons, List.length_nil]
    omega

theorem fitPart_inv (sys : Sys W X A R P T) (c : Cfg) (cap : Nat) (s : St W X A R P T) (hg : Good c) (hp : Post c s) :
    Inv c (fitPart sys c cap s) := by
  unfold fitPart
  split
  · rename_i hfit
    rcases hk : c.perFitEps with _ | k
    · -- fit after a number of steps: flags unchanged
      simp only [afterFit, hk]
      constructor
      · exact Or.inr ⟨hp.run, hp.sub, hp.pos, hp.all, hp.idle⟩
      · intro ne hne; simp only []; rw [hp.run]; exact hp.total ne hne
      · intro k' hk'; simp [hk] at hk'
      · intro _ k' hk'; simp [hk] at hk'
      · intro h; simp [fitRequired, h] at hfit
      · intro h k' hk'; simp only []; omega
      · simp only []; rw [hp.run]; exact hp.lens
      · simp only []; rw [hp.run]; exact hp.hor
      · intro H hH; simp
      · exact hp.logS
      · exact hp.logE
      · exact hp.logLen
    · -- fit after a number of episodes: no episode is running
      have hsteps : c.perFitSteps = none := by
        rcases hg.oneFit with h | h
        · exact h
        · simp [hk] at h
      have hcur : k ≤ s.curE := by simpa [fitRequired, hk, hsteps, Bool.and_eq_true] using (by
        simp only [fitRequired, hsteps, hk, Bool.and_eq_true] at hfit; exact hfit.2 : decide (k ≤ s.curE) = true)
      have hmid : midway c.n s.mask s.last = 0 := by have := hp.fit k hk; omega
      have hw : wsum (fun i => !s.last i && s.mask i) s.episodeSteps c.n = 0 := wsum_none _ hmid
      simp only [afterFit, hk]
      have hmid' : ∀ r : Nat → Bool, midway c.n r (fun _ => true) = 0 := by
        intro r; unfold midway
        rw [cnt_congr (g := fun _ => false) (fun i _ => by simp), cnt_false]
      constructor
      · exact Or.inl ⟨fun _ _ => rfl, fun _ _ => rfl⟩
      · intro ne hne
        have := hp.total ne hne
        simp only [hmid']; omega
      · intro k' _; simp only [hmid']; omega
      · intro _ k' hk'; simp only []; exact hg.fitPos k' hk'
      · intro h; simp [fitRequired, h] at hfit
      · intro h k' hk'; simp [hsteps] at hk'
      · intro H hH i hin h; simp at h
      · intro H hH
        have := hp.hor H hH
        simp only []; omega
      · intro H hH; simp
      · exact hp.logS
      · exact hp.logE
      · exact hp.logLen
  · rename_i hfit
    constructor
    · exact Or.inr ⟨hp.run, hp.sub, hp.pos, hp.all, hp.idle⟩
    · intro ne hne; rw [hp.run]; exact hp.total ne hne
    · intro k hk; rw [hp.run]; exact hp.fit k hk
    · intro hl k hk
      have hsteps : c.perFitSteps = none := by
        rcases hg.oneFit with h | h
        · exact h
        · simp [hk] at h
      simp [fitRequired, hl, hsteps, hk] at hfit
      omega
    · exact hp.same
    · intro hl k hk
      simp [fitRequired, hl, hk] at hfit
      omega
    · rw [hp.run]; exact hp.lens
    · rw [hp.run]; exact hp.hor
    · rw [hp.run]; exact hp.horCur
    · exact hp.logS
    · exact hp.logE
    · exact hp.logLen

theorem fitPart_counts (sys : Sys W X A R P T) (c : Cfg) (cap : Nat) (s : St W X A R P T) :
    (fitPart sys c cap s).totS = s.totS ∧ (fitPart sys c cap s).totE = s.totE ∧
      (fitPart sys c cap s).log = s.log := by
  unfold fitPart afterFit
  cases c.perFitEps <;> split <;> simp

theorem start_inv (c : Cfg) (hg : Good c) (w : W) (x0 : Nat → X) (p0 : Nat → P) :
    Inv c (start w x0 p0 : St W X A R P T) := by
  have hmid : ∀ r : Nat → Bool, midway c.n r (fun _ => true) = 0 := by
    intro r; unfold midway
    rw [cnt_congr (g := fun _ => false) (fun i _ => by simp), cnt_false]
  constructor
  · exact Or.inl ⟨fun _ _ => rfl, fun _ _ => rfl⟩
  · intro ne _; simp only [start, hmid]; omega
  · intro k _; simp only [start, hmid]; omega
  · intro _ k hk; exact hg.fitPos k hk
  · intro _; rfl
  · intro _ k _; simp only [start]; omega
  · intro H hH i hin h; simp [start] at h
  · intro H hH; simp [start]
  · intro H hH; simp [start]
  · rfl
  · rfl
  · exact Nat.le_refl _

/-- One iteration. -/
theorem iter_inv (sys : Sys W X A R P T) (c : Cfg) (cap : Nat) (s : St W X A R P T) (hg : Good c) (hi : Inv c s)
    (hm : moveRequired c s = true)
    (hcap : ∀ s1 : St W X A R P T, Mid c s1 → Begun c s s1 → s.data.length < cap) :
    ∃ s1 s2 row, Mid c s1 ∧ Begun c s s1 ∧ Stepped c s1 s2 row ∧ Post c s2 ∧
      iter sys c cap s = .ok (fitPart sys c cap s2) ∧ Inv c (fitPart sys c cap s2) := by
  obtain ⟨s1, h1, h2, h3⟩ := resetPart_inv sys c s hg hi hm
  have hlen : s1.data.length < cap := by rw [h3.data]; exact hcap s1 h2 h3
  obtain ⟨s2, h4, row, h5⟩ := stepPart_ok sys c cap s1 hlen (by have := hg.pos; omega)
  have h6 := post_of_stepped hg h2 h5
  refine ⟨s1, s2, row, h2, h3, h5, h6, ?_, fitPart_inv sys c cap s2 hg h6⟩
  simp [iter, h1, h4]

end Verif.Vector
