import Verif.Vector.Lemmas3
import Mathlib.Tactic.Ring

namespace Verif.Vector

open Verif.Dataset (Row setLast closeEnd)

variable {W X A R P T : Type}

/-- Runs in which no fit leaves transitions behind. -/
def Clean (c : Cfg) : Prop :=
  c.learning = false ∨ c.perFitSteps = none ∨
    ∃ k, c.perFitSteps = some k ∧ 0 < k ∧ c.n ∣ k ∧ c.nEpisodes = none

structure Del (c : Cfg) (s : St W X A R P T) : Prop where
  data : s.data = rowsOf (between s.log s.fits.length)
  masks : s.masks = masksOf (between s.log s.fits.length)
  tags : ∀ e ∈ s.log, e.2.2 ≤ s.fits.length
  stops : ∀ f, StopsAtEnd c.n (between s.log f)
  tail : ∀ e, (between s.log s.fits.length).getLast? = some e → e.1 = s.running ∧ ∀ i, (e.2.1 i).last = s.last i
  done : ∀ f < s.fits.length, ∃ b, s.fits[f]? = some b ∧ b.1 = noPolicyStates (blocks c.n (between s.log f))
  lenS : s.data.length ≤ s.curS
  mult : c.nEpisodes = none → c.perFitEps = none → s.curS = c.n * s.data.length
  full : c.nEpisodes = none → c.perFitEps = none → ∀ m ∈ s.masks, ∀ i < c.n, m i = true
  sorted : (s.log.map (fun e => e.2.2)).Pairwise (· ≤ ·)
  curE : episodes c.n (between s.log s.fits.length) = s.curE
  curS : steps c.n (between s.log s.fits.length) = s.curS
  sizeE : ∀ f < s.fits.length, ∀ k, c.perFitEps = some k → episodes c.n (between s.log f) = k
  sizeS : ∀ f < s.fits.length, ∀ k, c.perFitSteps = some k → steps c.n (between s.log f) = k

theorem between_append_same (h : History X A R P) (m : Nat → Bool) (row : Nat → Row X A R P) (k : Nat) :
    between (h ++ [(m, row, k)]) k = between h k ++ [(m, row, k)] := by
  simp [between]

theorem between_append_other (h : History X A R P) (m : Nat → Bool) (row : Nat → Row X A R P) {k j : Nat}
    (hne : k ≠ j) : between (h ++ [(m, row, k)]) j = between h j := by
  simp [between, hne]

theorem stops_append {n : Nat} {h : History X A R P} {e' : (Nat → Bool) × (Nat → Row X A R P) × Nat}
    (hs : StopsAtEnd n h)
    (hl : ∀ e, h.getLast? = some e → ∀ i < n, e.1 i = true → e'.1 i = false → (e.2.1 i).last = true) :
    StopsAtEnd n (h ++ [e']) := by
  intro t a b ha hb
  have ht : t + 1 < (h ++ [e']).length := (List.getElem?_eq_some_iff.mp hb).1
  simp only [List.length_append, List.length_cons, List.length_nil] at ht
  by_cases h1 : t + 1 < h.length
  · rw [List.getElem?_append_left h1] at hb
    rw [List.getElem?_append_left (by omega)] at ha
    exact hs t a b ha hb
  · have h2 : t + 1 = h.length := by omega
    rw [List.getElem?_append_right (by omega)] at hb
    simp only [h2, Nat.sub_self, List.getElem?_cons_zero, Option.some.injEq] at hb
    subst hb
    rw [List.getElem?_append_left (by omega)] at ha
    refine hl a ?_
    rw [List.getLast?_eq_getElem?, ← ha]
    congr 1
    omega

theorem step_del {c : Cfg} {s s1 s2 : St W X A R P T} {row : Nat → Row X A R P} (hd : Del c s)
    (hm : Mid c s1) (hb : Begun c s s1) (hs : Stepped c s1 s2 row) : Del c s2 := by
  have hlog : s2.log = s.log ++ [(s1.mask, row, s.fits.length)] := by rw [hs.log, hb.log, hb.fits]
  have hfits : s2.fits = s.fits := by rw [hs.fits, hb.fits]
  have hcur : between s2.log s2.fits.length =
      between s.log s.fits.length ++ [(s1.mask, row, s.fits.length)] := by
    rw [hlog, hfits, between_append_same]
  constructor
  · rw [hs.data, hb.data, hcur, hd.data]; simp [rowsOf]
  · rw [hs.masks, hb.masks, hcur, hd.masks]; simp [masksOf]
  · intro e he
    rw [hlog, List.mem_append] at he
    rw [hfits]
    rcases he with he | he
    · exact hd.tags e he
    · simp only [List.mem_singleton] at he; rw [he]
  · intro f
    by_cases hf : s.fits.length = f
    · subst hf
      rw [hlog, between_append_same]
      apply stops_append (hd.stops _)
      intro e he i hin h1 h2
      obtain ⟨h3, h4⟩ := hd.tail e he
      rw [h3] at h1
      rcases Bool.eq_false_or_eq_true (s.last i) with hl | hl
      · rw [h4, hl]
      · have := hb.keep i hin h1 hl
        simp only [] at h2
        simp [this] at h2
    · rw [hlog, between_append_other _ _ _ hf]
      exact hd.stops f
  · intro e he
    rw [hcur, List.getLast?_concat, Option.some.injEq] at he
    subst he
    refine ⟨by rw [hs.running, hm.run], ?_⟩
    intro i
    rw [hs.last]
  · intro f hf
    rw [hfits] at hf ⊢
    obtain ⟨b, h1, h2⟩ := hd.done f hf
    refine ⟨b, h1, ?_⟩
    rw [hlog, between_append_other _ _ _ (by omega)]
    exact h2
  · have h1 := hd.lenS
    have h2 := hm.pos
    rw [hs.data, hs.curS, hb.data, hb.curS, hm.run]
    simp only [List.length_append, List.length_cons, List.length_nil]
    omega
  · intro h1 h2
    have h3 := hd.mult h1 h2
    have h4 : cnt s1.mask c.n = c.n := by
      rw [cnt_congr (g := fun _ => true) (hm.all h1 h2), cnt_true]
    rw [hs.data, hs.curS, hb.data, hb.curS, hm.run, h4, h3]
    simp only [List.length_append, List.length_cons, List.length_nil]
    ring
  · intro h1 h2 m hmem
    rw [hs.masks, hb.masks, List.mem_append] at hmem
    rcases hmem with hmem | hmem
    · exact hd.full h1 h2 m hmem
    · simp only [List.mem_singleton] at hmem
      rw [hmem]
      exact hm.all h1 h2
  · rw [hlog, List.map_append, List.pairwise_append]
    refine ⟨hd.sorted, by simp, ?_⟩
    intro a ha b hb'
    simp only [List.map_cons, List.map_nil, List.mem_singleton] at hb'
    obtain ⟨e, he, rfl⟩ := List.mem_map.mp ha
    rw [hb']
    exact hd.tags e he
  · rw [hcur, hs.curE, hb.curE, ← hd.curE]
    simp only [episodes, List.map_append, List.map_cons, List.map_nil, List.sum_append, List.sum_cons, List.sum_nil,
      Nat.add_zero]
    congr 1
    exact cnt_congr (fun i _ => by rw [Bool.and_comm])
  · rw [hcur, hs.curS, hb.curS, ← hd.curS, hm.run]
    simp [steps]
  · intro f hf k hk
    rw [hfits] at hf
    rw [hlog, between_append_other _ _ _ (by omega)]
    exact hd.sizeE f hf k hk
  · intro f hf k hk
    rw [hfits] at hf
    rw [hlog, between_append_other _ _ _ (by omega)]
    exact hd.sizeS f hf k hk

theorem flatten_length_map (l : List Nat) (f : Nat → List (Row X A R P)) :
    ((l.map f).flatten).length = (l.map (fun i => (f i).length)).sum := by
  induction l with
  | nil => rfl
  | cons a l ih => simp [ih]

theorem packEnv_length_le (data : List (Nat → Row X A R P)) (masks : List (Nat → Bool)) (i : Nat) :
    (packEnv data masks i).length ≤ data.length := by
  unfold packEnv
  refine Nat.le_trans (List.length_filterMap_le _ _) ?_
  simp only [List.length_zip]
  omega

theorem pack_length_le (data : List (Nat → Row X A R P)) (masks : List (Nat → Bool)) (n : Nat) :
    (pack data masks n).length ≤ n * data.length := by
  unfold pack
  rw [flatten_length_map]
  induction n with
  | zero => simp
  | succ n ih =>
    rw [List.range_succ, List.map_append, List.sum_append]
    have := packEnv_length_le data masks n
    simp only [List.map_cons, List.map_nil, List.sum_cons, List.sum_nil, Nat.add_zero]
    rw [Nat.add_mul]
    omega

theorem maskSum_full (n : Nat) (masks : List (Nat → Bool)) (h : ∀ m ∈ masks, ∀ i < n, m i = true) :
    maskSum n masks = n * masks.length := by
  induction masks with
  | nil => simp [maskSum]
  | cons m ms ih =>
    have h1 : cnt m n = n := by
      rw [cnt_congr (g := fun _ => true) (fun i hi => h m (by simp) i hi), cnt_true]
    have h2 := ih (fun m' hm' => h m' (by simp [hm']))
    simp only [maskSum, List.map_cons, List.sum_cons, List.length_cons, h1] at h2 ⊢
    rw [h2, Nat.mul_add]
    omega

theorem closeLast_length (data : List (Nat → Row X A R P)) : (closeLast data).length = data.length := by
  unfold closeLast
  split
  · rename_i r hr
    have : data ≠ [] := by rintro rfl; simp at hr
    have := List.length_pos_iff.mpr this
    simp only [List.length_append, List.length_dropLast, List.length_cons, List.length_nil]
    omega
  · rfl

theorem between_empty {h : History X A R P} {k : Nat} (ht : ∀ e ∈ h, e.2.2 ≤ k) : between h (k + 1) = [] := by
  simp only [between, List.filter_eq_nil_iff]
  intro e he
  have := ht e he
  simp
  omega

/-- The fit in runs that leave nothing behind. -/
theorem fit_del (sys : Sys W X A R P T) (c : Cfg) (cap : Nat) (s : St W X A R P T) (hg : Good c) (hc : Clean c)
    (hp : Post c s) (hd : Del c s) (hne : s.data ≠ [])
    (hprev : ∀ k, c.learning = true → c.perFitSteps = some k → 0 < k → s.curS < k + c.n) :
    Del c (fitPart sys c cap s) := by
  unfold fitPart
  split
  · rename_i hfit
    have hlearn : c.learning = true := by
      rcases Bool.eq_false_or_eq_true c.learning with h | h
      · exact h
      · simp [fitRequired, h] at hfit
    have hlen : s.data.length ≠ 0 := by simpa using hne
    -- the delivered rows and the rows that remain
    have hrows : ∃ th, (flatten c.n c.perFitSteps s.data s.masks s.thetas).1 =
        some (noPolicyStates (blocks c.n (between s.log s.fits.length)), th) ∧
        (∀ k, c.perFitSteps = some k → s.curS = k) ∧
        clear c.n cap (sys.garbage (s.fits.length + 1)) c.perFitSteps
          (flatten c.n c.perFitSteps s.data s.masks s.thetas).2 s.masks = ([], []) := by
      have hpack : pack (closeLast s.data) s.masks c.n = blocks c.n (between s.log s.fits.length) := by
        rw [hd.data, hd.masks]
        exact pack_close c.n _ (hd.stops _)
      rcases hk : c.perFitSteps with _ | k
      · refine ⟨((List.range c.n).map s.thetas).flatten, ?_, ?_⟩
        · simp [flatten, hlen, hpack]
          rfl
        · exact ⟨fun k hk' => by simp at hk', by simp [clear]⟩
      · have hclean : 0 < k ∧ c.n ∣ k ∧ c.nEpisodes = none := by
          rcases hc with h | h | ⟨k', h1, h2, h3, h4⟩
          · simp [h] at hlearn
          · simp [h] at hk
          · rw [hk, Option.some.injEq] at h1
            subst h1
            exact ⟨h2, h3, h4⟩
        obtain ⟨h0, hdvd, hnE⟩ := hclean
        have hpf : c.perFitEps = none := by
          rcases hg.oneFit with h | h
          · simp [hk] at h
          · exact h
        have hmult := hd.mult hnE hpf
        have hge : k ≤ s.curS := by
          simpa [fitRequired, hlearn, hk] using hfit
        have hlt := hprev k hlearn hk h0
        have heq : s.curS = k := by
          obtain ⟨a, ha⟩ := hdvd
          have hpos : 0 < c.n := by have := hg.pos; omega
          rw [hmult, ha] at hge hlt ⊢
          have h1 : a ≤ s.data.length := Nat.le_of_mul_le_mul_left hge hpos
          have h2 : s.data.length < a + 1 := by
            have : c.n * s.data.length < c.n * (a + 1) := by rw [Nat.mul_add]; omega
            exact Nat.lt_of_mul_lt_mul_left this
          congr 1
          omega
        have hsum : maskSum c.n s.masks = k := by
          rw [maskSum_full _ _ (hd.full hnE hpf), ← heq, hmult, hd.data, hd.masks]
          simp [rowsOf, masksOf]
        have htake : (pack (closeLast s.data) s.masks c.n).take k = pack (closeLast s.data) s.masks c.n := by
          apply List.take_of_length_le
          have := pack_length_le (closeLast s.data) s.masks c.n
          rw [closeLast_length, ← hmult, heq] at this
          exact this
        refine ⟨((List.range c.n).map s.thetas).flatten, ?_, ?_⟩
        · rw [hpack] at htake
          simp only [flatten, hlen, if_false, hpack, htake]
          rfl
        · refine ⟨fun k' hk' => ?_, by simp [clear, residual, hsum]⟩
          rw [Option.some.injEq] at hk'
          omega
    obtain ⟨th, hr1, hsz, hr2⟩ := hrows
    have hszE : ∀ k, c.perFitEps = some k → s.curE = k := by
      intro k hk
      have hsteps : c.perFitSteps = none := by
        rcases hg.oneFit with h | h
        · exact h
        · simp [hk] at h
      have hcur : k ≤ s.curE := by
        simp only [fitRequired, hsteps, hk, Bool.and_eq_true, decide_eq_true_eq] at hfit; exact hfit.2
      have := hp.fit k hk
      omega
    have hempty : between s.log (s.fits.length + 1) = [] := between_empty hd.tags
    have hcommon : ∀ s' : St W X A R P T, s'.log = s.log → s'.data = [] → s'.masks = [] → s'.curS = 0 → s'.curE = 0 →
        s'.fits = s.fits ++ [(noPolicyStates (blocks c.n (between s.log s.fits.length)), th)] → Del c s' := by
      intro s' e1 e2 e3 e5 e7 e4
      have e6 : s'.fits.length = s.fits.length + 1 := by rw [e4]; simp
      constructor
      · rw [e1, e2, e6, hempty]; rfl
      · rw [e1, e3, e6, hempty]; rfl
      · intro e he
        rw [e1] at he
        have := hd.tags e he
        omega
      · rw [e1]; exact hd.stops
      · intro e he
        rw [e1, e6, hempty] at he
        simp at he
      · intro f hf
        rw [e6] at hf
        rw [e1, e4]
        by_cases hf' : f < s.fits.length
        · obtain ⟨b, h1, h2⟩ := hd.done f hf'
          exact ⟨b, by rw [List.getElem?_append_left hf']; exact h1, h2⟩
        · have : f = s.fits.length := by omega
          subst this
          exact ⟨(noPolicyStates (blocks c.n (between s.log s.fits.length)), th), by simp, rfl⟩
      · rw [e2]; simp
      · intro _ _; rw [e5, e2]; simp
      · intro _ _ m hm; rw [e3] at hm; simp at hm
      · rw [e1]; exact hd.sorted
      · rw [e1, e6, hempty, e7]; rfl
      · rw [e1, e6, hempty, e5]; rfl
      · intro f hf k hk
        rw [e6] at hf
        rw [e1]
        by_cases hf' : f < s.fits.length
        · exact hd.sizeE f hf' k hk
        · have : f = s.fits.length := by omega
          subst this
          rw [hd.curE, hszE k hk]
      · intro f hf k hk
        rw [e6] at hf
        rw [e1]
        by_cases hf' : f < s.fits.length
        · exact hd.sizeS f hf' k hk
        · have : f = s.fits.length := by omega
          subst this
          rw [hd.curS, hsz k hk]
    apply hcommon
    · simp only [afterFit]; split <;> rfl
    · simp only [afterFit]
      split <;> simp [hr2]
    · simp only [afterFit]
      split <;> simp [hr2]
    · simp only [afterFit]; split <;> rfl
    · simp only [afterFit]; split <;> rfl
    · simp only [afterFit]
      split <;> simp [hr1]
  · exact hd

/-- The trajectories of the environments. -/
structure Traj (c : Cfg) (s : St W X A R P T) : Prop where
  chain : ∀ t e e', s.log[t]? = some e → s.log[t + 1]? = some e' → ∀ i < c.n, e.1 i = true → (e.2.1 i).last = false →
    e'.1 i = true ∧ (e'.2.1 i).state = (e.2.1 i).nextState
  tail : ∀ e, s.log.getLast? = some e → ∀ i < c.n, e.1 i = true → (e.2.1 i).last = false →
    s.last i = false ∧ s.running i = true ∧ s.state i = (e.2.1 i).nextState
  env : s.state = s.envState

theorem step_traj {c : Cfg} {s s1 s2 : St W X A R P T} {row : Nat → Row X A R P} (ht : Traj c s)
    (hm : Mid c s1) (hb : Begun c s s1) (hs : Stepped c s1 s2 row) : Traj c s2 := by
  have hlog : s2.log = s.log ++ [(s1.mask, row, s.fits.length)] := by rw [hs.log, hb.log, hb.fits]
  constructor
  · rw [hlog]
    intro t a b ha hb'
    have hlen : t + 1 < (s.log ++ [(s1.mask, row, s.fits.length)]).length := (List.getElem?_eq_some_iff.mp hb').1
    simp only [List.length_append, List.length_cons, List.length_nil] at hlen
    by_cases h1 : t + 1 < s.log.length
    · rw [List.getElem?_append_left h1] at hb'
      rw [List.getElem?_append_left (by omega)] at ha
      exact ht.chain t a b ha hb'
    · rw [List.getElem?_append_right (by omega)] at hb'
      have h2 : t + 1 = s.log.length := by omega
      simp only [h2, Nat.sub_self, List.getElem?_cons_zero, Option.some.injEq] at hb'
      subst hb'
      rw [List.getElem?_append_left (by omega)] at ha
      have hlast : s.log.getLast? = some a := by
        rw [List.getLast?_eq_getElem?, ← ha]; congr 1; omega
      intro i hin h3 h4
      obtain ⟨h5, h6, h7⟩ := ht.tail a hlast i hin h3 h4
      refine ⟨hb.keep i hin h6 h5, ?_⟩
      simp only []
      rw [hs.rowState, hb.stay i hin h5 (by rw [ht.env]), h7]
  · intro e he i hin h1 h2
    rw [hlog, List.getLast?_concat, Option.some.injEq] at he
    subst he
    refine ⟨by rw [hs.last]; exact h2, by rw [hs.running, hm.run]; exact h1, by rw [hs.state]⟩
  · exact hs.envState.symm

theorem fit_traj (sys : Sys W X A R P T) (c : Cfg) (cap : Nat) (s : St W X A R P T) (hg : Good c) (hp : Post c s)
    (ht : Traj c s) : Traj c (fitPart sys c cap s) := by
  unfold fitPart
  split
  · rename_i hfit
    rcases hk : c.perFitEps with _ | k
    · simp only [afterFit, hk]
      exact ⟨ht.chain, ht.tail, ht.env⟩
    · have hsteps : c.perFitSteps = none := by
        rcases hg.oneFit with h | h
        · exact h
        · simp [hk] at h
      have hcur : k ≤ s.curE := by
        simp only [fitRequired, hsteps, hk, Bool.and_eq_true, decide_eq_true_eq] at hfit; exact hfit.2
      have hmid : midway c.n s.mask s.last = 0 := by have := hp.fit k hk; omega
      simp only [afterFit, hk]
      refine ⟨ht.chain, ?_, ht.env⟩
      intro e he i hin h1 h2
      obtain ⟨h3, h4, _⟩ := ht.tail e he i hin h1 h2
      have := cnt_eq_zero hmid i hin
      rw [hp.run] at h4
      simp [h3, h4] at this
  · exact ht

theorem start_del (c : Cfg) (w : W) (x0 : Nat → X) (p0 : Nat → P) : Del c (start w x0 p0 : St W X A R P T) := by
  constructor
  · rfl
  · rfl
  · intro e he; simp [start] at he
  · intro f t a b ha; simp [start, between] at ha
  · intro e he; simp [start, between] at he
  · intro f hf; simp [start] at hf
  · simp [start]
  · intro _ _; simp [start]
  · intro _ _ m hm; simp [start] at hm
  · simp [start]
  · simp [start, between, episodes]
  · simp [start, between, steps]
  · intro f hf; simp [start] at hf
  · intro f hf; simp [start] at hf

theorem start_traj (c : Cfg) (w : W) (x0 : Nat → X) (p0 : Nat → P) : Traj c (start w x0 p0 : St W X A R P T) := by
  constructor
  · intro t a b ha; simp [start] at ha
  · intro e he; simp [start] at he
  · rfl

/-- All the invariants. -/
structure All (c : Cfg) (s : St W X A R P T) : Prop where
  inv : Inv c s
  del : Del c s
  traj : Traj c s

/-- Rows allocated for the run are enough. -/
def Room (c : Cfg) (cap : Nat) : Prop :=
  (∃ H ne, c.learning = false ∧ c.horizon = some H ∧ c.nEpisodes = some ne ∧ H * ne ≤ cap) ∨
  (∃ ns, c.learning = false ∧ c.nSteps = some ns ∧ ns ≤ cap) ∨
  (∃ H k, c.learning = true ∧ c.horizon = some H ∧ c.perFitEps = some k ∧ H * k ≤ cap) ∨
  (∃ k, c.learning = true ∧ c.perFitSteps = some k ∧ 0 < k ∧ k ≤ cap)

theorem bound_lt {tot totE m w H N : Nat} (h1 : tot ≤ totE * H + w) (h2 : w < m * H) (h3 : totE + m ≤ N) :
    tot < H * N := by
  have h4 : (totE + m) * H ≤ N * H := Nat.mul_le_mul_right H h3
  rw [Nat.add_mul] at h4
  rw [Nat.mul_comm H N]
  omega

theorem room_mid {c : Cfg} {cap : Nat} {s s1 : St W X A R P T} (hr : Room c cap) (ha : All c s)
    (hmove : moveRequired c s = true)
    (hm : Mid c s1) (hb : Begun c s s1) (hev : c.learning = false → s.curS = s.totS) : s.data.length < cap := by
  have hlen := ha.del.lenS
  rcases hr with ⟨H, ne, hl, hH, hne, hcap⟩ | ⟨ns, hl, hns, hcap⟩ | ⟨H, k, hl, hH, hk, hcap⟩ | ⟨k, hl, hk, h0, hcap⟩
  · have h1 := hm.hor H hH
    have h2 := wsum_lt s1.mask s1.episodeSteps H c.n (hm.lens H hH) hm.pos
    have := bound_lt h1 h2 (hm.total ne hne)
    rw [hb.totS] at this
    have := hev hl
    omega
  · have : s.totS < ns := by simpa [moveRequired, hns] using hmove
    have := hev hl
    omega
  · have h1 := hm.horCur H hH
    have h2 := wsum_lt s1.mask s1.episodeSteps H c.n (hm.lens H hH) hm.pos
    have := bound_lt h1 h2 (hm.fit k hk)
    rw [hb.curS] at this
    omega
  · have := ha.inv.roomS hl k hk
    omega

theorem fitPart_cur (sys : Sys W X A R P T) (c : Cfg) (cap : Nat) (s : St W X A R P T) (h : c.learning = false) :
    fitPart sys c cap s = s := by
  simp [fitPart, fitRequired, h]

/-- One iteration of a run in which no fit leaves transitions behind. -/
theorem iter_all (sys : Sys W X A R P T) (c : Cfg) (cap : Nat) (s : St W X A R P T) (hg : Good c) (hc : Clean c)
    (hr : Room c cap) (ha : All c s) (hev : c.learning = false → s.curS = s.totS ∧ s.fits = [])
    (hmove : moveRequired c s = true) :
    ∃ s', iter sys c cap s = .ok s' ∧ All c s' ∧ (c.learning = false → s'.curS = s'.totS ∧ s'.fits = []) ∧
      s'.log.length = s.log.length + 1 ∧ s'.totS ≤ s.totS + c.n := by
  obtain ⟨s1, s2, row, hm, hb, hs, hp, hi, hinv⟩ := iter_inv sys c cap s hg ha.inv hmove
    (fun s1 hm hb => room_mid hr ha hmove hm hb (fun h => (hev h).1))
  have hcounts := fitPart_counts sys c cap s2
  have hd2 := step_del ha.del hm hb hs
  have hcle := cnt_le s1.mask c.n
  refine ⟨_, hi, ⟨hinv, ?_, ?_⟩, ?_, ?_, ?_⟩
  · apply fit_del sys c cap s2 hg hc hp hd2
    · rw [hs.data]; simp
    · intro k hl hk h0
      have := ha.inv.roomS hl k hk
      rw [hs.curS, hb.curS, hm.run]
      omega
  · exact fit_traj sys c cap s2 hg hp (step_traj ha.traj hm hb hs)
  · intro hl
    rw [fitPart_cur sys c cap s2 hl]
    have := hev hl
    rw [hs.curS, hs.totS, hs.fits, hb.curS, hb.totS, hb.fits, this.1]
    exact ⟨rfl, this.2⟩
  · rw [hcounts.2.2, hs.log, hb.log]; simp
  · rw [hcounts.1, hs.totS, hb.totS, hm.run]; omega

theorem loop_all (sys : Sys W X A R P T) (c : Cfg) (cap : Nat) (hg : Good c) (hc : Clean c) (hr : Room c cap) :
    ∀ (fuel : Nat) (s : St W X A R P T), All c s → (c.learning = false → s.curS = s.totS ∧ s.fits = []) →
      ∃ b s', loop sys c cap fuel s = .ok (b, s') ∧ All c s' ∧ (c.learning = false → s'.curS = s'.totS ∧ s'.fits = []) ∧
        (b = true → moveRequired c s' = false) ∧ (b = false → s'.log.length = s.log.length + fuel ∧ moveRequired c s' = true) ∧
        (∀ ns, c.nSteps = some ns → s.totS < ns + c.n → s'.totS < ns + c.n)
  | 0, s, ha, hev => by
    refine ⟨_, s, rfl, ha, hev, ?_, ?_, fun _ _ h => h⟩ <;> intro h <;> simpa using h
  | fuel + 1, s, ha, hev => by
    simp only [loop]
    by_cases hmove : moveRequired c s = true
    · obtain ⟨s', h1, h2, h3, h4, hlt⟩ := iter_all sys c cap s hg hc hr ha hev hmove
      obtain ⟨b, s'', h5, h6, h7, h8, h9, h12⟩ := loop_all sys c cap hg hc hr fuel s' h2 h3
      refine ⟨b, s'', ?_, h6, h7, h8, ?_, ?_⟩
      · simp [hmove, h1, h5]
      · intro hb
        obtain ⟨h10, h11⟩ := h9 hb
        exact ⟨by omega, h11⟩
      · intro ns hns _
        apply h12 ns hns
        have : s.totS < ns := by simpa [moveRequired, hns] using hmove
        omega
    · refine ⟨true, s, by simp [hmove], ha, hev, ?_, ?_, fun _ _ h => h⟩
      · intro _; simpa using hmove
      · intro h; simp at h

end Verif.Vector
