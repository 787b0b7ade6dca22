/-
Property C57: the gradients of REINFORCE, GPOMDP and eNAC depend on the current batch only. Property C94: what they compute.
-/
import Verif.Search.SpecPG
import Mathlib.Tactic.Ring
import Mathlib.Tactic.Linarith
import Mathlib.Tactic.FieldSimp
import Mathlib.Tactic.NormNum
import Mathlib.Tactic.FinCases
import Mathlib.Data.List.GetD

namespace Verif.Search

open Matrix

variable {S A O : Type} {d k : ℕ}

/-! ### Splitting a dataset into episodes -/

/-- Every dataset can be split into complete episodes and an unfinished one. -/
theorem splits_exists (D : List (Step S A)) : ∃ eps tail, Splits D eps tail := by
  induction D using List.reverseRecOn with
  | nil => exact ⟨[], [], by simp [Splits]⟩
  | append_singleton D t ih =>
    obtain ⟨eps, tail, h1, h2, h3⟩ := ih
    rcases t.last.eq_false_or_eq_true with hb | hb
    · refine ⟨eps ++ [tail ++ [t]], [], by simp [h1], ?_, by simp⟩
      intro e he
      rcases List.mem_append.1 he with he | he
      · exact h2 e he
      · rw [List.mem_singleton.1 he]; exact ⟨tail, t, rfl, hb, h3⟩
    · refine ⟨eps, tail ++ [t], by simp [h1], h2, ?_⟩
      intro x hx
      rcases List.mem_append.1 hx with hx | hx
      · exact h3 x hx
      · rw [List.mem_singleton.1 hx]; exact hb

theorem ret_append (γ : ℝ) (b c : List (Step S A)) : ret γ (b ++ c) = ret γ b + γ ^ b.length * ret γ c := by
  induction b with
  | nil => simp [ret]
  | cons t b ih => simp only [List.cons_append, ret, ih, List.length_cons]; ring

theorem scoreSum_append (score : S → A → Vec d) (b c : List (Step S A)) :
    scoreSum score (b ++ c) = scoreSum score b + scoreSum score c := by simp [scoreSum]

theorem discScore_append (γ : ℝ) (score : S → A → Vec d) (b c : List (Step S A)) :
    discScore γ score (b ++ c) = discScore γ score b + γ ^ b.length • discScore γ score c := by
  induction b with
  | nil => simp [discScore]
  | cons t b ih =>
    simp only [List.cons_append, discScore, ih, List.length_cons]
    funext j
    simp only [Pi.add_apply, Pi.smul_apply, smul_eq_mul]
    ring

/-! ### The loop over the dataset, for any algorithm -/

section
variable {σ : Type} (h : Hooks σ S A d) (score : S → A → Vec d) (γ : ℝ)

/-- The attributes of the algorithm after some steps without the end of an episode, from a given discount. -/
def stepsFrom (h : Hooks σ S A d) (score : S → A → Vec d) (γ : ℝ) : ℝ → σ → List (Step S A) → σ
  | _, s, [] => s
  | df, s, t :: l => stepsFrom h score γ (df * γ) (h.stepUpdate score df s t.state t.action t.reward) l

theorem stepsFrom_append (df : ℝ) (s : σ) (b c : List (Step S A)) :
    stepsFrom h score γ df s (b ++ c) = stepsFrom h score γ (df * γ ^ b.length) (stepsFrom h score γ df s b) c := by
  induction b generalizing df s with
  | nil => simp [stepsFrom]
  | cons t b ih =>
    simp only [List.cons_append, stepsFrom, ih, List.length_cons]
    rw [pow_succ', mul_assoc]

theorem loop_body (c : Loop σ) (b : List (Step S A)) (hb : ∀ x ∈ b, x.last = false) :
    b.foldl (sampleStep h score γ) c =
      { alg := stepsFrom h score γ c.df c.alg b, J := c.J, jEp := c.jEp + c.df * ret γ b, df := c.df * γ ^ b.length } := by
  induction b generalizing c with
  | nil => simp [stepsFrom, ret]
  | cons t b ih =>
    rw [List.foldl_cons, ih _ (fun x hx => hb x (List.mem_cons_of_mem _ hx))]
    have ht := hb t List.mem_cons_self
    simp only [sampleStep, ht, stepsFrom, ret, List.length_cons, Bool.false_eq_true, if_false, pow_succ']
    congr 1 <;> ring

theorem loop_episode (s : σ) (J : List ℝ) (e : List (Step S A)) (he : IsEpisode e) :
    e.foldl (sampleStep h score γ) { alg := s, J := J, jEp := 0, df := 1 } =
      { alg := h.init (h.episodeEnd (ret γ e) (stepsFrom h score γ 1 s e)), J := J ++ [ret γ e], jEp := 0, df := 1 } := by
  obtain ⟨b, t, rfl, ht, hb⟩ := he
  rw [List.foldl_append, loop_body h score γ _ b hb]
  simp only [List.foldl_cons, List.foldl_nil, sampleStep, ht, if_true, stepsFrom_append, stepsFrom, ret_append, ret]
  simp

/-- One complete episode, as seen by the attributes of the algorithm. -/
def episodeOf (h : Hooks σ S A d) (score : S → A → Vec d) (γ : ℝ) (s : σ) (e : List (Step S A)) : σ :=
  h.init (h.episodeEnd (ret γ e) (stepsFrom h score γ 1 s e))

theorem loop_episodes (s : σ) (J : List ℝ) (eps : List (List (Step S A))) (he : ∀ e ∈ eps, IsEpisode e) :
    eps.flatten.foldl (sampleStep h score γ) { alg := s, J := J, jEp := 0, df := 1 } =
      { alg := eps.foldl (episodeOf h score γ) s, J := J ++ eps.map (ret γ), jEp := 0, df := 1 } := by
  induction eps generalizing s J with
  | nil => simp
  | cons e eps ih =>
    rw [List.flatten_cons, List.foldl_append, loop_episode h score γ s J e (he e List.mem_cons_self),
      ih _ _ (fun x hx => he x (List.mem_cons_of_mem _ hx))]
    simp [episodeOf]

theorem parse_splits (s : σ) {D : List (Step S A)} {eps : List (List (Step S A))} {tail : List (Step S A)}
    (hD : Splits D eps tail) :
    (parseDataset h score γ s D).alg = stepsFrom h score γ 1 (eps.foldl (episodeOf h score γ) (h.init s)) tail ∧
    (parseDataset h score γ s D).J = eps.map (ret γ) := by
  obtain ⟨rfl, he, ht⟩ := hD
  rw [parseDataset, List.foldl_append, loop_episodes h score γ _ _ _ he, loop_body h score γ _ _ ht]
  simp

end

/-- How the result of a fit follows from the gradient function. -/
theorem fitsWith_of {σ : Type} (h : Hooks σ S A d) (diffLog : Vec d → S → A → Vec d) (γ : ℝ)
    (opt : O → Vec d → Vec d → O × Vec d) (g : PG σ d O) {D : List (Step S A)} {eps : List (List (Step S A))}
    {tail : List (Step S A)} (hD : Splits D eps tail) (grad : Vec d)
    (hg : 1 < eps.length → (h.grad (eps.map (ret γ)) (stepsFrom h (diffLog g.theta) γ 1
      (eps.foldl (episodeOf h (diffLog g.theta) γ) (h.init g.alg)) tail)).1 = some grad) :
    FitsWith h diffLog γ opt g D eps.length grad := by
  obtain ⟨h1, h2⟩ := parse_splits h (diffLog g.theta) γ g.alg hD
  constructor
  · intro hn
    simp only [pgFit, h1, h2, List.length_map, if_neg (not_lt.2 hn)]
    exact ⟨trivial, trivial⟩
  · intro hn
    simp only [pgFit, h1, h2, List.length_map, if_pos hn]
    have := hg hn
    split
    · rename_i s hs; rw [hs] at this; simp at this
    · rename_i v s hs
      rw [hs] at this
      have hv : v = grad := by simpa using this
      subst hv
      exact ⟨rfl, rfl, rfl⟩

/-- The attributes of the algorithm after a fit that succeeds. -/
theorem alg_of_fit {σ : Type} (h : Hooks σ S A d) (diffLog : Vec d → S → A → Vec d) (γ : ℝ)
    (opt : O → Vec d → Vec d → O × Vec d) (g g' : PG σ d O) {D : List (Step S A)} {eps : List (List (Step S A))}
    {tail : List (Step S A)} (hD : Splits D eps tail) (grad : Vec d) (hf : pgFit h diffLog γ opt g D = (g', some grad)) :
    g'.alg = (h.grad (eps.map (ret γ)) (stepsFrom h (diffLog g.theta) γ 1
      (eps.foldl (episodeOf h (diffLog g.theta) γ) (h.init g.alg)) tail)).2 ∧
    (h.grad (eps.map (ret γ)) (stepsFrom h (diffLog g.theta) γ 1
      (eps.foldl (episodeOf h (diffLog g.theta) γ) (h.init g.alg)) tail)).1 = some grad := by
  obtain ⟨h1, h2⟩ := parse_splits h (diffLog g.theta) γ g.alg hD
  simp only [pgFit, h1, h2] at hf
  split at hf
  · split at hf
    · simp at hf
    · rename_i v s hs
      rw [hs]
      simp only [Prod.mk.injEq, Option.some.injEq] at hf
      rw [← hf.1, hf.2]
      exact ⟨rfl, rfl⟩
  · simp at hf

/-! ### Means and baselines -/

theorem vmean_map {α : Type} (l : List α) (f : α → Vec d) (j : Fin d) : vmean (l.map f) j = average l (fun x => f x j) := by
  simp [vmean, average, Function.comp_def]

theorem zipWith_map_map {α β γ' δ : Type} (l : List α) (f : α → β) (g : α → γ') (F : β → γ' → δ) :
    List.zipWith F (l.map f) (l.map g) = l.map (fun x => F (f x) (g x)) := by
  induction l with
  | nil => rfl
  | cons x l ih => simp [ih]

theorem baselineOf_map {α : Type} (l : List α) (s : α → Vec d) (x : α → ℝ) (num : α → Vec d)
    (hnum : ∀ a ∈ l, ∀ j, num a j = s a j ^ 2 * x a) (j : Fin d) :
    baselineOf (l.map num) (l.map (fun a => fun j => s a j ^ 2)) j = bestBaseline (l.map (fun a => (s a j, x a))) := by
  have hn : vmean (l.map num) j = (l.map (fun a => s a j ^ 2 * x a)).sum / l.length := by
    rw [vmean_map]
    simp only [average]
    congr 2
    exact List.map_congr_left (fun a ha => hnum a ha j)
  simp only [baselineOf, hn, bestBaseline, List.map_map, Function.comp_def, vmean_map, average]
  rcases Nat.eq_zero_or_pos l.length with h0 | h0
  · rw [List.length_eq_zero_iff] at h0
    subst h0
    simp
  · have hl : (l.length : ℝ) ≠ 0 := by positivity
    by_cases hz : (l.map (fun a => s a j ^ 2)).sum = 0
    · simp [hz]
    · rw [if_neg (by simpa [div_eq_zero_iff, hl] using hz), if_neg hz]
      field_simp

/-! ### REINFORCE -/

theorem reinforce_steps (score : S → A → Vec d) (γ df : ℝ) (s : Reinforce d) (b : List (Step S A)) :
    stepsFrom (reinforce S A d) score γ df s b = { s with sumLog := s.sumLog + scoreSum score b } := by
  induction b generalizing df s with
  | nil => simp [stepsFrom, scoreSum]
  | cons t b ih =>
    simp only [stepsFrom, ih]
    simp only [reinforce, reinforceStep, scoreSum, List.map_cons, List.sum_cons, add_assoc]

theorem reinforce_episodes (score : S → A → Vec d) (γ : ℝ) (s : Reinforce d) (hs : s.sumLog = 0) (eps : List (List (Step S A))) :
    eps.foldl (episodeOf (reinforce S A d) score γ) s =
      { sumLog := 0, listSum := s.listSum ++ eps.map (scoreSum score),
        num := s.num ++ eps.map (fun e => fun j => scoreSum score e j ^ 2 * ret γ e),
        den := s.den ++ eps.map (fun e => fun j => scoreSum score e j ^ 2) } := by
  induction eps generalizing s with
  | nil => cases s; simp_all
  | cons e eps ih =>
    rw [List.foldl_cons, ih _ (by simp [episodeOf, reinforce, reinforceInit])]
    simp only [episodeOf, reinforce_steps, hs, zero_add]
    simp [reinforce, reinforceInit, reinforceEnd]

/-- C57 (REINFORCE). After any history of fits, with any datasets, the next fit applies the optimizer to the gradient of the
complete episodes of its dataset: for each weight, the average over the episodes of the summed score times the return minus the
baseline computed from these episodes. With fewer than two complete episodes it fails and leaves the policy as it is. -/
theorem C57_reinforce (diffLog : Vec d → S → A → Vec d) (γ : ℝ) (opt : O → Vec d → Vec d → O × Vec d) (g : PG (Reinforce d) d O)
    (hg : Reach (reinforce S A d) diffLog γ opt (reinforceNew d) (fun _ => True) g) (D : List (Step S A))
    (eps : List (List (Step S A))) (tail : List (Step S A)) (hD : Splits D eps tail) :
    FitsWith (reinforce S A d) diffLog γ opt g D eps.length (reinforceSpec (diffLog g.theta) γ eps) := by
  have clean : g.alg.listSum = [] ∧ g.alg.num = [] ∧ g.alg.den = [] := by
    cases hg with
    | new => exact ⟨rfl, rfl, rfl⟩
    | fit g0 _ D0 grad _ _ hf =>
      obtain ⟨eps0, tail0, h0⟩ := splits_exists D0
      have := (alg_of_fit _ _ _ _ _ _ h0 _ hf).1
      rw [this]
      exact ⟨rfl, rfl, rfl⟩
  refine fitsWith_of _ _ _ _ _ hD _ (fun _ => ?_)
  rw [reinforce_episodes _ _ _ (by rfl), reinforce_steps]
  obtain ⟨c1, c2, c3⟩ := clean
  simp only [reinforce, reinforceInit, reinforceGrad, c1, c2, c3, List.nil_append]
  congr 1
  funext j
  rw [zipWith_map_map, vmean_map]
  simp only [reinforceSpec]
  rw [baselineOf_map eps (scoreSum (diffLog g.theta)) (ret γ) _ (fun _ _ _ => rfl)]

/-! ### GPOMDP -/

/-- The scores up to time `t`. -/
def upTo (score : S → A → Vec d) (e : List (Step S A)) (t : ℕ) : Vec d := scoreSum score (e.take (t + 1))

theorem upTo_snoc (score : S → A → Vec d) (b : List (Step S A)) (x : Step S A) (t : ℕ) :
    upTo score (b ++ [x]) t = if t < b.length then upTo score b t else scoreSum score b + score x.state x.action := by
  unfold upTo
  split
  · rename_i h; rw [List.take_append_of_le_length (by omega)]
  · rename_i h
    rw [List.take_of_length_le (by simp; omega), scoreSum_append]
    simp [scoreSum]

theorem rewardAt_snoc (γ : ℝ) (b : List (Step S A)) (x : Step S A) (t : ℕ) :
    rewardAt γ (b ++ [x]) t = if t < b.length then rewardAt γ b t else if t = b.length then γ ^ t * x.reward else 0 := by
  unfold rewardAt
  by_cases h : t < b.length
  · simp [h, List.getElem?_append_left h]
  · rw [if_neg h]
    by_cases h2 : t = b.length
    · subst h2; simp
    · rw [if_neg h2, List.getElem?_eq_none (by simp; omega)]; simp

/-- The lists that the baselines of one time step are computed from. -/
def column {α : Type} (f : List (Step S A) → ℕ → α) (pool : List (List (Step S A))) (t : ℕ) : List α :=
  (pool.filter (fun e => t < e.length)).map (fun e => f e t)

theorem column_append {α : Type} (f : List (Step S A) → ℕ → α) (p q : List (List (Step S A))) (t : ℕ) :
    column f (p ++ q) t = column f p t ++ column f q t := by simp [column]

theorem getD_appendAt {α : Type} (l : List (List α)) (i : ℕ) (x : α) (hi : i ≤ l.length) (t : ℕ) :
    (appendAt (decide (l.length ≤ i)) l i x).getD t [] = if t = i then l.getD t [] ++ [x] else l.getD t [] := by
  unfold appendAt
  by_cases h : l.length ≤ i
  · have : i = l.length := by omega
    subst this
    simp only [le_refl, decide_true, if_true, List.getD_eq_getElem?_getD, List.getElem?_modify]
    by_cases ht : t = l.length
    · subst ht; simp
    · have ht' : ¬ l.length = t := fun h => ht h.symm
      rw [if_neg ht]
      simp only [if_neg ht']
      by_cases h2 : t < l.length
      · simp [h2, List.getElem?_append_left h2]
      · rw [List.getElem?_eq_none (by simp; omega), List.getElem?_eq_none (by omega)]; simp
  · simp only [h, decide_false, Bool.false_eq_true, if_false, List.getD_eq_getElem?_getD, List.getElem?_modify]
    by_cases ht : t = i
    · subst ht
      have : t < l.length := by omega
      simp [this]
    · have ht' : ¬ i = t := fun h => ht h.symm
      rw [if_neg ht]
      simp only [if_neg ht']
      simp

theorem length_appendAt {α : Type} (l : List (List α)) (i : ℕ) (x : α) (hi : i ≤ l.length) :
    (appendAt (decide (l.length ≤ i)) l i x).length = max l.length (i + 1) := by
  unfold appendAt
  by_cases h : l.length ≤ i
  · simp [h]; omega
  · simp [h]; omega

/-- The state of GPOMDP when the episodes `pool` and the beginning `b` of another one have been read. -/
structure GpState (score : S → A → Vec d) (γ : ℝ) (pool : List (List (Step S A))) (b : List (Step S A)) (s : Gpomdp d) : Prop where
  sumLog : s.sumLog = scoreSum score b
  listSum : s.listSum = (List.range b.length).map (upTo score b)
  listReward : s.listReward = (List.range b.length).map (rewardAt γ b)
  count : s.count = b.length
  len : b.length ≤ s.num.length
  lens : s.num.length = s.den.length
  num : ∀ t, s.num.getD t [] = column (fun e t => fun j => upTo score e t j ^ 2 * rewardAt γ e t) (pool ++ [b]) t
  den : ∀ t, s.den.getD t [] = column (fun e t => fun j => upTo score e t j ^ 2) (pool ++ [b]) t

theorem column_single {α : Type} (f : List (Step S A) → ℕ → α) (b : List (Step S A)) (t : ℕ) :
    column f [b] t = if t < b.length then [f b t] else [] := by
  unfold column
  by_cases h : t < b.length <;> simp [h]

theorem column_snoc {α : Type} (f : List (Step S A) → ℕ → α) (pool : List (List (Step S A))) (b : List (Step S A)) (x : Step S A)
    (hf : ∀ t < b.length, f (b ++ [x]) t = f b t) (t : ℕ) :
    column f (pool ++ [b ++ [x]]) t =
      if t = b.length then column f (pool ++ [b]) t ++ [f (b ++ [x]) t] else column f (pool ++ [b]) t := by
  simp only [column_append, column_single, List.length_append, List.length_singleton]
  by_cases h : t < b.length
  · rw [if_pos (by omega), if_pos h, if_neg (by omega), hf t h]
  · by_cases h2 : t = b.length
    · subst h2; simp
    · rw [if_neg (by omega), if_neg h, if_neg h2]

theorem gp_step (score : S → A → Vec d) (γ : ℝ) (pool : List (List (Step S A))) (b : List (Step S A)) (s : Gpomdp d)
    (hs : GpState score γ pool b s) (x : Step S A) :
    GpState score γ pool (b ++ [x]) (gpomdpStep score (γ ^ b.length) s x.state x.action x.reward) := by
  have hc : s.count ≤ s.num.length := by rw [hs.count]; exact hs.len
  have hsum : s.sumLog + score x.state x.action = upTo score (b ++ [x]) b.length := by
    rw [upTo_snoc, if_neg (by omega), hs.sumLog]
  have hr : γ ^ b.length * x.reward = rewardAt γ (b ++ [x]) b.length := by rw [rewardAt_snoc]; simp
  constructor
  · simp [gpomdpStep, hs.sumLog, scoreSum]
  · show s.listSum ++ [s.sumLog + score x.state x.action] = _
    rw [hs.listSum, hsum, List.length_append, List.length_singleton, List.range_succ, List.map_append]
    congr 1
    refine List.map_congr_left (fun t ht => ?_)
    rw [upTo_snoc, if_pos (List.mem_range.1 ht)]
  · show s.listReward ++ [γ ^ b.length * x.reward] = _
    rw [hs.listReward, hr, List.length_append, List.length_singleton, List.range_succ, List.map_append]
    congr 1
    refine List.map_congr_left (fun t ht => ?_)
    rw [rewardAt_snoc, if_pos (List.mem_range.1 ht)]
  · simp [gpomdpStep, hs.count]
  · show _ ≤ (appendAt _ _ _ _).length
    rw [length_appendAt _ _ _ hc, hs.count]; simp
  · show (appendAt _ _ _ _).length = (appendAt _ _ _ _).length
    rw [length_appendAt _ _ _ hc, hs.lens, length_appendAt _ _ _ (hs.lens ▸ hc)]
  · intro t
    show (appendAt _ _ _ _).getD t [] = _
    rw [getD_appendAt _ _ _ hc, hs.num, hs.count, column_snoc]
    · by_cases h : t = b.length
      · subst h
        rw [if_pos rfl, if_pos rfl, hsum, hr]
        congr 2
        funext j
        ring
      · rw [if_neg h, if_neg h]
    · intro t ht
      simp only [upTo_snoc, rewardAt_snoc, if_pos ht]
  · intro t
    show (appendAt _ _ _ _).getD t [] = _
    rw [hs.lens, getD_appendAt _ _ _ (hs.lens ▸ hc), hs.den, hs.count, column_snoc]
    · by_cases h : t = b.length
      · subst h
        rw [if_pos rfl, if_pos rfl, hsum]
      · rw [if_neg h, if_neg h]
    · intro t ht
      simp only [upTo_snoc, if_pos ht]

theorem gp_steps (score : S → A → Vec d) (γ : ℝ) (pool : List (List (Step S A))) (b c : List (Step S A)) (s : Gpomdp d)
    (hs : GpState score γ pool b s) :
    GpState score γ pool (b ++ c) (stepsFrom (gpomdp S A d) score γ (γ ^ b.length) s c) := by
  induction c generalizing b s with
  | nil => simpa [stepsFrom] using hs
  | cons x c ih =>
    have := ih (b ++ [x]) _ (gp_step score γ pool b s hs x)
    simp only [stepsFrom]
    rw [List.append_assoc, List.singleton_append] at this
    rw [show γ ^ b.length * γ = γ ^ (b ++ [x]).length by simp [pow_succ]]
    exact this

/-- The attributes that the steps do not touch. -/
theorem gp_steps_ep (score : S → A → Vec d) (γ df : ℝ) (c : List (Step S A)) (s : Gpomdp d) :
    (stepsFrom (gpomdp S A d) score γ df s c).listSumEp = s.listSumEp ∧
    (stepsFrom (gpomdp S A d) score γ df s c).listRewardEp = s.listRewardEp := by
  induction c generalizing df s with
  | nil => exact ⟨rfl, rfl⟩
  | cons x c ih => exact ih _ _

theorem gp_episodes (score : S → A → Vec d) (γ : ℝ) (pool eps : List (List (Step S A))) (s : Gpomdp d)
    (hs : GpState score γ pool [] s) :
    GpState score γ (pool ++ eps) [] (eps.foldl (episodeOf (gpomdp S A d) score γ) s) ∧
    (eps.foldl (episodeOf (gpomdp S A d) score γ) s).listSumEp =
      s.listSumEp ++ eps.map (fun e => (List.range e.length).map (upTo score e)) ∧
    (eps.foldl (episodeOf (gpomdp S A d) score γ) s).listRewardEp =
      s.listRewardEp ++ eps.map (fun e => (List.range e.length).map (rewardAt γ e)) := by
  induction eps generalizing pool s with
  | nil => simpa using hs
  | cons e eps ih =>
    have h1 := gp_steps score γ pool [] e s hs
    rw [List.nil_append, List.length_nil, pow_zero] at h1
    have h2 := gp_steps_ep score γ 1 e s
    have h3 : GpState score γ (pool ++ [e]) [] (episodeOf (gpomdp S A d) score γ s e) := by
      refine ⟨by simp [episodeOf, gpomdp, gpomdpInit, scoreSum], rfl, rfl, rfl, Nat.zero_le _, h1.lens, ?_, ?_⟩
      · intro t
        rw [column_append]
        simp only [column_single, List.length_nil, Nat.not_lt_zero, if_false, List.append_nil]
        exact h1.num t
      · intro t
        rw [column_append]
        simp only [column_single, List.length_nil, Nat.not_lt_zero, if_false, List.append_nil]
        exact h1.den t
    obtain ⟨i1, i2, i3⟩ := ih (pool ++ [e]) _ h3
    rw [List.foldl_cons]
    refine ⟨by simpa using i1, ?_, ?_⟩
    · rw [i2]
      show (_ ++ [_]) ++ _ = _
      rw [h2.1, h1.listSum]
      simp
    · rw [i3]
      show (_ ++ [_]) ++ _ = _
      rw [h2.2, h1.listReward]
      simp

/-- C57 (GPOMDP; partial). After a history of fits with datasets that end with a complete episode, the next fit applies the
optimizer to the gradient of the complete episodes of its dataset, in which the reward at time `t` is weighted by the scores of
the actions up to `t`. Missing: earlier datasets that end in the middle of an episode, see `C57_gpomdp_refuted`. The baseline is
computed from all the steps of the dataset, also those of an unfinished episode. -/
theorem C57_gpomdp_partial (diffLog : Vec d → S → A → Vec d) (γ : ℝ) (opt : O → Vec d → Vec d → O × Vec d)
    (g : PG (Gpomdp d) d O)
    (hg : Reach (gpomdp S A d) diffLog γ opt (gpomdpNew d) (fun D => ∃ eps, Splits D eps []) g) (D : List (Step S A))
    (eps : List (List (Step S A))) (tail : List (Step S A)) (hD : Splits D eps tail) :
    FitsWith (gpomdp S A d) diffLog γ opt g D eps.length (gpomdpSpec (diffLog g.theta) γ eps (eps ++ [tail])) := by
  have zero : ∀ score : S → A → Vec d, GpState score γ [] [] (gpomdpInit (gpomdpNew d)) := by
    intro score
    refine ⟨by simp [gpomdpInit, scoreSum], rfl, rfl, rfl, Nat.zero_le _, rfl, ?_, ?_⟩ <;>
      simp [gpomdpInit, gpomdpNew, column]
  have clean : ∀ score : S → A → Vec d, GpState score γ [] [] (gpomdpInit g.alg) ∧ g.alg.listSumEp = [] ∧
      g.alg.listRewardEp = [] ∧ g.alg.listReward = [] := by
    induction hg with
    | new => exact fun score => ⟨zero score, rfl, rfl, rfl⟩
    | fit g0 g1 D0 grad _ hall hf ih =>
      intro score
      obtain ⟨eps0, h0⟩ := hall
      have h1 := (alg_of_fit _ _ _ _ _ _ h0 _ hf).1
      obtain ⟨i1, i2, i3⟩ := ih (diffLog g0.theta)
      obtain ⟨j1, j2, j3⟩ := gp_episodes (diffLog g0.theta) γ [] eps0 _ i1
      have hr : g1.alg.listReward = [] := by
        rw [h1]
        exact j1.listReward
      refine ⟨⟨by simp [gpomdpInit, scoreSum], rfl, hr, rfl, Nat.zero_le _, ?_, ?_, ?_⟩, ?_, ?_, hr⟩
      · simp [gpomdpInit, h1, gpomdp, gpomdpGrad]
      · intro t; simp [gpomdpInit, h1, gpomdp, gpomdpGrad, column]
      · intro t; simp [gpomdpInit, h1, gpomdp, gpomdpGrad, column]
      · rw [h1]; rfl
      · rw [h1]; rfl
  refine fitsWith_of _ _ _ _ _ hD _ (fun _ => ?_)
  obtain ⟨c1, c2, c3, _⟩ := clean (diffLog g.theta)
  obtain ⟨j1, j2, j3⟩ := gp_episodes (diffLog g.theta) γ [] eps _ c1
  have k1 := gp_steps (diffLog g.theta) γ _ [] tail _ j1
  obtain ⟨k2, k3⟩ := gp_steps_ep (diffLog g.theta) γ 1 tail
    (eps.foldl (episodeOf (gpomdp S A d) (diffLog g.theta) γ) (gpomdpInit g.alg))
  rw [List.nil_append, List.nil_append, List.length_nil, pow_zero] at k1
  have e1 : (gpomdpInit g.alg).listSumEp = [] := c2
  have e2 : (gpomdpInit g.alg).listRewardEp = [] := c3
  rw [e1, List.nil_append] at j2
  rw [e2, List.nil_append] at j3
  show (gpomdpGrad (eps.map (ret γ)) _).1 = _
  simp only [gpomdpGrad]
  congr 1
  funext j
  rw [show (gpomdp S A d).init g.alg = gpomdpInit g.alg from rfl, k2, k3, j2, j3, zipWith_map_map, vmean_map]
  simp only [gpomdpSpec]
  congr 1
  funext e
  simp only [gpomdpEpisode, List.length_map, List.length_range]
  congr 1
  refine List.map_congr_left (fun t ht => ?_)
  have htl := List.mem_range.1 ht
  rw [k1.num, k1.den]
  simp only [List.getD_eq_getElem?_getD, List.getElem?_map, List.getElem?_range htl, Option.map_some, Option.getD_some]
  have := baselineOf_map (d := d) ((eps ++ [tail]).filter (fun e => t < e.length)) (fun e => upTo (diffLog g.theta) e t)
    (fun e => rewardAt γ e t) (fun e => fun j => upTo (diffLog g.theta) e t j ^ 2 * rewardAt γ e t) (fun _ _ _ => rfl) j
  simp only [column]
  rw [this]
  rfl

/-! ### eNAC -/

theorem enac_steps (phi : S → Vec k) (pinv : (n : ℕ) → Matrix (Fin n) (Fin d ⊕ Fin k) ℝ → Matrix (Fin d ⊕ Fin k) (Fin n) ℝ)
    (score : S → A → Vec d) (γ df : ℝ) (s : Enac d k) (b : List (Step S A)) :
    stepsFrom (enac A phi pinv) score γ df s b =
      { s with sumLog := s.sumLog + df • discScore γ score b
               psiExt := match s.psiExt with
                 | none => b.head?.map (fun t => phi t.state)
                 | some p => some p } := by
  induction b generalizing df s with
  | nil => rcases s with ⟨_, _ | p, _⟩ <;> simp [stepsFrom, discScore]
  | cons t b ih =>
    simp only [stepsFrom, ih]
    rcases s with ⟨v, _ | p, l⟩ <;> simp [enac, enacStep, discScore, add_assoc, mul_smul]

theorem enac_episodes (phi : S → Vec k) (pinv : (n : ℕ) → Matrix (Fin n) (Fin d ⊕ Fin k) ℝ → Matrix (Fin d ⊕ Fin k) (Fin n) ℝ)
    (score : S → A → Vec d) (γ : ℝ) (s : Enac d k) (h1 : s.sumLog = 0) (h2 : s.psiExt = none) (eps : List (List (Step S A))) :
    eps.foldl (episodeOf (enac A phi pinv) score γ) s =
      { sumLog := 0, psiExt := none, list := s.list ++ eps.map (enacRow phi γ score) } := by
  induction eps generalizing s with
  | nil => cases s; simp_all
  | cons e eps ih =>
    rw [List.foldl_cons, ih _ (by simp [episodeOf, enac, enacInit]) (by simp [episodeOf, enac, enacInit])]
    simp only [episodeOf, enac_steps, h1, h2, zero_add, one_smul]
    simp [enac, enacInit, enacEnd, enacRow]

/-- C57 (eNAC). After any history of fits, with any datasets, the next fit applies the optimizer to the gradient of the complete
episodes of its dataset. -/
theorem C57_enac (phi : S → Vec k) (pinv : (n : ℕ) → Matrix (Fin n) (Fin d ⊕ Fin k) ℝ → Matrix (Fin d ⊕ Fin k) (Fin n) ℝ)
    (diffLog : Vec d → S → A → Vec d) (γ : ℝ) (opt : O → Vec d → Vec d → O × Vec d) (g : PG (Enac d k) d O)
    (hg : Reach (enac A phi pinv) diffLog γ opt (enacNew d k) (fun _ => True) g) (D : List (Step S A))
    (eps : List (List (Step S A))) (tail : List (Step S A)) (hD : Splits D eps tail) :
    FitsWith (enac A phi pinv) diffLog γ opt g D eps.length (enacSpec phi (diffLog g.theta) γ pinv eps) := by
  have clean : g.alg.list = [] := by
    cases hg with
    | new => rfl
    | fit g0 _ D0 grad _ _ hf =>
      obtain ⟨eps0, tail0, h0⟩ := splits_exists D0
      obtain ⟨h1, h2⟩ := alg_of_fit _ _ _ _ _ _ h0 _ hf
      rw [h1]
      simp only [enac, enacGrad] at h2 ⊢
      split at h2
      · rename_i h
        rw [if_pos h]
      · simp at h2
  refine fitsWith_of _ _ _ _ _ hD _ (fun _ => ?_)
  rw [enac_episodes _ _ _ _ _ (by rfl) (by rfl), enac_steps]
  simp only [enac, enacInit, enacGrad, clean, List.nil_append, List.length_map, if_true]
  congr 1
  unfold enacSpec
  rw [List.length_map]
  rfl

/-! ### Histories that do matter -/

/-- A sample with a reward and the flag; the state is the score. -/
def sampleOf (x r : ℝ) (last : Bool) : Step ℝ Unit := { state := x, action := (), reward := r, last := last }

/-- C57 fails for GPOMDP after a dataset that ends in the middle of an episode: the rewards of its last steps are kept and used
for the first episode of the next dataset. Here a new agent and one with such a history, with the same policy, compute different
gradients from the same complete episodes. -/
theorem C57_gpomdp_refuted : ∃ (diffLog : Vec 1 → ℝ → Unit → Vec 1) (opt : Unit → Vec 1 → Vec 1 → Unit × Vec 1)
    (g g' : PG (Gpomdp 1) 1 Unit) (D : List (Step ℝ Unit)) (eps : List (List (Step ℝ Unit))),
    Reach (gpomdp ℝ Unit 1) diffLog 1 opt (gpomdpNew 1) (fun _ => True) g ∧
    Reach (gpomdp ℝ Unit 1) diffLog 1 opt (gpomdpNew 1) (fun _ => True) g' ∧ g.theta = g'.theta ∧ Splits D eps [] ∧
    ∃ v v', (pgFit (gpomdp ℝ Unit 1) diffLog 1 opt g D).2 = some v ∧ (pgFit (gpomdp ℝ Unit 1) diffLog 1 opt g' D).2 = some v' ∧
      v ≠ v' := by
  set diffLog : Vec 1 → ℝ → Unit → Vec 1 := fun _ x _ => fun _ => x with hd
  set opt : Unit → Vec 1 → Vec 1 → Unit × Vec 1 := fun _ t _ => ((), t) with ho
  set g : PG (Gpomdp 1) 1 Unit := { alg := gpomdpNew 1, theta := 0, opt := () } with hg
  set D0 : List (Step ℝ Unit) := [sampleOf 1 0 true, sampleOf 1 0 true, sampleOf 1 7 false] with hD0
  set D : List (Step ℝ Unit) := [sampleOf 1 1 true, sampleOf 2 3 true] with hD
  have e0 : pgFit (gpomdp ℝ Unit 1) diffLog 1 opt g D0 =
      ({ alg := (gpomdpGrad [] (parseDataset (gpomdp ℝ Unit 1) (diffLog 0) 1 (gpomdpNew 1) D0).alg).2, theta := 0, opt := () },
        (gpomdpGrad [] (parseDataset (gpomdp ℝ Unit 1) (diffLog 0) 1 (gpomdpNew 1) D0).alg).1) := by
    simp [pgFit, hg, hD0, parseDataset, sampleStep, sampleOf, gpomdp, gpomdpGrad, ho]
  refine ⟨diffLog, opt, g, (pgFit (gpomdp ℝ Unit 1) diffLog 1 opt g D0).1, D, [[sampleOf 1 1 true], [sampleOf 2 3 true]],
    .new _ _, ?_, ?_, ?_, ?_⟩
  · refine .fit g _ D0 ?v (.new _ _) trivial ?_
    case v => exact vmean (List.zipWith (gpomdpEpisode (parseDataset (gpomdp ℝ Unit 1) (diffLog 0) 1 (gpomdpNew 1) D0).alg)
        (parseDataset (gpomdp ℝ Unit 1) (diffLog 0) 1 (gpomdpNew 1) D0).alg.listSumEp
        (parseDataset (gpomdp ℝ Unit 1) (diffLog 0) 1 (gpomdpNew 1) D0).alg.listRewardEp)
    rw [e0]; rfl
  · rw [e0]
  · refine ⟨rfl, ?_, by simp⟩
    intro e he
    rcases List.mem_cons.1 he with rfl | he
    · exact ⟨[], _, rfl, rfl, by simp⟩
    · rw [List.mem_singleton.1 he]
      exact ⟨[], _, rfl, rfl, by simp⟩
  · refine ⟨fun _ => -2 / 5, fun _ => 13 / 5, ?_, ?_, ?_⟩
    · simp [pgFit, hg, hD, parseDataset, sampleStep, sampleOf, gpomdp, gpomdpGrad, gpomdpInit, gpomdpStep, gpomdpEnd, gpomdpNew, hd,
        appendAt, gpomdpEpisode, vmean, baselineOf]
      funext j
      simp only [vmean, gpomdpEpisode, baselineOf, List.map_cons, List.map_nil, List.sum_cons, List.sum_nil, List.length_cons,
        List.length_nil, List.range_succ, List.range_zero, List.nil_append, List.getD_cons_zero]
      norm_num
    · rw [e0]
      simp [pgFit, hD, hD0, parseDataset, sampleStep, sampleOf, gpomdp, gpomdpGrad, gpomdpInit, gpomdpStep, gpomdpEnd, gpomdpNew, hd,
        appendAt, gpomdpEpisode, vmean, baselineOf]
      funext j
      simp only [vmean, gpomdpEpisode, baselineOf, List.map_cons, List.map_nil, List.sum_cons, List.sum_nil, List.length_cons,
        List.length_nil, List.range_succ, List.range_zero, List.nil_append, List.getD_cons_zero]
      norm_num
    · intro h
      have := congrFun h 0
      norm_num at this

/-- C57 does not extend to histories with failed fits: a fit with a single episode raises an error, but REINFORCE keeps the
scores of that episode and attributes the returns of the next dataset to the wrong episodes. -/
theorem C57_failed_refuted : ∃ (diffLog : Vec 1 → ℝ → Unit → Vec 1) (opt : Unit → Vec 1 → Vec 1 → Unit × Vec 1)
    (g : PG (Reinforce 1) 1 Unit) (D0 D : List (Step ℝ Unit)),
    Reach (reinforce ℝ Unit 1) diffLog 1 opt (reinforceNew 1) (fun _ => True) g ∧
    (pgFit (reinforce ℝ Unit 1) diffLog 1 opt g D0).2 = none ∧
    ∃ v v', (pgFit (reinforce ℝ Unit 1) diffLog 1 opt g D).2 = some v ∧
      (pgFit (reinforce ℝ Unit 1) diffLog 1 opt (pgFit (reinforce ℝ Unit 1) diffLog 1 opt g D0).1 D).2 = some v' ∧ v ≠ v' := by
  refine ⟨fun _ x _ => fun _ => x, fun _ t _ => ((), t), { alg := reinforceNew 1, theta := 0, opt := () },
    [sampleOf 5 1 true], [sampleOf 1 1 true, sampleOf 2 3 true], .new _ _, ?_, fun _ => -2 / 5, fun _ => 1 / 5, ?_, ?_, ?_⟩
  · simp [pgFit, parseDataset, sampleStep, sampleOf]
  · simp [pgFit, parseDataset, sampleStep, sampleOf, reinforce, reinforceGrad, reinforceInit, reinforceStep, reinforceEnd,
      reinforceNew, vmean, baselineOf]
    funext j
    norm_num [vmean, baselineOf]
  · simp [pgFit, parseDataset, sampleStep, sampleOf, reinforce, reinforceGrad, reinforceInit, reinforceStep, reinforceEnd,
      reinforceNew, vmean, baselineOf]
    funext j
    norm_num [vmean, baselineOf]
  · intro h
    have := congrFun h 0
    norm_num at this

/-- Non-trivial instance for C57: two episodes, of one and two steps, and an unfinished one; any agent without history. -/
example (theta : Vec 1) : Reach (reinforce ℝ Unit 1) (fun _ x _ => fun _ => x) (9 / 10) (fun (_ : Unit) t _ => ((), t))
      (reinforceNew 1) (fun _ => True) { alg := reinforceNew 1, theta := theta, opt := () } ∧
    Splits [sampleOf 1 1 true, sampleOf 2 3 false, sampleOf 1 0 true, sampleOf 4 1 false]
      [[sampleOf 1 1 true], [sampleOf 2 3 false, sampleOf 1 0 true]] [sampleOf 4 1 false] := by
  refine ⟨.new _ _, rfl, ?_, by simp [sampleOf]⟩
  intro e he
  rcases List.mem_cons.1 he with rfl | he
  · exact ⟨[], _, rfl, rfl, by simp⟩
  · rw [List.mem_singleton.1 he]
    exact ⟨[sampleOf 2 3 false], _, rfl, rfl, by simp [sampleOf]⟩

/-! ### C94: what the gradients are -/

/-- C94. The baseline minimises the second moment of the products of score and shifted return. -/
theorem C94_baseline (l : List (ℝ × ℝ)) (b : ℝ) :
    (l.map (fun p => p.1 ^ 2 * (p.2 - bestBaseline l) ^ 2)).sum ≤ (l.map (fun p => p.1 ^ 2 * (p.2 - b) ^ 2)).sum := by
  have expand : ∀ c : ℝ, (l.map (fun p => p.1 ^ 2 * (p.2 - c) ^ 2)).sum = (l.map (fun p => p.1 ^ 2 * p.2 ^ 2)).sum -
      2 * c * (l.map (fun p => p.1 ^ 2 * p.2)).sum + c ^ 2 * (l.map (fun p => p.1 ^ 2)).sum := by
    intro c
    induction l with
    | nil => simp
    | cons p l ih => simp only [List.map_cons, List.sum_cons, ih]; ring
  have nonneg : ∀ l : List (ℝ × ℝ), 0 ≤ (l.map (fun p => p.1 ^ 2)).sum := by
    intro l
    induction l with
    | nil => simp
    | cons p l ih => simp only [List.map_cons, List.sum_cons]; positivity
  have zero : ∀ l : List (ℝ × ℝ), (l.map (fun p => p.1 ^ 2)).sum = 0 → (l.map (fun p => p.1 ^ 2 * p.2)).sum = 0 := by
    intro l
    induction l with
    | nil => simp
    | cons p l ih =>
      simp only [List.map_cons, List.sum_cons]
      intro h
      have h1 := nonneg l
      have h2 := sq_nonneg p.1
      have h3 : p.1 ^ 2 = 0 := by linarith
      have h4 : (l.map (fun p => p.1 ^ 2)).sum = 0 := by linarith
      rw [h3, ih h4]; ring
  rw [expand, expand]
  by_cases hz : (l.map (fun p => p.1 ^ 2)).sum = 0
  · rw [hz, zero l hz]; simp
  · have hpos : 0 < (l.map (fun p => p.1 ^ 2)).sum := lt_of_le_of_ne (nonneg l) (Ne.symm hz)
    rw [bestBaseline, if_neg hz]
    set W := (l.map (fun p => p.1 ^ 2)).sum
    set N := (l.map (fun p => p.1 ^ 2 * p.2)).sum
    have key : -(2 * b * N) + b ^ 2 * W - (-(2 * (N / W) * N) + (N / W) ^ 2 * W) = (b - N / W) ^ 2 * W := by
      field_simp
      ring
    nlinarith [mul_nonneg (sq_nonneg (b - N / W)) hpos.le]

/-- C94 (eNAC). If `pinv` returns the pseudo-inverse, the weights computed by eNAC fit the returns in the sense of least squares:
no other linear function of the rows is closer to the returns of the episodes. -/
theorem C94_least_squares {n : ℕ} {ι : Type} [Fintype ι] (psi : Matrix (Fin n) ι ℝ) (p : Matrix ι (Fin n) ℝ)
    (h1 : psi * p * psi = psi) (h2 : (psi * p)ᵀ = psi * p) (R : Fin n → ℝ) (w : ι → ℝ) :
    (psi *ᵥ (p *ᵥ R) - R) ⬝ᵥ (psi *ᵥ (p *ᵥ R) - R) ≤ (psi *ᵥ w - R) ⬝ᵥ (psi *ᵥ w - R) := by
  set e := psi *ᵥ (p *ᵥ R) - R with he
  have ht : psiᵀ * (psi * p) = psiᵀ := by
    conv_lhs => rw [← h2]
    rw [← Matrix.transpose_mul, h1]
  have horth : psiᵀ *ᵥ e = 0 := by
    rw [he, Matrix.mulVec_sub, Matrix.mulVec_mulVec, Matrix.mulVec_mulVec, Matrix.mul_assoc, ht, sub_self]
  set u := psi *ᵥ (w - p *ᵥ R) with hu
  have hs : psi *ᵥ w - R = u + e := by
    rw [hu, he, Matrix.mulVec_sub]
    funext i
    simp
  have h0 : u ⬝ᵥ e = 0 := by
    rw [hu, ← Matrix.vecMul_transpose, ← Matrix.dotProduct_mulVec, horth, dotProduct_zero]
  have huu : 0 ≤ u ⬝ᵥ u := Finset.sum_nonneg (fun i _ => mul_self_nonneg _)
  rw [hs, add_dotProduct, dotProduct_add, dotProduct_add, h0, dotProduct_comm e u, h0]
  linarith

/-- C94 (eNAC). If `pinv` returns a pseudo-inverse, the gradient of eNAC is the part for the scores of weights that fit the
returns of the episodes in the sense of least squares. -/
theorem C94_enac (phi : S → Vec k) (score : S → A → Vec d) (γ : ℝ)
    (pinv : (n : ℕ) → Matrix (Fin n) (Fin d ⊕ Fin k) ℝ → Matrix (Fin d ⊕ Fin k) (Fin n) ℝ)
    (eps : List (List (Step S A))) (psi : Matrix (Fin eps.length) (Fin d ⊕ Fin k) ℝ)
    (hpsi : ∀ i : Fin eps.length, psi i = enacRow phi γ score eps[i])
    (hp : psi * pinv eps.length psi * psi = psi ∧ (psi * pinv eps.length psi)ᵀ = psi * pinv eps.length psi) :
    ∃ w : Fin d ⊕ Fin k → ℝ, (∀ j, enacSpec phi score γ pinv eps j = w (Sum.inl j)) ∧
      ∀ w', ∑ i : Fin eps.length, (enacRow phi γ score eps[i] ⬝ᵥ w - ret γ eps[i]) ^ 2 ≤
        ∑ i : Fin eps.length, (enacRow phi γ score eps[i] ⬝ᵥ w' - ret γ eps[i]) ^ 2 := by
  have hpsi' : psi = fun i : Fin eps.length => (eps.map (enacRow phi γ score)).getD i 0 := by
    funext i
    rw [hpsi i]
    simp
  set R : Fin eps.length → ℝ := fun i => (eps.map (ret γ)).getD i 0 with hR
  have r2 : ∀ i : Fin eps.length, R i = ret γ eps[i] := by intro i; simp [hR]
  refine ⟨pinv eps.length psi *ᵥ R, fun j => by rw [hpsi']; rfl, fun w' => ?_⟩
  have key := C94_least_squares psi _ hp.1 hp.2 R w'
  have conv : ∀ w, (psi *ᵥ w - R) ⬝ᵥ (psi *ᵥ w - R) = ∑ i : Fin eps.length, (enacRow phi γ score eps[i] ⬝ᵥ w - ret γ eps[i]) ^ 2 := by
    intro w
    simp only [dotProduct, Pi.sub_apply, sq]
    refine Finset.sum_congr rfl (fun i _ => ?_)
    rw [← r2 i, ← hpsi i]
    rfl
  rw [conv, conv] at key
  exact key

/-- Non-trivial instance: two episodes with different scores, for which the matrix can be inverted. -/
example : ∃ (psi : Matrix (Fin 2) (Fin 1 ⊕ Fin 1) ℝ) (p : Matrix (Fin 1 ⊕ Fin 1) (Fin 2) ℝ),
    (∀ i : Fin 2, psi i = enacRow (fun _ : ℝ => fun _ : Fin 1 => 1) 1 (fun x (_ : Unit) => fun _ : Fin 1 => x)
      [[sampleOf 1 1 true], [sampleOf 2 3 true]][i]) ∧ psi * p * psi = psi ∧ (psi * p)ᵀ = psi * p := by
  refine ⟨Matrix.of (fun i => Sum.elim (fun _ => (i : ℝ) + 1) (fun _ => 1)),
    Matrix.of (fun a i => Sum.elim (fun _ => 2 * (i : ℝ) - 1) (fun _ => 2 - 3 * (i : ℝ)) a), ?_, ?_, ?_⟩
  · intro i
    fin_cases i <;> funext a <;> rcases a with a | a <;> simp [enacRow, discScore, sampleOf] <;> norm_num
  · ext i a
    fin_cases i <;> rcases a with a | a <;> simp [Matrix.mul_apply, Matrix.of_apply, Fin.sum_univ_two] <;> norm_num
  · ext i a
    fin_cases i <;> fin_cases a <;> simp [Matrix.mul_apply] <;> norm_num

end Verif.Search
