/-
Property C166: the Q(λ) agent and the algorithm it refers to (Watkins 1989), in which an exploratory action ends the credit of what was done before.
-/
import Verif.TD.Props

namespace Verif.TD

noncomputable section

variable {S A : Type} [DecidableEq S] [DecidableEq A] [Fintype A] [Nonempty A]

/-! ### Specification -/

/-- An action is greedy: no other has a larger value in its state. -/
def GreedyIn (Q : Table S A) (s : S) (a : A) : Prop := ∀ b, Q s b ≤ Q s a

open scoped Classical in
/-- One step of Watkins' Q(λ) on a transition and a learning rate: before an action that is not greedy all the traces are deleted; then the
pair is marked, the error with the largest next value is given to all the pairs by their traces, and the traces decay. -/
def watkins (k : TraceKind) (γ lam : ℝ) (g : Lam S A) (x : Trans S A × ℝ) : Lam S A :=
  let t := x.1
  let e : Table S A := if GreedyIn g.Q t.state t.action then g.e else fun _ _ => 0
  let e : Table S A := fun s a => if s = t.state ∧ a = t.action then (match k with
    | .replacing => 1
    | .accumulating => e s a + 1) else e s a
  let next : ℝ := if t.absorbing then 0 else ⨆ b, g.Q t.next b
  let δ := t.reward + γ * next - g.Q t.state t.action
  ⟨fun s a => g.Q s a + x.2 * δ * e s a, fun s a => γ * lam * e s a⟩

/-- An episode of the agent. -/
def qLambdaEpisode (k : TraceKind) (γ lam : ℝ) (g : Lam S A) (l : List (Trans S A × ℝ)) : Lam S A :=
  l.foldl (fun g x => qLambda k γ lam x.2 g x.1) (lamStart g)

/-- An episode of Watkins' Q(λ). -/
def watkinsEpisode (k : TraceKind) (γ lam : ℝ) (g : Lam S A) (l : List (Trans S A × ℝ)) : Lam S A :=
  l.foldl (watkins k γ lam) ⟨g.Q, fun _ _ => 0⟩

/-! ### Theorems -/

omit [DecidableEq A] in
theorem rowMax_iSup (q : A → ℝ) : rowMax q = ⨆ b, q b := by
  unfold rowMax
  rw [Finset.sup'_univ_eq_ciSup]

open scoped Classical in
theorem qLambda_watkins (k : TraceKind) (γ lam : ℝ) (g : Lam S A) (x : Trans S A × ℝ)
    (h : GreedyIn g.Q x.1.state x.1.action ∨ ∀ s a, g.e s a = 0) : qLambda k γ lam x.2 g x.1 = watkins k γ lam g x := by
  have he : (if GreedyIn g.Q x.1.state x.1.action then g.e else fun _ _ => 0) = g.e := by
    split
    · rfl
    · rename_i hn
      rcases h with h | h
      · exact absurd h hn
      · funext s a; exact (h s a).symm
  have hn : (if (!x.1.absorbing) = true then rowMax (g.Q x.1.next) else 0) = if x.1.absorbing = true then 0 else ⨆ b, g.Q x.1.next b := by
    rw [rowMax_iSup]; cases x.1.absorbing <;> simp
  have ht : ∀ s a, traceUpdate k g.e x.1.state x.1.action s a = if s = x.1.state ∧ a = x.1.action then (match k with
      | .replacing => 1
      | .accumulating => g.e s a + 1) else g.e s a := by
    intro s a
    cases k <;> simp only [traceUpdate, Table.set]
    split
    · rename_i h; rw [h.1, h.2]
    · rfl
  unfold qLambda watkins lamUpdate
  simp only [he, hn, ht]
  congr 1
  funext s a
  ring

/-- **C166.** In an episode in which all the actions after the first are greedy when they are executed, the agent does what Watkins' Q(λ) does,
for both traces, all learning rates and whatever the last episode has left. -/
theorem C166_greedy_partial (k : TraceKind) (γ lam : ℝ) (g : Lam S A) (l : List (Trans S A × ℝ))
    (hl : ∀ pre x post, l = pre ++ x :: post → pre ≠ [] → GreedyIn (watkinsEpisode k γ lam g pre).Q x.1.state x.1.action) :
    qLambdaEpisode k γ lam g l = watkinsEpisode k γ lam g l := by
  induction l using List.reverseRecOn with
  | nil => rfl
  | append_singleton l x ih =>
    have ih := ih (fun pre y post hp hne => hl pre y (post ++ [x]) (by rw [hp]; simp) hne)
    have e1 : qLambdaEpisode k γ lam g (l ++ [x]) = qLambda k γ lam x.2 (qLambdaEpisode k γ lam g l) x.1 := by
      simp [qLambdaEpisode]
    have e2 : watkinsEpisode k γ lam g (l ++ [x]) = watkins k γ lam (watkinsEpisode k γ lam g l) x := by
      simp [watkinsEpisode]
    rw [e1, e2, ih]
    apply qLambda_watkins
    by_cases hn : l = []
    · right; subst hn; intro s a; rfl
    · left; exact hl l x [] rfl hn

omit [Fintype A] [Nonempty A] in
/-- After an exploratory action only the value of its own pair changes. -/
theorem watkins_exploratory (k : TraceKind) (γ lam : ℝ) (g : Lam S A) (x : Trans S A × ℝ) (h : ¬ GreedyIn g.Q x.1.state x.1.action) (s : S) (a : A)
    (hs : ¬ (s = x.1.state ∧ a = x.1.action)) : (watkins k γ lam g x).Q s a = g.Q s a := by
  simp [watkins, h, hs]

/-- Two states, two actions. In the first state every action leads to the second one, in the second one they end the episode with the
rewards 1 and -1. -/
def forkEpisode : List (Trans Bool Bool × ℝ) := [(⟨false, true, 0, true, false⟩, 1), (⟨true, false, -1, true, true⟩, 1)]

/-- The values are optimal but for the bad action, whose reward the agent has not seen yet. -/
def forkTable : Table Bool Bool := fun s a => if s = true ∧ a = false then 0 else 1

/-- The same with the good action: all the actions are greedy. -/
example : qLambdaEpisode .replacing 1 1 ⟨forkTable, fun _ _ => 5⟩ [(⟨false, true, 0, true, false⟩, 1), (⟨true, true, 1, true, true⟩, 1)] =
    watkinsEpisode .replacing 1 1 ⟨forkTable, fun _ _ => 5⟩ [(⟨false, true, 0, true, false⟩, 1), (⟨true, true, 1, true, true⟩, 1)] := by
  refine C166_greedy_partial _ _ _ _ _ fun pre x post h hne => ?_
  match pre, hne, h with
  | [y], _, h =>
    simp only [List.cons_append, List.nil_append, List.cons.injEq] at h
    obtain ⟨rfl, rfl, -⟩ := h
    have hz : (⨆ b, forkTable true b) = 1 := by
      rw [← rowMax_iSup]; exact isMax_unique (rowMax_isMax _) ⟨by intro b; cases b <;> simp [forkTable], true, by simp [forkTable]⟩
    intro b
    simp only [watkinsEpisode, List.foldl_cons, List.foldl_nil, watkins]
    simp only [hz]
    cases b <;> simp [forkTable]
  | y :: z :: pre, _, h => simp at h

/-- **C166 is false in general**: the agent never deletes traces. The values of the first state are optimal; after an episode with an exploratory
action in the second state the agent has 0 for it instead of 1, Watkins' Q(λ) keeps 1. -/
theorem C166_exploration_refuted (k : TraceKind) :
    (qLambdaEpisode k 1 1 ⟨forkTable, fun _ _ => 0⟩ forkEpisode).Q false true = 0 ∧
    (watkinsEpisode k 1 1 ⟨forkTable, fun _ _ => 0⟩ forkEpisode).Q false true = 1 ∧
    forkTable false true = max (forkTable true true) (-1) := by
  have h1 : rowMax (forkTable true) = 1 := isMax_unique (rowMax_isMax _) ⟨by intro b; cases b <;> simp [forkTable], true, by simp [forkTable]⟩
  have h2 : (⨆ b, forkTable true b) = 1 := by rw [← rowMax_iSup]; exact h1
  refine ⟨?_, ?_, by simp [forkTable]⟩
  · cases k <;> simp [qLambdaEpisode, forkEpisode, qLambda, lamUpdate, lamStart, traceUpdate, Table.set, h1] <;> norm_num [forkTable]
  · have hg : GreedyIn forkTable false true := by intro b; cases b <;> simp [forkTable]
    have hn : ∀ Q : Table Bool Bool, Q true true = 1 → Q true false = 0 → ¬ GreedyIn Q true false := by
      intro Q a b h; have := h true; rw [a, b] at this; norm_num at this
    simp only [watkinsEpisode, forkEpisode, List.foldl_cons, List.foldl_nil]
    have e : (watkins k 1 1 ⟨forkTable, fun _ _ => 0⟩ (⟨false, true, 0, true, false⟩, 1)).Q = forkTable := by
      funext s a
      simp only [watkins, h2]
      cases k <;> cases s <;> cases a <;> norm_num [forkTable]
    rw [watkins_exploratory k 1 1 _ _ (by rw [e]; exact hn forkTable (by simp [forkTable]) (by simp [forkTable])) false true (by simp), e]
    simp [forkTable]

end

end Verif.TD
