/-
Lemmas for C153: a vectorized evaluation as a process, and its mean.
-/
import Verif.Eval.ModelVector

namespace Verif.Eval

open Verif.Vector (cnt anyOf getMask Masked midway freshLogic cnt_split cnt_congr cnt_false cnt_pos cnt_eq_zero getMask_fresh getMask_regular)
open Verif.Dataset (Row)

noncomputable section

variable {S X A P T U : Type}

/-- What matters of the state of a vectorized evaluation. -/
structure Cs (S P : Type) where
  run : ℕ → Bool
  last : ℕ → Bool
  totE : ℕ
  steps : ℕ → ℕ
  hid : ℕ → S
  ps : ℕ → P
  acc : ℝ

abbrev cfg (n H N : ℕ) : Vector.Cfg := freshLogic.evaluateCfg n (some H) none (some N)

/-- The environments that are active in the next iteration. -/
def grant (n H N : ℕ) (run last : ℕ → Bool) (totE : ℕ) : ℕ → Bool :=
  if anyOf last n then
    match getMask (cfg n H N) run last totE totE with
    | .ok m => m
    | .error _ => run
  else run

/-- One iteration for one environment: new hidden state, new internal state of the policy, reward and absorbing flag. -/
def one (m : Sim S X A P T U) (fresh : Bool) (s : S) (p : P) (v : U × U × U × U) : S × P × ℝ × Bool :=
  let s1 := if fresh then m.start v.1 else s
  let p1 := if fresh then (m.begins (m.see s1) v.2.1).1 else p
  let a := m.act (m.see s1) p1 v.2.2.1
  let s2 := m.next s1 a.1 v.2.2.2
  (s2, a.2, m.reward s1 a.1 s2, m.absorbing s1 a.1 s2)

def stepsOf (last : Bool) (k : ℕ) : ℕ := if last then 0 else k

/-- One iteration. -/
def step (m : Sim S X A P T U) (γ : ℝ) (n H N : ℕ) (c : Cs S P) (v : Draws U) : Cs S P :=
  let mask := grant n H N c.run c.last c.totE
  let o := fun i => one m (c.last i) (c.hid i) (c.ps i) (v i)
  let k := fun i => stepsOf (c.last i) (c.steps i)
  let last := fun i => (mask i && (o i).2.2.2) || decide (H ≤ if mask i then k i + 1 else k i)
  { run := mask
    last := last
    totE := c.totE + cnt (fun i => last i && mask i) n
    steps := fun i => if mask i then k i + 1 else k i
    hid := fun i => if mask i then (o i).1 else c.hid i
    ps := fun i => if mask i then (o i).2.1 else c.ps i
    acc := c.acc + ∑ i ∈ Finset.range n, if mask i then γ ^ k i * (o i).2.2.1 else 0 }

/-- `t` iterations, or fewer if the run stops before. -/
def proc (m : Sim S X A P T U) (γ : ℝ) (n H N : ℕ) (c : Cs S P) : ℕ → (ℕ → Draws U) → Cs S P
  | 0, _ => c
  | t + 1, ω => if (proc m γ n H N c t ω).totE < N then step m γ n H N (proc m γ n H N c t ω) (ω t) else proc m γ n H N c t ω

theorem proc_front (m : Sim S X A P T U) (γ : ℝ) (n H N : ℕ) (c : Cs S P) (hc : c.totE < N) (ω : ℕ → Draws U) :
    ∀ t, proc m γ n H N c (t + 1) ω = proc m γ n H N (step m γ n H N c (ω 0)) t (shift ω)
  | 0 => by simp [proc, hc]
  | t + 1 => by
    have ih := proc_front m γ n H N c hc ω t
    rw [proc, ih]
    rfl

theorem proc_done (m : Sim S X A P T U) (γ : ℝ) (n H N : ℕ) (c : Cs S P) (hc : ¬ c.totE < N) (ω : ℕ → Draws U) : ∀ t, proc m γ n H N c t ω = c
  | 0 => rfl
  | t + 1 => by rw [proc, proc_done m γ n H N c hc ω t, if_neg hc]

structure CInv (n H N : ℕ) (c : Cs S P) : Prop where
  shape : ((∀ i < n, c.run i = false) ∧ ∀ i < n, c.last i = true) ∨ ∀ i < n, c.last i = true → c.run i = true
  idle : ∀ i < n, c.run i = false → c.last i = false → c.steps i = 0
  lens : ∀ i < n, c.run i = true → c.last i = false → c.steps i < H
  total : c.totE + midway n c.run c.last ≤ N

theorem grant_spec {n H N : ℕ} {c : Cs S P} (hi : CInv n H N c) :
    (∀ i < n, c.last i = false → grant n H N c.run c.last c.totE i = c.run i) ∧ c.totE + cnt (grant n H N c.run c.last c.totE) n ≤ N := by
  unfold grant
  by_cases hany : anyOf c.last n = true
  · have hM : ∃ mk, getMask (cfg n H N) c.run c.last c.totE c.totE = .ok mk ∧ Masked (cfg n H N) c.run c.last c.totE c.totE mk := by
      rcases hi.shape with ⟨h1, h2⟩ | h
      · exact getMask_fresh _ _ _ _ _ h1 h2
      · exact getMask_regular _ _ _ _ _ h (show 0 < cnt c.last n by simpa [anyOf] using hany)
    obtain ⟨mk, h1, h2⟩ := hM
    rw [if_pos hany, h1]
    refine ⟨fun i hin hl => ?_, h2.total N rfl hi.total⟩
    cases hr : c.run i
    · exact h2.off i hin hl hr
    · exact h2.keep i hin hl hr
  · rw [if_neg hany]
    refine ⟨fun _ _ _ => rfl, ?_⟩
    have h0 := cnt_eq_zero (f := c.last) (n := n) (by simpa [anyOf] using hany)
    have := hi.total
    rw [midway, cnt_congr (g := c.run) (fun i hin => by simp [h0 i hin])] at this
    exact this

theorem step_inv (m : Sim S X A P T U) (γ : ℝ) {n H N : ℕ} (hH : 1 ≤ H) {c : Cs S P} (hi : CInv n H N c) (v : Draws U) : CInv n H N (step m γ n H N c v) := by
  obtain ⟨h1, h2⟩ := grant_spec hi
  have hoff : ∀ i < n, grant n H N c.run c.last c.totE i = false → stepsOf (c.last i) (c.steps i) = 0 := by
    intro i hin hg
    unfold stepsOf
    cases hl : c.last i
    · rw [h1 i hin hl] at hg
      simp [hi.idle i hin hg hl]
    · simp
  constructor
  · right
    intro i hin hl
    show grant n H N c.run c.last c.totE i = true
    by_contra hg
    have hg : grant n H N c.run c.last c.totE i = false := by simpa using hg
    simp only [step, hg, Bool.false_and, Bool.false_or, Bool.false_eq_true, if_false, hoff i hin hg, decide_eq_true_eq] at hl
    omega
  · intro i hin hg _
    have hg : grant n H N c.run c.last c.totE i = false := hg
    simp only [step, hg, Bool.false_eq_true, if_false, hoff i hin hg]
  · intro i hin hg hl
    simp only [step, Bool.or_eq_false_iff, decide_eq_false_iff_not] at hl ⊢
    omega
  · have hs := cnt_split (grant n H N c.run c.last c.totE) (step m γ n H N c v).last n
    have : (step m γ n H N c v).totE = c.totE + cnt (fun i => (step m γ n H N c v).last i && grant n H N c.run c.last c.totE i) n := rfl
    have hm : midway n (step m γ n H N c v).run (step m γ n H N c v).last = cnt (fun i => !(step m γ n H N c v).last i && grant n H N c.run c.last c.totE i) n := rfl
    rw [this, hm]
    omega

end

end Verif.Eval
