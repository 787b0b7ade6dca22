/-
Model of whole calls of `TRPO.fit`.

Files: mushroom_rl/algorithms/actor_critic/deep_actor_critic/{trpo,deep_actor_critic}.py, mushroom_rl/core/agent.py (preprocessors),
mushroom_rl/utils/torch.py (zero_grad, get_gradient), mushroom_rl/rl_utils/{value_functions,parameters}.py.

The critic, its fit, the policy, its entropy, the divergence of two policies, automatic differentiation and the random generator are arbitrary functions, as in
ModelPPO.lean. A vector or number that is not finite is `none`: a division by zero, the root of a negative number and everything computed from them. The parameters
of the agent are different objects.
-/
import Verif.ActorCritic.ModelPPO

namespace Verif.ActorCritic.Trust

open Verif.Policy (Param)
open Verif.ActorCritic.Proximal (PpoSys Row Err preAll updAll asInt)
open Verif.ValueFn (computeGae)

noncomputable section

variable {S A P V R κ O : Type} [Fintype κ]

/-- State of a `TRPO` agent: trpo.py L52-69. `grad` are the gradient buffers of the policy, `oldPolicy` the weights of `_old_policy`. -/
structure Trpo (P V R κ : Type) where
  pre : List P
  critic : V
  weights : κ → ℝ
  grad : κ → ℝ
  oldPolicy : Option (κ → ℝ)
  nSearch : Param
  nCg : Param
  damping : Param
  tol : Param
  maxKl : Param
  ent : Param
  lam : Param
  iter : ℕ
  rng : R

/-- What the agent is made of. The optimiser and the minibatches of `PpoSys` are not used by TRPO. -/
structure TrpoSys (S A P V R κ O : Type) extends PpoSys S A P V R κ O where
  /-- mean over the states of the divergence of the policy with the second weights (at the second states) from the one with the first weights (at the first
  states): `torch.mean(kl_divergence(old_pol_dist, new_pol_dist))` -/
  kl : (κ → ℝ) → List S → (κ → ℝ) → List S → ℝ
  /-- product of the Hessian of a function of the weights with a vector: trpo.py L124-129 -/
  hess : ((κ → ℝ) → ℝ) → (κ → ℝ) → (κ → ℝ) → κ → ℝ

/-- The arrays of one call: what `obs`, `act`, `adv`, `old_log_prob` and the states of `old_pol_dist` hold. -/
structure Arrays (S A : Type) where
  obs : List S
  act : List A
  adv : Option (List ℝ)
  old : List ℝ
  obsOld : List S

/-- `_compute_loss` at weights `θ`, for the value `c` of the entropy coefficient: trpo.py L186-190. -/
def lossAt (y : TrpoSys S A P V R κ O) (a : Arrays S A) (c : ℝ) (θ : κ → ℝ) : Option ℝ :=
  a.adv.map fun adv =>
    let ratio := (List.zipWith (fun l o => l - o) (List.zipWith (y.logp θ) a.obs a.act) a.old).map Real.exp
    meanOf (List.zipWith (· * ·) ratio adv) + c * y.entropy θ a.obs

/-- The gradient of the loss, which is a number: trpo.py L107-108. -/
def gradAt (y : TrpoSys S A P V R κ O) (a : Arrays S A) (c : ℝ) (θ : κ → ℝ) : Option (κ → ℝ) :=
  a.adv.map fun _ => y.grad (fun θ => (lossAt y a c θ).getD 0) θ

/-- `_fisher_vector_product` for the policy `θ`, the old policy `θ₀` and the value `d` of the damping: trpo.py L123-131. -/
def fisher (y : TrpoSys S A P V R κ O) (a : Arrays S A) (θ₀ θ : κ → ℝ) (d : ℝ) (p : κ → ℝ) : κ → ℝ :=
  y.hess (fun θ => y.kl θ₀ a.obsOld θ a.obs) θ p + d • p

/-- Variables of `_conjugate_gradient`: `p` and `r` are one storage until `p` is rebound (see `Cg` in Model.lean). trpo.py L134-137. -/
structure CgVars (κ : Type) where
  store : κ → ℝ
  p : Option (κ → ℝ)
  x : κ → ℝ
  r2 : ℝ

/-- What `p` reads. -/
def CgVars.dir (c : CgVars κ) : κ → ℝ := match c.p with
  | none => c.store
  | some p => p

open Classical in
/-- The body of the loop of `_conjugate_gradient`: trpo.py L140-148. A zero denominator makes all variables NaN or infinite, and they stay so. -/
def cgBody (F : (κ → ℝ) → κ → ℝ) (c : CgVars κ) : Option (CgVars κ) :=
  let z := F c.dir
  let den := c.dir ⬝ᵥ z
  if den = 0 ∨ c.r2 = 0 then none
  else
    let v := c.r2 / den
    let x := c.x + v • c.dir
    let c' := { c with x := x, store := c.store - v • z }
    let r2New := c'.store ⬝ᵥ c'.store
    let mu := r2New / c.r2
    some { c' with p := some (c'.store + mu • c'.dir), r2 := r2New }

open Classical in
/-- The loop of `_conjugate_gradient`, with the parameters of damping and tolerance: trpo.py L139-150. -/
def cgIter (F : ℝ → (κ → ℝ) → κ → ℝ) : ℕ → Param × Param → Option (CgVars κ) → (Param × Param) × Option (CgVars κ)
  | 0, ps, c => (ps, c)
  | k + 1, ps, c =>
    let d := ps.1.call []
    let c' := c.bind (cgBody (F d.2))
    let t := ps.2.call []
    if ∃ w, c' = some w ∧ w.r2 < t.2 then ((d.1, t.1), c') else cgIter F k (d.1, t.1) c'

/-- `_conjugate_gradient` of `b`: trpo.py L133-151. -/
def cgSolve (F : ℝ → (κ → ℝ) → κ → ℝ) (k : ℕ) (ps : Param × Param) (b : Option (κ → ℝ)) : (Param × Param) × Option (κ → ℝ) :=
  let r := cgIter F k ps (b.map fun b => ⟨b, none, 0, b ⬝ᵥ b⟩)
  (r.1, r.2.map CgVars.x)

open Classical in
/-- `full_step` for the direction `dir`, Fisher product `F` and limit `m`: trpo.py L155-158. A positive number divided by zero is infinite, and the direction divided
by it is zero. -/
def stepOf (F : (κ → ℝ) → κ → ℝ) (m : ℝ) (dir : Option (κ → ℝ)) : Option (κ → ℝ) :=
  dir.bind fun dir =>
    let shs := (1 / 2) * (dir ⬝ᵥ F dir)
    if m = 0 then (if 0 < shs then some 0 else none)
    else if shs / m ≤ 0 then none else some ((1 / Real.sqrt (shs / m)) • dir)

open Classical in
/-- The loop of the line search: trpo.py L167-180. Returns the parameter of the entropy bonus and the weights of the policy. `m` is the current value of the limit. -/
def search (y : TrpoSys S A P V R κ O) (a : Arrays S A) (prev : Option ℝ) (m : ℝ) (old : κ → ℝ) (full : Option (κ → ℝ)) :
    ℕ → Param → ℝ → Param × (κ → ℝ)
  | 0, ent, _ => (ent, old)
  | k + 1, ent, stepsize =>
    let c := ent.call []
    match full, prev with
    | some f, some prev =>
      let new := old + stepsize • f
      match lossAt y a c.2 new with
      | some l => if y.kl old a.obsOld new a.obs ≤ m * (3 / 2) ∧ 0 ≤ l - prev then (c.1, new) else search y a (some prev) m old (some f) k c.1 (stepsize * (1 / 2))
      | none => search y a (some prev) m old (some f) k c.1 (stepsize * (1 / 2))
    | _, _ => search y a prev m old full k c.1 (stepsize * (1 / 2))

/-- `TRPO.fit` for a dataset of `n` transitions: trpo.py L84-121, with `_preprocess_state` (deep_actor_critic.py L6-19), `_conjugate_gradient` and `_line_search`
(trpo.py L133-180). `g0` is the content of the uninitialised array of `compute_gae`. The gradient buffers are only said to hold the gradient, which is zero in the
model when it is NaN in the program. `_log_info` is in ModelLog.lean. -/
def fit (y : TrpoSys S A P V R κ O) (g0 : ℕ → ℝ) (g : Trpo P V R κ) (n : ℕ) (d : ℕ → Row S A) : Except Err (Trpo P V R κ) :=
  let stateOld := fun i => preAll y.toPpoSys g.pre (d i).state
  let pre := updAll y.toPpoSys g.pre ((List.range n).map fun i => (d i).state)
  let state := fun i => preAll y.toPpoSys pre (d i).state
  let next := fun i => preAll y.toPpoSys pre (d i).next
  let lam := g.lam.call []
  let gae := computeGae ⟨fun i => (d i).reward, fun i => y.value g.critic (state i), fun i => y.value g.critic (next i),
    fun i => (d i).absorbing, fun i => (d i).last⟩ y.gamma lam.2 n g0
  let a : Arrays S A := {
    obs := (List.range n).map state
    act := (List.range n).map fun i => (d i).action
    adv := standardise ((List.range n).map gae.2)
    old := (List.range n).map fun i => y.logp g.weights (stateOld i) (d i).action
    obsOld := (List.range n).map stateOld }
  let ent := g.ent.call []
  let prev := lossAt y a ent.2 g.weights
  let b := gradAt y a ent.2 g.weights
  let k := g.nCg.call []
  match asInt k.1 k.2 with
  | none => .error .type
  | some k' =>
    let cg := cgSolve (fisher y a g.weights g.weights) k'.toNat (g.damping, g.tol) b
    let dp := cg.1.1.call []
    let m := g.maxKl.call []
    let full := stepOf (fisher y a g.weights g.weights dp.2) m.2 cg.2
    let e := g.nSearch.call []
    match asInt e.1 e.2 with
    | none => .error .type
    | some e' =>
      let s := search y a prev (m.1.getValue []) g.weights full e'.toNat ent.1 1
      let f := y.fitCritic g.rng g.critic ((List.range n).map fun i => (state i, gae.1 i))
      .ok { g with
        pre := pre, lam := lam.1, grad := b.getD 0, oldPolicy := some g.weights, ent := s.1, nCg := k.1, damping := dp.1, tol := cg.1.2, maxKl := m.1
        nSearch := e.1, weights := s.2, rng := f.1, critic := f.2, iter := g.iter + 1 }

end

end Verif.ActorCritic.Trust
