/-
Properties of ePPO (C114).
-/
import Verif.Search.ModelEppo
import Verif.ActorCritic.PropsPPO
import Verif.Utils.Props
import Verif.Approx.PropsFit

namespace Verif.Search.Eppo

open Verif.ActorCritic

noncomputable section

variable {P Θ C O : Type}

/-! ### The batch -/

/-- C114: with at least two episodes the full batch has one row for each, with its parameters, its log-density under the distribution that drew it and
its standardised return. -/
theorem C114_batch (d : Distribution P Θ C) (hd : d.contextual = false) (p : P) (returns : List ℝ) (thetas : List Θ) (contexts : List C)
    (h : 2 ≤ returns.length) (hl : thetas.length = returns.length) :
    ∃ js full, standardise returns = some js ∧ fullBatch d p returns thetas contexts = some full ∧ full.map Episode.theta = thetas ∧
      full.map Episode.ret = js ∧ (∀ e ∈ full, e.old = d.logPdf p e.context e.theta ∧ e.context = none) := by
  obtain ⟨js, hj, hjl, _⟩ := C92_standardise_partial returns h
  refine ⟨js, _, hj, by rw [fullBatch, hj]; rfl, ?_, ?_, ?_⟩
  · rw [hd]
    apply List.ext_getElem
    · simp [hl, hjl]
    · intro i h1 h2; simp
  · rw [hd]
    apply List.ext_getElem
    · simp [hl, hjl]
    · intro i h1 h2; simp
  · intro e he
    rw [hd] at he
    obtain ⟨i, hi, rfl⟩ := List.mem_iff_getElem.1 he
    simp

/-- C114 refuted: the returns of a single episode cannot be standardised; the distribution is lost. -/
theorem C114_single_refuted (d : Distribution P Θ C) (step : Step P O) (eps ent : ℝ) (nEpochs b : ℕ) (shuffle : ℕ → List ℕ) (s : O × P) (r : ℝ) (θ : Θ)
    (cs : List C) : update d step eps ent nEpochs b shuffle s [r] [θ] cs = none := by
  simp [update, fullBatch, C92_refuted]

/-- C114: in every epoch each episode is in exactly one minibatch, and minibatches have at most the given size. -/
theorem C114_epoch (b : ℕ) (hb : 0 < b) (full : List (Episode Θ C)) (shuffle : List ℕ) (hp : shuffle.Perm (List.range full.length)) :
    (minibatches b full shuffle).flatten.Perm full ∧ (∀ m ∈ minibatches b full shuffle, m.length ≤ b) ∧
      (minibatches b full shuffle).length = (full.length + b - 1) / b := by
  refine ⟨?_, ?_, ?_⟩
  · have hf := (Utils.C39_partition full.length b hb shuffle hp).1
    have : ∀ ll : List (List ℕ), (ll.map (fun idx => idx.filterMap (fun j => full[j]?))).flatten = ll.flatten.filterMap (fun j => full[j]?) := by
      intro ll
      induction ll with
      | nil => rfl
      | cons a ll ih => rw [List.map_cons, List.flatten_cons, List.flatten_cons, List.filterMap_append, ih]
    rw [minibatches, this, hf]
    exact (hp.filterMap _).trans (by rw [Approx.Fit.select_all])
  · intro m hm
    obtain ⟨idx, hidx, rfl⟩ := List.mem_map.1 hm
    obtain ⟨i, hi, rfl⟩ := List.mem_iff_getElem.1 hidx
    refine (List.length_filterMap_le _ _).trans ?_
    rw [(Utils.C39_sizes full.length b hb shuffle hp i hi).1]
    exact min_le_left _ _
  · rw [minibatches, List.length_map, ← Utils.C39_number full.length b hb]
    simp [Utils.batchIndexes]

/-! ### The loss -/

/-- C114: for the parameters that drew the episodes, the loss of a minibatch is minus the mean of its standardised returns, minus the entropy bonus. -/
theorem C114_first (d : Distribution P Θ C) (eps ent : ℝ) (he : 0 ≤ eps) (p : P) (batch : List (Episode Θ C)) (h : ℝ)
    (hb : ∀ e ∈ batch, e.old = d.logPdf p e.context e.theta) (hh : d.entropy p (batchContexts d batch) = .scalar h) :
    loss d eps ent batch p = some (-meanOf (batch.map Episode.ret) - ent * h) := by
  unfold loss
  rw [hh]
  simp only
  congr 4
  apply List.map_congr_left
  intro e hem
  rw [hb e hem, sub_self, Real.exp_zero, C61_inside eps 1 e.ret (by linarith) (by linarith), one_mul]

example : loss (⟨fun p _ θ => -(θ - p) ^ 2, fun _ _ => .scalar 1, false⟩ : Distribution ℝ ℝ Unit) (1 / 5) (1 / 10)
    [⟨3, 7, -(3 - 1) ^ 2, none⟩, ⟨0, 5, -(0 - 1) ^ 2, none⟩] 1 = some (-meanOf [7, 5] - 1 / 10 * 1) :=
  C114_first _ (1 / 5) (1 / 10) (by norm_num) 1 _ 1 (by simp) rfl

/-- C114: the loss is never smaller than without clipping. -/
theorem C114_pessimistic (d : Distribution P Θ C) (eps ent : ℝ) (p : P) (batch : List (Episode Θ C)) (v h : ℝ)
    (hh : d.entropy p (batchContexts d batch) = .scalar h) (hv : loss d eps ent batch p = some v) :
    -meanOf (batch.map (fun e => Real.exp (d.logPdf p e.context e.theta - e.old) * e.ret)) - ent * h ≤ v := by
  unfold loss at hv
  rw [hh] at hv
  simp only [Option.some.injEq] at hv
  rw [← hv]
  have : meanOf (batch.map (fun e => surrogate eps (Real.exp (d.logPdf p e.context e.theta - e.old)) e.ret))
      ≤ meanOf (batch.map (fun e => Real.exp (d.logPdf p e.context e.theta - e.old) * e.ret)) := by
    unfold meanOf
    simp only [List.length_map]
    apply div_le_div_of_nonneg_right _ (by positivity)
    exact List.sum_le_sum (fun e _ => C61_pessimistic _ _ _)
  linarith

/-- C114: if all episodes have the same return, the returns have no influence on the loss. -/
theorem C114_equal (d : Distribution P Θ C) (eps ent : ℝ) (p q : P) (c : ℝ) (thetas : List Θ) (contexts : List C) (h : 2 ≤ thetas.length)
    (full batch : List (Episode Θ C)) (hf : fullBatch d p (List.replicate thetas.length c) thetas contexts = some full) (hb : ∀ e ∈ batch, e ∈ full) (v : ℝ)
    (hh : d.entropy q (batchContexts d batch) = .scalar v) : loss d eps ent batch q = some (-(ent * v)) := by
  rw [fullBatch, C92_constant c _ h] at hf
  simp only [Option.map_some, Option.some.injEq] at hf
  have hr : ∀ e ∈ batch, e.ret = 0 := by
    intro e he
    have := hb e he
    rw [← hf] at this
    obtain ⟨i, hi, rfl⟩ := List.mem_iff_getElem.1 this
    simp
  unfold loss
  rw [hh]
  have : batch.map (fun e => surrogate eps (Real.exp (d.logPdf q e.context e.theta - e.old)) e.ret) = batch.map (fun _ => (0 : ℝ)) := by
    apply List.map_congr_left
    intro e he
    rw [hr e he]; simp [surrogate]
  simp only [this]
  simp [meanOf]

theorem standardise_shift (l : List ℝ) (c : ℝ) : standardise (l.map (· + c)) = standardise l := by
  unfold standardise torchStd
  simp only [List.length_map]
  split_ifs with h
  · rfl
  · have hl : (l.length : ℝ) ≠ 0 := by
      have : 0 < l.length := by omega
      positivity
    have hm : meanOf (l.map (· + c)) = meanOf l + c := by
      unfold meanOf
      have : (l.map (· + c)).sum = l.sum + l.length * c := by
        rw [List.sum_map_add]; simp
      rw [this, List.length_map]
      field_simp
    simp only [hm, List.map_map, Option.map_some]
    have h1 : (l.map ((fun x => (x - (meanOf l + c)) ^ 2) ∘ fun x => x + c)) = l.map (fun x => (x - meanOf l) ^ 2) := by
      apply List.map_congr_left
      intro x _
      simp
    rw [h1]
    congr 1
    apply List.map_congr_left
    intro x _
    simp

/-- C114: adding a number to the returns of all episodes changes nothing. -/
theorem C114_shift (d : Distribution P Θ C) (step : Step P O) (eps ent : ℝ) (nEpochs b : ℕ) (shuffle : ℕ → List ℕ) (s : O × P) (returns : List ℝ)
    (thetas : List Θ) (contexts : List C) (c : ℝ) :
    update d step eps ent nEpochs b shuffle s (returns.map (· + c)) thetas contexts = update d step eps ent nEpochs b shuffle s returns thetas contexts := by
  unfold update fullBatch
  rw [standardise_shift]

/-! ### Optimisation -/

/-- C114: if the entropy is a number, the optimiser makes one step for each minibatch of each epoch. -/
theorem C114_steps (d : Distribution P Θ C) (f : ℕ → (P → Option ℝ) → P → P) (eps ent : ℝ) (nEpochs b : ℕ) (hb : 0 < b) (shuffle : ℕ → List ℕ) (p : P)
    (returns : List ℝ) (thetas : List Θ) (contexts : List C) (full : List (Episode Θ C)) (hf : fullBatch d p returns thetas contexts = some full)
    (hs : ∀ k, (shuffle k).Perm (List.range full.length)) (he : ∀ q c, ∃ h, d.entropy q c = .scalar h) :
    ∃ q, update d (fun n L q => (n + 1, f n L q)) eps ent nEpochs b shuffle (0, p) returns thetas contexts
      = some (nEpochs * ((full.length + b - 1) / b), q) := by
  have hl : ∀ batch q, ∃ v, loss d eps ent batch q = some v := by
    intro batch q
    obtain ⟨h, hh⟩ := he q (batchContexts d batch)
    exact ⟨_, by rw [loss, hh]⟩
  have hin : ∀ (ms : List (List (Episode Θ C))) (n : ℕ) (q : P), ∃ q', ms.foldl (fitBatch d (fun n L q => (n + 1, f n L q)) eps ent) (some (n, q))
      = some (n + ms.length, q') := by
    intro ms
    induction ms with
    | nil => intro n q; exact ⟨q, rfl⟩
    | cons m ms ih =>
      intro n q
      obtain ⟨v, hv⟩ := hl m q
      obtain ⟨q', hq'⟩ := ih (n + 1) (f n (loss d eps ent m) q)
      refine ⟨q', ?_⟩
      rw [List.foldl_cons, fitBatch, Option.bind_some, hv, Option.map_some, hq', List.length_cons]
      congr 2; omega
  have hout : ∀ ks : List ℕ, ∀ n q, ∃ q', ks.foldl (fun s k => (minibatches b full (shuffle k)).foldl (fitBatch d (fun n L q => (n + 1, f n L q)) eps ent) s)
      (some (n, q)) = some (n + ks.length * ((full.length + b - 1) / b), q') := by
    intro ks
    induction ks with
    | nil => intro n q; exact ⟨q, by simp⟩
    | cons k ks ih =>
      intro n q
      obtain ⟨q1, h1⟩ := hin (minibatches b full (shuffle k)) n q
      obtain ⟨q2, h2⟩ := ih (n + (minibatches b full (shuffle k)).length) q1
      refine ⟨q2, ?_⟩
      rw [List.foldl_cons, h1, h2, (C114_epoch b hb full (shuffle k) (hs k)).2.2, List.length_cons]
      congr 2; ring
  obtain ⟨q, hq⟩ := hout (List.range nEpochs) 0 p
  refine ⟨q, ?_⟩
  unfold update
  simp only [hf, Option.bind_some]
  rw [hq]
  simp

/-- C114: at the parameters that drew the episodes, the gradient of the loss is minus the mean of the score times the standardised return, minus the gradient of the
entropy bonus. -/
theorem C114_gradient {P : Type} [NormedAddCommGroup P] [NormedSpace ℝ P] (d : Distribution P Θ C) (eps ent : ℝ) (he : 0 < eps) (p : P)
    (batch : List (Episode Θ C)) (hb : ∀ e ∈ batch, e.old = d.logPdf p e.context e.theta) (score : Episode Θ C → P →L[ℝ] ℝ)
    (hs : ∀ e ∈ batch, HasFDerivAt (fun q => d.logPdf q e.context e.theta) (score e) p) (h : P → ℝ) (h' : P →L[ℝ] ℝ)
    (hh : ∀ q, d.entropy q (batchContexts d batch) = .scalar (h q)) (hd : HasFDerivAt h h' p) :
    ∃ L : P → ℝ, (∀ q, loss d eps ent batch q = some (L q)) ∧
      HasFDerivAt L (-((1 / (batch.length : ℝ)) • (batch.map (fun e => e.ret • score e)).sum) - ent • h') p := by
  refine ⟨fun q => -meanOf (batch.map (fun e => surrogate eps (Real.exp (d.logPdf q e.context e.theta - e.old)) e.ret)) - ent * h q, fun q => by
    rw [loss, hh], ?_⟩
  have hsum : HasFDerivAt (fun q => (batch.map (fun e => surrogate eps (Real.exp (d.logPdf q e.context e.theta - e.old)) e.ret)).sum)
      ((batch.map (fun e => e.ret • score e)).sum) p := by
    clear hh
    induction batch with
    | nil => simpa using hasFDerivAt_const (0 : ℝ) p
    | cons e batch ih =>
      have h1 := ih (fun x hx => hb x (by simp [hx])) (fun x hx => hs x (by simp [hx]))
      have h2 := C61_gradient eps e.old e.ret he
      have h3 : HasFDerivAt (fun q => surrogate eps (Real.exp (d.logPdf q e.context e.theta - e.old)) e.ret) (e.ret • score e) p := by
        have ho : d.logPdf p e.context e.theta = e.old := (hb e (by simp)).symm
        have := HasDerivAt.comp_hasFDerivAt (f := fun q => d.logPdf q e.context e.theta) p (by rw [ho]; exact h2) (hs e (by simp))
        exact this
      simp only [List.map_cons, List.sum_cons]
      exact h3.add h1
  have hmean := (hsum.const_mul (1 / (batch.length : ℝ))).neg
  have hfun : (fun q => -meanOf (batch.map (fun e => surrogate eps (Real.exp (d.logPdf q e.context e.theta - e.old)) e.ret)) - ent * h q)
      = fun q => -(1 / (batch.length : ℝ) * (batch.map (fun e => surrogate eps (Real.exp (d.logPdf q e.context e.theta - e.old)) e.ret)).sum) - ent * h q := by
    funext q
    simp only [meanOf, List.length_map]
    ring
  rw [hfun]
  exact hmean.sub (hd.const_mul ent)

/-! ### Contexts -/

/-- C114 refuted: if the entropy of a contextual distribution is one number for each context, as with the Gaussian torch distributions, the update raises an exception. -/
theorem C114_context_refuted (d : Distribution P Θ C) (step : Step P O) (eps ent : ℝ) (nEpochs b : ℕ) (hn : 0 < nEpochs) (hb : 0 < b) (shuffle : ℕ → List ℕ)
    (s : O × P) (returns : List ℝ) (thetas : List Θ) (contexts : List C) (hne : thetas ≠ []) (hc : contexts.length = thetas.length)
    (hr : returns.length = thetas.length) (hd : d.contextual = true) (he : ∀ q cs, ∃ l, d.entropy q (some cs) = .vector l)
    (hs : ∀ k, (shuffle k).Perm (List.range thetas.length)) :
    update d step eps ent nEpochs b shuffle s returns thetas contexts = none := by
  unfold update
  cases hf : fullBatch d s.2 returns thetas contexts with
  | none => rfl
  | some full =>
    have hlen : full.length = thetas.length := by
      unfold fullBatch at hf
      simp only [Option.map_eq_some_iff] at hf
      obtain ⟨js, hj, rfl⟩ := hf
      have : js.length = returns.length := by
        unfold standardise at hj
        simp only [Option.map_eq_some_iff] at hj
        obtain ⟨_, _, rfl⟩ := hj
        simp
      simp [hd, hc, this, hr]
    have hl : ∀ batch q, loss d eps ent batch q = none := by
      intro batch q
      obtain ⟨l, hl⟩ := he q (batch.filterMap Episode.context)
      rw [loss, batchContexts, if_pos hd, hl]
    have hnone : ∀ ms : List (List (Episode Θ C)), ms.foldl (fitBatch d step eps ent) none = none := by
      intro ms
      induction ms with
      | nil => rfl
      | cons m ms ih => rw [List.foldl_cons]; exact ih
    have hone : ∀ ms : List (List (Episode Θ C)), ms ≠ [] → ∀ t, ms.foldl (fitBatch d step eps ent) t = none := by
      intro ms hms t
      cases ms with
      | nil => exact absurd rfl hms
      | cons m ms =>
        rw [List.foldl_cons]
        have : fitBatch d step eps ent t m = none := by
          unfold fitBatch
          simp [hl]
        rw [this, hnone]
    have hm : ∀ k, minibatches b full (shuffle k) ≠ [] := by
      intro k h0
      have := (C114_epoch b hb full (shuffle k) (by rw [hlen]; exact hs k)).2.2
      rw [h0, hlen] at this
      have h1 : 0 < thetas.length := List.length_pos_iff.2 hne
      have : 0 < (thetas.length + b - 1) / b := Nat.div_pos (by omega) hb
      simp_all
    obtain ⟨m, rfl⟩ : ∃ m, nEpochs = m + 1 := ⟨nEpochs - 1, by omega⟩
    simp only [Option.bind_some]
    rw [List.range_succ, List.foldl_append]
    simp only [List.foldl_cons, List.foldl_nil]
    exact hone _ (hm m) _

/-- C114 refuted: with contexts the old log-densities are computed without them; then the loss at the parameters that drew the episodes is not that of a ratio
of one. -/
theorem C114_ratio_refuted : ∃ (d : Distribution Unit ℝ ℝ) (full : List (Episode ℝ ℝ)), d.contextual = true ∧
    fullBatch d () [0, 1] [0, 0] [1, 1] = some full ∧ (∀ e ∈ full, e.old ≠ d.logPdf () e.context e.theta) := by
  obtain ⟨js, hj, hl, _⟩ := C92_standardise_partial [0, 1] (by simp)
  match js, hl with
  | [a, b], _ =>
    refine ⟨⟨fun _ c θ => -(θ - c.getD 0) ^ 2, fun _ _ => .scalar 0, true⟩, _, rfl, by rw [fullBatch, hj]; rfl, ?_⟩
    intro e he
    simp at he
    rcases he with rfl | rfl <;> norm_num

example : ∃ (d : Distribution ℝ ℝ Unit), d.contextual = false ∧ ∀ q c, ∃ h, d.entropy q c = .scalar h :=
  ⟨⟨fun p _ θ => -(θ - p) ^ 2, fun _ _ => .scalar 1, false⟩, rfl, fun _ _ => ⟨1, rfl⟩⟩

end

end Verif.Search.Eppo
