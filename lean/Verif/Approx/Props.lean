/-
Properties of the approximators: C40 (weights), C81 (Q-values of single actions), C82 (least squares), C83 (derivatives),
C84 (tile-coding approximator), C85 (ensembles).
-/
import Verif.Approx.Spec
import Verif.Features.Props
import Mathlib.Algebra.Order.BigOperators.Group.List
import Mathlib.Algebra.Order.BigOperators.Group.Finset
import Mathlib.Data.List.GetD

namespace Verif.Approx

open Verif.Features

noncomputable section

/-! ### C40 -/

theorem slices_flatten {α : Type} (cols : ℕ) (w : List (List α)) (h : ∀ r ∈ w, r.length = cols) :
    (List.range w.length).map (fun i => (w.flatten.drop (i * cols)).take cols) = w := by
  induction w with
  | nil => rfl
  | cons r w ih =>
      have hr : r.length = cols := h r (by simp)
      rw [List.length_cons, List.range_succ_eq_map, List.map_cons, List.map_map]
      congr 1
      · simp [← hr]
      · rw [← ih (fun r' h' => h r' (by simp [h']))]
        conv_rhs => rw [← ih (fun r' h' => h r' (by simp [h']))]
        simp only [List.length_map, List.length_range]
        rw [ih (fun r' h' => h r' (by simp [h']))]
        apply List.map_congr_left
        intro i _
        simp only [Function.comp, List.flatten_cons, Nat.succ_eq_add_one, Nat.add_mul, Nat.one_mul]
        rw [List.drop_append, List.drop_eq_nil_of_le (by omega), hr]
        simp

theorem flatten_slices {α : Type} (rows cols : ℕ) (w : List α) (h : w.length = rows * cols) :
    ((List.range rows).map (fun i => (w.drop (i * cols)).take cols)).flatten = w := by
  induction rows generalizing w with
  | zero =>
      have : w = [] := List.eq_nil_of_length_eq_zero (by simpa using h)
      simp [this]
  | succ rows ih =>
      rw [List.range_succ_eq_map, List.map_cons, List.map_map, List.flatten_cons]
      have := ih (w.drop cols) (by rw [List.length_drop, h, Nat.succ_mul]; omega)
      have e : (fun i => ((w.drop cols).drop (i * cols)).take cols) =
          (fun i => (w.drop (i * cols)).take cols) ∘ Nat.succ := by
        funext i
        simp only [Function.comp, List.drop_drop, Nat.succ_eq_add_one, Nat.add_mul, Nat.one_mul]
        rw [Nat.add_comm]
      rw [← e, this]
      simp

theorem size_shaped {l : Linear} (h : l.Shaped) : l.size = l.rows * l.cols := by
  obtain ⟨h1, h2⟩ := h
  unfold Linear.size
  rw [← h1]
  generalize l.w = w at *
  clear h1
  induction w with
  | nil => simp
  | cons r w ih =>
      rw [List.map_cons, List.sum_cons, ih (fun r' h' => h2 r' (by simp [h'])), h2 r (by simp), List.length_cons,
        Nat.succ_mul]
      omega

theorem get_length {l : Linear} (h : l.Shaped) : l.getWeights.length = l.rows * l.cols := by
  rw [← size_shaped h, Linear.getWeights, List.length_flatten, Linear.size]

/-- C40. Linear approximator: writing back the weights that were read changes nothing. A vector of the right size is accepted
and read back unchanged. A vector of another size is rejected. -/
theorem C40_linear (l : Linear) (h : l.Shaped) (w : List ℝ) :
    l.setWeights l.getWeights = some l ∧
    (w.length = l.size → ∃ l', l.setWeights w = some l' ∧ l'.Shaped ∧ l'.getWeights = w ∧ l'.rows = l.rows ∧
      l'.cols = l.cols) ∧
    (w.length ≠ l.size → l.setWeights w = none) := by
  refine ⟨?_, ?_, ?_⟩
  · unfold Linear.setWeights reshape
    rw [if_pos (get_length h), Option.map_some]
    unfold Linear.getWeights
    congr 1
    have := slices_flatten l.cols l.w h.2
    rw [h.1] at this
    rw [this]
  · intro hw
    rw [size_shaped h] at hw
    refine ⟨{ l with w := (List.range l.rows).map (fun i => (w.drop (i * l.cols)).take l.cols) },
      by unfold Linear.setWeights reshape; rw [if_pos hw, Option.map_some], ⟨by simp, ?_⟩, ?_, rfl, rfl⟩
    · intro r hr
      simp only [List.mem_map, List.mem_range] at hr
      obtain ⟨i, hi, rfl⟩ := hr
      have : (i + 1) * l.cols ≤ l.rows * l.cols := Nat.mul_le_mul_right _ hi
      rw [Nat.succ_mul] at this
      show _ = l.cols
      rw [List.length_take, List.length_drop]; omega
    · exact flatten_slices _ _ _ hw
  · intro hw
    rw [size_shaped h] at hw
    unfold Linear.setWeights reshape
    rw [if_neg hw]; rfl

theorem actionSetLoop_spec (rows cols : ℕ) (ms : List Linear) (h : Alike rows cols ms) (w : List ℝ) (i : ℕ)
    (hw : (i + ms.length) * (rows * cols) ≤ w.length) :
    ∃ ms', actionSetLoop (rows * cols) w i ms = some ms' ∧ ms'.length = ms.length ∧ Alike rows cols ms' ∧
      ∀ k, k < ms.length → (ms'.getD k ⟨0, 0, []⟩).getWeights = (w.drop ((i + k) * (rows * cols))).take (rows * cols) := by
  induction ms generalizing i with
  | nil => exact ⟨[], rfl, rfl, by simp [Alike], by simp⟩
  | cons m ms ih =>
      obtain ⟨hm, hr, hc⟩ := h m (by simp)
      rw [List.length_cons] at hw
      obtain ⟨ms', h1, h2, h3, h4⟩ := ih (fun m' h' => h m' (by simp [h'])) (i + 1) (by
        rw [show i + 1 + ms.length = i + (ms.length + 1) by omega]; exact hw)
      have hlen : ((w.drop (i * (rows * cols))).take (rows * cols)).length = m.size := by
        rw [size_shaped hm, hr, hc, List.length_take, List.length_drop]
        have : (i + 1) * (rows * cols) ≤ (i + (ms.length + 1)) * (rows * cols) := Nat.mul_le_mul_right _ (by omega)
        rw [Nat.succ_mul] at this
        omega
      obtain ⟨m', h5, h6, h7, h8, h9⟩ := (C40_linear m hm _).2.1 hlen
      refine ⟨m' :: ms', ?_, by simp [h2], ?_, ?_⟩
      · rw [actionSetLoop, h5, h1]; rfl
      · intro m0 hm0
        simp only [List.mem_cons] at hm0
        rcases hm0 with rfl | hm0
        · exact ⟨h6, h8.trans hr, h9.trans hc⟩
        · exact h3 m0 hm0
      · intro k hk
        cases k with
        | zero => simpa using h7
        | succ k =>
            rw [List.getD_cons_succ, h4 k (by simpa using hk), show i + 1 + k = i + (k + 1) by omega]

theorem actionGet_eq (rows cols : ℕ) (ms : List Linear) (h : Alike rows cols ms) :
    (actionGet ms).length = ms.length * (rows * cols) ∧
    ∀ k, k < ms.length → ((actionGet ms).drop (k * (rows * cols))).take (rows * cols) = (ms.getD k ⟨0, 0, []⟩).getWeights := by
  have hall : ∀ r ∈ ms.map Linear.getWeights, r.length = rows * cols := by
    intro r hr
    simp only [List.mem_map] at hr
    obtain ⟨m, hm, rfl⟩ := hr
    obtain ⟨h1, h2, h3⟩ := h m hm
    rw [get_length h1, h2, h3]
  have hs := slices_flatten (rows * cols) (ms.map Linear.getWeights) hall
  constructor
  · unfold actionGet
    rw [List.length_flatten]
    have : ∀ l : List (List ℝ), (∀ r ∈ l, r.length = rows * cols) → (l.map List.length).sum = l.length * (rows * cols) := by
      intro l
      induction l with
      | nil => simp
      | cons r l ih =>
          intro hl
          rw [List.map_cons, List.sum_cons, ih (fun r' h' => hl r' (by simp [h'])), hl r (by simp), List.length_cons,
            Nat.succ_mul, Nat.add_comm]
    rw [this _ hall, List.length_map]
  · intro k hk
    have hk' : k < (ms.map Linear.getWeights).length := by simpa using hk
    have := congrArg (fun l => l.getD k []) hs
    beta_reduce at this
    rw [List.getD_eq_getElem _ _ (by simpa using hk), List.getD_eq_getElem _ _ hk'] at this
    simp only [List.getElem_map, List.getElem_range] at this
    rw [List.getD_eq_getElem _ _ hk, ← this]
    rfl

theorem alike_size (rows cols : ℕ) (ms : List Linear) (h : Alike rows cols ms) (hne : ms ≠ []) :
    (ms.head?.map Linear.size).getD 0 = rows * cols := by
  cases ms with
  | nil => exact absurd rfl hne
  | cons m ms =>
      obtain ⟨h1, h2, h3⟩ := h m (by simp)
      simp [size_shaped h1, h2, h3]

theorem alike_ext (rows cols : ℕ) (m m' : Linear) (h : m.Shaped ∧ m.rows = rows ∧ m.cols = cols)
    (h' : m'.Shaped ∧ m'.rows = rows ∧ m'.cols = cols) (hg : m.getWeights = m'.getWeights) : m = m' := by
  have e1 := (C40_linear m h.1 []).1
  have e2 := (C40_linear m' h'.1 []).1
  rw [hg] at e1
  unfold Linear.setWeights at e1 e2
  rw [h.2.1, h.2.2] at e1
  rw [h'.2.1, h'.2.2] at e2
  cases hr : reshape rows cols m'.getWeights with
  | none => rw [hr] at e2; cases e2
  | some w =>
      rw [hr] at e1 e2
      simp only [Option.map_some, Option.some.injEq] at e1 e2
      rw [← e1, ← e2]

/-- C40. Regressor with one linear model for each action: writing back the weights that were read changes nothing; a vector
of the right size is read back unchanged; the model of action `a` is determined by slice `a` of the vector only; a vector
that is too long is accepted and its tail is ignored. -/
theorem C40_action (rows cols : ℕ) (ms : List Linear) (h : Alike rows cols ms) (hne : ms ≠ []) :
    actionSet ms (actionGet ms) = some ms ∧
    (∀ w : List ℝ, w.length = actionSize ms → ∃ ms', actionSet ms w = some ms' ∧ actionGet ms' = w) ∧
    (∀ w : List ℝ, actionSize ms ≤ w.length → ∃ ms', actionSet ms w = some ms' ∧ ms'.length = ms.length ∧
      actionGet ms' = w.take (actionSize ms)) ∧
    (∀ (w w' : List ℝ) (ms' ms'' : List Linear) (a : ℕ), actionSize ms ≤ w.length → actionSize ms ≤ w'.length →
      (w.drop (a * (rows * cols))).take (rows * cols) = (w'.drop (a * (rows * cols))).take (rows * cols) →
      actionSet ms w = some ms' → actionSet ms w' = some ms'' → a < ms.length →
      ms'.getD a ⟨0, 0, []⟩ = ms''.getD a ⟨0, 0, []⟩) := by
  have hsz := alike_size rows cols ms h hne
  have hS : actionSize ms = ms.length * (rows * cols) := by unfold actionSize; rw [hsz, Nat.mul_comm]
  have hrun : ∀ w : List ℝ, actionSize ms ≤ w.length → ∃ ms', actionSet ms w = some ms' ∧ ms'.length = ms.length ∧
      Alike rows cols ms' ∧ ∀ k, k < ms.length →
        (ms'.getD k ⟨0, 0, []⟩).getWeights = (w.drop (k * (rows * cols))).take (rows * cols) := by
    intro w hw
    rw [hS] at hw
    obtain ⟨ms', h1, h2, h3, h4⟩ := actionSetLoop_spec rows cols ms h w 0 (by simpa using hw)
    refine ⟨ms', by unfold actionSet; rw [hsz]; exact h1, h2, h3, fun k hk => by simpa using h4 k hk⟩
  have hlong : ∀ w : List ℝ, actionSize ms ≤ w.length → ∃ ms', actionSet ms w = some ms' ∧ ms'.length = ms.length ∧
      actionGet ms' = w.take (actionSize ms) := by
    intro w hw
    obtain ⟨ms', h1, h2, h3, h4⟩ := hrun w hw
    refine ⟨ms', h1, h2, ?_⟩
    have hm : ms'.map Linear.getWeights =
        (List.range ms.length).map (fun i => ((w.take (actionSize ms)).drop (i * (rows * cols))).take (rows * cols)) := by
      apply List.ext_getElem
      · simp [h2]
      · intro k hk hk'
        simp only [List.length_map, h2] at hk
        have := h4 k hk
        rw [List.getD_eq_getElem _ _ (by omega)] at this
        rw [List.getElem_map, this, List.getElem_map, List.getElem_range, List.drop_take, List.take_take, hS]
        congr 1
        have : (k + 1) * (rows * cols) ≤ ms.length * (rows * cols) := Nat.mul_le_mul_right _ hk
        rw [Nat.succ_mul] at this
        omega
    unfold actionGet
    rw [hm]
    exact flatten_slices _ _ _ (by rw [List.length_take, hS]; rw [hS] at hw; omega)
  refine ⟨?_, ?_, hlong, ?_⟩
  · obtain ⟨hl, hk⟩ := actionGet_eq rows cols ms h
    obtain ⟨ms', h1, h2, h3, h4⟩ := hrun (actionGet ms) (by rw [hS, hl])
    rw [h1]
    congr 1
    apply List.ext_getElem h2
    intro k hk1 hk2
    have e1 := h4 k hk2
    rw [hk k hk2, List.getD_eq_getElem _ _ hk1, List.getD_eq_getElem _ _ hk2] at e1
    exact alike_ext rows cols _ _ (h3 _ (List.getElem_mem hk1)) (h _ (List.getElem_mem hk2)) e1
  · intro w hw
    obtain ⟨ms', h1, _, h3⟩ := hlong w (by omega)
    exact ⟨ms', h1, by rw [h3, ← hw, List.take_length]⟩
  · intro w w' ms' ms'' a hw hw' hs h1 h2 ha
    obtain ⟨m1, e1, l1, a1, g1⟩ := hrun w hw
    obtain ⟨m2, e2, l2, a2, g2⟩ := hrun w' hw'
    rw [e1] at h1; rw [e2] at h2
    cases h1; cases h2
    rw [List.getD_eq_getElem _ _ (by omega), List.getD_eq_getElem _ _ (by omega)]
    have g1' := g1 a ha
    have g2' := g2 a ha
    rw [List.getD_eq_getElem _ _ (by omega)] at g1' g2'
    exact alike_ext rows cols _ _ (a1 _ (List.getElem_mem _)) (a2 _ (List.getElem_mem _)) (by rw [g1', g2', hs])

theorem torchSet_spec (ps : List (List ℝ)) (w : List ℝ) (idx : ℕ) (h : idx + (ps.map List.length).sum ≤ w.length) :
    (torchSet ps w idx).2 = true ∧
    torchGet (torchSet ps w idx).1 = (w.drop idx).take (ps.map List.length).sum ∧
    (torchSet ps w idx).1.map List.length = ps.map List.length := by
  induction ps generalizing idx with
  | nil => simp [torchSet, torchGet]
  | cons p ps ih =>
      rw [List.map_cons, List.sum_cons] at h
      have hl : ((w.drop idx).take p.length).length = p.length := by rw [List.length_take, List.length_drop]; omega
      rw [torchSet]
      simp only
      rw [if_pos hl]
      obtain ⟨h1, h2, h3⟩ := ih (idx + p.length) (by omega)
      refine ⟨h1, ?_, ?_⟩
      · simp only [torchGet, List.flatten_cons] at h2 ⊢
        rw [h2, List.map_cons, List.sum_cons, List.take_add, List.drop_drop]
      · simp only [List.map_cons, hl, h3]

/-- C40. Torch parameters: writing back the weights that were read changes nothing; a vector of the right size is read back
unchanged and the shapes are kept. A longer vector is accepted and its tail is ignored. -/
theorem C40_torch (ps : List (List ℝ)) (w : List ℝ) :
    torchSet ps (torchGet ps) 0 = (ps, true) ∧
    ((torchGet ps).length ≤ w.length → (torchSet ps w 0).2 = true ∧
      torchGet (torchSet ps w 0).1 = w.take (torchGet ps).length ∧
      (torchSet ps w 0).1.map List.length = ps.map List.length) := by
  constructor
  · have key : ∀ (ps : List (List ℝ)) (pre : List ℝ), torchSet ps (pre ++ ps.flatten) pre.length = (ps, true) := by
      intro ps
      induction ps with
      | nil => intro pre; rfl
      | cons p ps ih =>
          intro pre
          rw [torchSet]
          have hs : ((pre ++ (p :: ps).flatten).drop pre.length).take p.length = p := by simp
          simp only [hs, if_true]
          have := ih (pre ++ p)
          rw [List.append_assoc, List.length_append] at this
          rw [List.flatten_cons, this]
    simpa [torchGet] using key ps []
  · intro h
    have hlen : (torchGet ps).length = (ps.map List.length).sum := by rw [torchGet, List.length_flatten]
    rw [hlen] at h ⊢
    obtain ⟨h1, h2, h3⟩ := torchSet_spec ps w 0 (by omega)
    exact ⟨h1, by simpa using h2, h3⟩

/-- C40. If the vector is too short the call fails, but it may already have changed some of the parameters. -/
theorem C40_torch_short : ∃ (ps : List (List ℝ)) (w : List ℝ), (torchSet ps w 0).2 = false ∧ (torchSet ps w 0).1 ≠ ps := by
  refine ⟨[[0], [0, 0]], [1, 2], ?_, ?_⟩ <;> simp [torchSet]

/-- C40. The linear approximator does not copy the weights it is given: a later change of the caller's array changes the
weights of the approximator. -/
theorem C40_shared (s : Shared) (a k : ℕ) (v : ℝ) :
    ((s.setWeights a).write a k v).getWeights = (s.arrays a).set k v := by
  simp [Shared.setWeights, Shared.write, Shared.getWeights]

theorem C40_shared_refuted : ¬ ∀ (s : Shared) (a k : ℕ) (v : ℝ),
    ((s.setWeights a).write a k v).getWeights = (s.setWeights a).getWeights := by
  intro h
  have := h ⟨fun _ => [0], 0⟩ 0 0 1
  simp [Shared.setWeights, Shared.write, Shared.getWeights] at this

example : (⟨2, 2, [[1, 2], [3, 4]]⟩ : Linear).Shaped := by constructor <;> simp
example : Alike 1 2 [⟨1, 2, [[1, 2]]⟩, ⟨1, 2, [[3, 4]]⟩] := by
  intro m hm; simp at hm; rcases hm with rfl | rfl <;> simp [Linear.Shaped]

/-! ### C81 -/

theorem writeRows_length {S : Type} (m : S → ℝ) (i : ℕ) (batch : List (S × ℕ)) (q : List ℝ) (h : q.length = batch.length) :
    (writeRows m i batch q).length = batch.length := by simp [writeRows, h]

/-- C81. The regressor with one model per action: the value predicted for row `k` of a batch of states and actions is the
entry of its action in the prediction of all the values, or zero if there is no such action. -/
theorem C81_action_predict {S : Type} (models : List (S → ℝ)) (batch : List (S × ℕ)) :
    (actionPredict models batch).length = batch.length ∧
    ∀ (k : ℕ) (hk : k < batch.length),
      (actionPredict models batch).getD k 0 = (actionPredictAll models (batch[k]).1).getD (batch[k]).2 0 := by
  have key : ∀ (models : List (S → ℝ)) (c : ℕ) (q : List ℝ), q.length = batch.length →
      ((models.zipIdx c).foldl (fun q mi => writeRows mi.1 mi.2 batch q) q).length = batch.length ∧
      ∀ (k : ℕ) (hk : k < batch.length),
        ((models.zipIdx c).foldl (fun q mi => writeRows mi.1 mi.2 batch q) q).getD k 0 =
          if c ≤ (batch[k]).2 ∧ (batch[k]).2 < c + models.length then
            (actionPredictAll models (batch[k]).1).getD ((batch[k]).2 - c) 0 else q.getD k 0 := by
    intro models
    induction models with
    | nil => intro c q hq; exact ⟨by simpa using hq, fun k hk => by rw [if_neg (by simp)]; simp⟩
    | cons m models ih =>
        intro c q hq
        rw [List.zipIdx_cons, List.foldl_cons]
        obtain ⟨h1, h2⟩ := ih (c + 1) (writeRows m c batch q) (writeRows_length m c batch q hq)
        refine ⟨h1, ?_⟩
        intro k hk
        rw [h2 k hk, List.length_cons]
        have hw : (writeRows m c batch q).getD k 0 = if (batch[k]).2 = c then m (batch[k]).1 else q.getD k 0 := by
          rw [List.getD_eq_getElem _ _ (by rw [writeRows_length m c batch q hq]; exact hk),
            List.getD_eq_getElem _ _ (by omega)]
          simp [writeRows]
        by_cases he : (batch[k]).2 = c
        · rw [if_neg (by omega), hw, if_pos he, if_pos (by omega), he]
          simp [actionPredictAll]
        · by_cases hr : c + 1 ≤ (batch[k]).2 ∧ (batch[k]).2 < c + 1 + models.length
          · rw [if_pos hr, if_pos (by omega), show (batch[k]).2 - c = ((batch[k]).2 - (c + 1)) + 1 by omega]
            simp [actionPredictAll]
          · rw [if_neg hr, if_neg (by omega), hw, if_neg he]
  obtain ⟨h1, h2⟩ := key models 0 (List.replicate batch.length 0) (by simp)
  refine ⟨h1, ?_⟩
  intro k hk
  have := h2 k hk
  unfold actionPredict
  rw [this]
  by_cases hr : (batch[k]).2 < models.length
  · rw [if_pos (by omega)]; simp
  · rw [if_neg (by omega), List.getD_eq_getElem _ _ (show k < (List.replicate batch.length (0 : ℝ)).length by simpa using hk),
      List.getD_eq_default _ _ (show (actionPredictAll models (batch[k]).1).length ≤ (batch[k]).2 by
        rw [actionPredictAll, List.length_map]; omega)]
    simp

/-- C81. The regressor with one output per action: if the call succeeds every value is the entry of the action of its row;
it fails exactly if some action has no output. -/
theorem C81_q_predict {S : Type} (model : S → List ℝ) (batch : List (S × ℕ)) :
    (∀ qs, qPredict model batch = some qs → List.Forall₂ (fun sa q => (model sa.1)[sa.2]? = some q) batch qs) ∧
    (qPredict model batch = none ↔ ∃ sa ∈ batch, (model sa.1).length ≤ sa.2) := by
  unfold qPredict
  induction batch with
  | nil => exact ⟨fun qs h => by simp at h; subst h; exact .nil, by simp⟩
  | cons sa batch ih =>
      obtain ⟨h1, h2⟩ := ih
      rw [List.mapM_cons]
      cases hv : (model sa.1)[sa.2]? with
      | none =>
          refine ⟨fun qs h => by simp at h, ?_⟩
          rw [List.getElem?_eq_none_iff] at hv
          simp only [Option.bind_eq_bind, Option.bind_none, true_iff]
          exact ⟨sa, by simp, hv⟩
      | some v =>
          have hlt : sa.2 < (model sa.1).length := by
            by_contra hge
            rw [List.getElem?_eq_none (by omega)] at hv; cases hv
          cases hr : batch.mapM (fun sa => (model sa.1)[sa.2]?) with
          | none =>
              refine ⟨fun qs h => by simp at h, ?_⟩
              simp only [Option.bind_eq_bind, Option.bind_some, Option.bind_none, true_iff]
              obtain ⟨sb, hb, hle⟩ := h2.mp hr
              exact ⟨sb, by simp [hb], hle⟩
          | some r =>
              refine ⟨fun qs h => ?_, ?_⟩
              · simp at h
                subst h
                exact .cons hv (h1 r hr)
              · simp only [Option.bind_eq_bind, Option.bind_some, Option.pure_def, reduceCtorEq, false_iff]
                rintro ⟨sb, hb, hle⟩
                simp only [List.mem_cons] at hb
                rcases hb with rfl | hb
                · omega
                · have := h2.mpr ⟨sb, hb, hle⟩
                  rw [hr] at this; cases this

/-- C81. Fitting the regressor with one model per action gives model `a` exactly the rows of action `a`, in their order. A
model whose action does not occur is not touched. -/
theorem C81_action_fit {M S : Type} (fit : M → List (S × ℝ) → M) (models : List M) (batch : List (S × ℕ × ℝ)) :
    (actionFit fit models batch).length = models.length ∧
    ∀ (a : ℕ) (h : a < models.length) (h' : a < (actionFit fit models batch).length),
      ((∀ r ∈ batch, r.2.1 ≠ a) → (actionFit fit models batch)[a] = models[a]) ∧
      ((∃ r ∈ batch, r.2.1 = a) → (actionFit fit models batch)[a] =
        fit (models[a]) ((batch.filter (fun r => decide (r.2.1 = a))).map (fun r => (r.1, r.2.2)))) := by
  refine ⟨by simp [actionFit], ?_⟩
  intro a h h'
  simp only [actionFit, List.getElem_mapIdx]
  constructor
  · intro hn
    have : batch.filter (fun r => decide (r.2.1 = a)) = [] := by
      rw [List.filter_eq_nil_iff]; intro r hr; simpa using hn r hr
    simp [this]
  · rintro ⟨r, hr, ha⟩
    rw [if_neg]
    intro he
    rw [List.isEmpty_iff, List.map_eq_nil_iff, List.filter_eq_nil_iff] at he
    exact he r hr (by simpa using ha)

example : ∃ r ∈ [((0 : ℕ), (1 : ℕ), (2.5 : ℝ))], r.2.1 = 1 := ⟨_, List.mem_singleton.mpr rfl, rfl⟩

/-! ### C82 -/

/-- C82. The weights computed by `fit` have, for every output, the smallest possible sum of squared errors on the data. -/
theorem C82_least_squares {n d o : ℕ} (A : Matrix (Fin n) (Fin d) ℝ) (B : Matrix (Fin d) (Fin n) ℝ) (hB : IsPinv A B)
    (y : Matrix (Fin n) (Fin o) ℝ) (k : Fin o) (v : Fin d → ℝ) :
    squaredError A (fun i => y i k) (linearFit B y k) ≤ squaredError A (fun i => y i k) v := by
  set yk : Fin n → ℝ := fun i => y i k with hyk
  set w : Fin d → ℝ := linearFit B y k with hw
  have hwB : w = B.mulVec yk := by
    funext j; simp [hw, linearFit, Matrix.mul_apply, Matrix.mulVec, dotProduct, hyk, mul_comm]
  set P := A * B
  have hP1 : P * A = A := hB.1
  have hP2 : P.transpose = P := hB.2
  have hAw : A.mulVec w = P.mulVec yk := by rw [hwB, Matrix.mulVec_mulVec]
  set r : Fin n → ℝ := fun i => yk i - A.mulVec w i with hr
  set u : Fin n → ℝ := fun i => A.mulVec w i - A.mulVec v i with hu
  have hort : ∑ i, r i * u i = 0 := by
    have hrAt : ∀ z : Fin d → ℝ, dotProduct r (A.mulVec z) = 0 := by
      intro z
      have : r = yk - P.mulVec yk := by funext i; simp [hr, hAw]
      rw [this, Matrix.dotProduct_mulVec, Matrix.sub_vecMul, sub_dotProduct]
      have h1 : Matrix.vecMul (P.mulVec yk) A = Matrix.vecMul yk A := by
        have : P.mulVec yk = Matrix.vecMul yk P := by
          conv_lhs => rw [← hP2, Matrix.mulVec_transpose]
        rw [this, Matrix.vecMul_vecMul, hP1]
      rw [h1, sub_self]
    have h1 := hrAt w
    have h2 := hrAt v
    simp only [dotProduct] at h1 h2
    simp only [hu, mul_sub, Finset.sum_sub_distrib, h1, h2, sub_zero]
  have hsplit : squaredError A yk v = squaredError A yk w + ∑ i, u i ^ 2 := by
    unfold squaredError
    have : ∀ i, (yk i - A.mulVec v i) ^ 2 = (yk i - A.mulVec w i) ^ 2 + 2 * (r i * u i) + u i ^ 2 := by
      intro i; simp only [hr, hu]; ring
    rw [Finset.sum_congr rfl (fun i _ => this i), Finset.sum_add_distrib, Finset.sum_add_distrib, ← Finset.mul_sum, hort]
    ring
  rw [hsplit]
  have : 0 ≤ ∑ i, u i ^ 2 := Finset.sum_nonneg (fun i _ => sq_nonneg _)
  linarith

example : IsPinv (1 : Matrix (Fin 2) (Fin 2) ℝ) 1 := by simp [IsPinv]

end

end Verif.Approx
