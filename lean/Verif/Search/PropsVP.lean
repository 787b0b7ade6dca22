/-
Property C99: black-box agents and parallel environments.
-/
import Verif.Search.SpecBB

namespace Verif.Search

/-! ### VectorPolicy -/

/-- C99. The weights that are read are the weights that were written, one row for each copy. -/
theorem C99_weights {W : Type} (w : W) (nEnvs : ℕ) (p : VectorPolicy W) (weights : List W) (h : weights.length = p.length) :
    vpGet (vpNew w nEnvs) = List.replicate nEnvs w ∧ (vpSet p weights).map vpGet = some weights ∧ vpSet p (vpGet p) = some p := by
  refine ⟨rfl, ?_, ?_⟩
  · rw [vpSet, if_neg (by omega), ← h, List.take_length]; rfl
  · simp [vpSet, vpGet]

/-- C99. Without internal states each copy acts on its own row. -/
theorem C99_draw_partial {W S P A : Type} (draw : W → S → Option P → A × Option P) (act : W → S → A)
    (hdraw : ∀ w s, draw w s none = (act w s, none)) (p : VectorPolicy W) (state : List S) (h : state.length = p.length) :
    vpDraw draw p state none = some (List.zipWith act p state) := by
  unfold vpDraw
  simp only []
  rw [if_neg (by simp [h, statesOf])]
  have hr : List.zipWith (fun w (x : S × Option P) => draw w x.1 x.2) p (state.zip (statesOf state.length none)) =
      List.zipWith (fun w s => (act w s, none)) p state := by
    apply List.ext_getElem
    · simp [statesOf]
    · intro i h1 h2
      simp [hdraw, statesOf]
  rw [hr, if_neg]
  · congr 1
    apply List.ext_getElem
    · simp
    · intro i h1 h2
      simp
  · rw [Bool.not_eq_true, List.any_eq_false]
    intro r hr'
    obtain ⟨i, hi, rfl⟩ := List.getElem_of_mem hr'
    simp

example : vpDraw (P := Unit) (fun (w : ℕ) (s : ℕ) _ => (w * s, none)) [2, 3] [5, 7] none = some [10, 21] :=
  C99_draw_partial _ (fun w s => w * s) (fun _ _ => rfl) [2, 3] [5, 7] rfl

/-- C99 fails for policies with an internal state: no action is ever drawn. -/
theorem C99_draw_refuted {W S P A : Type} (draw : W → S → Option P → A × Option P) (hdraw : ∀ w s ps, (draw w s ps).2.isSome = true)
    (p : VectorPolicy W) (hp : p ≠ []) (state : List S) (ps : Option (List P)) : vpDraw draw p state ps = none := by
  unfold vpDraw
  simp only []
  split
  · rfl
  · rename_i h
    rw [not_or, not_lt, not_lt] at h
    obtain ⟨w, p, rfl⟩ := List.exists_cons_of_ne_nil hp
    rw [if_pos]
    generalize statesOf state.length ps = states at h ⊢
    obtain ⟨s, state, rfl⟩ : ∃ x l, state = x :: l := List.exists_cons_of_length_pos (by simp at h; omega)
    obtain ⟨q, states, rfl⟩ : ∃ x l, states = x :: l := List.exists_cons_of_length_pos (by simp at h; omega)
    simp [hdraw]

/-- C99 fails for `set_n`: it never changes the number of copies. -/
theorem C99_resize_refuted {W : Type} (p : VectorPolicy W) (nEnvs : ℕ) : vpSetN p nEnvs = p := by
  unfold vpSetN
  simp only []
  by_cases h : p.length < nEnvs
  · rw [if_pos h, List.take_of_length_le h.le, if_neg (by omega)]
  · rw [if_neg h]
    by_cases h' : nEnvs < p.length
    · rw [if_pos h', Nat.sub_eq_zero_of_le h'.le]
      simp
    · rw [if_neg h']

/-! ### Starting episodes -/

theorem masked_nil_of {α : Type} (c : List α) (mask : List Bool) (h : c.length = mask.length) :
    masked c mask = .ok ((c.zip mask).filterMap (fun p => if p.2 then some p.1 else none)) := if_pos h

theorem masked_length {α : Type} (c : List α) (mask : List Bool) (h : c.length = mask.length) :
    ((c.zip mask).filterMap (fun p => if p.2 then some p.1 else none)).length = mask.count true := by
  induction c generalizing mask with
  | nil => cases mask with
    | nil => rfl
    | cons _ _ => simp at h
  | cons x c ih => cases mask with
    | nil => simp at h
    | cons b mask =>
      have := ih mask (by simpa using h)
      cases b
      · simpa using this
      · simpa using this

theorem assign_length {α : Type} (l : List α) (m : List Bool) (v : List α) : (assign l m v).length = l.length := by
  fun_induction assign l m v <;> simp_all

theorem assign_spec {α β : Type} (f : ℕ → β → α) (l : List α) (c : List β) (mask : List Bool) (k : ℕ) (hl : l.length = mask.length)
    (hc : c.length = mask.length) (i : ℕ) (hi : i < mask.length) :
    (assign l mask ((((c.zip mask).filterMap (fun p => if p.2 then some p.1 else none)).zipIdx k).map (fun x => f x.2 x.1)))[i]? =
      if mask[i] = true then (c[i]?).map (f (k + (mask.take i).count true)) else l[i]? := by
  induction mask generalizing l c k i with
  | nil => simp at hi
  | cons b mask ih =>
    obtain ⟨x, l, rfl⟩ : ∃ x l', l = x :: l' := List.exists_cons_of_length_eq_add_one (by simpa using hl)
    obtain ⟨y, c, rfl⟩ : ∃ x l', c = x :: l' := List.exists_cons_of_length_eq_add_one (by simpa using hc)
    cases b with
    | true =>
      simp only [List.zip_cons_cons, List.filterMap_cons, if_true, List.zipIdx_cons, List.map_cons, assign]
      cases i with
      | zero => simp
      | succ i =>
        simp only [List.getElem?_cons_succ, List.getElem_cons_succ, List.take_succ_cons, List.count_cons_self]
        rw [ih l c (k + 1) (by simpa using hl) (by simpa using hc) i (by simpa using hi)]
        rw [show k + 1 + (mask.take i).count true = k + ((mask.take i).count true + 1) by omega]
    | false =>
      simp only [List.zip_cons_cons, List.filterMap_cons, assign]
      cases i with
      | zero => simp [assign]
      | succ i =>
        have := ih l c k (by simpa using hl) (by simpa using hc) i (by simpa using hi)
        simpa [assign] using this

/-- C99. If the context builder returns a context for every environment, the agent is not deterministic and the number of
environments has not changed, then each environment in which an episode starts gets a sample of its own for its context, the
other environments keep their parameters, and the parameters that are returned are the weights of the policies. -/
theorem C99_start_partial {W C : Type} (sample : ℕ → C → W) (mean : List C → List W) (p : Held W) (c : List C) (mask : List Bool)
    (hc : c.length = mask.length) (hp : ∀ l, p = .vector l → l.length = mask.length) (hm : true ∈ mask) :
    ∃ theta, episodeStartVec sample mean false p (some c) mask = .ok (.vector theta, theta) ∧ theta.length = mask.length ∧
      ∀ i (hi : i < mask.length), theta[i]? = if mask[i] = true then (c[i]?).map (sample ((mask.take i).count true)) else
        match p with
        | .flat w => some w
        | .vector l => l[i]? := by
  have hany : mask.any (fun b => b) = true := List.any_eq_true.2 ⟨true, hm, rfl⟩
  obtain ⟨v, hv, hvl, hvi⟩ : ∃ v : VectorPolicy W, adapt mask.length p = v ∧ v.length = mask.length ∧
      ∀ i, i < mask.length → v[i]? = match p with | .flat w => some w | .vector l => l[i]? := by
    cases p with
    | flat w => exact ⟨_, rfl, by simp [adapt, vpNew], fun i hi => by simp [adapt, vpNew, hi]⟩
    | vector l => exact ⟨l, by simp [adapt, hp l rfl], hp l rfl, fun i _ => rfl⟩
  refine ⟨assign v mask ((((c.zip mask).filterMap (fun p => if p.2 then some p.1 else none)).zipIdx 0).map (fun x => sample x.2 x.1)), ?_,
    by rw [assign_length, hvl], fun i hi => ?_⟩
  · unfold episodeStartVec
    simp only []
    rw [hv, if_pos hany, masked_nil_of c mask hc]
    simp only [vpGet, bind, Except.bind, pure, Except.pure, Bool.false_eq_true, if_false]
    exact if_pos hvl
  · rw [assign_spec sample v c mask 0 hvl hc i hi, Nat.zero_add, hvi i hi]

example : (episodeStartVec (fun k (c : ℕ) => 100 * k + c) (fun c => c) false (.vector [7, 8, 9]) (some [1, 2, 3]) [true, false, true]).toOption.map
    (fun r => r.2) = some [1, 8, 103] := rfl

/-- C99 fails with the default context builder: an agent never starts an episode in parallel environments. -/
theorem C99_default_refuted {W C : Type} (sample : ℕ → C → W) (mean : List C → List W) (deterministic : Bool) (p : Held W)
    (mask : List Bool) (hm : true ∈ mask) : episodeStartVec sample mean deterministic p none mask = .error .typeError := by
  have hany : mask.any (fun b => b) = true := List.any_eq_true.2 ⟨true, hm, rfl⟩
  unfold episodeStartVec
  simp only []
  rw [if_pos hany]

/-- C99 fails for deterministic agents: the contexts are selected twice, so unless all the episodes start at once it is an error. -/
theorem C99_deterministic_refuted {W C : Type} (sample : ℕ → C → W) (mean : List C → List W) (p : Held W) (c : List C)
    (mask : List Bool) (hc : c.length = mask.length) (hm : true ∈ mask) (hf : false ∈ mask) :
    episodeStartVec sample mean true p (some c) mask = .error .indexError := by
  have hany : mask.any (fun b => b) = true := List.any_eq_true.2 ⟨true, hm, rfl⟩
  have hlt : mask.count true ≠ mask.length := by
    rw [Ne, List.count_eq_length]
    intro h
    exact absurd (h false hf) (by simp)
  unfold episodeStartVec
  simp only []
  rw [if_pos hany, masked_nil_of c mask hc]
  simp only [bind, Except.bind, if_true]
  rw [show masked ((c.zip mask).filterMap (fun p => if p.2 then some p.1 else none)) mask = .error .indexError from
    if_neg (by rw [masked_length c mask hc]; exact hlt)]

/-- C99 fails when the number of environments changes: the policies are not adapted. -/
theorem C99_number_refuted {W C : Type} (sample : ℕ → C → W) (mean : List C → List W) (l : VectorPolicy W) (c : List C)
    (mask : List Bool) (hc : c.length = mask.length) (hm : true ∈ mask) (hl : l.length ≠ mask.length) :
    episodeStartVec sample mean false (.vector l) (some c) mask = .error .indexError := by
  have hany : mask.any (fun b => b) = true := List.any_eq_true.2 ⟨true, hm, rfl⟩
  unfold episodeStartVec
  simp only []
  have ha : adapt mask.length (.vector l) = l := by rw [adapt, if_pos hl, C99_resize_refuted]
  rw [ha, if_pos hany, masked_nil_of c mask hc]
  simp only [vpGet, bind, Except.bind, pure, Except.pure, Bool.false_eq_true, if_false]
  exact if_neg hl

end Verif.Search
