/-
Properties of `MultiMuJoCo` (C105).
-/
import Verif.Wrap.PropsMujoco

namespace Verif.Wrap

variable {X O : Type}

/-! ### Clean episodes -/

/-- All the data but those of the current model are in the reset state. -/
def Multi.Clean (s : Multi X O) : Prop :=
  s.datas.length = s.models.length ∧ s.idx < s.models.length ∧ ∀ (i : ℕ) m, i ≠ s.idx → s.models[i]? = some m → s.datas[i]? = some m.reset

theorem nextIdx_lt (s : Multi X O) (h : s.idx < s.models.length) (draw : ℕ) (hd : draw < s.models.length) :
    s.nextIdx draw < s.models.length := by
  unfold Multi.nextIdx
  split_ifs <;> omega

theorem reset_eq (e : Env X O) (s : Multi X O) (hc : s.Clean) (obs : Option O) (draw : ℕ) (hd : draw < s.models.length) :
    ∃ (m : Mj X) (s' : Multi X O), s.models[s.nextIdx draw]? = some m
      ∧ s.reset e obs draw = some (s', .single (e.modify (e.observe (e.setupWith m.reset obs))))
      ∧ s'.models = s.models ∧ s'.random = s.random ∧ s'.idx = s.nextIdx draw ∧ s'.datas[s'.idx]? = some (e.setupWith m.reset obs)
      ∧ s'.obs = some (e.observe (e.setupWith m.reset obs)) ∧ s'.Clean := by
  obtain ⟨h1, h2, h3⟩ := hc
  have hi : s.models[s.idx]? = some s.models[s.idx] := List.getElem?_eq_getElem h2
  have hlt := nextIdx_lt s h2 draw hd
  have hm : s.models[s.nextIdx draw]? = some s.models[s.nextIdx draw] := List.getElem?_eq_getElem hlt
  have hall : ∀ (i : ℕ) m, s.models[i]? = some m → (s.datas.set s.idx s.models[s.idx].reset)[i]? = some m.reset := by
    intro i m him
    rw [List.getElem?_set]
    by_cases hii : s.idx = i
    · subst hii
      rw [if_pos rfl, if_pos (by omega)]
      rw [hi, Option.some.injEq] at him
      rw [him]
    · rw [if_neg hii]
      exact h3 i m (fun h => hii h.symm) him
  have hd' := hall _ _ hm
  refine ⟨s.models[s.nextIdx draw], { s with
      datas := (s.datas.set s.idx s.models[s.idx].reset).set (s.nextIdx draw) (e.setupWith s.models[s.nextIdx draw].reset obs)
      idx := s.nextIdx draw, obs := some (e.observe (e.setupWith s.models[s.nextIdx draw].reset obs)) }, hm, ?_, rfl, rfl, rfl, ?_, rfl, ?_⟩
  · simp only [Multi.reset, hi, hd']
  · simp only [List.getElem?_set_self, List.length_set, h1, hlt]
  · refine ⟨by simp [h1], hlt, ?_⟩
    intro i m hne him
    simp only at hne him ⊢
    rw [List.getElem?_set_ne (fun h => hne h.symm)]
    exact hall i m him

theorem step_clean (e : Env X O) (s s' : Multi X O) (hc : s.Clean) (a : List ℝ) (r : Step O) (h : s.step e a = some (s', r)) :
    s'.models = s.models ∧ s'.random = s.random ∧ s'.idx = s.idx ∧ s'.Clean := by
  unfold Multi.step at h
  split at h
  · rename_i m d obs h1 h2 h3
    rw [Option.map_eq_some_iff] at h
    obtain ⟨q, _, hq⟩ := h
    simp only [Prod.mk.injEq] at hq
    rw [← hq.1]
    obtain ⟨c1, c2, c3⟩ := hc
    refine ⟨rfl, rfl, rfl, by simp [c1], c2, ?_⟩
    intro i m' hne him
    simp only at hne him ⊢
    rw [List.getElem?_set_ne (fun h => hne h.symm)]
    exact c3 i m' hne him
  · simp at h

/-- The draws of a sequence of calls are valid indices. -/
def DrawsBelow (n : ℕ) (l : List (MultiCall O)) : Prop := ∀ c ∈ l, ∀ obs draw, c = .reset obs draw → draw < n

/-- The number of resets. -/
def resets (l : List (MultiCall O)) : ℕ := (l.filter (fun c => match c with | .reset _ _ => true | .step _ => false)).length

theorem calls_clean (e : Env X O) : ∀ (l : List (MultiCall O)) (s s' : Multi X O), s.Clean → DrawsBelow s.models.length l →
    s.calls e l = some s' → s'.models = s.models ∧ s'.random = s.random ∧ s'.Clean ∧
      (s.random = false → s'.idx = (s.idx + resets l) % s.models.length) := by
  intro l
  induction l with
  | nil =>
    intro s s' hc _ h
    simp only [Multi.calls, List.foldlM_nil, Option.pure_def, Option.some.injEq] at h
    subst h
    refine ⟨rfl, rfl, hc, fun _ => ?_⟩
    show s.idx = (s.idx + 0) % _
    rw [Nat.add_zero, Nat.mod_eq_of_lt hc.2.1]
  | cons c l ih =>
    intro s s' hc hd h
    simp only [Multi.calls, List.foldlM_cons, Option.bind_eq_bind, Option.bind_eq_some_iff] at h
    obtain ⟨s1, h1, h2⟩ := h
    have hd' : DrawsBelow s.models.length l := fun c hc => hd c (List.mem_cons_of_mem _ hc)
    cases c with
    | reset obs draw =>
      obtain ⟨m, s2, _, k1, k2, k3, k4, _, _, k5⟩ := reset_eq e s hc obs draw (hd _ (by simp) obs draw rfl)
      simp only [Multi.call, k1, Option.map_some, Option.some.injEq] at h1
      subst h1
      obtain ⟨j1, j2, j3, j4⟩ := ih s2 s' k5 (by rw [k2]; exact hd') h2
      refine ⟨j1.trans k2, j2.trans k3, j3, ?_⟩
      intro hr
      rw [j4 (k3.trans hr), k2, k4]
      have hres : resets (MultiCall.reset obs draw :: l) = resets l + 1 := by simp [resets]
      rw [hres]
      simp only [Multi.nextIdx, hr, Bool.false_eq_true, if_false]
      have hlt := hc.2.1
      split_ifs with hh
      · congr 1; omega
      · have : s.idx + (resets l + 1) = (0 + resets l) + s.models.length := by omega
        rw [this, Nat.add_mod_right]
    | step a =>
      simp only [Multi.call, Option.map_eq_some_iff] at h1
      obtain ⟨q, hq, hq'⟩ := h1
      obtain ⟨k1, k2, k3, k4⟩ := step_clean e s q.1 hc a q.2 hq
      rw [hq'] at k1 k2 k3 k4
      obtain ⟨j1, j2, j3, j4⟩ := ih s1 s' k4 (by rw [k1]; exact hd') h2
      refine ⟨j1.trans k1, j2.trans k2, j3, ?_⟩
      intro hr
      have hres : resets (MultiCall.step a :: l) = resets l := by simp [resets]
      rw [j4 (k2.trans hr), k1, k3, hres]

theorem new_clean {L : Type} [DecidableEq L] (models : List (Mj X)) (spec : List String) (timestep : Option ℝ) (limits : Mj X → L) (random : Bool)
    (s : Multi X O) (h : Multi.new models spec timestep limits random = some s) :
    s.Clean ∧ s.models.length = models.length ∧ s.idx = 0 ∧ s.random = random := by
  unfold Multi.new at h
  split at h
  · simp at h
  · rename_i m rest
    simp only at h
    split at h
    · simp at h
    · split_ifs at h with hc
      simp only [Option.some.injEq] at h
      subst h
      refine ⟨⟨by simp, by simp, ?_⟩, by simp, rfl, rfl⟩
      intro i n _ hn
      simp only [List.getElem?_map, hn, Option.map_some]

/-- C105: whatever was done before, an episode begins in the reset state of its model, with the changes asked for by the given observation. -/
theorem C105_clean {L : Type} [DecidableEq L] (models : List (Mj X)) (spec : List String) (timestep : Option ℝ) (limits : Mj X → L) (random : Bool)
    (e : Env X O) (s s' : Multi X O) (h : Multi.new models spec timestep limits random = some s) (l : List (MultiCall O))
    (hd : DrawsBelow models.length l) (hl : s.calls e l = some s') (obs : Option O) (draw : ℕ) (hdraw : draw < models.length) :
    ∃ (m : Mj X) (s'' : Multi X O) (ret : ResetRet O), s'.reset e obs draw = some (s'', ret) ∧ s''.models[s''.idx]? = some m
      ∧ s''.datas[s''.idx]? = some (e.setupWith m.reset obs) ∧ (random = true → s''.idx = draw) := by
  obtain ⟨h1, h2, h3, h4⟩ := new_clean models spec timestep limits random s h
  obtain ⟨k1, k2, k3, _⟩ := calls_clean e l s s' h1 (by rw [h2]; exact hd) hl
  obtain ⟨m, s2, j0, j1, j2, j3, j4, j5, _, _⟩ := reset_eq e s' k3 obs draw (by rw [k1, h2]; exact hdraw)
  refine ⟨m, s2, _, j1, ?_, j5, ?_⟩
  · rw [j2, j4]; exact j0
  · intro hr
    rw [j4, Multi.nextIdx, k2, h4, hr, if_pos rfl]

/-- C105: without random draws the models are used in turn, whatever is done in the episodes: after `k` resets the current one is that with index
`k` modulo their number (the first episode is that of the second model). -/
theorem C105_sequential {L : Type} [DecidableEq L] (models : List (Mj X)) (spec : List String) (timestep : Option ℝ) (limits : Mj X → L)
    (e : Env X O) (s s' : Multi X O) (h : Multi.new models spec timestep limits false = some s) (l : List (MultiCall O))
    (hd : DrawsBelow models.length l) (hl : s.calls e l = some s') : s'.idx = resets l % models.length := by
  obtain ⟨h1, h2, h3, h4⟩ := new_clean models spec timestep limits false s h
  obtain ⟨_, _, _, k⟩ := calls_clean e l s s' h1 (by rw [h2]; exact hd) hl
  rw [k h4, h3, h2, Nat.zero_add]

/-- Two masses, the second twice as heavy and with another timestep. -/
noncomputable def heavy : Mj ℝ := { mass with dynamics := fun x c => x + c 0 / 2, timestep := 1 / 4 }

theorem new_two (random : Bool) (t : Option ℝ) : ∃ s : Multi ℝ ℝ, Multi.new [mass, heavy] ["motor"] t (fun m => m.actuators.length) random = some s
    ∧ s.models = [mass.withTimestep t, heavy] := by
  have h1 : ∀ m : Mj ℝ, m.actuators = mass.actuators → m.actionIndices ["motor"] = some [0] := by
    intro m h; simp only [Mj.actionIndices, h]; decide
  have h2 : ∀ m : Mj ℝ, m.actuators = mass.actuators → m.actionSpace [0] = some [some (-1, 1)] := by
    intro m h; simp only [Mj.actionSpace, h]; rfl
  have h3 : (mass.withTimestep t).actuators = mass.actuators := by cases t <;> rfl
  refine ⟨⟨[mass.withTimestep t, heavy], [(mass.withTimestep t).reset, heavy.reset], 0, none, random⟩, ?_, rfl⟩
  simp [Multi.new, h1 _ h3, h1 heavy rfl, h2 _ h3, h2 heavy rfl]

example : ∃ s s' : Multi ℝ ℝ, Multi.new [mass, heavy] ["motor"] none (fun m => m.actuators.length) false = some s ∧
    s.calls (feedback false) [.reset none 0, .reset none 1, .reset none 0] = some s' ∧ s'.idx = 1 := by
  obtain ⟨s, h, hm⟩ := new_two false none
  obtain ⟨h1, h2, h3, h4⟩ := new_clean _ _ _ _ _ s h
  have hlen : s.models.length = 2 := h2
  obtain ⟨m1, s1, _, a1, a2, a3, a4, _, _, a5⟩ := reset_eq (feedback false) s h1 none 0 (by omega)
  obtain ⟨m2, s2, _, b1, b2, b3, b4, _, _, b5⟩ := reset_eq (feedback false) s1 a5 none 1 (by rw [a2]; omega)
  obtain ⟨m3, s3, _, c1, c2, c3, c4, _, _, c5⟩ := reset_eq (feedback false) s2 b5 none 0 (by rw [b2, a2]; omega)
  have hl : s.calls (feedback false) [.reset none 0, .reset none 1, .reset none 0] = some s3 := by
    simp [Multi.calls, Multi.call, a1, b1, c1]
  refine ⟨s, s3, h, hl, ?_⟩
  have := C105_sequential _ _ _ _ (feedback false) s s3 h _ (by
    intro c hc obs draw h
    simp only [List.mem_cons, List.not_mem_nil, or_false] at hc
    rcases hc with rfl | rfl | rfl <;> (cases h; simp)) hl
  rw [this]
  rfl

/-- C105: all the models of an environment have the same actuators under the same indices, with the same bounds. -/
theorem C105_actions {L : Type} [DecidableEq L] (models : List (Mj X)) (spec : List String) (timestep : Option ℝ) (limits : Mj X → L) (random : Bool)
    (s : Multi X O) (h : Multi.new models spec timestep limits random = some s) :
    ∃ indices space, ∀ m ∈ s.models, m.actionIndices spec = some indices ∧ m.actionSpace indices = space := by
  unfold Multi.new at h
  split at h
  · simp at h
  · rename_i m rest
    simp only at h
    split at h
    · simp at h
    · rename_i indices hi
      split_ifs at h with hc
      simp only [Option.some.injEq] at h
      subst h
      rw [Bool.and_eq_true, List.all_eq_true] at hc
      refine ⟨indices, (m.withTimestep timestep).actionSpace indices, fun m' hm' => ?_⟩
      have := hc.1 m' hm'
      rw [Bool.and_eq_true] at this
      exact ⟨of_decide_eq_true this.1, @of_decide_eq_true _ (Classical.dec _) this.2⟩

/-- C105 is false of `reset`: it never returns the two values that `Core` takes. -/
theorem C105_reset_refuted (e : Env X O) (s s' : Multi X O) (obs : Option O) (draw : ℕ) (ret : ResetRet O)
    (h : s.reset e obs draw = some (s', ret)) : ret.unpack = none := by
  unfold Multi.reset at h
  split at h
  · simp at h
  · simp only at h
    split at h
    · simp at h
    · simp only [Option.some.injEq, Prod.mk.injEq] at h
      rw [← h.2]
      rfl

example : ∃ (s s' : Multi ℝ ℝ) (ret : ResetRet ℝ), s.reset (feedback false) none 0 = some (s', ret) := by
  obtain ⟨s, h, hm⟩ := new_two true none
  obtain ⟨h1, h2, h3, h4⟩ := new_clean _ _ _ _ _ s h
  obtain ⟨m1, s1, _, a1, _⟩ := reset_eq (feedback false) s h1 none 0 (by rw [h2]; simp)
  exact ⟨s, s1, _, a1⟩

/-- C105 is false of the timestep: the one that is given is that of the first model only, so a step of another model takes another time
than the environment reports. -/
theorem C105_timestep_refuted : ∃ (s : Multi ℝ ℝ) (m : Mj ℝ), Multi.new [mass, heavy] ["motor"] (some 1) (fun m => m.actuators.length) true = some s
    ∧ s.models[1]? = some m ∧ m.timestep ≠ 1 ∧
    ∃ m0, s.models[0]? = some m0 ∧ (feedback false).dt m0 = 6 ∧ (feedback false).dt m = 3 / 2 := by
  obtain ⟨s, h, hm⟩ := new_two true (some 1)
  refine ⟨s, heavy, h, by rw [hm]; rfl, by norm_num [heavy], mass.withTimestep (some 1), by rw [hm]; rfl, ?_, ?_⟩
  · norm_num [Env.dt, feedback, Mj.withTimestep]
  · norm_num [Env.dt, feedback, heavy]

/-- C105 is false of the check of the observation limits: models with different ones are accepted. -/
theorem C105_limits_refuted : ∃ (limits : Mj ℝ → ℝ) (s : Multi ℝ ℝ), limits mass ≠ limits heavy
    ∧ @Multi.new ℝ ℝ ℝ (Classical.decEq ℝ) [mass, heavy] ["motor"] none limits true = some s := by
  refine ⟨Mj.timestep, ?_⟩
  obtain ⟨s, h, hm⟩ := new_two true none
  refine ⟨s, by norm_num [mass, heavy], ?_⟩
  rw [← h]
  simp [Multi.new]

/-! ### Identifiers -/

/-- The value of a list of binary digits, the first one being the most significant. -/
def binaryValue (l : List ℕ) : ℕ := l.foldl (fun a b => 2 * a + b) 0

theorem foldl_binary (l : List ℕ) (a : ℕ) : l.foldl (fun a b => 2 * a + b) a = a * 2 ^ l.length + binaryValue l := by
  induction l generalizing a with
  | nil => simp [binaryValue]
  | cons b l ih =>
    have : binaryValue (b :: l) = l.foldl (fun a b => 2 * a + b) b := by simp [binaryValue]
    rw [List.foldl_cons, ih, this, ih b, List.length_cons, pow_succ]
    ring

theorem binary_reverse (l : List ℕ) : binaryValue l.reverse = Nat.ofDigits 2 l := by
  induction l with
  | nil => rfl
  | cons b l ih =>
    rw [List.reverse_cons, binaryValue, List.foldl_append, Nat.ofDigits_cons]
    simp only [List.foldl_cons, List.foldl_nil]
    have : (l.reverse.foldl (fun a b => 2 * a + b) 0) = binaryValue l.reverse := rfl
    rw [this, ih]
    push_cast
    ring

theorem binary_zeros (k : ℕ) (l : List ℕ) : binaryValue (List.replicate k 0 ++ l) = binaryValue l := by
  induction k with
  | zero => rfl
  | succ k ih =>
    rw [List.replicate_succ, List.cons_append, binaryValue, List.foldl_cons]
    exact ih

theorem fill (bits : ℕ) : ∀ (l : List Bool) (i : ℕ) (t : List ℕ), i + l.length ≤ bits →
    (l.zipIdx i).foldlM (fun (mask : List ℕ) p => (maskIndex bits p.2).map (fun j => mask.set j (if p.1 then 1 else 0)))
      (List.replicate (bits - i) 0 ++ t)
      = some (List.replicate (bits - i - l.length) 0 ++ ((l.map (fun b => if b then 1 else 0)).reverse ++ t)) := by
  intro l
  induction l with
  | nil => intro i t h; simp
  | cons b l ih =>
    intro i t h
    simp only [List.length_cons] at h
    have h1 : maskIndex bits i = some (bits - 1 - i) := by simp only [maskIndex]; rw [if_pos (by omega)]
    have h2 : (List.replicate (bits - i) 0 ++ t).set (bits - 1 - i) (if b then 1 else 0)
        = List.replicate (bits - (i + 1)) 0 ++ ((if b then 1 else 0) :: t) := by
      obtain ⟨k, hk⟩ : ∃ k, bits - i = k + 1 := ⟨bits - i - 1, by omega⟩
      have hk' : bits - (i + 1) = k := by omega
      have hk'' : bits - 1 - i = k := by omega
      rw [hk, hk', hk'', List.replicate_succ', List.append_assoc, List.set_append_right _ _ (by simp)]
      simp
    rw [List.zipIdx_cons, List.foldlM_cons]
    simp only [h1, Option.map_some, Option.bind_eq_bind, Option.bind_some, h2]
    rw [ih (i + 1) _ (by omega)]
    congr 2
    · congr 1
      simp only [List.length_cons]; omega
    · simp

theorem reversedBits_value (k : ℕ) : Nat.ofDigits 2 ((reversedBits k).map (fun b => if b then 1 else 0)) = k := by
  unfold reversedBits
  split_ifs with h
  · subst h; rfl
  · have := Nat.digits_two_eq_bits k
    have h2 : k.bits.map (fun b => if b then 1 else 0) = Nat.digits 2 k := by
      rw [this]
      apply List.map_congr_left
      intro b _; cases b <;> rfl
    rw [h2, Nat.ofDigits_digits]

theorem reversedBits_length (k n : ℕ) (h : k < n) : (reversedBits k).length ≤ 1 + Nat.log 2 (max n 2 - 1) := by
  unfold reversedBits
  split_ifs with h0
  · simp
  · have h1 : k.bits.length = (Nat.digits 2 k).length := by rw [Nat.digits_two_eq_bits, List.length_map]
    rw [h1, Nat.digits_len 2 k (by omega) h0]
    have := Nat.log_mono_right (b := 2) (show k ≤ max n 2 - 1 by omega)
    omega

/-- C105: the identifier of a model is its index in binary, with as many digits as the largest index needs. -/
theorem C105_identifier (k n : ℕ) (h : k < n) :
    ∃ mask, envIdMap k n = some mask ∧ (∀ b ∈ mask, b = 0 ∨ b = 1) ∧ binaryValue mask = k
      ∧ 2 ^ (mask.length - 1) ≤ max n 2 - 1 ∧ max n 2 - 1 < 2 ^ mask.length := by
  have hlen := reversedBits_length k n h
  have := fill (1 + Nat.log 2 (max n 2 - 1)) (reversedBits k) 0 [] (by omega)
  simp only [Nat.sub_zero, List.append_nil] at this
  refine ⟨_, this, ?_, ?_, ?_, ?_⟩
  · intro b hb
    simp only [List.mem_append, List.mem_replicate, List.mem_reverse, List.mem_map] at hb
    rcases hb with hb | ⟨c, _, hc⟩
    · exact Or.inl hb.2
    · cases c
      · left; simpa using hc.symm
      · right; simpa using hc.symm
  · rw [binary_zeros, binary_reverse, reversedBits_value]
  · simp only [List.length_append, List.length_replicate, List.length_reverse, List.length_map]
    rw [Nat.sub_add_cancel hlen, Nat.add_sub_cancel_left]
    exact Nat.pow_log_le_self 2 (by omega)
  · simp only [List.length_append, List.length_replicate, List.length_reverse, List.length_map]
    rw [Nat.sub_add_cancel hlen, Nat.add_comm]
    exact Nat.lt_pow_succ_log_self (by omega) _

example : envIdMap 4 6 = some [1, 0, 0] := by
  have : Nat.log 2 5 = 2 := by decide
  simp [envIdMap, reversedBits, Nat.bits, Nat.binaryRec, maskIndex, this]

/-- C105: different models have different identifiers. -/
theorem C105_identifier_injective (n j k : ℕ) (hj : j < n) (hk : k < n) (h : envIdMap j n = envIdMap k n) : j = k := by
  obtain ⟨m1, h1, _, h2, _⟩ := C105_identifier j n hj
  obtain ⟨m2, h3, _, h4, _⟩ := C105_identifier k n hk
  rw [h1, h3, Option.some.injEq] at h
  rw [← h2, ← h4, h]

end Verif.Wrap
