/-
C139: agents that are given the same objects.
-/
import Verif.Misc.ModelConfig

namespace Verif.Misc.Config

/-! ### Specification -/

/-- What the constructor does for a dictionary nobody else has used. -/
def alone (k : Kind) (d : Option Dict) : Except Err (Option ℕ) := (build k d).2

/-- The constructors that change the dictionary of the caller: DoubleFQI always demands two models; TD3 and SAC add the missing number of models. -/
def Writes (k : Kind) (d : Option Dict) : Prop :=
  ∃ d', d = some d' ∧ ((k = .doubleFqi ∧ d' "n_models" ≠ some 2) ∨ ((k = .td3 ∨ k = .sac) ∧ d' "n_models" = none))

/-! ### Dictionaries of the approximator -/

theorem put_same (d : Dict) (key : String) (v : ℕ) (h : d key = some v) : d.put key v = d := by
  funext k
  unfold Dict.put
  by_cases hk : k = key
  · rw [if_pos hk, hk, h]
  · rw [if_neg hk]

theorem put_key (d : Dict) (key : String) (v : ℕ) : d.put key v key = some v := by simp [Dict.put]

/-- A second constructor of the same kind has the outcome of the first. -/
theorem build_again (k : Kind) (d : Option Dict) : (build k (build k d).1).2 = (build k d).2 := by
  cases d with
  | none => rfl
  | some d =>
    cases k with
    | ddpg => rfl
    | fqi => rfl
    | doubleFqi =>
      simp only [build]
      rw [put_same (d.put "n_models" 2) "n_models" 2 (put_key d _ _)]
    | td3 =>
      cases h : d "n_models" with
      | none => simp [build, h, put_key]
      | some n => by_cases hn : 2 ≤ n <;> simp [build, h, hn]
    | sac =>
      cases h : d "n_models" with
      | none => simp [build, h, put_key]
      | some n => by_cases hn : n = 2 <;> simp [build, h, hn]
    | boosted it =>
      cases h : d "n_models" with
      | none => simp [build, h]
      | some n => by_cases hn : n = it <;> simp [build, h, hn]

theorem build_keeps (k : Kind) (d : Option Dict) (h : ¬Writes k d) : (build k d).1 = d := by
  cases d with
  | none => rfl
  | some d =>
    cases k with
    | ddpg => rfl
    | fqi => rfl
    | doubleFqi =>
      by_cases h2 : d "n_models" = some 2
      · simp only [build, put_same d _ _ h2]
      · exact absurd ⟨d, rfl, .inl ⟨rfl, h2⟩⟩ h
    | td3 =>
      cases h2 : d "n_models" with
      | none => exact absurd ⟨d, rfl, .inr ⟨.inl rfl, h2⟩⟩ h
      | some n => by_cases hn : 2 ≤ n <;> simp [build, h2, hn]
    | sac =>
      cases h2 : d "n_models" with
      | none => exact absurd ⟨d, rfl, .inr ⟨.inr rfl, h2⟩⟩ h
      | some n => by_cases hn : n = 2 <;> simp [build, h2, hn]
    | boosted it =>
      cases h2 : d "n_models" with
      | none => simp [build, h2]
      | some n => by_cases hn : n = it <;> simp [build, h2, hn]

/-- C139. Agents of one kind, however many and from whatever dictionaries, shared or not: every constructor has the outcome it has alone. -/
theorem C139_same_kind (k : Kind) (cells : List ℕ) (σ : Store) :
    (session (cells.map (fun c => (k, c))) σ).2 = cells.map (fun c => alone k (σ c)) := by
  induction cells generalizing σ with
  | nil => rfl
  | cons c cells ih =>
    simp only [List.map_cons, session, ih, alone]
    congr 1
    apply List.map_congr_left
    intro x _
    by_cases hx : x = c
    · rw [if_pos hx, build_again, hx]
    · rw [if_neg hx]

-- Three TD3 agents, two of them from one dictionary without the number of models.
example : (session ([0, 0, 1].map (fun c => (Kind.td3, c))) (fun c => if c = 0 then some (fun _ => none) else some (fun _ => some 3))).2 =
    [.ok (some 2), .ok (some 2), .ok (some 3)] := by rw [C139_same_kind]; rfl

/-- C139 (partial). Agents of any kinds: if no constructor has to write into its dictionary, no dictionary changes and every constructor has the outcome it has alone, in every order. -/
theorem C139_independent_partial (ops : List (Kind × ℕ)) (σ : Store) (h : ∀ op ∈ ops, ¬Writes op.1 (σ op.2)) :
    session ops σ = (σ, ops.map (fun op => alone op.1 (σ op.2))) := by
  induction ops generalizing σ with
  | nil => rfl
  | cons op ops ih =>
    obtain ⟨k, c⟩ := op
    have hk : (build k (σ c)).1 = σ c := build_keeps k (σ c) (h (k, c) (by simp))
    have hσ : (fun x => if x = c then (build k (σ c)).1 else σ x) = σ := by
      funext x
      by_cases hx : x = c
      · rw [if_pos hx, hk, hx]
      · rw [if_neg hx]
    simp only [session, hσ, ih σ (fun op ho => h op (List.mem_cons_of_mem _ ho)), List.map_cons, alone]

-- TD3, DDPG and SAC from one dictionary with two models.
example : ∀ op ∈ [(Kind.td3, 0), (Kind.ddpg, 0), (Kind.sac, 0)], ¬Writes op.1 ((fun _ => some (fun _ => some 2) : Store) op.2) := by
  rintro op - ⟨d, hd, h⟩
  simp only [Option.some.injEq] at hd
  subst hd
  simp at h

/-- C139 (partial). Agents of any kinds from different dictionaries: every constructor has the outcome it has alone. -/
theorem C139_distinct_partial (ops : List (Kind × ℕ)) (σ : Store) (h : (ops.map Prod.snd).Nodup) :
    (session ops σ).2 = ops.map (fun op => alone op.1 (σ op.2)) := by
  induction ops generalizing σ with
  | nil => rfl
  | cons op ops ih =>
    obtain ⟨k, c⟩ := op
    simp only [List.map_cons, List.nodup_cons] at h
    simp only [session, ih _ h.2, List.map_cons, alone]
    congr 1
    apply List.map_congr_left
    intro op ho
    rw [if_neg]
    intro hc
    exact h.1 (hc ▸ List.mem_map_of_mem ho)

example : (([(.td3, 0), (.ddpg, 1)] : List (Kind × ℕ)).map Prod.snd).Nodup := by decide

/-- C139. What a program that builds agents does to a dictionary: all keys but the number of models stay; the number of models becomes two exactly if a DoubleFQI agent was built from the dictionary, or a TD3 or
SAC agent while it was missing; otherwise it stays. -/
theorem C139_dictionary (ops : List (Kind × ℕ)) (σ : Store) (c : ℕ) (d : Dict) (hd : σ c = some d) :
    ∃ d', (session ops σ).1 c = some d' ∧ (∀ key, key ≠ "n_models" → d' key = d key) ∧
      (((.doubleFqi, c) ∈ ops ∨ (d "n_models" = none ∧ ((.td3, c) ∈ ops ∨ (.sac, c) ∈ ops))) → d' "n_models" = some 2) ∧
      (¬((.doubleFqi, c) ∈ ops ∨ (d "n_models" = none ∧ ((.td3, c) ∈ ops ∨ (.sac, c) ∈ ops))) → d' = d) := by
  induction ops generalizing σ d with
  | nil => exact ⟨d, hd, fun _ _ => rfl, by simp, fun _ => rfl⟩
  | cons op ops ih =>
    obtain ⟨k, c'⟩ := op
    simp only [session]
    by_cases hc : c = c'
    · subst hc
      -- the dictionary after this constructor
      have key : ∃ d1, (build k (σ c)).1 = some d1 ∧ ((d1 = d.put "n_models" 2 ∧ (k = .doubleFqi ∨ ((k = .td3 ∨ k = .sac) ∧ d "n_models" = none))) ∨
          (d1 = d ∧ ¬(k = .doubleFqi ∨ ((k = .td3 ∨ k = .sac) ∧ d "n_models" = none)))) := by
        rw [hd]
        cases k with
        | ddpg => exact ⟨d, rfl, .inr ⟨rfl, by simp⟩⟩
        | fqi => exact ⟨d, rfl, .inr ⟨rfl, by simp⟩⟩
        | doubleFqi => exact ⟨_, rfl, .inl ⟨rfl, .inl rfl⟩⟩
        | td3 =>
          cases h : d "n_models" with
          | none => exact ⟨d.put "n_models" 2, by simp [build, h], .inl ⟨rfl, .inr ⟨.inl rfl, rfl⟩⟩⟩
          | some n => exact ⟨d, by by_cases hn : 2 ≤ n <;> simp [build, h, hn], .inr ⟨rfl, by simp⟩⟩
        | sac =>
          cases h : d "n_models" with
          | none => exact ⟨d.put "n_models" 2, by simp [build, h], .inl ⟨rfl, .inr ⟨.inr rfl, rfl⟩⟩⟩
          | some n => exact ⟨d, by by_cases hn : n = 2 <;> simp [build, h, hn], .inr ⟨rfl, by simp⟩⟩
        | boosted it =>
          cases h : d "n_models" with
          | none => exact ⟨d, by simp [build, h], .inr ⟨rfl, by simp⟩⟩
          | some n => exact ⟨d, by by_cases hn : n = it <;> simp [build, h, hn], .inr ⟨rfl, by simp⟩⟩
      obtain ⟨d1, h1, hcase⟩ := key
      obtain ⟨d', e1, e2, e3, e4⟩ := ih (fun x => if x = c then (build k (σ c)).1 else σ x) d1 (by simp [h1])
      rcases hcase with ⟨rfl, hw⟩ | ⟨rfl, hw⟩
      · refine ⟨d', e1, fun key hk => ?_, fun _ => ?_, fun hn => ?_⟩
        · rw [e2 key hk]
          simp [Dict.put, hk]
        · by_cases hmem : ((.doubleFqi, c) ∈ ops ∨ ((d.put "n_models" 2) "n_models" = none ∧ ((.td3, c) ∈ ops ∨ (.sac, c) ∈ ops)))
          · exact e3 hmem
          · rw [e4 hmem, put_key]
        · exfalso
          apply hn
          rcases hw with rfl | ⟨rfl | rfl, h⟩
          · exact .inl (by simp)
          · exact .inr ⟨h, .inl (by simp)⟩
          · exact .inr ⟨h, .inr (by simp)⟩
      · have iff : ((.doubleFqi, c) ∈ (k, c) :: ops ∨ (d1 "n_models" = none ∧ ((.td3, c) ∈ (k, c) :: ops ∨ (.sac, c) ∈ (k, c) :: ops))) →
            ((.doubleFqi, c) ∈ ops ∨ (d1 "n_models" = none ∧ ((.td3, c) ∈ ops ∨ (.sac, c) ∈ ops))) := by
          rintro (h | ⟨h, h' | h'⟩)
          · rcases List.mem_cons.1 h with h | h
            · exact absurd (.inl (Prod.mk.inj h).1.symm) hw
            · exact .inl h
          · rcases List.mem_cons.1 h' with h' | h'
            · exact absurd (.inr ⟨.inl (Prod.mk.inj h').1.symm, h⟩) hw
            · exact .inr ⟨h, .inl h'⟩
          · rcases List.mem_cons.1 h' with h' | h'
            · exact absurd (.inr ⟨.inr (Prod.mk.inj h').1.symm, h⟩) hw
            · exact .inr ⟨h, .inr h'⟩
        refine ⟨d', e1, e2, fun h => e3 (iff h), fun h => e4 (fun h' => h ?_)⟩
        rcases h' with h' | ⟨h1, h' | h'⟩
        · exact .inl (List.mem_cons_of_mem _ h')
        · exact .inr ⟨h1, .inl (List.mem_cons_of_mem _ h')⟩
        · exact .inr ⟨h1, .inr (List.mem_cons_of_mem _ h')⟩
    · obtain ⟨d', e1, e2, e3, e4⟩ := ih (fun x => if x = c' then (build k (σ c')).1 else σ x) d (by simp [hc, hd])
      have hmem : ∀ k', ((k', c) ∈ (k, c') :: ops) ↔ (k', c) ∈ ops := by
        intro k'
        simp [hc]
      simp only [hmem]
      exact ⟨d', e1, e2, e3, e4⟩

-- A dictionary from which a TD3 and then a DDPG agent are built.
example : ∃ d', (session [(.td3, 0), (.ddpg, 0)] (fun _ => some (fun _ => none))).1 0 = some d' ∧ d' "n_models" = some 2 := by
  obtain ⟨d', h1, -, h3, -⟩ := C139_dictionary [(.td3, 0), (.ddpg, 0)] (fun _ => some (fun _ => none)) 0 (fun _ => none) rfl
  exact ⟨d', h1, h3 (.inr ⟨rfl, .inl (by simp)⟩)⟩

/-- C139 fails for agents of different kinds that share a dictionary: after TD3, DDPG silently has two critics instead of one; after DoubleFQI, so has FQI, and BoostedFQI is refused the dictionary that suited it. -/
theorem C139_refuted :
    (∃ σ : Store, (session [(.td3, 0), (.ddpg, 0)] σ).2 = [.ok (some 2), .ok (some 2)] ∧ alone .ddpg (σ 0) = .ok none) ∧
    (∃ σ : Store, (session [(.doubleFqi, 0), (.fqi, 0)] σ).2 = [.ok (some 2), .ok (some 2)] ∧ alone .fqi (σ 0) = .ok none) ∧
    ∃ σ : Store, (session [(.doubleFqi, 0), (.boosted 5, 0)] σ).2 = [.ok (some 2), .error .assertion] ∧ alone (.boosted 5) (σ 0) = .ok (some 5) :=
  ⟨⟨fun _ => some (fun _ => none), rfl, rfl⟩, ⟨fun _ => some (fun _ => none), rfl, rfl⟩, ⟨fun _ => some (fun _ => some 5), rfl, rfl⟩⟩

/-- The numbers of models an agent may have (`none`: a single model, not an ensemble) if the caller asks for `asked`: DDPG and FQI have what was asked for, if it is not an empty ensemble; TD3 has
what was asked for, which must be at least two, or two; SAC has two and nothing else may be asked for; DoubleFQI has two; BoostedFQI has one for each iteration, which must be asked for. -/
def Admissible : Kind → (asked : Option ℕ) → Option ℕ → Prop
  | .ddpg, asked, m | .fqi, asked, m => m = asked ∧ asked ≠ some 0
  | .td3, asked, m => asked = none ∧ m = some 2 ∨ ∃ n, 2 ≤ n ∧ asked = some n ∧ m = some n
  | .sac, asked, m => m = some 2 ∧ (asked = none ∨ asked = some 2)
  | .doubleFqi, _, m => m = some 2
  | .boosted it, asked, m => 1 ≤ it ∧ asked = some it ∧ m = some it

/-- C139. A constructor succeeds exactly if the number of models that is asked for is admissible, and then the agent has the admissible number. -/
theorem C139_models (k : Kind) (d : Dict) (m : Option ℕ) : alone k (some d) = .ok m ↔ Admissible k (d "n_models") m := by
  have hr : ∀ (d : Dict) (m : Option ℕ), regressor d = .ok m ↔ m = d "n_models" ∧ d "n_models" ≠ some 0 := by
    intro d m
    unfold regressor
    cases h : d "n_models" with
    | none => simp [eq_comm]
    | some n =>
      by_cases hn : 1 ≤ n
      · simp [hn, eq_comm, show n ≠ 0 by omega]
      · simp [hn, show n = 0 by omega]
  unfold alone
  cases k with
  | ddpg => exact hr d m
  | fqi => exact hr d m
  | doubleFqi => simp [build, hr, put_key, Admissible]
  | td3 =>
    cases h : d "n_models" with
    | none => simp [build, h, hr, put_key, Admissible]
    | some n =>
      by_cases hn : 2 ≤ n
      · simp only [build, h, hn, if_true, hr, Admissible]
        constructor
        · rintro ⟨e, -⟩; exact .inr ⟨n, hn, rfl, e⟩
        · rintro (⟨e, -⟩ | ⟨n', -, e, e'⟩)
          · cases e
          · cases e; exact ⟨e', by simp; omega⟩
      · simp only [build, h, hn, if_false, Admissible, reduceCtorEq, false_iff]
        rintro (⟨e, -⟩ | ⟨n', h', e, -⟩)
        · cases e
        · cases e; exact hn h'
  | sac =>
    cases h : d "n_models" with
    | none => simp [build, h, hr, put_key, Admissible]
    | some n =>
      by_cases hn : n = 2
      · subst hn; simp [build, h, hr, Admissible]
      · simp [build, h, hn, Admissible]
  | boosted it =>
    cases h : d "n_models" with
    | none => simp [build, h, Admissible]
    | some n =>
      by_cases hn : n = it
      · subst hn
        simp only [build, h, if_true, hr, Admissible, ne_eq, Option.some.injEq, true_and]
        constructor
        · rintro ⟨e, h0⟩; exact ⟨by omega, e⟩
        · rintro ⟨h0, e⟩; exact ⟨e, by omega⟩
      · simp [build, h, hn, Admissible]

example : Admissible .td3 (some 3) (some 3) ∧ ¬ Admissible .sac (some 3) (some 3) ∧ ¬ Admissible .ddpg (some 0) (some 0) :=
  ⟨.inr ⟨3, by omega, rfl, rfl⟩, by simp [Admissible], by simp [Admissible]⟩

/-! ### Dictionaries of the fit -/

/-- C139. Every call of `fit` of a MaxminDQN agent trains exactly the model it has drawn, whoever else uses its dictionary. -/
theorem C139_maxmin (ops : List (Fitter × ℕ × ℕ)) (σ : ℕ → Dict) (j n c draw : ℕ) (h : ops[j]? = some (.maxmin n, c, draw)) :
    (fits ops σ).2[j]? = some (.models [draw % n]) := by
  induction ops generalizing σ j with
  | nil => simp at h
  | cons op ops ih =>
    obtain ⟨f, c', draw'⟩ := op
    cases j with
    | zero =>
      simp only [List.getElem?_cons_zero, Option.some.injEq, Prod.mk.injEq] at h
      obtain ⟨rfl, rfl, rfl⟩ := h
      simp [fits, fit, put_key]
    | succ j => simpa [fits] using ih _ j (by simpa using h)

example : (fits [(.dqn, 0, 0), (.maxmin 3, 0, 2)] (fun _ _ => none)).2[1]? = some (.models [2]) := C139_maxmin _ _ 1 3 0 2 rfl

/-- C139 (partial). If no other agent shares the dictionary of a MaxminDQN agent and the caller has not put an index into a dictionary, every call of `fit` of the other agents trains what it trains alone. -/
theorem C139_fit_partial (ops : List (Fitter × ℕ × ℕ)) (σ : ℕ → Dict) (c : ℕ) (hσ : σ c "idx" = none) (hno : ∀ n draw, (.maxmin n, c, draw) ∉ ops)
    (j draw : ℕ) (f : Fitter) (h : ops[j]? = some (f, c, draw)) : (fits ops σ).2[j]? = some (fit f draw (σ c)).2 := by
  induction ops generalizing σ j with
  | nil => simp at h
  | cons op ops ih =>
    obtain ⟨f', c', draw'⟩ := op
    cases j with
    | zero =>
      simp only [List.getElem?_cons_zero, Option.some.injEq, Prod.mk.injEq] at h
      obtain ⟨rfl, rfl, rfl⟩ := h
      simp [fits]
    | succ j =>
      have hkeep : (if c = c' then (fit f' draw' (σ c')).1 else σ c) = σ c := by
        by_cases hc : c = c'
        · subst hc
          rw [if_pos rfl]
          cases f' with
          | maxmin n => exact absurd (by simp) (hno n draw')
          | dqn => rfl
          | doubleFqi => rfl
        · rw [if_neg hc]
      have := ih (fun x => if x = c' then (fit f' draw' (σ c')).1 else σ x) (by show (if c = c' then _ else _ : Dict) "idx" = none; rw [hkeep]; exact hσ)
        (fun n d hm => hno n d (List.mem_cons_of_mem _ hm)) j (by simpa using h)
      simp only [hkeep] at this
      simpa [fits] using this

example := C139_fit_partial [(.maxmin 2, 1, 0), (.dqn, 0, 0)] (fun _ _ => none) 0 rfl (by simp) 1 0 .dqn rfl

/-- C139 fails for a dictionary of fit parameters shared with a MaxminDQN agent: once that has been fitted, the network of a DQN agent is called with an argument it does not know, and DoubleFQI cannot be fitted. -/
theorem C139_fit_refuted : ∃ σ : ℕ → Dict, (fits [(.dqn, 0, 0), (.maxmin 2, 0, 1), (.dqn, 0, 0), (.doubleFqi, 0, 0)] σ).2 =
    [.single, .models [1], .unknownKeyword, .duplicateKeyword] := ⟨fun _ _ => none, rfl⟩

/-! ### Policies -/

theorem policyOf_last (cs : List ℕ) (i : ℕ) (p : ℕ → Option ℕ) (c : ℕ) :
    (c ∉ cs → policyOf cs i p c = p c) ∧
      ∀ j, policyOf cs i p c = some (i + j) → (∀ v, p c = some v → v < i) → cs[j]? = some c ∧ ∀ j', j < j' → cs[j']? ≠ some c := by
  induction cs generalizing i p with
  | nil =>
    refine ⟨fun _ => rfl, fun j h hp => ?_⟩
    have := hp _ h
    omega
  | cons c' cs ih =>
    obtain ⟨h1, h2⟩ := ih (i + 1) (fun x => if x = c' then some i else p x)
    refine ⟨fun hc => ?_, fun j h hp => ?_⟩
    · simp only [List.mem_cons, not_or] at hc
      rw [policyOf, h1 hc.2, if_neg hc.1]
    · rw [policyOf] at h
      by_cases hm : c ∈ cs
      · cases j with
        | zero =>
          -- a later agent has taken the policy: its number is larger
          exfalso
          have big : ∀ (cs : List ℕ) (i : ℕ) (p : ℕ → Option ℕ), c ∈ cs → ∃ v, policyOf cs i p c = some v ∧ i ≤ v := by
            intro cs
            induction cs with
            | nil => simp
            | cons x xs ihx =>
              intro i p hc
              by_cases hx : c ∈ xs
              · obtain ⟨v, hv, hle⟩ := ihx (i + 1) (fun y => if y = x then some i else p y) hx
                exact ⟨v, hv, by omega⟩
              · have hcx : c = x := by rcases List.mem_cons.1 hc with h | h; exact h; exact absurd h hx
                subst hcx
                have none_later : ∀ (ys : List ℕ) (i : ℕ) (p : ℕ → Option ℕ), c ∉ ys → policyOf ys i p c = p c := by
                  intro ys
                  induction ys with
                  | nil => intros; rfl
                  | cons y ys ihy =>
                    intro i p hn
                    simp only [List.mem_cons, not_or] at hn
                    rw [policyOf, ihy _ _ hn.2, if_neg hn.1]
                exact ⟨i, by rw [policyOf, none_later _ _ _ hx, if_pos rfl], Nat.le_refl _⟩
          obtain ⟨v, hv, hle⟩ := big cs (i + 1) (fun x => if x = c' then some i else p x) hm
          rw [hv] at h
          simp only [Option.some.injEq] at h
          omega
        | succ j =>
          have := h2 j (by rw [h]; congr 1; omega) (by
            intro v hv
            by_cases hc : c = c'
            · simp only [hc, if_true, Option.some.injEq] at hv; omega
            · simp only [hc, if_false] at hv; have := hp v hv; omega)
          refine ⟨by simpa using this.1, fun j' hj => ?_⟩
          cases j' with
          | zero => omega
          | succ j' => simpa using this.2 j' (by omega)
      · rw [h1 hm] at h
        by_cases hc : c = c'
        · subst hc
          simp only [if_true, Option.some.injEq] at h
          have : j = 0 := by omega
          subst this
          refine ⟨by simp, fun j' hj => ?_⟩
          cases j' with
          | zero => omega
          | succ j' =>
            intro h'
            exact hm (List.mem_of_getElem? (by simpa using h'))
        · simp only [hc, if_false] at h
          have := hp _ h
          omega

/-- C139. A value-based agent acts by its own approximator exactly if no agent built after it was given the same policy object. -/
theorem C139_policy (cells : List ℕ) (j c : ℕ) (hj : cells[j]? = some c) :
    policyOf cells 0 (fun _ => none) c = some j ↔ ∀ j', j < j' → cells[j']? ≠ some c := by
  constructor
  · intro h
    exact ((policyOf_last cells 0 (fun _ => none) c).2 j (by simpa using h) (by simp)).2
  · intro h
    have gen : ∀ (cells : List ℕ) (i : ℕ) (p : ℕ → Option ℕ) (j : ℕ), cells[j]? = some c → (∀ j', j < j' → cells[j']? ≠ some c) →
        policyOf cells i p c = some (i + j) := by
      intro cells
      induction cells with
      | nil => intro i p j hj; simp at hj
      | cons x xs ih =>
        intro i p j hj h
        cases j with
        | zero =>
          have hx : x = c := by simpa using hj
          subst hx
          have hn : x ∉ xs := by
            intro hm
            obtain ⟨k, hk⟩ := List.mem_iff_getElem?.1 hm
            exact h (k + 1) (by omega) (by simpa using hk)
          rw [policyOf, (policyOf_last xs (i + 1) _ x).1 hn, if_pos rfl, Nat.add_zero]
        | succ j =>
          rw [policyOf, ih (i + 1) _ j (by simpa using hj) (fun j' hj' => by simpa using h (j' + 1) (by omega))]
          congr 1
          omega
    simpa using gen cells 0 (fun _ => none) j hj h

-- Three agents, the first and the last with the same policy: the first acts by the table of the last.
example : policyOf [7, 8, 7] 0 (fun _ => none) 7 = some 2 := (C139_policy [7, 8, 7] 2 7 rfl).2 (by
  intro j' hj'
  obtain ⟨k, rfl⟩ := Nat.exists_eq_add_of_lt hj'
  rw [List.getElem?_eq_none (by simp)]
  simp)

end Verif.Misc.Config
