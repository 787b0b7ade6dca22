import Verif.Serialization.Spec

namespace Verif.Serialization

variable {D : Type}

theorem lookup_append {α β : Type} [DecidableEq α] (a b : List (α × β)) (p : α) :
    lookup (a ++ b) p = match lookup b p with
      | some y => some y
      | none => lookup a p := by
  induction a with
  | nil => simp only [List.nil_append, lookup]; split <;> simp_all
  | cons e a ih =>
    obtain ⟨k, x⟩ := e
    simp only [List.cons_append, lookup, ih]
    cases lookup b p <;> rfl

theorem lookup_none {α β : Type} [DecidableEq α] (a : List (α × β)) (p : α) (h : ∀ e ∈ a, e.1 ≠ p) :
    lookup a p = none := by
  induction a with
  | nil => rfl
  | cons e a ih =>
    obtain ⟨k, x⟩ := e
    simp only [lookup, ih (fun e he => h e (List.mem_cons_of_mem _ he))]
    rw [if_neg (h (k, x) List.mem_cons_self)]

/-- All the entries of `z` are in the folder `f`. -/
def Under (f : Path) (z : Zip D) : Prop := ∀ e ∈ z, f <+: e.1

theorem under_mono {f : Path} {c : Path} {z : Zip D} (h : Under (f ++ c) z) : Under f z := by
  intro e he
  exact (List.prefix_append f c).trans (h e he)

theorem under_append {f : Path} {a b : Zip D} (ha : Under f a) (hb : Under f b) : Under f (a ++ b) := by
  intro e he
  rcases List.mem_append.1 he with h | h
  · exact ha e h
  · exact hb e h

theorem prefix_comp {f p : Path} {c d : Comp} (h1 : f ++ [c] <+: p) (h2 : f ++ [d] <+: p) : c = d := by
  obtain ⟨t, rfl⟩ := h1
  obtain ⟨t', h'⟩ := h2
  simp only [List.append_assoc, List.singleton_append, List.append_cancel_left_eq, List.cons.injEq] at h'
  exact h'.1.symm

/-- Entries under another component are not found. -/
theorem lookup_under_ne {f p : Path} {c d : Comp} {z : Zip D} (hz : Under (f ++ [c]) z) (hp : f ++ [d] <+: p)
    (hcd : c ≠ d) : lookup z p = none := by
  apply lookup_none
  intro e he heq
  have := hz e he
  rw [heq] at this
  exact hcd (prefix_comp this hp)

theorem saveAttr_prims (full : Bool) (f : Path) (n : String) (m : Meth) (b : Bool) (v : Val D) (z : Zip D)
    (ps : List (String × D)) (h : saveAttr full f n m b v = .ok (z, ps)) :
    ps = if (m = .primitive ∧ skipped full b = false) then (match v with | .data d => [(n, d)] | _ => []) else [] := by
  cases v with
  | none => simp only [saveAttr, Except.ok.injEq, Prod.mk.injEq] at h; rw [← h.2]; split <;> rfl
  | data d =>
    simp only [saveAttr] at h
    split at h
    · rename_i hs
      simp only [Except.ok.injEq, Prod.mk.injEq] at h
      rw [if_neg (by simp [hs]), ← h.2]
    · rename_i hs
      cases m <;> simp only [Except.ok.injEq, Prod.mk.injEq, reduceCtorEq] at h <;> simp [← h.2, hs]
  | obj o =>
    simp only [saveAttr] at h
    split at h
    · simp only [Except.ok.injEq, Prod.mk.injEq] at h; rw [← h.2]; split <;> rfl
    · cases m <;> simp only [Except.ok.injEq, Prod.mk.injEq, reduceCtorEq] at h
      · rw [← h.2]; simp
      · split at h
        · cases h
        · simp only [Except.ok.injEq, Prod.mk.injEq] at h; rw [← h.2]; simp
  | list l =>
    simp only [saveAttr] at h
    split at h
    · simp only [Except.ok.injEq, Prod.mk.injEq] at h; rw [← h.2]; split <;> rfl
    · cases m <;> simp only [Except.ok.injEq, Prod.mk.injEq, reduceCtorEq] at h
      · rw [← h.2]; simp
      · split at h
        · cases h
        · simp only [Except.ok.injEq, Prod.mk.injEq] at h; rw [← h.2]; simp

mutual
theorem under_saveObj (full : Bool) (f : Path) (o : Obj D) (z : Zip D) (h : saveObj full f o = .ok z) : Under f z := by
  match o with
  | .mk cls attrs =>
    simp only [saveObj] at h
    cases ha : saveAttrs full f attrs with
    | error e => rw [ha] at h; cases h
    | ok q =>
      obtain ⟨z', ps⟩ := q
      rw [ha] at h
      simp only [Except.ok.injEq] at h
      subst h
      refine under_append (under_saveAttrs full f attrs z' ps ha) ?_
      intro e he
      simp only [List.mem_singleton] at he
      subst he
      exact List.prefix_append _ _
theorem under_saveAttrs (full : Bool) (f : Path) (as : Attrs D) (z : Zip D) (ps : List (String × D))
    (h : saveAttrs full f as = .ok (z, ps)) : Under f z := by
  match as with
  | .nil =>
    simp only [saveAttrs, Except.ok.injEq, Prod.mk.injEq] at h
    rw [← h.1]; intro e he; cases he
  | .cons n m b v rest =>
    simp only [saveAttrs] at h
    cases hr : saveAttrs full f rest with
    | error e =>
      rw [hr] at h
      simp only at h
      split at h <;> cases h
    | ok q =>
      obtain ⟨z2, ps2⟩ := q
      rw [hr] at h
      simp only at h
      cases hv : saveAttr full f n m b v with
      | error e => rw [hv] at h; cases h
      | ok q1 =>
        obtain ⟨z1, ps1⟩ := q1
        rw [hv] at h
        simp only [Except.ok.injEq, Prod.mk.injEq] at h
        rw [← h.1]
        exact under_append (under_mono (under_saveAttr full f n m b v z1 ps1 hv))
          (under_saveAttrs full f rest z2 ps2 hr)
theorem under_saveAttr (full : Bool) (f : Path) (n : String) (m : Meth) (b : Bool) (v : Val D) (z : Zip D)
    (ps : List (String × D)) (h : saveAttr full f n m b v = .ok (z, ps)) : Under (f ++ [.file n m]) z := by
  have hnil : ∀ z : Zip D, [] = z → Under (f ++ [.file n m]) z := by
    intro z hz; subst hz; intro e he; cases he
  match v with
  | .none => simp only [saveAttr, Except.ok.injEq, Prod.mk.injEq] at h; exact hnil _ h.1
  | .data d =>
    simp only [saveAttr] at h
    split at h
    · simp only [Except.ok.injEq, Prod.mk.injEq] at h; exact hnil _ h.1
    · have hone : ∀ (m' : Meth) (z : Zip D), [(f ++ [.file n m], Entry.data m' d)] = z → Under (f ++ [.file n m]) z := by
        intro m' z hz; subst hz; intro e he
        simp only [List.mem_singleton] at he; subst he; exact List.prefix_refl _
      cases m <;> simp only [Except.ok.injEq, Prod.mk.injEq, reduceCtorEq] at h
      · exact hnil _ h.1
      · exact hnil _ h.1
      · exact hone _ _ h.1
      · exact hone _ _ h.1
      · exact hone _ _ h.1
      · exact hone _ _ h.1
  | .obj o =>
    simp only [saveAttr] at h
    split at h
    · simp only [Except.ok.injEq, Prod.mk.injEq] at h; exact hnil _ h.1
    · cases m <;> simp only [Except.ok.injEq, Prod.mk.injEq, reduceCtorEq] at h
      · exact hnil _ h.1
      · cases ho : saveObj full (f ++ [.file n .mushroom]) o with
        | error e => rw [ho] at h; cases h
        | ok z' =>
          rw [ho] at h
          simp only [Except.ok.injEq, Prod.mk.injEq] at h
          rw [← h.1]
          exact under_saveObj full _ o z' ho
  | .list l =>
    simp only [saveAttr] at h
    split at h
    · simp only [Except.ok.injEq, Prod.mk.injEq] at h; exact hnil _ h.1
    · cases m <;> simp only [Except.ok.injEq, Prod.mk.injEq, reduceCtorEq] at h
      · exact hnil _ h.1
      · cases ho : saveVals full (f ++ [.file n .mushroom]) 0 l with
        | error e => rw [ho] at h; cases h
        | ok z' =>
          rw [ho] at h
          simp only [Except.ok.injEq, Prod.mk.injEq] at h
          rw [← h.1]
          intro e he
          rcases List.mem_cons.1 he with rfl | he
          · exact List.prefix_append _ _
          · obtain ⟨i, _, hi⟩ := under_saveVals full _ 0 l z' ho e he
            exact (List.prefix_append _ _).trans hi
theorem under_saveVals (full : Bool) (f : Path) (i : Nat) (l : Vals D) (z : Zip D)
    (h : saveVals full f i l = .ok z) : ∀ e ∈ z, ∃ j, i ≤ j ∧ f ++ [.idx j] <+: e.1 := by
  match l with
  | .nil => simp only [saveVals, Except.ok.injEq] at h; subst h; intro e he; cases he
  | .cons .none rest => simp only [saveVals] at h; cases h
  | .cons (.data _) rest => simp only [saveVals] at h; cases h
  | .cons (.list _) rest => simp only [saveVals] at h; cases h
  | .cons (.obj o) rest =>
    simp only [saveVals] at h
    cases ho : saveObj full (f ++ [.idx i]) o with
    | error e => rw [ho] at h; cases h
    | ok z1 =>
      rw [ho] at h
      simp only at h
      cases hr : saveVals full f (i + 1) rest with
      | error e => rw [hr] at h; cases h
      | ok z2 =>
        rw [hr] at h
        simp only [Except.ok.injEq] at h
        subst h
        intro e he
        rcases List.mem_append.1 he with h1 | h2
        · exact ⟨i, Nat.le_refl _, under_saveObj full _ o z1 ho e h1⟩
        · obtain ⟨j, hj, hp⟩ := under_saveVals full f (i + 1) rest z2 hr e h2
          exact ⟨j, by omega, hp⟩
end

/-- The value that `load_zip` gives to one attribute. -/
def loadAttr (codec : Meth → D → D) (post : Nat → Attrs D → Attrs D) (z : Zip D) (n : Nat) (folder : Path)
    (prims : List (String × D)) (name : String) (m : Meth) (bang : Bool) : Val D :=
  match (if m = .primitive then lookup prims name else none) with
  | some d => .data (codec m d)
  | none => match lookup z (folder ++ [.file name m]) with
    | some (.data m' d) => .data (codec m' d)
    | some _ => .none
    | none =>
      if m = .mushroom ∧ bang = false then loadZip codec post z n (folder ++ [.file name m])
      else .none

theorem build_congr (f g : String → Meth → Bool → Val D) (l : List (String × Meth × Bool))
    (h : ∀ n m b, (n, m, b) ∈ l → f n m b = g n m b) : build f l = build g l := by
  induction l with
  | nil => rfl
  | cons e l ih =>
    obtain ⟨n, m, b⟩ := e
    simp only [build, h n m b List.mem_cons_self, ih (fun n m b h' => h n m b (List.mem_cons_of_mem _ h'))]

theorem mem_schema_names (as : Attrs D) (n : String) (m : Meth) (b : Bool) (h : (n, m, b) ∈ as.schema) : n ∈ as.names := by
  match as with
  | .nil => cases h
  | .cons n' m' b' v rest =>
    simp only [Attrs.schema, List.mem_cons, Prod.mk.injEq] at h
    simp only [Attrs.names, List.mem_cons]
    rcases h with h | h
    · left; exact h.1
    · right; exact mem_schema_names rest n m b h

theorem under_attrs_strict (full : Bool) (f : Path) (as : Attrs D) (z : Zip D) (ps : List (String × D))
    (h : saveAttrs full f as = .ok (z, ps)) : ∀ e ∈ z, ∃ n m, n ∈ as.names ∧ f ++ [.file n m] <+: e.1 := by
  match as with
  | .nil =>
    simp only [saveAttrs, Except.ok.injEq, Prod.mk.injEq] at h
    rw [← h.1]; intro e he; cases he
  | .cons n m b v rest =>
    simp only [saveAttrs] at h
    cases hr : saveAttrs full f rest with
    | error e => rw [hr] at h; simp only at h; split at h <;> cases h
    | ok q =>
      obtain ⟨z2, ps2⟩ := q
      rw [hr] at h
      simp only at h
      cases hv : saveAttr full f n m b v with
      | error e => rw [hv] at h; cases h
      | ok q1 =>
        obtain ⟨z1, ps1⟩ := q1
        rw [hv] at h
        simp only [Except.ok.injEq, Prod.mk.injEq] at h
        rw [← h.1]
        intro e he
        rcases List.mem_append.1 he with h1 | h2
        · exact ⟨n, m, by simp [Attrs.names], under_saveAttr full f n m b v z1 ps1 hv e h1⟩
        · obtain ⟨n', m', a, b⟩ := under_attrs_strict full f rest z2 ps2 hr e h2
          exact ⟨n', m', by simp [Attrs.names, a], b⟩

theorem attrs_lookup_none (full : Bool) (f : Path) (as : Attrs D) (z : Zip D) (ps : List (String × D))
    (h : saveAttrs full f as = .ok (z, ps)) (n : String) (m : Meth) (hn : n ∉ as.names) (p : Path)
    (hp : f ++ [.file n m] <+: p) : lookup z p = none := by
  apply lookup_none
  intro e he heq
  obtain ⟨n', m', a, b⟩ := under_attrs_strict full f as z ps h e he
  rw [heq] at b
  have := prefix_comp b hp
  simp only [Comp.file.injEq] at this
  exact hn (this.1 ▸ a)

theorem attrs_lookup_config (full : Bool) (f : Path) (as : Attrs D) (z : Zip D) (ps : List (String × D))
    (h : saveAttrs full f as = .ok (z, ps)) : lookup z (f ++ [.config]) = none := by
  apply lookup_none
  intro e he heq
  obtain ⟨n', m', a, b⟩ := under_attrs_strict full f as z ps h e he
  rw [heq] at b
  have := prefix_comp b (List.prefix_refl _)
  cases this

/-- The folder itself is not an entry. -/
theorem lookup_saveObj_self (full : Bool) (f : Path) (o : Obj D) (z : Zip D) (h : saveObj full f o = .ok z) :
    lookup z f = none := by
  match o with
  | .mk cls attrs =>
    simp only [saveObj] at h
    cases ha : saveAttrs full f attrs with
    | error e => rw [ha] at h; cases h
    | ok q =>
      obtain ⟨z', ps⟩ := q
      rw [ha] at h
      simp only [Except.ok.injEq] at h
      subst h
      apply lookup_none
      intro e he heq
      rcases List.mem_append.1 he with h1 | h1
      · obtain ⟨n', m', _, b⟩ := under_attrs_strict full f attrs z' ps ha e h1
        rw [heq] at b
        have := b.length_le
        simp only [List.length_append, List.length_singleton] at this
        omega
      · simp only [List.mem_singleton] at h1
        subst h1
        have := congrArg List.length heq
        simp at this

theorem prims_names (full : Bool) (f : Path) (as : Attrs D) (z : Zip D) (ps : List (String × D))
    (h : saveAttrs full f as = .ok (z, ps)) : ∀ e ∈ ps, e.1 ∈ as.names := by
  match as with
  | .nil =>
    simp only [saveAttrs, Except.ok.injEq, Prod.mk.injEq] at h
    rw [← h.2]; intro e he; cases he
  | .cons n m b v rest =>
    simp only [saveAttrs] at h
    cases hr : saveAttrs full f rest with
    | error e => rw [hr] at h; simp only at h; split at h <;> cases h
    | ok q =>
      obtain ⟨z2, ps2⟩ := q
      rw [hr] at h
      simp only at h
      cases hv : saveAttr full f n m b v with
      | error e => rw [hv] at h; cases h
      | ok q1 =>
        obtain ⟨z1, ps1⟩ := q1
        rw [hv] at h
        simp only [Except.ok.injEq, Prod.mk.injEq] at h
        rw [← h.2]
        intro e he
        rcases List.mem_append.1 he with h1 | h2
        · rw [saveAttr_prims full f n m b v z1 ps1 hv] at h1
          split at h1
          · split at h1
            · simp only [List.mem_singleton] at h1; subst h1; simp [Attrs.names]
            · cases h1
          · cases h1
        · have := prims_names full f rest z2 ps2 hr e h2
          simp [Attrs.names, this]

theorem loadZip_succ (codec : Meth → D → D) (post : Nat → Attrs D → Attrs D) (z : Zip D) (n : Nat) (f : Path) :
    loadZip codec post z (n + 1) f = match lookup z (f ++ [.config]) with
      | none => .none
      | some (.data _ _) => .none
      | some (.configList len) => .list (buildList (fun i => loadZip codec post z n (f ++ [.idx i])) 0 len)
      | some (.config cls schema prims) => .obj (.mk cls (post cls (build (loadAttr codec post z n f prims) schema))) := by
  rfl

theorem buildList_congr (f g : Nat → Val D) (i n : Nat) (h : ∀ j, i ≤ j → f j = g j) :
    buildList f i n = buildList g i n := by
  induction n generalizing i with
  | zero => rfl
  | succ n ih => simp only [buildList, h i (Nat.le_refl _), ih (i + 1) (fun j hj => h j (by omega))]

theorem loadZip_missing (codec : Meth → D → D) (post : Nat → Attrs D → Attrs D) (z : Zip D) (n : Nat) (f : Path)
    (h : lookup z (f ++ [.config]) = none) : loadZip codec post z n f = .none := by
  cases n with
  | zero => rfl
  | succ n => rw [loadZip_succ, h]

variable (codec : Meth → D → D) (post : Nat → Attrs D → Attrs D) (full : Bool)

mutual
theorem load_obj (o : Obj D) (hk : o.Keys) (f : Path) (z zo : Zip D) (h : saveObj full f o = .ok zo)
    (hz : ∀ p, f <+: p → lookup z p = lookup zo p) :
    ∃ n0, ∀ n, n0 ≤ n → loadZip codec post z n f = .obj (o.restrict (restored full) codec post) := by
  match o with
  | .mk cls attrs =>
    simp only [saveObj] at h
    cases ha : saveAttrs full f attrs with
    | error e => rw [ha] at h; cases h
    | ok q =>
      obtain ⟨z', ps⟩ := q
      rw [ha] at h
      simp only [Except.ok.injEq] at h
      subst h
      have hcfg : lookup z (f ++ [.config]) = some (.config cls attrs.schema ps) := by
        rw [hz _ (List.prefix_append _ _), lookup_append]
        simp [lookup]
      have hother : ∀ n m p, f ++ [.file n m] <+: p → lookup z p = lookup z' p := by
        intro n m p hp
        rw [hz p ((List.prefix_append _ _).trans hp), lookup_append]
        have : lookup [(f ++ [Comp.config], Entry.config cls attrs.schema ps)] p = none := by
          apply lookup_none
          intro e he heq
          simp only [List.mem_singleton] at he
          subst he
          simp only at heq
          subst heq
          have := prefix_comp hp (List.prefix_refl _)
          cases this
        rw [this]
      obtain ⟨n0, h0⟩ := load_attrs attrs hk.1 hk.2 f z z' ps ps ha (fun n m p _ hp => hother n m p hp) (fun _ _ => rfl)
      refine ⟨n0 + 1, ?_⟩
      intro n hn
      obtain ⟨n', rfl⟩ : ∃ n', n = n' + 1 := ⟨n - 1, by omega⟩
      rw [loadZip_succ, hcfg]
      simp only [Obj.restrict, h0 n' (by omega)]
theorem load_attrs (as : Attrs D) (hnd : as.names.Nodup) (hk : as.Keys) (f : Path) (z za : Zip D)
    (ps pa : List (String × D)) (h : saveAttrs full f as = .ok (za, pa))
    (hz : ∀ n m p, n ∈ as.names → f ++ [.file n m] <+: p → lookup z p = lookup za p)
    (hp : ∀ n, n ∈ as.names → lookup ps n = lookup pa n) :
    ∃ n0, ∀ n, n0 ≤ n →
      build (loadAttr codec post z n f ps) as.schema = as.restrict (restored full) codec post := by
  match as with
  | .nil => exact ⟨0, fun _ _ => rfl⟩
  | .cons nm m b v rest =>
    simp only [saveAttrs] at h
    cases hr : saveAttrs full f rest with
    | error e => rw [hr] at h; simp only at h; split at h <;> cases h
    | ok q =>
      obtain ⟨z2, ps2⟩ := q
      rw [hr] at h
      simp only at h
      cases hv : saveAttr full f nm m b v with
      | error e => rw [hv] at h; cases h
      | ok q1 =>
        obtain ⟨z1, ps1⟩ := q1
        rw [hv] at h
        simp only [Except.ok.injEq, Prod.mk.injEq] at h
        obtain ⟨hza, hpa⟩ := h
        simp only [Attrs.names, List.nodup_cons] at hnd
        have hu := under_saveAttr full f nm m b v z1 ps1 hv
        have hps1 := saveAttr_prims full f nm m b v z1 ps1 hv
        -- the tail
        obtain ⟨n2, h2⟩ := load_attrs rest hnd.2 hk.2 f z z2 ps ps2 hr (by
          intro n m' p hn hpre
          rw [hz n m' p (by simp [Attrs.names, hn]) hpre, ← hza, lookup_append]
          have : lookup z1 p = none := by
            apply lookup_under_ne hu hpre
            intro heq
            simp only [Comp.file.injEq] at heq
            exact hnd.1 (heq.1 ▸ hn)
          rw [this]
          cases lookup z2 p <;> rfl) (by
          intro n hn
          rw [hp n (by simp [Attrs.names, hn]), ← hpa, lookup_append]
          have : lookup ps1 n = none := by
            apply lookup_none
            intro e he heq
            rw [hps1] at he
            split at he
            · split at he
              · simp only [List.mem_singleton] at he
                subst he
                simp only at heq
                exact hnd.1 (heq ▸ hn)
              · cases he
            · cases he
          rw [this]
          cases lookup ps2 n <;> rfl)
        -- the head
        have hz1 : ∀ m' p, f ++ [.file nm m'] <+: p → lookup z p = lookup z1 p := by
          intro m' p hpre
          rw [hz nm m' p (by simp [Attrs.names]) hpre, ← hza, lookup_append,
            attrs_lookup_none full f rest z2 ps2 hr nm m' hnd.1 p hpre]
        have hp1 : lookup ps nm = lookup ps1 nm := by
          rw [hp nm (by simp [Attrs.names]), ← hpa, lookup_append]
          have : lookup ps2 nm = none := by
            apply lookup_none
            intro e he heq
            have := prims_names full f rest z2 ps2 hr e he
            exact hnd.1 (heq ▸ this)
          rw [this]
        obtain ⟨n1, h1⟩ := load_attr v hk.1 f nm m b z z1 ps ps1 hv (hz1 m) hp1
        refine ⟨max n1 n2, ?_⟩
        intro n hn
        simp only [Attrs.schema, build, Attrs.restrict]
        rw [h1 n (by omega), h2 n (by omega)]
theorem load_attr (v : Val D) (hk : v.Keys) (f : Path) (nm : String) (m : Meth) (b : Bool) (z z1 : Zip D)
    (ps ps1 : List (String × D)) (h : saveAttr full f nm m b v = .ok (z1, ps1))
    (hz : ∀ p, f ++ [.file nm m] <+: p → lookup z p = lookup z1 p) (hp : lookup ps nm = lookup ps1 nm) :
    ∃ n0, ∀ n, n0 ≤ n → loadAttr codec post z n f ps nm m b =
      if restored full m b then v.restrict (restored full) codec post m else .none := by
  have hps1 := saveAttr_prims full f nm m b v z1 ps1 h
  have hself := hz _ (List.prefix_refl _)
  have hcfg := hz (f ++ [.file nm m] ++ [.config]) (List.prefix_append _ _)
  -- nothing written: the attribute is loaded as None
  have hnone : z1 = [] → ps1 = [] → ∀ n, loadAttr codec post z n f ps nm m b = .none := by
    intro e1 e2 n
    subst e1 e2
    simp only [loadAttr, hp, lookup, ite_self, hself]
    split
    · exact loadZip_missing codec post z n _ hcfg
    · rfl
  match v with
  | .none =>
    simp only [saveAttr, Except.ok.injEq, Prod.mk.injEq] at h
    refine ⟨0, fun n _ => ?_⟩
    rw [hnone h.1.symm h.2.symm n]
    simp [Val.restrict]
  | .data d =>
    simp only [saveAttr] at h
    split at h
    · rename_i hs
      simp only [Except.ok.injEq, Prod.mk.injEq] at h
      refine ⟨0, fun n _ => ?_⟩
      rw [hnone h.1.symm h.2.symm n, if_neg]
      simp only [skipped, Bool.and_eq_true, Bool.not_eq_true'] at hs
      simp [restored, promised, hs]
    · rename_i hs
      have hb : (!b || full) = true := by
        cases b <;> cases full <;> simp_all [skipped]
      cases m <;> simp only [Except.ok.injEq, Prod.mk.injEq, reduceCtorEq] at h
      · obtain ⟨rfl, rfl⟩ := h
        refine ⟨0, fun n _ => ?_⟩
        simp only [loadAttr, if_true, hp, lookup]
        simp [restored, promised, hb, Val.restrict]
      · refine ⟨0, fun n _ => ?_⟩
        rw [hnone h.1.symm h.2.symm n]
        simp [restored, promised]
      all_goals
        obtain ⟨rfl, rfl⟩ := h
        refine ⟨0, fun n _ => ?_⟩
        simp only [loadAttr, hself, lookup, if_true, reduceCtorEq, if_false]
        simp [restored, promised, hb, Val.restrict]
  | .obj o =>
    simp only [saveAttr] at h
    split at h
    · rename_i hs
      simp only [Except.ok.injEq, Prod.mk.injEq] at h
      refine ⟨0, fun n _ => ?_⟩
      rw [hnone h.1.symm h.2.symm n, if_neg]
      simp only [skipped, Bool.and_eq_true, Bool.not_eq_true'] at hs
      simp [restored, promised, hs]
    · rename_i hs
      have hb : (!b || full) = true := by
        cases b <;> cases full <;> simp_all [skipped]
      cases m <;> simp only [Except.ok.injEq, Prod.mk.injEq, reduceCtorEq] at h
      · refine ⟨0, fun n _ => ?_⟩
        rw [hnone h.1.symm h.2.symm n]
        simp [restored, promised]
      · cases ho : saveObj full (f ++ [.file nm .mushroom]) o with
        | error e => rw [ho] at h; cases h
        | ok zo =>
          rw [ho] at h
          simp only [Except.ok.injEq, Prod.mk.injEq] at h
          obtain ⟨rfl, rfl⟩ := h
          obtain ⟨n0, h0⟩ := load_obj o hk (f ++ [.file nm .mushroom]) z zo ho hz
          have hs0 := lookup_saveObj_self full _ o zo ho
          refine ⟨n0, fun n hn => ?_⟩
          simp only [loadAttr, hself, hs0, reduceCtorEq, if_false, true_and]
          cases b with
          | false => simp only [if_true, h0 n hn]; simp [restored, promised, Val.restrict]
          | true => simp [restored]
  | .list l =>
    simp only [saveAttr] at h
    split at h
    · rename_i hs
      simp only [Except.ok.injEq, Prod.mk.injEq] at h
      refine ⟨0, fun n _ => ?_⟩
      rw [hnone h.1.symm h.2.symm n, if_neg]
      simp only [skipped, Bool.and_eq_true, Bool.not_eq_true'] at hs
      simp [restored, promised, hs]
    · rename_i hs
      cases m <;> simp only [Except.ok.injEq, Prod.mk.injEq, reduceCtorEq] at h
      · refine ⟨0, fun n _ => ?_⟩
        rw [hnone h.1.symm h.2.symm n]
        simp [restored, promised]
      · cases ho : saveVals full (f ++ [.file nm .mushroom]) 0 l with
        | error e => rw [ho] at h; cases h
        | ok zo =>
          rw [ho] at h
          simp only [Except.ok.injEq, Prod.mk.injEq] at h
          obtain ⟨rfl, rfl⟩ := h
          have hu := under_saveVals full _ 0 l zo ho
          have hzo : lookup zo (f ++ [.file nm .mushroom]) = none := by
            apply lookup_none
            intro e he heq
            obtain ⟨j, _, hj⟩ := hu e he
            rw [heq] at hj
            have := hj.length_le
            simp at this
          have hzc : lookup zo (f ++ [.file nm .mushroom] ++ [.config]) = none := by
            apply lookup_none
            intro e he heq
            obtain ⟨j, _, hj⟩ := hu e he
            rw [heq] at hj
            have := prefix_comp hj (List.prefix_refl _)
            cases this
          have hself' : lookup z (f ++ [.file nm .mushroom]) = none := by
            rw [hself]
            simp only [lookup, hzo]
            rw [if_neg]
            intro heq
            have := congrArg List.length heq
            simp at this
          have hcfg' : lookup z (f ++ [.file nm .mushroom] ++ [.config]) = some (.configList l.length) := by
            rw [hcfg]
            simp only [lookup, hzc, if_true]
          obtain ⟨n0, h0⟩ := load_vals l hk (f ++ [.file nm .mushroom]) 0 z zo ho (by
            intro j p _ hpre
            rw [hz p ((List.prefix_append _ _).trans hpre)]
            simp only [lookup]
            cases hl : lookup zo p with
            | some y => rfl
            | none =>
              rw [if_neg]
              intro heq
              subst heq
              have := prefix_comp hpre (List.prefix_refl _)
              cases this)
          refine ⟨n0 + 1, fun n hn => ?_⟩
          obtain ⟨n', rfl⟩ : ∃ n', n = n' + 1 := ⟨n - 1, by omega⟩
          simp only [loadAttr, hself', reduceCtorEq, if_false, true_and]
          cases b with
          | false =>
            simp only [if_true, loadZip_succ, hcfg', h0 n' (by omega)]
            simp [restored, promised, Val.restrict]
          | true => simp [restored]
theorem load_vals (l : Vals D) (hk : l.Keys) (f : Path) (i : Nat) (z zl : Zip D)
    (h : saveVals full f i l = .ok zl) (hz : ∀ j p, i ≤ j → f ++ [.idx j] <+: p → lookup z p = lookup zl p) :
    ∃ n0, ∀ n, n0 ≤ n → buildList (fun j => loadZip codec post z n (f ++ [.idx j])) i l.length =
      l.restrict (restored full) codec post := by
  match l with
  | .nil => exact ⟨0, fun _ _ => rfl⟩
  | .cons .none rest => simp only [saveVals] at h; cases h
  | .cons (.data _) rest => simp only [saveVals] at h; cases h
  | .cons (.list _) rest => simp only [saveVals] at h; cases h
  | .cons (.obj o) rest =>
    simp only [saveVals] at h
    cases ho : saveObj full (f ++ [.idx i]) o with
    | error e => rw [ho] at h; cases h
    | ok z1 =>
      rw [ho] at h
      simp only at h
      cases hr : saveVals full f (i + 1) rest with
      | error e => rw [hr] at h; cases h
      | ok z2 =>
        rw [hr] at h
        simp only [Except.ok.injEq] at h
        subst h
        have hu1 := under_saveObj full _ o z1 ho
        have hu2 := under_saveVals full f (i + 1) rest z2 hr
        obtain ⟨n1, h1⟩ := load_obj o hk.1 (f ++ [.idx i]) z z1 ho (by
          intro p hpre
          rw [hz i p (Nat.le_refl _) hpre, lookup_append]
          have : lookup z2 p = none := by
            apply lookup_none
            intro e he heq
            obtain ⟨j, hj, hjp⟩ := hu2 e he
            rw [heq] at hjp
            have := prefix_comp hjp hpre
            simp only [Comp.idx.injEq] at this
            omega
          rw [this])
        obtain ⟨n2, h2⟩ := load_vals rest hk.2 f (i + 1) z z2 hr (by
          intro j p hj hpre
          rw [hz j p (by omega) hpre, lookup_append]
          have : lookup z1 p = none := by
            apply lookup_under_ne hu1 hpre
            intro heq
            simp only [Comp.idx.injEq] at heq
            omega
          rw [this]
          cases lookup z2 p <;> rfl)
        refine ⟨max n1 n2, fun n hn => ?_⟩
        simp only [Vals.length, buildList, Vals.restrict, Val.restrict]
        rw [h1 n (by omega), h2 n (by omega)]
end

/-! Saving succeeds for savable objects. -/
mutual
theorem save_obj_ok (o : Obj D) (h : o.Savable) (f : Path) : ∃ z, saveObj full f o = .ok z := by
  match o with
  | .mk cls attrs =>
    obtain ⟨z, ps, hz⟩ := save_attrs_ok attrs h f
    exact ⟨_, by simp only [saveObj, hz]; rfl⟩
theorem save_attrs_ok (as : Attrs D) (h : as.Savable) (f : Path) : ∃ z ps, saveAttrs full f as = .ok (z, ps) := by
  match as with
  | .nil => exact ⟨[], [], rfl⟩
  | .cons n m b v rest =>
    obtain ⟨z, ps, hz⟩ := save_attrs_ok rest h.2 f
    obtain ⟨z1, ps1, hz1⟩ := save_attr_ok v n m b h.1 f
    exact ⟨z1 ++ z, ps1 ++ ps, by simp only [saveAttrs, hz, hz1]⟩
theorem save_attr_ok (v : Val D) (n : String) (m : Meth) (b : Bool) (h : v.Savable m) (f : Path) :
    ∃ z ps, saveAttr full f n m b v = .ok (z, ps) := by
  match v with
  | .none => exact ⟨[], [], rfl⟩
  | .data d =>
    simp only [saveAttr]
    split
    · exact ⟨_, _, rfl⟩
    · simp only [Val.Savable] at h
      cases m <;> simp at h <;> exact ⟨_, _, rfl⟩
  | .obj o =>
    obtain ⟨rfl, h2⟩ := h
    obtain ⟨z, hz⟩ := save_obj_ok o h2 (f ++ [.file n .mushroom])
    simp only [saveAttr, hz]
    split <;> exact ⟨_, _, rfl⟩
  | .list l =>
    obtain ⟨rfl, h2⟩ := h
    obtain ⟨z, hz⟩ := save_vals_ok l h2 (f ++ [.file n .mushroom]) 0
    simp only [saveAttr, hz]
    split <;> exact ⟨_, _, rfl⟩
theorem save_vals_ok (l : Vals D) (h : l.Savable) (f : Path) (i : Nat) : ∃ z, saveVals full f i l = .ok z := by
  match l with
  | .nil => exact ⟨[], rfl⟩
  | .cons .none rest => obtain ⟨⟨o, ho⟩, _⟩ := h; cases ho
  | .cons (.data _) rest => obtain ⟨⟨o, ho⟩, _⟩ := h; cases ho
  | .cons (.list _) rest => obtain ⟨⟨o, ho⟩, _⟩ := h; cases ho
  | .cons (.obj o) rest =>
    obtain ⟨z1, h1⟩ := save_obj_ok o h.2.1.2 (f ++ [.idx i])
    obtain ⟨z2, h2⟩ := save_vals_ok rest h.2.2 f (i + 1)
    exact ⟨z1 ++ z2, by simp only [saveVals, h1, h2]⟩
end

mutual
theorem restrict_obj (o : Obj D) (h : o.NoBangMushroom) :
    o.restrict (restored full) codec post = o.restrict (promised full) codec post := by
  match o with
  | .mk cls attrs => simp only [Obj.restrict, restrict_attrs attrs h]
theorem restrict_attrs (as : Attrs D) (h : as.NoBangMushroom) :
    as.restrict (restored full) codec post = as.restrict (promised full) codec post := by
  match as with
  | .nil => rfl
  | .cons n m b v rest =>
    simp only [Attrs.restrict, restrict_attrs rest h.2.2, restrict_val v m h.2.1]
    congr 1
    by_cases hm : m = .mushroom ∧ b = true
    · rw [h.1 hm.1 hm.2]; simp [Val.restrict]
    · have : restored full m b = promised full m b := by
        simp only [restored]
        cases m <;> cases b <;> simp_all
      rw [this]
theorem restrict_val (v : Val D) (m : Meth) (h : v.NoBangMushroom) :
    v.restrict (restored full) codec post m = v.restrict (promised full) codec post m := by
  match v with
  | .none => rfl
  | .data d => rfl
  | .obj o => simp only [Val.restrict, restrict_obj o h]
  | .list l => simp only [Val.restrict, restrict_vals l h]
theorem restrict_vals (l : Vals D) (h : l.NoBangMushroom) :
    l.restrict (restored full) codec post = l.restrict (promised full) codec post := by
  match l with
  | .nil => rfl
  | .cons v rest => simp only [Vals.restrict, restrict_val v _ h.1, restrict_vals rest h.2]
end

end Verif.Serialization
