/-
Property C155: the viewer of MuJoCo environments.
-/
import Verif.View.Spec

namespace Verif.View

noncomputable section

variable {D : Type}

/-! ### Parameters -/

theorem lookup_append_single (ps : Dict (List ℝ)) (k p : String) (v : List ℝ) :
    (ps ++ [(k, v)]).lookup p = (ps.lookup p).or (if p = k then some v else none) := by
  rw [List.lookup_append]
  by_cases h : p = k
  · subst h; simp [List.lookup]
  · have : (p == k) = false := by simpa using h
    simp [List.lookup, this, h]

theorem fillParams_lookup (d ps : Dict (List ℝ)) (p : String) : (fillParams d ps).lookup p = (ps.lookup p).or (d.lookup p) := by
  unfold fillParams
  induction d generalizing ps with
  | nil => simp
  | cons kv d ih =>
    obtain ⟨k, v⟩ := kv
    rw [List.foldl_cons, ih]
    by_cases hk : ps.lookup k = none
    · rw [if_pos hk, lookup_append_single, Option.or_assoc]
      congr 1
      by_cases h : p = k
      · subst h; simp [List.lookup]
      · have : (p == k) = false := by simpa using h
        simp [List.lookup, this, h]
    · rw [if_neg hk]
      by_cases h : p = k
      · subst h
        obtain ⟨x, hx⟩ := Option.ne_none_iff_exists'.1 hk
        simp [hx]
      · have : (p == k) = false := by simpa using h
        simp [List.lookup, this]

theorem lookup_map {f : String → Dict (List ℝ) → Dict (List ℝ)} (g : Dict (Dict (List ℝ))) (t : String) :
    (g.map fun tp => (tp.1, f tp.1 tp.2)).lookup t = (g.lookup t).map (f t) := by
  induction g with
  | nil => simp
  | cons x g ih =>
    obtain ⟨k, v⟩ := x
    by_cases h : t = k
    · subst h; simp [List.lookup]
    · have : (t == k) = false := by simpa using h
      simp [List.lookup, this, ih]

theorem fillType_lookup (g : Dict (Dict (List ℝ))) (k : String) (d : Dict (List ℝ)) (t : String) :
    (fillType g (k, d)).lookup t = if t = k then some (match g.lookup k with | none => d | some ps => fillParams d ps) else g.lookup t := by
  unfold fillType
  by_cases hk : g.lookup k = none
  · rw [if_pos hk, List.lookup_append, hk]
    by_cases h : t = k
    · subst h; simp [hk, List.lookup]
    · have : (t == k) = false := by simpa using h
      simp [List.lookup, this, h]
  · rw [if_neg hk]
    have : (g.map fun tp => if tp.1 = k then (tp.1, fillParams d tp.2) else tp) = g.map fun tp => (tp.1, (fun t ps => if t = k then fillParams d ps else ps) tp.1 tp.2) := by
      refine List.map_congr_left fun tp _ => ?_
      dsimp only
      split <;> rfl
    dsimp only
    rw [this, lookup_map (f := fun t ps => if t = k then fillParams d ps else ps)]
    by_cases h : t = k
    · subst h
      obtain ⟨x, hx⟩ := Option.ne_none_iff_exists'.1 hk
      simp [hx]
    · simp [h]

theorem fill_lookup (ds : Dict (Dict (List ℝ))) (hn : (ds.map Prod.fst).Nodup) (g : Dict (Dict (List ℝ))) (t : String) :
    (ds.foldl fillType g).lookup t = match ds.lookup t with
      | none => g.lookup t
      | some d => some (match g.lookup t with | none => d | some ps => fillParams d ps) := by
  induction ds generalizing g with
  | nil => simp
  | cons kd ds ih =>
    obtain ⟨k, d⟩ := kd
    rw [List.map_cons, List.nodup_cons] at hn
    rw [List.foldl_cons, ih hn.2, fillType_lookup]
    by_cases h : t = k
    · subst h
      have hd : ds.lookup t = none := by
        rw [List.lookup_eq_none_iff]
        intro p hp
        simp only [bne_iff_ne, ne_eq]
        rintro rfl
        exact hn.1 (List.mem_map.2 ⟨p, hp, rfl⟩)
      simp [List.lookup, hd]
    · have : (t == k) = false := by simpa using h
      simp [List.lookup, this, h]

/-- **C155**, parameters. Every parameter of every camera is the one given by the user, or the default if it is not given. There are no other cameras. -/
theorem C155_params (given r : Dict (Dict (List ℝ))) (h : assertParams given = .ok r) (t : String) :
    match defaults.lookup t with
    | none => r.lookup t = none
    | some d => ∃ ps, r.lookup t = some ps ∧ ∀ p, ps.lookup p = ((given.lookup t).bind fun ps => ps.lookup p).or (d.lookup p) := by
  unfold assertParams at h
  split at h
  next hk =>
    cases h
    rw [fill_lookup _ (by simp [defaults])]
    cases hd : defaults.lookup t with
    | none =>
      simp only
      rw [List.lookup_eq_none_iff]
      intro p hp
      simp only [bne_iff_ne, ne_eq]
      rintro rfl
      have := List.all_eq_true.1 hk p hp
      simp [hd] at this
    | some d =>
      simp only
      refine ⟨_, rfl, fun p => ?_⟩
      cases hg : given.lookup t with
      | none => simp
      | some ps => simp [fillParams_lookup]
  next => cases h

/-- **C155**, parameters: a dictionary is rejected if and only if it names an unknown camera or an unknown parameter. -/
theorem C155_rejects (given : Dict (Dict (List ℝ))) :
    assertParams given = .error .assertion ↔ ∃ t ps, (t, ps) ∈ given ∧ ∀ d, defaults.lookup t = some d → ∃ p v, (p, v) ∈ ps ∧ d.lookup p = none := by
  unfold assertParams
  constructor
  · intro h
    split at h
    · cases h
    next hk =>
      simp only [known, List.all_eq_true, not_forall] at hk
      obtain ⟨⟨t, ps⟩, ht, hk⟩ := hk
      refine ⟨t, ps, ht, fun d hd => ?_⟩
      simp only [hd, List.all_eq_true, not_forall] at hk
      obtain ⟨⟨p, v⟩, hp, hk⟩ := hk
      exact ⟨p, v, hp, Option.not_isSome_iff_eq_none.1 hk⟩
  · rintro ⟨t, ps, ht, h⟩
    rw [if_neg]
    intro hk
    have := List.all_eq_true.1 hk _ ht
    cases hd : defaults.lookup t with
    | none => simp [hd] at this
    | some d =>
      obtain ⟨p, v, hp, hn⟩ := h d hd
      simp only [hd, List.all_eq_true] at this
      have := this _ hp
      simp [hn] at this

/-- A camera that is further away: the rest are the defaults. -/
example : ∃ r, assertParams [("follow", [("distance", [8])])] = .ok r ∧ (r.lookup "follow").bind (·.lookup "distance") = some [8] ∧
    (r.lookup "follow").bind (·.lookup "azimuth") = some [90] ∧ (r.lookup "static").bind (·.lookup "elevation") = some [-45] := by
  refine ⟨_, by rw [assertParams, if_pos (by simp [known, defaults, List.lookup])], ?_⟩
  refine ⟨?_, ?_, ?_⟩ <;> rw [fill_lookup _ (by simp [defaults])] <;> simp [defaults, List.lookup, fillParams_lookup]

/-! ### Keys and mouse -/

theorem presses_cons (k : Key) (ev : Event) (evs : List Event) : presses k (ev :: evs) = presses k evs + if ev.isKey k then 1 else 0 := List.countP_cons

theorem isKey_key (k k' : Key) (b : Bool) : (Event.key k' b).isKey k = (decide (k' = k) && b) := rfl

theorem odd_add_one (b : Bool) (n : ℕ) : ((!b) ^^ decide (n % 2 = 1)) = (b ^^ decide ((n + 1) % 2 = 1)) := by
  have : decide ((n + 1) % 2 = 1) = !decide (n % 2 = 1) := by
    rcases Nat.mod_two_eq_zero_or_one n with h | h <;> simp [Nat.add_mod, h]
  rw [this]
  cases b <;> simp

/-- **C155**, keys. Whatever keys and mouse movements are mixed: SPACE, C, T, E, H and the numbers are switches, each of its own option, so only the parity of the number of times a key was
released counts; F and S double and halve the speed. -/
theorem C155_keys (e : Env) (size : ℕ × ℕ) (evs : List Event) (s s' : St D) (h : poll e size evs s = .ok s') :
    s'.paused = (s.paused ^^ decide (presses .space evs % 2 = 1)) ∧
    s'.hide = (s.hide ^^ decide (presses .h evs % 2 = 1)) ∧
    s'.opt.contactForce = (s.opt.contactForce ^^ decide (presses .c evs % 2 = 1)) ∧
    s'.opt.constraint = (s.opt.constraint ^^ decide (presses .c evs % 2 = 1)) ∧
    s'.opt.transparent = (s.opt.transparent ^^ decide (presses .t evs % 2 = 1)) ∧
    s'.opt.frame = (s.opt.frame ^^ decide (presses .e evs % 2 = 1)) ∧
    s'.opt.geomgroup.length = s.opt.geomgroup.length ∧
    (∀ n, s'.opt.geomgroup[n]? = s.opt.geomgroup[n]?.map fun b => b ^^ decide (presses (.digit n) evs % 2 = 1)) ∧
    s'.speed = s.speed * 2 ^ presses .f evs / 2 ^ presses .s evs := by
  induction evs generalizing s with
  | nil => cases h; simp [presses]
  | cons ev evs ih =>
    rw [poll] at h
    cases hh : handle e size s ev with
    | error err => rw [hh] at h; cases h
    | ok s1 =>
      rw [hh] at h
      have hi := ih s1 h
      cases ev with
      | button l r m pos =>
        cases hh
        simpa only [presses_cons, Event.isKey, mouseButton, Bool.false_eq_true, if_false, add_zero] using hi
      | scroll dy =>
        cases hh
        simpa only [presses_cons, Event.isKey, scroll, moveCamera, Bool.false_eq_true, if_false, add_zero] using hi
      | move pos shift =>
        cases hh
        have : ∀ {P : St D → Prop}, P (mouseMove e size s pos shift) → P (mouseMove e size s pos shift) := id
        simp only [presses_cons, Event.isKey, Bool.false_eq_true, if_false, add_zero]
        unfold mouseMove at hi
        split at hi
        · exact hi
        · exact hi
      | key k rel =>
        rw [handle, keyboard.eq_def] at hh
        cases rel with
        | false =>
          cases hh
          simpa only [presses_cons, isKey_key, Bool.and_false, Bool.false_eq_true, if_false, add_zero] using hi
        | true =>
          simp only [Bool.not_true, Bool.false_eq_true, if_false] at hh
          simp only [presses_cons, isKey_key, Bool.and_true, decide_eq_true_eq]
          cases k with
          | digit n =>
            simp only at hh
            cases hb : s.opt.geomgroup[n]? with
            | none => rw [hb] at hh; cases hh
            | some b =>
              rw [hb] at hh
              cases hh
              simp only [reduceCtorEq, if_false, add_zero, Key.digit.injEq] at hi ⊢
              obtain ⟨i1, i2, i3, i4, i5, i6, i7, i8, i9⟩ := hi
              refine ⟨i1, i2, i3, i4, i5, i6, by rw [i7, List.length_set], fun k => ?_, i9⟩
              rw [i8, List.getElem?_set]
              by_cases hk : n = k
              · subst hk
                rw [if_pos rfl, if_pos rfl, if_pos (List.getElem?_eq_some_iff.1 hb).1, hb]
                rw [Option.map_some, Option.map_some, odd_add_one]
              · rw [if_neg hk, if_neg hk, add_zero]
          | space | c | t | e | h =>
            cases hh
            simp only [reduceCtorEq, if_false, if_true, add_zero] at hi ⊢
            obtain ⟨i1, i2, i3, i4, i5, i6, i7, i8, i9⟩ := hi
            try have hnot : ∀ b : Bool, (if b = true then false else true) = !b := by decide
            simp only [hnot, odd_add_one] at *
            exact ⟨i1, i2, i3, i4, i5, i6, i7, i8, i9⟩
          | tab | other =>
            cases hh
            simpa only [reduceCtorEq, if_false, add_zero] using hi
          | s =>
            cases hh
            simp only [reduceCtorEq, if_false, if_true, add_zero] at hi ⊢
            obtain ⟨i1, i2, i3, i4, i5, i6, i7, i8, i9⟩ := hi
            refine ⟨i1, i2, i3, i4, i5, i6, i7, i8, ?_⟩
            rw [i9, pow_succ]
            field_simp
          | f =>
            cases hh
            simp only [reduceCtorEq, if_false, if_true, add_zero] at hi ⊢
            obtain ⟨i1, i2, i3, i4, i5, i6, i7, i8, i9⟩ := hi
            refine ⟨i1, i2, i3, i4, i5, i6, i7, i8, ?_⟩
            rw [i9, pow_succ]
            ring

/-- **C155**, keys. The numbers that are no number of a group raise an `IndexError`; MuJoCo has six groups, the menu offers the keys 0 to 9. -/
theorem C155_keys_refuted (s : St D) (hs : s.opt.geomgroup.length = 6) (n : ℕ) (hn : 6 ≤ n) : keyboard s (.digit n) true = .error .index := by
  have : s.opt.geomgroup[n]? = none := List.getElem?_eq_none (by omega)
  simp [keyboard, this]

/-- **C155**, groups at the start. A group is shown if and only if MuJoCo shows it by default and it was asked for. -/
theorem C155_groups_partial (default : List Bool) (l : List ℕ) (i : ℕ) :
    (startGroups default (some l))[i]? = some true ↔ default[i]? = some true ∧ i ∈ l := by
  simp only [startGroups, List.getElem?_mapIdx]
  cases default[i]? with
  | none => simp
  | some b => by_cases h : i ∈ l <;> simp [h]

/-- **C155**, groups at the start. The groups three to five, which MuJoCo hides by default, cannot be asked for; and with `None` not all groups are shown. -/
theorem C155_groups_refuted : startGroups [true, true, true, false, false, false] (some [4]) = [false, false, false, false, false, false] ∧
    startGroups [true, true, true, false, false, false] none = [true, true, true, false, false, false] := by decide

/-- The sum of the movements in a list of calls of `mjv_moveCamera`. -/
def travelled (ms : List (Mouse × ℝ × ℝ)) : ℝ × ℝ := ((ms.map fun m => m.2.1).sum, (ms.map fun m => m.2.2).sum)

/-- **C155**, mouse. While the buttons stay as they are after a click, all movements have one kind, and together they move the camera by the way of the cursor from the place of the click
to its last place, whatever the places between. Without a button nothing moves. -/
theorem C155_drag (e : Env) (size : ℕ × ℕ) (s : St D) (l r m shift : Bool) (start : ℝ × ℝ) (path : List (ℝ × ℝ)) :
    ∃ s', poll e size (.button l r m start :: path.map fun p => .move p shift) s = .ok s' ∧
      ∃ ms, s'.moves = s.moves ++ ms ∧
        (l = false ∧ r = false ∧ m = false → ms = [] ∧ s'.camera = s.camera) ∧
        (l = true ∨ r = true ∨ m = true → ms.length = path.length ∧
          travelled ms = (((path.getLastD start).1 - start.1) / size.1, ((path.getLastD start).2 - start.2) / size.2) ∧
          ∀ x ∈ ms, x.1 = if r then (if shift then .moveH else .moveV) else if l then (if shift then .rotateH else .rotateV) else .zoom) := by
  rw [poll]
  simp only [handle]
  have gen : ∀ (path : List (ℝ × ℝ)) (s : St D), s.left = l → s.right = r → s.middle = m →
      ∃ s', poll e size (path.map fun p => .move p shift) s = .ok s' ∧ ∃ ms, s'.moves = s.moves ++ ms ∧
        (l = false ∧ r = false ∧ m = false → ms = [] ∧ s'.camera = s.camera) ∧
        (l = true ∨ r = true ∨ m = true → ms.length = path.length ∧
          travelled ms = (((path.getLastD s.last).1 - s.last.1) / size.1, ((path.getLastD s.last).2 - s.last.2) / size.2) ∧
          ∀ x ∈ ms, x.1 = if r then (if shift then Mouse.moveH else .moveV) else if l then (if shift then .rotateH else .rotateV) else .zoom) := by
    intro path
    induction path with
    | nil =>
      intro s h1 h2 h3
      exact ⟨s, rfl, [], by simp, fun _ => ⟨rfl, rfl⟩, fun _ => ⟨rfl, by simp [travelled], by simp⟩⟩
    | cons p path ih =>
      intro s h1 h2 h3
      rw [List.map_cons, poll]
      simp only [handle]
      by_cases hb : l = false ∧ r = false ∧ m = false
      · have hm : mouseMove e size s p shift = s := by
          rw [mouseMove, if_pos]
          simp [h1, h2, h3, hb]
        rw [hm]
        obtain ⟨s', hs', ms, e1, e2, e3⟩ := ih s h1 h2 h3
        refine ⟨s', hs', ms, e1, e2, fun h => ?_⟩
        rcases h with h | h | h <;> simp [hb] at h
      · have hb' : (!s.left && !s.right && !s.middle) = false := by
          rw [h1, h2, h3]
          revert hb
          cases l <;> cases r <;> cases m <;> simp
        have hm : mouseMove e size s p shift = moveCamera e { s with last := p } (if r then (if shift then Mouse.moveH else .moveV) else if l then (if shift then .rotateH else .rotateV) else .zoom)
            ((p.1 - s.last.1) / size.1) ((p.2 - s.last.2) / size.2) := by
          rw [mouseMove, if_neg (by simp [hb']), h1, h2]
        rw [hm]
        obtain ⟨s', hs', ms, e1, e2, e3⟩ := ih (moveCamera e { s with last := p } _ ((p.1 - s.last.1) / size.1) ((p.2 - s.last.2) / size.2)) h1 h2 h3
        refine ⟨s', hs', _ :: ms, by rw [e1, moveCamera, List.append_assoc, List.singleton_append], fun h => absurd h hb, fun h => ?_⟩
        obtain ⟨f1, f2, f3⟩ := e3 h
        refine ⟨by simp [f1], ?_, ?_⟩
        · simp only [travelled, moveCamera, Prod.mk.injEq, List.map_cons, List.sum_cons] at f2 ⊢
          rw [f2.1, f2.2, List.getLastD_cons]
          constructor <;> ring
        · intro x hx
          rcases List.mem_cons.1 hx with rfl | hx
          · rfl
          · exact f3 x hx
  obtain ⟨s', hs', ms, h⟩ := gen path (mouseButton s l r m start) rfl rfl rfl
  exact ⟨s', hs', ms, h⟩

end

end Verif.View
