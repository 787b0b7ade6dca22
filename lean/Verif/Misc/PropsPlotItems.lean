/-
Property C164: what a window shows of its plots, curves and limits.
-/
import Verif.Misc.SpecPlotItems
import Verif.Misc.PropsPlots
import Mathlib.Data.List.GetD
import Mathlib.Tactic.Linarith

namespace Verif.Misc.PlotItems

open Verif.Misc.Callbacks

noncomputable section

/-! ### One plot -/

/-- The height of the upper line of a curve. -/
def maxAt (p : Limited) (j : ℕ) : Option EReal := if p.hasMax then (p.maxs.getD []).getD j none else none

def minAt (p : Limited) (j : ℕ) : Option EReal := if p.hasMin then (p.mins.getD []).getD j none else none

def dashedAt (p : Limited) (j : ℕ) : Bool := (p.dotted.getD []).getD j false

def lineOf (y : Option EReal) (id : Option ℕ) (j : ℕ) (d : Bool) : List Thing :=
  match y, id with
  | some y, some k => [.line k y j d]
  | _, _ => []

/-- The things of a curve in the plot. -/
def thingsOf (p : Limited) (j : ℕ) : List Thing :=
  .curve j :: (lineOf (maxAt p j) (p.maxLines j) j (dashedAt p j) ++ lineOf (minAt p j) (p.minLines j) j (dashedAt p j))

/-- The numbers of the lines of a curve. -/
def idsOf (p : Limited) (j : ℕ) : List ℕ := (p.maxLines j).toList ++ (p.minLines j).toList

/-- The lists are long enough for the curve. -/
structure Fits (p : Limited) (j : ℕ) : Prop where
  dotted : ∀ ds ∈ p.dotted, j < ds.length
  maxs : p.hasMax = true → j < (p.maxs.getD []).length
  mins : p.hasMin = true → j < (p.mins.getD []).length

/-- Nothing but the things, their numbers and the next number differs. -/
structure SamePlot (p q : Limited) : Prop where
  n : q.n = p.n
  maxs : q.maxs = p.maxs
  mins : q.mins = p.mins
  hasMax : q.hasMax = p.hasMax
  hasMin : q.hasMin = p.hasMin
  dotted : q.dotted = p.dotted

theorem SamePlot.refl (p : Limited) : SamePlot p p := ⟨rfl, rfl, rfl, rfl, rfl, rfl⟩

theorem SamePlot.trans {p q r : Limited} (h : SamePlot p q) (h' : SamePlot q r) : SamePlot p r :=
  ⟨h'.n.trans h.n, h'.maxs.trans h.maxs, h'.mins.trans h.mins, h'.hasMax.trans h.hasMax, h'.hasMin.trans h.hasMin, h'.dotted.trans h.dotted⟩

theorem SamePlot.maxAt {p q : Limited} (h : SamePlot p q) (j : ℕ) : maxAt q j = maxAt p j := by
  unfold PlotItems.maxAt; rw [h.hasMax, h.maxs]

theorem SamePlot.minAt {p q : Limited} (h : SamePlot p q) (j : ℕ) : minAt q j = minAt p j := by
  unfold PlotItems.minAt; rw [h.hasMin, h.mins]

theorem SamePlot.dashedAt {p q : Limited} (h : SamePlot p q) (j : ℕ) : dashedAt q j = dashedAt p j := by
  unfold PlotItems.dashedAt; rw [h.dotted]

theorem SamePlot.fits {p q : Limited} (h : SamePlot p q) {j : ℕ} (hf : Fits p j) : Fits q j :=
  ⟨by rw [h.dotted]; exact hf.dotted, by rw [h.hasMax, h.maxs]; exact hf.maxs, by rw [h.hasMin, h.mins]; exact hf.mins⟩

/-- The plot contains the things of the curves in `T` and nothing else. -/
structure Shows (p : Limited) (T : List ℕ) : Prop where
  nodup : T.Nodup
  things : p.things.Perm (T.flatMap (thingsOf p))
  maxNone : ∀ j, maxAt p j = none → p.maxLines j = none
  minNone : ∀ j, minAt p j = none → p.minLines j = none
  maxSome : ∀ j ∈ T, (maxAt p j).isSome → (p.maxLines j).isSome
  minSome : ∀ j ∈ T, (minAt p j).isSome → (p.minLines j).isSome
  ids : (T.flatMap (idsOf p)).Nodup
  fresh : ∀ k ∈ T.flatMap (idsOf p), k < p.fresh

theorem curve_mem {p : Limited} {T : List ℕ} (h : Shows p T) (j : ℕ) : .curve j ∈ p.things ↔ j ∈ T := by
  rw [h.things.mem_iff, List.mem_flatMap]
  constructor
  · rintro ⟨i, hi, hm⟩
    simp only [thingsOf, List.mem_cons, Thing.curve.injEq, List.mem_append] at hm
    rcases hm with rfl | hm | hm
    · exact hi
    · unfold lineOf at hm; split at hm <;> simp at hm
    · unfold lineOf at hm; split at hm <;> simp at hm
  · intro hj; exact ⟨j, hj, by simp [thingsOf]⟩

theorem flatMap_congr' {α : Type} {f g : ℕ → List α} {T : List ℕ} (h : ∀ j ∈ T, f j = g j) : T.flatMap f = T.flatMap g := by
  induction T with
  | nil => rfl
  | cons a T ih => simp only [List.flatMap_cons]; rw [h a (by simp), ih fun j hj => h j (by simp [hj])]

/-- The plot after `draw`. -/
def drawnPlot (p : Limited) (j : ℕ) : Limited :=
  let p1 : Limited := { p with things := p.things ++ [.curve j] }
  let p2 : Limited := match maxAt p j with
    | none => p1
    | some y => { p1 with things := p1.things ++ [.line p1.fresh y j (dashedAt p j)], maxLines := Function.update p1.maxLines j (some p1.fresh), fresh := p1.fresh + 1 }
  match minAt p j with
  | none => p2
  | some y => { p2 with things := p2.things ++ [.line p2.fresh y j (dashedAt p j)], minLines := Function.update p2.minLines j (some p2.fresh), fresh := p2.fresh + 1 }

theorem draw_eq {p : Limited} {j : ℕ} (hf : Fits p j) (hj : .curve j ∉ p.things) : p.draw j = .ok (drawnPlot p j) := by
  have h1 : p.dotted = none ∧ dashedAt p j = false ∨ ∃ ds, p.dotted = some ds ∧ ds[j]? = some (dashedAt p j) := by
    unfold dashedAt
    cases h : p.dotted with
    | none => left; simp
    | some ds =>
      right
      have := hf.dotted ds h
      exact ⟨ds, rfl, by simp [List.getElem?_eq_getElem this]⟩
  have h2 : p.hasMax = false ∧ maxAt p j = none ∨ p.hasMax = true ∧ (p.maxs.getD [])[j]? = some (maxAt p j) := by
    unfold maxAt
    cases h : p.hasMax with
    | false => left; simp
    | true =>
      right
      have := hf.maxs h
      exact ⟨rfl, by rw [if_pos rfl, List.getElem?_eq_getElem this, List.getD_eq_getElem _ _ this]⟩
  have h3 : p.hasMin = false ∧ minAt p j = none ∨ p.hasMin = true ∧ (p.mins.getD [])[j]? = some (minAt p j) := by
    unfold minAt
    cases h : p.hasMin with
    | false => left; simp
    | true =>
      right
      have := hf.mins h
      exact ⟨rfl, by rw [if_pos rfl, List.getElem?_eq_getElem this, List.getD_eq_getElem _ _ this]⟩
  unfold Limited.draw drawnPlot
  simp only [drawCurve, if_neg hj]
  generalize dashedAt p j = d at *
  generalize maxAt p j = a at *
  generalize minAt p j = b at *
  obtain ⟨n, maxs, mins, hasMax, hasMin, dotted, ml, nl, th, fr⟩ := p
  simp only [] at *
  rcases h2 with ⟨rfl, rfl⟩ | ⟨rfl, h2⟩ <;> rcases h3 with ⟨rfl, rfl⟩ | ⟨rfl, h3⟩ <;>
    rcases h1 with ⟨rfl, rfl⟩ | ⟨ds, rfl, h1⟩ <;> simp only [*, bind, Except.bind, if_true, Bool.false_eq_true, if_false] <;>
    (try cases a) <;> (try cases b) <;> simp

theorem drawn_same (p : Limited) (j : ℕ) : SamePlot p (drawnPlot p j) := by
  unfold drawnPlot
  cases maxAt p j <;> cases minAt p j <;> exact ⟨rfl, rfl, rfl, rfl, rfl, rfl⟩

theorem drawn_shows {p : Limited} {T : List ℕ} (h : Shows p T) {j : ℕ} (hj : j ∉ T) : Shows (drawnPlot p j) (T ++ [j]) := by
  have hs := drawn_same p j
  have hother : ∀ i ∈ T, (drawnPlot p j).maxLines i = p.maxLines i ∧ (drawnPlot p j).minLines i = p.minLines i := by
    intro i hi
    have : i ≠ j := fun e => hj (e ▸ hi)
    unfold drawnPlot
    cases maxAt p j <;> cases minAt p j <;> simp [this]
  have hth : ∀ i ∈ T, thingsOf (drawnPlot p j) i = thingsOf p i := fun i hi => by
    unfold thingsOf; rw [hs.maxAt, hs.minAt, hs.dashedAt, (hother i hi).1, (hother i hi).2]
  have hid : ∀ i ∈ T, idsOf (drawnPlot p j) i = idsOf p i := fun i hi => by
    unfold idsOf; rw [(hother i hi).1, (hother i hi).2]
  have hself : (drawnPlot p j).things = p.things ++ thingsOf (drawnPlot p j) j := by
    unfold thingsOf
    rw [hs.maxAt, hs.minAt, hs.dashedAt]
    unfold drawnPlot
    cases h1 : maxAt p j <;> cases h2 : minAt p j <;> simp [lineOf]
  have hids : (∀ k ∈ idsOf (drawnPlot p j) j, p.fresh ≤ k ∧ k < (drawnPlot p j).fresh) ∧ (idsOf (drawnPlot p j) j).Nodup ∧
      p.fresh ≤ (drawnPlot p j).fresh := by
    have a := h.maxNone j
    have b := h.minNone j
    unfold idsOf drawnPlot
    cases h1 : maxAt p j <;> cases h2 : minAt p j <;> simp_all
    omega
  refine ⟨?_, ?_, ?_, ?_, ?_, ?_, ?_, ?_⟩
  · rw [List.nodup_append]
    exact ⟨h.nodup, by simp, fun a ha b hb => by simp at hb; subst hb; exact fun e => hj (e ▸ ha)⟩
  · rw [hself, List.flatMap_append, flatMap_congr' hth]
    simpa using h.things.append_right _
  · intro i hi
    rw [hs.maxAt] at hi
    have := h.maxNone i hi
    unfold drawnPlot
    by_cases e : i = j
    · subst e; rw [hi]; cases minAt p i <;> simp [this]
    · cases maxAt p j <;> cases minAt p j <;> simp [this, e]
  · intro i hi
    rw [hs.minAt] at hi
    have := h.minNone i hi
    unfold drawnPlot
    by_cases e : i = j
    · subst e; rw [hi]; cases maxAt p i <;> simp [this]
    · cases maxAt p j <;> cases minAt p j <;> simp [this, e]
  · intro i hi hm
    rw [hs.maxAt] at hm
    rcases List.mem_append.1 hi with hi | hi
    · rw [(hother i hi).1]; exact h.maxSome i hi hm
    · simp only [List.mem_singleton] at hi
      subst hi
      obtain ⟨y, hy⟩ := Option.isSome_iff_exists.1 hm
      unfold drawnPlot
      rw [hy]
      cases minAt p i <;> simp
  · intro i hi hm
    rw [hs.minAt] at hm
    rcases List.mem_append.1 hi with hi | hi
    · rw [(hother i hi).2]; exact h.minSome i hi hm
    · simp only [List.mem_singleton] at hi
      subst hi
      obtain ⟨y, hy⟩ := Option.isSome_iff_exists.1 hm
      unfold drawnPlot
      rw [hy]
      cases maxAt p i <;> simp
  · rw [List.flatMap_append, flatMap_congr' hid, List.nodup_append]
    refine ⟨h.ids, by simpa using hids.2.1, fun a ha b hb => ?_⟩
    have h1 := h.fresh a ha
    have h2 := hids.1 b (by simpa using hb)
    omega
  · intro k hk
    rw [List.flatMap_append, flatMap_congr' hid, List.mem_append] at hk
    rcases hk with hk | hk
    · have := h.fresh k hk; have := hids.2.2; omega
    · exact (hids.1 k (by simpa using hk)).2

theorem erase_same (p : Limited) (j : ℕ) : SamePlot p (p.erase j) := ⟨rfl, rfl, rfl, rfl, rfl, rfl⟩

/-- What `erase` keeps. -/
def keeps (p : Limited) (j : ℕ) (x : Thing) : Bool :=
  match x with
  | .curve i => i != j
  | .line k _ _ _ => !decide (k ∈ idsOf p j)

theorem erase_things {p : Limited} {T : List ℕ} (h : Shows p T) (j : ℕ) : (p.erase j).things = p.things.filter (keeps p j) := by
  have hmax : p.hasMax = false → p.maxLines j = none := fun e => h.maxNone j (by simp [maxAt, e])
  have hmin : p.hasMin = false → p.minLines j = none := fun e => h.minNone j (by simp [minAt, e])
  have key : ∀ (l : List Thing) (o : Option ℕ), removeLine l o = l.filter (fun x => match x with
      | .line k _ _ _ => !decide (k ∈ o.toList)
      | _ => true) := by
    intro l o
    cases o with
    | none => 
      simp only [removeLine]
      refine (List.filter_eq_self.2 fun x _ => ?_).symm
      cases x <;> simp
    | some id =>
      simp only [removeLine]
      refine List.filter_congr fun x _ => ?_
      cases x with
      | curve i => rfl
      | line k y i d => by_cases e : k = id <;> simp [e]
  unfold Limited.erase
  simp only []
  have h1 : ∀ l, (if p.hasMax = true then removeLine l (p.maxLines j) else l) = removeLine l (p.maxLines j) := by
    intro l; cases e : p.hasMax <;> simp [hmax, e, removeLine]
  have h2 : ∀ l, (if p.hasMin = true then removeLine l (p.minLines j) else l) = removeLine l (p.minLines j) := by
    intro l; cases e : p.hasMin <;> simp [hmin, e, removeLine]
  rw [h1, h2, key, key, List.filter_filter, List.filter_filter]
  refine List.filter_congr fun x _ => ?_
  cases x with
  | curve i => rw [Bool.eq_iff_iff]; simp [keeps]
  | line k y i d =>
    simp only [keeps, idsOf, List.mem_append]
    by_cases a : k ∈ (p.maxLines j).toList <;> by_cases b : k ∈ (p.minLines j).toList <;> simp [a, b]

theorem line_ids {p : Limited} {i : ℕ} {k : ℕ} {y : EReal} {m : ℕ} {d : Bool} (h : .line k y m d ∈ thingsOf p i) : k ∈ idsOf p i := by
  simp only [thingsOf, List.mem_cons, List.mem_append, reduceCtorEq, false_or] at h
  rcases h with h | h
  · unfold lineOf at h
    split at h
    · rename_i h1 h2
      simp only [List.mem_singleton, Thing.line.injEq] at h
      simp [idsOf, h2, h.1]
    · simp at h
  · unfold lineOf at h
    split at h
    · rename_i h1 h2
      simp only [List.mem_singleton, Thing.line.injEq] at h
      simp [idsOf, h2, h.1]
    · simp at h

theorem curve_ids {p : Limited} {i m : ℕ} (h : .curve m ∈ thingsOf p i) : m = i := by
  simp only [thingsOf, List.mem_cons, Thing.curve.injEq, List.mem_append] at h
  rcases h with rfl | hm | hm
  · rfl
  · unfold lineOf at hm; split at hm <;> simp at hm
  · unfold lineOf at hm; split at hm <;> simp at hm

theorem erase_shows {p : Limited} {T : List ℕ} (h : Shows p T) {j : ℕ} (hj : j ∈ T) : Shows (p.erase j) (T.erase j) := by
  have hperm := List.perm_cons_erase hj
  have hnot : j ∉ T.erase j := fun e => by simpa using (h.nodup.mem_erase_iff.1 e)
  have hids : (idsOf p j ++ (T.erase j).flatMap (idsOf p)).Nodup := by
    have := (hperm.flatMap_right (idsOf p)).nodup_iff.1 h.ids
    simpa using this
  have hsub : ∀ i ∈ T.erase j, i ∈ T := fun i hi => List.mem_of_mem_erase hi
  have e1 : (thingsOf p j).filter (keeps p j) = [] := by
    rw [List.filter_eq_nil_iff]
    intro x hx
    cases x with
    | curve i => simp [keeps, curve_ids hx]
    | line k y m d => simp [keeps, line_ids hx]
  have e2 : ((T.erase j).flatMap (thingsOf p)).filter (keeps p j) = (T.erase j).flatMap (thingsOf p) := by
    rw [List.filter_eq_self]
    intro x hx
    obtain ⟨i, hi, hx⟩ := List.mem_flatMap.1 hx
    cases x with
    | curve m =>
      have := curve_ids hx
      subst this
      have : m ≠ j := fun e => hnot (e ▸ hi)
      simp [keeps, this]
    | line k y m d =>
      have h1 := line_ids hx
      have h2 := (List.nodup_append.1 hids).2.2
      simp only [keeps, Bool.not_eq_true', decide_eq_false_iff_not]
      exact fun hk => h2 k hk k (List.mem_flatMap.2 ⟨i, hi, h1⟩) rfl
  refine ⟨h.nodup.erase j, ?_, h.maxNone, h.minNone, fun i hi => h.maxSome i (hsub i hi), fun i hi => h.minSome i (hsub i hi), (List.nodup_append.1 hids).2.1, ?_⟩
  · rw [erase_things h]
    have := (h.things.trans (hperm.flatMap_right (thingsOf p))).filter (keeps p j)
    rw [List.flatMap_cons, List.filter_append, e1, e2] at this
    exact this
  · intro k hk
    obtain ⟨i, hi, hk⟩ := List.mem_flatMap.1 hk
    exact h.fresh k (List.mem_flatMap.2 ⟨i, hsub i hi, hk⟩)

/-! ### A new plot -/

theorem dot_spec (v : EReal) : ∀ (ds : List Bool) (l l' : List Limit), dot v ds l = .ok l' →
    l'.length = l.length ∧ ∀ j, j < l.length → l'.getD j none = if ds.getD j false then some v else l.getD j none
  | [], l, l', h => by simp only [dot, Except.ok.injEq] at h; subst h; simp
  | false :: ds, [], l', h => by
    have := dot_spec v ds [] l' (by simpa [dot] using h)
    simpa using this.1
  | true :: ds, [], l', h => by simp [dot] at h
  | d :: ds, x :: l, l', h => by
    simp only [dot, bind, Except.bind] at h
    cases g : dot v ds l with
    | error e => rw [g] at h; simp at h
    | ok l1 =>
      rw [g] at h
      simp only [pure, Except.pure, Except.ok.injEq] at h
      obtain ⟨h1, h2⟩ := dot_spec v ds l l1 g
      subst h
      refine ⟨by simp [h1], fun j hj => ?_⟩
      cases j with
      | zero => simp
      | succ j => simpa using h2 j (by simpa using hj)

theorem noInf_one : noInf (some 1) = some 1 := by
  unfold noInf
  rw [if_neg]
  rintro (h | h)
  · exact EReal.coe_ne_top 1 (Option.some.inj h)
  · exact EReal.coe_ne_bot 1 (Option.some.inj h)

theorem noInf_neg_one : noInf (some (-1)) = some (-1) := by
  unfold noInf
  rw [if_neg]
  rintro (h | h)
  · exact EReal.coe_ne_top (-1) (by simpa using Option.some.inj h)
  · exact EReal.coe_ne_bot (-1) (by simpa using Option.some.inj h)

theorem limit_spec {v : EReal} (hv : noInf (some v) = some v) {n : ℕ} {given hi : Option (List Limit)} {dotted : Option (List Bool)}
    (hd : ∀ ds ∈ dotted, ds.length = n) (hg : ∀ l ∈ given, l.length = n) (h : dotLimits v (dotted.getD []) given = .ok hi) {j : ℕ} (hj : j < n) :
    (hi.isSome = given.isSome) ∧ (given.isSome → ((hi.map (·.map noInf)).getD []).length = n) ∧
      ((hi.map (·.map noInf)).getD []).getD j none = limitAt given dotted v j := by
  cases given with
  | none =>
    simp only [dotLimits] at h
    split at h
    · simp at h
    · rename_i hn
      simp only [Except.ok.injEq] at h
      subst h
      refine ⟨rfl, by simp, ?_⟩
      have : (dotted.getD []).getD j false = false := by
        cases hb : (dotted.getD []).getD j false with
        | false => rfl
        | true =>
          exfalso
          cases dotted with
          | none => simp at hb
          | some ds =>
            have hl : j < ds.length := by rw [hd ds rfl]; exact hj
            rw [Option.getD_some, List.getD_eq_getElem _ _ hl] at hb
            exact hn (by rw [← hb]; exact List.getElem_mem hl)
      unfold limitAt
      rw [this]
      simp [finiteAt]
  | some l =>
    simp only [dotLimits, bind, Except.bind] at h
    cases g : dot v (dotted.getD []) l with
    | error e => rw [g] at h; simp at h
    | ok l1 =>
      rw [g] at h
      simp only [pure, Except.pure, Except.ok.injEq] at h
      subst h
      obtain ⟨h1, h2⟩ := dot_spec v _ l l1 g
      have hl : l.length = n := hg l rfl
      refine ⟨rfl, fun _ => by simp [h1, hl], ?_⟩
      have hj' : j < l.length := by omega
      have h3 : (l1.map noInf).getD j none = noInf (l1.getD j none) := by
        rw [List.getD_eq_getElem _ _ (by simp [h1]; exact hj'), List.getD_eq_getElem _ _ (by rw [h1]; exact hj')]
        simp
      simp only [Option.map_some, Option.getD_some]
      rw [h3, h2 j hj']
      unfold limitAt
      split
      · exact hv
      · unfold finiteAt noInf
        simp only []
        generalize l.getD j none = o
        cases o <;> simp

/-- What a new plot is like. -/
theorem new_spec {n : ℕ} {maxs mins : Option (List Limit)} {dotted : Option (List Bool)} {p : Limited}
    (h : Limited.new n maxs mins dotted = .ok p) (hd : ∀ ds ∈ dotted, ds.length = n) :
    p.n = n ∧ Shows p [] ∧ ∀ j < n, Fits p j ∧ maxAt p j = limitAt maxs dotted 1 j ∧ minAt p j = limitAt mins dotted (-1) j ∧
      dashedAt p j = (dotted.getD []).getD j false := by
  unfold Limited.new at h
  split at h
  · simp at h
  rename_i hc
  push Not at hc
  simp only [bind, Except.bind] at h
  cases g1 : dotLimits 1 (dotted.getD []) maxs with
  | error e => rw [g1] at h; simp at h
  | ok hi =>
  rw [g1] at h
  simp only [] at h
  cases g2 : dotLimits (-1) (dotted.getD []) mins with
  | error e => rw [g2] at h; simp at h
  | ok lo =>
  rw [g2] at h
  simp only [pure, Except.pure, Except.ok.injEq] at h
  subst h
  refine ⟨rfl, ⟨by simp, by simp, fun _ _ => rfl, fun _ _ => rfl, by simp, by simp, by simp, by simp⟩, fun j hj => ?_⟩
  obtain ⟨a1, a2, a3⟩ := limit_spec noInf_one hd hc.1 g1 hj
  obtain ⟨b1, b2, b3⟩ := limit_spec noInf_neg_one hd hc.2 g2 hj
  have e1 : ∀ l : List Limit, l.length = n → (!l.isEmpty || !(dotted.getD []).isEmpty) = true := by
    intro l hl
    cases l with
    | nil => simp at hl; omega
    | cons _ _ => simp
  refine ⟨⟨fun ds hds => by rw [hd ds hds]; exact hj, fun hm => ?_, fun hm => ?_⟩, ?_, ?_, rfl⟩
  · cases maxs with
    | none => simp at hm
    | some l => rw [a2 rfl]; exact hj
  · cases mins with
    | none => simp at hm
    | some l => rw [b2 rfl]; exact hj
  · unfold maxAt
    simp only []
    cases maxs with
    | none =>
      have : hi = none := by simpa using a1
      subst this
      simpa using a3
    | some l => exact (if_pos (e1 l (hc.1 l rfl))).trans a3
  · unfold minAt
    simp only []
    cases mins with
    | none =>
      have : lo = none := by simpa using b1
      subst this
      simpa using b3
    | some l => exact (if_pos (e1 l (hc.2 l rfl))).trans b3

/-! ### The window -/

/-- The marks and the plots agree. -/
structure Agree (P : ℕ → Limited) (ls : ℕ → ℕ) (N : ℕ) (s : Screen) : Prop where
  n : s.win.n = N
  len : ∀ i, (s.win.bufs i).length = ls i
  layout : s.layout.Nodup
  plots : ∀ i, i ∈ s.layout ↔ s.win.on (.plot i) = true
  range : ∀ i j, s.win.on (.curve i j) = true → i < N ∧ j < ls i
  same : ∀ i, SamePlot (P i) (s.plots i)
  shows : ∀ i < N, ∃ T, Shows (s.plots i) T ∧ ∀ j, j ∈ T ↔ s.win.on (.curve i j) = true

/-- An item that there is. -/
def There (len : ℕ → ℕ) (n : ℕ) : Item → Prop
  | .plot i => i < n
  | .curve i j => i < n ∧ j < len i

theorem length_setTracking (w : Win) (k : ℕ) (b : Bool) (i : ℕ) : ((w.setTracking k b).bufs i).length = (w.bufs i).length := by
  by_cases e : i = k
  · subst e; simp [Win.setTracking]
  · simp [Win.setTracking, e]

theorem length_deactivateBuffers (w : Win) (k i : ℕ) : ((w.deactivateBuffers k).bufs i).length = (w.bufs i).length := by
  unfold Win.deactivateBuffers
  split
  · exact length_setTracking w k false i
  · rfl

theorem deactivateBuffers_same (w : Win) (k : ℕ) : (w.deactivateBuffers k).n = w.n ∧ (w.deactivateBuffers k).on = w.on := by
  unfold Win.deactivateBuffers Win.setTracking
  split <;> exact ⟨rfl, rfl⟩

variable {P : ℕ → Limited} {len : ℕ → ℕ} {n : ℕ}

theorem activate_agree (hP : ∀ i < n, ∀ j < len i, Fits (P i) j) {s : Screen} (h : Agree P len n s) {it : Item} (hi : There len n it) :
    ∃ s', s.activate it = .ok s' ∧ Agree P len n s' ∧ s'.win = s.win.activate it := by
  by_cases ho : s.win.on it = true
  · exact ⟨s, by simp [Screen.activate, ho], h, by simp [Win.activate, ho]⟩
  · cases it with
    | plot i =>
      refine ⟨_, by simp only [Screen.activate, if_neg ho]; rfl, ?_, rfl⟩
      have hni : i ∉ s.layout := fun hm => ho ((h.plots i).1 hm)
      have hon : (s.win.activate (.plot i)).on = Function.update s.win.on (.plot i) true := by
        simp only [Win.activate, if_neg ho]; rfl
      refine ⟨?_, fun k => ?_, ?_, fun k => ?_, fun k j => ?_, h.same, fun k hk => ?_⟩
      · simp only [Win.activate, if_neg ho]; exact h.n
      · simp only [Win.activate, if_neg ho]; rw [length_setTracking]; exact h.len k
      · rw [List.nodup_append]
        exact ⟨h.layout, by simp, fun a ha b hb => by simp at hb; subst hb; exact fun e => hni (e ▸ ha)⟩
      · simp only []
        rw [hon]
        by_cases e : k = i
        · subst e; simp
        · simp [e, h.plots k]
      · simp only []
        rw [hon]
        simpa using h.range k j
      · simp only []
        rw [hon]
        obtain ⟨T, h1, h2⟩ := h.shows k hk
        exact ⟨T, h1, by simpa using h2⟩
    | curve i j =>
      obtain ⟨hin, hj⟩ := hi
      obtain ⟨T, h1, h2⟩ := h.shows i hin
      have hjT : j ∉ T := fun hm => ho ((h2 j).1 hm)
      have hd : (s.plots i).draw j = .ok (drawnPlot (s.plots i) j) :=
        draw_eq ((h.same i).fits (hP i hin j hj)) (fun hm => hjT ((curve_mem h1 j).1 hm))
      have hon : (s.win.activate (.curve i j)).on = Function.update s.win.on (.curve i j) true := by
        simp only [Win.activate, if_neg ho]
      refine ⟨_, by simp only [Screen.activate, if_neg ho]; rw [hd]; rfl, ?_, rfl⟩
      refine ⟨?_, fun k => ?_, h.layout, fun k => ?_, fun k l => ?_, fun k => ?_, fun k hk => ?_⟩
      · simp only [Win.activate, if_neg ho]; exact h.n
      · simp only [Win.activate, if_neg ho]; exact h.len k
      · simp only []
        rw [hon]
        simpa using h.plots k
      · simp only []
        rw [hon]
        by_cases e : Item.curve k l = .curve i j
        · simp only [Item.curve.injEq] at e
          obtain ⟨rfl, rfl⟩ := e
          exact fun _ => ⟨hin, hj⟩
        · rw [Function.update_of_ne e]; exact h.range k l
      · by_cases e : k = i
        · subst e; simp only [Function.update_self]; exact (h.same k).trans (drawn_same _ _)
        · simp only [Function.update_of_ne e]; exact h.same k
      · simp only []
        rw [hon]
        by_cases e : k = i
        · subst e
          refine ⟨T ++ [j], by simpa using drawn_shows h1 hjT, fun l => ?_⟩
          by_cases el : l = j
          · subst el; simp
          · simp [el, h2 l]
        · obtain ⟨T', g1, g2⟩ := h.shows k hk
          exact ⟨T', by simpa [e] using g1, fun l => by simp [e, g2 l]⟩

theorem deactivateCurve_agree {s : Screen} (h : Agree P len n s) (i j : ℕ) :
    Agree P len n (s.deactivateCurve i j) ∧ (s.deactivateCurve i j).win = s.win.deactivateCurve i j ∧ (s.deactivateCurve i j).layout = s.layout := by
  unfold Screen.deactivateCurve
  by_cases ho : s.win.on (.curve i j) = true
  · rw [if_pos ho]
    obtain ⟨hin, hj⟩ := h.range i j ho
    obtain ⟨T, h1, h2⟩ := h.shows i hin
    have hjT : j ∈ T := (h2 j).2 ho
    have hon : (s.win.deactivateCurve i j).on = Function.update s.win.on (.curve i j) false := by
      simp only [Win.deactivateCurve, if_pos ho]
    refine ⟨⟨?_, fun k => ?_, h.layout, fun k => ?_, fun k l => ?_, fun k => ?_, fun k hk => ?_⟩, rfl, rfl⟩
    · simp only [Win.deactivateCurve, if_pos ho]; exact h.n
    · simp only [Win.deactivateCurve, if_pos ho]; exact h.len k
    · simp only []
      rw [hon]
      simpa using h.plots k
    · simp only []
      rw [hon]
      by_cases e : Item.curve k l = .curve i j
      · rw [e]; simp
      · rw [Function.update_of_ne e]; exact h.range k l
    · by_cases e : k = i
      · subst e; simp only [Function.update_self]; exact (h.same k).trans (erase_same _ _)
      · simp only [Function.update_of_ne e]; exact h.same k
    · simp only []
      rw [hon]
      by_cases e : k = i
      · subst e
        refine ⟨T.erase j, by simpa using erase_shows h1 hjT, fun l => ?_⟩
        rw [h1.nodup.mem_erase_iff]
        by_cases el : l = j
        · subst el; simp
        · simp [el, h2 l]
      · obtain ⟨T', g1, g2⟩ := h.shows k hk
        exact ⟨T', by simpa [e] using g1, fun l => by simp [e, g2 l]⟩
  · rw [if_neg ho]
    exact ⟨h, by simp only [Win.deactivateCurve, if_neg ho], rfl⟩

/-- The curves of one plot, when its own mark has been taken away already: the layout is one step behind. -/
theorem deactivateCurves_agree (i : ℕ) (L : List ℕ) : ∀ {s : Screen}, Agree P len n s →
    Agree P len n (L.foldl (fun s j => s.deactivateCurve i j) s) ∧
      (L.foldl (fun s j => s.deactivateCurve i j) s).win = L.foldl (fun w j => w.deactivateCurve i j) s.win ∧
      (L.foldl (fun s j => s.deactivateCurve i j) s).layout = s.layout := by
  induction L with
  | nil => intro s h; exact ⟨h, rfl, rfl⟩
  | cons j L ih =>
    intro s h
    obtain ⟨h1, h2, h3⟩ := deactivateCurve_agree h i j
    obtain ⟨g1, g2, g3⟩ := ih h1
    exact ⟨g1, by rw [List.foldl_cons, g2, h2]; rfl, by rw [List.foldl_cons, g3, h3]⟩

/-- The curves can be erased in any layout. -/
theorem deactivateCurves_layout (i : ℕ) (L : List ℕ) (l : List ℕ) : ∀ s : Screen,
    L.foldl (fun s j => s.deactivateCurve i j) { s with layout := l } = { L.foldl (fun s j => s.deactivateCurve i j) s with layout := l } := by
  induction L with
  | nil => intro s; rfl
  | cons j L ih =>
    intro s
    rw [List.foldl_cons, List.foldl_cons, ← ih]
    congr 1
    unfold Screen.deactivateCurve
    simp only []
    split <;> rfl

theorem deactivate_agree {s : Screen} (h : Agree P len n s) (it : Item) :
    Agree P len n (s.deactivate it) ∧ (s.deactivate it).win = s.win.deactivate it := by
  cases it with
  | curve i j => exact ⟨(deactivateCurve_agree h i j).1, (deactivateCurve_agree h i j).2.1⟩
  | plot i =>
    simp only [Screen.deactivate, Win.deactivate]
    by_cases ho : s.win.on (.plot i) = true
    · rw [if_pos ho, if_pos ho]
      set s1 : Screen := { s with win := { s.win with on := Function.update s.win.on (.plot i) false } } with hs1
      set s2 : Screen := { s1 with layout := s.layout.erase i } with hs2
      have ha : Agree P len n s2 := by
        refine ⟨h.n, h.len, h.layout.erase i, fun k => ?_, fun k j => ?_, h.same, fun k hk => ?_⟩
        · simp only [hs2, hs1]
          rw [h.layout.mem_erase_iff, h.plots k]
          by_cases e : k = i
          · subst e; simp
          · simp [e]
        · simpa [hs2, hs1] using h.range k j
        · simpa [hs2, hs1] using h.shows k hk
      obtain ⟨g1, g2, g3⟩ := deactivateCurves_agree i (List.range (s1.win.bufs i).length) ha
      have hl := deactivateCurves_layout i (List.range (s1.win.bufs i).length) (s.layout.erase i) s1
      have hl' : (List.foldl (fun s j => s.deactivateCurve i j) s1 (List.range (s1.win.bufs i).length)).layout = s.layout := by
        have := deactivateCurves_layout i (List.range (s1.win.bufs i).length) s.layout s1
        have e : ({ s1 with layout := s.layout } : Screen) = s1 := rfl
        rw [e] at this
        rw [this]
      rw [← hs2] at hl
      rw [hl] at g1 g2
      simp only [] at g2
      rw [hl']
      refine ⟨⟨?_, fun k => ?_, g1.layout, fun k => ?_, fun k j => ?_, g1.same, fun k hk => ?_⟩, ?_⟩
      · simp only []; rw [(deactivateBuffers_same _ _).1]; exact g1.n
      · simp only []; rw [length_deactivateBuffers]; exact g1.len k
      · simp only []; rw [(deactivateBuffers_same _ _).2]; exact g1.plots k
      · simp only []; rw [(deactivateBuffers_same _ _).2]; exact g1.range k j
      · simp only []; rw [(deactivateBuffers_same _ _).2]; exact g1.shows k hk
      · simp only []; rw [g2]
    · rw [if_neg ho, if_neg ho]; exact ⟨h, rfl⟩

theorem deactivates_agree (L : List Item) : ∀ {s : Screen}, Agree P len n s →
    Agree P len n (L.foldl Screen.deactivate s) ∧ (L.foldl Screen.deactivate s).win = L.foldl Win.deactivate s.win := by
  induction L with
  | nil => intro s h; exact ⟨h, rfl⟩
  | cons it L ih =>
    intro s h
    obtain ⟨h1, h2⟩ := deactivate_agree h it
    obtain ⟨g1, g2⟩ := ih h1
    exact ⟨g1, by rw [List.foldl_cons, g2, h2]; rfl⟩

theorem activates_agree (hP : ∀ i < n, ∀ j < len i, Fits (P i) j) (L : List Item) (hL : ∀ it ∈ L, There len n it) : ∀ {s : Screen}, Agree P len n s →
    ∃ s', L.foldlM Screen.activate s = .ok s' ∧ Agree P len n s' ∧ s'.win = L.foldl Win.activate s.win := by
  induction L with
  | nil => intro s h; exact ⟨s, rfl, h, rfl⟩
  | cons it L ih =>
    intro s h
    obtain ⟨s1, h1, h2, h3⟩ := activate_agree hP h (hL it (by simp))
    obtain ⟨s2, g1, g2, g3⟩ := ih (fun i hi => hL i (by simp [hi])) h2
    exact ⟨s2, by rw [List.foldlM_cons, h1]; exact g1, g2, by rw [g3, h3]; rfl⟩

theorem items_exist {s : Screen} (h : Agree P len n s) : ∀ it ∈ s.win.items, There len n it := by
  intro it hit
  simp only [Win.items, List.mem_flatMap, List.mem_range, List.mem_cons, List.mem_map] at hit
  obtain ⟨i, hi, hit⟩ := hit
  rw [h.n] at hi
  rcases hit with rfl | ⟨j, hj, rfl⟩
  · exact hi
  · rw [h.len] at hj; exact ⟨hi, hj⟩

theorem clicked_agree (hP : ∀ i < n, ∀ j < len i, Fits (P i) j) {s : Screen} (h : Agree P len n s) {c : Click} (hc : ∀ it, c = .item it → There len n it) :
    ∃ s', s.clicked c = .ok s' ∧ Agree P len n s' ∧ s'.win = s.win.clicked c := by
  have hall : ∀ b, Agree P len n { s with win := { s.win with all := b } } := fun b =>
    ⟨h.n, h.len, h.layout, h.plots, h.range, h.same, h.shows⟩
  cases c with
  | all =>
    simp only [Screen.clicked, Win.clicked]
    split
    · obtain ⟨h1, h2⟩ := deactivates_agree s.win.items (hall false)
      exact ⟨_, rfl, h1, h2⟩
    · exact activates_agree hP s.win.items (items_exist h) (hall true)
  | item it =>
    simp only [Screen.clicked, Win.clicked]
    split
    · obtain ⟨h1, h2⟩ := deactivate_agree h it
      exact ⟨_, rfl, h1, h2⟩
    · exact activate_agree hP h (hc it rfl)

theorem clicks_agree (hP : ∀ i < n, ∀ j < len i, Fits (P i) j) (cs : List Click) (hc : ∀ c ∈ cs, ∀ it, c = .item it → There len n it) : ∀ {s : Screen}, Agree P len n s →
    ∃ s', cs.foldlM Screen.clicked s = .ok s' ∧ Agree P len n s' ∧ s'.win = cs.foldl Win.clicked s.win := by
  induction cs with
  | nil => intro s h; exact ⟨s, rfl, h, rfl⟩
  | cons c cs ih =>
    intro s h
    obtain ⟨s1, h1, h2, h3⟩ := clicked_agree hP h (hc c (by simp))
    obtain ⟨s2, g1, g2, g3⟩ := ih (fun i hi => hc i (by simp [hi])) h2
    exact ⟨s2, by rw [List.foldlM_cons, h1]; exact g1, g2, by rw [g3, h3]; rfl⟩

theorem new_win (n : ℕ) (track : ℕ → Bool) (bufs : ℕ → List (Buffer ℝ)) :
    (Win.new n track bufs).n = n ∧ (∀ it, (Win.new n track bufs).on it = false) ∧ ∀ i, ((Win.new n track bufs).bufs i).length = (bufs i).length := by
  have : ∀ (L : List ℕ) (w : Win), (L.foldl Win.deactivateBuffers w).n = w.n ∧ (L.foldl Win.deactivateBuffers w).on = w.on ∧
      ∀ i, ((L.foldl Win.deactivateBuffers w).bufs i).length = (w.bufs i).length := by
    intro L
    induction L with
    | nil => intro w; exact ⟨rfl, rfl, fun _ => rfl⟩
    | cons a L ih =>
      intro w
      obtain ⟨h1, h2, h3⟩ := ih (w.deactivateBuffers a)
      exact ⟨h1.trans (deactivateBuffers_same w a).1, h2.trans (deactivateBuffers_same w a).2, fun i => (h3 i).trans (length_deactivateBuffers w a i)⟩
  obtain ⟨h1, h2, h3⟩ := this (List.range n) ⟨n, track, bufs, fun _ => false, false⟩
  exact ⟨h1, fun it => by unfold Win.new; rw [h2], h3⟩

/-- **C164.** In a window whose plots have one limit (or `None`) and one dotted flag per curve, however the user clicks on its entries:
nothing fails; the plots in the layout are those that are ticked, each once; and each plot contains exactly its ticked curves, each once,
and their limits, each once, with the pen of the curve. -/
theorem C164_screen {n : ℕ} {track : ℕ → Bool} {bufs : ℕ → List (Buffer ℝ)} {maxs mins : ℕ → Option (List Limit)} {dotted : ℕ → Option (List Bool)}
    {P : ℕ → Limited} (hP : ∀ i < n, Limited.new (bufs i).length (maxs i) (mins i) (dotted i) = .ok (P i))
    (hd : ∀ i < n, ∀ ds ∈ dotted i, ds.length = (bufs i).length) (clicks : List Click) (hc : ∀ c ∈ clicks, Valid (Win.new n track bufs) c) :
    ∃ s, clicks.foldlM Screen.clicked ⟨Win.new n track bufs, P, []⟩ = .ok s ∧ s.win = clicks.foldl Win.clicked (Win.new n track bufs) ∧
      s.layout.Nodup ∧ (∀ i, i ∈ s.layout ↔ s.win.on (.plot i) = true) ∧
      ∀ i < n, ((s.plots i).things.map look).Perm
        (((List.range (bufs i).length).filter (fun j => s.win.on (.curve i j))).flatMap (wanted (maxs i) (mins i) (dotted i))) := by
  obtain ⟨w1, w2, w3⟩ := new_win n track bufs
  have hs := fun i hi => new_spec (hP i hi) (hd i hi)
  have h0 : Agree P (fun i => (bufs i).length) n ⟨Win.new n track bufs, P, []⟩ :=
    ⟨w1, w3, by simp, fun i => by simp [w2], fun i j h => by simp [w2] at h, fun i => SamePlot.refl _,
      fun i hi => ⟨[], (hs i hi).2.1, fun j => by simp [w2]⟩⟩
  have hv : ∀ c ∈ clicks, ∀ it, c = .item it → There (fun i => (bufs i).length) n it := by
    rintro c hcm it rfl
    have := hc _ hcm
    cases it with
    | plot i => simpa [Valid, There, w1] using this
    | curve i j => simpa [Valid, There, w1, w3] using this
  obtain ⟨s, h1, h2, h3⟩ := clicks_agree (fun i hi j hj => ((hs i hi).2.2 j hj).1) clicks hv h0
  refine ⟨s, h1, h3, h2.layout, h2.plots, fun i hi => ?_⟩
  obtain ⟨T, g1, g2⟩ := h2.shows i hi
  have hperm : T.Perm ((List.range (bufs i).length).filter (fun j => s.win.on (.curve i j))) := by
    rw [List.perm_ext_iff_of_nodup g1.nodup (List.nodup_range.filter _)]
    intro j
    rw [g2, List.mem_filter, List.mem_range]
    exact ⟨fun h => ⟨(h2.range i j h).2, h⟩, fun h => h.2⟩
  refine (g1.things.map look).trans ?_
  rw [List.map_flatMap]
  refine List.Perm.trans ?_ (hperm.flatMap_right _)
  rw [flatMap_congr' (g := wanted (maxs i) (mins i) (dotted i))]
  intro j hj
  have hjl := (h2.range i j ((g2 j).1 hj)).2
  obtain ⟨-, e1, e2, e3⟩ := (hs i hi).2.2 j hjl
  rw [← (h2.same i).maxAt] at e1
  rw [← (h2.same i).minAt] at e2
  rw [← (h2.same i).dashedAt] at e3
  have m1 := g1.maxSome j hj
  have m2 := g1.minSome j hj
  unfold thingsOf wanted
  rw [← e1, ← e2, ← e3]
  cases a : maxAt (s.plots i) j <;> cases b : minAt (s.plots i) j <;> simp only [a, b, Option.isSome_some, Option.isSome_none, true_implies] at m1 m2
  · simp [lineOf, look]
  · obtain ⟨k, hk⟩ := Option.isSome_iff_exists.1 m2
    simp [lineOf, look, hk]
  · obtain ⟨k, hk⟩ := Option.isSome_iff_exists.1 m1
    simp [lineOf, look, hk]
  · obtain ⟨k, hk⟩ := Option.isSome_iff_exists.1 m1
    obtain ⟨k', hk'⟩ := Option.isSome_iff_exists.1 m2
    simp [lineOf, look, hk, hk']

theorem dot_ok (v : EReal) : ∀ (ds : List Bool) (l : List Limit), ds.length ≤ l.length → ∃ l', dot v ds l = .ok l'
  | [], l, _ => ⟨l, by simp [dot]⟩
  | d :: ds, [], h => by simp at h
  | d :: ds, x :: l, h => by
    obtain ⟨l', h'⟩ := dot_ok v ds l (by simpa using h)
    exact ⟨(if d then some v else x) :: l', by simp [dot, h', bind, Except.bind, pure, Except.pure]⟩

theorem dotLimits_ok (v : EReal) {n : ℕ} {ds : List Bool} {given : Option (List Limit)} (hd : ds.length ≤ n) (hg : ∀ l ∈ given, l.length = n) :
    (∃ hi, dotLimits v ds given = .ok hi) ↔ (true ∈ ds → given.isSome) := by
  cases given with
  | none =>
    by_cases h : true ∈ ds
    · simp [dotLimits, h]
    · simp [dotLimits, h]
  | some l =>
    obtain ⟨l', h'⟩ := dot_ok v ds l (by rw [hg l rfl]; exact hd)
    simp [dotLimits, h', bind, Except.bind, pure, Except.pure]

/-- **C164.** With at most one dotted flag per curve, the plot is made exactly if each list of limits has one entry per curve and, if any
limit is to be dotted, both lists are given. -/
theorem C164_new {n : ℕ} {maxs mins : Option (List Limit)} {dotted : Option (List Bool)} (hd : ∀ ds ∈ dotted, ds.length ≤ n) :
    (∃ p, Limited.new n maxs mins dotted = .ok p) ↔
      (∀ l ∈ maxs, l.length = n) ∧ (∀ l ∈ mins, l.length = n) ∧ ((∃ ds ∈ dotted, true ∈ ds) → maxs.isSome ∧ mins.isSome) := by
  have hd' : (dotted.getD []).length ≤ n := by
    cases dotted with
    | none => simp
    | some ds => exact hd ds rfl
  have ht : (∃ ds ∈ dotted, true ∈ ds) ↔ true ∈ dotted.getD [] := by
    cases dotted <;> simp
  rw [ht]
  unfold Limited.new
  by_cases hc : (∃ l ∈ maxs, l.length ≠ n) ∨ (∃ l ∈ mins, l.length ≠ n)
  · rw [if_pos hc]
    constructor
    · rintro ⟨p, hp⟩; simp at hp
    · rintro ⟨h1, h2, -⟩
      rcases hc with ⟨l, hl, hn⟩ | ⟨l, hl, hn⟩
      · exact absurd (h1 l hl) hn
      · exact absurd (h2 l hl) hn
  · rw [if_neg hc]
    push Not at hc
    have k1 := dotLimits_ok 1 hd' hc.1
    have k2 := dotLimits_ok (-1) hd' hc.2
    cases g1 : dotLimits 1 (dotted.getD []) maxs with
    | error e =>
      rw [g1] at k1
      have : ¬ (true ∈ dotted.getD [] → maxs.isSome) := fun h => by obtain ⟨_, h⟩ := k1.2 h; simp at h
      constructor
      · rintro ⟨p, hp⟩; simp [g1, bind, Except.bind] at hp
      · rintro ⟨-, -, h⟩; exact absurd (fun x => (h x).1) this
    | ok hi =>
      have m1 := k1.1 ⟨hi, g1⟩
      cases g2 : dotLimits (-1) (dotted.getD []) mins with
      | error e =>
        rw [g2] at k2
        have : ¬ (true ∈ dotted.getD [] → mins.isSome) := fun h => by obtain ⟨_, h⟩ := k2.2 h; simp at h
        constructor
        · rintro ⟨p, hp⟩; simp [g1, g2, bind, Except.bind] at hp
        · rintro ⟨-, -, h⟩; exact absurd (fun x => (h x).2) this
      | ok lo =>
        have m2 := k2.1 ⟨lo, g2⟩
        constructor
        · exact fun _ => ⟨hc.1, hc.2, fun h => ⟨m1 h, m2 h⟩⟩
        · exact fun _ => ⟨_, by simp only [g1, g2, bind, Except.bind, pure, Except.pure]; rfl⟩

/-- Two curves, the first with the limits 1/2 and -∞, the second with dotted limits. -/
example : ∃ p, Limited.new 2 (some [some ((1 / 2 : ℝ) : EReal), some 7]) (some [some ⊥, some 3]) (some [false, true]) = .ok p :=
  (C164_new (by simp)).2 (by simp)

/-- Without limits, none of them can be dotted. -/
example : ¬ ∃ p, Limited.new 2 none none (some [false, true]) = .ok p := by
  rw [C164_new (by simp)]; simp

/-- The first limits of the plot above: what is wanted of its curves. -/
example : wanted (some [some ((1 / 2 : ℝ) : EReal), some 7]) (some [some ⊥, some 3]) (some [false, true]) 0 = [.curve 0, .line ((1 / 2 : ℝ) : EReal) 0 false] ∧
    wanted (some [some ((1 / 2 : ℝ) : EReal), some 7]) (some [some ⊥, some 3]) (some [false, true]) 1 = [.curve 1, .line 1 1 true, .line (-1) 1 true] := by
  constructor <;> simp [wanted, limitAt, finiteAt]

/-- A window with this plot and two clicks: on the second curve and on `ALL`. -/
example : ∃ P : ℕ → Limited, ∃ s, [Click.item (.curve 0 1), .all].foldlM Screen.clicked ⟨Win.new 1 (fun _ => false) (fun _ => [Buffer.new none, Buffer.new none]), P, []⟩ = .ok s ∧
    ((s.plots 0).things.map look).Perm [.curve 0, .line ((1 / 2 : ℝ) : EReal) 0 false, .curve 1, .line 1 1 true, .line (-1) 1 true] := by
  obtain ⟨p, hp⟩ := (C164_new (n := 2) (maxs := some [some ((1 / 2 : ℝ) : EReal), some 7]) (mins := some [some ⊥, some 3])
    (dotted := some [false, true]) (by simp)).2 (by simp)
  obtain ⟨s, h1, h2, -, -, h3⟩ := C164_screen (n := 1) (track := fun _ => false) (bufs := fun _ => [Buffer.new none, Buffer.new none])
    (P := fun _ => p) (maxs := fun _ => some [some ((1 / 2 : ℝ) : EReal), some 7]) (mins := fun _ => some [some ⊥, some 3])
    (dotted := fun _ => some [false, true]) (fun i _ => hp) (by simp) [.item (.curve 0 1), .all]
    (by rintro c hc; simp at hc; rcases hc with rfl | rfl <;> simp [Valid, Win.new, Win.deactivateBuffers, Win.setTracking])
  refine ⟨_, s, h1, ?_⟩
  have h := h3 0 (by simp)
  have ho : s.win.on (.curve 0 0) = true ∧ s.win.on (.curve 0 1) = true := by
    rw [h2]
    constructor <;> decide +kernel
  simpa [List.range_succ, ho.1, ho.2, wanted, limitAt, finiteAt] using h

/-- **C164.** `PlotDataset` can make the plot of the observations. It shows an observation with its finite limits as solid lines; normalised
observations with 1 and -1, dotted if the upper limit is infinite. -/
theorem C164_dataset (high low : List EReal) (hl : high.length = low.length) (normalized : Bool) :
    let L := datasetLimits (some (high, low)) normalized
    (∃ p, Limited.new high.length L.1 L.2.1 L.2.2 = .ok p) ∧
      ∀ (j : ℕ) (h l : EReal), high[j]? = some h → low[j]? = some l → wanted L.1 L.2.1 L.2.2 j =
        if normalized then [.curve j, .line 1 j (decide (h = ⊤ ∨ h = ⊥)), .line (-1) j (decide (h = ⊤ ∨ h = ⊥))]
        else .curve j :: ((if h = ⊤ ∨ h = ⊥ then [] else [.line h j false]) ++ if l = ⊤ ∨ l = ⊥ then [] else [.line l j false]) := by
  intro L
  have h1 : (1 : EReal) ≠ ⊤ ∧ (1 : EReal) ≠ ⊥ := ⟨EReal.coe_ne_top 1, EReal.coe_ne_bot 1⟩
  have h2 : (-1 : EReal) ≠ ⊤ ∧ (-1 : EReal) ≠ ⊥ :=
    ⟨by simpa using EReal.coe_ne_top (-1), by simpa using EReal.coe_ne_bot (-1)⟩
  constructor
  · refine (C164_new ?_).2 ?_
    · cases normalized <;> simp [L, datasetLimits]
    · cases normalized <;> simp [L, datasetLimits, hl]
  · intro j h l hh hlo
    cases normalized
    · simp only [L, datasetLimits, wanted, limitAt, finiteAt]
      by_cases a : h = ⊤ ∨ h = ⊥ <;> by_cases b : l = ⊤ ∨ l = ⊥ <;> simp [hh, hlo, a, b]
    · simp only [L, datasetLimits, wanted, limitAt, finiteAt]
      have e1 : (List.replicate high.length (some (1 : EReal)))[j]? = some (some 1) := by
        rw [List.getElem?_replicate, if_pos (List.getElem?_eq_some_iff.1 hh).1]
      have e2 : (List.replicate low.length (some (-1 : EReal)))[j]? = some (some (-1)) := by
        rw [List.getElem?_replicate, if_pos (List.getElem?_eq_some_iff.1 hlo).1]
      by_cases a : h = ⊤ ∨ h = ⊥
      · simp [hh, a]
      · obtain ⟨a1, a2⟩ := not_or.1 a
        simp [hh, a1, a2, e1, e2, h1, h2]

example : wanted (datasetLimits (some ([⊤, 3], [⊥, 2])) true).1 (datasetLimits (some ([⊤, 3], [⊥, 2])) true).2.1 (datasetLimits (some ([⊤, 3], [⊥, 2])) true).2.2 0 =
    [.curve 0, .line 1 0 true, .line (-1) 0 true] := by
  rw [(C164_dataset [⊤, 3] [⊥, 2] rfl true).2 0 ⊤ ⊥ rfl rfl]; simp

/-- **C164 is false of dotted limits**: they are not drawn at the heights that were given. -/
theorem C164_dotted_refuted : ∃ p q, Limited.new 1 (some [some 5]) (some [some (-5)]) (some [true]) = .ok p ∧ p.draw 0 = .ok q ∧
    q.things.map look = [.curve 0, .line 1 0 true, .line (-1) 0 true] ∧ (1 : EReal) ≠ 5 := by
  refine ⟨_, _, rfl, rfl, ?_, ?_⟩
  · simp [drawCurve, look]
  · exact_mod_cast (by norm_num : (1 : ℝ) ≠ 5)

/-- **C164 is false of the lists of the caller**: they are changed, the infinite limit is gone. -/
theorem C164_lists_refuted : ∃ p, Limited.new 1 (some [some ⊤]) none none = .ok p ∧ p.maxs = some [none] := by
  refine ⟨_, rfl, ?_⟩
  simp [noInf]

/-- **C164 is false of plots that are drawn without a window**: a curve that is drawn twice and erased leaves a limit behind. -/
theorem C164_draw_refuted : ∃ p q r, Limited.new 1 (some [some 1]) none none = .ok p ∧ p.draw 0 = .ok q ∧ q.draw 0 = .ok r ∧
    (r.erase 0).things.map look = [.line 1 0 false] := by
  refine ⟨_, _, _, rfl, rfl, rfl, ?_⟩
  simp [drawCurve, look, noInf_one, Limited.erase, removeLine]

end

end Verif.Misc.PlotItems
