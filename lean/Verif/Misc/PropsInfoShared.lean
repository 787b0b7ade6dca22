/-
Property C100: what is done to a view, and the object it was taken from.
-/
import Verif.Misc.ModelInfoShared
import Verif.Misc.PropsInfo

namespace Verif.Misc

variable {V : Type}

/-- The paths of a step are among those of the shared dictionary. -/
def Known (keys : List (String × Path)) (step : Step V) : Prop := ∀ leaf ∈ step, leaf.1 ∈ keys.map Prod.snd

theorem updateKeys_known (keys : List (String × Path)) (storage : List (Step V)) (h : ∀ s ∈ storage, Known keys s) :
    updateKeys keys storage = keys := by
  unfold updateKeys
  induction storage with
  | nil => rfl
  | cons s l ih =>
    have hs : s.foldl (fun m leaf => addPath m leaf.1) keys = keys := by
      have hk := h s (by simp)
      clear ih h
      induction s with
      | nil => rfl
      | cons a s ih =>
        simp only [List.foldl_cons]
        rw [addPath, if_pos (hk a (by simp))]
        exact ih fun leaf hl => hk leaf (by simp [hl])
    rw [List.foldl_cons, hs]
    exact ih fun t ht => h t (by simp [ht])

/-- Every waiting step of the other objects has known paths. -/
def Quiet (f : Family V) (j : ℕ) : Prop := ∀ i m, f.members[i]? = some m → i ≠ j → ∀ s ∈ m.storage, Known f.keys s

theorem parse_quiet (f : Family V) (i j : ℕ) (hij : i ≠ j) (h : Quiet f j) :
    (f.parse i).1.keys = f.keys ∧ (f.parse i).1.members[j]? = f.members[j]? ∧ Quiet (f.parse i).1 j ∧
      (j < f.members.length → j < (f.parse i).1.members.length) := by
  unfold Family.parse
  split
  · exact ⟨rfl, rfl, h, id⟩
  · next m hm =>
    have hk := updateKeys_known f.keys m.storage (h i m hm hij)
    simp only [hk]
    split
    · exact ⟨rfl, rfl, h, id⟩
    · refine ⟨rfl, by simp [hij], fun a b hab haj s hs => ?_, by simp⟩
      simp only at hab ⊢
      rw [List.getElem?_set] at hab
      split at hab
      · split at hab
        · cases hab
          simp at hs
        · simp at hab
      · exact h a b hab haj s hs

theorem call_quiet (f : Family V) (c : FamilyCall V) (j : ℕ) (hj : j < f.members.length) (hc : c.target ≠ j) (h : Quiet f j)
    (hs : ∀ i step, c = .append i step → Known f.keys step) :
    (f.call c).1.keys = f.keys ∧ (f.call c).1.members[j]? = f.members[j]? ∧ Quiet (f.call c).1 j ∧ j < (f.call c).1.members.length := by
  cases c with
  | append i step =>
    simp only [FamilyCall.target] at hc
    unfold Family.call
    dsimp only
    split
    · exact ⟨rfl, rfl, h, hj⟩
    · next m hm =>
      refine ⟨rfl, by simp [hc], fun a b hab haj s hst => ?_, by simpa using hj⟩
      simp only at hab ⊢
      rw [List.getElem?_set] at hab
      split at hab
      · split at hab
        · cases hab
          simp only [List.mem_append, List.mem_singleton] at hst
          rcases hst with hst | rfl
          · exact h i m hm hc s hst
          · exact hs i s rfl
        · simp at hab
      · exact h a b hab haj s hst
  | parse i =>
    have := parse_quiet f i j hc h
    exact ⟨this.1, this.2.1, this.2.2.1, this.2.2.2 hj⟩
  | view i index =>
    obtain ⟨p1, p2, p3, p4⟩ := parse_quiet f i j hc h
    unfold Family.call
    dsimp only
    rcases hp : f.parse i with ⟨g, b⟩
    rw [hp] at p1 p2 p3 p4
    dsimp only at p1 p2 p3 p4 ⊢
    cases b with
    | false => exact ⟨p1, p2, p3, p4 hj⟩
    | true =>
        dsimp only
        split
        · exact ⟨p1, p2, p3, p4 hj⟩
        · next m hm =>
          refine ⟨p1, by simp only; rw [List.getElem?_append_left (p4 hj), p2], fun a b hab haj s hst => ?_, by
            simp only [List.length_append]; exact Nat.lt_add_right _ (p4 hj)⟩
          simp only at hab ⊢
          rw [List.getElem?_append] at hab
          split at hab
          · exact p3 a b hab haj s hst
          · rw [List.getElem?_singleton] at hab
            split at hab
            · cases hab
              simp at hst
            · simp at hab

/-- **C100**. Whatever is done to the views of an object, and to the views of its views, the object stays as it was, as long as the steps that are
appended to them only have paths that the object already knows. -/
theorem C100_shared_partial (f : Family V) (j : ℕ) (m : Member V) (hj : f.members[j]? = some m) (h : Quiet f j) (calls : List (FamilyCall V))
    (hc : ∀ c ∈ calls, c.target ≠ j) (hs : ∀ i step, .append i step ∈ calls → Known f.keys step) :
    (f.run calls).members[j]? = some m ∧ m.extra (f.run calls).keys = m.extra f.keys := by
  have key : ∀ (calls : List (FamilyCall V)) (g : Family V), g.keys = f.keys → g.members[j]? = some m → Quiet g j → j < g.members.length →
      (∀ c ∈ calls, c.target ≠ j) → (∀ i step, .append i step ∈ calls → Known f.keys step) →
      (g.run calls).keys = f.keys ∧ (g.run calls).members[j]? = some m := by
    intro calls
    induction calls with
    | nil => exact fun g hk hm _ _ _ _ => ⟨hk, hm⟩
    | cons c l ih =>
      intro g hk hm hq hl hc hs
      obtain ⟨q1, q2, q3, q4⟩ := call_quiet g c j hl (hc c (by simp)) hq (fun i step e => by
        rw [hk]; exact hs i step (by simp [e]))
      exact ih _ (q1.trans hk) (q2.trans hm) q3 q4 (fun c hc' => hc c (by simp [hc'])) (fun i step hi => hs i step (by simp [hi]))
  obtain ⟨k1, k2⟩ := key calls f rfl hj h (by
    by_contra hn
    rw [List.getElem?_eq_none (not_lt.1 hn)] at hj
    simp at hj) hc hs
  exact ⟨k2, by rw [k1]⟩

/-- **C100** fails for steps with a new key: a step with a new key that is appended to a view makes every later parse, and so every later view,
of the original raise, although nothing was done to the original; without the view the same parse returns. -/
theorem C100_shared_refuted (v w : V) : ∃ e : Extra V,
    [InfoCall.append [(["a"], v)], .parse].foldlM Extra.call Extra.new = some e ∧ e.parse.isSome ∧
    ((Family.of e).call (.view 0 [0])).2 = true ∧
    ∀ f, f = (Family.of e).run [.view 0 [0], .append 1 [(["b"], w)], .parse 1] →
      f.members[0]?.map Member.data = some [("a", [some v])] ∧ (f.call (.parse 0)).2 = false ∧
      ∀ index, (f.call (.view 0 index)).2 = false :=
  ⟨⟨[], [("a", ["a"])], [("a", [some v])], [("a", [some v])]⟩, rfl, rfl, rfl, by
    intro f hf
    have e : f = ⟨[("a", ["a"]), ("b", ["b"])], [⟨[], [("a", [some v])], [("a", [some v])]⟩,
        ⟨[[(["b"], w)]], [("a", [some v])], [("a", [some v])]⟩]⟩ := by rw [hf]; rfl
    subst e
    exact ⟨rfl, rfl, fun _ => rfl⟩⟩

/-- The hypotheses of `C100_shared_partial` hold for the original of a view to which a step with the known key is appended. -/
example : ∃ (f : Family ℕ) (m : Member ℕ), f.keys = [("a", ["a"])] ∧ f.members.length = 2 ∧ f.members[0]? = some m ∧ Quiet f 0 ∧
    Known f.keys [((["a"] : Path), 3)] ∧
    (f.run [.append 1 [(["a"], 3)], .parse 1]).members[1]?.map Member.data = some [("a", [some 7, some 3])] := by
  refine ⟨(Family.of ⟨[], [("a", ["a"])], [("a", [some 5, some 7])], [("a", [some 5, some 7])]⟩).run [.view 0 [1]], _, rfl, rfl, rfl, ?_, ?_, rfl⟩
  · intro i m hm hi s hs
    match i with
    | 0 => exact absurd rfl hi
    | 1 => cases hm; simp at hs
    | i + 2 => simp [Family.run, Family.call, Family.parse, Family.of, Member.extra, updateKeys, columns, column] at hm
  · intro leaf hl
    simp only [List.mem_singleton] at hl
    subst hl
    decide

end Verif.Misc
