/-
Property C104: the force between two groups of geometries.
-/
import Verif.Wrap.ModelForce
import Verif.Wrap.PropsMujoco
import Mathlib.Tactic.NormNum

namespace Verif.Wrap

/-- The contact joins the two groups. -/
def Joins (ids1 ids2 : ℕ → Bool) (c : ℕ × ℕ) : Prop := (ids1 c.1 = true ∧ ids2 c.2 = true) ∨ (ids1 c.2 = true ∧ ids2 c.1 = true)

/-- C104. The force is zero if no contact joins the groups. If exactly one does, the force is that of the contact. In general it is the force of one of the contacts, the first, not the sum
over the contacts: see `C104_force_refuted`. -/
theorem C104_force_partial {F : Type} (zero : F) (contacts : List ((ℕ × ℕ) × F)) (ids1 ids2 : ℕ → Bool) :
    ((∀ c ∈ contacts, ¬ Joins ids1 ids2 c.1) → collisionForce zero contacts ids1 ids2 = zero) ∧
    (∀ before c after, contacts = before ++ c :: after → (∀ b ∈ before, ¬ Joins ids1 ids2 b.1) → Joins ids1 ids2 c.1 → collisionForce zero contacts ids1 ids2 = c.2) := by
  have test : ∀ c : ℕ × ℕ, ((ids1 c.1 && ids2 c.2) || (ids2 c.1 && ids1 c.2)) = true ↔ Joins ids1 ids2 c := by
    intro c
    unfold Joins
    cases ids1 c.1 <;> cases ids2 c.2 <;> cases ids2 c.1 <;> cases ids1 c.2 <;> simp
  have skip : ∀ (before rest : List ((ℕ × ℕ) × F)), (∀ b ∈ before, ¬ Joins ids1 ids2 b.1) → collisionForce zero (before ++ rest) ids1 ids2 = collisionForce zero rest ids1 ids2 := by
    intro before rest h
    induction before with
    | nil => rfl
    | cons b l ih =>
      have hb := h b (by simp)
      rw [← test] at hb
      rw [List.cons_append, collisionForce, if_neg hb]
      exact ih fun b' hb' => h b' (by simp [hb'])
  constructor
  · intro h
    have := skip contacts [] h
    rw [List.append_nil] at this
    rw [this]
    rfl
  · rintro before c after rfl hb hc
    rw [skip _ _ hb, collisionForce, if_pos ((test _).2 hc)]

/-- A collision is reported exactly when the force is that of a contact: the two functions agree on which contacts count. -/
theorem C104_force_reported {F : Type} (zero : F) (contacts : List ((ℕ × ℕ) × F)) (ids1 ids2 : ℕ → Bool) (h : checkCollision (contacts.map Prod.fst) ids1 ids2 = true) :
    ∃ c ∈ contacts, Joins ids1 ids2 c.1 ∧ collisionForce zero contacts ids1 ids2 = c.2 := by
  induction contacts with
  | nil => simp [checkCollision] at h
  | cons c l ih =>
    by_cases hc : Joins ids1 ids2 c.1
    · exact ⟨c, by simp, hc, (C104_force_partial zero (c :: l) ids1 ids2).2 [] c l rfl (by simp) hc⟩
    · have hl : checkCollision (l.map Prod.fst) ids1 ids2 = true := by
        rw [C104_collision] at h ⊢
        obtain ⟨d, hd, hj⟩ := h
        rw [List.map_cons, List.mem_cons] at hd
        rcases hd with rfl | hd
        · exact absurd hj hc
        · exact ⟨d, hd, hj⟩
      obtain ⟨d, hd, hj, e⟩ := ih hl
      refine ⟨d, by simp [hd], hj, ?_⟩
      rw [← e]
      have : ¬ ((ids1 c.1.1 && ids2 c.1.2) || (ids2 c.1.1 && ids1 c.1.2)) = true := by
        intro ht
        apply hc
        unfold Joins
        revert ht
        cases ids1 c.1.1 <;> cases ids2 c.1.2 <;> cases ids2 c.1.1 <;> cases ids1 c.1.2 <;> simp
      conv_lhs => rw [collisionForce, if_neg this]

example : checkCollision ([((1, 2), (5 : ℚ)), ((4, 3), 7)].map Prod.fst) (fun i => i == 3) (fun i => i == 4) = true := rfl
example : collisionForce (0 : ℚ) [((1, 2), 5), ((4, 3), 7)] (fun i => i == 3) (fun i => i == 4) = 7 := rfl

/-- C104 fails for the total force: with two contacts between the groups the second is left out. -/
theorem C104_force_refuted : ∃ (contacts : List ((ℕ × ℕ) × ℚ)) (ids1 ids2 : ℕ → Bool), (∀ c ∈ contacts, Joins ids1 ids2 c.1) ∧
    collisionForce 0 contacts ids1 ids2 ≠ (contacts.map Prod.snd).sum := by
  refine ⟨[((3, 4), 5), ((4, 3), 7)], fun i => i == 3, fun i => i == 4, ?_, ?_⟩
  · simp [Joins]
  · norm_num [collisionForce]

end Verif.Wrap
