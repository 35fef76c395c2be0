import Verif.Proofs.MachineErr

/-!
# Shape of the steps of the machine
-/

namespace TW

open Spec

namespace Mach

variable {e : Enc} {f : Nat → Byte} {mask : Nat}

/-- What a step does with state and source: a step inside of a token, a transition or a
fallback. -/
def Shape (e : Enc) (f : Nat → Byte) (A B : Cfg) : Prop :=
  (B.state = A.state ∧ (B.src = A.src ∨ (B.src = A.src + ulen e f A.src ∧ (stm A.state).action ≠ none))) ∨
  ((stm A.state).next (cls e f A) = some B.state ∧ B.src = A.src + ulen e f A.src) ∨
  ((stm A.state).fallback = some B.state ∧ B.src = A.src)

theorem trans_shape {A B : Cfg} {rt : ElementType} {r : Option ElementType}
    (h : Mach.trans e f (stm A.state) rt A = (r, B)) : Shape e f A B := by
  unfold Mach.trans at h
  simp only at h
  split at h
  · rename_i h1
    simp only [Prod.mk.injEq] at h; obtain ⟨-, rfl⟩ := h
    exact .inr (.inl ⟨h1, rfl⟩)
  · split at h
    · rename_i h1
      simp only [Prod.mk.injEq] at h; obtain ⟨-, rfl⟩ := h
      exact .inr (.inr ⟨h1, rfl⟩)
    · split at h <;> cases h <;> exact .inl ⟨rfl, .inl rfl⟩

theorem tokStep_shape {A B : Cfg} {isTok : Cc → Bool} {r : Option ElementType}
    (h : tokStep e f isTok A = (r, B)) :
    B.state = A.state ∧ (B.src = A.src ∨ B.src = A.src + ulen e f A.src) := by
  unfold tokStep at h
  simp only at h
  repeat' split at h
  all_goals first
    | (simp only [Prod.mk.injEq] at h; obtain ⟨-, rfl⟩ := h; exact ⟨rfl, .inl rfl⟩)
    | (simp only [Prod.mk.injEq] at h; obtain ⟨-, rfl⟩ := h; exact ⟨rfl, .inr rfl⟩)
    | (simp only [Prod.mk.injEq] at h; obtain ⟨-, rfl⟩ := h
       obtain ⟨o, b, ho⟩ := charStep_eq (e := e) (f := f) A
       rw [ho]; exact ⟨rfl, .inr rfl⟩)

theorem step_shape {A B : Cfg} {r : Option ElementType} (h : step e f mask A = (r, B)) :
    Shape e f A B := by
  unfold step at h
  simp only at h
  split at h
  · exact trans_shape h
  · rename_i op arg ha
    have hne : (stm A.state).action ≠ none := by rw [ha]; simp
    split at h
    · split at h
      · exact trans_shape h
      · split at h
        · obtain ⟨h1, h2⟩ := tokStep_shape h
          exact .inl ⟨h1, h2.imp id fun h => ⟨h, hne⟩⟩
        · split at h
          · cases h; exact .inl ⟨rfl, .inr ⟨rfl, hne⟩⟩
          · exact trans_shape h
    · split at h
      · unfold keyStep at h
        simp only at h
        split at h
        · exact trans_shape h
        · split at h
          · cases h
            split <;> exact .inl ⟨rfl, .inl rfl⟩
          · split at h
            · cases h; exact .inl ⟨rfl, .inr ⟨rfl, hne⟩⟩
            · cases h; exact .inl ⟨rfl, .inl rfl⟩
      · split at h
        · split at h
          · rename_i hfb
            cases h
            exact .inr (.inr ⟨hfb, rfl⟩)
          · cases h; exact .inl ⟨rfl, .inl rfl⟩
        · exact trans_shape (A := { A with tokenpos := A.src, out := [] }) h

theorem Shape.mono {A B : Cfg} (h : Shape e f A B) : A.src ≤ B.src := by
  rcases h with ⟨-, h | h⟩ | ⟨-, h⟩ | ⟨-, h⟩ <;> omega

theorem steps_mono {m : Nat} {A B : Cfg} (h : Steps e f mask m A B) : A.src ≤ B.src := by
  induction h with
  | refl => exact Nat.le_refl _
  | cons h1 _ ih => exact Nat.le_trans (step_shape h1).mono ih

/-- Every configuration is at the start of a character of the text. -/
theorem Shape.aligned {A B : Cfg} (h : Shape e f A B) {k : Nat} (hk : ∃ j, A.src = offs e f k j) :
    ∃ j, B.src = offs e f k j := by
  obtain ⟨j, hj⟩ := hk
  rcases h with ⟨-, h | h⟩ | ⟨-, h⟩ | ⟨-, h⟩
  · exact ⟨j, by rw [h, hj]⟩
  · exact ⟨j + 1, by rw [h.1, offs, hj]⟩
  · exact ⟨j + 1, by rw [h, offs, hj]⟩
  · exact ⟨j, by rw [h, hj]⟩

end Mach

end TW
