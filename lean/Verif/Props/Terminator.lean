import Verif.Props.ScanIterator

/-!
# Property C107: the end of the text of an item
-/

namespace TW

open Spec Scanner

variable {ρ : Type} [Reader ρ]

/-- **C107** — The text of an item followed by `w` null bytes can be read at the pointer for one null byte, and if the text is empty for up to
five; for more it is undefined. -/
theorem C107_exact {s0 s : Scanner ρ} {it : Iterator} (h : Visited s0 it s) (w : Nat) :
    (w ≤ 1 ∨ (s.out = [] ∧ w ≤ 5) → readMem s it.element.content (it.element.size + w) = .ok (s.out ++ List.replicate w 0)) ∧
    (¬ (w ≤ 1 ∨ (s.out = [] ∧ w ≤ 5)) → readMem s it.element.content (it.element.size + w) = .stop .ub) := by
  obtain ⟨r, rfl⟩ := h.cur
  unfold cur element readMem
  cases h0 : s.out with
  | nil =>
    refine ⟨fun hw => ?_, fun hw => ?_⟩
    · have : w ≤ 5 := by rcases hw with hw | hw <;> omega
      simp [this]
    · have : ¬ w ≤ 5 := fun h => hw (.inr ⟨rfl, h⟩)
      simp [this]
  | cons b bs =>
    refine ⟨fun hw => ?_, fun hw => ?_⟩
    · have : w ≤ 1 := by rcases hw with hw | ⟨hw, -⟩; exact hw; cases hw
      have : w = 0 ∨ w = 1 := by omega
      rcases this with rfl | rfl
      · simp
      · rw [if_neg (by simp)]
        simp [List.take_of_length_le]
    · have : ¬ w ≤ 1 := fun h => hw (.inl h)
      have h2 : ¬ (bs.length + 1 + w ≤ bs.length + 1 + 1) := by omega
      simp [h2]

/-- The bytes of the smallest part of a text in an encoding, a null of which ends a text. -/
def partSize : Enc → Nat
  | .utf8 | .isolatin _ => 1
  | .utf16 _ | .ucs2 _ => 2
  | .ucs4 _ => 4

/-- **C107 (partial)** — The text of an item can be read as a text in the output encoding that ends with a null if the text is empty or the null has one
byte. Missing: texts that are not empty in encodings with wider characters, see `C107_wide_false`. -/
theorem C107_wide_partial {s0 s : Scanner ρ} {it : Iterator} (h : Visited s0 it s) (hw : s.out = [] ∨ partSize s.output = 1) :
    readMem s it.element.content (it.element.size + partSize s.output) = .ok (s.out ++ List.replicate (partSize s.output) 0) := by
  have hp : partSize s.output ≤ 5 := by cases s.output <;> simp [partSize]
  exact (C107_exact h _).1 (by rcases hw with h | h; exact .inr ⟨h, hp⟩; exact .inl (by omega))

/-- The text `a` in UTF-16 has only one null byte behind it. -/
theorem C107_wide_false : ∃ it s, Visited (oneScanner .utf8 (.utf16 true) none 0 (codes "<a>")) it s ∧ s.output = .utf16 true ∧ s.out = [0, 97] ∧
    readMem s it.element.content (it.element.size + partSize s.output) = .stop .ub := by
  have h : (iterBegin 40 true (oneScanner .utf8 (.utf16 true) none 0 (codes "<a>"))).1 =
        .ok { element := { type := .OpenTag, content := .item, size := 2 }, input := true } ∧
      (iterBegin 40 true (oneScanner .utf8 (.utf16 true) none 0 (codes "<a>"))).2.out = [0, 97] ∧
      (iterBegin 40 true (oneScanner .utf8 (.utf16 true) none 0 (codes "<a>"))).2.output = .utf16 true := by decide +kernel
  obtain ⟨h1, h2, h3⟩ := h
  rcases hr : iterBegin 40 true (oneScanner .utf8 (.utf16 true) none 0 (codes "<a>")) with ⟨x, s⟩
  rw [hr] at h1 h2 h3
  simp only at h1 h2 h3
  subst h1
  refine ⟨_, s, .begin_ hr, h3, h2, ?_⟩
  exact (C107_exact (.begin_ hr) _).2 (by rw [h2, h3]; decide)

/-- A text that is not empty, in an encoding with one byte, meets the conditions. -/
example : ∃ it s, Visited (oneScanner (.utf16 true) .utf8 none 0 [0, 60, 0, 97, 0, 62]) it s ∧ partSize s.output = 1 ∧ s.out = codes "a" := by
  have h : (iterBegin 40 true (oneScanner (.utf16 true) .utf8 none 0 [0, 60, 0, 97, 0, 62])).1 =
        .ok { element := { type := .OpenTag, content := .item, size := 1 }, input := true } ∧
      (iterBegin 40 true (oneScanner (.utf16 true) .utf8 none 0 [0, 60, 0, 97, 0, 62])).2.out = codes "a" ∧
      (iterBegin 40 true (oneScanner (.utf16 true) .utf8 none 0 [0, 60, 0, 97, 0, 62])).2.output = .utf8 := by decide +kernel
  obtain ⟨h1, h2, h3⟩ := h
  rcases hr : iterBegin 40 true (oneScanner (.utf16 true) .utf8 none 0 [0, 60, 0, 97, 0, 62]) with ⟨x, s⟩
  rw [hr] at h1 h2 h3
  simp only at h1 h2 h3
  subst h1
  exact ⟨_, s, .begin_ hr, by rw [h3]; rfl, h2⟩

end TW
