import Verif.Proofs.Usage

/-!
# Properties C50 and C55: no undefined behaviour in the scanner

Undefined behaviour in the model (`Stop.ub`) is a write or read outside of the 8 byte
character buffer of the text scanner, a write outside of the 16 byte entity buffer, and a
read behind the end of a string literal in `expectStr`. `Scanner.Used` has all objects a
program gets by calls of `nextItem`, `getError`, `setSource` and `putInput` in any order.
-/

namespace TW

open Mach Scanner

variable (e output : Enc) (em : Option (List (Nat × UChar))) (addr : Nat)

/-- For any bytes in any chunks (also bytes that are not a valid text in the character set)
`nextItem` has no undefined behaviour. At every point where it can be called or where it can
be left the entity buffer has 16 cells, at most 16 of them are in use, and the value of the
entity can take one more digit without leaving 64 bits (if the buffer is full the scanner
reads no further digit). -/
theorem C50_entity_buffer (it : SrcIt) {p : Option Nat} {s : Scanner (TextScanner SrcIt)}
    (h : Used (Scanner.mk' (TextScanner.mk' e it) output em addr) p s) :
    (∀ n mask, Callable mask p → (nextItem n mask s).1 ≠ .stop .ub) ∧
    s.tok.buf.length = 16 ∧ s.tok.pos ≤ 16 ∧
    (s.tok.pos < 16 → ∀ d, d < s.tok.base → s.tok.value * s.tok.base + d < 2 ^ 64) := by
  have hu := h.ok (usedOk_new e output em addr it)
  have hcore : ∃ mask, Core mask s.state s.tok := by
    obtain ⟨-, ⟨-, h⟩ | ⟨mask, -, h⟩⟩ := hu
    · exact ⟨0, h.core 0 _⟩
    · exact ⟨mask, h⟩
  refine ⟨?_, ?_⟩
  · intro n mask hc
    have := nextItem_sat (textScanner_safe srcIt_safe) n _ (hu.rest hc)
    generalize nextItem n mask s = x at this
    obtain ⟨x, s'⟩ := x
    cases x with
    | ok r => simp
    | stop er => intro h; cases h; exact this.1 rfl
  · obtain ⟨mask, h⟩ := hcore
    refine ⟨h.buf, h.pos, fun hp d hd => ?_⟩
    have h1 : s.tok.value + 1 ≤ 16 ^ s.tok.pos := h.val
    have h2 : s.tok.value * s.tok.base + d < (s.tok.value + 1) * s.tok.base := by
      rw [Nat.add_mul]; omega
    have h3 : (s.tok.value + 1) * s.tok.base ≤ 16 ^ s.tok.pos * 16 := Nat.mul_le_mul h1 h.base
    have h4 : 16 ^ (s.tok.pos + 1) ≤ 16 ^ 16 := Nat.pow_le_pow_right (by omega) hp
    rw [Nat.pow_succ] at h4
    have h5 : (16 : Nat) ^ 16 = 2 ^ 64 := by decide
    omega

/-- `<a>&#x12345678` and a broken UTF-8 sequence in the next chunk: the call is left within
the entity with 8 cells in use. -/
def safetyExample : Scanner (TextScanner SrcIt) :=
  Scanner.mk' (TextScanner.mk' .utf8
    (SrcIt.mk' [60, 97, 62, 38, 35, 120, 49, 50, 51, 52, 53, 54, 55, 56] true)) .utf8 none 0

example : ∃ s, Used safetyExample (some 0xFFFF) s ∧ s.tok.pos = 8 ∧ s.tok.value = 0x12345678 ∧
    (nextItem 50 0xFFFF (feed false [0xC3] false s)).1 = .ok .Content := by
  have h : (nextItem 50 0xFFFF safetyExample).1 = .ok .OpenTag ∧
      (nextItem 50 0xFFFF (nextItem 50 0xFFFF safetyExample).2).1 = .stop .eom ∧
      (nextItem 50 0xFFFF (nextItem 50 0xFFFF safetyExample).2).2.tok.pos = 8 ∧
      (nextItem 50 0xFFFF (nextItem 50 0xFFFF safetyExample).2).2.tok.value = 0x12345678 ∧
      (nextItem 50 0xFFFF (feed false [0xC3] false
        (nextItem 50 0xFFFF (nextItem 50 0xFFFF safetyExample).2).2)).1 = .ok .Content := by decide +kernel
  exact ⟨_, (Used.init.item' 50 _ (.inl rfl) h.1).left' 50 (.inl rfl) h.2.1, h.2.2⟩

/-- `<a>&abcdefghijk` -/
def maskExample : Scanner (TextScanner SrcIt) :=
  Scanner.mk' (TextScanner.mk' .utf8
    (SrcIt.mk' [60, 97, 62, 38, 97, 98, 99, 100, 101, 102, 103, 104, 105, 106, 107] true)) .utf8 none 0

/-- Property C55 (a call left by the end of a chunk may be continued with another mask) does
not hold: after `<a>&abcdefghijk` the call with all elements is left within an entity; if it
is continued without elements the token state is not reset, and when the scanner later
expects `CDATA` (the next chunk is `<![CDATA[`) it starts to compare at the position 11 of
the literal. -/
theorem C55_mask_change_false : ∃ s, Used maskExample (some 0xFFFF) s ∧
    (nextItem 50 0 (feed false [60, 33, 91, 67, 68, 65, 84, 65, 91] false s)).1 = .ok .Content ∧
    (nextItem 50 0 (nextItem 50 0 (feed false [60, 33, 91, 67, 68, 65, 84, 65, 91] false s)).2).1
      = .stop .ub := by
  have h : (nextItem 50 0xFFFF maskExample).1 = .ok .OpenTag ∧
      (nextItem 50 0xFFFF (nextItem 50 0xFFFF maskExample).2).1 = .stop .eom ∧
      (nextItem 50 0 (feed false [60, 33, 91, 67, 68, 65, 84, 65, 91] false
        (nextItem 50 0xFFFF (nextItem 50 0xFFFF maskExample).2).2)).1 = .ok .Content ∧
      (nextItem 50 0 (nextItem 50 0 (feed false [60, 33, 91, 67, 68, 65, 84, 65, 91] false
        (nextItem 50 0xFFFF (nextItem 50 0xFFFF maskExample).2).2)).2).1 = .stop .ub := by decide +kernel
  exact ⟨_, (Used.init.item' 50 _ (.inl rfl) h.1).left' 50 (.inl rfl) h.2.1, h.2.2⟩

/-- The part of C55 that holds: a call may have any mask unless another call is pending, and
a pending call may be continued with its mask. -/
theorem C55_same_mask_partial (it : SrcIt) {p : Option Nat} {s : Scanner (TextScanner SrcIt)}
    (h : Used (Scanner.mk' (TextScanner.mk' e it) output em addr) p s) (n mask : Nat)
    (hc : p = none ∨ p = some mask) : (nextItem n mask s).1 ≠ .stop .ub :=
  (C50_entity_buffer e output em addr it h).1 n mask hc

end TW
