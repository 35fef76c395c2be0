import Verif.Proofs.Positions

/-!
# Property C34: positions are monotone

The scanner has been used for any calls, `s` is the scanner between two calls. Positions are kept in 64 bits, so
the document has to be a little shorter than that.
-/

namespace TW

open Spec Mach Scanner

variable {e output : Enc} {em : Option (List (Nat × UChar))} {addr : Nat} {doc : List Byte}
  {s s' : Scanner (TextScanner SrcIt)} {n mask : Nat} {r : ElementType}

theorem positions (hb : ∀ b ∈ doc, b < 256) (hl : doc.length + 16 ≤ 2 ^ 64)
    (h : Reached (oneScanner e output em addr doc) s) (hn : nextItem n mask s = (.ok r, s')) :
    ∃ (A B : Cfg) (m : Nat), Fin e (strm doc) mask m A r B ∧ Inv mask A ∧ Idle A ∧ B.tokenpos ≤ B.src ∧
      s.src.getPosition = A.src ∧ s'.src.getPosition = B.src ∧ s'.tokenpos = B.tokenpos := by
  obtain ⟨A, h1, h2⟩ := reached_rel (strm_lt doc hb) h
  obtain ⟨m, B, h3, h4⟩ := nextItem_ok (h1.rel mask) hn
  have hA := reach_near (strm_ends doc) (.new ..) (.inl (Nat.zero_lt_succ _)) h2
  have hB := fin_near (strm_ends doc) (hA.1.inv mask) hA.2 h3
  have ht := fin_tokle h3 (reach_tokle (Nat.le_refl _) h2)
  have e1 : A.src < doc.length + 16 := by rcases hA.2 with h | h <;> omega
  have e2 : B.src < doc.length + 16 := by rcases hB with h | h <;> omega
  refine ⟨A, B, m, h3, hA.1.inv mask, ?_, ht, ?_, ?_, ?_⟩
  · cases h2 with
    | refl => exact Idle.new _ _ _
    | call _ h => exact h.idle.clr _
  · rw [h1.position oneSrc_wrap, Nat.mod_eq_of_lt (by omega)]
  · rw [h4.position oneSrc_wrap, Nat.mod_eq_of_lt (by omega)]
  · rw [h4.tokenpos oneSrc_wrap, Nat.mod_eq_of_lt (by omega)]

/-- The position never decreases. -/
theorem C34_position (hb : ∀ b ∈ doc, b < 256) (hl : doc.length + 16 ≤ 2 ^ 64)
    (h : Reached (oneScanner e output em addr doc) s) (hn : nextItem n mask s = (.ok r, s')) :
    s.src.getPosition ≤ s'.src.getPosition := by
  obtain ⟨A, B, m, ⟨C, h1, h2⟩, -, -, -, e1, e2, -⟩ := positions hb hl h hn
  rw [e1, e2]
  exact Nat.le_trans (steps_mono h1) (step_shape h2).mono

/-- The position of the token is at most the position after the call. -/
theorem C34_token_end (hb : ∀ b ∈ doc, b < 256) (hl : doc.length + 16 ≤ 2 ^ 64)
    (h : Reached (oneScanner e output em addr doc) s) (hn : nextItem n mask s = (.ok r, s')) :
    s'.tokenpos ≤ s'.src.getPosition := by
  obtain ⟨A, B, m, -, -, -, h1, -, e2, e3⟩ := positions hb hl h hn
  rw [e2, e3]
  exact h1

/-- The position of the token is not before the position where the call started. Missing: errors, the start of the
header and items that are suppressed by the mask, for these it is false. -/
theorem C34_token_start_partial (hb : ∀ b ∈ doc, b < 256) (hl : doc.length + 16 ≤ 2 ^ 64)
    (h : Reached (oneScanner e output em addr doc) s) (hn : nextItem n mask s = (.ok r, s'))
    (hm : mask.testBit r.toNat = true ∨ r ∈ [.HeaderEnd, .CloseTagIm, .DocAttribEnd, .Exit])
    (h1 : r ≠ .ErrorOccurred) (h2 : r ≠ .HeaderStart) (h3 : r ≠ .None) :
    s.src.getPosition ≤ s'.tokenpos := by
  obtain ⟨A, B, m, g1, g2, g3, -, e1, -, e3⟩ := positions hb hl h hn
  rw [e1, e3]
  refine fin_tokenpos g2 g3 g1 ?_
  rcases kinds_types r with h | h | h | h | h
  · exact absurd h h3
  · exact absurd h h1
  · exact absurd h h2
  · rcases hm with hm | hm
    · exact .inl ⟨h, hm⟩
    · exact .inr hm
  · exact .inr h

/-- `<a>b</a>` -/
def positionsExample : List Byte := codes "<a>b</a>"

/-- The position before and after a call, and the position of the token. -/
def positionsOf (before : List (Nat × Bool)) (mask : Nat) (doc : List Byte) : Option (ElementType × Nat × Nat × Nat) :=
  match session 40 true before (oneScanner .utf8 .utf8 none 0 doc) with
  | (.ok _, s) => match nextItem 40 mask s with
    | (.ok r, s') => some (r, s.src.getPosition, s'.tokenpos, s'.src.getPosition)
    | _ => none
  | _ => none

example : positionsOf [] 0xFFFF positionsExample = some (.OpenTag, 0, 1, 3) := by decide +kernel
example : positionsOf [(0xFFFF, true)] 0xFFFF positionsExample = some (.Content, 3, 3, 5) := by decide +kernel
example : positionsOf [(0xFFFF, true), (0xFFFF, true)] 0xFFFF positionsExample = some (.CloseTag, 5, 6, 8) := by
  decide +kernel
example : positionsOf [(0xFFFF, true), (0xFFFF, true), (0xFFFF, true)] 0xFFFF positionsExample =
    some (.Exit, 8, 9, 9) := by decide +kernel

/-- A suppressed item has the position of an item before. -/
theorem C34_suppressed_false : positionsOf [(0xFFFF, true)] 0 positionsExample = some (.Content, 3, 1, 5) := by
  decide +kernel

/-- So has the start of the header `<?xm ` that is returned after an error. -/
theorem C34_header_false :
    positionsOf [(0xFFFF, true)] 0xFFFF (codes "<?xm a='b'?>") = some (.HeaderStart, 4, 0, 5) := by
  decide +kernel

end TW
