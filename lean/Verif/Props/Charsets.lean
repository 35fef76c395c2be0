import Verif.Proofs.CharsetLemmas
import Verif.Proofs.Utf8Shortest

/-!
# Properties of the character set encodings (C01-C06, C08, C09, C12)

The scanner is used through its interface: `TextScanner.calls` performs a list of
calls and returns their results. The source is a `CStringIterator` on a byte string.
-/

namespace TW

open Spec

/-- A text scanner on a byte string. -/
def scanOf (e : Enc) (src : List Byte) : TextScanner CStr := TextScanner.mk' e (CStr.mk' src)

/-- C01. A code up to 0x7FFFFFFF printed as UTF-8 is read back, and `skip()` moves
behind exactly the printed bytes, whatever follows. -/
theorem C01_utf8_roundtrip (c : Nat) (hc : c ≤ 0x7FFFFFFF) (rest : List Byte)
    (hb : ∀ b ∈ rest, b < 256) (hl : (Enc.print .utf8 c ++ rest).length < 2 ^ 32) :
    ∃ t, TextScanner.calls [.chr, .skip, .pos] (scanOf .utf8 (Enc.print .utf8 c ++ rest))
      = (.ok [.num c, .none, .num (Enc.print .utf8 c).length], t) := by
  have he : ∀ p, Enc.utf8 = .isolatin p → 1 ≤ p ∧ p ≤ 9 := by intro p h; cases h
  have hd : Direct .utf8 c := hc
  have hall : ∀ b ∈ Enc.print .utf8 c ++ rest, b < 256 := by
    intro b hb'
    rcases List.mem_append.1 hb' with h | h
    · exact print_lt _ he c (by omega) hd b h
    · exact hb b h
  have hat := At_cyc (pre := []) (bs := Enc.print .utf8 c) (post := rest) hl
  obtain ⟨h1, h2⟩ := direct_dec .utf8 he c (by omega) hd _ _ hat
  exact scan_first _ _ hall _ _ h1 h2

example : ∃ t, TextScanner.calls [.chr, .skip, .pos]
    (scanOf .utf8 (Enc.print .utf8 0x20AC ++ [65, 0x80, 255]))
      = (.ok [.num 0x20AC, .none, .num 3], t) :=
  C01_utf8_roundtrip 0x20AC (by decide) [65, 0x80, 255] (by decide) (by decide)

/-- C02. A code up to 0x10FFFF that is no high surrogate is printed in UTF-16 such
that it is read back and exactly the printed bytes are consumed. Every other 32 bit
code is printed as the UTF-16 encoding of its hexadecimal character reference. -/
theorem C02_utf16_roundtrip (be : Bool) (c : Nat) (h32 : c < 2 ^ 32) :
    (c ≤ 0x10FFFF ∧ ¬ (0xD800 ≤ c ∧ c ≤ 0xDBFF) →
      ∀ rest : List Byte, (∀ b ∈ rest, b < 256) →
        (Enc.print (.utf16 be) c ++ rest).length < 2 ^ 32 →
        ∃ t, TextScanner.calls [.chr, .skip, .pos]
          (scanOf (.utf16 be) (Enc.print (.utf16 be) c ++ rest))
          = (.ok [.num c, .none, .num (Enc.print (.utf16 be) c).length], t)) ∧
    (¬ (c ≤ 0x10FFFF ∧ ¬ (0xD800 ≤ c ∧ c ≤ 0xDBFF)) →
      ∃ txt, IsEntity txt c ∧ Enc.print (.utf16 be) c = wide be txt) := by
  constructor
  · intro hc rest hb hl
    have he : ∀ p, Enc.utf16 be = .isolatin p → 1 ≤ p ∧ p ≤ 9 := by intro p h; cases h
    have hd : Direct (.utf16 be) c := ⟨hc.1, fun h => hc.2 ⟨h.1, by omega⟩⟩
    have hall : ∀ b ∈ Enc.print (.utf16 be) c ++ rest, b < 256 := by
      intro b hb'
      rcases List.mem_append.1 hb' with h | h
      · exact print_lt _ he c (by omega) hd b h
      · exact hb b h
    have hat := At_cyc (pre := []) (bs := Enc.print (.utf16 be) c) (post := rest) hl
    obtain ⟨h1, h2⟩ := direct_dec _ he c (by omega) hd _ _ hat
    exact scan_first _ _ hall _ _ h1 h2
  · intro hc
    refine ⟨entityText c, entityText_isEntity c (by omega) h32, ?_⟩
    have hp : Enc.print (.utf16 be) c = (encodeStr c).flatMap (Enc.unit2 be) := by
      simp only [Enc.print, Enc.utf16Print]
      by_cases h1 : c ≤ 0xFFFF
      · rw [if_pos h1, if_pos (by omega)]
      · rw [if_neg h1, if_neg (by omega)]
    rw [hp, encodeStr_eq c h32]
    exact wide_entity be c

example : ∃ t, TextScanner.calls [.chr, .skip, .pos]
    (scanOf (.utf16 true) (Enc.print (.utf16 true) 0x1F600 ++ [0xD8]))
      = (.ok [.num 0x1F600, .none, .num 4], t) :=
  (C02_utf16_roundtrip true 0x1F600 (by decide)).1 (by decide) [0xD8] (by decide) (by decide)

example : ∃ txt, IsEntity txt 0xD800 ∧ Enc.print (.utf16 false) 0xD800 = wide false txt :=
  (C02_utf16_roundtrip false 0xD800 (by decide)).2 (by decide)

/-- C03, UCS-4: every 32 bit code is read back. -/
theorem C03_ucs4_roundtrip (be : Bool) (c : Nat) (h32 : c < 2 ^ 32) (rest : List Byte)
    (hb : ∀ b ∈ rest, b < 256) (hl : (Enc.print (.ucs4 be) c ++ rest).length < 2 ^ 32) :
    ∃ t, TextScanner.calls [.chr, .skip, .pos]
      (scanOf (.ucs4 be) (Enc.print (.ucs4 be) c ++ rest)) = (.ok [.num c, .none, .num 4], t) := by
  have he : ∀ p, Enc.ucs4 be = .isolatin p → 1 ≤ p ∧ p ≤ 9 := by intro p h; cases h
  have hd : Direct (.ucs4 be) c := h32
  have hall : ∀ b ∈ Enc.print (.ucs4 be) c ++ rest, b < 256 := by
    intro b hb'
    rcases List.mem_append.1 hb' with h | h
    · exact print_lt _ he c (by omega) hd b h
    · exact hb b h
  have hat := At_cyc (pre := []) (bs := Enc.print (.ucs4 be) c) (post := rest) hl
  obtain ⟨h1, h2⟩ := direct_dec _ he c (by omega) hd _ _ hat
  exact scan_first _ _ hall _ _ rfl h2

example : ∃ t, TextScanner.calls [.chr, .skip, .pos]
    (scanOf (.ucs4 false) (Enc.print (.ucs4 false) 0xFFFFFFFF ++ [1]))
      = (.ok [.num 0xFFFFFFFF, .none, .num 4], t) :=
  C03_ucs4_roundtrip false 0xFFFFFFFF (by decide) [1] (by decide) (by decide)

/-- C03, UCS-2: codes up to 0xFFFF are read back, the others are printed as character
reference. -/
theorem C03_ucs2_roundtrip (be : Bool) (c : Nat) (h32 : c < 2 ^ 32) :
    (c ≤ 0xFFFF → ∀ rest : List Byte, (∀ b ∈ rest, b < 256) →
        (Enc.print (.ucs2 be) c ++ rest).length < 2 ^ 32 →
        ∃ t, TextScanner.calls [.chr, .skip, .pos]
          (scanOf (.ucs2 be) (Enc.print (.ucs2 be) c ++ rest))
          = (.ok [.num c, .none, .num 2], t)) ∧
    (0xFFFF < c → ∃ txt, IsEntity txt c ∧ Enc.print (.ucs2 be) c = wide be txt) := by
  constructor
  · intro hc rest hb hl
    have he : ∀ p, Enc.ucs2 be = .isolatin p → 1 ≤ p ∧ p ≤ 9 := by intro p h; cases h
    have hall : ∀ b ∈ Enc.print (.ucs2 be) c ++ rest, b < 256 := by
      intro b hb'
      rcases List.mem_append.1 hb' with h | h
      · exact print_lt _ he c (by omega) hc b h
      · exact hb b h
    have hat := At_cyc (pre := []) (bs := Enc.print (.ucs2 be) c) (post := rest) hl
    obtain ⟨h1, h2⟩ := direct_dec _ he c (by omega) hc _ _ hat
    exact scan_first _ _ hall _ _ rfl h2
  · intro hc
    refine ⟨entityText c, entityText_isEntity c (by omega) h32, ?_⟩
    simp only [Enc.print, Enc.ucs2Print, if_pos hc]
    rw [encodeStr_eq c h32]
    exact wide_entity be c

example : ∃ t, TextScanner.calls [.chr, .skip, .pos]
    (scanOf (.ucs2 true) (Enc.print (.ucs2 true) 0xD801 ++ []))
      = (.ok [.num 0xD801, .none, .num 2], t) :=
  (C03_ucs2_roundtrip true 0xD801 (by decide)).1 (by decide) [] (by decide) (by decide)

/-- C04. Printing a nonzero code in an ISO-Latin code page gives either one byte that
is read back as this code, or the hexadecimal character reference of the code. -/
theorem C04_isolatin_sound (p : Nat) (hp : 1 ≤ p ∧ p ≤ 9) (c : Nat) (h0 : 0 < c)
    (h32 : c < 2 ^ 32) :
    (∃ b, Enc.print (.isolatin p) c = [b] ∧ b < 256 ∧ ∀ rest : List Byte, (∀ b ∈ rest, b < 256) →
        rest.length + 1 < 2 ^ 32 →
        ∃ t, TextScanner.calls [.chr, .skip, .pos] (scanOf (.isolatin p) (b :: rest))
          = (.ok [.num c, .none, .num 1], t)) ∨
    IsEntity (Enc.print (.isolatin p) c) c := by
  by_cases hi : invcode p c = 0
  · right
    simp only [Enc.print, Enc.isolatinPrint, if_pos hi]
    rw [encodeStr_eq c h32]
    exact entityText_isEntity c h0 h32
  · left
    have hpr : Enc.print (.isolatin p) c = [invcode p c] := by
      simp only [Enc.print, Enc.isolatinPrint, if_neg hi]
    have he : ∀ q, Enc.isolatin p = .isolatin q → 1 ≤ q ∧ q ≤ 9 := by
      intro q h; cases h; exact hp
    have hd : Direct (.isolatin p) c := by
      simp only [Direct, Enc.isolatinPrint, if_neg hi, List.length_singleton]
    have hlt := print_lt _ he c h32 hd (invcode p c) (by rw [hpr]; simp)
    refine ⟨_, hpr, hlt, ?_⟩
    intro rest hb hl
    have hat := At_cyc (pre := []) (bs := Enc.print (.isolatin p) c) (post := rest)
      (by rw [hpr]; simp; omega)
    obtain ⟨h1, h2⟩ := direct_dec _ he c h32 hd _ _ hat
    rw [hpr] at h1 h2
    refine scan_first _ _ ?_ _ _ h1 h2
    intro b hb'
    rcases List.mem_cons.1 hb' with h | h
    · rw [h]; exact hlt
    · exact hb b h

example : Enc.print (.isolatin 5) 0xE4 = [0xE4] ∧ IsEntity (Enc.print (.isolatin 5) 0xD0) 0xD0 := by
  refine ⟨by decide +kernel, ?_⟩
  rcases C04_isolatin_sound 5 (by decide) 0xD0 (by decide) (by decide) with ⟨b, h, -⟩ | h
  · have : Enc.print (.isolatin 5) 0xD0 = [38, 35, 120, 100, 48, 59] := by decide +kernel
    rw [this] at h; cases h
  · exact h

/-- C05 does not hold: U+0104 is a character of ISO 8859-2 (byte 0xA1) but is printed
as a character reference. -/
theorem C05_isolatin_repertoire_false :
    ¬ ∀ p, 1 ≤ p ∧ p ≤ 9 → ∀ b, b < 256 → (Enc.print (.isolatin p) (ucharcode p b)).length = 1 := by
  intro h
  have := h 2 (by decide) 0xA1 (by decide)
  exact absurd this (by decide +kernel)

/-- The tables for C05 are right: the map of a page has an entry for each character of the page with a code from 256 on,
with its byte, and no other entries, and one for a code. It is the guard in `invcode` that lets no search reach the map. -/
theorem C05_tables (p : Nat) (hp : 1 ≤ p ∧ p ≤ 9) :
    (∀ c b, (c, b) ∈ ovlar (p - 1) ↔ 256 ≤ c ∧ b < 256 ∧ ucharcode p b = c) ∧ ((ovlar (p - 1)).map (·.1)).Nodup := by
  have h1 : ∀ p : Fin 10, 1 ≤ p.1 → ∀ x ∈ ovlar (p.1 - 1), 256 ≤ x.1 ∧ x.2 < 256 ∧ ucharcode p.1 x.2 = x.1 := by decide +kernel
  have h2 : ∀ p : Fin 10, 1 ≤ p.1 → ∀ b : Fin 256, 256 ≤ ucharcode p.1 b.1 → (ucharcode p.1 b.1, b.1) ∈ ovlar (p.1 - 1) := by decide +kernel
  have h3 : ∀ p : Fin 10, 1 ≤ p.1 → ((ovlar (p.1 - 1)).map (·.1)).Nodup := by decide +kernel
  refine ⟨fun c b => ⟨fun h => h1 ⟨p, by omega⟩ hp.1 (c, b) h, ?_⟩, h3 ⟨p, by omega⟩ hp.1⟩
  rintro ⟨k1, k2, rfl⟩
  exact h2 ⟨p, by omega⟩ hp.1 ⟨b, k2⟩ k1

example : (0x104, 0xA1) ∈ ovlar (2 - 1) ∧ ucharcode 2 0xA1 = 0x104 := by decide +kernel

/-- C05, what holds: a nonzero character of the repertoire of a page is printed as its
byte exactly if its code is below 256. What is missing for C05 are the characters
with a code from 256 on; none of them is printed as a byte. -/
theorem C05_isolatin_repertoire_partial (p : Nat) (hp : 1 ≤ p ∧ p ≤ 9) (b : Nat) (hb : b < 256)
    (h0 : ucharcode p b ≠ 0) :
    (Enc.print (.isolatin p) (ucharcode p b) = [b] ↔ ucharcode p b < 256) ∧
    (256 ≤ ucharcode p b →
      IsEntity (Enc.print (.isolatin p) (ucharcode p b)) (ucharcode p b)) := by
  have h16 : ucharcode p b < 2 ^ 32 := by
    have : ∀ p : Fin 10, ∀ b : Fin 256, ucharcode p.1 b.1 < 2 ^ 32 := by decide +kernel
    exact this ⟨p, by omega⟩ ⟨b, hb⟩
  have hent : 256 ≤ ucharcode p b →
      Enc.print (.isolatin p) (ucharcode p b) = entityText (ucharcode p b) := by
    intro h
    simp only [Enc.print, Enc.isolatinPrint]
    rw [if_pos (invcode_big p _ (by omega)), encodeStr_eq _ h16]
  constructor
  · constructor
    · intro h
      by_cases hlt : ucharcode p b < 256
      · exact hlt
      · rw [hent (by omega)] at h
        simp [entityText] at h
    · intro h
      have hi := isolatin_low p b hp hb h h0
      have hb0 : b ≠ 0 := by
        rintro rfl
        exact h0 (by simp [ucharcode])
      simp only [Enc.print, Enc.isolatinPrint, hi, if_neg hb0]
  · intro h
    rw [hent h]
    exact entityText_isEntity _ (by omega) h16

example : ucharcode 2 0xE1 = 0xE1 ∧ Enc.print (.isolatin 2) 0xE1 = [0xE1] := by
  have h : ucharcode 2 0xE1 = 0xE1 := by decide +kernel
  refine ⟨h, ?_⟩
  have := (C05_isolatin_repertoire_partial 2 (by decide) 0xE1 (by decide) (by rw [h]; decide)).1
  rw [h] at this
  exact this.2 (by decide)

/-- C06. Reading the concatenation of the printed characters of a text of directly
representable codes gives back the text and then the end of text. -/
theorem C06_text_roundtrip (e : Enc) (he : ∀ p, e = .isolatin p → 1 ≤ p ∧ p ≤ 9)
    (cs : List Nat) (hcs : ∀ c ∈ cs, c < 2 ^ 32 ∧ Direct e c)
    (hl : (cs.flatMap e.print).length + 4 < 2 ^ 32) :
    ∃ t, TextScanner.calls (readCalls cs.length) (scanOf e (cs.flatMap e.print))
      = (.ok (cs.flatMap (fun c => [TOut.num c, .none]) ++ [.num 0, .cls .EndOfText]), t) := by
  have hall : ∀ b ∈ cs.flatMap e.print, b < 256 := by
    intro b hb
    obtain ⟨c, hc, hbc⟩ := List.mem_flatMap.1 hb
    exact print_lt e he c (hcs c hc).1 (hcs c hc).2 b hbc
  obtain ⟨t, ht⟩ := calls_init (S := cstrSource _ hall) (fun _ => ⟨trivial, trivial⟩) e
    (CStr.mk' (cs.flatMap e.print)) trivial 0 (cstrSource_start _ hall) (readCalls cs.length)
    (readCalls_posOk _ _ _ _) (fun _ => readCalls_examined _ _)
  refine ⟨t, ?_⟩
  unfold scanOf
  rw [ht, readCalls_out e he _ cs 0 hcs]
  · have := At_cyc (pre := []) (bs := cs.flatMap e.print) (post := [])
      (by rw [List.nil_append, List.append_nil]; omega)
    simpa using this
  · intro j h1 h2
    exact cyc_end (by omega) (by omega)

example : ∃ t, TextScanner.calls (readCalls 3) (scanOf (.utf16 false)
    ([0x41, 0x1F600, 0x20AC].flatMap (Enc.print (.utf16 false))))
      = (.ok [.num 0x41, .none, .num 0x1F600, .none, .num 0x20AC, .none, .num 0,
          .cls .EndOfText], t) :=
  C06_text_roundtrip (.utf16 false) (by intro p h; cases h) [0x41, 0x1F600, 0x20AC]
    (by simp [Direct]) (by decide)

/-- C08, first part. Whatever bytes are scanned, every history of calls returns
without leaving the 8 byte character buffer (leaving it is `ub` in the model). -/
theorem C08_utf8_buffer_safe (src : List Byte) (hb : ∀ b ∈ src, b < 256) (cs : List TCall)
    (hp : TCall.pos ∉ cs) :
    ∃ outs t, TextScanner.calls cs (scanOf .utf8 src) = (.ok outs, t) ∧
      t.cb.buf.length = 8 ∧ t.cb.bufpos ≤ 8 := by
  obtain ⟨t, ht, l, hr⟩ := calls_run (S := cstrSource src hb) (e := .utf8)
    (fun _ => ⟨trivial, trivial⟩) cs false
    (scanOf .utf8 src) { k := 0, ld := .no } (TRel.init _ _ _ trivial (cstrSource_start _ _))
    (by simp) (posOk_of_not_mem _ _ cs hp _) (by rintro ⟨be, h⟩; cases h)
  obtain ⟨p, h1, h2, -, -⟩ := hr.cb
  refine ⟨_, t, ht, h2.len, ?_⟩
  have := ulen_le .utf8 (cyc src) (offs .utf8 (cyc src) 0 (List.count TCall.skip cs))
  rw [h2.pos]
  simp only at h1
  omega

example : ∃ outs t, TextScanner.calls [.chr, .copy .utf8, .skip, .chr]
    (scanOf .utf8 [255, 1, 2, 3]) = (.ok outs, t) ∧ t.cb.buf.length = 8 ∧ t.cb.bufpos ≤ 8 :=
  C08_utf8_buffer_safe [255, 1, 2, 3] (by decide) _ (by decide)

/-- C08, second part. A stray continuation byte is reported as 0x7FFFFFFF, is of no
character class, and is consumed alone. -/
theorem C08_utf8_stray (b : Byte) (hb : IsCont b) (rest : List Byte) (hr : ∀ b ∈ rest, b < 256)
    (hl : rest.length + 1 < 2 ^ 32) :
    ∃ t, TextScanner.calls [.control, .ascii, .chr, .skip, .pos] (scanOf .utf8 (b :: rest))
      = (.ok [.cls .Undef, .num 0, .num 0x7FFFFFFF, .none, .num 1], t) := by
  obtain ⟨h1, h2⟩ := hb
  have hall : ∀ x ∈ b :: rest, x < 256 := by
    intro x hx
    rcases List.mem_cons.1 hx with h | h
    · omega
    · exact hr x h
  have h0 : cyc (b :: rest) 0 = b := by
    have := At_cyc (pre := []) (bs := [b]) (post := rest) (by simp; omega)
    simpa [At] using this
  have hlen : ulen .utf8 (cyc (b :: rest)) 0 = 1 := by
    simp only [ulen, h0, utf8Len]; rw [if_pos h2]
  obtain ⟨t, ht⟩ := calls_init (S := cstrSource _ hall) (fun _ => ⟨trivial, trivial⟩) .utf8
    (CStr.mk' (b :: rest)) trivial 0 (cstrSource_start _ hall) [.control, .ascii, .chr, .skip, .pos]
    (by
      refine ⟨?_, trivial⟩
      have := ulen_le .utf8 (cyc (b :: rest)) (0 + ulen .utf8 (cyc (b :: rest)) 0)
      simp only [cstrSource]; omega)
    (by rintro ⟨be, h⟩; cases h)
  refine ⟨t, ?_⟩
  unfold scanOf
  rw [ht]
  have hasc : uasc .utf8 (cyc (b :: rest)) 0 = 255 := by
    simp only [uasc, h0]; rw [if_neg (by omega)]
  have hval : uval .utf8 (cyc (b :: rest)) 0 = 0x7FFFFFFF := by
    simp only [uval, utf8Val, h0]
    rw [if_neg (by omega), if_pos]
    simp only [utf8Len]; rw [if_pos h2]
  simp only [callsOut, callOut, hlen, hasc, hval, classOf]
  rfl

example : ∃ t, TextScanner.calls [.control, .ascii, .chr, .skip, .pos] (scanOf .utf8 [0x9C, 60, 97])
    = (.ok [.cls .Undef, .num 0, .num 0x7FFFFFFF, .none, .num 1], t) :=
  C08_utf8_stray 0x9C (by unfold IsCont; omega) [60, 97] (by decide) (by decide)

/-- Length announced by a lead byte. -/
def announced (b : Byte) : Nat :=
  if b < 0xE0 then 2 else if b < 0xF0 then 3 else if b < 0xF8 then 4
  else if b < 0xFC then 5 else if b < 0xFE then 6 else if b < 0xFF then 7 else 8

/-- C08, third part. A lead byte followed by at least one byte that is no continuation
byte, within the announced length, is reported as 0x7FFFFFFF and is of no character
class. The announced number of bytes is consumed. -/
theorem C08_utf8_bad_sequence (b : Byte) (h1 : 0xC0 ≤ b) (h2 : b < 256) (body rest : List Byte)
    (hn : body.length + 1 = announced b) (hbody : ∀ b ∈ body, b < 256)
    (hbad : ∃ x ∈ body, ¬ IsCont x)
    (hr : ∀ b ∈ rest, b < 256) (hl : rest.length + 8 < 2 ^ 32) :
    ∃ t, TextScanner.calls [.control, .ascii, .chr, .skip, .pos]
        (scanOf .utf8 (b :: body ++ rest))
      = (.ok [.cls .Undef, .num 0, .num 0x7FFFFFFF, .none, .num (announced b)], t) := by
  have hu : utf8Len b = announced b := by
    unfold utf8Len announced
    rw [if_neg (by omega)]
  have h8 := utf8Len_le b
  have hall : ∀ x ∈ b :: body ++ rest, x < 256 := by
    intro x hx
    simp only [List.cons_append, List.mem_cons, List.mem_append] at hx
    rcases hx with h | h | h
    · omega
    · exact hbody x h
    · exact hr x h
  have hat := At_cyc (pre := []) (bs := b :: body) (post := rest) (by simp; omega)
  simp only [List.nil_append, List.length_nil, At] at hat
  obtain ⟨h0, hat⟩ := hat
  generalize hsrc : b :: body ++ rest = src at *
  have hlen : ulen .utf8 (cyc src) 0 = announced b := by
    simp only [ulen, h0, hu]
  obtain ⟨t, ht⟩ := calls_init (S := cstrSource _ hall) (fun _ => ⟨trivial, trivial⟩) .utf8
    (CStr.mk' src) trivial 0 (cstrSource_start _ hall) [.control, .ascii, .chr, .skip, .pos]
    (by
      refine ⟨?_, trivial⟩
      have := ulen_le .utf8 (cyc src) (0 + ulen .utf8 (cyc src) 0)
      simp only [cstrSource]; omega)
    (by rintro ⟨be, h⟩; cases h)
  refine ⟨t, ?_⟩
  unfold scanOf
  rw [ht]
  have hasc : uasc .utf8 (cyc src) 0 = 255 := by
    simp only [uasc, h0]; rw [if_neg (by omega)]
  have hslice := At_slice hat
  have hval : uval .utf8 (cyc src) 0 = 0x7FFFFFFF := by
    simp only [uval, utf8Val, h0, hu]
    have : ¬ announced b = 1 := by unfold announced; split_ifs <;> omega
    rw [if_neg (by omega), if_neg this, show announced b - 1 = body.length by omega, hslice,
      contVal_bad body _ hbad]
    rfl
  simp only [callsOut, callOut, hlen, hasc, hval, classOf, Nat.zero_add]
  rfl

example : ∃ t, TextScanner.calls [.control, .ascii, .chr, .skip, .pos]
    (scanOf .utf8 (0xE2 :: [60, 0x80] ++ [97]))
    = (.ok [.cls .Undef, .num 0, .num 0x7FFFFFFF, .none, .num 3], t) :=
  C08_utf8_bad_sequence 0xE2 (by decide) (by decide) [60, 0x80] [97] (by decide) (by decide)
    ⟨60, by decide, by unfold IsCont; omega⟩ (by decide) (by decide)

/-- C09 does not hold: a high surrogate followed by the letter A is read as the
character U+2441. -/
theorem C09_utf16_malformed_false :
    ¬ ∀ (be : Bool) (u v : Nat), 0xD800 ≤ u → u < 0xDC00 → v < 2 ^ 16 →
      ¬ (0xDC00 ≤ v ∧ v < 0xE000) →
      ∃ t, TextScanner.calls [.chr] (scanOf (.utf16 be) (bytes16 be u ++ bytes16 be v))
        = (.ok [.num 0xFFFF], t) := by
  intro h
  obtain ⟨t, ht⟩ := h true 0xD800 0x41 (by omega) (by omega) (by omega) (by omega)
  have : (TextScanner.calls [.chr] (scanOf (.utf16 true)
      (bytes16 true 0xD800 ++ bytes16 true 0x41))).1 = .ok [.num 0x2441] := by decide +kernel
  rw [ht] at this
  simp at this

/-- C09, what holds: the pair is flagged if the second unit is above DFFF. Missing are
second units below DC00, which are combined to a character as if they were low
surrogates. -/
theorem C09_utf16_malformed_partial (be : Bool) (u v : Nat) (h1 : 0xD800 ≤ u) (h2 : u < 0xDC00)
    (h3 : v < 2 ^ 16) (rest : List Byte) (hr : ∀ b ∈ rest, b < 256) (hl : rest.length + 4 < 2 ^ 32) :
    ∃ t, TextScanner.calls [.chr, .skip, .pos]
      (scanOf (.utf16 be) (bytes16 be u ++ bytes16 be v ++ rest))
      = (.ok [.num (if 0xE000 ≤ v then 0xFFFF
          else 0x10000 + (u - 0xD800) * 0x400 + v - 0xDC00), .none, .num 4], t) := by
  have hall : ∀ x ∈ bytes16 be u ++ bytes16 be v ++ rest, x < 256 := by
    intro x hx
    simp only [List.mem_append] at hx
    rcases hx with (h | h) | h
    · cases be <;> simp [bytes16] at h <;> omega
    · cases be <;> simp [bytes16] at h <;> omega
    · exact hr x h
  have hat := At_cyc (pre := []) (bs := bytes16 be u ++ bytes16 be v) (post := rest)
    (by simp [bytes16_length]; omega)
  simp only [List.nil_append, List.length_nil] at hat
  obtain ⟨hu, hat⟩ := bytes16_dec be u _ 0 _ hat
  have hv := (bytes16_dec be v _ (0 + 2) [] (by rw [List.append_nil]; exact hat)).1
  have hlen : ulen (.utf16 be) (cyc (bytes16 be u ++ bytes16 be v ++ rest)) 0 = 4 := by
    simp only [ulen, hu]
    rw [if_pos ⟨h1, h2⟩]
  refine scan_first _ _ hall _ _ hlen ?_
  simp only [uval, hu, hv]
  rw [if_pos ⟨h1, h2⟩]
  split <;> omega

example : ∃ t, TextScanner.calls [.chr, .skip, .pos]
    (scanOf (.utf16 false) (bytes16 false 0xDBFF ++ bytes16 false 0xE000 ++ [7]))
      = (.ok [.num 0xFFFF, .none, .num 4], t) :=
  C09_utf16_malformed_partial false 0xDBFF 0xE000 (by decide) (by decide) (by decide) [7]
    (by decide) (by decide)

/-- C12. The bytes printed for a code up to 0x7FFFFFFF are a UTF-8 sequence for this
code, no UTF-8 sequence for it is shorter, and no other has the same length. -/
theorem C12_utf8_shortest (c : Nat) (hc : c ≤ 0x7FFFFFFF) :
    IsUtf8 (Enc.print .utf8 c) c ∧
    ∀ bs, IsUtf8 bs c → (Enc.print .utf8 c).length ≤ bs.length ∧
      (bs.length = (Enc.print .utf8 c).length → bs = Enc.print .utf8 c) := by
  simp only [Enc.print, utf8Print_eq c hc]
  exact ⟨rfc2279_isUtf8 c hc, fun bs h => rfc2279_shortest c bs h⟩

example : IsUtf8 [0xE0, 0x80, 0xAF] 0x2F ∧ Enc.print .utf8 0x2F = [0x2F] := by
  refine ⟨?_, by decide⟩
  simp [IsUtf8, IsCont]

end TW
