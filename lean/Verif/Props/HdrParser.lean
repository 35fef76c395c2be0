import Verif.Proofs.HdrParser
import Verif.Model.Charset

/-!
# Properties C20 to C23: the XML header parser
-/

namespace TW

open Spec HdrParser

/-- C20. Feeding the input in chunks, calling `parse` after each as long as more input is needed,
gives the same outcome (or exception), encoding, error and number of characters consumed as
feeding it in one piece. -/
theorem C20_chunks (parts : List (List Byte)) {n m : Nat} (hn : parts.flatten.length < n)
    (hm : parts.flatten.length < m) : obs (feed n parts new) = obs (feed m [parts.flatten] new) := by
  obtain ⟨x, y, -, h1, h2, -⟩ := feed_hrun parts new (by decide) rfl rfl hn
  obtain ⟨x', y', -, h1', h2', -⟩ := feed_hrun (n := m) [parts.flatten] new (by decide) rfl rfl (by simpa using hm)
  rw [List.flatten_singleton] at h1' h2'
  unfold obs
  rw [h1, h2, h1', h2']
  rfl

/-- `<?xml encoding='a'?` in three chunks. -/
example : obs (feed 30 [[60, 63], [120, 109, 108, 32, 101, 110, 99, 111, 100], [105, 110, 103, 61, 39, 97, 39, 63]] new) =
    (.ok .done, some [97], none, 18) := by decide +kernel

/-- The call of `parse` always returns or throws `IllegalXmlHeader`: it needs no more steps than
there are bytes, and it has no undefined behaviour (part of C22). Any sequence of `putInput` and
`parse` that goes on while more input is needed is considered. -/
theorem C22_no_undefined (parts : List (List Byte)) {n : Nat} (hn : parts.flatten.length < n) :
    (∃ o, (feed n parts new).1 = .ok o) ∨ (feed n parts new).1 = .stop (.throw .IllegalXmlHeader) := by
  obtain ⟨x, y, -, h1, h2, -⟩ := feed_hrun parts new (by decide) rfl rfl hn
  rw [h1]
  have := (hrun_facts parts.flatten new (by decide)).2.2.2.2.2
  cases h : (hrun new parts.flatten).1 with
  | ok o => exact .inl ⟨o, rfl⟩
  | stop e => rw [this e h]; exact .inr rfl

/-- C22. The exception is raised exactly if the bytes read contain four NUL bytes in a row, no matter
how the input is split in chunks. The bytes read are the first `idx` bytes of the input. -/
theorem C22_four_nulls (parts : List (List Byte)) {n : Nat} (hn : parts.flatten.length < n) :
    (feed n parts new).2.idx ≤ (feed n parts new).2.src.length ∧
    (feed n parts new).2.src <+: parts.flatten ∧
    ((feed n parts new).1 = .stop (.throw .IllegalXmlHeader) ↔
      FourNulls (parts.flatten.take (feed n parts new).2.idx)) := by
  obtain ⟨x, y, h0, h1, h2, h3⟩ := feed_hrun parts new (by decide) rfl rfl hn
  obtain ⟨k, g1, g2, g3⟩ := hrun_new_nulls parts.flatten
  have hs : (feed n parts new).2.src = x := by rw [h2]
  have hi : (feed n parts new).2.idx = k := by rw [h2]; exact g1
  refine ⟨by rw [hs]; exact h3, ?_, ?_⟩
  · rw [hs]; exact ⟨y, h0.symm⟩
  · rw [h1, hi, g3]

/-- A run of NUL bytes spread over chunks, and one that is behind the end of the header. -/
example : (feed 20 [[60, 0, 0], [0], [], [0, 63]] new).1 = .stop (.throw .IllegalXmlHeader) ∧
    (feed 20 [[60, 0, 0], [0, 97, 0, 0, 0, 0]] new).1 = .ok .done := by decide +kernel

/-- C21. For an XML declaration with any white space, any order of attributes and both types of
quote, in an encoding with zero bytes before or after each ASCII character, whatever follows it, and
for any chunks, the parser reports that it is done, no error, and the declared encoding. -/
theorem C21_encoding {ws0 ws1 ws2 : List Byte} {attrs : List DeclAttr} (h0 : Blank ws0) (h1 : Blank ws1)
    (h2 : Blank ws2) (hw : ws2 ≠ []) (ha : ∀ a ∈ attrs, a.Wf) {before after : Nat} (hp : before + after ≤ 3)
    (rest : List Byte) (parts : List (List Byte))
    (hparts : parts.flatten = (declText ws0 ws1 ws2 attrs).flatMap (padded before after) ++ rest) {n : Nat}
    (hn : parts.flatten.length < n) :
    (feed n parts new).1 = .ok .done ∧ (feed n parts new).2.getEncoding = declEncoding attrs ∧
      (feed n parts new).2.getLasterror = none := by
  obtain ⟨x, y, -, g1, g2, -⟩ := feed_hrun parts new (by decide) rfl rfl hn
  obtain ⟨aty, cc, hc⟩ := crun_decl h0 h1 h2 hw ha
  have hnz : ∀ b ∈ declText ws0 ws1 ws2 attrs, b ≠ 0 := by
    have hB : ∀ {w : List Byte}, Blank w → ∀ b ∈ w, b ≠ 0 := fun hw b hb => by have := hw b hb; omega
    intro b hb
    simp only [declText, List.mem_append, List.mem_flatMap, List.mem_cons, List.not_mem_nil, or_false] at hb
    rcases hb with (((((hb | hb) | hb) | hb) | hb) | ⟨a, hm, hb⟩) | hb
    · exact hB h0 b hb
    · omega
    · exact hB h1 b hb
    · omega
    · exact hB h2 b hb
    · have hq : a.quote ≠ 0 := by unfold DeclAttr.quote; split <;> decide
      have hnm : ∀ c ∈ a.name.text, c ≠ 0 := by cases a.name <;> decide
      simp only [DeclAttr.text, List.mem_append, List.mem_cons, List.not_mem_nil, or_false] at hb
      rcases hb with ((((((hb | hb) | hb) | hb) | hb) | hb) | hb) | hb
      · exact hnm b hb
      · exact hB (ha a hm).ws1 b hb
      · omega
      · exact hB (ha a hm).ws2 b hb
      · rw [hb]; exact hq
      · exact ((ha a hm).value b hb).1
      · rw [hb]; exact hq
      · exact hB (ha a hm).ws3 b hb
    · omega
  obtain ⟨e1, e2⟩ := hrun_padded hp rest (declText ws0 ws1 ws2 attrs) (s := new) (t := new) (Nat.zero_le _) rfl hnz
    (by rw [hc]; simp)
  rw [← hparts, hc] at e1 e2
  refine ⟨g1.trans e1, ?_, ?_⟩
  · rw [g2, ← encAfters_spec attrs ha]
    have : (hrun new parts.flatten).2.encoding = encAfters attrs [] := congrArg HdrParser.encoding e2
    simp only [getEncoding]
    rw [this]
  · rw [g2]
    have : (hrun new parts.flatten).2.lasterror = "" := congrArg HdrParser.lasterror e2
    simp only [getLasterror]
    rw [this]
    rfl

/-- The zero bytes of the supported encodings. -/
def Spec.pad : Enc → Nat × Nat
  | .utf8 => (0, 0)
  | .isolatin _ => (0, 0)
  | .utf16 be => if be then (1, 0) else (0, 1)
  | .ucs2 be => if be then (1, 0) else (0, 1)
  | .ucs4 be => if be then (3, 0) else (0, 3)

/-- All supported encodings represent an ASCII character (but NUL) with zero bytes around it, so
that C21 applies to declarations printed in any of them. -/
theorem C21_carriers (e : Enc) (c : UChar) (h1 : 1 ≤ c) (h2 : c < 128) (hp : ∀ p, e = .isolatin p → p ∈ [1, 2, 3, 4, 5, 6, 7, 8, 9]) :
    e.print c = padded (pad e).1 (pad e).2 c ∧ (pad e).1 + (pad e).2 ≤ 3 := by
  have h : (∀ c : _root_.Fin 128, 1 ≤ c.val → Enc.print .utf8 c.val = padded 0 0 c.val) ∧
      (∀ be, ∀ c : _root_.Fin 128, 1 ≤ c.val → Enc.print (.utf16 be) c.val = padded (pad (.utf16 be)).1 (pad (.utf16 be)).2 c.val) ∧
      (∀ be, ∀ c : _root_.Fin 128, 1 ≤ c.val → Enc.print (.ucs2 be) c.val = padded (pad (.ucs2 be)).1 (pad (.ucs2 be)).2 c.val) ∧
      (∀ be, ∀ c : _root_.Fin 128, 1 ≤ c.val → Enc.print (.ucs4 be) c.val = padded (pad (.ucs4 be)).1 (pad (.ucs4 be)).2 c.val) ∧
      (∀ p ∈ [1, 2, 3, 4, 5, 6, 7, 8, 9], ∀ c : _root_.Fin 128, 1 ≤ c.val → Enc.print (.isolatin p) c.val = padded 0 0 c.val) := by
    decide +kernel
  obtain ⟨ha, hb, hc, hd, he⟩ := h
  cases e with
  | utf8 => exact ⟨ha ⟨c, h2⟩ h1, by decide⟩
  | utf16 be => exact ⟨hb be ⟨c, h2⟩ h1, by cases be <;> decide⟩
  | ucs2 be => exact ⟨hc be ⟨c, h2⟩ h1, by cases be <;> decide⟩
  | ucs4 be => exact ⟨hd be ⟨c, h2⟩ h1, by cases be <;> decide⟩
  | isolatin p => exact ⟨he p (hp p rfl) ⟨c, h2⟩ h1, by simp [pad]⟩

/-- The declaration `<?xml version="1.0" encoding='x'?` meets the conditions of C21. -/
example : let attrs : List DeclAttr := [{ name := .version, value := [49, 46, 48], ws3 := [32] },
      { name := .encoding, double := false, value := [120] }]
    (∀ a ∈ attrs, a.Wf) ∧ declEncoding attrs = some [120] ∧ declText [] [] [32] attrs =
      [60, 63, 120, 109, 108, 32, 118, 101, 114, 115, 105, 111, 110, 61, 34, 49, 46, 48, 34, 32, 101, 110, 99, 111, 100,
       105, 110, 103, 61, 39, 120, 39, 63] := by
  refine ⟨?_, by decide, by decide⟩
  intro a ha
  simp only [List.mem_cons, List.not_mem_nil, or_false] at ha
  rcases ha with rfl | rfl
  · exact ⟨by unfold Blank; decide +kernel, by unfold Blank; decide +kernel, by unfold Blank; decide +kernel,
      by decide +kernel, by simp⟩
  · exact ⟨by unfold Blank; decide +kernel, by unfold Blank; decide +kernel, by unfold Blank; decide +kernel,
      by decide +kernel, by simp⟩

/-- Property C58 (`charsConsumed` is the number of ASCII characters consumed) does not hold: blanks are
characters, but they are not counted. Here `<?xml ?` has been read, which has 7 characters. -/
theorem C58_count_false : (feed 30 [[60, 63, 120, 109, 108, 32, 63]] new).2.idx = 7 ∧
    (feed 30 [[60, 63, 120, 109, 108, 32, 63]] new).2.charsConsumed = 6 := by decide +kernel

/-- The part of C58 that holds: the number is the number of bytes read that are neither white space nor
NUL, for every input and all chunks. -/
theorem C58_count_partial (parts : List (List Byte)) {n : Nat} (hn : parts.flatten.length < n) :
    (feed n parts new).2.charsConsumed =
      ((parts.flatten.take (feed n parts new).2.idx).filter (32 < ·)).length := by
  obtain ⟨x, y, -, h1, h2, -⟩ := feed_hrun parts new (by decide) rfl rfl hn
  obtain ⟨k, g1, g2⟩ := hrun_count parts.flatten new
  rw [h2]
  simp only
  rw [g1, g2]
  show 0 + inked (parts.flatten.take k) = ((parts.flatten.take (0 + k)).filter (32 < ·)).length
  rw [Nat.zero_add, Nat.zero_add]
  rfl

example : (feed 30 [[60, 63, 120, 109], [108, 32, 63, 62, 62]] new).2.charsConsumed = 6 := by decide +kernel

/-- Property C59 (a byte order mark in front of the declaration is skipped) does not hold: every input
that starts with the byte order mark of UTF-8 or UTF-16 is rejected. -/
theorem C59_bom_false (rest : List Byte) (parts : List (List Byte)) {n : Nat} (hn : parts.flatten.length < n)
    (h : parts.flatten = 0xEF :: 0xBB :: 0xBF :: rest ∨ parts.flatten = 0xFF :: 0xFE :: rest ∨
      parts.flatten = 0xFE :: 0xFF :: rest) : (feed n parts new).1 = .ok .failed := by
  obtain ⟨x, y, -, h1, -⟩ := feed_hrun parts new (by decide) rfl rfl hn
  rw [h1]
  rcases h with h | h | h <;> rw [h] <;> rfl

example : (feed 30 [[0xEF, 0xBB], [0xBF, 60, 63, 120, 109, 108, 63]] new).1 = .ok .failed := by decide +kernel

/-- Property C23 (copies of a header parser behave like the original) does not hold: the encoding and
the error are not copied. -/
theorem C23_copy_false :
    (feed 30 [[60, 63, 120, 109, 108, 32, 101, 110, 99, 111, 100, 105, 110, 103, 61, 39, 97, 39, 63]] new).2.copy.getEncoding
      ≠ (feed 30 [[60, 63, 120, 109, 108, 32, 101, 110, 99, 111, 100, 105, 110, 103, 61, 39, 97, 39, 63]] new).2.getEncoding ∧
    (feed 30 [[97]] new).2.copy.getLasterror ≠ (feed 30 [[97]] new).2.getLasterror := by decide +kernel

/-- The part of C23 that holds: in every state a copy returns the same as the original from all
further calls of `putInput`, `parse` and `charsConsumed`, also if they throw. Missing: the encoding and the error found before the copy was made. -/
theorem C23_calls_partial (n : Nat) (s : HdrParser) (cs : List Call) :
    (calls n cs s.copy).1 = (calls n cs s).1 := by
  have hcall : ∀ c, Same (call n c) := by
    intro c
    cases c with
    | put c =>
      refine Same.bind (Same.modify fun s t h => ?_) fun _ => Same.pure _
      obtain ⟨h1, h2, h3, h4, h5, h6, h7⟩ := h.fields
      exact Twin.mk ⟨h1, h2, h3, h4, h5, h6, by simp only; rw [h7]⟩
    | parse => exact Same.bind (parse_same n) fun _ => Same.pure _
    | chars =>
      refine Same.get (fun s t h => ?_) fun s => Same.pure _
      rw [h.fields.2.2.2.1]
  have hcalls : ∀ cs, Same (calls n cs) := by
    intro cs
    induction cs with
    | nil => exact Same.pure _
    | cons c cs ih => exact Same.bind (hcall c) fun _ => Same.bind ih fun _ => Same.pure _
  exact (hcalls cs s.copy s rfl).1

/-- The other part of C23 that holds: before an encoding or an error was found a copy does not differ
from the original. -/
theorem C23_fresh_partial (s : HdrParser) (h1 : s.getEncoding = none) (h2 : s.getLasterror = none) : s.copy = s := by
  obtain ⟨st, aty, ix, cc, zc, it, sr, en, le⟩ := s
  have e1 : en = [] := by
    by_cases h : en = []
    · exact h
    · simp [getEncoding, h] at h1
  have e2 : le = "" := by
    by_cases h : le = ""
    · exact h
    · simp [getLasterror, h] at h2
  subst e1 e2
  rfl

example : (feed 30 [[60, 63, 120, 109, 108, 32, 101]] new).2.getEncoding = none ∧
    (feed 30 [[60, 63, 120, 109, 108, 32, 101]] new).2.getLasterror = none ∧
    (calls 30 [.parse, .put [110, 99, 111, 100, 105, 110, 103, 61, 39, 97, 39, 63], .parse, .chars]
      (feed 30 [[60, 63, 120, 109, 108, 32, 101]] new).2.copy).1 =
      .ok [.parsed false, .none, .parsed true, .num 18] := by decide +kernel

end TW
