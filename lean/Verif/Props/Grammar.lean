import Verif.Proofs.Documents

/-!
# Property C66: the items of documents
-/

namespace TW

open Spec Mach Scanner

variable {e output : Enc} {em : Option (List (Nat × UChar))} {addr : Nat}

/-- A document of the grammar, written in any encoding, is read as its items: with enough steps, as many calls as
the document has items, each with a mask that asks for all items, return the items one after the other, without error,
with the characters printed in the output encoding. -/
theorem C66_document (he : PageOk e) {d : Document} (hd : d.Ok e) {calls : List (Nat × Bool)}
    (hl : calls.length = d.items.length) (hm : ∀ x ∈ calls, ∀ t : ElementType, x.1.testBit t.toNat = true) :
    ∃ N, ∀ n, N ≤ n → ∃ s, session n false calls (oneScanner e output em addr (d.bytes e)) =
      (.ok (d.items.map fun i => { type := i.1, item := i.2.flatMap output.print, error := .Ok, pos := none }), s) := by
  have hb := strm_lt _ ((AllW.document he hd).bytes he)
  obtain ⟨os, h1, h2⟩ := document_gives (output := output) he hd _ 0 _ (Here.start d.spell) (Rdy.new (em := em) (addr := addr)) calls hl hm
  obtain ⟨N, h3⟩ := session_runs (S := oneSrc _ hb) (sp := false) oneSrc_total (fun h => nomatch h) h1
  refine ⟨N, fun n hn => ?_⟩
  obtain ⟨s, h4⟩ := h3 n hn _ (oneScanner_rel e output em addr (d.bytes e) hb)
  refine ⟨s, h4.trans ?_⟩
  congr 2
  have := congrArg (List.map fun x : ElementType × List Byte × Err => ({ type := x.1, item := x.2.1, error := x.2.2, pos := none } : Obs)) h2
  rw [List.map_map, List.map_map] at this
  exact this

/-- Lifts a text without references. -/
def lits (s : String) : List Glyph := (codes s).map Glyph.lit

/-- `<?xml version='1.0' x= "&#65;&lt;" ?>␤<!DOCTYPE a 'b' [ <x> ]>␤<!-- c --> u<a b='1' c=d >x&amp;y<![CDATA[<]]>z<?p?><e/></a >␤` -/
def grammarExample : Document where
  lead := [32]
  header := some ([], [⟨[32], lits "version", [], [], .dq, lits "1.0"⟩,
    ⟨[32], lits "x", [], [32], .sq, [⟨codes "&#65;", 65⟩, ⟨codes "&lt;", 60⟩]⟩], [32])
  body := [.text [.lit 10], .doctype [] (lits "DOCTYPE") [([32], .val ⟨.bare, lits "a"⟩), ([32], .val ⟨.sq, lits "b"⟩),
      ([32], .subset (codes " <x> "))] [], .text [.lit 10], .comment [] (codes " c "), .text (lits " u"),
    .open_ [] (lits "a") [⟨[32], lits "b", [], [], .sq, lits "1"⟩, ⟨[32], lits "c", [32], [], .bare, lits "d"⟩] [32] false,
    .text (lits "x" ++ [⟨codes "&amp;", 38⟩] ++ [.lit 0x20AC]), .cdata [] (codes "<"), .text (lits "z"), .pi [] (codes "p"),
    .open_ [] (lits "e") [] [] true, .close [] (lits "a") [32], .text [.lit 10]]

theorem lits_ok {s : String} {kind : Kind}
    (h : ∀ c ∈ codes s, c ≠ 0 ∧ c < 128 ∧ c ≠ 38 ∧ c ≠ 13 ∧ kind.ends c = false) (he : PageOk e) : TokenText e kind (lits s) := by
  intro g hg
  obtain ⟨c, hc, rfl⟩ := List.mem_map.1 hg
  have := h c hc
  exact .inl ⟨rfl, ascii_plain he (by simp only [Glyph.lit]; omega) this.2.1, this.2.2.1, this.2.2.2.1, fun _ => this.2.2.2.2⟩

theorem lits_gaps {cs : List UChar} (h : ∀ c ∈ cs, 1 ≤ c ∧ c ≤ 32 ∧ c ≠ 5) : Gaps cs := h

theorem grammarExample_ok (he : PageOk e) (heuro : Direct e 0x20AC) : grammarExample.Ok e := by
  refine ⟨lits_gaps (by decide), ?_, lits_gaps (by decide), ?_, lits_gaps (by decide)⟩
  · simp only [grammarExample, List.forall_mem_cons]
    refine ⟨?_, ?_, ?_, ?_, ?_, ?_, ?_, ?_, ?_, ?_, ?_, ?_, ?_, fun m hm => nomatch hm⟩
    · exact lits_ok (s := "\n") (by decide) he
    · refine ⟨lits_gaps (by decide), lits_ok (by decide) he, by decide, ?_, lits_gaps (by decide)⟩
      simp only [List.forall_mem_cons]
      refine ⟨⟨lits_gaps (by decide), by decide, lits_ok (by decide) he, fun _ => by decide⟩,
        ⟨lits_gaps (by decide), by decide, lits_ok (by decide) he, fun h => nomatch h⟩,
        ⟨lits_gaps (by decide), by decide, AllW.ascii he (by decide), by decide⟩, fun m hm => nomatch hm⟩
    · exact lits_ok (s := "\n") (by decide) he
    · exact ⟨lits_gaps (by decide), AllW.ascii he (by decide), by decide, by decide⟩
    · exact lits_ok (by decide) he
    · refine ⟨lits_gaps (by decide), lits_ok (by decide) he, by decide, ?_, lits_gaps (by decide)⟩
      simp only [List.forall_mem_cons]
      refine ⟨⟨lits_gaps (by decide), by decide, lits_ok (by decide) he, by decide, lits_gaps (by decide), lits_gaps (by decide),
          lits_ok (by decide) he, fun h => nomatch h⟩,
        ⟨lits_gaps (by decide), by decide, lits_ok (by decide) he, by decide, lits_gaps (by decide), lits_gaps (by decide),
          lits_ok (by decide) he, fun _ => by decide⟩, fun m hm => nomatch hm⟩
    · intro g hg
      rcases List.mem_append.1 hg with hg | hg
      · rcases List.mem_append.1 hg with hg | hg
        · exact lits_ok (s := "x") (by decide) he g hg
        · rw [List.mem_singleton.1 hg]
          exact .inr (.named "amp" 38 (by decide))
      · rw [List.mem_singleton.1 hg]
        exact .inl ⟨rfl, ⟨by decide, by decide, heuro⟩, by decide, by decide, fun h => by revert h; decide⟩
    · exact ⟨lits_gaps (by decide), AllW.ascii he (by decide), by decide, by decide⟩
    · exact lits_ok (by decide) he
    · exact ⟨lits_gaps (by decide), AllW.ascii he (by decide), by decide⟩
    · exact ⟨lits_gaps (by decide), lits_ok (by decide) he, by decide, fun m hm => (nomatch hm), lits_gaps (by decide)⟩
    · exact ⟨lits_gaps (by decide), lits_ok (by decide) he, lits_gaps (by decide)⟩
    · exact lits_ok (s := "\n") (by decide) he
  · simp only [List.forall_mem_cons]
    refine ⟨⟨lits_gaps (by decide), by decide, lits_ok (by decide) he, by decide, lits_gaps (by decide), lits_gaps (by decide),
        lits_ok (by decide) he, fun h => nomatch h⟩,
      ⟨lits_gaps (by decide), by decide, lits_ok (by decide) he, by decide, lits_gaps (by decide), lits_gaps (by decide), ?_,
        fun h => nomatch h⟩, fun m hm => nomatch hm⟩
    intro g hg
    simp only [List.mem_cons, List.not_mem_nil, or_false] at hg
    rcases hg with rfl | rfl
    · exact .inr (.dec (codes "65") 65 (by decide) (by decide) (by decide) (by decide))
    · exact .inr (.named "lt" 60 (by decide))

/-- The items of the example. -/
theorem grammarExample_items : grammarExample.items =
    [(.HeaderStart, codes "?xml"), (.HeaderAttribName, codes "version"), (.HeaderAttribValue, codes "1.0"),
      (.HeaderAttribName, codes "x"), (.HeaderAttribValue, codes "A<"), (.HeaderEnd, []), (.DocAttribValue, codes "DOCTYPE"),
      (.DocAttribValue, codes "a"), (.DocAttribValue, codes "b"), (.DocAttribEnd, []), (.Content, codes "u"),
      (.OpenTag, codes "a"), (.TagAttribName, codes "b"), (.TagAttribValue, codes "1"), (.TagAttribName, codes "c"),
      (.TagAttribValue, codes "d"), (.Content, codes "x&" ++ [0x20AC]), (.Content, codes "z"), (.OpenTag, codes "e"),
      (.CloseTagIm, []), (.CloseTag, codes "a"), (.Content, [10]), (.Exit, [])] := by
  decide +kernel

example : ∃ N, ∀ n, N ≤ n → ∃ s, session n false (List.replicate 23 (0xFFFFF, true))
      (oneScanner .utf8 (.utf16 true) none 0 (grammarExample.bytes .utf8)) =
    (.ok (grammarExample.items.map fun i =>
      { type := i.1, item := i.2.flatMap (Enc.utf16 true).print, error := .Ok, pos := none }), s) :=
  C66_document (e := .utf8) (fun p h => nomatch h) (grammarExample_ok (fun p h => nomatch h) (by simp [Direct])) (by rw [grammarExample_items]; rfl) (by
    intro x hx t
    rw [(List.mem_replicate.1 hx).2]
    cases t <;> decide)

/-- The same document in two encodings gives the same items. -/
theorem C66_encodings {e' : Enc} {d : Document} (he : PageOk e) (he' : PageOk e') (hd : d.Ok e) (hd' : d.Ok e')
    {calls : List (Nat × Bool)} (hl : calls.length = d.items.length)
    (hm : ∀ x ∈ calls, ∀ t : ElementType, x.1.testBit t.toNat = true) :
    ∃ n obs s s', session n false calls (oneScanner e output em addr (d.bytes e)) = (.ok obs, s) ∧
      session n false calls (oneScanner e' output em addr (d.bytes e')) = (.ok obs, s') := by
  obtain ⟨N, h⟩ := C66_document (output := output) (em := em) (addr := addr) he hd hl hm
  obtain ⟨N', h'⟩ := C66_document (output := output) (em := em) (addr := addr) he' hd' hl hm
  obtain ⟨s, h⟩ := h (max N N') (by omega)
  obtain ⟨s', h'⟩ := h' (max N N') (by omega)
  exact ⟨_, _, s, s', h, h'⟩

example : ∃ n obs s s', session n false (List.replicate 23 (0xFFFFF, true))
      (oneScanner .utf8 (.utf16 true) none 0 (grammarExample.bytes .utf8)) = (.ok obs, s) ∧
    session n false (List.replicate 23 (0xFFFFF, true))
      (oneScanner (.ucs2 false) (.utf16 true) none 0 (grammarExample.bytes (.ucs2 false))) = (.ok obs, s') :=
  C66_encodings (e := .utf8) (e' := .ucs2 false) (fun p h => nomatch h) (fun p h => nomatch h)
    (grammarExample_ok (fun p h => nomatch h) (by simp [Direct])) (grammarExample_ok (fun p h => nomatch h) (by simp [Direct]))
    (by rw [grammarExample_items]; rfl) (by
      intro x hx t
      rw [(List.mem_replicate.1 hx).2]
      cases t <;> decide)

end TW
