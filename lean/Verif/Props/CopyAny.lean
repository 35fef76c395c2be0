import Verif.Proofs.CopyAny
import Verif.Props.RoundTrip

/-!
# Property C103: the copy of a document tells the same
-/

namespace TW

open Spec Mach Scanner

/-- C103: a document of the grammar in any spelling and encoding `e`, in which the end tags are named as their start tags, is read by a scanner with the output
encoding `new` and printed by the program `copyDocument` in the encoding `out`. No call is rejected, and a scanner with any output encoding reads in the
copy, without error, items that tell the same as those of the document: the same tags, attributes, header, document type, and texts in the elements. -/
theorem C103_copy {e new out output : Enc} {em em' : Option (List (Nat × UChar))} {addr addr' : Nat} (mem : Nat → Byte)
    (he : PageOk e) (hw : PageOk new) (ho : PageOk out) {d : Document} (hd : d.Ok e) {r : Read} (hi : d.items = r.items) (hr : r.Ok new out)
    {limit : Nat} (hn : 2 * nameNeed (copyDocument (d.items.map fun i => (i.1, i.2.flatMap new.print))) ≤ limit) (hl : limit < 2 ^ 63)
    {reads : List (Nat × Bool)} (hc : reads.length = d.items.length) (hm : ∀ x ∈ reads, ∀ i : ElementType, x.1.testBit i.toNat = true) :
    ∃ N is', core 0 [] is' = core 0 [] d.items ∧ ∀ n, N ≤ n → ∃ rs s p,
      session n false reads (oneScanner e new em addr (d.bytes e)) = (.ok rs, s) ∧
      Printer.calls limit (copyDocument (rs.map fun r => (r.type, r.item))) (Printer.new mem new out r.header.isNone) =
        (.ok (List.replicate (copyDocument (rs.map fun r => (r.type, r.item))).length true), p) ∧
      ∀ reads' : List (Nat × Bool), reads'.length = is'.length → (∀ x ∈ reads', ∀ i : ElementType, x.1.testBit i.toNat = true) →
        ∃ N', ∀ n', N' ≤ n' → ∃ s', session n' false reads' (oneScanner out output em' addr' p.buf) =
          (.ok (is'.map fun i => { type := i.1, item := i.2.flatMap output.print, error := .Ok, pos := none }), s') := by
  obtain ⟨N, h1⟩ := C66_document (output := new) (em := em) (addr := addr) he hd hc hm
  refine ⟨N, (r.tree new).items new, (read_core hw hr).trans (congrArg (core 0 []) hi.symm), fun n hN => ?_⟩
  obtain ⟨s, h1⟩ := h1 n hN
  have hcall : copyDocument (d.items.map fun i => (i.1, i.2.flatMap new.print)) = (r.tree new).calls := by
    rw [hi]
    exact copy_read r
  rw [hcall] at hn
  have ht := read_ok hw hr
  have hh : (r.tree new).header.isNone = r.header.isNone := by
    show (r.header.map _).isNone = _
    cases r.header <;> rfl
  obtain ⟨p, h2, h3⟩ := C38_lifo mem new out (r.tree new).header.isNone (r.tree new).calls limit (tree_strings ht) hn hl
  have hdo := tree_does ht
  unfold Does at hdo
  rw [hdo] at h2 h3
  refine ⟨_, s, p, h1, ?_, ?_⟩
  · rw [List.map_map]
    change Printer.calls limit (copyDocument (d.items.map fun i => (i.1, i.2.flatMap new.print))) _ =
      (.ok (List.replicate (copyDocument (d.items.map fun i => (i.1, i.2.flatMap new.print))).length true), p)
    rw [hcall, ← hh]
    exact h2
  · intro reads' hr' hm'
    obtain ⟨p', N', g1, g2⟩ := C32_roundtrip_partial (output := output) (em := em') (addr := addr') mem ho ht hn hl hr' hm'
    have : p' = p := by
      rw [h2] at g1
      exact (Prod.mk.inj g1).2.symm
    rw [this] at g2
    exact ⟨N', g2⟩

/-- `<?xml version='1.0' encoding= "x" ?>␤<!DOCTYPE a SYSTEM 's' [ <x> ]>␤<!-- c --> u<a b='1' c=d >x&amp;€<![CDATA[<]]>z<?p?><e/></a >␤` -/
def copiedExample : Document where
  lead := [32]
  header := some ([], [⟨[32], lits "version", [], [], .sq, lits "1.0"⟩, ⟨[32], lits "encoding", [], [32], .dq, lits "x"⟩], [32])
  body := .text [.lit 10] :: .doctype [] (lits "DOCTYPE") [([32], .val ⟨.bare, lits "a"⟩), ([32], .val ⟨.bare, lits "SYSTEM"⟩), ([32], .val ⟨.sq, lits "s"⟩),
      ([32], .subset (codes " <x> "))] [] :: grammarExample.body.drop 2

theorem copiedExample_ok (he : PageOk e) (heuro : Direct e 0x20AC) : copiedExample.Ok e := by
  refine ⟨lits_gaps (by decide), ?_, lits_gaps (by decide), ?_, lits_gaps (by decide)⟩
  · intro m hm
    rcases List.mem_cons.1 hm with rfl | hm
    · exact lits_ok (s := "\n") (by decide) he
    rcases List.mem_cons.1 hm with rfl | hm
    · refine ⟨lits_gaps (by decide), lits_ok (by decide) he, by decide, ?_, lits_gaps (by decide)⟩
      simp only [List.forall_mem_cons]
      exact ⟨⟨lits_gaps (by decide), by decide, lits_ok (by decide) he, fun _ => by decide⟩,
        ⟨lits_gaps (by decide), by decide, lits_ok (by decide) he, fun _ => by decide⟩,
        ⟨lits_gaps (by decide), by decide, lits_ok (by decide) he, fun h => nomatch h⟩,
        ⟨lits_gaps (by decide), by decide, AllW.ascii he (by decide), by decide⟩, fun m hm => nomatch hm⟩
    · exact (grammarExample_ok he heuro).2.1 m (List.mem_of_mem_drop hm)
  · simp only [List.forall_mem_cons]
    exact ⟨⟨lits_gaps (by decide), by decide, lits_ok (by decide) he, by decide, lits_gaps (by decide), lits_gaps (by decide),
        lits_ok (by decide) he, fun h => nomatch h⟩,
      ⟨lits_gaps (by decide), by decide, lits_ok (by decide) he, by decide, lits_gaps (by decide), lits_gaps (by decide), lits_ok (by decide) he,
        fun h => nomatch h⟩, fun m hm => nomatch hm⟩

/-- What is read of it. -/
def readExample : Read where
  header := some (codes "x", none)
  before := []
  doctype := some (codes "a", some (none, codes "s"))
  between := [codes "u"]
  name := codes "a"
  attrs := [(codes "b", codes "1"), (codes "c", codes "d")]
  kids := some (.text (codes "x&" ++ [0x20AC]) (.text (codes "z") (.empty (codes "e") [] .nil)))
  behind := [[10]]

theorem copiedExample_items : copiedExample.items = readExample.items := by decide +kernel

theorem readExample_ok : readExample.Ok .utf8 (.isolatin 1) := by
  have hp : ∀ {c : UChar}, Printable (.isolatin 1) c := fun h => nomatch h
  have hc : ∀ {cs : List UChar}, (∀ c ∈ cs, c ≠ 0 ∧ c < 2 ^ 32 ∧ c ≤ 0x7FFFFFFF) → (cs.flatMap Enc.utf8.print).length + 16 ≤ 2 ^ 32 →
      CharsOk .utf8 (.isolatin 1) cs := fun h1 h2 => ⟨fun c hc => ⟨h1 c hc, hp⟩, h2⟩
  have hw : ∀ {cs : List UChar}, CharsOk .utf8 (.isolatin 1) cs → cs ≠ [] → (∀ c ∈ cs, c ≠ 38 ∧ (c < 128 → Kind.word.ends c = false)) →
      WordOk .utf8 (.isolatin 1) cs := fun h1 h2 h3 => ⟨h1, h2, h3⟩
  refine ⟨?_, ?_, ?_⟩
  · intro h hh
    cases hh
    exact ⟨trivial, ⟨hc (by decide) (by decide +kernel), by decide⟩, nofun⟩
  · intro h hh
    cases hh
    refine ⟨trivial, hw (hc (by decide) (by decide +kernel)) (by decide) (by decide), ?_⟩
    intro i hi
    cases hi
    exact ⟨nofun, hc (by decide) (by decide +kernel), by decide⟩
  · refine ⟨hw (hc (by decide) (by decide +kernel)) (by decide) (by decide), ?_, ⟨⟨hc (by decide) (by decide +kernel), by decide⟩,
      ⟨hc (by decide) (by decide +kernel), by decide⟩, hw (hc (by decide) (by decide +kernel)) (by decide) (by decide), (by intro a ha; cases ha), trivial⟩, trivial⟩
    intro a ha
    have : a = (codes "b", codes "1") ∨ a = (codes "c", codes "d") := by simpa [readExample] using ha
    rcases this with rfl | rfl
    · exact ⟨hw (hc (by decide) (by decide +kernel)) (by decide) (by decide), hc (by decide) (by decide +kernel)⟩
    · exact ⟨hw (hc (by decide) (by decide +kernel)) (by decide) (by decide), hc (by decide) (by decide +kernel)⟩

/-- A document in UTF-16, read in UTF-8 and printed in ISO 8859-1, which has no euro sign. -/
example : ∃ N is', core 0 [] is' = core 0 [] copiedExample.items ∧ ∀ n, N ≤ n → ∃ rs s p,
      session n false (List.replicate 24 (0xFFFFF, true)) (oneScanner (.utf16 true) .utf8 none 0 (copiedExample.bytes (.utf16 true))) = (.ok rs, s) ∧
      Printer.calls 1000 (copyDocument (rs.map fun r => (r.type, r.item))) (Printer.new (fun _ => 0) .utf8 (.isolatin 1) false) =
        (.ok (List.replicate (copyDocument (rs.map fun r => (r.type, r.item))).length true), p) ∧
      ∀ reads' : List (Nat × Bool), reads'.length = is'.length → (∀ x ∈ reads', ∀ i : ElementType, x.1.testBit i.toNat = true) →
        ∃ N', ∀ n', N' ≤ n' → ∃ s', session n' false reads' (oneScanner (.isolatin 1) .utf8 none 0 p.buf) =
          (.ok (is'.map fun i => { type := i.1, item := i.2.flatMap Enc.utf8.print, error := .Ok, pos := none }), s') :=
  C103_copy (e := .utf16 true) (new := .utf8) (out := .isolatin 1) _ (fun p h => nomatch h) (fun p h => nomatch h) (fun p h => by cases h; decide)
    (copiedExample_ok (fun p h => nomatch h) (by simp [Direct])) copiedExample_items readExample_ok (by decide +kernel) (by decide) (by decide +kernel) (by
      intro x hx t
      rw [(List.mem_replicate.1 hx).2]
      cases t <;> decide)

/-- What is told: the text `u` before the root element is gone, the texts around the CDATA section are one. -/
example : core 0 [] copiedExample.items =
    [(.HeaderStart, codes "?xml"), (.HeaderAttribName, codes "version"), (.HeaderAttribValue, codes "1.0"),
      (.HeaderAttribName, codes "encoding"), (.HeaderAttribValue, codes "x"), (.HeaderEnd, []), (.DocAttribValue, codes "DOCTYPE"),
      (.DocAttribValue, codes "a"), (.DocAttribValue, codes "SYSTEM"), (.DocAttribValue, codes "s"), (.DocAttribEnd, []),
      (.OpenTag, codes "a"), (.TagAttribName, codes "b"), (.TagAttribValue, codes "1"), (.TagAttribName, codes "c"),
      (.TagAttribValue, codes "d"), (.Content, codes "x&" ++ [0x20AC] ++ codes "z"), (.OpenTag, codes "e"),
      (.CloseTagIm, []), (.CloseTag, codes "a"), (.Exit, [])] := by decide +kernel

end TW
