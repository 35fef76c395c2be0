import Verif.Proofs.RoundTrip
import Verif.Props.Printer
import Verif.Props.Grammar

/-!
# Property C32: print and scan round trip
-/

namespace TW

open Spec Mach Scanner

/-- Property C32 (all values are read back) does not hold for the codes above 0x7FFFFFFF with UTF-8 as output encoding,
see C39: the content 80 00 00 3C in UCS-4 is read back as 00 00 00 3C. It does not hold for NUL characters either, see C62:
a value ends at the first of them. -/
theorem C32_roundtrip_false :
    (session 60 false [(0xFFFFF, true), (0xFFFFF, true)] (oneScanner .utf8 (.ucs4 true) none 0
      (Printer.calls 1000 [.open_ [0, 0, 0, 97], .value [0x80, 0, 0, 60], .close]
        (Printer.new (fun _ => 0) (.ucs4 true) .utf8 true)).2.buf)).1 =
      .ok [⟨.OpenTag, [0, 0, 0, 97], .Ok, none⟩, ⟨.Content, [0, 0, 0, 60], .Ok, none⟩] ∧
    (session 60 false [(0xFFFFF, true), (0xFFFFF, true)] (oneScanner .utf8 .utf8 none 0
      (Printer.calls 1000 [.open_ [97], .value [98, 0, 99], .close]
        (Printer.new (fun _ => 0) .utf8 .utf8 true)).2.buf)).1 =
      .ok [⟨.OpenTag, [97], .Ok, none⟩, ⟨.Content, [98], .Ok, none⟩] := by
  decide +kernel

/-- The part of C32 that holds: a printer in a new state accepts all calls that print a document tree, and a scanner
of the output encoding reads what it printed as the items of the tree, without error: as many calls as there are items,
each with a mask that asks for all items, return them one after the other, with the characters printed in the encoding
`output`. Missing: see `C32_roundtrip_false`; and header and document type if the application encoding is not based on
ASCII (C60). -/
theorem C32_roundtrip_partial {app out output : Enc} {em : Option (List (Nat × UChar))} {addr : Nat} (mem : Nat → Byte) (ho : PageOk out)
    {t : Tree} (ht : t.Ok app out) {limit : Nat} (hn : 2 * nameNeed t.calls ≤ limit) (hl : limit < 2 ^ 63)
    {reads : List (Nat × Bool)} (hr : reads.length = (t.items app).length)
    (hm : ∀ x ∈ reads, ∀ i : ElementType, x.1.testBit i.toNat = true) :
    ∃ p N, Printer.calls limit t.calls (Printer.new mem app out t.header.isNone) = (.ok (List.replicate t.calls.length true), p) ∧
      ∀ n, N ≤ n → ∃ s, session n false reads (oneScanner out output em addr p.buf) =
        (.ok ((t.items app).map fun i => { type := i.1, item := i.2.flatMap output.print, error := .Ok, pos := none }), s) := by
  obtain ⟨p, h1, h2⟩ := C38_lifo mem app out t.header.isNone t.calls limit (tree_strings ht) hn hl
  have hd := tree_does ht
  unfold Does at hd
  rw [hd] at h1 h2
  obtain ⟨g1, g2⟩ := tree_document ho ht
  rw [← tree_items (app := app) (out := out)] at hr ⊢
  obtain ⟨N, h3⟩ := C66_document (output := output) (em := em) (addr := addr) ho g1 hr hm
  refine ⟨p, N, h1, fun n hn => ?_⟩
  rw [h2, ← g2]
  exact h3 n hn

/-- A string of characters of the application encoding comes back as the same bytes if the scanner has the
application encoding as output: the item of a string is this string. -/
theorem C32_string {app : Enc} (ha : PageOk app) {cs : List UChar} (hc : ∀ c ∈ cs, c ≠ 0 ∧ c < 2 ^ 32 ∧ Direct app c) :
    (decode app (cs.flatMap app.print)).flatMap app.print = cs.flatMap app.print := by
  rw [decode_print ha hc]

example : ∀ c ∈ codes "a<b" ++ [0x20AC], c ≠ 0 ∧ c < 2 ^ 32 ∧ Direct .utf8 c := by
  simp [codes, Direct]

/-- `<?xml version="1.0" encoding="UTF-8"?>␤<!DOCTYPE a SYSTEM "s"><a b="1&lt;"><c/>x&amp;<d>y</d></a>␤` -/
def treeExample : Tree where
  header := some (none, none)
  doctype := some ([97], some (none, [115]))
  name := [97]
  attrs := [([98], [49, 60])]
  kids := .elem [99] [] .nil (.text [120, 38] (.text [0xC3, 0xBC] (.elem [100] [] (.text [121] .nil) .nil)))

theorem treeExample_items : treeExample.items .utf8 =
    [(.HeaderStart, codes "?xml"), (.HeaderAttribName, codes "version"), (.HeaderAttribValue, codes "1.0"),
      (.HeaderAttribName, codes "encoding"), (.HeaderAttribValue, codes "UTF-8"), (.HeaderEnd, []),
      (.DocAttribValue, codes "DOCTYPE"), (.DocAttribValue, codes "a"), (.DocAttribValue, codes "SYSTEM"), (.DocAttribValue, codes "s"),
      (.DocAttribEnd, []), (.OpenTag, codes "a"), (.TagAttribName, codes "b"), (.TagAttribValue, codes "1<"), (.OpenTag, codes "c"),
      (.CloseTagIm, []), (.Content, codes "x&ü"), (.OpenTag, codes "d"), (.Content, codes "y"), (.CloseTag, codes "d"),
      (.CloseTag, codes "a"), (.Content, [10]), (.Exit, [])] := by
  decide +kernel

theorem treeExample_ok : treeExample.Ok .utf8 (.isolatin 5) := by
  have hs : ∀ {x : List Byte}, (∀ b ∈ x, b < 256) ∧ x.length + 16 ≤ 2 ^ 32 → StringOk x := id
  have hp : ∀ {c : UChar}, Printable (.isolatin 5) c := fun h => nomatch h
  have hn : ∀ {x : List Byte}, decode .utf8 x ≠ [] → (∀ c ∈ decode .utf8 x, c ≠ 38 ∧ (c < 128 → Kind.word.ends c = false)) →
      NameOk .utf8 (.isolatin 5) x := fun h1 h2 => ⟨h1, fun c hc => ⟨hp, h2 c hc⟩⟩
  refine ⟨⟨trivial, nofun, nofun⟩, ⟨trivial, hs (by decide), hn (by decide +kernel) (by decide +kernel), ?_⟩, hs (by decide),
    hn (by decide +kernel) (by decide +kernel), ?_, ⟨hs (by decide), hn (by decide +kernel) (by decide +kernel), nofun, trivial, ?_⟩, trivial⟩
  · intro x hx
    cases hx
    exact ⟨nofun, hs (by decide), fun c hc => ⟨hp, by revert c; decide +kernel⟩⟩
  · intro a ha
    rw [List.mem_singleton.1 ha]
    exact ⟨hs (by decide), hn (by decide +kernel) (by decide +kernel), hs (by decide), fun c hc => hp⟩
  · refine ⟨⟨hs (by decide), fun c hc => ⟨hp, by revert c; decide +kernel⟩⟩, ⟨hs (by decide), fun c hc => ⟨hp, by revert c; decide +kernel⟩⟩,
      hs (by decide), hn (by decide +kernel) (by decide +kernel), nofun, ?_, trivial⟩
    exact ⟨⟨hs (by decide), fun c hc => ⟨hp, by revert c; decide +kernel⟩⟩, trivial⟩

/-- The ü is not in the output encoding, Latin/Cyrillic; it is printed as reference. -/
example : ∃ p N, Printer.calls 1000 treeExample.calls (Printer.new (fun _ => 0) .utf8 (.isolatin 5) false) =
      (.ok (List.replicate treeExample.calls.length true), p) ∧
    ∀ n, N ≤ n → ∃ s, session n false (List.replicate 23 (0xFFFFF, true)) (oneScanner (.isolatin 5) .utf8 none 0 p.buf) =
      (.ok ((treeExample.items .utf8).map fun i => { type := i.1, item := i.2.flatMap Enc.utf8.print, error := .Ok, pos := none }), s) :=
  C32_roundtrip_partial (out := .isolatin 5) _ (fun p h => by cases h; decide) treeExample_ok (by decide) (by decide)
    (by rw [treeExample_items]; rfl) (by
      intro x hx t
      rw [(List.mem_replicate.1 hx).2]
      cases t <;> decide)

end TW
